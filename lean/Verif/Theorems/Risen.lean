import Verif.Theorems.PaintPage
import Verif.Theorems.Protected
/-
C73: every text after a raised one is raised, and C33: which objects make saving with protection crash.
-/
namespace Verif
open Spec

theorem riseAfter_const {f : FontState} {text : Bytes} {fs : Int} {fn} (hf : f.textrise = some fn) {v : ℚ} (hv : ∀ l r p, readNum (fn l r fs text p) = some v) :
    ∀ (rs : List Nat) (rise : Option (Bytes × List Lexeme)) (left pos : Nat), rs ≠ [] → riseAfter f text fs rise left pos rs = some (b!"Ts", [.num v])
  | [], _, _, _, h => absurd rfl h
  | [r], rise, left, pos, _ => by simp [riseAfter, riseOf, hf, hv]
  | r :: r' :: t, rise, left, pos, _ => by
    rw [riseAfter]
    exact riseAfter_const hf hv (r' :: t) _ _ _ (by simp)

theorem hex4_some (g : Nat) : hex4 g ≠ [] := by
  intro e
  have := congrArg List.length e
  unfold hex4 at this
  simp only [List.length_append, List.length_replicate, List.length_nil] at this
  omega

theorem textItems_rise {f : FontState} {text : Bytes} {fs : Int} (hf : f.textrise = none) (rise : Option (Bytes × List Lexeme)) :
    ∀ (l : List (Nat × Nat)) (left leftIdx pos : Nat), (∀ c r, Item.digit c r ∈ textItems f text fs rise left leftIdx pos l → r = rise) ∧
      (l ≠ [] → ∃ c, Item.digit c rise ∈ textItems f text fs rise left leftIdx pos l)
  | [], _, _, _ => by simp [textItems]
  | (r, g) :: t, left, leftIdx, pos => by
    have hr : riseOf f text fs rise left r pos = rise := by simp [riseOf, hf]
    have ih := textItems_rise (text := text) (fs := fs) hf rise t r g (pos + 1)
    constructor
    · intro c q hq
      rw [textItems, hr] at hq
      simp only [List.mem_append, List.mem_map] at hq
      rcases hq with (hq | ⟨_, _, hq⟩) | hq
      · split at hq <;> simp at hq
      · cases hq; rfl
      · exact ih.1 c q hq
    · intro _
      rw [textItems, hr]
      obtain ⟨c, hc⟩ : ∃ c, c ∈ hex4 g := by
        cases e : hex4 g with
        | nil => exact absurd e (hex4_some g)
        | cons c t => exact ⟨c, by simp⟩
      exact ⟨c, by simp only [List.mem_append, List.mem_map]; exact Or.inl (Or.inr ⟨c, hc, rfl⟩)⟩

/-- **C73 is violated** by every text in a font without an override of the text rise that is drawn after a text in a font whose override raises its characters by `v`,
in whatever state the page is: all its characters are raised by `v`, too. -/
theorem C73_refuted_all (adv : TextMove) {p : Painter} (hp : Idle p) {c d : TextContent} {f g : FontState} {i j m n : Int} {s t : Bytes} (hr : RiseNumbers f c.text c.fontSize)
    (h0 : 0 < f.ttf.unitsPerEm) (hs : (createContent f c.text c.fontSize).2 = .ok m) (hu : c.fontStyle &&& 4 = 4 → 0 ≤ ((f.ttf.underlineThickness : ℚ) / f.ttf.unitsPerEm) * c.fontSize)
    (h : c.stream f i = .ok s) (g0 : 0 < g.ttf.unitsPerEm) (gs : (createContent g d.text d.fontSize).2 = .ok n)
    (gu : d.fontStyle &&& 4 = 4 → 0 ≤ ((g.ttf.underlineThickness : ℚ) / g.ttf.unitsPerEm) * d.fontSize) (h' : d.stream g j = .ok t)
    {fn : Nat → Nat → Int → Bytes → Nat → Bytes} (hf : f.textrise = some fn) {v : ℚ} (hv : ∀ l r q, readNum (fn l r c.fontSize c.text q) = some v) (hc : runes c.text ≠ [])
    (hg : g.textrise = none) :
    ∃ ms1 p1 ts rest p2, Paints adv p s ms1 p1 ∧ Paints adv p1 t (ts ++ rest) p2 ∧ (∀ x r, Item.digit x r ∈ items ts → r = some (b!"Ts", [.num v])) ∧
      (runes d.text ≠ [] → ∃ x, Item.digit x (some (b!"Ts", [.num v])) ∈ items ts) := by
  obtain ⟨ms1, p1, a1, a2, a3, x1, y1, gs1, _, a4, a5, a6⟩ := C70_text adv hp hr h0 hs hu h
  obtain ⟨ms2, p2, b1, b2, b3, x2, y2, gs2, _, b4, b5, b6⟩ := C70_text adv a2 (fun fn e => by rw [hg] at e; cases e) g0 gs gu h'
  obtain ⟨k, x', y', ts, us, es, rfl, _, _, _, _, _, _, e, _, _, _⟩ := b6.parts
  rw [riseAfter_const hf hv _ _ _ _ hc] at a5
  rw [a5] at e
  have := textItems_rise (text := d.text) (fs := d.fontSize) hg (some (b!"Ts", [.num v])) ((runes d.text).zip gs2) 0 0 0
  rw [List.append_assoc] at b1
  refine ⟨ms1, p1, ts, us ++ es, p2, a1, b1, ?_, ?_⟩
  · rw [e]
    exact this.1
  · intro hd
    rw [e]
    refine this.2 ?_
    have hl := b4.length_eq
    intro e0
    have := congrArg List.length e0
    rw [List.length_zip, ← hl, Nat.min_self] at this
    exact hd (List.length_eq_zero_iff.1 this)

/-- a raised text and one that should not be raised -/
example : ∃ s t, (contentText none).stream raisedFont 1 = .ok s ∧ (contentText none).stream contentFont 2 = .ok t ∧ Idle {} ∧ RiseNumbers raisedFont (contentText none).text (contentText none).fontSize ∧
    0 < raisedFont.ttf.unitsPerEm ∧ (createContent raisedFont (contentText none).text (contentText none).fontSize).2 = .ok 500 ∧
    (createContent contentFont (contentText none).text (contentText none).fontSize).2 = .ok 500 ∧ (∃ fn, raisedFont.textrise = some fn ∧ ∀ l r q, readNum (fn l r 10 b!"A" q) = some 5) ∧
    runes (contentText none).text ≠ [] ∧ contentFont.textrise = none :=
  ⟨_, _, rfl, rfl, ⟨rfl, rfl, rfl⟩, fun fn h l r p => ⟨5, by simp only [raisedFont, Option.some.injEq] at h; rw [← h]⟩, by decide, by decide +kernel, by decide +kernel,
    ⟨_, rfl, fun _ _ _ => by decide +kernel⟩, by decide, rfl⟩

/-! ### C33 -/

/-- **C33 is violated** by every object with the word stream and without the word endstream, which need not have a stream: saving with protection crashes, whatever the
key and the number. -/
theorem C33_refuted_all (md5 : Bytes → Bytes) (key : Bytes) (objID : Int) {data : Bytes} (h1 : b!"stream" <:+: data) (h2 : ¬ b!"endstream" <:+: data) : encrypt md5 key objID data = .panic := by
  have i1 : index b!"stream" data ≠ none := by
    intro e
    exact (index_none_iff (by simp)).1 e h1
  unfold encrypt
  cases e : index b!"stream" data with
  | none => exact absurd e i1
  | some i =>
    have : lastIndex b!"endstream" data = none := lastIndex_none_iff.2 h2
    simp [this]

example : b!"stream" <:+: b!"<< /Title (Upstream) >>" ∧ ¬ b!"endstream" <:+: b!"<< /Title (Upstream) >>" := by decide

end Verif
