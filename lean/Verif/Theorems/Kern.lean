import Verif.Theorems.Font
/-!
# The width of kerned text (C63)

The width used to align a text is compared with the advance a reader computes from the operators: the widths of the shown glyphs minus the numbers in
the arrays of `TJ` (ISO 32000-1, 9.4.3).
-/
namespace Verif
open Spec

/-- reader of `TJ` arrays: where it is (outside arrays, in an array, in a string), the number being read and the numbers read -/
structure Spec.TJ where
  mode : Nat
  tok : Bytes
  toks : List Bytes

/-- one byte -/
def Spec.TJ.step (s : TJ) (c : UInt8) : TJ :=
  let done := if s.tok = [] then s.toks else s.toks ++ [s.tok]
  if s.mode = 0 then (if c = 91 then ⟨1, [], s.toks⟩ else s)
  else if s.mode = 1 then (if c = 60 then ⟨2, [], done⟩ else if c = 93 then ⟨0, [], done⟩ else ⟨1, s.tok ++ [c], s.toks⟩)
  else (if c = 62 then ⟨1, [], s.toks⟩ else s)

/-- the number texts in the arrays -/
def Spec.adjustTexts (content : Bytes) : List Bytes := (content.foldl TJ.step ⟨0, [], []⟩).toks

/-- value of a number text -/
def Spec.intOf : Bytes → Option Int
  | 45 :: t => (parseNat t).map (fun n : Nat => -(n : Int))
  | t => (parseNat t).map (fun n : Nat => (n : Int))

/-- the advance (in 1/1000 of the font size) of the operators: widths of the glyphs shown minus the adjustments -/
def Spec.Advance (t : Ttf) (content : Bytes) (s : Int) : Prop :=
  ∃ gs ws adj, shownGlyphs content = some gs ∧ List.Forall₂ (fun g w => glyphWidth t g = .ok w) gs ws ∧
    List.Forall₂ (fun x n => intOf x = some n) (adjustTexts content) adj ∧ s = ((ws.sum : Nat) : Int) - adj.sum

theorem intOf_itoa (n : Int) : intOf (itoa n) = some n := by
  cases n with
  | ofNat n =>
    rw [itoa_ofNat]
    have hp := parseNat_natDigits n
    have hd := natDigits_isDigit n
    cases hn : natDigits n with
    | nil => exact absurd hn (natDigits_ne_nil n)
    | cons c t =>
      have hc : c ≠ 45 := by
        intro e
        have := hd c (by rw [hn]; simp)
        rw [e] at this
        exact absurd this (by decide)
      rw [hn] at hp
      unfold intOf
      split
      · rename_i heq; injection heq with h1 _; exact absurd h1 hc
      · rw [hp]; rfl
  | negSucc n =>
    simp only [itoa, intOf, parseNat_natDigits, Option.map_some]
    congr 1

theorem tj_out {s : Bytes} (h : ∀ c ∈ s, c ≠ 91) (toks : List Bytes) : s.foldl TJ.step ⟨0, [], toks⟩ = ⟨0, [], toks⟩ := by
  induction s with
  | nil => rfl
  | cons c s ih =>
    rw [List.foldl_cons]
    have : TJ.step ⟨0, [], toks⟩ c = ⟨0, [], toks⟩ := by simp [TJ.step, h c (by simp)]
    rw [this]
    exact ih (fun x hx => h x (by simp [hx]))

theorem tj_str {s : Bytes} (h : NoAngle s) (toks : List Bytes) : s.foldl TJ.step ⟨2, [], toks⟩ = ⟨2, [], toks⟩ := by
  induction s with
  | nil => rfl
  | cons c s ih =>
    rw [List.foldl_cons]
    have : TJ.step ⟨2, [], toks⟩ c = ⟨2, [], toks⟩ := by simp [TJ.step, (h c (by simp)).2]
    rw [this]
    exact ih (fun x hx => h x (by simp [hx]))

theorem tj_num {s : Bytes} (h : ∀ c ∈ s, c ≠ 60 ∧ c ≠ 93) (toks : List Bytes) : ∀ tok, s.foldl TJ.step ⟨1, tok, toks⟩ = ⟨1, tok ++ s, toks⟩ := by
  induction s with
  | nil => intro tok; simp
  | cons c s ih =>
    intro tok
    rw [List.foldl_cons]
    have : TJ.step ⟨1, tok, toks⟩ c = ⟨1, tok ++ [c], toks⟩ := by simp [TJ.step, h c (by simp)]
    rw [this, ih (fun x hx => h x (by simp [hx]))]
    simp

/-- an open string after these numbers -/
def InStr (out : Bytes) (toks : List Bytes) : Prop := out.foldl TJ.step ⟨0, [], []⟩ = ⟨2, [], toks⟩

theorem InStr.number {out : Bytes} {toks : List Bytes} (h : InStr out toks) (n : Int) : InStr (out ++ b!">" ++ itoa n ++ b!"<") (toks ++ [itoa n]) := by
  unfold InStr at *
  rw [List.foldl_append, List.foldl_append, List.foldl_append, h]
  have h1 : (b!">").foldl TJ.step ⟨2, [], toks⟩ = ⟨1, [], toks⟩ := rfl
  have hn : ∀ c ∈ itoa n, c ≠ 60 ∧ c ≠ 93 := by
    intro c hc
    rcases itoa_bytes n c hc with h | h
    · constructor <;> (rintro rfl; exact absurd h (by decide))
    · subst h; decide
  rw [h1, tj_num hn]
  simp [TJ.step, itoa_ne_nil]

theorem InStr.rise {out : Bytes} {toks : List Bytes} (h : InStr out toks) {s : Bytes} (hs : ∀ c ∈ s, c ≠ 91) :
    InStr (out ++ b!">] TJ\n" ++ s ++ b!" Ts\n" ++ b!"[<") toks := by
  unfold InStr at *
  rw [List.foldl_append, List.foldl_append, List.foldl_append, List.foldl_append, h]
  have h1 : (b!">] TJ\n").foldl TJ.step ⟨2, [], toks⟩ = ⟨0, [], toks⟩ := rfl
  rw [h1, tj_out hs]
  rfl

theorem InStr.hex {out : Bytes} {toks : List Bytes} (h : InStr out toks) (g : Nat) : InStr (out ++ hex4 g) toks := by
  unfold InStr at *
  rw [List.foldl_append, h, tj_str (hex4_range g)]

theorem ccLoop_advance {f : FontState} (text : Bytes) (fs : Int) (hr : ∀ fn, f.textrise = some fn → ∀ l r p, ∀ c ∈ fn l r fs text p, c ≠ 91)
    (rs : List Nat) : ∀ (st st' : CCState) (toks : List Bytes), InStr st.out toks → ccLoop f text fs st rs = (st', .ok ()) →
      ∃ (ws : List Nat) (adj : List Int), List.Forall₂ (fun r w => charWidth f.ttf f.chars r = .ok w) rs ws ∧
        InStr st'.out (toks ++ adj.map itoa) ∧ st'.sum = st.sum + (ws.sum : Nat) - adj.sum := by
  induction rs with
  | nil =>
    intro st st' toks ho hl
    rw [ccLoop] at hl
    simp at hl
    subst hl
    exact ⟨[], [], .nil, by simpa using ho, by simp⟩
  | cons r rs ih =>
    intro st st' toks ho hl
    rw [ccLoop] at hl
    split at hl
    · rename_i g hg
      simp only at hl
      split at hl
      · rename_i pv hpv
        have ho1 : ∃ a : List Int, InStr (if pv ≠ 0 then st.out ++ b!">" ++ itoa (-1 * pv) ++ b!"<" else st.out) (toks ++ a.map itoa) ∧ a.sum = -pv := by
          split
          · exact ⟨[-1 * pv], ho.number _, by simp⟩
          · rename_i hz
            have hz : pv = 0 := by simpa using hz
            exact ⟨[], by simpa using ho, by simp [hz]⟩
        obtain ⟨a, ho1, ha⟩ := ho1
        have ho2 : InStr (match f.textrise with
          | some fn => (if pv ≠ 0 then st.out ++ b!">" ++ itoa (-1 * pv) ++ b!"<" else st.out) ++ b!">] TJ\n" ++ fn st.left r fs text st.pos ++ b!" Ts\n" ++ b!"[<"
          | none => (if pv ≠ 0 then st.out ++ b!">" ++ itoa (-1 * pv) ++ b!"<" else st.out)) (toks ++ a.map itoa) := by
          cases htr : f.textrise with
          | none => exact ho1
          | some fn => exact ho1.rise (hr fn htr _ _ _)
        split at hl
        · rename_i w hw
          obtain ⟨ws, adj, h1, h2, h3⟩ := ih _ st' _ (ho2.hex g) hl
          refine ⟨w :: ws, a ++ adj, .cons hw h1, ?_, ?_⟩
          · simpa [List.append_assoc] using h2
          · rw [h3, List.sum_append, ha, List.sum_cons]
            push_cast
            ring
        all_goals simp at hl
      all_goals simp at hl
    all_goals simp at hl

/-- **C63.** With any kerning: the width used for a text is the advance of the operators written for it (the text rise override prints numbers, which
have no brackets). -/
theorem C63_width_is_advance {f : FontState} (h : FontOK f.ttf f.chars) (text : Bytes) (fs : Int)
    (hr : ∀ fn, f.textrise = some fn → ∀ l r p, NoAngle (fn l r fs text p) ∧ ∀ c ∈ fn l r fs text p, c ≠ 91)
    (hb : ∀ r g, charToGlyph f.ttf r = .ok g → g < 65536) {s : Int} (hs : (createContent f text fs).2 = .ok s) :
    Advance f.ttf (createContent f text fs).1 s := by
  obtain ⟨gs, hg1, hg2⟩ := C26_drawn_glyphs h text fs (fun fn hf l r p => (hr fn hf l r p).1) hb hs
  unfold createContent at hs
  cases hc : ccLoop f text fs { out := b!"[<" } (runes text) with
  | mk st res =>
    rw [hc] at hs
    cases res with
    | ok u =>
      simp only [Res.ok.injEq] at hs
      obtain ⟨ws, adj, h1, h2, h3⟩ := ccLoop_advance text fs (fun fn hf l r p => (hr fn hf l r p).2) (runes text) { out := b!"[<" } st [] rfl hc
      refine ⟨gs, ws, adj, hg1, ?_, ?_, ?_⟩
      · have hw := widths_of_ok h h1
        clear h1 h2 h3 hc hg1
        generalize runes text = rs at hg2 hw
        induction hg2 generalizing ws with
        | nil => cases hw; exact .nil
        | cons a _ ih =>
          cases hw with
          | cons b hb' =>
            refine .cons ?_ (ih _ hb')
            unfold runeWidth at b
            rw [a] at b
            exact b
      · have : adjustTexts (createContent f text fs).1 = adj.map itoa := by
          unfold adjustTexts createContent
          rw [hc]
          simp only
          rw [List.foldl_append, h2]
          rfl
        rw [this]
        clear h3 h2 this
        induction adj with
        | nil => exact .nil
        | cons n adj ih => exact .cons (intOf_itoa n) ih
      · rw [← hs, h3]
        push_cast
        ring
    | _ => simp at hs

/-- the sample font with a kerning override: 100 units closer before every B -/
def kernedFont : FontState :=
  { ttf := sampleFont, chars := { keys := [65, 66], vals := [2, 3] }, kernOverride := some (fun _ r _ _ _ => if r = 66 then -100 else 0) }

example : FontOK kernedFont.ttf kernedFont.chars ∧ (createContent kernedFont b!"ABAB" 12).2 = .ok 2504 ∧
    adjustTexts (createContent kernedFont b!"ABAB" 12).1 = [b!"48", b!"48"] := by
  refine ⟨⟨by decide, by decide, by decide⟩, by decide +kernel, by decide +kernel⟩

end Verif
