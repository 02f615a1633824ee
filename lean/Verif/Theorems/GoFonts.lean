import Verif.Theorems.GoFontObj
import Verif.Theorems.Wrap
/-!
# Resources, fonts and images of sessions of GoPdf (C88)
-/
namespace Verif
open Spec

/-! ### what a session keeps -/

/-- the images in the resources -/
def Gp.xobjs (g : Gp) : List Nat :=
  match (g.slots[2]?).map GSlot.obj with
  | some (.procset _ xs) => xs
  | _ => []

theorem relates_of {g : Gp} {fs : List GRelate} {xs : List Nat} {b : Bytes} (h : g.slots[2]? = some ⟨.procset fs xs, b⟩) : g.relates = fs ∧ g.xobjs = xs := by
  unfold Gp.relates Gp.xobjs
  rw [h]
  exact ⟨rfl, rfl⟩

theorem Laid.second {slots : List GSlot} (h : Laid slots) : ∃ fs xs, slots[2]? = some ⟨.procset fs xs, []⟩ ∧ 3 ≤ slots.length := by
  obtain ⟨fs, xs, rest, rfl, _⟩ := h
  exact ⟨fs, xs, rfl, by simp⟩

/-- objects that do not change any more -/
def GObj.steady : GObj → Bool
  | .content _ _ => false
  | .procset _ _ => false
  | _ => true

/-- what does not change stays where it is -/
def SlotsKept (l m : List GSlot) : Prop := ∀ (k : Nat) (s : GSlot), l[k]? = some s → s.obj.steady = true → m[k]? = some s

theorem SlotsKept.refl (l : List GSlot) : SlotsKept l l := fun _ _ h _ => h

theorem SlotsKept.trans {l m n : List GSlot} (h : SlotsKept l m) (h' : SlotsKept m n) : SlotsKept l n := fun k s hk hs => h' k s (h k s hk hs) hs

theorem SlotsKept.append (l m : List GSlot) : SlotsKept l (l ++ m) := fun k s h _ => by
  rw [List.getElem?_append_left (List.getElem?_eq_some_iff.1 h).1]
  exact h

theorem SlotsKept.modify {l m : List GSlot} (h : SlotsKept l m) (i : Nat) (f : GSlot → GSlot) (hf : ∀ s, s.obj.steady = true → f s = s) : SlotsKept l (m.modify i f) := fun k s hk hs => by
  rw [List.getElem?_modify, h k s hk hs]
  by_cases e : i = k
  · simp [e, hf s hs]
  · simp [e]

theorem SlotsKept.beyond {l m : List GSlot} (h : SlotsKept l m) (i : Nat) (f : GSlot → GSlot) (hi : l.length ≤ i) : SlotsKept l (m.modify i f) := fun k s hk hs => by
  have := (List.getElem?_eq_some_iff.1 hk).1
  rw [List.getElem?_modify, h k s hk hs]
  simp only [if_neg (show i ≠ k by omega)]
  rfl

theorem caches_steady (f : List GCache → List GCache) (s : GSlot) (h : s.obj.steady = true) : GSlot.mapCaches f s = s := by
  unfold GSlot.mapCaches
  split
  · rename_i e; rw [e] at h; simp [GObj.steady] at h
  · rfl

theorem procset_steady (f : List GRelate → List Nat → List GRelate × List Nat) (s : GSlot) (h : s.obj.steady = true) : GSlot.mapProcset f s = s := by
  unfold GSlot.mapProcset
  split
  · rename_i e; rw [e] at h; simp [GObj.steady] at h
  · rfl

theorem put_keeps (g : Gp) (f : List GCache → List GCache) : SlotsKept g.slots (g.put f).slots := by
  unfold Gp.put Gp.getContent
  cases g.contentIdx with
  | none => exact (SlotsKept.append _ _).modify _ _ (caches_steady f)
  | some i => exact (SlotsKept.refl _).modify _ _ (caches_steady f)

theorem put_second {g : Gp} {fs : List GRelate} {xs : List Nat} {b : Bytes} (h : g.slots[2]? = some ⟨.procset fs xs, b⟩) (f : List GCache → List GCache) :
    (g.put f).slots[2]? = some ⟨.procset fs xs, b⟩ := by
  have key : ∀ (l : List GSlot) (i : Nat), l[2]? = some ⟨.procset fs xs, b⟩ → (l.modify i (GSlot.mapCaches f))[2]? = some ⟨.procset fs xs, b⟩ := by
    intro l i hl
    rw [List.getElem?_modify, hl]
    by_cases e : i = 2 <;> simp [e, GSlot.mapCaches]
  unfold Gp.put Gp.getContent
  cases g.contentIdx with
  | none =>
    refine key _ _ ?_
    unfold Gp.addObj
    simp only
    rw [List.getElem?_append_left (List.getElem?_eq_some_iff.1 h).1]
    exact h
  | some i => exact key _ _ h

/-- a font as it was, perhaps with more characters -/
structure GrownFont (F F' : GFont) : Prop where
  ttf : F'.ttf = F.ttf
  family : F'.family = F.family
  style : F'.style = F.style
  count : F'.count = F.count
  cid : F'.cid = F.cid
  unicode : F'.unicode = F.unicode
  kerning : F'.kerning = F.kerning
  chars : ∀ k ∈ F.chars.keys, k ∈ F'.chars.keys
  ok : FontOK F.ttf F.chars → FontOK F'.ttf F'.chars

theorem GrownFont.refl (F : GFont) : GrownFont F F := ⟨rfl, rfl, rfl, rfl, rfl, rfl, rfl, fun _ h => h, id⟩

theorem forall2_refl {α : Type} {R : α → α → Prop} (h : ∀ a, R a a) : ∀ l : List α, List.Forall₂ R l l
  | [] => .nil
  | a :: l => .cons (h a) (forall2_refl h l)

theorem grown_modify {l : List GFont} {i : Nat} {fn : GFont → GFont} (h : ∀ F, l[i]? = some F → GrownFont F (fn F)) : List.Forall₂ GrownFont l (l.modify i fn) := by
  rw [List.forall₂_iff_get]
  refine ⟨by simp, fun k h1 h2 => ?_⟩
  simp only [List.get_eq_getElem, List.getElem_modify]
  split
  · rename_i e
    subst e
    exact h _ (List.getElem?_eq_getElem h1)
  · exact GrownFont.refl _

theorem fonts_fwd {α β : Type} {R : α → β → Prop} {l : List α} {m : List β} (h : List.Forall₂ R l m) {k : Nat} {a : α} (ha : l[k]? = some a) : ∃ b, m[k]? = some b ∧ R a b := by
  obtain ⟨hk, e⟩ := List.getElem?_eq_some_iff.1 ha
  have hl := h.length_eq
  refine ⟨m[k]'(hl ▸ hk), List.getElem?_eq_getElem _, ?_⟩
  have := (List.forall₂_iff_get.1 h).2 k hk (hl ▸ hk)
  simpa [e] using this

theorem fonts_back {α β : Type} {R : α → β → Prop} {l : List α} {m : List β} (h : List.Forall₂ R l m) {k : Nat} {b : β} (hb : m[k]? = some b) : ∃ a, l[k]? = some a ∧ R a b := by
  obtain ⟨a, h1, h2⟩ := fonts_fwd h.flip hb
  exact ⟨a, h1, h2⟩

/-- the image at position `n` is that of this file -/
def Pictured (env : GEnv) (slots : List GSlot) (file : Bytes) (n : Nat) : Prop :=
  ∃ i i', parseImg env.toImgEnv file = .ok i ∧ slots[n]? = some ⟨.image i', []⟩ ∧ (createSMask i = none → i.colspace ≠ b!"Indexed" → i' = i) ∧
    (i.colspace = b!"Indexed" → ∃ (m : Nat) (d : Bytes), slots[m]? = some ⟨.rgb d, []⟩)

theorem Pictured.keeps {env : GEnv} {l m : List GSlot} (h : SlotsKept l m) {file : Bytes} {n : Nat} (hp : Pictured env l file n) : Pictured env m file n := by
  obtain ⟨i, i', h1, h2, h3, h4⟩ := hp
  refine ⟨i, i', h1, h _ _ h2 rfl, h3, fun e => ?_⟩
  obtain ⟨k, d, hk⟩ := h4 e
  exact ⟨k, d, h _ _ hk rfl⟩

theorem FontSlots.keeps {l m : List GSlot} (h : SlotsKept l m) {i u : Nat} (hs : FontSlots l i u) : FontSlots m i u := by
  obtain ⟨h0, h1, h2, h3, h4⟩ := hs
  exact ⟨h _ _ h0 rfl, h _ _ h1 rfl, h _ _ h2 rfl, h _ _ h3 rfl, h _ _ h4 rfl⟩

/-- the entry of a font in the resources -/
def Named (g : Gp) (F : GFont) : Prop := ∃ r : GRelate, g.relates[F.count]? = some r ∧ r.obj = F.unicode + 4

structure Stocked (env : GEnv) (g : Gp) (as : List Added) (ch : Option (Bytes × Nat)) (ps : List (Bytes × Bytes)) : Prop where
  fonts : List.Forall₂ (fun a F => parseTtfKern a.kerning a.file = .ok F.ttf ∧ F.family = a.family ∧ F.style = a.style ∧ F.kerning = a.kerning) as g.fonts
  count : g.countFont = g.relates.length
  counts : ∀ (k : Nat) (r : GRelate), g.relates[k]? = some r → r.count = k
  known : ∀ r ∈ g.relates, ∃ (j : Nat) (F : GFont), g.fonts[j]? = some F ∧ F.family = r.family ∧ F.style = r.style
  slots : ∀ (i : Nat) (F : GFont), g.fonts[i]? = some F → FontOK F.ttf F.chars ∧ F.cid = F.unicode + 3 ∧ FontSlots g.slots i F.unicode
  named : ∀ (i : Nat) (F : GFont), g.fonts[i]? = some F → Named g F ∨ ∃ (j : Nat) (E : GFont), j < i ∧ g.fonts[j]? = some E ∧ E.family = F.family ∧ E.style = F.style
  cur : ∀ i, g.font = some i → ∃ F : GFont, g.fonts[i]? = some F ∧ g.fontCount = F.count ∧ Named g F
  choice : ∀ p, ch = some p → ∃ i, g.font = some i ∧ meantFont as p = some i
  free : ch = none → g.font = none
  imgs : List.Forall₂ (fun p n => Pictured env g.slots p.2 n) ps g.xobjs
  ids : g.imgCaches.map (·.1) = ps.map (·.1)

theorem start_stocked (env : GEnv) (z : GRect) : Stocked env (Gp.start z none) [] none [] := by
  have e := relates_of (g := Gp.start z none) (fs := []) (xs := []) (b := []) rfl
  refine ⟨.nil, ?_, ?_, ?_, ?_, ?_, ?_, ?_, ?_, ?_, rfl⟩
  · rw [e.1]; rfl
  · rw [e.1]; simp
  · rw [e.1]; simp
  · simp [Gp.start]
  · simp [Gp.start]
  · simp [Gp.start]
  · simp
  · intro _; rfl
  · rw [e.2]; exact .nil

/-- nothing is added -/
theorem Stocked.same {env : GEnv} {g h : Gp} {as : List Added} {ch : Option (Bytes × Nat)} {ps : List (Bytes × Bytes)} (hs : Stocked env g as ch ps) (hk : SlotsKept g.slots h.slots)
    (h2 : h.slots[2]? = g.slots[2]?) (hf : List.Forall₂ GrownFont g.fonts h.fonts) (hc : h.countFont = g.countFont) (h3 : h.font = g.font) (h4 : h.fontCount = g.fontCount)
    (hi : h.imgCaches = g.imgCaches) : Stocked env h as ch ps := by
  have hr : h.relates = g.relates := by unfold Gp.relates; rw [h2]
  have hx : h.xobjs = g.xobjs := by unfold Gp.xobjs; rw [h2]
  have hn : ∀ {F F' : GFont}, GrownFont F F' → Named g F → Named h F' := by
    rintro F F' e ⟨r, r1, r2⟩
    exact ⟨r, by rw [hr, e.count]; exact r1, by rw [e.unicode]; exact r2⟩
  refine ⟨?_, by rw [hc, hr]; exact hs.count, by rw [hr]; exact hs.counts, ?_, ?_, ?_, ?_, by rw [h3]; exact hs.choice, by rw [h3]; exact hs.free, ?_, by rw [hi]; exact hs.ids⟩
  · have := hs.fonts
    rw [List.forall₂_iff_get] at this hf ⊢
    refine ⟨this.1.trans hf.1, fun k k1 k2 => ?_⟩
    have a := this.2 k k1 (this.1 ▸ k1)
    have b := hf.2 k (this.1 ▸ k1) k2
    exact ⟨by rw [b.ttf]; exact a.1, by rw [b.family]; exact a.2.1, by rw [b.style]; exact a.2.2.1, by rw [b.kerning]; exact a.2.2.2⟩
  · intro r hrm
    rw [hr] at hrm
    obtain ⟨j, F, f1, f2, f3⟩ := hs.known r hrm
    obtain ⟨F', e1, e2⟩ := fonts_fwd hf f1
    exact ⟨j, F', e1, by rw [e2.family]; exact f2, by rw [e2.style]; exact f3⟩
  · intro i F' hF'
    obtain ⟨F, e1, e2⟩ := fonts_back hf hF'
    obtain ⟨a1, a2, a3⟩ := hs.slots i F e1
    exact ⟨e2.ok a1, by rw [e2.cid, e2.unicode]; exact a2, by rw [e2.unicode]; exact a3.keeps hk⟩
  · intro i F' hF'
    obtain ⟨F, e1, e2⟩ := fonts_back hf hF'
    rcases hs.named i F e1 with h | ⟨j, E, j1, j2, j3, j4⟩
    · exact Or.inl (hn e2 h)
    · obtain ⟨E', e3, e4⟩ := fonts_fwd hf j2
      exact Or.inr ⟨j, E', j1, e3, by rw [e4.family, e2.family]; exact j3, by rw [e4.style, e2.style]; exact j4⟩
  · intro i hi
    rw [h3] at hi
    obtain ⟨F, f1, f2, f3⟩ := hs.cur i hi
    obtain ⟨F', e1, e2⟩ := fonts_fwd hf f1
    exact ⟨F', e1, by rw [h4, e2.count]; exact f2, hn e2 f3⟩
  · rw [hx]
    exact hs.imgs.imp (fun p n h => h.keeps hk)

theorem plainStyle_iff {a s : Nat} (ha : a &&& 4 ≠ 4) : a = plainStyle s ↔ sameStyle a s = true := by
  unfold plainStyle sameStyle
  by_cases hs : s &&& 4 = 4
  · have h4 : 4 ≤ s := by
      by_contra hlt
      have : s = 0 ∨ s = 1 ∨ s = 2 ∨ s = 3 := by omega
      rcases this with rfl | rfl | rfl | rfl <;> simp at hs
    simp only [hs, if_true, decide_true, Bool.true_and, Bool.or_eq_true, decide_eq_true_eq]
    constructor
    · intro e; right; omega
    · rintro (rfl | e)
      · exact absurd hs ha
      · omega
  · simp [if_neg hs, hs]

theorem findIdx_congr {α β : Type} {R : α → β → Prop} {p : α → Bool} {q : β → Bool} (hpq : ∀ a b, R a b → p a = q b) : ∀ {l : List α} {m : List β}, List.Forall₂ R l m →
    l.findIdx? p = m.findIdx? q
  | [], _, .nil => rfl
  | a :: l, b :: m, .cons h t => by
    rw [List.findIdx?_cons, List.findIdx?_cons, hpq a b h, findIdx_congr hpq t]

theorem Stocked.setFont {env : GEnv} {g : Gp} {as : List Added} {ch : Option (Bytes × Nat)} {ps : List (Bytes × Bytes)} (hs : Stocked env g as ch ps) (hu : ∀ a ∈ as, a.style &&& 4 ≠ 4)
    {family : Bytes} {style : Nat} {size : Int} (h : (g.setFont family style size).res = .ok ()) : Stocked env (g.setFont family style size).state as (some (family, style)) ps := by
  unfold Gp.setFont at h ⊢
  split at h
  · rename_i i hi
    simp only [hi]
    have hm : meantFont as (family, style) = some i := by
      unfold meantFont
      rw [← hi]
      refine findIdx_congr (R := fun a F => (parseTtfKern a.kerning a.file = .ok F.ttf ∧ F.family = a.family ∧ F.style = a.style ∧ F.kerning = a.kerning) ∧ a.style &&& 4 ≠ 4) ?_ ?_
      · rintro a F ⟨⟨_, e1, e2, _⟩, e3⟩
        rw [e1, e2]
        simp only [plainStyle_iff e3]
        by_cases ha : a.family = family <;> simp [ha]
      · have := hs.fonts
        rw [List.forall₂_iff_get] at this ⊢
        exact ⟨this.1, fun k k1 k2 => ⟨this.2 k k1 k2, hu _ (List.get_mem _ _)⟩⟩
    rw [List.findIdx?_eq_some_iff_getElem] at hi
    obtain ⟨hlt, hp, hbefore⟩ := hi
    have hF : g.fonts[i]? = some g.fonts[i] := List.getElem?_eq_getElem hlt
    have hnm : Named g g.fonts[i] := by
      rcases hs.named i _ hF with h | ⟨j, E, j1, j2, j3, j4⟩
      · exact h
      · exfalso
        have := hbefore j j1
        obtain ⟨hj, e⟩ := List.getElem?_eq_some_iff.1 j2
        simp only [e, j3, j4] at this
        exact this hp
    refine ⟨hs.fonts, hs.count, hs.counts, hs.known, hs.slots, hs.named, ?_, ?_, by simp, hs.imgs, hs.ids⟩
    · intro k hk
      simp only [Option.some.injEq] at hk
      subst hk
      refine ⟨_, hF, ?_, hnm⟩
      simp [hF]
    · intro p hp
      simp only [Option.some.injEq] at hp
      subst hp
      exact ⟨i, rfl, hm⟩
  · simp at h

theorem get_snoc {α : Type} {l : List α} {a : α} {k : Nat} {x : α} (h : (l ++ [a])[k]? = some x) : l[k]? = some x ∨ k = l.length ∧ x = a := by
  rcases Nat.lt_trichotomy k l.length with e | e | e
  · left; rwa [List.getElem?_append_left e] at h
  · right; subst e; simp at h; exact ⟨rfl, h.symm⟩
  · rw [List.getElem?_eq_none (by simp; omega)] at h; simp at h

theorem snoc_get {α : Type} {l : List α} (m : List α) {k : Nat} {x : α} (h : l[k]? = some x) : (l ++ m)[k]? = some x := by
  rw [List.getElem?_append_left (List.getElem?_eq_some_iff.1 h).1]
  exact h

/-- a font is added -/
theorem Stocked.more {env : GEnv} {g h : Gp} {as : List Added} {ch : Option (Bytes × Nat)} {ps : List (Bytes × Bytes)} (hs : Stocked env g as ch ps) (hk : SlotsKept g.slots h.slots)
    {fs fs' : List GRelate} {xs : List Nat} (h2 : g.slots[2]? = some ⟨.procset fs xs, []⟩) (h2' : h.slots[2]? = some ⟨.procset fs' xs, []⟩) {f : GFont} {a : Added}
    (hf : h.fonts = g.fonts ++ [f]) (ha : parseTtfKern a.kerning a.file = .ok f.ttf ∧ f.family = a.family ∧ f.style = a.style ∧ f.kerning = a.kerning) (hc : f.chars = {}) (hcid : f.cid = f.unicode + 3)
    (hsl : FontSlots h.slots g.fonts.length f.unicode) (hn : h.countFont = fs'.length)
    (hnew : (fs' = fs ∧ ∃ r ∈ fs, r.family = f.family ∧ r.style = f.style) ∨ (fs' = fs ++ [⟨f.family, f.style, f.count, f.unicode + 4⟩] ∧ f.count = fs.length))
    (h3 : h.font = g.font) (h4 : h.fontCount = g.fontCount) (hi : h.imgCaches = g.imgCaches) : Stocked env h (as ++ [a]) ch ps := by
  obtain ⟨r1, x1⟩ := relates_of h2
  obtain ⟨r2, x2⟩ := relates_of h2'
  have hcounts := hs.counts
  have hknown := hs.known
  rw [r1] at hcounts hknown
  have ext : ∀ {k : Nat} {r : GRelate}, fs[k]? = some r → fs'[k]? = some r := by
    intro k r hk
    rcases hnew with ⟨e, _⟩ | ⟨e, _⟩
    · rw [e]; exact hk
    · rw [e]; exact snoc_get _ hk
  have nam : ∀ {F : GFont}, Named g F → Named h F := by
    rintro F ⟨r, e1, e2⟩
    rw [r1] at e1
    exact ⟨r, by rw [r2]; exact ext e1, e2⟩
  refine ⟨?_, by rw [hn, r2], ?_, ?_, ?_, ?_, ?_, ?_, by rw [h3]; exact hs.free, ?_, by rw [hi]; exact hs.ids⟩
  · rw [hf]
    exact List.rel_append hs.fonts (.cons ha .nil)
  · rw [r2]
    intro k r hk
    rcases hnew with ⟨e, _⟩ | ⟨e, e'⟩
    · rw [e] at hk; exact hcounts k r hk
    · rw [e] at hk
      rcases get_snoc hk with hk | ⟨hk, hr⟩
      · exact hcounts k r hk
      · rw [hr, hk]; exact e'
  · rw [r2]
    intro r hr
    have old : r ∈ fs → ∃ (j : Nat) (F : GFont), h.fonts[j]? = some F ∧ F.family = r.family ∧ F.style = r.style := by
      intro hr
      obtain ⟨j, F, e1, e2⟩ := hknown r hr
      exact ⟨j, F, by rw [hf]; exact snoc_get _ e1, e2⟩
    rcases hnew with ⟨e, _⟩ | ⟨e, e'⟩
    · rw [e] at hr; exact old hr
    · rw [e] at hr
      rcases List.mem_append.1 hr with hr | hr
      · exact old hr
      · simp only [List.mem_singleton] at hr
        subst hr
        exact ⟨g.fonts.length, f, by rw [hf]; simp, rfl, rfl⟩
  · intro i F hF
    rw [hf] at hF
    rcases get_snoc hF with hF | ⟨rfl, rfl⟩
    · obtain ⟨e1, e2, e3⟩ := hs.slots i F hF
      exact ⟨e1, e2, e3.keeps hk⟩
    · exact ⟨by rw [hc]; exact FontOK.empty _, hcid, hsl⟩
  · intro i F hF
    rw [hf] at hF
    rcases get_snoc hF with hF | ⟨rfl, rfl⟩
    · rcases hs.named i F hF with e | ⟨j, E, j1, j2, j3⟩
      · exact Or.inl (nam e)
      · exact Or.inr ⟨j, E, j1, by rw [hf]; exact snoc_get _ j2, j3⟩
    · rcases hnew with ⟨e, r, e1, e2, e3⟩ | ⟨e, e'⟩
      · obtain ⟨j, E, j1, j2, j3⟩ := hknown r e1
        exact Or.inr ⟨j, E, (List.getElem?_eq_some_iff.1 j1).1, by rw [hf]; exact snoc_get _ j1, j2.trans e2, j3.trans e3⟩
      · left
        refine ⟨⟨F.family, F.style, F.count, F.unicode + 4⟩, ?_, rfl⟩
        rw [r2, e, e']
        simp
  · intro i hi
    rw [h3] at hi
    obtain ⟨F, e1, e2, e3⟩ := hs.cur i hi
    exact ⟨F, by rw [hf]; exact snoc_get _ e1, h4.trans e2, nam e3⟩
  · intro p hp
    obtain ⟨i, e1, e2⟩ := hs.choice p hp
    refine ⟨i, h3.trans e1, ?_⟩
    unfold meantFont at e2 ⊢
    rw [List.findIdx?_append, e2]
    rfl
  · rw [x2, ← x1]
    exact hs.imgs.imp (fun p n h => h.keeps hk)

theorem Stocked.addFont {env : GEnv} {g : Gp} {as : List Added} {ch : Option (Bytes × Nat)} {ps : List (Bytes × Bytes)} (hw : g.Whole) (hs : Stocked env g as ch ps)
    {family file : Bytes} {kerning : Bool} {style : Nat} (hu : style &&& 4 ≠ 4) (h : (g.addFont family file kerning style).res = .ok ()) :
    Stocked env (g.addFont family file kerning style).state (as ++ [⟨family, file, kerning, style⟩]) ch ps := by
  obtain ⟨fs, xs, h2, hlen⟩ := hw.laid.second
  obtain ⟨r1, x1⟩ := relates_of h2
  have hst : plainStyle style = style := by simp [plainStyle, hu]
  unfold Gp.addFont at h ⊢
  split at h
  · rename_i t ht
    simp only [hst, r1]
    have hslots : ∀ l : List GSlot, FontSlots (g.slots ++ [⟨.unicode g.fonts.length, []⟩, ⟨.dict g.fonts.length, []⟩, ⟨.desc g.fonts.length (g.slots.length + 1), []⟩,
        ⟨.cid g.fonts.length (g.slots.length + 2), []⟩, ⟨.font g.fonts.length, []⟩] ++ l) g.fonts.length g.slots.length := by
      intro l
      refine ⟨?_, ?_, ?_, ?_, ?_⟩ <;> rw [List.append_assoc, List.getElem?_append_right (by omega)] <;> simp
    have hkeep := SlotsKept.append g.slots [⟨.unicode g.fonts.length, []⟩, ⟨.dict g.fonts.length, []⟩, ⟨.desc g.fonts.length (g.slots.length + 1), []⟩,
        ⟨.cid g.fonts.length (g.slots.length + 2), []⟩, ⟨.font g.fonts.length, []⟩]
    have hsec : ∀ l : List GSlot, (g.slots ++ l)[2]? = some ⟨.procset fs xs, []⟩ := fun l => snoc_get l h2
    by_cases hany : (fs.any fun r => decide (r.family = family ∧ r.style = style)) = true
    · simp only [hany, Bool.not_true, Bool.false_eq_true, if_false]
      refine hs.more hkeep h2 (hsec _) rfl ⟨ht, rfl, rfl, rfl⟩ rfl rfl (by simpa using hslots []) ?_ (Or.inl ⟨rfl, ?_⟩) rfl rfl rfl
      · rw [← r1]; exact hs.count
      · obtain ⟨r, e1, e2⟩ := List.any_eq_true.1 hany
        exact ⟨r, e1, by simpa using e2⟩
    · simp only [Bool.not_eq_true] at hany
      simp only [hany, Bool.not_false, if_true]
      refine hs.more (fs' := fs ++ [⟨family, style, g.countFont, g.slots.length + 4⟩]) (hkeep.modify 2 _ (procset_steady _)) h2 ?_ rfl ⟨ht, rfl, rfl, rfl⟩ rfl rfl ?_ ?_ (Or.inr ⟨rfl, ?_⟩) rfl rfl rfl
      · rw [List.getElem?_modify, hsec]
        rfl
      · have := hslots []
        rw [List.append_nil] at this
        exact this.keeps ((SlotsKept.refl _).modify 2 _ (procset_steady _))
      · simp [hs.count, r1]
      · simp only [hs.count, r1]
  · simp at h
  · simp at h
  · simp at h

/-! ### images -/

theorem Stocked.picture {env : GEnv} {g h : Gp} {as : List Added} {ch : Option (Bytes × Nat)} {ps : List (Bytes × Bytes)} (hs : Stocked env g as ch ps) (hk : SlotsKept g.slots h.slots)
    {fs : List GRelate} {xs : List Nat} (h2 : g.slots[2]? = some ⟨.procset fs xs, []⟩) {n : Nat} (h2' : h.slots[2]? = some ⟨.procset fs (xs ++ [n]), []⟩) (hf : h.fonts = g.fonts)
    (hc : h.countFont = g.countFont) (h3 : h.font = g.font) (h4 : h.fontCount = g.fontCount) {id file : Bytes} {k : Nat} {r : GRect} (hi : h.imgCaches = g.imgCaches ++ [(id, k, r)])
    (hp : Pictured env h.slots file n) : Stocked env h as ch (ps ++ [(id, file)]) := by
  obtain ⟨r1, x1⟩ := relates_of h2
  obtain ⟨r2, x2⟩ := relates_of h2'
  have hr : h.relates = g.relates := r2.trans r1.symm
  have nam : ∀ {F : GFont}, Named g F → Named h F := fun ⟨r, e⟩ => ⟨r, by rw [hr]; exact e⟩
  refine ⟨by rw [hf]; exact hs.fonts, by rw [hc, hr]; exact hs.count, by rw [hr]; exact hs.counts, by rw [hr, hf]; exact hs.known, ?_, ?_, ?_, by rw [h3]; exact hs.choice, by rw [h3]; exact hs.free, ?_, ?_⟩
  · intro i F hF
    rw [hf] at hF
    obtain ⟨e1, e2, e3⟩ := hs.slots i F hF
    exact ⟨e1, e2, e3.keeps hk⟩
  · intro i F hF
    rw [hf] at hF ⊢
    exact (hs.named i F hF).imp nam fun h => h
  · intro i hi
    rw [h3] at hi
    obtain ⟨F, e1, e2, e3⟩ := hs.cur i hi
    exact ⟨F, by rw [hf]; exact e1, h4.trans e2, nam e3⟩
  · rw [x2, ← x1]
    exact List.rel_append (hs.imgs.imp (fun p n h => h.keeps hk)) (.cons hp .nil)
  · rw [hi, List.map_append, hs.ids, List.map_append]
    rfl

theorem any_ids {l : List (Bytes × Nat × GRect)} {ps : List (Bytes × Bytes)} (h : l.map (·.1) = ps.map (·.1)) (id : Bytes) : l.any (fun c => c.1 = id) = ps.any (fun p => p.1 = id) := by
  have e : ∀ {β : Type} (l : List (Bytes × β)), l.any (fun c => c.1 = id) = (l.map (·.1)).any (fun c => c = id) := by
    intro β l; rw [List.any_map]; rfl
  rw [e, e, h]

theorem image_second {env : GEnv} {g : Gp} (hw : g.Whole) {id file : Bytes} {x y : ℚ} {r : GRect} {i : ImgInfo} (hparse : parseImg env.toImgEnv file = .ok i) {fs : List GRelate} {xs : List Nat}
    (h2 : g.slots[2]? = some ⟨.procset fs xs, []⟩) (hlen : 3 ≤ g.slots.length) :
    SlotsKept g.slots (((g.addImage id x y r i).addMask g.slots.length (createSMask i)).addPalette g.slots.length i).slots ∧
    (((g.addImage id x y r i).addMask g.slots.length (createSMask i)).addPalette g.slots.length i).slots[2]? = some ⟨.procset fs (xs ++ [g.slots.length]), []⟩ ∧
    Pictured env (((g.addImage id x y r i).addMask g.slots.length (createSMask i)).addPalette g.slots.length i).slots file g.slots.length := by
  -- the image itself
  have a1 : SlotsKept (g.slots ++ [⟨.image i, []⟩]) (g.addImage id x y r i).slots :=
    (put_keeps (g.addObj (.image i)) _).modify 2 _ (procset_steady _)
  have a2 : (g.addImage id x y r i).slots[2]? = some ⟨.procset fs (xs ++ [g.slots.length]), []⟩ := by
    have := put_second (g := g.addObj (.image i)) (fs := fs) (xs := xs) (b := []) (snoc_get _ h2) (· ++ [.image g.countImg x y g.curSize.h r])
    unfold Gp.addImage Gp.draw
    simp only
    rw [List.getElem?_modify, this]
    rfl
  have a3 : (g.addImage id x y r i).slots[g.slots.length]? = some ⟨.image i, []⟩ := a1 _ _ (by simp) rfl
  have a0 : SlotsKept g.slots (g.addImage id x y r i).slots := (SlotsKept.append _ _).trans a1
  -- what is added after it
  have extra : ∀ (q : Gp) (o : GObj) (fn : ImgInfo → ImgInfo) (i' : ImgInfo), SlotsKept g.slots q.slots → q.slots[2]? = some ⟨.procset fs (xs ++ [g.slots.length]), []⟩ →
      q.slots[g.slots.length]? = some ⟨.image i', []⟩ →
      SlotsKept g.slots ((q.addObj o).slots.modify g.slots.length (GSlot.setImg fn)) ∧
      ((q.addObj o).slots.modify g.slots.length (GSlot.setImg fn))[2]? = some ⟨.procset fs (xs ++ [g.slots.length]), []⟩ ∧
      ((q.addObj o).slots.modify g.slots.length (GSlot.setImg fn))[g.slots.length]? = some ⟨.image (fn i'), []⟩ ∧
      ((q.addObj o).slots.modify g.slots.length (GSlot.setImg fn))[q.slots.length]? = some ⟨o, []⟩ := by
    intro q o fn i' e1 e2 e3
    have hq := (List.getElem?_eq_some_iff.1 e3).1
    refine ⟨(e1.trans (SlotsKept.append _ _)).beyond _ _ (Nat.le_refl _), ?_, ?_, ?_⟩
    · rw [List.getElem?_modify, show (q.addObj o).slots = q.slots ++ [⟨o, []⟩] from rfl, snoc_get _ e2]
      simp only [if_neg (show g.slots.length ≠ 2 by omega)]
      rfl
    · rw [List.getElem?_modify, show (q.addObj o).slots = q.slots ++ [⟨o, []⟩] from rfl, snoc_get _ e3]
      simp [GSlot.setImg]
    · rw [List.getElem?_modify, show (q.addObj o).slots = q.slots ++ [⟨o, []⟩] from rfl]
      simp only [if_neg (show g.slots.length ≠ q.slots.length by omega)]
      simp
  -- the mask
  obtain ⟨q, hq⟩ : ∃ q, q = (g.addImage id x y r i).addMask g.slots.length (createSMask i) := ⟨_, rfl⟩
  rw [← hq]
  obtain ⟨i', b0, b1, b2, b3⟩ : ∃ i', SlotsKept g.slots q.slots ∧ q.slots[2]? = some ⟨.procset fs (xs ++ [g.slots.length]), []⟩ ∧ q.slots[g.slots.length]? = some ⟨.image i', []⟩ ∧
      (createSMask i = none → i' = i) := by
    rw [hq]
    cases hm : createSMask i with
    | none => exact ⟨i, a0, a2, a3, fun _ => rfl⟩
    | some m =>
      obtain ⟨e1, e2, e3, _⟩ := extra (g.addImage id x y r i) (.smask m) (fun j => { j with smaskObjID := (g.addImage id x y r i).slots.length }) i a0 a2 a3
      exact ⟨_, e1, e2, e3, by simp⟩
  unfold Gp.addPalette
  split
  · rename_i hc
    obtain ⟨e1, e2, e3, e4⟩ := extra q (.rgb i.pal) (fun i => { i with deviceRGBObjID := q.slots.length }) i' b0 b1 b2
    exact ⟨e1, e2, i, _, hparse, e3, fun _ h => absurd hc h, fun _ => ⟨_, _, e4⟩⟩
  · rename_i hc
    exact ⟨b0, b1, i, i', hparse, b2, fun h _ => b3 h, fun h => absurd h hc⟩

theorem Stocked.image {env : GEnv} {g : Gp} {as : List Added} {ch : Option (Bytes × Nat)} {ps : List (Bytes × Bytes)} (hw : g.Whole) (hs : Stocked env g as ch ps)
    {id file : Bytes} {x y : ℚ} {rect : Option GRect} (h : (g.image env id file x y rect).res = .ok ()) :
    Stocked env (g.image env id file x y rect).state as ch (if ps.any (fun p => p.1 = id) then ps else ps ++ [(id, file)]) := by
  obtain ⟨fs, xs, h2, hlen⟩ := hw.laid.second
  rw [← any_ids hs.ids]
  unfold Gp.image at h ⊢
  split at h
  · rename_i c hc
    have hany : (g.imgCaches.any fun c => decide (c.1 = id)) = true := by
      rw [List.any_eq_true]
      have := List.find?_some hc
      exact ⟨c, List.mem_of_find?_eq_some hc, this⟩
    rw [if_pos hany]
    split at h
    · rename_i r hr
      simp only [hr]
      obtain ⟨f1, f2, f3⟩ := draw_fields g (.image c.2.1 x y g.curSize.h r)
      have e : ∀ f : List GCache → List GCache, (g.put f).countFont = g.countFont ∧ (g.put f).font = g.font ∧ (g.put f).fontCount = g.fontCount := by
        intro f; unfold Gp.put Gp.getContent; cases g.contentIdx <;> exact ⟨rfl, rfl, rfl⟩
      exact hs.same (put_keeps g _) ((put_second h2 _).trans h2.symm) (by rw [f1]; exact forall2_refl GrownFont.refl _) (e _).1 (e _).2.1 (e _).2.2 f2
    · simp at h
  · rename_i hc
    have hany : ¬ (g.imgCaches.any fun c => decide (c.1 = id)) = true := by
      rw [List.any_eq_true]
      rintro ⟨c, c1, c2⟩
      exact List.find?_eq_none.1 hc c c1 c2
    rw [if_neg hany]
    split at h
    · rename_i r i hri
      simp only [hri]
      have hparse : parseImg env.toImgEnv file = .ok i := by
        rw [Res.bind_eq_ok] at hri
        obtain ⟨r', _, hri⟩ := hri
        rw [Res.bind_eq_ok] at hri
        obtain ⟨i', hi', hri⟩ := hri
        simp only [Res.ok.injEq, Prod.mk.injEq] at hri
        rw [hi', hri.2]
      obtain ⟨e1, e2, e3⟩ := image_second hw (id := id) (x := x) (y := y) (r := r) hparse h2 hlen
      obtain ⟨s1, q1⟩ := addMask_fields (g.addImage id x y r i) g.slots.length (createSMask i)
      obtain ⟨s2, q2⟩ := addPalette_fields ((g.addImage id x y r i).addMask g.slots.length (createSMask i)) g.slots.length i
      obtain ⟨f1, f2, _⟩ := addImage_fields g id x y r i
      have e : (g.addImage id x y r i).countFont = g.countFont ∧ (g.addImage id x y r i).font = g.font ∧ (g.addImage id x y r i).fontCount = g.fontCount := by
        unfold Gp.addImage Gp.draw Gp.put Gp.getContent Gp.addObj; cases g.contentIdx <;> exact ⟨rfl, rfl, rfl⟩
      refine hs.picture (k := g.countImg) (r := r) e1 h2 e2 ?_ ?_ ?_ ?_ ?_ e3
      · rw [q2, q1]; exact f1
      · rw [q2, q1]; exact e.1
      · rw [q2, q1]; exact e.2.1
      · rw [q2, q1]; exact e.2.2
      · rw [q2, q1]; exact f2
    · simp at h
    · simp at h
    · simp at h

/-! ### what stays -/

/-- fonts and names stay, characters are added -/
def Onward (g h : Gp) : Prop := (∀ (i : Nat) (F : GFont), g.fonts[i]? = some F → ∃ F', h.fonts[i]? = some F' ∧ GrownFont F F') ∧
  (∀ (k : Nat) (r : GRelate), g.relates[k]? = some r → h.relates[k]? = some r) ∧ g.imgCaches.length ≤ h.imgCaches.length

theorem Onward.same {g h : Gp} (h2 : h.slots[2]? = g.slots[2]?) (hf : List.Forall₂ GrownFont g.fonts h.fonts) (hi : h.imgCaches = g.imgCaches) : Onward g h := by
  refine ⟨fun i F hF => fonts_fwd hf hF, ?_, by rw [hi]⟩
  have hr : h.relates = g.relates := by unfold Gp.relates; rw [h2]
  rw [hr]
  exact fun _ _ h => h

theorem Named.onward {g h : Gp} (ho : Onward g h) {F F' : GFont} (e : GrownFont F F') (hn : Named g F) : Named h F' := by
  obtain ⟨r, r1, r2⟩ := hn
  exact ⟨r, by rw [e.count]; exact ho.2.1 _ _ r1, by rw [e.unicode]; exact r2⟩

/-- a text has its font -/
def Lettered (g : Gp) (w : Inscribed) : Prop := ∃ F, g.fonts[w.font]? = some F ∧ F.ttf = w.state.ttf ∧ w.idx = F.count + 1 ∧ w.state.kernOverride.isSome = F.kerning ∧ Named g F ∧
  (∀ k ∈ w.state.chars.keys, k ∈ F.chars.keys) ∧ FontOK w.state.ttf w.state.chars

theorem Lettered.onward {g h : Gp} (ho : Onward g h) {w : Inscribed} (hl : Lettered g w) : Lettered h w := by
  obtain ⟨F, f1, f2, f3, f4, f5, f6, f7⟩ := hl
  obtain ⟨F', e1, e2⟩ := ho.1 _ _ f1
  exact ⟨F', e1, by rw [e2.ttf]; exact f2, by rw [e2.count]; exact f3, by rw [e2.kerning]; exact f4, f5.onward ho e2, fun k hk => e2.chars k (f6 k hk), f7⟩

theorem write_grown {g : Gp} {i : Nat} {F : GFont} (h2 : g.fonts[i]? = some F) (text : Bytes) : List.Forall₂ GrownFont g.fonts (g.fonts.modify i (fun _ => { F with chars := (addChars F.ttf F.chars text).1 })) := by
  refine grown_modify fun G hG => ?_
  rw [h2] at hG
  cases hG
  exact ⟨rfl, rfl, rfl, rfl, rfl, rfl, rfl, addRunes_keys _, fun h => addRunes_ok _ h⟩

theorem put_font (g : Gp) (f : List GCache → List GCache) : (g.put f).countFont = g.countFont ∧ (g.put f).font = g.font ∧ (g.put f).fontCount = g.fontCount := by
  unfold Gp.put Gp.getContent; cases g.contentIdx <;> exact ⟨rfl, rfl, rfl⟩

theorem Stocked.write {env : GEnv} {g : Gp} {as : List Added} {ch : Option (Bytes × Nat)} {ps : List (Bytes × Bytes)} (hw : g.Whole) (hs : Stocked env g as ch ps)
    {text : Bytes} {cell : Option (Option GRect × GCellOpt)} (h : (g.write text cell).res = .ok ()) :
    Stocked env (g.write text cell).state as ch ps ∧ Onward g (g.write text cell).state := by
  obtain ⟨fs, xs, s2, _⟩ := hw.laid.second
  obtain ⟨i, F, fonts, p, h1, h2, h3, h4, h5, h6⟩ := write_ok h
  obtain ⟨p1, p2, p3⟩ := put_fields { g with fonts := fonts } (fun cs => (appendText fonts cs (g.newText i cell) text).1)
  obtain ⟨q1, q2, q3⟩ := put_font { g with fonts := fonts } (fun cs => (appendText fonts cs (g.newText i cell) text).1)
  have e2 := put_second (g := { g with fonts := fonts }) s2 (fun cs => (appendText fonts cs (g.newText i cell) text).1)
  have hg : List.Forall₂ GrownFont g.fonts fonts := by rw [h3]; exact write_grown h2 text
  rw [h6]
  exact ⟨hs.same (put_keeps { g with fonts := fonts } _) (e2.trans s2.symm) (by simp only [p1]; exact hg) q1 q2 q3 p2, Onward.same (e2.trans s2.symm) (by simp only [p1]; exact hg) p2⟩

theorem Stocked.drawn {env : GEnv} {g : Gp} {as : List Added} {ch : Option (Bytes × Nat)} {ps : List (Bytes × Bytes)} (hw : g.Whole) (hs : Stocked env g as ch ps) {c : GCall} (hd : drawing c = true) :
    Stocked env (g.call env c).state as ch ps ∧ Onward g (g.call env c).state := by
  obtain ⟨fs, xs, s2, _⟩ := hw.laid.second
  have key : ∀ (q : Gp) (f : List GCache → List GCache), q.slots = g.slots → q.fonts = g.fonts → q.countFont = g.countFont → q.font = g.font → q.fontCount = g.fontCount → q.imgCaches = g.imgCaches →
      Stocked env (q.put f) as ch ps ∧ Onward g (q.put f) := by
    intro q f e1 e2 e3 e4 e5 e6
    obtain ⟨p1, p2, p3⟩ := put_fields q f
    obtain ⟨q1, q2, q3⟩ := put_font q f
    have e := (put_second (g := q) (by rw [e1]; exact s2) f).trans s2.symm
    have hg : List.Forall₂ GrownFont g.fonts (q.put f).fonts := by rw [p1, e2]; exact forall2_refl GrownFont.refl _
    refine ⟨hs.same ?_ e hg (q1.trans e3) (q2.trans e4) (q3.trans e5) (p2.trans e6), Onward.same e hg (p2.trans e6)⟩
    have := put_keeps q f
    rw [e1] at this
    exact this
  cases c with
  | setLineWidth w => exact key { g with lineWidth := w } _ rfl rfl rfl rfl rfl rfl
  | setGrayFill v => exact key { g with grayFill := v } _ rfl rfl rfl rfl rfl rfl
  | _ => first | exact key g _ rfl rfl rfl rfl rfl rfl | simp [drawing] at hd

theorem Stocked.plain {env : GEnv} {g h : Gp} {as : List Added} {ch : Option (Bytes × Nat)} {ps : List (Bytes × Bytes)} (hs : Stocked env g as ch ps) (e1 : h.slots = g.slots)
    (hf : List.Forall₂ GrownFont g.fonts h.fonts) (hc : h.countFont = g.countFont) (h3 : h.font = g.font) (h4 : h.fontCount = g.fontCount) (hi : h.imgCaches = g.imgCaches) :
    Stocked env h as ch ps ∧ Onward g h :=
  ⟨hs.same (by rw [e1]; exact SlotsKept.refl _) (by rw [e1]) hf hc h3 h4 hi, Onward.same (by rw [e1]) hf hi⟩

theorem addFont_onward {g : Gp} (hw : g.Whole) (family file : Bytes) (kerning : Bool) (style : Nat) : Onward g (g.addFont family file kerning style).state := by
  obtain ⟨fs, xs, h2, hlen⟩ := hw.laid.second
  obtain ⟨r1, x1⟩ := relates_of h2
  have hrefl : Onward g g := Onward.same rfl (forall2_refl GrownFont.refl _) rfl
  unfold Gp.addFont
  split
  · have hext : ∀ (l : List GFont) (i : Nat) (F : GFont), g.fonts[i]? = some F → ∃ F', (g.fonts ++ l)[i]? = some F' ∧ GrownFont F F' := fun l i F hF => ⟨F, snoc_get _ hF, GrownFont.refl F⟩
    have hsec : ∀ l : List GSlot, (g.slots ++ l)[2]? = some ⟨.procset fs xs, []⟩ := fun l => snoc_get l h2
    simp only
    split
    · refine ⟨hext _, ?_, Nat.le_refl _⟩
      intro k r hk
      rw [r1] at hk
      unfold Gp.relates
      simp only
      rw [List.getElem?_modify, hsec]
      exact snoc_get _ hk
    · refine ⟨hext _, ?_, Nat.le_refl _⟩
      intro k r hk
      rw [r1] at hk
      unfold Gp.relates
      simp only
      rw [hsec]
      exact hk
  · exact hrefl
  · exact hrefl
  · exact hrefl

theorem image_onward {env : GEnv} {g : Gp} (hw : g.Whole) {id file : Bytes} {x y : ℚ} {rect : Option GRect} (h : (g.image env id file x y rect).res = .ok ()) :
    Onward g (g.image env id file x y rect).state := by
  obtain ⟨fs, xs, h2, hlen⟩ := hw.laid.second
  unfold Gp.image at h ⊢
  split at h
  · rename_i c hc
    split at h
    · rename_i r hr
      simp only [hr]
      obtain ⟨f1, f2, f3⟩ := draw_fields g (.image c.2.1 x y g.curSize.h r)
      exact Onward.same ((put_second h2 _).trans h2.symm) (by rw [f1]; exact forall2_refl GrownFont.refl _) f2
    · simp at h
  · split at h
    · rename_i r i hri
      simp only [hri]
      have hparse : parseImg env.toImgEnv file = .ok i := by
        rw [Res.bind_eq_ok] at hri
        obtain ⟨r', _, hri⟩ := hri
        rw [Res.bind_eq_ok] at hri
        obtain ⟨i', hi', hri⟩ := hri
        simp only [Res.ok.injEq, Prod.mk.injEq] at hri
        rw [hi', hri.2]
      obtain ⟨_, e2, _⟩ := image_second hw (id := id) (x := x) (y := y) (r := r) hparse h2 hlen
      obtain ⟨s1, q1⟩ := addMask_fields (g.addImage id x y r i) g.slots.length (createSMask i)
      obtain ⟨s2, q2⟩ := addPalette_fields ((g.addImage id x y r i).addMask g.slots.length (createSMask i)) g.slots.length i
      obtain ⟨f1, f2, _⟩ := addImage_fields g id x y r i
      refine ⟨?_, ?_, ?_⟩
      · intro k F hF
        refine ⟨F, ?_, GrownFont.refl F⟩
        rw [q2, q1]
        simp only [f1]
        exact hF
      · rw [(relates_of h2).1, (relates_of e2).1]
        exact fun _ _ h => h
      · rw [q2, q1]
        simp only [f2]
        simp
    · simp at h
    · simp at h
    · simp at h

theorem chosen_snoc (ds : List GCall) (c : GCall) : chosenFont (ds ++ [c]) = (match c with
    | .setFont f s _ => some (f, s)
    | _ => chosenFont ds) := by
  cases c <;> simp [chosenFont]

theorem added_snoc (ds : List GCall) (c : GCall) : addedFonts (ds ++ [c]) = (match c with
    | .addFont f d k s => addedFonts ds ++ [⟨f, d, k, s⟩]
    | _ => addedFonts ds) := by
  cases c <;> simp [addedFonts]

theorem pictures_snoc (ds : List GCall) (c : GCall) : pictures (ds ++ [c]) = (match c with
    | .image id f _ _ _ => if (pictures ds).any (fun p => p.1 = id) then pictures ds else pictures ds ++ [(id, f)]
    | _ => pictures ds) := by
  unfold pictures
  rw [List.foldl_append]
  cases c <;> rfl

/-- the fonts and images after the calls `cs` -/
def Supplied (env : GEnv) (g : Gp) (cs : List GCall) : Prop := Stocked env g (addedFonts cs) (chosenFont cs) (pictures cs)

theorem Supplied.step {env : GEnv} {g : Gp} {ds : List GCall} (hw : g.Whole) (hs : Supplied env g ds) {c : GCall} (hu : ∀ a ∈ addedFonts (ds ++ [c]), a.style &&& 4 ≠ 4)
    (h : (g.call env c).res = .ok ()) : Supplied env (g.call env c).state (ds ++ [c]) ∧ Onward g (g.call env c).state := by
  unfold Supplied at hs ⊢
  rw [chosen_snoc, added_snoc, pictures_snoc]
  rw [added_snoc] at hu
  have idn := forall2_refl GrownFont.refl g.fonts
  rcases call_cases c with ⟨w, rfl⟩ | hq | hd | ⟨t, rfl⟩ | ⟨r, t, o, rfl⟩ | ⟨id, f, x, y, r, rfl⟩
  · obtain ⟨fs, xs, s2, _⟩ := hw.laid.second
    have e2 : (g.addPage w).slots[2]? = g.slots[2]? := by
      rw [s2]
      exact snoc_get _ s2
    exact ⟨hs.same (SlotsKept.append _ _) e2 idn rfl rfl rfl rfl, Onward.same e2 idn rfl⟩
  · cases c with
    | addFont a b c d => exact ⟨hs.addFont hw (hu ⟨a, b, c, d⟩ (by simp)) h, addFont_onward hw a b c d⟩
    | setFont a b c =>
      refine ⟨hs.setFont hu h, ?_⟩
      obtain ⟨x, y, z, w, e⟩ := setFont_fields g a b c
      rw [show g.call env (.setFont a b c) = g.setFont a b c from rfl, e]
      exact Onward.same rfl idn rfl
    | kernOverride a b =>
      simp only [Gp.call, Gp.kernOverride]
      split
      · exact hs.plain rfl (grown_modify (fun F _ => ⟨rfl, rfl, rfl, rfl, rfl, rfl, rfl, fun _ h => h, fun h => h⟩)) rfl rfl rfl rfl
      · exact hs.plain rfl idn rfl rfl rfl rfl
    | setCompressLevel l => simp only [Gp.call, Gp.setCompressLevel]; split <;> [exact hs.plain rfl idn rfl rfl rfl rfl; split <;> exact hs.plain rfl idn rfl rfl rfl rfl]
    | setNoCompression | br _ | setLeftMargin _ | setTopMargin _ | setX _ | setY _ | setTextColor _ _ _ | setInfo _ => exact hs.plain rfl idn rfl rfl rfl rfl
    | _ => simp [GCall.quiet] at hq
  · have := hs.drawn hw hd
    cases c <;> first | exact this | simp [drawing] at hd
  · exact hs.write hw h
  · exact hs.write hw h
  · exact ⟨hs.image hw h, image_onward hw h⟩

/-! ### the texts and images on the pages -/

def Furnished (g : Gp) (l : List (Option GRect × List Thing)) : Prop :=
  ∀ s ∈ l, (∀ w, .text w ∈ s.2 → Lettered g w) ∧ ∀ k x y r, .image k x y r ∈ s.2 → k < g.imgCaches.length

theorem Furnished.onward {g h : Gp} (ho : Onward g h) {l : List (Option GRect × List Thing)} (hl : Furnished g l) : Furnished h l :=
  fun s hs => ⟨fun w hw => ((hl s hs).1 w hw).onward ho, fun k x y r hk => Nat.lt_of_lt_of_le ((hl s hs).2 k x y r hk) ho.2.2⟩

theorem Furnished.last {g : Gp} {l : List (Option GRect × List Thing)} (hl : Furnished g l) {f : List Thing → List Thing} (hf : ∀ s ∈ l, (∀ w, .text w ∈ f s.2 → .text w ∈ s.2 ∨ Lettered g w) ∧
    ∀ k x y r, .image k x y r ∈ f s.2 → .image k x y r ∈ s.2 ∨ k < g.imgCaches.length) : Furnished g (lastPage f l) := by
  intro s hs
  rcases mem_lastPage hs with hs | ⟨t, h1, rfl⟩
  · exact hl s hs
  · have ht := List.mem_of_getLast? h1
    exact ⟨fun w hw => ((hf t ht).1 w hw).elim ((hl t ht).1 w) (fun h => h), fun k x y r hk => ((hf t ht).2 k x y r hk).elim ((hl t ht).2 k x y r) (fun h => h)⟩

theorem write_furnished {env : GEnv} {g : Gp} {ds : List GCall} {l : List (Option GRect × List Thing)} (hw : g.Whole) (hs : Supplied env g ds) (hl : Furnished g l)
    {text : Bytes} {cell : Option (Option GRect × GCellOpt)} (h : (g.write text cell).res = .ok ()) : ∃ w, asInscribed g (g.write text cell).state.fonts text cell = some w ∧
      some w.font = g.font ∧ w.text = text ∧ Lettered (g.write text cell).state w ∧ Furnished (g.write text cell).state (lastPage (fun ts => writeOn (g.write text cell).state.fonts ts w) l) := by
  obtain ⟨k1, k2⟩ := Stocked.write hw hs h
  obtain ⟨i, F, fonts, p, h1, h2, h3, h4, h5, h6⟩ := write_ok h
  have hst : (g.write text cell).state.fonts = fonts := by
    rw [h6]
    exact (put_fields { g with fonts := fonts } (fun cs => (appendText fonts cs (g.newText i cell) text).1)).1
  have hF : fonts[i]? = some { F with chars := (addChars F.ttf F.chars text).1 } := by
    rw [h3, List.getElem?_modify, h2]
    simp
  have hF' := hF
  rw [← hst] at hF'
  obtain ⟨E, c1, c2, c3⟩ := hs.cur i h1
  rw [h2] at c1
  cases c1
  have hkern : ∀ G : GFont, G.state.kernOverride.isSome = G.kerning := by
    intro G
    unfold GFont.state
    cases G.kerning <;> simp
  have hlet : ∀ (i : Nat) (G : GFont) (v : Inscribed), (g.write text cell).state.fonts[i]? = some G → v.font = i → v.state = G.state → v.idx = G.count + 1 → Named (g.write text cell).state G →
      Lettered (g.write text cell).state v := by
    intro i G v v1 v2 v3 v4 v5
    have := (k1.slots i G v1).1
    exact ⟨G, by rw [v2]; exact v1, by rw [v3]; rfl, v4, by rw [v3]; exact hkern G, v5, by rw [v3]; exact fun k h => h, by rw [v3]; exact this⟩
  obtain ⟨w, hww⟩ : ∃ w, asInscribed g (g.write text cell).state.fonts text cell = some w := by
    unfold asInscribed; rw [h1]; simp only [Option.bind_some, hF', Option.map_some]; exact ⟨_, rfl⟩
  have hw2 := hww
  unfold asInscribed at hw2
  rw [h1] at hw2
  simp only [Option.bind_some, hF', Option.map_some, Option.some.injEq] at hw2
  have hlw : Lettered (g.write text cell).state w := by
    obtain ⟨F', e1, e2⟩ := k2.1 _ _ h2
    rw [hF'] at e1
    cases e1
    refine hlet i _ w hF' (by rw [← hw2]) (by rw [← hw2]) (by rw [← hw2]; simp only [c2]) (c3.onward k2 e2)
  refine ⟨w, hww, by rw [← hw2, h1], by rw [← hw2], hlw, (hl.onward k2).last ?_⟩
  intro s hs
  unfold writeOn
  constructor
  · intro v hv
    split at hv
    · rename_i u hu
      split at hv
      · rcases List.mem_append.1 hv with hv | hv
        · exact .inl (List.mem_of_mem_dropLast hv)
        · simp only [List.mem_singleton, Thing.text.injEq] at hv
          obtain ⟨G, e1, e2, e3, e4, e5, _⟩ := (hl.onward k2 s hs).1 u (List.mem_of_getLast? hu)
          subst hv
          refine .inr (hlet u.font G _ e1 rfl ?_ e3 e5)
          simp only [e1, Option.map_some, Option.getD_some]
      · simp only [List.mem_append, List.mem_singleton, Thing.text.injEq] at hv
        exact hv.imp (fun h => h) (fun e => by rw [e]; exact hlw)
    · simp only [List.mem_append, List.mem_singleton, Thing.text.injEq] at hv
      exact hv.imp (fun h => h) (fun e => by rw [e]; exact hlw)
  · intro k x y r hv
    left
    split at hv
    · split at hv
      · rcases List.mem_append.1 hv with hv | hv
        · exact List.mem_of_mem_dropLast hv
        · simp at hv
      · simpa using hv
    · simpa using hv

theorem Furnished.step {env : GEnv} {g : Gp} {ds : List GCall} {l : List (Option GRect × List Thing)} (hw : g.Whole) (hs : Supplied env g ds) (hl : Furnished g l) {c : GCall}
    (ho : Onward g (g.call env c).state) (h : (g.call env c).res = .ok ()) : Furnished (g.call env c).state (thingStep g (g.call env c).state c l) := by
  have hl' := hl.onward ho
  rcases call_cases c with ⟨w, rfl⟩ | hq | hd | ⟨t, rfl⟩ | ⟨r, t, o, rfl⟩ | ⟨id, f, x, y, r, rfl⟩
  · intro s hs
    rcases List.mem_append.1 hs with hs | hs
    · exact hl' s hs
    · simp only [List.mem_singleton] at hs
      subst hs
      simp
  · rw [thingStep_quiet hq]
    exact hl'
  · rw [thingStep_drawing hd]
    exact hl'.last (fun s _ => by simp; exact ⟨fun w h => .inl h, fun k x y r h => .inl h⟩)
  · obtain ⟨w, e1, _, _, _, e2⟩ := write_furnished hw hs hl (text := t) (cell := none) h
    unfold thingStep
    simp only [Gp.call, Gp.text, e1]
    exact e2
  · obtain ⟨w, e1, _, _, _, e2⟩ := write_furnished hw hs hl (text := t) (cell := some (r, o)) h
    unfold thingStep
    simp only [Gp.call, Gp.cell, e1]
    exact e2
  · unfold thingStep
    simp only
    split
    · rename_i k hk
      refine hl'.last fun s _ => ⟨fun w h => .inl (by simpa using h), fun k' x' y' r' h => ?_⟩
      simp only [List.mem_append, List.mem_singleton, Thing.image.injEq] at h
      refine h.imp (fun h => h) ?_
      rintro ⟨rfl, _⟩
      exact (List.findIdx?_eq_some_iff_getElem.1 hk).1
    · exact hl'

theorem furnished_run {env : GEnv} {g g' : Gp} {cs : List GCall} (hr : GDone env g cs g') : ∀ {ds : List GCall} {l : List (Option GRect × List Thing)}, g.Whole → Supplied env g ds → Furnished g l →
    (∀ a ∈ addedFonts (ds ++ cs), a.style &&& 4 ≠ 4) → Supplied env g' (ds ++ cs) ∧ Furnished g' (thingsOf env g cs l) := by
  induction hr with
  | nil => intro ds l _ hk hl _; rw [List.append_nil]; exact ⟨hk, hl⟩
  | @cons g g' c cs h1 _ ih =>
    intro ds l hw hk hl hu
    have hu' : ∀ a ∈ addedFonts (ds ++ [c]), a.style &&& 4 ≠ 4 := by
      intro a ha
      refine hu a ?_
      rw [show ds ++ c :: cs = (ds ++ [c]) ++ cs by simp]
      unfold addedFonts at ha ⊢
      rw [List.filterMap_append]
      exact List.mem_append_left _ ha
    obtain ⟨k1, k2⟩ := hk.step hw hu' h1
    have := ih (ds := ds ++ [c]) (call_whole (env := env) hw c) k1 (hl.step hw hk k2 h1) (by simpa using hu)
    exact ⟨by simpa using this.1, this.2⟩

/-! ### the file -/

theorem makeImg_same {env : Env} {a : App} {file : Bytes} {im : ImageData} (h : a.makeImg env file = .ok (a, im)) : ∃ i, parseImg env.toImgEnv file = .ok i ∧ createSMask i = none ∧ im.buf = imgBuild i := by
  unfold App.makeImg at h
  rw [Res.bind_eq_ok] at h
  obtain ⟨i, h1, h2⟩ := h
  refine ⟨i, h1, ?_⟩
  cases hm : createSMask i with
  | none =>
    rw [hm] at h2
    simp only [Res.ok.injEq, Prod.mk.injEq, true_and] at h2
    rw [← h2]
    exact ⟨rfl, rfl⟩
  | some m =>
    exfalso
    rw [hm] at h2
    simp only [Res.ok.injEq, Prod.mk.injEq] at h2
    have := congrArg (fun a : App => a.doc.objs.length) h2.1
    simp [Doc.putNewObject, Doc.put] at this

theorem picture_at {env : GEnv} {g : Gp} {bs : List Bytes} (hp : g.protection = none) (hb : GoBuilds env g.prepare 0 g.prepare.slots bs) {file : Bytes} {n : Nat} (h : Pictured env g.slots file n) :
    ∃ body, objAt (bs.map (b!"\n" ++ ·)) (n + 1) = some body ∧ ∀ (a : App) (im : ImageData), a.makeImg env.toEnv file = .ok (a, im) → body = b!"\n" ++ im.buf := by
  obtain ⟨i, i', h1, h2, h3, h4⟩ := h
  obtain ⟨q, b, s, c, d⟩ := built_at hp hb h2 rfl
  refine ⟨b!"\n" ++ b, by simpa [objAt] using d, fun a im him => ?_⟩
  obtain ⟨j, j1, j2, j3⟩ := makeImg_same him
  have : j = i := by
    have := h1.symm.trans j1
    simpa using this.symm
  subst this
  have hc : j.colspace ≠ b!"Indexed" := by
    intro e
    obtain ⟨m, dd, hm⟩ := h4 e
    obtain ⟨_, _, _, c', _⟩ := built_at hp hb hm rfl
    simp [updObj, GObj.build] at c'
  rw [h3 j2 hc] at c
  have hq : q.protection = none := s.protection.trans hp
  simp only [updObj, GObj.build, sealed, hq, bind, Res.bind, Res.ok.injEq] at c
  rw [j3, ← c]
  rfl

theorem text_found {env : GEnv} {g : Gp} {bs : List Bytes} {as : List Added} {ch : Option (Bytes × Nat)} {ps : List (Bytes × Bytes)} (hs : Stocked env g as ch ps) (hp : g.protection = none)
    (hb : GoBuilds env g.prepare 0 g.prepare.slots bs) (hn : ∀ a ∈ as, GoodName a.family) {w : Inscribed} (hw : Lettered g w) {sum : Int} (hc : (createContent w.state w.text w.size).2 = .ok sum) :
    ∃ a, as[w.font]? = some a ∧ parseTtfKern a.kerning a.file = .ok w.state.ttf ∧ w.state.kernOverride.isSome = a.kerning ∧
      FontFound env.zip (bs.map (b!"\n" ++ ·)) (goFonts g.relates) (b!"F" ++ itoa w.idx) a.family w.state w.text := by
  obtain ⟨F, f1, f2, f3, f4, ⟨r, r1, r2⟩, f6, f7⟩ := hw
  obtain ⟨a, a1, a2, a3, a4, a5⟩ := fonts_back hs.fonts f1
  obtain ⟨s1, s2, s3⟩ := hs.slots _ _ f1
  obtain ⟨cid, uni, desc, file, ws, fontFile, g1, g2, g3⟩ := graph_at hp hb f1 s3 s2 (by rw [a3]; exact hn a (List.mem_of_getElem? a1)) s1
  have hl := (goFonts_lookup hs.counts).2 _ _ r1
  refine ⟨a, a1, by rw [← f2]; exact a2, f4.trans a5, ((F.unicode + 4 + 1 : ℕ) : Int), cid, uni, desc, file, ws, F.chars, fontFile, ?_, ?_, ?_, ?_, ?_⟩
  · rw [f3, hl, r2]
    push_cast
    rfl
  · rw [← a3, ← f2]; exact g1
  · rw [← f2]; exact g2
  · rw [← f2]; exact s1
  · intro r hr
    have q := ((createContent_advances f7).1 hc).1 r hr
    have hk := f6 r q
    obtain ⟨g', x, x1, x2, x3⟩ := g3 r hk
    exact ⟨hk, g', x, (charIndex_iff f7).2 ⟨q, by rw [← f2]; exact x1⟩, (charIndex_iff s1).2 ⟨hk, x1⟩, by rw [← f2]; exact x1, by rw [← f2]; exact x2, x3⟩

/-- what is on the pages finds its resources, in the objects that are written -/
theorem session_holds {env : GEnv} {z : GRect} {cs : List GCall} {g : Gp} {bs : List Bytes} (hr : GDone env (Gp.start z none) cs g)
    (h1 : GoBuilds env g.prepare 0 g.prepare.slots bs) (hz : ∀ l b, env.unzip (env.zipLevel l b) = some b)
    (hs : ∀ s ∈ thingsOf env (Gp.start z none) cs [], s.2 ≠ [] ∧ ∀ w, .text w ∈ s.2 → Legible w) (hu : ∀ a ∈ addedFonts cs, a.style &&& 4 ≠ 4 ∧ GoodName a.family) :
    ∃ pages fonts images, TreeIs env.unzip (bs.map (b!"\n" ++ ·)) z pages ∧ ResourcesAre (bs.map (b!"\n" ++ ·)) fonts images ∧
      List.Forall₂ (fun s p => p.1 = s.1 ∧ ∀ adv, ∃ ms q, AllShown env.upper (s.1.getD z).h s.2 {} ms q.g ∧ Paints adv {} p.2 ms q) (thingsOf env (Gp.start z none) cs []) pages ∧
      ∀ s ∈ thingsOf env (Gp.start z none) cs [], ∀ t ∈ s.2, ThingFound env (bs.map (b!"\n" ++ ·)) fonts images cs t := by
  have hk := held_run hr (start_held env z)
  obtain ⟨hkept, hfur⟩ := furnished_run hr (ds := []) (l := []) (start_whole z none).1 (start_stocked env z) (by intro s hs; simp at hs) (fun a ha => (hu a ha).1)
  rw [List.nil_append] at hkept
  obtain ⟨pages, p1, p2⟩ := tree_of hk.whole hk.prot hz h1 (by
    intro p hp e
    obtain ⟨s, hs', q1, q2⟩ := forall2_right hk.pages hp
    rw [e, List.forall₂_nil_right_iff] at q2
    exact (hs s hs').1 q2)
  rw [hk.size] at p2
  obtain ⟨fs, xs, e2, _⟩ := hk.whole.laid.second
  obtain ⟨r1, x1⟩ := relates_of e2
  have hcounts := hkept.counts
  rw [r1] at hcounts
  refine ⟨pages, goFonts fs, goImgs xs, p2, procset_at hk.whole hk.prot h1 e2 hcounts, ?_, ?_⟩
  · have hm : List.Forall₂ (fun p s => s ∈ thingsOf env (Gp.start z none) cs [] ∧ p.1 = s.1 ∧ List.Forall₂ (Cached env (s.1.getD z).h) s.2 p.2) (sheetsOf g.kinds) (thingsOf env (Gp.start z none) cs []) :=
      forall2_mem hk.pages
    refine forall2_comp ?_ hm p1
    rintro p s q ⟨a0, a1, a2⟩ ⟨b1, b2⟩
    refine ⟨b1.trans a1, fun adv => ?_⟩
    obtain ⟨ms, p', c1, c2, _⟩ := things_paint g.fonts adv a2 (p := {}) ⟨rfl, rfl, rfl⟩ (fun w hw => ⟨(hs s a0).2 w hw, hk.fonts s a0 w hw⟩) b2
    exact ⟨ms, p', c1, c2⟩
  · intro s hs' t ht
    cases t with
    | draw c => trivial
    | text w =>
      obtain ⟨p, hp, q1, q2⟩ := forall2_right hk.pages.flip hs'
      obtain ⟨k, hk', sum, e, _⟩ := forall2_right q2 ht
      have := text_found hkept hk.prot h1 (fun a ha => (hu a ha).2) ((hfur s hs').1 w ht) e
      rw [r1] at this
      exact this
    | image k x y r =>
      have hlt := (hfur s hs').2 k x y r ht
      have hids := congrArg List.length hkept.ids
      simp only [List.length_map] at hids
      have hp : (pictures cs)[k]? = some (pictures cs)[k] := List.getElem?_eq_getElem (by omega)
      obtain ⟨n, n1, n2⟩ := fonts_fwd hkept.imgs hp
      obtain ⟨body, b1, b2⟩ := picture_at hk.prot h1 n2
      rw [x1] at n1
      exact ⟨_, _, body, n + 1, hp, (goImgs_lookup xs).2 _ _ n1, b1, b2⟩

/-- **C88**: What is on the pages finds its resources.  Calls of `GoPdf` are made, all of which succeed, and then the document is written.  In the file the pages show what was asked for (C87), and
under the names that are used there the resources of the pages have the fonts that were added, with all the characters of the texts, and the images of the files that were given.  Partial: no
protection, no font is added with the style underline (see `C88_refuted_font`), and of images with alpha or a palette nothing is said (see `C88_refuted_mask`, `C88_refuted_palette`).  Missing also: pages on which there is nothing, texts that
are not `Legible`, families that are no plain names, files of ten gigabytes and more; and unpacking is assumed to undo packing.  `Verif/Theorems/GoFontSample` shows a session that is meant. -/
theorem C88_session_partial {env : GEnv} {z : GRect} {cs : List GCall} {g g' : Gp} {out : Bytes} (hr : GDone env (Gp.start z none) cs g)
    (h : g.compile env = (g', .ok out)) (hl : out.length < 10 ^ 10) (hz : ∀ l b, env.unzip (env.zipLevel l b) = some b)
    (hs : ∀ s ∈ thingsOf env (Gp.start z none) cs [], s.2 ≠ [] ∧ ∀ w, .text w ∈ s.2 → Legible w) (hu : ∀ a ∈ addedFonts cs, a.style &&& 4 ≠ 4 ∧ GoodName a.family) :
    ∃ bodies trailer pages fonts images, FileHolds out bodies trailer ∧ TreeIs env.unzip bodies z pages ∧ ResourcesAre bodies fonts images ∧
      List.Forall₂ (fun s p => p.1 = s.1 ∧ ∀ adv, ∃ ms q, AllShown env.upper (s.1.getD z).h s.2 {} ms q.g ∧ Paints adv {} p.2 ms q) (thingsOf env (Gp.start z none) cs []) pages ∧
      ∀ s ∈ thingsOf env (Gp.start z none) cs [], ∀ t ∈ s.2, ThingFound env bodies fonts images cs t := by
  have hk := held_run hr (start_held env z)
  obtain ⟨bs, h1, _, h3⟩ := compile_holds h (by
    intro e
    have := hk.whole.laid
    rw [e] at this
    simp [Laid] at this) hl
  obtain ⟨pages, fonts, images, h4⟩ := session_holds hr h1 hz hs hu
  exact ⟨_, _, pages, fonts, images, h3, h4⟩

theorem lettered_font {env : GEnv} {g : Gp} {as : List Added} {ch : Option (Bytes × Nat)} {ps : List (Bytes × Bytes)} (hs : Stocked env g as ch ps) {v w : Inscribed} (hv : Lettered g v) (hw : Lettered g w)
    (he : v.idx = w.idx) : v.font = w.font := by
  obtain ⟨F, f1, _, f3, _, ⟨r, r1, r2⟩, _⟩ := hv
  obtain ⟨G, g1, _, g3, _, ⟨q, q1, q2⟩, _⟩ := hw
  have hc : F.count = G.count := by
    rw [f3, g3] at he
    omega
  rw [hc, q1] at r1
  cases r1
  have hu : F.unicode = G.unicode := by omega
  have s1 := (hs.slots _ _ f1).2.2.1
  have s2 := (hs.slots _ _ g1).2.2.1
  rw [hu, s2] at s1
  simp only [Option.some.injEq, GSlot.mk.injEq, GObj.unicode.injEq, and_true] at s1
  exact s1.symm

/-- **C88**, texts: a text that is written is in the font that was meant, the first one added with the family and style that were chosen last (also if it continues the text before it). -/
theorem C88_text {env : GEnv} {z : GRect} {cs : List GCall} {g : Gp} (hr : GDone env (Gp.start z none) cs g) (hl : thingsOf env (Gp.start z none) cs [] ≠ [])
    (hu : ∀ a ∈ addedFonts cs, a.style &&& 4 ≠ 4) {c : GCall} {t : Bytes} (hc : c = .text t ∨ ∃ r o, c = .cell r t o) (h : (g.call env c).res = .ok ()) :
    ∃ s v u p, (thingsOf env (Gp.start z none) (cs ++ [c]) []).getLast? = some s ∧ s.2.getLast? = some (.text v) ∧ v.text = u ++ t ∧ chosenFont cs = some p ∧
      meantFont (addedFonts cs) p = some v.font := by
  have hk := held_run hr (start_held env z)
  obtain ⟨hkept, hfur⟩ := furnished_run hr (ds := []) (l := []) (start_whole z none).1 (start_stocked env z) (by intro s hs; simp at hs) hu
  rw [List.nil_append] at hkept
  rw [thingsOf_append hr]
  generalize thingsOf env (Gp.start z none) cs [] = l at hl hfur
  obtain ⟨cell, w, hcall, hstep, w1, w2, w3⟩ : ∃ cell w, g.call env c = g.write t cell ∧
      thingStep g (g.call env c).state c l = lastPage (fun ts => writeOn (g.write t cell).state.fonts ts w) l ∧ some w.font = g.font ∧ w.text = t ∧ Lettered (g.write t cell).state w := by
    rcases hc with rfl | ⟨r, o, rfl⟩
    · obtain ⟨w, e1, e2, e3, e4, _⟩ := write_furnished hk.whole hkept hfur (text := t) (cell := none) h
      refine ⟨none, w, rfl, ?_, e2, e3, e4⟩
      unfold thingStep
      simp only [Gp.call, Gp.text, e1]
    · obtain ⟨w, e1, e2, e3, e4, _⟩ := write_furnished hk.whole hkept hfur (text := t) (cell := some (r, o)) h
      refine ⟨some (r, o), w, rfl, ?_, e2, e3, e4⟩
      unfold thingStep
      simp only [Gp.call, Gp.cell, e1]
  rw [hcall] at h
  obtain ⟨k1, k2⟩ := Stocked.write hk.whole hkept h
  obtain ⟨p, hp, hm⟩ : ∃ p, chosenFont cs = some p ∧ meantFont (addedFonts cs) p = some w.font := by
    cases hch : chosenFont cs with
    | none =>
      rw [hkept.free hch] at w1
      simp at w1
    | some p =>
      obtain ⟨i, i1, i2⟩ := hkept.choice p hch
      rw [i1] at w1
      simp only [Option.some.injEq] at w1
      exact ⟨p, rfl, by rw [w1]; exact i2⟩
  rw [hstep, lastPage_eq]
  obtain ⟨m, a, rfl⟩ : ∃ m a, l = m ++ [a] := by
    rcases List.eq_nil_or_concat l with rfl | ⟨m, a, rfl⟩
    · exact absurd rfl hl
    · exact ⟨m, a, by simp⟩
  rw [onLast_append]
  have hlast : ∃ v u, (writeOn (g.write t cell).state.fonts a.2 w).getLast? = some (.text v) ∧ v.text = u ++ t ∧ v.font = w.font := by
    unfold writeOn
    split
    · rename_i v hv
      split
      · rename_i hcont
        refine ⟨_, v.text, by rw [List.getLast?_append]; rfl, by rw [← w2], ?_⟩
        exact lettered_font k1 (v := v) (((hfur a (by simp)).1 v (List.mem_of_getLast? hv)).onward k2) w3 hcont.2.2.2.1
      · exact ⟨w, [], by simp, by simp [w2], rfl⟩
    · exact ⟨w, [], by simp, by simp [w2], rfl⟩
  obtain ⟨v, u, v1, v2, v3⟩ := hlast
  exact ⟨(a.1, writeOn (g.write t cell).state.fonts a.2 w), v, u, p, by simp, v1, v2, hp, by rw [v3]; exact hm⟩

/-- **C88**, images: an image that is put on a page is the one known by what is given, and the file is used if that was not known before. -/
theorem C88_picture {env : GEnv} {z : GRect} {cs : List GCall} {g : Gp} (hr : GDone env (Gp.start z none) cs g) (hl : thingsOf env (Gp.start z none) cs [] ≠ [])
    (hu : ∀ a ∈ addedFonts cs, a.style &&& 4 ≠ 4) {id file : Bytes} {x y : ℚ} {rect : Option GRect} (h : (g.image env id file x y rect).res = .ok ()) :
    ∃ s k r f, (thingsOf env (Gp.start z none) (cs ++ [.image id file x y rect]) []).getLast? = some s ∧ s.2.getLast? = some (.image k x y r) ∧ (∀ q, rect = some q → r = q) ∧
      (pictures (cs ++ [.image id file x y rect]))[k]? = some (id, f) ∧ ((∀ p ∈ pictures cs, p.1 ≠ id) → f = file) := by
  have hk := held_run hr (start_held env z)
  obtain ⟨hkept, hfur⟩ := furnished_run hr (ds := []) (l := []) (start_whole z none).1 (start_stocked env z) (by intro s hs; simp at hs) hu
  rw [List.nil_append] at hkept
  rw [thingsOf_append hr]
  obtain ⟨k, k1, _⟩ := image_held (env := env) (z := z) hk (id := id) (file := file) (x := x) (y := y) (rect := rect) h
  have hs2 : (g.image env id file x y rect).state.imgCaches.map (·.1) = (pictures (cs ++ [.image id file x y rect])).map (·.1) := by
    rw [pictures_snoc]
    exact (hkept.image hk.whole h).ids
  generalize thingsOf env (Gp.start z none) cs [] = l at hl hfur
  obtain ⟨m, a, rfl⟩ : ∃ m a, l = m ++ [a] := by
    rcases List.eq_nil_or_concat l with rfl | ⟨m, a, rfl⟩
    · exact absurd rfl hl
    · exact ⟨m, a, by simp⟩
  obtain ⟨klt, kid, _⟩ := List.findIdx?_eq_some_iff_getElem.1 k1
  have hid : ((pictures (cs ++ [.image id file x y rect])).map (·.1))[k]? = some id := by
    rw [← hs2, List.getElem?_map, List.getElem?_eq_getElem klt]
    simpa using kid
  rw [List.getElem?_map] at hid
  obtain ⟨⟨id', f⟩, e1, e2⟩ := Option.map_eq_some_iff.1 hid
  simp only at e2
  subst e2
  refine ⟨(a.1, a.2 ++ [.image k x y (rect.getD ((((g.image env id' file x y rect).state.imgCaches[k]?).map (fun d => d.2.2)).getD ⟨0, 0⟩))]), k, rect.getD ((((g.image env id' file x y rect).state.imgCaches[k]?).map (fun d => d.2.2)).getD ⟨0, 0⟩), f, ?_, ?_, ?_, e1, ?_⟩
  · unfold thingStep
    simp only [Gp.call, k1, lastPage_eq, onLast_append]
    rw [List.getLast?_append]
    rfl
  · exact List.getLast?_concat
  · rintro q rfl
    rfl
  · intro hnew
    rw [pictures_snoc] at e1
    simp only at e1
    rw [if_neg (by
      rw [List.any_eq_true]
      rintro ⟨p, p1, p2⟩
      exact hnew p p1 (by simpa using p2))] at e1
    rcases get_snoc e1 with e1 | ⟨_, e1⟩
    · exact absurd rfl (hnew _ (List.mem_of_getElem? e1))
    · simp only [Prod.mk.injEq] at e1
      exact e1.2

end Verif
