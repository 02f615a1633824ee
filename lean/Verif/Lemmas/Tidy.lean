import Verif.Lemmas.Layout
import Verif.Spec.Names
/-
Tidy dictionaries are read back as they are.
-/
namespace Verif
open Spec

theorem lacks_iff {w s : Bytes} : Lacks w s ↔ ¬ w <:+: s := by
  unfold Lacks
  constructor
  · rintro h ⟨a, b, hab⟩
    refine h (w ++ b) ((List.mem_tails _ _).2 ⟨a, by rw [← hab]; simp⟩) ?_
    simp
  · intro h t ht e
    obtain ⟨a, ha⟩ := (List.mem_tails _ _).1 ht
    apply h
    rw [← ha]
    exact List.IsInfix.trans (List.IsPrefix.isInfix (by rw [← e]; exact List.take_prefix _ _)) (List.suffix_append a t).isInfix

theorem regular_keyOk {k : Bytes} (h : ∀ c ∈ k, Regular c) : KeyOk k := by
  intro c hc
  obtain ⟨h1, h2, h3, h4, h5, h6, h7⟩ := h c hc
  have hne : ∀ d : UInt8, d.toNat ≤ 32 → c ≠ d := by
    rintro d hd rfl
    have : 32 < c.toNat := h1
    omega
  refine ⟨?_, hne 32 (by decide), h6, h4, h3, hne 9 (by decide), hne 10 (by decide), hne 13 (by decide)⟩
  have : c.toNat < 127 := h2
  show c.toNat < 128
  omega

theorem printable_byte {c : UInt8} (h : 32 ≤ c ∧ c < 127) : c < 128 ∧ c ≠ 9 ∧ c ≠ 10 ∧ c ≠ 13 ∧ (c ≠ 32 → isSp c = false) := by
  have h1 : 32 ≤ c.toNat := h.1
  have h2 : c.toNat < 127 := h.2
  have hne : ∀ d : UInt8, d.toNat < 32 → c ≠ d := by
    rintro d hd rfl
    omega
  refine ⟨by show c.toNat < 128; omega, hne 9 (by decide), hne 10 (by decide), hne 13 (by decide), fun h => ?_⟩
  simp [isSp, h, hne 9 (by decide), hne 10 (by decide), hne 11 (by decide), hne 12 (by decide), hne 13 (by decide)]

theorem afterBlank_drop {t y : Bytes} (h : AfterBlank t) (hy : Term y) : dropSp (t ++ y) = false := by
  obtain ⟨h1, h2, h3⟩ := h
  cases hd : dropSp (t ++ y) with
  | false => rfl
  | true =>
    exfalso
    rw [dropSp_iff] at hd
    cases t with
    | nil => exact h1 rfl
    | cons c u =>
      obtain ⟨_, a2, a3, a4, a5⟩ := h2 c rfl
      simp only [List.cons_append, List.cons.injEq] at hd
      obtain ⟨v, h | h | h | h | h⟩ := hd
      · exact a2 h.1
      · exact a3 h.1
      · exact a4 h.1
      · obtain ⟨rfl, h⟩ := h
        cases u with
        | nil =>
          rcases hy with rfl | ⟨z, rfl⟩ | ⟨z, rfl⟩
          · simp at h
          · simp at h
          · simp at h
        | cons d u =>
          simp at h
          rw [h.1] at h3
          simp at h3
      · exact a5 h.1

theorem Spec.TidyVal.space {v t : Bytes} (h : TidyVal v) (ht : (32 :: t) <:+ v) : AfterBlank t :=
  h.blanks (32 :: t) ((List.mem_tails _ _).2 ht) rfl

theorem Spec.TidyVal.SS {v : Bytes} (h : TidyVal v) : SS v := by
  refine ⟨fun c hc => ?_, ?_⟩
  · obtain ⟨_, a, b, c, _⟩ := printable_byte (h.printable c hc)
    exact ⟨a, b, c⟩
  · rintro ⟨a, b, hab⟩
    have := h.space (t := 32 :: b) ⟨a, by rw [← hab]; simp⟩
    exact (this.2.1 32 rfl).1 rfl

theorem Spec.TidyVal.end_ne {v : Bytes} (h : TidyVal v) : v.getLast? ≠ some 32 := by
  intro e
  obtain ⟨u, rfl⟩ := List.getLast?_eq_some_iff.1 e
  exact (h.space (t := []) ⟨u, rfl⟩).1 rfl

theorem groupEnd_scan {v : Bytes} : ∀ {a b : Nat}, (a ≠ 0 ∨ b ≠ 0) → groupEnd a b v = true → valScan a b v = some none := by
  induction v with
  | nil => intro a b _ h; simp [groupEnd] at h
  | cons c t ih =>
    intro a b hab h
    rw [groupEnd] at h
    rw [valScan]
    have hn47 : ¬ (c = 47 ∧ (a : Int) = 0 ∧ (b : Int) = 0) := by omega
    split at h
    · rename_i hc
      rw [if_neg (by subst hc; simp), if_neg hn47]
      have := ih (a := a + 1) (b := b) (Or.inl (by omega)) h
      subst hc
      simpa [cnt1, cnt2] using this
    · rename_i c1
      split at h
      · rename_i hc
        rw [if_neg (by subst hc; simp), if_neg hn47]
        have := ih (a := a) (b := b + 1) (Or.inr (by omega)) h
        subst hc
        simpa [cnt1, cnt2] using this
      · rename_i c2
        split at h
        · rename_i hc
          subst hc
          split at h
          · simp at h
          · rename_i ha
            split at h
            · rename_i h1
              rw [if_pos (by simp [cnt1, cnt2, h1.1, h1.2]), if_pos (by simpa using h)]
            · rename_i h1
              rw [if_neg (by simp only [cnt1, cnt2]; intro hx; simp at hx; omega), if_neg hn47]
              have := ih (a := a - 1) (b := b) (by omega) h
              have e : ((a - 1 : Nat) : Int) = (a : Int) - 1 := by omega
              rw [e] at this
              simpa [cnt1, cnt2] using this
        · rename_i c3
          split at h
          · rename_i hc
            subst hc
            split at h
            · simp at h
            · rename_i hb
              split at h
              · rename_i h1
                rw [if_pos (by simp [cnt1, cnt2, h1.1, h1.2]), if_pos (by simpa using h)]
              · rename_i h1
                rw [if_neg (by simp only [cnt1, cnt2]; intro hx; simp at hx; omega), if_neg hn47]
                have := ih (a := a) (b := b - 1) (by omega) h
                have e : ((b - 1 : Nat) : Int) = (b : Int) - 1 := by omega
                rw [e] at this
                simpa [cnt1, cnt2] using this
          · rename_i c4
            rw [if_neg (by intro hx; exact hx.1.elim c4 c3), if_neg hn47]
            have := ih hab h
            simpa [cnt1, cnt2, c1, c2, c3, c4] using this

theorem plain_scan : ∀ {v : Bytes}, PlainVal v → ∀ (a b : Int), (a = 0 ∧ b = 0) ∨ True → valScan a b v = some (some (a, b))
  | [], _, a, b, _ => rfl
  | c :: t, h, a, b, _ => by
    obtain ⟨h1, h2, h3, h4, h5⟩ := h c (by simp)
    rw [valScan, if_neg (by intro hx; exact hx.1.elim h3 h5), if_neg (fun hx => h1 hx.1)]
    have := plain_scan (v := t) (fun d hd => h d (by simp [hd])) a b (Or.inr trivial)
    simpa [cnt1, cnt2, h2, h3, h4, h5] using this

theorem Spec.TidyVal.valOk {v : Bytes} (h : TidyVal v) : ValOk false v where
  ascii := fun c hc => (printable_byte (h.printable c hc)).1
  noTab := fun c hc => by
    obtain ⟨_, a, b, c, _⟩ := printable_byte (h.printable c hc)
    exact ⟨a, b, c⟩
  head := by
    refine ⟨h.first, ?_, ?_, ?_⟩
    · intro e
      rcases h.shape with hs | ⟨hs, _⟩
      · exact (hs 47 (List.mem_of_mem_head? e)).1 rfl
      · rw [e] at hs; simp at hs
    · intro e
      rcases h.shape with hs | ⟨hs, _⟩
      · exact (hs 93 (List.mem_of_mem_head? e)).2.2.1 rfl
      · rw [e] at hs; simp at hs
    · rintro ⟨u, e⟩
      rcases h.shape with hs | ⟨hs, _⟩
      · exact (hs 62 (by rw [← e]; simp)).2.2.2.2 rfl
      · rw [← e] at hs; simp at hs
  space := fun t ht => by
    have := h.space ht
    refine ⟨this.1, fun e => (this.2.1 32 e).1 rfl, ?_⟩
    have := afterBlank_drop this (Or.inl rfl)
    simpa using this
  scan := by
    rcases h.shape with hs | ⟨hs, hg⟩
    · exact Or.inr (Or.inl (plain_scan hs 0 0 (Or.inr trivial)))
    · left
      cases v with
      | nil => simp at hs
      | cons c t =>
        rw [groupEnd] at hg
        rw [valScan]
        rcases hs with hs | hs
        · simp at hs; subst hs
          simp only [if_neg (show ¬ (91 : UInt8) = 60 by decide), if_true] at hg
          have := groupEnd_scan (a := 0) (b := 1) (by simp) hg
          simpa [cnt1, cnt2] using this
        · simp at hs; subst hs
          simp only [if_true] at hg
          have := groupEnd_scan (a := 1) (b := 0) (by simp) hg
          simpa [cnt1, cnt2] using this

theorem Spec.Tidy.tail {p : PropD} {ps : Props} (h : Tidy (p :: ps)) : Tidy ps := fun q hq => h q (by simp [hq])

theorem Spec.Tidy.append {ps qs : Props} (h : Tidy ps) (h' : Tidy qs) : Tidy (ps ++ qs) := by
  intro p hp
  rcases List.mem_append.1 hp with hp | hp
  · exact h p hp
  · exact h' p hp

theorem tidy_last {p : PropD} (hk : ∀ c ∈ p.key, Regular c) (hv : TidyVal p.rawVal) : LastOk p := by
  intro c hc
  rcases List.mem_cons.1 (List.mem_of_getLast? hc) with rfl | hm
  · rfl
  · rcases List.mem_append.1 hm with hm | hm
    · obtain ⟨h1, h2, _⟩ := hk c hm
      have h1' : 32 < c.toNat := h1
      exact (printable_byte ⟨by show 32 ≤ c.toNat; omega, h2⟩).2.2.2.2 (by rintro rfl; simp at h1)
    · refine (printable_byte (hv.printable c hm)).2.2.2.2 ?_
      rintro rfl
      have hne : p.rawVal ≠ [] := by intro e; rw [e] at hm; simp at hm
      have : (47 :: (p.key ++ p.rawVal)).getLast? = p.rawVal.getLast? := by
        rw [show (47 :: (p.key ++ p.rawVal) : Bytes) = (47 :: p.key) ++ p.rawVal by simp, getLast?_append_of hne]
      rw [this] at hc
      exact hv.end_ne hc

theorem Spec.Tidy.canon {ps : Props} (h : Tidy ps) : Canon ps := by
  induction ps with
  | nil => trivial
  | cons p t ih =>
    obtain ⟨h1, h2, _⟩ := h p (by simp)
    exact Canon.cons (regular_keyOk h1) h2.valOk (fun _ => tidy_last h1 h2) (ih (Spec.Tidy.tail h))

theorem nf_tidy {v y : Bytes} (h : TidyVal v) (hy : Term y) : nf (v ++ y) = v ++ nf y := by
  unfold nf
  rw [collapseWs_append, (collapseWs_of_SS h.SS).1]
  have hb : ∀ b, collapseWs b y = collapseWs false y := hy.collapse
  rw [hb]
  apply stripQ_append_clean
  intro t ht
  apply afterBlank_drop (h.space ht)
  rcases hy with rfl | ⟨u, rfl⟩ | ⟨u, rfl⟩
  · exact Or.inl rfl
  · exact Or.inr (Or.inl ⟨_, by simp [collapseWs, isWs]; rfl⟩)
  · exact Or.inr (Or.inr ⟨_, by simp [collapseWs, isWs]; rfl⟩)

theorem compact_term {ps : Props} {y : Bytes} (hy : Term y) : Term (compact ps ++ y) := by
  cases ps with
  | nil => exact hy
  | cons p t => exact Or.inr (Or.inl ⟨_, rfl⟩)

theorem dropSp_tidy {v y : Bytes} (h : TidyVal v) (hv : v ≠ []) (hy : Term y) : dropSp (v ++ y) = noSep v := by
  cases v with
  | nil => exact absurd rfl hv
  | cons c u =>
    have ho := h.valOk.head
    have e1 : dropSp (c :: u) = noSep (c :: u) := by
      have := dropSp_val (y := []) hv ho (Or.inl rfl)
      simpa using this
    cases hd : noSep (c :: u) with
    | true => rw [hd] at e1; exact dropSp_append _ e1
    | false =>
      rw [hd] at e1
      cases hx : dropSp (c :: u ++ y) with
      | false => rfl
      | true =>
        exfalso
        rw [dropSp_iff] at hx
        obtain ⟨z, hx⟩ := hx
        simp only [List.cons_append, List.cons.injEq] at hx
        rcases hx with hx | hx | hx | hx | hx
        · exact ho.2.1 (by rw [hx.1]; rfl)
        · rw [hx.1] at e1; simp [dropSp] at e1
        · exact ho.2.2.1 (by rw [hx.1]; rfl)
        · obtain ⟨rfl, hx⟩ := hx
          cases u with
          | nil => rcases hy with rfl | ⟨w, rfl⟩ | ⟨w, rfl⟩ <;> simp at hx
          | cons d u => simp at hx; rw [hx.1] at e1; simp [dropSp] at e1
        · rcases h.shape with hs | ⟨hs, _⟩
          · exact (hs c (by simp)).2.2.2.2 hx.1
          · rw [hx.1] at hs; simp at hs

/-- a blank and a value -/
theorem nf_blank_tidy {v y : Bytes} (h : TidyVal v) (hv : v ≠ []) (hy : Term y) : nf (32 :: (v ++ y)) = (if noSep v then [] else [32]) ++ v ++ nf y := by
  have hc : collapseWs true (v ++ y) = collapseWs false (v ++ y) := by
    cases v with
    | nil => exact absurd rfl hv
    | cons c u =>
      have hw : isWs c = false := isWs_false (h.SS.1 c (by simp)) (by intro e; exact h.first (by rw [e]; rfl))
      simp [collapseWs, hw]
  have hc2 : collapseWs false (v ++ y) = v ++ collapseWs false y := by
    rw [collapseWs_append, (collapseWs_of_SS h.SS).1, hy.collapse]
  have hty : Term (collapseWs false y) := by
    rcases hy with rfl | ⟨u, rfl⟩ | ⟨u, rfl⟩
    · exact Or.inl rfl
    · exact Or.inr (Or.inl ⟨_, by simp [collapseWs, isWs]; rfl⟩)
    · exact Or.inr (Or.inr ⟨_, by simp [collapseWs, isWs]; rfl⟩)
  have hn := nf_tidy h hy
  have e : nf (32 :: (v ++ y)) = stripQ dropSp (32 :: collapseWs false (v ++ y)) := by
    unfold nf
    rw [collapseWs, if_pos (show isWs 32 = true from rfl), if_neg (by simp), hc]
  rw [e, stripQ, hc2, dropSp_tidy h hv hty, ← hc2, show stripQ dropSp (collapseWs false (v ++ y)) = nf (v ++ y) from rfl, hn]
  cases noSep v <;> simp

theorem nf_compact {ps : Props} (h : Tidy ps) {y : Bytes} (hy : Term y) : nf (compact ps ++ y) = compact ps ++ nf y := by
  induction ps with
  | nil => rfl
  | cons p t ih =>
    obtain ⟨h1, h2, _⟩ := h p (by simp)
    have hty := compact_term (ps := t) hy
    have e : compact (p :: t) ++ y = (47 :: p.key) ++ ((if noSep p.rawVal then [] else [32]) ++ p.rawVal ++ (compact t ++ y)) := by
      simp [compact, compact1]
    rw [e, nf_clean (regular_keyOk h1).noWs]
    have hv : nf ((if noSep p.rawVal then [] else [32]) ++ p.rawVal ++ (compact t ++ y)) = (if noSep p.rawVal then [] else [32]) ++ p.rawVal ++ nf (compact t ++ y) := by
      by_cases hs : noSep p.rawVal = true
      · simp only [hs, if_true, List.nil_append]
        exact nf_tidy h2 hty
      · have hs : noSep p.rawVal = false := by simpa using hs
        have hne : p.rawVal ≠ [] := by intro e; rw [e] at hs; simp [noSep] at hs
        simp only [hs, Bool.false_eq_true, if_false]
        have := nf_blank_tidy h2 hne hty
        simpa [hs] using this
    rw [hv, ih (Spec.Tidy.tail h)]
    simp [compact, compact1]

/-! ### nesting -/

/-- the brackets of the text are closed in it -/
def Neutral (x : Bytes) : Prop := ∀ (a b : Nat) (y : Bytes), (a ≠ 0 ∨ b ≠ 0) → groupEnd a b (x ++ y) = groupEnd a b y

theorem Neutral.append {x z : Bytes} (hx : Neutral x) (hz : Neutral z) : Neutral (x ++ z) := by
  intro a b y h
  rw [List.append_assoc, hx a b _ h, hz a b y h]

theorem neutral_of {x : Bytes} (h : ∀ c ∈ x, c ≠ 60 ∧ c ≠ 62 ∧ c ≠ 91 ∧ c ≠ 93) : Neutral x := by
  intro a b y _
  induction x with
  | nil => rfl
  | cons c t ih =>
    obtain ⟨h1, h2, h3, h4⟩ := h c (by simp)
    rw [List.cons_append, groupEnd, if_neg h1, if_neg h3, if_neg h2, if_neg h4]
    exact ih (fun d hd => h d (by simp [hd]))

theorem groupEnd_shift {v : Bytes} : ∀ {a' b' : Nat}, groupEnd a' b' v = true → ∀ (a b : Nat) (y : Bytes), (a ≠ 0 ∨ b ≠ 0) →
    groupEnd (a + a') (b + b') (v ++ y) = groupEnd a b y := by
  induction v with
  | nil => intro a' b' h; simp [groupEnd] at h
  | cons c t ih =>
    intro a' b' h a b y hab
    rw [groupEnd] at h
    rw [List.cons_append, groupEnd]
    split at h
    · rename_i hc
      rw [if_pos hc]
      exact ih h a b y hab
    · rename_i c1
      rw [if_neg c1]
      split at h
      · rename_i hc
        rw [if_pos hc]
        exact ih h a b y hab
      · rename_i c2
        rw [if_neg c2]
        split at h
        · rename_i hc
          rw [if_pos hc]
          split at h
          · simp at h
          · rename_i ha
            rw [if_neg (by omega), if_neg (by omega)]
            split at h
            · rename_i h1
              have ht : t = [] := by simpa using h
              subst ht
              rw [h1.1, h1.2]
              simp
            · have := ih h a b y hab
              rw [show a + a' - 1 = a + (a' - 1) by omega]
              exact this
        · rename_i c3
          rw [if_neg c3]
          split at h
          · rename_i hc
            rw [if_pos hc]
            split at h
            · simp at h
            · rename_i hb
              rw [if_neg (by omega), if_neg (by omega)]
              split at h
              · rename_i h1
                have ht : t = [] := by simpa using h
                subst ht
                rw [h1.1, h1.2]
                simp
              · have := ih h a b y hab
                rw [show b + b' - 1 = b + (b' - 1) by omega]
                exact this
          · rename_i c4
            rw [if_neg c4]
            exact ih h a b y hab

theorem Spec.TidyVal.neutral {v : Bytes} (h : TidyVal v) : Neutral v := by
  rcases h.shape with hs | ⟨_, hg⟩
  · exact neutral_of (fun c hc => by obtain ⟨_, a, b, c, d⟩ := hs c hc; exact ⟨c, d, a, b⟩)
  · intro a b y hab
    exact groupEnd_shift hg a b y hab

theorem regular_neutral {k : Bytes} (h : ∀ c ∈ k, Regular c) : Neutral k :=
  neutral_of (fun c hc => by obtain ⟨_, _, _, a, b, c, d⟩ := h c hc; exact ⟨c, d, a, b⟩)

theorem compact_neutral {ps : Props} (h : Tidy ps) : Neutral (compact ps) := by
  induction ps with
  | nil => exact fun a b y _ => rfl
  | cons p t ih =>
    obtain ⟨h1, h2, _⟩ := h p (by simp)
    have e : compact (p :: t) = [47] ++ p.key ++ (if noSep p.rawVal then [] else [32]) ++ p.rawVal ++ compact t := by simp [compact, compact1]
    rw [e]
    refine Neutral.append (Neutral.append (Neutral.append (Neutral.append (neutral_of (by decide)) (regular_neutral h1)) ?_) h2.neutral) (ih (Spec.Tidy.tail h))
    split <;> exact neutral_of (by decide)

/-- the dictionary with these entries, as it is read -/
def dictVal (ps : Props) : Bytes := b!"<<" ++ compact ps ++ b!">>"

theorem compact_blanks {ps : Props} (h : Tidy ps) {y : Bytes} (hy : Term y) : ∀ t, (32 :: t) <:+ compact ps ++ y → AfterBlank t ∨ (32 :: t) <:+ y := by
  induction ps with
  | nil => intro t ht; exact Or.inr ht
  | cons p r ih =>
    intro t ht
    obtain ⟨h1, h2, _⟩ := h p (by simp)
    have hty := compact_term (ps := r) hy
    have e : compact (p :: r) ++ y = (47 :: p.key) ++ ((if noSep p.rawVal then [] else [32]) ++ (p.rawVal ++ (compact r ++ y))) := by simp [compact, compact1]
    rw [e] at ht
    have nosp : ∀ {x : Bytes}, ((32 : UInt8) :: x) <:+ 47 :: p.key → False := by
      intro x hx
      have := (regular_keyOk h1).noWs 32 (hx.subset (by simp))
      simp [isWs] at this
    -- a suffix of `z ++ w`
    have sfx : ∀ {z w : Bytes}, (32 :: t) <:+ z ++ w → (32 :: t) <:+ w ∨ ∃ u, t = u ++ w ∧ (32 :: u) <:+ z := by
      rintro z w ⟨a, ha⟩
      rcases List.append_eq_append_iff.1 ha with ⟨c, h3, h4⟩ | ⟨c, h3, h4⟩
      · cases c with
        | nil => exact Or.inl ⟨[], by simpa using h4⟩
        | cons d c =>
          simp at h4
          exact Or.inr ⟨c, h4.2, a, by rw [h3, h4.1]⟩
      · exact Or.inl ⟨c, h4.symm⟩
    rcases sfx ht with ht | ⟨u, _, hu⟩
    · rcases sfx ht with ht | ⟨u, hu1, hu2⟩
      · rcases sfx ht with ht | ⟨u, hu1, hu2⟩
        · exact ih (Spec.Tidy.tail h) t ht
        · left
          have hu := h2.space hu2
          subst hu1
          obtain ⟨a1, a2, a3⟩ := hu
          refine ⟨by simp [a1], ?_, ?_⟩
          · intro c hc
            obtain ⟨d, u', rfl⟩ := List.exists_cons_of_ne_nil a1
            exact a2 c (by simpa using hc)
          · obtain ⟨d, u', rfl⟩ := List.exists_cons_of_ne_nil a1
            cases u' with
            | cons f u' => simpa using a3
            | nil =>
              intro hx
              rcases hty with hz | ⟨z, hz⟩ | ⟨z, hz⟩ <;> rw [hz] at hx <;> simp at hx
      · left
        by_cases hs : noSep p.rawVal = true
        · simp [hs] at hu2
        · have hs : noSep p.rawVal = false := by simpa using hs
          simp only [hs, Bool.false_eq_true, if_false] at hu2
          have hun : u = [] := by
            obtain ⟨a, ha⟩ := hu2
            have := congrArg List.length ha
            simp at this
            exact List.eq_nil_of_length_eq_zero (by omega)
          subst hun
          have hne : p.rawVal ≠ [] := by intro e; rw [e] at hs; simp [noSep] at hs
          rw [hu1, List.nil_append]
          have ho := h2.valOk.head
          obtain ⟨d, u', hd⟩ := List.exists_cons_of_ne_nil hne
          refine ⟨by simp [hne], ?_, ?_⟩
          · intro c hc
            rw [hd] at hc
            simp at hc
            subst hc
            rw [hd] at ho hs
            refine ⟨?_, ?_, ?_, ?_, ?_⟩
            · intro e; exact ho.1 (by rw [e]; rfl)
            · intro e; exact ho.2.1 (by rw [e]; rfl)
            · intro e; rw [e] at hs; simp [noSep] at hs
            · intro e; exact ho.2.2.1 (by rw [e]; rfl)
            · intro e
              rcases h2.shape with hsh | ⟨hsh, _⟩
              · exact (hsh d (by rw [hd]; simp)).2.2.2.2 e
              · rw [hd, e] at hsh; simp at hsh
          · rw [hd] at hs ⊢
            cases u' with
            | cons f u' =>
              intro hx
              simp at hx
              rw [hx.1, hx.2] at hs
              simp [noSep] at hs
            | nil =>
              intro hx
              rcases hty with hz | ⟨z, hz⟩ | ⟨z, hz⟩ <;> rw [hz] at hx <;> simp at hx
    · exact (nosp hu).elim

theorem compact_printable {ps : Props} (h : Tidy ps) : ∀ c ∈ compact ps, 32 ≤ c ∧ c < 127 := by
  intro c hc
  obtain ⟨p, hp, hc⟩ := List.mem_flatMap.1 hc
  obtain ⟨h1, h2, _⟩ := h p hp
  rw [compact1] at hc
  rcases List.mem_cons.1 hc with rfl | hc
  · decide
  · rcases List.mem_append.1 hc with hc | hc
    · obtain ⟨a, b, _⟩ := h1 c hc
      exact ⟨UInt8.le_of_lt a, b⟩
    · rcases List.mem_append.1 hc with hc | hc
      · split at hc <;> simp at hc
        subst hc
        decide
      · exact h2.printable c hc

theorem tidy_dictVal {ps : Props} (h : Tidy ps) : TidyVal (dictVal ps) where
  printable := by
    intro c hc
    rcases List.mem_append.1 hc with hc | hc
    · rcases List.mem_append.1 hc with hc | hc
      · exact (by decide : ∀ c ∈ (b!"<<" : Bytes), 32 ≤ c ∧ c < 127) c hc
      · exact compact_printable h c hc
    · exact (by decide : ∀ c ∈ (b!">>" : Bytes), 32 ≤ c ∧ c < 127) c hc
  first := by simp [dictVal]
  blanks := by
    intro t ht h32
    have ht := (List.mem_tails _ _).1 ht
    obtain ⟨u, rfl⟩ : ∃ u, t = 32 :: u := by
      cases t with
      | nil => simp at h32
      | cons c u => simp at h32; exact ⟨u, by rw [h32]⟩
    have e : dictVal ps = 60 :: 60 :: (compact ps ++ b!">>") := by simp [dictVal]
    rw [e] at ht
    rcases List.suffix_cons_iff.1 ht with ht | ht
    · simp at ht
    · rcases List.suffix_cons_iff.1 ht with ht | ht
      · simp at ht
      · rcases compact_blanks h (Or.inr (Or.inr ⟨[], rfl⟩)) u ht with hx | hx
        · exact hx
        · exfalso
          have := hx.subset (List.mem_cons_self (a := 32) (l := u))
          simp at this
  shape := by
    right
    refine ⟨Or.inr rfl, ?_⟩
    have e : dictVal ps = 60 :: 60 :: (compact ps ++ b!">>") := by simp [dictVal]
    rw [e, groupEnd, if_pos rfl, groupEnd, if_pos rfl, compact_neutral h _ _ _ (Or.inl (by omega))]
    rfl

theorem lacks_compact {ps : Props} (h : Tidy ps) : ¬ streamKw <:+: compact ps := by
  have key : ∀ y : Bytes, (y = [] ∨ ∃ c u, y = c :: u ∧ c ∉ streamKw ∧ ¬ streamKw <:+: u) → ¬ streamKw <:+: compact ps ++ y := by
    induction ps with
    | nil =>
      rintro y (rfl | ⟨c, u, rfl, hc, hu⟩) hi
      · exact absurd hi (by decide)
      · exact hu (infix_cons_of_not_mem hc hi)
    | cons p t ih =>
      intro y hy hi
      obtain ⟨_, h2, h3, h4⟩ := h p (by simp)
      have ih := ih (Spec.Tidy.tail h) y hy
      have e : compact (p :: t) ++ y = 47 :: (p.key ++ ((if noSep p.rawVal then [] else [32]) ++ (p.rawVal ++ (compact t ++ y)))) := by simp [compact, compact1]
      rw [e] at hi
      have hi := infix_cons_of_not_mem (by decide) hi
      have tl : compact t ++ y = [] ∨ ∃ c u, compact t ++ y = c :: u ∧ c ∉ streamKw := by
        cases t with
        | nil =>
          rcases hy with rfl | ⟨c, u, rfl, hc, _⟩
          · exact Or.inl rfl
          · exact Or.inr ⟨c, u, rfl, hc⟩
        | cons q t => exact Or.inr ⟨47, _, rfl, by decide⟩
      have val : ¬ streamKw <:+: p.rawVal ++ (compact t ++ y) := by
        intro hv
        rcases tl with e | ⟨c, u, e, hc⟩
        · rw [e, List.append_nil] at hv; exact lacks_iff.1 h4 hv
        · rw [e] at hv ih
          rcases infix_split hc hv with hv | hv
          · exact lacks_iff.1 h4 hv
          · exact ih (hv.trans (List.suffix_cons _ _).isInfix)
      by_cases hs : noSep p.rawVal = true
      · simp only [hs, if_true, List.nil_append] at hi
        by_cases hne : p.rawVal = []
        · rw [hne, List.nil_append] at hi
          rcases tl with e | ⟨c, u, e, hc⟩
          · rw [e, List.append_nil] at hi; exact lacks_iff.1 h3 hi
          · rw [e] at hi ih
            rcases infix_split hc hi with hv | hv
            · exact lacks_iff.1 h3 hv
            · exact ih (hv.trans (List.suffix_cons _ _).isInfix)
        · obtain ⟨d, u, hd⟩ := List.exists_cons_of_ne_nil hne
          have hdn : d ∉ streamKw := by
            rw [hd] at hs
            simp [noSep] at hs
            rcases hs with hs | hs
            · rw [← hs]; decide
            · rw [← hs.1]; decide
          rw [hd] at hi val
          rw [List.cons_append] at hi val
          rcases infix_split hdn hi with hi | hi
          · exact lacks_iff.1 h3 hi
          · exact val (hi.trans (List.suffix_cons _ _).isInfix)
      · have hs : noSep p.rawVal = false := by simpa using hs
        simp only [hs, Bool.false_eq_true, if_false] at hi
        rw [List.singleton_append] at hi
        rcases infix_split (by decide) hi with hi | hi
        · exact lacks_iff.1 h3 hi
        · exact val hi
  simpa using key [] (Or.inl rfl)

theorem lacks_dictVal {ps : Props} (h : Tidy ps) : ¬ streamKw <:+: dictVal ps := by
  intro hi
  have e : dictVal ps = 60 :: 60 :: (compact ps ++ 62 :: [62]) := by simp [dictVal]
  rw [e] at hi
  have hi := infix_cons_of_not_mem (by decide) (infix_cons_of_not_mem (by decide) hi)
  rcases infix_split (by decide) hi with hi | hi
  · exact lacks_compact h hi
  · exact absurd hi (by decide)

/-- Reading the dictionary gives its entries. -/
theorem readProperties_dictVal {ps : Props} (h : Tidy ps) : readProperties (dictVal ps) = .ok ps := by
  have e : dictVal ps = b!"<<" ++ compact ps ++ b!">>" ++ [] := by simp [dictVal]
  have hs := lacks_dictVal h
  rw [e] at hs ⊢
  rw [readProperties_brackets hs (by simp), parseProps_eq_run]
  have hn : normalizeProps (compact ps) = compact ps := by
    rw [normalizeProps_eq]
    by_cases hne : ps = []
    · subst hne; rfl
    · obtain ⟨c, hc1, hc2, hc3⟩ := compact_end h.canon hne
      have ht : trimSpace (compact ps) = compact ps := by
        have := trimSpace_ends (a := []) (b := []) (x := compact ps) (c := 47) (e := c) (by simp) (by simp) (by
          obtain ⟨p, t, rfl⟩ := List.exists_cons_of_ne_nil hne
          rfl) hc1 (by decide) (by decide) hc2 hc3
        simpa using this
      rw [ht]
      have := nf_compact h (y := []) (Or.inl rfl)
      simpa [nf, collapseWs, stripQ] using this
  rw [hn, run_compact h.canon]

/-! ### values written by the program -/

theorem writesVal_tidy {v : Bytes} (h : TidyVal v) (hne : v ≠ []) : WritesVal v v := writesVal_of_ok h.valOk hne

/-- a dictionary given by items -/
theorem writesVal_dict {it : Items} {ps : Props} (h : Reads it ps) {a b : Bytes} (ha : ∀ c ∈ a, isWs c = true) (hb : ∀ c ∈ b, isWs c = true) :
    WritesVal (b!"<<" ++ a ++ it.string ++ b!">>" ++ b) (dictVal ps) := by
  refine ⟨by simp [dictVal], fun w y hw hw0 hy hy0 => ?_⟩
  have e : (32 :: ((b!"<<" ++ a ++ it.string ++ b!">>" ++ b) ++ (w ++ y)) : Bytes) = [32] ++ (b!"<<" ++ (a ++ (it.string ++ (b!">>" ++ ((b ++ w) ++ y))))) := by simp
  have h1 : ∀ z, nf ([32] ++ (b!"<<" ++ z)) = nf (b!"<<" ++ z) := by
    intro z
    unfold nf
    simp only [List.cons_append, List.nil_append, collapseWs, isWs]
    simp [stripQ, dropSp]
  have hbw : ∀ c ∈ b ++ w, isWs c = true := by
    intro c hc
    rcases List.mem_append.1 hc with hc | hc
    · exact hb c hc
    · exact hw c hc
  have ht : Term (b!">>" ++ ((b ++ w) ++ y)) := Or.inr (Or.inr ⟨_, rfl⟩)
  rw [e, h1, nf_clean (by decide), nf_ws ha (it.string_term ht) (by simp), nf_items h ht (by simp), nf_clean (by decide), nf_ws hbw hy hy0]
  simp [dictVal, noSep]

end Verif
