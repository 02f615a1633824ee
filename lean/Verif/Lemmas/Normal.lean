import Verif.Props
import Verif.Lemmas.Trim
import Verif.Lemmas.Find
/-
The white-space normalisation of `readProperties` as one pass.
-/
namespace Verif

/-- A space before this text is removed by the normalisation. -/
def dropSp : Bytes → Bool
  | 47 :: _ => true
  | 91 :: _ => true
  | 93 :: _ => true
  | 60 :: 60 :: _ => true
  | 62 :: 62 :: _ => true
  | _ => false

/-- Remove the spaces selected by `q`. -/
def stripQ (q : Bytes → Bool) : Bytes → Bytes
  | [] => []
  | c :: t => if c = 32 ∧ q t = true then stripQ q t else c :: stripQ q t

/-- Only single spaces as white space (in the sense of the regular expressions). -/
def SS (s : Bytes) : Prop := (∀ c ∈ s, c ≠ 9 ∧ c ≠ 10 ∧ c ≠ 13) ∧ ¬ [32, 32] <:+: s

theorem SS.tail {c : UInt8} {t : Bytes} (h : SS (c :: t)) : SS t :=
  ⟨fun d hd => h.1 d (by simp [hd]), fun h2 => h.2 (h2.trans (List.suffix_cons c t).isInfix)⟩

theorem SS.suffix {s t : Bytes} (h : SS s) (ht : t <:+ s) : SS t :=
  ⟨fun d hd => h.1 d (ht.subset hd), fun h2 => h.2 (h2.trans ht.isInfix)⟩

theorem SS.infix {s t : Bytes} (h : SS s) (ht : t <:+: s) : SS t :=
  ⟨fun d hd => h.1 d (ht.subset hd), fun h2 => h.2 (h2.trans ht)⟩

theorem SS.head_ne {t : Bytes} (h : SS (32 :: t)) {d : UInt8} {u : Bytes} (ht : t = d :: u) : d ≠ 32 := by
  intro e; subst e; subst ht
  exact h.2 ⟨[], u, by simp⟩

theorem isWs_false {d : UInt8} (h1 : d ≠ 9 ∧ d ≠ 10 ∧ d ≠ 13) (h2 : d ≠ 32) : isWs d = false := by
  simp [isWs, h1, h2]

/-- One regular-expression pass on a single-space text. -/
theorem stripWsBefore_eq (pat : Bytes) (hp : pat ≠ []) {s : Bytes} (h : SS s) :
    stripWsBefore pat [] s = stripQ (fun t => pat.isPrefixOf t) s := by
  match s with
  | [] => rfl
  | c :: t =>
    by_cases hc : c = 32
    · subst hc
      have hws : isWs 32 = true := by decide
      match t with
      | [] =>
        simp only [stripWsBefore, hws, if_true, stripQ, List.nil_append]
        cases pat with
        | nil => exact absurd rfl hp
        | cons a b => simp [List.isPrefixOf]
      | d :: u =>
        have hd : d ≠ 32 := h.head_ne rfl
        have hd2 : isWs d = false := isWs_false (h.1 d (by simp)) hd
        have ih := stripWsBefore_eq pat hp (s := u) h.tail.tail
        simp only [stripWsBefore, hws, if_true, hd2, List.nil_append, stripQ, ih]
        simp only [hd, false_and, if_false, true_and]
        simp
    · have hws : isWs c = false := isWs_false (h.1 c (by simp)) hc
      have ih := stripWsBefore_eq pat hp (s := t) h.tail
      simp only [stripWsBefore, hws, stripQ, hc, false_and, if_false, List.nil_append, ih]
      simp

/-- Two passes in one, when the second pattern is not affected by the first pass. -/
theorem stripQ_comp (q1 q2 : Bytes → Bool) {s : Bytes}
    (h : ∀ t, (32 :: t) <:+ s → q1 t = false → q2 (stripQ q1 t) = q2 t) :
    stripQ q2 (stripQ q1 s) = stripQ (fun t => q1 t || q2 t) s := by
  induction s with
  | nil => rfl
  | cons c t ih =>
    have ih' := ih (fun u hu => h u (hu.trans (List.suffix_cons c t)))
    by_cases hc : c = 32
    · subst hc
      cases h1 : q1 t with
      | true => simp [stripQ, h1, ih']
      | false =>
        have h2 := h t (List.suffix_refl _) h1
        simp only [stripQ, h1, h2, ih']
        simp
        simp [stripQ, h2, ih']
    · simp only [stripQ, hc, false_and, if_false, ih']

/-- The first byte is kept when the text does not start with a space. -/
theorem stripQ_cons_ne (q : Bytes → Bool) {c : UInt8} (t : Bytes) (h : c ≠ 32) :
    stripQ q (c :: t) = c :: stripQ q t := by simp [stripQ, h]

theorem isPrefixOf_single (p : UInt8) (t : Bytes) : [p].isPrefixOf t = true ↔ ∃ u, t = p :: u := by
  cases t with
  | nil => simp [List.isPrefixOf]
  | cons c t =>
    simp [List.isPrefixOf]
    constructor <;> (intro h; exact h.symm)

/-- A one-byte pattern after a kept space is unaffected by another pass. -/
theorem single_after (q : Bytes → Bool) (p : UInt8) {t : Bytes} (h : SS (32 :: t)) :
    [p].isPrefixOf (stripQ q t) = [p].isPrefixOf t := by
  cases t with
  | nil => rfl
  | cons d u =>
    have hd : d ≠ 32 := h.head_ne rfl
    rw [stripQ_cons_ne q u hd]
    simp [List.isPrefixOf]

/-- A two-byte pattern `rr` after a kept space is unaffected by a pass that never removes a space before `r`. -/
theorem double_after (q : Bytes → Bool) (r : UInt8) (hr : r ≠ 32) (hq : ∀ u, q (r :: u) = false) {t : Bytes} (h : SS (32 :: t)) :
    [r, r].isPrefixOf (stripQ q t) = [r, r].isPrefixOf t := by
  cases t with
  | nil => rfl
  | cons d u =>
    have hd : d ≠ 32 := h.head_ne rfl
    rw [stripQ_cons_ne q u hd]
    simp only [List.isPrefixOf, Bool.and_true]
    congr 1
    cases u with
    | nil => rfl
    | cons e w =>
      by_cases he : e = 32
      · subst he
        cases hqw : q w with
        | false => simp [stripQ, hqw, List.isPrefixOf]
        | true =>
          simp only [stripQ, hqw, and_self, if_true, List.isPrefixOf]
          cases w with
          | nil => simp [stripQ, Ne.symm hr, hr]
          | cons x y =>
            have hx : x ≠ r := by intro e; subst e; rw [hq] at hqw; simp at hqw
            have hx2 : x ≠ 32 := by
              intro e; subst e
              exact h.2 ⟨[32, d], y, by simp⟩
            have b1 : (r == x) = false := by simpa using Ne.symm hx
            have b2 : (r == 32) = false := by simpa using hr
            simp [stripQ, hx2, List.isPrefixOf, b1, b2]
      · rw [stripQ_cons_ne q w he]
        simp [List.isPrefixOf]

theorem stripQ_congr {q1 q2 : Bytes → Bool} (h : ∀ t, q1 t = q2 t) (s : Bytes) : stripQ q1 s = stripQ q2 s := by
  have : q1 = q2 := funext h
  rw [this]

/-- The head after a removed space is not a space, so passes keep single-space texts single-space. -/
theorem stripQ_SS (q : Bytes → Bool) (hq : ∀ u, q (32 :: u) = false) (hq0 : q [] = false) {s : Bytes} (h : SS s) : SS (stripQ q s) := by
  constructor
  · intro c hc
    have : ∀ s : Bytes, ∀ c ∈ stripQ q s, c ∈ s := by
      intro s
      induction s with
      | nil => simp [stripQ]
      | cons d t ih =>
        intro c hc
        simp only [stripQ] at hc
        split at hc
        · exact List.mem_cons_of_mem _ (ih c hc)
        · simp only [List.mem_cons] at hc ⊢
          rcases hc with hc | hc
          · exact Or.inl hc
          · exact Or.inr (ih c hc)
    exact h.1 c (this s c hc)
  · induction s with
    | nil => simp [stripQ]
    | cons c t ih =>
      simp only [stripQ]
      split
      · exact ih h.tail
      · intro hinf
        rw [List.infix_cons_iff] at hinf
        rcases hinf with hp | hi
        · have hp' := hp
          rw [List.cons_prefix_cons] at hp
          obtain ⟨h1, h2⟩ := hp
          subst h1
          cases t with
          | nil => simp [stripQ] at h2
          | cons d u =>
            have hd : d ≠ 32 := h.head_ne rfl
            rw [stripQ_cons_ne q u hd, List.cons_prefix_cons] at h2
            exact hd h2.1.symm
        · exact ih h.tail hi

theorem collapseWs_head {b : Bool} {s : Bytes} (h : b = true) : ∀ r, collapseWs b s ≠ 32 :: r := by
  induction s with
  | nil => simp [collapseWs]
  | cons c t ih =>
    intro r
    simp only [collapseWs, h]
    split
    · simpa [h] using ih r
    · rename_i hc
      intro e
      simp at e
      apply hc
      rw [e.1]; decide

theorem collapseWs_SS (b : Bool) (s : Bytes) : SS (collapseWs b s) := by
  induction s generalizing b with
  | nil => exact ⟨by simp [collapseWs], by simp [collapseWs]⟩
  | cons c t ih =>
    simp only [collapseWs]
    split
    · split
      · exact ih true
      · refine ⟨?_, ?_⟩
        · intro d hd
          simp only [List.mem_cons] at hd
          rcases hd with hd | hd
          · subst hd; decide
          · exact (ih true).1 d hd
        · intro hinf
          rw [List.infix_cons_iff] at hinf
          rcases hinf with hp | hi
          · rw [List.cons_prefix_cons] at hp
            obtain ⟨u, hu⟩ := hp.2
            exact collapseWs_head rfl u hu.symm
          · exact (ih true).2 hi
    · rename_i hc
      refine ⟨?_, ?_⟩
      · intro d hd
        simp only [List.mem_cons] at hd
        rcases hd with hd | hd
        · subst hd
          simp [isWs] at hc
          exact ⟨hc.2, hc.1.1.2, hc.1.2⟩
        · exact (ih false).1 d hd
      · intro hinf
        rw [List.infix_cons_iff] at hinf
        rcases hinf with hp | hi
        · rw [List.cons_prefix_cons] at hp
          apply hc
          rw [← hp.1]; decide
        · exact (ih false).2 hi

theorem dropSp_eq (t : Bytes) : dropSp t =
    ((([47].isPrefixOf t || [91].isPrefixOf t) || [93].isPrefixOf t) || [60, 60].isPrefixOf t || [62, 62].isPrefixOf t) := by
  unfold dropSp
  split
  · simp [List.isPrefixOf]
  · simp [List.isPrefixOf]
  · simp [List.isPrefixOf]
  · simp [List.isPrefixOf]
  · simp [List.isPrefixOf]
  · rename_i h1 h2 h3 h4 h5
    cases t with
    | nil => simp [List.isPrefixOf]
    | cons c u =>
      have n1 : c ≠ 47 := fun e => h1 u (by rw [e])
      have n2 : c ≠ 91 := fun e => h2 u (by rw [e])
      have n3 : c ≠ 93 := fun e => h3 u (by rw [e])
      cases u with
      | nil => simp [List.isPrefixOf, Ne.symm n1, Ne.symm n2, Ne.symm n3]
      | cons d w =>
        have n4 : ¬ (c = 60 ∧ d = 60) := fun e => h4 w (by rw [e.1, e.2])
        have n5 : ¬ (c = 62 ∧ d = 62) := fun e => h5 w (by rw [e.1, e.2])
        simp [List.isPrefixOf, Ne.symm n1, Ne.symm n2, Ne.symm n3]
        constructor
        · intro e1 e2; exact n4 ⟨e1.symm, e2.symm⟩
        · intro e1 e2; exact n5 ⟨e1.symm, e2.symm⟩

/-- The five regular-expression passes together remove the space exactly where `dropSp` says. -/
theorem normalizeProps_eq (tmp : Bytes) :
    normalizeProps tmp = stripQ dropSp (collapseWs false (trimSpace tmp)) := by
  simp only [normalizeProps]
  generalize hu : collapseWs false (trimSpace tmp) = u
  have hss : SS u := by rw [← hu]; exact collapseWs_SS _ _
  have sfx : ∀ {t}, (32 :: t) <:+ u → SS (32 :: t) := fun h => hss.suffix h
  rw [stripWsBefore_eq b!"/" (by simp) hss]
  have s1 := stripQ_SS (fun t => [47].isPrefixOf t) (by simp [List.isPrefixOf]) (by simp [List.isPrefixOf]) hss
  rw [stripWsBefore_eq b!"[" (by simp) s1]
  rw [stripQ_comp _ _ (s := u) (fun t ht _ => single_after _ _ (sfx ht))]
  have s2 := stripQ_SS (fun t => [47].isPrefixOf t || [91].isPrefixOf t) (by simp [List.isPrefixOf]) (by simp [List.isPrefixOf]) hss
  rw [stripWsBefore_eq b!"]" (by simp) s2]
  rw [stripQ_comp _ _ (s := u) (fun t ht _ => single_after _ _ (sfx ht))]
  have s3 := stripQ_SS (fun t => ([47].isPrefixOf t || [91].isPrefixOf t) || [93].isPrefixOf t) (by simp [List.isPrefixOf]) (by simp [List.isPrefixOf]) hss
  rw [stripWsBefore_eq b!"<<" (by simp) s3]
  rw [stripQ_comp _ _ (s := u) (fun t ht _ => double_after _ _ (by decide) (by simp [List.isPrefixOf]) (sfx ht))]
  have s4 := stripQ_SS (fun t => (([47].isPrefixOf t || [91].isPrefixOf t) || [93].isPrefixOf t) || [60, 60].isPrefixOf t) (by simp [List.isPrefixOf]) (by simp [List.isPrefixOf]) hss
  rw [stripWsBefore_eq b!">>" (by simp) s4]
  rw [stripQ_comp _ _ (s := u) (fun t ht _ => double_after _ _ (by decide) (by simp [List.isPrefixOf]) (sfx ht))]
  exact stripQ_congr (fun t => (dropSp_eq t).symm) u

end Verif
