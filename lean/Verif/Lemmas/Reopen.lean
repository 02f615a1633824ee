import Verif.Lemmas.Writer
import Verif.Lemmas.Store
import Verif.Lemmas.Find
import Verif.Lemmas.Trim
import Verif.Parser
import Verif.Spec.Reopen
/-
Opening what was written: lemmas.
-/
namespace Verif
open Spec

/-! ### white space around an object does not matter -/

theorem trimLeftAux_split (seqs : List Bytes) : ∀ (s : Bytes) (k : Nat), (∀ c ∈ s.take k, c ∈ seqs.flatten) →
    ∃ w, s = w ++ trimLeftAux seqs k s ∧ ∀ c ∈ w, c ∈ seqs.flatten
  | [], k, _ => ⟨[], by simp [trimLeftAux], by simp⟩
  | c :: t, k + 1, h => by
    obtain ⟨w, h1, h2⟩ := trimLeftAux_split seqs t k (fun d hd => h d (by simp [hd]))
    refine ⟨c :: w, by simp only [trimLeftAux, List.cons_append]; rw [← h1], ?_⟩
    intro d hd
    rcases List.mem_cons.1 hd with rfl | hd
    · exact h _ (by simp)
    · exact h2 d hd
  | c :: t, 0, _ => by
    simp only [trimLeftAux]
    split
    · exact ⟨[], rfl, by simp⟩
    · rename_i n hn
      unfold leadingSpace at hn
      split at hn
      · rename_i q hq
        have hm := List.mem_of_find?_eq_some hq
        have hp := List.find?_some hq
        obtain ⟨y, hy⟩ := List.isPrefixOf_iff_prefix.1 hp
        have hall : ∀ d ∈ (c :: t).take (n + 1), d ∈ seqs.flatten := by
          intro d hd
          rw [← hy, show n + 1 = q.length from hn.symm, List.take_left] at hd
          exact List.mem_flatten.2 ⟨q, hm, hd⟩
        obtain ⟨w, h1, h2⟩ := trimLeftAux_split seqs t n (fun d hd => hall d (by simp [hd]))
        refine ⟨c :: w, by simp only [List.cons_append]; rw [← h1], ?_⟩
        intro d hd
        rcases List.mem_cons.1 hd with rfl | hd
        · exact hall _ (by simp)
        · exact h2 d hd
      · simp at hn

/-- the bytes of white space -/
def spaceBytes : Bytes := spaceSeqs.flatten

theorem trimSpace_split (s : Bytes) : ∃ a b, s = a ++ trimSpace s ++ b ∧ (∀ c ∈ a, c ∈ spaceBytes) ∧ ∀ c ∈ b, c ∈ spaceBytes := by
  obtain ⟨a, h1, h2⟩ := trimLeftAux_split spaceSeqs s 0 (by simp)
  obtain ⟨b, h3, h4⟩ := trimLeftAux_split (spaceSeqs.map List.reverse) (trimLeftSpace s).reverse 0 (by simp)
  refine ⟨a, b.reverse, ?_, h2, ?_⟩
  · have : trimLeftSpace s = trimSpace s ++ b.reverse := by
      have := congrArg List.reverse h3
      rw [List.reverse_reverse, List.reverse_append] at this
      exact this
    rw [List.append_assoc, ← this]
    exact h1
  · intro c hc
    have := h4 c (by simpa using hc)
    rw [List.mem_flatten] at this
    obtain ⟨q, hq, hc⟩ := this
    obtain ⟨q', hq', rfl⟩ := List.mem_map.1 hq
    exact List.mem_flatten.2 ⟨q', hq', by simpa using hc⟩

theorem index_left {pat : Bytes} (hp : pat ≠ []) : ∀ {w : Bytes}, (∀ c ∈ w, c ∉ pat) → ∀ s, index pat (w ++ s) = (index pat s).map (· + w.length)
  | [], _, s => by simp
  | c :: w, h, s => by
    have hc : pat.isPrefixOf (c :: (w ++ s)) = false := by
      cases pat with
      | nil => exact absurd rfl hp
      | cons d p =>
        have : ¬ d = c := fun e => h c (by simp) (by simp [e])
        simp [List.isPrefixOf, this]
    rw [List.cons_append, index, hc, if_neg (by simp), index_left hp (fun d hd => h d (by simp [hd])) s]
    cases index pat s <;> simp
    omega

theorem lastIndex_left {pat : Bytes} (hp : pat ≠ []) : ∀ {w : Bytes}, (∀ c ∈ w, c ∉ pat) → ∀ s, lastIndex pat (w ++ s) = (lastIndex pat s).map (· + w.length)
  | [], _, s => by simp
  | c :: w, h, s => by
    have hc : pat.isPrefixOf (c :: (w ++ s)) = false := by
      cases pat with
      | nil => exact absurd rfl hp
      | cons d p =>
        have : ¬ d = c := fun e => h c (by simp) (by simp [e])
        simp [List.isPrefixOf, this]
    rw [List.cons_append, lastIndex, lastIndex_left hp (fun d hd => h d (by simp [hd])) s, hc]
    cases lastIndex pat s <;> simp
    omega

theorem isPrefixOf_right {pat w : Bytes} (h : ∀ c ∈ w, c ∉ pat) : ∀ s : Bytes, pat.isPrefixOf (s ++ w) = pat.isPrefixOf s := by
  induction pat with
  | nil => simp
  | cons d p ih =>
    intro s
    cases s with
    | nil =>
      cases w with
      | nil => rfl
      | cons c w =>
        have : ¬ d = c := fun e => h c (by simp) (by simp [e])
        simp [List.isPrefixOf, this]
    | cons c s =>
      rw [List.cons_append, List.isPrefixOf, List.isPrefixOf, ih (fun c hc hm => h c hc (by simp [hm]))]

theorem index_right {pat w : Bytes} (hp : pat ≠ []) (h : ∀ c ∈ w, c ∉ pat) : ∀ s : Bytes, index pat (s ++ w) = index pat s
  | [] => by
    rw [List.nil_append]
    have := index_left hp h []
    rw [List.append_nil] at this
    rw [this]
    cases pat with
    | nil => exact absurd rfl hp
    | cons d p => simp [index]
  | c :: s => by
    rw [List.cons_append, index, index, ← List.cons_append, isPrefixOf_right h, index_right hp h s]

theorem lastIndex_right {pat w : Bytes} (hp : pat ≠ []) (h : ∀ c ∈ w, c ∉ pat) : ∀ s : Bytes, lastIndex pat (s ++ w) = lastIndex pat s
  | [] => by
    rw [List.nil_append]
    have := lastIndex_left hp h []
    rw [List.append_nil] at this
    rw [this]
    cases pat with
    | nil => exact absurd rfl hp
    | cons d p => simp [lastIndex]
  | c :: s => by
    rw [List.cons_append, lastIndex, lastIndex, ← List.cons_append, isPrefixOf_right h, lastIndex_right hp h s]

theorem readProperties_around {a b : Bytes} (ha : ∀ c ∈ a, c ∈ spaceBytes) (hb : ∀ c ∈ b, c ∈ spaceBytes) (s : Bytes) :
    readProperties (a ++ s ++ b) = readProperties s := by
  have out : ∀ {p : Bytes}, (∀ c ∈ p, c ∉ spaceBytes) → ∀ {w : Bytes}, (∀ c ∈ w, c ∈ spaceBytes) → ∀ c ∈ w, c ∉ p :=
    fun hp w hw c hc hm => hp c hm (hw c hc)
  have hst : ∀ c ∈ streamKw, c ∉ spaceBytes := by decide
  have hop : ∀ c ∈ b!"<<", c ∉ spaceBytes := by decide
  have hcl : ∀ c ∈ b!">>", c ∉ spaceBytes := by decide
  -- the part before the stream
  have hbs : ∃ b', (∀ c ∈ b', c ∈ spaceBytes) ∧ beforeStream (a ++ s ++ b) = a ++ beforeStream s ++ b' := by
    unfold beforeStream
    rw [index_right (by decide) (out hst hb), index_left (by decide) (out hst ha)]
    cases hi : index streamKw s with
    | none => exact ⟨b, hb, by simp⟩
    | some i =>
      refine ⟨[], by simp, ?_⟩
      have hi' := (index_some hi).1
      simp only [Option.map_some, List.append_nil, List.append_assoc]
      rw [Nat.add_comm, List.take_length_add_append, List.take_append_of_le_length hi']
  obtain ⟨b', hb', hbs⟩ := hbs
  unfold readProperties
  rw [hbs, index_right (by decide) (out hop hb'), index_left (by decide) (out hop ha), lastIndex_right (by decide) (out hcl hb'),
    lastIndex_left (by decide) (out hcl ha)]
  cases hi : index b!"<<" (beforeStream s) with
  | none => simp
  | some i =>
    cases he : lastIndex b!">>" (beforeStream s) with
    | none => simp
    | some e =>
      have he' := (lastIndex_some he).1
      have hl : (beforeStream s).length ≤ s.length := by
        unfold beforeStream
        split <;> simp
      simp only [Option.map_some, gt_iff_lt, Nat.add_lt_add_iff_right]
      by_cases h : e < i
      · simp [h]
      · rw [if_neg h, if_neg h, List.append_assoc, Nat.add_comm e, List.take_length_add_append, List.take_append_of_le_length (by omega),
          show i + a.length + 2 = a.length + (i + 2) by omega, List.drop_length_add_append]

/-- the entries of an object are those of the object read back -/
theorem readProperties_between (s : Bytes) : readProperties (between (trimSpace s)) = readProperties s := by
  obtain ⟨a, b, h, ha, hb⟩ := trimSpace_split s
  have h1 : readProperties s = readProperties (trimSpace s) := by
    conv => lhs; rw [h]
    exact readProperties_around ha hb _
  rw [h1, between]
  exact readProperties_around (by decide) (by decide) _

/-! ### searching for words -/

/-- A word without line ends that is not found in a text ending with a line end is found directly after it. -/
theorem index_at {pat x y : Bytes} (h10 : (10 : UInt8) ∉ pat) (hx : ¬ pat <:+: x) : index pat (x ++ 10 :: (pat ++ y)) = some (x.length + 1) := by
  refine index_eq (by simp) ?_ ?_
  · have : (x ++ 10 :: (pat ++ y)).drop (x.length + 1) = pat ++ y := by
      rw [List.drop_length_add_append]; rfl
    rw [this]; exact List.prefix_append _ _
  · intro j hj hp
    have hj' : j ≤ x.length := by omega
    have e : (x ++ 10 :: (pat ++ y)).drop j = x.drop j ++ 10 :: (pat ++ y) := List.drop_append_of_le_length hj'
    rw [e] at hp
    obtain ⟨z, hz⟩ := hp
    by_cases hl : pat.length ≤ (x.drop j).length
    · have h1 : pat = (x.drop j).take pat.length := by
        have := congrArg (List.take pat.length) hz
        rw [List.take_left, List.take_append_of_le_length hl] at this
        exact this
      exact hx (h1 ▸ ((List.take_prefix _ _).isInfix.trans (List.drop_suffix _ _).isInfix))
    · apply h10
      have h1 : pat = (x.drop j ++ 10 :: (pat ++ y)).take pat.length := by
        rw [← hz, List.take_left]
      rw [h1, List.take_append, List.mem_append]
      right
      obtain ⟨n, hn⟩ : ∃ n, pat.length - (x.drop j).length = n + 1 := ⟨pat.length - (x.drop j).length - 1, by omega⟩
      rw [hn]
      simp

/-- A word that is somewhere is found there or before. -/
theorem index_le {pat x y : Bytes} (hp : pat ≠ []) : ∃ i, index pat (x ++ (pat ++ y)) = some i ∧ i ≤ x.length := by
  cases h : index pat (x ++ (pat ++ y)) with
  | none => exact absurd ⟨x, y, by simp⟩ ((index_none_iff hp).1 h)
  | some i =>
    refine ⟨i, rfl, ?_⟩
    by_contra hc
    exact (index_some h).2.2 x.length (by omega) (by rw [List.drop_left]; exact List.prefix_append _ _)

/-! ### rows of the table -/

theorem spanLen_le (p : UInt8 → Bool) : ∀ s, spanLen p s ≤ s.length
  | [] => by simp [spanLen]
  | c :: t => by
    have := spanLen_le p t
    simp only [spanLen, List.length_cons]
    split <;> omega

theorem spanLen_all {p : UInt8 → Bool} : ∀ {s}, spanLen p s = s.length ↔ ∀ c ∈ s, p c = true
  | [] => by simp [spanLen]
  | c :: t => by
    have := spanLen_le p t
    have ih := spanLen_all (p := p) (s := t)
    simp only [spanLen, List.length_cons, List.mem_cons, forall_eq_or_imp]
    split
    · rename_i h
      simp [h, ← ih]
    · rename_i h
      simp [h]

theorem spanLen_take (p : UInt8 → Bool) (s : Bytes) : ∀ c ∈ s.take (spanLen p s), p c = true := by
  induction s with
  | nil => simp [spanLen]
  | cons c t ih =>
    simp only [spanLen]
    split
    · rename_i h
      simpa [h] using ih
    · simp

theorem spanLen_append {p : UInt8 → Bool} : ∀ {a : Bytes}, (∀ c ∈ a, p c = true) → ∀ {d : UInt8} {y : Bytes}, p d = false → spanLen p (a ++ d :: y) = a.length
  | [], _, d, y, h => by simp [spanLen, h]
  | c :: a, ha, d, y, h => by
    rw [List.cons_append, spanLen, if_pos (ha c (by simp)), spanLen_append (fun c hc => ha c (by simp [hc])) h]
    rfl

theorem dec_iff {c : UInt8} : Dec c ↔ isDigit c = true := (isDigit_iff c).symm

theorem gap_iff {c : UInt8} : Gap c ↔ isTabSp c = true := by simp [Gap, isTabSp]

/-- a match is a text that looks like a row -/
theorem matchXrefLine_some {s : Bytes} {n : Nat} (h : matchXrefLine s = some n) : n ≤ s.length ∧ RowLike (s.take n) := by
  unfold matchXrefLine at h
  split at h
  · rename_i h10
    simp only at h
    split at h
    · simp at h
    · rename_i hw
      split at h
      · rename_i h5
        generalize hg : spanLen isTabSp (s.drop 10) = w at h hw h5
        have l10 : 10 ≤ s.length := by
          have := spanLen_le isDigit (s.take 10)
          rw [h10] at this
          simp at this; omega
        have lw : w ≤ (s.drop 10).length := hg ▸ spanLen_le _ _
        have l5 : 5 ≤ ((s.drop 10).drop w).length := by
          have := spanLen_le isDigit (((s.drop 10).drop w).take 5)
          rw [h5] at this
          simp at this ⊢; omega
        split at h
        · rename_i b c r hr
          split at h
          · rename_i hbc
            simp at h
            subst h
            have hs : s = s.take 10 ++ (s.drop 10).take w ++ ((s.drop 10).drop w).take 5 ++ [b, c] ++ r := by
              have e1 : ((s.drop 10).drop w).take 5 ++ (b :: c :: r) = (s.drop 10).drop w := by rw [← hr, List.take_append_drop]
              have e2 : (s.drop 10).take w ++ (s.drop 10).drop w = s.drop 10 := List.take_append_drop _ _
              simp only [List.append_assoc, List.cons_append, List.nil_append]
              rw [e1, e2, List.take_append_drop]
            have hl : (s.take 10 ++ (s.drop 10).take w ++ ((s.drop 10).drop w).take 5 ++ [b, c]).length = 10 + w + 5 + 2 := by
              simp only [List.length_append, List.length_take, List.length_drop, List.length_cons, List.length_nil] at lw l5 ⊢
              omega
            refine ⟨?_, ?_⟩
            · rw [hs, List.length_append, hl]; omega
            · have ht : s.take (10 + w + 5 + 2) = s.take 10 ++ (s.drop 10).take w ++ ((s.drop 10).drop w).take 5 ++ [b, c] := by
                conv => lhs; rw [hs, ← hl, List.take_left]
              rw [ht]
              refine ⟨_, _, _, b, c, rfl, by simp; omega, ?_, ?_, ?_, by simp at l5 ⊢; omega, ?_, gap_iff.2 hbc.1, hbc.2⟩
              · intro d hd
                exact dec_iff.2 (spanLen_all.1 (by rw [h10]; simp; omega) d hd)
              · intro e
                have := congrArg List.length e
                simp at this lw
                omega
              · intro d hd
                rw [← hg] at hd
                exact gap_iff.2 (spanLen_take _ _ d hd)
              · intro d hd
                exact dec_iff.2 (spanLen_all.1 (by rw [h5]; simp at l5 ⊢; omega) d hd)
          · simp at h
        · simp at h
      · simp at h
  · simp at h

/-- every text that looks like a row is matched -/
theorem matchXrefLine_row {w : Bytes} (h : RowLike w) (y : Bytes) : matchXrefLine (w ++ y) = some w.length := by
  obtain ⟨a, g, b, s, k, rfl, la, ha, hg0, hg, lb, hb, hs, hk⟩ := h
  have e : a ++ g ++ b ++ [s, k] ++ y = a ++ (g ++ (b ++ (s :: k :: y))) := by simp
  obtain ⟨b0, bt, rfl⟩ : ∃ b0 bt, b = b0 :: bt := by
    cases b with
    | nil => simp at lb
    | cons b0 bt => exact ⟨b0, bt, rfl⟩
  have hb0 : isTabSp b0 = false := by
    have := hb b0 (by simp)
    rw [dec_iff] at this
    have h1 := (isDigit_iff b0).1 this
    have h2 : b0 ≠ 9 := by rintro rfl; simp at h1
    have h3 : b0 ≠ 32 := by rintro rfl; simp at h1
    simp [isTabSp, h2, h3]
  have hw : spanLen isTabSp (g ++ ((b0 :: bt) ++ (s :: k :: y))) = g.length := by
    rw [List.cons_append]
    exact spanLen_append (fun c hc => gap_iff.1 (hg c hc)) hb0
  have e1 : (a ++ (g ++ ((b0 :: bt) ++ (s :: k :: y)))).take 10 = a := by rw [← la, List.take_left]
  have e2 : (a ++ (g ++ ((b0 :: bt) ++ (s :: k :: y)))).drop 10 = g ++ ((b0 :: bt) ++ (s :: k :: y)) := by rw [← la, List.drop_left]
  have e3 : ((b0 :: bt) ++ (s :: k :: y)).take 5 = b0 :: bt := by rw [← lb, List.take_left]
  have e4 : ((b0 :: bt) ++ (s :: k :: y)).drop 5 = s :: k :: y := by rw [← lb, List.drop_left]
  have h10 : spanLen isDigit a = 10 := by rw [← la]; exact spanLen_all.2 (fun c hc => dec_iff.1 (ha c hc))
  have h5 : spanLen isDigit (b0 :: bt) = 5 := by rw [← lb]; exact spanLen_all.2 (fun c hc => dec_iff.1 (hb c hc))
  have hg1 : g.length ≠ 0 := by simpa using hg0
  unfold matchXrefLine
  rw [e, e1, if_pos h10]
  simp only [e2, hw, hg1, if_false, List.drop_left, e3, h5, if_true, e4]
  rw [if_pos ⟨gap_iff.1 hs, hk⟩]
  simp [la]
  simp at lb
  omega

/-- no text that looks like a row -/
def NoRow (s : Bytes) : Prop := ∀ w, RowLike w → ¬ w <:+: s

theorem rowLike_no10 {w : Bytes} (h : RowLike w) : (10 : UInt8) ∉ w := by
  obtain ⟨a, g, b, s, k, rfl, _, ha, _, hg, _, hb, hs, hk⟩ := h
  have hd : ∀ {c : UInt8}, Dec c → c ≠ 10 := by rintro c hc rfl; exact absurd hc.1 (by decide)
  have hgp : ∀ {c : UInt8}, Gap c → c ≠ 10 := by rintro c (rfl | rfl) <;> decide
  simp only [List.mem_append, List.mem_cons, List.not_mem_nil, or_false, not_or]
  refine ⟨⟨⟨fun hm => hd (ha _ hm) rfl, fun hm => hgp (hg _ hm) rfl⟩, fun hm => hd (hb _ hm) rfl⟩, fun e => hgp hs e.symm, fun e => ?_⟩
  rcases hk with h | h | h <;> rw [h] at e <;> exact absurd e (by decide)

theorem NoRow.append {a b : Bytes} (ha : NoRow a) (hb : NoRow b) : NoRow (a ++ 10 :: b) := by
  intro w hw hi
  rcases infix_split (rowLike_no10 hw) hi with h | h
  · exact ha w hw h
  · exact hb w hw h

theorem NoRow.match {s : Bytes} (h : NoRow s) : matchXrefLine s = none := by
  cases hm : matchXrefLine s with
  | none => rfl
  | some n => exact absurd (List.take_prefix n s).isInfix (h _ (matchXrefLine_some hm).2)

theorem NoRow.tail {c : UInt8} {s : Bytes} (h : NoRow (c :: s)) : NoRow s := fun w hw hi => h w hw (hi.trans (List.suffix_cons c s).isInfix)

theorem findAll_none : ∀ {s : Bytes} {pos : Nat}, NoRow s → findAll matchXrefLine pos 0 s = []
  | [], _, _ => rfl
  | c :: s, pos, h => by rw [findAll, h.match, findAll_none h.tail]

/-- a text without rows, ended by a line end, is skipped -/
theorem findAll_skip : ∀ {s : Bytes} {pos : Nat} {y : Bytes}, NoRow s → findAll matchXrefLine pos 0 (s ++ 10 :: y) = findAll matchXrefLine (pos + s.length + 1) 0 y
  | [], pos, y, _ => by
    have hm : matchXrefLine (10 :: y) = none := by
      cases hm : matchXrefLine (10 :: y) with
      | none => rfl
      | some n =>
        exfalso
        have h := (matchXrefLine_some hm).2
        have h10 := rowLike_no10 h
        obtain ⟨a, g, b, s, k, e, _⟩ := h
        cases n with
        | zero => simp at e
        | succ n => simp at h10
    simp [findAll, hm]
  | c :: s, pos, y, h => by
    have hm : matchXrefLine (c :: (s ++ 10 :: y)) = none := by
      cases hm : matchXrefLine (c :: (s ++ 10 :: y)) with
      | none => rfl
      | some n =>
        exfalso
        obtain ⟨_, hr⟩ := matchXrefLine_some hm
        have hi := (List.take_prefix n (c :: (s ++ 10 :: y)))
        have h10 := rowLike_no10 hr
        have hl : n ≤ (c :: s).length := by
          by_contra hc
          apply h10
          have e : c :: (s ++ 10 :: y) = (c :: s) ++ 10 :: y := rfl
          rw [e, List.take_append, List.mem_append]
          right
          obtain ⟨m, hm⟩ : ∃ m, n - (c :: s).length = m + 1 := ⟨n - (c :: s).length - 1, by omega⟩
          rw [hm]; simp
        have e : (c :: (s ++ 10 :: y)).take n = (c :: s).take n := by
          have e : c :: (s ++ 10 :: y) = (c :: s) ++ 10 :: y := rfl
          rw [e, List.take_append_of_le_length hl]
        rw [e] at hr
        exact h _ hr (List.take_prefix _ _).isInfix
    rw [List.cons_append, findAll, hm]
    simp only
    rw [findAll_skip h.tail]
    congr 1
    simp; omega

end Verif
