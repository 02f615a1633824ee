import Verif.GoLib
/-
Lemmas about searching in byte strings.
-/
namespace Verif

theorem index_none_iff {pat s : Bytes} (hp : pat ≠ []) : index pat s = none ↔ ¬ pat <:+: s := by
  induction s with
  | nil =>
    simp only [index]
    constructor
    · intro _ h
      exact hp (List.eq_nil_of_infix_nil h)
    · intro _
      rw [if_neg (by simpa using hp)]
  | cons c t ih =>
    simp only [index]
    rw [List.infix_cons_iff]
    by_cases h : pat <+: (c :: t)
    · have : pat.isPrefixOf (c :: t) = true := List.isPrefixOf_iff_prefix.2 h
      simp [this, h]
    · have : ¬ (pat.isPrefixOf (c :: t) = true) := fun h' => h (List.isPrefixOf_iff_prefix.1 h')
      simp [this, h, ih]

theorem index_some {pat s : Bytes} {i : Nat} (h : index pat s = some i) :
    i ≤ s.length ∧ pat <+: s.drop i ∧ ∀ j < i, ¬ pat <+: s.drop j := by
  induction s generalizing i with
  | nil =>
    simp only [index] at h
    split at h
    · rename_i hp
      simp at h; subst h
      simp at hp; subst hp
      simp
    · simp at h
  | cons c t ih =>
    simp only [index] at h
    split at h
    · rename_i hp
      simp at h; subst h
      refine ⟨by simp, List.isPrefixOf_iff_prefix.1 hp, by omega⟩
    · rename_i hp
      rw [Option.map_eq_some_iff] at h
      obtain ⟨k, hk, he⟩ := h
      subst he
      obtain ⟨h1, h2, h3⟩ := ih hk
      refine ⟨by simp; omega, by simpa using h2, ?_⟩
      intro j hj
      cases j with
      | zero =>
        intro h'
        exact hp (List.isPrefixOf_iff_prefix.2 (by simpa using h'))
      | succ j => simpa using h3 j (by omega)

/-- characterisation of the first occurrence -/
theorem index_eq {pat s : Bytes} {i : Nat} (hi : i ≤ s.length) (h1 : pat <+: s.drop i)
    (h2 : ∀ j < i, ¬ pat <+: s.drop j) : index pat s = some i := by
  induction s generalizing i with
  | nil =>
    simp at hi; subst hi
    simp at h1; subst h1
    simp [index]
  | cons c t ih =>
    simp only [index]
    cases i with
    | zero =>
      rw [if_pos (List.isPrefixOf_iff_prefix.2 (by simpa using h1))]
    | succ i =>
      have h0 := h2 0 (by omega)
      rw [if_neg (fun h => h0 (by simpa using List.isPrefixOf_iff_prefix.1 h))]
      rw [ih (by simpa using hi) (by simpa using h1) (fun j hj => by simpa using h2 (j + 1) (by omega))]
      rfl

theorem lastIndex_some {pat s : Bytes} {i : Nat} (h : lastIndex pat s = some i) :
    i ≤ s.length ∧ pat <+: s.drop i ∧ ∀ j, i < j → j ≤ s.length → ¬ pat <+: s.drop j := by
  induction s generalizing i with
  | nil =>
    simp only [lastIndex] at h
    split at h
    · rename_i hp
      simp at h; subst h
      simp at hp; subst hp
      refine ⟨by simp, by simp, ?_⟩
      intro j hj hl; simp at hl; omega
    · simp at h
  | cons c t ih =>
    simp only [lastIndex] at h
    split at h
    · rename_i k hk
      simp at h; subst h
      obtain ⟨h1, h2, h3⟩ := ih hk
      refine ⟨by simp; omega, by simpa using h2, ?_⟩
      intro j hj hl
      cases j with
      | zero => omega
      | succ j => simpa using h3 j (by omega) (by simpa using hl)
    · rename_i hk
      split at h
      · rename_i hp
        simp at h; subst h
        refine ⟨by simp, List.isPrefixOf_iff_prefix.1 hp, ?_⟩
        intro j hj hl
        cases j with
        | zero => omega
        | succ j =>
          simp only [List.drop_succ_cons]
          intro hpre
          have : ∀ (t : Bytes) (j : Nat), pat <+: t.drop j → j ≤ t.length → lastIndex pat t ≠ none := by
            intro t
            induction t with
            | nil =>
              intro j hpj _
              simp at hpj
              subst hpj
              simp [lastIndex]
            | cons d t ih2 =>
              intro j hpj hjl
              simp only [lastIndex]
              split
              · simp
              · rename_i hn
                cases j with
                | zero => rw [if_pos (List.isPrefixOf_iff_prefix.2 (by simpa using hpj))]; simp
                | succ j => exact absurd hn (ih2 j (by simpa using hpj) (by simpa using hjl))
          exact this t j hpre (by simpa using hl) hk
      · simp at h

theorem lastIndex_append_exact {pat s : Bytes} {t : Bytes} (hp : pat ≠ [])
    (ht : ∀ j, 0 < j → j ≤ (pat ++ t).length → ¬ pat <+: (pat ++ t).drop j) :
    lastIndex pat (s ++ (pat ++ t)) = some s.length := by
  induction s with
  | nil =>
    simp only [List.nil_append, List.length_nil]
    cases pat with
    | nil => exact absurd rfl hp
    | cons c p =>
      simp only [List.cons_append, lastIndex]
      split
      · rename_i k hk
        have := lastIndex_some hk
        exact absurd this.2.1 (by simpa using ht (k + 1) (by omega) (by simp at this ⊢; omega))
      · have : (c :: p).isPrefixOf (c :: (p ++ t)) = true := List.isPrefixOf_iff_prefix.2 ⟨t, rfl⟩
        rw [if_pos this]
  | cons c s ih =>
    simp only [List.cons_append, lastIndex, ih, List.length_cons]

/-- A word that avoids the byte `d` occurs on one side of `d`. -/
theorem infix_split {w a b : Bytes} {d : UInt8} (hd : d ∉ w) (h : w <:+: a ++ d :: b) : w <:+: a ∨ w <:+: b := by
  obtain ⟨x, y, hxy⟩ := h
  rw [List.append_assoc] at hxy
  rcases List.append_eq_append_iff.1 hxy with ⟨a', h1, h2⟩ | ⟨c', h1, h2⟩
  · -- a = x ++ a', w ++ y = a' ++ d :: b
    rcases List.append_eq_append_iff.1 h2 with ⟨a'', h3, h4⟩ | ⟨c'', h3, h4⟩
    · left
      subst h1
      exact ⟨x, a'', by rw [h3]; simp⟩
    · cases c'' with
      | nil =>
        left
        subst h1
        refine ⟨x, [], ?_⟩
        simp at h3
        simp [h3]
      | cons e c'' =>
        simp at h4
        exfalso; apply hd
        rw [h3, ← h4.1]; simp
  · -- x = a ++ c', d :: b = c' ++ (w ++ y)
    cases c' with
    | nil =>
      cases w with
      | nil => left; exact List.nil_infix
      | cons e w =>
        simp at h2
        exfalso; apply hd; rw [h2.1]; simp
    | cons e c' =>
      simp at h2
      right
      exact ⟨c', y, by rw [h2.2]; simp⟩

theorem infix_cons_of_not_mem {w b : Bytes} {d : UInt8} (hd : d ∉ w) (h : w <:+: d :: b) : w <:+: b := by
  rcases infix_split (a := []) hd h with h | h
  · have := List.eq_nil_of_infix_nil h; subst this; exact List.nil_infix
  · exact h

end Verif
