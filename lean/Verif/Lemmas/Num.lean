import Verif.GoLib
/-
Lemmas about decimal printing and reading.
-/
namespace Verif

set_option maxRecDepth 4000 in
theorem isDigit_iff : ∀ b : UInt8, isDigit b = true ↔ 48 ≤ b.toNat ∧ b.toNat ≤ 57 := by
  intro b
  simp [isDigit, UInt8.le_iff_toNat_le]

theorem digit_toNat {n : Nat} (h : n < 10) : (digit n).toNat = 48 + n := by
  simp [digit]; omega

theorem isDigit_digit {n : Nat} (h : n < 10) : isDigit (digit n) = true := by
  rw [isDigit_iff, digit_toNat h]; omega

theorem digitsVal_append (a b : Bytes) (acc : Nat) :
    digitsVal acc (a ++ b) = (digitsVal acc a).bind (fun v => digitsVal v b) := by
  induction a generalizing acc with
  | nil => simp [digitsVal]
  | cons c t ih => simp only [List.cons_append, digitsVal]; split <;> simp [ih]

theorem natDigitsAux_spec (fuel n : Nat) (h : n < fuel) :
    digitsVal 0 (natDigitsAux fuel n) = some n ∧ (∀ c ∈ natDigitsAux fuel n, isDigit c = true) ∧
    natDigitsAux fuel n ≠ [] := by
  induction fuel generalizing n with
  | zero => omega
  | succ f ih =>
    simp only [natDigitsAux]
    split
    · rename_i hn
      refine ⟨?_, ?_, by simp⟩
      · simp [digitsVal, isDigit_digit hn, digit_toNat hn]
      · intro c hc; simp at hc; subst hc; exact isDigit_digit hn
    · rename_i hn
      have h10 : n % 10 < 10 := Nat.mod_lt _ (by omega)
      obtain ⟨h1, h2, h3⟩ := ih (n / 10) (by omega)
      refine ⟨?_, ?_, by simp⟩
      · rw [digitsVal_append, h1]
        simp [digitsVal, isDigit_digit h10, digit_toNat h10]
        omega
      · intro c hc
        rw [List.mem_append] at hc
        rcases hc with hc | hc
        · exact h2 c hc
        · simp at hc; subst hc; exact isDigit_digit h10

theorem digitsVal_natDigits (n : Nat) : digitsVal 0 (natDigits n) = some n :=
  (natDigitsAux_spec (n + 1) n (by omega)).1

theorem natDigits_isDigit (n : Nat) : ∀ c ∈ natDigits n, isDigit c = true :=
  (natDigitsAux_spec (n + 1) n (by omega)).2.1

theorem natDigits_ne_nil (n : Nat) : natDigits n ≠ [] :=
  (natDigitsAux_spec (n + 1) n (by omega)).2.2

theorem parseNat_natDigits (n : Nat) : parseNat (natDigits n) = some n := by
  have h := natDigits_ne_nil n
  have h2 := digitsVal_natDigits n
  unfold parseNat
  split
  · contradiction
  · exact h2

theorem natDigits_injective {a b : Nat} (h : natDigits a = natDigits b) : a = b := by
  have h1 := digitsVal_natDigits a
  rw [h, digitsVal_natDigits b] at h1
  exact (Option.some.inj h1).symm

theorem natDigitsAux_length (fuel n k : Nat) (h : n < fuel) (hk : n < 10 ^ k) (h1 : 1 ≤ k) :
    (natDigitsAux fuel n).length ≤ k := by
  induction fuel generalizing n k with
  | zero => omega
  | succ f ih =>
    simp only [natDigitsAux]
    split
    · simpa using h1
    · rename_i hn
      match k, h1 with
      | 1, _ => simp at hk; omega
      | k + 2, _ =>
        have : n / 10 < 10 ^ (k + 1) := by
          rw [Nat.div_lt_iff_lt_mul (by omega)]
          simpa [Nat.pow_succ] using hk
        have := ih (n / 10) (k + 1) (by omega) this (by omega)
        simp; omega

theorem natDigits_length {n k : Nat} (hk : n < 10 ^ k) (h1 : 1 ≤ k) : (natDigits n).length ≤ k :=
  natDigitsAux_length _ _ _ (by omega) hk h1

theorem digitsVal_replicate_zero (k acc : Nat) (s : Bytes) (h : acc = 0) :
    digitsVal acc (List.replicate k 48 ++ s) = digitsVal 0 s := by
  subst h
  induction k with
  | zero => simp
  | succ k ih =>
    simp only [List.replicate_succ, List.cons_append, digitsVal]
    have : isDigit 48 = true := by decide
    simp [this, ih]

theorem isDigit_ne {c : UInt8} (h : isDigit c = true) (d : UInt8) (hd : isDigit d = false) : c ≠ d := by
  intro e; subst e; simp [h] at hd

@[simp] theorem itoa_natCast (n : Nat) : itoa (n : Int) = natDigits n := rfl
@[simp] theorem itoa_ofNat (n : Nat) : itoa (Int.ofNat n) = natDigits n := rfl

theorem itoa_ne_nil (n : Int) : itoa n ≠ [] := by
  cases n with
  | ofNat n => exact natDigits_ne_nil n
  | negSucc n => simp [itoa]

/-- the bytes of a printed integer -/
theorem itoa_bytes (n : Int) : ∀ c ∈ itoa n, isDigit c = true ∨ c = 45 := by
  intro c hc
  cases n with
  | ofNat n => exact Or.inl (natDigits_isDigit n c hc)
  | negSucc n =>
    simp only [itoa, List.mem_cons] at hc
    rcases hc with hc | hc
    · exact Or.inr hc
    · exact Or.inl (natDigits_isDigit _ c hc)

/-- `strconv.Atoi(strconv.Itoa(n)) = n` in the int64 range -/
theorem atoi_itoa (n : Int) (h1 : -9223372036854775808 ≤ n) (h2 : n ≤ 9223372036854775807) :
    atoi (itoa n) = some n := by
  cases n with
  | ofNat n =>
    have hne := natDigits_ne_nil n
    have hd := natDigits_isDigit n
    have hp := parseNat_natDigits n
    cases hs : natDigits n with
    | nil => contradiction
    | cons c t =>
      have hc : isDigit c = true := hd c (by simp [hs])
      have n1 : c ≠ 45 := isDigit_ne hc _ (by decide)
      have n2 : c ≠ 43 := isDigit_ne hc _ (by decide)
      rw [hs] at hp
      simp only [itoa, hs, atoi]
      split
      · rename_i v hv
        split at hv
        · rename_i h; simp at h; exact absurd h.1 n1
        · rename_i h; simp at h; exact absurd h.1 n2
        · rw [hp] at hv; simp at hv; subst hv
          simp at h1 h2 ⊢; omega
      · rename_i hv
        split at hv
        · rename_i h; simp at h; exact absurd h.1 n1
        · rename_i h; simp at h; exact absurd h.1 n2
        · rw [hp] at hv; simp at hv
  | negSucc n =>
    simp only [itoa, atoi, parseNat_natDigits, Option.map_some]
    have : -((n + 1 : Nat) : Int) = Int.negSucc n := rfl
    rw [this]
    simp only [h1, h2, and_self, if_true]

/-- What `strconv.Atoi` accepts is in the int64 range. -/
theorem atoi_range {s : Bytes} {v : Int} (h : atoi s = some v) :
    -9223372036854775808 ≤ v ∧ v ≤ 9223372036854775807 := by
  unfold atoi at h
  simp only at h
  split at h
  · split at h
    · simp at h; subst h; assumption
    · simp at h
  · simp at h

end Verif
