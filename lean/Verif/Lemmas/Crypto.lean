import Verif.Spec.Crypto
import Verif.Lemmas.Find
/-
Lemmas on RC4, on words without borders and on literal strings.
-/
namespace Verif
open Spec

/-! ### RC4 -/

theorem xor_xor_cancel (a b : UInt8) : a ^^^ b ^^^ b = a := by
  rw [UInt8.xor_assoc, UInt8.xor_self, UInt8.xor_zero]

theorem rc4Run_involution (b : Bytes) : ∀ (i j : Nat) (s : List Nat), rc4Run i j s (rc4Run i j s b) = b := by
  induction b with
  | nil => intro i j s; rfl
  | cons c b ih =>
    intro i j s
    simp only [rc4Run, xor_xor_cancel, ih]

theorem rc4Run_length (b : Bytes) : ∀ (i j : Nat) (s : List Nat), (rc4Run i j s b).length = b.length := by
  induction b with
  | nil => intro i j s; rfl
  | cons c b ih => intro i j s; simp only [rc4Run, List.length_cons, ih]

/-- for a key of admissible length the cipher works, keeps the length and undoes itself -/
theorem rc4Cip_spec {key : Bytes} (h1 : 1 ≤ key.length) (h2 : key.length ≤ 256) (b : Bytes) :
    ∃ c, rc4Cip key b = .ok c ∧ c.length = b.length ∧ rc4Cip key c = .ok b := by
  refine ⟨rc4Run 0 0 (rc4Init key 256 0 0 (List.range 256)) b, ?_, rc4Run_length b _ _ _, ?_⟩
  · unfold rc4Cip; rw [if_neg (by omega)]
  · unfold rc4Cip; rw [if_neg (by omega), rc4Run_involution]

/-! ### words without borders -/

/-- no proper end of the word is a beginning of it -/
def Borderless (p : Bytes) : Prop := ∀ k < p.length, 0 < k → ¬ p.drop k <+: p

instance (p : Bytes) : Decidable (Borderless p) := by unfold Borderless; infer_instance

theorem borderless_stream : Borderless b!"stream" := by decide
theorem borderless_endstream : Borderless b!"endstream" := by decide

theorem index_first {p head : Bytes} (hb : Borderless p) (hh : ¬ p <:+: head) (x : Bytes) : index p (head ++ (p ++ x)) = some head.length := by
  apply index_eq (by simp)
  · simp
  · intro j hj hpre
    rw [List.drop_append_of_le_length (by omega)] at hpre
    by_cases hl : p.length ≤ (head.drop j).length
    · have : p <+: head.drop j := List.prefix_of_prefix_length_le hpre (List.prefix_append _ _) hl
      exact hh (this.isInfix.trans (List.drop_suffix j head).isInfix)
    · have h1 : head.drop j <+: p := List.prefix_of_prefix_length_le (List.prefix_append _ _) hpre (by omega)
      obtain ⟨r, hr⟩ := h1
      have hlen : 0 < (head.drop j).length := by rw [List.length_drop]; omega
      have hr2 : p.drop (head.drop j).length = r := by rw [← hr]; simp
      have h2 : r <+: p ++ x := by
        rw [← hr] at hpre
        rw [List.prefix_append_right_inj] at hpre
        rw [hr] at hpre
        exact hpre
      have h3 : r <+: p := List.prefix_of_prefix_length_le h2 (List.prefix_append _ _) (by
        have := congrArg List.length hr; rw [List.length_append] at this; omega)
      exact hb (head.drop j).length (by omega) hlen (by rw [hr2]; exact h3)

theorem lastIndex_last {p t : Bytes} (hp : p ≠ []) (hb : Borderless p) (ht : ¬ p <:+: t) (s : Bytes) : lastIndex p (s ++ (p ++ t)) = some s.length := by
  apply lastIndex_append_exact hp
  intro j hj _ hpre
  by_cases hl : j < p.length
  · rw [List.drop_append_of_le_length (by omega)] at hpre
    have : p.drop j <+: p := List.prefix_of_prefix_length_le (List.prefix_append _ _) hpre (by rw [List.length_drop]; omega)
    exact hb j hl hj this
  · rw [List.drop_append, List.drop_eq_nil_of_le (by omega), List.nil_append] at hpre
    exact ht (hpre.isInfix.trans (List.drop_suffix _ t).isInfix)

/-! ### trimming line ends -/

/-- carriage return or line feed -/
def isEol (c : UInt8) : Prop := c = 13 ∨ c = 10

theorem dropWhile_eol {e s : Bytes} (he : ∀ c ∈ e, isEol c) (hs : ∀ c ∈ s.head?, ¬ isEol c) :
    (e ++ s).dropWhile (fun c => c = 13 || c = 10) = s := by
  induction e with
  | nil =>
    cases s with
    | nil => rfl
    | cons c s =>
      have := hs c (by simp)
      unfold isEol at this
      rw [not_or] at this
      simp [this.1, this.2]
  | cons c e ih =>
    have := he c (by simp)
    rw [List.cons_append, List.dropWhile_cons, if_pos (by rcases this with h | h <;> simp [h])]
    exact ih (fun d hd => he d (by simp [hd]))

theorem trimCRLF_eq {e s e' : Bytes} (he : ∀ c ∈ e, isEol c) (he' : ∀ c ∈ e', isEol c) (h1 : ∀ c ∈ s.head?, ¬ isEol c)
    (h2 : ∀ c ∈ s.getLast?, ¬ isEol c) : trimCRLF (e ++ s ++ e') = s := by
  unfold trimCRLF
  by_cases hs : s = []
  · subst hs
    have := dropWhile_eol (e := e ++ [] ++ e') (s := []) (fun c hc => by
      simp only [List.append_nil, List.mem_append] at hc
      exact hc.elim (he c) (he' c)) (by simp)
    rw [List.append_nil] at this
    rw [this]
    rfl
  · rw [List.append_assoc, dropWhile_eol he (by
      intro c hc
      cases s with
      | nil => exact absurd rfl hs
      | cons d s => exact h1 c (by simpa using hc)), List.reverse_append]
    rw [dropWhile_eol (fun c hc => he' c (by simpa using hc)) (by rw [List.head?_reverse]; exact h2), List.reverse_reverse]

/-! ### escaping -/

theorem escape_cons (c : UInt8) (b : Bytes) :
    escape (c :: b) = (if c = 92 then [92, 92] else if c = 40 then [92, 40] else if c = 41 then [92, 41] else if c = 13 then [92, 114] else [c]) ++ escape b := by
  unfold escape
  have hap : ∀ (d : UInt8) (r x y : Bytes), replaceByte d r (x ++ y) = replaceByte d r x ++ replaceByte d r y := by
    intro d r x y; unfold replaceByte; rw [List.flatMap_append]
  have h1 : replaceByte 92 [92, 92] (c :: b) = (if c = 92 then [92, 92] else [c]) ++ replaceByte 92 [92, 92] b := by
    unfold replaceByte; rw [List.flatMap_cons]
  rw [h1, hap, hap, hap]
  congr 1
  by_cases a1 : c = 92
  · subst a1; rfl
  by_cases a2 : c = 40
  · subst a2; rfl
  by_cases a3 : c = 41
  · subst a3; rfl
  by_cases a4 : c = 13
  · subst a4; rfl
  simp [replaceByte, a1, a2, a3, a4]

end Verif
