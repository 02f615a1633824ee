import Verif.Crypto
import Mathlib.Tactic.Ring
import Mathlib.Tactic.Linarith
/-
A quick way of computing RC4 in the kernel: the state of 256 bytes as one number.
-/
namespace Verif

/-- a list of bytes as digits in base 256 -/
def pack : List Nat → Nat
  | [] => 0
  | d :: t => d + 256 * pack t

def dig (s i : Nat) : Nat := s / 256 ^ i % 256

theorem dig_pack : ∀ (s : List Nat), (∀ d ∈ s, d < 256) → ∀ i, dig (pack s) i = s.getD i 0
  | [], _, i => by simp [pack, dig]
  | d :: t, h, 0 => by
    have := h d (by simp)
    simp only [dig, pack, pow_zero, Nat.div_one, List.getD_cons_zero]
    omega
  | d :: t, h, i + 1 => by
    have hd := h d (by simp)
    have ih := dig_pack t (fun x hx => h x (by simp [hx])) i
    rw [List.getD_cons_succ, ← ih]
    unfold dig
    rw [pow_succ', ← Nat.div_div_eq_div_mul]
    congr 2
    simp only [pack]
    omega

theorem pack_set : ∀ (s : List Nat) (i v : Nat), i < s.length → ((pack (s.set i v) : Nat) : Int) = pack s + ((v : Int) - s.getD i 0) * 256 ^ i
  | [], i, v, h => by simp at h
  | d :: t, 0, v, _ => by simp [pack]; ring
  | d :: t, i + 1, v, h => by
    have ih := pack_set t i v (by simpa using h)
    simp only [List.set_cons_succ, pack, List.getD_cons_succ]
    push_cast
    rw [ih]
    ring

/-- exchange two digits -/
def swapDig (s i j : Nat) : Nat := (s + dig s j * 256 ^ i + dig s i * 256 ^ j) - (dig s i * 256 ^ i + dig s j * 256 ^ j)

def swap (s : List Nat) (i j : Nat) : List Nat := (s.set i (s.getD j 0)).set j (s.getD i 0)

theorem swap_pack {s : List Nat} (hs : ∀ d ∈ s, d < 256) {i j : Nat} (hi : i < s.length) (hj : j < s.length) : pack (swap s i j) = swapDig (pack s) i j := by
  have h1 := pack_set s i (s.getD j 0) hi
  have h2 := pack_set (s.set i (s.getD j 0)) j (s.getD i 0) (by simpa using hj)
  have h3 : ((s.set i (s.getD j 0)).getD j 0) = s.getD j 0 := by
    by_cases e : i = j
    · subst e
      rw [List.getD_eq_getElem?_getD, List.getElem?_set_self hi]; rfl
    · rw [List.getD_eq_getElem?_getD, List.getElem?_set_ne e, ← List.getD_eq_getElem?_getD]
  rw [h3, h1] at h2
  unfold swap swapDig
  rw [dig_pack s hs, dig_pack s hs]
  have h4 : ((pack ((s.set i (s.getD j 0)).set j (s.getD i 0)) : Nat) : Int) + ((s.getD i 0 * 256 ^ i + s.getD j 0 * 256 ^ j : Nat) : Int) =
      ((pack s + s.getD j 0 * 256 ^ i + s.getD i 0 * 256 ^ j : Nat) : Int) := by
    rw [h2]; push_cast; ring
  have h5 : pack ((s.set i (s.getD j 0)).set j (s.getD i 0)) + (s.getD i 0 * 256 ^ i + s.getD j 0 * 256 ^ j) =
      pack s + s.getD j 0 * 256 ^ i + s.getD i 0 * 256 ^ j := by exact_mod_cast h4
  omega

theorem swap_lt {s : List Nat} (hs : ∀ d ∈ s, d < 256) (i j : Nat) : ∀ d ∈ swap s i j, d < 256 := by
  have hg : ∀ k, s.getD k 0 < 256 := by
    intro k
    rw [List.getD_eq_getElem?_getD]
    cases h : s[k]? with
    | none => simp
    | some d => exact hs d (List.mem_of_getElem? h)
  intro d hd
  unfold swap at hd
  rcases List.mem_or_eq_of_mem_set hd with hd | rfl
  · rcases List.mem_or_eq_of_mem_set hd with hd | rfl
    · exact hs d hd
    · exact hg _
  · exact hg _

theorem swap_length (s : List Nat) (i j : Nat) : (swap s i j).length = s.length := by simp [swap]

def packInit (key : Bytes) : Nat → Nat → Nat → Nat → Nat
  | 0, _, _, s => s
  | n + 1, i, j, s => packInit key n (i + 1) ((j + dig s i + (key.getD (i % key.length) 0).toNat) % 256)
      (swapDig s i ((j + dig s i + (key.getD (i % key.length) 0).toNat) % 256))

theorem packInit_eq (key : Bytes) : ∀ (n i j : Nat) (s : List Nat), (∀ d ∈ s, d < 256) → s.length = 256 → i + n ≤ 256 →
    pack (rc4Init key n i j s) = packInit key n i j (pack s) ∧ (∀ d ∈ rc4Init key n i j s, d < 256) ∧ (rc4Init key n i j s).length = 256
  | 0, _, _, s, hs, hl, _ => ⟨rfl, hs, hl⟩
  | n + 1, i, j, s, hs, hl, hi => by
    rw [rc4Init, packInit]
    have hj : (j + s.getD i 0 + (key.getD (i % key.length) 0).toNat) % 256 < s.length := by rw [hl]; exact Nat.mod_lt _ (by decide)
    have := packInit_eq key n (i + 1) ((j + s.getD i 0 + (key.getD (i % key.length) 0).toNat) % 256)
      (swap s i ((j + s.getD i 0 + (key.getD (i % key.length) 0).toNat) % 256)) (swap_lt hs _ _) (by rw [swap_length, hl]) (by omega)
    rw [swap_pack hs (by omega) hj] at this
    rw [dig_pack s hs]
    exact this

def packRun : Nat → Nat → Nat → Bytes → Bytes
  | _, _, _, [] => []
  | i, j, s, b :: t =>
    (b ^^^ UInt8.ofNat (dig (swapDig s ((i + 1) % 256) ((j + dig s ((i + 1) % 256)) % 256))
      ((dig s ((i + 1) % 256) + dig s ((j + dig s ((i + 1) % 256)) % 256)) % 256))) ::
      packRun ((i + 1) % 256) ((j + dig s ((i + 1) % 256)) % 256) (swapDig s ((i + 1) % 256) ((j + dig s ((i + 1) % 256)) % 256)) t

theorem packRun_eq : ∀ (src : Bytes) (i j : Nat) (s : List Nat), (∀ d ∈ s, d < 256) → s.length = 256 → rc4Run i j s src = packRun i j (pack s) src
  | [], _, _, _, _, _ => rfl
  | b :: t, i, j, s, hs, hl => by
    rw [rc4Run, packRun]
    have hi : (i + 1) % 256 < s.length := by rw [hl]; exact Nat.mod_lt _ (by decide)
    have hj : (j + s.getD ((i + 1) % 256) 0) % 256 < s.length := by rw [hl]; exact Nat.mod_lt _ (by decide)
    have ih := packRun_eq t ((i + 1) % 256) ((j + s.getD ((i + 1) % 256) 0) % 256) (swap s ((i + 1) % 256) ((j + s.getD ((i + 1) % 256) 0) % 256))
      (swap_lt hs _ _) (by rw [swap_length, hl])
    have hd := dig_pack _ (swap_lt hs ((i + 1) % 256) ((j + s.getD ((i + 1) % 256) 0) % 256))
    rw [swap_pack hs hi hj] at ih hd
    rw [dig_pack s hs, dig_pack s hs, hd]
    exact congrArg₂ _ rfl ih

def packCip (key src : Bytes) : Res Bytes :=
  if key.length < 1 ∨ 256 < key.length then .err .other else .ok (packRun 0 0 (packInit key 256 0 0 (pack (List.range 256))) src)

theorem rc4Cip_pack (key src : Bytes) : rc4Cip key src = packCip key src := by
  unfold rc4Cip packCip
  have h := packInit_eq key 256 0 0 (List.range 256) (by intro d hd; simpa using hd) (by simp) (by omega)
  rw [packRun_eq _ _ _ _ h.2.1 h.2.2, h.1]

/-- The cipher gives the published results for these keys and texts. -/
theorem C33_rc4_vectors : rc4Cip b!"Key" b!"Plaintext" = .ok [0xBB, 0xF3, 0x16, 0xE8, 0xD9, 0x40, 0xAF, 0x0A, 0xD3] ∧
    rc4Cip b!"Wiki" b!"pedia" = .ok [0x10, 0x21, 0xBF, 0x04, 0x20] ∧
    rc4Cip b!"Secret" b!"Attack at dawn" = .ok [0x45, 0xA0, 0x1F, 0x64, 0x5F, 0xC3, 0x5B, 0x38, 0x35, 0x52, 0x54, 0x4B, 0x9B, 0xF5] := by
  rw [rc4Cip_pack, rc4Cip_pack, rc4Cip_pack]
  decide +kernel

end Verif
