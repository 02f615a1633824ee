import Verif.Utf8
/-
Decoding inverts encoding.
-/
namespace Verif

theorem isCont_ofNat {n : Nat} (h : n < 64) : isCont (UInt8.ofNat (0x80 + n)) = true := by
  have : ∀ n : Fin 64, isCont (UInt8.ofNat (0x80 + n.val)) = true := by decide
  exact this ⟨n, h⟩

theorem toNat_ofNat8 {n : Nat} (h : n < 256) : (UInt8.ofNat n).toNat = n := by
  rw [UInt8.toNat_ofNat']
  omega

theorem le_ofNat8 {n : Nat} {b : UInt8} (h : n < 256) : (b ≤ UInt8.ofNat n) ↔ b.toNat ≤ n := by
  rw [UInt8.le_iff_toNat_le, toNat_ofNat8 h]

theorem ofNat8_le {n : Nat} {b : UInt8} (h : n < 256) : (UInt8.ofNat n ≤ b) ↔ n ≤ b.toNat := by
  rw [UInt8.le_iff_toNat_le, toNat_ofNat8 h]

theorem decode_encode {r : Nat} (h : Scalar r) (t : Bytes) : decodeRune (encodeRune r ++ t) = (r, (encodeRune r).length) := by
  rw [encodeRune, if_pos h, encodeScalar]
  unfold Scalar at h
  split
  · rename_i h1
    simp only [List.cons_append, List.nil_append, decodeRune, toNat_ofNat8 (show r < 256 by omega), if_pos h1, List.length_cons, List.length_nil]
  · split
    · simp only [List.cons_append, List.nil_append, decodeRune, toNat_ofNat8 (show 0xC0 + r / 64 < 256 by omega),
        isCont_ofNat (show r % 64 < 64 by omega), toNat_ofNat8 (show 0x80 + r % 64 < 256 by omega), List.length_cons, List.length_nil]
      rw [if_neg (by omega), if_neg (by omega), if_pos (by omega)]
      simp only [if_true, Prod.mk.injEq, and_true]
      omega
    · split
      · simp only [List.cons_append, List.nil_append, decodeRune, toNat_ofNat8 (show 0xE0 + r / 4096 < 256 by omega),
          isCont_ofNat (show r % 64 < 64 by omega), toNat_ofNat8 (show 0x80 + r % 64 < 256 by omega),
          isCont_ofNat (show r / 64 % 64 < 64 by omega), toNat_ofNat8 (show 0x80 + r / 64 % 64 < 256 by omega), List.length_cons, List.length_nil]
        rw [if_neg (by omega), if_neg (by omega), if_neg (by omega), if_pos (by omega), if_pos]
        · simp only [Prod.mk.injEq, and_true]
          omega
        · have e1 : (0xA0 ≤ UInt8.ofNat (0x80 + r / 64 % 64)) ↔ 0xA0 ≤ 0x80 + r / 64 % 64 := by
            rw [UInt8.le_iff_toNat_le, toNat_ofNat8 (by omega)]; rfl
          have e2 : (UInt8.ofNat (0x80 + r / 64 % 64) ≤ 0x9F) ↔ 0x80 + r / 64 % 64 ≤ 0x9F := by
            rw [UInt8.le_iff_toNat_le, toNat_ofNat8 (by omega)]; rfl
          simp only [Bool.true_and, Bool.and_eq_true, Bool.or_eq_true, bne_iff_ne, decide_eq_true_eq, e1, e2, ne_eq]
          omega
      · simp only [List.cons_append, List.nil_append, decodeRune, toNat_ofNat8 (show 0xF0 + r / 262144 < 256 by omega),
          isCont_ofNat (show r % 64 < 64 by omega), toNat_ofNat8 (show 0x80 + r % 64 < 256 by omega),
          isCont_ofNat (show r / 64 % 64 < 64 by omega), toNat_ofNat8 (show 0x80 + r / 64 % 64 < 256 by omega),
          isCont_ofNat (show r / 4096 % 64 < 64 by omega), toNat_ofNat8 (show 0x80 + r / 4096 % 64 < 256 by omega), List.length_cons, List.length_nil]
        rw [if_neg (by omega), if_neg (by omega), if_neg (by omega), if_neg (by omega), if_pos (by omega), if_pos]
        · simp only [Prod.mk.injEq, and_true]
          omega
        · have e1 : (0x90 ≤ UInt8.ofNat (0x80 + r / 4096 % 64)) ↔ 0x90 ≤ 0x80 + r / 4096 % 64 := by
            rw [UInt8.le_iff_toNat_le, toNat_ofNat8 (by omega)]; rfl
          have e2 : (UInt8.ofNat (0x80 + r / 4096 % 64) ≤ 0x8F) ↔ 0x80 + r / 4096 % 64 ≤ 0x8F := by
            rw [UInt8.le_iff_toNat_le, toNat_ofNat8 (by omega)]; rfl
          simp only [Bool.true_and, Bool.and_eq_true, Bool.or_eq_true, bne_iff_ne, decide_eq_true_eq, e1, e2, ne_eq]
          omega

theorem encodeRune_ne_nil (r : Nat) : encodeRune r ≠ [] := by
  unfold encodeRune encodeScalar runeError
  split <;> (repeat' split) <;> simp

theorem runesAux_skip (n : Nat) (s t : Bytes) (h : s.length = n) : runesAux n (s ++ t) = runesAux 0 t := by
  induction s generalizing n with
  | nil => simp at h; subst h; rfl
  | cons c s ih =>
    simp at h
    subst h
    rw [List.cons_append, runesAux]
    exact ih _ rfl

theorem runes_encode_cons {r : Nat} (h : Scalar r) (t : Bytes) : runes (encodeRune r ++ t) = r :: runes t := by
  have hd := decode_encode h t
  cases he : encodeRune r with
  | nil => exact absurd he (encodeRune_ne_nil r)
  | cons c s =>
    rw [he] at hd
    rw [runes, List.cons_append, runesAux]
    rw [List.cons_append] at hd
    rw [hd]
    simp only [List.length_cons, Nat.add_sub_cancel]
    rw [runesAux_skip _ s t rfl]
    rfl

theorem runes_encode {rs : List Nat} (h : ∀ r ∈ rs, Scalar r) : runes (rs.flatMap encodeRune) = rs := by
  induction rs with
  | nil => rfl
  | cons r rs ih =>
    rw [List.flatMap_cons, runes_encode_cons (h r (by simp)), ih (fun x hx => h x (by simp [hx]))]

theorem decodeRune_scalar (s : Bytes) : Scalar (decodeRune s).1 := by
  have hc : ∀ b : UInt8, isCont b = true → 0x80 ≤ b.toNat ∧ b.toNat ≤ 0xBF := by
    intro b hb
    simp only [isCont, Bool.and_eq_true, decide_eq_true_eq, UInt8.le_iff_toNat_le] at hb
    exact hb
  unfold decodeRune Scalar runeError
  split
  · simp
  · rename_i b0 t
    have := b0.toNat_lt
    simp only
    repeat' split
    all_goals first
      | (left; dsimp only; omega)
      | (right; dsimp only; omega)
      | skip
    · rename_i b1 _ hb
      have := hc _ hb
      left; dsimp only; omega
    · rename_i b1 b2 _ hb
      simp only [Bool.and_eq_true, Bool.or_eq_true, bne_iff_ne, decide_eq_true_eq, ne_eq, UInt8.le_iff_toNat_le] at hb
      obtain ⟨⟨⟨h1, h2⟩, h3⟩, h4⟩ := hb
      have := hc _ h1; have := hc _ h2
      have e : (0x9F : UInt8).toNat = 0x9F := rfl
      rw [e] at h4
      dsimp only; omega
    · rename_i b1 b2 b3 _ hb
      simp only [Bool.and_eq_true, Bool.or_eq_true, bne_iff_ne, decide_eq_true_eq, ne_eq, UInt8.le_iff_toNat_le] at hb
      obtain ⟨⟨⟨⟨h1, h2⟩, h2'⟩, h3⟩, h4⟩ := hb
      have := hc _ h1; have := hc _ h2; have := hc _ h2'
      have e : (0x8F : UInt8).toNat = 0x8F := rfl
      have e : (0x90 : UInt8).toNat = 0x90 := rfl
      rw [e] at h3
      dsimp only; omega

theorem runes_scalar (s : Bytes) : ∀ r ∈ runes s, Scalar r := by
  have : ∀ n, ∀ r ∈ runesAux n s, Scalar r := by
    induction s with
    | nil => intro n r hr; cases n <;> simp [runesAux] at hr
    | cons c t ih =>
      intro n r hr
      cases n with
      | zero =>
        rw [runesAux, List.mem_cons] at hr
        rcases hr with rfl | hr
        · exact decodeRune_scalar _
        · exact ih _ r hr
      | succ n => exact ih _ r hr
  exact this 0

theorem ValidText.runes {s : Bytes} (h : ValidText s) : (runes s).flatMap encodeRune = s := by
  obtain ⟨rs, h1, rfl⟩ := h
  rw [runes_encode h1]

theorem encodeRune_space : encodeRune 32 = [32] := rfl

theorem space_mem_encode {r : Nat} (h : Scalar r) : (32 : UInt8) ∈ encodeRune r ↔ r = 32 := by
  constructor
  · intro hm
    rw [encodeRune, if_pos h, encodeScalar] at hm
    have key : ∀ n, n < 256 → (32 : UInt8) = UInt8.ofNat n → n = 32 := by
      intro n hn e
      have := congrArg UInt8.toNat e
      rw [toNat_ofNat8 hn] at this
      exact this.symm
    unfold Scalar at h
    repeat' split at hm
    · simp only [List.mem_cons, List.not_mem_nil, or_false] at hm
      exact key r (by omega) hm
    · simp only [List.mem_cons, List.not_mem_nil, or_false] at hm
      rcases hm with hm | hm <;> · have := key _ (by omega) hm; omega
    · simp only [List.mem_cons, List.not_mem_nil, or_false] at hm
      rcases hm with hm | hm | hm <;> · have := key _ (by omega) hm; omega
    · simp only [List.mem_cons, List.not_mem_nil, or_false] at hm
      rcases hm with hm | hm | hm | hm <;> · have := key _ (by omega) hm; omega
  · rintro rfl; decide

end Verif
