import Verif.Theorems.Font
/-
C27: which characters cannot be copied from the text.
-/
namespace Verif
open Spec

/-- what the map holds is a character in hexadecimal digits -/
theorem toUnicode_hex4 {m : CharMap} {g : Nat} {s : Bytes} (h : toUnicode (unicodeStream m) g = some s) : ∃ k, (k ∈ m.keys ∨ k = 0) ∧ s = hex4 k := by
  rw [toUnicode_stream, Option.map_eq_some_iff] at h
  obtain ⟨e, he, rfl⟩ := h
  have hm := List.mem_of_find?_eq_some he
  rw [List.mem_map] at hm
  obtain ⟨p, _, rfl⟩ := hm
  refine ⟨_, ?_, rfl⟩
  unfold runeByIndex
  split
  · rename_i q hq
    have := List.mem_of_find?_eq_some hq
    rw [List.mem_map] at this
    obtain ⟨k, hk, rfl⟩ := this
    exact Or.inl hk
  · exact Or.inr rfl

/-- **C27 is violated** by every character beyond the basic plane: no glyph comes back as it.  And it is violated by every pair of characters with the same glyph: one of
them does not come back. -/
theorem C27_refuted_all {m : CharMap} (hk : ∀ k ∈ m.keys, k < 0x110000) :
    (∀ r, 0x10000 ≤ r → r < 0x110000 → ∀ g, toUnicode (unicodeStream m) g ≠ some (utf16hex r)) ∧
    ∀ (t : Ttf) r r' g, r ≠ r' → charToGlyph t r = .ok g → charToGlyph t r' = .ok g →
      toUnicode (unicodeStream m) g ≠ some (utf16hex r) ∨ toUnicode (unicodeStream m) g ≠ some (utf16hex r') := by
  have key : ∀ r, 0x10000 ≤ r → r < 0x110000 → ∀ g, toUnicode (unicodeStream m) g ≠ some (utf16hex r) := by
    intro r h1 h2 g h
    obtain ⟨k, hm, e⟩ := toUnicode_hex4 h
    have hlt : k < 0x110000 := by
      rcases hm with hm | rfl
      · exact hk k hm
      · omega
    have hl := congrArg List.length e
    rw [utf16hex, if_neg (by omega), List.length_append, hex4_length (by omega), hex4_length (by omega)] at hl
    have := hexAux_length 5 (k + 1) k (by omega) (by omega)
    rw [hex4, List.length_append, List.length_replicate, hexDigits] at hl
    omega
  refine ⟨key, ?_⟩
  intro t r r' g hne _ _
  by_contra hcon
  rw [not_or, not_not, not_not] at hcon
  obtain ⟨e1, e2⟩ := hcon
  obtain ⟨k, hm, e⟩ := toUnicode_hex4 e1
  -- both texts are the same four digits
  have e3 : utf16hex r = utf16hex r' := by
    rw [e1] at e2
    exact Option.some.inj e2
  have small : ∀ r, utf16hex r = hex4 k → r < 0x10000 := by
    intro r hr
    by_contra hge
    have hlt : k < 0x110000 := by
      rcases hm with hm | rfl
      · exact hk k hm
      · omega
    have h6 : (hex4 k).length ≤ 6 := by
      have := hexAux_length 5 (k + 1) k (by omega) (by omega)
      rw [hex4, List.length_append, List.length_replicate, hexDigits]
      omega
    have hge4 : ∀ n, 4 ≤ (hex4 n).length := by
      intro n
      rw [hex4, List.length_append, List.length_replicate]
      omega
    have hl := congrArg List.length hr
    rw [utf16hex, if_neg hge, List.length_append] at hl
    have h1 := hge4 (0xD800 + (r - 0x10000) / 1024)
    have h2 := hge4 (0xDC00 + (r - 0x10000) % 1024)
    omega
  have s1 := small r e
  have s2 := small r' (e3 ▸ e)
  rw [utf16hex, if_pos s1, utf16hex, if_pos s2] at e3
  have := congrArg (hexVal 0) e3
  rw [hex4_val, hex4_val] at this
  exact hne (Option.some.inj this)

/-- the map of the sample with a space, a no-break space and a face -/
example : (∀ k ∈ (addRunes sampleFont {} [32, 160, 0x1F600]).1.keys, k < 0x110000) ∧ charToGlyph sampleFont 32 = .ok 1 ∧ charToGlyph sampleFont 160 = .ok 1 ∧
    0x1F600 ∈ (addRunes sampleFont {} [32, 160, 0x1F600]).1.keys := by decide +kernel

end Verif
