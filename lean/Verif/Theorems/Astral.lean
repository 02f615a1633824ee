import Verif.Theorems.GoFile
/-
C85: every text of the information with a character beyond the first plane is not a text string, because such a character is written with five or six digits where UTF-16
takes eight.
-/
namespace Verif
open Spec

theorem codes_length : ∀ (h : Bytes) (l : List Nat), codes h = some l → h.length = 4 * l.length
  | [], l, e => by cases e; rfl
  | [_], l, e => by cases e
  | [_, _], l, e => by cases e
  | [_, _, _], l, e => by cases e
  | a :: b :: c :: d :: t, l, e => by
    rw [codes] at e
    split at e
    · rename_i n m _ hm
      cases e
      have := codes_length t m hm
      simp only [List.length_cons]
      omega
    · cases e

theorem decodeRune_small (s : Bytes) : (decodeRune s).1 < 16 ^ 7 := by
  unfold decodeRune
  split
  · decide
  · rename_i b0 t
    have h0 := b0.toNat_lt
    dsimp only
    split
    · omega
    · split
      · decide
      · split
        · split
          · rename_i b1 _ 
            have h1 := b1.toNat_lt
            split
            · dsimp only; omega
            · decide
          · decide
        · split
          · split
            · rename_i b1 b2 _
              have h1 := b1.toNat_lt
              have h2 := b2.toNat_lt
              split
              · dsimp only; omega
              · decide
            · decide
          · split
            · split
              · rename_i b1 b2 b3 _
                have h1 := b1.toNat_lt
                have h2 := b2.toNat_lt
                have h3 := b3.toNat_lt
                split
                · dsimp only; omega
                · decide
              · decide
            · decide

theorem runesAux_small : ∀ (s : Bytes) (k : Nat), ∀ r ∈ runesAux k s, r < 16 ^ 7
  | [], k, r, h => by cases k <;> simp [runesAux] at h
  | c :: t, 0, r, h => by
    rw [runesAux] at h
    rcases List.mem_cons.1 h with rfl | h
    · exact decodeRune_small _
    · exact runesAux_small t _ r h
  | c :: t, k + 1, r, h => by
    rw [runesAux] at h
    exact runesAux_small t _ r h

theorem hex4_short {r : Nat} (h : r < 16 ^ 7) : (hex4 r).length ≤ 4 * (utf16 r).length ∧ (65536 ≤ r → (hex4 r).length < 4 * (utf16 r).length) := by
  by_cases hr : r < 65536
  · rw [hex4_length hr]
    simp [utf16, hr]
  · have := hexAux_length 6 (r + 1) r (by omega) (by omega)
    have e : (hex4 r).length ≤ 7 := by
      rw [hex4, List.length_append, List.length_replicate, hexDigits]
      omega
    simp only [utf16, if_neg hr, List.length_cons, List.length_nil]
    omega

theorem infoText_short : ∀ (rs : List Nat), (∀ r ∈ rs, r < 16 ^ 7) → (rs.flatMap hex4).length ≤ 4 * (rs.flatMap utf16).length ∧
    ((∃ r ∈ rs, 65536 ≤ r) → (rs.flatMap hex4).length < 4 * (rs.flatMap utf16).length)
  | [], _ => by simp
  | r :: rs, h => by
    have h1 := hex4_short (h r (by simp))
    have h2 := infoText_short rs (fun x hx => h x (by simp [hx]))
    simp only [List.flatMap_cons, List.length_append]
    refine ⟨by omega, ?_⟩
    rintro ⟨x, hx, h3⟩
    rcases List.mem_cons.1 hx with rfl | hx
    · have := h1.2 h3; omega
    · have := h2.2 ⟨x, hx, h3⟩; omega

theorem not_textString {s : Bytes} (h : ∃ r ∈ runes s, 65536 ≤ r) : ¬ TextString (.hex (b!"FEFF" ++ infoText s)) (runes s) := by
  rintro ⟨t, e, hc⟩
  have e' : infoText s = t := List.append_cancel_left (Val.hex.inj e)
  have h1 := codes_length _ _ hc
  have h2 := (infoText_short (runes s) (runesAux_small s 0)).2 h
  rw [← e', infoText] at h1
  omega

/-- **C85** (refuted for every text with a character beyond the first plane): the entry of the information is there, but it is not UTF-16. -/
theorem C85_refuted_utf16_all {env : GEnv} {g g' : Gp} {out : Bytes} {i : GInfo} (h : g.compile env = (g', .ok out)) (hs : g.slots ≠ []) (hl : out.length < 10 ^ 10)
    (hi : g.info = some i) (hd : i.date = none) : ∃ bodies trailer d f, FileHolds out bodies trailer ∧ DictObject trailer d ∧ d.lookup b!"Info" = some (.dict f) ∧
      ∀ p ∈ infoKeys i, (∃ r ∈ runes p.2, 65536 ≤ r) → ∃ v, f.lookup p.1 = some v ∧ ¬ TextString v (runes p.2) := by
  obtain ⟨bs, -, -, h3⟩ := compile_holds h hs hl
  have e2 : g.prepare.info = some i := by rw [prepare_eq]; exact hi
  refine ⟨_, _, _, (infoFields i).flatMap fieldVals, h3, trailer_reads _ _ (by rw [e2]; intro j hj; cases hj; exact hd), ?_, ?_⟩
  · unfold Gp.trailerVals
    rw [e2]
    cases g.prepare.protection.isSome <;> rfl
  · intro p hp hr
    have hne : p.2 ≠ [] := by
      intro e
      obtain ⟨r, hr, _⟩ := hr
      rw [e] at hr
      simp [runes, runesAux] at hr
    refine ⟨_, fieldVals_lookup (infoFields i) ?_ p hp hne, not_textString hr⟩
    simp only [infoFields, List.map_cons, List.map_nil]
    decide

set_option maxRecDepth 20000 in
/-- a title of four characters beyond the first plane, whose twenty digits would divide into groups of four -/
example : ∃ g' out, (goDoc { title := [0xF0, 0x9F, 0x98, 0x80, 0xF0, 0x9F, 0x98, 0x80, 0xF0, 0x9F, 0x98, 0x80, 0xF0, 0x9F, 0x98, 0x80] }).compile goEnv = (g', .ok out) ∧
    out.length < 10 ^ 10 ∧ ∃ r ∈ runes [0xF0, 0x9F, 0x98, 0x80, 0xF0, 0x9F, 0x98, 0x80, 0xF0, 0x9F, 0x98, 0x80, 0xF0, 0x9F, 0x98, 0x80], 65536 ≤ r := by
  obtain ⟨g', out, h1, h2⟩ := goDoc_compiles (i := { title := [0xF0, 0x9F, 0x98, 0x80, 0xF0, 0x9F, 0x98, 0x80, 0xF0, 0x9F, 0x98, 0x80, 0xF0, 0x9F, 0x98, 0x80] }) (by decide +kernel)
  exact ⟨g', out, h1, h2, by decide +kernel⟩

end Verif
