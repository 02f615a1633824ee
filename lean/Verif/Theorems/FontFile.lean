import Verif.Lemmas.FontFile
import Verif.Theorems.Font
/-
C28, C29, C32, C52: the embedded font file.
-/
namespace Verif
open Spec

/-! ### C52 -/

theorem beVal_be16 {v : Nat} (h : v < 65536) : beVal (be16 v) = v := by
  simp [beVal, be16, UInt8.toNat_ofNat']
  omega

theorem beVal_be32 {v : Nat} (h : v < 4294967296) : beVal (be32 v) = v := by
  simp [beVal, be32, UInt8.toNat_ofNat']
  omega

theorem rd_mid (a p c : Bytes) (hp : p ≠ []) : rd (a ++ p ++ c) p.length a.length = .ok (p, a.length + p.length) := by
  have : 0 < p.length := List.length_pos_iff.2 hp
  unfold rd
  rw [if_neg (by simp only [List.length_append]; omega), if_neg (by simp only [List.length_append]; omega), List.append_assoc, List.drop_left, List.take_left]

/-- **C52** (reading back): a number written into a file is read back by the font parser, and the reader moves past it. -/
theorem C52_read_written (a c : Bytes) :
    (∀ v < 4294967296, readULong (a ++ be32 v ++ c) a.length = .ok (v, a.length + 4)) ∧
    (∀ v < 65536, readUShort (a ++ be16 v ++ c) a.length = .ok (v, a.length + 2)) ∧
    (∀ v : Int, -32768 ≤ v → v < 32768 → readShort (a ++ be16 (v % 65536).toNat ++ c) a.length = .ok (v, a.length + 2)) := by
  have h16 : ∀ v < 65536, readUShort (a ++ be16 v ++ c) a.length = .ok (v, a.length + 2) := by
    intro v hv
    unfold readUShort
    have := rd_mid a (be16 v) c (by simp [be16])
    rw [be16_length] at this
    rw [this]
    simp [beVal_be16 hv]
  refine ⟨?_, h16, ?_⟩
  · intro v hv
    unfold readULong
    have := rd_mid a (be32 v) c (by simp [be32])
    rw [be32_length] at this
    rw [this]
    simp [beVal_be32 hv]
  · intro v h1 h2
    unfold readShort
    rw [h16 _ (by omega)]
    simp only [Res.ok_bind, Res.ok.injEq, Prod.mk.injEq, and_true]
    split <;> omega

/-- **C52** (writing back): every two or four bytes are the written form of the number they are read as. -/
theorem C52_written_read (w x y z : UInt8) : be16 (beVal [x, y]) = [x, y] ∧ be32 (beVal [w, x, y, z]) = [w, x, y, z] := by
  have hw := w.toNat_lt; have hx := x.toNat_lt; have hy := y.toNat_lt; have hz := z.toNat_lt
  have key : ∀ (u : UInt8) (n : Nat), n % 256 = u.toNat → UInt8.ofNat n = u := by
    intro u n h
    apply UInt8.toNat_inj.1
    rw [UInt8.toNat_ofNat']
    exact h
  simp only [be16, be32, beVal, List.foldl_cons, List.foldl_nil, List.cons.injEq, and_true]
  refine ⟨⟨key _ _ ?_, key _ _ ?_⟩, key _ _ ?_, key _ _ ?_, key _ _ ?_, key _ _ ?_⟩ <;> omega

/-- **C52** (frame): writing at a position puts the bytes there, leaves all other bytes unchanged, and fills a gap with zeros. -/
theorem C52_write_frame (b : Buff) (p : Bytes) (i : Nat) :
    (b.pos ≤ i → i < b.pos + p.length → (b.write p).data[i]? = p[i - b.pos]?) ∧
    (i < b.pos ∨ b.pos + p.length ≤ i → i < b.data.length → (b.write p).data[i]? = b.data[i]?) ∧
    (b.data.length ≤ i → i < b.pos → (b.write p).data[i]? = some 0) ∧
    (b.data.length ≤ i → b.pos + p.length ≤ i → (b.write p).data[i]? = none) ∧ (b.write p).pos = b.pos + p.length := by
  rw [write_getElem?]
  refine ⟨fun h1 h2 => if_pos ⟨h1, h2⟩, fun h1 h2 => ?_, fun h1 h2 => ?_, fun h1 h2 => ?_, rfl⟩
  · rw [if_neg (by omega), if_pos h2]
  · rw [if_neg (by omega), if_neg (by omega), if_pos h2]
  · rw [if_neg (by omega), if_neg (by omega), if_neg (by omega)]

example : (Buff.write ⟨2, [1, 2, 3, 4, 5]⟩ (be16 0x1234)).data = [1, 2, 0x12, 0x34, 5] ∧ readShort [9, 0xFF, 0xFE, 9] 1 = .ok (-2, 3) := by decide +kernel

/-! ### C32 -/

theorem glyfLoop_le {t : Ttf} {cap : Nat} : ∀ (is todo : List Nat) (out : Bytes) (loca : List Nat) (r : Bytes × List Nat),
    out.length ≤ cap → glyfLoop t cap is todo out loca = .ok r → r.1.length ≤ cap := by
  intro is
  induction is with
  | nil => intro todo out loca r h hr; simp [glyfLoop] at hr; subst hr; exact h
  | cons i is ih =>
    intro todo out loca r h hr
    rw [glyfLoop] at hr
    split at hr
    · rw [Res.bind_eq_ok] at hr
      obtain ⟨d, _, hr⟩ := hr
      split at hr
      · simp at hr
      · exact ih _ _ _ r (by rw [List.length_append]; omega) hr
    · exact ih _ _ _ r h hr

theorem makeGlyfLoca_mod {t : Ttf} {m : CharMap} {glyf : Bytes} {loca : List Nat} (h : makeGlyfLoca t m = .ok (glyf, loca)) : glyf.length % 4 = 0 := by
  unfold makeGlyfLoca at h
  rw [Res.bind_eq_ok] at h
  obtain ⟨arr, _, h⟩ := h
  simp only at h
  rw [Res.bind_eq_ok] at h
  obtain ⟨size, _, h⟩ := h
  split at h
  · simp at h
  · rw [Res.bind_eq_ok] at h
    obtain ⟨r, hr, h⟩ := h
    have := glyfLoop_le _ _ _ _ r (by simp) hr
    simp only [Res.ok.injEq, Prod.mk.injEq] at h
    rw [← h.1]
    simp only [List.length_append, List.length_replicate]
    have := pad4_mod size.toNat
    omega

theorem padded_eq (e : TableEntry) : e.padded = pad4 e.length := rfl

theorem flat16_length (loca : List Nat) : (loca.flatMap (fun v => be16 (v / 2))).length = loca.length * 2 := by
  induction loca with
  | nil => rfl
  | cons a l ih => rw [List.flatMap_cons, List.length_append, ih, be16_length, List.length_cons]; omega

theorem flat32_length (loca : List Nat) : (loca.flatMap be32).length = loca.length * 4 := by
  induction loca with
  | nil => rfl
  | cons a l ih => rw [List.flatMap_cons, List.length_append, ih, be32_length, List.length_cons]; omega

theorem locaBytes_length (short : Bool) (loca : List Nat) :
    (locaBytes short loca).length = pad4 (if short then loca.length * 2 else loca.length * 4) := by
  have h1 := flat16_length loca
  have h2 := flat32_length loca
  unfold locaBytes
  simp only
  cases short
  · simp only [Bool.false_eq_true, if_false, List.length_append, List.length_replicate, h2]
    have := pad4_ge (loca.length * 4)
    omega
  · simp only [if_true, List.length_append, List.length_replicate, h1]
    have := pad4_ge (loca.length * 2)
    omega

/-- what is written for a table -/
theorem tableRow_facts {t : Ttf} {glyf : Bytes} {loca : List Nat} {tag : Bytes} {e : TableEntry} {d : Bytes} (hg : glyf.length % 4 = 0)
    (h : tableRow t glyf loca tag = .ok (e, d)) :
    d.length = pad4 e.length ∧
    (tag = b!"glyf" → d = glyf ∧ e.length = glyf.length) ∧ (tag = b!"loca" → d = locaBytes t.isShort loca) ∧
    (tag = b!"glyf" ∨ tag = b!"loca" → e.checkSum = wordSum (d.take e.length) % 4294967296) ∧
    (tag ≠ b!"glyf" → tag ≠ b!"loca" → e = t.table tag ∧ d = bytesAt t.fontData e.offset (pad4 e.length)) := by
  unfold tableRow at h
  simp only at h
  by_cases h1 : tag = b!"glyf"
  · rw [if_pos h1, checkSum_spec hg] at h
    simp only [Res.ok_bind, padded_eq, pad4_eq hg] at h
    unfold slice at h
    rw [if_pos (by simp)] at h
    simp only [List.drop_zero, List.take_length, Res.ok_bind, Res.ok.injEq, Prod.mk.injEq] at h
    obtain ⟨rfl, rfl⟩ := h
    refine ⟨(pad4_eq hg).symm, fun _ => ⟨rfl, rfl⟩, fun h2 => ?_, fun _ => ?_, fun h2 => absurd h1 h2⟩
    · rw [h1] at h2; exact absurd h2 (by decide)
    · simp
  · rw [if_neg h1] at h
    by_cases h2 : tag = b!"loca"
    · rw [if_pos h2] at h
      have hl := locaBytes_length t.isShort loca
      rw [checkSum_spec (by rw [hl]; exact pad4_mod _)] at h
      simp only [Res.ok_bind, Res.ok.injEq, Prod.mk.injEq] at h
      obtain ⟨rfl, rfl⟩ := h
      refine ⟨hl, fun h3 => absurd h3 h1, fun _ => rfl, fun _ => ?_, fun _ h3 => absurd h2 h3⟩
      simp only
      congr 1
      -- the padding does not change the sum
      have hge := pad4_ge (if t.isShort then loca.length * 2 else loca.length * 4)
      have hlt := pad4_lt (if t.isShort then loca.length * 2 else loca.length * 4)
      have hmod := pad4_mod (if t.isShort then loca.length * 2 else loca.length * 4)
      have hform : locaBytes t.isShort loca = (locaBytes t.isShort loca).take (if t.isShort then loca.length * 2 else loca.length * 4) ++
          List.replicate (pad4 (if t.isShort then loca.length * 2 else loca.length * 4) - (if t.isShort then loca.length * 2 else loca.length * 4)) 0 := by
        have hb : (if t.isShort then loca.flatMap (fun v => be16 (v / 2)) else loca.flatMap be32).length = (if t.isShort then loca.length * 2 else loca.length * 4) := by
          split
          · exact flat16_length loca
          · exact flat32_length loca
        conv_lhs => unfold locaBytes
        unfold locaBytes
        simp only [hb]
        rw [← hb, List.take_left]
      have hlen : ((locaBytes t.isShort loca).take (if t.isShort then loca.length * 2 else loca.length * 4)).length = (if t.isShort then loca.length * 2 else loca.length * 4) := by
        rw [List.length_take, hl]; omega
      conv_lhs => rw [hform]
      exact wordSum_pad _ _ (by rw [hlen]; omega) (by omega)
    · rw [if_neg h2] at h
      rw [Res.bind_eq_ok] at h
      obtain ⟨d', hs, h⟩ := h
      simp only [Res.ok.injEq, Prod.mk.injEq] at h
      obtain ⟨rfl, rfl⟩ := h
      unfold slice at hs
      split at hs
      · rename_i hle
        simp only [Res.ok.injEq] at hs
        subst hs
        refine ⟨?_, fun h3 => absurd h3 h1, fun h3 => absurd h3 h2, fun h3 => ?_, fun _ _ => ⟨rfl, rfl⟩⟩
        · rw [List.length_take, List.length_drop]
          rw [padded_eq] at hle ⊢
          omega
        · rcases h3 with h3 | h3
          · exact absurd h3 h1
          · exact absurd h3 h2
      · simp at hs

theorem fontRows_get {α β : Type} {R : α → β → Prop} {l : List α} {m : List β} (h : List.Forall₂ R l m) :
    l.length = m.length ∧ ∀ (i : Nat) (a : α) (b : β), l[i]? = some a → m[i]? = some b → R a b := by
  induction h with
  | nil => exact ⟨rfl, by simp⟩
  | cons hab _ ih =>
    refine ⟨by simp [ih.1], ?_⟩
    intro i a b ha hb
    cases i with
    | zero => simp at ha hb; subst ha; subst hb; exact hab
    | succ i => exact ih.2 i a b (by simpa using ha) (by simpa using hb)

theorem fontTags_len4 : ∀ tag ∈ fontTags, tag.length = 4 := by decide

/-- the rows of a font file, with everything known about them -/
structure FontRows (t : Ttf) (glyf : Bytes) (loca : List Nat) (b : Bytes) (rows : List (Bytes × TableEntry × Bytes)) : Prop where
  tags : rows.map (·.1) = fontTags
  row : ∀ r ∈ rows, tableRow t glyf loca r.1 = .ok r.2
  file : b = fontHeader ++ recBytes rows 156 ++ rows.flatMap (·.2.2)

theorem makeFont_rows {t : Ttf} {m : CharMap} {b : Bytes} (h : makeFont t m = .ok b) :
    ∃ glyf loca rows, makeGlyfLoca t m = .ok (glyf, loca) ∧ FontRows t glyf loca b rows := by
  obtain ⟨glyf, loca, hg, rows, h1, h2⟩ := makeFont_layout h
  obtain ⟨hlen, hget⟩ := fontRows_get h1
  refine ⟨glyf, loca, fontTags.zip rows, hg, ?_, ?_, ?_⟩
  · rw [List.map_fst_zip (by omega)]
  · intro r hr
    rw [List.mem_iff_getElem?] at hr
    obtain ⟨i, hi⟩ := hr
    rw [List.getElem?_zip_eq_some] at hi
    exact hget i _ _ hi.1 hi.2
  · rw [h2]
    congr 1
    have : rows = (fontTags.zip rows).map (·.2) := by rw [List.map_snd_zip (by omega)]
    conv_lhs => rw [this]
    rw [List.flatMap_map]

theorem FontRows.len4 {t : Ttf} {glyf : Bytes} {loca : List Nat} {b : Bytes} {rows : List (Bytes × TableEntry × Bytes)}
    (h : FontRows t glyf loca b rows) : ∀ r ∈ rows, r.1.length = 4 := by
  intro r hr
  apply fontTags_len4
  rw [← h.tags]
  exact List.mem_map.2 ⟨r, hr, rfl⟩

theorem FontRows.head_length {t : Ttf} {glyf : Bytes} {loca : List Nat} {b : Bytes} {rows : List (Bytes × TableEntry × Bytes)}
    (h : FontRows t glyf loca b rows) : (fontHeader ++ recBytes rows 156).length = 156 ∧ rows.length = 9 := by
  have h9 : rows.length = 9 := by
    have := congrArg List.length h.tags
    simpa [fontTags] using this
  refine ⟨?_, h9⟩
  rw [List.length_append, recBytes_length rows 156 h.len4, h9]
  rfl

/-- the start of a table is a multiple of four -/
theorem rowOff_mod (rows : List (Bytes × TableEntry × Bytes)) (h : ∀ r ∈ rows, r.2.2.length % 4 = 0) (i : Nat) : rowOff rows 156 i % 4 = 0 := by
  unfold rowOff
  have : ((rows.take i).flatMap (·.2.2)).length % 4 = 0 := by
    have h' : ∀ r ∈ rows.take i, r.2.2.length % 4 = 0 := fun r hr => h r (List.mem_of_mem_take hr)
    revert h'
    generalize rows.take i = l
    intro h'
    induction l with
    | nil => rfl
    | cons a l ih =>
      rw [List.flatMap_cons, List.length_append]
      have h1 := h' a (by simp)
      have h2 := ih (fun r hr => h' r (by simp [hr]))
      omega
  omega

/-- **C32.** For every source font and every set of characters: the file has nine directory records, one per table, sorted by tag;
each table starts at a multiple of four after the directory, tables (with their padding) do not overlap and lie inside the file; the
glyph and location tables have the recorded checksum; every other table has the recorded length and checksum and the bytes of the
source font's table. -/
theorem C32_table_directory {t : Ttf} {m : CharMap} {b : Bytes} (hb : makeFont t m = .ok b) (hlt : b.length < 4294967296)
    (hsum : ∀ tag, (t.table tag).checkSum < 4294967296) (hlen : ∀ tag, (t.table tag).length < 4294967296) :
    ∃ recs : List Record, recs.map (·.tag) = fontTags ∧ u16At b 4 = some 9 ∧
      (∀ i r, recs[i]? = some r → record b i = some r ∧ r.off % 4 = 0 ∧ 12 + 16 * 9 ≤ r.off ∧ r.off + (r.len + 3) / 4 * 4 ≤ b.length) ∧
      recs.Pairwise (fun r s => r.off + (r.len + 3) / 4 * 4 ≤ s.off) ∧
      (∀ r ∈ recs, r.tag = b!"glyf" ∨ r.tag = b!"loca" → r.sum = wordSum (bytesAt b r.off r.len) % 4294967296) ∧
      (∀ r ∈ recs, r.tag ≠ b!"glyf" → r.tag ≠ b!"loca" → r.len = (t.table r.tag).length ∧ r.sum = (t.table r.tag).checkSum ∧
        bytesAt b r.off r.len = bytesAt t.fontData (t.table r.tag).offset r.len) := by
  obtain ⟨glyf, loca, rows, hg, hr⟩ := makeFont_rows hb
  have hmod := makeGlyfLoca_mod hg
  obtain ⟨hhl, h9⟩ := hr.head_length
  have hfacts : ∀ r ∈ rows, _ := fun r hrm => tableRow_facts (tag := r.1) (e := r.2.1) (d := r.2.2) hmod (hr.row r hrm)
  -- positions
  have hpos : ∀ i r, rows[i]? = some r → rowOff rows 156 i + pad4 r.2.1.length ≤ b.length ∧
      bytesAt b (rowOff rows 156 i) r.2.2.length = r.2.2 := by
    intro i r hi
    have := table_at rows (fontHeader ++ recBytes rows 156) i hi
    rw [hhl, ← hr.file] at this
    refine ⟨?_, this.1⟩
    rw [← (hfacts r (List.mem_of_getElem? hi)).1]
    exact this.2.1
  let rec1 : Nat → (Bytes × TableEntry × Bytes) → Record := fun i r => ⟨r.1, r.2.1.checkSum, rowOff rows 156 i, r.2.1.length⟩
  have hget : ∀ i r, (rows.mapIdx rec1)[i]? = some r ↔ ∃ row, rows[i]? = some row ∧ r = rec1 i row := by
    intro i r
    rw [List.getElem?_mapIdx, Option.map_eq_some_iff]
    constructor
    · rintro ⟨row, h1, h2⟩; exact ⟨row, h1, h2.symm⟩
    · rintro ⟨row, h1, h2⟩; exact ⟨row, h1, h2.symm⟩
  have hsmall : ∀ row ∈ rows, row.2.1.checkSum < 4294967296 := by
    intro row hrow
    have hf := hfacts row hrow
    by_cases h1 : row.1 = b!"glyf" ∨ row.1 = b!"loca"
    · rw [hf.2.2.2.1 h1]; omega
    · have := (hf.2.2.2.2 (fun h => h1 (Or.inl h)) (fun h => h1 (Or.inr h))).1
      rw [this]; exact hsum _
  refine ⟨rows.mapIdx rec1, ?_, ?_, ?_, ?_, ?_, ?_⟩
  · rw [← hr.tags]
    apply List.ext_getElem?
    intro i
    simp only [List.getElem?_map, List.getElem?_mapIdx]
    cases rows[i]? <;> rfl
  · rw [hr.file]
    rw [List.append_assoc, u16At_left (by decide)]
    decide
  · intro i r hi
    obtain ⟨row, hrow, rfl⟩ := (hget i r).1 hi
    obtain ⟨hp1, hp2⟩ := hpos i row hrow
    refine ⟨?_, rowOff_mod rows (fun r hrm => by rw [(hfacts r hrm).1]; exact pad4_mod _) i, by simp only [rec1, rowOff]; omega, hp1⟩
    have := record_at rows (rows.flatMap (·.2.2)) 156 fontHeader i 0 hr.len4 rfl row.1 row.2.1 row.2.2 hrow
    rw [Nat.zero_add, ← hr.file] at this
    rw [this]
    have h1 := hsmall row (List.mem_of_getElem? hrow)
    have h2 := pad4_ge row.2.1.length
    simp only [rec1, Option.some.injEq, Record.mk.injEq, true_and]
    refine ⟨Nat.mod_eq_of_lt h1, Nat.mod_eq_of_lt (by omega), Nat.mod_eq_of_lt (by omega)⟩
  · rw [List.pairwise_iff_getElem]
    intro i j hi hj hij
    have h1 := (hget i _).1 (List.getElem?_eq_getElem hi)
    have h2 := (hget j _).1 (List.getElem?_eq_getElem hj)
    obtain ⟨ri, hri, e1⟩ := h1
    obtain ⟨rj, hrj, e2⟩ := h2
    rw [e1, e2]
    simp only [rec1]
    -- offsets grow
    have hi' : i < rows.length := (List.getElem?_eq_some_iff.1 hri).1
    have hgrow : rowOff rows 156 (i + 1) = rowOff rows 156 i + ri.2.2.length := by
      unfold rowOff
      have : rows.take (i + 1) = rows.take i ++ [ri] := by
        rw [List.take_succ, hri]; rfl
      rw [this, List.flatMap_append, List.length_append]
      simp
      omega
    have hmono : rowOff rows 156 (i + 1) ≤ rowOff rows 156 j := by
      unfold rowOff
      have : rows.take j = rows.take (i + 1) ++ (rows.take j).drop (i + 1) := by
        conv_lhs => rw [← List.take_append_drop (i + 1) (rows.take j)]
        rw [List.take_take, Nat.min_eq_left (by omega)]
      rw [this, List.flatMap_append, List.length_append]
      omega
    have hl := (hfacts ri (List.mem_of_getElem? hri)).1
    unfold pad4 at hl
    omega
  · intro r hrm htag
    obtain ⟨i, hi⟩ := List.mem_iff_getElem?.1 hrm
    obtain ⟨row, hrow, rfl⟩ := (hget i r).1 hi
    obtain ⟨hp1, hp2⟩ := hpos i row hrow
    have hf := hfacts row (List.mem_of_getElem? hrow)
    simp only [rec1] at htag ⊢
    rw [hf.2.2.2.1 htag]
    have hge := pad4_ge row.2.1.length
    congr 2
    conv_lhs => rw [← hp2]
    unfold bytesAt
    rw [List.take_take, Nat.min_eq_left (by omega)]
  · intro r hrm hn1 hn2
    obtain ⟨i, hi⟩ := List.mem_iff_getElem?.1 hrm
    obtain ⟨row, hrow, rfl⟩ := (hget i r).1 hi
    obtain ⟨hp1, hp2⟩ := hpos i row hrow
    have hf := hfacts row (List.mem_of_getElem? hrow)
    simp only [rec1] at hn1 hn2 ⊢
    obtain ⟨h1, h2⟩ := hf.2.2.2.2 hn1 hn2
    refine ⟨by rw [h1], by rw [h1], ?_⟩
    have hge := pad4_ge row.2.1.length
    have e1 : bytesAt b (rowOff rows 156 i) row.2.1.length = row.2.2.take row.2.1.length := by
      conv_rhs => rw [← hp2]
      unfold bytesAt
      rw [List.take_take, Nat.min_eq_left (by omega)]
    rw [e1, h2, ← h1]
    unfold bytesAt
    rw [List.take_take, Nat.min_eq_left (by omega)]

end Verif
