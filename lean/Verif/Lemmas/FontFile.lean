import Verif.Spec.FontFile
import Verif.TtfParse
import Verif.Lemmas.Font
import Mathlib.Tactic.Ring
/-
Lemmas about big-endian numbers, the write buffer, and the layout of the font file.
-/
namespace Verif
open Spec

/-! ### numbers -/

theorem u16At_right (a b : Bytes) (i : Nat) : u16At (a ++ b) (a.length + i) = u16At b i := by
  unfold u16At
  rw [List.getElem?_append_right (by omega), List.getElem?_append_right (by omega)]
  congr 2 <;> congr 1 <;> omega

theorem u16At_left {a b : Bytes} {i : Nat} (h : i + 1 < a.length) : u16At (a ++ b) i = u16At a i := by
  unfold u16At
  rw [List.getElem?_append_left (by omega), List.getElem?_append_left (by omega)]

theorem u32At_right (a b : Bytes) (i : Nat) : u32At (a ++ b) (a.length + i) = u32At b i := by
  unfold u32At
  rw [u16At_right, Nat.add_assoc, u16At_right]

theorem u32At_left {a b : Bytes} {i : Nat} (h : i + 3 < a.length) : u32At (a ++ b) i = u32At a i := by
  unfold u32At
  rw [u16At_left (by omega), u16At_left (by omega)]

theorem u16At_be16 (v : Nat) (c : Bytes) : u16At (be16 v ++ c) 0 = some (v % 65536) := by
  simp [u16At, be16, UInt8.toNat_ofNat']
  omega

theorem u32At_be32 (v : Nat) (c : Bytes) : u32At (be32 v ++ c) 0 = some (v % 4294967296) := by
  simp [u32At, u16At, be32, UInt8.toNat_ofNat']
  omega

theorem be32_length (v : Nat) : (be32 v).length = 4 := rfl
theorem be16_length (v : Nat) : (be16 v).length = 2 := rfl

theorem u16At_none {b : Bytes} {i : Nat} : u16At b i = none ↔ b.length < i + 2 := by
  unfold u16At
  constructor
  · intro h
    by_contra hc
    rw [List.getElem?_eq_getElem (by omega), List.getElem?_eq_getElem (by omega)] at h
    simp at h
  · intro h
    rw [List.getElem?_eq_none (by omega : b.length ≤ i + 1)]
    split
    · rename_i h1 h2; simp at h2
    · rfl

theorem u16At_some {b : Bytes} {i : Nat} {v : Nat} (h : u16At b i = some v) : i + 2 ≤ b.length := by
  by_contra hc
  have := u16At_none.2 (by omega : b.length < i + 2)
  rw [this] at h
  simp at h

theorem u16At_eq {b : Bytes} {i : Nat} (h : i + 2 ≤ b.length) : u16At b i = some (beVal ((b.drop i).take 2)) := by
  unfold u16At
  rw [List.getElem?_eq_getElem (by omega), List.getElem?_eq_getElem (by omega)]
  have : b.drop i = b[i] :: b[i + 1] :: b.drop (i + 2) := by
    rw [List.drop_eq_getElem_cons (by omega), List.drop_eq_getElem_cons (by omega)]
  rw [this]
  simp only [beVal, List.take_succ_cons, List.take_zero, List.foldl_cons, List.foldl_nil, Nat.zero_mul, Nat.zero_add]

theorem readUShortAt_iff {b : Bytes} {i v : Nat} : readUShortAt b i = .ok v ↔ u16At b i = some v := by
  unfold readUShortAt slice
  constructor
  · intro h
    split at h
    · rename_i hl
      simp only [Res.ok_bind, Res.ok.injEq] at h
      rw [u16At_eq hl, h]
    · simp at h
  · intro h
    have hl := u16At_some h
    rw [if_pos hl]
    rw [u16At_eq hl] at h
    simp only [Option.some.injEq] at h
    simp [h]

/-! ### the buffer -/

theorem getElem?_pad (d : Bytes) (n i : Nat) :
    (d ++ List.replicate n 0)[i]? = if i < d.length then d[i]? else if i < d.length + n then some 0 else none := by
  split
  · rw [List.getElem?_append_left (by assumption)]
  · rw [List.getElem?_append_right (by omega)]
    split
    · rw [List.getElem?_replicate, if_pos (by omega)]
    · rw [List.getElem?_replicate, if_neg (by omega)]

/-- what is at a position after writing -/
theorem write_getElem? (b : Buff) (p : Bytes) (i : Nat) :
    (b.write p).data[i]? = if b.pos ≤ i ∧ i < b.pos + p.length then p[i - b.pos]? else
      if i < b.data.length then b.data[i]? else if i < b.pos then some 0 else none := by
  unfold Buff.write
  simp only
  have hlen : (b.data ++ List.replicate (b.pos + p.length - b.data.length) (0 : UInt8)).length = max b.data.length (b.pos + p.length) := by
    simp; omega
  by_cases h1 : i < b.pos
  · rw [if_neg (by omega), List.append_assoc, List.getElem?_append_left (by rw [List.length_take, hlen]; omega), List.getElem?_take,
      if_pos h1, getElem?_pad]
    by_cases h2 : i < b.data.length
    · rw [if_pos h2, if_pos h2]
    · rw [if_neg h2, if_neg h2, if_pos (by omega), if_pos h1]
  · have ht : (List.take b.pos (b.data ++ List.replicate (b.pos + p.length - b.data.length) (0 : UInt8))).length = b.pos := by
      rw [List.length_take, hlen]; omega
    by_cases h3 : i < b.pos + p.length
    · rw [if_pos ⟨by omega, h3⟩, List.append_assoc, List.getElem?_append_right (by omega), ht, List.getElem?_append_left (by omega)]
    · rw [if_neg (by omega), List.getElem?_append_right (by rw [List.length_append]; omega), List.length_append, ht, List.getElem?_drop,
        getElem?_pad]
      rw [show b.pos + p.length + (i - (b.pos + p.length)) = i by omega]
      by_cases h2 : i < b.data.length
      · rw [if_pos h2, if_pos h2]
      · rw [if_neg h2, if_neg h2, if_neg (by omega), if_neg (by omega)]

theorem write_write (b : Buff) (p q : Bytes) : (b.write p).write q = b.write (p ++ q) := by
  have hpos : ((b.write p).write q).pos = (b.write (p ++ q)).pos := by
    simp [Buff.write]; omega
  have hp1 : (b.write p).pos = b.pos + p.length := rfl
  have hdata : ((b.write p).write q).data = (b.write (p ++ q)).data := by
    apply List.ext_getElem?
    intro i
    rw [write_getElem? (b.write p) q, write_getElem? b (p ++ q), hp1, List.length_append]
    have hl : (b.write p).data.length = max b.data.length (b.pos + p.length) := by
      simp [Buff.write]; omega
    rw [hl, write_getElem? b p]
    split_ifs <;> first
      | rfl
      | omega
      | (rw [List.getElem?_append_left (by omega)])
      | (rw [List.getElem?_append_right (by omega)]; congr 1; omega)
  cases h1 : (b.write p).write q
  cases h2 : b.write (p ++ q)
  rw [h1, h2] at hpos hdata
  simp only at hpos hdata
  rw [hpos, hdata]

/-- writing at or after the end -/
theorem write_end {b : Buff} {p : Bytes} (h : b.data.length ≤ b.pos) :
    (b.write p).data = b.data ++ List.replicate (b.pos - b.data.length) 0 ++ p := by
  apply List.ext_getElem?
  intro i
  rw [write_getElem?]
  have hl : (b.data ++ List.replicate (b.pos - b.data.length) (0 : UInt8)).length = b.pos := by simp; omega
  by_cases h1 : b.pos ≤ i ∧ i < b.pos + p.length
  · rw [if_pos h1, List.getElem?_append_right (by omega), hl]
  · rw [if_neg h1]
    by_cases h2 : i < b.pos
    · rw [List.getElem?_append_left (by omega), getElem?_pad]
      by_cases h3 : i < b.data.length
      · rw [if_pos h3, if_pos h3]
      · rw [if_neg h3, if_neg h3, if_pos h2, if_pos (by omega)]
    · rw [if_neg (by omega), if_neg h2, List.getElem?_append_right (by omega), hl, List.getElem?_eq_none (by omega)]

/-- overwriting a middle part -/
theorem write_mid {pos : Nat} {a m c p : Bytes} (ha : a.length = pos) (hm : m.length = p.length) :
    (Buff.write ⟨pos, a ++ m ++ c⟩ p).data = a ++ p ++ c := by
  unfold Buff.write
  simp only
  have h0 : pos + p.length - (a ++ m ++ c).length = 0 := by simp; omega
  rw [h0, List.replicate_zero, List.append_nil]
  have h1 : List.take pos (a ++ m ++ c) = a := by
    rw [List.append_assoc, ← ha, List.take_left]
  have h2 : List.drop (pos + p.length) (a ++ m ++ c) = c := by
    rw [← hm, ← ha, ← List.length_append, List.drop_left]
  rw [h1, h2]

/-! ### the file -/

/-- the directory records, for tables starting at `tp` -/
def recBytes : List (Bytes × TableEntry × Bytes) → Nat → Bytes
  | [], _ => []
  | (tag, e, d) :: rows, tp => tag ++ be32 e.checkSum ++ be32 tp ++ be32 e.length ++ recBytes rows (tp + d.length)

/-- padded with zeros to a length -/
def padTo (n : Nat) (d : Bytes) : Bytes := d ++ List.replicate (n - d.length) 0

theorem padTo_length (n : Nat) (d : Bytes) : (padTo n d).length = max n d.length := by
  simp [padTo]; omega

theorem padTo_of_le {n : Nat} {d : Bytes} (h : n ≤ d.length) : padTo n d = d := by
  unfold padTo
  rw [Nat.sub_eq_zero_of_le h]
  simp

theorem fontLoop_layout (t : Ttf) (glyf : Bytes) (loca : List Nat) (H : Bytes) (hH : H.length = 12) (base : Nat) :
    ∀ (tags : List Bytes) (idx : Nat) (b b' : Buff) (tp : Nat) (recs T : Bytes), (∀ tag ∈ tags, tag.length = 4) →
      recs.length = 16 * idx → base = 12 + 16 * (idx + tags.length) → tp = base + T.length →
      padTo base b.data = H ++ recs ++ List.replicate (16 * tags.length) 0 ++ T →
      fontLoop t glyf loca tags idx b tp = .ok b' →
      ∃ rows : List (TableEntry × Bytes), List.Forall₂ (fun tag row => tableRow t glyf loca tag = .ok row) tags rows ∧
        padTo base b'.data = H ++ recs ++ recBytes (tags.zip rows) tp ++ T ++ rows.flatMap (·.2) ∧ (tags ≠ [] → base ≤ b'.data.length) := by
  intro tags
  induction tags with
  | nil =>
    intro idx b b' tp recs T htag hrecs hbase htp hpad hl
    simp [fontLoop] at hl
    subst hl
    refine ⟨[], .nil, ?_, by simp⟩
    rw [hpad]
    simp [recBytes]
  | cons tag tags ih =>
    intro idx b b' tp recs T htag hrecs hbase htp hpad hl
    rw [fontLoop] at hl
    cases hrow : tableRow t glyf loca tag with
    | ok row =>
      obtain ⟨e, d⟩ := row
      rw [hrow] at hl
      simp only [Res.ok_bind] at hl
      -- the table
      have hlen : (padTo base b.data).length = tp := by
        rw [hpad]
        simp only [List.length_append, List.length_replicate, hH, hrecs]
        simp only [List.length_cons] at hbase
        simp only [List.length_cons]
        omega
      rw [padTo_length] at hlen
      have hb1 : ((b.seek tp).write d).data = H ++ recs ++ List.replicate (16 * (tags.length + 1)) 0 ++ T ++ d := by
        rw [write_end (by simp only [Buff.seek]; omega)]
        simp only [Buff.seek]
        have : b.data ++ List.replicate (tp - b.data.length) 0 = padTo base b.data := by
          unfold padTo
          congr 2
          omega
        rw [this, hpad]
        rfl
      -- the record
      have htl := htag tag (by simp)
      rw [write_write, write_write, write_write] at hl
      simp only [← List.append_assoc] at hl
      have hb2 : ((((b.seek tp).write d).seek (idx * 16 + 12)).write (tag ++ be32 e.checkSum ++ be32 tp ++ be32 e.length)).data =
          H ++ (recs ++ (tag ++ be32 e.checkSum ++ be32 tp ++ be32 e.length)) ++ List.replicate (16 * tags.length) 0 ++ (T ++ d) := by
        have hsplit : List.replicate (16 * (tags.length + 1)) (0 : UInt8) = List.replicate 16 0 ++ List.replicate (16 * tags.length) 0 := by
          rw [List.replicate_append_replicate]
          congr 1; omega
        have : (((b.seek tp).write d).seek (idx * 16 + 12)) = ⟨idx * 16 + 12, (H ++ recs) ++ List.replicate 16 0 ++ (List.replicate (16 * tags.length) 0 ++ T ++ d)⟩ := by
          unfold Buff.seek at hb1 ⊢
          rw [hb1, hsplit]
          simp only [List.append_assoc]
        rw [this, write_mid (by rw [List.length_append]; omega) (by
          simp only [List.length_append, List.length_replicate, be32_length]; omega)]
        simp only [List.append_assoc]
      have hb1pos : ((b.seek tp).write d).pos = tp + d.length := rfl
      rw [hb1pos] at hl
      have hbl : base ≤ ((((b.seek tp).write d).seek (idx * 16 + 12)).write (tag ++ be32 e.checkSum ++ be32 tp ++ be32 e.length)).data.length := by
        rw [hb2]
        simp only [List.length_append, List.length_replicate, be32_length, hH, hrecs, htl]
        simp only [List.length_cons] at hbase
        omega
      obtain ⟨rows, h1, h2, h3⟩ := ih (idx + 1) _ b' (tp + d.length) (recs ++ (tag ++ be32 e.checkSum ++ be32 tp ++ be32 e.length)) (T ++ d)
        (fun x hx => htag x (by simp [hx])) (by simp only [List.length_append, be32_length]; omega)
        (by simp only [List.length_cons] at hbase; omega) (by rw [List.length_append]; omega)
        (by rw [padTo_of_le hbl, hb2]) hl
      refine ⟨(e, d) :: rows, .cons hrow h1, ?_, ?_⟩
      · rw [h2]
        simp only [List.zip_cons_cons, recBytes, List.flatMap_cons, List.append_assoc]
      · intro _
        by_cases htags : tags = []
        · subst htags
          simp [fontLoop] at hl
          rw [← hl]
          simpa using hbl
        · exact h3 htags
    | _ => rw [hrow] at hl; simp [bind, Res.bind] at hl

/-- the first twelve bytes -/
def fontHeader : Bytes := [0, 1, 0, 0, 0, 9, 0, 128, 0, 3, 0, 16]

theorem makeFont_layout {t : Ttf} {m : CharMap} {b : Bytes} (h : makeFont t m = .ok b) :
    ∃ glyf loca, makeGlyfLoca t m = .ok (glyf, loca) ∧ ∃ rows : List (TableEntry × Bytes),
      List.Forall₂ (fun tag row => tableRow t glyf loca tag = .ok row) fontTags rows ∧
      b = fontHeader ++ recBytes (fontTags.zip rows) 156 ++ rows.flatMap (·.2) := by
  unfold makeFont at h
  cases hg : makeGlyfLoca t m with
  | ok gl =>
    obtain ⟨glyf, loca⟩ := gl
    refine ⟨glyf, loca, rfl, ?_⟩
    rw [hg] at h
    simp only [Res.ok_bind] at h
    rw [Res.bind_eq_ok] at h
    obtain ⟨b', hl, hb⟩ := h
    simp only [Res.ok.injEq] at hb
    obtain ⟨rows, h1, h2, h3⟩ := fontLoop_layout t glyf loca fontHeader rfl 156 fontTags 0 _ b' 156 [] [] (by decide) rfl rfl rfl (by decide) hl
    refine ⟨rows, h1, ?_⟩
    rw [padTo_of_le (h3 (by decide)), hb] at h2
    rw [h2]
    simp
  | _ => rw [hg] at h; simp [bind, Res.bind] at h

/-- start of the `i`-th table -/
def rowOff (rows : List (Bytes × TableEntry × Bytes)) (tp i : Nat) : Nat := tp + ((rows.take i).flatMap (·.2.2)).length

theorem recBytes_length (rows : List (Bytes × TableEntry × Bytes)) : ∀ tp, (∀ r ∈ rows, r.1.length = 4) → (recBytes rows tp).length = 16 * rows.length := by
  induction rows with
  | nil => intro tp _; rfl
  | cons r rows ih =>
    intro tp h
    obtain ⟨tag, e, d⟩ := r
    have := h (tag, e, d) (by simp)
    simp only at this
    simp only [recBytes, List.length_append, be32_length, List.length_cons]
    rw [ih _ (fun x hx => h x (by simp [hx]))]
    omega

/-- the `i`-th record, in a file where the records start at position 12 -/
theorem record_at (rows : List (Bytes × TableEntry × Bytes)) (T : Bytes) : ∀ (tp : Nat) (P : Bytes) (i k : Nat), (∀ r ∈ rows, r.1.length = 4) →
    P.length = 12 + 16 * k → ∀ (tag : Bytes) (e : TableEntry) (d : Bytes), rows[i]? = some (tag, e, d) →
      record (P ++ recBytes rows tp ++ T) (k + i) =
        some ⟨tag, e.checkSum % 4294967296, rowOff rows tp i % 4294967296, e.length % 4294967296⟩ := by
  induction rows with
  | nil => intro tp P i k _ _ tag e d h; simp at h
  | cons r rows ih =>
    intro tp P i k hlen hP tag e d h
    obtain ⟨tag0, e0, d0⟩ := r
    have hl0 : tag0.length = 4 := hlen (tag0, e0, d0) (by simp)
    cases i with
    | zero =>
      simp only [List.length_cons, Nat.zero_lt_succ, List.getElem?_eq_getElem, List.getElem_cons_zero, Option.some.injEq, Prod.mk.injEq] at h
      obtain ⟨rfl, rfl, rfl⟩ := h
      unfold record
      simp only [recBytes, List.append_assoc, Nat.add_zero]
      have e1 : u32At (P ++ (tag0 ++ (be32 e0.checkSum ++ (be32 tp ++ (be32 e0.length ++ (recBytes rows (tp + d0.length) ++ T)))))) (12 + 16 * k + 4) =
          some (e0.checkSum % 4294967296) := by
        have := u32At_right (P ++ tag0) (be32 e0.checkSum ++ (be32 tp ++ (be32 e0.length ++ (recBytes rows (tp + d0.length) ++ T)))) 0
        rw [u32At_be32, List.append_assoc, List.length_append, hP, hl0] at this
        exact this
      have e2 : u32At (P ++ (tag0 ++ (be32 e0.checkSum ++ (be32 tp ++ (be32 e0.length ++ (recBytes rows (tp + d0.length) ++ T)))))) (12 + 16 * k + 8) =
          some (tp % 4294967296) := by
        have := u32At_right (P ++ tag0 ++ be32 e0.checkSum) (be32 tp ++ (be32 e0.length ++ (recBytes rows (tp + d0.length) ++ T))) 0
        rw [u32At_be32, List.append_assoc, List.append_assoc, List.length_append, List.length_append, hP, hl0, be32_length] at this
        exact this
      have e3 : u32At (P ++ (tag0 ++ (be32 e0.checkSum ++ (be32 tp ++ (be32 e0.length ++ (recBytes rows (tp + d0.length) ++ T)))))) (12 + 16 * k + 12) =
          some (e0.length % 4294967296) := by
        have := u32At_right (P ++ tag0 ++ be32 e0.checkSum ++ be32 tp) (be32 e0.length ++ (recBytes rows (tp + d0.length) ++ T)) 0
        rw [u32At_be32, List.append_assoc, List.append_assoc, List.append_assoc, List.length_append, List.length_append, List.length_append, hP, hl0,
          be32_length, be32_length] at this
        exact this
      rw [e1, e2, e3]
      simp only [bytesAt, ← hP, List.drop_left]
      rw [← hl0, List.take_left]
      simp [rowOff]
    | succ i =>
      rw [List.getElem?_cons_succ] at h
      have := ih (tp + d0.length) (P ++ (tag0 ++ be32 e0.checkSum ++ be32 tp ++ be32 e0.length)) i (k + 1) (fun x hx => hlen x (by simp [hx]))
        (by simp only [List.length_append, be32_length]; omega) tag e d h
      rw [show k + (i + 1) = k + 1 + i by omega]
      simp only [recBytes]
      have e4 : P ++ (tag0 ++ be32 e0.checkSum ++ be32 tp ++ be32 e0.length ++ recBytes rows (tp + d0.length)) ++ T =
          P ++ (tag0 ++ be32 e0.checkSum ++ be32 tp ++ be32 e0.length) ++ recBytes rows (tp + d0.length) ++ T := by
        simp only [List.append_assoc]
      rw [e4, this]
      simp only [rowOff, List.take_succ_cons, List.flatMap_cons, List.length_append]
      rw [Nat.add_assoc]

theorem bytesAt_right (a b : Bytes) (i n : Nat) : bytesAt (a ++ b) (a.length + i) n = bytesAt b i n := by
  unfold bytesAt
  rw [List.drop_append, List.drop_eq_nil_of_le (by omega), List.nil_append]
  congr 2
  omega

/-- the bytes of the `i`-th table -/
theorem table_at (rows : List (Bytes × TableEntry × Bytes)) (P : Bytes) (i : Nat) {r : Bytes × TableEntry × Bytes} (h : rows[i]? = some r) :
    bytesAt (P ++ rows.flatMap (·.2.2)) (rowOff rows P.length i) r.2.2.length = r.2.2 ∧
      rowOff rows P.length i + r.2.2.length ≤ (P ++ rows.flatMap (·.2.2)).length ∧
      (∃ rest, P ++ rows.flatMap (·.2.2) = (P ++ (rows.take i).flatMap (·.2.2)) ++ r.2.2 ++ rest) := by
  have hi : i < rows.length := (List.getElem?_eq_some_iff.1 h).1
  have hsplit : rows = rows.take i ++ r :: rows.drop (i + 1) := by
    have := List.take_append_drop i rows
    rw [List.drop_eq_getElem_cons hi] at this
    rw [List.getElem?_eq_getElem hi] at h
    simp only [Option.some.injEq] at h
    rw [h] at this
    exact this.symm
  have hflat : P ++ rows.flatMap (·.2.2) = (P ++ (rows.take i).flatMap (·.2.2)) ++ r.2.2 ++ (rows.drop (i + 1)).flatMap (·.2.2) := by
    conv_lhs => rw [hsplit]
    rw [List.flatMap_append, List.flatMap_cons]
    simp only [List.append_assoc]
  have hoff : rowOff rows P.length i = (P ++ (rows.take i).flatMap (·.2.2)).length := by simp [rowOff]
  refine ⟨?_, ?_, _, hflat⟩
  · rw [hflat, hoff, List.append_assoc]
    have := bytesAt_right (P ++ (rows.take i).flatMap (·.2.2)) (r.2.2 ++ (rows.drop (i + 1)).flatMap (·.2.2)) 0 r.2.2.length
    simp only [Nat.add_zero] at this
    rw [this]
    simp [bytesAt]
  · rw [hflat, hoff]
    simp only [List.length_append]
    omega

/-! ### checksums -/

theorem sumBytes_spec : ∀ (n : Nat) (l : Bytes), l.length = 4 * n → ∀ a b c d, ∃ a' b' c' d', sumBytes l a b c d = .ok (a', b', c', d') ∧
    a' * 16777216 + b' * 65536 + c' * 256 + d' = a * 16777216 + b * 65536 + c * 256 + d + wordSum l := by
  intro n
  induction n with
  | zero =>
    intro l hl a b c d
    have : l = [] := List.length_eq_zero_iff.1 (by omega)
    subst this
    exact ⟨a, b, c, d, rfl, by simp [wordSum]⟩
  | succ n ih =>
    intro l hl a b c d
    match l, hl with
    | w :: x :: y :: z :: l, hl =>
      simp only [List.length_cons] at hl
      obtain ⟨a', b', c', d', h1, h2⟩ := ih l (by omega) (a + w.toNat) (b + x.toNat) (c + y.toNat) (d + z.toNat)
      refine ⟨a', b', c', d', by rw [sumBytes]; exact h1, ?_⟩
      rw [h2, wordSum]
      ring

theorem checkSum_spec {l : Bytes} (h : l.length % 4 = 0) : checkSum l = .ok (wordSum l % 4294967296) := by
  obtain ⟨a, b, c, d, h1, h2⟩ := sumBytes_spec (l.length / 4) l (by omega) 0 0 0 0
  unfold checkSum
  rw [h1]
  simp only [Res.ok_bind, Res.ok.injEq]
  omega

theorem wordSum_pad (l : Bytes) : ∀ k, (l.length + k) % 4 = 0 → k < 4 → wordSum (l ++ List.replicate k 0) = wordSum l := by
  intro k hk hk4
  induction l using wordSum.induct with
  | case1 =>
    have : k = 0 := by simp at hk; omega
    subst this; rfl
  | case2 w =>
    have : k = 3 := by simp at hk; omega
    subst this; simp [wordSum]
  | case3 w x =>
    have : k = 2 := by simp at hk; omega
    subst this; simp [wordSum]
  | case4 w x y =>
    have : k = 1 := by simp at hk; omega
    subst this; simp [wordSum]
  | case5 w x y z l ih =>
    have := ih (by simp only [List.length_cons] at hk; omega)
    simp only [List.cons_append, wordSum, this]

theorem pad4_ge (n : Nat) : n ≤ pad4 n := by unfold pad4; omega
theorem pad4_mod (n : Nat) : pad4 n % 4 = 0 := by unfold pad4; omega
theorem pad4_lt (n : Nat) : pad4 n < n + 4 := by unfold pad4; omega
theorem pad4_eq {n : Nat} (h : n % 4 = 0) : pad4 n = n := by unfold pad4; omega

end Verif
