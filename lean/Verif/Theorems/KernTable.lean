import Verif.Theorems.FontSample
import Verif.Spec.Kern
import Verif.GoPdf
/-!
# Kerning tables (C90)
-/
namespace Verif
open Verif.Spec

theorem kernAt_zero (d : Bytes) (p i : Nat) : kernAt d (p + 6) i = kernAt d p (i + 1) := by
  unfold kernAt
  rw [show p + 6 + 6 * i = p + 6 * (i + 1) by omega]

theorem kernPairs_spec {d : Bytes} : ∀ (n p : Nat) (acc : List ((Nat × Nat) × Int)), p + 6 * n ≤ d.length →
    ∃ K, kernPairs d n p acc = (K, some (p + 6 * n)) ∧ (∀ k v, KernIs d p n k v → K.lookup k = some v) ∧ ∀ k, NoKern d p n k → K.lookup k = acc.lookup k
  | 0, p, acc, _ => ⟨acc, rfl, fun k v ⟨i, hi, _⟩ => absurd hi (by omega), fun _ _ => rfl⟩
  | n + 1, p, acc, hl => by
    obtain ⟨l, hl1⟩ := u16At_in (d := d) (p := p) (by omega)
    obtain ⟨r, hr1⟩ := u16At_in (d := d) (p := p + 2) (by omega)
    obtain ⟨v, hv1⟩ := i16At_in (d := d) (p := p + 4) (by omega)
    have h0 : kernAt d p 0 = some ((l, r), v) := by
      unfold kernAt
      rw [show p + 6 * 0 = p by omega, hl1, hr1, hv1]
    obtain ⟨K, e, k1, k2⟩ := kernPairs_spec (d := d) n (p + 6) (((l, r), v) :: acc) (by omega)
    refine ⟨K, ?_, ?_, ?_⟩
    · unfold kernPairs
      rw [readUShort_iff.2 ⟨hl1, rfl⟩]
      simp only [bind, Res.bind]
      rw [readUShort_iff.2 ⟨hr1, rfl⟩]
      simp only
      rw [readShort_iff.2 ⟨hv1, rfl⟩]
      simp only
      rw [e]
      congr 2
      omega
    · rintro k w ⟨i, hi, h1, h2⟩
      cases i with
      | zero =>
        rw [h0] at h1
        obtain ⟨rfl, rfl⟩ := Prod.mk.inj (Option.some.inj h1)
        rw [k2 _ (fun i hi w => by rw [kernAt_zero]; exact h2 _ (by omega) (by omega) w)]
        simp
      | succ i => exact k1 k w ⟨i, by omega, by rw [kernAt_zero]; exact h1, fun j hj hjn w => by rw [kernAt_zero]; exact h2 _ (by omega) (by omega) w⟩
    · intro k hk
      rw [k2 k (fun i hi w => by rw [kernAt_zero]; exact hk _ (by omega) w), List.lookup_cons]
      have : (k == (l, r)) = false := by
        rw [beq_eq_false_iff_ne]
        rintro rfl
        exact hk 0 (by omega) v h0
      rw [this]

theorem kernSub_step {d : Bytes} {p n m : Nat} (h : KernSub d p n) (acc : List ((Nat × Nat) × Int)) : kernSubTables d (m + 1) (some p) acc =
    kernSubTables d m (kernPairs d n (p + 14) []).2 (kernPairs d n (p + 14) []).1 := by
  conv_lhs => unfold kernSubTables
  rw [readUShort_iff.2 ⟨h.coverage, rfl⟩]
  simp only [bind, Res.bind]
  rw [if_pos (by decide), (readUShort_iff (q := p + 8)).2 ⟨h.count, by omega⟩]

theorem parseKern_eq {d : Bytes} {t : Ttf} {r : Record} (ht : t.tables.lookup b!"kern" = some { checkSum := r.sum, offset := r.off, length := r.len }) {n : Nat} (h0 : r.off + 4 ≤ d.length)
    (hn : u16At d (r.off + 2) = some n) : parseKern d t = (kernSubTables d n (some (r.off + 4)) [] >>= fun pairs => .ok { t with kern := pairs }) := by
  obtain ⟨v, hv⟩ := u16At_in (d := d) (p := r.off) (by omega)
  unfold parseKern
  rw [ht]
  simp only
  rw [readUShort_iff.2 ⟨hv, rfl⟩]
  simp only [bind, Res.bind]
  rw [readUShort_iff.2 ⟨hn, rfl⟩]

/-- **C90**: the distances of pairs of glyphs are those of the font file.  A font with one subtable of format 0 is accepted with its kerning whenever it is accepted without; for a pair in the table
the font has the distance of its last entry, for other pairs it has none.  Partial: fonts with several subtables (`C90_refuted_tables`). -/
theorem C90_read_partial {d : Bytes} {t : Ttf} (h : parseTtf d = .ok t) {r : Record} (hr : TableIs d b!"kern" r) {n : Nat} (h1 : u16At d (r.off + 2) = some 1) (hs : KernSub d (r.off + 4) n) :
    ∃ K, parseTtfKern true d = .ok { t with kern := K } ∧ (∀ k v, KernIs d (r.off + 18) n k v → K.lookup k = some v) ∧ ∀ k, NoKern d (r.off + 18) n k → K.lookup k = none := by
  obtain ⟨K, e, k1, k2⟩ := kernPairs_spec (d := d) n (r.off + 18) [] (by have := hs.room; omega)
  refine ⟨K, ?_, k1, k2⟩
  unfold parseTtfKern
  rw [h]
  simp only [bind, Res.bind, if_true]
  rw [parseKern_eq ((C77_read h).table _ _ hr) (by have := hs.room; omega) h1, kernSub_step hs, show r.off + 4 + 14 = r.off + 18 by omega, e]
  rfl

/-- **C90**, no table: a font without kerning table has no distances. -/
theorem C90_none {d : Bytes} {t : Ttf} (h : parseTtf d = .ok t) (hr : NoTable d b!"kern") : parseTtfKern true d = .ok { t with kern := [] } := by
  unfold parseTtfKern parseKern
  rw [h]
  simp only [bind, Res.bind, if_true]
  rw [(C77_read h).none _ hr]

/-- **C90**, texts: letters of a font that is used with its kerning are moved by the distance in the file, if there is no override. -/
theorem C90_pair {d : Bytes} {t : Ttf} {f : GFont} (h : parseTtf d = .ok t) {r : Record} (hr : TableIs d b!"kern" r) {n : Nat} (h1 : u16At d (r.off + 2) = some 1) (hs : KernSub d (r.off + 4) n)
    (hf : parseTtfKern true d = .ok f.ttf) (hk : f.kerning = true) (ho : f.override = none) (left right l g : Nat) :
    (∀ v, KernIs d (r.off + 18) n (l, g) v → kernPair f.state left right l g = v) ∧ (NoKern d (r.off + 18) n (l, g) → kernPair f.state left right l g = 0) := by
  obtain ⟨K, e, k1, k2⟩ := C90_read_partial h hr h1 hs
  rw [e, Res.ok.injEq] at hf
  have hv : kernPair f.state left right l g = (K.lookup (l, g)).getD 0 := by
    unfold kernPair GFont.state
    simp [hk, ho, ← hf]
  rw [hv]
  exact ⟨fun v h => by rw [k1 _ v h]; rfl, fun h => by rw [k2 _ h]; rfl⟩

/-- **C90** (refuted: several subtables): of two subtables only the second one counts; the distances of the first are lost. -/
theorem C90_refuted_tables {d : Bytes} {t : Ttf} (h : parseTtf d = .ok t) {r : Record} (hr : TableIs d b!"kern" r) {n m : Nat} (h1 : u16At d (r.off + 2) = some 2) (hs : KernSub d (r.off + 4) n)
    (hs2 : KernSub d (r.off + 18 + 6 * n) m) : ∃ K, parseTtfKern true d = .ok { t with kern := K } ∧ ∀ k, NoKern d (r.off + 32 + 6 * n) m k → K.lookup k = none := by
  obtain ⟨K, e, k1, k2⟩ := kernPairs_spec (d := d) n (r.off + 18) [] (by have := hs.room; omega)
  obtain ⟨L, e', l1, l2⟩ := kernPairs_spec (d := d) m (r.off + 32 + 6 * n) [] (by have := hs2.room; omega)
  refine ⟨L, ?_, l2⟩
  unfold parseTtfKern
  rw [h]
  simp only [bind, Res.bind, if_true]
  rw [parseKern_eq ((C77_read h).table _ _ hr) (by have := hs.room; omega) h1, kernSub_step hs, show r.off + 4 + 14 = r.off + 18 by omega, e, kernSub_step hs2,
    show r.off + 18 + 6 * n + 14 = r.off + 32 + 6 * n by omega, e']
  rfl

/-- **C90** (refuted: formats): a subtable of format 2 (coverage 0x0201), which has classes of glyphs at this place, is read as if it were one of format 0. -/
theorem C90_refuted_format {d : Bytes} {t : Ttf} (h : parseTtf d = .ok t) {r : Record} (hr : TableIs d b!"kern" r) {n : Nat} (h1 : u16At d (r.off + 2) = some 1) (hc : u16At d (r.off + 8) = some 0x0201)
    (hn : u16At d (r.off + 10) = some n) (hl : r.off + 18 + 6 * n ≤ d.length) :
    ∃ K, parseTtfKern true d = .ok { t with kern := K } ∧ ∀ k v, KernIs d (r.off + 18) n k v → K.lookup k = some v := by
  obtain ⟨K, e, k1, k2⟩ := kernPairs_spec (d := d) n (r.off + 18) [] (by omega)
  refine ⟨K, ?_, k1⟩
  unfold parseTtfKern
  rw [h]
  simp only [bind, Res.bind, if_true]
  rw [parseKern_eq ((C77_read h).table _ _ hr) (by omega) h1]
  unfold kernSubTables
  rw [readUShort_iff.2 ⟨hc, rfl⟩]
  simp only [bind, Res.bind]
  rw [if_pos (by decide), (readUShort_iff (q := r.off + 12)).2 ⟨hn, by omega⟩]
  simp only
  rw [e]
  rfl

/-! ### examples -/

/-- the directory of a small font file with a kerning table -/
def kernDirectory : Bytes :=
  [0, 1, 0, 0, 0, 11, 0, 0, 0, 0, 0, 0] ++
  [79, 83, 47, 50, 4, 78, 2, 188, 0, 0, 0, 188, 0, 0, 0, 80] ++
  [99, 109, 97, 112, 0, 30, 236, 219, 0, 0, 1, 12, 0, 0, 0, 80] ++
  [103, 108, 121, 102, 6, 65, 5, 180, 0, 0, 1, 92, 0, 0, 0, 28] ++
  [104, 101, 97, 100, 97, 108, 67, 61, 0, 0, 1, 120, 0, 0, 0, 54] ++
  [104, 104, 101, 97, 5, 122, 1, 147, 0, 0, 1, 176, 0, 0, 0, 36] ++
  [104, 109, 116, 120, 4, 76, 0, 0, 0, 0, 1, 212, 0, 0, 0, 10] ++
  [107, 101, 114, 110, 0, 0, 0, 0, 0, 0, 2, 36, 0, 0, 0, 24] ++
  [108, 111, 99, 97, 0, 6, 0, 14, 0, 0, 1, 224, 0, 0, 0, 8] ++
  [109, 97, 120, 112, 0, 4, 0, 0, 0, 0, 1, 232, 0, 0, 0, 6] ++
  [110, 97, 109, 101, 0, 25, 4, 99, 0, 0, 1, 240, 0, 0, 0, 20] ++
  [112, 111, 115, 116, 255, 159, 0, 50, 0, 0, 2, 4, 0, 0, 0, 32]

/-- the small font file with a kerning table -/
def kernFile (k : Bytes) : Bytes :=
  kernDirectory ++ tinyOS2 ++ tinyCmap ++ tinyGlyf ++ tinyHead ++ tinyHhea ++ tinyHmtx ++ tinyLoca ++ tinyMaxp ++ tinyName ++ tinyPost ++ k

/-- a subtable of format 0: the letters A and B (glyphs 1 and 2) are 100 units nearer; and B and A -/
def kernAB : Bytes := [0, 0, 0, 20, 0, 1, 0, 1, 0, 6, 0, 0, 0, 0, 0, 1, 0, 2, 255, 156]
def kernBA : Bytes := [0, 0, 0, 20, 0, 1, 0, 1, 0, 6, 0, 0, 0, 0, 0, 2, 0, 1, 255, 156]

def kernOne : Bytes := kernFile ([0, 0, 0, 1] ++ kernAB)
def kernTwo : Bytes := kernFile ([0, 0, 0, 2] ++ kernAB ++ kernBA)

def parses (d : Bytes) : Bool := match parseTtf d with | .ok _ => true | _ => false

theorem parses_of {d : Bytes} (h : parses d = true) : ∃ t, parseTtf d = .ok t := by
  unfold parses at h
  split at h
  · exact ⟨_, by assumption⟩
  · cases h

def kernRecord : Record := ⟨b!"kern", 0, 548, 24⟩

set_option maxRecDepth 20000 in
/-- The hypotheses of `C90_read_partial` hold for the first file, with the distance -100 of the glyphs 1 and 2. -/
example : ∃ t, parseTtf kernOne = .ok t ∧ TableIs kernOne b!"kern" kernRecord ∧ u16At kernOne (548 + 2) = some 1 ∧ KernSub kernOne (548 + 4) 1 ∧ KernIs kernOne (548 + 18) 1 (1, 2) (-100) ∧
    NoKern kernOne (548 + 18) 1 (2, 1) := by
  obtain ⟨t, ht⟩ := parses_of (d := kernOne) (by decide +kernel)
  have hn : u16At kernOne 4 = some 11 := by decide +kernel
  have h0 : kernAt kernOne (548 + 18) 0 = some ((1, 2), -100) := by decide +kernel
  refine ⟨t, ht, tableIs_of (i := 6) hn (by decide +kernel) (by decide +kernel), by decide +kernel, ⟨by decide +kernel, by decide +kernel, by decide +kernel⟩, ⟨0, by omega, h0, fun j h1 h2 => by omega⟩, ?_⟩
  intro i hi w
  rw [show i = 0 by omega, h0]
  simp

set_option maxRecDepth 20000 in
/-- The hypotheses of `C90_refuted_tables` hold for the second file; the distance of the glyphs 1 and 2 is in its first subtable, and not in the second. -/
example : ∃ t, parseTtf kernTwo = .ok t ∧ TableIs kernTwo b!"kern" kernRecord ∧ u16At kernTwo (548 + 2) = some 2 ∧ KernSub kernTwo (548 + 4) 1 ∧ KernSub kernTwo (548 + 18 + 6 * 1) 1 ∧
    KernIs kernTwo (548 + 18) 1 (1, 2) (-100) ∧ NoKern kernTwo (548 + 32 + 6 * 1) 1 (1, 2) := by
  obtain ⟨t, ht⟩ := parses_of (d := kernTwo) (by decide +kernel)
  have hn : u16At kernTwo 4 = some 11 := by decide +kernel
  have h0 : kernAt kernTwo (548 + 18) 0 = some ((1, 2), -100) := by decide +kernel
  have h1 : kernAt kernTwo (548 + 32 + 6 * 1) 0 = some ((2, 1), -100) := by decide +kernel
  refine ⟨t, ht, tableIs_of (i := 6) hn (by decide +kernel) (by decide +kernel), by decide +kernel, ⟨by decide +kernel, by decide +kernel, by decide +kernel⟩,
    ⟨by decide +kernel, by decide +kernel, by decide +kernel⟩, ⟨0, by omega, h0, fun j h1 h2 => by omega⟩, ?_⟩
  intro i hi w
  rw [show i = 0 by omega, h1]
  simp

/-- a subtable of format 2: rows of two bytes, tables of classes at 14 and 22, the array at 30 -/
def kernClasses : Bytes := [0, 0, 0, 32, 2, 1, 0, 2, 0, 14, 0, 22, 0, 30, 0, 1, 0, 2, 0, 30, 0, 30, 0, 1, 0, 2, 0, 0, 0, 0, 255, 156]

def kernOdd : Bytes := kernFile ([0, 0, 0, 1] ++ kernClasses)

set_option maxRecDepth 20000 in
/-- The hypotheses of `C90_refuted_format` hold for a file with such a table; the class of glyphs 1, 2 is read as a pair with the distance 30. -/
example : ∃ t, parseTtf kernOdd = .ok t ∧ TableIs kernOdd b!"kern" kernRecord ∧ u16At kernOdd (548 + 2) = some 1 ∧ u16At kernOdd (548 + 8) = some 0x0201 ∧ u16At kernOdd (548 + 10) = some 2 ∧
    548 + 18 + 6 * 2 ≤ kernOdd.length ∧ KernIs kernOdd (548 + 18) 2 (1, 2) 30 := by
  obtain ⟨t, ht⟩ := parses_of (d := kernOdd) (by decide +kernel)
  have hn : u16At kernOdd 4 = some 11 := by decide +kernel
  refine ⟨t, ht, tableIs_of (i := 6) hn (by decide +kernel) (by decide +kernel), by decide +kernel, by decide +kernel, by decide +kernel, by decide +kernel,
    ⟨0, by omega, by decide +kernel, fun j h1 h2 w => ?_⟩⟩
  rw [show j = 1 by omega, show kernAt kernOdd (548 + 18) 1 = some ((30, 1), 2) by decide +kernel]
  simp

set_option maxRecDepth 20000 in
/-- The hypotheses of `C90_pair` hold for a font read from the first file, and those of `C90_none` for the small file. -/
example : (∃ f : GFont, parseTtfKern true kernOne = .ok f.ttf ∧ f.kerning = true ∧ f.override = none) ∧ parseTtf tinyFile = .ok tinyFont ∧ NoTable tinyFile b!"kern" := by
  refine ⟨?_, tiny_parsed, 10, tiny_tables.1, fun i hi r hr => ?_⟩
  · have h : (match parseTtfKern true kernOne with | .ok _ => true | _ => false) = true := by decide +kernel
    cases e : parseTtfKern true kernOne with
    | ok t => exact ⟨{ family := b!"A", style := 0, kerning := true, ttf := t, cid := 0, unicode := 0 }, rfl, rfl, rfl⟩
    | _ => rw [e] at h; cases h
  · have : ∀ i < 10, (record tinyFile i).all (fun r => r.tag ≠ b!"kern") = true := by decide +kernel
    have := this i hi
    rw [hr] at this
    simpa using this

end Verif
