import Verif.FontFile
/-
Specification side: how a reader of a TrueType file finds tables and outlines.
-/
namespace Verif.Spec
open Verif

/-- big-endian numbers at a position of a file -/
def u16At (b : Bytes) (i : Nat) : Option Nat :=
  match b[i]?, b[i + 1]? with
  | some x, some y => some (x.toNat * 256 + y.toNat)
  | _, _ => none

def u32At (b : Bytes) (i : Nat) : Option Nat :=
  match u16At b i, u16At b (i + 2) with
  | some x, some y => some (x * 65536 + y)
  | _, _ => none

/-- `len` bytes at a position -/
def bytesAt (b : Bytes) (i len : Nat) : Bytes := (b.drop i).take len

/-- a directory record -/
structure Record where
  tag : Bytes
  sum : Nat
  off : Nat
  len : Nat
deriving DecidableEq

/-- the `i`-th record of the table directory -/
def record (b : Bytes) (i : Nat) : Option Record :=
  match u32At b (12 + 16 * i + 4), u32At b (12 + 16 * i + 8), u32At b (12 + 16 * i + 12) with
  | some s, some o, some l => some ⟨bytesAt b (12 + 16 * i) 4, s, o, l⟩
  | _, _, _ => none

/-- checksum of a table: the sum of its big-endian 32-bit words, modulo 2^32 (a missing part of the last word counts as zero) -/
def wordSum : Bytes → Nat
  | [] => 0
  | [w] => w.toNat * 16777216
  | [w, x] => w.toNat * 16777216 + x.toNat * 65536
  | [w, x, y] => w.toNat * 16777216 + x.toNat * 65536 + y.toNat * 256
  | w :: x :: y :: z :: l => w.toNat * 16777216 + x.toNat * 65536 + y.toNat * 256 + z.toNat + wordSum l

/-- the location of glyph `g`, from the location table at `off` -/
def locAt (b : Bytes) (short : Bool) (off g : Nat) : Option Nat :=
  if short then (u16At b (off + 2 * g)).map (· * 2) else u32At b (off + 4 * g)

/-- The outline of glyph `g` in the font file `b`: found through the records of the `glyf` and `loca` tables. -/
def OutlineIs (b : Bytes) (short : Bool) (g : Nat) (o : Bytes) : Prop :=
  ∃ i j rg rl x y, record b i = some rg ∧ rg.tag = b!"glyf" ∧ record b j = some rl ∧ rl.tag = b!"loca" ∧
    locAt b short rl.off g = some x ∧ locAt b short rl.off (g + 1) = some y ∧ x ≤ y ∧ y ≤ rg.len ∧
    rg.off + y ≤ b.length ∧ o = bytesAt b (rg.off + x) (y - x)

/-- the outline in the source font -/
def srcOutline (t : Ttf) (g : Nat) : Bytes :=
  bytesAt t.fontData ((t.table b!"glyf").offset + t.locaTable.getD g 0) (t.locaTable.getD (g + 1) 0 - t.locaTable.getD g 0)

/-- A source font whose location table is sound: one location per glyph and a last one, ascending, within the file; for short
locations even numbers below 2^17, for long ones below 2^32. -/
structure LocaOK (t : Ttf) : Prop where
  len : t.locaTable.length = t.numGlyphs + 1
  mono : t.locaTable.Pairwise (· ≤ ·)
  inside : ∀ o ∈ t.locaTable, (t.table b!"glyf").offset + o ≤ t.fontData.length
  even : t.isShort = true → ∀ o ∈ t.locaTable, o % 2 = 0 ∧ o < 131072
  small : ∀ o ∈ t.locaTable, o < 4294967296

/-- component records of a composite outline: `o` starts at the first record -/
inductive Components : Bytes → List Nat → Prop
  | last {o : Bytes} {flags c : Nat} : u16At o 0 = some flags → u16At o 2 = some c → flags &&& 32 = 0 → Components o [c]
  | more {o : Bytes} {flags c : Nat} {cs : List Nat} {args scale : Nat} : u16At o 0 = some flags → u16At o 2 = some c → flags &&& 32 ≠ 0 →
      args = (if flags &&& 1 ≠ 0 then 4 else 2) →
      -- at most one of: one scale, two scales, a 2x2 matrix
      (flags &&& 8 = 0 ∧ flags &&& 64 = 0 ∧ flags &&& 128 = 0 ∧ scale = 0 ∨ flags &&& 8 ≠ 0 ∧ flags &&& 64 = 0 ∧ flags &&& 128 = 0 ∧ scale = 2 ∨
       flags &&& 8 = 0 ∧ flags &&& 64 ≠ 0 ∧ flags &&& 128 = 0 ∧ scale = 4 ∨ flags &&& 8 = 0 ∧ flags &&& 64 = 0 ∧ flags &&& 128 ≠ 0 ∧ scale = 8) →
      Components (o.drop (4 + args + scale)) cs → Components o (c :: cs)

/-- The glyphs the outline of `g` is built from: none for an empty or simple outline (number of contours not negative). -/
def Parts (t : Ttf) (g : Nat) (cs : List Nat) : Prop :=
  let o := srcOutline t g
  o = [] ∧ cs = [] ∨ ∃ n, u16At o 0 = some n ∧ (n < 0x8000 ∧ cs = [] ∨ 0x8000 ≤ n ∧ Components (o.drop 10) cs)

end Verif.Spec
