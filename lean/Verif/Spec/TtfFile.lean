import Verif.Spec.Font
import Verif.Spec.FontFile
import Verif.TtfParse
/-
Specification side: where the numbers of a TrueType font are in its file.  Positions are those of the OpenType specification, version 1.9
(chapters "Organization of an OpenType font", head, hhea, maxp, hmtx, cmap, name, OS/2, post, loca).
-/
namespace Verif.Spec
open Verif

/-- a signed number -/
def i16At (b : Bytes) (i : Nat) : Option Int := (u16At b i).map (fun u : Nat => if u < 32768 then (u : Int) else (u : Int) - 65536)

/-- `r` is the record of the table `tag`: the last one with this tag among those of the directory -/
def TableIs (d tag : Bytes) (r : Record) : Prop :=
  ∃ n i, u16At d 4 = some n ∧ i < n ∧ record d i = some r ∧ r.tag = tag ∧ ∀ j, i < j → j < n → ∀ r', record d j = some r' → r'.tag ≠ tag

/-- no record of the directory has this tag -/
def NoTable (d tag : Bytes) : Prop := ∃ n, u16At d 4 = some n ∧ ∀ i < n, ∀ r, record d i = some r → r.tag ≠ tag

/-- The encoding record `(platform, encoding)` of a character map at `cmap` leads to `sub`: `last` says whether the last or the first such record
counts. -/
def EncodingIs (d : Bytes) (cmap platform encoding sub : Nat) (last : Bool) : Prop :=
  ∃ n i o, u16At d (cmap + 2) = some n ∧ i < n ∧ u16At d (cmap + 4 + 8 * i) = some platform ∧ u16At d (cmap + 4 + 8 * i + 2) = some encoding ∧
    u32At d (cmap + 4 + 8 * i + 4) = some o ∧ sub = cmap + o ∧
    ∀ j < n, (if last then i < j else j < i) → ¬ (u16At d (cmap + 4 + 8 * j) = some platform ∧ u16At d (cmap + 4 + 8 * j + 2) = some encoding)

/-- no encoding record of this kind -/
def NoEncoding (d : Bytes) (cmap platform encoding : Nat) : Prop :=
  ∃ n, u16At d (cmap + 2) = some n ∧ ∀ i < n, ¬ (u16At d (cmap + 4 + 8 * i) = some platform ∧ u16At d (cmap + 4 + 8 * i + 2) = some encoding)

/-- the numbers of a list are those at `pos`, `pos + 2`, ... -/
def Shorts (d : Bytes) (pos : Nat) (l : List Nat) : Prop := ∀ i < l.length, u16At d (pos + 2 * i) = l[i]?

/-- the numbers of a list are those at `pos`, `pos + 4`, ... -/
def Longs (d : Bytes) (pos : Nat) (l : List Nat) : Prop := ∀ i < l.length, u32At d (pos + 4 * i) = l[i]?

/-- The glyph a format 4 subtable at `sub` of the file assigns to the character `c` (OpenType, "Format 4: Segment mapping to delta values"): the first
segment whose end is not before `c` decides; the word addressed through `idRangeOffset` is found by its distance from the place of that number. -/
def FileCmap4 (d : Bytes) (sub c g : Nat) : Prop :=
  ∃ sc2 i e s dl o, u16At d (sub + 6) = some sc2 ∧ i < sc2 / 2 ∧
    u16At d (sub + 14 + 2 * i) = some e ∧ c ≤ e ∧ (∀ j < i, ∀ e', u16At d (sub + 14 + 2 * j) = some e' → e' < c) ∧
    u16At d (sub + 16 + 2 * (sc2 / 2) + 2 * i) = some s ∧
    u16At d (sub + 16 + 4 * (sc2 / 2) + 2 * i) = some dl ∧
    u16At d (sub + 16 + 6 * (sc2 / 2) + 2 * i) = some o ∧
    (c < s ∧ g = 0 ∨ s ≤ c ∧ o = 0 ∧ g = (c + dl) % 65536 ∨
     s ≤ c ∧ o ≠ 0 ∧ ∃ w, u16At d (sub + 16 + 6 * (sc2 / 2) + 2 * i + o + 2 * (c - s)) = some w ∧ g = if w = 0 then 0 else (w + dl) % 65536)

/-- The glyph a format 12 subtable at `sub` assigns to `c`: through a group containing it, both ends included. -/
def FileCmap12 (d : Bytes) (sub c g : Nat) : Prop :=
  ∃ n i s e g0, u32At d (sub + 12) = some n ∧ i < n ∧ u32At d (sub + 16 + 12 * i) = some s ∧ u32At d (sub + 16 + 12 * i + 4) = some e ∧
    u32At d (sub + 16 + 12 * i + 8) = some g0 ∧ s ≤ c ∧ c ≤ e ∧ g = c - s + g0

/-- What the parsed font is made of, in terms of the file. -/
structure ReadFrom (d : Bytes) (t : Ttf) : Prop where
  data : t.fontData = d
  table : ∀ tag r, TableIs d tag r → t.tables.lookup tag = some { checkSum := r.sum, offset := r.off, length := r.len }
  none : ∀ tag, NoTable d tag → t.tables.lookup tag = none
  head : ∃ r, TableIs d b!"head" r ∧ u32At d (r.off + 12) = some 0x5F0F3CF5 ∧ u16At d (r.off + 18) = some t.unitsPerEm ∧
    i16At d (r.off + 36) = some t.xMin ∧ i16At d (r.off + 38) = some t.yMin ∧ i16At d (r.off + 40) = some t.xMax ∧
    i16At d (r.off + 42) = some t.yMax ∧ i16At d (r.off + 50) = some t.indexToLocFormat
  hhea : ∃ r, TableIs d b!"hhea" r ∧ i16At d (r.off + 4) = some t.ascender ∧ i16At d (r.off + 6) = some t.descender ∧
    u16At d (r.off + 34) = some t.numberOfHMetrics
  maxp : ∃ r, TableIs d b!"maxp" r ∧ u16At d (r.off + 4) = some t.numGlyphs
  /-- glyphs after the last metric have its width -/
  hmtx : ∀ r, TableIs d b!"hmtx" r → t.widths.length = max t.numGlyphs t.numberOfHMetrics ∧
    ∀ g < t.widths.length, t.widths[g]? = u16At d (r.off + 4 * min g (t.numberOfHMetrics - 1))
  cmap4 : ∀ r, TableIs d b!"cmap" r → ∃ sub len sc2, EncodingIs d r.off 3 1 sub true ∧ u16At d sub = some 4 ∧ u16At d (sub + 2) = some len ∧
    u16At d (sub + 6) = some sc2 ∧ t.segCount = sc2 / 2 ∧
    t.endCount.length = t.segCount ∧ Shorts d (sub + 14) t.endCount ∧
    t.startCount.length = t.segCount ∧ Shorts d (sub + 16 + 2 * t.segCount) t.startCount ∧
    t.idDelta.length = t.segCount ∧ Shorts d (sub + 16 + 4 * t.segCount) t.idDelta ∧
    t.idRangeOffset.length = t.segCount ∧ Shorts d (sub + 16 + 6 * t.segCount) t.idRangeOffset ∧
    16 + 8 * t.segCount ≤ len ∧ t.glyphIdArray.length = (len - (16 + 8 * t.segCount)) / 2 ∧ Shorts d (sub + 16 + 8 * t.segCount) t.glyphIdArray
  cmap12 : ∀ r, TableIs d b!"cmap" r → NoEncoding d r.off 3 10 ∧ t.groups = [] ∨
    ∃ sub, EncodingIs d r.off 3 10 sub false ∧ u16At d sub = some 12 ∧ u32At d (sub + 12) = some t.groups.length ∧
      ∀ i g, t.groups[i]? = some g → u32At d (sub + 16 + 12 * i) = some g.startCode ∧ u32At d (sub + 16 + 12 * i + 4) = some g.endCode ∧
        u32At d (sub + 16 + 12 * i + 8) = some g.glyph
  os2 : ∃ r, TableIs d b!"OS/2" r ∧ u16At d r.off = some t.os2Version ∧ i16At d (r.off + 68) = some t.typoAscender ∧
    i16At d (r.off + 70) = some t.typoDescender ∧ u16At d (r.off + 74) = some t.usWinAscent ∧ u16At d (r.off + 76) = some t.usWinDescent ∧
    (2 ≤ t.os2Version → i16At d (r.off + 86) = some t.sxHeight ∧ i16At d (r.off + 88) = some t.capHeight) ∧
    (t.os2Version < 2 → t.sxHeight = 0 ∧ t.capHeight = t.ascender)
  post : ∃ r, TableIs d b!"post" r ∧ i16At d (r.off + 4) = some t.italicAngle ∧ i16At d (r.off + 8) = some t.underlinePosition ∧
    i16At d (r.off + 10) = some t.underlineThickness
  loca : ∃ r, TableIs d b!"loca" r ∧ t.locaTable.length = (if t.indexToLocFormat = 0 then r.len / 2 else r.len / 4) ∧
    ∀ g < t.locaTable.length, t.locaTable[g]? = locAt d t.isShort r.off g
  kern : t.kern = []

end Verif.Spec
