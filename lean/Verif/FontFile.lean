import Verif.Font
/-
The embedded font file: minigopdf/pdf_dictionary_obj.go, buff.go, buff_write.go, strhelper.go.

Simplifications: `uint`/`int` are unbounded; a byte slice has no spare capacity (slicing past the length panics).
-/
namespace Verif

/-! ### numbers and the buffer -/

/-- buff_write.go:19-28 `WriteUInt16` -/
def be16 (v : Nat) : Bytes := [UInt8.ofNat (v / 256), UInt8.ofNat v]

/-- buff_write.go:6-16 `WriteUInt32` -/
def be32 (v : Nat) : Bytes := [UInt8.ofNat (v / 16777216), UInt8.ofNat (v / 65536), UInt8.ofNat (v / 256), UInt8.ofNat v]

/-- buff.go:4-7 -/
structure Buff where
  pos : Nat := 0
  data : Bytes := []
deriving DecidableEq, Repr

/-- buff.go:10-22 `Write`: pads with zeros up to the end of the written part, then overwrites -/
def Buff.write (b : Buff) (p : Bytes) : Buff :=
  let d := b.data ++ List.replicate (b.pos + p.length - b.data.length) 0
  { pos := b.pos + p.length, data := d.take b.pos ++ p ++ d.drop (b.pos + p.length) }

/-- buff.go:40 `SetPosition` -/
def Buff.seek (b : Buff) (pos : Nat) : Buff := { b with pos := pos }

/-- `data[off : off+cnt]` -/
def slice (data : Bytes) (off cnt : Nat) : Res Bytes :=
  if off + cnt ≤ data.length then .ok ((data.drop off).take cnt) else .panic

/-- big-endian value of some bytes (`big.Int.SetBytes`, `binary.BigEndian`) -/
def beVal (b : Bytes) : Nat := b.foldl (fun a c => a * 256 + c.toNat) 0

/-- strhelper.go:44-49 `ReadUShortFromByte` -/
def readUShortAt (data : Bytes) (off : Nat) : Res Nat := do
  let b ← slice data off 2
  .ok (beVal b)

/-- strhelper.go:29-41 `ReadShortFromByte` -/
def readShortAt (data : Bytes) (off : Nat) : Res Int := do
  let u ← readUShortAt data off
  .ok (if u ≥ 0x8000 then (u : Int) - 65536 else u)

/-! ### glyph outlines -/

/-- pdf_dictionary_obj.go:338-343 `GetOffset` -/
def glyphOffset (t : Ttf) (g : Nat) : Res Nat := do
  let o ← Res.ofOption t.locaTable[g]?
  .ok ((t.table b!"glyf").offset + o)

/-- pdf_dictionary_obj.go:132-139 `getGlyphSize` -/
def glyphSize (t : Ttf) (g : Nat) : Res Int := do
  let a ← glyphOffset t g
  let b ← glyphOffset t (g + 1)
  .ok ((b : Int) - a)

/-- pdf_dictionary_obj.go:141-154 `getGlyphData` (the loop does nothing when the end is before the start) -/
def glyphData (t : Ttf) (g : Nat) : Res Bytes := do
  let a ← glyphOffset t g
  let b ← glyphOffset t (g + 1)
  if b ≤ a then .ok [] else slice t.fontData a (b - a)

/-- pdf_dictionary_obj.go:297-329: the loop over the components; `fuel` bounds the number of components (each needs
more bytes of the file, so `fontData.length + 1` is enough) -/
def componentLoop (t : Ttf) : Nat → Nat → List Nat → Res (List Nat)
  | 0, _, _ => .hang
  | fuel + 1, off, arr => do
    let flags ← readUShortAt t.fontData off
    let c ← readUShortAt t.fontData (off + 2)
    let arr' := if c ∈ arr then arr else arr ++ [c]
    if flags &&& 32 = 0 then .ok arr'
    else
      let n := (if flags &&& 1 = 0 then 2 else 4) + (if flags &&& 8 ≠ 0 then 2 else if flags &&& 64 ≠ 0 then 4 else 0) +
        (if flags &&& 128 ≠ 0 then 8 else 0)
      componentLoop t fuel (off + 4 + n) arr'

/-- pdf_dictionary_obj.go:279-329 `AddCompositeGlyphs` -/
def addComposite (t : Ttf) (arr : List Nat) (g : Nat) : Res (List Nat) := do
  let a ← glyphOffset t g
  let b ← glyphOffset t (g + 1)
  if a = b then .ok arr
  else do
    let n ← readShortAt t.fontData a
    if n ≥ 0 then .ok arr else componentLoop t (t.fontData.length + 1) (a + 2 + 8) arr

/-- pdf_dictionary_obj.go:268-272; the array only grows at its end, so its first `count` elements stay the used glyphs -/
def closureLoop (t : Ttf) : List Nat → List Nat → Res (List Nat)
  | [], arr => .ok arr
  | g :: gs, arr => do
    let arr' ← addComposite t arr g
    closureLoop t gs arr'

/-- pdf_dictionary_obj.go:253-275 `completeGlyphClosure` -/
def glyphClosure (t : Ttf) (m : CharMap) : Res (List Nat) :=
  closureLoop t m.vals (if 0 ∈ m.vals then m.vals else m.vals ++ [0])

/-- `sort.Ints` -/
def insertNat (a : Nat) : List Nat → List Nat
  | [] => [a]
  | b :: l => if a ≤ b then a :: b :: l else b :: insertNat a l

def sortNat : List Nat → List Nat
  | [] => []
  | a :: l => insertNat a (sortNat l)

/-- pdf_dictionary_obj.go:103-106: the sum of the sizes -/
def sizeSum (t : Ttf) : List Nat → Res Int
  | [] => .ok 0
  | g :: gs => do
    let a ← glyphSize t g
    let b ← sizeSum t gs
    .ok (a + b)

/-- pdf_dictionary_obj.go:112-127: the loop over all glyph numbers.  `todo`: the rest of the sorted glyph array, `cap`: size of the
glyph table, `out`: the bytes put into it so far (`glyphOffset` is its length), `loca`: the locations so far. -/
def glyfLoop (t : Ttf) (cap : Nat) : List Nat → List Nat → Bytes → List Nat → Res (Bytes × List Nat)
  | [], _, out, loca => .ok (out, loca)
  | i :: is, todo, out, loca =>
    if todo.head? = some i then do
      let d ← glyphData t i
      if cap < out.length + d.length then .panic
      else glyfLoop t cap is todo.tail (out ++ d) (loca ++ [out.length])
    else glyfLoop t cap is todo out (loca ++ [out.length])

/-- table_directory_entry.go:9-12 -/
def pad4 (n : Nat) : Nat := (n + 3) / 4 * 4

/-- pdf_dictionary_obj.go:93-130 `makeGlyfAndLocaTable`: the glyph table and the locations -/
def makeGlyfLoca (t : Ttf) (m : CharMap) : Res (Bytes × List Nat) := do
  let arr ← glyphClosure t m
  let arr := sortNat arr
  let size ← sizeSum t arr
  if size < 0 then .panic
  else do
    let cap := pad4 size.toNat
    let (out, loca) ← glyfLoop t cap (List.range t.numGlyphs) arr [] []
    .ok (out ++ List.replicate (cap - out.length) 0, loca ++ [out.length])

/-! ### the file -/

/-- pdf_dictionary_obj.go:356-378 `CheckSum`: the four sums of bytes; an incomplete last group panics -/
def sumBytes : Bytes → Nat → Nat → Nat → Nat → Res (Nat × Nat × Nat × Nat)
  | [], a, b, c, d => .ok (a, b, c, d)
  | w :: x :: y :: z :: l, a, b, c, d => sumBytes l (a + w.toNat) (b + x.toNat) (c + y.toNat) (d + z.toNat)
  | _, _, _, _, _ => .panic

def checkSum (data : Bytes) : Res Nat := do
  let (a, b, c, d) ← sumBytes data 0 0 0 0
  .ok ((a * 16777216 % 4294967296 + b * 65536 % 4294967296 + c * 256 % 4294967296 + d % 4294967296) % 4294967296)

/-- pdf_dictionary_obj.go:200-231: the bytes of the location table -/
def locaBytes (short : Bool) (loca : List Nat) : Bytes :=
  let b := if short then loca.flatMap (fun v => be16 (v / 2)) else loca.flatMap be32
  b ++ List.replicate (pad4 b.length - b.length) 0

/-- the tags, sorted (pdf_dictionary_obj.go:160-168, 183-187) -/
def fontTags : List Bytes := [b!"cvt ", b!"fpgm", b!"glyf", b!"head", b!"hhea", b!"hmtx", b!"loca", b!"maxp", b!"prep"]

/-- pdf_dictionary_obj.go:191-236: a table's directory entry and the bytes written for it -/
def tableRow (t : Ttf) (glyf : Bytes) (loca : List Nat) (tag : Bytes) : Res (TableEntry × Bytes) :=
  let entry := t.table tag
  if tag = b!"glyf" then do
    let s ← checkSum glyf
    let e := { entry with length := glyf.length, checkSum := s }
    let d ← slice glyf 0 e.padded
    .ok (e, d)
  else if tag = b!"loca" then do
    let len := if t.isShort then loca.length * 2 else loca.length * 4
    let d := locaBytes t.isShort loca
    let s ← checkSum d
    .ok ({ entry with length := len, checkSum := s }, d)
  else do
    let d ← slice t.fontData entry.offset entry.padded
    .ok (entry, d)

/-- pdf_dictionary_obj.go:190-249: the loop over the tables -/
def fontLoop (t : Ttf) (glyf : Bytes) (loca : List Nat) : List Bytes → Nat → Buff → Nat → Res Buff
  | [], _, b, _ => .ok b
  | tag :: tags, idx, b, tablePos => do
    let (e, d) ← tableRow t glyf loca tag
    let b := (b.seek tablePos).write d
    let endPos := b.pos
    let b := (((b.seek (idx * 16 + 12)).write tag).write (be32 e.checkSum)).write (be32 tablePos)
    let b := b.write (be32 e.length)
    fontLoop t glyf loca tags (idx + 1) b endPos

/-- pdf_dictionary_obj.go:156-251 `makeFont`; `EntrySelectors[9]` is 3 -/
def makeFont (t : Ttf) (m : CharMap) : Res Bytes := do
  let (glyf, loca) ← makeGlyfLoca t m
  let b : Buff := {}
  let b := b.write (be32 0x00010000)
  let b := b.write (be16 fontTags.length)
  let b := b.write (be16 (2 ^ 3 * 16))
  let b := b.write (be16 3)
  let b := b.write (be16 ((fontTags.length - 2 ^ 3) * 16))
  let b ← fontLoop t glyf loca fontTags 0 b (12 + 16 * fontTags.length)
  .ok b.data

/-- pdf_dictionary_obj.go:45-78 `build`: what is appended to the buffer (pdft never sets the object's protection; `zip` is zlib) -/
def dictBuild (zip : Bytes → Bytes) (t : Ttf) (m : CharMap) : Res Bytes := do
  let b ← makeFont t m
  let z := zip b
  .ok (b!"<</Length " ++ itoa z.length ++ b!"\n/Filter /FlateDecode\n/Length1 " ++ itoa b.length ++ b!"\n>>\nstream\n" ++ z ++ b!"\nendstream\n")

/-! ### the font descriptor -/

/-- math.go:3-10 `Round` of an exact number -/
def roundQ (v : ℚ) : Int :=
  let w := if v < 0 then v - 1 / 2 else v + 1 / 2
  Int.tdiv w.num w.den

/-- subfont_descriptor_obj.go:62-64 `DesignUnitsToPdf`; exact instead of float64 (division by zero gives an infinity in Go, whose
conversion to `int` is implementation-specific) -/
def designUnits (v : Int) (upem : Nat) : Int := roundQ ((v : ℚ) * 1000 / upem)

/-- ttfparser.go `Ascender` -/
def Ttf.ascent (t : Ttf) : Int := if t.typoAscender = 0 then t.ascender else t.usWinAscent

/-- ttfparser.go `Descender` -/
def Ttf.descent (t : Ttf) : Int :=
  if t.typoDescender = 0 then t.descender else if t.descender < 0 then (t.usWinDescent : Int) * (-1) else t.usWinDescent

/-- ttfparser.go `XHeight`; 0.66 is exact here -/
def Ttf.xHeight (t : Ttf) : Int :=
  if t.os2Version ≥ 2 ∧ t.sxHeight ≠ 0 then t.sxHeight else Int.tdiv (66 * t.ascender) 100

/-- subfont_descriptor_obj.go:26-49 `build`; the flag is always 32 (ttfparser.go:584-590 never sets `symbol`) -/
def descBuild (family : Bytes) (t : Ttf) (dictID : Int) : Bytes :=
  let u := fun v => itoa (designUnits v t.unitsPerEm)
  b!"<<\n/Type /FontDescriptor\n/Ascent " ++ u t.ascent ++ b!"\n/CapHeight " ++ u t.capHeight ++ b!"\n/Descent " ++ u t.descent ++
    b!"\n/Flags 32\n/FontBBox [" ++ u t.xMin ++ b!" " ++ u t.yMin ++ b!" " ++ u t.xMax ++ b!" " ++ u t.yMax ++ b!"]\n/FontFile2 " ++
    itoa dictID ++ b!" 0 R\n/FontName /" ++ subsetName family ++ b!"\n/ItalicAngle " ++ itoa t.italicAngle ++ b!"\n/StemV 0\n/XHeight " ++
    u t.xHeight ++ b!"\n>>\n"

end Verif
