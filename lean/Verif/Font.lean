import Verif.Utf8
import Mathlib.Algebra.Order.Field.Rat
/-
Fonts: minigopdf/subset_font_obj.go, map_of_character_To_glyph_index.go, cache_content_text.go (createContent), unicode_map.go,
cid_font_obj.go, content_obj.go (unit conversion).

Simplifications: Go `uint` is `Nat` and `int` is `Int` (no overflow); floating point numbers are exact (ℚ).
-/
namespace Verif

/-- a group of a format 12 character map (ttfparser_cmap_other_format.go:130-132) -/
structure CmapGroup where
  startCode : Nat
  endCode : Nat
  glyph : Nat
deriving DecidableEq, Repr

/-- an entry of the table directory (table_directory_entry.go:3-7) -/
structure TableEntry where
  checkSum : Nat := 0
  offset : Nat := 0
  length : Nat := 0
deriving DecidableEq, Repr

/-- table_directory_entry.go:9-12 `PaddedLength`: the length rounded up to a multiple of four -/
def TableEntry.padded (t : TableEntry) : Nat := (t.length + 3) / 4 * 4

/-- The parsed font: the fields of `TTFParser` (ttfparser.go:23-78) used later. -/
structure Ttf where
  tables : List (Bytes × TableEntry) := []
  unitsPerEm : Nat := 1000
  xMin : Int := 0
  yMin : Int := 0
  xMax : Int := 0
  yMax : Int := 0
  indexToLocFormat : Int := 0
  numberOfHMetrics : Nat := 0
  ascender : Int := 0
  descender : Int := 0
  numGlyphs : Nat := 0
  widths : List Nat := []
  os2Version : Nat := 0
  typoAscender : Int := 0
  typoDescender : Int := 0
  capHeight : Int := 0
  sxHeight : Int := 0
  italicAngle : Int := 0
  underlinePosition : Int := 0
  underlineThickness : Int := 0
  usWinAscent : Nat := 0
  usWinDescent : Nat := 0
  locaTable : List Nat := []
  segCount : Nat := 0
  startCount : List Nat := []
  endCount : List Nat := []
  idRangeOffset : List Nat := []
  idDelta : List Nat := []
  glyphIdArray : List Nat := []
  groups : List CmapGroup := []
  fontData : Bytes := []
  /-- kern_table.go: value of a glyph pair.  pdft parses fonts with kerning switched off (pdf_parse_font.go), so it is empty there. -/
  kern : List ((Nat × Nat) × Int) := []
deriving DecidableEq, Repr

/-- `t.tables[tag]`: the zero entry if absent -/
def Ttf.table (t : Ttf) (tag : Bytes) : TableEntry := (t.tables.lookup tag).getD {}

/-- ttfparser.go:286-293 `IsShortIndex` -/
def Ttf.isShort (t : Ttf) : Bool := t.indexToLocFormat = 0

/-! ### character to glyph -/

/-- subset_font_obj.go:184-196 `charCodeToGlyphIndexFormat12` -/
def format12 (t : Ttf) (r : Nat) : Res Nat :=
  match t.groups.find? (fun g => decide (r ≥ g.startCode ∧ r < g.endCode)) with
  | some g => .ok ((r - g.startCode) + g.glyph)
  | none => .err .notFoundGlyph

/-- subset_font_obj.go:199-206: the loop looking for the segment -/
def findSeg (endCount : List Nat) (segCount : Nat) (value : Nat) : Nat → Nat → Res Nat
  | 0, seg => .ok seg
  | fuel + 1, seg =>
    if seg < segCount then
      match endCount[seg]? with
      | none => .panic
      | some e => if value ≤ e then .ok seg else findSeg endCount segCount value fuel (seg + 1)
    else .ok seg

/-- subset_font_obj.go:198-225 `charCodeToGlyphIndexFormat4`.  The index `idx` is computed with wrap-around in Go; a negative value becomes an index out of
range either way. -/
def format4 (t : Ttf) (value : Nat) : Res Nat := do
  let seg ← findSeg t.endCount t.segCount value t.segCount 0
  let start ← Res.ofOption t.startCount[seg]?
  if value < start then .ok 0
  else do
    let ro ← Res.ofOption t.idRangeOffset[seg]?
    let delta ← Res.ofOption t.idDelta[seg]?
    if ro = 0 then .ok ((value + delta) % 65536)
    else do
      let idx : Int := (ro / 2 : Nat) + ((value : Int) - start) - ((t.segCount : Int) - seg)
      if idx < 0 then .panic
      else do
        let g ← Res.ofOption t.glyphIdArray[idx.toNat]?
        if g = 0 then .ok 0 else .ok ((g + delta) % 65536)

/-- subset_font_obj.go:228-245 `CharCodeToGlyphIndex` -/
def charToGlyph (t : Ttf) (r : Nat) : Res Nat := if r ≤ 0xFFFF then format4 t r else format12 t r

/-- subset_font_obj.go:248-261 `GlyphIndexToPdfWidth` -/
def glyphWidth (t : Ttf) (g : Nat) : Res Nat := do
  -- `numberOfHMetrics - 1` wraps around for 0 and is then out of range
  let g' : Option Nat := if g ≥ t.numberOfHMetrics then (if t.numberOfHMetrics = 0 then none else some (t.numberOfHMetrics - 1)) else some g
  let g'' ← Res.ofOption g'
  let w ← Res.ofOption t.widths[g'']?
  if t.unitsPerEm = 1000 then .ok w
  else if t.unitsPerEm = 0 then .panic
  else .ok (w * 1000 / t.unitsPerEm)

/-! ### the character map of a font -/

/-- map_of_character_To_glyph_index.go:4-8; `keyIndexs[k]` is the position of the last `Set` of `k`, so it is
determined by `keys`. -/
structure CharMap where
  keys : List Nat := []
  vals : List Nat := []
deriving DecidableEq, Repr

/-- map_of_character_To_glyph_index.go:38-48 `Index` -/
def CharMap.index (m : CharMap) (k : Nat) : Option Nat :=
  (m.keys.reverse.idxOf? k).map (fun i => m.keys.length - 1 - i)

/-- map_of_character_To_glyph_index.go:18-28 `KeyExists` -/
def CharMap.exists (m : CharMap) (k : Nat) : Bool := (m.index k).isSome

/-- map_of_character_To_glyph_index.go:31-35 `Set` -/
def CharMap.set (m : CharMap) (k v : Nat) : CharMap := { keys := m.keys ++ [k], vals := m.vals ++ [v] }

/-- map_of_character_To_glyph_index.go:51-57 `Val` (the `vals` index cannot be out of range, keys and vals grow together) -/
def CharMap.val (m : CharMap) (k : Nat) : Option Nat :=
  match m.index k with
  | none => none
  | some i => m.vals[i]?

/-- subset_font_obj.go:133-145 `AddChars`: characters before a failing one stay added. -/
def addRunes (t : Ttf) (m : CharMap) : List Nat → CharMap × Res Unit
  | [] => (m, .ok ())
  | r :: rs =>
    if m.exists r then addRunes t m rs
    else
      match charToGlyph t r with
      | .ok g => addRunes t (m.set r g) rs
      | .err e => (m, .err e)
      | .panic => (m, .panic)
      | .hang => (m, .hang)

def addChars (t : Ttf) (m : CharMap) (text : Bytes) : CharMap × Res Unit := addRunes t m (runes text)

/-- subset_font_obj.go:148-160 `CharIndex` -/
def charIndex (m : CharMap) (r : Nat) : Res Nat := Res.orErr .charNotFound (m.val r)

/-- subset_font_obj.go:163-174 `CharWidth` -/
def charWidth (t : Ttf) (m : CharMap) (r : Nat) : Res Nat :=
  match m.val r with
  | some g => glyphWidth t g
  | none => .err .charNotFound

/-! ### numbers -/

/-- content_obj.go:308-325 `convertTTFUnit2PDFUnit`; Go's `/` and `%` truncate toward zero, division by zero panics. -/
def convertUnit (n upem : Int) : Res Int :=
  if upem = 0 then .panic
  else if n < 0 then
    let rest1 := Int.tmod n upem
    let storrest := 1000 * rest1
    let ledd2 := if storrest ≠ 0 then Int.tdiv rest1 storrest else 0
    .ok (-(Int.tdiv (-1000 * n) upem - ledd2))
  else .ok (Int.tdiv n upem * 1000 + Int.tdiv (Int.tmod n upem * 1000) upem)

/-- hexadecimal digit, upper case -/
def hexDigit (n : Nat) : UInt8 := if n < 10 then UInt8.ofNat (48 + n) else UInt8.ofNat (55 + n)

/-- hexadecimal digits, most significant first -/
def hexAux : Nat → Nat → Bytes
  | 0, _ => []
  | fuel + 1, n => if n < 16 then [hexDigit n] else hexAux fuel (n / 16) ++ [hexDigit (n % 16)]

def hexDigits (n : Nat) : Bytes := hexAux (n + 1) n

/-- `fmt.Sprintf("%04X", n)` -/
def hex4 (n : Nat) : Bytes := List.replicate (4 - (hexDigits n).length) 48 ++ hexDigits n

/-! ### drawing a text -/

/-- The parts of a font a text is drawn with.  `textrise` is the override of pdft.go:519-533 as the text printed with `%.2f`. -/
structure FontState where
  ttf : Ttf
  chars : CharMap := {}
  kernOverride : Option (Nat → Nat → Nat → Nat → Int → Int) := none
  textrise : Option (Nat → Nat → Int → Bytes → Nat → Bytes) := none

/-- cache_content_text.go:311-330 `kern`; the kerning table is consulted only when kerning is on, i.e. an override is set
(subset_font_obj.go:34-41, 90-108). -/
def kernPair (f : FontState) (left right leftIdx rightIdx : Nat) : Int :=
  let pairVal : Int := if f.kernOverride.isSome then (f.ttf.kern.lookup (leftIdx, rightIdx)).getD 0 else 0
  match f.kernOverride with
  | some fn => fn left right leftIdx rightIdx pairVal
  | none => pairVal

/-- Loop state of `createContent`. -/
structure CCState where
  out : Bytes
  sum : Int := 0
  left : Nat := 0
  leftIdx : Nat := 0
  pos : Nat := 0

/-- cache_content_text.go:262-297: the loop over the runes.  The result keeps what was written to `out` also on failure
(the caller ignores the error, cache_content_text.go:374-377). -/
def ccLoop (f : FontState) (text : Bytes) (fontSize : Int) : CCState → List Nat → CCState × Res Unit
  | st, [] => (st, .ok ())
  | st, r :: rs =>
    match charIndex f.chars r with
    | .ok g =>
      -- kerning: `i > 0 && UseKerning`
      let kr : Res Int :=
        if st.pos > 0 ∧ f.kernOverride.isSome then convertUnit (kernPair f st.left r st.leftIdx g) f.ttf.unitsPerEm else .ok 0
      match kr with
      | .ok pv =>
        let o1 := if pv ≠ 0 then st.out ++ b!">" ++ itoa (-1 * pv) ++ b!"<" else st.out
        let o2 := match f.textrise with
          | some fn => o1 ++ b!">] TJ\n" ++ fn st.left r fontSize text st.pos ++ b!" Ts\n" ++ b!"[<"
          | none => o1
        let o3 := o2 ++ hex4 g
        match charWidth f.ttf f.chars r with
        | .ok w => ccLoop f text fontSize { out := o3, sum := st.sum + (w + pv), left := r, leftIdx := g, pos := st.pos + 1 } rs
        | .err e => ({ st with out := o3 }, .err e)
        | .panic => ({ st with out := o3 }, .panic)
        | .hang => ({ st with out := o3 }, .hang)
      | .err e => (st, .err e)
      | .panic => (st, .panic)
      | .hang => (st, .hang)
    | .err e => (st, .err e)
    | .panic => (st, .panic)
    | .hang => (st, .hang)

/-- cache_content_text.go:247-309 `createContent`: the bytes written and the sum of the widths (in 1/1000 of the font size). -/
def createContent (f : FontState) (text : Bytes) (fontSize : Int) : Bytes × Res Int :=
  match ccLoop f text fontSize { out := b!"[<" } (runes text) with
  | (st, .ok _) => (st.out ++ b!">] TJ\n", .ok st.sum)
  | (st, .err e) => (st.out, .err e)
  | (st, .panic) => (st.out, .panic)
  | (st, .hang) => (st.out, .hang)

/-- cache_content_text.go:306: `float64(sumWidth) * (float64(fontSize) / 1000.0)` -/
def textWidth (sum : Int) (fontSize : Int) : ℚ := (sum : ℚ) * ((fontSize : ℚ) / 1000)

/-- content_text.go:98-123, cache_content_text.go:380-384 `MeasureTextWidth` of the font (characters already added) -/
def measureWith (f : FontState) (text : Bytes) (fontSize : Int) : Res ℚ := do
  let s ← (createContent f text fontSize).2
  .ok (textWidth s fontSize)

/-- pdft.go:322-337 `MeasureTextWidth` for a known font: the characters are added first (the error of that is ignored) -/
def measureText (f : FontState) (text : Bytes) (fontSize : Int) : FontState × Res ℚ :=
  let f' := { f with chars := (addChars f.ttf f.chars text).1 }
  match (addChars f.ttf f.chars text).2 with
  | .panic => (f', .panic)
  | .hang => (f', .hang)
  | _ => (f', measureWith f' text fontSize)

/-! ### the font objects -/

/-- strhelper.go:22-26 `CreateEmbeddedFontSubsetName` -/
def subsetName (name : Bytes) : Bytes := replaceByte 47 b!"+" (replaceByte 32 b!"+" name)

/-- subset_font_obj.go:48-59 `build`: what is appended to the buffer -/
def fontBuild (family : Bytes) (cidID unicodeMapID : Int) : Bytes :=
  b!"<<\n/BaseFont /" ++ subsetName family ++ b!"\n/DescendantFonts [" ++ itoa cidID ++ b!" 0 R]\n/Encoding /Identity-H\n/Subtype /Type0\n/ToUnicode " ++
    itoa unicodeMapID ++ b!" 0 R\n/Type /Font\n>>\n"

/-- cid_font_obj.go:31-35: the entries of the /W array -/
def wEntries (t : Ttf) : List Nat → Res Bytes
  | [] => .ok []
  | v :: vs => do
    let w ← glyphWidth t v
    let rest ← wEntries t vs
    .ok (itoa v ++ b!"[" ++ itoa w ++ b!"]" ++ rest)

/-- cid_font_obj.go:17-39 `build` -/
def cidBuild (family : Bytes) (t : Ttf) (m : CharMap) (fontDescID : Int) : Res Bytes := do
  let w ← wEntries t m.vals
  .ok (b!"<<\n/BaseFont /" ++ subsetName family ++ b!"\n/CIDSystemInfo\n<<\n  /Ordering (Identity)\n  /Registry (Adobe)\n  /Supplement 0\n>>\n/FontDescriptor " ++
    itoa fontDescID ++ b!" 0 R\n/Subtype /CIDFontType2\n/Type /Font\n/W [" ++ w ++ b!"]\n>>\n")

/-- unicode_map.go:147-158 `runeByIndex`: the first character set for the glyph, 0 if none -/
def runeByIndex (pairs : List (Nat × Nat)) (g : Nat) : Nat :=
  match pairs.find? (fun p => p.2 = g) with
  | some p => p.1
  | none => 0

/-- unicode_map.go:81-84: the lines between beginbfrange and endbfrange; `pairs` are the characters with their glyphs -/
def bfLines (pairs : List (Nat × Nat)) : Bytes :=
  pairs.flatMap (fun p => b!"<" ++ hex4 p.2 ++ b!"><" ++ hex4 p.2 ++ b!"><" ++ hex4 (runeByIndex pairs p.2) ++ b!">\n")

def unicodePrefix : Bytes :=
  b!"/CIDInit /ProcSet findresource begin\n12 dict begin\nbegincmap\n/CIDSystemInfo << /Registry (Adobe)/Ordering (UCS)/Supplement 0>> def\n/CMapName /Adobe-Identity-UCS def /CMapType 2 def\n"

def unicodeSuffix : Bytes := b!"endcmap CMapName currentdict /CMap defineresource pop end end"

/-- `fmt.Sprintf("%04X", n)` for an `int`: -1 (no characters at all) prints as "-001" -/
def hex4Int (n : Int) : Bytes := if n < 0 then b!"-001" else hex4 n.toNat

/-- unicode_map.go:56-88: the character map stream -/
def unicodeStream (m : CharMap) : Bytes :=
  let pairs := m.keys.map (fun k => (k, (m.val k).getD 0))
  let low := pairs.foldl (fun a p => if (p.2 : Int) < a then (p.2 : Int) else a) 65536
  let hi := pairs.foldl (fun a p => if (p.2 : Int) > a then (p.2 : Int) else a) (-1)
  unicodePrefix ++ b!"1 begincodespacerange\n<" ++ hex4Int low ++ b!"><" ++ hex4Int hi ++ b!">\nendcodespacerange\n" ++
    itoa pairs.length ++ b!" beginbfrange\n" ++ bfLines pairs ++ b!"endbfrange\n" ++ unicodeSuffix ++ b!"\n"

/-- unicode_map.go:50-113 `pdfToUnicodeMap` (its `protection` is never set by pdft) -/
def unicodeBuild (m : CharMap) : Bytes :=
  let s := unicodeStream m
  b!"<<\n/Length " ++ itoa s.length ++ b!"\n>>\nstream\n" ++ s ++ b!"endstream\n"

end Verif
