import Verif.FontFile
/-
The TrueType parser: minigopdf/fontmaker/core/ttfparser.go, ttfparser_cmap_other_format.go, ttfparser_kern.go.

A `*bytes.Reader` is the file and a position.  Not modelled: fields nothing in pdft reads (`chars`, `Embeddable`, `Bold`, `sTypoLineGap`,
`isFixedPitch`, the PostScript name apart from whether it is empty).
-/
namespace Verif

/-- ttfparser.go:1036-1047 `Read`: at the end of the file `bytes.Reader.Read` fails, a short read is an error too -/
def rd (d : Bytes) (n p : Nat) : Res (Bytes × Nat) :=
  if p ≥ d.length then .err .other
  else if p + n > d.length then .err .other
  else .ok ((d.drop p).take n, p + n)

/-- ttfparser.go:980-987 `ReadUShort` -/
def readUShort (d : Bytes) (p : Nat) : Res (Nat × Nat) := do
  let (b, p) ← rd d 2 p
  .ok (beVal b, p)

/-- ttfparser.go:990-1004 `ReadShort` -/
def readShort (d : Bytes) (p : Nat) : Res (Int × Nat) := do
  let (u, p) ← readUShort d p
  .ok (if u ≥ 0x8000 then (u : Int) - 65536 else u, p)

/-- ttfparser.go:1016-1024 `ReadULong` -/
def readULong (d : Bytes) (p : Nat) : Res (Nat × Nat) := do
  let (b, p) ← rd d 4 p
  .ok (beVal b, p)

/-- `n` numbers in a row (the reading loops) -/
def readUShorts (d : Bytes) : Nat → Nat → Res (List Nat × Nat)
  | 0, p => .ok ([], p)
  | n + 1, p => do
    let (u, p) ← readUShort d p
    let (us, p) ← readUShorts d n p
    .ok (u :: us, p)

def readULongs (d : Bytes) : Nat → Nat → Res (List Nat × Nat)
  | 0, p => .ok ([], p)
  | n + 1, p => do
    let (u, p) ← readULong d p
    let (us, p) ← readULongs d n p
    .ok (u :: us, p)

/-- ttfparser.go:961-972 `Seek` -/
def seekTable (t : Ttf) (tag : Bytes) : Res Nat :=
  match t.tables.lookup tag with
  | some e => .ok e.offset
  | none => .err .other

/-- ttfparser.go:245-274: the directory.  A tag occurring twice: the later record replaces the earlier one, so later records are put in front. -/
def readDirectory (d : Bytes) : Nat → Nat → List (Bytes × TableEntry) → Res (List (Bytes × TableEntry) × Nat)
  | 0, p, acc => .ok (acc, p)
  | n + 1, p, acc => do
    let (tag, p) ← rd d 4 p
    let (s, p) ← readULong d p
    let (o, p) ← readULong d p
    let (l, p) ← readULong d p
    readDirectory d n p ((tag, { checkSum := s, offset := o, length := l }) :: acc)

/-- ttfparser.go:834-902 `ParseHead` -/
def parseHead (d : Bytes) (t : Ttf) : Res Ttf := do
  let p ← seekTable t b!"head"
  let (magic, p) ← readULong d (p + 12)
  if magic ≠ 0x5F0F3CF5 then .err .other
  else do
    let (u, p) ← readUShort d (p + 2)
    let (a, p) ← readShort d (p + 16)
    let (b, p) ← readShort d p
    let (c, p) ← readShort d p
    let (e, p) ← readShort d p
    let (f, _) ← readShort d (p + 6)
    .ok { t with unitsPerEm := u, xMin := a, yMin := b, xMax := c, yMax := e, indexToLocFormat := f }

/-- ttfparser.go:905-938 `ParseHhea` -/
def parseHhea (d : Bytes) (t : Ttf) : Res Ttf := do
  let p ← seekTable t b!"hhea"
  let (a, p) ← readShort d (p + 4)
  let (b, p) ← readShort d p
  let (n, _) ← readUShort d (p + 26)
  .ok { t with ascender := a, descender := b, numberOfHMetrics := n }

/-- ttfparser.go:941-955 `ParseMaxp`; the reader's position is kept for `ParseHmtx` -/
def parseMaxp (d : Bytes) (t : Ttf) : Res (Ttf × Nat) := do
  let p ← seekTable t b!"maxp"
  let (n, p) ← readUShort d (p + 4)
  .ok ({ t with numGlyphs := n }, p)

/-- ttfparser.go:793-804: the advance widths -/
def readMetrics (d : Bytes) : Nat → Nat → Res (List Nat × Nat)
  | 0, p => .ok ([], p)
  | n + 1, p => do
    let (w, p) ← readUShort d p
    let (ws, p) ← readMetrics d n (p + 2)
    .ok (w :: ws, p)

/-- ttfparser.go:790-816 `ParseHmtx` (a missing table is not noticed: the reader stays where it is); 818-831 `ArrayPadUint` -/
def parseHmtx (d : Bytes) (t : Ttf) (p : Nat) : Res (Ttf × Nat) := do
  let p := (t.tables.lookup b!"hmtx").elim p (·.offset)
  let (ws, p) ← readMetrics d t.numberOfHMetrics p
  if t.numberOfHMetrics < t.numGlyphs then
    -- `widths[numberOfHMetrics-1]`: out of range when there are none
    match ws.getLast? with
    | none => .panic
    | some w => .ok ({ t with widths := ws ++ List.replicate (t.numGlyphs - ws.length) w }, p)
  else .ok ({ t with widths := ws }, p)

/-- an encoding record of the cmap table: platform, encoding, offset -/
def readEncodings (d : Bytes) : Nat → Nat → Res (List (Nat × Nat × Nat) × Nat)
  | 0, p => .ok ([], p)
  | n + 1, p => do
    let (a, p) ← readUShort d p
    let (b, p) ← readUShort d p
    let (o, p) ← readULong d p
    let (l, p) ← readEncodings d n p
    .ok ((a, b, o) :: l, p)

/-- ttfparser.go:735-772: the loop over the segments reads the glyphs of segments with a range offset (only whether that
succeeds matters here): `k` numbers from `offset + 2i + ro`, up to the character 0xFFFE -/
def checkSegments (d : Bytes) (offset : Nat) : Nat → List (Nat × Nat × Nat) → Res Unit
  | _, [] => .ok ()
  | i, (c1, c2, ro) :: rest => do
    let _ ← if ro > 0 then readUShorts d (min (c2 + 1) 0xFFFF - c1) (offset + 2 * i + ro) else .ok ([], 0)
    checkSegments d offset (i + 1) rest

/-- ttfparser_cmap_other_format.go:92-114: the groups -/
def readGroups (d : Bytes) : Nat → Nat → Res (List CmapGroup)
  | 0, _ => .ok []
  | n + 1, p => do
    let (a, p) ← readULong d p
    let (b, p) ← readULong d p
    let (g, p) ← readULong d p
    let gs ← readGroups d n p
    .ok (⟨a, b, g⟩ :: gs)

/-- ttfparser_cmap_other_format.go:9-117 `ParseCmapFormat12` -/
def parseCmap12 (d : Bytes) (t : Ttf) (p : Nat) : Res Ttf := do
  let base := (t.table b!"cmap").offset
  let p := (t.tables.lookup b!"cmap").elim p (·.offset)
  let (n, p) ← readUShort d (p + 2)
  let (encs, _) ← readEncodings d n p
  match encs.find? (fun e => e.1 = 3 ∧ e.2.1 = 10) with
  | none => .ok t
  | some e => do
    let (f, p) ← readUShort d (base + e.2.2)
    if f ≠ 12 then .err .other
    else do
      let (r, p) ← readUShort d p
      if r ≠ 0 then .err .other
      else do
        let (n, p) ← readULong d (p + 8)
        let gs ← readGroups d n p
        .ok { t with groups := gs }

/-- ttfparser.go:602-782 `ParseCmap`.  `glyphCount` is computed with wrap-around: when the declared length is too small it is huge and
the reading loop fails at the end of the file. -/
def parseCmap (d : Bytes) (t : Ttf) (p : Nat) : Res Ttf := do
  let base := (t.table b!"cmap").offset
  let p0 := (t.tables.lookup b!"cmap").elim p (·.offset)
  let (n, p) ← readUShort d (p0 + 2)
  let (encs, _) ← readEncodings d n p
  -- the last record of platform 3, encoding 1 counts
  match encs.reverse.find? (fun e => e.1 = 3 ∧ e.2.1 = 1) with
  | none => .err .other
  | some e =>
    if e.2.2 = 0 then .err .other
    else do
      let (f, p) ← readUShort d (base + e.2.2)
      if f ≠ 4 then .err .other
      else do
        let (length, p) ← readUShort d p
        let (sc2, p) ← readUShort d (p + 2)
        let sc := sc2 / 2
        let (ends, p) ← readUShorts d sc (p + 6)
        let (starts, p) ← readUShorts d sc (p + 2)
        let (deltas, p) ← readUShorts d sc p
        let offset := p
        let (ros, p) ← readUShorts d sc p
        if length < 16 + 8 * sc then .err .other
        else do
          let (ids, p) ← readUShorts d ((length - (16 + 8 * sc)) / 2) p
          let _ ← checkSegments d offset 0 (starts.zip (ends.zip ros))
          parseCmap12 d { t with segCount := sc, endCount := ends, startCount := starts, idDelta := deltas, idRangeOffset := ros, glyphIdArray := ids } p

/-- ttfparser.go:536-582: looking for the PostScript name.  The bytes 0 and '0' are dropped from it; the expression of line 574 always
matches the empty string first, so nothing more is dropped. -/
def nameLoop (d : Bytes) (base strOff : Nat) : Nat → Nat → Res Bytes
  | 0, _ => .ok []
  | n + 1, p => do
    let (id, p) ← readUShort d (p + 6)
    let (len, p) ← readUShort d p
    let (off, p) ← readUShort d p
    if id = 6 then do
      let (s, _) ← rd d len (base + strOff + off)
      .ok (s.filter (fun c => c ≠ 0 ∧ c ≠ 48))
    else nameLoop d base strOff n p

/-- ttfparser.go:508-589 `ParseName`: succeeds when the name is not empty -/
def parseName (d : Bytes) (t : Ttf) : Res Unit := do
  let base ← seekTable t b!"name"
  let (n, p) ← readUShort d (base + 2)
  let (so, p) ← readUShort d p
  let s ← nameLoop d base so n p
  if s = [] then .err .other else .ok ()

/-- ttfparser.go:424-505 `ParseOS2` -/
def parseOS2 (d : Bytes) (t : Ttf) : Res Ttf := do
  let p ← seekTable t b!"OS/2"
  let (v, p) ← readUShort d p
  let (_, p) ← readUShort d (p + 6)
  let (_, p) ← readUShort d (p + 52)
  let (ta, p) ← readShort d (p + 4)
  let (td, p) ← readShort d p
  let (_, p) ← readShort d p
  let (wa, p) ← readUShort d p
  let (wd, p) ← readUShort d p
  let t := { t with os2Version := v, typoAscender := ta, typoDescender := td, usWinAscent := wa, usWinDescent := wd }
  if v ≥ 2 then do
    let (sx, p) ← readShort d (p + 8)
    let (ch, _) ← readShort d p
    .ok { t with sxHeight := sx, capHeight := ch }
  else .ok { t with capHeight := t.ascender }

/-- ttfparser.go:379-421 `ParsePost` -/
def parsePost (d : Bytes) (t : Ttf) : Res Ttf := do
  let p ← seekTable t b!"post"
  let (ia, p) ← readShort d (p + 4)
  let (up, p) ← readShort d (p + 2)
  let (ut, p) ← readShort d p
  let _ ← readULong d p
  .ok { t with italicAngle := ia, underlinePosition := up, underlineThickness := ut }

/-- ttfparser.go:336-376 `ParseLoca` -/
def parseLoca (d : Bytes) (t : Ttf) : Res Ttf := do
  let p ← seekTable t b!"loca"
  let len := (t.table b!"loca").length
  if t.isShort then do
    let (l, _) ← readUShorts d (len / 2) p
    .ok { t with locaTable := l.map (· * 2) }
  else do
    let (l, _) ← readULongs d (len / 4) p
    .ok { t with locaTable := l }

/-- ttfparser.go:221-329 `parse` (kerning is off in pdft) -/
def parseTtf (d : Bytes) : Res Ttf := do
  let (v, p) ← rd d 4 0
  if v ≠ [0, 1, 0, 0] then .err .other
  else do
    let (n, p) ← readUShort d p
    let (tables, _) ← readDirectory d n (p + 6) []
    let t : Ttf := { tables := tables, unitsPerEm := 0 }
    let t ← parseHead d t
    let t ← parseHhea d t
    let (t, p) ← parseMaxp d t
    let (t, p) ← parseHmtx d t p
    let t ← parseCmap d t p
    let _ ← parseName d t
    let t ← parseOS2 d t
    let t ← parsePost d t
    let t ← parseLoca d t
    .ok { t with fontData := d }

end Verif
