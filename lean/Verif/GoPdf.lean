import Verif.App
/-
minigopdf/gopdf.go: the generator `GoPdf`, with content_obj.go, list_cache_content.go, cache_*.go, page_obj.go, pages_obj.go, catalog_obj.go,
procset_obj.go, device_rgb_obj.go, image_holder.go, style.go and fontmaker/core/ttfparser_kern.go.  pdft itself does not call it.

Simplifications: `Start` is called once, before everything else (gopdf.go:315-342); fonts are positions in the list `fonts`; files are given by
their bytes; `float64` is exact; rectangles are values; the state after a panic is the one before; `image.Decode`, the compression levels of zlib and the formatting of dates are parameters.
-/
namespace Verif

/-! ### kerning tables -/

/-- ttfparser_kern.go:67-102: the pairs; a failed read leaves the pairs read before and the reader at the end of the file (`none`).  Later pairs
replace earlier ones, so they are put in front. -/
def kernPairs (d : Bytes) : Nat → Nat → List ((Nat × Nat) × Int) → List ((Nat × Nat) × Int) × Option Nat
  | 0, p, acc => (acc, some p)
  | n + 1, p, acc =>
    match (do
      let (l, p) ← readUShort d p
      let (r, p) ← readUShort d p
      let (v, p) ← readShort d p
      Res.ok (l, r, v, p)) with
    | .ok (l, r, v, p) => kernPairs d n p (((l, r), v) :: acc)
    | _ => (acc, none)

/-- ttfparser_kern.go:33-65 `parsekernSubTable` for every table: each starts with an empty map (line 56); the result of
`parsekernSubTableFormat0` is ignored (line 58) -/
def kernSubTables (d : Bytes) : Nat → Option Nat → List ((Nat × Nat) × Int) → Res (List ((Nat × Nat) × Int))
  | 0, _, acc => .ok acc
  | _ + 1, none, _ => .err .other
  | n + 1, some p, _ => do
    let (coverage, p) ← readUShort d (p + 4)
    if coverage &&& 0xf0 = 0 then
      match readUShort d p with
      | .ok (k, p) =>
        let (pairs, p) := kernPairs d k (p + 6) []
        kernSubTables d n p pairs
      | _ => kernSubTables d n none []
    else .err .other

/-- ttfparser_kern.go:9-43 `Parsekern` -/
def parseKern (d : Bytes) (t : Ttf) : Res Ttf :=
  match t.tables.lookup b!"kern" with
  | none => .ok { t with kern := [] }
  | some e => do
    let (_, p) ← readUShort d e.offset
    let (n, p) ← readUShort d p
    let pairs ← kernSubTables d n (some p) []
    .ok { t with kern := pairs }

/-- ttfparser.go:221-329 `parse` with kerning on or off -/
def parseTtfKern (kerning : Bool) (d : Bytes) : Res Ttf := do
  let t ← parseTtf d
  if kerning then parseKern d t else .ok t

/-! ### state -/

/-- rect.go -/
structure GRect where
  w : ℚ
  h : ℚ
deriving DecidableEq

/-- cell_option.go:17-21 `CellOption` -/
structure GCellOpt where
  align : Nat := 0
  border : Nat := 0
  float : Nat := 0
deriving DecidableEq

/-- cache_content_text.go:16-36 `cacheContentText` -/
structure GText where
  font : Nat
  rect : Option GRect
  color : UInt8 × UInt8 × UInt8
  gray : ℚ
  fontCount : Int
  size : Int
  style : Nat
  setX : Nat
  x : ℚ
  y : ℚ
  pageHeight : ℚ
  isCell : Bool
  opt : GCellOpt := {}
  lineWidth : ℚ
  content : Bytes := []
  text : Bytes := []
  cellW : ℚ := 0
  cellH : ℚ := 0
  textW : ℚ := 0

/-- i_cache_contneter.go: what a content stream consists of -/
inductive GCache where
  | text (c : GText)
  | line (h x1 y1 x2 y2 : ℚ)
  | rect (h x y w ht : ℚ) (style : Bytes)
  | oval (h x1 y1 x2 y2 : ℚ)
  | curve (h x0 y0 x1 y1 x2 y2 x3 y3 : ℚ) (style : Bytes)
  | lineWidth (w : ℚ)
  | lineType (t : Bytes)
  | gray (stroke : Bool) (scale : ℚ)
  | color (stroke : Bool) (r g b : UInt8)
  | image (idx : Nat) (x y h : ℚ) (rect : GRect)

/-- procset_obj.go:85-92 `RelateFont`; `obj` is the position of the object -/
structure GRelate where
  family : Bytes
  style : Nat
  count : Nat
  obj : Nat

/-- iobj.go: the objects.  `page`: the size if its option is not empty.  `content`: the field `stream` and the caches.  Fonts are positions in the
list of fonts, objects positions in the list of objects. -/
inductive GObj where
  | catalog
  | pages (count : Nat) (kids : Bytes)
  | procset (fonts : List GRelate) (xobjs : List Nat)
  | page (contents resources : Bytes) (size : Option GRect)
  | content (stream : Bytes) (caches : List GCache)
  | unicode (f : Nat)
  | dict (f : Nat)
  | desc (f : Nat) (dict : Nat)
  | cid (f : Nat) (desc : Nat)
  | font (f : Nat)
  | image (i : ImgInfo)
  | smask (i : ImgInfo)
  | rgb (data : Bytes)
  | enc (p : Protection)

/-- an object with its buffer, to which `build` appends -/
structure GSlot where
  obj : GObj
  buf : Bytes := []

/-- subset_font_obj.go:17-29 `SubsetFontObj` -/
structure GFont where
  family : Bytes
  style : Nat
  kerning : Bool
  ttf : Ttf
  chars : CharMap := {}
  override : Option (Nat → Nat → Nat → Nat → Int → Int) := none
  count : Nat := 0
  cid : Nat
  unicode : Nat

/-- pdf_info_obj.go; the date is printed, `none` for the zero time -/
structure GInfo where
  author : Bytes := []
  title : Bytes := []
  subject : Bytes := []
  creator : Bytes := []
  producer : Bytes := []
  date : Option Bytes := none

/-- gopdf.go:19-58 `GoPdf` with current.go:4-41 `Current`.  After `Start` the page tree is object 2 and the resources are object 3, so that
`indexOfPagesObj` and `indexOfProcSet` are not fields. -/
structure Gp where
  leftMargin : ℚ := 10
  topMargin : ℚ := 10
  slots : List GSlot := []
  pageSize : GRect
  contentIdx : Option Nat := none
  setXCount : Nat := 0
  x : ℚ := 10
  y : ℚ := 10
  countFont : Nat := 0
  countL : Nat := 0
  fontSize : Int := 0
  fontStyle : Nat := 0
  fontCount : Nat := 0
  font : Option Nat := none
  countImg : Nat := 0
  imgCaches : List (Bytes × Nat × GRect) := []
  color : UInt8 × UInt8 × UInt8 := (0, 0, 0)
  grayFill : ℚ := 0
  lineWidth : ℚ := 1
  curSize : GRect := ⟨0, 0⟩
  fonts : List GFont := []
  protection : Option Protection := none
  encID : Nat := 0
  level : Int := -1
  info : Option GInfo := none

/-- The library functions `GoPdf` depends on besides those of pdft: the size of a decoded image and the compression levels -/
structure GEnv extends Env where
  bounds : Bytes → Option (Int × Int)
  zipLevel : Int → Bytes → Bytes

/-! ### objects and contents -/

/-- gopdf.go:836-840 `addObj` -/
def Gp.addObj (g : Gp) (o : GObj) : Gp := { g with slots := g.slots ++ [⟨o, []⟩] }

/-- gopdf.go:315-342 `Start` with `init` (665-690); `prot` is the protection if it is asked for (created by `setProtection`) -/
def Gp.start (pageSize : GRect) (prot : Option Protection) : Gp :=
  { pageSize := pageSize, protection := prot, slots := [⟨.catalog, []⟩, ⟨.pages 0 [], []⟩, ⟨.procset [] [], []⟩] }

/-- gopdf.go:842-854 `getContent`: the position of the content object, made if there is none -/
def Gp.getContent (g : Gp) : Gp × Nat :=
  match g.contentIdx with
  | some i => (g, i)
  | none => ({ g.addObj (.content [] []) with contentIdx := some g.slots.length }, g.slots.length)

/-- changing the caches of a content object -/
def GSlot.mapCaches (f : List GCache → List GCache) (s : GSlot) : GSlot :=
  match s.obj with
  | .content st cs => { s with obj := .content st (f cs) }
  | _ => s

/-- the caches of the current content are changed -/
def Gp.put (g : Gp) (f : List GCache → List GCache) : Gp :=
  let r := g.getContent
  { r.1 with slots := r.1.slots.modify r.2 (GSlot.mapCaches f) }

/-- content_obj.go: `c.listCache.append` on the current content -/
def Gp.draw (g : Gp) (c : GCache) : Gp := g.put (· ++ [c])

/-- gopdf.go:61-65 `SetLineWidth` -/
def Gp.setLineWidth (g : Gp) (w : ℚ) : Gp := { g with lineWidth := w }.draw (.lineWidth w)

/-- gopdf.go:74-86 `SetCompressLevel`; the levels of zlib are -2 to 9 -/
def Gp.setCompressLevel (g : Gp) (level : Int) : Gp :=
  if level < -2 then { g with level := -1 } else if 9 < level then g else { g with level := level }

/-- gopdf.go:89-91 `SetNoCompression` -/
def Gp.setNoCompression (g : Gp) : Gp := { g with level := 0 }

/-- gopdf.go:100-102 `SetLineType` -/
def Gp.setLineType (g : Gp) (t : Bytes) : Gp := g.draw (.lineType t)

/-- gopdf.go:105-107 `Line`, content_obj.go:164-174 -/
def Gp.line (g : Gp) (x1 y1 x2 y2 : ℚ) : Gp := g.draw (.line g.curSize.h x1 y1 x2 y2)

/-- gopdf.go:110-112, 124-126 `RectFromLowerLeft`, `RectFromLowerLeftWithStyle`, content_obj.go:177-186 -/
def Gp.rectFromLowerLeft (g : Gp) (x y w h : ℚ) (style : Bytes) : Gp := g.draw (.rect g.curSize.h x y w h style)

/-- gopdf.go:115-117, 133-135 `RectFromUpperLeft`, `RectFromUpperLeftWithStyle` -/
def Gp.rectFromUpperLeft (g : Gp) (x y w h : ℚ) (style : Bytes) : Gp := g.draw (.rect g.curSize.h x (y + h) w h style)

/-- gopdf.go:138-140 `Oval`, content_obj.go:189-197 -/
def Gp.oval (g : Gp) (x1 y1 x2 y2 : ℚ) : Gp := g.draw (.oval g.curSize.h x1 y1 x2 y2)

/-- gopdf.go:645-647 `Curve`, content_obj.go:208-221 -/
def Gp.curve (env : GEnv) (g : Gp) (x0 y0 x1 y1 x2 y2 x3 y3 : ℚ) (style : Bytes) : Gp :=
  g.draw (.curve g.curSize.h x0 y0 x1 y1 x2 y2 x3 y3 (toUpper env.upper (trimSpace style)))

/-- gopdf.go:143-146 `Br` -/
def Gp.br (g : Gp) (h : ℚ) : Gp := { g with y := g.y + h, x := g.leftMargin }

/-- content_obj.go:298-306 `fixRange10` -/
def fixRange10 (v : ℚ) : ℚ := if v < 0 then 0 else if 1 < v then 1 else v

/-- gopdf.go:149-152 `SetGrayFill` -/
def Gp.setGrayFill (g : Gp) (v : ℚ) : Gp := { g with grayFill := v }.draw (.gray false (fixRange10 v))

/-- gopdf.go:155-158 `SetGrayStroke` (the value is also kept, but never used) -/
def Gp.setGrayStroke (g : Gp) (v : ℚ) : Gp := g.draw (.gray true (fixRange10 v))

/-- gopdf.go:161-168 `SetLeftMargin`, `SetTopMargin` -/
def Gp.setLeftMargin (g : Gp) (m : ℚ) : Gp := { g with leftMargin := m }

def Gp.setTopMargin (g : Gp) (m : ℚ) : Gp := { g with topMargin := m }

/-- gopdf.go:171-174 `SetX` -/
def Gp.setX (g : Gp) (x : ℚ) : Gp := { g with setXCount := g.setXCount + 1, x := x }

/-- gopdf.go:182-184 `SetY` -/
def Gp.setY (g : Gp) (y : ℚ) : Gp := { g with y := y }

/-- gopdf.go:604-611 `SetTextColor` -/
def Gp.setTextColor (g : Gp) (r gr b : UInt8) : Gp := { g with color := (r, gr, b) }

/-- gopdf.go:614-616 `SetStrokeColor` -/
def Gp.setStrokeColor (g : Gp) (r gr b : UInt8) : Gp := g.draw (.color true r gr b)

/-- gopdf.go:619-621 `SetFillColor` -/
def Gp.setFillColor (g : Gp) (r gr b : UInt8) : Gp := g.draw (.color false r gr b)

/-- gopdf.go:657-660 `SetInfo` -/
def Gp.setInfo (g : Gp) (i : GInfo) : Gp := { g with info := some i }

/-- gopdf.go:283-312 `AddPage`, `AddPageWithOption`; an option of size zero is empty (page_option.go:8-13) -/
def Gp.addPage (g : Gp) (size : GRect) : Gp :=
  let opt := if size.h = 0 ∧ size.w = 0 then none else some size
  let g := g.addObj (.page [] b!"3 0 R" opt)
  { g with curSize := opt.getD g.pageSize, contentIdx := none, x := g.leftMargin, y := g.topMargin }

/-! ### fonts and texts -/

/-- A font as the texts are drawn with it.  Kerning is on or off by the option alone (cache_content_text.go:264, subset_font_obj.go:91-108); in
`FontState` it is on if there is an override. -/
def GFont.state (f : GFont) : FontState :=
  { ttf := f.ttf, chars := f.chars
    kernOverride := if f.kerning then some (f.override.getD (fun _ _ _ _ v => v)) else none }

/-- changing the resources -/
def GSlot.mapProcset (fn : List GRelate → List Nat → List GRelate × List Nat) (s : GSlot) : GSlot :=
  match s.obj with
  | .procset fs xs => { s with obj := .procset (fn fs xs).1 (fn fs xs).2 }
  | _ => s

/-- the fonts in the resources -/
def Gp.relates (g : Gp) : List GRelate :=
  match (g.slots[2]?).map GSlot.obj with
  | some (.procset fs _) => fs
  | _ => []

/-- `style &^ Underline` -/
def plainStyle (s : Nat) : Nat := if s &&& 4 = 4 then s - 4 else s

/-- gopdf.go:505-562 `AddTTFFontByReaderWithOption` -/
def Gp.addFont (g : Gp) (family file : Bytes) (kerning : Bool) (style : Nat) : Step Gp :=
  match parseTtfKern kerning file with
  | .ok t =>
    let n := g.slots.length
    let k := g.fonts.length
    let isNew := !g.relates.any (fun r => r.family = family ∧ r.style = plainStyle style)
    let f : GFont := { family := family, style := style, kerning := kerning, ttf := t, count := if isNew then g.countFont else 0, cid := n + 3, unicode := n }
    let slots := g.slots ++ [⟨.unicode k, []⟩, ⟨.dict k, []⟩, ⟨.desc k (n + 1), []⟩, ⟨.cid k (n + 2), []⟩, ⟨.font k, []⟩]
    let g := { g with slots := slots, fonts := g.fonts ++ [f] }
    if isNew then
      ⟨{ g with
          slots := g.slots.modify 2 (GSlot.mapProcset (fun fs xs => (fs ++ [⟨family, plainStyle style, g.countFont, n + 4⟩], xs)))
          countFont := g.countFont + 1 }, .ok ()⟩
    else ⟨g, .ok ()⟩
  | .err e => ⟨g, .err e⟩
  | .panic => ⟨g, .panic⟩
  | .hang => ⟨g, .hang⟩

/-- gopdf.go:346-374 `SetFontWithStyle`: the first font of that family and style (fonts come in the order of their objects) -/
def Gp.setFont (g : Gp) (family : Bytes) (style : Nat) (size : Int) : Step Gp :=
  match g.fonts.findIdx? (fun f => f.family = family ∧ f.style = plainStyle style) with
  | some i => ⟨{ g with fontSize := size, fontStyle := style, font := some i, fontCount := ((g.fonts[i]?).map GFont.count).getD 0 }, .ok ()⟩
  | none => ⟨g, .err .other⟩

/-- gopdf.go:584-601 `KernOverride` -/
def Gp.kernOverride (g : Gp) (family : Bytes) (fn : Nat → Nat → Nat → Nat → Int → Int) : Step Gp :=
  match g.fonts.findIdx? (fun f => f.family = family) with
  | some i => ⟨{ g with fonts := g.fonts.modify i (fun f => { f with override := some fn }) }, .ok ()⟩
  | none => ⟨g, .err .other⟩

/-- cache_content_text.go:38-54 `isSame` -/
def GText.same (c d : GText) : Bool :=
  c.rect.isNone && decide (c.color = d.color) && decide (c.gray = d.gray) && decide (c.fontCount = d.fontCount) && decide (c.size = d.size) &&
    decide (c.style = d.style) && decide (c.setX = d.setX) && decide (c.y = d.y)

/-- cache_content_text.go:234-245, 295-306: the contents of a text are written anew; with a failure they are cut off and the sizes stay -/
def GText.create (c : GText) (f : GFont) : GText × Res Unit :=
  let cc := createContent f.state c.text c.size
  match cc.2 with
  | .ok s =>
    let tw := textWidth s c.size
    let asc := convertTypoUnit f.ttf.typoAscender f.ttf.unitsPerEm c.size
    let desc := convertTypoUnit f.ttf.typoDescender f.ttf.unitsPerEm c.size
    ({ c with content := cc.1, textW := tw, cellW := (c.rect.map GRect.w).getD tw, cellH := (c.rect.map GRect.h).getD (asc - desc) }, .ok ())
  | .err e => ({ c with content := cc.1 }, .err e)
  | .panic => (c, .panic)
  | .hang => (c, .hang)

/-- list_cache_content.go:21-63 `appendContentText`: the caches, and the position afterwards.  The text is added to the last text if that is the
same (`isSame`), and is then written with the font of that. -/
def appendText (fonts : List GFont) (cs : List GCache) (new : GText) (text : Bytes) : List GCache × Res (ℚ × ℚ) :=
  let merged : Option GText := match cs.getLast? with
    | some (.text last) => if last.same new then some last else none
    | _ => none
  let (before, c) := match merged with
    | some last => (cs.dropLast, last)
    | none => (cs, new)
  let (c, r) := match fonts[c.font]? with
    | some f => { c with text := c.text ++ text }.create f
    | none => (c, .panic)
  let x := if c.opt.float = 0 ∨ c.opt.float &&& 2 = 2 ∨ c.isCell = false then new.x + c.cellW else new.x
  let y := if c.opt.float &&& 1 = 1 then new.y + c.cellH else new.y
  (before ++ [.text c], match r with
    | .ok _ => .ok (x, y)
    | .err e => .err e
    | .panic => .panic
    | .hang => .hang)

/-- the caches of the current content -/
def Gp.caches (g : Gp) : List GCache :=
  match g.contentIdx.bind (fun i => (g.slots[i]?).map GSlot.obj) with
  | some (.content _ cs) => cs
  | _ => []

/-- content_obj.go:88-161: a new text, drawn with font `i` -/
def Gp.newText (g : Gp) (i : Nat) (cell : Option (Option GRect × GCellOpt)) : GText :=
  { font := i, rect := cell.bind Prod.fst, color := g.color, gray := g.grayFill, fontCount := g.fontCount + 1, size := g.fontSize
    style := g.fontStyle, setX := g.setXCount, x := g.x, y := g.y, pageHeight := g.curSize.h, isCell := cell.isSome
    opt := (cell.map Prod.snd).getD {}, lineWidth := g.lineWidth }

/-- gopdf.go:449-497 `Text`, `CellWithOption`, `Cell`, content_obj.go:88-161: `cell` has the rectangle and the option of a cell.  Without a font
the first call panics; if a character is missing nothing is written, but the characters before it are added to the font. -/
def Gp.write (g : Gp) (text : Bytes) (cell : Option (Option GRect × GCellOpt)) : Step Gp :=
  match g.font with
  | none => ⟨g, .panic⟩
  | some i =>
    match g.fonts[i]? with
    | none => ⟨g, .panic⟩
    | some f =>
      let r := addChars f.ttf f.chars text
      let f := { f with chars := r.1 }
      let g := { g with fonts := g.fonts.modify i (fun _ => f) }
      match r.2 with
      | .ok _ =>
        let new := g.newText i cell
        let g' := g.put (fun cs => (appendText g.fonts cs new text).1)
        match (appendText g.fonts g.caches new text).2 with
        | .ok p => ⟨{ g' with x := p.1, y := p.2 }, .ok ()⟩
        | .err e => ⟨g', .err e⟩
        | .panic => ⟨g', .panic⟩
        | .hang => ⟨g', .hang⟩
      | .err e => ⟨g, .err e⟩
      | .panic => ⟨g, .panic⟩
      | .hang => ⟨g, .hang⟩

/-- gopdf.go:449-462 `Text` -/
def Gp.text (g : Gp) (text : Bytes) : Step Gp := g.write text none

/-- gopdf.go:465-475 `CellWithOption`; `Cell` (479-497) has the option left, top, float right -/
def Gp.cell (g : Gp) (rect : Option GRect) (text : Bytes) (opt : GCellOpt := ⟨12, 0, 2⟩) : Step Gp := g.write text (some (rect, opt))

/-- gopdf.go:624-636 `MeasureTextWidth`: `createContent` is called without a buffer, but its first statement (cache_content_text.go:254) writes
to it: this panics. -/
def Gp.measureTextWidth (g : Gp) (text : Bytes) : Gp × Res ℚ :=
  match g.font with
  | none => (g, .panic)
  | some i =>
    match g.fonts[i]? with
    | none => (g, .panic)
    | some f =>
      let r := addChars f.ttf f.chars text
      let g := { g with fonts := g.fonts.modify i (fun f => { f with chars := r.1 }) }
      match r.2 with
      | .ok _ => (g, .panic)
      | .err e => (g, .err e)
      | .panic => (g, .panic)
      | .hang => (g, .hang)

/-! ### images -/

/-- image_obj.go:153-183 `getRect`; Go's division truncates -/
def imgRect (dx dy : Int) : Res GRect :=
  let w := Int.tdiv (Int.tdiv (-dx * 72) (-128)) 1
  let h := Int.tdiv (Int.tdiv (-dy * 72) (-128)) 1
  if w = 0 ∧ dy = 0 then .panic
  else
    let w := if w = 0 then Int.tdiv (h * dx) dy else w
    if h = 0 ∧ dx = 0 then .panic
    else .ok ⟨w, if h = 0 then Int.tdiv (w * dy) dx else h⟩

/-- setting a field of an image -/
def GSlot.setImg (fn : ImgInfo → ImgInfo) (s : GSlot) : GSlot :=
  match s.obj with
  | .image i => { s with obj := .image (fn i) }
  | _ => s

/-- gopdf.go:230-244: a new image is drawn and named in the resources -/
def Gp.addImage (g : Gp) (id : Bytes) (x y : ℚ) (r : GRect) (i : ImgInfo) : Gp :=
  let g1 := (g.addObj (.image i)).draw (.image g.countImg x y g.curSize.h r)
  { g1 with
    slots := g1.slots.modify 2 (GSlot.mapProcset (fun fs xs => (fs, xs ++ [g.slots.length])))
    imgCaches := g1.imgCaches ++ [(id, g1.countImg, r)]
    countImg := g1.countImg + 1 }

/-- gopdf.go:246-252: the mask of the image at position `n` -/
def Gp.addMask (g : Gp) (n : Nat) : Option ImgInfo → Gp
  | some m => { g with slots := (g.addObj (.smask m)).slots.modify n (GSlot.setImg (fun i => { i with smaskObjID := g.slots.length })) }
  | none => g

/-- gopdf.go:254-260: the palette of the image at position `n` -/
def Gp.addPalette (g : Gp) (n : Nat) (i : ImgInfo) : Gp :=
  if i.colspace = b!"Indexed" then
    { g with slots := (g.addObj (.rgb i.pal)).slots.modify n (GSlot.setImg (fun i => { i with deviceRGBObjID := g.slots.length })) }
  else g

/-- gopdf.go:192-271 `ImageByHolder`, given the identifier and the bytes of the holder -/
def Gp.image (env : GEnv) (g : Gp) (id file : Bytes) (x y : ℚ) (rect : Option GRect) : Step Gp :=
  match g.imgCaches.find? (fun c => c.1 = id) with
  | some c =>
    match rect.orElse (fun _ => (g.imgCaches[c.2.1]?).map (fun d => d.2.2)) with
    | some r => ⟨g.draw (.image c.2.1 x y g.curSize.h r), .ok ()⟩
    | none => ⟨g, .panic⟩
  | none =>
    match (do
      let r ← (match rect with
        | some r => Res.ok r
        | none => do
          let b ← Res.orErr .other (env.bounds file)
          imgRect b.1 b.2)
      let i ← parseImg env.toImgEnv file
      Res.ok (r, i)) with
    | .ok (r, i) =>
      ⟨((g.addImage id x y r i).addMask g.slots.length (createSMask i)).addPalette g.slots.length i, .ok ()⟩
    | .err e => ⟨g, .err e⟩
    | .panic => ⟨g, .panic⟩
    | .hang => ⟨g, .hang⟩

/-! ### content streams -/

/-- cache_contact_color.go:17-24: the value of a colour component -/
def colorVal (v : UInt8) : Bytes := fmt2 ((v.toNat : ℚ) * (392156862745 / 100000000000000))

/-- style.go:3-11 `parseStyle` -/
def parseStyle (style : Bytes) : Bytes := if style = b!"F" then b!"f" else if style = b!"FD" ∨ style = b!"DF" then b!"B" else b!"S"

/-- numbers with a blank after each, and an operator -/
def opOf (qs : List ℚ) (op : Bytes) : Bytes := qs.flatMap (fun q => fmt2 q ++ b!" ") ++ op

/-- cache_content_text.go:114-160 `toStream` -/
def GText.stream (c : GText) (f : GFont) : Bytes :=
  let asc := convertTypoUnit f.ttf.typoAscender f.ttf.unitsPerEm c.size
  let desc := convertTypoUnit f.ttf.typoDescender f.ttf.unitsPerEm c.size
  let x := if c.isCell then calX c.opt.align c.x c.cellW c.textW else c.x
  let y := if c.isCell then calY c.opt.align c.pageHeight c.y c.cellH asc desc else c.pageHeight - c.y
  b!"BT\n" ++ fmt2 x ++ b!" " ++ fmt2 y ++ b!" TD\n/F" ++ itoa c.fontCount ++ b!" " ++ itoa c.size ++ b!" Tf\n" ++ colorOp c.color ++ c.content ++
    b!"ET\n" ++ (if c.style &&& 4 = 4 then underlineOp f.ttf c.size c.x c.y (c.x + c.cellW) c.pageHeight else []) ++
    drawBorder c.opt.border c.x c.y c.cellW c.cellH c.lineWidth c.pageHeight

/-- the files cache_*.go, `toStream`; 0.55228 is exact -/
def GCache.stream (fonts : List GFont) : GCache → Res Bytes
  | .text c => match fonts[c.font]? with
    | some f => .ok (c.stream f)
    | none => .panic
  | .line h x1 y1 x2 y2 => .ok (lineOp x1 (h - y1) x2 (h - y2))
  | .rect h x y w ht style => .ok (opOf [x, h - y, w, ht] (b!"re " ++ parseStyle style ++ b!"\n"))
  | .oval h x1 y1 x2 y2 =>
    let cp : ℚ := 55228 / 100000
    let mx := x1 + (x2 - x1) / 2
    let my := h - (y1 + (y2 - y1) / 2)
    let dx := (x2 - x1) / 2 * cp
    let dy := (y2 - y1) / 2 * cp
    .ok (opOf [mx, h - y2] b!"m\n" ++ opOf [mx + dx, h - y2, x2, my - dy, x2, my] b!"c\n" ++ opOf [x2, my + dy, mx + dx, h - y1, mx, h - y1] b!"c\n" ++
      opOf [mx - dx, h - y1, x1, my + dy, x1, my] b!"c\n" ++ opOf [x1, my - dy, mx - dx, h - y2, mx, h - y2] b!"c S\n")
  | .curve h x0 y0 x1 y1 x2 y2 x3 y3 style =>
    .ok (opOf [x0, h - y0] b!"m\n" ++ opOf [x1, h - y1, x2, h - y2, x3, h - y3] b!"c" ++ b!" " ++ parseStyle style ++ b!"\n")
  | .lineWidth w => .ok (opOf [w] b!"w\n")
  | .lineType t => .ok (if t = b!"dashed" then b!"[5] 2 d\n" else if t = b!"dotted" then b!"[2 3] 11 d\n" else b!"[] 0 d\n")
  | .gray stroke v => .ok (opOf [v] (if stroke then b!"G\n" else b!"g\n"))
  | .color stroke r g b => .ok (colorVal r ++ b!" " ++ colorVal g ++ b!" " ++ colorVal b ++ b!" " ++ (if stroke then b!"RG\n" else b!"rg\n"))
  | .image idx x y h r =>
    .ok (b!"q " ++ fmt2 r.w ++ b!" 0 0 " ++ fmt2 r.h ++ b!" " ++ fmt2 x ++ b!" " ++ fmt2 (h - (y + r.h)) ++ b!" cm /I" ++ itoa (idx + 1) ++ b!" Do Q\n")

/-- list_cache_content.go:65-78 `toStream` -/
def cachesStream (fonts : List GFont) : List GCache → Res Bytes
  | [] => .ok []
  | c :: cs => do
    let s ← c.stream fonts
    let rest ← cachesStream fonts cs
    .ok (s ++ rest)

/-! ### writing the file -/

/-- the data of a stream, encrypted if the document is protected (`tail` is then written after it) -/
def sealed (env : GEnv) (prot : Option Protection) (id : Nat) (data tail : Bytes) : Res Bytes :=
  match prot with
  | some p => do
    let c ← rc4Cip (objectKey env.md5 p.key id) data
    .ok (c ++ tail)
  | none => .ok data

/-- the methods `build` of the objects: what is appended to the buffer, given the number of the object.  content_obj.go:27-76, page_obj.go:25-49,
pages_obj.go:22-33, catalog_obj.go:17-23, procset_obj.go:21-48, unicode_map.go:33-113, pdf_dictionary_obj.go:45-78, image_obj.go:43-69,
smask_obj.go:36-62, device_rgb_obj.go:31-50 (`getRoot` is never set on that object: panic). -/
def GObj.build (env : GEnv) (g : Gp) (id : Nat) : GObj → Res Bytes
  | .catalog => .ok b!"<<\n  /Type /Catalog\n  /Pages 2 0 R\n>>\n"
  | .pages count kids =>
    .ok (b!"<<\n  /Type /Pages\n  /MediaBox [ 0 0 " ++ fmt2 g.pageSize.w ++ b!" " ++ fmt2 g.pageSize.h ++ b!" ]\n  /Count " ++ itoa count ++
      b!"\n  /Kids [ " ++ kids ++ b!" ]\n>>\n")
  | .procset fs xs =>
    .ok (b!"<<\n/ProcSet [/PDF /Text /ImageB /ImageC /ImageI]\n/Font <<\n" ++
      fs.flatMap (fun r => b!"      /F" ++ itoa (r.count + 1) ++ b!" " ++ itoa (r.obj + 1) ++ b!" 0 R\n") ++ b!">>\n/XObject <<\n" ++
      xs.zipIdx.flatMap (fun x => b!"/I" ++ itoa (g.countL + x.2 + 1) ++ b!" " ++ itoa (x.1 + 1) ++ b!" 0 R\n") ++ b!">>\n>>\n")
  | .page contents resources size =>
    .ok (b!"<<\n  /Type /Page\n  /Parent 2 0 R\n  /Resources " ++ resources ++ b!"\n  /Contents " ++ contents ++ b!"\n" ++
      (match size with
        | some s => b!" /MediaBox [ 0 0 " ++ fmt2 s.w ++ b!" " ++ fmt2 s.h ++ b!" ]\n"
        | none => []) ++ b!">>\n")
  | .content stream caches => do
    let s ← cachesStream g.fonts caches
    let flate := decide (g.level ≠ 0)
    let data := if flate then env.zipLevel g.level (stream ++ s) else stream ++ s
    let body ← sealed env g.protection id data b!"\n"
    .ok (b!"<<\n" ++ (if flate then b!"/Filter/FlateDecode" else []) ++ b!"/Length " ++ itoa data.length ++ b!"\n>>\nstream\n" ++ body ++
      (if flate && g.protection.isNone then b!"\n" else []) ++ b!"endstream\n")
  | .unicode f => match g.fonts[f]? with
    | some f => do
      let s := unicodeStream f.chars
      let body ← sealed env g.protection id s []
      .ok (b!"<<\n/Length " ++ itoa s.length ++ b!"\n>>\nstream\n" ++ body ++ b!"endstream\n")
    | none => .panic
  | .dict f => match g.fonts[f]? with
    | some f => do
      let b ← makeFont f.ttf f.chars
      let z := env.zip b
      let body ← sealed env g.protection id z []
      .ok (b!"<</Length " ++ itoa z.length ++ b!"\n/Filter /FlateDecode\n/Length1 " ++ itoa b.length ++ b!"\n>>\nstream\n" ++ body ++ b!"\nendstream\n")
    | none => .panic
  | .desc f d => match g.fonts[f]? with
    | some f => .ok (descBuild f.family f.ttf (d + 1))
    | none => .panic
  | .cid f d => match g.fonts[f]? with
    | some f => cidBuild f.family f.ttf f.chars (d + 1)
    | none => .panic
  | .font f => match g.fonts[f]? with
    | some f => .ok (fontBuild f.family (f.cid + 1) (f.unicode + 1))
    | none => .panic
  | .image i => do
    let body ← sealed env g.protection id i.data b!"\n"
    .ok (buildImgProp i ++ b!"/Length " ++ itoa i.data.length ++ b!"\n>>\nstream\n" ++ body ++ b!"\nendstream\n")
  | .smask i => do
    let body ← sealed env g.protection id i.data b!"\n"
    .ok (buildImgProp i ++ b!"/Length " ++ itoa i.data.length ++ b!"\n>>\nstream\n" ++ body ++ b!"\nendstream\n")
  | .rgb _ => .panic
  | .enc p => .ok (encBuild p)

/-- the state of an object after `build`: content_obj.go:48-53 without compression the stream is kept -/
def GObj.built (g : Gp) : GObj → GObj
  | .content stream caches => match cachesStream g.fonts caches with
    | .ok s => if g.level = 0 then .content (stream ++ s) caches else .content [] caches
    | _ => .content stream caches
  | o => o

/-- gopdf.go:722-759: what the pages and the page tree refer to; `cur` is the position of the last page -/
def prepareLoop : List GSlot → Nat → Option Nat → List GSlot → List GSlot
  | [], _, _, all => all
  | s :: rest, i, cur, all =>
    match s.obj with
    | .page _ _ _ =>
      prepareLoop rest (i + 1) (some i) (all.modify 1 (fun s => match s.obj with
        | .pages n kids => { s with obj := .pages (n + 1) (kids ++ b!" " ++ itoa (i + 1) ++ b!" 0 R ") }
        | _ => s))
    | .content _ _ =>
      prepareLoop rest (i + 1) cur (match cur with
        | some k => all.modify k (fun s => match s.obj with
          | .page c r z => { s with obj := .page (c ++ b!" " ++ itoa (i + 1) ++ b!" 0 R ") r z }
          | _ => s)
        | none => all)
    | _ => prepareLoop rest (i + 1) cur all

/-- gopdf.go:715-760 `prepare` -/
def Gp.prepare (g : Gp) : Gp :=
  let g := match g.protection with
    | some p => { g.addObj (.enc p) with encID := g.slots.length + 1 }
    | none => g
  { g with slots := prepareLoop g.slots 0 none g.slots }

/-- gopdf.go:407-424: the object loop; the file so far and the positions of the objects -/
def compileLoop (env : GEnv) : List GSlot → Nat → Gp → Bytes → List Nat → Gp × Res (Bytes × List Nat)
  | [], _, g, out, offs => (g, .ok (out, offs))
  | s :: rest, i, g, out, offs =>
    match s.obj.build env g (i + 1) with
    | .ok b =>
      let g' := { g with
        slots := g.slots.modify i (fun s => { obj := s.obj.built g, buf := s.buf ++ b })
        countL := match s.obj with
          | .procset _ xs => g.countL + xs.length
          | _ => g.countL }
      compileLoop env rest (i + 1) g' (out ++ itoa (i + 1) ++ b!" 0 obj\n" ++ (s.buf ++ b) ++ b!"endobj\n\n") (offs ++ [out.length])
    | .err e => (g, .err e)
    | .panic => (g, .panic)
    | .hang => (g, .hang)

/-- gopdf.go:856-866 `encodeUtf8`: every character in hexadecimal -/
def infoText (s : Bytes) : Bytes := (runes s).flatMap hex4

/-- one entry of the information dictionary -/
def infoEntry (key s : Bytes) : Bytes := if s = [] then [] else b!"/" ++ key ++ b!" <FEFF" ++ infoText s ++ b!">\n"

/-- gopdf.go:796-825 `bindInfo` -/
def infoBytes (i : GInfo) : Bytes :=
  b!"/Info <<\n" ++ infoEntry b!"Author" i.author ++ infoEntry b!"Title" i.title ++ infoEntry b!"Subject" i.subject ++ infoEntry b!"Creator" i.creator ++
    infoEntry b!"Producer" i.producer ++ (match i.date with
      | some d => b!"/CreationDate(D:" ++ d ++ b!")>>\n"
      | none => []) ++ b!" >>\n"

/-- gopdf.go:762-794 `xref` -/
def Gp.xref (g : Gp) (offs : List Nat) (at_ : Nat) : Bytes :=
  b!"xref\n0 " ++ natDigits (offs.length + 1) ++ b!"\n0000000000 65535 f \n" ++ offs.flatMap (fun n => formatXrefline n ++ b!" 00000 n \n") ++
    b!"trailer\n<<\n/Size " ++ natDigits (offs.length + 1) ++ b!"\n/Root 1 0 R\n" ++
    (if g.protection.isSome then b!"/Encrypt " ++ natDigits g.encID ++ b!" 0 R\n/ID [()()]\n" else []) ++
    g.info.elim [] infoBytes ++ b!">>\nstartxref\n" ++ natDigits at_ ++ b!"\n%%EOF\n"

/-- gopdf.go:401-427, 430-437 `compilePdf`, `GetBytesPdfReturnErr` -/
def Gp.compile (env : GEnv) (g : Gp) : Gp × Res Bytes :=
  let g := g.prepare
  match compileLoop env g.slots 0 g b!"%PDF-1.7\n\n" [] with
  | (g, .ok (out, offs)) => (g, .ok (out ++ g.xref offs out.length))
  | (g, .err e) => (g, .err e)
  | (g, .panic) => (g, .panic)
  | (g, .hang) => (g, .hang)

/-! ### the calls -/

/-- the methods of `GoPdf` that are called between `Start` and `GetBytesPdf` (gopdf.go) -/
inductive GCall where
  | addPage (size : GRect)
  | setLineWidth (w : ℚ)
  | setCompressLevel (level : Int)
  | setNoCompression
  | setLineType (t : Bytes)
  | line (x1 y1 x2 y2 : ℚ)
  | rectFromLowerLeft (x y w h : ℚ) (style : Bytes)
  | rectFromUpperLeft (x y w h : ℚ) (style : Bytes)
  | oval (x1 y1 x2 y2 : ℚ)
  | curve (x0 y0 x1 y1 x2 y2 x3 y3 : ℚ) (style : Bytes)
  | br (h : ℚ)
  | setGrayFill (v : ℚ)
  | setGrayStroke (v : ℚ)
  | setLeftMargin (m : ℚ)
  | setTopMargin (m : ℚ)
  | setX (x : ℚ)
  | setY (y : ℚ)
  | setTextColor (r g b : UInt8)
  | setStrokeColor (r g b : UInt8)
  | setFillColor (r g b : UInt8)
  | setInfo (i : GInfo)
  | addFont (family file : Bytes) (kerning : Bool) (style : Nat)
  | setFont (family : Bytes) (style : Nat) (size : Int)
  | kernOverride (family : Bytes) (fn : Nat → Nat → Nat → Nat → Int → Int)
  | text (text : Bytes)
  | cell (rect : Option GRect) (text : Bytes) (opt : GCellOpt)
  | image (id file : Bytes) (x y : ℚ) (rect : Option GRect)

/-- a call -/
def Gp.call (env : GEnv) (g : Gp) : GCall → Step Gp
  | .addPage size => ⟨g.addPage size, .ok ()⟩
  | .setLineWidth w => ⟨g.setLineWidth w, .ok ()⟩
  | .setCompressLevel l => ⟨g.setCompressLevel l, .ok ()⟩
  | .setNoCompression => ⟨g.setNoCompression, .ok ()⟩
  | .setLineType t => ⟨g.setLineType t, .ok ()⟩
  | .line x1 y1 x2 y2 => ⟨g.line x1 y1 x2 y2, .ok ()⟩
  | .rectFromLowerLeft x y w h st => ⟨g.rectFromLowerLeft x y w h st, .ok ()⟩
  | .rectFromUpperLeft x y w h st => ⟨g.rectFromUpperLeft x y w h st, .ok ()⟩
  | .oval x1 y1 x2 y2 => ⟨g.oval x1 y1 x2 y2, .ok ()⟩
  | .curve x0 y0 x1 y1 x2 y2 x3 y3 st => ⟨g.curve env x0 y0 x1 y1 x2 y2 x3 y3 st, .ok ()⟩
  | .br h => ⟨g.br h, .ok ()⟩
  | .setGrayFill v => ⟨g.setGrayFill v, .ok ()⟩
  | .setGrayStroke v => ⟨g.setGrayStroke v, .ok ()⟩
  | .setLeftMargin m => ⟨g.setLeftMargin m, .ok ()⟩
  | .setTopMargin m => ⟨g.setTopMargin m, .ok ()⟩
  | .setX x => ⟨g.setX x, .ok ()⟩
  | .setY y => ⟨g.setY y, .ok ()⟩
  | .setTextColor r gr b => ⟨g.setTextColor r gr b, .ok ()⟩
  | .setStrokeColor r gr b => ⟨g.setStrokeColor r gr b, .ok ()⟩
  | .setFillColor r gr b => ⟨g.setFillColor r gr b, .ok ()⟩
  | .setInfo i => ⟨g.setInfo i, .ok ()⟩
  | .addFont family file kerning style => g.addFont family file kerning style
  | .setFont family style size => g.setFont family style size
  | .kernOverride family fn => g.kernOverride family fn
  | .text t => g.text t
  | .cell rect t opt => g.cell rect t opt
  | .image id file x y rect => g.image env id file x y rect

/-- calls one after the other; none of them ends the program -/
inductive GRun (env : GEnv) : Gp → List GCall → Gp → Prop
  | nil {g : Gp} : GRun env g [] g
  | cons {g g' : Gp} {c : GCall} {cs : List GCall} : (g.call env c).res ≠ .panic → (g.call env c).res ≠ .hang → GRun env (g.call env c).state cs g' → GRun env g (c :: cs) g'

end Verif
