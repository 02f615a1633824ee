import Verif.Inject
import Verif.Writer
import Verif.Parser
import Verif.Wrap
import Verif.Content
import Verif.TtfParse
import Verif.Image
import Verif.Crypto
/-
pdft.go: the type PDFt and its methods; pdf_font_data.go; pdf_image_data.go.

Simplifications: pointers are positions in lists (`fonts`, `imgs`); `float64` is exact.  A method returns the receiver after the call together with
its outcome; after a panic, and after a failed `Open` or `Save`, only the parts named in the comments are as in Go.
-/
namespace Verif

/-- The library functions the model does not contain, and unspecified behaviour of the language (order of map iteration, whether `append` moves the
objects to a new array). -/
structure Env extends ImgEnv where
  md5 : Bytes → Bytes
  base64 : Bytes → Option Bytes
  parseFloat : Bytes → Option ℚ
  upper : Upper
  order : Nat → Shuffle
  realloc : Bool

/-- pdf_font_data.go:11-27 `PDFFontData`; the other numbers follow `fontID` -/
structure FontData where
  name : Bytes
  state : FontState
  fontIndex : Int := 0
  fontID : Int := 0
  fontBuf : Bytes := []
  cidBuf : Bytes := []
  unicodeBuf : Bytes := []
  descBuf : Bytes := []
  dictBuf : Bytes := []

/-- pdf_image_data.go:11-16 `PDFImageData`; `buf` is the built object -/
structure ImageData where
  objID : Int := 0
  buf : Bytes
  xObjChar : Bytes := []
  xObjIndex : Int := 0

/-- contenter.go -/
inductive Content where
  | text (c : TextContent)
  | img (c : ImgContent)
  | line (width : ℚ) (lineType : Bytes)

/-- pdft.go:49-64 `PDFt` and `current` -/
structure App where
  doc : Doc := emptyDoc
  fonts : List FontData := []
  /-- `fontDatas`: name and position in `fonts` -/
  fontMap : List (Bytes × Nat) := []
  imgs : List ImageData := []
  /-- `pdfImgsMd5Map`: digest and position in `imgs` -/
  imgMap : List (Bytes × Nat) := []
  contents : List Content := []
  fontName : Bytes := []
  fontStyle : Nat := 0
  fontSize : Int := 0
  lineWidth : ℚ := 0
  protection : Option Protection := none

/-! ### opening -/

/-- pdft.go:75-87 `ShowCellBorder` -/
def App.showCellBorder (a : App) (isShow : Bool) : App :=
  if isShow then { a with lineWidth := 1 / 10, contents := a.contents ++ [.line (1 / 10) b!"dotted"] }
  else { a with lineWidth := 0, contents := a.contents ++ [.line 0 []] }

/-- pdft.go:101-115 `OpenFrom`.  After a failure the document is left as it was (in Go it may hold parts of the new one). -/
def App.openFrom (env : Env) (a : App) (raw : Bytes) : Step App :=
  let a := { a with fontMap := [], lineWidth := 1, imgMap := [] }
  match pdfParse (fun s => (env.parseFloat s).isSome) a.doc raw with
  | .ok d => ⟨App.showCellBorder { a with doc := d } false, .ok ()⟩
  | .err e => ⟨a, .err e⟩
  | .panic => ⟨a, .panic⟩
  | .hang => ⟨a, .hang⟩

/-! ### pages (see Store.lean) -/

/-- a page operation on the document -/
def App.withDoc (a : App) (s : Step Doc) : Step App := ⟨{ a with doc := s.state }, s.res⟩

/-- pdft.go:118-156 -/
def App.duplicatePageAfter (a : App) (target position : Int) : Step App := a.withDoc (Verif.duplicatePageAfter a.doc target position)
/-- pdft.go:159-171 -/
def App.removePage (a : App) (k : Int) : Step App := a.withDoc (stepOf a.doc (Verif.removePage a.doc k))
/-- pdft.go:174-184 -/
def App.removeOtherPages (a : App) (k : Int) : Step App := a.withDoc (stepOf a.doc (Verif.removeOtherPages a.doc k))

/-! ### fonts -/

/-- pdft.go:483-511 `AddFont`, `AddFontFrom`, given the bytes of the file -/
def App.addFont (a : App) (name file : Bytes) : Step App :=
  if (a.fontMap.lookup name).isSome then ⟨a, .err .addSameFontName⟩
  else
    match parseTtf file with
    | .ok t => ⟨{ a with fonts := a.fonts ++ [{ name := name, state := { ttf := t } }], fontMap := a.fontMap ++ [(name, a.fonts.length)] }, .ok ()⟩
    | .err e => ⟨a, .err e⟩
    | .panic => ⟨a, .panic⟩
    | .hang => ⟨a, .hang⟩

/-- `i.fontDatas[name]` -/
def App.font? (a : App) (name : Bytes) : Option (Nat × FontData) :=
  match a.fontMap.lookup name with
  | none => none
  | some i => (a.fonts[i]?).map (fun f => (i, f))

/-- writing through a font pointer -/
def App.setFontState (a : App) (i : Nat) (s : FontState) : App := { a with fonts := a.fonts.modify i (fun f => { f with state := s }) }

/-- pdft.go:553-562 `SetFont` -/
def App.setFont (env : Env) (a : App) (name style : Bytes) (size : Int) : Step App :=
  if (a.fontMap.lookup name).isSome then
    ⟨{ a with fontName := name, fontStyle := getConvertedStyle env.upper style, fontSize := size }, .ok ()⟩
  else ⟨a, .err .fontNameNotFound⟩

/-- pdft.go:519-533 `TextriseOverride` -/
def App.textriseOverride (a : App) (name : Bytes) (fn : Nat → Nat → Int → Bytes → Nat → Bytes) : Step App :=
  match a.font? name with
  | none => ⟨a, .err .fontNameNotFound⟩
  | some (i, f) => ⟨a.setFontState i { f.state with textrise := some fn }, .ok ()⟩

/-- pdft.go:536-550 `KernOverride` -/
def App.kernOverride (a : App) (name : Bytes) (fn : Nat → Nat → Nat → Nat → Int → Int) : Step App :=
  match a.font? name with
  | none => ⟨a, .err .fontNameNotFound⟩
  | some (i, f) => ⟨a.setFontState i { f.state with kernOverride := some fn }, .ok ()⟩

/-! ### inserting -/

/-- pdft.go:339-345 `pageHeight`: an entry with fewer than four numbers is an index panic -/
def pageHeight (env : Env) (d : Doc) (pageNum : Int) : Res ℚ :=
  match (if pageNum ≥ 1 then d.pageSizes.lookup (pageNum - 1).toNat else none) with
  | some l =>
    match l[3]? with
    | some t => .ok ((env.parseFloat t).getD 0)
    | none => .panic
  | none => .ok (84189 / 100)

/-- pdft.go:297-319 `Insert`: the content is kept even if adding the characters fails -/
def App.insert (env : Env) (a : App) (text : Bytes) (pageNum : Int) (x y w h : ℚ) (align : Nat) (color : Option (Int × Int × Int)) : Step App :=
  match pageHeight env a.doc pageNum with
  | .ok ph =>
    match a.font? a.fontName with
    | none => ⟨a, .err .fontNameNotFound⟩
    | some (i, f) =>
      let c : TextContent :=
        { text := text, color := color, font := i, fontStyle := a.fontStyle, fontSize := a.fontSize, page := pageNum, x := x, y := y, w := w, h := h
          align := align, lineWidth := a.lineWidth, pageHeight := ph }
      let r := addChars f.state.ttf f.state.chars text
      ⟨({ a with contents := a.contents ++ [Content.text c] }).setFontState i { f.state with chars := r.1 }, r.2⟩
  | .err e => ⟨a, .err e⟩
  | .panic => ⟨a, .panic⟩
  | .hang => ⟨a, .hang⟩

/-- pdft.go:322-337 `MeasureTextWidth`: calling `addChars` through a missing map entry is a nil dereference -/
def App.measureTextWidth (env : Env) (a : App) (text : Bytes) : App × Res ℚ :=
  match a.font? a.fontName with
  | none => (a, .panic)
  | some (i, f) =>
    let (s, r) := measureText f.state text a.fontSize
    let a := a.setFontState i s
    match r with
    | .panic => (a, .panic)
    | .hang => (a, .hang)
    | r =>
      match pageHeight env a.doc 1 with
      | .ok _ => (a, r)
      | _ => (a, .panic)

/-- pdft.go:242-279: the loop over the tokens, with the effect of measuring -/
def App.wrapLoop (env : Env) (w step : ℚ) : App → WrapState → List Bytes → App × Res WrapState
  | a, st, [] => (a, .ok st)
  | a, st, t :: ts =>
    if t = [] then App.wrapLoop env w step a st ts
    else
      match a.measureTextWidth env (st.curr ++ t) with
      | (a, .ok width) =>
        if width > w then App.wrapLoop env w step a { lines := st.lines ++ [(trimSpace st.prev, st.y)], y := st.y + step, curr := t, prev := t } ts
        else App.wrapLoop env w step a { st with curr := st.curr ++ t, prev := st.curr ++ t } ts
      | (a, .err e) => (a, .err e)
      | (a, .panic) => (a, .panic)
      | (a, .hang) => (a, .hang)

/-- pdft.go:287-292: the insertions -/
def App.insertAll (env : Env) (pageNum : Int) (x w h : ℚ) (align : Nat) (color : Option (Int × Int × Int)) (yoffset : ℚ) : App → List (Bytes × ℚ) → Step App
  | a, [] => ⟨a, .ok ()⟩
  | a, l :: ls =>
    match a.insert env l.1 pageNum x (l.2 - yoffset) w h align color with
    | ⟨a, .ok _⟩ => App.insertAll env pageNum x w h align color yoffset a ls
    | s => s

/-- pdft.go:217-294 `InsertWrapText`; `breaker` is the text breaker (`none`: nil; a result `none`: an error) -/
def App.insertWrapText (env : Env) (a : App) (text : Bytes) (pageNum : Int) (x y w h : ℚ) (align : Nat) (color : Option (Int × Int × Int))
    (breaker : Option (Bytes → Option (List Bytes))) : Step App :=
  match breaker with
  | none => a.insert env text pageNum x y w h align color
  | some br =>
    match br text with
    | none => ⟨a, .err .other⟩
    | some tokens =>
      let newLine : ℚ := a.fontSize * (2 / 10)
      let step := a.fontSize + newLine
      match App.wrapLoop env w step a { lines := [], y := y, prev := [], curr := [] } tokens with
      | (a, .ok st) =>
        let st := if st.curr ≠ [] then { st with lines := st.lines ++ [(trimSpace st.prev, st.y)], y := st.y + step } else st
        let yoffset : ℚ := if align &&& 32 = 32 then (st.y - y) / 2 - (a.fontSize : ℚ) / 2 else 0
        App.insertAll env pageNum x w h align color yoffset a st.lines
      | (a, .err e) => ⟨a, .err e⟩
      | (a, .panic) => ⟨a, .panic⟩
      | (a, .hang) => ⟨a, .hang⟩

/-- pdf_image_data.go:58-83 with pdft.go:402-413: parse, store the mask, build -/
def App.makeImg (env : Env) (a : App) (file : Bytes) : Res (App × ImageData) := do
  let info ← parseImg env.toImgEnv file
  match createSMask info with
  | none => .ok (a, { buf := imgBuild info })
  | some m =>
    let r := a.doc.putNewObject ⟨0, imgBuild m⟩
    .ok ({ a with doc := r.1 }, { buf := imgBuild { info with smaskObjID := r.2 } })

/-- pdft.go:418-426: the content of an image -/
def App.addImgContent (env : Env) (a : App) (img : Nat) (pageNum : Int) (x y w h : ℚ) : Step App :=
  match pageHeight env a.doc pageNum with
  | .ok ph => ⟨{ a with contents := a.contents ++ [.img { page := pageNum, x := x, y := y, w := w, h := h, pageHeight := ph, img := img }] }, .ok ()⟩
  | .err e => ⟨a, .err e⟩
  | .panic => ⟨a, .panic⟩
  | .hang => ⟨a, .hang⟩

/-- pdft.go:391-430 `InsertImg` -/
def App.insertImg (env : Env) (a : App) (file : Bytes) (pageNum : Int) (x y w h : ℚ) : Step App :=
  match a.makeImg env file with
  | .ok (a, i) => App.addImgContent env { a with imgs := a.imgs ++ [i] } a.imgs.length pageNum x y w h
  | .err e => ⟨a, .err e⟩
  | .panic => ⟨a, .panic⟩
  | .hang => ⟨a, .hang⟩

/-- pdft.go:348-388 `InsertImgBase64` -/
def App.insertImgBase64 (env : Env) (a : App) (text : Bytes) (pageNum : Int) (x y w h : ℚ) : Step App :=
  match env.base64 text with
  | none => ⟨a, .err .other⟩
  | some file => a.insertImg env file pageNum x y w h

/-- pdft.go:433-473 `InsertImgWithCache` -/
def App.insertImgWithCache (env : Env) (a : App) (file : Bytes) (pageNum : Int) (x y w h : ℚ) : Step App :=
  match a.imgMap.lookup (env.md5 file) with
  | some i => a.addImgContent env i pageNum x y w h
  | none =>
    match a.makeImg env file with
    | .ok (a, i) =>
      App.addImgContent env { a with imgs := a.imgs ++ [i], imgMap := a.imgMap ++ [(env.md5 file, a.imgs.length)] } a.imgs.length pageNum x y w h
    | .err e => ⟨a, .err e⟩
    | .panic => ⟨a, .panic⟩
    | .hang => ⟨a, .hang⟩

/-- pdft.go:770-782 `SetProtection`; `random` is the generated owner password -/
def App.setProtection (env : Env) (a : App) (random : Bytes) (permissions : BitVec 64) (user owner : Bytes) : Step App :=
  match Verif.setProtection env.md5 random permissions user owner with
  | .ok p => ⟨{ a with protection := some p }, .ok ()⟩
  | .err e => ⟨a, .err e⟩
  | .panic => ⟨a, .panic⟩
  | .hang => ⟨a, .hang⟩

/-! ### saving -/

/-- pdf_font_data.go:64-124 `build` after `setStartID(start)`: the numbers and the appended buffers -/
def FontData.build (env : Env) (f : FontData) (start : Int) : Res FontData := do
  let cid ← cidBuild f.name f.state.ttf f.state.chars (start + 4)
  let dict ← dictBuild env.zip f.state.ttf f.state.chars
  .ok { f with
    fontID := start + 1
    fontBuf := f.fontBuf ++ fontBuild f.name (start + 2) (start + 3)
    cidBuf := f.cidBuf ++ cid
    unicodeBuf := f.unicodeBuf ++ unicodeBuild f.state.chars
    descBuf := f.descBuf ++ descBuild f.name f.state.ttf (start + 5)
    dictBuf := f.dictBuf ++ dict }

/-- pdft.go:601-608: build the fonts at these positions, in order; the last number used -/
def buildFonts (env : Env) : List Nat → Int → List FontData → Res (List FontData × Int)
  | [], id, fs => .ok (fs, id)
  | i :: t, id, fs => do
    let f ← Res.ofOption fs[i]?
    let f' ← f.build env (id + 1)
    buildFonts env t (id + 6) (fs.set i f')

/-- pdft.go:620-641: the objects of a font -/
def FontData.objs (f : FontData) : List Obj :=
  [⟨f.fontID, f.fontBuf⟩, ⟨f.fontID + 1, f.cidBuf⟩, ⟨f.fontID + 2, f.unicodeBuf⟩, ⟨f.fontID + 3, f.descBuf⟩, ⟨f.fontID + 4, f.dictBuf⟩]

/-- pdf_data.go:358 `setFontIndex`, in iteration order -/
def setIndexes : List Nat → List CrFont → List FontData → List FontData
  | i :: is, c :: cs, fs => setIndexes is cs (fs.modify i (fun f => { f with fontIndex := c.idx }))
  | _, _, fs => fs

/-- pdft.go:644-652: number the images from `id + 1` -/
def numberImgs : Int → List ImageData → List ImageData
  | _, [] => []
  | id, i :: t => { i with objID := id + 1 } :: numberImgs (id + 1) t

/-- pdf_data.go:264-265: name the images -/
def nameImgs : List ImageData → List CrXObj → List ImageData
  | i :: is, c :: cs => { i with xObjChar := c.chr, xObjIndex := c.idx } :: nameImgs is cs
  | is, _ => is

/-- contenter.go `toSteram` and `page` -/
def Content.stream (fonts : List FontData) (imgs : List ImageData) : Content → Res (Int × Bytes)
  | .text c => do
    let f ← Res.ofOption fonts[c.font]?
    let s ← c.stream f.state f.fontIndex
    .ok (c.page, s)
  | .img c => do
    let i ← Res.ofOption imgs[c.img]?
    .ok (c.page, c.stream i.xObjChar i.xObjIndex)
  | .line w t => .ok (1, lineStyleStream w t)

/-- pdf_data.go:410-427: the streams of the contents -/
def streamsOf (fonts : List FontData) (imgs : List ImageData) : List Content → Res (List (Int × Bytes))
  | [] => .ok []
  | c :: cs => do
    let s ← c.stream fonts imgs
    let r ← streamsOf fonts imgs cs
    .ok (s :: r)

/-- pdft.go:665-672: an error of `encrypt` is ignored and leaves the object as it is -/
def encryptObjs (env : Env) (key : Bytes) : List Obj → Res (List Obj)
  | [] => .ok []
  | o :: t => do
    let data ← (match encrypt env.md5 key o.objID o.data with
      | .ok d => Res.ok d
      | .err _ => .ok o.data
      | .panic => .panic
      | .hang => .hang)
    let r ← encryptObjs env key t
    .ok ({ o with data := data } :: r)

/-- What `build` makes: the receiver afterwards (as far as it succeeded), the new document, the last number. -/
structure Built where
  app : App
  doc : Doc
  lastID : Int

/-- pdft.go:597-675 `build`.  `newpdf` shares the array of objects with the receiver: what is done to the objects before the first `put` is done to
both; what is done later is done to both exactly if `append` did not move the objects (`realloc`; without fonts and images there is no `append`). -/
def App.build (env : Env) (a : App) : Res Built := do
  let (fonts, nextID) ← buildFonts env (((env.order 0).fn a.fontMap).map (·.2)) (maxID a.doc.objs) a.fonts
  let order1 := ((env.order 1).fn a.fontMap).map (·.2)
  let (d, new) ← injectFonts env.order a.doc (order1.map (fun i => ((fonts[i]?).map (·.fontID)).getD 0))
  let fonts := setIndexes order1 new fonts
  let fontObjs := (((env.order 2).fn a.fontMap).map (·.2)).flatMap (fun i => ((fonts[i]?).map FontData.objs).getD [])
  let imgs := numberImgs nextID a.imgs
  let lastID := nextID + imgs.length
  let base := d.objs.length
  let moved := env.realloc && !(fontObjs.isEmpty && imgs.isEmpty)
  let newpdf := { d with objs := d.objs ++ fontObjs ++ imgs.map (fun i => ⟨i.objID, i.buf⟩) }
  let (newpdf, xs) ← injectImgs env.order newpdf (imgs.map (·.objID))
  let imgs := nameImgs imgs xs
  let streams ← streamsOf fonts imgs a.contents
  let newpdf ← injectContent env.unzip newpdf streams
  let objs ← (match a.protection with
    | some p => encryptObjs env p.key newpdf.objs
    | none => .ok newpdf.objs)
  let newpdf := { newpdf with objs := objs }
  let doc := if moved then d else { d with objs := newpdf.objs.take base }
  .ok { app := { a with doc := doc, fonts := fonts, imgs := imgs }, doc := newpdf, lastID := lastID }

/-- pdft.go:579-595 `SaveTo`: the receiver afterwards and the bytes written.  After a failure the receiver is taken to be as before (in Go the fonts built
so far and the font entries written stay). -/
def App.saveTo (env : Env) (a : App) : App × Res Bytes :=
  match a.build env with
  | .ok b =>
    let enc := a.protection.map encBuild
    (b.app, .ok (toStream b.doc.objs b.doc.rootObjID b.lastID.toNat enc))
  | .err e => (a, .err e)
  | .panic => (a, .panic)
  | .hang => (a, .hang)

end Verif
