import Verif.Font
/-
What is drawn on a page: content_text.go, content_line_style.go, content_img_base64.go, minigopdf/cache_content_text.go.

Simplifications: `float64` is exact (ℚ), in particular 0.00392156862745 is the decimal number; division by zero units per em gives 0 (NaN in
Go); alignment and style flags are natural numbers.
-/
namespace Verif

/-! ### printing numbers -/

/-- a non-negative number in hundredths, rounded half to even -/
def roundCents (q : ℚ) : Nat :=
  let a := q.num.natAbs * 100
  let k := a / q.den
  let r := a % q.den
  if 2 * r < q.den then k else if q.den < 2 * r then k + 1 else if k % 2 = 0 then k else k + 1

/-- `fmt.Sprintf("%0.2f", q)` -/
def fmt2 (q : ℚ) : Bytes :=
  let k := roundCents q
  (if q < 0 then b!"-" else []) ++ natDigits (k / 100) ++ b!"." ++ [digit (k % 100 / 10), digit (k % 10)]

/-! ### text -/

/-- content_text.go:16-32 `ContentText`; `font` stands for the pointer to the font -/
structure TextContent where
  text : Bytes
  color : Option (Int × Int × Int)
  font : Nat
  fontStyle : Nat
  fontSize : Int
  page : Int
  x : ℚ
  y : ℚ
  w : ℚ
  h : ℚ
  align : Nat
  lineWidth : ℚ
  pageHeight : ℚ

/-- content_text.go:49-58: the colour; `uint8` conversion -/
def TextContent.rgb (c : TextContent) : UInt8 × UInt8 × UInt8 :=
  match c.color with
  | some (r, g, b) => (UInt8.ofNat (r % 256).toNat, UInt8.ofNat (g % 256).toNat, UInt8.ofNat (b % 256).toNat)
  | none => (1, 1, 1)

/-- cache_content_text.go:64-67 `convertTypoUnit` -/
def convertTypoUnit (v : Int) (upem : Nat) (fontSize : Int) : ℚ := ((v : ℚ) * 1000 / upem) * fontSize / 1000

/-- cache_content_text.go:97-112 `calX` for a cell -/
def calX (align : Nat) (x cellW textW : ℚ) : ℚ :=
  if align &&& 2 = 2 then x + cellW - textW
  else if align &&& 16 = 16 then x + cellW * (1 / 2) - textW * (1 / 2)
  else x

/-- cache_content_text.go:77-95 `calY` for a cell -/
def calY (align : Nat) (pageHeight y cellH asc desc : ℚ) : ℚ :=
  if align &&& 1 = 1 then pageHeight - y - cellH - desc
  else if align &&& 32 = 32 then pageHeight - y - cellH * (1 / 2) - (desc + asc) * (1 / 2)
  else pageHeight - y - asc

/-- cache_content_text.go:132-140: the colour operator; the sum is of type `uint8` -/
def colorOp (c : UInt8 × UInt8 × UInt8) : Bytes :=
  if c.1 + c.2.1 + c.2.2 ≠ 0 then
    let f : UInt8 → Bytes := fun v => fmt2 ((v.toNat : ℚ) * (392156862745 / 100000000000000))
    f c.1 ++ b!" " ++ f c.2.1 ++ b!" " ++ f c.2.2 ++ b!" rg\n"
  else []

/-- one line: `"%0.2f %0.2f m %0.2f %0.2f l s\n"` -/
def lineOp (x1 y1 x2 y2 : ℚ) : Bytes := fmt2 x1 ++ b!" " ++ fmt2 y1 ++ b!" m " ++ fmt2 x2 ++ b!" " ++ fmt2 y2 ++ b!" l s\n"

/-- cache_content_text.go:162-213 `drawBorder` -/
def drawBorder (border : Nat) (x y cellW cellH lineWidth pageHeight : ℚ) : Bytes :=
  let off := lineWidth * (1 / 2)
  (if border &&& 4 = 4 then lineOp (x - off) (pageHeight - y) (x + cellW + off) (pageHeight - y) else []) ++
  (if border &&& 8 = 8 then lineOp x (pageHeight - y) x (pageHeight - y - cellH) else []) ++
  (if border &&& 2 = 2 then lineOp (x + cellW) (pageHeight - y) (x + cellW) (pageHeight - y - cellH) else []) ++
  (if border &&& 1 = 1 then lineOp (x - off) (pageHeight - y - cellH) (x + cellW + off) (pageHeight - y - cellH) else [])

/-- cache_content_text.go:215-232 `underline`; the text height is 0.7 times the font size (content_obj.go:290-293) -/
def underlineOp (t : Ttf) (fontSize : Int) (x y endX pageHeight : ℚ) : Bytes :=
  let arg3 := pageHeight - (y - ((t.underlinePosition : ℚ) / t.unitsPerEm) * fontSize) - 7 / 10 * fontSize
  let arg4 := ((t.underlineThickness : ℚ) / t.unitsPerEm) * fontSize
  fmt2 x ++ b!" " ++ fmt2 arg3 ++ b!" " ++ fmt2 (endX - x) ++ b!" -" ++ fmt2 arg4 ++ b!" re f\n"

/-- content_text.go:42-92 `toSteram` with cache_content_text.go:114-160, 389-393: an error of `createContent` is ignored, the cell and text
sizes are then 0 and the content is what was written before the error. -/
def TextContent.stream (c : TextContent) (f : FontState) (fontIndex : Int) : Res Bytes := do
  let cc := createContent f c.text c.fontSize
  let (cellW, cellH, textW) ← (match cc.2 with
    | .ok s => Res.ok (c.w, c.h, textWidth s c.fontSize)
    | .err _ => .ok (0, 0, 0)
    | .panic => .panic
    | .hang => .hang)
  let asc := convertTypoUnit f.ttf.typoAscender f.ttf.unitsPerEm c.fontSize
  let desc := convertTypoUnit f.ttf.typoDescender f.ttf.unitsPerEm c.fontSize
  let border := if c.lineWidth > 0 then 15 else 0
  .ok (b!"BT\n" ++ fmt2 (calX c.align c.x cellW textW) ++ b!" " ++ fmt2 (calY c.align c.pageHeight c.y cellH asc desc) ++ b!" TD\n/F" ++
    itoa fontIndex ++ b!" " ++ itoa c.fontSize ++ b!" Tf\n" ++ colorOp c.rgb ++ cc.1 ++ b!"ET\n" ++
    (if c.fontStyle &&& 4 = 4 then underlineOp f.ttf c.fontSize c.x c.y (c.x + cellW) c.pageHeight else []) ++
    drawBorder border c.x c.y cellW cellH c.lineWidth c.pageHeight ++ b!"\r\n")

/-! ### other contents -/

/-- content_line_style.go:14-26 `toSteram`; `page` is always 1 (28-30) -/
def lineStyleStream (width : ℚ) (lineType : Bytes) : Bytes :=
  (if lineType = b!"dashed" then b!"[5] 2 d\n" else if lineType = b!"dotted" then b!"[2 3] 11 d\n" else b!"[] 0 d\n") ++ fmt2 width ++ b!" w\n"

/-- content_img_base64.go:8-17 `contentImgBase64`; `img` stands for the pointer to the image data -/
structure ImgContent where
  page : Int
  x : ℚ
  y : ℚ
  w : ℚ
  h : ℚ
  pageHeight : ℚ
  img : Nat

/-- content_img_base64.go:23-28 `toSteram` -/
def ImgContent.stream (c : ImgContent) (xObjChar : Bytes) (xObjIndex : Int) : Bytes :=
  b!"q " ++ fmt2 c.w ++ b!" 0 0 " ++ fmt2 c.h ++ b!" " ++ fmt2 c.x ++ b!" " ++ fmt2 (c.pageHeight - (c.y + c.h)) ++ b!" cm /" ++ xObjChar ++
    itoa xObjIndex ++ b!" Do Q\n"

end Verif
