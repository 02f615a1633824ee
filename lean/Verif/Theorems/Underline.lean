import Verif.GoPdf
import Verif.Theorems.Content
/-!
C100: where the line of an underlined text is drawn.
-/
namespace Verif
namespace Spec

/-- A text drawn at `(x, y)` with a filled rectangle drawn after it: `left`, `top`, `width` and `height` are the numbers of the operator
`re` (PDF 32000-1, table 59), whose height is written with a minus sign before it. -/
def Lined (s : Bytes) (x y left top width height : ℚ) : Prop :=
  ∃ px py text l t w h post : Bytes, s = b!"BT\n" ++ px ++ b!" " ++ py ++ b!" TD\n" ++ text ++ b!"ET\n" ++ l ++ b!" " ++ t ++ b!" " ++ w ++ b!" -" ++ h ++ b!" re f\n" ++ post ∧
    readDec px = some x ∧ readDec py = some y ∧ readDec l = some left ∧ readDec t = some top ∧ readDec w = some width ∧ readDec h = some height

end Spec

/-- Where the line is: it begins at the left edge of the cell and is as long as the cell is wide; its top is 0.7 times the font size below the
top of the cell, moved by the underline position of the font. -/
theorem lined {c : TextContent} {f : FontState} {idx sum : Int} (h : (createContent f c.text c.fontSize).2 = .ok sum) (hu : c.fontStyle &&& 4 = 4) :
    ∃ (s : Bytes) (x y left top width height : ℚ), c.stream f idx = .ok s ∧ Spec.Lined s x y left top width height ∧
      |x - calX c.align c.x c.w (textWidth sum c.fontSize)| ≤ 1 / 200 ∧
      |y - calY c.align c.pageHeight c.y c.h ((f.ttf.typoAscender : ℚ) * c.fontSize / f.ttf.unitsPerEm) ((f.ttf.typoDescender : ℚ) * c.fontSize / f.ttf.unitsPerEm)| ≤ 1 / 200 ∧
      |left - c.x| ≤ 1 / 200 ∧
      |top - (c.pageHeight - c.y - 7 / 10 * c.fontSize + (f.ttf.underlinePosition : ℚ) * c.fontSize / f.ttf.unitsPerEm)| ≤ 1 / 200 ∧
      |width - c.w| ≤ 1 / 200 ∧ |height - (f.ttf.underlineThickness : ℚ) * c.fontSize / f.ttf.unitsPerEm| ≤ 1 / 200 ∧ (c.w = 0 → width = 0) := by
  have e : ∀ v : Int, convertTypoUnit v f.ttf.unitsPerEm c.fontSize = (v : ℚ) * c.fontSize / f.ttf.unitsPerEm := by
    intro v; unfold convertTypoUnit; ring
  obtain ⟨x, hx, dx⟩ := C59_numbers_accurate (calX c.align c.x c.w (textWidth sum c.fontSize))
  obtain ⟨y, hy, dy⟩ := C59_numbers_accurate (calY c.align c.pageHeight c.y c.h ((f.ttf.typoAscender : ℚ) * c.fontSize / f.ttf.unitsPerEm)
    ((f.ttf.typoDescender : ℚ) * c.fontSize / f.ttf.unitsPerEm))
  obtain ⟨l, hl, dl⟩ := C59_numbers_accurate c.x
  obtain ⟨t, ht, dt⟩ := C59_numbers_accurate (c.pageHeight - (c.y - ((f.ttf.underlinePosition : ℚ) / f.ttf.unitsPerEm) * c.fontSize) - 7 / 10 * c.fontSize)
  obtain ⟨w, hw, dw⟩ := C59_numbers_accurate (c.x + c.w - c.x)
  obtain ⟨k, hk, dk⟩ := C59_numbers_accurate (((f.ttf.underlineThickness : ℚ) / f.ttf.unitsPerEm) * c.fontSize)
  refine ⟨_, x, y, l, t, w, k, by unfold TextContent.stream; simp only [h, Res.ok_bind, e]; rfl,
    ⟨_, _, b!"/F" ++ itoa idx ++ b!" " ++ itoa c.fontSize ++ b!" Tf\n" ++ colorOp c.rgb ++ (createContent f c.text c.fontSize).1, _, _, _, _,
      drawBorder (if c.lineWidth > 0 then 15 else 0) c.x c.y c.w c.h c.lineWidth c.pageHeight ++ b!"\r\n", ?_, hx, hy, hl, ht, hw, hk⟩,
    dx, dy, dl, ?_, ?_, ?_, ?_⟩
  · rw [if_pos hu]
    unfold underlineOp
    rw [show b!" TD\n/F" = b!" TD\n" ++ b!"/F" by decide +kernel]
    simp only [List.append_assoc]
  · rw [show c.pageHeight - c.y - 7 / 10 * c.fontSize + (f.ttf.underlinePosition : ℚ) * c.fontSize / f.ttf.unitsPerEm =
      c.pageHeight - (c.y - ((f.ttf.underlinePosition : ℚ) / f.ttf.unitsPerEm) * c.fontSize) - 7 / 10 * c.fontSize by ring]
    exact dt
  · rwa [show c.x + c.w - c.x = c.w by ring] at dw
  · rwa [show ((f.ttf.underlineThickness : ℚ) / f.ttf.unitsPerEm) * c.fontSize = (f.ttf.underlineThickness : ℚ) * c.fontSize / f.ttf.unitsPerEm by ring] at dk
  · intro h0
    rw [h0, show c.x + 0 - c.x = (0 : ℚ) by ring, show Spec.readDec (fmt2 0) = some 0 by decide +kernel] at hw
    exact (Option.some.inj hw).symm

/-- C100 for a text at the top left of a cell that is exactly as wide as the text, in a font whose ascender is 7 tenths of the em: the line begins
where the text begins, is as long as the text, lies below the base line by the distance given in the font, and has the thickness given there. -/
theorem C100_line_partial {c : TextContent} {f : FontState} {idx sum : Int} (h : (createContent f c.text c.fontSize).2 = .ok sum) (hu : c.fontStyle &&& 4 = 4)
    (hr : c.align &&& 2 ≠ 2) (hm : c.align &&& 16 ≠ 16) (hb : c.align &&& 1 ≠ 1) (hv : c.align &&& 32 ≠ 32)
    (hw : c.w = textWidth sum c.fontSize) (hup : f.ttf.unitsPerEm ≠ 0) (hasc : 10 * f.ttf.typoAscender = 7 * (f.ttf.unitsPerEm : Int)) :
    ∃ (s : Bytes) (x y left top width height : ℚ), c.stream f idx = .ok s ∧ Spec.Lined s x y left top width height ∧
      |left - x| ≤ 1 / 100 ∧ |width - textWidth sum c.fontSize| ≤ 1 / 200 ∧
      |top - (y + (f.ttf.underlinePosition : ℚ) * c.fontSize / f.ttf.unitsPerEm)| ≤ 1 / 100 ∧
      |height - (f.ttf.underlineThickness : ℚ) * c.fontSize / f.ttf.unitsPerEm| ≤ 1 / 200 := by
  obtain ⟨s, x, y, l, t, w, k, hs, hlin, dx, dy, dl, dt, dw, dk, dz⟩ := lined (idx := idx) h hu
  refine ⟨s, x, y, l, t, w, k, hs, hlin, ?_, hw ▸ dw, ?_, dk⟩
  · unfold calX at dx
    rw [if_neg hr, if_neg hm] at dx
    rw [abs_le] at *
    constructor <;> linarith [dx.1, dx.2, dl.1, dl.2]
  · unfold calY at dy
    rw [if_neg hb, if_neg hv] at dy
    have ha : (f.ttf.typoAscender : ℚ) * c.fontSize / f.ttf.unitsPerEm = 7 / 10 * c.fontSize := by
      have h1 : (10 : ℚ) * f.ttf.typoAscender = 7 * f.ttf.unitsPerEm := by exact_mod_cast hasc
      have h2 : (f.ttf.unitsPerEm : ℚ) ≠ 0 := by exact_mod_cast hup
      rw [show (f.ttf.typoAscender : ℚ) = 7 / 10 * f.ttf.unitsPerEm by linarith]
      field_simp
    rw [ha] at dy
    generalize (f.ttf.underlinePosition : ℚ) * c.fontSize / f.ttf.unitsPerEm = p at *
    generalize (7 : ℚ) / 10 * c.fontSize = q at *
    rw [abs_le] at *
    constructor <;> linarith [dy.1, dy.2, dt.1, dt.2]

/-- C100 is violated for every text at the right of its cell: the line begins at the left edge of the cell, away from the text by the part of
the cell that is not used. -/
theorem C100_refuted_right {c : TextContent} {f : FontState} {idx sum : Int} (h : (createContent f c.text c.fontSize).2 = .ok sum) (hu : c.fontStyle &&& 4 = 4)
    (hr : c.align &&& 2 = 2) :
    ∃ (s : Bytes) (x y left top width height : ℚ), c.stream f idx = .ok s ∧ Spec.Lined s x y left top width height ∧
      |x - left - (c.w - textWidth sum c.fontSize)| ≤ 1 / 100 ∧ |width - c.w| ≤ 1 / 200 := by
  obtain ⟨s, x, y, l, t, w, k, hs, hlin, dx, dy, dl, dt, dw, dk, dz⟩ := lined (idx := idx) h hu
  refine ⟨s, x, y, l, t, w, k, hs, hlin, ?_, dw⟩
  unfold calX at dx
  rw [if_pos hr] at dx
  rw [abs_le] at *
  constructor <;> linarith [dx.1, dx.2, dl.1, dl.2]

/-- C100 is violated for every text at the bottom of its cell: the line stays below the top of the cell, away from the base line by the height
of the cell (up to the descender and 7 tenths of the font size). -/
theorem C100_refuted_bottom {c : TextContent} {f : FontState} {idx sum : Int} (h : (createContent f c.text c.fontSize).2 = .ok sum) (hu : c.fontStyle &&& 4 = 4)
    (hb : c.align &&& 1 = 1) :
    ∃ (s : Bytes) (x y left top width height : ℚ), c.stream f idx = .ok s ∧ Spec.Lined s x y left top width height ∧
      |top - (y + (f.ttf.underlinePosition : ℚ) * c.fontSize / f.ttf.unitsPerEm) -
        (c.h + (f.ttf.typoDescender : ℚ) * c.fontSize / f.ttf.unitsPerEm - 7 / 10 * c.fontSize)| ≤ 1 / 100 := by
  obtain ⟨s, x, y, l, t, w, k, hs, hlin, dx, dy, dl, dt, dw, dk, dz⟩ := lined (idx := idx) h hu
  refine ⟨s, x, y, l, t, w, k, hs, hlin, ?_⟩
  unfold calY at dy
  rw [if_pos hb] at dy
  generalize (f.ttf.underlinePosition : ℚ) * c.fontSize / f.ttf.unitsPerEm = p at *
  generalize (f.ttf.typoDescender : ℚ) * c.fontSize / f.ttf.unitsPerEm = d at *
  generalize (7 : ℚ) / 10 * c.fontSize = q at *
  rw [abs_le] at *
  constructor <;> linarith [dy.1, dy.2, dt.1, dt.2]

/-- C100 is violated for every text inserted with the width 0, as one does for a text that needs no cell: the line has no length. -/
theorem C100_refuted_zero {c : TextContent} {f : FontState} {idx sum : Int} (h : (createContent f c.text c.fontSize).2 = .ok sum) (hu : c.fontStyle &&& 4 = 4)
    (hw : c.w = 0) :
    ∃ (s : Bytes) (x y left top height : ℚ), c.stream f idx = .ok s ∧ Spec.Lined s x y left top 0 height := by
  obtain ⟨s, x, y, l, t, w, k, hs, hlin, dx, dy, dl, dt, dw, dk, dz⟩ := lined (idx := idx) h hu
  exact ⟨s, x, y, l, t, k, hs, dz hw ▸ hlin⟩

/-- C100 is violated for every text written by the method `Text` of GoPdf in a size other than 0: the line is lower than the font says by 7 tenths of
the font size (the position of such a text is that of its base line, but the line is drawn as if it were that of the top of the letters). -/
theorem C100_refuted_go {c : GText} {f : GFont} (hu : c.style &&& 4 = 4) (hc : c.isCell = false) :
    ∃ (x y left top width height : ℚ), Spec.Lined (c.stream f) x y left top width height ∧ |left - x| ≤ 1 / 100 ∧
      |y + (f.ttf.underlinePosition : ℚ) * c.size / f.ttf.unitsPerEm - top - 7 / 10 * c.size| ≤ 1 / 100 := by
  obtain ⟨x, hx, dx⟩ := C59_numbers_accurate c.x
  obtain ⟨y, hy, dy⟩ := C59_numbers_accurate (c.pageHeight - c.y)
  obtain ⟨t, ht, dt⟩ := C59_numbers_accurate (c.pageHeight - (c.y - ((f.ttf.underlinePosition : ℚ) / f.ttf.unitsPerEm) * c.size) - 7 / 10 * c.size)
  obtain ⟨w, hw, _⟩ := C59_numbers_accurate (c.x + c.cellW - c.x)
  obtain ⟨k, hk, _⟩ := C59_numbers_accurate (((f.ttf.underlineThickness : ℚ) / f.ttf.unitsPerEm) * c.size)
  refine ⟨x, y, x, t, w, k, ⟨_, _, b!"/F" ++ itoa c.fontCount ++ b!" " ++ itoa c.size ++ b!" Tf\n" ++ colorOp c.color ++ c.content, _, _, _, _,
      drawBorder c.opt.border c.x c.y c.cellW c.cellH c.lineWidth c.pageHeight, ?_, hx, hy, hx, ht, hw, hk⟩, ?_, ?_⟩
  · unfold GText.stream
    simp only [hc, Bool.false_eq_true, if_false]
    rw [if_pos hu]
    unfold underlineOp
    rw [show b!" TD\n/F" = b!" TD\n" ++ b!"/F" by decide +kernel]
    simp only [List.append_assoc]
  · rw [sub_self, abs_zero]; norm_num
  · rw [show (f.ttf.underlinePosition : ℚ) / f.ttf.unitsPerEm * c.size = (f.ttf.underlinePosition : ℚ) * c.size / f.ttf.unitsPerEm by ring] at dt
    generalize (f.ttf.underlinePosition : ℚ) * c.size / f.ttf.unitsPerEm = p at *
    generalize (7 : ℚ) / 10 * c.size = q at *
    rw [abs_le] at *
    constructor <;> linarith [dy.1, dy.2, dt.1, dt.2]

/-! ### concrete texts -/

/-- a font with one character and a line below it -/
def lineFont (asc : Int) (thick : Int) : FontState :=
  { ttf :=
      { unitsPerEm := 1000, numberOfHMetrics := 2, widths := [0, 500], typoAscender := asc, typoDescender := -250, underlinePosition := -100,
        underlineThickness := thick }, chars := ⟨[65], [1]⟩ }

def linedText (w : ℚ) (align : Nat) : TextContent :=
  { text := b!"A", color := some (0, 0, 0), font := 0, fontStyle := 4, fontSize := 10, page := 1, x := 20, y := 30, w := w, h := 40, align := align,
    lineWidth := 0, pageHeight := 200 }

-- a text in a cell as wide as it is, in a font with the ascender 700: the line is where it should be
example : (createContent (lineFont 700 50) (linedText 5 0).text (linedText 5 0).fontSize).2 = .ok 500 ∧ (linedText 5 0).w = textWidth 500 10 ∧
    (linedText 5 0).stream (lineFont 700 50) 3 = .ok b!"BT\n20.00 163.00 TD\n/F3 10 Tf\n[<0001>] TJ\nET\n20.00 162.00 5.00 -0.50 re f\n\r\n" :=
  ⟨by decide +kernel, by decide +kernel, by decide +kernel⟩

/-- Examples of the violations: at the right of a cell of the width 100 the text begins at 115 and its line runs from 20 to 120; at the bottom of a
cell the line is above the text; with the width 0 the line has no length; and with a negative thickness (the number is signed in the file) the
height of the rectangle is no number. -/
theorem C100_refuted :
    (linedText 100 2).stream (lineFont 700 50) 3 = .ok b!"BT\n115.00 163.00 TD\n/F3 10 Tf\n[<0001>] TJ\nET\n20.00 162.00 100.00 -0.50 re f\n\r\n" ∧
    (linedText 5 1).stream (lineFont 700 50) 3 = .ok b!"BT\n20.00 132.50 TD\n/F3 10 Tf\n[<0001>] TJ\nET\n20.00 162.00 5.00 -0.50 re f\n\r\n" ∧
    (linedText 0 0).stream (lineFont 700 50) 3 = .ok b!"BT\n20.00 163.00 TD\n/F3 10 Tf\n[<0001>] TJ\nET\n20.00 162.00 0.00 -0.50 re f\n\r\n" ∧
    (linedText 5 0).stream (lineFont 700 (-50)) 3 = .ok b!"BT\n20.00 163.00 TD\n/F3 10 Tf\n[<0001>] TJ\nET\n20.00 162.00 5.00 --0.50 re f\n\r\n" ∧
    Spec.readDec b!"--0.50" = none :=
  ⟨by decide +kernel, by decide +kernel, by decide +kernel, by decide +kernel, by decide +kernel⟩

-- a text written by `Text` of GoPdf: its line is 8 points below the base line instead of 1
example : (⟨0, none, (0, 0, 0), 0, 1, 10, 4, 0, 20, 30, 200, false, {}, 0, b!"[<0001>] TJ\n", b!"A", 5, 10, 5⟩ : GText).stream
      { family := b!"A", style := 0, kerning := false, ttf := (lineFont 700 50).ttf, cid := 0, unicode := 0 } =
    b!"BT\n20.00 170.00 TD\n/F1 10 Tf\n[<0001>] TJ\nET\n20.00 162.00 5.00 -0.50 re f\n" := by decide +kernel

end Verif
