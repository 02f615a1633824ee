import Verif.Theorems.Paint
import Verif.Spec.GoPdf
/-!
# What the texts and images on the pages of GoPdf are

Independent of the model but for the types of settings and fonts, the results of `createContent` (C31, C38, C60) and the pages of a session, which are followed call by call.
-/
namespace Verif.Spec
open Verif

/-- A text on a page: its font (among the fonts that were added) and what the font is when the text is written, the number in the name of the font, size, style, colours, the number of
`SetX` calls before it, where it is, its cell if it has one (with the rectangle, if one is given, and the options), the width of lines, and the text itself. -/
structure Inscribed where
  font : Nat
  state : FontState
  idx : Int
  size : Int
  style : Nat
  color : UInt8 × UInt8 × UInt8
  gray : ℚ
  turn : Nat
  x : ℚ
  y : ℚ
  cell : Option (Option GRect × GCellOpt)
  lineWidth : ℚ
  text : Bytes

/-- what is on a page; image `k` is the image that was used as the `k`-th -/
inductive Thing where
  | draw (c : GCall)
  | text (w : Inscribed)
  | image (k : Nat) (x y : ℚ) (r : GRect)

/-- A text continues the text before it if that has no rectangle and nothing was set in between. -/
def Continues (v w : Inscribed) : Prop :=
  v.cell.bind Prod.fst = none ∧ v.color = w.color ∧ v.gray = w.gray ∧ v.idx = w.idx ∧ v.size = w.size ∧ v.style = w.style ∧ v.turn = w.turn ∧ v.y = w.y

instance (v w : Inscribed) : Decidable (Continues v w) := by unfold Continues; infer_instance

/-- a text is put on a page: it continues the last text or is a new one -/
def writeOn (fonts : List GFont) (l : List Thing) (w : Inscribed) : List Thing :=
  match l.getLast? with
  | some (.text v) => if Continues v w then l.dropLast ++ [.text { v with state := ((fonts[v.font]?).map GFont.state).getD v.state, text := v.text ++ w.text }] else l ++ [.text w]
  | _ => l ++ [.text w]

/-- the settings of the generator, for a new text; `fonts` are the fonts after the characters of the text were added -/
def asInscribed (g : Gp) (fonts : List GFont) (t : Bytes) (cell : Option (Option GRect × GCellOpt)) : Option Inscribed :=
  g.font.bind (fun i => (fonts[i]?).map (fun f =>
    { font := i, state := f.state, idx := g.fontCount + 1, size := g.fontSize, style := g.fontStyle, color := g.color, gray := g.grayFill, turn := g.setXCount, x := g.x, y := g.y, cell := cell,
      lineWidth := g.lineWidth, text := t }))

/-- the last page is changed -/
def lastPage (f : List Thing → List Thing) (l : List (Option GRect × List Thing)) : List (Option GRect × List Thing) :=
  match l.getLast? with
  | some p => l.dropLast ++ [(p.1, f p.2)]
  | none => []

/-- What a call that succeeds puts on the pages; `g` is the generator before it, `g'` after it.  An image has the rectangle given or else the one it had when it was first used. -/
def thingStep (g g' : Gp) (c : GCall) (l : List (Option GRect × List Thing)) : List (Option GRect × List Thing) :=
  match c with
  | .addPage z => l ++ [(if z.w = 0 ∧ z.h = 0 then none else some z, [])]
  | .text t => match asInscribed g g'.fonts t none with
    | some w => lastPage (fun ts => writeOn g'.fonts ts w) l
    | none => l
  | .cell r t o => match asInscribed g g'.fonts t (some (r, o)) with
    | some w => lastPage (fun ts => writeOn g'.fonts ts w) l
    | none => l
  | .image id _ x y r => match g'.imgCaches.findIdx? (fun c => c.1 = id) with
    | some k => lastPage (· ++ [.image k x y (r.getD (((g'.imgCaches[k]?).map (fun d => d.2.2)).getD ⟨0, 0⟩))]) l
    | none => l
  | c => if drawing c then lastPage (· ++ [.draw c]) l else l

/-- the pages after calls -/
def thingsOf (env : GEnv) : Gp → List GCall → List (Option GRect × List Thing) → List (Option GRect × List Thing)
  | _, [], l => l
  | g, c :: cs, l => thingsOf env (g.call env c).state cs (thingStep g (g.call env c).state c l)

/-- calls one after the other, all of which succeed -/
inductive GDone (env : GEnv) : Gp → List GCall → Gp → Prop
  | nil {g : Gp} : GDone env g [] g
  | cons {g g' : Gp} {c : GCall} {cs : List GCall} : (g.call env c).res = .ok () → GDone env (g.call env c).state cs g' → GDone env g (c :: cs) g'

/-- the lines at the edges of a cell that are asked for: top 4, left 8, right 2, bottom 1 -/
def BorderIs (border : Nat) (g : GState) (b : Box) (o : ℚ) (ms : List Mark) : Prop :=
  ∃ t l r u, ms = t ++ l ++ r ++ u ∧ (if border &&& 4 = 4 then ∃ m, t = [m] ∧ Stroke g (b.left - o) b.top (b.right + o) b.top m else t = []) ∧
    (if border &&& 8 = 8 then ∃ m, l = [m] ∧ Stroke g b.left b.top b.left b.bottom m else l = []) ∧
    (if border &&& 2 = 2 then ∃ m, r = [m] ∧ Stroke g b.right b.top b.right b.bottom m else r = []) ∧
    (if border &&& 1 = 1 then ∃ m, u = [m] ∧ Stroke g (b.left - o) b.bottom (b.right + o) b.bottom m else u = [])

/-- the size of the cell of a text: that of the rectangle, or that of the text (`width` is its width) -/
def cellSize (w : Inscribed) (width : ℚ) : GRect :=
  (w.cell.bind Prod.fst).getD ⟨width, (w.state.ttf.typoAscender : ℚ) * w.size / w.state.ttf.unitsPerEm - (w.state.ttf.typoDescender : ℚ) * w.size / w.state.ttf.unitsPerEm⟩

/-- What a text asks for on a page of the height `H`: its glyphs in the font, size and colour, on a line that begins at the position or where the alignment in the cell says, the underline and the
edges of the cell. -/
def TextShown (H : ℚ) (w : Inscribed) (g : GState) (ms : List Mark) (g' : GState) : Prop :=
  ∃ (sum : Int) (x y : ℚ) (gs : List Nat), (createContent w.state w.text w.size).2 = .ok sum ∧ List.Forall₂ (fun r n => charIndex w.state.chars r = .ok n) (runes w.text) gs ∧
    (match w.cell with
      | none => x = w.x ∧ y = H - w.y
      | some (_, o) => Placed o.align (textBox x y ((sum : ℚ) * w.size / 1000) ((w.state.ttf.typoAscender : ℚ) * w.size / w.state.ttf.unitsPerEm)
          ((w.state.ttf.typoDescender : ℚ) * w.size / w.state.ttf.unitsPerEm))
          (cell H w.x w.y (cellSize w ((sum : ℚ) * w.size / 1000)).w (cellSize w ((sum : ℚ) * w.size / 1000)).h)) ∧
    g'.param b!"Ts" = g.param b!"Ts" ∧
    TextDrawn g g' x y (b!"F" ++ itoa w.idx) w.size w.color (textItems w.state w.text w.size (g.param b!"Ts") 0 0 0 ((runes w.text).zip gs))
      (fun g us => if w.style &&& 4 = 4 then ∃ m, us = [m] ∧ Filled g w.x
          (H - (w.y - ((w.state.ttf.underlinePosition : ℚ) / w.state.ttf.unitsPerEm) * w.size) - 7 / 10 * w.size) (cellSize w ((sum : ℚ) * w.size / 1000)).w
          (-(((w.state.ttf.underlineThickness : ℚ) / w.state.ttf.unitsPerEm) * w.size)) m else us = [])
      (fun g es => BorderIs ((w.cell.map (fun c => c.2.border)).getD 0) g (cell H w.x w.y (cellSize w ((sum : ℚ) * w.size / 1000)).w (cellSize w ((sum : ℚ) * w.size / 1000)).h) (w.lineWidth / 2) es) ms

/-- what is shown for the things on a page -/
def ThingShown (upper : Upper) (H : ℚ) : Thing → GState → List Mark → GState → Prop
  | .draw c, g, ms, g' => Drawn upper H c g ms g'
  | .text w, g, ms, g' => TextShown H w g ms g'
  | .image k x y r, g, ms, g' => g' = g ∧ ∃ a b u v, Near a r.w ∧ Near b r.h ∧ Near u x ∧ Near v (H - (y + r.h)) ∧
      ms = [.external (b!"I" ++ itoa ((k : Int) + 1)) { g with ctm := (Mat.mk a 0 0 b u v).mul g.ctm }]

inductive AllShown (upper : Upper) (H : ℚ) : List Thing → GState → List Mark → GState → Prop
  | nil {g : GState} : AllShown upper H [] g [] g
  | cons {t : Thing} {ts : List Thing} {g g' g'' : GState} {ms ns : List Mark} : ThingShown upper H t g ms g' → AllShown upper H ts g' ns g'' → AllShown upper H (t :: ts) g (ms ++ ns) g''

/-- a text that can be shown as it should be: its font has a size, and its underline is not above itself -/
def Legible (w : Inscribed) : Prop := 0 < w.state.ttf.unitsPerEm ∧ (w.style &&& 4 = 4 → 0 ≤ ((w.state.ttf.underlineThickness : ℚ) / w.state.ttf.unitsPerEm) * w.size)

end Verif.Spec
