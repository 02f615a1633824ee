import Verif.Spec.GoText
/-!
# How texts look and where they stand, read off the calls of GoPdf

Independent of the model of the generator but for the types of calls and what is on the pages (`Spec/GoText`).
-/
namespace Verif.Spec
open Verif

/-- What is in force for texts: size and style of the font, colour, grey, width of lines, margins, the position, and how often a position from the left was set. -/
structure Pen where
  size : Int := 0
  style : Nat := 0
  color : UInt8 × UInt8 × UInt8 := (0, 0, 0)
  gray : ℚ := 0
  lineWidth : ℚ := 1
  left : ℚ := 10
  top : ℚ := 10
  x : ℚ := 10
  y : ℚ := 10
  turn : Nat := 0

/-- the last text on the last page, if that is the last thing there -/
def lastText (l : List (Option GRect × List Thing)) : Option Inscribed :=
  match l.getLast? with
  | some s => match s.2.getLast? with
    | some (.text v) => some v
    | _ => none
  | none => none

/-- After a text the position is behind it; after a cell it is to the right of it, unless it floats down only, and below it if it floats down.  `v` is the text that is now the last one on the page: if
the text continues the one before, the pen moves by the width of both (this is refuted as a feature, `C87_refuted_advance`). -/
def Pen.pass (p : Pen) (v : Inscribed) : Pen :=
  match (createContent v.state v.text v.size).2 with
  | .ok sum =>
    let box := cellSize v ((sum : ℚ) * v.size / 1000)
    match v.cell with
    | none => { p with x := p.x + box.w }
    | some (_, o) => { p with x := if o.float = 0 ∨ o.float &&& 2 = 2 then p.x + box.w else p.x, y := if o.float &&& 1 = 1 then p.y + box.h else p.y }
  | _ => p

/-- a call; `l` are the pages after it -/
def Pen.step (l : List (Option GRect × List Thing)) (p : Pen) : GCall → Pen
  | .addPage _ => { p with x := p.left, y := p.top }
  | .setLineWidth w => { p with lineWidth := w }
  | .br h => { p with x := p.left, y := p.y + h }
  | .setGrayFill v => { p with gray := v }
  | .setLeftMargin m => { p with left := m }
  | .setTopMargin m => { p with top := m }
  | .setX x => { p with x := x, turn := p.turn + 1 }
  | .setY y => { p with y := y }
  | .setTextColor r g b => { p with color := (r, g, b) }
  | .setFont _ style size => { p with size := size, style := style }
  | .text _ => (lastText l).elim p p.pass
  | .cell _ _ _ => (lastText l).elim p p.pass
  | _ => p

/-- the pen after calls; the generator is only there to follow what is on the pages -/
def penOf (env : GEnv) : Gp → List GCall → List (Option GRect × List Thing) → Pen → Pen
  | _, [], _, p => p
  | g, c :: cs, l, p => penOf env (g.call env c).state cs (thingStep g (g.call env c).state c l) (p.step (thingStep g (g.call env c).state c l) c)

/-- a call that writes the text `t`, in the cell `k` if there is one -/
def Writes (c : GCall) (t : Bytes) (k : Option (Option GRect × GCellOpt)) : Prop := (c = .text t ∧ k = none) ∨ ∃ r o, c = .cell r t o ∧ k = some (r, o)

/-- there is a page when something is written -/
def PagesFirst (cs : List GCall) : Prop := ∀ a c b t k, cs = a ++ c :: b → Writes c t k → ∃ z, .addPage z ∈ a

/-- a text looks as the pen says -/
def LooksAs (v : Inscribed) (p : Pen) : Prop := v.size = p.size ∧ v.style = p.style ∧ v.color = p.color ∧ v.gray = p.gray ∧ v.turn = p.turn ∧ v.y = p.y

/-- how a text that is on a page came to be: a call wrote it, or the beginning of it, where the pen was -/
def Began (env : GEnv) (z : GRect) (cs : List GCall) (w : Inscribed) : Prop :=
  ∃ a c b t k, cs = a ++ c :: b ∧ Writes c t k ∧ t <+: w.text ∧ w.cell = k ∧ LooksAs w (penOf env (Gp.start z none) a [] {}) ∧ w.x = (penOf env (Gp.start z none) a [] {}).x ∧
    w.lineWidth = (penOf env (Gp.start z none) a [] {}).lineWidth

end Verif.Spec
