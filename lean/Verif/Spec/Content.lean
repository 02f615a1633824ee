import Verif.GoLib
import Mathlib.Algebra.Order.Field.Rat
import Mathlib.Algebra.Order.Ring.Abs
/-
Reading decimal numbers in content streams, geometry of cells.
-/
namespace Verif.Spec

/-- an unsigned decimal number `123.45` -/
def readUDec (s : Bytes) : Option ℚ :=
  let int := s.takeWhile (· ≠ 46)
  match s.dropWhile (· ≠ 46) with
  | 46 :: frac =>
    match parseNat int, parseNat frac with
    | some a, some b => some ((a : ℚ) + (b : ℚ) / 10 ^ frac.length)
    | _, _ => none
  | _ => none

/-- a decimal number, possibly negative -/
def readDec : Bytes → Option ℚ
  | 45 :: s => (readUDec s).map (fun q => -q)
  | s => readUDec s

/-- a box on a page, coordinates growing to the right and upwards -/
structure Box where
  left : ℚ
  right : ℚ
  bottom : ℚ
  top : ℚ

/-- the cell at `x`, `y` from the top left corner of a page of height `pageHeight` -/
def cell (pageHeight x y w h : ℚ) : Box := { left := x, right := x + w, top := pageHeight - y, bottom := pageHeight - y - h }

/-- what a line of text occupies: its base line begins at `(x, y)` -/
def textBox (x y width ascender descender : ℚ) : Box := { left := x, right := x + width, top := y + ascender, bottom := y + descender }

end Verif.Spec
