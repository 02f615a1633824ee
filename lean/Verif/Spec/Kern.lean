import Verif.Spec.TtfFile
/-!
# Kerning tables of TrueType fonts

Positions are those of the OpenType specification, version 1.9, chapter "kern": a header of two numbers (the version and the number of subtables), then the subtables.  A subtable has a header of three
numbers (version, length, coverage: the upper byte is the format, the bits of the lower byte are horizontal, minimum, cross-stream, override, and four that are reserved).  In format 0 there
follow the number of pairs and three numbers for searching, and then the pairs.
-/
namespace Verif.Spec
open Verif

/-- the pair `i` of those that begin at `p`: the left glyph, the right glyph, and the distance -/
def kernAt (d : Bytes) (p i : Nat) : Option ((Nat × Nat) × Int) :=
  match u16At d (p + 6 * i), u16At d (p + 6 * i + 2), i16At d (p + 6 * i + 4) with
  | some l, some r, some v => some ((l, r), v)
  | _, _, _ => none

/-- among the `n` pairs at `p` the last one for these two glyphs has the distance `v` -/
def KernIs (d : Bytes) (p n : Nat) (k : Nat × Nat) (v : Int) : Prop := ∃ i < n, kernAt d p i = some (k, v) ∧ ∀ j, i < j → j < n → ∀ w, kernAt d p j ≠ some (k, w)

/-- none of the `n` pairs at `p` is for these two glyphs -/
def NoKern (d : Bytes) (p n : Nat) (k : Nat × Nat) : Prop := ∀ i < n, ∀ w, kernAt d p i ≠ some (k, w)

/-- at `p` there is a subtable of format 0 with horizontal distances of `n` pairs -/
structure KernSub (d : Bytes) (p n : Nat) : Prop where
  coverage : u16At d (p + 4) = some 1
  count : u16At d (p + 6) = some n
  room : p + 14 + 6 * n ≤ d.length

end Verif.Spec
