import Verif.Basic
/-
Bodies of objects that a reader searching for keywords does not mistake for the structure of the file.
-/
namespace Verif.Spec
open Verif

def Dec (c : UInt8) : Prop := 48 ≤ c.toNat ∧ c.toNat ≤ 57
def Gap (c : UInt8) : Prop := c = 9 ∨ c = 32

/-- A text that looks like a row of a cross-reference table: ten digits, blanks, five digits, a blank, and `f`, `,` or `n`. -/
def RowLike (w : Bytes) : Prop :=
  ∃ a g b s k, w = a ++ g ++ b ++ [s, k] ∧ a.length = 10 ∧ (∀ c ∈ a, Dec c) ∧ g ≠ [] ∧ (∀ c ∈ g, Gap c) ∧ b.length = 5 ∧ (∀ c ∈ b, Dec c) ∧
    Gap s ∧ (k = 102 ∨ k = 44 ∨ k = 110)

/-- a body without the keywords of the file structure and without texts that look like rows of a table -/
structure PlainBody (s : Bytes) : Prop where
  endobj : ¬ b!"endobj" <:+: s
  trailer : ¬ b!"trailer" <:+: s
  startxref : ¬ b!"startxref" <:+: s
  row : ∀ w, RowLike w → ¬ w <:+: s

/-- What reading back makes of an object: its body between line ends. -/
def between (s : Bytes) : Bytes := b!"\n" ++ s ++ b!"\n"

end Verif.Spec
