import Verif.Spec.Layout
import Verif.Props
import Mathlib.Data.List.Infix
/-
Dictionaries as they are read: what their keys and values look like.
-/
namespace Verif.Spec
open Verif

/-- Reading from inside `a` angle brackets and `b` square brackets: the last of them is closed by the last byte of the text. -/
def groupEnd : Nat → Nat → Bytes → Bool
  | _, _, [] => false
  | a, b, c :: t =>
    if c = 60 then groupEnd (a + 1) b t
    else if c = 91 then groupEnd a (b + 1) t
    else if c = 62 then (if a = 0 then false else if a = 1 ∧ b = 0 then t.isEmpty else groupEnd (a - 1) b t)
    else if c = 93 then (if b = 0 then false else if a = 0 ∧ b = 1 then t.isEmpty else groupEnd a (b - 1) t)
    else groupEnd a b t

/-- a text without brackets and names -/
def PlainVal (v : Bytes) : Prop := ∀ c ∈ v, c ≠ 47 ∧ c ≠ 91 ∧ c ≠ 93 ∧ c ≠ 60 ∧ c ≠ 62

instance (v : Bytes) : Decidable (PlainVal v) := by unfold PlainVal; infer_instance

/-- an array, a dictionary or a text in angle brackets -/
def GroupVal (v : Bytes) : Prop := (v.head? = some 91 ∨ v.head? = some 60) ∧ groupEnd 0 0 v = true

instance (v : Bytes) : Decidable (GroupVal v) := by unfold GroupVal; infer_instance

/-- what may follow a blank: no blank, no name, no bracket except a single `<` -/
def AfterBlank (t : Bytes) : Prop := t ≠ [] ∧ (∀ c, t.head? = some c → c ≠ 32 ∧ c ≠ 47 ∧ c ≠ 91 ∧ c ≠ 93 ∧ c ≠ 62) ∧ t.take 2 ≠ b!"<<"

instance (t : Bytes) : Decidable (AfterBlank t) := by
  unfold AfterBlank
  cases t with
  | nil => exact isFalse (by simp)
  | cons c u => exact decidable_of_iff ((c ≠ 32 ∧ c ≠ 47 ∧ c ≠ 91 ∧ c ≠ 93 ∧ c ≠ 62) ∧ (c :: u).take 2 ≠ b!"<<") (by simp)

/-- A value as it is read from a dictionary: printable, no superfluous blanks, with closed brackets. -/
structure TidyVal (v : Bytes) : Prop where
  printable : ∀ c ∈ v, 32 ≤ c ∧ c < 127
  first : v.head? ≠ some 32
  blanks : ∀ t ∈ v.tails, t.head? = some 32 → AfterBlank t.tail
  shape : PlainVal v ∨ GroupVal v

instance (v : Bytes) : Decidable (TidyVal v) :=
  decidable_of_iff ((∀ c ∈ v, 32 ≤ c ∧ c < 127) ∧ v.head? ≠ some 32 ∧ (∀ t ∈ v.tails, t.head? = some 32 → AfterBlank t.tail) ∧ (PlainVal v ∨ GroupVal v))
    ⟨fun ⟨a, b, c, d⟩ => ⟨a, b, c, d⟩, fun ⟨a, b, c, d⟩ => ⟨a, b, c, d⟩⟩

/-- the word does not occur in the text -/
def Lacks (w s : Bytes) : Prop := ∀ t ∈ s.tails, t.take w.length ≠ w

instance (w s : Bytes) : Decidable (Lacks w s) := by unfold Lacks; infer_instance

/-- Entries with plain keys and tidy values, without the word `stream`. -/
def Tidy (ps : Props) : Prop := ∀ p ∈ ps, (∀ c ∈ p.key, Regular c) ∧ TidyVal p.rawVal ∧ Lacks b!"stream" p.key ∧ Lacks b!"stream" p.rawVal

instance (ps : Props) : Decidable (Tidy ps) := by unfold Tidy; infer_instance

end Verif.Spec
