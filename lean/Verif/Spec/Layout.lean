import Verif.Basic
/-
Tokens of a dictionary and their layout.
-/
namespace Verif.Spec
open Verif

/-- a byte that is no white space and no delimiter -/
def Regular (c : UInt8) : Prop := 32 < c ∧ c < 127 ∧ c ≠ 47 ∧ c ≠ 91 ∧ c ≠ 93 ∧ c ≠ 60 ∧ c ≠ 62

instance (c : UInt8) : Decidable (Regular c) := by unfold Regular; infer_instance

/-- names, words (numbers, `R`, `true`, …) and brackets -/
inductive Tok where
  | name (b : Bytes)
  | word (b : Bytes)
  | openArr | closeArr | openDict | closeDict
deriving DecidableEq, Repr

def Tok.bytes : Tok → Bytes
  | .name b => 47 :: b
  | .word b => b
  | .openArr => b!"["
  | .closeArr => b!"]"
  | .openDict => b!"<<"
  | .closeDict => b!">>"

def Tok.Ok : Tok → Prop
  | .name b => ∀ c ∈ b, Regular c
  | .word b => b ≠ [] ∧ ∀ c ∈ b, Regular c
  | _ => True

instance (t : Tok) : Decidable t.Ok := by cases t <;> unfold Tok.Ok <;> infer_instance

def Tok.IsWord : Tok → Prop
  | .word _ => True
  | _ => False

instance (t : Tok) : Decidable t.IsWord := by cases t <;> unfold Tok.IsWord <;> infer_instance

/-- white space: blanks, tabs and line ends -/
def White (g : Bytes) : Prop := ∀ c ∈ g, c = 32 ∨ c = 9 ∨ c = 10 ∨ c = 13

instance (g : Bytes) : Decidable (White g) := by unfold White; infer_instance

/-- the text of tokens, each with the white space before it -/
def render : List (Bytes × Tok) → Bytes
  | [] => []
  | (g, t) :: r => g ++ t.bytes ++ render r

/-- Two layouts of the same tokens.  Before a word white space is in both or in neither; the layouts are otherwise unrelated. -/
inductive SameTokens : List (Bytes × Tok) → List (Bytes × Tok) → Prop
  | nil : SameTokens [] []
  | cons {g h : Bytes} {t : Tok} {r s : List (Bytes × Tok)} : White g → White h → t.Ok → (t.IsWord → (g = [] ↔ h = [])) → SameTokens r s →
      SameTokens ((g, t) :: r) ((h, t) :: s)

end Verif.Spec
