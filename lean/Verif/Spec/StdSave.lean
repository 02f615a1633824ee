import Verif.Spec.StdTree
/-
Documents whose dictionaries are simply written and whose page tree, resources and contents are linked in the usual way; what saving may change.
-/
namespace Verif.Spec
open Verif

/-- keys that are followed -/
def linkKeys : List Bytes := [b!"Kids", b!"Resources", b!"Font", b!"XObject", b!"Contents"]

/-- no key that is followed has a name as value or is one -/
def NoLinkNames (d : List (Bytes × Val)) : Prop := ∀ k n, (k, Val.name n) ∈ d → k ∉ linkKeys ∧ n ∉ linkKeys

/-- a number that the program can read -/
def Readable (n : Int) : Prop := -9223372036854775808 ≤ n ∧ n ≤ 9223372036854775807

/-- a dictionary of fonts: all values are references -/
def FontList (d : List (Bytes × Val)) : Prop := ∀ x ∈ d, ∃ n, x.2 = Val.ref n ∧ Readable n

/-- resources: fonts are a dictionary, in place or of its own (`N`), images a dictionary in place -/
structure ResEntries (N : Int → Prop) (es : List (Bytes × Val)) : Prop where
  names : NoLinkNames es
  font : ∀ v, (b!"Font", v) ∈ es → (∃ j, v = .ref j ∧ N j) ∨ ∃ fs, v = .dict fs ∧ FontList fs
  xobj : ∀ v, (b!"XObject", v) ∈ es → ∃ xs, v = .dict xs

/-- The document with catalog `root` has the dictionaries `D` for the numbers in `R` (catalog, page tree, resources) and in `N` (fonts), and content
streams with numbers in `C`. -/
structure LinkedDoc (objs : List Obj) (root : Int) (R N C : Int → Prop) (D : Int → List (Bytes × Val)) : Prop where
  dicts : ∀ i, R i ∨ N i → StdDict objs i (D i)
  apart : ∀ i, R i → ¬ N i ∧ ¬ C i
  apart' : ∀ i, N i → ¬ C i
  top : R root
  rootNames : ∀ k n, (k, Val.name n) ∈ D root → k ≠ b!"Pages" ∧ n ≠ b!"Pages"
  pages : ∀ v, (b!"Pages", v) ∈ D root → ∃ i, v = .ref i ∧ R i
  kids : ∀ i, R i → ∀ v, (b!"Kids", v) ∈ D i → ∃ ids : List Int, ids ≠ [] ∧ v = .arr (ids.map .ref) ∧ ∀ j ∈ ids, R j
  res : ∀ i, R i → ∀ v, (b!"Resources", v) ∈ D i → (∃ j, v = .ref j ∧ R j) ∨ ∃ es, v = .dict es ∧ ResEntries N es ∧ (∀ w, (b!"Resources", w) ∉ es) ∧ ∀ w, (b!"Contents", w) ∉ es
  /-- either all resources are in place or none -/
  uniform : (∀ i, R i → ∀ v, (b!"Resources", v) ∈ D i → ∃ j, v = .ref j) ∨ ∀ i, R i → ∀ v, (b!"Resources", v) ∈ D i → ∃ es, v = .dict es
  entries : ∀ i, R i → ResEntries N (D i)
  contents : ∀ i, R i → ∀ v, (b!"Contents", v) ∈ D i → (∃ c, v = .ref c ∧ Readable c ∧ C c) ∨ ∃ ids : List Int, ids ≠ [] ∧ v = .arr (ids.map .ref) ∧ ∀ c ∈ ids, Readable c ∧ C c
  fonts : ∀ i, N i → FontList (D i)
  streams : ∀ i, C i → ∃ o, OnlyObj objs i o

/-! ### changes -/

/-- a font name: something without digits and underscores, and a number -/
def FontName (k : Bytes) : Prop := ∃ p n, k = p ++ natDigits n ∧ n < 2 ^ 63 ∧ ∀ c ∈ p, isDigit c = false ∧ c ≠ 95

/-- The fonts `fs'` are the fonts `fs`, in order, with the same names, and then the fonts `new`. -/
def FontsAdded (new fs fs' : List (Bytes × Val)) : Prop :=
  ∃ fs0, fs' = fs0 ++ new ∧ List.Forall₂ (fun x y : Bytes × Val => y.2 = x.2 ∧ (FontName x.1 → y.1 = x.1)) fs fs0

/-- the value of /Font after saving -/
def FontVal (new : List (Bytes × Val)) (o o' : Option Val) : Prop := o' = o ∨ ∃ fs fs', o = some (.dict fs) ∧ o' = some (.dict fs') ∧ FontsAdded new fs fs'

/-- an image name: letters and a number -/
def ImgName (k : Bytes) : Prop := ∃ p n, k = p ++ natDigits n ∧ n < 2 ^ 63 ∧ ∀ c ∈ p, (65 ≤ c ∧ c ≤ 90) ∨ (97 ≤ c ∧ c ≤ 122)

/-- the value of /XObject after saving: the images are still there, in order, and the names of the images `new` are there -/
def ImgVal (new : List (Bytes × Val)) (o o' : Option Val) : Prop := o' = o ∨ (o = none ∧ ∃ xs, o' = some (.dict xs) ∧ new <:+ xs) ∨
  ∃ xs xs', o = some (.dict xs) ∧ o' = some (.dict xs') ∧ (∀ x ∈ new, ∃ y ∈ xs', y.1 = x.1) ∧ ((∀ x ∈ xs, ImgName x.1 ∧ ∃ n, x.2 = Val.ref n ∧ Readable n) → xs <+: xs')

/-- resources with other fonts and images -/
structure ResSaved (F X : Option Val → Option Val → Prop) (d d' : List (Bytes × Val)) : Prop where
  same : ∀ k, k ≠ b!"Font" → k ≠ b!"XObject" → d'.lookup k = d.lookup k
  font : F (d.lookup b!"Font") (d'.lookup b!"Font")
  xobj : X (d.lookup b!"XObject") (d'.lookup b!"XObject")

/-- a dictionary with other fonts and images, perhaps in its resources -/
structure DictSaved (F X : Option Val → Option Val → Prop) (d d' : List (Bytes × Val)) : Prop where
  same : ∀ k, k ≠ b!"Font" → k ≠ b!"XObject" → k ≠ b!"Resources" → d'.lookup k = d.lookup k
  font : F (d.lookup b!"Font") (d'.lookup b!"Font")
  xobj : X (d.lookup b!"XObject") (d'.lookup b!"XObject")
  res : d'.lookup b!"Resources" = d.lookup b!"Resources" ∨
    ∃ es es', d.lookup b!"Resources" = some (.dict es) ∧ d'.lookup b!"Resources" = some (.dict es') ∧ ResSaved F X es es'

end Verif.Spec
