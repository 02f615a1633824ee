import Verif.Props
import Verif.Store
/-
Page trees as a specification: a finite tree whose leaves are the pages, and when a document's objects form it.
-/
namespace Verif.Spec
open Verif

/-- A page tree: leaves are pages, inner nodes have children in order; `id` is the object number. -/
inductive Tree where
  | leaf (id : Int)
  | node (id : Int) (kids : List Tree)

def Tree.id : Tree → Int
  | .leaf i => i
  | .node i _ => i

mutual
/-- the pages, left to right -/
def Tree.pages : Tree → List Int
  | .leaf i => [i]
  | .node _ kids => pagesL kids
def pagesL : List Tree → List Int
  | [] => []
  | t :: ts => t.pages ++ pagesL ts
end

/-- `o` is the only object of the document with number `id` -/
def OnlyObj (objs : List Obj) (id : Int) (o : Obj) : Prop := objs.filter (fun x => decide (x.objID = id)) = [o]

/-- the entries of object `id` -/
def Entries (objs : List Obj) (id : Int) (ps : Props) : Prop := ∃ o, OnlyObj objs id o ∧ readProperties o.data = .ok ps

/-- value of an entry -/
def valueOf (ps : Props) (k : Bytes) : Option Bytes := (ps.find? (fun p => p.key = k)).map (·.rawVal)

/-- a page: the dictionary has the name /Page and is not an inner node -/
def IsPage (ps : Props) : Prop := (∃ v, valueOf ps b!"Page" = some v) ∧ (valueOf ps b!"Pages" = none ∨ valueOf ps b!"Kids" = none)

/-- an array without elements -/
def EmptyArray (v : Bytes) : Prop := ∀ c ∈ v, c = 91 ∨ c = 93 ∨ c = 32

/-- the references of an array value -/
def ArrayRefs (v : Bytes) (kids : List Int) : Prop := readObjIDFromDictionaryArr v = .ok kids

/-- an inner node with these children (a node without children must not also carry the name /Page) -/
def IsNode (ps : Props) (kids : List Int) : Prop :=
  (∃ v, valueOf ps b!"Pages" = some v) ∧ ∃ v, valueOf ps b!"Kids" = some v ∧
    (ArrayRefs v kids ∨ (kids = [] ∧ EmptyArray v ∧ valueOf ps b!"Page" = none))

mutual
/-- the objects form this page tree -/
def IsTree (objs : List Obj) : Tree → Prop
  | .leaf i => ∃ ps, Entries objs i ps ∧ IsPage ps
  | .node i kids => (∃ ps, Entries objs i ps ∧ IsNode ps (kids.map Tree.id)) ∧ IsTreeL objs kids
def IsTreeL (objs : List Obj) : List Tree → Prop
  | [] => True
  | t :: ts => IsTree objs t ∧ IsTreeL objs ts
end

/-- the catalog of the document names object `r` as the page tree root -/
def RootIs (d : Doc) (r : Int) : Prop :=
  ∃ ps v, Entries d.objs d.rootObjID ps ∧ valueOf ps b!"Pages" = some v ∧ readObjIDFromDictionary v = .ok r

/-- the document has this page tree -/
def HasTree (d : Doc) (t : Tree) : Prop := RootIs d t.id ∧ IsTree d.objs t

/-- What a page shows: its entries (with the value of /Contents blanked out) and the bytes of its content object. -/
structure View where
  entries : Props
  content : Option Bytes

/-- the entries with the value of /Contents blanked out -/
def blank : Props → Props
  | [] => []
  | p :: t => if p.key = b!"Contents" then ⟨p.key, []⟩ :: t else p :: blank t

/-- The content of a page with entries `ps`: `c` is the data of the (only) object that /Contents refers to, or `none` if
/Contents is missing or not a single reference.  `ok` is a condition on the number of the content object. -/
def ContentIs (objs : List Obj) (ok : Int → Prop) (ps : Props) (c : Option Bytes) : Prop :=
  match valueOf ps b!"Contents" with
  | none => c = none
  | some v => (∃ id o, readObjIDFromDictionary v = .ok id ∧ OnlyObj objs id o ∧ ok id ∧ c = some o.data) ∨
      ((∀ id, readObjIDFromDictionary v ≠ .ok id) ∧ c = none)

/-- The page with object number `id` shows `v`. -/
def Shows (objs : List Obj) (id : Int) (v : View) : Prop :=
  ∃ ps, Entries objs id ps ∧ v.entries = blank ps ∧ ContentIs objs (fun _ => True) ps v.content

end Verif.Spec
