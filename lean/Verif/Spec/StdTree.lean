import Verif.Spec.Plain
import Verif.Spec.Layout
/-
Page trees as the standard describes them (ISO 32000-1, 7.7.3), in terms of the reader of `Spec/Object.lean`.
-/
namespace Verif.Spec
open Verif

/-- the text between the brackets of a dictionary with these entries, simply written -/
structure StdText (x : Bytes) (d : List (Bytes × Val)) : Prop where
  simple : SimpleText x
  noStream : ¬ b!"stream" <:+: x
  refs : IntRefs x
  reads : ReadsVal (b!"<<" ++ x ++ b!">>") (.dict d)

/-- Object `id`, the only one with this number, is this dictionary (or a stream with it), simply written. -/
def StdDict (objs : List Obj) (id : Int) (d : List (Bytes × Val)) : Prop :=
  0 < id ∧ id < 2 ^ 63 ∧ ∃ o a x b tail, OnlyObj objs id o ∧ o.data = a ++ (b!"<<" ++ x ++ b!">>") ++ b ++ tail ∧ White a ∧ White b ∧
    (tail = [] ∨ ∃ r, tail = b!"stream" ++ r) ∧ StdText x d

/-- `k` is neither a key nor the name that is the value of a key -/
def Unused (d : List (Bytes × Val)) (k : Bytes) : Prop := d.lookup k = none ∧ ∀ k', (k', Val.name k) ∉ d

/-- `k` is a key with this value, and no name that is the value of a key -/
def EntryIs (d : List (Bytes × Val)) (k : Bytes) (v : Val) : Prop := d.lookup k = some v ∧ ∀ k', (k', Val.name k) ∉ d

/-- a page -/
def StdPage (d : List (Bytes × Val)) : Prop := d.lookup b!"Type" = some (.name b!"Page") ∧ Unused d b!"Kids"

/-- an inner node (if it has no kids, the name /Page must not occur) -/
def StdNode (d : List (Bytes × Val)) (kids : List Int) : Prop :=
  d.lookup b!"Type" = some (.name b!"Pages") ∧ EntryIs d b!"Kids" (.arr (kids.map .ref)) ∧ (kids = [] → Unused d b!"Page")

mutual
/-- the objects form this page tree -/
def StdTree (objs : List Obj) : Tree → Prop
  | .leaf i => ∃ d, StdDict objs i d ∧ StdPage d
  | .node i kids => (∃ d, StdDict objs i d ∧ StdNode d (kids.map Tree.id)) ∧ StdTreeL objs kids
def StdTreeL (objs : List Obj) : List Tree → Prop
  | [] => True
  | t :: ts => StdTree objs t ∧ StdTreeL objs ts
end

/-- the document has this page tree, and its catalog says where -/
def StdDoc (d : Doc) (t : Tree) : Prop := (∃ c, StdDict d.objs d.rootObjID c ∧ EntryIs c b!"Pages" (.ref t.id)) ∧ StdTree d.objs t

/-! ### changes -/

/-- the dictionary with another value for a key -/
def setVal (k : Bytes) (v : Val) : List (Bytes × Val) → List (Bytes × Val)
  | [] => []
  | e :: d => if e.1 = k then (k, v) :: d else e :: setVal k v d

/-- A document with page tree root `r`, a node with the entries `root`, which say the number of pages, and the subtrees `ts`. -/
structure StdRoot (d : Doc) (r : Int) (root : List (Bytes × Val)) (ts : List Tree) : Prop where
  catalog : ∃ c, StdDict d.objs d.rootObjID c ∧ EntryIs c b!"Pages" (.ref r)
  notCatalog : r ≠ d.rootObjID
  dict : StdDict d.objs r root
  node : StdNode root (ts.map Tree.id)
  noPage : Unused root b!"Page"
  count : ∃ q, EntryIs root b!"Count" (.num q)
  kids : StdTreeL d.objs ts

/-- the root of the page tree with other pages -/
def withKids (root : List (Bytes × Val)) (ids : List Int) : List (Bytes × Val) :=
  setVal b!"Kids" (.arr (ids.map .ref)) (setVal b!"Count" (.num ids.length) root)

/-- What a page shows: its entries, without the number of its content stream, and its content stream (none for a page without contents or with an array of them). -/
def StdShows (objs : List Obj) (r id : Int) (v : List (Bytes × Val) × Option Bytes) : Prop :=
  ∃ d, StdDict objs id d ∧ StdPage d ∧
    ((∃ c o, 0 < c ∧ c < 2 ^ 63 ∧ c ≠ r ∧ EntryIs d b!"Contents" (.ref c) ∧ OnlyObj objs c o ∧ v = (setVal b!"Contents" (.ref 0) d, some o.data)) ∨
      (d.lookup b!"Contents" = none ∨ ∃ l, d.lookup b!"Contents" = some (.arr l)) ∧ (∀ k, (k, Val.name b!"Contents") ∉ d) ∧ v = (d, none))

/-- The value of an attribute of a page, or of a node, that is inherited if it is not there (ISO 32000-1, 7.7.3.4), following /Parent. -/
inductive Attr (objs : List Obj) (k : Bytes) : Int → Option Val → Prop
  | own {i : Int} {d : List (Bytes × Val)} {v : Val} : StdDict objs i d → d.lookup k = some v → Attr objs k i (some v)
  | up {i p : Int} {d : List (Bytes × Val)} {v : Option Val} : StdDict objs i d → d.lookup k = none → d.lookup b!"Parent" = some (.ref p) → Attr objs k p v → Attr objs k i v
  | none {i : Int} {d : List (Bytes × Val)} : StdDict objs i d → d.lookup k = .none → d.lookup b!"Parent" = .none → Attr objs k i .none

/-- keys of attributes that can be inherited -/
def Inherited (k : Bytes) : Prop := k ≠ b!"Count" ∧ k ≠ b!"Kids" ∧ k ≠ b!"Contents"

end Verif.Spec
