import Verif.Spec.Names
import Verif.Spec.Save
/-
Documents with a flat page tree: catalog, one node, pages; resources and font lists in place or in objects of their own, shared or not.
-/
namespace Verif.Spec
open Verif

/-- the key occurs once, with this value -/
def OnlyKey (ps : Props) (k v : Bytes) : Prop := ps.filter (fun p => p.key = k) = [⟨k, v⟩]

instance (ps : Props) (k v : Bytes) : Decidable (OnlyKey ps k v) := by unfold OnlyKey; infer_instance

/-- the name does not occur, neither as a key nor in a value -/
def LacksName (k : Bytes) (ps : Props) : Prop := ∀ p ∈ ps, p.key.take k.length ≠ k ∧ Lacks (47 :: k) p.rawVal

instance (k : Bytes) (ps : Props) : Decidable (LacksName k ps) := by unfold LacksName; infer_instance

/-- the value is a dictionary with these entries, in place (`none`) or in the object with this number -/
def DictAt (objs : List Obj) (v : Bytes) (place : Option Int) (ps : Props) : Prop :=
  Tidy ps ∧ match place with
    | none => Inline v ∧ readProperties v = .ok ps
    | some id => refOf v = some id ∧ Entries objs id ps

structure ResInfo where
  place : Option Int
  entries : Props
deriving DecidableEq

structure FlatPage where
  id : Int
  entries : Props
  res : Option ResInfo
deriving DecidableEq

/-- every value of the key is written in place or refers to an object -/
def Sound (objs : List Obj) (k : Bytes) (qs : Props) : Prop := ∀ p ∈ qs, p.key = k → Inline p.rawVal ∨ ∃ i o, refOf p.rawVal = some i ∧ OnlyObj objs i o

/-- the /Resources entry of a page -/
def ResOk (objs : List Obj) (k : Bytes) (ps : Props) : Option ResInfo → Prop
  | none => valueOf ps b!"Resources" = none
  | some r => ∃ v, OnlyKey ps b!"Resources" v ∧ DictAt objs v r.place r.entries ∧ Sound objs k r.entries ∧ LacksName b!"Pages" r.entries

structure FlatPage.Ok (objs : List Obj) (k : Bytes) (g : FlatPage) : Prop where
  entries : Entries objs g.id g.entries
  tidy : Tidy g.entries
  plain : valueOf g.entries k = none
  noPages : LacksName b!"Pages" g.entries
  res : ResOk objs k g.entries g.res

/-- the object of the resources -/
def FlatPage.resPlace (g : FlatPage) : Option Int := g.res.bind (·.place)

/-- the objects the resources refer to under a key -/
def FlatPage.refs (k : Bytes) (g : FlatPage) : List Int :=
  match g.res with
  | none => []
  | some r => (r.entries.filter (fun p => p.key = k)).filterMap (fun p => refOf p.rawVal)

/-- number of pages with the same resource object -/
def sharers (pages : List FlatPage) (i : Int) : Nat := (pages.filter (fun g => g.resPlace = some i)).length

/-- A document with a flat page tree, as far as resources of kind `k` (`Font`, `XObject`) are concerned.  Pages may share resource objects, and the
objects these refer to. -/
structure FlatDoc (k : Bytes) (objs : List Obj) (root tree : Int) (cat node : Props) (pages : List FlatPage) : Prop where
  catEntries : Entries objs root cat
  nodeEntries : Entries objs tree node
  catTidy : Tidy cat
  nodeTidy : Tidy node
  pagesRef : ∃ v, OnlyKey cat b!"Pages" v ∧ refOf v = some tree
  kids : ∃ v, OnlyKey node b!"Kids" v ∧ v.head? = some 91 ∧ ArrayRefs v (pages.map (·.id))
  catPlain : valueOf cat k = none ∧ LacksName b!"Parent" cat
  nodePlain : valueOf node k = none ∧ LacksName b!"Parent" node
  pagesOk : ∀ g ∈ pages, g.Ok objs k
  distinct : (root :: tree :: pages.map (·.id)).Nodup
  resApart : ∀ g ∈ pages, ∀ i, g.resPlace = some i → i ∉ root :: tree :: pages.map (·.id)
  refsApart : ∀ g ∈ pages, ∀ i ∈ g.refs k, i ∉ root :: tree :: pages.map (·.id) ∧ ∀ g' ∈ pages, g'.resPlace ≠ some i

end Verif.Spec
