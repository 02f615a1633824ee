import Verif.Spec.PageTree
/-
What a saved document shows: named resources of a page, content of a page.
-/
namespace Verif.Spec
open Verif

/-- entries of the object with this number, if there is exactly one -/
def entriesOf (objs : List Obj) (id : Int) : Option Props :=
  match objs.filter (fun x => decide (x.objID = id)) with
  | [o] =>
    match readProperties o.data with
    | .ok ps => some ps
    | _ => none
  | _ => none

/-- the value is written in place -/
def Inline (v : Bytes) : Prop := (trimSpace v).take 2 = b!"<<"

instance (v : Bytes) : Decidable (Inline v) := by unfold Inline; infer_instance

/-- the number a value refers to -/
def refOf (v : Bytes) : Option Int :=
  match readObjIDFromDictionary v with
  | .ok id => some id
  | _ => none

/-- the dictionary a value stands for: itself, or the object it refers to -/
def dictOf (objs : List Obj) (v : Bytes) : Option Props :=
  if Inline v then
    match readProperties v with
    | .ok ps => some ps
    | _ => none
  else (refOf v).bind (entriesOf objs)

/-- the dictionary of the page's resources of a kind (Font, XObject) -/
def resourcesOf (objs : List Obj) (page : Int) (kind : Bytes) : Option Props := do
  let ps ← entriesOf objs page
  let v ← valueOf ps b!"Resources"
  let rs ← dictOf objs v
  let w ← valueOf rs kind
  dictOf objs w

/-- the object the page knows under this resource name -/
def named (objs : List Obj) (page : Int) (kind name : Bytes) : Option Int := do
  let ps ← resourcesOf objs page kind
  let v ← valueOf ps name
  refOf v

/-- the texts of the media box written in the page -/
def mediaBox (objs : List Obj) (page : Int) : Option (List Bytes) := do
  let ps ← entriesOf objs page
  let v ← valueOf ps b!"MediaBox"
  some (fields (removeByte 93 (removeByte 91 v)))

end Verif.Spec
