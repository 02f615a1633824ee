import Verif.Props
/-
pdf_data.go (object store, page list) and the page operations of pdft.go.
-/
namespace Verif

/-- pdf_obj_data.go:12-15 `PDFObjData` -/
structure Obj where
  objID : Int
  data : Bytes
deriving DecidableEq, Repr

/-- xref_data.go:10-14 `XrefData`; `inUse` is `Keyword == "n"`. -/
structure XrefRow where
  n10 : Int
  g5 : Int
  inUse : Bool
deriving DecidableEq, Repr

/-- pdf_data.go:13-20 `PDFData`.  Simplifications: `objIDs` is always `objs` mapped to the id (`put` is the only
writer), so it is not stored; `pagesObj` is written once and never read; a page size is kept as the list of
number texts of the media box (`strconv.ParseFloat` is applied when the number is used).  The map
`pageSizes` (key: page index) is an association list whose first match counts. -/
structure Doc where
  rootObjID : Int
  xrefs : List XrefRow
  objs : List Obj
  pageSizes : List (Nat × List Bytes)
deriving DecidableEq, Repr

/-- pdf_data.go:33-36 `put` -/
def Doc.put (d : Doc) (o : Obj) : Doc := { d with objs := d.objs ++ [o] }

/-- pdf_data.go:152-160 `maxID` -/
def maxID (objs : List Obj) : Int := objs.foldl (fun m o => if o.objID > m then o.objID else m) 0

/-- pdf_data.go:38-43 `putNewObject` -/
def Doc.putNewObject (d : Doc) (o : Obj) : Doc × Int :=
  let id := maxID d.objs + 1
  (d.put { o with objID := id }, id)

/-- `props.getPropByKey(k) != nil` -/
def hasKey (ps : Props) (k : Bytes) : Bool := (getPropByKey ps k).isSome

/-- `props, err := o.readProperties(); err == nil && props.getPropByKey("Annots") != nil` (pdf_data.go:70) -/
def hasAnnots (o : Obj) : Bool :=
  match readProperties o.data with
  | .ok ps => hasKey ps b!"Annots"
  | _ => false

/-- Positions of the objects with number `id` (pdf_data.go:59-64). -/
def idxsOf (id : Int) : Nat → List Obj → List Nat
  | _, [] => []
  | i, o :: t => if o.objID = id then i :: idxsOf id (i + 1) t else idxsOf id (i + 1) t

/-- pdf_data.go:57-77 `getObjByID`: index of the object pointed to; `none` is `nil`. -/
def getObjIdx (objs : List Obj) (id : Int) : Option Nat :=
  match idxsOf id 0 objs with
  | [] => none
  | [i] => some i
  | i :: rest => some ((i :: rest).foldl (fun r j =>
      match objs[j]? with
      | some o => if hasAnnots o then j else r
      | none => r) i)

/-- The object `getObjByID` points to. -/
def getObj (objs : List Obj) (id : Int) : Option Obj :=
  match getObjIdx objs id with
  | some i => objs[i]?
  | none => none

/-- `p.getObjByID(id).data = data` (a nil dereference when there is no such object). -/
def setObjData (objs : List Obj) (id : Int) (data : Bytes) : Res (List Obj) :=
  match getObjIdx objs id with
  | some i => .ok (objs.modify i (fun o => { o with data := data }))
  | none => .panic

/-- `p.getObjByID(id).readProperties()`: nil dereference when there is no such object. -/
def readObjProps (objs : List Obj) (id : Int) : Res Props := do
  let o ← Res.ofOption (getObj objs id)
  readProperties o.data

/-- pdf_data.go:124-132 `getKids` on already read properties: `none` is `nil`. -/
def kidsOf (ps : Props) : Res (Option (List Int)) :=
  match getPropByKey ps b!"Pages", getPropByKey ps b!"Kids" with
  | some _, some kid =>
    match readObjIDFromDictionaryArr kid.rawVal with
    | .ok ids => .ok (some ids)
    | .err _ => .ok none
    | .panic => .panic
    | .hang => .hang
  | _, _ => .ok none

/-- Run the traversal over a list of kids, appending the results (pdf_data.go:141-143). -/
def visitKids (visit : Int → Res (List Int)) : List Int → Res (List Int)
  | [] => .ok []
  | k :: t => do
    let a ← visit k
    let b ← visitKids visit t
    .ok (a ++ b)

/-- pdf_data.go:138-147 `visit`.  `fuel` bounds the depth of the recursion; with one unit more than there are
objects it only runs out when the page tree is cyclic, in which case the Go code recurses for ever.
The property cache of lines 113-123 has no effect on the result because nothing is written meanwhile. -/
def visit (objs : List Obj) : Nat → Int → Res (List Int)
  | 0, _ => .hang
  | fuel + 1, id => do
    let o ← Res.ofOption (getObj objs id)
    match readProperties o.data with
    | .ok ps => do
      match ← kidsOf ps with
      | some kids => visitKids (visit objs fuel) kids
      | none => if hasKey ps b!"Page" then .ok [id] else .ok []
    | .err _ => .ok []
    | .panic => .panic
    | .hang => .hang

/-- pdf_data.go:110-111: number of the page tree root.  A read error of the root object leaves a nil
`rootProps` (panic on use), a missing `/Pages` is a nil dereference, an unreadable reference leaves 0. -/
def rootPagesID (d : Doc) : Res Int := do
  let o ← Res.ofOption (getObj d.objs d.rootObjID)
  match readProperties o.data with
  | .ok ps =>
    match getPropByKey ps b!"Pages" with
    | none => .panic
    | some p =>
      match readObjIDFromDictionary p.rawVal with
      | .ok v => .ok v
      | .err _ => .ok 0
      | .panic => .panic
      | .hang => .hang
  | _ => .panic

/-- pdf_data.go:108-150 `getPageObjIDs` (its error result is always nil). -/
def getPageObjIDs (d : Doc) : Res (List Int) := do
  let r ← rootPagesID d
  visit d.objs (d.objs.length + 1) r

/-- pdft.go:208-214 `GetNumberOfPage` -/
def numberOfPages (d : Doc) : Res Nat := do
  let ids ← getPageObjIDs d
  .ok ids.length

/-- `(&obj).setProperties(ps)` through the pointer returned by `getObjByID(id)` -/
def setObjProps (objs : List Obj) (id : Int) (ps : Props) : Res (List Obj) := setObjData objs id (setProperties ps)

/-- pdft.go:186-205 `setPages` -/
def setPages (d : Doc) (pageObjIds : List Int) : Res Doc := do
  let rootProps ← readObjProps d.objs d.rootObjID
  let p ← Res.ofOption (getPropByKey rootProps b!"Pages")
  let rootPages ← readObjIDFromDictionary p.rawVal
  let props ← readObjProps d.objs rootPages
  let _ ← Res.ofOption (getPropByKey props b!"Count")
  let props := setPropByKey b!"Count" (itoa pageObjIds.length) props
  let _ ← Res.ofOption (getPropByKey props b!"Kids")
  let props := setPropByKey b!"Kids" (refArrString pageObjIds) props
  let objs ← setObjProps d.objs rootPages props
  .ok { d with objs := objs }

/-- pdft.go:159-171 `RemovePage`.  `pageObjIds[k-1:]` panics for `k < 1`. -/
def removePage (d : Doc) (k : Int) : Res Doc := do
  let ids ← getPageObjIDs d
  if k > 0 ∧ (ids.length : Int) < k then .err .noDesiredPageToRemove
  else if k - 1 < 0 then .panic
  else
    let i := (k - 1).toNat
    -- copy(ids[k-1:], ids[k:]); ids = ids[:len-1]
    let shifted := ids.take i ++ ids.drop (i + 1) ++ ids.drop (ids.length - 1)
    setPages d (shifted.take (ids.length - 1))

/-- pdft.go:174-184 `RemoveOtherPages`.  The index is `targetPageNumber`, not `targetPageNumber - 1`. -/
def removeOtherPages (d : Doc) (k : Int) : Res Doc := do
  let ids ← getPageObjIDs d
  if k > 0 ∧ (ids.length : Int) < k then .err .noDesiredPageToKeep
  else if k < 0 then .panic
  else do
    let id ← Res.ofOption ids[k.toNat]?
    setPages d [id]

/-- Outcome of a method that mutates its receiver: the resulting state is kept also on error or panic. -/
structure Step (σ : Type) where
  state : σ
  res : Res Unit
deriving DecidableEq, Repr

/-- `setPages` writes only at its very end, so on failure the document is unchanged. -/
def stepOf (d : Doc) (r : Res Doc) : Step Doc :=
  match r with
  | .ok d' => ⟨d', .ok ()⟩
  | .err e => ⟨d, .err e⟩
  | .panic => ⟨d, .panic⟩
  | .hang => ⟨d, .hang⟩

/-- pdft.go:118-141: reading phase of `DuplicatePageAfter`: nothing is written.  Yields the page list, the page
object, its properties and the content object. -/
def dupRead (d : Doc) (target : Int) : Res (List Int × Obj × Props × Obj) := do
  let ids ← getPageObjIDs d
  if target > 0 ∧ (ids.length : Int) < target then .err .noDesiredPageToCopy
  else if target - 1 < 0 then .panic
  else do
    let pid ← Res.ofOption ids[(target - 1).toNat]?
    let pageObj ← Res.ofOption (getObj d.objs pid)
    let props ← readProperties pageObj.data
    match getPropByKey props b!"Contents" with
    | none => .err .noContentsProperty
    | some c => do
      let contentID ← readObjIDFromDictionary c.rawVal
      let contentObj ← Res.ofOption (getObj d.objs contentID)
      .ok (ids, pageObj, props, contentObj)

/-- pdft.go:142-147: store the copies of the content object and of the page object (whose /Contents names the new
content object).  Yields the document and the number of the new page. -/
def dupStore (d : Doc) (contentObj pageObj : Obj) (props : Props) : Doc × Int :=
  let r := d.putNewObject contentObj
  let props := setPropByKey b!"Contents" (refString r.2 0) props
  r.1.putNewObject { pageObj with data := setProperties props }

/-- pdft.go:148-151: the index meant by `position` (negative values count from the end). -/
def dupPos (n : Nat) (position : Int) : Int := if position < 0 then n + position else position

/-- pdft.go:118-156 `DuplicatePageAfter`.  The two new objects are stored (lines 142, 146) before the position is
used, so they stay in the document when lines 152-153 panic. -/
def duplicatePageAfter (d : Doc) (target position : Int) : Step Doc :=
  match dupRead d target with
  | .err e => ⟨d, .err e⟩
  | .panic => ⟨d, .panic⟩
  | .hang => ⟨d, .hang⟩
  | .ok (ids, pageObj, props, contentObj) =>
    let s := dupStore d contentObj pageObj props
    let pos := dupPos ids.length position
    -- copy(ids[pos+1:], ids[pos:]) with len(ids) = n+1; ids[pos+1] = pageID
    if pos < 0 ∨ pos + 1 > ids.length then ⟨s.1, .panic⟩
    else stepOf s.1 (setPages s.1 (ids.take (pos.toNat + 1) ++ [s.2] ++ ids.drop (pos.toNat + 1)))

end Verif
