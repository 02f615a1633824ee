import Verif.Store
/-
pdf_parse.go, regex.go, xref_data.go, pdf_obj_data.go: opening a document.
-/
namespace Verif

/-- the class `[\t ]` of regex.go:6 -/
def isTabSp (b : UInt8) : Bool := b = 0x09 || b = 0x20

/-- Length of a leading run of bytes in a class. -/
def spanLen (p : UInt8 → Bool) : Bytes → Nat
  | [] => 0
  | c :: t => if p c then spanLen p t + 1 else 0

/-- regex.go:6 `[0-9]{10}[\t ]+[0-9]{5}[\t ][f,n]` anchored at the start of the text: length of the match.
The classes of consecutive parts are disjoint, so the greedy choice is the only one. -/
def matchXrefLine (s : Bytes) : Option Nat :=
  if spanLen isDigit (s.take 10) = 10 then
    let s1 := s.drop 10
    let w := spanLen isTabSp s1
    if w = 0 then none else
      let s2 := s1.drop w
      if spanLen isDigit (s2.take 5) = 5 then
        match s2.drop 5 with
        | b :: c :: _ => if isTabSp b ∧ (c = 102 ∨ c = 44 ∨ c = 110) then some (10 + w + 5 + 2) else none
        | _ => none
      else none
  else none

/-- `FindAllIndex(raw, -1)` for a regular expression given by an anchored matcher with non-empty matches:
leftmost, non-overlapping.  Yields start and matched text; `skip` counts the rest of the current match. -/
def findAll (m : Bytes → Option Nat) : Nat → Nat → Bytes → List (Nat × Bytes)
  | _, _, [] => []
  | pos, skip + 1, _ :: t => findAll m (pos + 1) skip t
  | pos, 0, c :: t =>
    match m (c :: t) with
    | some n => (pos, (c :: t).take n) :: findAll m (pos + 1) (n - 1) t
    | none => findAll m (pos + 1) 0 t

/-- xref_data.go:16-39 `XrefData.parse` -/
def parseXrefLine (line : Bytes) : Res XrefRow :=
  match splitSpace (trimSpace line) with
  | a :: b :: c :: _ => do
    let n ← Res.orErr .atoi (atoi (trimSpace a))
    let g ← Res.orErr .atoi (atoi (trimSpace b))
    let k := trimSpace c
    if k = b!"n" then .ok ⟨n, g, true⟩
    else if k = b!"f" then .ok ⟨n, g, false⟩
    else .err .other
  | _ => .err .other

/-- pdf_parse.go:157-168: parse the matches that lie below the first "xref". -/
def parseXrefRows (start : Nat) : List (Nat × Bytes) → Res (List XrefRow)
  | [] => .ok []
  | (p, line) :: t =>
    if start > p then parseXrefRows start t
    else do
      let r ← parseXrefLine line
      let rs ← parseXrefRows start t
      .ok (r :: rs)

/-- pdf_parse.go:150-171 `parseXref` -/
def parseXref (raw : Bytes) : Res (List XrefRow) :=
  match index b!"xref" raw with
  | none => .err .other
  | some i => parseXrefRows (i + 4) (findAll matchXrefLine 0 0 raw)

/-- pdf_parse.go:117-148 `parseTrailer`: the number of the root object.  The slice of line 129 panics when
"startxref" comes before the end of "trailer". -/
def parseTrailer (raw : Bytes) : Res Int :=
  match index b!"trailer" raw with
  | none => .err .other
  | some i =>
    match index b!"startxref" raw with
    | none => .err .other
    | some j =>
      if j < i + 7 then .panic
      else do
        let ps ← readProperties ((raw.take j).drop (i + 7))
        match getPropByKey ps b!"Root" with
        | none => .err .other
        | some p => readObjIDFromDictionary p.rawVal

/-- the class `[\n\r\t ]` of regex.go:7 -/
def isWs1 (b : UInt8) : Bool := b = 0x0A || b = 0x0D || b = 0x09 || b = 0x20

/-- regex.go:7 `[0-9]+[\n\r\t ]0[\n\r\t ]obj` anchored at the start: length of the match. -/
def matchStartObj (s : Bytes) : Option Nat :=
  let w := spanLen isDigit s
  if w = 0 then none else
    match s.drop w with
    | a :: 48 :: b :: 111 :: 98 :: 106 :: _ => if isWs1 a ∧ isWs1 b then some (w + 6) else none
    | _ => none

/-- `FindAllIndex(tmp, 1)` -/
def findFirst (m : Bytes → Option Nat) : Nat → Bytes → Option (Nat × Nat)
  | _, [] => none
  | pos, c :: t =>
    match m (c :: t) with
    | some n => some (pos, pos + n)
    | none => findFirst m (pos + 1) t

/-- pdf_data.go:617-627 `objIDFromStartObjLine` -/
def objIDFromStartObjLine (line : Bytes) : Res Int :=
  match fields line with
  | a :: _ :: _ :: _ => Res.orErr .atoi (atoi (trimSpace a))
  | _ => .err .other

/-- pdf_obj_data.go:17-45 `parse`.  `raw[off:]` panics when `off` is beyond the end. -/
def parseObj (raw : Bytes) (off : Int) : Res Obj :=
  if off < 0 ∨ off > raw.length then .panic
  else
    let tmp := raw.drop off.toNat
    match index b!"endobj" tmp with
    | none => .err .other
    | some e =>
      let tmp := tmp.take e
      match findFirst matchStartObj 0 tmp with
      | none => .err .other
      | some (s, f) => do
        let id ← objIDFromStartObjLine ((tmp.take f).drop s)
        .ok ⟨id, tmp.drop f⟩

/-- pdf_parse.go:173-187 `parseObjOnlyKeywordN` -/
def parseObjs (raw : Bytes) : List XrefRow → Res (List Obj)
  | [] => .ok []
  | r :: t =>
    if r.inUse then do
      let o ← parseObj raw r.n10
      let os ← parseObjs raw t
      .ok (o :: os)
    else parseObjs raw t

/-- pdf_parse.go:95-115 `setPagesObj` (only its checks: `pagesObj` is never read). -/
def checkPagesObj (d : Doc) : Res Unit := do
  let ps ← readObjProps d.objs d.rootObjID
  match getPropByKey ps b!"Pages" with
  | none => .err .other
  | some p => do
    let _ ← readObjIDFromDictionary p.rawVal
    .ok ()

/-- `strings.TrimPrefix(s, "[")` then `strings.TrimSuffix(s, "]")` (pdf_parse.go:78-79) -/
def trimBrackets (s : Bytes) : Bytes :=
  let s := if [91].isPrefixOf s then s.drop 1 else s
  if [93].isSuffixOf s then s.take (s.length - 1) else s

/-- pdf_parse.go:75-93 `parseFloatSlice`.  `isFloat` says which texts `strconv.ParseFloat` accepts. -/
def parseFloatSlice (isFloat : Bytes → Bool) (s : Bytes) : Res (List Bytes) :=
  let parts := fields (trimBrackets (trimSpace s))
  if parts.all isFloat then .ok parts else .err .other

/-- pdf_parse.go:56-71: the loop over the pages.  A missing `/MediaBox` is a nil dereference in `valType`. -/
def pageSizesLoop (isFloat : Bytes → Bool) (objs : List Obj) : Nat → List Int → Res (List (Nat × List Bytes))
  | _, [] => .ok []
  | n, id :: t => do
    let o ← Res.ofOption (getObj objs id)
    let mb ← readProperty o.data b!"MediaBox"
    let p ← Res.ofOption mb
    if propertyType p.rawVal = .array then do
      let v ← parseFloatSlice isFloat p.rawVal
      let r ← pageSizesLoop isFloat objs (n + 1) t
      .ok ((n, v) :: r)
    else pageSizesLoop isFloat objs (n + 1) t

/-- pdf_parse.go:48-73 `parsePageSize` -/
def parsePageSize (isFloat : Bytes → Bool) (d : Doc) : Res (List (Nat × List Bytes)) := do
  let ids ← getPageObjIDs d
  pageSizesLoop isFloat d.objs 0 ids

/-- The document of a zero `PDFt`. -/
def emptyDoc : Doc := ⟨0, [], [], []⟩

/-- pdf_parse.go:13-46 `PDFParse` into `d0`: the cross-reference rows and the objects are appended to those `d0`
already holds, and the objects of *all* rows are parsed.  (The partial writes into `d0` of a failed parse are
not modelled.) -/
def pdfParse (isFloat : Bytes → Bool) (d0 : Doc) (raw : Bytes) : Res Doc := do
  let rows ← parseXref raw
  let root ← parseTrailer raw
  let xrefs := d0.xrefs ++ rows
  let os ← parseObjs raw xrefs
  let d : Doc := ⟨root, xrefs, d0.objs ++ os, []⟩
  let _ ← checkPagesObj d
  let sizes ← parsePageSize isFloat d
  .ok { d with pageSizes := sizes }

end Verif
