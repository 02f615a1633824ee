import Verif.Crawl
/-
pdf_data.go:162-615: putting fonts, images and contents into the document.

Simplification: slicing a byte slice beyond its length panics (in Go it may be possible up to the capacity).
-/
namespace Verif

/-- `m[k] = v` for a map kept as a list in order of insertion -/
def mapPut {α : Type} (m : List (Int × α)) (k : Int) (v : α) : List (Int × α) :=
  if (m.lookup k).isSome then m.map (fun p => if p.1 = k then (k, v) else p) else m ++ [(k, v)]

/-- `for objID := range objMustReplaces { p.getObjByID(objID).data = ... }` (pdf_data.go:335-337, 399-401, 503-508); the order does not matter, the
numbers are distinct -/
def applyReplaces : List (Int × Bytes) → List Obj → Res (List Obj)
  | [], objs => .ok objs
  | (id, s) :: t, objs => do
    let objs ← setObjData objs id s
    applyReplaces t objs

/-- `"<<\n" + s + ">>\n"` -/
def wrapDict (s : Bytes) : Bytes := b!"<<\n" ++ s ++ b!">>\n"

/-! ### fonts -/

/-- pdf_data.go:576-602: the fonts of a crawl result: `none` if it has no /Font (`continue`); `arr` is what an array or number does -/
def fontsOfResult {α : Type} (objs : List Obj) (it : Items) (arr : Res α) (use : PType → Int → List CrFont → Res α) : Res (Option α) :=
  match it.valOf b!"Font" with
  | none => .ok none
  | some v =>
    match propertyType v with
    | .object => do
      let l ← parseCrFonts v
      let r ← use .object 0 l
      .ok (some r)
    | .dictionary => do
      let id ← readObjIDFromDictionary v
      let o ← Res.ofOption (getObj objs id)
      let l ← parseCrFonts o.data
      let r ← use .dictionary id l
      .ok (some r)
    | _ => do
      let r ← arr
      .ok (some r)

/-- pdf_data.go:572-615 `findMaxFontIndex` -/
def findMaxFontIndex (objs : List Obj) : List (Int × Items) → Int → Res Int
  | [], m => .ok m
  | (_, it) :: t, m => do
    let r ← fontsOfResult objs it (.err .other) (fun _ _ l => .ok (maxFontIdx l))
    match r with
    | some n => findMaxFontIndex objs t (if n > m then n else m)
    | none => findMaxFontIndex objs t m

/-- pdf_data.go:363-397: the texts to be written -/
def fontReplaces (objs : List Obj) (new : List CrFont) : List (Int × Items) → List (Int × Bytes) → Res (List (Int × Bytes))
  | [], m => .ok m
  | (objID, it) :: t, m => do
    let r ← fontsOfResult objs it (.ok m) (fun ty id l =>
      if ty = .object then .ok (mapPut m objID (it.setValOf b!"Font" (wrapDict (crFontsString (l ++ new)))).string)
      else .ok (mapPut m id (crFontsString (l ++ new))))
    fontReplaces objs new t (r.getD m)

/-- pdf_data.go:354-359: the new entries; the indexes are given in iteration order -/
def newCrFonts : Int → List Int → List CrFont
  | _, [] => []
  | m, id :: t => ⟨b!"F", m + 1, id⟩ :: newCrFonts (m + 1) t

/-- pdf_data.go:342-404 `injectFontsToPDF`.  `fontIDs`: the `fontID`s in iteration order; the result holds the new entries in the same order. -/
def injectFonts (σ : Nat → Shuffle) (d : Doc) (fontIDs : List Int) : Res (Doc × List CrFont) := do
  let rs ← getPageCrawl (σ 10) d.objs d.rootObjID [b!"Kids", b!"Resources", b!"Font"]
  let m ← findMaxFontIndex d.objs ((σ 11).fn rs) 0
  let new := newCrFonts m fontIDs
  let reps ← fontReplaces d.objs new ((σ 12).fn rs) []
  let objs ← applyReplaces (reps.map (fun p => (p.1, wrapDict p.2))) d.objs
  .ok ({ d with objs := objs }, new)

/-! ### images -/

/-- pdf_data.go:171-197: the first result with /Resources: its number, whether the resources are in the page, and the number to crawl from -/
def findResources : List (Int × Items) → Res (Option (Bool × Int))
  | [] => .ok none
  | (resID, it) :: t =>
    match it.valOf b!"Resources" with
    | none => findResources t
    | some v =>
      match readObjIDFromDictionary v with
      | .ok id => .ok (some (false, id))
      | .err .objectIDNotFound => .ok (some (true, resID))
      | .err e => .err e
      | .panic => .panic
      | .hang => .hang

/-- pdf_data.go:212-223, 231-241: the /XObject values found -/
def xobjVals (rs : List (Int × Items)) : List Bytes := rs.filterMap (fun p => p.2.valOf b!"XObject")

/-- pdf_data.go:248-257: reading the values; the name parts are those of the last entry read so far -/
def xobjScan : List Bytes → List CrXObj → Bytes → Int → List CrXObj × Bytes × Int
  | [], xs, c, n => (xs, c, n)
  | v :: vs, xs, c, n =>
    let xs := xs ++ parseCrXObjs v
    match xs.getLast? with
    | none => xobjScan vs xs c n
    | some l => xobjScan vs xs l.chr (if l.idx > n then l.idx else n)

/-- pdf_data.go:260-273: the entries of the images -/
def newCrXObjs (c : Bytes) : Int → List Int → List CrXObj
  | _, [] => []
  | n, id :: t => ⟨c, n + 1, id⟩ :: newCrXObjs c (n + 1) t

/-- pdf_data.go:288-299: add the entries whose name is not there yet -/
def mergeXObjs : List CrXObj → List CrXObj → List CrXObj
  | acc, [] => acc
  | acc, x :: t =>
    if acc.any (fun e => e.chr = x.chr ∧ e.idx = x.idx) then mergeXObjs acc t else mergeXObjs (acc ++ [x]) t

/-- pdf_data.go:277-302 -/
def xobjReplaces (xobjs : List CrXObj) : List (Int × Items) → List (Int × Bytes) → List (Int × Bytes)
  | [], m => m
  | (id, it) :: t, m =>
    match it.valOf b!"XObject" with
    | none => xobjReplaces xobjs t m
    | some old =>
      let new := mergeXObjs (parseCrXObjs old) xobjs
      xobjReplaces xobjs t (mapPut m id (it.setValOf b!"XObject" (b!"<<" ++ crXObjsString new ++ b!">>\n")).string)

/-- pdf_data.go:311-323: resources written in the page; `res[2:len(res)-2]` panics for texts shorter than four bytes -/
def embedReplaces (xobjs : List CrXObj) : List (Int × Items) → List (Int × Bytes) → Res (List (Int × Bytes))
  | [], m => .ok m
  | (id, it) :: t, m =>
    match it.valOf b!"Resources" with
    | none => embedReplaces xobjs t m
    | some v =>
      let res := trimSpace v
      if res.length < 4 then .panic
      else
        let res := (res.take (res.length - 2)).drop 2 ++ b!" /XObject <<" ++ crXObjsString xobjs ++ b!">>"
        embedReplaces xobjs t (mapPut m id (it.setValOf b!"Resources" (b!"<<" ++ res ++ b!">>\n")).string)

/-- pdf_data.go:325-331: resources in an object of their own -/
def addReplaces (xobjs : List CrXObj) : List (Int × Items) → List (Int × Bytes) → List (Int × Bytes)
  | [], m => m
  | (id, it) :: t, m => addReplaces xobjs t (mapPut m id (it.append (.str b!"XObject" (b!"<<" ++ crXObjsString xobjs ++ b!">>\n") .nil)).string)

/-- pdf_data.go:162-340 `injectImgsToPDF`.  `imgIDs`: the numbers of the image objects; the result holds the new entries in the same order. -/
def injectImgs (σ : Nat → Shuffle) (d : Doc) (imgIDs : List Int) : Res (Doc × List CrXObj) := do
  let rs ← getPageCrawl (σ 20) d.objs d.rootObjID [b!"Kids", b!"Resources"]
  match ← findResources ((σ 21).fn rs) with
  | none => .err .other
  | some (embedded, from_) => do
    let (cw, r) := crawlRun d.objs from_ [b!"XObject"]
    let _ ← r
    let vals := xobjVals cw
    let (cw, vals) ← (if vals = [] then do
        let cw2 ← getPageCrawl (σ 22) d.objs d.rootObjID [b!"Kids", b!"Resources", b!"XObject"]
        Res.ok (cw2, xobjVals cw2)
      else .ok (cw, vals))
    let found := !vals.isEmpty
    let (xs, c, n) := xobjScan ((σ 23).fn vals) [] b!"I" 0
    let new := newCrXObjs c n imgIDs
    let xobjs := xs ++ new
    let reps ← (if found then Res.ok (xobjReplaces xobjs ((σ 24).fn cw) [])
      else if embedded then
        (let (cw01, r) := crawlRun d.objs d.rootObjID [b!"Pages", b!"Kids", b!"Resources"]
        do
          let _ ← r
          embedReplaces xobjs ((σ 25).fn cw01) [])
      else .ok (addReplaces xobjs ((σ 26).fn cw) []))
    let objs ← applyReplaces (reps.map (fun p => (p.1, wrapDict p.2))) d.objs
    .ok ({ d with objs := objs }, new)

/-! ### contents -/

/-- pdf_data.go:513-543 `streamLength` -/
def streamLength (objs : List Obj) (data : Bytes) : Res Int := do
  let p ← (do
    match ← readProperty data b!"Length" with
    | some p => Res.ok p
    | none =>
      match ← readProperty data b!"Length1" with
      | some p => .ok p
      | none => .err .other)
  match propertyType p.rawVal with
  | .number => Res.orErr .atoi (atoi (trimSpace p.rawVal))
  | .dictionary => do
    let id ← readObjIDFromDictionary p.rawVal
    let o ← Res.ofOption (getObj objs id)
    Res.orErr .atoi (atoi (trimSpace o.data))
  | _ => .err .other

/-- pdf_data.go:547-570 `extractStream`; without the word "stream" the index is -1 -/
def extractStream (unzip : Bytes → Option Bytes) (data : Bytes) (length : Int) (zip : Bool) : Res Bytes :=
  let off := match index streamKw data with
    | some i => i + 6
    | none => 5
  if data.length < off then .panic
  else
    let tmp := trimSpace (data.drop off)
    if length < 0 ∨ (tmp.length : Int) < length then .panic
    else
      let tmp := tmp.take length.toNat
      if zip then Res.orErr .other (unzip tmp) else .ok tmp

/-- pdf_data.go:443-469: the number of the content object of a page, `none` if the page has none -/
def contentsID (it : Items) : Res (Option Int) :=
  match it.valOf b!"Contents" with
  | none => .ok none
  | some v =>
    match propertyType v with
    | .dictionary => do
      let id ← readObjIDFromDictionary v
      .ok (some id)
    | .array => do
      let ids ← readObjIDFromDictionaryArr v
      let id ← Res.ofOption ids.head?
      .ok (some id)
    | _ => .err .other

/-- pdf_data.go:471-492: the (decompressed) content of an object -/
def readContent (unzip : Bytes → Option Bytes) (objs : List Obj) (id : Int) : Res Bytes := do
  let o ← Res.ofOption (getObj objs id)
  let p ← readProperty o.data b!"FlateDecode"
  let len ← streamLength objs o.data
  extractStream unzip o.data len p.isSome

/-- pdf_data.go:497 -/
def contentObject (stm : Bytes) : Bytes := b!"<<\n/Length " ++ itoa stm.length ++ b!"\n>>\nstream\n" ++ stm ++ b!"endstream"

/-- pdf_data.go:430-501: the loop over the pages, `buffs k` is what was drawn on page `k`, if anything.  Only the page's own result has /Contents,
the path has one key. -/
def contentReplaces (unzip : Bytes → Option Bytes) (objs : List Obj) (buffs : Nat → Option Bytes) : Nat → List Int → List (Int × Bytes) → Res (List (Int × Bytes))
  | _, [], m => .ok m
  | k, pageID :: t, m => do
    let (rs, r) := crawlRun objs pageID [b!"Contents"]
    let _ ← r
    match ← contentsID ((rs.lookup pageID).getD .nil) with
    | none => contentReplaces unzip objs buffs (k + 1) t m
    | some id => do
      let stm ← readContent unzip objs id
      match buffs (k + 1) with
      | some b => contentReplaces unzip objs buffs (k + 1) t (mapPut m id (contentObject (stm ++ b!"\n" ++ b)))
      | none => contentReplaces unzip objs buffs (k + 1) t m

/-- pdf_data.go:409-427: what is drawn on page `k`: the streams of its contents, in order; `none` if there is no content for it -/
def pageBuff (streams : List (Int × Bytes)) (k : Nat) : Option Bytes :=
  match streams.filter (fun p => p.1 = (k : Int)) with
  | [] => none
  | l => some (l.flatMap (·.2))

/-- pdf_data.go:406-511 `injectContentToPDF`, given page number and stream of every content -/
def injectContent (unzip : Bytes → Option Bytes) (d : Doc) (streams : List (Int × Bytes)) : Res Doc := do
  let ids ← getPageObjIDs d
  let reps ← contentReplaces unzip d.objs (pageBuff streams) 0 ids []
  let objs ← applyReplaces reps d.objs
  .ok { d with objs := objs }

end Verif
