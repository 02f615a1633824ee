import Verif.Store
/-
crawl.go, crawl_result.go, crawl_result_font.go, crawl_result_x_object.go and pdf_data.go:80-105: collecting the dictionaries on a path.

Iterating over a Go map visits the entries in an unspecified order: every such loop takes a `Shuffle`, and theorems hold for all of them.
-/
namespace Verif

/-- An iteration order of a map. -/
structure Shuffle where
  fn : {α : Type} → List α → List α
  perm : ∀ {α : Type} (l : List α), (fn l).Perm l

/-- the order of insertion -/
def Shuffle.id : Shuffle := ⟨fun l => l, fun _ => List.Perm.refl _⟩

instance : Inhabited Shuffle := ⟨Shuffle.id⟩

/-! ### crawl results -/

/-- crawl_result.go:10-12, 98-103: the items of a `crawlResult`.  An item holds a text, another result, or (for a number met on the path) nothing. -/
inductive Items where
  | nil
  | str (key val : Bytes) (rest : Items)
  | sub (key : Bytes) (items : Items) (rest : Items)
  | void (key : Bytes) (rest : Items)
deriving DecidableEq, Repr

/-- `append` -/
def Items.append : Items → Items → Items
  | .nil, y => y
  | .str k v r, y => .str k v (r.append y)
  | .sub k s r, y => .sub k s (r.append y)
  | .void k r, y => .void k (r.append y)

/-- crawl_result.go:57-78 `loopValOf`: the first text with the key; the first nested result met decides. -/
def Items.valOf (key : Bytes) : Items → Option Bytes
  | .nil => none
  | .str k v r => if k = key then some v else r.valOf key
  | .sub _ s _ => s.valOf key
  | .void _ r => r.valOf key

/-- crawl_result.go:41-55 `loopSetValOf` -/
def Items.setValOf (key val : Bytes) : Items → Items
  | .nil => .nil
  | .str k v r => if k = key then .str k val r else .str k v (r.setValOf key val)
  | .sub k s r => .sub k (s.setValOf key val) r
  | .void k r => .void k (r.setValOf key val)

/-- crawl_result.go:80-93 `loopCrawlResultString` -/
def Items.string : Items → Bytes
  | .nil => []
  | .str k v r => b!"/" ++ k ++ b!" " ++ (if trimSpace v ≠ [] then v ++ b!"\n" else []) ++ r.string
  | .sub k s r => b!"/" ++ k ++ b!" " ++ b!"\n\t<<" ++ s.string ++ b!">>\n" ++ r.string
  | .void k r => b!"/" ++ k ++ b!" " ++ r.string

/-- crawl.go:13: the map `results` (keys in order of insertion) -/
abbrev Results := List (Int × Items)

/-- crawl.go:16-22 `resultByObjID`: makes an empty result if there is none -/
def Results.touch (rs : Results) (id : Int) : Results := if (rs.lookup id).isSome then rs else rs ++ [(id, .nil)]

/-- `cr.items = append(cr.items, item)` for `cr = c.results[id]` -/
def Results.add (rs : Results) (id : Int) (it : Items) : Results := rs.map (fun p => if p.1 = id then (p.1, p.2.append it) else p)

/-- `cw.results[k] = v` -/
def Results.put (rs : Results) (id : Int) (v : Items) : Results :=
  if (rs.lookup id).isSome then rs.map (fun p => if p.1 = id then (id, v) else p) else rs ++ [(id, v)]

/-! ### crawling -/

/-- What a call of `next` leaves: the map, the items collected in a result that is not in the map, and the outcome. -/
abbrev CrawlOut := Results × Items × Res Unit

/-- crawl.go:77-80: the loop over the elements of an array; errors are ignored, panics are not -/
def crawlKids (objs : List Obj) (rec : Bytes → Option Int → Results → CrawlOut) : List Int → Results → Results × Res Unit
  | [], rs => (rs, .ok ())
  | id :: ids, rs =>
    match getObj objs id with
    | none => (rs, .panic)
    | some o =>
      match rec o.data (some id) (rs.touch id) with
      | (rs, _, .panic) => (rs, .panic)
      | (rs, _, .hang) => (rs, .hang)
      | (rs, _, _) => crawlKids objs rec ids rs

/-- crawl.go:54-98: the item for one entry.  `last`: there is no further key on the path; `rec` is `next` with the rest of the path. -/
def crawlItem (objs : List Obj) (key : Bytes) (last : Bool) (rec : Bytes → Option Int → Results → CrawlOut) (p : PropD) (rs : Results) : Results × Res Items :=
  if p.key ≠ key then (rs, .ok (.str p.key p.rawVal .nil))
  else
    match propertyType p.rawVal with
    | .dictionary =>
      match readObjIDFromDictionary p.rawVal with
      | .ok id =>
        match getObj objs id with
        | none => (rs, .panic)
        | some o =>
          match rec o.data (some id) (rs.touch id) with
          | (rs, _, .ok _) => (rs, .ok (.str p.key p.rawVal .nil))
          | (rs, _, .err e) => (rs, .err e)
          | (rs, _, .panic) => (rs, .panic)
          | (rs, _, .hang) => (rs, .hang)
      | .err e => (rs, .err e)
      | .panic => (rs, .panic)
      | .hang => (rs, .hang)
    | .array =>
      match readObjIDFromDictionaryArr p.rawVal with
      | .ok ids =>
        match crawlKids objs rec ids rs with
        | (rs, .panic) => (rs, .panic)
        | (rs, .hang) => (rs, .hang)
        | (rs, _) => (rs, .ok (.str p.key p.rawVal .nil))
      | .err e => (rs, .err e)
      | .panic => (rs, .panic)
      | .hang => (rs, .hang)
    | .object =>
      if last then (rs, .ok (.str p.key p.rawVal .nil))
      else
        match rec p.rawVal none rs with
        | (rs, own, .ok _) => (rs, .ok (.sub p.key own .nil))
        | (rs, _, .err e) => (rs, .err e)
        | (rs, _, .panic) => (rs, .panic)
        | (rs, _, .hang) => (rs, .hang)
    | .number => (rs, .ok (.void p.key .nil))

/-- crawl.go:53-100: the loop over the entries.  `tgt` is the result appended to: `some id` is the one of object `id`, `none` one that is
not in the map (`own`). -/
def crawlLoop (objs : List Obj) (key : Bytes) (last : Bool) (rec : Bytes → Option Int → Results → CrawlOut) (tgt : Option Int) : Props → Results → Items → CrawlOut
  | [], rs, own => (rs, own, .ok ())
  | p :: ps, rs, own =>
    match crawlItem objs key last rec p rs with
    | (rs, .ok it) =>
      match tgt with
      | some id => crawlLoop objs key last rec tgt ps (rs.add id it) own
      | none => crawlLoop objs key last rec tgt ps rs (own.append it)
    | (rs, .err e) => (rs, own, .err e)
    | (rs, .panic) => (rs, own, .panic)
    | (rs, .hang) => (rs, own, .hang)

/-- crawl.go:39-103 `next` with the rest of the path -/
def crawlNext (objs : List Obj) : List Bytes → Bytes → Option Int → Results → CrawlOut
  | [], _, _, rs => (rs, .nil, .ok ())
  | key :: path, data, tgt, rs =>
    match readProperties data with
    | .ok ps => crawlLoop objs key path.isEmpty (crawlNext objs path) tgt ps rs .nil
    | .err e => (rs, .nil, .err e)
    | .panic => (rs, .nil, .panic)
    | .hang => (rs, .nil, .hang)

/-- crawl.go:24-37 `set` and `run` -/
def crawlRun (objs : List Obj) (id : Int) (path : List Bytes) : Results × Res Unit :=
  match getObj objs id with
  | none => ([], .panic)
  | some o =>
    match crawlNext objs path o.data (some id) ([(id, .nil)]) with
    | (rs, _, r) => (rs, r)

/-- pdf_data.go:89-103: the loop over the queue.  The check of line 97 never holds, so nothing is added to the queue. -/
def pageCrawlLoop (objs : List Obj) (path : List Bytes) : List Int → Results → Res Results
  | [], rs => .ok rs
  | k :: ks, rs =>
    let s := ((rs.lookup k).getD .nil).string
    if contains b!"/Pages" s ∧ contains b!"/Parent" s then
      match crawlRun objs k path with
      | (_, .panic) => .panic
      | (_, .hang) => .hang
      | (sub, _) => pageCrawlLoop objs path ks (sub.foldl (fun r p => r.put p.1 p.2) rs)
    else pageCrawlLoop objs path ks rs

/-- pdf_data.go:80-105 `getPageCrawl`: the results (errors of the crawls are ignored) -/
def getPageCrawl (σ : Shuffle) (objs : List Obj) (root : Int) (path : List Bytes) : Res Results :=
  match crawlRun objs root (b!"Pages" :: path) with
  | (_, .panic) => .panic
  | (_, .hang) => .hang
  | (rs, _) => pageCrawlLoop objs path (σ.fn (rs.map (·.1))) rs

/-! ### font names -/

/-- crawl_result_font.go:84-88 -/
structure CrFont where
  pfx : Bytes
  idx : Int
  objID : Int
deriving DecidableEq, Repr

/-- position of the first decimal digit.  Keys read from a dictionary are encodings of characters below U+0100, of which only 0 to 9 are digits for
`unicode.IsDigit`. -/
def firstDigit : Bytes → Option Nat
  | [] => none
  | c :: t => if isDigit c then some 0 else (firstDigit t).map (· + 1)

/-- crawl_result_font.go:16-30 `splitFont`.  The underscores are removed from the name, but the position counts them. -/
def splitFont (s : Bytes) : Res (Bytes × Int) :=
  match firstDigit s with
  | none => .err .noFontIndex
  | some i =>
    let s' := removeByte 95 s
    if s'.length < i then .panic
    else
      match atoi (s'.drop i) with
      | some v => .ok (s.take i, v)
      | none => .err .atoi

/-- crawl_result_font.go:39-54: the loop over the entries -/
def crFontsOf : Props → Res (List CrFont)
  | [] => .ok []
  | p :: ps => do
    let (a, n) ← splitFont (trimSpace p.key)
    let id ← readObjIDFromDictionary p.rawVal
    let r ← crFontsOf ps
    .ok (⟨a, n, id⟩ :: r)

/-- crawl_result_font.go:32-56 `parse` -/
def parseCrFonts (data : Bytes) : Res (List CrFont) := do
  let ps ← readProperties data
  crFontsOf ps

/-- crawl_result_font.go:58-64 `String` -/
def crFontsString (l : List CrFont) : Bytes := l.flatMap (fun f => b!"/" ++ f.pfx ++ itoa f.idx ++ b!" " ++ itoa f.objID ++ b!" 0 R\n")

/-- crawl_result_font.go:74-82 `maxFontIndex` -/
def maxFontIdx (l : List CrFont) : Int := l.foldl (fun m f => if f.idx > m then f.idx else m) 0

/-! ### image names -/

/-- crawl_result_x_object.go:57-61 -/
structure CrXObj where
  chr : Bytes
  idx : Int
  objID : Int
deriving DecidableEq, Repr

/-- the class `[a-z A-Z]` -/
def isAlphaSp (b : UInt8) : Bool := (97 ≤ b && b ≤ 122) || b = 32 || (65 ≤ b && b ≤ 90)

/-- crawl_result_x_object.go:13, 24-34: the match of `([a-z A-Z]*)([0-9]*)` at the start of the key, and the number -/
def splitXObj (key : Bytes) : Option (Bytes × Int) :=
  let a := key.takeWhile isAlphaSp
  match atoi (trimSpace ((key.drop a.length).takeWhile isDigit)) with
  | some v => some (a, v)
  | none => none

/-- crawl_result_x_object.go:22-45: the loop over the entries; what was read before a failure stays (callers ignore the error) -/
def crXObjsOf : Props → List CrXObj
  | [] => []
  | p :: ps =>
    match splitXObj p.key with
    | none => []
    | some (a, n) =>
      match readObjIDFromDictionary p.rawVal with
      | .ok id => ⟨a, n, id⟩ :: crXObjsOf ps
      | _ => []

/-- crawl_result_x_object.go:15-47 `parse` -/
def parseCrXObjs (data : Bytes) : List CrXObj :=
  match readProperties data with
  | .ok ps => crXObjsOf ps
  | _ => []

/-- crawl_result_x_object.go:49-55 `String` -/
def crXObjsString (l : List CrXObj) : Bytes := l.flatMap (fun x => b!"/" ++ x.chr ++ itoa x.idx ++ b!" " ++ itoa x.objID ++ b!" 0 R")

end Verif
