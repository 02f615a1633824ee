import Verif.GoLib
/-
pdf_obj_property_data.go and pdf_obj_properties_data.go: reading and writing dictionary entries.
-/
namespace Verif

/-- pdf_obj_property_data.go:18-21 `PDFObjPropertyData` -/
structure PropD where
  key : Bytes
  rawVal : Bytes
deriving DecidableEq, Repr

/-- pdf_obj_properties_data.go:4 `PDFObjPropertiesData` -/
abbrev Props := List PropD

/-- pdf_obj_properties_data.go:14-21 `getPropByKey`: the first entry with that key. -/
def getPropByKey (ps : Props) (key : Bytes) : Option PropD := ps.find? (fun p => p.key = key)

/-- Assignment through the pointer returned by `getPropByKey`: changes the first entry with that key.
(pdft.go:143, 201, 202) -/
def setPropByKey (key val : Bytes) : Props → Props
  | [] => []
  | p :: t => if p.key = key then { p with rawVal := val } :: t else p :: setPropByKey key val t

/-- pdf_obj_property_data.go:27-29 `setAsDictionary` -/
def refString (value revision : Int) : Bytes := itoa value ++ b!" " ++ itoa revision ++ b!" R"

/-- pdf_obj_property_data.go:31-42 `setAsDictionaryArr` with `revisions == nil` (the only use, pdft.go:202):
every revision is 0. -/
def refArrString (values : List Int) : Bytes :=
  b!"[" ++ values.flatMap (fun v => itoa v ++ b!" " ++ itoa 0 ++ b!" R ") ++ b!"]"

/-- The four values of pdf_obj_property_data.go:12-15. -/
inductive PType where
  | dictionary | object | array | number
deriving DecidableEq, Repr

/-- pdf_obj_property_data.go:56-67 `propertyType` -/
def propertyType (raw : Bytes) : PType :=
  let raw := trimSpace raw
  if raw.length > 2 ∧ raw.take 2 = b!"<<" then .object
  else if raw.length > 1 ∧ raw.take 1 = b!"[" then .array
  else if (atoi (trimSpace raw)).isSome then .number
  else .dictionary

/-- pdf_obj_property_data.go:205-222 `readObjIDFromDictionary` (the second result is always 0). -/
def readObjIDFromDictionary (str : Bytes) : Res Int :=
  let str := trimSpace str
  if str = [] then .err .objectIDNotFound
  else match splitSpace str with
    | [a, _, _] =>
      match atoi (trimSpace a) with
      | some v => .ok v
      | none => .err .atoi
    | _ => .err .objectIDNotFound

/-- Loop of pdf_obj_property_data.go:183-197: object number, revision, one ignored token.
A missing second token is an index panic (`tokens[i+1]`, line 190). -/
def readRefTokens : List Bytes → Res (List Int)
  | [] => .ok []
  | [a] => match atoi (trimSpace a) with
    | none => .err .atoi
    | some _ => .panic
  | [a, b] => match atoi (trimSpace a) with
    | none => .err .atoi
    | some v => match atoi (trimSpace b) with
      | none => .err .atoi
      | some _ => .ok [v]
  | a :: b :: _ :: t => match atoi (trimSpace a) with
    | none => .err .atoi
    | some v => match atoi (trimSpace b) with
      | none => .err .atoi
      | some _ => do
        let r ← readRefTokens t
        .ok (v :: r)

/-- pdf_obj_property_data.go:174-200 `readObjIDFromDictionaryArr` (object numbers only; callers ignore the
revisions).  On success the result is never empty, because `strings.Split` returns at least one token. -/
def readObjIDFromDictionaryArr (str : Bytes) : Res (List Int) :=
  readRefTokens (splitSpace (trimSpace (removeByte 93 (removeByte 91 str))))

/-! ### parseProps.loop, literal translation -/

/-- The three values of `status` in pdf_obj_property_data.go:129-172. -/
inductive Status where
  | none | key | val
deriving DecidableEq, Repr

/-- `p.props.at(p.propsIndex).key += r`: `propsIndex` is always the last index. -/
def appendKey (ps : Props) (r : Bytes) : Props :=
  match ps.getLast? with
  | some p => ps.dropLast ++ [{ p with key := p.key ++ r }]
  | none => ps

/-- `p.props.at(p.propsIndex).rawVal += r` -/
def appendVal (ps : Props) (r : Bytes) : Props :=
  match ps.getLast? with
  | some p => ps.dropLast ++ [{ p with rawVal := p.rawVal ++ r }]
  | none => ps

/-- pdf_obj_property_data.go:129-172 `parseProps.loop`, one fuel unit per loop iteration or call.
`i - 1` in Go followed by `i++` in the caller is kept literally.  Returns the new `i`, `status` and the
property list.  Fuel never runs out for `2 * len + 2` (theorem `loopGo_eq_run`). -/
def loopGo (str : Bytes) : Nat → Nat → Status → Int → Int → Props → Nat × Status × Props
  | 0, i, st, _, _, ps => (i, st, ps)
  | fuel + 1, i, st, count01, count02, ps =>
    match str[i]? with
    | Option.none => (i, st, ps)                                     -- i >= p.max: leave the for loop
    | some c =>
      let r := byteAsRune c
      match st with
      | .none =>
        if r = b!"/" then
          let res := loopGo str fuel (i + 1) .key 0 0 (ps ++ [⟨[], []⟩])
          loopGo str fuel (res.1 + 1) res.2.1 count01 count02 res.2.2
        else loopGo str fuel (i + 1) .none count01 count02 ps
      | .key =>
        if r = b!" " then
          let res := loopGo str fuel (i + 1) .val 0 0 ps
          loopGo str fuel (res.1 + 1) res.2.1 count01 count02 res.2.2
        else if r = b!"<" ∨ r = b!"[" then
          let res := loopGo str fuel i .val 0 0 ps
          loopGo str fuel (res.1 + 1) res.2.1 count01 count02 res.2.2
        else if r = b!"/" then (i - 1, .none, ps)
        else loopGo str fuel (i + 1) .key count01 count02 (appendKey ps r)
      | .val =>
        let count01' := if r = b!"<" then count01 + 1 else if r = b!">" then count01 - 1 else count01
        let count02' := if r = b!"[" then count02 + 1 else if r = b!"]" then count02 - 1 else count02
        if (r = b!"]" ∨ r = b!">") ∧ (count01' = 0 ∧ count02' = 0) then (i, .none, appendVal ps r)
        else if r = b!"/" ∧ (count01' = 0 ∧ count02' = 0) then (i - 1, .none, ps)
        else loopGo str fuel (i + 1) .val count01' count02' (appendVal ps r)

/-- pdf_obj_property_data.go:121-127 `parseProps.set` -/
def parseProps (str : Bytes) : Props := (loopGo str (2 * str.length + 2) 0 .none 0 0 []).2.2

/-- pdf_obj_property_data.go:100-106: white-space normalisation of the text between `<<` and `>>`. -/
def normalizeProps (tmp : Bytes) : Bytes :=
  let tmp := trimSpace tmp
  let tmp := collapseWs false tmp
  let tmp := stripWsBefore b!"/" [] tmp
  let tmp := stripWsBefore b!"[" [] tmp
  let tmp := stripWsBefore b!"]" [] tmp
  let tmp := stripWsBefore b!"<<" [] tmp
  stripWsBefore b!">>" [] tmp

/-- pdf_data.go:545 `extractStreamBytes` -/
def streamKw : Bytes := b!"stream"

/-- pdf_obj_property_data.go:79-83: the text before the first `stream`. -/
def beforeStream (rawObj : Bytes) : Bytes :=
  match index streamKw rawObj with
  | some i => rawObj.take i
  | none => rawObj

/-- pdf_obj_property_data.go:78-112 `readProperties`.  Line 87 rejects `startObjInx > endObjInx`; when
they overlap (`"<<>"`-like texts cannot, `<<` and `>>` share no character) the slice of line 100 could only
be inverted for `end < start + 2`, which is impossible for distinct characters. -/
def readProperties (rawObj : Bytes) : Res Props :=
  match index b!"<<" (beforeStream rawObj), lastIndex b!">>" (beforeStream rawObj) with
  | some s, some e =>
    if s > e then .err .other
    else .ok (parseProps (normalizeProps ((rawObj.take e).drop (s + 2))))
  | _, _ => .err .other

/-- pdf_obj_property_data.go:69-76 `readProperty`: `nil` is `none`. -/
def readProperty (rawObj key : Bytes) : Res (Option PropD) := do
  let ps ← readProperties rawObj
  .ok (getPropByKey ps key)

/-- pdf_obj_data.go:57-65 `setProperties`: the new `data` of the object. -/
def setProperties (ps : Props) : Bytes :=
  b!"<<\n" ++ ps.flatMap (fun p => b!"/" ++ p.key ++ b!" " ++ p.rawVal) ++ b!">>\n"

end Verif
