import Verif.Store
/-
pdft.go: serialisation (`toStream`, `xref`).
-/
namespace Verif

/-- pdft.go:712-716 `xrefrow`; `gen` is "65535" for free rows and "00000" otherwise, as in lines 725, 731, 733. -/
structure Row where
  offset : Nat
  free : Bool
deriving DecidableEq, Repr

/-- pdft.go:761-767 `formatXrefline` -/
def formatXrefline (n : Nat) : Bytes :=
  let s := natDigits n
  List.replicate (10 - s.length) 48 ++ s

/-- pdft.go:745: one table row -/
def rowBytes (r : Row) : Bytes :=
  formatXrefline r.offset ++ b!" " ++ (if r.free then b!"65535" else b!"00000") ++ b!" " ++
    (if r.free then b!"f" else b!"n") ++ b!" \n"

/-- pdft.go:729-741: the row loop.  `fuel` is the number of remaining values of `j` (`size + 1 - j`);
`off j` is `linelens[j]`. -/
def rowsLoop (off : Int → Option Nat) : Nat → Int → List Row → Nat → List Row
  | 0, _, rows, _ => rows
  | fuel + 1, j, rows, lastF =>
    match off j with
    | some n => rowsLoop off fuel (j + 1) (rows ++ [⟨n, false⟩]) lastF
    | none =>
      let rows1 := rows ++ [⟨0, true⟩]
      let offset := rows1.length - 1
      rowsLoop off fuel (j + 1) (rows1.modify lastF (fun r => { r with offset := offset })) offset

/-- pdft.go:724-741 -/
def xrefRows (off : Int → Option Nat) (size : Nat) : List Row := rowsLoop off size 1 [⟨0, true⟩] 0

/-- pdft.go:751-754: the part of the trailer written when protection is set -/
def encPart : Option Int → Bytes
  | some e => b!"/Encrypt " ++ itoa e ++ b!" 0 R\n" ++ b!"/ID [()()]\n"
  | none => []

/-- pdft.go:718-759 `xref`: the bytes appended to a buffer that holds `at_` bytes.
`enc` is `some encryptionObjID` exactly when protection is set. -/
def xrefBytes (off : Int → Option Nat) (at_ : Nat) (size : Nat) (rootID : Int) (enc : Option Int) : Bytes :=
  b!"\nxref\n" ++ b!"0 " ++ natDigits (size + 1) ++ b!"\r\n" ++
  (xrefRows off size).flatMap rowBytes ++
  b!"trailer\n" ++ b!"<<\n" ++ b!"/Size " ++ natDigits (size + 1) ++ b!"\n" ++
  b!"/Root " ++ itoa rootID ++ b!" 0 R\n" ++
  encPart enc ++
  b!">>\n" ++ b!"startxref\n" ++ natDigits at_ ++ b!"\n%%EOF\n"

/-- pdft.go:703-705: one object -/
def objBytes (o : Obj) : Bytes := b!"\n" ++ itoa o.objID ++ b!" 0 obj\n" ++ trimSpace o.data ++ b!"\nendobj\n"

/-- pdft.go:699-706: the object loop; the map `xrefs` is an association list, later writes first. -/
def objsLoop : List Obj → Bytes → List (Int × Nat) → Bytes × List (Int × Nat)
  | [], buf, m => (buf, m)
  | o :: t, buf, m => objsLoop t (buf ++ objBytes o) ((o.objID, buf.length) :: m)

/-- pdft.go:697 -/
def header : Bytes := b!"%PDF-1.7\n\n"

/-- pdft.go:677-710 `toStream`.  `enc` is the data of the encryption dictionary object when protection is set
(built by `EncryptionObj.Build`, model in `Crypto.lean`); it gets number `lastID + 1` and is appended. -/
def toStream (objs : List Obj) (rootID : Int) (lastID : Nat) (enc : Option Bytes) : Bytes :=
  let (objs, lastID, encID) := match enc with
    | some e => (objs ++ [⟨(lastID + 1 : Nat), e⟩], lastID + 1, some ((lastID + 1 : Nat) : Int))
    | none => (objs, lastID, none)
  let (buf, m) := objsLoop objs header []
  buf ++ xrefBytes (fun j => m.lookup j) buf.length lastID rootID encID

end Verif
