import Verif.Basic
/-
Specification: how a PDF reader finds the objects of a file from its last bytes (ISO 32000-1, 7.5.4 and 7.5.5).
Nothing here refers to the model of the program.
-/
namespace Verif.Spec

/-- value of a string of decimal digits -/
def decVal (s : Bytes) : Nat := s.foldl (fun a c => 10 * a + (c.toNat - 48)) 0

def isDec (c : UInt8) : Bool := 48 ≤ c.toNat && c.toNat ≤ 57

/-- A row of a cross-reference table. -/
structure Entry where
  offset : Nat
  gen : Nat
  inUse : Bool
deriving DecidableEq, Repr

/-- A row is exactly 20 bytes: ten digits, space, five digits, space, `n` or `f`, two bytes end of line. -/
def readEntry (s : Bytes) : Option Entry :=
  if s.length = 20 ∧ (s.take 10).all isDec ∧ (s.drop 10).take 1 = [32] ∧ ((s.drop 11).take 5).all isDec ∧
      (s.drop 16).take 1 = [32] ∧ s.drop 18 = [32, 10] then
    if (s.drop 17).take 1 = [110] then some ⟨decVal (s.take 10), decVal ((s.drop 11).take 5), true⟩
    else if (s.drop 17).take 1 = [102] then some ⟨decVal (s.take 10), decVal ((s.drop 11).take 5), false⟩
    else none
  else none

/-- Read `n` consecutive rows; the rest of the text follows. -/
def readEntries : Nat → Bytes → Option (List Entry × Bytes)
  | 0, s => some ([], s)
  | n + 1, s => do
    let e ← readEntry (s.take 20)
    let (es, rest) ← readEntries n (s.drop 20)
    some (e :: es, rest)

/-- The number on the line between `startxref` and the final `%%EOF`, read from the end of the file. -/
def startxref (out : Bytes) : Option Nat :=
  let r := out.reverse
  if r.take 7 = (b!"\n%%EOF\n").reverse then
    let r := r.drop 7
    let ds := r.takeWhile isDec
    if ds ≠ [] ∧ (r.drop ds.length).take 10 = (b!"startxref\n").reverse then some (decVal ds.reverse) else none
  else none

/-- A cross-reference section at the start of `s` with a single subsection `0 N`: the rows and what follows. -/
def readSection (s : Bytes) : Option (List Entry × Bytes) :=
  if s.take 8 = b!"\nxref\n0 " then
    let ds := (s.drop 8).takeWhile isDec
    let s := (s.drop 8).drop ds.length
    if ds ≠ [] ∧ s.take 2 = b!"\r\n" then readEntries (decVal ds) (s.drop 2) else none
  else none

/-- The table of a file: rows and the text after them (the trailer). -/
def readTable (out : Bytes) : Option (List Entry × Bytes) := do
  let x ← startxref out
  if x ≤ out.length then readSection (out.drop x) else none

/-- Row `i` is free and its offset names the next free row, or 0 if there is none. -/
def FreeLink (es : List Entry) (i : Nat) (e : Entry) : Prop :=
  (e.offset = 0 ∧ ∀ k f, i < k → es[k]? = some f → f.inUse = true) ∨
  (i < e.offset ∧ (∃ f, es[e.offset]? = some f ∧ f.inUse = false) ∧
    ∀ k f, i < k → k < e.offset → es[k]? = some f → f.inUse = true)

/-- The free rows form one list: row 0 is free with generation 65535 and every free row links to the next. -/
def FreeListOk (es : List Entry) : Prop :=
  (∃ e, es[0]? = some e ∧ e.inUse = false ∧ e.gen = 65535) ∧
  ∀ i e, es[i]? = some e → e.inUse = false → FreeLink es i e

/-- `s` is the decimal numeral of `n`. -/
def Numeral (s : Bytes) (n : Nat) : Prop := s ≠ [] ∧ s.all isDec = true ∧ decVal s = n

/-- At offset `off` (possibly after one end-of-line byte) the file holds indirect object `id 0` with body `body`. -/
def ObjectAt (out : Bytes) (off : Nat) (id : Nat) (body : Bytes) : Prop :=
  ∃ num, Numeral num id ∧ (b!"\n" ++ num ++ b!" 0 obj\n" ++ body ++ b!"\nendobj\n") <+: out.drop off

/-- The trailer dictionary: `/Size`, `/Root` and, if the document is protected, `/Encrypt`. -/
def TrailerAt (rest : Bytes) (size root : Nat) (enc : Option Nat) : Prop :=
  ∃ s r, Numeral s size ∧ Numeral r root ∧
    match enc with
    | none => (b!"trailer\n<<\n/Size " ++ s ++ b!"\n/Root " ++ r ++ b!" 0 R\n>>\nstartxref\n") <+: rest
    | some e => ∃ t, Numeral t e ∧
      (b!"trailer\n<<\n/Size " ++ s ++ b!"\n/Root " ++ r ++ b!" 0 R\n/Encrypt " ++ t ++
        b!" 0 R\n/ID [()()]\n>>\nstartxref\n") <+: rest

end Verif.Spec
