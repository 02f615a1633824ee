import Verif.Spec.Paint
import Verif.Spec.Image
/-
A reader of objects (ISO 32000-1, 7.3): values, dictionaries, streams, and the samples of an image.
-/
namespace Verif.Spec

inductive Val where
  | num (q : ℚ)
  | name (n : Bytes)
  | lit (s : Bytes)
  | hex (s : Bytes)
  | word (w : Bytes)
  /-- a reference to the object with this number (and generation 0) -/
  | ref (n : Int)
  | arr (l : List Val)
  | dict (l : List (Bytes × Val))

/-- keys and values -/
def pairUp : List Val → Option (List (Bytes × Val))
  | [] => some []
  | .name k :: v :: t => (pairUp t).map ((k, v) :: ·)
  | _ => none

/-- What is open while reading: for each bracket whether it belongs to a dictionary, and the values read since, the last one first. -/
def readStep : Option (List (Bool × List Val)) → Lexeme → Option (List (Bool × List Val))
  | some ((b, l) :: r), .num q => some ((b, .num q :: l) :: r)
  | some ((b, l) :: r), .name n => some ((b, .name n :: l) :: r)
  | some ((b, l) :: r), .lit s => some ((b, .lit s :: l) :: r)
  | some ((b, l) :: r), .hex s => some ((b, .hex s :: l) :: r)
  | some ((b, l) :: r), .op w =>
    if w = b!"R" then
      match l with
      | .num g :: .num n :: l => if g = 0 ∧ n.den = 1 then some ((b, .ref n.num :: l) :: r) else none
      | _ => none
    else some ((b, .word w :: l) :: r)
  | some r, .open => some ((false, []) :: r)
  | some r, .dictOpen => some ((true, []) :: r)
  | some ((false, l) :: (b, m) :: r), .close => some ((b, .arr l.reverse :: m) :: r)
  | some ((true, l) :: (b, m) :: r), .dictClose => (pairUp l.reverse).map (fun d => (b, .dict d :: m) :: r)
  | _, _ => none

/-- the value these tokens are -/
def valueOfToks (ts : List Lexeme) : Option Val :=
  match ts.foldl readStep (some [(false, [])]) with
  | some [(false, [v])] => some v
  | _ => none

/-- the bytes are this value -/
def ReadsVal (s : Bytes) (v : Val) : Prop := ∃ ts, lexer .ground s = (ts, .ground) ∧ valueOfToks ts = some v

/-- a dictionary in which no key occurs twice -/
def DictObject (data : Bytes) (d : List (Bytes × Val)) : Prop := ReadsVal data (.dict d) ∧ (d.map (·.1)).Nodup

/-- a stream: a dictionary, which gives the length, and that many bytes -/
def StreamIs (data : Bytes) (d : List (Bytes × Val)) (body : Bytes) : Prop :=
  ∃ head eol, DictObject head d ∧ data = head ++ b!"stream\n" ++ body ++ eol ++ b!"endstream\n" ∧ (eol = [] ∨ eol = b!"\n") ∧
    d.lookup b!"Length" = some (.num body.length)

/-! ### images -/

/-- the number in an entry -/
def natEntry (d : List (Bytes × Val)) (k : Bytes) : Option Nat :=
  match d.lookup k with
  | some (.num q) => if q.den = 1 ∧ 0 ≤ q.num then some q.num.toNat else none
  | _ => none

/-- the name in an entry -/
def nameEntry (d : List (Bytes × Val)) (k : Bytes) : Option Bytes :=
  match d.lookup k with
  | some (.name n) => some n
  | _ => none

/-- components of a colour in a colour space -/
def components (cs : Bytes) : Option Nat :=
  if cs = b!"DeviceGray" then some 1 else if cs = b!"DeviceRGB" then some 3 else if cs = b!"DeviceCMYK" then some 4 else none

/-- What a viewer finds for component `k` of the pixel in column `x` and row `r` of an image compressed with FlateDecode and PNG predictors, with 8 bits per component.
Rows and columns outside of the image have no value. -/
def imageSample (unzip : Bytes → Option Bytes) (d : List (Bytes × Val)) (body : Bytes) (r x k : Nat) : Option UInt8 := do
  let w ← natEntry d b!"Width"
  let h ← natEntry d b!"Height"
  let cs ← nameEntry d b!"ColorSpace"
  let n ← components cs
  let f ← nameEntry d b!"Filter"
  let z ← unzip body
  match d.lookup b!"DecodeParms" with
  | some (.dict p) =>
    let pred ← natEntry p b!"Predictor"
    if hn : 0 < n then
      if r < h ∧ x < w ∧ k < n ∧ f = b!"FlateDecode" ∧ 10 ≤ pred ∧ natEntry d b!"BitsPerComponent" = some 8 ∧ natEntry p b!"BitsPerComponent" = some 8 ∧
          natEntry p b!"Colors" = some n ∧ natEntry p b!"Columns" = some w ∧ (1 + n * w) * h ≤ z.length then some (sample n hn w z r x k)
      else none
    else none
  | _ => none

end Verif.Spec
