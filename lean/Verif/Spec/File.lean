import Verif.Spec.Xref
import Verif.Spec.Reopen
import Verif.Spec.StdTree
/-
Files with one cross-reference table (ISO 32000-1, 7.5), described without reference to the functions of the model (`Obj` and `XrefRow` are its data types).
-/
namespace Verif.Spec
open Verif

/-- white space up to the end of a line -/
def EndsLine (w : Bytes) : Prop := ∃ g e, w = g ++ [e] ∧ White g ∧ (e = 10 ∨ e = 13)

/-- a row of the table: 20 bytes, with one of the three ends of line (7.5.4) -/
def RowIs (s : Bytes) (e : Entry) : Prop :=
  ∃ a b eol, s = a ++ b!" " ++ b ++ b!" " ++ (if e.inUse then b!"n" else b!"f") ++ eol ∧ a.length = 10 ∧ Numeral a e.offset ∧ b.length = 5 ∧ Numeral b e.gen ∧
    (eol = b!" \n" ∨ eol = b!" \r" ∨ eol = b!"\r\n")

/-- rows one after the other, the first one for object `first` -/
inductive RowsAre : Nat → Bytes → List (Nat × Entry) → Prop
  | nil {first : Nat} : RowsAre first [] []
  | cons {first : Nat} {s t : Bytes} {e : Entry} {l : List (Nat × Entry)} : RowIs s e → RowsAre (first + 1) t l → RowsAre first (s ++ t) ((first, e) :: l)

/-- the subsections of a table, and the rows of all of them with the numbers of their objects -/
inductive SectionIs : Bytes → List (Nat × Entry) → Prop
  | nil : SectionIs [] []
  | sub {f c w r s : Bytes} {first : Nat} {l m : List (Nat × Entry)} : Numeral f first → Numeral c l.length → EndsLine w → RowsAre first r l → SectionIs s m →
      SectionIs (f ++ b!" " ++ c ++ w ++ r ++ s) (l ++ m)

/-- At this offset stands object `id`, of generation 0, with this body.  The parts of its first line are separated by one byte each, and the body has no word `endobj`. -/
def ObjIs (raw : Bytes) (off id : Nat) (body : Bytes) : Prop :=
  ∃ num w1 w2 rest, Numeral num id ∧ White [w1] ∧ White [w2] ∧ raw.drop off = num ++ [w1] ++ b!"0" ++ [w2] ++ b!"obj" ++ body ++ b!"endobj" ++ rest ∧ ¬ b!"endobj" <:+: body

/-- the objects where the rows in use say they are -/
inductive ObjsAre (raw : Bytes) : List (Nat × Entry) → List Obj → Prop
  | nil : ObjsAre raw [] []
  | free {id : Nat} {e : Entry} {l : List (Nat × Entry)} {os : List Obj} : e.inUse = false → ObjsAre raw l os → ObjsAre raw ((id, e) :: l) os
  | used {id : Nat} {e : Entry} {body : Bytes} {l : List (Nat × Entry)} {os : List Obj} : e.inUse = true → e.gen = 0 → id < 2 ^ 63 → ObjIs raw e.offset id body →
      ObjsAre raw l os → ObjsAre raw ((id, e) :: l) (⟨id, body⟩ :: os)

/-- A file with one cross-reference table with the rows `l`, a trailer with the entries `t`, and the objects `os`.  The bytes before the table (the objects) have neither the words
`trailer` and `startxref` nor texts that look like rows of a table; nor has the trailer. -/
def StdFile (raw : Bytes) (t : List (Bytes × Val)) (l : List (Nat × Entry)) (os : List Obj) : Prop :=
  ∃ pre nl w sect a x b w1 n w2 w3,
    raw = pre ++ [nl] ++ b!"xref" ++ w ++ sect ++ b!"trailer" ++ (a ++ (b!"<<" ++ x ++ b!">>") ++ b) ++ b!"startxref" ++ (w1 ++ n ++ w2 ++ b!"%%EOF" ++ w3) ∧
    (nl = 10 ∨ nl = 13) ∧ EndsLine w ∧ SectionIs sect l ∧ White a ∧ White b ∧ StdText x t ∧ t.lookup b!"Prev" = none ∧ t.lookup b!"XRefStm" = none ∧
    EndsLine w1 ∧ Numeral n (pre.length + 1) ∧ EndsLine w2 ∧ White w3 ∧ ObjsAre raw l os ∧
    ¬ b!"trailer" <:+: pre ∧ ¬ b!"startxref" <:+: pre ∧ (∀ r, RowLike r → ¬ r <:+: pre) ∧ ¬ b!"startxref" <:+: x ∧ ∀ r, RowLike r → ¬ r <:+: x

/-- what the rows say, in the form the program keeps it -/
def tableOf (l : List (Nat × Entry)) : List XrefRow := l.map (fun e => ⟨e.2.offset, e.2.gen, e.2.inUse⟩)

/-- the page has a rectangle of numbers of its own -/
def BoxIs (objs : List Obj) (id : Int) (box : List ℚ) : Prop := ∃ d, StdDict objs id d ∧ EntryIs d b!"MediaBox" (.arr (box.map .num))

end Verif.Spec
