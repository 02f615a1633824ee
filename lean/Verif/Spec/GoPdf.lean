import Verif.Spec.File
import Verif.Spec.Object
import Verif.Spec.Font
import Verif.GoPdf
/-
Files as `GoPdf` has to write them (ISO 32000-1, 7.5), described without reference to the functions of the model.
-/
namespace Verif.Spec
open Verif

/-- The file has one cross-reference table, of one section, which begins where the number at the end of the file says.  Object 0 is free; the row of object `k` is in use and
gives the position at which `k 0 obj` stands, followed by the body of the object and `endobj`.  `trailer` is what stands between `trailer` and `startxref`. -/
def FileHolds (out : Bytes) (bodies : List Bytes) (trailer : Bytes) : Prop :=
  ∃ pre sect n rows, out = b!"%PDF-1.7\n" ++ pre ++ b!"\nxref\n" ++ sect ++ b!"trailer\n" ++ trailer ++ b!"startxref\n" ++ n ++ b!"\n%%EOF\n" ∧
    Numeral n (pre.length + 10) ∧ SectionIs sect ((0, ⟨0, 65535, false⟩) :: rows) ∧ rows.length = bodies.length ∧
    ∀ (k : Nat) (b : Bytes), bodies[k]? = some b → ∃ off num rest, rows[k]? = some (k + 1, ⟨off, 0, true⟩) ∧ Numeral num (k + 1) ∧
      out.drop off = num ++ b!" 0 obj" ++ b ++ b!"endobj" ++ rest

/-- the objects of a file, with their numbers -/
def objsOf (bodies : List Bytes) : List Obj := bodies.zipIdx.map (fun p => ⟨(p.2 : Int) + 1, p.1⟩)

/-- the code units of a character in UTF-16 -/
def utf16 (r : Nat) : List Nat := if r < 65536 then [r] else [55296 + (r - 65536) / 1024, 56320 + (r - 65536) % 1024]

/-- a text string (7.9.2.2): a byte order mark and UTF-16 -/
def TextString (v : Val) (rs : List Nat) : Prop := ∃ h, v = .hex (b!"FEFF" ++ h) ∧ codes h = some (rs.flatMap utf16)

/-- the entries of the information dictionary and their texts -/
def infoKeys (i : GInfo) : List (Bytes × Bytes) :=
  [(b!"Author", i.author), (b!"Title", i.title), (b!"Subject", i.subject), (b!"Creator", i.creator), (b!"Producer", i.producer)]

/-- The trailer of a file of `n` objects: the number of entries of the table, the catalog, which is object 1, the dictionary of the protection, which is the last object,
and the information (empty texts are left out). -/
structure TrailerIs (n : Nat) (prot : Bool) (info : Option GInfo) (d : List (Bytes × Val)) : Prop where
  size : d.lookup b!"Size" = some (.num (n + 1 : ℕ))
  root : d.lookup b!"Root" = some (.ref 1)
  encrypt : d.lookup b!"Encrypt" = if prot then some (.ref n) else none
  noInfo : info = none → d.lookup b!"Info" = none
  info : ∀ i, info = some i → ∃ f, d.lookup b!"Info" = some (.dict f) ∧ f.map (·.1) = ((infoKeys i).filter (fun p => p.2 ≠ [])).map (·.1) ∧
    ∀ p ∈ infoKeys i, p.2 ≠ [] → ∃ v, f.lookup p.1 = some v ∧ TextString v (runes p.2)

/-! ### pages -/

/-- the object with this number -/
def objAt (bodies : List Bytes) (n : Nat) : Option Bytes := if n = 0 then none else bodies[n - 1]?

/-- the rectangle of a page -/
def MediaIs (v : Option Val) (z : GRect) : Prop := ∃ w h, Near w z.w ∧ Near h z.h ∧ v = some (.arr [.num 0, .num 0, .num w, .num h])

/-- object `n` is a stream with this content (`unzip` undoes the compression) -/
def ContentAt (unzip : Bytes → Option Bytes) (bodies : List Bytes) (n : Nat) (content : Bytes) : Prop :=
  ∃ body d data, objAt bodies n = some (b!"\n" ++ body) ∧ StreamIs body d data ∧
    (d.lookup b!"Filter" = none ∧ data = content ∨ d.lookup b!"Filter" = some (.name b!"FlateDecode") ∧ unzip data = some content)

/-- object `n` is a page of the page tree in object 2, with the resources in object 3, the size (if it has one of its own) and the content -/
def PageIs (unzip : Bytes → Option Bytes) (bodies : List Bytes) (n : Nat) (own : Option GRect) (content : Bytes) : Prop :=
  ∃ body d m, objAt bodies n = some body ∧ DictObject body d ∧ d.lookup b!"Type" = some (.name b!"Page") ∧ d.lookup b!"Parent" = some (.ref 2) ∧
    d.lookup b!"Resources" = some (.ref 3) ∧ (match own with
      | some z => MediaIs (d.lookup b!"MediaBox") z
      | none => d.lookup b!"MediaBox" = none) ∧ d.lookup b!"Contents" = some (.ref (m : ℕ)) ∧ ContentAt unzip bodies m content

/-- Object 1 is a catalog, object 2 is a page tree with these pages; `size` is the size of the pages that have no other. -/
def TreeIs (unzip : Bytes → Option Bytes) (bodies : List Bytes) (size : GRect) (pages : List (Option GRect × Bytes)) : Prop :=
  (∃ body d, objAt bodies 1 = some body ∧ DictObject body d ∧ d.lookup b!"Type" = some (.name b!"Catalog") ∧ d.lookup b!"Pages" = some (.ref 2)) ∧
  ∃ body d kids, objAt bodies 2 = some body ∧ DictObject body d ∧ d.lookup b!"Type" = some (.name b!"Pages") ∧ MediaIs (d.lookup b!"MediaBox") size ∧
    d.lookup b!"Count" = some (.num pages.length) ∧ d.lookup b!"Kids" = some (.arr (kids.map (fun k : ℕ => Val.ref k))) ∧ kids.Pairwise (· < ·) ∧
    List.Forall₂ (fun k p => PageIs unzip bodies k p.1 p.2) kids pages

/-! ### what is asked for -/

/-- does the call draw on the page? (texts and images are not considered here) -/
def drawing : GCall → Bool
  | .setLineWidth _ | .setLineType _ | .line _ _ _ _ | .rectFromLowerLeft _ _ _ _ _ | .rectFromUpperLeft _ _ _ _ _ | .oval _ _ _ _ | .curve _ _ _ _ _ _ _ _ _ |
    .setGrayFill _ | .setGrayStroke _ | .setStrokeColor _ _ _ | .setFillColor _ _ _ => true
  | _ => false

/-- the calls that are considered here: all but those that put texts or images on a page -/
def plainCall (c : GCall) : Bool :=
  match c with
  | .text _ | .cell _ _ _ | .image _ _ _ _ _ => false
  | _ => true

/-- is the call one that adds a font? -/
def addsFont : GCall → Bool
  | .addFont _ _ _ _ => true
  | _ => false

/-- The pages of a session, with what is drawn on them: a new page is added at the end, drawing goes to the last page (and nowhere if there is none). -/
def sheetStep (l : List (Option GRect × List GCall)) (c : GCall) : List (Option GRect × List GCall) :=
  match c with
  | .addPage z => l ++ [(if z.w = 0 ∧ z.h = 0 then none else some z, [])]
  | c => if drawing c then
      match l.getLast? with
      | some p => l.dropLast ++ [(p.1, p.2 ++ [c])]
      | none => []
    else l

def sheets (cs : List GCall) : List (Option GRect × List GCall) := cs.foldl sheetStep []

/-- the operator that paints a path -/
def paintOp (style : Bytes) : Bytes := if style = b!"F" then b!"f" else if style = b!"DF" ∨ style = b!"FD" then b!"B" else b!"S"

/-- a path with these operators and points is painted in the state `g` -/
def PathIs (g : GState) (op : Bytes) (segs : List (Bytes × List (ℚ × ℚ))) (m : Mark) : Prop :=
  ∃ l : List (Bytes × List (ℚ × ℚ)), List.Forall₂ (fun a b => a.1 = b.1 ∧ List.Forall₂ (fun p q => Near p.1 q.1 ∧ Near p.2 q.2) a.2 b.2) l segs ∧
    m = .path op (l.map (fun s => ⟨s.1, s.2.map (fun p => g.ctm.point p.1 p.2)⟩)) g

/-- a rectangle with the lower left corner at `x`, `y` is painted in the state `g` -/
def RectIs (g : GState) (op : Bytes) (x y w h : ℚ) (m : Mark) : Prop :=
  ∃ a b c d, Near a x ∧ Near b y ∧ Near c w ∧ Near d h ∧
    m = .path op [⟨b!"re", [g.ctm.point a b, g.ctm.point (a + c) b, g.ctm.point (a + c) (b + d), g.ctm.point a (b + d)]⟩] g

/-- a value from 0 to 1 -/
def clamp (v : ℚ) : ℚ := max 0 (min 1 v)

/-- a colour component -/
def Component (q : ℚ) (v : UInt8) : Prop := |q - (v.toNat : ℚ) / 255| ≤ 501 / 100000

/-- the curves of an oval with the centre `x`, `y` and the radii `a`, `b`; `k` is the usual distance of the control points -/
def ovalPath (x y a b : ℚ) : List (Bytes × List (ℚ × ℚ)) :=
  let k : ℚ := 55228 / 100000
  [(b!"m", [(x, y - b)]), (b!"c", [(x + k * a, y - b), (x + a, y - k * b), (x + a, y)]), (b!"c", [(x + a, y + k * b), (x + k * a, y + b), (x, y + b)]),
    (b!"c", [(x - k * a, y + b), (x - a, y + k * b), (x - a, y)]), (b!"c", [(x - a, y - k * b), (x - k * a, y - b), (x, y - b)])]

/-- What a call paints on a page of the height `H` (from the top of which the calls measure) in the state `g`, and the state after it. -/
def Drawn (upper : Upper) (H : ℚ) : GCall → GState → List Mark → GState → Prop
  | .line x1 y1 x2 y2, g, ms, g' => g' = g ∧ ∃ m, ms = [m] ∧ Stroke g x1 (H - y1) x2 (H - y2) m
  | .rectFromLowerLeft x y w h st, g, ms, g' => g' = g ∧ ∃ m, ms = [m] ∧ RectIs g (paintOp st) x (H - y) w h m
  | .rectFromUpperLeft x y w h st, g, ms, g' => g' = g ∧ ∃ m, ms = [m] ∧ RectIs g (paintOp st) x (H - y - h) w h m
  | .oval x1 y1 x2 y2, g, ms, g' => g' = g ∧ ∃ m, ms = [m] ∧ PathIs g b!"S" (ovalPath ((x1 + x2) / 2) (H - (y1 + y2) / 2) ((x2 - x1) / 2) ((y2 - y1) / 2)) m
  | .curve x0 y0 x1 y1 x2 y2 x3 y3 st, g, ms, g' => g' = g ∧ ∃ m, ms = [m] ∧
      PathIs g (paintOp (toUpper upper (trimSpace st))) [(b!"m", [(x0, H - y0)]), (b!"c", [(x1, H - y1), (x2, H - y2), (x3, H - y3)])] m
  | .setLineWidth w, g, ms, g' => ms = [] ∧ ∃ q, Near q w ∧ g' = g.set b!"w" b!"w" [.num q]
  | .setLineType t, g, ms, g' => ms = [] ∧ g' = g.set b!"d" b!"d" (if t = b!"dashed" then [.open, .num 5, .close, .num 2]
      else if t = b!"dotted" then [.open, .num 2, .num 3, .close, .num 11] else [.open, .close, .num 0])
  | .setGrayFill v, g, ms, g' => ms = [] ∧ ∃ q, Near q (clamp v) ∧ g' = g.set b!"fill" b!"g" [.num q]
  | .setGrayStroke v, g, ms, g' => ms = [] ∧ ∃ q, Near q (clamp v) ∧ g' = g.set b!"stroke" b!"G" [.num q]
  | .setFillColor r v b, g, ms, g' => ms = [] ∧ ∃ x y z, Component x r ∧ Component y v ∧ Component z b ∧ g' = g.set b!"fill" b!"rg" [.num x, .num y, .num z]
  | .setStrokeColor r v b, g, ms, g' => ms = [] ∧ ∃ x y z, Component x r ∧ Component y v ∧ Component z b ∧ g' = g.set b!"stroke" b!"RG" [.num x, .num y, .num z]
  | _, _, _, _ => False

/-- the calls one after the other -/
inductive DrawnAll (upper : Upper) (H : ℚ) : List GCall → GState → List Mark → GState → Prop
  | nil {g : GState} : DrawnAll upper H [] g [] g
  | cons {c : GCall} {cs : List GCall} {g g' g'' : GState} {ms ns : List Mark} : Drawn upper H c g ms g' → DrawnAll upper H cs g' ns g'' → DrawnAll upper H (c :: cs) g (ms ++ ns) g''

end Verif.Spec
