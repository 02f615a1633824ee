import Verif.Font
/-
Specification side of the font properties: what a reader of the written bytes sees.
-/
namespace Verif.Spec
open Verif

/-- the bytes between `<` and `>` (`ins`: we are between them) -/
def inner : Bool → Bytes → Bytes
  | _, [] => []
  | ins, c :: t =>
    if c = 60 then inner true t else if c = 62 then inner false t else if ins then c :: inner ins t else inner ins t

/-- value of a hexadecimal digit -/
def hexDigitVal (c : UInt8) : Option Nat :=
  if 48 ≤ c ∧ c ≤ 57 then some (c.toNat - 48) else if 65 ≤ c ∧ c ≤ 70 then some (c.toNat - 55) else none

/-- value of a hexadecimal number -/
def hexVal : Nat → Bytes → Option Nat
  | acc, [] => some acc
  | acc, c :: t => match hexDigitVal c with
    | some d => hexVal (acc * 16 + d) t
    | none => none

/-- two-byte codes: groups of four hexadecimal digits -/
def codes : Bytes → Option (List Nat)
  | [] => some []
  | a :: b :: c :: d :: t => match hexVal 0 [a, b, c, d], codes t with
    | some n, some l => some (n :: l)
    | _, _ => none
  | _ => none

/-- the glyph numbers a text-showing operation shows, in order -/
def shownGlyphs (content : Bytes) : Option (List Nat) := codes (inner false content)

/-- hexadecimal form of a character in UTF-16BE -/
def utf16hex (c : Nat) : Bytes :=
  if c < 0x10000 then hex4 c else hex4 (0xD800 + (c - 0x10000) / 1024) ++ hex4 (0xDC00 + (c - 0x10000) % 1024)

/-- the rest after the first occurrence of `pat` -/
def after (pat : Bytes) : Bytes → Bytes
  | [] => []
  | c :: t => if pat.isPrefixOf (c :: t) then (c :: t).drop pat.length else after pat t

/-- the strings between `<` and `>`, in order (`cur`: the part read so far of an open string) -/
def angles : Option Bytes → Bytes → List Bytes
  | _, [] => []
  | none, c :: t => if c = 60 then angles (some []) t else angles none t
  | some cur, c :: t => if c = 62 then cur :: angles none t else angles (some (cur ++ [c])) t

/-- groups of three -/
def triples : List Bytes → List (Bytes × Bytes × Bytes)
  | a :: b :: c :: t => (a, b, c) :: triples t
  | _ => []

/-- What a reader of a ToUnicode character map finds for a glyph: the hexadecimal text of the first single-glyph range of the
bfrange section that is for this glyph. -/
def toUnicode (stream : Bytes) (g : Nat) : Option Bytes :=
  ((triples (angles none (after b!" beginbfrange\n" stream))).find? (fun e => hexVal 0 e.1 = some g ∧ hexVal 0 e.2.1 = some g)).map (·.2.2)

/-- the object's /W array has exactly these (glyph, width) entries -/
def WArray (obj : Bytes) (entries : List (Nat × Nat)) : Prop :=
  ∃ pre, obj = pre ++ b!"/W [" ++ entries.flatMap (fun p => itoa p.1 ++ b!"[" ++ itoa p.2 ++ b!"]") ++ b!"]\n>>\n"

/-- Every character of the map is there once, with the glyph the font assigns to it. -/
structure FontOK (t : Ttf) (m : CharMap) : Prop where
  nodup : m.keys.Nodup
  len : m.keys.length = m.vals.length
  glyph : ∀ p ∈ m.keys.zip m.vals, charToGlyph t p.1 = .ok p.2

/-- advance width of a character, in 1/1000 of the font size -/
def runeWidth (t : Ttf) (r : Nat) : Res Nat := do
  let g ← charToGlyph t r
  glyphWidth t g

/-- the widths of the characters of a text -/
def Widths (t : Ttf) (text : Bytes) (ws : List Nat) : Prop := List.Forall₂ (fun r w => runeWidth t r = .ok w) (runes text) ws

/-- The glyph a format 4 character map assigns to the character `c`: the first segment whose end is not before `c` decides.
The word addressed through `idRangeOffset` is counted from the position of that entry in the file, where the glyph array
follows the `idRangeOffset` array. -/
def Cmap4 (t : Ttf) (c g : Nat) : Prop :=
  ∃ i s e d o, t.endCount[i]? = some e ∧ c ≤ e ∧ (∀ j < i, ∀ e', t.endCount[j]? = some e' → e' < c) ∧
    t.startCount[i]? = some s ∧ t.idDelta[i]? = some d ∧ t.idRangeOffset[i]? = some o ∧
    (c < s ∧ g = 0 ∨ s ≤ c ∧ o = 0 ∧ g = (c + d) % 65536 ∨
     s ≤ c ∧ o ≠ 0 ∧ ∃ w, (t.idRangeOffset ++ t.glyphIdArray)[i + o / 2 + (c - s)]? = some w ∧ g = if w = 0 then 0 else (w + d) % 65536)

/-- A well-formed format 4 table: the arrays have an entry for each segment, the last segment ends at 0xFFFF, and range offsets
lead into the glyph array. -/
structure Cmap4OK (t : Ttf) : Prop where
  ends : t.endCount.length = t.segCount
  starts : t.startCount.length = t.segCount
  deltas : t.idDelta.length = t.segCount
  offsets : t.idRangeOffset.length = t.segCount
  last : t.endCount.getLast? = some 0xFFFF
  inside : ∀ i s e o, t.startCount[i]? = some s → t.endCount[i]? = some e → t.idRangeOffset[i]? = some o → o ≠ 0 →
    t.segCount ≤ i + o / 2 ∧ ∀ c, s ≤ c → c ≤ e → i + o / 2 + (c - s) < t.segCount + t.glyphIdArray.length

/-- the glyph a format 12 character map assigns to `c`: through a group containing `c` (both ends included) -/
def Cmap12 (t : Ttf) (c g : Nat) : Prop := ∃ grp ∈ t.groups, grp.startCode ≤ c ∧ c ≤ grp.endCode ∧ g = c - grp.startCode + grp.glyph

/-- the groups do not overlap -/
def Cmap12OK (t : Ttf) : Prop := t.groups.Pairwise (fun a b => a.endCode < b.startCode ∨ b.endCode < a.startCode)

end Verif.Spec
