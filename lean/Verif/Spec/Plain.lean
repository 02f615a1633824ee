import Verif.Spec.Object
import Verif.Spec.PageTree
/-
Texts of dictionaries with no comments and only simple literal strings, and what they say (ISO 32000-1, 7.2 and 7.3).
-/
namespace Verif.Spec

def hexDigit (c : UInt8) : Bool := (48 ≤ c && c ≤ 57) || (65 ≤ c && c ≤ 70) || (97 ≤ c && c ≤ 102)

/-- blank, tabulator, ends of lines -/
def blankChar (c : UInt8) : Bool := c = 9 || c = 10 || c = 13 || c = 32

/-- white space, or a visible character other than `%` and `)` -/
def simpleChar (c : UInt8) : Bool := blankChar c || (33 ≤ c && c ≤ 126 && c ≠ 37 && c ≠ 41)

/-- The byte `c` is simple where it stands, before `s`:
 - strings in parentheses have visible characters other than the brackets `[ ] < >` and `/`, and single blanks;
 - strings in angle brackets have hexadecimal digits and white space;
 - the bracket `>` comes twice unless it ends a string;
 - names are not followed by a parenthesis at once. -/
def simpleByte : Mode → UInt8 → Bytes → Bool
  | .ground, c, _ => simpleChar c
  | .word cur, c, _ => simpleChar c && (c ≠ 40 || cur.head? ≠ some 47)
  | .lit _ _ _, c, s => 32 ≤ c && c ≤ 126 && c ≠ 47 && c ≠ 91 && c ≠ 93 && c ≠ 60 && c ≠ 62 && (c ≠ 32 || s.head? ≠ some 32)
  | .hex _, c, _ => hexDigit c || blankChar c || c = 62
  | .lt, c, _ => c = 60 || hexDigit c || blankChar c || c = 62
  | .gt, c, _ => c = 62
  | .comment, _, _ => false

/-- a simple text, which ends outside of strings -/
def simpleFrom : Mode → Bytes → Bool
  | .ground, [] => true
  | .word _, [] => true
  | _, [] => false
  | m, c :: s => simpleByte m c s && simpleFrom (lexStep m c).2 s

def SimpleText (s : Bytes) : Prop := simpleFrom .ground s = true

/-- the values that stand one after the other in a text, which does not end within one -/
def Values (s : Bytes) (vs : List Val) : Prop :=
  ∃ ts, lexer .ground (s ++ b!" ") = (ts, .ground) ∧ (lexer .ground s).2 ≠ .gt ∧ ts.foldl readStep (some [(true, [])]) = some [(true, vs.reverse)]

/-- the entries of the dictionary whose text between the brackets is `s` -/
def DictText (s : Bytes) (d : List (Bytes × Val)) : Prop := ∃ vs, Values s vs ∧ pairUp vs = some d

/-- The entries the program finds for the entries of a dictionary.  A name as value is a second key without value. -/
inductive ReadAs : List (Bytes × Val) → List PropD → Prop
  | nil : ReadAs [] []
  | name {k n r r' : Bytes} {d ps} : Values r [] → Values r' [] → ReadAs d ps → ReadAs ((k, .name n) :: d) (⟨k, r⟩ :: ⟨n, r'⟩ :: ps)
  | value {k r : Bytes} {v : Val} {d ps} : (∀ n, v ≠ .name n) → Values r [v] → ReadAs d ps → ReadAs ((k, v) :: d) (⟨k, r⟩ :: ps)

/-- The words of a text after `cur`: names with their slash, other delimiters, and the longest pieces without white space and delimiters. -/
def wordsFrom : Bytes → Bytes → List Bytes
  | cur, [] => if cur = [] then [] else [cur]
  | cur, c :: s =>
    if regular c then wordsFrom (cur ++ [c]) s
    else (if cur = [] then [] else [cur]) ++ (if c = 47 then wordsFrom [47] s else if delim c then [c] :: wordsFrom [] s else wordsFrom [] s)

def words (s : Bytes) : List Bytes := wordsFrom [] s

/-- The numbers in references are written without a decimal point (7.3.10). -/
def IntRefs (s : Bytes) : Prop := ∀ (w g : Bytes) (n : Int), [w, g, b!"R"] <:+: words s → wordTok w = .num n → wordTok g = .num 0 → 46 ∉ w ∧ 46 ∉ g

end Verif.Spec
