import Verif.Basic
/-
The Go standard library functions the modelled code uses, re-implemented from their documentation.
Nothing here is project code; the places where pdft calls them are cited.
-/
namespace Verif

/-! ### strconv -/

def digit (n : Nat) : UInt8 := UInt8.ofNat (48 + n)

/-- Fuelled decimal digits; `fuel` is always taken larger than the number of digits. -/
def natDigitsAux : Nat → Nat → Bytes
  | 0, _ => []
  | fuel + 1, n => if n < 10 then [digit n] else natDigitsAux fuel (n / 10) ++ [digit (n % 10)]

/-- Decimal digits of a natural number, as printed by `%d` and `strconv.Itoa`. -/
def natDigits (n : Nat) : Bytes := natDigitsAux (n + 1) n

/-- `strconv.Itoa`, `fmt.Sprintf("%d", _)` (pdft.go:201, 703, 723; pdf_obj_property_data.go:28, 38). -/
def itoa : Int → Bytes
  | Int.ofNat n => natDigits n
  | Int.negSucc n => 45 :: natDigits (n + 1)

def isDigit (b : UInt8) : Bool := 48 ≤ b && b ≤ 57

/-- Value of a digit string, `none` when it contains a non-digit. -/
def digitsVal : Nat → Bytes → Option Nat
  | acc, [] => some acc
  | acc, c :: t => if isDigit c then digitsVal (acc * 10 + (c.toNat - 48)) t else none

/-- Non-empty digit string. -/
def parseNat : Bytes → Option Nat
  | [] => none
  | s => digitsVal 0 s

/-- `strconv.Atoi` on a 64-bit platform: optional sign, at least one decimal digit, int64 range
(pdf_obj_property_data.go:62, 186, 190, 217; xref_data.go:23, 28; pdf_data.go:531, 538, 622). -/
def atoi (s : Bytes) : Option Int :=
  let r : Option Int :=
    match s with
    | 45 :: t => (parseNat t).map (fun (n : Nat) => - (n : Int))
    | 43 :: t => (parseNat t).map (fun (n : Nat) => (n : Int))
    | t => (parseNat t).map (fun (n : Nat) => (n : Int))
  match r with
  | some v => if - 9223372036854775808 ≤ v ∧ v ≤ 9223372036854775807 then some v else none
  | none => none

/-! ### strings / bytes -/

/-- `bytes.Index`, `strings.Index`: offset of the first occurrence. -/
def index (pat : Bytes) : Bytes → Option Nat
  | [] => if pat.isEmpty then some 0 else none
  | c :: t => if pat.isPrefixOf (c :: t) then some 0 else (index pat t).map (· + 1)

/-- `strings.LastIndex`, `bytes.LastIndex`: offset of the last occurrence. -/
def lastIndex (pat : Bytes) : Bytes → Option Nat
  | [] => if pat.isEmpty then some 0 else none
  | c :: t =>
    match lastIndex pat t with
    | some i => some (i + 1)
    | none => if pat.isPrefixOf (c :: t) then some 0 else none

/-- `strings.Contains` -/
def contains (pat s : Bytes) : Bool := (index pat s).isSome

/-- UTF-8 encodings of the characters `unicode.IsSpace` accepts.  `strings.TrimSpace` decodes a rune at
each end; a rune is a space exactly when the text starts (resp. ends) with one of these byte sequences. -/
def spaceSeqs : List Bytes :=
  [ [0x20], [0x09], [0x0A], [0x0B], [0x0C], [0x0D],
    [0xC2, 0x85], [0xC2, 0xA0], [0xE1, 0x9A, 0x80],
    [0xE2, 0x80, 0x80], [0xE2, 0x80, 0x81], [0xE2, 0x80, 0x82], [0xE2, 0x80, 0x83], [0xE2, 0x80, 0x84],
    [0xE2, 0x80, 0x85], [0xE2, 0x80, 0x86], [0xE2, 0x80, 0x87], [0xE2, 0x80, 0x88], [0xE2, 0x80, 0x89],
    [0xE2, 0x80, 0x8A], [0xE2, 0x80, 0xA8], [0xE2, 0x80, 0xA9], [0xE2, 0x80, 0xAF], [0xE2, 0x81, 0x9F],
    [0xE3, 0x80, 0x80] ]

/-- Length of the space character `s` starts with, given the admissible encodings. -/
def leadingSpace (seqs : List Bytes) (s : Bytes) : Nat :=
  match seqs.find? (fun q => q.isPrefixOf s) with
  | some q => q.length
  | none => 0

/-- Remove leading spaces (`skip` counts the remaining bytes of the space being removed). -/
def trimLeftAux (seqs : List Bytes) : Nat → Bytes → Bytes
  | _, [] => []
  | skip + 1, _ :: t => trimLeftAux seqs skip t
  | 0, c :: t =>
    match leadingSpace seqs (c :: t) with
    | 0 => c :: t
    | n + 1 => trimLeftAux seqs n t

def trimLeftSpace (s : Bytes) : Bytes := trimLeftAux spaceSeqs 0 s

def trimRightSpace (s : Bytes) : Bytes :=
  (trimLeftAux (spaceSeqs.map List.reverse) 0 s.reverse).reverse

/-- `strings.TrimSpace`, `bytes.TrimSpace`. -/
def trimSpace (s : Bytes) : Bytes := trimRightSpace (trimLeftSpace s)

/-- `strings.Split(s, " ")` (pdf_obj_property_data.go:179, 212; xref_data.go:18). -/
def splitSpace : Bytes → List Bytes
  | [] => [[]]
  | c :: t =>
    if c = 0x20 then [] :: splitSpace t
    else match splitSpace t with
      | [] => [[c]]
      | h :: r => (c :: h) :: r

/-- `strings.Fields`: maximal runs of non-space characters.  `cur` is the current field (reversed),
`skip` the remaining bytes of a multi-byte space. -/
def fieldsAux : Nat → Bytes → Bytes → List Bytes
  | _, cur, [] => if cur.isEmpty then [] else [cur.reverse]
  | skip + 1, cur, _ :: t => fieldsAux skip cur t
  | 0, cur, c :: t =>
    match leadingSpace spaceSeqs (c :: t) with
    | 0 => fieldsAux 0 (c :: cur) t
    | n + 1 => if cur.isEmpty then fieldsAux n [] t else cur.reverse :: fieldsAux n [] t

/-- `strings.Fields` (pdf_data.go:618, pdf_parse.go:82). -/
def fields (s : Bytes) : List Bytes := fieldsAux 0 [] s

/-- `strings.Replace(s, string(c), "", -1)` for a single ASCII byte. -/
def removeByte (c : UInt8) (s : Bytes) : Bytes := s.filter (· ≠ c)

/-- `strings.Replace(s, string(c), r, -1)` for a single ASCII byte. -/
def replaceByte (c : UInt8) (r : Bytes) (s : Bytes) : Bytes := s.flatMap (fun b => if b = c then r else [b])

/-- `string(b)` for a byte `b`: the UTF-8 encoding of the code point `b`
(pdf_obj_property_data.go:133). -/
def byteAsRune (b : UInt8) : Bytes :=
  if b < 0x80 then [b] else [(0xC0 : UInt8) ||| (b >>> 6), (0x80 : UInt8) ||| (b &&& 0x3F)]

/-- the class `[\r\n\t ]` of pdf_obj_property_data.go:93-98 -/
def isWs (b : UInt8) : Bool := b = 0x20 || b = 0x0A || b = 0x0D || b = 0x09

/-- `regexp.MustCompile("[\r\n\t ]+").ReplaceAllString(_, " ")` (pdf_obj_property_data.go:98, 101). -/
def collapseWs : Bool → Bytes → Bytes
  | _, [] => []
  | inRun, c :: t =>
    if isWs c then (if inRun then collapseWs true t else 0x20 :: collapseWs true t)
    else c :: collapseWs false t

/-- `regexp.MustCompile("[\r\n\t ]+" + pat).ReplaceAllString(_, pat)` for a `pat` that does not start with
white space (pdf_obj_property_data.go:93-97, 102-106).  `pend` is the white space run just read. -/
def stripWsBefore (pat : Bytes) : Bytes → Bytes → Bytes
  | pend, [] => pend
  | pend, c :: t =>
    if isWs c then stripWsBefore pat (pend ++ [c]) t
    else if pat.isPrefixOf (c :: t) then c :: stripWsBefore pat [] t
    else pend ++ (c :: stripWsBefore pat [] t)

end Verif
