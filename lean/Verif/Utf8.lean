import Verif.GoLib
/-
UTF-8 as used by Go's `for _, r := range s` and `string(r)`.  Runes are natural numbers.
-/
namespace Verif

/-- a continuation byte -/
def isCont (b : UInt8) : Bool := 0x80 ≤ b && b ≤ 0xBF

/-- U+FFFD -/
def runeError : Nat := 0xFFFD

/-- Go's `utf8.DecodeRune`: the first rune of `s` and the number of bytes it takes; an invalid or incomplete
sequence gives U+FFFD and one byte. -/
def decodeRune (s : Bytes) : Nat × Nat :=
  match s with
  | [] => (runeError, 0)
  | b0 :: t =>
    let x0 := b0.toNat
    if x0 < 0x80 then (x0, 1)
    else if x0 < 0xC2 then (runeError, 1)
    else if x0 < 0xE0 then
      match t with
      | b1 :: _ => if isCont b1 then ((x0 - 0xC0) * 64 + (b1.toNat - 0x80), 2) else (runeError, 1)
      | _ => (runeError, 1)
    else if x0 < 0xF0 then
      match t with
      | b1 :: b2 :: _ =>
        if isCont b1 && isCont b2 && (x0 != 0xE0 || decide (0xA0 ≤ b1)) && (x0 != 0xED || decide (b1 ≤ 0x9F)) then
          ((x0 - 0xE0) * 4096 + (b1.toNat - 0x80) * 64 + (b2.toNat - 0x80), 3)
        else (runeError, 1)
      | _ => (runeError, 1)
    else if x0 < 0xF5 then
      match t with
      | b1 :: b2 :: b3 :: _ =>
        if isCont b1 && isCont b2 && isCont b3 && (x0 != 0xF0 || decide (0x90 ≤ b1)) && (x0 != 0xF4 || decide (b1 ≤ 0x8F)) then
          ((x0 - 0xF0) * 262144 + (b1.toNat - 0x80) * 4096 + (b2.toNat - 0x80) * 64 + (b3.toNat - 0x80), 4)
        else (runeError, 1)
      | _ => (runeError, 1)
    else (runeError, 1)

/-- the runes of `for _, r := range s`; `skip` counts the remaining bytes of the current rune -/
def runesAux : Nat → Bytes → List Nat
  | _, [] => []
  | skip + 1, _ :: t => runesAux skip t
  | 0, c :: t => (decodeRune (c :: t)).1 :: runesAux ((decodeRune (c :: t)).2 - 1) t

/-- the runes of `for _, r := range s` -/
def runes (s : Bytes) : List Nat := runesAux 0 s

/-- a Unicode scalar value -/
def Scalar (r : Nat) : Prop := r < 0xD800 ∨ (0xE000 ≤ r ∧ r < 0x110000)

instance : DecidablePred Scalar := fun r => by unfold Scalar; infer_instance

def encodeScalar (r : Nat) : Bytes :=
  if r < 0x80 then [UInt8.ofNat r]
  else if r < 0x800 then [UInt8.ofNat (0xC0 + r / 64), UInt8.ofNat (0x80 + r % 64)]
  else if r < 0x10000 then [UInt8.ofNat (0xE0 + r / 4096), UInt8.ofNat (0x80 + r / 64 % 64), UInt8.ofNat (0x80 + r % 64)]
  else [UInt8.ofNat (0xF0 + r / 262144), UInt8.ofNat (0x80 + r / 4096 % 64), UInt8.ofNat (0x80 + r / 64 % 64), UInt8.ofNat (0x80 + r % 64)]

/-- Go's `string(r)` for a rune: anything that is not a scalar value becomes U+FFFD. -/
def encodeRune (r : Nat) : Bytes := if Scalar r then encodeScalar r else encodeScalar runeError

/-- a text that is valid UTF-8 -/
def ValidText (s : Bytes) : Prop := ∃ rs : List Nat, (∀ r ∈ rs, Scalar r) ∧ s = rs.flatMap encodeRune

end Verif
