import Verif.Crypto
/-
Specification side: the standard security handler (revision 2) and literal strings, after the PDF Reference.
-/
namespace Verif.Spec
open Verif

/-- a password padded to 32 bytes (PDF Reference, Algorithm 3.2, step 1) -/
def padPassword (pw : Bytes) : Bytes :=
  (pw ++ [40, 191, 78, 94, 78, 117, 138, 65, 100, 0, 78, 86, 255, 250, 1, 8, 46, 46, 0, 182, 208, 104, 62, 128, 47, 12, 169, 254, 100, 83, 105, 122]).take 32

/-- a number as `n` bytes, low byte first (negative numbers in two's complement) -/
def leBytes : Nat → Int → Bytes
  | 0, _ => []
  | n + 1, v => UInt8.ofNat (v % 256).toNat :: leBytes n (v / 256)

/-- Algorithm 3.2: the document key from the user password, the `/O` and `/P` entries of the encryption dictionary and the first
part of the file's `/ID` -/
def docKey (md5 : Bytes → Bytes) (user o : Bytes) (p : Int) (id : Bytes) : Bytes :=
  (md5 (padPassword user ++ o ++ leBytes 4 p ++ id)).take 5

/-- Algorithm 3.1: the key of an object -/
def objKey (md5 : Bytes → Bytes) (key : Bytes) (num gen : Int) : Bytes :=
  (md5 (key ++ leBytes 3 num ++ leBytes 2 gen)).take (min 16 (key.length + 5))

/-- is a byte an octal digit -/
def isOctal (c : UInt8) : Bool := 48 ≤ c && c ≤ 55

/-- Reads a literal string, from the byte after its opening parenthesis: the bytes of the string and the rest after the closing
parenthesis (PDF Reference 3.2.3: balanced parentheses, backslash escapes, up to three octal digits, line ends become a line feed).
`depth` counts open inner parentheses; `fuel` bounds the number of steps. -/
def readLit : Nat → Nat → Bytes → Option (Bytes × Bytes)
  | 0, _, _ => none
  | _ + 1, _, [] => none
  | fuel + 1, depth, 92 :: t =>
    match t with
    | 110 :: t => (readLit fuel depth t).map (fun r => (10 :: r.1, r.2))
    | 114 :: t => (readLit fuel depth t).map (fun r => (13 :: r.1, r.2))
    | 116 :: t => (readLit fuel depth t).map (fun r => (9 :: r.1, r.2))
    | 98 :: t => (readLit fuel depth t).map (fun r => (8 :: r.1, r.2))
    | 102 :: t => (readLit fuel depth t).map (fun r => (12 :: r.1, r.2))
    | 13 :: 10 :: t => readLit fuel depth t
    | 13 :: t => readLit fuel depth t
    | 10 :: t => readLit fuel depth t
    | c :: t =>
      if isOctal c then
        let ds := (c :: t).take 3 |>.takeWhile isOctal
        let v := ds.foldl (fun a d => a * 8 + (d.toNat - 48)) 0
        (readLit fuel depth ((c :: t).drop ds.length)).map (fun r => (UInt8.ofNat v :: r.1, r.2))
      else (readLit fuel depth t).map (fun r => (c :: r.1, r.2))
    | [] => none
  | fuel + 1, depth, 40 :: t => (readLit fuel (depth + 1) t).map (fun r => (40 :: r.1, r.2))
  | _ + 1, 0, 41 :: t => some ([], t)
  | fuel + 1, depth + 1, 41 :: t => (readLit fuel depth t).map (fun r => (41 :: r.1, r.2))
  | fuel + 1, depth, 13 :: 10 :: t => (readLit fuel depth t).map (fun r => (10 :: r.1, r.2))
  | fuel + 1, depth, 13 :: t => (readLit fuel depth t).map (fun r => (10 :: r.1, r.2))
  | fuel + 1, depth, c :: t => (readLit fuel depth t).map (fun r => (c :: r.1, r.2))

end Verif.Spec
