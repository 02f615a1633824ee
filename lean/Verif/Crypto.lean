import Verif.GoLib
/-
Protection: minigopdf/pdf_protection.go, minigopdf/encryption_obj.go, pdf_obj_data.go `encrypt`.

Simplifications: MD5 (crypto/md5) is a parameter; RC4 (crypto/rc4, a library) is written out.  The random owner password
(pdf_protection.go:121-129) is a parameter.  Go's `int` is a 64-bit word.
-/
namespace Verif

/-! ### RC4 -/

/-- crypto/rc4 `NewCipher`: key schedule; `n` steps left, starting at step `i` -/
def rc4Init (key : Bytes) : Nat → Nat → Nat → List Nat → List Nat
  | 0, _, _, s => s
  | n + 1, i, j, s =>
    let j := (j + s.getD i 0 + (key.getD (i % key.length) 0).toNat) % 256
    rc4Init key n (i + 1) j ((s.set i (s.getD j 0)).set j (s.getD i 0))

/-- crypto/rc4 `XORKeyStream` -/
def rc4Run : Nat → Nat → List Nat → Bytes → Bytes
  | _, _, _, [] => []
  | i, j, s, b :: t =>
    let i := (i + 1) % 256
    let x := s.getD i 0
    let j := (j + x) % 256
    let y := s.getD j 0
    let s := (s.set i y).set j x
    (b ^^^ UInt8.ofNat (s.getD ((x + y) % 256) 0)) :: rc4Run i j s t

/-- pdf_obj_data.go:97-105 and minigopdf/pdf_protection.go:144-152 `rc4Cip`: a key of 1 to 256 bytes is required -/
def rc4Cip (key src : Bytes) : Res Bytes :=
  if key.length < 1 ∨ 256 < key.length then .err .other
  else .ok (rc4Run 0 0 (rc4Init key 256 0 0 (List.range 256)) src)

/-! ### pdf_protection.go -/

/-- pdf_protection.go:23-26 -/
def protectionPadding : Bytes :=
  [0x28, 0xBF, 0x4E, 0x5E, 0x4E, 0x75, 0x8A, 0x41, 0x64, 0x00, 0x4E, 0x56, 0xFF, 0xFA, 0x01, 0x08,
   0x2E, 0x2E, 0x00, 0xB6, 0xD0, 0x68, 0x3E, 0x80, 0x2F, 0x0C, 0xA9, 0xFE, 0x64, 0x53, 0x69, 0x7A]

/-- pdf_protection.go:29-36 -/
structure Protection where
  uValue : Bytes
  oValue : Bytes
  pValue : Int
  key : Bytes
deriving DecidableEq, Repr

/-- pdf_protection.go:88-98 `createOValue` -/
def createO (md5 : Bytes → Bytes) (user owner : Bytes) : Res Bytes := rc4Cip ((md5 owner).take 5) user

/-- pdf_protection.go:100-119 `createUValue`: the key and the entry -/
def createU (md5 : Bytes → Bytes) (user o : Bytes) (protection : BitVec 64) : Res (Bytes × Bytes) := do
  let key := (md5 (user ++ o ++ [UInt8.ofNat protection.toNat, 0xff, 0xff, 0xff])).take 5
  let u ← rc4Cip key protectionPadding
  .ok (key, u)

/-- pdf_protection.go:51-73 `generateEncryptionKey` -/
def generateKey (md5 : Bytes → Bytes) (user owner : Bytes) (protection : BitVec 64) : Res Protection := do
  let user := (user ++ protectionPadding).take 32
  let owner := (owner ++ protectionPadding).take 32
  let o ← createO md5 user owner
  let (key, u) ← createU md5 user o protection
  .ok { uValue := u, oValue := o, pValue := (-((protection ^^^ 255#64) + 1#64)).toInt, key := key }

/-- pdf_protection.go:43-49 `setProtection` (also pdft.go:770-782); `random` is the generated owner password -/
def setProtection (md5 : Bytes → Bytes) (random : Bytes) (permissions : BitVec 64) (user owner : Bytes) : Res Protection :=
  generateKey md5 user (if owner = [] then random else owner) (192#64 ||| permissions)

/-- pdf_protection.go:136-142 `objectkey` -/
def objectKey (md5 : Bytes → Bytes) (key : Bytes) (n : Int) : Bytes :=
  let v := (n % 4294967296).toNat
  (md5 (key ++ [UInt8.ofNat v, UInt8.ofNat (v / 256), UInt8.ofNat (v / 65536), 0, 0])).take 10

/-! ### encryption_obj.go -/

/-- encryption_obj.go:41-48 `escape` -/
def escape (b : Bytes) : Bytes :=
  replaceByte 13 [92, 114] (replaceByte 41 [92, 41] (replaceByte 40 [92, 40] (replaceByte 92 [92, 92] b)))

/-- encryption_obj.go:29-39 `build` -/
def encBuild (p : Protection) : Bytes :=
  b!"<<\n/Filter /Standard\n/V 1\n/R 2\n/O (" ++ escape p.oValue ++ b!")\n/U (" ++ escape p.uValue ++ b!")\n/P " ++ itoa p.pValue ++ b!"\n>>\n"

/-! ### pdf_obj_data.go -/

/-- `bytes.Trim(b, "\r\n")` -/
def trimCRLF (b : Bytes) : Bytes :=
  ((b.dropWhile (fun c => c = 13 || c = 10)).reverse.dropWhile (fun c => c = 13 || c = 10)).reverse

/-- pdf_obj_data.go:67-95 `encrypt`; the second trimming (line 79) removes nothing more -/
def encrypt (md5 : Bytes → Bytes) (key : Bytes) (objID : Int) (data : Bytes) : Res Bytes :=
  match index b!"stream" data with
  | none => .ok data
  | some start =>
    match lastIndex b!"endstream" data with
    | none => .panic
    | some stop =>
      if stop < start + 6 then .panic
      else do
        let body := trimCRLF ((data.take stop).drop (start + 6))
        let c ← rc4Cip (objectKey md5 key objID) body
        .ok (data.take start ++ b!"stream" ++ [10] ++ c ++ [10] ++ b!"endstream")

end Verif
