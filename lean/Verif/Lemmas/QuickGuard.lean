import Verif.Lemmas.Rc4
/-
Protections computed with the quick cipher.
-/
namespace Verif

/-- `setProtection` with the quick cipher -/
def quickProtection (md5 : Bytes → Bytes) (random : Bytes) (permissions : BitVec 64) (user owner : Bytes) : Res Protection := do
  let u32 := (user ++ protectionPadding).take 32
  let o ← packCip ((md5 (((if owner = [] then random else owner) ++ protectionPadding).take 32)).take 5) u32
  let key := (md5 (u32 ++ o ++ [UInt8.ofNat (192#64 ||| permissions).toNat, 0xff, 0xff, 0xff])).take 5
  let u ← packCip key protectionPadding
  .ok { uValue := u, oValue := o, pValue := (-(((192#64 ||| permissions) ^^^ 255#64) + 1#64)).toInt, key := key }

theorem setProtection_quick (md5 : Bytes → Bytes) (random : Bytes) (permissions : BitVec 64) (user owner : Bytes) :
    setProtection md5 random permissions user owner = quickProtection md5 random permissions user owner := by
  unfold setProtection generateKey createO createU quickProtection
  simp only [rc4Cip_pack]
  congr 1
  funext o
  cases packCip (List.take 5 (md5 (List.take 32 (user ++ protectionPadding) ++ o ++ [UInt8.ofNat (192#64 ||| permissions).toNat, 255, 255, 255]))) protectionPadding <;> rfl

end Verif
