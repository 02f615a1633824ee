import Verif.Spec.GoPdf
import Verif.Spec.Crypto
/-
What a protected document of `GoPdf` has to look like: the objects of the unprotected one, with their streams enciphered, and the dictionary of the protection.
-/
namespace Verif.Spec
open Verif

/-- The second object is the first one, object `n`, protected: an object that is no stream is the same; of a stream everything before the data is the same, with the number of bytes under
`/Length`, and as many bytes stand there, which are deciphered with the key of the object to the data.  Line ends before `endstream` do not count. -/
def SealedAs (decipher : Bytes → Bytes → Res Bytes) (md5 : Bytes → Bytes) (key : Bytes) (n : Nat) (plain sealed : Bytes) : Prop :=
  (sealed = plain ∧ ¬ b!"endstream\n" <:+ plain) ∨
  ∃ x y data c e e', plain = x ++ b!"/Length " ++ itoa data.length ++ b!"\n" ++ y ++ b!">>\nstream\n" ++ data ++ e ++ b!"endstream\n" ∧
    sealed = x ++ b!"/Length " ++ itoa data.length ++ b!"\n" ++ y ++ b!">>\nstream\n" ++ c ++ e' ++ b!"endstream\n" ∧ (∀ b ∈ e ++ e', b = 10) ∧ c.length = data.length ∧
    decipher (objKey md5 key n 0) c = .ok data

/-- the dictionary of the standard security handler, revision 2, with these entries -/
def GuardIs (body : Bytes) (o u : Bytes) (p : Int) : Prop :=
  ∃ fuel r1 r2, body = b!"<<\n/Filter /Standard\n/V 1\n/R 2\n/O (" ++ r1 ∧ readLit fuel 0 r1 = some (o, b!"\n/U (" ++ r2) ∧ readLit fuel 0 r2 = some (u, b!"\n/P " ++ itoa p ++ b!"\n>>\n")

/-- The objects of a file are `plain`, protected, and after them the dictionary of the protection; with the password the key is computed from it, which the entry `/U` confirms. -/
def Unlocks (decipher : Bytes → Bytes → Res Bytes) (md5 : Bytes → Bytes) (password : Bytes) (bodies plain : List Bytes) : Prop :=
  ∃ body o u p, bodies.length = plain.length + 1 ∧ objAt bodies bodies.length = some (b!"\n" ++ body) ∧ GuardIs body o u p ∧ decipher (docKey md5 password o p []) u = .ok (padPassword []) ∧
    ∀ n b, 0 < n → objAt plain n = some b → ∃ b', objAt bodies n = some b' ∧ SealedAs decipher md5 (docKey md5 password o p []) n b b'

end Verif.Spec
