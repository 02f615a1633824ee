import Verif.Spec.Crypto
import Verif.Spec.PageTree
/-
What protection makes of an object.
-/
namespace Verif.Spec
open Verif

/-- a line end byte -/
def Eol (c : UInt8) : Prop := c = 13 ∨ c = 10

/-- The second object is the first one, protected: one without the word `stream` is the same; otherwise everything before the stream is the same, and the
bytes between `stream` and a line feed, and a line feed and `endstream`, are deciphered with the key of the object to the bytes of the stream, except for
line ends around them. -/
structure Protected (decipher : Bytes → Bytes → Res Bytes) (md5 : Bytes → Bytes) (key : Bytes) (o o' : Obj) : Prop where
  number : o'.objID = o.objID
  plain : ¬ b!"stream" <:+: o.data → o'.data = o.data
  stream : b!"stream" <:+: o.data → ∃ head lead s trail tail c, o.data = head ++ b!"stream" ++ (lead ++ s ++ trail) ++ b!"endstream" ++ tail ∧
    ¬ b!"stream" <:+: head ∧ ¬ b!"endstream" <:+: tail ∧ (∀ c ∈ lead, Eol c) ∧ (∀ c ∈ trail, Eol c) ∧ (∀ c ∈ s.head?, ¬ Eol c) ∧ (∀ c ∈ s.getLast?, ¬ Eol c) ∧
    o'.data = head ++ b!"stream\n" ++ c ++ b!"\nendstream" ∧ c.length = s.length ∧ decipher (objKey md5 key o.objID 0) c = .ok s

/-- an object that can be protected: if the word `stream` occurs, then `endstream` occurs after it -/
def Protectable (data : Bytes) : Prop := b!"stream" <:+: data → ∃ head body tail, data = head ++ b!"stream" ++ body ++ b!"endstream" ++ tail

end Verif.Spec
