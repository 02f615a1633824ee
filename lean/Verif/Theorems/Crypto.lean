import Verif.Lemmas.Crypto
/-
C33-C36: encrypted streams, password entries, escaped strings.
-/
namespace Verif
open Spec

/-! ### C33 -/

theorem ofNat_mod (n : Nat) : UInt8.ofNat (n % 256) = UInt8.ofNat n := by
  apply UInt8.toNat_inj.1
  simp

theorem objectKey_spec (md5 : Bytes → Bytes) {key : Bytes} (hk : key.length = 5) (n : Int) : objectKey md5 key n = objKey md5 key n 0 := by
  unfold objectKey objKey leBytes leBytes leBytes leBytes
  simp only [hk]
  have e0 : UInt8.ofNat (n % 4294967296).toNat = UInt8.ofNat (n % 256).toNat := by
    rw [← ofNat_mod (n % 4294967296).toNat]; congr 1; omega
  have e1 : UInt8.ofNat ((n % 4294967296).toNat / 256) = UInt8.ofNat (n / 256 % 256).toNat := by
    rw [← ofNat_mod ((n % 4294967296).toNat / 256)]; congr 1; omega
  have e2 : UInt8.ofNat ((n % 4294967296).toNat / 65536) = UInt8.ofNat (n / 256 / 256 % 256).toNat := by
    rw [← ofNat_mod ((n % 4294967296).toNat / 65536)]; congr 1; omega
  rw [e0, e1, e2]
  simp

/-- C33: the body of an object `head stream body endstream tail` is replaced by a cipher text that RC4 with the object's key (PDF
Reference, Algorithm 3.1) turns back into the body without the line ends around it; the part before the stream is kept. -/
theorem C33_stream_decrypts {md5 : Bytes → Bytes} (hmd5 : ∀ x, (md5 x).length = 16) {key : Bytes} (hk : key.length = 5) (objID : Int)
    {head lead s trail tail : Bytes} (hh : ¬ b!"stream" <:+: head) (ht : ¬ b!"endstream" <:+: tail)
    (h1 : ∀ c ∈ lead, isEol c) (h2 : ∀ c ∈ trail, isEol c) (h3 : ∀ c ∈ s.head?, ¬ isEol c) (h4 : ∀ c ∈ s.getLast?, ¬ isEol c) :
    ∃ c, encrypt md5 key objID (head ++ b!"stream" ++ (lead ++ s ++ trail) ++ b!"endstream" ++ tail) = .ok (head ++ b!"stream\n" ++ c ++ b!"\nendstream") ∧
      c.length = s.length ∧ rc4Cip (objKey md5 key objID 0) c = .ok s := by
  have hkl : (objKey md5 key objID 0).length = 10 := by
    unfold objKey; rw [List.length_take, hmd5, hk]; rfl
  obtain ⟨c, e1, e2, e3⟩ := rc4Cip_spec (key := objKey md5 key objID 0) (by omega) (by omega) s
  refine ⟨c, ?_, e2, e3⟩
  have i1 : index b!"stream" (head ++ b!"stream" ++ (lead ++ s ++ trail) ++ b!"endstream" ++ tail) = some head.length := by
    have := index_first borderless_stream hh ((lead ++ s ++ trail) ++ b!"endstream" ++ tail)
    rw [← this]; simp only [List.append_assoc]
  have i2 : lastIndex b!"endstream" (head ++ b!"stream" ++ (lead ++ s ++ trail) ++ b!"endstream" ++ tail) =
      some (head ++ b!"stream" ++ (lead ++ s ++ trail)).length := by
    have := lastIndex_last (by decide) borderless_endstream ht (head ++ b!"stream" ++ (lead ++ s ++ trail))
    rw [← this]; simp only [List.append_assoc]
  have d1 : ((head ++ b!"stream" ++ (lead ++ s ++ trail) ++ b!"endstream" ++ tail).take (head ++ b!"stream" ++ (lead ++ s ++ trail)).length).drop
      (head.length + 6) = lead ++ s ++ trail := by
    rw [List.append_assoc _ b!"endstream" tail, List.take_left]
    have : head.length + 6 = (head ++ b!"stream").length := by rw [List.length_append]; rfl
    rw [this, List.drop_left]
  have d2 : (head ++ b!"stream" ++ (lead ++ s ++ trail) ++ b!"endstream" ++ tail).take head.length = head := by
    simp only [List.append_assoc, List.take_left]
  unfold encrypt
  simp only [i1, i2]
  rw [if_neg (by simp only [List.length_append]; simp), d1, d2, trimCRLF_eq h1 h2 h3 h4, objectKey_spec md5 hk, e1]
  simp [List.append_assoc]

/-- C33: objects without a stream are unchanged. -/
theorem C33_no_stream_partial (md5 : Bytes → Bytes) (key : Bytes) (objID : Int) {data : Bytes} (h : ¬ b!"stream" <:+: data) :
    encrypt md5 key objID data = .ok data := by
  unfold encrypt
  rw [(index_none_iff (by simp)).2 h]

-- an object as the library writes it
example : ¬ b!"stream" <:+: b!"<<\n/Length 5\n>>\n" ∧ ¬ b!"endstream" <:+: ([] : Bytes) ∧ (∀ c ∈ ([10] : Bytes), isEol c) ∧
    (∀ c ∈ b!"BT ET".head?, ¬ isEol c) ∧ (∀ c ∈ b!"BT ET".getLast?, ¬ isEol c) := by
  unfold isEol; exact ⟨by decide, by decide, by decide, by decide, by decide⟩
-- RC4 agrees with a published test vector
example : rc4Cip b!"Key" b!"Plaintext" = .ok [0xBB, 0xF3, 0x16, 0xE8, 0xD9, 0x40, 0xAF, 0x0A, 0xD3] := by decide +kernel

/-- An object that mentions the word `stream` outside a stream makes saving with protection crash (any key, any number). -/
theorem C33_refuted_word_stream (md5 : Bytes → Bytes) (key : Bytes) (objID : Int) : ∃ data : Bytes, ¬ b!"endstream" <:+: data ∧
    encrypt md5 key objID data = .panic := ⟨b!"<< /Title (A stream) >>", by decide, rfl⟩

/-! ### C34 -/

/-- `n` bytes of stream data follow `stream` and a line feed, and then comes `endstream`, possibly after a line feed (what a reader that
trusts `/Length n` expects) -/
def Spec.StreamAt (data : Bytes) (n : Nat) : Prop :=
  ∃ head s eol tail, ¬ b!"stream" <:+: head ∧ ¬ b!"endstream" <:+: tail ∧ data = head ++ b!"stream\n" ++ s ++ eol ++ b!"endstream" ++ tail ∧
    (eol = [] ∨ eol = [10]) ∧ s.length = n

theorem append_right_len {α : Type} {a b c d : List α} (h : a ++ b = c ++ d) (hl : a.length = c.length) : a = c ∧ b = d :=
  List.append_inj h hl

/-- C34 (for streams that neither begin nor end with a line end): the length of the stream is unchanged. -/
theorem C34_length_kept_partial {md5 : Bytes → Bytes} (hmd5 : ∀ x, (md5 x).length = 16) {key : Bytes} (hk : key.length = 5) (objID : Int)
    {head s tail : Bytes} (hh : ¬ b!"stream" <:+: head) (ht : ¬ b!"endstream" <:+: tail) (h3 : ∀ c ∈ s.head?, ¬ isEol c)
    (h4 : ∀ c ∈ s.getLast?, ¬ isEol c) : ∃ data', encrypt md5 key objID (head ++ b!"stream\n" ++ s ++ b!"\nendstream" ++ tail) = .ok data' ∧
      (∃ c, data' = head ++ b!"stream\n" ++ c ++ b!"\nendstream" ∧ c.length = s.length) ∧ StreamAt data' s.length := by
  obtain ⟨c, e1, e2, _⟩ := C33_stream_decrypts hmd5 hk objID (lead := [10]) (trail := [10]) hh ht (by simp [isEol]) (by simp [isEol]) h3 h4
  refine ⟨_, ?_, ⟨c, rfl, e2⟩, ⟨head, c, [10], [], hh, by decide, by simp, Or.inr rfl, e2⟩⟩
  rw [← e1]
  simp [List.append_assoc]

/-- C34 is violated for streams that end with a line end, as the library's own content streams do (pdf_data.go:498-505): for every key
the encrypted stream is shorter than the stream was, while the declared length is kept, so that it is not the length of the stream. -/
theorem C34_refuted_line_end (md5 : Bytes → Bytes) (hmd5 : ∀ x, (md5 x).length = 16) (key : Bytes) (hk : key.length = 5) (objID : Int) :
    ∃ data data' c, data = b!"<<\n/Length 7\n>>\nstream\nBT ET\r\nendstream" ∧ StreamAt data 7 ∧ encrypt md5 key objID data = .ok data' ∧
      data' = b!"<<\n/Length 7\n>>\nstream\n" ++ c ++ b!"\nendstream" ∧ c.length = 5 ∧ ¬ StreamAt data' 7 := by
  obtain ⟨c, e1, e2, _⟩ := C33_stream_decrypts hmd5 hk objID (head := b!"<<\n/Length 7\n>>\n") (lead := [10]) (s := b!"BT ET") (trail := [13, 10])
    (tail := []) (by decide) (by decide) (by simp [isEol]) (by simp [isEol]) (by simp [isEol]) (by simp [isEol])
  refine ⟨_, _, c, rfl, ⟨b!"<<\n/Length 7\n>>\n", b!"BT ET\r\n", [], [], by decide, by decide, rfl, Or.inl rfl, rfl⟩, e1, by simp, e2, ?_⟩
  rintro ⟨head, s, eol, tail, h1, _, h2, _, h3⟩
  have i1 := index_first borderless_stream h1 (10 :: (s ++ eol ++ b!"endstream" ++ tail))
  have i2 := index_first borderless_stream (head := b!"<<\n/Length 7\n>>\n") (by decide) (10 :: (c ++ b!"\nendstream"))
  have e3 : head ++ (b!"stream" ++ 10 :: (s ++ eol ++ b!"endstream" ++ tail)) = b!"<<\n/Length 7\n>>\n" ++ (b!"stream" ++ 10 :: (c ++ b!"\nendstream")) := by
    simpa [List.append_assoc] using h2.symm
  rw [e3, i2] at i1
  have := congrArg List.length e3
  simp only [Option.some.injEq] at i1
  simp only [List.length_append, List.length_cons, ← i1, e2, h3, List.length_nil] at this
  omega

/-! ### C35 -/

theorem padPassword_length (pw : Bytes) : (padPassword pw).length = 32 := by
  unfold padPassword; rw [List.length_take, List.length_append]; simp

theorem pValue_low (x : BitVec 64) : (-((x ^^^ 255#64) + 1#64)).setWidth 8 = x.setWidth 8 := by
  rw [BitVec.setWidth_neg_of_le (by omega), BitVec.setWidth_add _ _ (by omega), BitVec.setWidth_xor]
  generalize x.setWidth 8 = y
  revert y
  decide

theorem pValue_small : ∀ x : Nat, x < 256 → (-((BitVec.ofNat 64 x ^^^ 255#64) + 1#64)).toInt = (x : Int) - 256 := by
  decide +kernel

/-- C35, passwords and key: for every permission word whose bits above the lowest eight are zero, all passwords (of any length), and
any owner password chosen at random if none is given: the `/O` entry decrypts under the owner key to the padded user password, the
document key is the one a reader computes from the user password and the written entries `/O`, `/P` (and the empty `/ID`), and `/U` is
the padding encrypted under it; the low byte of `/P` holds the permissions. -/
theorem C35_password_entries_partial {md5 : Bytes → Bytes} (hmd5 : ∀ x, (md5 x).length = 16) (random user owner : Bytes) {perm : BitVec 64}
    (hperm : perm.toNat < 256) :
    ∃ p, setProtection md5 random perm user owner = .ok p ∧
      rc4Cip ((md5 (padPassword (if owner = [] then random else owner))).take 5) p.oValue = .ok (padPassword user) ∧
      p.key = docKey md5 user p.oValue p.pValue [] ∧ p.key.length = 5 ∧ rc4Cip p.key (padPassword []) = .ok p.uValue ∧
      p.oValue.length = 32 ∧ p.uValue.length = 32 ∧
      leBytes 4 p.pValue = [UInt8.ofNat (192 ||| perm.toNat), 255, 255, 255] := by
  obtain ⟨o, o1, o2, o3⟩ := rc4Cip_spec (key := (md5 (padPassword (if owner = [] then random else owner))).take 5)
    (by rw [List.length_take, hmd5]; omega) (by rw [List.length_take, hmd5]; omega) (padPassword user)
  have hprot : (192#64 ||| perm).toNat = 192 ||| perm.toNat := by rw [BitVec.toNat_or]; rfl
  have hlt : 192 ||| perm.toNat < 256 := Nat.or_lt_two_pow (n := 8) (by omega) hperm
  have hof : (192#64 ||| perm) = BitVec.ofNat 64 (192 ||| perm.toNat) := by
    apply BitVec.eq_of_toNat_eq; rw [hprot, BitVec.toNat_ofNat, Nat.mod_eq_of_lt (by omega)]
  have hp : (-(((192#64 ||| perm) ^^^ 255#64) + 1#64)).toInt = ((192 ||| perm.toNat : Nat) : Int) - 256 := by
    rw [hof]; exact pValue_small _ hlt
  generalize 192 ||| perm.toNat = v at *
  have hle : leBytes 4 ((v : Int) - 256) = [UInt8.ofNat v, 255, 255, 255] := by
    unfold leBytes leBytes leBytes leBytes leBytes
    have a0 : (((v : Int) - 256) % 256).toNat = v := by omega
    have a1 : ((v : Int) - 256) / 256 = -1 := by omega
    rw [a0, a1]
    rfl
  obtain ⟨u, u1, u2, u3⟩ := rc4Cip_spec (key := docKey md5 user o ((v : Int) - 256) [])
    (by unfold docKey; rw [List.length_take, hmd5]; omega) (by unfold docKey; rw [List.length_take, hmd5]; omega) (padPassword [])
  refine ⟨⟨u, o, (v : Int) - 256, docKey md5 user o ((v : Int) - 256) []⟩, ?_, o3, rfl, ?_, u1, by rw [o2]; exact padPassword_length _, by rw [u2]; exact padPassword_length _, hle⟩
  · unfold setProtection generateKey createO createU
    have e1 : ∀ x : Bytes, (x ++ protectionPadding).take 32 = padPassword x := fun x => rfl
    simp only [e1, o1, Res.ok_bind, hp, hprot]
    have e2 : (md5 (padPassword user ++ o ++ [UInt8.ofNat v, 255, 255, 255])).take 5 = docKey md5 user o ((v : Int) - 256) [] := by
      unfold docKey; rw [hle, List.append_nil]
    rw [e2]
    have e3 : protectionPadding = padPassword [] := by decide
    rw [e3, u1]
    rfl
  · unfold docKey; rw [List.length_take, hmd5]; rfl

-- the permission constants of the library (print, modify, copy, annotate) are all below 256
example : (4#64 ||| 8#64 ||| 16#64 ||| 32#64).toNat < 256 := by decide

/-- C35, for every permission word at all: the low byte of `/P` is the low byte of the permissions with the two reserved bits set. -/
theorem C35_low_byte {md5 : Bytes → Bytes} {random user owner : Bytes} {perm : BitVec 64} {p : Protection}
    (h : setProtection md5 random perm user owner = .ok p) : (p.pValue % 256).toNat = ((192#64 ||| perm).toNat) % 256 := by
  unfold setProtection generateKey at h
  simp only [Res.bind_eq_ok] at h
  obtain ⟨o, _, ⟨k, u⟩, _, h⟩ := h
  simp only [Res.ok.injEq] at h
  subst h
  simp only
  have := congrArg BitVec.toNat (pValue_low (192#64 ||| perm))
  rw [BitVec.toNat_setWidth, BitVec.toNat_setWidth] at this
  rw [BitVec.toInt_eq_toNat_cond]
  split <;> omega

/-- all permissions, -1: the number written as `/P` is not the one hashed into the key -/
theorem high_bits {md5 : Bytes → Bytes} {random user owner : Bytes} {p : Protection}
    (h : setProtection md5 random (-1#64) user owner = .ok p) :
    p.pValue = 255 ∧ p.key = (md5 (padPassword user ++ p.oValue ++ [255, 255, 255, 255])).take 5 ∧ leBytes 4 p.pValue = [255, 0, 0, 0] := by
  unfold setProtection generateKey createU at h
  simp only [Res.bind_eq_ok] at h
  obtain ⟨o, _, ⟨k, u⟩, ⟨u', _, hk⟩, h⟩ := h
  simp only [Res.ok.injEq, Prod.mk.injEq] at h hk
  subst h
  simp only
  refine ⟨by decide, ?_, by decide⟩
  rw [← hk.1]
  rfl

/-- C35 is violated for permission words with a bit above the lowest eight: the number written as `/P` is not the one hashed into the
key, so a reader computes another key (here for all permissions, -1, and a simple hash function in the place of MD5). -/
theorem C35_refuted_high_bits : ∃ (md5 : Bytes → Bytes) (perm : BitVec 64) (user owner : Bytes) (p : Protection), (∀ x, (md5 x).length = 16) ∧
    setProtection md5 [] perm user owner = .ok p ∧ p.key ≠ docKey md5 user p.oValue p.pValue [] := by
  let md5 : Bytes → Bytes := fun x => (x.reverse ++ List.replicate 16 0).take 16
  have hmd5 : ∀ x, (md5 x).length = 16 := by intro x; simp [md5]
  cases h : setProtection md5 [] (-1#64) [1] [2] with
  | ok p =>
    refine ⟨md5, -1#64, [1], [2], p, hmd5, h, ?_⟩
    obtain ⟨h1, h2, h3⟩ := high_bits h
    rw [h2]
    unfold docKey
    rw [h3]
    simp [md5]
  | _ =>
    obtain ⟨o, o1, _⟩ := rc4Cip_spec (key := (md5 (padPassword [2])).take 5) (by rw [List.length_take, hmd5]; omega)
      (by rw [List.length_take, hmd5]; omega) (padPassword [1])
    obtain ⟨u, u1, _⟩ := rc4Cip_spec (key := (md5 (padPassword [1] ++ o ++ [UInt8.ofNat (192#64 ||| -1#64).toNat, 255, 255, 255])).take 5)
      (by rw [List.length_take, hmd5]; omega) (by rw [List.length_take, hmd5]; omega) protectionPadding
    have e1 : ∀ x : Bytes, (x ++ protectionPadding).take 32 = padPassword x := fun x => rfl
    unfold setProtection generateKey createO createU at h
    simp only [e1] at h
    rw [if_neg (by decide), o1] at h
    simp only [Res.ok_bind] at h
    rw [u1] at h
    simp at h

/-! ### C36 -/

theorem readLit_escape (rest : Bytes) (b : Bytes) : ∀ fuel, (escape b).length + 1 ≤ fuel → readLit fuel 0 (escape b ++ 41 :: rest) = some (b, rest) := by
  induction b with
  | nil =>
    intro fuel hf
    cases fuel with
    | zero => simp at hf
    | succ fuel => rfl
  | cons c b ih =>
    intro fuel hf
    rw [escape_cons] at hf ⊢
    cases fuel with
    | zero => simp at hf
    | succ fuel =>
      rw [List.length_append] at hf
      by_cases a1 : c = 92
      · subst a1
        have := ih fuel (by simp at hf; omega)
        simp [readLit, this, isOctal]
      by_cases a2 : c = 40
      · subst a2
        have := ih fuel (by simp at hf; omega)
        simp [readLit, this, isOctal]
      by_cases a3 : c = 41
      · subst a3
        have := ih fuel (by simp at hf; omega)
        simp [readLit, this, isOctal]
      by_cases a4 : c = 13
      · subst a4
        have := ih fuel (by simp at hf; omega)
        simp [readLit, this]
      · have := ih fuel (by simp [a1, a2, a3, a4] at hf; omega)
        simp only [a1, a2, a3, a4, if_false, List.cons_append, List.nil_append]
        rw [readLit]
        · rw [this]; rfl
        all_goals simp_all

/-- C36: a reader of literal strings gets back every byte string, and the encryption dictionary holds `/O` and `/U` so written. -/
theorem C36_escape_round_trip (b rest : Bytes) : ∃ fuel, readLit fuel 0 (escape b ++ 41 :: rest) = some (b, rest) :=
  ⟨_, readLit_escape rest b _ (Nat.le_refl _)⟩

/-- C36: both entries of the encryption dictionary are read back, and `/P` follows as a number. -/
theorem C36_dictionary (p : Protection) : ∃ fuel r1 r2, encBuild p = b!"<<\n/Filter /Standard\n/V 1\n/R 2\n/O (" ++ r1 ∧
    (∃ r, readLit fuel 0 r1 = some (p.oValue, r) ∧ r = b!"\n/U (" ++ r2) ∧
    readLit fuel 0 r2 = some (p.uValue, b!"\n/P " ++ itoa p.pValue ++ b!"\n>>\n") := by
  refine ⟨max ((escape p.oValue).length + 1) ((escape p.uValue).length + 1),
    escape p.oValue ++ 41 :: (b!"\n/U (" ++ (escape p.uValue ++ 41 :: (b!"\n/P " ++ itoa p.pValue ++ b!"\n>>\n"))),
    escape p.uValue ++ 41 :: (b!"\n/P " ++ itoa p.pValue ++ b!"\n>>\n"), ?_, ⟨_, readLit_escape _ _ _ (by omega), rfl⟩, readLit_escape _ _ _ (by omega)⟩
  unfold encBuild
  simp [List.append_assoc]

example : escape b!"a(b\\)\r\n" = b!"a\\(b\\\\\\)\\r\n" ∧ readLit 20 0 (escape b!"a(b\\)\r\n" ++ 41 :: b!" /U") = some (b!"a(b\\)\r\n", b!" /U") := by
  exact ⟨by decide, by decide⟩

/-! ### C55 -/

/-- C55 is violated: strings outside streams are written as they are, but a reader decrypts them with the object's key. -/
theorem C55_refuted_plain_string : ∃ (md5 : Bytes → Bytes) (key data : Bytes) (objID : Int), (∀ x, (md5 x).length = 16) ∧ key.length = 5 ∧
    encrypt md5 key objID (b!"<< /Title (" ++ escape data ++ b!") >>") = .ok (b!"<< /Title (" ++ escape data ++ b!") >>") ∧
    rc4Cip (objKey md5 key objID 0) data ≠ .ok data :=
  ⟨fun x => (x ++ List.replicate 16 0).take 16, b!"abcde", b!"Report", 7, by intro x; simp, rfl, by rfl, by decide +kernel⟩

end Verif
