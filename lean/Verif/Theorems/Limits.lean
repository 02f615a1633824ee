import Verif.Theorems.Unset
import Verif.Theorems.Image
import Verif.Theorems.Text
import Verif.Theorems.Crypto
/-
C24, C34, C43 and C57: exactly which inputs go wrong.
-/
namespace Verif
open Spec

/-! ### C24 -/

/-- **C24 is violated** by every text that is not valid UTF-8, and only by these: the tokens make up another text. -/
theorem C24_refuted_all (text : Bytes) : (breakTextToToken text).flatten = text ↔ ValidText text := by
  refine ⟨fun h => ?_, (C24_breaker_lossless_partial text).1⟩
  rw [breakTextToToken, breakAux_flatten, List.nil_append] at h
  exact ⟨runes text, runes_scalar text, h.symm⟩

example : ¬ ValidText [65, 0xC3, 66] := by
  rw [← C24_refuted_all]
  decide

/-! ### C34 -/

/-- **C34 is violated** by every stream with two or more bytes of line ends at its beginning and end together: after protection no reading of the object gives a
stream of the length it had, which is what its dictionary still says. -/
theorem C34_refuted_all {md5 : Bytes → Bytes} (hmd5 : ∀ x, (md5 x).length = 16) {key : Bytes} (hk : key.length = 5) (objID : Int) {head lead s trail tail data' : Bytes}
    (hh : ¬ b!"stream" <:+: head) (ht : ¬ b!"endstream" <:+: tail) (h1 : ∀ c ∈ lead, isEol c) (h2 : ∀ c ∈ trail, isEol c) (h3 : ∀ c ∈ s.head?, ¬ isEol c)
    (h4 : ∀ c ∈ s.getLast?, ¬ isEol c) (h5 : 2 ≤ lead.length + trail.length)
    (h : encrypt md5 key objID (head ++ b!"stream\n" ++ (lead ++ s ++ trail) ++ b!"\nendstream" ++ tail) = .ok data') :
    StreamAt (head ++ b!"stream\n" ++ (lead ++ s ++ trail) ++ b!"\nendstream" ++ tail) (lead ++ s ++ trail).length ∧ ¬ StreamAt data' (lead ++ s ++ trail).length := by
  obtain ⟨c, e1, e2, _⟩ := C33_stream_decrypts hmd5 hk objID (lead := 10 :: lead) (s := s) (trail := trail ++ [10]) hh ht
    (by intro x hx; rcases List.mem_cons.1 hx with rfl | hx
        · simp [isEol]
        · exact h1 x hx)
    (by intro x hx; rcases List.mem_append.1 hx with hx | hx
        · exact h2 x hx
        · simp only [List.mem_cons, List.not_mem_nil, or_false] at hx
          subst hx
          simp [isEol]) h3 h4
  have ed : head ++ b!"stream\n" ++ (lead ++ s ++ trail) ++ b!"\nendstream" ++ tail = head ++ b!"stream" ++ (10 :: lead ++ s ++ (trail ++ [10])) ++ b!"endstream" ++ tail := by
    simp [List.append_assoc]
  refine ⟨⟨head, lead ++ s ++ trail, [10], tail, hh, ht, by simp [List.append_assoc], Or.inr rfl, rfl⟩, ?_⟩
  rw [ed, e1] at h
  simp only [Res.ok.injEq] at h
  subst h
  rintro ⟨head', s', eol, tail', g1, _, g2, _, g3⟩
  have i1 := index_first borderless_stream g1 (10 :: (s' ++ eol ++ b!"endstream" ++ tail'))
  have i2 := index_first borderless_stream hh (10 :: (c ++ b!"\nendstream"))
  have e3 : head' ++ (b!"stream" ++ 10 :: (s' ++ eol ++ b!"endstream" ++ tail')) = head ++ (b!"stream" ++ 10 :: (c ++ b!"\nendstream")) := by
    simpa [List.append_assoc] using g2.symm
  rw [e3, i2] at i1
  have := congrArg List.length e3
  simp only [Option.some.injEq] at i1
  simp only [List.length_append, List.length_cons, ← i1, e2, g3, List.length_nil] at this
  omega

example : (∀ c ∈ ([13, 10] : Bytes), isEol c) ∧ (∀ c ∈ b!"BT ET".head?, ¬ isEol c) ∧ (∀ c ∈ b!"BT ET".getLast?, ¬ isEol c) ∧ 2 ≤ ([] : Bytes).length + ([13, 10] : Bytes).length := by
  unfold isEol; exact ⟨by decide, by decide, by decide, by decide⟩

/-! ### C35 -/

theorem xor_255 (v : Nat) : ∃ r, r < 256 ∧ v ^^^ 255 = 256 * (v / 256) + r := by
  refine ⟨(v ^^^ 255) % 256, Nat.mod_lt _ (by omega), ?_⟩
  have h : (v ^^^ 255) / 256 = v / 256 := by
    have := Nat.xor_div_two_pow (a := v) (b := 255) (n := 8)
    simpa using this
  have := Nat.div_add_mod (v ^^^ 255) 256
  rw [h] at this
  omega

theorem or_192 (v : Nat) : (192 ||| v) / 256 = v / 256 := by
  have := Nat.or_div_two_pow (a := 192) (b := v) (n := 8)
  simpa using this

theorem leBytes_ones {z : Int} {b : UInt8} (h : leBytes 4 z = [b, 255, 255, 255]) : (z / 256) % 16777216 = 16777215 := by
  simp only [leBytes, List.cons.injEq, and_true] at h
  obtain ⟨_, h1, h2, h3⟩ := h
  have k1 := congrArg UInt8.toNat h1
  have k2 := congrArg UInt8.toNat h2
  have k3 := congrArg UInt8.toNat h3
  rw [UInt8.toNat_ofNat', show (255 : UInt8).toNat = 255 from rfl] at k1 k2 k3
  omega

/-- **C35 is violated** by every permission word with one of the bits 8 to 31: whatever the hash function, the key is made from other bytes than those a reader makes
it from, which are the written /O and /P. -/
theorem C35_refuted_all {md5 : Bytes → Bytes} {random user owner : Bytes} {perm : BitVec 64} {p : Protection} (hp : perm.toNat / 256 % 16777216 ≠ 0)
    (h : setProtection md5 random perm user owner = .ok p) :
    ∃ x y, x ≠ y ∧ p.key = (md5 x).take 5 ∧ docKey md5 user p.oValue p.pValue [] = (md5 y).take 5 := by
  unfold setProtection generateKey createU at h
  simp only [Res.bind_eq_ok] at h
  obtain ⟨o, _, ⟨k, u⟩, ⟨u', _, hk⟩, h⟩ := h
  simp only [Res.ok.injEq, Prod.mk.injEq] at h hk
  subst h
  refine ⟨_, _, ?_, hk.1.symm, rfl⟩
  intro e
  have e' : [UInt8.ofNat (192#64 ||| perm).toNat, 255, 255, 255] = leBytes 4 (-(((192#64 ||| perm) ^^^ 255#64) + 1#64)).toInt := by
    have : (user ++ protectionPadding).take 32 ++ o ++ [UInt8.ofNat (192#64 ||| perm).toNat, 255, 255, 255] =
        (user ++ protectionPadding).take 32 ++ o ++ leBytes 4 (-(((192#64 ||| perm) ^^^ 255#64) + 1#64)).toInt := by
      have e2 : (user ++ protectionPadding).take 32 ++ o ++ [UInt8.ofNat (192#64 ||| perm).toNat, 255, 255, 255] =
          padPassword user ++ o ++ leBytes 4 (-(((192#64 ||| perm) ^^^ 255#64) + 1#64)).toInt ++ [] := e
      rw [List.append_nil] at e2
      exact e2
    exact List.append_cancel_left this
  have hz := leBytes_ones e'.symm
  obtain ⟨r, hr, hx⟩ := xor_255 (192 ||| perm.toNat)
  rw [or_192] at hx
  have ht : (-(((192#64 ||| perm) ^^^ 255#64) + 1#64)).toInt % 18446744073709551616 = (-((((192 ||| perm.toNat) ^^^ 255 : Nat) : Int) + 1)) % 18446744073709551616 := by
    have := BitVec.toInt_eq_toNat_cond (-(((192#64 ||| perm) ^^^ 255#64) + 1#64))
    rw [this, BitVec.toNat_neg, BitVec.toNat_add, BitVec.toNat_xor, BitVec.toNat_or]
    rw [show (192#64).toNat = 192 from rfl, show (255#64).toNat = 255 from rfl, show (1#64).toNat = 1 from rfl]
    split <;> omega
  rw [hx] at ht
  generalize (-(((192#64 ||| perm) ^^^ 255#64) + 1#64)).toInt = z at hz ht
  generalize perm.toNat / 256 = q at hp ht
  omega

example : (-1#64).toNat / 256 % 16777216 ≠ 0 ∧ (256#64).toNat / 256 % 16777216 ≠ 0 := by decide

/-! ### C43 -/

/-- **C43 is violated** by every colour whose components add up to a multiple of 256, whatever the text: nothing stands between the choice of the font and the text. -/
theorem C43_refuted_all {c : TextContent} {f : FontState} {idx : Int} {s : Bytes} {r g b : Nat} (hc : c.color = some ((r : Int), (g : Int), (b : Int)))
    (hsum : (r + g + b) % 256 = 0) (h : c.stream f idx = .ok s) :
    ∃ pos post : Bytes, s = b!"BT\n" ++ pos ++ b!" TD\n/F" ++ itoa idx ++ b!" " ++ itoa c.fontSize ++ b!" Tf\n[<" ++ post := by
  obtain ⟨pos, t, rest, hs, _⟩ := stream_parts h
  have hcol : colorOp c.rgb = [] := by
    unfold TextContent.rgb
    rw [hc]
    unfold colorOp
    simp only
    rw [if_neg]
    simp only [ne_eq, not_not]
    apply UInt8.toNat_inj.1
    simp only [UInt8.toNat_add, UInt8.toNat_ofNat', UInt8.toNat_zero]
    omega
  refine ⟨pos, t ++ b!"ET\n" ++ rest, ?_⟩
  rw [hs, hcol, show b!" Tf\n[<" = b!" Tf\n" ++ b!"[<" by decide +kernel]
  simp only [List.append_assoc, List.nil_append]

example : (contentText (some (255, 255, 2))).stream contentFont 3 = .ok b!"BT\n115.00 162.50 TD\n/F3 10 Tf\n[<0001>] TJ\nET\n\r\n" := by
  decide +kernel

/-! ### C57 -/

/-- reading ends at a chunk without data -/
theorem pngLoop_empty {f pre suf : Bytes} {c : Chunk} (hf : f = pre ++ c.bytes ++ suf) (ht : c.typ.length = 4) (hc : c.crc.length = 4) (h0 : c.data = []) (ct : UInt8) (fuel : Nat)
    {acc a : PngAcc} (h : pngLoop f ct (fuel + 1) pre.length acc = .ok a) : a.data = acc.data := by
  have hb : c.bytes = be32 0 ++ c.typ ++ c.crc := by simp [Chunk.bytes, h0]
  have hcn : c.crc ≠ [] := by intro e; rw [e] at hc; simp at hc
  have hf0 : f = pre ++ be32 0 ++ (c.typ ++ c.crc ++ suf) := by rw [hf, hb]; simp [List.append_assoc]
  have hf1 : f = (pre ++ be32 0) ++ c.typ ++ (c.crc ++ suf) := by rw [hf, hb]; simp [List.append_assoc]
  have hf2 : f = (pre ++ be32 0 ++ c.typ) ++ [] ++ (c.crc ++ suf) := by rw [hf, hb]; simp [List.append_assoc]
  have l1 : (pre ++ be32 0).length = pre.length + 4 := by simp [be32]
  have l2 : (pre ++ be32 0 ++ c.typ).length = pre.length + 4 + c.typ.length := by rw [List.length_append, l1]
  have r1 := pngReadInt_at hf0 (by omega) rfl
  rw [if_neg (by omega)] at r1
  have r2 := pngRead_at hf1 (by simp [hcn]) (n := 4) (by rw [ht]; rfl) l1.symm
  have r3 := pngRead_at hf2 (by simp [hcn]) (n := ((0 : Nat) : Int)) rfl l2.symm
  rw [pngLoop, r1] at h
  simp only [Res.ok_bind, r2] at h
  split at h
  · rw [r3] at h
    simp only [Res.ok_bind, Res.bind_eq_ok] at h
    obtain ⟨_, _, h⟩ := h
    cases h
    rfl
  split at h
  · rw [r3] at h
    simp only [Res.ok_bind, Res.bind_eq_ok] at h
    obtain ⟨_, _, _, _, h⟩ := h
    cases h
    rfl
  split at h
  · rw [r3] at h
    simp only [Res.ok_bind, Res.bind_eq_ok] at h
    obtain ⟨_, _, h⟩ := h
    cases h
    simp
  split at h
  · simp only [Res.ok.injEq] at h
    subst h
    rfl
  · simp only [Res.bind_eq_ok] at h
    obtain ⟨_, _, h⟩ := h
    cases h
    rfl

theorem pngLoop_stops {f suf : Bytes} (ct : UInt8) {e : Chunk} (he : e.typ.length = 4 ∧ e.crc.length = 4) (h0 : e.data = []) : ∀ (cs : List Chunk) (pre : Bytes) (acc a : PngAcc) (fuel : Nat),
    f = pre ++ cs.flatMap Chunk.bytes ++ e.bytes ++ suf →
    (∀ c ∈ cs, c.typ.length = 4 ∧ c.crc.length = 4 ∧ c.data.length < 0x8000 ∧ c.typ ≠ b!"IEND" ∧ c.data ≠ []) →
    pngLoop f ct fuel pre.length acc = .ok a → a.data = acc.data ++ (cs.filter (fun c => c.typ = b!"IDAT")).flatMap Chunk.data
  | [], pre, acc, a, 0, _, _, h => by cases h
  | _ :: _, pre, acc, a, 0, _, _, h => by cases h
  | [], pre, acc, a, fuel + 1, hf, _, h => by
    rw [pngLoop_empty (by simpa using hf) he.1 he.2 h0 ct fuel h]
    simp
  | c :: cs, pre, acc, a, fuel + 1, hf, hc, h => by
    obtain ⟨c1, c2, c3, c4, c5⟩ := hc c (List.mem_cons_self ..)
    rw [pngLoop_step (suf := cs.flatMap Chunk.bytes ++ e.bytes ++ suf) (by rw [hf]; simp [List.append_assoc]) c1 c2 c5 c3 c4, Res.bind_eq_ok] at h
    obtain ⟨b, hb, h⟩ := h
    rw [pngLoop_stops (suf := suf) ct he h0 cs _ b a fuel (by rw [hf]; simp [List.append_assoc]) (fun x hx => hc x (List.mem_cons_of_mem _ hx)) h]
    have : accChunks ct acc [c] = .ok b := by simp [accChunks, hb]
    rw [accChunks_data this, List.append_assoc]
    congr 1
    by_cases e1 : c.typ = b!"IDAT" <;> simp [e1]

/-- **C57 is violated** by every gray, colour or palette image without alpha with a chunk that has no data: of an image that is read without an error the data of the chunks
after that one is lost. -/
theorem C57_refuted_all (zip : Bytes → Bytes) (unzip : Bytes → Option Bytes) {p : Png} (hp : p.Wf 0x8000) {cs more : List Chunk} {e : Chunk} (he : p.chunks = cs ++ e :: more)
    (h0 : e.data = []) (hne : ∀ c ∈ cs, c.data ≠ []) (hct : p.colourType < 4) {info : ImgInfo} (h : parsePng zip unzip p.bytes = .ok info) :
    p.idat = info.data ++ (more.filter (fun c => c.typ = b!"IDAT")).flatMap Chunk.data := by
  have hw := hp.w
  have hh := hp.h
  rw [parsePng_head zip unzip (by omega) (by omega) hp.crc.1] at h
  split at h
  · simp at h
  simp only [Res.bind_eq_ok] at h
  obtain ⟨_, _, acc, ha, h⟩ := h
  have hmem : e ∈ p.chunks := by rw [he]; simp
  have hd := pngLoop_stops (suf := more.flatMap Chunk.bytes ++ be32 0 ++ b!"IEND" ++ p.iendCrc) p.colourType ⟨(hp.chunk e hmem).1, (hp.chunk e hmem).2.1⟩ h0 cs (pngHead p) {} acc _
    (by unfold Png.bytes pngHead; rw [he]; simp [List.append_assoc])
    (fun c hc => by
      obtain ⟨h1, h2, h3, h4⟩ := hp.chunk c (by rw [he]; simp [hc])
      exact ⟨h1, h2, h3, h4, hne c hc⟩) ha
  unfold pngFinish at h
  split at h
  · simp at h
  rw [if_neg (by simpa using hct)] at h
  simp only [Res.ok.injEq] at h
  subst h
  unfold Png.idat
  rw [he]
  simp only [hd, List.filter_append, List.flatMap_append]
  by_cases e1 : e.typ = b!"IDAT" <;> simp [e1, h0]

/-- a gray image of one pixel with its data behind a chunk without data -/
example : ∃ info, parsePng id some (Png.bytes { w := 1, h := 1, bitDepth := 8, colourType := 0, ihdrCrc := [1, 2, 3, 4], iendCrc := [5, 6, 7, 8], chunks := [⟨b!"IDAT", [0], [0, 0, 0, 0]⟩, ⟨b!"IDAT", [], [0, 0, 0, 0]⟩, ⟨b!"IDAT", [7], [0, 0, 0, 0]⟩] }) = .ok info ∧ info.data = [0] :=
  ⟨{ w := 1, h := 1, colspace := b!"DeviceGray", bitsPerComponent := b!"8", filter := b!"FlateDecode", data := [0], decodeParms := b!"/Predictor 15 /Colors  1 /BitsPerComponent 8 /Columns 1" }, by decide +kernel, rfl⟩

end Verif
