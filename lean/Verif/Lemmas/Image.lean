import Verif.Image
import Verif.Spec.Image
import Verif.Lemmas.Num
/-
Lemmas on the PNG reader.
-/
namespace Verif
open Spec

/-! ### unfiltering a part of the samples -/

theorem unfilter_eq (n : Nat) (hn : 0 < n) (ft : Nat → UInt8) (x : Nat → Nat → UInt8) (r i : Nat) :
    unfilter n hn ft x r i = x r i + predict (ft r) (if i < n then 0 else unfilter n hn ft x r (i - n))
      (if r = 0 then 0 else unfilter n hn ft x (r - 1) i) (if i < n ∨ r = 0 then 0 else unfilter n hn ft x (r - 1) (i - n)) := by
  rw [unfilter]; simp only [dite_eq_ite]

/-- Undoing the filter works on every sample separately: taking `m` of the `n` samples of every pixel (sample `σ k` as sample `k`)
before is the same as after. -/
theorem unfilter_samples {n m : Nat} (hn : 0 < n) (hm : 0 < m) {ft ft' : Nat → UInt8} {x y : Nat → Nat → UInt8} (σ : Nat → Nat)
    (hσ : ∀ k < m, σ k < n) {h w : Nat} (hft : ∀ r < h, ft' r = ft r) (hxy : ∀ r < h, ∀ q < w, ∀ k < m, y r (m * q + k) = x r (n * q + σ k)) :
    ∀ r < h, ∀ q < w, ∀ k < m, unfilter m hm ft' y r (m * q + k) = unfilter n hn ft x r (n * q + σ k) := by
  intro r
  induction r with
  | zero =>
    intro hr q
    induction q with
    | zero =>
      intro hq k hk
      have hs := hσ k hk
      rw [unfilter_eq, unfilter_eq n, hft 0 hr, hxy 0 hr 0 hq k hk]
      rw [if_pos (by omega), if_pos rfl, if_pos (Or.inr rfl), if_pos (by omega), if_pos rfl, if_pos (Or.inr rfl)]
    | succ q ih =>
      intro hq k hk
      have hs := hσ k hk
      have e1 : m * (q + 1) + k - m = m * q + k := by rw [Nat.mul_succ]; omega
      have e2 : n * (q + 1) + σ k - n = n * q + σ k := by rw [Nat.mul_succ]; omega
      rw [unfilter_eq, unfilter_eq n, hft 0 hr, hxy 0 hr (q + 1) hq k hk, e1, e2, ih (by omega) k hk]
      have a1 : ¬ m * (q + 1) + k < m := by rw [Nat.mul_succ]; omega
      have a2 : ¬ n * (q + 1) + σ k < n := by rw [Nat.mul_succ]; omega
      simp [a1, a2]
  | succ r ihr =>
    intro hr q
    have ihr := ihr (by omega)
    induction q with
    | zero =>
      intro hq k hk
      have hs := hσ k hk
      rw [unfilter_eq, unfilter_eq n, hft _ hr, hxy _ hr 0 hq k hk]
      have := ihr 0 hq k hk
      simp only [Nat.mul_zero, Nat.zero_add] at this
      simp [hk, hs, this]
    | succ q ih =>
      intro hq k hk
      have hs := hσ k hk
      have e1 : m * (q + 1) + k - m = m * q + k := by rw [Nat.mul_succ]; omega
      have e2 : n * (q + 1) + σ k - n = n * q + σ k := by rw [Nat.mul_succ]; omega
      rw [unfilter_eq, unfilter_eq n, hft _ hr, hxy _ hr (q + 1) hq k hk, e1, e2, ih (by omega) k hk, Nat.add_sub_cancel, ihr q (by omega) k hk,
        ihr (q + 1) hq k hk]
      have a1 : ¬ m * (q + 1) + k < m := by rw [Nat.mul_succ]; omega
      have a2 : ¬ n * (q + 1) + σ k < n := by rw [Nat.mul_succ]; omega
      simp [a1, a2]

/-! ### separating the alpha samples -/

theorem splitRgb_spec : ∀ (w : Nat) (line : Bytes), line.length = 4 * w → ∃ cs as, splitRgb line = .ok (cs, as) ∧ cs.length = 3 * w ∧ as.length = w ∧
    ∀ q < w, (∀ k < 3, cs.getD (3 * q + k) 0 = line.getD (4 * q + k) 0) ∧ as.getD q 0 = line.getD (4 * q + 3) 0 := by
  intro w
  induction w with
  | zero =>
    intro line hl
    have : line = [] := List.length_eq_zero_iff.1 (by omega)
    subst this
    exact ⟨[], [], rfl, rfl, rfl, by intro q hq; omega⟩
  | succ w ih =>
    intro line hl
    match line, hl with
    | r :: g :: b :: a :: t, hl =>
      obtain ⟨cs, as, h1, h2, h3, h4⟩ := ih t (by simp at hl; omega)
      refine ⟨r :: g :: b :: cs, a :: as, by simp [splitRgb, h1], by simp; omega, by simp; omega, ?_⟩
      intro q hq
      cases q with
      | zero =>
        refine ⟨?_, rfl⟩
        intro k hk
        match k, hk with
        | 0, _ => rfl
        | 1, _ => rfl
        | 2, _ => rfl
      | succ q =>
        obtain ⟨h5, h6⟩ := h4 q (by omega)
        refine ⟨?_, ?_⟩
        · intro k hk
          have e1 : 3 * (q + 1) + k = 3 * q + k + 1 + 1 + 1 := by omega
          have e2 : 4 * (q + 1) + k = 4 * q + k + 1 + 1 + 1 + 1 := by omega
          rw [e1, e2]
          simpa using h5 k hk
        · have e2 : 4 * (q + 1) + 3 = 4 * q + 3 + 1 + 1 + 1 + 1 := by omega
          rw [e2]
          simpa using h6

theorem splitGray_spec : ∀ (w : Nat) (line : Bytes), line.length = 2 * w → ∃ cs as, splitGray line = .ok (cs, as) ∧ cs.length = 1 * w ∧ as.length = w ∧
    ∀ q < w, (∀ k < 1, cs.getD (1 * q + k) 0 = line.getD (2 * q + k) 0) ∧ as.getD q 0 = line.getD (2 * q + 1) 0 := by
  intro w
  induction w with
  | zero =>
    intro line hl
    have : line = [] := List.length_eq_zero_iff.1 (by omega)
    subst this
    exact ⟨[], [], rfl, rfl, rfl, by intro q hq; omega⟩
  | succ w ih =>
    intro line hl
    match line, hl with
    | c :: a :: t, hl =>
      obtain ⟨cs, as, h1, h2, h3, h4⟩ := ih t (by simp at hl; omega)
      refine ⟨c :: cs, a :: as, by simp [splitGray, h1], by simp; omega, by simp; omega, ?_⟩
      intro q hq
      cases q with
      | zero =>
        refine ⟨?_, rfl⟩
        intro k hk
        match k, hk with
        | 0, _ => rfl
      | succ q =>
        obtain ⟨h5, h6⟩ := h4 q (by omega)
        refine ⟨?_, ?_⟩
        · intro k hk
          have e1 : 1 * (q + 1) + k = 1 * q + k + 1 := by omega
          have e2 : 2 * (q + 1) + k = 2 * q + k + 1 + 1 := by omega
          rw [e1, e2]
          simpa using h5 k hk
        · have e2 : 2 * (q + 1) + 1 = 2 * q + 1 + 1 + 1 := by omega
          rw [e2]
          simpa using h6

theorem getD_append_left {l m : Bytes} {i : Nat} (h : i < l.length) : (l ++ m).getD i 0 = l.getD i 0 := by
  simp [List.getD_eq_getElem?_getD, List.getElem?_append_left h]

theorem getD_append_right' {l m : Bytes} {i : Nat} (j : Nat) (h : i = l.length + j) : (l ++ m).getD i 0 = m.getD j 0 := by
  subst h
  simp [List.getD_eq_getElem?_getD, List.getElem?_append_right]

/-- position `i` of row `r` of an image with rows of length `n` -/
theorem row_lt {n r i h : Nat} (hr : r < h) (hi : i < n) : n * r + i < n * h := by
  calc n * r + i < n * r + n := by omega
    _ = n * (r + 1) := by rw [Nat.mul_succ]
    _ ≤ n * h := Nat.mul_le_mul_left n hr

/-- The relation between the data of the whole image (`m + 1` samples per pixel) and the two planes, for the first `i` rows. -/
structure PlanesOf (m w : Nat) (z color alpha : Bytes) (i : Nat) : Prop where
  clen : color.length = (1 + m * w) * i
  alen : alpha.length = (1 + 1 * w) * i
  cft : ∀ r < i, color.getD ((1 + m * w) * r) 0 = z.getD ((1 + (m + 1) * w) * r) 0
  aft : ∀ r < i, alpha.getD ((1 + 1 * w) * r) 0 = z.getD ((1 + (m + 1) * w) * r) 0
  cs : ∀ r < i, ∀ q < w, ∀ k < m, color.getD ((1 + m * w) * r + 1 + (m * q + k)) 0 = z.getD ((1 + (m + 1) * w) * r + 1 + ((m + 1) * q + k)) 0
  as : ∀ r < i, ∀ q < w, alpha.getD ((1 + 1 * w) * r + 1 + q) 0 = z.getD ((1 + (m + 1) * w) * r + 1 + ((m + 1) * q + m)) 0

theorem splitRows_spec {m w : Nat} {split : Bytes → Res (Bytes × Bytes)} (hsplit : ∀ line : Bytes, line.length = (m + 1) * w →
      ∃ cs as, split line = .ok (cs, as) ∧ cs.length = m * w ∧ as.length = w ∧
        ∀ q < w, (∀ k < m, cs.getD (m * q + k) 0 = line.getD ((m + 1) * q + k) 0) ∧ as.getD q 0 = line.getD ((m + 1) * q + m) 0)
    {z : Bytes} {h : Nat} (hz : (1 + (m + 1) * w) * h ≤ z.length) : ∀ n i : Nat, i + n = h → ∀ color alpha, PlanesOf m w z color alpha i →
      ∃ color' alpha', splitRows split z (((m + 1) * w : Nat) : Int) n i color alpha = .ok (color', alpha') ∧ PlanesOf m w z color' alpha' h := by
  intro n
  induction n with
  | zero =>
    intro i hi color alpha hp
    have : i = h := by omega
    subst this
    exact ⟨color, alpha, rfl, hp⟩
  | succ n ih =>
    intro i hi color alpha hp
    have hpos : (1 + (((m + 1) * w : Nat) : Int)) * (i : Int) = (((1 + (m + 1) * w) * i : Nat) : Int) := by push_cast; rfl
    have hrow : (1 + (m + 1) * w) * i + (1 + (m + 1) * w) ≤ z.length := by
      calc _ = (1 + (m + 1) * w) * (i + 1) := by rw [Nat.mul_succ]
        _ ≤ (1 + (m + 1) * w) * h := Nat.mul_le_mul_left _ (by omega)
        _ ≤ _ := hz
    rw [splitRows, hpos]
    simp only
    rw [if_neg (by omega)]
    have hg : z[(((1 + (m + 1) * w) * i : Nat) : Int).toNat]? = some (z.getD ((1 + (m + 1) * w) * i) 0) := by
      rw [Int.toNat_natCast, List.getD_eq_getElem?_getD, List.getElem?_eq_getElem (by omega)]; rfl
    rw [hg]
    simp only [Res.ofOption_some, Res.ok_bind]
    rw [if_neg (by omega)]
    have e1 : ((((1 + (m + 1) * w) * i : Nat) : Int) + 1).toNat = (1 + (m + 1) * w) * i + 1 := by omega
    have hline : ((z.drop ((1 + (m + 1) * w) * i + 1)).take ((m + 1) * w)).length = (m + 1) * w := by
      rw [List.length_take, List.length_drop]; omega
    obtain ⟨cs, as, s1, s2, s3, s4⟩ := hsplit _ hline
    rw [e1, Int.toNat_natCast, s1]
    simp only [Res.ok_bind]
    have hl : ∀ j < (m + 1) * w, ((z.drop ((1 + (m + 1) * w) * i + 1)).take ((m + 1) * w)).getD j 0 = z.getD ((1 + (m + 1) * w) * i + 1 + j) 0 := by
      intro j hj
      rw [List.getD_eq_getElem?_getD, List.getElem?_take_of_lt hj, List.getElem?_drop, List.getD_eq_getElem?_getD]
    have := ih (i + 1) (by omega) (color ++ z.getD ((1 + (m + 1) * w) * i) 0 :: cs) (alpha ++ z.getD ((1 + (m + 1) * w) * i) 0 :: as) ?_
    · simpa using this
    · have hidx : ∀ q < w, ∀ k < m + 1, (m + 1) * q + k < (m + 1) * w := fun q hq k hk => row_lt hq hk
      refine ⟨?_, ?_, ?_, ?_, ?_, ?_⟩
      · rw [List.length_append, hp.clen, List.length_cons, s2, Nat.mul_succ]; omega
      · rw [List.length_append, hp.alen, List.length_cons, s3, Nat.mul_succ]; omega
      · intro r hr
        by_cases hri : r < i
        · rw [getD_append_left (by rw [hp.clen]; have := row_lt (n := 1 + m * w) (i := 0) hri (by omega); omega)]
          exact hp.cft r hri
        · have : r = i := by omega
          subst this
          rw [getD_append_right' 0 (by rw [hp.clen]; rfl)]; rfl
      · intro r hr
        by_cases hri : r < i
        · rw [getD_append_left (by rw [hp.alen]; have := row_lt (n := 1 + 1 * w) (i := 0) hri (by omega); omega)]
          exact hp.aft r hri
        · have : r = i := by omega
          subst this
          rw [getD_append_right' 0 (by rw [hp.alen]; rfl)]; rfl
      · intro r hr q hq k hk
        have hqk : m * q + k < m * w := row_lt hq hk
        by_cases hri : r < i
        · rw [getD_append_left (by rw [hp.clen]; have := row_lt (n := 1 + m * w) (i := 1 + (m * q + k)) hri (by omega); omega)]
          exact hp.cs r hri q hq k hk
        · have : r = i := by omega
          subst this
          rw [getD_append_right' (m * q + k + 1) (by rw [hp.clen]; omega), List.getD_cons_succ, (s4 q hq).1 k hk, hl _ (hidx q hq k (by omega))]
      · intro r hr q hq
        by_cases hri : r < i
        · rw [getD_append_left (by rw [hp.alen]; have := row_lt (n := 1 + 1 * w) (i := 1 + q) hri (by omega); omega)]
          exact hp.as r hri q hq
        · have : r = i := by omega
          subst this
          rw [getD_append_right' (q + 1) (by rw [hp.alen]; omega), List.getD_cons_succ, (s4 q hq).2, hl _ (hidx q hq m (by omega))]

/-- The decoded samples of the planes are those of the image. -/
theorem PlanesOf.samples {m w : Nat} (hm : 0 < m) {z color alpha : Bytes} {h : Nat} (hp : PlanesOf m w z color alpha h) :
    ∀ r < h, ∀ x < w, (∀ k < m, sample m hm w color r x k = sample (m + 1) (by omega) w z r x k) ∧
      sample 1 (by omega) w alpha r x 0 = sample (m + 1) (by omega) w z r x m := by
  intro r hr x hx
  refine ⟨?_, ?_⟩
  · intro k hk
    exact unfilter_samples (by omega) hm id (by intro k hk; simp; omega) (fun r hr => hp.cft r hr) (fun r hr q hq k hk => hp.cs r hr q hq k hk) r hr x hx k hk
  · exact unfilter_samples (by omega) (by omega) (fun _ => m) (by intro k hk; simp) (fun r hr => hp.aft r hr)
      (fun r hr q hq k hk => by have : k = 0 := by omega
                                subst this
                                simpa using hp.as r hr q hq) r hr x hx 0 (by omega)

/-! ### reading -/

theorem pngRead_at {f pre d suf : Bytes} (hf : f = pre ++ d ++ suf) (hne : d ++ suf ≠ []) {n : Int} (hn : n = (d.length : Int)) {pos : Nat} (hp : pos = pre.length) :
    pngRead f pos n = .ok (d, pos + d.length) := by
  subst hf hn hp
  have h1 : ¬ (pre ++ d ++ suf).length ≤ pre.length := by
    have : 0 < (d ++ suf).length := List.length_pos_iff.2 hne
    simp only [List.length_append] at this ⊢; omega
  have h2 : ((pre ++ d ++ suf).drop pre.length).take d.length = d := by
    rw [List.append_assoc, List.drop_left, List.take_left]
  unfold pngRead
  rw [if_neg (by omega), if_neg h1]
  simp only [Int.toNat_natCast, h2]
  simp

theorem beUint32_be32 {n : Nat} (h : n < 4294967296) : beUint32 (be32 n) = n := by
  unfold beUint32 be32
  simp only [List.foldl_cons, List.foldl_nil, UInt8.toNat_ofNat']
  omega

theorem pngReadInt_at {f pre suf : Bytes} {v : Nat} (hf : f = pre ++ be32 v ++ suf) (hv : v < 4294967296) {pos : Nat} (hp : pos = pre.length) :
    pngReadInt f pos = .ok (if v ≥ 0x8000 then (v : Int) - 65536 else v, pos + 4) := by
  unfold pngReadInt
  rw [pngRead_at hf (by simp [be32]) (n := 4) rfl hp]
  simp only [Res.ok_bind, beUint32_be32 hv]
  split <;> rfl

/-- what one chunk contributes -/
def accChunk (ct : UInt8) (acc : PngAcc) (c : Chunk) : Res PngAcc :=
  if c.typ = b!"PLTE" then .ok { acc with pal := c.data }
  else if c.typ = b!"tRNS" then do
    let t ← pngTrns ct c.data acc.trns
    .ok { acc with trns := t }
  else if c.typ = b!"IDAT" then .ok { acc with data := acc.data ++ c.data }
  else .ok acc

def accChunks (ct : UInt8) : PngAcc → List Chunk → Res PngAcc
  | acc, [] => .ok acc
  | acc, c :: cs => do
    let acc ← accChunk ct acc c
    accChunks ct acc cs

theorem accChunks_data {ct : UInt8} {acc acc' : PngAcc} {cs : List Chunk} (h : accChunks ct acc cs = .ok acc') :
    acc'.data = acc.data ++ (cs.filter (fun c => c.typ = b!"IDAT")).flatMap Chunk.data := by
  induction cs generalizing acc with
  | nil => simp only [accChunks, Res.ok.injEq] at h; subst h; simp
  | cons c cs ih =>
    simp only [accChunks, Res.bind_eq_ok] at h
    obtain ⟨a, ha, h⟩ := h
    rw [ih h]
    unfold accChunk at ha
    by_cases h1 : c.typ = b!"PLTE"
    · rw [if_pos h1] at ha
      simp only [Res.ok.injEq] at ha; subst ha
      simp [h1]
    rw [if_neg h1] at ha
    by_cases h2 : c.typ = b!"tRNS"
    · rw [if_pos h2, Res.bind_eq_ok] at ha
      obtain ⟨t, _, ha⟩ := ha
      simp only [Res.ok.injEq] at ha; subst ha
      simp [h2]
    rw [if_neg h2] at ha
    by_cases h3 : c.typ = b!"IDAT"
    · rw [if_pos h3] at ha
      simp only [Res.ok.injEq] at ha; subst ha
      simp [h3]
    rw [if_neg h3] at ha
    simp only [Res.ok.injEq] at ha; subst ha
    simp [h3]

/-- One round of the loop, on a chunk of legal length below 32768 that is not empty. -/
theorem pngLoop_step {f pre suf : Bytes} {c : Chunk} (hf : f = pre ++ c.bytes ++ suf) (ht : c.typ.length = 4) (hc : c.crc.length = 4) (h0 : c.data ≠ [])
    (hl : c.data.length < 0x8000) (hE : c.typ ≠ b!"IEND") (ct : UInt8) (fuel : Nat) (acc : PngAcc) :
    pngLoop f ct (fuel + 1) pre.length acc = (accChunk ct acc c >>= fun acc => pngLoop f ct fuel (pre ++ c.bytes).length acc) := by
  have hlen : c.data.length ≠ 0 := by simpa using h0
  have hf0 : f = pre ++ be32 c.data.length ++ (c.typ ++ c.data ++ c.crc ++ suf) := by rw [hf]; simp [Chunk.bytes, List.append_assoc]
  have hf1 : f = (pre ++ be32 c.data.length) ++ c.typ ++ (c.data ++ c.crc ++ suf) := by rw [hf]; simp [Chunk.bytes, List.append_assoc]
  have hf2 : f = (pre ++ be32 c.data.length ++ c.typ) ++ c.data ++ (c.crc ++ suf) := by rw [hf]; simp [Chunk.bytes, List.append_assoc]
  have l1 : (pre ++ be32 c.data.length).length = pre.length + 4 := by simp [be32]
  have l2 : (pre ++ be32 c.data.length ++ c.typ).length = pre.length + 4 + c.typ.length := by rw [List.length_append, l1]
  have l3 : (pre ++ c.bytes).length = pre.length + 4 + 4 + c.data.length + 4 := by
    simp only [Chunk.bytes, List.length_append, ht, hc, be32, List.length_cons, List.length_nil]; omega
  have r1 := pngReadInt_at hf0 (by omega) rfl
  rw [if_neg (by omega)] at r1
  have r2 := pngRead_at hf1 (by simp [h0]) (n := 4) (by rw [ht]; rfl) l1.symm
  have r3 := pngRead_at hf2 (by simp [h0]) (n := (c.data.length : Int)) rfl l2.symm
  have s1 : pngSeek (pre.length + 4 + c.typ.length + c.data.length) 4 = .ok (pre ++ c.bytes).length := by
    unfold pngSeek; rw [if_neg (by omega), l3]; congr 1; omega
  have s2 : pngSeek (pre.length + 4 + c.typ.length) ((c.data.length : Int) + 4) = .ok (pre ++ c.bytes).length := by
    unfold pngSeek; rw [if_neg (by omega), l3]; congr 1; omega
  have hn : ¬ (c.data.length : Int) ≤ 0 := by omega
  rw [pngLoop, r1]
  simp only [Res.ok_bind, r2]
  unfold accChunk
  by_cases h1 : c.typ = b!"PLTE"
  · rw [if_pos h1, if_pos h1, r3]
    simp only [Res.ok_bind, s1, if_neg hn]
  rw [if_neg h1, if_neg h1]
  by_cases h2 : c.typ = b!"tRNS"
  · rw [if_pos h2, if_pos h2, r3]
    simp only [Res.ok_bind, s1, if_neg hn]
    cases pngTrns ct c.data acc.trns <;> rfl
  rw [if_neg h2, if_neg h2]
  by_cases h3 : c.typ = b!"IDAT"
  · rw [if_pos h3, if_pos h3, r3]
    simp only [Res.ok_bind, s1, if_neg hn]
  rw [if_neg h3, if_neg h3, if_neg hE, s2]
  simp only [Res.ok_bind, if_neg hn]

theorem pngLoop_chunks {f : Bytes} {crc : Bytes} (ct : UInt8) : ∀ (cs : List Chunk) (pre : Bytes) (acc : PngAcc) (fuel : Nat),
    f = pre ++ cs.flatMap Chunk.bytes ++ be32 0 ++ b!"IEND" ++ crc →
    (∀ c ∈ cs, c.typ.length = 4 ∧ c.crc.length = 4 ∧ c.data.length < 0x8000 ∧ c.typ ≠ b!"IEND" ∧ c.data ≠ []) → cs.length < fuel →
    pngLoop f ct fuel pre.length acc = accChunks ct acc cs := by
  intro cs
  induction cs with
  | nil =>
    intro pre acc fuel hf _ hfuel
    obtain ⟨fuel, rfl⟩ : ∃ k, fuel = k + 1 := ⟨fuel - 1, by simp at hfuel; omega⟩
    have hf0 : f = pre ++ be32 0 ++ (b!"IEND" ++ crc) := by rw [hf]; simp
    have hf1 : f = (pre ++ be32 0) ++ b!"IEND" ++ crc := by rw [hf]; simp
    have l1 : (pre ++ be32 0).length = pre.length + 4 := by simp [be32]
    have r1 := pngReadInt_at hf0 (by omega) rfl
    rw [if_neg (by omega)] at r1
    have r2 := pngRead_at hf1 (by simp) (n := 4) rfl l1.symm
    rw [pngLoop, r1]
    simp only [Res.ok_bind, r2]
    rfl
  | cons c cs ih =>
    intro pre acc fuel hf hc hfuel
    obtain ⟨fuel, rfl⟩ : ∃ k, fuel = k + 1 := ⟨fuel - 1, by omega⟩
    obtain ⟨c1, c2, c3, c4, c5⟩ := hc c (List.mem_cons_self ..)
    rw [pngLoop_step (suf := cs.flatMap Chunk.bytes ++ be32 0 ++ b!"IEND" ++ crc) (by rw [hf]; simp [List.append_assoc]) c1 c2 c5 c3 c4, accChunks]
    cases accChunk ct acc c with
    | ok a =>
      simp only [Res.ok_bind]
      exact ih _ _ _ (by rw [hf]; simp [List.append_assoc]) (fun x hx => hc x (List.mem_cons_of_mem _ hx)) (by simp at hfuel; omega)
    | _ => rfl

end Verif
