import Verif.Lemmas.Image
/-
C41, C42, C53, C56, C57: PNG images.
-/
namespace Verif
open Spec

/-! ### C41 -/

/-- C41 (values below 32768): a number is read as written. -/
theorem C41_small_numbers_partial {n : Nat} (hn : n < 0x8000) (suf : Bytes) : pngReadInt (be32 n ++ suf) 0 = .ok ((n : Int), 4) := by
  have := pngReadInt_at (f := be32 n ++ suf) (pre := []) (suf := suf) (v := n) rfl (by omega) (pos := 0) rfl
  rw [this, if_neg (by omega)]

/-- C41 is violated for every legal value from 32768 on: 65536 is subtracted. -/
theorem C41_refuted_large_numbers {n : Nat} (h1 : 0x8000 ≤ n) (h2 : n < 0x80000000) (suf : Bytes) :
    pngReadInt (be32 n ++ suf) 0 = .ok ((n : Int) - 65536, 4) ∧ pngReadInt (be32 n ++ suf) 0 ≠ .ok ((n : Int), 4) := by
  have := pngReadInt_at (f := be32 n ++ suf) (pre := []) (suf := suf) (v := n) rfl (by omega) (pos := 0) rfl
  rw [this, if_pos (by omega)]
  refine ⟨rfl, ?_⟩
  simp only [ne_eq, Res.ok.injEq, Prod.mk.injEq, not_and]
  intro h; omega

example : pngReadInt (be32 40000) 0 = .ok (-25536, 4) := by decide +kernel

/-! ### the header -/

/-- a dimension as the program reads it -/
def pngDim (v : Nat) : Int := if v ≥ 0x8000 then (v : Int) - 65536 else v

/-- the first 33 bytes -/
def pngHead (p : Png) : Bytes :=
  [0x89, 0x50, 0x4e, 0x47, 0x0d, 0x0a, 0x1a, 0x0a] ++ be32 13 ++ b!"IHDR" ++ be32 p.w ++ be32 p.h ++ [p.bitDepth, p.colourType, 0, 0, 0] ++ p.ihdrCrc

/-- what follows the reading of the header and the chunks -/
def pngFinish (zip : Bytes → Bytes) (unzip : Bytes → Option Bytes) (w h : Int) (bpc ct : UInt8) (colspace : Bytes) (acc : PngAcc) : Res ImgInfo :=
  if colspace = b!"Indexed" ∧ trimSpace acc.pal = [] then .err .other
  else do
    let bits := itoa bpc.toNat
    let colors : Int := if colspace = b!"DeviceRGB" then 3 else 1
    let info : ImgInfo :=
      { w := w, h := h, colspace := colspace, bitsPerComponent := bits, filter := b!"FlateDecode", trns := acc.trns, pal := acc.pal
        decodeParms := b!"/Predictor 15 /Colors  " ++ itoa colors ++ b!" /BitsPerComponent " ++ bits ++ b!" /Columns " ++ itoa w }
    if ct ≥ 4 then do
      let z ← Res.orErr .other (unzip acc.data)
      if ct = 4 then do
        let _ ← splitRows splitGray z (2 * w) h.toNat 0 [] []
        .ok info
      else do
        let (color, alpha) ← splitRows splitRgb z (4 * w) h.toNat 0 [] []
        .ok { info with smask := zip alpha, data := zip color }
    else .ok { info with data := acc.data }

theorem parsePng_head (zip : Bytes → Bytes) (unzip : Bytes → Option Bytes) {p : Png} (hw : p.w < 4294967296) (hh : p.h < 4294967296) (hcrc : p.ihdrCrc.length = 4) :
    parsePng zip unzip p.bytes = if p.bitDepth > 8 then .err .other else (do
      let cs ← pngColspace p.colourType
      let acc ← pngLoop p.bytes p.colourType (p.bytes.length + 1) (pngHead p).length {}
      pngFinish zip unzip (pngDim p.w) (pngDim p.h) p.bitDepth p.colourType cs acc) := by
  generalize hr : p.chunks.flatMap Chunk.bytes ++ be32 0 ++ b!"IEND" ++ p.iendCrc = rest
  have hrest : rest ≠ [] := by rw [← hr]; simp [be32]
  have hf : p.bytes = pngHead p ++ rest := by rw [← hr]; simp [Png.bytes, pngHead, List.append_assoc]
  have hl : (pngHead p).length = 33 := by simp [pngHead, be32, hcrc]
  have f1 : p.bytes = [] ++ pngMagic ++ (be32 13 ++ b!"IHDR" ++ be32 p.w ++ be32 p.h ++ [p.bitDepth, p.colourType, 0, 0, 0] ++ p.ihdrCrc ++ rest) := by
    rw [hf]; simp [pngHead, pngMagic, List.append_assoc]
  have f2 : p.bytes = (pngMagic ++ be32 13) ++ b!"IHDR" ++ (be32 p.w ++ be32 p.h ++ [p.bitDepth, p.colourType, 0, 0, 0] ++ p.ihdrCrc ++ rest) := by
    rw [hf]; simp [pngHead, pngMagic, List.append_assoc]
  have f3 : p.bytes = (pngMagic ++ be32 13 ++ b!"IHDR") ++ be32 p.w ++ (be32 p.h ++ [p.bitDepth, p.colourType, 0, 0, 0] ++ p.ihdrCrc ++ rest) := by
    rw [hf]; simp [pngHead, pngMagic, List.append_assoc]
  have f4 : p.bytes = (pngMagic ++ be32 13 ++ b!"IHDR" ++ be32 p.w) ++ be32 p.h ++ ([p.bitDepth, p.colourType, 0, 0, 0] ++ p.ihdrCrc ++ rest) := by
    rw [hf]; simp [pngHead, pngMagic, List.append_assoc]
  have f5 : p.bytes = (pngMagic ++ be32 13 ++ b!"IHDR" ++ be32 p.w ++ be32 p.h) ++ [p.bitDepth] ++ ([p.colourType, 0, 0, 0] ++ p.ihdrCrc ++ rest) := by
    rw [hf]; simp [pngHead, pngMagic, List.append_assoc]
  have f6 : p.bytes = (pngMagic ++ be32 13 ++ b!"IHDR" ++ be32 p.w ++ be32 p.h ++ [p.bitDepth]) ++ [p.colourType] ++ ([0, 0, 0] ++ p.ihdrCrc ++ rest) := by
    rw [hf]; simp [pngHead, pngMagic, List.append_assoc]
  have f7 : p.bytes = (pngMagic ++ be32 13 ++ b!"IHDR" ++ be32 p.w ++ be32 p.h ++ [p.bitDepth, p.colourType]) ++ [0] ++ ([0, 0] ++ p.ihdrCrc ++ rest) := by
    rw [hf]; simp [pngHead, pngMagic, List.append_assoc]
  have f8 : p.bytes = (pngMagic ++ be32 13 ++ b!"IHDR" ++ be32 p.w ++ be32 p.h ++ [p.bitDepth, p.colourType, 0]) ++ [0] ++ ([0] ++ p.ihdrCrc ++ rest) := by
    rw [hf]; simp [pngHead, pngMagic, List.append_assoc]
  have f9 : p.bytes = (pngMagic ++ be32 13 ++ b!"IHDR" ++ be32 p.w ++ be32 p.h ++ [p.bitDepth, p.colourType, 0, 0]) ++ [0] ++ (p.ihdrCrc ++ rest) := by
    rw [hf]; simp [pngHead, pngMagic, List.append_assoc]
  have r1 := pngRead_at f1 (by simp [pngMagic]) (n := 8) rfl (pos := 0) rfl
  have r2 := pngRead_at f2 (by simp) (n := 4) rfl (pos := 12) rfl
  have r3 := pngReadInt_at f3 hw (pos := 16) rfl
  have r4 := pngReadInt_at f4 hh (pos := 20) rfl
  have r5 := pngRead_at f5 (by simp) (n := 1) rfl (pos := 24) rfl
  have r6 := pngRead_at f6 (by simp) (n := 1) rfl (pos := 25) rfl
  have r7 := pngRead_at f7 (by simp) (n := 1) rfl (pos := 26) rfl
  have r8 := pngRead_at f8 (by simp) (n := 1) rfl (pos := 27) rfl
  have r9 := pngRead_at f9 (by simp) (n := 1) rfl (pos := 28) rfl
  generalize p.bytes = f at r1 r2 r3 r4 r5 r6 r7 r8 r9 ⊢
  unfold parsePng
  rw [r1]
  simp only [Res.ok_bind]
  rw [if_neg (by simp)]
  change (pngRead f 12 4 >>= _) = _
  rw [r2]
  simp only [Res.ok_bind]
  rw [if_neg (by simp)]
  change (pngReadInt f 16 >>= _) = _
  rw [r3]
  simp only [Res.ok_bind]
  rw [r4]
  simp only [Res.ok_bind]
  rw [r5]
  simp only [Res.ok_bind, List.headD_cons]
  by_cases hbd : p.bitDepth > 8
  · rw [if_pos hbd]; exact if_pos hbd
  rw [if_neg hbd]
  refine (if_neg hbd).trans ?_
  change (pngRead f 25 1 >>= _) = _
  rw [r6]
  simp only [Res.ok_bind, List.headD_cons]
  cases pngColspace p.colourType with
  | ok cs =>
    simp only [Res.ok_bind]
    change (pngRead f 26 1 >>= _) = _
    rw [r7]
    simp only [Res.ok_bind]
    rw [if_neg (by simp)]
    change (pngRead f 27 1 >>= _) = _
    rw [r8]
    simp only [Res.ok_bind]
    rw [if_neg (by simp)]
    change (pngRead f 28 1 >>= _) = _
    rw [r9]
    simp only [Res.ok_bind]
    rw [if_neg (by simp)]
    rw [hl]
    rfl
  | _ => rfl

/-- A file whose dimensions and chunk lengths are below 32768 and that has no empty chunks is read to its end. -/
theorem parsePng_read (zip : Bytes → Bytes) (unzip : Bytes → Option Bytes) {p : Png} (hp : p.Wf 0x8000) (hne : ∀ c ∈ p.chunks, c.data ≠ []) (hb : p.bitDepth ≤ 8) :
    parsePng zip unzip p.bytes = (do
      let cs ← pngColspace p.colourType
      let acc ← accChunks p.colourType {} p.chunks
      pngFinish zip unzip p.w p.h p.bitDepth p.colourType cs acc) := by
  have hw := hp.w
  have hh := hp.h
  rw [parsePng_head zip unzip (by omega) (by omega) hp.crc.1, if_neg (by simpa using hb)]
  have hlen : p.chunks.length ≤ (p.chunks.flatMap Chunk.bytes).length := by
    have : ∀ l : List Chunk, l.length ≤ (l.flatMap Chunk.bytes).length := by
      intro l
      induction l with
      | nil => simp
      | cons c l ih => simp only [List.flatMap_cons, List.length_append, List.length_cons, Chunk.bytes, be32]; omega
    exact this _
  rw [pngLoop_chunks p.colourType p.chunks (pngHead p) {} (p.bytes.length + 1) (f := p.bytes) (crc := p.iendCrc) rfl
    (fun c hc => ⟨(hp.chunk c hc).1, (hp.chunk c hc).2.1, (hp.chunk c hc).2.2.1, (hp.chunk c hc).2.2.2, hne c hc⟩)
    (by simp only [Png.bytes, List.length_append]; omega)]
  unfold pngDim
  rw [if_neg (by omega), if_neg (by omega)]

theorem accChunks_ok {ct : UInt8} (h0 : ct ≠ 0) (h2 : ct ≠ 2) : ∀ (cs : List Chunk) (acc : PngAcc), ∃ a, accChunks ct acc cs = .ok a := by
  intro cs
  induction cs with
  | nil => intro acc; exact ⟨acc, rfl⟩
  | cons c cs ih =>
    intro acc
    have : ∃ a, accChunk ct acc c = .ok a := by
      unfold accChunk pngTrns
      rw [if_neg h0, if_neg h2]
      by_cases h1 : c.typ = b!"PLTE"
      · simp [h1]
      by_cases h3 : c.typ = b!"tRNS"
      · simp only [h1, h3, if_true]
        cases index [0] c.data <;> simp
      by_cases h4 : c.typ = b!"IDAT"
      · simp [h4]
      · simp [h1, h3, h4]
    obtain ⟨a, ha⟩ := this
    obtain ⟨b, hb⟩ := ih a
    exact ⟨b, by simp [accChunks, ha, hb]⟩

/-! ### C42 -/

/-- C42 for colour images: if the decompressed data of an 8-bit RGB image with alpha holds all rows, then the image is stored as two
compressed planes whose decoded samples (with the predictors the written dictionaries declare) are the colour samples and the alpha
samples of the image.  Partial: dimensions and chunk lengths below 32768 (see C41), no empty chunks (see C57). -/
theorem C42_rgb_planes_partial (zip : Bytes → Bytes) (unzip : Bytes → Option Bytes) {p : Png} (hp : p.Wf 0x8000) (hne : ∀ c ∈ p.chunks, c.data ≠ [])
    (hb : p.bitDepth = 8) (hct : p.colourType = 6) {z : Bytes} (hz : unzip p.idat = some z) (hlen : (1 + 4 * p.w) * p.h ≤ z.length) :
    ∃ info color alpha, parsePng zip unzip p.bytes = .ok info ∧ info.data = zip color ∧ info.smask = zip alpha ∧ info.w = p.w ∧ info.h = p.h ∧
      (∀ r < p.h, ∀ x < p.w, (∀ k < 3, sample 3 (by omega) p.w color r x k = sample 4 (by omega) p.w z r x k) ∧
        sample 1 (by omega) p.w alpha r x 0 = sample 4 (by omega) p.w z r x 3) ∧
      color.length = (1 + 3 * p.w) * p.h ∧ alpha.length = (1 + 1 * p.w) * p.h ∧ info.colspace = b!"DeviceRGB" ∧
      info.decodeParms = b!"/Predictor 15 /Colors  3 /BitsPerComponent 8 /Columns " ++ itoa p.w := by
  obtain ⟨acc, hacc⟩ := accChunks_ok (ct := 6) (by decide) (by decide) p.chunks {}
  have hd : acc.data = p.idat := by rw [accChunks_data hacc]; rfl
  obtain ⟨color, alpha, hs, hpl⟩ := splitRows_spec (m := 3) (w := p.w) (split := splitRgb) (splitRgb_spec p.w) (z := z) (h := p.h) hlen p.h 0 (by omega) [] []
    ⟨rfl, rfl, by intro r hr; omega, by intro r hr; omega, by intro r hr; omega, by intro r hr; omega⟩
  rw [parsePng_read zip unzip hp hne (by rw [hb]; decide), hct, hacc]
  have hcs : pngColspace 6 = .ok b!"DeviceRGB" := rfl
  rw [hcs]
  simp only [Res.ok_bind]
  unfold pngFinish
  rw [if_neg (by simp), hd, hz]
  simp only [Res.orErr_some, Res.ok_bind, Int.toNat_natCast]
  rw [if_pos (by decide), if_neg (by decide)]
  have hw : (4 : Int) * (p.w : Int) = (((3 + 1) * p.w : Nat) : Int) := by push_cast; omega
  have hs : splitRows splitRgb z (4 * (p.w : Int)) p.h 0 [] [] = .ok (color, alpha) := by rw [hw]; exact hs
  rw [hs]
  exact ⟨_, color, alpha, rfl, rfl, rfl, rfl, rfl, hpl.samples (by omega), hpl.clen, hpl.alen, rfl, by rw [hb]; rfl⟩

/-- a 2x1 image with alpha, one row, filter type 1 (Sub) -/
def alphaPng : Png :=
  { w := 2, h := 1, bitDepth := 8, colourType := 6, ihdrCrc := [1, 2, 3, 4], iendCrc := [5, 6, 7, 8]
    chunks := [⟨b!"tEXt", b!"hello", [0, 0, 0, 0]⟩, ⟨b!"IDAT", [1, 10, 20, 30, 255], [0, 0, 0, 0]⟩, ⟨b!"IDAT", [1, 1, 1, 129], [0, 0, 0, 0]⟩] }

-- the hypotheses are met (with stored instead of compressed data), and the planes are as expected
example : alphaPng.Wf 0x8000 ∧ (∀ c ∈ alphaPng.chunks, c.data ≠ []) ∧ (1 + 4 * alphaPng.w) * alphaPng.h ≤ alphaPng.idat.length :=
  ⟨⟨by decide, by decide, by decide, by decide⟩, by decide, by decide⟩
example : (parsePng id some alphaPng.bytes) = .ok { w := 2, h := 1, colspace := b!"DeviceRGB", bitsPerComponent := b!"8", filter := b!"FlateDecode", decodeParms := b!"/Predictor 15 /Colors  3 /BitsPerComponent 8 /Columns 2", data := [1, 10, 20, 30, 1, 1, 1], smask := [1, 255, 129] } := by decide +kernel

/-- C42 is violated for gray images with alpha: whatever the image, neither plane is stored. -/
theorem C42_refuted_gray (zip : Bytes → Bytes) (unzip : Bytes → Option Bytes) {p : Png} (hct : p.colourType = 4) (hp : p.Wf 0x80000000) {info : ImgInfo}
    (h : parsePng zip unzip p.bytes = .ok info) : info.data = [] ∧ info.smask = [] := by
  have hw := hp.w
  have hh := hp.h
  rw [parsePng_head zip unzip (by omega) (by omega) hp.crc.1, hct] at h
  split at h
  · simp at h
  simp only [Res.bind_eq_ok] at h
  obtain ⟨cs, _, acc, _, h⟩ := h
  unfold pngFinish at h
  split at h
  · simp at h
  rw [if_pos (by decide), Res.bind_eq_ok] at h
  obtain ⟨z, _, h⟩ := h
  rw [if_pos rfl, Res.bind_eq_ok] at h
  obtain ⟨_, _, h⟩ := h
  simp only [Res.ok.injEq] at h
  subst h
  exact ⟨rfl, rfl⟩

/-- a 1x2 gray image with alpha -/
def grayPng (x : UInt8) : Png :=
  { w := 1, h := 2, bitDepth := 8, colourType := 4, ihdrCrc := [1, 2, 3, 4], iendCrc := [5, 6, 7, 8]
    chunks := [⟨b!"IDAT", [0, x, 128, 0, 50, 255], [0, 0, 0, 0]⟩] }

/-- so different images give the same object -/
theorem C42_refuted_gray_same_object : ∃ i, parsePng id some (grayPng 1).bytes = .ok i ∧ parsePng id some (grayPng 2).bytes = .ok i ∧
    (grayPng 1).Wf 0x8000 ∧ (grayPng 2).Wf 0x8000 :=
  ⟨{ w := 1, h := 2, colspace := b!"DeviceGray", bitsPerComponent := b!"8", filter := b!"FlateDecode", decodeParms := b!"/Predictor 15 /Colors  1 /BitsPerComponent 8 /Columns 1" }, by decide +kernel, by decide +kernel,
   ⟨by decide, by decide, by decide, by decide⟩, ⟨by decide, by decide, by decide, by decide⟩⟩

/-! ### C57: the data of images without alpha -/

/-- transparency chunks have the length the format demands -/
def Spec.Png.TrnsOk (p : Png) : Prop := ∀ c ∈ p.chunks, c.typ = b!"tRNS" → (p.colourType = 0 → c.data.length = 2) ∧ (p.colourType = 2 → c.data.length = 6)

theorem accChunks_ok' {ct : UInt8} : ∀ (cs : List Chunk) (acc : PngAcc),
    (∀ c ∈ cs, c.typ = b!"tRNS" → (ct = 0 → c.data.length = 2) ∧ (ct = 2 → c.data.length = 6)) → ∃ a, accChunks ct acc cs = .ok a := by
  intro cs
  induction cs with
  | nil => intro acc _; exact ⟨acc, rfl⟩
  | cons c cs ih =>
    intro acc hc
    have : ∃ a, accChunk ct acc c = .ok a := by
      unfold accChunk pngTrns
      by_cases h1 : c.typ = b!"PLTE"
      · simp [h1]
      by_cases h3 : c.typ = b!"tRNS"
      · obtain ⟨l0, l2⟩ := hc c (List.mem_cons_self ..) h3
        simp only [h1, h3, if_true]
        by_cases c0 : ct = 0
        · have := l0 c0
          match hd : c.data, this with
          | [a, b], _ => simp [c0]
        by_cases c2 : ct = 2
        · have := l2 c2
          match hd : c.data, this with
          | [a, b, d, e, f, g], _ => simp [c2]
        · simp only [c0, c2, if_false]
          cases index [0] c.data <;> simp
      by_cases h4 : c.typ = b!"IDAT"
      · simp [h4]
      · simp [h1, h3, h4]
    obtain ⟨a, ha⟩ := this
    obtain ⟨b, hb⟩ := ih a (fun c hc' => hc c (List.mem_cons_of_mem _ hc'))
    exact ⟨b, by simp [accChunks, ha, hb]⟩

/-- C57: for gray and colour images without alpha and bit depth up to 8 the stored data is exactly the compressed data of all data chunks,
with the dimensions of the file.  Partial: dimensions and chunk lengths below 32768, no empty chunks. -/
theorem C57_data_kept_partial (zip : Bytes → Bytes) (unzip : Bytes → Option Bytes) {p : Png} (hp : p.Wf 0x8000) (hne : ∀ c ∈ p.chunks, c.data ≠ [])
    (hb : p.bitDepth ≤ 8) (hct : p.colourType = 0 ∨ p.colourType = 2) (ht : p.TrnsOk) :
    ∃ info, parsePng zip unzip p.bytes = .ok info ∧ info.data = p.idat ∧ info.smask = [] ∧ info.w = p.w ∧ info.h = p.h ∧
      info.colspace = (if p.colourType = 0 then b!"DeviceGray" else b!"DeviceRGB") ∧ info.bitsPerComponent = itoa p.bitDepth.toNat ∧
      info.decodeParms = b!"/Predictor 15 /Colors  " ++ itoa (if p.colourType = 0 then 1 else 3) ++ b!" /BitsPerComponent " ++ itoa p.bitDepth.toNat ++
        b!" /Columns " ++ itoa p.w := by
  obtain ⟨acc, hacc⟩ := accChunks_ok' (ct := p.colourType) p.chunks {} ht
  have hd : acc.data = p.idat := by rw [accChunks_data hacc]; rfl
  rw [parsePng_read zip unzip hp hne hb, hacc]
  rcases hct with hct | hct
  all_goals
    rw [hct]
    unfold pngColspace pngFinish
    simp [hd]

-- an 8-bit RGB image of one pixel with a transparent colour
example : parsePng id some (Png.bytes { w := 1, h := 1, bitDepth := 8, colourType := 2, ihdrCrc := [1, 2, 3, 4], iendCrc := [5, 6, 7, 8], chunks := [⟨b!"tRNS", [0, 1, 0, 2, 0, 3], [0, 0, 0, 0]⟩, ⟨b!"IDAT", [0, 7, 8, 9], [0, 0, 0, 0]⟩] }) =
    .ok { w := 1, h := 1, colspace := b!"DeviceRGB", bitsPerComponent := b!"8", filter := b!"FlateDecode", trns := [1, 2, 3], data := [0, 7, 8, 9], decodeParms := b!"/Predictor 15 /Colors  3 /BitsPerComponent 8 /Columns 1" } := by decide +kernel

/-- C57 is violated for files with an empty chunk, which the format allows: reading stops there and the rest of the data is lost. -/
theorem C57_refuted_empty_chunk : ∃ (p : Png) (info : ImgInfo), p.Wf 0x8000 ∧ p.bitDepth = 8 ∧ p.colourType = 0 ∧ p.TrnsOk ∧
    parsePng id some p.bytes = .ok info ∧ p.idat = [0, 7] ∧ info.data = [] :=
  ⟨{ w := 1, h := 1, bitDepth := 8, colourType := 0, ihdrCrc := [1, 2, 3, 4], iendCrc := [5, 6, 7, 8], chunks := [⟨b!"IDAT", [], [0, 0, 0, 0]⟩, ⟨b!"IDAT", [0, 7], [0, 0, 0, 0]⟩] },
   { w := 1, h := 1, colspace := b!"DeviceGray", bitsPerComponent := b!"8", filter := b!"FlateDecode", decodeParms := b!"/Predictor 15 /Colors  1 /BitsPerComponent 8 /Columns 1" },
   ⟨by decide, by decide, by decide, by decide⟩, rfl, rfl, by unfold Png.TrnsOk; decide, by decide +kernel, by decide, rfl⟩

/-! ### C56: PNG files crash -/

/-- C56 is violated: every PNG file whose first chunk after the header is a data chunk of 32768 to 65535 bytes makes the program crash,
whatever the image and the bytes (a negative number of bytes is allocated). -/
theorem C56_refuted_chunk_size (zip : Bytes → Bytes) (unzip : Bytes → Option Bytes) {p : Png} (hp : p.Wf 0x80000000) (hb : p.bitDepth ≤ 8)
    (hct : p.colourType ∈ [0, 2, 3, 4, 6]) {c : Chunk} {cs : List Chunk} (hc : p.chunks = c :: cs) (ht : c.typ = b!"IDAT")
    (h1 : 32768 ≤ c.data.length) (h2 : c.data.length < 65536) : parsePng zip unzip p.bytes = .panic := by
  have hw := hp.w
  have hh := hp.h
  rw [parsePng_head zip unzip (by omega) (by omega) hp.crc.1, if_neg (by simpa using hb)]
  have hcol : ∃ cs, pngColspace p.colourType = .ok cs := by
    unfold pngColspace
    simp only [List.mem_cons, List.not_mem_nil, or_false] at hct
    rcases hct with h | h | h | h | h <;> rw [h] <;> simp
  obtain ⟨col, hcol⟩ := hcol
  rw [hcol]
  simp only [Res.ok_bind]
  have hcrc : c.crc.length = 4 := (hp.chunk c (by simp [hc])).2.1
  have hf0 : p.bytes = pngHead p ++ be32 c.data.length ++ (c.typ ++ c.data ++ c.crc ++ (cs.flatMap Chunk.bytes ++ be32 0 ++ b!"IEND" ++ p.iendCrc)) := by
    simp [Png.bytes, pngHead, hc, Chunk.bytes, List.append_assoc]
  have hf1 : p.bytes = (pngHead p ++ be32 c.data.length) ++ b!"IDAT" ++ (c.data ++ c.crc ++ (cs.flatMap Chunk.bytes ++ be32 0 ++ b!"IEND" ++ p.iendCrc)) := by
    simp [Png.bytes, pngHead, hc, Chunk.bytes, List.append_assoc, ht]
  have r1 := pngReadInt_at hf0 (by omega) rfl
  rw [if_pos (by omega)] at r1
  have r2 := pngRead_at hf1 (by simp) (n := 4) rfl (pos := (pngHead p).length + 4) (by simp [be32])
  rw [pngLoop, r1]
  simp only [Res.ok_bind, r2]
  rw [if_neg (by decide), if_neg (by decide), if_pos trivial]
  have : pngRead p.bytes ((pngHead p).length + 4 + (b!"IDAT").length) ((c.data.length : Int) - 65536) = .panic := by
    unfold pngRead; rw [if_pos (by omega)]
  rw [this]
  rfl

-- such files exist
example : ∃ p : Png, p.Wf 0x80000000 ∧ p.bitDepth ≤ 8 ∧ p.colourType ∈ [0, 2, 3, 4, 6] ∧ ∃ c cs, p.chunks = c :: cs ∧ c.typ = b!"IDAT" ∧
    32768 ≤ c.data.length ∧ c.data.length < 65536 := by
  refine ⟨{ w := 200, h := 200, bitDepth := 8, colourType := 2, ihdrCrc := [1, 2, 3, 4], iendCrc := [5, 6, 7, 8], chunks := [⟨b!"IDAT", List.replicate 40000 1, [0, 0, 0, 0]⟩] }, ⟨by decide, by decide, by decide, ?_⟩, by decide, by decide, _, _, rfl, rfl, ?_, ?_⟩
  · intro c hc
    simp only [List.mem_cons, List.not_mem_nil, or_false] at hc
    subst hc
    refine ⟨rfl, rfl, ?_, by decide⟩
    rw [List.length_replicate]; omega
  · rw [List.length_replicate]; omega
  · rw [List.length_replicate]; omega

/-! ### C56: reading a file ends -/

theorem bind_ne_hang {α β : Type} {x : Res α} {f : α → Res β} (hx : x ≠ .hang) (hf : ∀ a, x = .ok a → f a ≠ .hang) : (x >>= f) ≠ .hang := by
  cases x with
  | ok a => exact hf a rfl
  | err e => simp
  | panic => simp
  | hang => exact absurd rfl hx

theorem pngRead_ok {f : Bytes} {pos : Nat} {n : Int} {d : Bytes} {q : Nat} (h : pngRead f pos n = .ok (d, q)) : pos ≤ q ∧ (0 < n → pos < q) ∧ pos < f.length := by
  unfold pngRead at h
  by_cases h1 : n < 0
  · rw [if_pos h1] at h; simp at h
  rw [if_neg h1] at h
  by_cases h2 : f.length ≤ pos
  · rw [if_pos h2] at h; simp at h
  rw [if_neg h2] at h
  simp only [Res.ok.injEq, Prod.mk.injEq, List.length_take, List.length_drop] at h
  omega

theorem pngRead_ne_hang (f : Bytes) (pos : Nat) (n : Int) : pngRead f pos n ≠ .hang := by
  unfold pngRead
  by_cases h1 : n < 0
  · rw [if_pos h1]; simp
  rw [if_neg h1]
  by_cases h2 : f.length ≤ pos
  · rw [if_pos h2]; simp
  · rw [if_neg h2]; simp

theorem pngReadInt_ok {f : Bytes} {pos : Nat} {v : Int} {q : Nat} (h : pngReadInt f pos = .ok (v, q)) : pos < q ∧ pos < f.length := by
  unfold pngReadInt at h
  rw [Res.bind_eq_ok] at h
  obtain ⟨⟨b, p1⟩, h1, h⟩ := h
  have := (pngRead_ok h1).2.1 (by omega)
  have := (pngRead_ok h1).2.2
  dsimp only at h
  split at h <;> simp at h <;> omega

theorem pngReadInt_ne_hang (f : Bytes) (pos : Nat) : pngReadInt f pos ≠ .hang := by
  unfold pngReadInt
  refine bind_ne_hang (pngRead_ne_hang _ _ _) ?_
  rintro ⟨b, q⟩ _
  dsimp only
  split <;> simp

theorem pngSeek_ne_hang (pos : Nat) (off : Int) : pngSeek pos off ≠ .hang := by
  unfold pngSeek; split <;> simp

theorem pngSeek_ok {pos : Nat} {off : Int} {q : Nat} (h : pngSeek pos off = .ok q) : (q : Int) = pos + off := by
  unfold pngSeek at h; split at h <;> simp at h; omega

theorem pngTrns_ne_hang (ct : UInt8) (t old : Bytes) : pngTrns ct t old ≠ .hang := by
  have ho : ∀ (o : Option UInt8), Res.ofOption o ≠ .hang := by intro o; cases o <;> simp
  unfold pngTrns
  by_cases h1 : ct = 0
  · rw [if_pos h1]; exact bind_ne_hang (ho _) (by intro a _; simp)
  rw [if_neg h1]
  by_cases h2 : ct = 2
  · rw [if_pos h2]
    exact bind_ne_hang (ho _) (fun _ _ => bind_ne_hang (ho _) (fun _ _ => bind_ne_hang (ho _) (by intro a _; simp)))
  rw [if_neg h2]
  cases index [0] t <;> simp

theorem pngLoop_ne_hang (f : Bytes) (ct : UInt8) : ∀ (fuel pos : Nat) (acc : PngAcc), 0 < fuel → f.length < pos + fuel → pngLoop f ct fuel pos acc ≠ .hang := by
  intro fuel
  induction fuel with
  | zero =>
    intro pos acc h0 _
    omega
  | succ fuel ih =>
    intro pos acc _ hf
    rw [pngLoop]
    refine bind_ne_hang (pngReadInt_ne_hang _ _) ?_
    rintro ⟨n, p1⟩ h1
    have g1 := pngReadInt_ok h1
    refine bind_ne_hang (pngRead_ne_hang _ _ _) ?_
    rintro ⟨typ, p2⟩ h2
    have g2 := (pngRead_ok h2).1
    dsimp only at g2 ⊢
    split
    · refine bind_ne_hang (pngRead_ne_hang _ _ _) ?_
      rintro ⟨d, p3⟩ h3
      have g3 := (pngRead_ok h3).1
      refine bind_ne_hang (pngSeek_ne_hang _ _) ?_
      intro p4 h4
      have g4 := pngSeek_ok h4
      split
      · simp
      · exact ih _ _ (by omega) (by omega)
    split
    · refine bind_ne_hang (pngRead_ne_hang _ _ _) ?_
      rintro ⟨d, p3⟩ h3
      have g3 := (pngRead_ok h3).1
      refine bind_ne_hang (pngTrns_ne_hang _ _ _) ?_
      intro t _
      refine bind_ne_hang (pngSeek_ne_hang _ _) ?_
      intro p4 h4
      have g4 := pngSeek_ok h4
      split
      · simp
      · exact ih _ _ (by omega) (by omega)
    split
    · refine bind_ne_hang (pngRead_ne_hang _ _ _) ?_
      rintro ⟨d, p3⟩ h3
      have g3 := (pngRead_ok h3).1
      refine bind_ne_hang (pngSeek_ne_hang _ _) ?_
      intro p4 h4
      have g4 := pngSeek_ok h4
      split
      · simp
      · exact ih _ _ (by omega) (by omega)
    split
    · simp
    · refine bind_ne_hang (pngSeek_ne_hang _ _) ?_
      intro p4 h4
      have g4 := pngSeek_ok h4
      split
      · simp
      · exact ih _ _ (by omega) (by omega)

theorem splitGray_ne_hang (l : Bytes) : splitGray l ≠ .hang := by
  fun_induction splitGray l with
  | case1 => simp
  | case2 => simp
  | case3 c a t ih => exact bind_ne_hang ih (by intro x _; simp)

theorem splitRgb_ne_hang (l : Bytes) : splitRgb l ≠ .hang := by
  fun_induction splitRgb l with
  | case1 => simp
  | case2 r g b a t ih => exact bind_ne_hang ih (by intro x _; simp)
  | case3 => simp

theorem splitRows_ne_hang {split : Bytes → Res (Bytes × Bytes)} (hs : ∀ l, split l ≠ .hang) (z : Bytes) (len : Int) :
    ∀ (n : Nat) (i : Int) (c a : Bytes), splitRows split z len n i c a ≠ .hang := by
  have ho : ∀ (o : Option UInt8), Res.ofOption o ≠ .hang := by intro o; cases o <;> simp
  intro n
  induction n with
  | zero => intro i c a; simp [splitRows]
  | succ n ih =>
    intro i c a
    rw [splitRows]
    dsimp only
    split
    · simp
    refine bind_ne_hang (ho _) ?_
    intro ft _
    split
    · simp
    exact bind_ne_hang (hs _) (fun _ _ => ih _ _ _)

/-- C56, the part that holds: reading a PNG file ends for every sequence of bytes. -/
theorem C56_reading_ends_partial (zip : Bytes → Bytes) (unzip : Bytes → Option Bytes) (f : Bytes) : parsePng zip unzip f ≠ .hang := by
  unfold parsePng
  have step : ∀ {c : Prop} [Decidable c] {x : Res ImgInfo}, x ≠ .hang → (if c then Res.err Err.other else x) ≠ .hang := by
    intro c _ x hx; split <;> simp [hx]
  refine bind_ne_hang (pngRead_ne_hang _ _ _) (fun _ _ => step ?_)
  refine bind_ne_hang (pngRead_ne_hang _ _ _) (fun _ _ => step ?_)
  refine bind_ne_hang (pngReadInt_ne_hang _ _) (fun _ _ => ?_)
  refine bind_ne_hang (pngReadInt_ne_hang _ _) (fun _ _ => ?_)
  refine bind_ne_hang (pngRead_ne_hang _ _ _) (fun _ _ => step ?_)
  refine bind_ne_hang (pngRead_ne_hang _ _ _) (fun _ _ => ?_)
  refine bind_ne_hang (by unfold pngColspace; repeat' (first | split | simp)) (fun _ _ => ?_)
  refine bind_ne_hang (pngRead_ne_hang _ _ _) (fun _ _ => step ?_)
  refine bind_ne_hang (pngRead_ne_hang _ _ _) (fun _ _ => step ?_)
  refine bind_ne_hang (pngRead_ne_hang _ _ _) (fun _ _ => step ?_)
  refine bind_ne_hang (pngLoop_ne_hang _ _ _ _ _ (by omega) (by omega)) (fun acc _ => step ?_)
  dsimp only
  split
  · refine bind_ne_hang (by cases unzip acc.data <;> simp) (fun _ _ => ?_)
    split
    · exact bind_ne_hang (splitRows_ne_hang splitGray_ne_hang _ _ _ _ _ _) (by intro _ _; simp)
    · exact bind_ne_hang (splitRows_ne_hang splitRgb_ne_hang _ _ _ _ _ _) (by rintro ⟨_, _⟩ _; simp)
  · simp

/-! ### C53 -/

theorem guard_ok {α : Type} {c : Prop} [Decidable c] {e : Err} {x : Res α} {a : α} (h : (if c then Res.err e else x) = .ok a) : ¬ c ∧ x = .ok a := by
  by_cases hc : c
  · rw [if_pos hc] at h; simp at h
  · rw [if_neg hc] at h; exact ⟨hc, h⟩

/-- C53 is violated for every image with a palette: the object written refers to object 1 and depends on the palette only through its
size, and no other object is made. -/
theorem C53_refuted_palette_lost (zip : Bytes → Bytes) (unzip : Bytes → Option Bytes) {f : Bytes} {info : ImgInfo} (h : parsePng zip unzip f = .ok info)
    (hi : info.colspace = b!"Indexed") :
    (∃ a b, imgBuild info = a ++ b!"/ColorSpace [/Indexed /DeviceRGB " ++ itoa ((info.pal.length / 3 : Nat) - 1 : Int) ++ b!" 1 0 R]\n" ++ b) ∧
      (∀ pal' : Bytes, pal'.length = info.pal.length → imgBuild { info with pal := pal' } = imgBuild info) ∧ createSMask info = none := by
  have hcol : ∀ {ct : UInt8} {cs : Bytes}, pngColspace ct = .ok cs → cs = b!"Indexed" → ct = 3 := by
    intro ct cs h1 h2
    subst h2
    unfold pngColspace at h1
    by_cases a1 : ct = 0 ∨ ct = 4
    · rw [if_pos a1] at h1; simp at h1
    rw [if_neg a1] at h1
    by_cases a2 : ct = 2 ∨ ct = 6
    · rw [if_pos a2] at h1; simp at h1
    rw [if_neg a2] at h1
    by_cases a3 : ct = 3
    · exact a3
    · rw [if_neg a3] at h1; simp at h1
  have hrgb : info.deviceRGBObjID = 0 ∧ info.smask = [] := by
    unfold parsePng at h
    rw [Res.bind_eq_ok] at h
    obtain ⟨⟨b, pos⟩, _, h⟩ := h
    obtain ⟨_, h⟩ := guard_ok h
    rw [Res.bind_eq_ok] at h
    obtain ⟨⟨b1, pos1⟩, _, h⟩ := h
    obtain ⟨_, h⟩ := guard_ok h
    rw [Res.bind_eq_ok] at h
    obtain ⟨⟨w, _⟩, _, h⟩ := h
    rw [Res.bind_eq_ok] at h
    obtain ⟨⟨hh, _⟩, _, h⟩ := h
    rw [Res.bind_eq_ok] at h
    obtain ⟨⟨bpc, _⟩, _, h⟩ := h
    obtain ⟨_, h⟩ := guard_ok h
    rw [Res.bind_eq_ok] at h
    obtain ⟨⟨ct, _⟩, _, h⟩ := h
    rw [Res.bind_eq_ok] at h
    obtain ⟨cs, hcs, h⟩ := h
    rw [Res.bind_eq_ok] at h
    obtain ⟨⟨cm, _⟩, _, h⟩ := h
    dsimp only at h hcs
    obtain ⟨_, h⟩ := guard_ok h
    rw [Res.bind_eq_ok] at h
    obtain ⟨⟨fm, _⟩, _, h⟩ := h
    obtain ⟨_, h⟩ := guard_ok h
    rw [Res.bind_eq_ok] at h
    obtain ⟨⟨il, _⟩, _, h⟩ := h
    obtain ⟨_, h⟩ := guard_ok h
    rw [Res.bind_eq_ok] at h
    obtain ⟨acc, _, h⟩ := h
    obtain ⟨_, h⟩ := guard_ok h
    split at h
    · rename_i hge
      rw [Res.bind_eq_ok] at h
      obtain ⟨z, _, h⟩ := h
      split at h
      · rw [Res.bind_eq_ok] at h
        obtain ⟨_, _, h⟩ := h
        injection h with h
        subst h; exact ⟨rfl, rfl⟩
      · rw [Res.bind_eq_ok] at h
        obtain ⟨⟨c, a⟩, _, h⟩ := h
        injection h with h
        subst h
        have := hcol hcs hi
        rw [this] at hge
        exact absurd hge (by decide)
    · injection h with h
      subst h; exact ⟨rfl, rfl⟩
  refine ⟨?_, ?_, ?_⟩
  · unfold imgBuild buildImgProp
    rw [if_pos hi, hrgb.1]
    refine ⟨b!"<</Type /XObject\n/Subtype /Image\n/Width " ++ itoa info.w ++ b!"\n/Height " ++ itoa info.h ++ b!"\n",
      b!"/BitsPerComponent " ++ info.bitsPerComponent ++ b!"\n" ++ (if trimSpace info.filter ≠ [] then b!"/Filter /" ++ info.filter ++ b!"\n" else []) ++
        (if trimSpace info.decodeParms ≠ [] then b!"/DecodeParms <<" ++ info.decodeParms ++ b!">>\n" else []) ++
        (if info.trns ≠ [] then b!"/Mask [" ++ info.trns.flatMap (fun t => itoa t.toNat ++ b!" " ++ itoa t.toNat ++ b!" ") ++ b!"]\n" else []) ++
        (if info.smask ≠ [] then b!"/SMask " ++ itoa info.smaskObjID ++ b!" 0 R\n" else []) ++
        b!"/Length " ++ itoa info.data.length ++ b!"\n>>\nstream\n" ++ info.data ++ b!"\nendstream\n", ?_⟩
    have : b!" " ++ (itoa (0 + 1) ++ b!" 0 R]\n") = b!" 1 0 R]\n" := rfl
    simp only [List.append_assoc, ← this]
  · intro pal' hl
    unfold imgBuild buildImgProp
    simp only [hl]
  · unfold createSMask; rw [if_pos hrgb.2]

/-- a 1x1 image with the palette of one colour -/
def palettePng (c : UInt8) : Png :=
  { w := 1, h := 1, bitDepth := 8, colourType := 3, ihdrCrc := [1, 2, 3, 4], iendCrc := [5, 6, 7, 8]
    chunks := [⟨b!"PLTE", [c, 0, 0], [0, 0, 0, 0]⟩, ⟨b!"IDAT", [0, 0], [0, 0, 0, 0]⟩] }

-- images with a red and a black palette give the same object
example : (parsePng id some (palettePng 255).bytes >>= fun i => Res.ok (imgBuild i)) = (parsePng id some (palettePng 1).bytes >>= fun i => Res.ok (imgBuild i)) ∧
    (parsePng id some (palettePng 255).bytes >>= fun i => Res.ok (i.colspace)) = .ok b!"Indexed" := by
  exact ⟨by decide +kernel, by decide +kernel⟩

end Verif
