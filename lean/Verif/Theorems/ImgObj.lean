import Verif.Lemmas.ImgObj
import Verif.Theorems.SavedImg
/-!
# The objects of images (C74)
-/
namespace Verif
open Spec

/-- an image object with these values -/
structure Spec.ImageStream (data : Bytes) (w h : Nat) (cs : Bytes) (bits : Nat) (filter : Bytes) (d : List (Bytes × Val)) (body : Bytes) : Prop where
  stream : StreamIs data d body
  type : nameEntry d b!"Type" = some b!"XObject"
  subtype : nameEntry d b!"Subtype" = some b!"Image"
  width : natEntry d b!"Width" = some w
  height : natEntry d b!"Height" = some h
  colour : nameEntry d b!"ColorSpace" = some cs
  bits : natEntry d b!"BitsPerComponent" = some bits
  filter : nameEntry d b!"Filter" = some filter

/-- what the compression library is trusted with: data is found again, and something is written -/
structure Spec.ZipOk (env : Env) : Prop where
  back : ∀ s, env.unzip (env.zip s) = some s
  some : ∀ s, env.zip s ≠ []

/-! ### what is read from the file -/

theorem accChunks_trns {ct : UInt8} : ∀ {cs : List Chunk} {acc acc' : PngAcc}, accChunks ct acc cs = .ok acc' → (∀ c ∈ cs, c.typ ≠ b!"tRNS") → acc'.trns = acc.trns
  | [], acc, acc', h, _ => by
    simp only [accChunks, Res.ok.injEq] at h
    rw [h]
  | c :: cs, acc, acc', h, hc => by
    simp only [accChunks, Res.bind_eq_ok] at h
    obtain ⟨x, hx, h⟩ := h
    rw [accChunks_trns h (fun c hc' => hc c (List.mem_cons_of_mem _ hc'))]
    unfold accChunk at hx
    rw [if_neg (hc c (by simp) : ¬ c.typ = b!"tRNS")] at hx
    split at hx
    · simp only [Res.ok.injEq] at hx; rw [← hx]
    split at hx
    · simp only [Res.ok.injEq] at hx; rw [← hx]
    · simp only [Res.ok.injEq] at hx; rw [← hx]

/-- one chunk with a transparent colour -/
theorem accChunks_one {ct : UInt8} {c : Chunk} {t : Bytes} (ht : ∀ old, pngTrns ct c.data old = .ok t) : ∀ {cs : List Chunk} {acc acc' : PngAcc}, accChunks ct acc cs = .ok acc' →
    cs.filter (fun c => c.typ = b!"tRNS") = [c] → acc'.trns = t
  | [], acc, acc', h, hc => by simp at hc
  | x :: cs, acc, acc', h, hc => by
    simp only [accChunks, Res.bind_eq_ok] at h
    obtain ⟨y, hy, h⟩ := h
    unfold accChunk at hy
    by_cases hx : x.typ = b!"tRNS"
    · rw [List.filter_cons_of_pos (by simpa using hx)] at hc
      simp only [List.cons.injEq] at hc
      obtain ⟨rfl, hc⟩ := hc
      rw [accChunks_trns h (fun c hc' e => by
        have := List.mem_filter (p := fun c : Chunk => decide (c.typ = b!"tRNS")) |>.2 ⟨hc', by simpa using e⟩
        rw [hc] at this
        simp at this)]
      rw [if_neg (by rw [hx]; decide), if_pos hx, ht] at hy
      simp only [Res.ok_bind, Res.ok.injEq] at hy
      rw [← hy]
    · rw [List.filter_cons_of_neg (by simpa using hx)] at hc
      exact accChunks_one ht h hc

/-- the file of an image with transparency: what is read -/
theorem parsePng_alpha (zip : Bytes → Bytes) (unzip : Bytes → Option Bytes) {p : Png} (hp : p.Wf 0x8000) (hne : ∀ c ∈ p.chunks, c.data ≠ []) (ht : ∀ c ∈ p.chunks, c.typ ≠ b!"tRNS")
    (hb : p.bitDepth = 8) (hct : p.colourType = 6) {z : Bytes} (hz : unzip p.idat = some z) (hlen : (1 + 4 * p.w) * p.h ≤ z.length) :
    ∃ pal color alpha, parsePng zip unzip p.bytes = .ok { w := p.w, h := p.h, colspace := b!"DeviceRGB", bitsPerComponent := b!"8", filter := b!"FlateDecode", pal := pal
                                                          data := zip color, smask := zip alpha
                                                          decodeParms := b!"/Predictor 15 /Colors  " ++ itoa 3 ++ b!" /BitsPerComponent " ++ itoa 8 ++ b!" /Columns " ++ itoa p.w } ∧
      (∀ r < p.h, ∀ x < p.w, (∀ k < 3, sample 3 (by omega) p.w color r x k = sample 4 (by omega) p.w z r x k) ∧
        sample 1 (by omega) p.w alpha r x 0 = sample 4 (by omega) p.w z r x 3) ∧
      color.length = (1 + 3 * p.w) * p.h ∧ alpha.length = (1 + 1 * p.w) * p.h := by
  obtain ⟨acc, hacc⟩ := accChunks_ok (ct := 6) (by decide) (by decide) p.chunks {}
  have hd : acc.data = p.idat := by rw [accChunks_data hacc]; rfl
  have htr : acc.trns = [] := accChunks_trns hacc ht
  obtain ⟨color, alpha, hs, hpl⟩ := splitRows_spec (m := 3) (w := p.w) (split := splitRgb) (splitRgb_spec p.w) (z := z) (h := p.h) hlen p.h 0 (by omega) [] []
    ⟨rfl, rfl, by intro r hr; omega, by intro r hr; omega, by intro r hr; omega, by intro r hr; omega⟩
  rw [parsePng_read zip unzip hp hne (by rw [hb]; decide), hct, hacc]
  have hcs : pngColspace 6 = .ok b!"DeviceRGB" := rfl
  rw [hcs]
  simp only [Res.ok_bind]
  unfold pngFinish
  rw [if_neg (by simp), hd, hz]
  simp only [Res.orErr_some, Res.ok_bind, Int.toNat_natCast]
  rw [if_pos (by decide), if_neg (by decide)]
  have hw : (4 : Int) * (p.w : Int) = (((3 + 1) * p.w : Nat) : Int) := by push_cast; omega
  have hs : splitRows splitRgb z (4 * (p.w : Int)) p.h 0 [] [] = .ok (color, alpha) := by rw [hw]; exact hs
  rw [hs]
  refine ⟨acc.pal, color, alpha, ?_, hpl.samples (by omega), hpl.clen, hpl.alen⟩
  simp only [Res.ok_bind, htr, hb]
  rfl

/-! ### samples -/

theorem natEntry_nat {d : List (Bytes × Val)} {k : Bytes} {n : Nat} (h : d.lookup k = some (.num n)) : natEntry d k = some n := by
  simp [natEntry, h]

theorem nameEntry_name {d : List (Bytes × Val)} {k v : Bytes} (h : d.lookup k = some (.name v)) : nameEntry d k = some v := by
  simp [nameEntry, h]

theorem imageSample_of {unzip : Bytes → Option Bytes} {data : Bytes} {w h : Nat} {cs : Bytes} {d : List (Bytes × Val)} {body z : Bytes} {n : Nat} (hn : 0 < n)
    (hi : ImageStream data w h cs 8 b!"FlateDecode" d body) (hcs : components cs = some n) (hz : unzip body = some z) (hl : (1 + n * w) * h ≤ z.length)
    (hd : d.lookup b!"DecodeParms" = some (.dict [(b!"Predictor", .num 15), (b!"Colors", .num n), (b!"BitsPerComponent", .num 8), (b!"Columns", .num w)]))
    {r x k : Nat} (hr : r < h) (hx : x < w) (hk : k < n) : imageSample unzip d body r x k = some (sample n hn w z r x k) := by
  have p1 : natEntry [(b!"Predictor", Val.num 15), (b!"Colors", .num n), (b!"BitsPerComponent", .num 8), (b!"Columns", .num w)] b!"Predictor" = some 15 :=
    natEntry_nat (n := 15) rfl
  have p2 : natEntry [(b!"Predictor", Val.num 15), (b!"Colors", .num n), (b!"BitsPerComponent", .num 8), (b!"Columns", .num w)] b!"Colors" = some n :=
    natEntry_nat rfl
  have p3 : natEntry [(b!"Predictor", Val.num 15), (b!"Colors", .num n), (b!"BitsPerComponent", .num 8), (b!"Columns", .num w)] b!"BitsPerComponent" = some 8 :=
    natEntry_nat (n := 8) rfl
  have p4 : natEntry [(b!"Predictor", Val.num 15), (b!"Colors", .num n), (b!"BitsPerComponent", .num 8), (b!"Columns", .num w)] b!"Columns" = some w :=
    natEntry_nat rfl
  simp only [imageSample, hi.width, hi.height, hi.colour, hcs, hi.filter, hz, hd, Option.bind_eq_bind, Option.bind_some, p1]
  rw [dif_pos hn, if_pos ⟨hr, hx, hk, trivial, by omega, hi.bits, p3, p2, p4, hl⟩]

/-! ### C74 -/

theorem put_only (d : Doc) (o : Obj) : OnlyObj (d.putNewObject o).1.objs (d.putNewObject o).2 { o with objID := (d.putNewObject o).2 } := by
  obtain ⟨n, hn⟩ : ∃ n, n = maxID d.objs + 1 := ⟨_, rfl⟩
  have hl : ∀ x ∈ d.objs, x.objID ≠ n := fun x hx => by have := le_maxID hx; omega
  show OnlyObj (d.objs ++ [{ o with objID := maxID d.objs + 1 }]) (maxID d.objs + 1) { o with objID := maxID d.objs + 1 }
  rw [← hn]
  unfold OnlyObj
  rw [List.filter_append, List.filter_eq_nil_iff.2 (fun x hx => by simpa using hl x hx)]
  simp

theorem parms_trim (s : Bytes) (w : Int) : trimSpace (47 :: s ++ itoa w) ≠ [] := by
  obtain ⟨t, e, he⟩ : ∃ t e, itoa w = t ++ [e] := by
    have := itoa_ne_nil w
    exact ⟨_, _, (List.dropLast_concat_getLast this).symm⟩
  have hp := itoa_plain w e (by rw [he]; simp)
  have := trimSpace_ends (a := []) (b := []) (x := 47 :: s ++ itoa w) (c := 47) (e := e) (by simp) (by simp) (by simp) (by rw [he, ← List.append_assoc, List.getLast?_concat]) (by decide) (by decide)
    hp.1 hp.2.1
  rw [List.nil_append, List.append_nil] at this
  rw [this]
  simp

set_option maxRecDepth 4000 in
/-- an image compressed with predictors -/
theorem flate_object {w h n bits : Nat} {cs P trns smask data : Bytes} {i : ImgInfo} (hcs : cs = b!"DeviceGray" ∨ cs = b!"DeviceRGB") (hw : i.w = w) (hh : i.h = h) (hc : i.colspace = cs)
    (hb : i.bitsPerComponent = itoa bits) (hf : i.filter = b!"FlateDecode") (hP : i.decodeParms = P) (ht : i.trns = trns) (hs : i.smask = smask) (hd : i.data = data)
    (hPt : trimSpace P ≠ []) (hPr : Part (b!"/DecodeParms <<" ++ P ++ b!">>\n")
      [(b!"DecodeParms", .dict [(b!"Predictor", .num 15), (b!"Colors", .num n), (b!"BitsPerComponent", .num bits), (b!"Columns", .num w)])]) :
    ∃ d, ImageStream (imgBuild i) w h cs bits b!"FlateDecode" d data ∧ d.lookup b!"SMask" = (if smask = [] then none else some (.ref i.smaskObjID)) ∧
      d.lookup b!"Mask" = (if trns = [] then none else some (.arr (trns.flatMap (fun t => [.num t.toNat, .num t.toNat])))) ∧ d.lookup b!"Decode" = none ∧
      d.lookup b!"DecodeParms" = some (.dict [(b!"Predictor", .num 15), (b!"Colors", .num n), (b!"BitsPerComponent", .num bits), (b!"Columns", .num w)]) := by
  subst hP ht hs hd hc
  have hnc : i.colspace ≠ b!"DeviceCMYK" := by rcases hcs with h | h <;> rw [h] <;> decide
  have hdict : imgDict i bits [(b!"DecodeParms", .dict [(b!"Predictor", .num 15), (b!"Colors", .num n), (b!"BitsPerComponent", .num bits), (b!"Columns", .num w)])] =
      [(b!"Type", .name b!"XObject"), (b!"Subtype", .name b!"Image"), (b!"Width", .num w), (b!"Height", .num h), (b!"ColorSpace", .name i.colspace),
        (b!"BitsPerComponent", .num bits), (b!"Filter", .name b!"FlateDecode"),
        (b!"DecodeParms", .dict [(b!"Predictor", .num 15), (b!"Colors", .num n), (b!"BitsPerComponent", .num bits), (b!"Columns", .num w)])] ++
      (if i.trns ≠ [] then [(b!"Mask", .arr (i.trns.flatMap (fun t => [.num t.toNat, .num t.toNat])))] else []) ++
      (if i.smask ≠ [] then [(b!"SMask", .ref i.smaskObjID)] else []) ++ [(b!"Length", .num i.data.length)] := by
    unfold imgDict
    rw [if_pos hPt, if_neg hnc, hw, hh, hf]
    simp only [Int.cast_natCast, List.append_assoc, List.cons_append, List.nil_append]
  have hst := imgBuild_reads (i := i) (bits := bits) (parms := [(b!"DecodeParms", .dict [(b!"Predictor", .num 15), (b!"Colors", .num n), (b!"BitsPerComponent", .num bits), (b!"Columns", .num w)])])
    (by rcases hcs with h | h <;> rw [h] <;> decide) (by rcases hcs with h | h <;> rw [h] <;> decide) hb (by rw [hf]; decide) (by rw [hf]; decide) (fun _ => hPr)
    (by rw [hdict]; by_cases h1 : i.trns = [] <;> by_cases h2 : i.smask = [] <;>
          simp only [h1, h2, ne_eq, not_true_eq_false, not_false_eq_true, if_true, if_false, List.map_append, List.map_cons, List.map_nil] <;> decide)
    (by rw [hdict]; by_cases h1 : i.trns = [] <;> by_cases h2 : i.smask = [] <;> simp only [h1, h2, ne_eq, not_true_eq_false, not_false_eq_true, if_true, if_false] <;> rfl)
  rw [hdict] at hst
  refine ⟨_, ⟨hst, rfl, rfl, natEntry_nat rfl, natEntry_nat rfl, rfl, natEntry_nat rfl, rfl⟩, ?_, ?_, ?_, rfl⟩
  all_goals
    by_cases h1 : i.trns = [] <;> by_cases h2 : i.smask = [] <;> simp only [h1, h2, ne_eq, not_true_eq_false, not_false_eq_true, if_true, if_false] <;> rfl

theorem parseImg_png {env : Env} {f : Bytes} {cfg : ImgConfig} (hcfg : env.decodeConfig f = some cfg) (hfmt : cfg.format = b!"png") :
    parseImg env.toImgEnv f = parsePng env.zip env.unzip f := by
  unfold parseImg
  rw [hcfg]
  simp only [Res.orErr_some, Res.ok_bind, hfmt]
  rfl

/-- **C74**, colour images with alpha of 8 bits.  Two objects are made: the image, which is read as an image of the size of the file whose samples are the colour samples
of the file, and its soft mask, a gray image of the same size whose samples are the alpha samples.  The image refers to the mask, which is the only object with its number.
Partial: dimensions and chunk lengths below 32768 (`C41_refuted_large_numbers`), no empty chunks (`C57_refuted_empty_chunk`); gray images with alpha lose their data
(`C42_refuted_gray`). -/
theorem C74_alpha_partial {env : Env} (he : ZipOk env) (a : App) {p : Png} {cfg : ImgConfig} (hcfg : env.decodeConfig p.bytes = some cfg) (hfmt : cfg.format = b!"png")
    (hp : p.Wf 0x8000) (hne : ∀ c ∈ p.chunks, c.data ≠ []) (ht : ∀ c ∈ p.chunks, c.typ ≠ b!"tRNS") (hb : p.bitDepth = 8) (hct : p.colourType = 6)
    {z : Bytes} (hz : env.unzip p.idat = some z) (hlen : (1 + 4 * p.w) * p.h ≤ z.length) :
    ∃ a' i n mask d body dm bodym, a.makeImg env p.bytes = .ok (a', i) ∧ a'.doc.objs = a.doc.objs ++ [⟨n, mask⟩] ∧ OnlyObj a'.doc.objs n ⟨n, mask⟩ ∧
      ImageStream i.buf p.w p.h b!"DeviceRGB" 8 b!"FlateDecode" d body ∧ d.lookup b!"SMask" = some (.ref n) ∧ d.lookup b!"Mask" = none ∧ d.lookup b!"Decode" = none ∧
      ImageStream mask p.w p.h b!"DeviceGray" 8 b!"FlateDecode" dm bodym ∧ dm.lookup b!"SMask" = none ∧ dm.lookup b!"Mask" = none ∧ dm.lookup b!"Decode" = none ∧
      ∀ r < p.h, ∀ x < p.w, (∀ k < 3, imageSample env.unzip d body r x k = some (sample 4 (by omega) p.w z r x k)) ∧
        imageSample env.unzip dm bodym r x 0 = some (sample 4 (by omega) p.w z r x 3) := by
  obtain ⟨pal, color, alpha, hinfo, hsam, hcl, hal⟩ := parsePng_alpha env.zip env.unzip hp hne ht hb hct hz hlen
  rw [← parseImg_png hcfg hfmt] at hinfo
  obtain ⟨P, hP⟩ : ∃ P, P = b!"/Predictor 15 /Colors  " ++ itoa 3 ++ b!" /BitsPerComponent " ++ itoa 8 ++ b!" /Columns " ++ itoa p.w := ⟨_, rfl⟩
  obtain ⟨M, hM⟩ : ∃ M, M = b!"/Predictor 15 /Colors 1 /BitsPerComponent 8 /Columns " ++ itoa p.w := ⟨_, rfl⟩
  have hP' := part_parms 3 8 p.w
  have hM' := part_parms_mask p.w
  have hPt : trimSpace P ≠ [] := by rw [hP]; exact parms_trim _ _
  have hMt : trimSpace M ≠ [] := by rw [hM]; exact parms_trim _ _
  rw [← hP] at hinfo hP'
  rw [← hM] at hM'
  obtain ⟨I, hI⟩ : ∃ I : ImgInfo, I = { w := p.w, h := p.h, colspace := b!"DeviceRGB", bitsPerComponent := b!"8", filter := b!"FlateDecode", pal := pal
                                        data := env.zip color, smask := env.zip alpha, decodeParms := P, smaskObjID := maxID a.doc.objs + 1 } := ⟨_, rfl⟩
  obtain ⟨K, hK⟩ : ∃ K : ImgInfo, K = { w := p.w, h := p.h, colspace := b!"DeviceGray", bitsPerComponent := b!"8", filter := b!"FlateDecode", data := env.zip alpha
                                        decodeParms := M } := ⟨_, rfl⟩
  have hmake : a.makeImg env p.bytes = .ok ({ a with doc := (a.doc.putNewObject ⟨0, imgBuild K⟩).1 }, { buf := imgBuild I }) := by
    unfold App.makeImg
    rw [hinfo]
    simp only [Res.ok_bind, createSMask, if_neg (he.some alpha), ← hM, hI, hK]
    rfl
  obtain ⟨d, i1, i2, i3, i4, i5⟩ := flate_object (i := I) (w := p.w) (h := p.h) (n := 3) (bits := 8) (cs := b!"DeviceRGB") (P := P) (trns := []) (smask := env.zip alpha) (data := env.zip color)
    (by simp) (by rw [hI]) (by rw [hI]) (by rw [hI]) (by rw [hI]; rfl) (by rw [hI]) (by rw [hI]) (by rw [hI]) (by rw [hI]) (by rw [hI]) hPt (by simpa using hP')
  obtain ⟨dm, k1, k2, k3, k4, k5⟩ := flate_object (i := K) (w := p.w) (h := p.h) (n := 1) (bits := 8) (cs := b!"DeviceGray") (P := M) (trns := []) (smask := []) (data := env.zip alpha)
    (by simp) (by rw [hK]) (by rw [hK]) (by rw [hK]) (by rw [hK]; rfl) (by rw [hK]) (by rw [hK]) (by rw [hK]) (by rw [hK]) (by rw [hK]) hMt (by simpa using hM')
  rw [if_neg (he.some alpha)] at i2
  refine ⟨_, _, maxID a.doc.objs + 1, imgBuild K, d, _, dm, _, hmake, rfl, put_only a.doc ⟨0, imgBuild K⟩, i1, by rw [i2, hI], by rw [i3]; rfl, i4, k1, by rw [k2]; rfl, by rw [k3]; rfl, k4,
    fun r hr x hx => ⟨fun k hk => ?_, ?_⟩⟩
  · rw [imageSample_of (n := 3) (by omega) i1 rfl (he.back _) (by omega) i5 hr hx hk, (hsam r hr x hx).1 k hk]
  · rw [imageSample_of (n := 1) (by omega) k1 rfl (he.back _) (by omega) k5 hr hx (by omega), (hsam r hr x hx).2]

/-- the file of an image without alpha: what is read -/
theorem parsePng_plain (zip : Bytes → Bytes) (unzip : Bytes → Option Bytes) {p : Png} (hp : p.Wf 0x8000) (hne : ∀ c ∈ p.chunks, c.data ≠ [])
    (hb : p.bitDepth ≤ 8) {cs : Bytes} {n : Nat} (hct : p.colourType = 0 ∧ cs = b!"DeviceGray" ∧ n = 1 ∨ p.colourType = 2 ∧ cs = b!"DeviceRGB" ∧ n = 3) (ht : p.TrnsOk) :
    ∃ acc, accChunks p.colourType {} p.chunks = .ok acc ∧
      parsePng zip unzip p.bytes = .ok { w := p.w, h := p.h, colspace := cs, bitsPerComponent := itoa p.bitDepth.toNat, filter := b!"FlateDecode", pal := acc.pal, trns := acc.trns
                                         data := p.idat
                                         decodeParms := b!"/Predictor 15 /Colors  " ++ itoa n ++ b!" /BitsPerComponent " ++ itoa p.bitDepth.toNat ++ b!" /Columns " ++ itoa p.w } := by
  obtain ⟨acc, hacc⟩ := accChunks_ok' (ct := p.colourType) p.chunks {} ht
  have hd : acc.data = p.idat := by rw [accChunks_data hacc]; rfl
  refine ⟨acc, hacc, ?_⟩
  rw [parsePng_read zip unzip hp hne hb, hacc]
  rcases hct with ⟨hct, rfl, rfl⟩ | ⟨hct, rfl, rfl⟩
  all_goals
    rw [hct]
    unfold pngColspace pngFinish
    simp [hd]

/-- the values of the transparent colour, from the bytes of its chunk -/
theorem pngTrns_values {ct : UInt8} {n : Nat} (hct : ct = 0 ∧ n = 1 ∨ ct = 2 ∧ n = 3) {vals : Bytes} (hl : vals.length = n) (old : Bytes) :
    pngTrns ct (vals.flatMap (fun v => [0, v])) old = .ok vals := by
  rcases hct with ⟨rfl, rfl⟩ | ⟨rfl, rfl⟩
  · match vals, hl with
    | [x], _ => rfl
  · match vals, hl with
    | [x, y, z], _ => rfl

/-- **C74**, gray and colour images without alpha, of up to 8 bits.  One object is made, which is read as an image of the size, the colour space and the depth of the file,
whose data are the data of the file, to be decoded with the predictors the file format uses; with 8 bits its samples are those of the file.  A transparent colour given in
the file becomes the mask of the image, each component as a range of one value.  Partial: dimensions and chunk lengths below 32768, no empty chunks. -/
theorem C74_plain_partial (env : Env) (a : App) {p : Png} {cfg : ImgConfig} (hcfg : env.decodeConfig p.bytes = some cfg) (hfmt : cfg.format = b!"png")
    (hp : p.Wf 0x8000) (hne : ∀ c ∈ p.chunks, c.data ≠ []) (hb : p.bitDepth ≤ 8) {cs : Bytes} {n : Nat}
    (hct : p.colourType = 0 ∧ cs = b!"DeviceGray" ∧ n = 1 ∨ p.colourType = 2 ∧ cs = b!"DeviceRGB" ∧ n = 3) (hn : 0 < n) (ht : p.TrnsOk) :
    ∃ i d, a.makeImg env p.bytes = .ok (a, i) ∧ ImageStream i.buf p.w p.h cs p.bitDepth.toNat b!"FlateDecode" d p.idat ∧ d.lookup b!"SMask" = none ∧ d.lookup b!"Decode" = none ∧
      d.lookup b!"DecodeParms" = some (.dict [(b!"Predictor", .num 15), (b!"Colors", .num n), (b!"BitsPerComponent", .num p.bitDepth.toNat), (b!"Columns", .num p.w)]) ∧
      ((∀ c ∈ p.chunks, c.typ ≠ b!"tRNS") → d.lookup b!"Mask" = none) ∧
      (∀ (c : Chunk) (vals : Bytes), p.chunks.filter (fun c => c.typ = b!"tRNS") = [c] → vals.length = n → c.data = vals.flatMap (fun v => [0, v]) →
        d.lookup b!"Mask" = some (.arr (vals.flatMap (fun v => [.num v.toNat, .num v.toNat])))) ∧
      (p.bitDepth = 8 → ∀ z, env.unzip p.idat = some z → (1 + n * p.w) * p.h ≤ z.length → ∀ r < p.h, ∀ x < p.w, ∀ k < n,
        imageSample env.unzip d p.idat r x k = some (sample n hn p.w z r x k)) := by
  obtain ⟨acc, hacc, hinfo⟩ := parsePng_plain env.zip env.unzip hp hne hb hct ht
  rw [← parseImg_png hcfg hfmt] at hinfo
  obtain ⟨P, hP⟩ : ∃ P, P = b!"/Predictor 15 /Colors  " ++ itoa n ++ b!" /BitsPerComponent " ++ itoa p.bitDepth.toNat ++ b!" /Columns " ++ itoa p.w := ⟨_, rfl⟩
  have hP' := part_parms n p.bitDepth.toNat p.w
  have hPt : trimSpace P ≠ [] := by rw [hP]; exact parms_trim _ _
  rw [← hP] at hinfo hP'
  obtain ⟨I, hI⟩ : ∃ I : ImgInfo, I = { w := p.w, h := p.h, colspace := cs, bitsPerComponent := itoa p.bitDepth.toNat, filter := b!"FlateDecode", pal := acc.pal, trns := acc.trns
                                        data := p.idat, decodeParms := P } := ⟨_, rfl⟩
  rw [← hI] at hinfo
  obtain ⟨d, i1, i2, i3, i4, i5⟩ := flate_object (i := I) (w := p.w) (h := p.h) (n := n) (bits := p.bitDepth.toNat) (cs := cs) (P := P) (trns := acc.trns) (smask := []) (data := p.idat)
    (by tauto) (by rw [hI]) (by rw [hI]) (by rw [hI]) (by rw [hI]) (by rw [hI]) (by rw [hI]) (by rw [hI]) (by rw [hI]) (by rw [hI]) hPt (by simpa using hP')
  refine ⟨{ buf := imgBuild I }, d, ?_, i1, by rw [i2]; rfl, i4, i5, ?_, ?_, ?_⟩
  · unfold App.makeImg
    rw [hinfo]
    simp only [Res.ok_bind]
    rw [show createSMask I = none by rw [hI]; rfl]
  · intro h
    rw [i3, accChunks_trns hacc h]
    rfl
  · intro c vals h hl hv
    have : acc.trns = vals := accChunks_one (fun old => by rw [hv]; exact pngTrns_values (by tauto) hl old) hacc h
    rw [i3, this, if_neg (by intro e; rw [e] at hl; simp at hl; omega)]
  · intro h8 z hz hl r hr x hx k hk
    rw [h8] at i1 i5
    exact imageSample_of hn i1 (by rcases hct with ⟨_, rfl, rfl⟩ | ⟨_, rfl, rfl⟩ <;> rfl) hz hl i5 hr hx hk

set_option maxRecDepth 4000 in
theorem dct_object {w h : Nat} {cs data : Bytes} {i : ImgInfo} (hcs : cs = b!"DeviceGray" ∨ cs = b!"DeviceRGB" ∨ cs = b!"DeviceCMYK") (hw : i.w = w) (hh : i.h = h) (hc : i.colspace = cs)
    (hb : i.bitsPerComponent = b!"8") (hf : i.filter = b!"DCTDecode") (hP : i.decodeParms = []) (ht : i.trns = []) (hs : i.smask = []) (hd : i.data = data) :
    ∃ d, ImageStream (imgBuild i) w h cs 8 b!"DCTDecode" d data ∧ d.lookup b!"SMask" = none ∧ d.lookup b!"Mask" = none ∧ d.lookup b!"DecodeParms" = none ∧
      d.lookup b!"Decode" = if cs = b!"DeviceCMYK" then some (.arr [.num 1, .num 0, .num 1, .num 0, .num 1, .num 0, .num 1, .num 0]) else none := by
  subst hd hc
  have hPt : ¬ trimSpace i.decodeParms ≠ [] := by rw [hP]; decide
  have hdict : imgDict i 8 [] = [(b!"Type", .name b!"XObject"), (b!"Subtype", .name b!"Image"), (b!"Width", .num w), (b!"Height", .num h), (b!"ColorSpace", .name i.colspace)] ++
      (if i.colspace = b!"DeviceCMYK" then [(b!"Decode", .arr [.num 1, .num 0, .num 1, .num 0, .num 1, .num 0, .num 1, .num 0])] else []) ++
      [(b!"BitsPerComponent", .num (8 : Nat)), (b!"Filter", .name b!"DCTDecode"), (b!"Length", .num i.data.length)] := by
    unfold imgDict
    rw [if_neg hPt, hw, hh, hf, ht, hs]
    simp
  have hst := imgBuild_reads (i := i) (bits := 8) (parms := [])
    (by rcases hcs with h | h | h <;> rw [h] <;> decide) (by rcases hcs with h | h | h <;> rw [h] <;> decide) hb (by rw [hf]; decide) (by rw [hf]; decide) (fun h => absurd h hPt)
    (by rw [hdict]; by_cases h1 : i.colspace = b!"DeviceCMYK" <;> simp only [h1, if_true, if_false, List.map_append, List.map_cons, List.map_nil] <;> decide)
    (by rw [hdict]; by_cases h1 : i.colspace = b!"DeviceCMYK" <;> simp only [h1, if_true, if_false] <;> rfl)
  rw [hdict] at hst
  refine ⟨_, ⟨hst, rfl, rfl, natEntry_nat rfl, natEntry_nat rfl, rfl, natEntry_nat ?_, ?_⟩, ?_, ?_, ?_, ?_⟩
  all_goals
    by_cases h1 : i.colspace = b!"DeviceCMYK" <;> simp only [h1, if_true, if_false] <;> rfl

/-- **C74**, JPEG: one object is made, an image of the size and colour space of the file whose data are the file, without mask; colours of four components are inverted. -/
theorem C74_jpeg (env : Env) (a : App) {f : Bytes} {cfg : ImgConfig} (hcfg : env.decodeConfig f = some cfg) (hfmt : cfg.format = b!"jpeg") {w h : Nat} (hw : cfg.width = w) (hh : cfg.height = h)
    {cs : Bytes} (hcs : cfg.model = .gray ∧ cs = b!"DeviceGray" ∨ cfg.model = .ycbcr ∧ cs = b!"DeviceRGB" ∨ cfg.model = .cmyk ∧ cs = b!"DeviceCMYK") :
    ∃ i d, a.makeImg env f = .ok (a, i) ∧ ImageStream i.buf w h cs 8 b!"DCTDecode" d f ∧ d.lookup b!"SMask" = none ∧ d.lookup b!"Mask" = none ∧ d.lookup b!"DecodeParms" = none ∧
      d.lookup b!"Decode" = if cs = b!"DeviceCMYK" then some (.arr [.num 1, .num 0, .num 1, .num 0, .num 1, .num 0, .num 1, .num 0]) else none := by
  obtain ⟨I, hI⟩ : ∃ I : ImgInfo, I = { w := w, h := h, colspace := cs, bitsPerComponent := b!"8", filter := b!"DCTDecode", data := f } := ⟨_, rfl⟩
  have hinfo : parseImg env.toImgEnv f = .ok I := by
    unfold parseImg
    rw [hcfg]
    simp only [Res.orErr_some, Res.ok_bind, hfmt, if_true]
    unfold parseJpg
    rcases hcs with ⟨h, rfl⟩ | ⟨h, rfl⟩ | ⟨h, rfl⟩ <;> rw [h, hI, hw, hh] <;> rfl
  obtain ⟨d, h1, h2, h3, h4, h5⟩ := dct_object (i := I) (w := w) (h := h) (cs := cs) (data := f) (by tauto) (by rw [hI]) (by rw [hI]) (by rw [hI]) (by rw [hI]) (by rw [hI]) (by rw [hI]) (by rw [hI])
    (by rw [hI]) (by rw [hI])
  refine ⟨{ buf := imgBuild I }, d, ?_, h1, h2, h3, h4, h5⟩
  unfold App.makeImg
  rw [hinfo]
  simp only [Res.ok_bind]
  rw [show createSMask I = none by rw [hI]; rfl]

/-- C74 is violated for files of any other format the program can be made to recognise (by importing its decoder): the call succeeds, and whatever the file the same
object is written, whose width and height are 0 and which has no data. -/
theorem C74_refuted_format (env : Env) (a : App) {f : Bytes} {cfg : ImgConfig} (hcfg : env.decodeConfig f = some cfg) (h1 : cfg.format ≠ b!"jpeg") (h2 : cfg.format ≠ b!"png") :
    a.makeImg env f = .ok (a, { buf := b!"<</Type /XObject\n/Subtype /Image\n/Width 0\n/Height 0\n/ColorSpace /\n/BitsPerComponent \n/Length 0\n>>\nstream\n\nendstream\n" }) := by
  have hinfo : parseImg env.toImgEnv f = .ok {} := by
    unfold parseImg
    rw [hcfg]
    simp only [Res.orErr_some, Res.ok_bind, if_neg h1, if_neg h2]
  unfold App.makeImg
  rw [hinfo]
  rfl

/-! ### whole calls, and `Save` -/

/-- **C74** for `InsertImg` (and with it `InsertImgBase64`): the image drawn is the one made from the file, and the document is as its making left it. -/
theorem C74_insertImg {env : Env} {a a' : App} {file : Bytes} {page : Int} {x y w h : ℚ} (hi : a.insertImg env file page x y w h = ⟨a', .ok ()⟩) :
    ∃ (a1 : App) (i : ImageData) (c : ImgContent), a.makeImg env file = .ok (a1, i) ∧ a'.doc = a1.doc ∧ a'.contents = a.contents ++ [.img c] ∧ a'.imgs[c.img]? = some i := by
  unfold App.insertImg at hi
  cases hm : a.makeImg env file with
  | ok r =>
    obtain ⟨a1, i⟩ := r
    rw [hm] at hi
    obtain ⟨d, rfl⟩ := makeImg_rest hm
    obtain ⟨ph, rfl⟩ := addImgContent_ok hi
    exact ⟨_, i, _, rfl, rfl, rfl, by simp⟩
  | err e => rw [hm] at hi; simp at hi
  | panic => rw [hm] at hi; simp at hi
  | hang => rw [hm] at hi; simp at hi

theorem numberImgs_buf (id : Int) : ∀ (l : List ImageData) {j : Nat} {i : ImageData}, l[j]? = some i → ∃ k, (numberImgs id l)[j]? = some k ∧ k.buf = i.buf
  | [], j, i, h => by simp at h
  | x :: t, 0, i, h => by
    simp only [List.getElem?_cons_zero, Option.some.injEq] at h
    subst h
    exact ⟨_, rfl, rfl⟩
  | x :: t, j + 1, i, h => by
    obtain ⟨k, h1, h2⟩ := numberImgs_buf (id + 1) t (by simpa using h)
    exact ⟨k, by simpa [numberImgs] using h1, h2⟩

theorem nameImgs_buf : ∀ (l : List ImageData) (cs : List CrXObj) {j : Nat} {i : ImageData}, l[j]? = some i → ∃ k, (nameImgs l cs)[j]? = some k ∧ k.buf = i.buf
  | [], cs, j, i, h => by simp at h
  | x :: t, [], j, i, h => ⟨i, h, rfl⟩
  | x :: t, c :: cs, 0, i, h => by
    simp only [List.getElem?_cons_zero, Option.some.injEq] at h
    subst h
    exact ⟨_, rfl, rfl⟩
  | x :: t, c :: cs, j + 1, i, h => by
    obtain ⟨k, h1, h2⟩ := nameImgs_buf t cs (by simpa using h)
    exact ⟨k, by simpa [nameImgs] using h1, h2⟩

theorem build_imgs {env : Env} {a : App} {b : Built} (h : a.build env = .ok b) {j : Nat} {i : ImageData} (hi : a.imgs[j]? = some i) : ∃ k, b.app.imgs[j]? = some k ∧ k.buf = i.buf := by
  unfold App.build at h
  rw [Res.bind_eq_ok] at h
  obtain ⟨⟨fonts, nextID⟩, hbf, h⟩ := h
  simp only at h
  rw [Res.bind_eq_ok] at h
  obtain ⟨⟨d, new⟩, hif, h⟩ := h
  simp only at h
  rw [Res.bind_eq_ok] at h
  obtain ⟨⟨pdf2, xs⟩, hii, h⟩ := h
  simp only at h
  rw [Res.bind_eq_ok] at h
  obtain ⟨streams, hst, h⟩ := h
  rw [Res.bind_eq_ok] at h
  obtain ⟨pdf3, hic, h⟩ := h
  rw [Res.bind_eq_ok] at h
  obtain ⟨objs, hen, h⟩ := h
  simp only [Res.ok.injEq] at h
  subst h
  obtain ⟨k, h1, h2⟩ := numberImgs_buf nextID a.imgs hi
  obtain ⟨m, h3, h4⟩ := nameImgs_buf _ xs h1
  exact ⟨m, h3, h4.trans h2⟩

/-- **C74** (whole `Save` of a flat document, without encryption).  The object made for an image is in the saved document, as the only object with its number, under the
number that the names of the image lead to (see C20); the object of its mask, which is no part of the page tree, is there unchanged.  Missing: deeper page trees. -/
theorem C74_saved_partial {env : Env} {a : App} {b : Built} {tree : Int} {ct node : Props} {pages : List FlatPage} {L : List PageC}
    (hinv : NumInv a) (hp : a.protection = none) (hb : a.build env = .ok b) (h : SaveDoc env.unzip a.doc.objs a.doc.rootObjID tree ct node pages L)
    {j : Nat} {i : ImageData} (hi : a.imgs[j]? = some i) :
    (∃ im, b.app.imgs[j]? = some im ∧ OnlyObj b.doc.objs im.objID ⟨im.objID, i.buf⟩) ∧
    ∀ n mask, OnlyObj a.doc.objs n mask → n ≠ a.doc.rootObjID → n ≠ tree → (∀ g ∈ pages, n ≠ g.id ∧ g.resPlace ≠ some n ∧ n ∉ g.refs b!"Font") → (∀ x ∈ L, n ≠ x.obj) →
      OnlyObj b.doc.objs n mask := by
  refine ⟨?_, fun n mask => C66_others_kept_partial hinv hp hb h n mask⟩
  obtain ⟨im, h1, h2⟩ := build_imgs hb hi
  obtain ⟨fids, d1, m, added, iids, d3, xs, c, n, streams, hs, hm, _, _, _, _, _, hsd⟩ := build_flat hinv hp hb h
  refine ⟨im, h1, ?_⟩
  rw [← h2]
  exact hsd.added _ (hs.img j im h1).2

/-! ### examples -/

/-- compression that marks its output -/
def markEnv : Env := { plainEnv with zip := fun s => 1 :: s, unzip := fun s => some s.tail, decodeConfig := fun _ => some ⟨b!"png", .other, 0, 0⟩ }

/-- `alphaPng`, its data marked -/
def markPng : Png := { alphaPng with chunks := ⟨b!"IDAT", [1], [0, 0, 0, 0]⟩ :: alphaPng.chunks }

/-- The hypotheses of `C74_alpha_partial` hold. -/
example : ZipOk markEnv ∧ (∃ cfg, markEnv.decodeConfig markPng.bytes = some cfg ∧ cfg.format = b!"png") ∧ markPng.Wf 0x8000 ∧ (∀ c ∈ markPng.chunks, c.data ≠ []) ∧
    (∀ c ∈ markPng.chunks, c.typ ≠ b!"tRNS") ∧ markPng.bitDepth = 8 ∧ markPng.colourType = 6 ∧
    ∃ z, markEnv.unzip markPng.idat = some z ∧ (1 + 4 * markPng.w) * markPng.h ≤ z.length :=
  ⟨⟨fun _ => rfl, fun _ => by simp [markEnv]⟩, ⟨_, rfl, rfl⟩, ⟨by decide, by decide, by decide, by decide⟩, by decide, by decide, rfl, rfl, [1, 10, 20, 30, 255, 1, 1, 1, 129], by decide, by decide⟩

/-- a pixel of each of two colours, one of which is transparent -/
def keyPng : Png :=
  { w := 2, h := 1, bitDepth := 8, colourType := 2, ihdrCrc := [1, 2, 3, 4], iendCrc := [5, 6, 7, 8]
    chunks := [⟨b!"tRNS", [0, 7, 0, 8, 0, 9], [0, 0, 0, 0]⟩, ⟨b!"IDAT", [1, 0, 7, 8, 9, 1, 2, 3], [0, 0, 0, 0]⟩] }

/-- The hypotheses of `C74_plain_partial` hold. -/
example : keyPng.Wf 0x8000 ∧ (∀ c ∈ keyPng.chunks, c.data ≠ []) ∧ keyPng.bitDepth ≤ 8 ∧ keyPng.TrnsOk ∧ keyPng.colourType = 2 ∧
    (∃ c, keyPng.chunks.filter (fun c => c.typ = b!"tRNS") = [c] ∧ c.data = [7, 8, 9].flatMap (fun v => [0, v])) ∧
    ∃ z, markEnv.unzip keyPng.idat = some z ∧ (1 + 3 * keyPng.w) * keyPng.h ≤ z.length :=
  ⟨⟨by decide, by decide, by decide, by decide⟩, by decide, by decide, by unfold Png.TrnsOk; decide, rfl, ⟨⟨b!"tRNS", [0, 7, 0, 8, 0, 9], [0, 0, 0, 0]⟩, rfl, rfl⟩,
    [0, 7, 8, 9, 1, 2, 3], rfl, by decide⟩

/-- The hypotheses of `C74_jpeg` hold. -/
example : ∃ env : Env, ∃ cfg, env.decodeConfig b!"x" = some cfg ∧ cfg.format = b!"jpeg" ∧ cfg.width = (3 : Nat) ∧ cfg.height = (4 : Nat) ∧ cfg.model = .cmyk :=
  ⟨{ plainEnv with decodeConfig := fun _ => some ⟨b!"jpeg", .cmyk, 3, 4⟩ }, _, rfl, rfl, rfl, rfl, rfl⟩

end Verif
