import Verif.Store
/-
minigopdf/image_obj_parse.go, image_obj.go, smask_obj.go, img_info.go, pdf_image_data.go.

Simplifications: `image.DecodeConfig` (standard library), zlib and base64 are parameters.  Allocation never fails for non-negative sizes.
Slicing beyond the length of a slice panics (Go allows it up to the capacity, which only matters for PNG files with too little data).
-/
namespace Verif

/-- img_info.go:3-17 `imgInfo` -/
structure ImgInfo where
  w : Int := 0
  h : Int := 0
  colspace : Bytes := []
  bitsPerComponent : Bytes := []
  filter : Bytes := []
  decodeParms : Bytes := []
  trns : Bytes := []
  smask : Bytes := []
  smaskObjID : Int := 0
  pal : Bytes := []
  deviceRGBObjID : Int := 0
  data : Bytes := []
deriving DecidableEq

/-! ### reading numbers and bytes -/

/-- image_obj_parse.go:428-435 `readBytes` on a `bytes.Reader` at position `pos`: `make` panics for a negative size, reading at the
end is an error, a short read leaves the rest zero. -/
def pngRead (f : Bytes) (pos : Nat) (n : Int) : Res (Bytes × Nat) :=
  if n < 0 then .panic
  else if f.length ≤ pos then .err .other
  else
    let got := (f.drop pos).take n.toNat
    .ok (got ++ List.replicate (n.toNat - got.length) 0, pos + got.length)

/-- `binary.BigEndian.Uint32` -/
def beUint32 (b : Bytes) : Nat := b.foldl (fun n c => n * 256 + c.toNat) 0

/-- image_obj_parse.go:403-426 `readUInt`, `readInt` -/
def pngReadInt (f : Bytes) (pos : Nat) : Res (Int × Nat) := do
  let (b, pos) ← pngRead f pos 4
  let u := beUint32 b
  if u ≥ 0x8000 then .ok ((u : Int) - 65536, pos) else .ok ((u : Int), pos)

/-- `f.Seek(off, 1)`: a negative position is an error -/
def pngSeek (pos : Nat) (off : Int) : Res Nat :=
  if (pos : Int) + off < 0 then .err .other else .ok ((pos : Int) + off).toNat

/-! ### PNG -/

/-- image_obj_parse.go:219-221: palette, transparency, data -/
structure PngAcc where
  pal : Bytes := []
  trns : Bytes := []
  data : Bytes := []
deriving DecidableEq

/-- image_obj_parse.go:251-260: the transparency entry -/
def pngTrns (ct : UInt8) (t old : Bytes) : Res Bytes :=
  if ct = 0 then do
    let a ← Res.ofOption t[1]?
    .ok [a]
  else if ct = 2 then do
    let a ← Res.ofOption t[1]?
    let b ← Res.ofOption t[3]?
    let c ← Res.ofOption t[5]?
    .ok [a, b, c]
  else
    match index [0] t with
    | some p => .ok [UInt8.ofNat p]
    | none => .ok old

/-- image_obj_parse.go:222-291: the loop over the chunks -/
def pngLoop (f : Bytes) (ct : UInt8) : Nat → Nat → PngAcc → Res PngAcc
  | 0, _, _ => .hang
  | fuel + 1, pos, acc => do
    let (n, pos) ← pngReadInt f pos
    let (typ, pos) ← pngRead f pos 4
    if typ = b!"PLTE" then do
      let (d, pos) ← pngRead f pos n
      let pos ← pngSeek pos 4
      let acc := { acc with pal := d }
      if n ≤ 0 then .ok acc else pngLoop f ct fuel pos acc
    else if typ = b!"tRNS" then do
      let (t, pos) ← pngRead f pos n
      let trns ← pngTrns ct t acc.trns
      let pos ← pngSeek pos 4
      let acc := { acc with trns := trns }
      if n ≤ 0 then .ok acc else pngLoop f ct fuel pos acc
    else if typ = b!"IDAT" then do
      let (d, pos) ← pngRead f pos n
      let pos ← pngSeek pos 4
      let acc := { acc with data := acc.data ++ d }
      if n ≤ 0 then .ok acc else pngLoop f ct fuel pos acc
    else if typ = b!"IEND" then .ok acc
    else do
      let pos ← pngSeek pos (n + 4)
      if n ≤ 0 then .ok acc else pngLoop f ct fuel pos acc

/-- image_obj_parse.go:339-346: colour and alpha bytes of a row of a gray image with alpha; an odd rest panics -/
def splitGray : Bytes → Res (Bytes × Bytes)
  | [] => .ok ([], [])
  | [_] => .panic
  | c :: a :: t => do
    let (cs, as) ← splitGray t
    .ok (c :: cs, a :: as)

/-- image_obj_parse.go:360-366: colour and alpha bytes of a row of a colour image with alpha -/
def splitRgb : Bytes → Res (Bytes × Bytes)
  | [] => .ok ([], [])
  | r :: g :: b :: a :: t => do
    let (cs, as) ← splitRgb t
    .ok (r :: g :: b :: cs, a :: as)
  | _ => .panic

/-- image_obj_parse.go:332-348, 353-369: the loop over the rows; `split` separates a row, `len` is its length, `n` rows from row `i` remain -/
def splitRows (split : Bytes → Res (Bytes × Bytes)) (z : Bytes) (len : Int) : Nat → Int → Bytes → Bytes → Res (Bytes × Bytes)
  | 0, _, color, alpha => .ok (color, alpha)
  | n + 1, i, color, alpha => do
    let pos := (1 + len) * i
    if pos < 0 then .panic
    else do
      let ft ← Res.ofOption z[pos.toNat]?
      -- afterZipData[pos+1 : pos+length+1]
      if len < 0 ∨ (z.length : Int) < pos + len + 1 then .panic
      else do
        let line := (z.drop (pos + 1).toNat).take len.toNat
        let (cs, as) ← split line
        splitRows split z len n (i + 1) (color ++ ft :: cs) (alpha ++ ft :: as)

def pngMagic : Bytes := [0x89, 0x50, 0x4e, 0x47, 0x0d, 0x0a, 0x1a, 0x0a]

/-- image_obj_parse.go:177-186: the colour space -/
def pngColspace (ct : UInt8) : Res Bytes :=
  if ct = 0 ∨ ct = 4 then .ok b!"DeviceGray"
  else if ct = 2 ∨ ct = 6 then .ok b!"DeviceRGB"
  else if ct = 3 then .ok b!"Indexed"
  else .err .other

/-- image_obj_parse.go:133-386 `paesePng`; `zip` is `compress` (388-401), `unzip` is zlib decompression -/
def parsePng (zip : Bytes → Bytes) (unzip : Bytes → Option Bytes) (f : Bytes) : Res ImgInfo := do
  let (b, pos) ← pngRead f 0 8
  if b ≠ pngMagic then .err .other
  else do
    let (b, pos) ← pngRead f (pos + 4) 4
    if b ≠ b!"IHDR" then .err .other
    else do
      let (w, pos) ← pngReadInt f pos
      let (h, pos) ← pngReadInt f pos
      let (bpc, pos) ← pngRead f pos 1
      let bpc := bpc.headD 0
      if bpc > 8 then .err .other
      else do
        let (ct, pos) ← pngRead f pos 1
        let ct := ct.headD 0
        let colspace ← pngColspace ct
        let (cm, pos) ← pngRead f pos 1
        if cm ≠ [0] then .err .other
        else do
          let (fm, pos) ← pngRead f pos 1
          if fm ≠ [0] then .err .other
          else do
            let (il, pos) ← pngRead f pos 1
            if il ≠ [0] then .err .other
            else do
              let acc ← pngLoop f ct (f.length + 1) (pos + 4) {}
              if colspace = b!"Indexed" ∧ trimSpace acc.pal = [] then .err .other
              else do
                let bits := itoa bpc.toNat
                let colors : Int := if colspace = b!"DeviceRGB" then 3 else 1
                let info : ImgInfo :=
                  { w := w, h := h, colspace := colspace, bitsPerComponent := bits, filter := b!"FlateDecode", trns := acc.trns, pal := acc.pal
                    decodeParms := b!"/Predictor 15 /Colors  " ++ itoa colors ++ b!" /BitsPerComponent " ++ bits ++ b!" /Columns " ++ itoa w }
                if ct ≥ 4 then do
                  let z ← Res.orErr .other (unzip acc.data)
                  if ct = 4 then do
                    -- the planes are computed and dropped
                    let _ ← splitRows splitGray z (2 * w) h.toNat 0 [] []
                    .ok info
                  else do
                    let (color, alpha) ← splitRows splitRgb z (4 * w) h.toNat 0 [] []
                    .ok { info with smask := zip alpha, data := zip color }
                else .ok { info with data := acc.data }

/-! ### all formats -/

inductive ColorModel where
  | ycbcr | gray | cmyk | other
deriving DecidableEq

/-- The result of `image.DecodeConfig` -/
structure ImgConfig where
  format : Bytes
  model : ColorModel
  width : Int
  height : Int

/-- image_obj_parse.go:111-128 `parseImgJpg` with 94: the data is the whole file -/
def parseJpg (cfg : ImgConfig) (f : Bytes) : Res ImgInfo := do
  let cs ← (match cfg.model with
    | .ycbcr => Res.ok b!"DeviceRGB"
    | .gray => .ok b!"DeviceGray"
    | .cmyk => .ok b!"DeviceCMYK"
    | .other => .err .other)
  .ok { w := cfg.width, h := cfg.height, colspace := cs, bitsPerComponent := b!"8", filter := b!"DCTDecode", data := f }

/-- The library functions images depend on -/
structure ImgEnv where
  decodeConfig : Bytes → Option ImgConfig
  zip : Bytes → Bytes
  unzip : Bytes → Option Bytes

/-- image_obj_parse.go:77-109 `parseImg` -/
def parseImg (env : ImgEnv) (f : Bytes) : Res ImgInfo := do
  let cfg ← Res.orErr .other (env.decodeConfig f)
  if cfg.format = b!"jpeg" then parseJpg cfg f
  else if cfg.format = b!"png" then parsePng env.zip env.unzip f
  else .ok {}

/-! ### the objects -/

/-- image_obj_parse.go:15-61 `buildImgProp` -/
def buildImgProp (i : ImgInfo) : Bytes :=
  b!"<</Type /XObject\n/Subtype /Image\n/Width " ++ itoa i.w ++ b!"\n/Height " ++ itoa i.h ++ b!"\n" ++
  (if i.colspace = b!"Indexed" then
    b!"/ColorSpace [/Indexed /DeviceRGB " ++ itoa ((i.pal.length / 3 : Nat) - 1 : Int) ++ b!" " ++ itoa (i.deviceRGBObjID + 1) ++ b!" 0 R]\n"
  else b!"/ColorSpace /" ++ i.colspace ++ b!"\n" ++ (if i.colspace = b!"DeviceCMYK" then b!"/Decode [1 0 1 0 1 0 1 0]\n" else [])) ++
  b!"/BitsPerComponent " ++ i.bitsPerComponent ++ b!"\n" ++
  (if trimSpace i.filter ≠ [] then b!"/Filter /" ++ i.filter ++ b!"\n" else []) ++
  (if trimSpace i.decodeParms ≠ [] then b!"/DecodeParms <<" ++ i.decodeParms ++ b!">>\n" else []) ++
  (if i.trns ≠ [] then b!"/Mask [" ++ i.trns.flatMap (fun t => itoa t.toNat ++ b!" " ++ itoa t.toNat ++ b!" ") ++ b!"]\n" else []) ++
  (if i.smask ≠ [] then b!"/SMask " ++ itoa i.smaskObjID ++ b!" 0 R\n" else [])

/-- image_obj.go:43-69 `build` without protection (pdft never sets it on an image) -/
def imgBuild (i : ImgInfo) : Bytes :=
  buildImgProp i ++ b!"/Length " ++ itoa i.data.length ++ b!"\n>>\nstream\n" ++ i.data ++ b!"\nendstream\n"

/-- image_obj.go:80-98 `CreateSMask`: the description of the mask, with the mask data as data (smask_obj.go:12 a separate field) -/
def createSMask (i : ImgInfo) : Option ImgInfo :=
  if i.smask = [] then none
  else some
    { w := i.w, h := i.h, colspace := b!"DeviceGray", bitsPerComponent := b!"8", filter := i.filter, data := i.smask
      decodeParms := b!"/Predictor 15 /Colors 1 /BitsPerComponent 8 /Columns " ++ itoa i.w }

end Verif
