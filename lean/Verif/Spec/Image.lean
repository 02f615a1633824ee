import Verif.Basic
/-
Image data, independent of the program: PNG (ISO 15948) chunks and filters, which are also the PNG predictors of PDF.
-/
namespace Verif.Spec

/-- big-endian 32-bit number -/
def be32 (n : Nat) : Bytes := [UInt8.ofNat (n / 16777216), UInt8.ofNat (n / 65536), UInt8.ofNat (n / 256), UInt8.ofNat n]

/-- a chunk: length, type, data, check sum -/
structure Chunk where
  typ : Bytes
  data : Bytes
  crc : Bytes

def Chunk.bytes (c : Chunk) : Bytes := be32 c.data.length ++ c.typ ++ c.data ++ c.crc

/-- a PNG file without interlacing: header, chunks in between, end -/
structure Png where
  w : Nat
  h : Nat
  bitDepth : UInt8
  colourType : UInt8
  ihdrCrc : Bytes
  chunks : List Chunk
  iendCrc : Bytes

def Png.bytes (p : Png) : Bytes :=
  [0x89, 0x50, 0x4e, 0x47, 0x0d, 0x0a, 0x1a, 0x0a] ++ be32 13 ++ b!"IHDR" ++ be32 p.w ++ be32 p.h ++ [p.bitDepth, p.colourType, 0, 0, 0] ++ p.ihdrCrc ++
    p.chunks.flatMap Chunk.bytes ++ be32 0 ++ b!"IEND" ++ p.iendCrc

/-- all data chunks together -/
def Png.idat (p : Png) : Bytes := (p.chunks.filter (fun c => c.typ = b!"IDAT")).flatMap Chunk.data

/-- What the format demands of the parts used here.  `lim` bounds the lengths and dimensions (2^31 in the standard). -/
structure Png.Wf (p : Png) (lim : Nat) : Prop where
  w : p.w < lim
  h : p.h < lim
  crc : p.ihdrCrc.length = 4 ∧ p.iendCrc.length = 4
  chunk : ∀ c ∈ p.chunks, c.typ.length = 4 ∧ c.crc.length = 4 ∧ c.data.length < lim ∧ c.typ ≠ b!"IEND"

/-- Paeth predictor -/
def paeth (a b c : UInt8) : UInt8 :=
  let p : Int := a.toNat + b.toNat - c.toNat
  let pa := (p - a.toNat).natAbs
  let pb := (p - b.toNat).natAbs
  let pc := (p - c.toNat).natAbs
  if pa ≤ pb ∧ pa ≤ pc then a else if pb ≤ pc then b else c

/-- the prediction for a byte from the one to the left `a`, above `b` and above left `c`, by filter type -/
def predict (ft : UInt8) (a b c : UInt8) : UInt8 :=
  if ft = 1 then a else if ft = 2 then b else if ft = 3 then UInt8.ofNat ((a.toNat + b.toNat) / 2) else if ft = 4 then paeth a b c else 0

/-- Undo the filter: byte `i` of row `r`, for `n` bytes per pixel, row filter types `ft` and filtered bytes `x`. -/
def unfilter (n : Nat) (hn : 0 < n) (ft : Nat → UInt8) (x : Nat → Nat → UInt8) (r i : Nat) : UInt8 :=
  let a := if _h : i < n then 0 else unfilter n hn ft x r (i - n)
  let b := if _h : r = 0 then 0 else unfilter n hn ft x (r - 1) i
  let c := if _h : i < n ∨ r = 0 then 0 else unfilter n hn ft x (r - 1) (i - n)
  x r i + predict (ft r) a b c
termination_by (r, i)
decreasing_by
  all_goals simp_wf
  all_goals first
    | (apply Prod.Lex.right; omega)
    | (apply Prod.Lex.left; omega)

/-- The sample `k` of the pixel in column `x` and row `r` of an image with `n` samples of 8 bits per pixel and `w` columns, given the
decompressed data. -/
def sample (n : Nat) (hn : 0 < n) (w : Nat) (z : Bytes) (r x k : Nat) : UInt8 :=
  unfilter n hn (fun r => z.getD ((1 + n * w) * r) 0) (fun r i => z.getD ((1 + n * w) * r + 1 + i) 0) r (n * x + k)

end Verif.Spec
