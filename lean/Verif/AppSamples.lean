import Verif.Render
import Verif.Theorems.Text
/-
Concrete environments, files and values used in the examples and refutations about opening, editing and saving.
-/
namespace Verif

/-- decimal whole numbers -/
def wholeNumber (s : Bytes) : Option ℚ := (atoi s).map (fun n => (n : ℚ))

/-- no compression, maps are visited in order of insertion, images are JPEG files -/
def plainEnv : Env where
  decodeConfig _ := some ⟨b!"jpeg", .ycbcr, 2, 3⟩
  zip b := b
  unzip := some
  md5 b := b
  base64 := some
  parseFloat := wholeNumber
  upper := sampleUpper
  order _ := Shuffle.id
  realloc := true

/-- a file with these objects; object 1 is the catalog -/
def fileOf (objs : List Obj) : Bytes := toStream objs 1 (maxID objs).toNat none

/-- a value that has opened this file -/
def openedApp (raw : Bytes) : App := (App.openFrom plainEnv {} raw).state

/-- the objects written by `Save` (none if it fails) -/
def savedObjs (env : Env) (a : App) : List Obj :=
  match a.build env with
  | .ok b => b.doc.objs
  | _ => []

/-- resource name and object number of every inserted image after `Save` -/
def savedImgs (env : Env) (a : App) : List (Bytes × Int) :=
  match a.build env with
  | .ok b => b.app.imgs.map (fun i => (i.xObjChar ++ itoa i.xObjIndex, i.objID))
  | _ => []

/-- the resource name of every added font after `Save` -/
def savedFonts (env : Env) (a : App) : List (Bytes × Int) :=
  match a.build env with
  | .ok b => b.app.fonts.map (fun f => (b!"F" ++ itoa f.fontIndex, f.fontID))
  | _ => []

/-- a font with the characters space, A, B and C -/
def drawFont : Ttf :=
  { tables := [(b!"glyf", ⟨0, 2, 16⟩), (b!"cvt ", ⟨7, 18, 2⟩)], indexToLocFormat := 1, numGlyphs := 5, locaTable := [0, 4, 8, 12, 16, 16],
    fontData := [9, 9, 0, 1, 10, 11, 0, 1, 12, 13, 0, 1, 14, 15, 0, 1, 16, 17, 5, 6, 7, 8]
    unitsPerEm := 1000, numberOfHMetrics := 5, widths := [500, 250, 600, 650, 700]
    segCount := 3, startCount := [32, 65, 0xFFFF], endCount := [32, 67, 0xFFFF], idDelta := [65505, 65473, 1], idRangeOffset := [0, 0, 0] }

/-- one page whose resources are written in the page, with two fonts and two images -/
def onePage : List Obj := [
  ⟨1, b!"<< /Type /Catalog /Pages 2 0 R >>"⟩,
  ⟨2, b!"<< /Type /Pages /Count 1 /Kids [ 3 0 R ] >>"⟩,
  ⟨3, b!"<< /Type /Page /Parent 2 0 R /MediaBox [0 0 595 842] /Resources << /Font << /F1 5 0 R /C2_0 5 0 R >> /XObject << /Im5 6 0 R /Im2 7 0 R >> >> /Contents 4 0 R >>"⟩,
  ⟨4, b!"<< /Length 5 >>\nstream\nq 7 Q\nendstream"⟩,
  ⟨5, b!"<< /Type /Font >>"⟩,
  ⟨6, b!"<< /Type /XObject >>"⟩,
  ⟨7, b!"<< /Type /XObject >>"⟩]

end Verif
