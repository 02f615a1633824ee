import Verif.AppSamples
import Verif.Spec.Save
/-
Refutations by concrete runs: C16, C17, C18, C19, C20, C22, C38, C39, C40, C44, C46.
-/
namespace Verif
open Spec

/-- the bytes written, if it succeeded -/
def outBytes : Res Bytes → Bytes
  | .ok b => b
  | _ => []

/-- a font added to a value -/
def withFont (a : App) (name : Bytes) : App :=
  { a with fonts := a.fonts ++ [{ name := name, state := { ttf := drawFont } }], fontMap := a.fontMap ++ [(name, a.fonts.length)] }

/-! ### C17, C18: font names -/

/-- a page below two inner nodes; it has a font /F1 -/
def deepPage : List Obj := [
  ⟨1, b!"<< /Type /Catalog /Pages 2 0 R >>"⟩,
  ⟨2, b!"<< /Type /Pages /Count 1 /Kids [ 3 0 R ] >>"⟩,
  ⟨3, b!"<< /Type /Pages /Parent 2 0 R /Count 1 /Kids [ 4 0 R ] >>"⟩,
  ⟨4, b!"<< /Type /Pages /Parent 3 0 R /Count 1 /Kids [ 5 0 R ] /Resources << /ProcSet [/PDF] >> >>"⟩,
  ⟨5, b!"<< /Type /Page /Parent 4 0 R /MediaBox [0 0 595 842] /Resources << /Font << /F1 7 0 R >> >> /Contents 6 0 R >>"⟩,
  ⟨6, b!"<< /Length 5 >>\nstream\nq 7 Q\nendstream"⟩,
  ⟨7, b!"<< /Type /Font >>"⟩]

/-- Below two inner nodes the page is not reached: the added font is called /F1 although the page has a font /F1, and it is not registered. -/
theorem C17_refuted_deep : (App.openFrom plainEnv {} (fileOf deepPage)).res = .ok () ∧
    getPageObjIDs (openedApp (fileOf deepPage)).doc = .ok [5] ∧
    savedFonts plainEnv (withFont (openedApp (fileOf deepPage)) b!"A") = [(b!"F1", 9)] ∧
    named (savedObjs plainEnv (withFont (openedApp (fileOf deepPage)) b!"A")) 5 b!"Font" b!"F1" = some 7 := by decide +kernel

/-- Opening the file and saving renames the font /C2_0 to /C20: the name of the page content no longer exists. -/
theorem C18_refuted : (App.openFrom plainEnv {} (fileOf onePage)).res = .ok () ∧
    named (openedApp (fileOf onePage)).doc.objs 3 b!"Font" b!"C2_0" = some 5 ∧
    savedObjs plainEnv (openedApp (fileOf onePage)) ≠ [] ∧
    named (savedObjs plainEnv (openedApp (fileOf onePage))) 3 b!"Font" b!"C2_0" = none := by decide +kernel

/-! ### C19, C20: image names -/

/-- the images of the page are listed in an object of their own -/
def xobjRef : List Obj := [
  ⟨1, b!"<< /Type /Catalog /Pages 2 0 R >>"⟩,
  ⟨2, b!"<< /Type /Pages /Count 1 /Kids [ 3 0 R ] >>"⟩,
  ⟨3, b!"<< /Type /Page /Parent 2 0 R /MediaBox [0 0 595 842] /Resources << /XObject 5 0 R >> /Contents 4 0 R >>"⟩,
  ⟨4, b!"<< /Length 5 >>\nstream\nq 7 Q\nendstream"⟩,
  ⟨5, b!"<< /Im1 6 0 R >>"⟩,
  ⟨6, b!"<< /Type /XObject >>"⟩]

/-- An /XObject entry that is a reference is replaced by an empty dictionary, even if no image is inserted. -/
theorem C19_refuted_reference : (App.openFrom plainEnv {} (fileOf xobjRef)).res = .ok () ∧
    named (openedApp (fileOf xobjRef)).doc.objs 3 b!"XObject" b!"Im1" = some 6 ∧
    savedObjs plainEnv (openedApp (fileOf xobjRef)) ≠ [] ∧
    named (savedObjs plainEnv (openedApp (fileOf xobjRef))) 3 b!"XObject" b!"Im1" = none := by decide +kernel

/-- an image with a name without a number -/
def xobjLogo : List Obj := [
  ⟨1, b!"<< /Type /Catalog /Pages 2 0 R >>"⟩,
  ⟨2, b!"<< /Type /Pages /Count 1 /Kids [ 3 0 R ] >>"⟩,
  ⟨3, b!"<< /Type /Page /Parent 2 0 R /MediaBox [0 0 595 842] /Resources << /XObject << /Logo 6 0 R /Im1 5 0 R >> >> /Contents 4 0 R >>"⟩,
  ⟨4, b!"<< /Length 5 >>\nstream\nq 7 Q\nendstream"⟩,
  ⟨5, b!"<< /Type /XObject >>"⟩,
  ⟨6, b!"<< /Type /XObject >>"⟩]

/-- An image whose name has no number is dropped, with everything after it. -/
theorem C19_refuted_name : (App.openFrom plainEnv {} (fileOf xobjLogo)).res = .ok () ∧
    named (openedApp (fileOf xobjLogo)).doc.objs 3 b!"XObject" b!"Logo" = some 6 ∧
    named (openedApp (fileOf xobjLogo)).doc.objs 3 b!"XObject" b!"Im1" = some 5 ∧
    savedObjs plainEnv (openedApp (fileOf xobjLogo)) ≠ [] ∧
    named (savedObjs plainEnv (openedApp (fileOf xobjLogo))) 3 b!"XObject" b!"Logo" = none ∧
    named (savedObjs plainEnv (openedApp (fileOf xobjLogo))) 3 b!"XObject" b!"Im1" = none := by decide +kernel

/-- three images inserted on the only page of the file -/
def threeImgs : App :=
  (((((openedApp (fileOf onePage)).insertImg plainEnv b!"x" 1 0 0 1 1).state.insertImg plainEnv b!"y" 1 0 0 1 1).state).insertImg plainEnv b!"z" 1 0 0 1 1).state

/-- The page has images /Im5 and /Im2: the third inserted image is drawn as /Im5, a name that belongs to an image of the file. -/
theorem C20_refuted_order : named (openedApp (fileOf onePage)).doc.objs 3 b!"XObject" b!"Im5" = some 6 ∧
    savedImgs plainEnv threeImgs = [(b!"Im3", 8), (b!"Im4", 9), (b!"Im5", 10)] ∧
    named (savedObjs plainEnv threeImgs) 3 b!"XObject" b!"Im5" = some 6 := by decide +kernel

/-- two pages with a resource object each -/
def twoPages : List Obj := [
  ⟨1, b!"<< /Type /Catalog /Pages 2 0 R >>"⟩,
  ⟨2, b!"<< /Type /Pages /Count 2 /Kids [ 3 0 R 4 0 R ] >>"⟩,
  ⟨3, b!"<< /Type /Page /Parent 2 0 R /MediaBox [0 0 595 842] /Resources 5 0 R /Contents 7 0 R >>"⟩,
  ⟨4, b!"<< /Type /Page /Parent 2 0 R /MediaBox [0 0 595 400] /Resources 6 0 R /Contents 8 0 R >>"⟩,
  ⟨5, b!"<< /ProcSet [/PDF] >>"⟩,
  ⟨6, b!"<< /ProcSet [/PDF] >>"⟩,
  ⟨7, b!"<< /Length 5 >>\nstream\nq 7 Q\nendstream"⟩,
  ⟨8, b!"<< /Length 5 >>\nstream\nq 8 Q\nendstream"⟩]

/-- two pages with a resource object each; the first has an image -/
def twoPagesImg : List Obj := [
  ⟨1, b!"<< /Type /Catalog /Pages 2 0 R >>"⟩,
  ⟨2, b!"<< /Type /Pages /Count 2 /Kids [ 3 0 R 4 0 R ] >>"⟩,
  ⟨3, b!"<< /Type /Page /Parent 2 0 R /MediaBox [0 0 595 842] /Resources 5 0 R /Contents 7 0 R >>"⟩,
  ⟨4, b!"<< /Type /Page /Parent 2 0 R /MediaBox [0 0 595 400] /Resources 6 0 R /Contents 8 0 R >>"⟩,
  ⟨5, b!"<< /ProcSet [/PDF] /XObject << /Im1 9 0 R >> >>"⟩,
  ⟨6, b!"<< /ProcSet [/PDF] >>"⟩,
  ⟨7, b!"<< /Length 5 >>\nstream\nq 7 Q\nendstream"⟩,
  ⟨8, b!"<< /Length 5 >>\nstream\nq 8 Q\nendstream"⟩,
  ⟨9, b!"<< /Type /XObject >>"⟩]

/-- an image inserted on the second page -/
def imgOnSecond : App := ((openedApp (fileOf twoPagesImg)).insertImg plainEnv b!"x" 2 0 0 1 1).state

/-- Of two pages with separate resources only one learns of the images: here the image drawn on page 2 is registered for page 1 only. -/
theorem C20_refuted_page : (App.openFrom plainEnv {} (fileOf twoPagesImg)).res = .ok () ∧ savedImgs plainEnv imgOnSecond = [(b!"Im2", 10)] ∧
    named (savedObjs plainEnv imgOnSecond) 3 b!"XObject" b!"Im2" = some 10 ∧
    named (savedObjs plainEnv imgOnSecond) 4 b!"XObject" b!"Im2" = none := by decide +kernel

/-- Without any /XObject in the file, the images are also written into the catalog, the page tree and the pages themselves. -/
theorem C62_refuted : ((entriesOf (openedApp (fileOf twoPages)).doc.objs 1).bind (valueOf · b!"XObject")) = none ∧
    ((entriesOf (savedObjs plainEnv (openedApp (fileOf twoPages))) 1).bind (valueOf · b!"XObject")) = some b!"<<>>" ∧
    ((entriesOf (savedObjs plainEnv (openedApp (fileOf twoPages))) 2).bind (valueOf · b!"XObject")) = some b!"<<>>" ∧
    ((entriesOf (savedObjs plainEnv (openedApp (fileOf twoPages))) 3).bind (valueOf · b!"XObject")) = some b!"<<>>" := by decide +kernel

/-! ### C22: saving twice -/

/-- Opening the file and saving twice writes two different files. -/
theorem C22_refuted : (App.openFrom plainEnv {} (fileOf onePage)).res = .ok () ∧
    outBytes ((openedApp (fileOf onePage)).saveTo plainEnv).2 ≠ [] ∧
    outBytes (((openedApp (fileOf onePage)).saveTo plainEnv).1.saveTo plainEnv).2 ≠ [] ∧
    outBytes ((openedApp (fileOf onePage)).saveTo plainEnv).2 ≠ outBytes (((openedApp (fileOf onePage)).saveTo plainEnv).1.saveTo plainEnv).2 := by
  decide +kernel

/-! ### C38: the height of the page -/

/-- After page 1 is removed, page 1 is the former page 2; its height is 400, but 842 is used. -/
theorem C38_refuted : ((openedApp (fileOf twoPages)).removePage 1).res = .ok () ∧
    getPageObjIDs ((openedApp (fileOf twoPages)).removePage 1).state.doc = .ok [4] ∧
    mediaBox ((openedApp (fileOf twoPages)).removePage 1).state.doc.objs 4 = some [b!"0", b!"0", b!"595", b!"400"] ∧
    pageHeight plainEnv ((openedApp (fileOf twoPages)).removePage 1).state.doc 1 = .ok 842 := by decide +kernel

/-! ### C39: a failed Insert -/

/-- `Insert` of "A" and a character the font does not have -/
def failedInsert : Step App :=
  ((withFont (openedApp (fileOf onePage)) b!"A").setFont plainEnv b!"A" [] 10).state.insert plainEnv (b!"A" ++ [0xF0, 0x9F, 0x98, 0x80]) 1 10 20 30 40 0 none

/-- The call fails, but the saved page content has the beginning of a text array, without its end. -/
theorem C39_refuted : failedInsert.res = .err .notFoundGlyph ∧
    (savedObjs plainEnv failedInsert.state)[3]? = some ⟨4, b!"<<\n/Length 79\n>>\nstream\nq 7 Q\n[] 0 d\n0.00 w\nBT\n10.00 822.00 TD\n/F21 10 Tf\n0.00 0.00 0.00 rg\n[<0002ET\n\r\nendstream"⟩ := by
  decide +kernel

/-! ### C40: measuring without a font -/

/-- `MeasureTextWidth` before any `SetFont` crashes. -/
theorem C40_refuted_measure : ((openedApp (fileOf onePage)).measureTextWidth plainEnv b!"A").2 = .panic := by decide +kernel

/-! ### C44: opening a second document -/

/-- A file that can be opened cannot be opened any more after another one: the positions of the first are looked up in the second. -/
theorem C44_refuted_fails : (App.openFrom plainEnv {} (fileOf onePage)).res = .ok () ∧ (App.openFrom plainEnv {} (fileOf twoPages)).res = .ok () ∧
    ((openedApp (fileOf twoPages)).openFrom plainEnv (fileOf onePage)).res = .err .other := by decide +kernel

/-- the value after opening the same file twice -/
def openedTwice : Step App := (openedApp (fileOf onePage)).openFrom plainEnv (fileOf onePage)

/-- Opening a file a second time succeeds, but every object is there three times (all rows read so far are read again) and pending content is there twice: the output differs
from that of a fresh value. -/
theorem C44_refuted_same : openedTwice.res = .ok () ∧ openedTwice.state.doc.objs.length = 3 * (openedApp (fileOf onePage)).doc.objs.length ∧
    openedTwice.state.contents.length = 2 * (openedApp (fileOf onePage)).contents.length ∧
    outBytes (openedTwice.state.saveTo plainEnv).2 ≠ [] ∧ outBytes ((openedApp (fileOf onePage)).saveTo plainEnv).2 ≠ [] ∧
    outBytes (openedTwice.state.saveTo plainEnv).2 ≠ outBytes ((openedApp (fileOf onePage)).saveTo plainEnv).2 := by
  decide +kernel

/-! ### C46: opening malformed files -/

/-- the media box is written in the node above the page -/
def inheritedBox : List Obj := [
  ⟨1, b!"<< /Type /Catalog /Pages 2 0 R >>"⟩,
  ⟨2, b!"<< /Type /Pages /Count 1 /Kids [ 3 0 R ] /MediaBox [0 0 595 842] >>"⟩,
  ⟨3, b!"<< /Type /Page /Parent 2 0 R /Contents 4 0 R >>"⟩,
  ⟨4, b!"<< /Length 5 >>\nstream\nq 7 Q\nendstream"⟩]

/-- Opening a file whose page inherits its media box crashes. -/
theorem C46_refuted_inherited : (App.openFrom plainEnv {} (fileOf inheritedBox)).res = .panic := by decide +kernel

/-- the node has itself as child -/
def cyclicKids : List Obj := [
  ⟨1, b!"<< /Type /Catalog /Pages 2 0 R >>"⟩,
  ⟨2, b!"<< /Type /Pages /Count 1 /Kids [ 2 0 R ] >>"⟩]

/-- Opening a file with a cyclic page tree does not return. -/
theorem C46_refuted_cycle : (App.openFrom plainEnv {} (fileOf cyclicKids)).res = .hang := by decide +kernel

/-- the list of pages has one number instead of a reference -/
def shortKids : List Obj := [
  ⟨1, b!"<< /Type /Catalog /Pages 2 0 R >>"⟩,
  ⟨2, b!"<< /Type /Pages /Count 1 /Kids [ 2 ] >>"⟩]

/-- Opening a file with a malformed list of pages crashes. -/
theorem C46_refuted_kids : (App.openFrom plainEnv {} (fileOf shortKids)).res = .panic := by decide +kernel

end Verif
