import Verif.Theorems.Save
/-!
# Resource dictionaries after saving (C49, C64)
-/
namespace Verif
open Spec

/-- the two pages use the same resource object -/
def sharedRes : List Obj := [
  ⟨1, b!"<< /Type /Catalog /Pages 2 0 R >>"⟩,
  ⟨2, b!"<< /Type /Pages /Count 2 /Kids [ 3 0 R 4 0 R ] >>"⟩,
  ⟨3, b!"<< /Type /Page /Parent 2 0 R /MediaBox [0 0 595 842] /Resources 5 0 R /Contents 7 0 R >>"⟩,
  ⟨4, b!"<< /Type /Page /Parent 2 0 R /MediaBox [0 0 595 400] /Resources 5 0 R /Contents 8 0 R >>"⟩,
  ⟨5, b!"<< /ProcSet [/PDF] /Font << /F1 6 0 R >> >>"⟩,
  ⟨6, b!"<< /Type /Font >>"⟩,
  ⟨7, b!"<< /Length 5 >>\nstream\nq 7 Q\nendstream"⟩,
  ⟨8, b!"<< /Length 5 >>\nstream\nq 8 Q\nendstream"⟩]

/-- the keys of an object -/
def keysOf (objs : List Obj) (id : Int) : Option (List Bytes) := (entriesOf objs id).map (·.map (·.key))

set_option maxRecDepth 20000 in
/-- C49 is violated: the entries of a resource object that is used by two pages are doubled by every rewriting. -/
theorem C49_refuted : (App.openFrom plainEnv {} (fileOf sharedRes)).res = .ok () ∧
    keysOf (openedApp (fileOf sharedRes)).doc.objs 5 = some [b!"ProcSet", b!"Font"] ∧
    keysOf (savedObjs plainEnv (openedApp (fileOf sharedRes))) 5 =
      some [b!"ProcSet", b!"Font", b!"ProcSet", b!"Font", b!"ProcSet", b!"Font", b!"ProcSet", b!"Font", b!"XObject"] := by decide +kernel

/-- one page has its resources in place, the other in an object -/
def mixedRes : List Obj := [
  ⟨1, b!"<< /Type /Catalog /Pages 2 0 R >>"⟩,
  ⟨2, b!"<< /Type /Pages /Count 2 /Kids [ 3 0 R 4 0 R ] >>"⟩,
  ⟨3, b!"<< /Type /Page /Parent 2 0 R /MediaBox [0 0 595 842] /Resources << /Font << /F1 6 0 R >> >> /Contents 7 0 R >>"⟩,
  ⟨4, b!"<< /Type /Page /Parent 2 0 R /MediaBox [0 0 595 400] /Resources 5 0 R /Contents 8 0 R >>"⟩,
  ⟨5, b!"<< /ProcSet [/PDF] /Font << /F1 6 0 R >> >>"⟩,
  ⟨6, b!"<< /Type /Font >>"⟩,
  ⟨7, b!"<< /Length 5 >>\nstream\nq 7 Q\nendstream"⟩,
  ⟨8, b!"<< /Length 5 >>\nstream\nq 8 Q\nendstream"⟩]

set_option maxRecDepth 20000 in
/-- C64 is violated: if the resources of some page are in place, a reference to the resources of another page is cut to pieces.  The second page loses
its font although nothing was inserted. -/
theorem C64_refuted : (App.openFrom plainEnv {} (fileOf mixedRes)).res = .ok () ∧
    named (openedApp (fileOf mixedRes)).doc.objs 4 b!"Font" b!"F1" = some 6 ∧
    savedObjs plainEnv (openedApp (fileOf mixedRes)) ≠ [] ∧
    named (savedObjs plainEnv (openedApp (fileOf mixedRes))) 4 b!"Font" b!"F1" = none := by decide +kernel

end Verif
