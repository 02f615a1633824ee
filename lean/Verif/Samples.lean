import Verif.Store
/-
Concrete documents used in the examples beside the theorems.
-/
namespace Verif

/-- three pages, two of them below an inner node -/
def sampleDoc : Doc :=
  { rootObjID := 1, xrefs := [], pageSizes := []
    objs := [
      ⟨1, b!"\n<< /Type /Catalog /Pages 2 0 R >>\n"⟩,
      ⟨2, b!"\n<< /Type /Pages /Count 3 /Kids [ 3 0 R 4 0 R ] /MediaBox [0 0 595 842] >>\n"⟩,
      ⟨3, b!"\n<< /Type /Page /Parent 2 0 R /Contents 7 0 R >>\n"⟩,
      ⟨4, b!"\n<< /Type /Pages /Count 2 /Kids [ 5 0 R 6 0 R ] /Parent 2 0 R >>\n"⟩,
      ⟨5, b!"\n<< /Type /Page /Parent 4 0 R /Contents 8 0 R >>\n"⟩,
      ⟨6, b!"\n<< /Type /Page /Parent 4 0 R /Contents 9 0 R >>\n"⟩,
      ⟨7, b!"\n<< /Length 4 >>\nstream\nq 7 Q\nendstream\n"⟩,
      ⟨8, b!"\n<< /Length 4 >>\nstream\nq 8 Q\nendstream\n"⟩,
      ⟨9, b!"\n<< /Length 4 >>\nstream\nq 9 Q\nendstream\n"⟩] }

end Verif
