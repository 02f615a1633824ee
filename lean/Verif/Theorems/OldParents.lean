import Verif.Theorems.StdHist
/-
C80: /Parent of the pages after a page has been removed, for every page tree.
-/
namespace Verif
open Spec

/-- **C80** (violated for every page that was not directly below the root): when a page is removed, an independent reader finds every other page directly below the root, but its /Parent still
names the node that was above it before. -/
theorem C80_refuted_all {d : Doc} {r : Int} {root : List (Bytes × Val)} {ts : List Tree} (h : StdRoot d r root ts) {k : Int} (h1 : 1 ≤ k) (h2 : k ≤ (pagesL ts).length) {i : Int}
    (hi : i ∈ (pagesL ts).take (k - 1).toNat ++ (pagesL ts).drop k.toNat) {di : List (Bytes × Val)} (hd : StdDict d.objs i di) {p : Int} (hp : di.lookup b!"Parent" = some (.ref p)) (hpr : p ≠ r) :
    ∃ d' root' ts', removePage d k = .ok d' ∧ StdRoot d' r root' ts' ∧ .leaf i ∈ ts' ∧ StdDict d'.objs i di ∧ di.lookup b!"Parent" ≠ some (.ref r) := by
  obtain ⟨d', ids, e1, e2, e3, e4, _⟩ := C80_remove_partial h h1 h2
  subst e2
  refine ⟨d', _, _, e1, e3, List.mem_map_of_mem hi, StdDict.kept hd (fun o ho => e4 i o ?_ ho), ?_⟩
  · exact page_ne_root (StdTreeL.pages ts h.kids i (by
      rcases List.mem_append.1 hi with hm | hm
      · exact List.mem_of_mem_take hm
      · exact List.mem_of_mem_drop hm)) h.dict h.node
  · rw [hp]
    simpa using hpr

/-- page 5 of the sample -/
example : StdRoot sampleDoc 2 sampleRoot [.leaf 3, .node 4 [.leaf 5, .leaf 6]] ∧ ∃ di, StdDict sampleDoc.objs 5 di ∧ di.lookup b!"Parent" = some (.ref 4) :=
  ⟨sampleDoc_stdRoot, _, sampleDoc_pages.2.1, rfl⟩

end Verif
