import Verif.Theorems.Fonts
/-
C49: what the step that adds the fonts makes of shared resource objects, for every flat document.
-/
namespace Verif
open Spec

variable {tree : Int} {ct node : Props} {pages : List FlatPage} {new : List CrFont}

theorem copies_keys (n : Nat) (ps : Props) (k : Bytes) : ((copies n ps).map (·.key)).count k = n * (ps.map (·.key)).count k := by
  induction n with
  | zero => simp [copies]
  | succ n ih => rw [copies_succ, List.map_append, List.count_append, ih]; ring

/-- **C49** (violated for every resource object with a font list in place that pages share): the step that adds the fonts, even if there is no font to be added, writes every key of the
object as often as there are pages that share it. -/
theorem C49_refuted_all {σ : Nat → Shuffle} {d d' : Doc} {ids : List Int} (h : FlatDoc b!"Font" d.objs d.rootObjID tree ct node pages) (hr : FontsReadable d.objs pages)
    (hok : injectFonts σ d ids = .ok (d', new)) {g : FlatPage} (hg : g ∈ pages) {r : ResInfo} (hgr : g.res = some r) {j : Int} (hpl : r.place = some j) {fs : Props}
    (hf : FontAt d.objs r none fs) (hs : 2 ≤ sharers pages j) :
    ∃ rs, resDict d'.objs g.id = some rs ∧ (∀ k, (rs.map (·.key)).count k = sharers pages j * (r.entries.map (·.key)).count k) ∧ ¬ (rs.map (·.key)).Nodup := by
  obtain ⟨m, rfl, hi, _⟩ := injectFonts_flat h hr hok
  have hok := h.pagesOk g hg
  obtain ⟨t1, _, _, v, hv, hd⟩ := resEntries hok hgr
  have htv := mem_tidy hok.tidy (onlyKey_mem hv)
  obtain ⟨lf, hl, _⟩ := hi.low.2 g hg r none fs hgr hf
  have hw' := hf
  obtain ⟨w, hw, hfd⟩ := hw'
  rw [hpl] at hd
  have hk := page_kept h hg (fun r' fs' h1 h2 h3 => by
    rw [hgr] at h1
    cases h1
    rw [hpl] at h2
    simp at h2)
  have hc : ∀ k, ((setFirst b!"Font" (dictVal (fontProps (lf ++ newCrFonts m ids))) (copies (sharers pages j) r.entries)).map (·.key)).count k
      = sharers pages j * (r.entries.map (·.key)).count k := fun k => by rw [setFirst_keys, copies_keys]
  refine ⟨_, resDict_eq (entries_frame (hi.frame _ hk) hok.entries) (onlyKey_valueOf hv) (dictOf_ref htv hd.2.1 (hi.res g hg r fs lf j hgr hpl hf hl)), hc, fun hn => ?_⟩
  have h1 := List.nodup_iff_count_le_one.1 hn b!"Font"
  rw [hc] at h1
  have h2 : 0 < (r.entries.map (·.key)).count b!"Font" := by
    rw [List.count_pos_iff]
    by_contra hx
    rw [valueOf, Option.map_eq_some_iff] at hw
    obtain ⟨p, hp, _⟩ := hw
    exact hx (List.mem_map.2 ⟨p, List.mem_of_find?_eq_some hp, by simpa using List.find?_some hp⟩)
  have h3 := Nat.mul_le_mul hs h2
  omega

set_option maxRecDepth 20000 in
/-- two pages of the sample share the object 9 -/
example : FlatDoc b!"Font" flatDocument.objs flatDocument.rootObjID 2 (flatEntries 1) (flatEntries 2) flatPages ∧ FontsReadable flatDocument.objs flatPages ∧
    (match injectFonts (fun _ => .id) flatDocument [] with | .ok _ => true | _ => false) = true ∧ sharers flatPages 9 = 2 ∧
    ⟨4, flatEntries 4, some ⟨some 9, flatEntries 9⟩⟩ ∈ flatPages ∧ FontAt flatDocument.objs ⟨some 9, flatEntries 9⟩ none [⟨b!"F2", b!"12 0 R"⟩] :=
  ⟨flatSample_flat, flatSample_fonts, by decide +kernel, by decide +kernel, by decide +kernel, b!"<</F2 12 0 R>>", by decide +kernel, checkDictAt_ok (by decide +kernel)⟩

end Verif
