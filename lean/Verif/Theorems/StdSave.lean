import Verif.Lemmas.StdSaved
import Verif.Lemmas.FlatBuild
/-
C83: what an independent reader finds in a document after `Save`.
-/
namespace Verif
open Spec

section
variable {R N C : Int → Prop} {D : Int → List (Bytes × Val)} {env : Env} {a : App} {b : Built} {t : Tree}

theorem newCrFonts_pfx : ∀ (ids : List Int) (m : Int), ∀ c ∈ newCrFonts m ids, c.pfx = b!"F"
  | [], _, c, h => by simp [newCrFonts] at h
  | _ :: ids, m, c, h => by
    rw [newCrFonts] at h
    rcases List.mem_cons.1 h with rfl | h
    · rfl
    · exact newCrFonts_pfx ids _ c h

/-- the document before the contents are added -/
theorem before_contents {fids iids : List Int} {d1 d3 : Doc} {new : List CrFont} {added : List Obj} {xs : List CrXObj} {streams : List (Int × Bytes)}
    (hd : LinkedDoc a.doc.objs a.doc.rootObjID R N C D) (ht : StdDoc a.doc t) (h : Steps env a b fids d1 new added iids d3 xs streams) :
    ∃ D3, Linked R C D3 d3.rootObjID ∧ d3.rootObjID = a.doc.rootObjID ∧
      (∀ i, R i → StdDict d3.objs i (D3 i) ∧ KeptBut (D i) (D3 i) ∧ DictSaved (FontVal (refEntries (new.map CrFont.named))) (ImgVal (refEntries (xs.map CrXObj.named))) (D i) (D3 i)) ∧
      (∀ i, N i → ∃ fs', StdDict d3.objs i fs' ∧ (fs' = D i ∨ FontsAdded (refEntries (new.map CrFont.named)) (D i) fs')) ∧
      (∀ i o, ¬ R i → ¬ N i → OnlyObj a.doc.objs i o → OnlyObj d3.objs i o) ∧ (∀ o ∈ added, ¬ C o.objID ∧ OnlyObj d3.objs o.objID o) ∧ StdDoc d3 t ∧ ∀ p ∈ t.pages, R p := by
  obtain ⟨r1, _, f1, f2, f3⟩ := fonts_std hd h.step1
  have hids1 : idsOf d1.objs = idsOf a.doc.objs := (injectFonts_frame h.step1).1
  have hsub : ∀ i o, OnlyObj d1.objs i o → OnlyObj (d1.objs ++ added) i o := by
    intro i o ho
    refine onlyObj_append_fresh (fun x hx e => ?_) ho
    have h1 := onlyObj_id ho
    have h2 := h.fresh
    rw [List.nodup_append] at h2
    exact h2.2.2 i h1 i (List.mem_map.2 ⟨x, hx, e⟩) rfl
  classical
  let D1 : Int → List (Bytes × Val) := fun i => if hi : R i then (f1 i hi).choose else []
  have hD1 : ∀ i, R i → StdDict d1.objs i (D1 i) ∧ Upd (FontVal (refEntries (new.map CrFont.named))) (fun o o' => o' = o) (D i) (D1 i) := by
    intro i hi
    have : D1 i = (f1 i hi).choose := dif_pos hi
    rw [this]
    exact (f1 i hi).choose_spec
  have hL1 : Linked R C D1 d1.rootObjID := by
    rw [r1]
    exact hd.linked.upd (fun i hi => (hD1 i hi).2)
  obtain ⟨r3, g1, g2⟩ := imgs_std (d := { d1 with objs := d1.objs ++ added }) (fun i hi => StdDict.kept (hD1 i hi).1 (hsub i)) hL1 h.step2
  simp only at r3 g1 g2
  let D3 : Int → List (Bytes × Val) := fun i => if hi : R i then (g1 i hi).choose else []
  have hD3 : ∀ i, R i → StdDict d3.objs i (D3 i) ∧ Upd (fun o o' => o' = o) (ImgVal (refEntries (xs.map CrXObj.named))) (D1 i) (D3 i) := by
    intro i hi
    have : D3 i = (g1 i hi).choose := dif_pos hi
    rw [this]
    exact (g1 i hi).choose_spec
  have hroot : d3.rootObjID = a.doc.rootObjID := r3.trans r1
  have hkept : ∀ i, R i → KeptBut (D i) (D3 i) := fun i hi => (hD1 i hi).2.kept.trans (hD3 i hi).2.kept
  obtain ⟨⟨c, c1, c2⟩, c3⟩ := ht
  have hpR : R t.id := by
    cases StdDict.unique c1 (hd.dicts _ (Or.inl hd.top))
    obtain ⟨i, e, hi⟩ := hd.pages _ (lookup_mem c2.1)
    cases e
    exact hi
  obtain ⟨t1, t2⟩ := tree_saved hd.kids (fun i hi => hd.dicts i (Or.inl hi)) (fun i hi => ⟨D3 i, (hD3 i hi).1, hkept i hi⟩) t c3 hpR
  refine ⟨D3, ?_, hroot, fun i hi => ⟨(hD3 i hi).1, hkept i hi, saved_comp (fun o => Or.inl rfl) (fun o => Or.inl rfl) (hD1 i hi).2 (hD3 i hi).2⟩, ?_, ?_, ?_, ?_, t2⟩
  · rw [r3]
    exact hL1.upd (fun i hi => (hD3 i hi).2)
  · intro i hi
    obtain ⟨fs', k1, k2⟩ := f2 i hi
    exact ⟨fs', StdDict.kept k1 (fun o ho => g2 i o (fun hR => (hd.apart i hR).1 hi) (hsub i o ho)), k2⟩
  · intro i o n1 n2 ho
    exact g2 i o n1 (hsub i o (f3 i o n1 n2 ho))
  · intro o ho
    have hm : maxID a.doc.objs < o.objID := (h.range o.objID (List.mem_map.2 ⟨o, ho, rfl⟩)).1
    constructor
    · intro hC
      obtain ⟨o', ho'⟩ := hd.streams _ hC
      have := OnlyObj_le_maxID ho'
      omega
    · refine g2 _ _ (fun hR => ?_) (onlyObj_of_nodup (by simpa [idsOf] using h.fresh) (by simp [ho]))
      obtain ⟨_, _, o', _, _, _, _, ho', _⟩ := hd.dicts _ (Or.inl hR)
      have := OnlyObj_le_maxID ho'
      omega
  · refine ⟨⟨D3 a.doc.rootObjID, ?_, ?_⟩, t1⟩
    · rw [hroot]; exact (hD3 _ hd.top).1
    · cases StdDict.unique c1 (hd.dicts _ (Or.inl hd.top))
      exact (hkept _ hd.top).entry c2 (by decide) (by decide) (by decide)

/-- **C83** (partial) After `Save`, an independent reader of the objects finds the same page tree.  The dictionaries of the catalog, of the page tree and of the
resources have the same entries, except that fonts were added to fonts and images to images.  The objects of the fonts and images are there.  All other objects,
except the content streams, are what they were.
Missing: documents that are not linked like this, dictionaries in other notations (see C78), encryption. -/
theorem C83_saved_partial (hinv : NumInv a) (hp : a.protection = none) (hd : LinkedDoc a.doc.objs a.doc.rootObjID R N C D) (ht : StdDoc a.doc t) (h : a.build env = .ok b) :
    ∃ fonts imgs : List (Bytes × Val),
      (∀ x ∈ a.fontMap, ∃ f, b.app.fonts[x.2]? = some f ∧ (b!"F" ++ itoa f.fontIndex, Val.ref f.fontID) ∈ fonts ∧ ∀ o ∈ f.objs, OnlyObj b.doc.objs o.objID o) ∧
      (∀ i ∈ b.app.imgs, (i.xObjChar ++ itoa i.xObjIndex, Val.ref i.objID) ∈ imgs ∧ OnlyObj b.doc.objs i.objID ⟨i.objID, i.buf⟩) ∧
      (∀ i, R i → ∃ d', StdDict b.doc.objs i d' ∧ DictSaved (FontVal fonts) (ImgVal imgs) (D i) d') ∧
      (∀ i, N i → ∃ d', StdDict b.doc.objs i d' ∧ (d' = D i ∨ FontsAdded fonts (D i) d')) ∧
      (∀ i o, ¬ R i → ¬ N i → ¬ C i → OnlyObj a.doc.objs i o → OnlyObj b.doc.objs i o) ∧ StdDoc b.doc t := by
  obtain ⟨fids, d1, new, added, iids, d3, xs, streams, hs⟩ := build_steps hinv hp h
  obtain ⟨D3, hL, hroot, k1, k2, k3, k4, k5, k6⟩ := before_contents hd ht hs
  obtain ⟨r, hc⟩ := content_std hL (fun i hi => (k1 i hi).1) (fun i hi => (hd.streams i hi).imp (fun o ho => k3 i o (fun hR => (hd.apart i hR).2 hi) (fun hN => hd.apart' i hN hi) ho)) k5 k6 hs.step3
  have hR : ∀ i, R i → StdDict b.doc.objs i (D3 i) := fun i hi => StdDict.kept (k1 i hi).1 (fun o ho => hc i o (hd.apart i hi).2 ho)
  refine ⟨refEntries (new.map CrFont.named), refEntries (xs.map CrXObj.named), ?_, ?_, fun i hi => ⟨D3 i, hR i hi, (k1 i hi).2.2⟩, ?_, ?_, ?_⟩
  · intro x hx
    obtain ⟨ord, h1, h2⟩ := hs.font
    have hm : x.2 ∈ ord := h1.symm.subset (List.mem_map.2 ⟨x, hx, rfl⟩)
    obtain ⟨j, hj⟩ := List.mem_iff_getElem?.1 hm
    obtain ⟨f, c, e1, e2, e3, e4, e5⟩ := h2 j x.2 hj
    refine ⟨f, e1, ?_, fun o ho => hc _ _ (k4 o (e5 o ho)).1 (k4 o (e5 o ho)).2⟩
    obtain ⟨m, rfl⟩ := injectFonts_new hs.step1
    have hcm := List.mem_of_getElem? e2
    refine List.mem_map.2 ⟨c.named, List.mem_map.2 ⟨c, hcm, rfl⟩, ?_⟩
    simp only [CrFont.named, newCrFonts_pfx _ _ c hcm, e3, e4]
  · intro i hi
    obtain ⟨j, hj⟩ := List.mem_iff_getElem?.1 hi
    obtain ⟨⟨c, e1, e2, e3, e4⟩, e5⟩ := hs.img j i hj
    refine ⟨List.mem_map.2 ⟨c.named, List.mem_map.2 ⟨c, List.mem_of_getElem? e1, rfl⟩, ?_⟩, hc _ _ (k4 _ e5).1 (k4 _ e5).2⟩
    simp only [CrXObj.named, e2, e3, e4]
  · intro i hi
    obtain ⟨fs', h1, h2⟩ := k2 i hi
    exact ⟨fs', StdDict.kept h1 (fun o ho => hc i o (hd.apart' i hi) ho), h2⟩
  · intro i o n1 n2 n3 ho
    exact hc i o n3 (k3 i o n1 n2 ho)
  · obtain ⟨⟨c, c1, c2⟩, c3⟩ := k5
    have hpR : R t.id := by
      cases StdDict.unique c1 ((k1 _ (hroot ▸ hd.top)).1)
      obtain ⟨i, e, hi⟩ := hL.pages _ (lookup_mem c2.1)
      cases e
      exact hi
    refine ⟨⟨c, ?_, c2⟩, (tree_saved hL.kids (fun i hi => (k1 i hi).1) (fun i hi => ⟨D3 i, hR i hi, fun _ _ _ _ => rfl, fun _ _ h => h⟩) t c3 hpR).1⟩
    rw [r]
    exact StdDict.kept c1 (fun o ho => hc _ o (hd.apart _ (hroot ▸ hd.top)).2 ho)

/-- the written content objects -/
theorem content_objects {L : List PageC} {fids iids : List Int} {d1 d3 : Doc} {new : List CrFont} {added : List Obj} {xs : List CrXObj} {streams : List (Int × Bytes)}
    (hs : Steps env a b fids d1 new added iids d3 xs streams) (hd : LinkedDoc a.doc.objs a.doc.rootObjID R N C D) (ht : StdDoc a.doc t)
    (hL : t.pages = L.map (·.page)) (hnd : (L.map (·.obj)).Nodup)
    (hc : ∀ x ∈ L, (D x.page).lookup b!"Contents" = some (.ref x.obj) ∧ ∃ o, OnlyObj a.doc.objs x.obj o ∧ HoldsStream env.unzip o.data x.body) :
    ∀ i x, L[i]? = some x →
      if drawnOn streams (i + 1) = [] then ∀ o, OnlyObj a.doc.objs x.obj o → OnlyObj b.doc.objs x.obj o
      else ∃ o, OnlyObj b.doc.objs x.obj o ∧ o.data = contentObject (x.body ++ b!"\n" ++ (drawnOn streams (i + 1)).flatten) := by
  intro i x hx
  obtain ⟨D3, hL3, hroot, k1, k2, k3, k4, k5, k6⟩ := before_contents hd ht hs
  have hobj : ∀ x ∈ L, R x.page ∧ InRange x.obj ∧ ¬ R x.obj ∧ ¬ N x.obj := by
    intro x hx
    have hR : R x.page := k6 _ (by rw [hL]; exact List.mem_map.2 ⟨x, hx, rfl⟩)
    rcases hd.contents _ hR _ (lookup_mem (hc x hx).1) with ⟨c, e, c1, c2⟩ | ⟨_, _, e, _⟩
    · cases e
      exact ⟨hR, c1, fun hR => (hd.apart _ hR).2 c2, fun hN => hd.apart' _ hN c2⟩
    · cases e
  have hok : ∀ x ∈ L, x.Ok env.unzip d3.objs := by
    intro x hx
    obtain ⟨hR, c1, c2, c3⟩ := hobj x hx
    obtain ⟨e1, o, ho, ho'⟩ := hc x hx
    refine ⟨?_, o, k3 _ _ c2 c3 ho, ho'⟩
    obtain ⟨ps, p1, p2, p3⟩ := StdDict.props (k1 _ hR).1
    have he : EntryIs (D3 x.page) b!"Contents" (.ref x.obj) :=
      (k1 _ hR).2.1.entry ⟨e1, NotNamed.no (NoLinkNames.not (hd.linked.names _ hR) (by decide))⟩ (by decide) (by decide) (by decide)
    obtain ⟨r, r1, r2⟩ := ReadAs.value_at p2.1 he (by intro n h; cases h)
    obtain ⟨p, hp', rfl⟩ := valueOf_mem_key r1
    have hv : StdVal p.rawVal (.ref x.obj) := ⟨r2, (by intro n h; cases h), (p2.2 p hp').2.1, (p2.2 p hp').2.2.refs, (p2.2 p hp').2.2.valStream⟩
    exact ⟨ps, _, p1, r1, ref_type' hv (p3 p hp') c1, value_ref hv.values hv.simple (p3 p hp') hv.refs c1⟩
  have := (contents_written (StdDoc.hasTree k5) hL hok hnd hs.step3).1 i x hx
  obtain ⟨_, _, c2, c3⟩ := hobj x (List.mem_of_getElem? hx)
  split at this
  · rename_i hn
    rw [if_pos hn]
    exact fun o ho => this o (k3 _ _ c2 c3 ho)
  · rename_i hn
    rw [if_neg hn]
    exact this

/-- **C83** (partial) The content of page `k` is, after `Save`, what it was, followed by what was drawn on the page, in the order of the calls.
Missing: as above; pages with several content streams, or whose content stream is shared. -/
theorem C83_content_partial {L : List PageC} (hinv : NumInv a) (hp : a.protection = none) (hd : LinkedDoc a.doc.objs a.doc.rootObjID R N C D) (ht : StdDoc a.doc t) (h : a.build env = .ok b)
    (hL : t.pages = L.map (·.page)) (hnd : (L.map (·.obj)).Nodup)
    (hc : ∀ x ∈ L, (D x.page).lookup b!"Contents" = some (.ref x.obj) ∧ ∃ o, OnlyObj a.doc.objs x.obj o ∧ HoldsStream env.unzip o.data x.body) :
    ∃ streams, List.Forall₂ (fun c s => c.stream b.app.fonts b.app.imgs = .ok s ∧ s.1 = pageOf c) a.contents streams ∧
      ∀ i x, L[i]? = some x →
        if drawnOn streams (i + 1) = [] then ∀ o, OnlyObj a.doc.objs x.obj o → OnlyObj b.doc.objs x.obj o
        else ∃ o, OnlyObj b.doc.objs x.obj o ∧ StreamObject o.data (x.body ++ b!"\n" ++ (drawnOn streams (i + 1)).flatten) := by
  obtain ⟨fids, d1, new, added, iids, d3, xs, streams, hs⟩ := build_steps hinv hp h
  have h2 := content_objects hs hd ht hL hnd hc
  refine ⟨streams, hs.streams, fun i x hx => ?_⟩
  have h3 := h2 i x hx
  split at h3
  · rename_i hn
    rw [if_pos hn]
    exact h3
  · rename_i hn
    obtain ⟨o, h4, h5⟩ := h3
    rw [if_neg hn]
    exact ⟨o, h4, h5 ▸ contentObject_stream _⟩

end

/-! ### an example: pages at different depths that share their resources -/

def deepDoc : Doc :=
  { rootObjID := 1, xrefs := [], pageSizes := []
    objs := [
      ⟨1, b!"\n<< /Type /Catalog /Pages 2 0 R >>\n"⟩,
      ⟨2, b!"\n<< /Type /Pages /Count 2 /Kids [ 3 0 R 4 0 R ] >>\n"⟩,
      ⟨3, b!"\n<< /Type /Page /Parent 2 0 R /Resources 6 0 R /Contents 7 0 R >>\n"⟩,
      ⟨4, b!"\n<< /Type /Pages /Count 1 /Kids [ 5 0 R ] /Parent 2 0 R >>\n"⟩,
      ⟨5, b!"\n<< /Type /Page /Parent 4 0 R /Resources 6 0 R /Contents [ 8 0 R ] >>\n"⟩,
      ⟨6, b!"\n<< /Font << /F1 9 0 R >> /XObject << /Im1 10 0 R >> >>\n"⟩,
      ⟨7, b!"\n<< /Length 1 >>\nstream\nq\nendstream\n"⟩,
      ⟨8, b!"\n<< /Length 1 >>\nstream\nq\nendstream\n"⟩,
      ⟨9, b!"\n<< /Type /Font >>\n"⟩,
      ⟨10, b!"\n<< /Type /XObject >>\n"⟩] }

def deepDicts : List (Int × List (Bytes × Val)) := [
  (1, [(b!"Type", .name b!"Catalog"), (b!"Pages", .ref 2)]),
  (2, [(b!"Type", .name b!"Pages"), (b!"Count", .num 2), (b!"Kids", .arr [.ref 3, .ref 4])]),
  (3, [(b!"Type", .name b!"Page"), (b!"Parent", .ref 2), (b!"Resources", .ref 6), (b!"Contents", .ref 7)]),
  (4, [(b!"Type", .name b!"Pages"), (b!"Count", .num 1), (b!"Kids", .arr [.ref 5]), (b!"Parent", .ref 2)]),
  (5, [(b!"Type", .name b!"Page"), (b!"Parent", .ref 4), (b!"Resources", .ref 6), (b!"Contents", .arr [.ref 8])]),
  (6, [(b!"Font", .dict [(b!"F1", .ref 9)]), (b!"XObject", .dict [(b!"Im1", .ref 10)])])]

def deepDict (i : Int) : List (Bytes × Val) := (deepDicts.lookup i).getD []

set_option maxRecDepth 20000 in
theorem deepDoc_dicts : ∀ i : Int, 1 ≤ i ∧ i ≤ 6 → StdDict deepDoc.objs i (deepDict i) := by
  have o1 : StdDict deepDoc.objs 1 (deepDict 1) := stdDict_of (x := b!" /Type /Catalog /Pages 2 0 R ") (by decide) (by decide) rfl (stdText_of (by decide +kernel) ⟨_, rfl, rfl⟩)
  have o2 : StdDict deepDoc.objs 2 (deepDict 2) := stdDict_of (x := b!" /Type /Pages /Count 2 /Kids [ 3 0 R 4 0 R ] ") (by decide) (by decide) rfl (stdText_of (by decide +kernel) ⟨_, rfl, rfl⟩)
  have o3 : StdDict deepDoc.objs 3 (deepDict 3) := stdDict_of (x := b!" /Type /Page /Parent 2 0 R /Resources 6 0 R /Contents 7 0 R ") (by decide) (by decide) rfl (stdText_of (by decide +kernel) ⟨_, rfl, rfl⟩)
  have o4 : StdDict deepDoc.objs 4 (deepDict 4) := stdDict_of (x := b!" /Type /Pages /Count 1 /Kids [ 5 0 R ] /Parent 2 0 R ") (by decide) (by decide) rfl (stdText_of (by decide +kernel) ⟨_, rfl, rfl⟩)
  have o5 : StdDict deepDoc.objs 5 (deepDict 5) := stdDict_of (x := b!" /Type /Page /Parent 4 0 R /Resources 6 0 R /Contents [ 8 0 R ] ") (by decide) (by decide) rfl (stdText_of (by decide +kernel) ⟨_, rfl, rfl⟩)
  have o6 : StdDict deepDoc.objs 6 (deepDict 6) := stdDict_of (x := b!" /Font << /F1 9 0 R >> /XObject << /Im1 10 0 R >> ") (by decide) (by decide) rfl (stdText_of (by decide +kernel) ⟨_, rfl, rfl⟩)
  intro i hi
  have : i = 1 ∨ i = 2 ∨ i = 3 ∨ i = 4 ∨ i = 5 ∨ i = 6 := by omega
  rcases this with rfl | rfl | rfl | rfl | rfl | rfl <;> assumption

theorem deep_cases {i : Int} (hi : 1 ≤ i ∧ i ≤ 6) : i = 1 ∨ i = 2 ∨ i = 3 ∨ i = 4 ∨ i = 5 ∨ i = 6 := by omega

theorem deepDoc_linked : LinkedDoc deepDoc.objs deepDoc.rootObjID (fun i => 1 ≤ i ∧ i ≤ 6) (fun _ => False) (fun i => i = 7 ∨ i = 8) deepDict := by
  refine ⟨fun i hi => deepDoc_dicts i (hi.elim id False.elim), fun i hi => ⟨id, by omega⟩, fun i hi => hi.elim, by decide, ?_, ?_, ?_, ?_, ?_, ?_, ?_, fun i hi => hi.elim, ?_⟩
  · intro k n h
    simp [deepDoc, deepDict, deepDicts] at h
    obtain ⟨rfl, rfl⟩ := h
    exact ⟨by decide, by decide⟩
  · intro v h
    simp [deepDoc, deepDict, deepDicts] at h
    exact ⟨2, h, by decide⟩
  · intro i hi v h
    rcases deep_cases hi with rfl | rfl | rfl | rfl | rfl | rfl <;> simp [deepDict, deepDicts, List.lookup] at h
    · exact ⟨[3, 4], by simp, h, by simp⟩
    · exact ⟨[5], by simp, h, by simp⟩
  · intro i hi v h
    rcases deep_cases hi with rfl | rfl | rfl | rfl | rfl | rfl <;> simp [deepDict, deepDicts, List.lookup] at h
    · exact Or.inl ⟨6, h, by decide⟩
    · exact Or.inl ⟨6, h, by decide⟩
  · left
    intro i hi v h
    rcases deep_cases hi with rfl | rfl | rfl | rfl | rfl | rfl <;> simp [deepDict, deepDicts, List.lookup] at h
    · exact ⟨6, h⟩
    · exact ⟨6, h⟩
  · intro i hi
    refine ⟨?_, ?_, ?_⟩
    · intro k n h
      rcases deep_cases hi with rfl | rfl | rfl | rfl | rfl | rfl <;> simp [deepDict, deepDicts, List.lookup] at h <;> obtain ⟨rfl, rfl⟩ := h <;> exact ⟨by decide, by decide⟩
    · intro v h
      rcases deep_cases hi with rfl | rfl | rfl | rfl | rfl | rfl <;> simp [deepDict, deepDicts, List.lookup] at h
      refine Or.inr ⟨_, h, ?_⟩
      intro x hx
      simp at hx
      subst hx
      exact ⟨9, rfl, by unfold Readable; omega⟩
    · intro v h
      rcases deep_cases hi with rfl | rfl | rfl | rfl | rfl | rfl <;> simp [deepDict, deepDicts, List.lookup] at h
      exact ⟨_, h⟩
  · intro i hi v h
    rcases deep_cases hi with rfl | rfl | rfl | rfl | rfl | rfl <;> simp [deepDict, deepDicts, List.lookup] at h
    · exact Or.inl ⟨7, h, by unfold Readable; omega, by simp⟩
    · exact Or.inr ⟨[8], by simp, h, by unfold Readable; simp⟩
  · intro i hi
    rcases hi with rfl | rfl
    · exact ⟨_, rfl⟩
    · exact ⟨_, rfl⟩

theorem deepDoc_std : StdDoc deepDoc (.node 2 [.leaf 3, .node 4 [.leaf 5]]) := by
  have h := deepDoc_dicts
  refine ⟨⟨_, h 1 (by decide), rfl, by simp [deepDict, deepDicts]⟩, ⟨_, h 2 (by decide), rfl, ⟨rfl, by simp [deepDict, deepDicts, List.lookup]⟩, by simp⟩, ⟨_, h 3 (by decide), rfl, rfl, ?_⟩,
    ⟨⟨_, h 4 (by decide), rfl, ⟨rfl, ?_⟩, by simp⟩, ⟨_, h 5 (by decide), rfl, rfl, ?_⟩, trivial⟩, trivial⟩ <;> simp [deepDict, deepDicts, List.lookup]

/-- an image on the second page -/
def deepApp : App := (({ doc := deepDoc } : App).insertImg plainEnv b!"x" 2 0 0 1 1).state

def deepSaved : Bool :=
  match deepApp.build plainEnv with
  | .ok b => decide ((getObj b.doc.objs 6).map (·.data) = some b!"<<\n/Font <</F1 9 0 R>>\n/XObject <</Im1 10 0 R/Im2 11 0 R>>\n\n>>\n") && decide (deepApp.doc.objs = deepDoc.objs ∧ deepApp.doc.rootObjID = 1) &&
      decide ((idsOf deepApp.doc.objs).Nodup ∧ (∀ i ∈ idsOf deepApp.doc.objs, 1 ≤ i) ∧ deepApp.fontMap = [] ∧ deepApp.fonts.length = 0) && deepApp.protection.isNone
  | _ => false

set_option maxRecDepth 20000 in
/-- The hypotheses of `C83_saved_partial` hold for the sample, and an image is added to its resources. -/
example : ∃ b, deepApp.build plainEnv = .ok b ∧ NumInv deepApp ∧ deepApp.protection = none ∧
    LinkedDoc deepApp.doc.objs deepApp.doc.rootObjID (fun i => 1 ≤ i ∧ i ≤ 6) (fun _ => False) (fun i => i = 7 ∨ i = 8) deepDict ∧ StdDoc deepApp.doc (.node 2 [.leaf 3, .node 4 [.leaf 5]]) ∧
    (getObj b.doc.objs 6).map (·.data) = some b!"<<\n/Font <</F1 9 0 R>>\n/XObject <</Im1 10 0 R/Im2 11 0 R>>\n\n>>\n" := by
  have hs : deepSaved = true := by decide +kernel
  unfold deepSaved at hs
  split at hs
  · rename_i b hb
    simp only [Bool.and_eq_true, decide_eq_true_eq, Option.isNone_iff_eq_none] at hs
    obtain ⟨⟨⟨h1, h2, h3⟩, h4, h5, h6, h7⟩, h8⟩ := hs
    refine ⟨b, hb, ⟨h4, h5, ?_⟩, h8, ?_, ?_, h1⟩
    · exact ⟨by rw [h6]; simp, by rw [h6]; simp⟩
    · rw [h2, h3]
      exact deepDoc_linked
    · have := deepDoc_std
      unfold StdDoc at this ⊢
      rw [h2, h3]
      exact this
  · simp at hs

/-! ### where it fails -/

/-- images in a dictionary of their own -/
def sharedImgs : Doc :=
  { rootObjID := 1, xrefs := [], pageSizes := []
    objs := [
      ⟨1, b!"\n<< /Type /Catalog /Pages 2 0 R >>\n"⟩,
      ⟨2, b!"\n<< /Type /Pages /Count 1 /Kids [ 3 0 R ] >>\n"⟩,
      ⟨3, b!"\n<< /Type /Page /Parent 2 0 R /Resources 4 0 R /Contents 6 0 R >>\n"⟩,
      ⟨4, b!"\n<< /Font << /F1 8 0 R >> /XObject 5 0 R >>\n"⟩,
      ⟨5, b!"\n<< /Im1 7 0 R >>\n"⟩,
      ⟨6, b!"\n<< /Length 9 >>\nstream\n/Im1 Do q\nendstream\n"⟩,
      ⟨7, b!"\n<< /Type /XObject >>\n"⟩,
      ⟨8, b!"\n<< /Type /Font >>\n"⟩] }

/-- resources of one page in place, of the other in an object of their own -/
def halfPlaced : Doc :=
  { rootObjID := 1, xrefs := [], pageSizes := []
    objs := [
      ⟨1, b!"\n<< /Type /Catalog /Pages 2 0 R >>\n"⟩,
      ⟨2, b!"\n<< /Type /Pages /Count 2 /Kids [ 3 0 R 4 0 R ] >>\n"⟩,
      ⟨3, b!"\n<< /Type /Page /Parent 2 0 R /Resources << /Font << /F1 8 0 R >> >> /Contents 6 0 R >>\n"⟩,
      ⟨4, b!"\n<< /Type /Page /Parent 2 0 R /Resources 5 0 R /Contents 7 0 R >>\n"⟩,
      ⟨5, b!"\n<< /Font << /F1 8 0 R >> >>\n"⟩,
      ⟨6, b!"\n<< /Length 1 >>\nstream\nq\nendstream\n"⟩,
      ⟨7, b!"\n<< /Length 1 >>\nstream\nq\nendstream\n"⟩,
      ⟨8, b!"\n<< /Type /Font >>\n"⟩] }

/-- an image on the first page of a document -/
def imgOn (d : Doc) : App := (({ doc := d } : App).insertImg plainEnv b!"x" 1 0 0 1 1).state

/-- what `Save` makes of an object -/
def afterSave (a : App) (i : Int) : Option Bytes :=
  match a.build plainEnv with
  | .ok b => (getObj b.doc.objs i).map (·.data)
  | _ => none

set_option maxRecDepth 20000 in
/-- **C83** If the images of a page are in a dictionary of their own, as the standard allows, they are lost when an image is added: the page still draws /Im1, and
its resources no longer have it. -/
theorem C83_refuted_images : StdDict sharedImgs.objs 4 [(b!"Font", .dict [(b!"F1", .ref 8)]), (b!"XObject", .ref 5)] ∧ StdDict sharedImgs.objs 5 [(b!"Im1", .ref 7)] ∧
    ∃ x y, afterSave (imgOn sharedImgs) 4 = some x ∧ ReadsVal x (.dict [(b!"Font", .dict [(b!"F1", .ref 8)]), (b!"XObject", .dict [(b!"I1", .ref 9)])]) ∧
      afterSave (imgOn sharedImgs) 6 = some y ∧ b!"/Im1 Do q" <:+: y := by
  refine ⟨stdDict_of (x := b!" /Font << /F1 8 0 R >> /XObject 5 0 R ") (by decide) (by decide) rfl (stdText_of (by decide +kernel) ⟨_, rfl, rfl⟩),
    stdDict_of (x := b!" /Im1 7 0 R ") (by decide) (by decide) rfl (stdText_of (by decide +kernel) ⟨_, rfl, rfl⟩),
    b!"<<\n/Font <</F1 8 0 R>>\n/XObject <</I1 9 0 R>>\n\n>>\n", b!"<<\n/Length 50\n>>\nstream\n/Im1 Do q\nq 1.00 0 0 1.00 0.00 840.89 cm /I1 Do Q\nendstream", ?_, ⟨_, rfl, rfl⟩, ?_, by decide +kernel⟩
  · decide +kernel
  · decide +kernel

set_option maxRecDepth 20000 in
/-- **C83** If the resources of one page are in place and those of another page are not, the other page is no longer a dictionary when an image is added. -/
theorem C83_refuted_mixed : StdDict halfPlaced.objs 4 [(b!"Type", .name b!"Page"), (b!"Parent", .ref 2), (b!"Resources", .ref 5), (b!"Contents", .ref 7)] ∧
    ∃ x, afterSave (imgOn halfPlaced) 4 = some x ∧ ∀ v, ¬ ReadsVal x v := by
  refine ⟨stdDict_of (x := b!" /Type /Page /Parent 2 0 R /Resources 5 0 R /Contents 7 0 R ") (by decide) (by decide) rfl (stdText_of (by decide +kernel) ⟨_, rfl, rfl⟩),
    b!"<<\n/Type /Page /Parent 2 0 R\n/Resources <<0 /XObject <</I1 9 0 R>>>>\n\n/Contents 7 0 R\n>>\n", by decide +kernel, ?_⟩
  rintro v ⟨ts, h1, h2⟩
  have e : (lexer .ground b!"<<\n/Type /Page /Parent 2 0 R\n/Resources <<0 /XObject <</I1 9 0 R>>>>\n\n/Contents 7 0 R\n>>\n").1 = ts := by rw [h1]
  subst e
  have h3 : valueOfToks (lexer .ground b!"<<\n/Type /Page /Parent 2 0 R\n/Resources <<0 /XObject <</I1 9 0 R>>>>\n\n/Contents 7 0 R\n>>\n").1 = none := by rfl
  rw [h3] at h2
  cases h2

end Verif
