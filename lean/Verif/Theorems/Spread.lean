import Verif.Theorems.StdSave
/-
C62: where images go when no resources have images yet, for every document.
-/
namespace Verif
open Spec

section
variable {R N C : Int → Prop} {D : Int → List (Bytes × Val)} {env : Env} {a : App} {b : Built} {t : Tree}

/-- the object a crawl starts from is among its results -/
theorem crawlRun_start {objs : List Obj} {id : Int} {path : List Bytes} {rs : Results} {r : Res Unit} (h : crawlRun objs id path = (rs, r)) (hg : (getObj objs id).isSome) : id ∈ rs.map (·.1) := by
  unfold crawlRun at h
  cases ho : getObj objs id with
  | none => rw [ho] at hg; cases hg
  | some o =>
    rw [ho] at h
    simp only at h
    rw [crawlNext_ev path] at h
    simp only [Prod.mk.injEq] at h
    obtain ⟨rfl, _⟩ := h
    exact ((evApply_keys _ _ (by simp)).2 id).2 (Or.inl (by simp))

theorem put_keys_sub {rs : Results} {k i : Int} {v : Items} (h : i ∈ rs.map (·.1)) : i ∈ (rs.put k v).map (·.1) := by
  unfold Results.put
  split
  · rw [List.map_map]
    obtain ⟨p, hp, rfl⟩ := List.mem_map.1 h
    refine List.mem_map.2 ⟨p, hp, ?_⟩
    simp only [Function.comp]
    split
    · rename_i e; exact e.symm
    · rfl
  · simp only [List.map_append, List.mem_append]
    exact Or.inl h

theorem puts_keys_sub {i : Int} : ∀ (sub rs : Results), i ∈ rs.map (·.1) → i ∈ (sub.foldl (fun r p => r.put p.1 p.2) rs).map (·.1)
  | [], _, h => h
  | _ :: sub, _, h => puts_keys_sub sub _ (put_keys_sub h)

theorem pageCrawlLoop_keys {objs : List Obj} {path : List Bytes} {i : Int} : ∀ (ks : List Int) {rs rs' : Results}, i ∈ rs.map (·.1) → pageCrawlLoop objs path ks rs = .ok rs' → i ∈ rs'.map (·.1)
  | [], rs, rs', h, e => by
    simp only [pageCrawlLoop, Res.ok.injEq] at e
    exact e ▸ h
  | k :: ks, rs, rs', h, e => by
    unfold pageCrawlLoop at e
    simp only at e
    split at e
    · split at e
      · cases e
      · cases e
      · exact pageCrawlLoop_keys ks (puts_keys_sub _ _ h) e
    · exact pageCrawlLoop_keys ks h e

theorem getPageCrawl_root {σ : Shuffle} {objs : List Obj} {root : Int} {path : List Bytes} {rs : Results} (h : getPageCrawl σ objs root path = .ok rs) (hg : (getObj objs root).isSome) :
    root ∈ rs.map (·.1) := by
  unfold getPageCrawl at h
  split at h
  · cases h
  · cases h
  · rename_i rs0 r _ _ e
    exact pageCrawlLoop_keys _ (crawlRun_start e hg) h

/-- every result gets all images -/
theorem addReplaces_all {xobjs : List CrXObj} (hx : ∀ x ∈ xobjs, GoodPre x.chr) (hno : ∀ i, R i → (D i).lookup b!"XObject" = none) : ∀ (rs : List (Int × Items)) (m : List (Int × Bytes)),
    Complete R (fun _ => False) D rs → (∀ p ∈ m, R p.1 ∧ ∃ e', Writes p.2 e' ∧ e'.lookup b!"XObject" = some (.dict (refEntries (xobjs.map CrXObj.named)))) →
    (∀ p ∈ addReplaces xobjs rs m, R p.1 ∧ ∃ e', Writes p.2 e' ∧ e'.lookup b!"XObject" = some (.dict (refEntries (xobjs.map CrXObj.named)))) ∧
      ∀ i, i ∈ rs.map (·.1) ∨ i ∈ m.map (·.1) → i ∈ (addReplaces xobjs rs m).map (·.1) := by
  intro rs
  induction rs with
  | nil => intro m _ hm; exact ⟨hm, fun i hi => by simpa [addReplaces] using hi⟩
  | cons q rs ih =>
    obtain ⟨i, it⟩ := q
    intro m hc hm
    have hc' : Complete R (fun _ => False) D rs := fun j jt hj => hc j jt (by simp [hj])
    rw [addReplaces]
    obtain ⟨h1, h2⟩ := ih (mapPut m i (it.append (.str b!"XObject" (b!"<<" ++ crXObjsString xobjs ++ b!">>\n") .nil)).string) hc' (by
      intro p hp
      rcases mapPut_mem hp with rfl | hp
      · rcases hc i it (by simp) with ⟨_, hf⟩ | ⟨hR, e0, f1, f2, f3⟩
        · exact hf.elim
        have hs : StdItems (.str b!"XObject" (b!"<<" ++ crXObjsString xobjs ++ b!">>\n") .nil) [(b!"XObject", .dict (refEntries (xobjs.map CrXObj.named)))] := .value xobject_key (xobjs_val hx) .nil
        refine ⟨hR, _, (f1.std.append hs).writes, ?_⟩
        rw [List.lookup_append, f2, hno i hR]
        simp
      · exact hm p hp)
    refine ⟨h1, fun j hj => h2 j ?_⟩
    rw [mapPut_keys_mem]
    simp only [List.map_cons, List.mem_cons] at hj
    tauto

theorem lookup_none_of {d : List (Bytes × Val)} {k : Bytes} (h : ∀ v, (k, v) ∉ d) : d.lookup k = none := by
  cases e : d.lookup k with
  | none => rfl
  | some v => exact absurd (lookup_mem e) (h v)

theorem not_mem_of_lookup {d : List (Bytes × Val)} {k : Bytes} (h : d.lookup k = none) : ∀ v, (k, v) ∉ d := by
  intro v hm
  rw [List.lookup_eq_none_iff] at h
  have := h _ hm
  simp at this

/-- the step of `Save` that writes images, when resources are objects of their own and there are no images yet -/
theorem imgs_spread {d d3 : Doc} (hstd : ∀ i, R i → StdDict d.objs i (D i)) (h : Linked R C D d.rootObjID) (hno : ∀ i, R i → (D i).lookup b!"XObject" = none)
    (href : ∀ i, R i → ∀ es, (b!"Resources", Val.dict es) ∉ D i) {σ : Nat → Shuffle} {iids : List Int} {xnew : List CrXObj} (hi : injectImgs σ d iids = .ok (d3, xnew)) :
    ∃ e', StdDict d3.objs d.rootObjID e' ∧ e'.lookup b!"XObject" = some (.dict (refEntries (xnew.map CrXObj.named))) := by
  have hl : ∀ {es}, NoLinkNames es → (∀ v, (b!"XObject", v) ∈ es → ∃ xs, v = .dict xs) → PathEnd (fun _ => False) b!"XObject" es :=
    fun h1 h2 => ⟨NotNamed.no (NoLinkNames.not h1 (by decide)), fun v hv => Or.inr (Or.inr (h2 v hv))⟩
  obtain ⟨t1, t2, t3⟩ := h.paths (N := fun _ => False) (key := b!"XObject") (fun i hi => hl (h.names i hi) (h.xobj i hi)) (fun i hi es hes => absurd hes (href i hi es))
  obtain ⟨u1, u2⟩ := h.resPaths
  unfold injectImgs at hi
  rw [Res.bind_eq_ok] at hi
  obtain ⟨rs, hrs, hi⟩ := hi
  have hcomp := pageCrawl_ok (N := R) hstd u2 u1 hrs
  rw [Res.bind_eq_ok] at hi
  obtain ⟨fr, hfr, hi⟩ := hi
  cases fr with
  | none => simp at hi
  | some p =>
    obtain ⟨emb, from_⟩ := p
    obtain ⟨hfrom, hemb⟩ := findResources_std h _ (fun i it hit => hcomp i it (((σ 21).perm rs).subset hit)) hfr
    have hemb' : emb = false := by
      cases emb with
      | false => rfl
      | true =>
        obtain ⟨j, es, k1, k2⟩ := hemb rfl
        exact absurd k2 (href j k1 es)
    subst hemb'
    simp only at hi
    obtain ⟨cw, r, ecw, _, hcw⟩ := crawlRun_ok (N := fun _ => False) hstd (t2 from_ hfrom)
    rw [ecw] at hi
    simp only at hi
    rw [Res.bind_eq_ok] at hi
    obtain ⟨_, hr, hi⟩ := hi
    have hcw := hcw hr
    have hvals : ∀ {w : Results}, Complete R (fun _ => False) D w → xobjVals w = [] := by
      intro w hw
      rw [List.eq_nil_iff_forall_not_mem]
      intro v hv
      unfold xobjVals at hv
      rw [List.mem_filterMap] at hv
      obtain ⟨⟨i, it⟩, hq, hv⟩ := hv
      rcases hw i it hq with ⟨_, hf⟩ | ⟨hR, e0, f1, f2, f3⟩
      · exact hf.elim
      obtain ⟨_, w', _, s3, _⟩ := upd_of_font (F := fun o o' => o' = o) (X := fun o o' => o' = o) (fun o => rfl) (fun o => rfl) h hR (Or.inr rfl) f1 f2 f3 hv
      rcases s3 with s3 | ⟨es, k1, _⟩
      · exact not_mem_of_lookup (hno i hR) _ s3
      · exact href i hR es k1
    rw [hvals hcw] at hi
    simp only [if_true] at hi
    rw [Res.bind_eq_ok] at hi
    obtain ⟨⟨cw', vals⟩, hsel, hi⟩ := hi
    rw [Res.bind_eq_ok] at hsel
    obtain ⟨cw2, h2, hsel⟩ := hsel
    simp only [Res.ok.injEq, Prod.mk.injEq] at hsel
    obtain ⟨rfl, rfl⟩ := hsel
    have hc' := pageCrawl_ok hstd t3 t1 h2
    rw [hvals hc'] at hi
    have hnil : (σ 23).fn ([] : List Bytes) = [] := by
      have := (σ 23).perm ([] : List Bytes)
      simpa using this
    simp only [hnil, xobjScan, List.isEmpty_nil, Bool.not_true, Bool.false_eq_true, if_false, List.nil_append, Res.ok_bind] at hi
    rw [Res.bind_eq_ok] at hi
    obtain ⟨objs', happ, hi⟩ := hi
    simp only [Res.ok.injEq, Prod.mk.injEq] at hi
    obtain ⟨rfl, rfl⟩ := hi
    have hx : ∀ x ∈ newCrXObjs b!"I" 0 iids, GoodPre x.chr := newX_good ⟨b!"I", goodKey_letter (Or.inr rfl), List.prefix_refl _⟩ iids 0
    have hc2 : Complete R (fun _ => False) D ((σ 26).fn cw2) := fun i it hit => hc' i it (((σ 26).perm _).subset hit)
    obtain ⟨r1, r2⟩ := addReplaces_all (D := D) (xobjs := newCrXObjs b!"I" 0 iids) hx hno ((σ 26).fn cw2) [] hc2 (by simp)
    have hnd := (addReplaces_std (new := []) (D := D) hx (List.nil_suffix) ((σ 26).fn cw2) [] hc2 (by simp) (by simp)).2
    obtain ⟨_, a2⟩ := apply_std happ hnd (fun p hp => ⟨_, hstd p.1 (r1 p hp).1⟩)
    have hroot : d.rootObjID ∈ ((σ 26).fn cw2).map (·.1) := by
      have := getPageCrawl_root h2 (by
        obtain ⟨_, _, o, _, _, _, _, ho, _⟩ := hstd _ h.top
        rw [getObj_only ho]; rfl)
      obtain ⟨p, hp, e⟩ := List.mem_map.1 this
      exact List.mem_map.2 ⟨p, ((σ 26).perm _).symm.subset hp, e⟩
    obtain ⟨⟨j, s⟩, hp, e⟩ := List.mem_map.1 (r2 _ (Or.inl hroot))
    obtain ⟨_, e', k1, k2⟩ := r1 _ hp
    simp only at e
    subst e
    exact ⟨e', a2 _ s e' hp k1, k2⟩

/-- **C62 is violated for every document whose resources are objects of their own and have no images.**  Saving such a document, whatever was inserted, writes the entry
/XObject, with all inserted images, into the catalog, which had none. -/
theorem C62_refuted_all (hinv : NumInv a) (hp : a.protection = none) (hd : LinkedDoc a.doc.objs a.doc.rootObjID R N C D) (ht : StdDoc a.doc t) (h : a.build env = .ok b)
    (hno : ∀ i, R i → ∀ v, (b!"XObject", v) ∉ D i) (href : ∀ i, R i → ∀ es, (b!"Resources", Val.dict es) ∉ D i) :
    ∃ xs e', StdDict a.doc.objs a.doc.rootObjID (D a.doc.rootObjID) ∧ (D a.doc.rootObjID).lookup b!"XObject" = none ∧
      StdDict b.doc.objs a.doc.rootObjID e' ∧ e'.lookup b!"XObject" = some (.dict xs) ∧ ∀ i ∈ b.app.imgs, (i.xObjChar ++ itoa i.xObjIndex, Val.ref i.objID) ∈ xs := by
  obtain ⟨fids, d1, new, added, iids, d3, xs, streams, hs⟩ := build_steps hinv hp h
  obtain ⟨D3, hL, hroot, k1, k2, k3, k4, k5, k6⟩ := before_contents hd ht hs
  obtain ⟨r, hc⟩ := content_std hL (fun i hi => (k1 i hi).1) (fun i hi => (hd.streams i hi).imp (fun o ho => k3 i o (fun hR => (hd.apart i hR).2 hi) (fun hN => hd.apart' i hN hi) ho)) k5 k6 hs.step3
  obtain ⟨r1, _, f1, f2, f3⟩ := fonts_std hd hs.step1
  have hsub : ∀ i o, OnlyObj d1.objs i o → OnlyObj (d1.objs ++ added) i o := by
    intro i o ho
    refine onlyObj_append_fresh (fun x hx e => ?_) ho
    have h1 := onlyObj_id ho
    have h2 := hs.fresh
    rw [List.nodup_append] at h2
    exact h2.2.2 i h1 i (List.mem_map.2 ⟨x, hx, e⟩) rfl
  classical
  let D1 : Int → List (Bytes × Val) := fun i => if hi : R i then (f1 i hi).choose else []
  have hD1 : ∀ i, R i → StdDict d1.objs i (D1 i) ∧ Upd (FontVal (refEntries (new.map CrFont.named))) (fun o o' => o' = o) (D i) (D1 i) := by
    intro i hi
    have : D1 i = (f1 i hi).choose := dif_pos hi
    rw [this]
    exact (f1 i hi).choose_spec
  have hL1 : Linked R C D1 d1.rootObjID := by
    rw [r1]
    exact hd.linked.upd (fun i hi => (hD1 i hi).2)
  have hno1 : ∀ i, R i → (D1 i).lookup b!"XObject" = none := fun i hi => by
    rw [(hD1 i hi).2.xobj]
    exact lookup_none_of (hno i hi)
  have href1 : ∀ i, R i → ∀ es, (b!"Resources", Val.dict es) ∉ D1 i := by
    intro i hi es hm
    rcases (hD1 i hi).2.mem _ hm with h1 | ⟨h1, _⟩ | ⟨_, es0, _, h1, _⟩
    · exact href i hi es h1
    · rcases h1 with h1 | h1 <;> simp at h1
    · exact href i hi es0 h1
  obtain ⟨e', g1, g2⟩ := imgs_spread (d := { d1 with objs := d1.objs ++ added }) (fun i hi => StdDict.kept (hD1 i hi).1 (hsub i)) hL1 hno1 href1 hs.step2
  simp only at g1
  rw [r1] at g1
  refine ⟨refEntries (xs.map CrXObj.named), e', hd.dicts _ (Or.inl hd.top), lookup_none_of (hno _ hd.top), StdDict.kept g1 (fun o ho => hc _ o (hd.apart _ hd.top).2 ho), g2, ?_⟩
  intro i hi
  obtain ⟨j, hj⟩ := List.mem_iff_getElem?.1 hi
  obtain ⟨⟨c, e1, e2, e3, e4⟩, e5⟩ := hs.img j i hj
  refine List.mem_map.2 ⟨c.named, List.mem_map.2 ⟨c, List.mem_of_getElem? e1, rfl⟩, ?_⟩
  simp only [CrXObj.named, e2, e3, e4]

end
/-! ### an example: pages at different depths that share resources without images -/

def imglessDoc : Doc :=
  { rootObjID := 1, xrefs := [], pageSizes := []
    objs := [
      ⟨1, b!"\n<< /Type /Catalog /Pages 2 0 R >>\n"⟩,
      ⟨2, b!"\n<< /Type /Pages /Count 2 /Kids [ 3 0 R 4 0 R ] >>\n"⟩,
      ⟨3, b!"\n<< /Type /Page /Parent 2 0 R /Resources 6 0 R /Contents 7 0 R >>\n"⟩,
      ⟨4, b!"\n<< /Type /Pages /Count 1 /Kids [ 5 0 R ] /Parent 2 0 R >>\n"⟩,
      ⟨5, b!"\n<< /Type /Page /Parent 4 0 R /Resources 6 0 R /Contents [ 8 0 R ] >>\n"⟩,
      ⟨6, b!"\n<< /Font << /F1 9 0 R >> >>\n"⟩,
      ⟨7, b!"\n<< /Length 1 >>\nstream\nq\nendstream\n"⟩,
      ⟨8, b!"\n<< /Length 1 >>\nstream\nq\nendstream\n"⟩,
      ⟨9, b!"\n<< /Type /Font >>\n"⟩] }

def imglessDicts : List (Int × List (Bytes × Val)) := [
  (1, [(b!"Type", .name b!"Catalog"), (b!"Pages", .ref 2)]),
  (2, [(b!"Type", .name b!"Pages"), (b!"Count", .num 2), (b!"Kids", .arr [.ref 3, .ref 4])]),
  (3, [(b!"Type", .name b!"Page"), (b!"Parent", .ref 2), (b!"Resources", .ref 6), (b!"Contents", .ref 7)]),
  (4, [(b!"Type", .name b!"Pages"), (b!"Count", .num 1), (b!"Kids", .arr [.ref 5]), (b!"Parent", .ref 2)]),
  (5, [(b!"Type", .name b!"Page"), (b!"Parent", .ref 4), (b!"Resources", .ref 6), (b!"Contents", .arr [.ref 8])]),
  (6, [(b!"Font", .dict [(b!"F1", .ref 9)])])]

def imglessDict (i : Int) : List (Bytes × Val) := (imglessDicts.lookup i).getD []

set_option maxRecDepth 20000 in
theorem imglessDoc_dicts : ∀ i : Int, 1 ≤ i ∧ i ≤ 6 → StdDict imglessDoc.objs i (imglessDict i) := by
  have o1 : StdDict imglessDoc.objs 1 (imglessDict 1) := stdDict_of (x := b!" /Type /Catalog /Pages 2 0 R ") (by decide) (by decide) rfl (stdText_of (by decide +kernel) ⟨_, rfl, rfl⟩)
  have o2 : StdDict imglessDoc.objs 2 (imglessDict 2) := stdDict_of (x := b!" /Type /Pages /Count 2 /Kids [ 3 0 R 4 0 R ] ") (by decide) (by decide) rfl (stdText_of (by decide +kernel) ⟨_, rfl, rfl⟩)
  have o3 : StdDict imglessDoc.objs 3 (imglessDict 3) := stdDict_of (x := b!" /Type /Page /Parent 2 0 R /Resources 6 0 R /Contents 7 0 R ") (by decide) (by decide) rfl (stdText_of (by decide +kernel) ⟨_, rfl, rfl⟩)
  have o4 : StdDict imglessDoc.objs 4 (imglessDict 4) := stdDict_of (x := b!" /Type /Pages /Count 1 /Kids [ 5 0 R ] /Parent 2 0 R ") (by decide) (by decide) rfl (stdText_of (by decide +kernel) ⟨_, rfl, rfl⟩)
  have o5 : StdDict imglessDoc.objs 5 (imglessDict 5) := stdDict_of (x := b!" /Type /Page /Parent 4 0 R /Resources 6 0 R /Contents [ 8 0 R ] ") (by decide) (by decide) rfl (stdText_of (by decide +kernel) ⟨_, rfl, rfl⟩)
  have o6 : StdDict imglessDoc.objs 6 (imglessDict 6) := stdDict_of (x := b!" /Font << /F1 9 0 R >> ") (by decide) (by decide) rfl (stdText_of (by decide +kernel) ⟨_, rfl, rfl⟩)
  intro i hi
  have : i = 1 ∨ i = 2 ∨ i = 3 ∨ i = 4 ∨ i = 5 ∨ i = 6 := by omega
  rcases this with rfl | rfl | rfl | rfl | rfl | rfl <;> assumption

theorem imglessDoc_linked : LinkedDoc imglessDoc.objs imglessDoc.rootObjID (fun i => 1 ≤ i ∧ i ≤ 6) (fun _ => False) (fun i => i = 7 ∨ i = 8) imglessDict := by
  refine ⟨fun i hi => imglessDoc_dicts i (hi.elim id False.elim), fun i hi => ⟨id, by omega⟩, fun i hi => hi.elim, by decide, ?_, ?_, ?_, ?_, ?_, ?_, ?_, fun i hi => hi.elim, ?_⟩
  · intro k n h
    simp [imglessDoc, imglessDict, imglessDicts] at h
    obtain ⟨rfl, rfl⟩ := h
    exact ⟨by decide, by decide⟩
  · intro v h
    simp [imglessDoc, imglessDict, imglessDicts] at h
    exact ⟨2, h, by decide⟩
  · intro i hi v h
    rcases deep_cases hi with rfl | rfl | rfl | rfl | rfl | rfl <;> simp [imglessDict, imglessDicts, List.lookup] at h
    · exact ⟨[3, 4], by simp, h, by simp⟩
    · exact ⟨[5], by simp, h, by simp⟩
  · intro i hi v h
    rcases deep_cases hi with rfl | rfl | rfl | rfl | rfl | rfl <;> simp [imglessDict, imglessDicts, List.lookup] at h
    · exact Or.inl ⟨6, h, by decide⟩
    · exact Or.inl ⟨6, h, by decide⟩
  · left
    intro i hi v h
    rcases deep_cases hi with rfl | rfl | rfl | rfl | rfl | rfl <;> simp [imglessDict, imglessDicts, List.lookup] at h
    · exact ⟨6, h⟩
    · exact ⟨6, h⟩
  · intro i hi
    refine ⟨?_, ?_, ?_⟩
    · intro k n h
      rcases deep_cases hi with rfl | rfl | rfl | rfl | rfl | rfl <;> simp [imglessDict, imglessDicts, List.lookup] at h <;> obtain ⟨rfl, rfl⟩ := h <;> exact ⟨by decide, by decide⟩
    · intro v h
      rcases deep_cases hi with rfl | rfl | rfl | rfl | rfl | rfl <;> simp [imglessDict, imglessDicts, List.lookup] at h
      refine Or.inr ⟨_, h, ?_⟩
      intro x hx
      simp at hx
      subst hx
      exact ⟨9, rfl, by unfold Readable; omega⟩
    · intro v h
      rcases deep_cases hi with rfl | rfl | rfl | rfl | rfl | rfl <;> simp [imglessDict, imglessDicts, List.lookup] at h
  · intro i hi v h
    rcases deep_cases hi with rfl | rfl | rfl | rfl | rfl | rfl <;> simp [imglessDict, imglessDicts, List.lookup] at h
    · exact Or.inl ⟨7, h, by unfold Readable; omega, by simp⟩
    · exact Or.inr ⟨[8], by simp, h, by unfold Readable; simp⟩
  · intro i hi
    rcases hi with rfl | rfl
    · exact ⟨_, rfl⟩
    · exact ⟨_, rfl⟩

theorem imglessDoc_std : StdDoc imglessDoc (.node 2 [.leaf 3, .node 4 [.leaf 5]]) := by
  have h := imglessDoc_dicts
  refine ⟨⟨_, h 1 (by decide), rfl, by simp [imglessDict, imglessDicts]⟩, ⟨_, h 2 (by decide), rfl, ⟨rfl, by simp [imglessDict, imglessDicts, List.lookup]⟩, by simp⟩, ⟨_, h 3 (by decide), rfl, rfl, ?_⟩,
    ⟨⟨_, h 4 (by decide), rfl, ⟨rfl, ?_⟩, by simp⟩, ⟨_, h 5 (by decide), rfl, rfl, ?_⟩, trivial⟩, trivial⟩ <;> simp [imglessDict, imglessDicts, List.lookup]

/-- an image on the second page -/
def imglessApp : App := (({ doc := imglessDoc } : App).insertImg plainEnv b!"x" 2 0 0 1 1).state

def imglessSaved : Bool :=
  match imglessApp.build plainEnv with
  | .ok b => decide (b.app.imgs.length = 1) && decide (imglessApp.doc.objs = imglessDoc.objs ∧ imglessApp.doc.rootObjID = 1) &&
      decide ((idsOf imglessApp.doc.objs).Nodup ∧ (∀ i ∈ idsOf imglessApp.doc.objs, 1 ≤ i) ∧ imglessApp.fontMap = [] ∧ imglessApp.fonts.length = 0) && imglessApp.protection.isNone
  | _ => false

set_option maxRecDepth 20000 in
/-- The image inserted on the second page is in the catalog. -/
example : ∃ b xs e', imglessApp.build plainEnv = .ok b ∧ b.app.imgs.length = 1 ∧ StdDict b.doc.objs 1 e' ∧ e'.lookup b!"XObject" = some (.dict xs) ∧
    ∀ i ∈ b.app.imgs, (i.xObjChar ++ itoa i.xObjIndex, Val.ref i.objID) ∈ xs := by
  have hs : imglessSaved = true := by decide +kernel
  unfold imglessSaved at hs
  split at hs
  · rename_i b hb
    simp only [Bool.and_eq_true, decide_eq_true_eq, Option.isNone_iff_eq_none] at hs
    obtain ⟨⟨⟨h1, h2, h3⟩, h4, h5, h6, h7⟩, h8⟩ := hs
    have hl : LinkedDoc imglessApp.doc.objs imglessApp.doc.rootObjID (fun i => 1 ≤ i ∧ i ≤ 6) (fun _ => False) (fun i => i = 7 ∨ i = 8) imglessDict := by
      rw [h2, h3]
      exact imglessDoc_linked
    have ht : StdDoc imglessApp.doc (.node 2 [.leaf 3, .node 4 [.leaf 5]]) := by
      have := imglessDoc_std
      unfold StdDoc at this ⊢
      rw [h2, h3]
      exact this
    obtain ⟨xs, e', _, _, k1, k2, k3⟩ := C62_refuted_all ⟨h4, h5, by rw [h6]; simp, by rw [h6]; simp⟩ h8 hl ht hb
      (by
        intro i hi v h
        rcases deep_cases hi with rfl | rfl | rfl | rfl | rfl | rfl <;> simp [imglessDict, imglessDicts, List.lookup] at h)
      (by
        intro i hi es h
        rcases deep_cases hi with rfl | rfl | rfl | rfl | rfl | rfl <;> simp [imglessDict, imglessDicts, List.lookup] at h)
    rw [h3] at k1
    exact ⟨b, xs, e', hb, h1, k1, k2, k3⟩
  · simp at hs

end Verif
