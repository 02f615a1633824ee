import Verif.Lemmas.FlatBuild
/-!
# The steps of `Save` succeed
-/
namespace Verif
open Spec

variable {objs objs' : List Obj} {root tree : Int} {ct node : Props} {pages : List FlatPage} {new : List CrFont} {m : Int}

theorem applyReplaces_total : ∀ (reps : List (Int × Bytes)) {objs : List Obj}, (∀ p ∈ reps, ∃ o, OnlyObj objs p.1 o) → ∃ objs', applyReplaces reps objs = .ok objs'
  | [], objs, _ => ⟨objs, rfl⟩
  | (id, data) :: t, objs, h => by
    obtain ⟨o, ho⟩ := h (id, data) (by simp)
    rw [applyReplaces, setObjData_only ho]
    simp only [Res.ok_bind]
    refine applyReplaces_total t (fun p hp => ?_)
    obtain ⟨q, hq⟩ := h p (by simp [hp])
    by_cases e : p.1 = id
    · exact ⟨_, by rw [e]; exact onlyObj_updData_eq ho⟩
    · exact ⟨q, onlyObj_updData_ne e hq⟩

/-! ### fonts -/

/-- the fonts of every page have names of the form letters, number -/
def FontsNumbered (objs : List Obj) (pages : List FlatPage) : Prop :=
  ∀ g ∈ pages, ∀ r, g.res = some r → ∀ place fs, FontAt objs r place fs → ∃ lf, crFontsOf fs = .ok lf

theorem findMax_total : ∀ (l : List (Int × Items)) (m0 : Int),
    (∀ p ∈ l, p.2.valOf b!"Font" = none ∨ ∃ place fs, HasFonts objs p.2 place fs) → (∀ p ∈ l, ∀ place fs, HasFonts objs p.2 place fs → ∃ lf, crFontsOf fs = .ok lf) →
      ∃ m, findMaxFontIndex objs l m0 = .ok m
  | [], m0, _, _ => ⟨m0, rfl⟩
  | (i, it) :: t, m0, hk, hl => by
    have hk' := fun p hp => hk p (List.mem_cons_of_mem _ hp)
    have hl' := fun p hp => hl p (List.mem_cons_of_mem _ hp)
    rw [findMaxFontIndex]
    rcases hk (i, it) (by simp) with hn | ⟨place, fs, hf⟩
    · rw [fontsOfResult_none hn, Res.ok_bind]
      exact findMax_total t m0 hk' hl'
    · obtain ⟨lf, hlf⟩ := hl (i, it) (by simp) place fs hf
      cases place with
      | none =>
        rw [fontsOfResult_inline hf, hlf]
        simp only [Res.ok_bind]
        exact findMax_total t _ hk' hl'
      | some j =>
        rw [fontsOfResult_ref hf, hlf]
        simp only [Res.ok_bind]
        exact findMax_total t _ hk' hl'

theorem fontReplaces_total : ∀ (l : List (Int × Items)) (m : List (Int × Bytes)),
    (∀ p ∈ l, p.2.valOf b!"Font" = none ∨ ∃ place fs, HasFonts objs p.2 place fs) → (∀ p ∈ l, ∀ place fs, HasFonts objs p.2 place fs → ∃ lf, crFontsOf fs = .ok lf) →
      ∃ reps, fontReplaces objs new l m = .ok reps
  | [], m, _, _ => ⟨m, rfl⟩
  | (i, it) :: t, m, hk, hl => by
    have hk' := fun p hp => hk p (List.mem_cons_of_mem _ hp)
    have hl' := fun p hp => hl p (List.mem_cons_of_mem _ hp)
    rw [fontReplaces]
    rcases hk (i, it) (by simp) with hn | ⟨place, fs, hf⟩
    · rw [fontsOfResult_none hn, Res.ok_bind]
      exact fontReplaces_total t _ hk' hl'
    · obtain ⟨lf, hlf⟩ := hl (i, it) (by simp) place fs hf
      cases place with
      | none =>
        rw [fontsOfResult_inline hf, hlf]
        simp only [Res.ok_bind, if_true]
        exact fontReplaces_total t _ hk' hl'
      | some j =>
        rw [fontsOfResult_ref hf, hlf]
        simp only [Res.ok_bind, reduceCtorEq, if_false]
        exact fontReplaces_total t _ hk' hl'

theorem injectFonts_total {σ : Nat → Shuffle} {d : Doc} (ids : List Int) (h : FlatDoc b!"Font" d.objs d.rootObjID tree ct node pages)
    (hr : FontsReadable d.objs pages) (hnum : FontsNumbered d.objs pages) : ∃ r, injectFonts σ d ids = .ok r := by
  unfold injectFonts
  obtain ⟨rs, hc, hrs⟩ := pageCrawl_flat h (σ 10)
  obtain ⟨hkind, hsrc⟩ := flatFonts h hr hrs
  have hmem : ∀ (j : Nat) p, p ∈ (σ j).fn rs ↔ p ∈ rs := fun j p => ((σ j).perm rs).mem_iff
  have hl : ∀ p ∈ rs, ∀ place fs, HasFonts d.objs p.2 place fs → ∃ lf, crFontsOf fs = .ok lf := by
    intro p hp place fs hf
    rcases hsrc p hp place fs hf with ⟨g, hg, r, _, h1, _, h3⟩ | ⟨g, hg, r, _, h1, _, h3⟩
    · exact hnum g hg r h1 place fs h3
    · exact hnum g hg r h1 place fs h3
  obtain ⟨m, hm⟩ := findMax_total ((σ 11).fn rs) 0 (fun p hp => hkind p ((hmem 11 p).1 hp)) (fun p hp => hl p ((hmem 11 p).1 hp))
  obtain ⟨reps, hreps⟩ := fontReplaces_total (new := newCrFonts m ids) ((σ 12).fn rs) [] (fun p hp => hkind p ((hmem 12 p).1 hp)) (fun p hp => hl p ((hmem 12 p).1 hp))
  rw [hc, Res.ok_bind, hm, Res.ok_bind]
  simp only
  rw [hreps, Res.ok_bind]
  have hres : ∀ g ∈ pages, ∀ r i, g.res = some r → r.place = some i → ∃ o, OnlyObj d.objs i o := by
    intro g hg r i h1 h2
    obtain ⟨_, _, _, v, _, h3⟩ := resEntries (h.pagesOk g hg) h1
    rw [h2] at h3
    obtain ⟨_, _, o, ho, _⟩ := h3
    exact ⟨o, ho⟩
  have href : ∀ (r : ResInfo) i fs, FontAt d.objs r (some i) fs → ∃ o, OnlyObj d.objs i o := by
    rintro r i fs ⟨w, _, _, _, o, ho, _⟩
    exact ⟨o, ho⟩
  obtain ⟨_, hall, _⟩ := fontReplaces_spec (W := fun i _ => ∃ o, OnlyObj d.objs i o) _ hreps (fun p hp => hkind p ((hmem 12 p).1 hp))
    (fun p hp place fs lf a b => by
      rcases hsrc p ((hmem 12 p).1 hp) place fs a with ⟨g, hg, r, rfl, h1, h2, h3⟩ | ⟨g, hg, r, _, h1, h2, h3⟩
      · cases place with
        | none =>
          obtain ⟨o, ho, _⟩ := (h.pagesOk g hg).entries
          exact ⟨o, ho⟩
        | some j => exact href r j fs h3
      · cases place with
        | none => exact hres g hg r p.1 h1 h2
        | some j => exact href r j fs h3) (by simp) (by simp)
  obtain ⟨objs', ho⟩ := applyReplaces_total (reps.map (fun p => (p.1, wrapDict p.2))) (objs := d.objs) (by
    intro p hp
    obtain ⟨q, hq, rfl⟩ := List.mem_map.1 hp
    exact hall q hq)
  rw [ho]
  exact ⟨_, rfl⟩

/-! ### images -/

theorem splitSpace_length : ∀ s : Bytes, (splitSpace s).length = s.count 32 + 1
  | [] => rfl
  | c :: t => by
    have ih := splitSpace_length t
    rw [splitSpace]
    by_cases hc : c = 0x20
    · rw [if_pos hc, List.length_cons, ih, hc]
      simp
    · rw [if_neg hc]
      rw [List.count_cons_of_ne (by simpa using hc)]
      cases hs : splitSpace t with
      | nil => rw [hs] at ih; simp at ih
      | cons a b => rw [hs] at ih; simpa using ih

theorem readID_words {v : Bytes} (h : (trimSpace v).count 32 ≠ 2) : readObjIDFromDictionary v = .err .objectIDNotFound := by
  unfold readObjIDFromDictionary
  simp only
  split
  · rfl
  · split
    · rename_i a b c e
      have := splitSpace_length (trimSpace v)
      rw [e] at this
      simp only [List.length_cons, List.length_nil] at this
      omega
    · rfl

theorem findResources_total : ∀ (l : List (Int × Items)),
    (∀ p ∈ l, ∀ v, p.2.valOf b!"Resources" = some v → (∃ i, readObjIDFromDictionary v = .ok i) ∨ readObjIDFromDictionary v = .err .objectIDNotFound) →
      (∃ p ∈ l, ∃ v, p.2.valOf b!"Resources" = some v) → ∃ x, findResources l = .ok (some x)
  | [], _, h => by obtain ⟨p, hp, _⟩ := h; simp at hp
  | (i, it) :: t, hl, h => by
    rw [findResources]
    cases hv : it.valOf b!"Resources" with
    | none =>
      refine findResources_total t (fun p hp => hl p (by simp [hp])) ?_
      obtain ⟨p, hp, v, e⟩ := h
      rcases List.mem_cons.1 hp with rfl | hp
      · rw [hv] at e; simp at e
      · exact ⟨p, hp, v, e⟩
    | some v =>
      simp only
      rcases hl (i, it) (by simp) v hv with ⟨j, e⟩ | e
      · rw [e]; exact ⟨_, rfl⟩
      · rw [e]; exact ⟨_, rfl⟩

theorem embedReplaces_total (xobjs : List CrXObj) : ∀ (l : List (Int × Items)) (m : List (Int × Bytes)),
    (∀ p ∈ l, ∀ v, p.2.valOf b!"Resources" = some v → 4 ≤ (trimSpace v).length) → ∃ reps, embedReplaces xobjs l m = .ok reps
  | [], m, _ => ⟨m, rfl⟩
  | (i, it) :: t, m, h => by
    rw [embedReplaces]
    have h' := fun p hp => h p (List.mem_cons_of_mem _ hp)
    cases hv : it.valOf b!"Resources" with
    | none => exact embedReplaces_total xobjs t m h'
    | some v =>
      simp only
      rw [if_neg (by have := h (i, it) (by simp) v hv; omega)]
      exact embedReplaces_total xobjs t _ h'

theorem trimSpace_dictVal (ps : Props) : trimSpace (dictVal ps) = dictVal ps := by
  have e : dictVal ps = [] ++ ((b!"<<" ++ compact ps ++ b!">") ++ [62]) ++ [] := by simp [dictVal]
  conv_lhs => rw [e]
  rw [trimSpace_ends (c := 60) (e := 62) (by simp) (by simp) (by simp) List.getLast?_concat (by decide) (by decide) (by decide) (by decide)]
  simp [dictVal]

/-- Resources written in the page are not three words. -/
def NotThreeWords (pages : List FlatPage) : Prop := ∀ g ∈ pages, ∀ r, g.res = some r → r.place = none → (dictVal r.entries).count 32 ≠ 2

/-- Adding images to a document with a flat page tree succeeds. -/
theorem injectImgs_total {σ : Nat → Shuffle} {d : Doc} (ids : List Int) (h : FlatDoc b!"XObject" d.objs d.rootObjID tree ct node pages)
    (h1 : valueOf ct b!"Resources" = none) (h2 : valueOf node b!"Resources" = none) (hw : Written pages) (hu : Unmixed pages)
    (hres : ∃ g ∈ pages, g.res ≠ none) (h3 : NotThreeWords pages) : ∃ r, injectImgs σ d ids = .ok r := by
  unfold injectImgs
  obtain ⟨rs3, hc3, hc3', hrs3⟩ := pageCrawl_flat3 h (σ 20)
  have hval : ∀ p ∈ rs3, ∀ v, p.2.valOf b!"Resources" = some v → ∃ g ∈ pages, ∃ r, g.res = some r ∧ p = (g.id, strs g.entries) ∧ OnlyKey g.entries b!"Resources" v ∧ DictAt d.objs v r.place r.entries := by
    intro p hp v hv
    rcases hrs3.only p hp with rfl | rfl | ⟨g, hg, rfl⟩ | ⟨_, e⟩
    · rw [strs_valOf, h1] at hv; simp at hv
    · rw [strs_valOf, h2] at hv; simp at hv
    · rw [strs_valOf] at hv
      have hok := h.pagesOk g hg
      cases hgr : g.res with
      | none =>
        have := hok.res
        rw [hgr] at this
        rw [show valueOf g.entries b!"Resources" = none from this] at hv
        simp at hv
      | some r =>
        obtain ⟨_, _, _, v', hv', hd⟩ := resEntries hok hgr
        rw [onlyKey_valueOf hv'] at hv
        cases hv
        exact ⟨g, hg, r, hgr, rfl, hv', hd⟩
    · rw [e] at hv; simp [Items.valOf] at hv
  have hmem : ∀ (j : Nat) p, p ∈ (σ j).fn rs3 ↔ p ∈ rs3 := fun j p => ((σ j).perm rs3).mem_iff
  obtain ⟨⟨emb, from_⟩, hf⟩ := findResources_total ((σ 21).fn rs3) (by
    intro p hp v hv
    obtain ⟨g, hg, r, hgr, _, hv', hd⟩ := hval p ((hmem 21 p).1 hp) v hv
    cases hpl : r.place with
    | none =>
      right
      have := hw g hg r hgr hpl
      rw [onlyKey_valueOf hv'] at this
      cases this
      refine readID_words ?_
      rw [trimSpace_dictVal]
      exact h3 g hg r hgr hpl
    | some i =>
      rw [hpl] at hd
      exact Or.inl ⟨i, refOf_some hd.2.1⟩) (by
    obtain ⟨g, hg, hne⟩ := hres
    obtain ⟨r, hgr⟩ := Option.ne_none_iff_exists'.1 hne
    obtain ⟨_, _, _, v, hv, _⟩ := resEntries (h.pagesOk g hg) hgr
    exact ⟨_, (hmem 21 _).2 (hrs3.page g hg), v, by rw [strs_valOf]; exact onlyKey_valueOf hv⟩)
  rw [hc3, Res.ok_bind, hf, Res.ok_bind]
  simp only
  obtain ⟨g0, hg0, r0, hr0, hcase⟩ := findResources_flat h h1 h2 hrs3 (fun p hp => ((σ 21).perm rs3).mem_iff.1 hp) hf
  have hok0 := h.pagesOk g0 hg0
  obtain ⟨t0, s0, _, v0, hv0, hd0⟩ := resEntries hok0 hr0
  -- every number met belongs to an object
  have hcat : ∃ o, OnlyObj d.objs d.rootObjID o := by obtain ⟨o, ho, _⟩ := h.catEntries; exact ⟨o, ho⟩
  have hnode : ∃ o, OnlyObj d.objs tree o := by obtain ⟨o, ho, _⟩ := h.nodeEntries; exact ⟨o, ho⟩
  have hpg : ∀ g ∈ pages, ∃ o, OnlyObj d.objs g.id o := by
    intro g hg
    obtain ⟨o, ho, _⟩ := (h.pagesOk g hg).entries
    exact ⟨o, ho⟩
  have hrp : ∀ g ∈ pages, ∀ r i, g.res = some r → r.place = some i → ∃ o, OnlyObj d.objs i o := by
    intro g hg r i e1 e2
    obtain ⟨_, _, _, v, _, e3⟩ := resEntries (h.pagesOk g hg) e1
    rw [e2] at e3
    obtain ⟨_, _, o, ho, _⟩ := e3
    exact ⟨o, ho⟩
  have hrefs : ∀ g ∈ pages, ∀ i ∈ g.refs b!"XObject", ∃ o, OnlyObj d.objs i o := by
    intro g hg i hi
    unfold FlatPage.refs at hi
    cases hgr : g.res with
    | none => rw [hgr] at hi; simp at hi
    | some r =>
      rw [hgr] at hi
      simp only [List.mem_filterMap, List.mem_filter, decide_eq_true_eq] at hi
      obtain ⟨p, ⟨hp, hk⟩, hi⟩ := hi
      obtain ⟨tr, sr, _⟩ := resEntries (h.pagesOk g hg) hgr
      rcases sr p hp hk with e | ⟨i', o, e, ho⟩
      · exact absurd e (ref_type (mem_tidy tr hp) hi).2.1
      · rw [e] at hi
        cases hi
        exact ⟨o, ho⟩
  obtain ⟨rs1, hrun1, hn1, hone1⟩ : ∃ rs1, crawlRun d.objs from_ [b!"XObject"] = (rs1, .ok ()) ∧ (rs1.map (·.1)).Nodup ∧ ∀ p ∈ rs1, (∃ o, OnlyObj d.objs p.1 o) ∨ p.2 = Items.nil := by
    rcases hcase with ⟨e1, e2⟩ | ⟨e1, e2, rfl⟩
    · rw [e2] at hd0
      obtain ⟨rs1, a, b, c, e⟩ := crawl_one (k := b!"XObject") hd0.2.2 t0 s0
      refine ⟨rs1, a, b, fun p hp => ?_⟩
      rcases e p hp with rfl | e'
      · exact Or.inl (hrp g0 hg0 r0 from_ hr0 e2)
      · exact Or.inr e'
    · obtain ⟨rs1, a, b, c, e⟩ := crawl_one (k := b!"XObject") (r := ⟨none, g0.entries⟩) hok0.entries hok0.tidy (fun p hp hk => absurd hk (valueOf_none_iff.1 hok0.plain p hp))
      refine ⟨rs1, a, b, fun p hp => ?_⟩
      rcases e p hp with rfl | e'
      · exact Or.inl (hpg g0 hg0)
      · exact Or.inr e'
  rw [hrun1]
  simp only [Res.ok_bind]
  obtain ⟨rs2, hc2, hrs2⟩ := pageCrawl_flat h (σ 22)
  have hobj2 : ∀ p ∈ rs2, ∃ o, OnlyObj d.objs p.1 o := by
    intro p hp
    rcases hrs2.only p hp with rfl | rfl | ⟨g, hg, rfl⟩ | ⟨g, hg, r, a, b, e⟩ | ⟨⟨g, hg, hi⟩, e⟩
    · exact hcat
    · exact hnode
    · exact hpg g hg
    · exact hrp g hg r p.1 a b
    · exact hrefs g hg p.1 hi
  have hobj3 : ∀ p ∈ rs3, ∃ o, OnlyObj d.objs p.1 o := by
    intro p hp
    rcases hrs3.only p hp with rfl | rfl | ⟨g, hg, rfl⟩ | ⟨⟨g, hg, hi⟩, e⟩
    · exact hcat
    · exact hnode
    · exact hpg g hg
    · cases hgr : g.res with
      | none => rw [FlatPage.resPlace, hgr] at hi; simp at hi
      | some r =>
        rw [FlatPage.resPlace, hgr] at hi
        exact hrp g hg r p.1 hgr hi
  have hfin : ∀ (reps : List (Int × Bytes)) (new : List CrXObj), (∀ p ∈ reps, ∃ o, OnlyObj d.objs p.1 o) →
      ∃ r, (do let objs ← applyReplaces (reps.map (fun (p : Int × Bytes) => (p.1, wrapDict p.2))) d.objs; Res.ok (({ d with objs := objs } : Doc), new)) = .ok r := by
    intro reps new hr
    obtain ⟨objs', ho⟩ := applyReplaces_total (reps.map (fun p => (p.1, wrapDict p.2))) (objs := d.objs) (by
      intro p hp
      obtain ⟨q, hq, rfl⟩ := List.mem_map.1 hp
      exact hr q hq)
    rw [ho]
    exact ⟨_, rfl⟩
  by_cases hv1 : xobjVals rs1 = []
  · rw [if_pos hv1, hc2]
    simp only [Res.ok_bind]
    by_cases hv2 : xobjVals rs2 = []
    · rw [hv2]
      simp only [List.isEmpty_nil, Bool.not_true, Bool.false_eq_true, if_false]
      have hfree : ImageFree pages := by
        intro g hg r hr
        cases hv : valueOf r.entries b!"XObject" with
        | none => rfl
        | some v =>
          have : v ∈ xobjVals rs2 := by
            cases hp : r.place with
            | none =>
              refine xobjVals_mem.2 ⟨_, hrs2.page g hg, ?_⟩
              rw [pageItems_valOf (h.pagesOk g hg), hr]
              simp only [hp, if_true]
              exact hv
            | some i => exact xobjVals_mem.2 ⟨_, hrs2.res g hg r i hr hp, by rw [strs_valOf, copies_valueOf (sharers_pos hg hr hp), hv]⟩
          rw [hv2] at this
          simp at this
      rcases hcase with ⟨rfl, e2⟩ | ⟨rfl, e2, rfl⟩
      · simp only [Bool.false_eq_true, if_false, Res.ok_bind]
        refine hfin _ _ ?_
        rw [addReplaces_eq _ _ _ (shuffle_nodup (σ 26) hrs2.nodup) (by simp), List.nil_append]
        intro p hp
        obtain ⟨q, hq, rfl⟩ := List.mem_map.1 hp
        exact hobj2 q (((σ 26).perm rs2).mem_iff.1 hq)
      · simp only [if_true]
        rw [hc3']
        simp only [Res.ok_bind]
        have hall : ∀ g ∈ pages, ∀ r, g.res = some r → r.place = none := by
          rcases hu hfree with e | e
          · exact e
          · exact absurd e2 (e g0 hg0 r0 hr0)
        obtain ⟨reps, hreps⟩ := embedReplaces_total (newCrXObjs (xobjScan ((σ 23).fn []) [] b!"I" 0).2.1 (xobjScan ((σ 23).fn []) [] b!"I" 0).2.2 ids) ((σ 25).fn rs3) [] (by
          intro p hp v hv
          obtain ⟨g, hg, r, hgr, _, hv', hd⟩ := hval p ((hmem 25 p).1 hp) v hv
          have := hw g hg r hgr (hall g hg r hgr)
          rw [onlyKey_valueOf hv'] at this
          cases this
          rw [trimSpace_dictVal, dictVal]
          simp only [List.length_append, List.length_cons, List.length_nil]
          omega)
        have hk := embedReplaces_eq _ _ hreps (shuffle_nodup (σ 25) hrs3.nodup) (by simp)
        have e0 : (xobjScan ((σ 23).fn []) [] b!"I" 0).1 = [] := by
          rw [show (σ 23).fn [] = [] from List.length_eq_zero_iff.1 ((σ 23).perm []).length_eq]
          rfl
        rw [e0, List.nil_append, hreps]
        simp only [Res.ok_bind]
        refine hfin _ _ ?_
        intro p hp
        rw [hk, List.nil_append] at hp
        obtain ⟨q, hq, e⟩ := List.mem_filterMap.1 hp
        obtain ⟨v, _, rfl⟩ := Option.map_eq_some_iff.1 e
        exact hobj3 q ((hmem 25 q).1 hq)
    · have hem : (xobjVals rs2).isEmpty = false := by
        cases e : xobjVals rs2 with
        | nil => exact absurd e hv2
        | cons _ _ => rfl
      rw [hem]
      simp only [Bool.not_false, if_true, Res.ok_bind]
      refine hfin _ _ ?_
      rw [xobjReplaces_eq _ _ _ (shuffle_nodup (σ 24) hrs2.nodup) (by simp), List.nil_append]
      intro p hp
      obtain ⟨q, hq, e⟩ := List.mem_filterMap.1 hp
      obtain ⟨v, _, rfl⟩ := Option.map_eq_some_iff.1 e
      exact hobj2 q (((σ 24).perm rs2).mem_iff.1 hq)
  · rw [if_neg hv1]
    have hem : (xobjVals rs1).isEmpty = false := by
      cases e : xobjVals rs1 with
      | nil => exact absurd e hv1
      | cons _ _ => rfl
    simp only [Res.ok_bind]
    rw [hem]
    simp only [Bool.not_false, if_true, Res.ok_bind]
    refine hfin _ _ ?_
    rw [xobjReplaces_eq _ _ _ (shuffle_nodup (σ 24) hn1) (by simp), List.nil_append]
    intro p hp
    obtain ⟨q, hq, e⟩ := List.mem_filterMap.1 hp
    obtain ⟨v, hv, rfl⟩ := Option.map_eq_some_iff.1 e
    rcases hone1 q (((σ 24).perm rs1).mem_iff.1 hq) with e' | e'
    · exact e'
    · rw [e'] at hv; simp [Items.valOf] at hv

/-! ### contents -/

theorem contentReplaces_total {unzip : Bytes → Option Bytes} {objs : List Obj} {buffs : Nat → Option Bytes} : ∀ (L : List PageC) (k : Nat) (m : List (Int × Bytes)),
    (∀ x ∈ L, x.Ok unzip objs) → (∀ x ∈ L, ∃ rs, crawlRun objs x.page [b!"Contents"] = (rs, .ok ())) → ∃ r, contentReplaces unzip objs buffs k (L.map (·.page)) m = .ok r
  | [], k, m, _, _ => ⟨m, rfl⟩
  | x :: t, k, m, hok, hc => by
    obtain ⟨rs, hrs⟩ := hc x (by simp)
    obtain ⟨⟨ps, v, he, hv, hr⟩, o, ho, hh⟩ := hok x (by simp)
    have hok' : ∀ y ∈ t, y.Ok unzip objs := fun y hy => hok y (by simp [hy])
    have hc' := fun y hy => hc y (List.mem_cons_of_mem _ hy)
    rw [List.map_cons, contentReplaces, hrs]
    simp only [Res.ok_bind]
    rw [crawl_contents he hv hr hrs]
    simp only [Res.ok_bind, readContent_holds ho hh]
    cases hb : buffs (k + 1) with
    | none => exact contentReplaces_total t _ _ hok' hc'
    | some b => exact contentReplaces_total t _ _ hok' hc'

theorem injectContent_total {unzip : Bytes → Option Bytes} {d : Doc} (streams : List (Int × Bytes)) {t : Tree} {L : List PageC} (ht : HasTree d t)
    (hp : t.pages = L.map (·.page)) (hok : ∀ x ∈ L, x.Ok unzip d.objs) (hnd : (L.map (·.obj)).Nodup) (hc : ∀ x ∈ L, ∃ rs, crawlRun d.objs x.page [b!"Contents"] = (rs, .ok ())) :
    ∃ d', injectContent unzip d streams = .ok d' := by
  unfold injectContent
  rw [getPageObjIDs_tree ht]
  simp only [Res.ok_bind, hp]
  obtain ⟨reps, hr⟩ := contentReplaces_total (buffs := pageBuff streams) L 0 [] hok hc
  rw [hr]
  simp only [Res.ok_bind]
  have hreps := contentReplaces_eq L hok hnd (by simp) hr
  rw [List.nil_append] at hreps
  subst hreps
  obtain ⟨objs', ho⟩ := applyReplaces_total (replOf (pageBuff streams) 0 L) (objs := d.objs) (by
    intro p hp
    obtain ⟨i, x, b, hx, _, rfl⟩ := replOf_keys L 0 p hp
    obtain ⟨_, o, ho, _⟩ := hok x (List.mem_of_getElem? hx)
    exact ⟨o, ho⟩)
  rw [ho]
  exact ⟨_, rfl⟩

theorem streamsOf_total {fonts : List FontData} {imgs : List ImageData} : ∀ (cs : List Content), (∀ c ∈ cs, ∃ s, c.stream fonts imgs = .ok s) → ∃ ss, streamsOf fonts imgs cs = .ok ss
  | [], _ => ⟨[], rfl⟩
  | c :: cs, h => by
    obtain ⟨s, hs⟩ := h c (by simp)
    obtain ⟨r, hr⟩ := streamsOf_total cs (fun x hx => h x (by simp [hx]))
    rw [streamsOf, hs]
    simp only [Res.ok_bind, hr]
    exact ⟨_, rfl⟩

/-! ### fonts in use -/

/-- every glyph has a width -/
def WidthsOk (t : Ttf) : Prop := ∀ g, ∃ w, glyphWidth t g = .ok w

theorem wEntries_total {t : Ttf} (h : WidthsOk t) : ∀ vs, ∃ w, wEntries t vs = .ok w
  | [] => ⟨[], rfl⟩
  | v :: vs => by
    obtain ⟨w, hw⟩ := h v
    obtain ⟨r, hr⟩ := wEntries_total h vs
    rw [wEntries, hw]
    simp only [Res.ok_bind, hr]
    exact ⟨_, rfl⟩

theorem glyphWidth_units {t : Ttf} {g w : Nat} (h : glyphWidth t g = .ok w) : t.unitsPerEm ≠ 0 := by
  intro h0
  unfold glyphWidth at h
  rw [Res.bind_eq_ok] at h
  obtain ⟨_, _, h⟩ := h
  rw [Res.bind_eq_ok] at h
  obtain ⟨_, _, h⟩ := h
  rw [h0] at h
  simp at h

theorem ccLoop_total {f : FontState} (h : WidthsOk f.ttf) (text : Bytes) (size : Int) : ∀ (rs : List Nat) (st : CCState),
    (ccLoop f text size st rs).2 = .ok () ∨ (ccLoop f text size st rs).2 = .err .charNotFound
  | [], st => Or.inl rfl
  | r :: rs, st => by
    rw [ccLoop]
    have hu : (f.ttf.unitsPerEm : Int) ≠ 0 := by
      obtain ⟨w, hw⟩ := h 0
      have := glyphWidth_units hw
      omega
    cases hv : f.chars.val r with
    | none =>
      right
      simp [charIndex, hv, Res.orErr]
    | some g =>
      have hci : charIndex f.chars r = .ok g := by simp [charIndex, hv, Res.orErr]
      obtain ⟨w, hw⟩ := h g
      have hcw : charWidth f.ttf f.chars r = .ok w := by simp [charWidth, hv, hw]
      obtain ⟨pv, hpv⟩ : ∃ pv, (if st.pos > 0 ∧ f.kernOverride.isSome then convertUnit (kernPair f st.left r st.leftIdx g) f.ttf.unitsPerEm else .ok 0) = Res.ok pv := by
        split
        · unfold convertUnit
          rw [if_neg hu]
          split
          · exact ⟨_, rfl⟩
          · exact ⟨_, rfl⟩
        · exact ⟨_, rfl⟩
      rw [hci]
      simp only
      rw [hpv]
      simp only [hcw]
      exact ccLoop_total h text size rs _

theorem textStream_total {f : FontState} (h : WidthsOk f.ttf) (c : TextContent) (n : Int) : ∃ s, c.stream f n = .ok s := by
  unfold TextContent.stream
  simp only
  have := ccLoop_total h c.text c.fontSize (runes c.text) { out := b!"[<" }
  have hcc : (∃ s, (createContent f c.text c.fontSize).2 = .ok s) ∨ (createContent f c.text c.fontSize).2 = .err .charNotFound := by
    unfold createContent
    generalize ccLoop f c.text c.fontSize { out := b!"[<" } (runes c.text) = r at this ⊢
    obtain ⟨st, r⟩ := r
    simp only at this
    rcases this with rfl | rfl
    · exact Or.inl ⟨_, rfl⟩
    · exact Or.inr rfl
  rcases hcc with ⟨s, e⟩ | e
  · rw [e]; simp only [Res.ok_bind]; exact ⟨_, rfl⟩
  · rw [e]; simp only [Res.ok_bind]; exact ⟨_, rfl⟩

/-- the font can be embedded -/
structure FontUsable (f : FontState) : Prop where
  widths : WidthsOk f.ttf
  file : ∃ b, makeFont f.ttf f.chars = .ok b

theorem fontBuild_total {env : Env} {f : FontData} (h : FontUsable f.state) (start : Int) : ∃ f', f.build env start = .ok f' ∧ f'.state = f.state := by
  unfold FontData.build cidBuild dictBuild
  obtain ⟨w, hw⟩ := wEntries_total h.widths f.state.chars.vals
  obtain ⟨b, hb⟩ := h.file
  rw [hw, hb]
  simp only [Res.ok_bind]
  exact ⟨_, rfl, rfl⟩

theorem buildFonts_total {env : Env} : ∀ (is : List Nat) (id : Int) (fs : List FontData), (∀ i ∈ is, i < fs.length) → (∀ f ∈ fs, FontUsable f.state) →
    ∃ fs' last, buildFonts env is id fs = .ok (fs', last) ∧ fs'.map (·.state) = fs.map (·.state)
  | [], id, fs, _, _ => ⟨fs, id, rfl, rfl⟩
  | i :: t, id, fs, hr, hu => by
    have hi := hr i (by simp)
    obtain ⟨f', hf', hs⟩ := fontBuild_total (env := env) (hu fs[i] (List.getElem_mem hi)) (id + 1)
    obtain ⟨fs', last, h1, h2⟩ := buildFonts_total (env := env) t (id + 6) (fs.set i f') (fun j hj => by rw [List.length_set]; exact hr j (by simp [hj])) (by
      intro f hf
      rcases List.mem_or_eq_of_mem_set hf with hf | rfl
      · exact hu f hf
      · rw [hs]; exact hu _ (List.getElem_mem hi))
    refine ⟨fs', last, ?_, ?_⟩
    · rw [buildFonts, List.getElem?_eq_getElem hi]
      simp only [Res.ofOption, Res.ok_bind, hf']
      exact h1
    · rw [h2, List.map_set, hs]
      conv_rhs => rw [← List.set_getElem_self (as := fs.map (·.state)) (i := i) (h := by simpa using hi)]
      simp

theorem setIndexes_states : ∀ (is : List Nat) (cs : List CrFont) (fs : List FontData), (setIndexes is cs fs).map (·.state) = fs.map (·.state)
  | [], _, _ => by simp [setIndexes]
  | _ :: _, [], _ => by simp [setIndexes]
  | i :: is, c :: cs, fs => by
    rw [setIndexes, setIndexes_states is cs]
    apply List.ext_getElem?
    intro j
    rw [List.getElem?_map, List.getElem?_map, List.getElem?_modify]
    cases fs[j]? with
    | none => rfl
    | some f => simp only [Option.map_eq_map, Option.map_some]; split <;> rfl

end Verif
