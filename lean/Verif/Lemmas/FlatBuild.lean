import Verif.Lemmas.FlatSave
import Verif.Lemmas.Build
/-!
# The whole of `Save` for flat documents
-/
namespace Verif
open Spec

/-- A document with a flat page tree whose fonts and images can be read, and whose pages have content objects of their own. -/
structure Spec.SaveDoc (unzip : Bytes → Option Bytes) (objs : List Obj) (root tree : Int) (ct node : Props) (pages : List FlatPage) (L : List PageC) : Prop where
  fonts : FlatDoc b!"Font" objs root tree ct node pages
  images : FlatDoc b!"XObject" objs root tree ct node pages
  readable : FontsReadable objs pages
  names : FontNamesPlain objs pages
  written : Written pages
  imagesReadable : ImagesReadable pages
  unmixed : Unmixed pages
  catRes : valueOf ct b!"Resources" = none
  nodeRes : valueOf node b!"Resources" = none
  isNode : ∃ v, valueOf node b!"Pages" = some v
  isPage : ∀ g ∈ pages, ∃ v, valueOf g.entries b!"Page" = some v
  contents : L.map (·.page) = pages.map (·.id)
  contentsOk : ∀ x ∈ L, x.Ok unzip objs
  own : (L.map (·.obj)).Nodup
  apart : ∀ x ∈ L, x.obj ∉ root :: tree :: pages.map (·.id) ∧ ∀ g ∈ pages, g.resPlace ≠ some x.obj ∧ x.obj ∉ g.refs b!"Font" ∧ x.obj ∉ g.refs b!"XObject"

/-- What is known about the document after `Save`. -/
structure SavedDoc (objs objs4 : List Obj) (root tree : Int) (ct node : Props) (pages : List FlatPage) (L : List PageC) (new : List CrFont) (m : Int) (xobjs newX : List CrXObj) (added : List Obj)
    (streams : List (Int × Bytes)) : Prop where
  cat : ∃ ps, Entries objs4 root ps ∧ ∀ k, k ≠ b!"XObject" → valueOf ps k = valueOf ct k
  node : ∃ ps, Entries objs4 tree ps ∧ ∀ k, k ≠ b!"XObject" → valueOf ps k = valueOf node k
  page : ∀ g ∈ pages, ∃ ps', Entries objs4 g.id ps' ∧ (∀ k, k ≠ b!"XObject" → k ≠ b!"Resources" → valueOf ps' k = valueOf g.entries k) ∧
    (g.res = none → valueOf ps' b!"Resources" = none)
  res : ∀ g ∈ pages, ∀ r, g.res = some r → ∃ rs', resDict objs4 g.id = some rs' ∧ Tidy rs' ∧ (∀ k, k ≠ b!"Font" → k ≠ b!"XObject" → valueOf rs' k = valueOf r.entries k) ∧
    XObjNew xobjs newX pages r.entries rs' ∧ (valueOf r.entries b!"Font" = none → valueOf rs' b!"Font" = none)
  font : ∀ g ∈ pages, ∀ r, g.res = some r → ∀ place fs, FontAt objs r place fs → ∃ lf, crFontsOf fs = .ok lf ∧ (∀ x ∈ lf, x.idx ≤ m) ∧
    resourcesOf objs4 g.id b!"Font" = some (fontProps (lf ++ new))
  content : ∀ i x, L[i]? = some x → if drawnOn streams (i + 1) = [] then ∀ o, OnlyObj objs x.obj o → OnlyObj objs4 x.obj o
    else ∃ o, OnlyObj objs4 x.obj o ∧ StreamObject o.data (x.body ++ b!"\n" ++ (drawnOn streams (i + 1)).flatten)
  frame : ∀ i o, OnlyObj objs i o → i ∉ root :: tree :: pages.map (·.id) → (∀ g ∈ pages, g.resPlace ≠ some i ∧ i ∉ g.refs b!"Font") → i ∉ L.map (·.obj) → OnlyObj objs4 i o
  added : ∀ o ∈ added, OnlyObj objs4 o.objID o

variable {objs objs' : List Obj} {root tree : Int} {ct node : Props} {pages : List FlatPage} {new : List CrFont} {m : Int}

theorem onlyObj_of_nodup {objs : List Obj} (h : (idsOf objs).Nodup) {o : Obj} (ho : o ∈ objs) : OnlyObj objs o.objID o := by
  obtain ⟨a, b, rfl⟩ := List.append_of_mem ho
  unfold idsOf at h
  rw [List.map_append, List.map_cons, List.nodup_append, List.nodup_cons] at h
  obtain ⟨_, ⟨hb, _⟩, hab⟩ := h
  unfold OnlyObj
  rw [List.filter_append, List.filter_cons, if_pos (by simp)]
  have e1 : a.filter (fun x => decide (x.objID = o.objID)) = [] :=
    List.filter_eq_nil_iff.2 (fun x hx => by simpa using hab _ (List.mem_map_of_mem hx) _ (by simp))
  have e2 : b.filter (fun x => decide (x.objID = o.objID)) = [] :=
    List.filter_eq_nil_iff.2 (fun x hx e => hb (List.mem_map.2 ⟨x, hx, by simpa using e⟩))
  rw [e1, e2]
  rfl

theorem onlyObj_id {objs : List Obj} {i : Int} {o : Obj} (h : OnlyObj objs i o) : i ∈ idsOf objs := by
  obtain ⟨h1, h2⟩ := h.mem
  exact List.mem_map.2 ⟨o, h1, h2⟩

theorem filter_only {objs objs' : List Obj} {i : Int} (h : objs'.filter (fun x => decide (x.objID = i)) = objs.filter (fun x => decide (x.objID = i))) {o : Obj}
    (ho : OnlyObj objs i o) : OnlyObj objs' i o := by
  unfold OnlyObj at ho ⊢
  rw [h, ho]

theorem fontPage_valueOf (h : FlatDoc b!"Font" objs root tree ct node pages) {g : FlatPage} (hg : g ∈ pages) {k : Bytes} (hk : k ≠ b!"Resources") :
    valueOf (fontPage pages new g).entries k = valueOf g.entries k := by
  cases hgr : g.res with
  | none => rw [fontPage_none hgr]
  | some r =>
    rw [(fontPage_some hgr).2]
    split
    · obtain ⟨_, _, _, v, hv, _⟩ := resEntries (h.pagesOk g hg) hgr
      rw [setFirst_valueOf (onlyKey_valueOf hv), if_neg hk]
    · rfl

theorem fontPage_kept {k : Bytes} (hk : k ≠ b!"Resources") (g : FlatPage) : KeyKept k g.entries (fontPage pages new g).entries := by
  cases hgr : g.res with
  | none => rw [fontPage_none hgr]; rfl
  | some r =>
    rw [(fontPage_some hgr).2]
    split
    · exact setFirst_kept hk _
    · rfl

/-- the images are as they were -/
theorem fontPage_images (h : FlatDoc b!"Font" objs root tree ct node pages) (hr : FontsReadable objs pages) (hnm : FontNamesPlain objs pages)
    (hi : FontsInjected objs objs' pages new m) (hnew : ∀ f ∈ new, CrFontOk f ∧ f.pfx.take 5 ≠ b!"Pages") {g2 : FlatPage} (hg : g2 ∈ pages.map (fontPage pages new)) {r2 : ResInfo}
    (hr2 : g2.res = some r2) : ∃ g ∈ pages, ∃ r, g.res = some r ∧ g2.id = g.id ∧ r2.place = r.place ∧ valueOf r2.entries b!"XObject" = valueOf r.entries b!"XObject" := by
  obtain ⟨g, hgm, rfl⟩ := List.mem_map.1 hg
  cases hgr : g.res with
  | none => rw [fontPage_none hgr, hgr] at hr2; simp at hr2
  | some r =>
    rw [(fontPage_some hgr).1] at hr2
    simp only [Option.some.injEq] at hr2
    subst hr2
    exact ⟨g, hgm, r, hgr, fontPage_id g, rfl, (fontEntries_ok h hr hnm hi hnew hgm hgr).other _ (by decide)⟩

theorem fontPage_free (h : FlatDoc b!"Font" objs root tree ct node pages) (hr : FontsReadable objs pages) (hnm : FontNamesPlain objs pages)
    (hi : FontsInjected objs objs' pages new m) (hnew : ∀ f ∈ new, CrFontOk f ∧ f.pfx.take 5 ≠ b!"Pages") : ImageFree (pages.map (fontPage pages new)) ↔ ImageFree pages := by
  constructor
  · intro hf g hg r hgr
    have := hf (fontPage pages new g) (List.mem_map_of_mem hg) _ (fontPage_some hgr).1
    simp only at this
    rw [(fontEntries_ok h hr hnm hi hnew hg hgr).other _ (by decide)] at this
    exact this
  · intro hf g2 hg r2 hr2
    obtain ⟨g, hg, r, hgr, _, _, e⟩ := fontPage_images h hr hnm hi hnew hg hr2
    rw [e]
    exact hf g hg r hgr

theorem fontPage_split (h : FlatDoc b!"Font" objs root tree ct node pages) (hr : FontsReadable objs pages) (hnm : FontNamesPlain objs pages)
    (hi : FontsInjected objs objs' pages new m) (hnew : ∀ f ∈ new, CrFontOk f ∧ f.pfx.take 5 ≠ b!"Pages") : Split (pages.map (fontPage pages new)) ↔ Split pages := by
  constructor
  · rintro ⟨g2, hg2, r2, g2', hg2', r2', e1, e2, e3⟩
    obtain ⟨g, hg, r, hgr, _, e, _⟩ := fontPage_images h hr hnm hi hnew hg2 e1
    obtain ⟨g', hg', r', hgr', _, e', _⟩ := fontPage_images h hr hnm hi hnew hg2' e2
    exact ⟨g, hg, r, g', hg', r', hgr, hgr', by rw [← e, ← e']; exact e3⟩
  · rintro ⟨g, hg, r, g', hg', r', e1, e2, e3⟩
    exact ⟨_, List.mem_map_of_mem hg, _, _, List.mem_map_of_mem hg', _, (fontPage_some e1).1, (fontPage_some e2).1, e3⟩

theorem newFonts_plain (ids : List Int) (m : Int) : ∀ f ∈ newCrFonts m ids, CrFontOk f ∧ f.pfx.take 5 ≠ b!"Pages" := by
  intro f hf
  refine ⟨newCrFonts_ok ids m f hf, ?_⟩
  rw [(newCrFonts_mem hf).1]
  exact (by decide : b!"F".take 5 ≠ b!"Pages")

theorem lacks_pages {ps : Props} (h : LacksName b!"Pages" ps) : valueOf ps b!"Pages" = none :=
  valueOf_none_of (fun p hp e => (h p hp).1 (by rw [e]; rfl))

/-- The document after the fonts are injected, with new objects: its pages are those with the new fonts. -/
theorem flat_one {unzip : Bytes → Option Bytes} {σ : Nat → Shuffle} {d d1 : Doc} {L : List PageC} {fids : List Int} {new : List CrFont} {added : List Obj}
    (h : SaveDoc unzip d.objs d.rootObjID tree ct node pages L) (hstep1 : injectFonts σ d fids = .ok (d1, new)) (hfresh : (idsOf d1.objs ++ idsOf added).Nodup) :
    ∃ m, new = newCrFonts m fids ∧ FontsInjected d.objs d1.objs pages new m ∧ d1.rootObjID = d.rootObjID ∧ (∀ i o, OnlyObj d1.objs i o → OnlyObj (d1.objs ++ added) i o) ∧
      FlatDoc b!"XObject" (d1.objs ++ added) d.rootObjID tree ct node (pages.map (fontPage pages new)) ∧ Written (pages.map (fontPage pages new)) ∧
      (ImageFree (pages.map (fontPage pages new)) ↔ ImageFree pages) ∧ (Split (pages.map (fontPage pages new)) ↔ Split pages) ∧
      ImagesReadable (pages.map (fontPage pages new)) ∧ Unmixed (pages.map (fontPage pages new)) := by
  obtain ⟨m, rfl, hi, hd1⟩ := injectFonts_flat h.fonts h.readable hstep1
  have hnew := newFonts_plain fids m
  have hids1 : idsOf d1.objs = idsOf d.objs := (injectFonts_frame hstep1).1
  have hroot : d1.rootObjID = d.rootObjID := by rw [hd1]
  have hsub : ∀ i o, OnlyObj d1.objs i o → OnlyObj (d1.objs ++ added) i o := by
    intro i o ho
    refine onlyObj_append_fresh (fun x hx e => ?_) ho
    have h1 := onlyObj_id ho
    have h2 := hfresh
    rw [List.nodup_append] at h2
    exact h2.2.2 i h1 i (List.mem_map.2 ⟨x, hx, e⟩) rfl
  obtain ⟨hx2, hw2⟩ := flat_fonts h.fonts h.images h.readable h.names h.written hi hnew hsub
  set pages2 := pages.map (fontPage pages (newCrFonts m fids)) with hpages2
  have hfree : ImageFree pages2 ↔ ImageFree pages := fontPage_free h.fonts h.readable h.names hi hnew
  have hsplit : Split pages2 ↔ Split pages := fontPage_split h.fonts h.readable h.names hi hnew
  have hir2 : ImagesReadable pages2 := by
    intro g2 hg2 r2 hr2 w hw
    obtain ⟨g, hg, r, hgr, _, _, e⟩ := fontPage_images h.fonts h.readable h.names hi hnew hg2 hr2
    exact h.imagesReadable g hg r hgr w (by rw [← e]; exact hw)
  have hun2 : Unmixed pages2 := by
    intro hf
    rcases h.unmixed (hfree.1 hf) with hu | hu
    · left
      intro g2 hg2 r2 hr2
      obtain ⟨g, hg, r, hgr, _, e, _⟩ := fontPage_images h.fonts h.readable h.names hi hnew hg2 hr2
      rw [e]; exact hu g hg r hgr
    · right
      intro g2 hg2 r2 hr2
      obtain ⟨g, hg, r, hgr, _, e, _⟩ := fontPage_images h.fonts h.readable h.names hi hnew hg2 hr2
      rw [e]; exact hu g hg r hgr
  exact ⟨m, rfl, hi, hroot, hsub, hx2, hw2, hfree, hsplit, hir2, hun2⟩

/-- The document after fonts and images are injected. -/
theorem flat_two {unzip : Bytes → Option Bytes} {σ : Nat → Shuffle} {d d1 d3 : Doc} {L : List PageC} {fids iids : List Int} {m : Int} {newX : List CrXObj} {added : List Obj}
    (h : SaveDoc unzip d.objs d.rootObjID tree ct node pages L) (hstep1 : injectFonts σ d fids = .ok (d1, newCrFonts m fids)) (hfresh : (idsOf d1.objs ++ idsOf added).Nodup)
    (hi : FontsInjected d.objs d1.objs pages (newCrFonts m fids) m)
    (hstep2 : injectImgs σ { d1 with objs := d1.objs ++ added } iids = .ok (d3, newX)) :
    ∃ c n xs, newX = newCrXObjs c n iids ∧ (ImageFree (pages.map (fontPage pages (newCrFonts m fids))) → c = b!"I" ∧ n = 0 ∧ xs = []) ∧
      (0 ≤ n ∧ (c = b!"I" ∨ ∃ x ∈ xs, c = x.chr) ∧ (¬ Split (pages.map (fontPage pages (newCrFonts m fids))) → Covers (pages.map (fontPage pages (newCrFonts m fids))) xs n)) ∧
      (∀ x ∈ xs ++ newCrXObjs c n iids, CrXObjOk x) ∧
      (∀ x ∈ xs, ∃ g ∈ pages.map (fontPage pages (newCrFonts m fids)), ∃ r v, g.res = some r ∧ valueOf r.entries b!"XObject" = some v ∧ x ∈ parseCrXObjs v) ∧
      ImgsInjected (d1.objs ++ added) d3.objs d.rootObjID tree ct node (pages.map (fontPage pages (newCrFonts m fids))) (xs ++ newCrXObjs c n iids) (newCrXObjs c n iids) ∧
      d3.rootObjID = d.rootObjID ∧
      (∀ {i o}, i ∉ d.rootObjID :: tree :: pages.map (·.id) → (∀ g ∈ pages, g.resPlace ≠ some i) → OnlyObj (d1.objs ++ added) i o → OnlyObj d3.objs i o) ∧
      (∀ g ∈ pages, ∃ ps', Entries d3.objs g.id ps' ∧ Tidy ps' ∧ (∀ k, k ≠ b!"XObject" → k ≠ b!"Resources" → KeyKept k g.entries ps') ∧
        (g.res = none → valueOf ps' b!"Resources" = none) ∧
        ∀ r, g.res = some r → ∃ rs', Keeps (fontEntries (newCrFonts m fids) (timesOf pages r) r.entries) rs' ∧
          XObjNew (xs ++ newCrXObjs c n iids) (newCrXObjs c n iids) (pages.map (fontPage pages (newCrFonts m fids))) (fontEntries (newCrFonts m fids) (timesOf pages r) r.entries) rs' ∧ (match r.place with
          | none => valueOf ps' b!"Resources" = some (dictVal rs')
          | some i => valueOf ps' b!"Resources" = valueOf g.entries b!"Resources" ∧ Entries d3.objs i rs')) ∧
      HasTree d3 (.node tree ((pages.map (·.id)).map Tree.leaf)) ∧ ∀ x ∈ L, x.Ok unzip d3.objs := by
  obtain ⟨m', _, _, hroot, hsub, hx2, hw2, hfree, hsplit, hir2, hun2⟩ := flat_one h hstep1 hfresh
  set pages2 := pages.map (fontPage pages (newCrFonts m fids)) with hpages2
  obtain ⟨c, n, xs, rfl, hc1, hcov, hc2, hc3, hj, hd3⟩ := injectImgs_flat (d := { d1 with objs := d1.objs ++ added }) (by simp only; rw [hroot]; exact hx2) h.catRes h.nodeRes hw2 hir2 hun2 hstep2
  simp only [hroot] at hj
  have hroot3 : d3.rootObjID = d.rootObjID := by rw [hd3]; exact hroot
  -- where objects stay
  have ids2 : pages2.map (·.id) = pages.map (·.id) := by
    rw [hpages2, List.map_map]
    exact List.map_congr_left (fun g _ => fontPage_id g)
  have frame3 : ∀ {i o}, i ∉ d.rootObjID :: tree :: pages.map (·.id) → (∀ g ∈ pages, g.resPlace ≠ some i) → OnlyObj (d1.objs ++ added) i o → OnlyObj d3.objs i o := by
    intro i o h1 h2 ho
    simp only [List.mem_cons, not_or] at h1
    refine filter_only (hj.frame i h1.1 h1.2.1 (fun g2 hg2 => ?_)) ho
    obtain ⟨g, hg, rfl⟩ := List.mem_map.1 hg2
    rw [fontPage_id, fontPage_resPlace]
    exact ⟨fun e => h1.2.2 (e ▸ List.mem_map_of_mem hg), h2 g hg⟩
  have frame13 : ∀ {i o}, OnlyObj d.objs i o → i ∉ d.rootObjID :: tree :: pages.map (·.id) → (∀ g ∈ pages, g.resPlace ≠ some i ∧ i ∉ g.refs b!"Font") → OnlyObj d3.objs i o := by
    intro i o ho h1 h2
    refine frame3 h1 (fun g hg => (h2 g hg).1) (hsub i o (filter_only (hi.frame i (off_kept h.fonts (fun g hg => ⟨?_, h2 g hg⟩))) ho))
    rintro rfl
    exact h1 (by simp only [List.mem_cons]; exact Or.inr (Or.inr (List.mem_map_of_mem hg)))
  -- the page tree
  have hfull : ∀ g ∈ pages, ∃ ps', Entries d3.objs g.id ps' ∧ Tidy ps' ∧ (∀ k, k ≠ b!"XObject" → k ≠ b!"Resources" → KeyKept k g.entries ps') ∧
      (g.res = none → valueOf ps' b!"Resources" = none) ∧
      ∀ r, g.res = some r → ∃ rs', Keeps (fontEntries (newCrFonts m fids) (timesOf pages r) r.entries) rs' ∧
        XObjNew (xs ++ newCrXObjs c n iids) (newCrXObjs c n iids) pages2 (fontEntries (newCrFonts m fids) (timesOf pages r) r.entries) rs' ∧ (match r.place with
        | none => valueOf ps' b!"Resources" = some (dictVal rs')
        | some i => valueOf ps' b!"Resources" = valueOf g.entries b!"Resources" ∧ Entries d3.objs i rs') := by
    intro g hg
    obtain ⟨ps', e1, e2, e3, e4, e5⟩ := hj.page _ (List.mem_map_of_mem hg)
    rw [fontPage_id] at e1
    refine ⟨ps', e1, e2, ?_, ?_, ?_⟩
    · intro k k1 k2
      exact (e3 k k1 k2).trans (fontPage_kept k2 g)
    · intro hn
      exact e4 (by rw [fontPage_none hn, hn])
    · intro r hgr
      obtain ⟨rs', r1, r2, r3⟩ := e5 _ (fontPage_some hgr).1
      refine ⟨rs', r1, r2, ?_⟩
      simp only at r3
      cases hpl : r.place with
      | none => rw [hpl] at r3; exact r3
      | some i =>
        rw [hpl] at r3
        simp only at r3 ⊢
        rw [(fontPage_some hgr).2, if_neg (by rw [hpl]; simp)] at r3
        exact r3
  have hpage3 : ∀ g ∈ pages, ∃ ps', Entries d3.objs g.id ps' ∧ (∀ k, k ≠ b!"XObject" → k ≠ b!"Resources" → valueOf ps' k = valueOf g.entries k) ∧
      (g.res = none → valueOf ps' b!"Resources" = none) ∧
      ∀ r, g.res = some r → ∃ rs', Keeps (fontEntries (newCrFonts m fids) (timesOf pages r) r.entries) rs' ∧
        XObjNew (xs ++ newCrXObjs c n iids) (newCrXObjs c n iids) pages2 (fontEntries (newCrFonts m fids) (timesOf pages r) r.entries) rs' ∧ (match r.place with
        | none => valueOf ps' b!"Resources" = some (dictVal rs')
        | some i => valueOf ps' b!"Resources" = valueOf g.entries b!"Resources" ∧ Entries d3.objs i rs') := by
    intro g hg
    obtain ⟨ps', e1, _, e2, e3, e4⟩ := hfull g hg
    exact ⟨ps', e1, fun k k1 k2 => (e2 k k1 k2).valueOf, e3, e4⟩
  have htree : HasTree d3 (.node tree ((pages.map (·.id)).map Tree.leaf)) := by
    refine ⟨?_, ?_⟩
    · obtain ⟨ct', h1, h2⟩ := hj.cat
      obtain ⟨v, hv, hr⟩ := h.fonts.pagesRef
      exact ⟨ct', v, by rw [hroot3]; exact h1, by rw [h2.2 _ (by decide)]; exact onlyKey_valueOf hv, refOf_some hr⟩
    · rw [IsTree]
      refine ⟨?_, ?_⟩
      · obtain ⟨node', h1, h2⟩ := hj.node
        obtain ⟨v, hv, _, hr⟩ := h.fonts.kids
        obtain ⟨w, hw⟩ := h.isNode
        refine ⟨node', h1, ⟨w, by rw [h2.2 _ (by decide)]; exact hw⟩, v, by rw [h2.2 _ (by decide)]; exact onlyKey_valueOf hv, Or.inl ?_⟩
        rw [List.map_map]
        have : (pages.map (·.id)).map (Tree.id ∘ Tree.leaf) = pages.map (·.id) := by
          rw [List.map_map]; rfl
        rw [this]
        exact hr
      · refine isTreeL_leaves (fun i hi => ?_)
        obtain ⟨g, hg, rfl⟩ := List.mem_map.1 hi
        obtain ⟨ps', e1, e2, _⟩ := hpage3 g hg
        obtain ⟨v, hv⟩ := h.isPage g hg
        refine ⟨ps', e1, ⟨v, by rw [e2 _ (by decide) (by decide)]; exact hv⟩, Or.inl ?_⟩
        rw [e2 _ (by decide) (by decide)]
        exact lacks_pages (h.fonts.pagesOk g hg).noPages
  have hok3 : ∀ x ∈ L, x.Ok unzip d3.objs := by
    intro x hx
    obtain ⟨⟨ps, v, he, hv, hr⟩, o, ho, hho⟩ := h.contentsOk x hx
    have hxp : x.page ∈ pages.map (·.id) := by rw [← h.contents]; exact List.mem_map_of_mem hx
    obtain ⟨g, hg, hgx⟩ := List.mem_map.1 hxp
    obtain ⟨ps', e1, e2, _⟩ := hpage3 g hg
    have hps : ps = g.entries := by
      have h1 := entriesOf_of he
      rw [← hgx, entriesOf_of (h.fonts.pagesOk g hg).entries] at h1
      simpa using h1.symm
    refine ⟨⟨ps', v, hgx ▸ e1, by rw [e2 _ (by decide) (by decide), ← hps]; exact hv, hr⟩, o, ?_, hho⟩
    have hap := h.apart x hx
    exact frame13 ho hap.1 (fun g hg => ⟨(hap.2 g hg).1, (hap.2 g hg).2.1⟩)
  exact ⟨c, n, xs, rfl, hc1, hcov, hc2, hc3, hj, hroot3, frame3, hfull, htree, hok3⟩

theorem build_flat {env : Env} {a : App} {b : Built} {L : List PageC} (hinv : NumInv a) (hp : a.protection = none) (hb : a.build env = .ok b)
    (h : SaveDoc env.unzip a.doc.objs a.doc.rootObjID tree ct node pages L) :
    ∃ fids d1 m added iids d3 xs c n streams, Steps env a b fids d1 (newCrFonts m fids) added iids d3 (newCrXObjs c n iids) streams ∧ 0 ≤ m ∧
      (ImageFree pages → c = b!"I" ∧ n = 0 ∧ xs = []) ∧ (0 ≤ n ∧ (c = b!"I" ∨ ∃ x ∈ xs, c = x.chr) ∧ (¬ Split pages → Covers pages xs n)) ∧ (∀ x ∈ xs ++ newCrXObjs c n iids, CrXObjOk x) ∧
      (∀ x ∈ xs, ∃ g ∈ pages, ∃ r v, g.res = some r ∧ valueOf r.entries b!"XObject" = some v ∧ x ∈ parseCrXObjs v) ∧
      b.doc.rootObjID = a.doc.rootObjID ∧ SavedDoc a.doc.objs b.doc.objs a.doc.rootObjID tree ct node pages L (newCrFonts m fids) m (xs ++ newCrXObjs c n iids) (newCrXObjs c n iids) added streams := by
  obtain ⟨fids, d1, new, added, iids, d3, newX, streams, hs⟩ := build_steps hinv hp hb
  obtain ⟨m, rfl, hi, hroot, hsub, hx2, hw2, hfree, hsplit, hir2, hun2⟩ := flat_one h hs.step1 hs.fresh
  obtain ⟨c, n, xs, rfl, hc1, hcov, hc2, hc3, hj, hroot3, frame3, hfull, htree, hok3⟩ := flat_two h hs.step1 hs.fresh hi hs.step2
  set pages2 := pages.map (fontPage pages (newCrFonts m fids)) with hpages2
  have hpage3 : ∀ g ∈ pages, ∃ ps', Entries d3.objs g.id ps' ∧ (∀ k, k ≠ b!"XObject" → k ≠ b!"Resources" → valueOf ps' k = valueOf g.entries k) ∧
      (g.res = none → valueOf ps' b!"Resources" = none) ∧
      ∀ r, g.res = some r → ∃ rs', Keeps (fontEntries (newCrFonts m fids) (timesOf pages r) r.entries) rs' ∧
        XObjNew (xs ++ newCrXObjs c n iids) (newCrXObjs c n iids) pages2 (fontEntries (newCrFonts m fids) (timesOf pages r) r.entries) rs' ∧ (match r.place with
        | none => valueOf ps' b!"Resources" = some (dictVal rs')
        | some i => valueOf ps' b!"Resources" = valueOf g.entries b!"Resources" ∧ Entries d3.objs i rs') := by
    intro g hg
    obtain ⟨ps', e1, _, e2, e3, e4⟩ := hfull g hg
    exact ⟨ps', e1, fun k k1 k2 => (e2 k k1 k2).valueOf, e3, e4⟩
  have hnew := newFonts_plain fids m
  have frame13 : ∀ {i o}, OnlyObj a.doc.objs i o → i ∉ a.doc.rootObjID :: tree :: pages.map (·.id) → (∀ g ∈ pages, g.resPlace ≠ some i ∧ i ∉ g.refs b!"Font") → OnlyObj d3.objs i o := by
    intro i o ho h1 h2
    refine frame3 h1 (fun g hg => (h2 g hg).1) (hsub i o (filter_only (hi.frame i (off_kept h.fonts (fun g hg => ⟨?_, h2 g hg⟩))) ho))
    rintro rfl
    exact h1 (by simp only [List.mem_cons]; exact Or.inr (Or.inr (List.mem_map_of_mem hg)))
  obtain ⟨hct1, hct2⟩ := C15_contents_partial htree (L := L) (by rw [Tree.pages, pagesL_leaves, h.contents]) hok3 h.own hs.step3
  have hfar : ∀ {i}, i ∈ a.doc.rootObjID :: tree :: pages.map (·.id) → i ∉ L.map (·.obj) := by
    intro i hi hm
    obtain ⟨x, hx, rfl⟩ := List.mem_map.1 hm
    exact (h.apart x hx).1 hi
  have hpid : ∀ {g}, g ∈ pages → g.id ∈ a.doc.rootObjID :: tree :: pages.map (·.id) := by
    intro g hg
    simp only [List.mem_cons]
    exact Or.inr (Or.inr (List.mem_map_of_mem hg))
  have hent : ∀ {i ps}, i ∉ L.map (·.obj) → Entries d3.objs i ps → Entries b.doc.objs i ps := by
    rintro i ps hi ⟨o, h1, h2⟩
    exact ⟨o, hct2 i o hi h1, h2⟩
  have hresfar : ∀ {g i}, g ∈ pages → g.resPlace = some i → i ∉ L.map (·.obj) := by
    intro g i hg hi hm
    obtain ⟨x, hx, rfl⟩ := List.mem_map.1 hm
    exact ((h.apart x hx).2 g hg).1 hi
  -- resources
  have hres4 : ∀ g ∈ pages, ∀ r, g.res = some r → ∃ ps' v rs', Entries b.doc.objs g.id ps' ∧ valueOf ps' b!"Resources" = some v ∧ dictOf b.doc.objs v = some rs' ∧
      Keeps (fontEntries (newCrFonts m fids) (timesOf pages r) r.entries) rs' ∧
      XObjNew (xs ++ newCrXObjs c n iids) (newCrXObjs c n iids) pages2 (fontEntries (newCrFonts m fids) (timesOf pages r) r.entries) rs' := by
    intro g hg r hgr
    obtain ⟨ps', e1, e2, e3, e4⟩ := hpage3 g hg
    obtain ⟨rs', r1, r2, r3⟩ := e4 r hgr
    have e1' := hent (hfar (hpid hg)) e1
    cases hpl : r.place with
    | none =>
      rw [hpl] at r3
      exact ⟨ps', _, rs', e1', r3, dictOf_dictVal r1.1, r1, r2⟩
    | some i =>
      rw [hpl] at r3
      simp only at r3
      have hok := h.fonts.pagesOk g hg
      obtain ⟨_, _, _, v, hv, hd⟩ := resEntries hok hgr
      rw [hpl] at hd
      refine ⟨ps', v, rs', e1', by rw [r3.1]; exact onlyKey_valueOf hv, ?_, r1, r2⟩
      refine dictOf_ref (mem_tidy hok.tidy (onlyKey_mem hv)) hd.2.1 (hent (hresfar hg ?_) r3.2)
      rw [FlatPage.resPlace, hgr]
      exact hpl
  refine ⟨fids, d1, m, added, iids, d3, xs, c, n, streams, hs, hi.low.1, fun hf => hc1 (hfree.2 hf), ⟨hcov.1, hcov.2.1, ?_⟩, hc2, ?_, ?_⟩
  · intro hns g hg r v hgr hv
    refine hcov.2.2 (fun hsp => hns (hsplit.1 hsp)) _ (List.mem_map_of_mem hg) _ v (fontPage_some hgr).1 ?_
    simp only
    rw [(fontEntries_ok h.fonts h.readable h.names hi hnew hg hgr).other _ (by decide)]
    exact hv
  · intro x hx
    obtain ⟨g2, hg2, r2, v, hr2, hv, hxv⟩ := hc3 x hx
    obtain ⟨g, hg, r, hgr, _, _, e⟩ := fontPage_images h.fonts h.readable h.names hi hnew hg2 hr2
    exact ⟨g, hg, r, v, hgr, by rw [← e]; exact hv, hxv⟩
  · have hent' : ∀ {i ps}, i ∈ a.doc.rootObjID :: tree :: pages.map (·.id) → Entries d3.objs i ps → Entries b.doc.objs i ps := fun hi he => hent (hfar hi) he
    refine ⟨(injectContent_frame hs.step3).2.1.trans hroot3, ?_, ?_, ?_, ?_, ?_, ?_, ?_, ?_⟩
    · obtain ⟨ct', h1, h2⟩ := hj.cat
      exact ⟨ct', hent' (by simp) h1, h2.2⟩
    · obtain ⟨node', h1, h2⟩ := hj.node
      exact ⟨node', hent' (by simp) h1, h2.2⟩
    · intro g hg
      obtain ⟨ps', e1, e2, e3, _⟩ := hpage3 g hg
      exact ⟨ps', hent (hfar (hpid hg)) e1, e2, e3⟩
    · intro g hg r hgr
      obtain ⟨ps', v, rs', h1, h2, h3, h4, h5⟩ := hres4 g hg r hgr
      have hok := fontEntries_ok h.fonts h.readable h.names hi hnew hg hgr
      refine ⟨rs', resDict_eq h1 h2 h3, h4.1, ?_, ?_, ?_⟩
      · intro k k1 k2
        rw [h4.2 k k2, hok.other k k1]
      · have hxe : valueOf (fontEntries (newCrFonts m fids) (timesOf pages r) r.entries) b!"XObject" = valueOf r.entries b!"XObject" := hok.other _ (by decide)
        unfold XObjNew at h5 ⊢
        rw [hxe, hfree, hsplit] at h5
        exact h5
      · intro hn
        rw [h4.2 _ (by decide)]
        unfold fontEntries
        rw [hn]
        exact hn
    · intro g hg r hgr place fs hf
      obtain ⟨lf, hl, hlow⟩ := hi.low.2 g hg r place fs hgr hf
      refine ⟨lf, hl, hlow, ?_⟩
      obtain ⟨ps', v, rs', h1, h2, h3, h4, _⟩ := hres4 g hg r hgr
      have hok := h.fonts.pagesOk g hg
      obtain ⟨t1, _, _, _⟩ := resEntries hok hgr
      have hfw := hf
      obtain ⟨w, hw, hfd⟩ := hfw
      have ht := fontProps_ok hi (newCrFonts_ok fids m) hfd.1 hl
      cases place with
      | none =>
        refine resourcesOf_eq h1 h2 h3 (w := dictVal (fontProps (lf ++ newCrFonts m fids))) ?_ (dictOf_dictVal ht)
        rw [h4.2 _ (by decide), fontEntries_at hf hl, setFirst_valueOf (v := w) (by rw [copies_valueOf (timesOf_pos hg hgr), hw]), if_pos rfl]
      | some i =>
        have hin : ¬ ∃ fs, FontAt a.doc.objs r none fs := by
          rintro ⟨fs', hf'⟩
          have := (fontAt_unique t1 hf hf').1
          simp at this
        have hmem := fontAt_ref hgr hf
        have hap := h.fonts.refsApart g hg i hmem
        refine resourcesOf_eq h1 h2 h3 (w := w) ?_ (dictOf_ref (mem_tidy t1 (valueOf_mem hw)) hfd.2.1 (hent ?_ ?_))
        · rw [h4.2 _ (by decide), fontEntries_off hg h.readable hgr t1 hin]
          exact hw
        · intro hm
          obtain ⟨x, hx, rfl⟩ := List.mem_map.1 hm
          exact ((h.apart x hx).2 g hg).2.1 hmem
        · obtain ⟨o, ho1, ho2⟩ := entries_sub hsub (hi.obj g hg r fs lf i hgr hf hl)
          exact ⟨o, frame3 hap.1 hap.2 ho1, ho2⟩
    · intro i x hx
      have := hct1 i x hx
      split at this
      · rename_i he
        rw [if_pos he]
        intro o ho
        have hap := h.apart x (List.mem_of_getElem? hx)
        exact this o (frame13 ho hap.1 (fun g hg => ⟨(hap.2 g hg).1, (hap.2 g hg).2.1⟩))
      · rename_i he
        rw [if_neg he]
        exact this
    · intro i o ho h1 h2 h3
      exact hct2 i o h3 (frame13 ho h1 h2)
    · intro o ho
      have hfr := hs.fresh
      have hlow : ∀ {i o'}, OnlyObj a.doc.objs i o' → o.objID ≠ i := by
        intro i o' hio e
        have h1 := OnlyObj_le_maxID hio
        have h2 := (hs.range o.objID (List.mem_map_of_mem ho)).1
        omega
      have h2 : OnlyObj (d1.objs ++ added) o.objID o := onlyObj_of_nodup (by rw [idsOf_append]; exact hfr) (List.mem_append_right _ ho)
      refine hct2 _ _ ?_ (frame3 ?_ ?_ h2)
      · intro hm
        obtain ⟨x, hx, e⟩ := List.mem_map.1 hm
        obtain ⟨_, o', ho', _⟩ := h.contentsOk x hx
        exact hlow ho' e.symm
      · intro hm
        simp only [List.mem_cons] at hm
        rcases hm with e | e | hm
        · obtain ⟨o', ho', _⟩ := h.fonts.catEntries
          exact hlow ho' e
        · obtain ⟨o', ho', _⟩ := h.fonts.nodeEntries
          exact hlow ho' e
        · obtain ⟨g, hg, e⟩ := List.mem_map.1 hm
          obtain ⟨o', ho', _⟩ := (h.fonts.pagesOk g hg).entries
          exact hlow ho' e.symm
      · intro g hg e
        cases hgr : g.res with
        | none => rw [FlatPage.resPlace, hgr] at e; simp at e
        | some r =>
          rw [FlatPage.resPlace, hgr] at e
          obtain ⟨_, _, _, v, hv, hd⟩ := resEntries (h.fonts.pagesOk g hg) hgr
          rw [show r.place = some o.objID from e] at hd
          obtain ⟨o', ho', _⟩ := hd.2.2
          exact hlow ho' rfl

end Verif
