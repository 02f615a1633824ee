import Verif.Lemmas.FlatBuild
/-!
# What `Save` does to flat documents (C15, C17, C18, C19, C20, C51, C64, C65, C66)
-/
namespace Verif
open Spec

variable {env : Env} {a : App} {b : Built} {tree : Int} {ct node : Props} {pages : List FlatPage} {L : List PageC}

theorem newCrFonts_get : ∀ (ids : List Int) (m : Int) {j : Nat} {c : CrFont}, (newCrFonts m ids)[j]? = some c → c.pfx = b!"F" ∧ c.idx = m + 1 + j ∧ c.objID ∈ ids
  | [], _, _, _, h => by simp [newCrFonts] at h
  | id :: t, m, 0, c, h => by
    simp only [newCrFonts, List.getElem?_cons_zero, Option.some.injEq] at h
    subst h
    exact ⟨rfl, by simp, by simp⟩
  | id :: t, m, j + 1, c, h => by
    simp only [newCrFonts, List.getElem?_cons_succ] at h
    obtain ⟨h1, h2, h3⟩ := newCrFonts_get t (m + 1) h
    exact ⟨h1, by rw [h2]; push_cast; omega, by simp [h3]⟩

theorem newCrXObjs_get (c0 : Bytes) : ∀ (ids : List Int) (m : Int) {j : Nat} {c : CrXObj}, (newCrXObjs c0 m ids)[j]? = some c → c.chr = c0 ∧ c.idx = m + 1 + j ∧ c.objID ∈ ids
  | [], _, _, _, h => by simp [newCrXObjs] at h
  | id :: t, m, 0, c, h => by
    simp only [newCrXObjs, List.getElem?_cons_zero, Option.some.injEq] at h
    subst h
    exact ⟨rfl, by simp, by simp⟩
  | id :: t, m, j + 1, c, h => by
    simp only [newCrXObjs, List.getElem?_cons_succ] at h
    obtain ⟨h1, h2, h3⟩ := newCrXObjs_get c0 t (m + 1) h
    exact ⟨h1, by rw [h2]; push_cast; omega, by simp [h3]⟩

theorem saved_int64 (h64 : b.lastID < 2 ^ 63) {added : List Obj}
    (hr : ∀ i ∈ idsOf added, maxID a.doc.objs < i ∧ i ≤ b.lastID) {i : Int} (hi : i ∈ idsOf added) : Int64 i := by
  have h1 := maxID_nonneg a.doc.objs
  have h2 := hr i hi
  constructor <;> omega

/-- the font is found under its name, if the list of fonts is as `SavedDoc` says -/
theorem named_saved {objs4 : List Obj} {page : Int} {ids : List Int} {m : Int} (hm : 0 ≤ m) {fs : Props} (ht : Tidy fs) {lf : List CrFont} (hl : crFontsOf fs = .ok lf)
    (hlow : ∀ x ∈ lf, x.idx ≤ m) (hres : resourcesOf objs4 page b!"Font" = some (fontProps (lf ++ newCrFonts m ids))) {f : CrFont} (hf : f ∈ newCrFonts m ids) (h64 : Int64 f.objID) :
    named objs4 page b!"Font" (fontName f) = some f.objID := by
  obtain ⟨x, y, hxy⟩ := List.append_of_mem hf
  have hnd := newCrFonts_nodup ids hm
  have hfr := (new_fresh (ids := ids) hm ht hl hlow f hf).2
  rw [named_eq hres (v := itoa f.objID ++ b!" 0 R")]
  · exact refOf_ref h64
  · rw [hxy, ← List.append_assoc]
    apply valueOf_fontProps
    intro z hz
    rcases List.mem_append.1 hz with hz | hz
    · exact hfr z hz
    · intro e
      rw [hxy, List.map_append, List.nodup_append] at hnd
      exact hnd.2.2 _ (List.mem_map_of_mem hz) _ (List.mem_map_of_mem (List.mem_cons_self ..)) e

/-- **C51** (whole `Save`, without encryption).  In a document with a flat page tree every page that has fonts knows every added font under the name that
is used in the drawn text, and the objects of the font are in the document.  Missing: deeper page trees; documents whose dictionaries are not read without
loss; object numbers of 2^63 and more. -/
theorem C51_saved_partial (hinv : NumInv a) (hp : a.protection = none) (hb : a.build env = .ok b) (h : SaveDoc env.unzip a.doc.objs a.doc.rootObjID tree ct node pages L)
    (h64 : b.lastID < 2 ^ 63) :
    ∀ p ∈ a.fontMap, ∃ f, b.app.fonts[p.2]? = some f ∧ OnlyObj b.doc.objs f.fontID ⟨f.fontID, f.fontBuf⟩ ∧ OnlyObj b.doc.objs (f.fontID + 1) ⟨f.fontID + 1, f.cidBuf⟩ ∧
      OnlyObj b.doc.objs (f.fontID + 2) ⟨f.fontID + 2, f.unicodeBuf⟩ ∧ OnlyObj b.doc.objs (f.fontID + 3) ⟨f.fontID + 3, f.descBuf⟩ ∧
      OnlyObj b.doc.objs (f.fontID + 4) ⟨f.fontID + 4, f.dictBuf⟩ ∧
      ∀ g ∈ pages, ∀ fs, resourcesOf a.doc.objs g.id b!"Font" = some fs → named b.doc.objs g.id b!"Font" (b!"F" ++ itoa f.fontIndex) = some f.fontID := by
  obtain ⟨fids, d1, m, added, iids, d3, xs, c, n, streams, hs, hm, _, _, _, _, _, hsd⟩ := build_flat hinv hp hb h
  intro p hpm
  obtain ⟨ord, hperm, hfont⟩ := hs.font
  obtain ⟨j, hj⟩ := List.mem_iff_getElem?.1 (hperm.mem_iff.2 (List.mem_map_of_mem hpm))
  obtain ⟨f, cf, hf, hc, hidx, hid, hobjs⟩ := hfont j p.2 hj
  have hpfx := (newCrFonts_get fids m hc).1
  have hname : fontName cf = b!"F" ++ itoa f.fontIndex := by rw [fontName, hpfx, hidx]
  have hin : ∀ o ∈ f.objs, OnlyObj b.doc.objs o.objID o := fun o ho => hsd.added o (hobjs o ho)
  simp only [FontData.objs, List.forall_mem_cons, List.not_mem_nil, false_implies, implies_true, and_true] at hin
  refine ⟨f, hf, hin.1, hin.2.1, hin.2.2.1, hin.2.2.2.1, hin.2.2.2.2, ?_⟩
  intro g hg fs hfs
  obtain ⟨r, place, hgr, hfa⟩ := fontAt_of_resources h.fonts h.readable hg hfs
  obtain ⟨lf, hl, hlow, hres⟩ := hsd.font g hg r hgr place fs hfa
  have ht := hfa
  obtain ⟨w, _, ht, _⟩ := ht
  rw [← hname, ← hid]
  exact named_saved hm ht hl hlow hres (List.mem_of_getElem? hc) (saved_int64 h64 hs.range (hs.fidsIn _ (newCrFonts_get fids m hc).2.2))

theorem text_font {c : TextContent} {f : FontState} {i : Int} {s : Bytes} (h : c.stream f i = .ok s) :
    (b!" TD\n/F" ++ itoa i ++ b!" " ++ itoa c.fontSize ++ b!" Tf\n") <:+: s := by
  unfold TextContent.stream at h
  rw [Res.bind_eq_ok] at h
  obtain ⟨⟨cw, ch, tw⟩, _, h⟩ := h
  simp only [Res.ok.injEq] at h
  rw [← h]
  generalize b!"BT\n" ++ fmt2 _ ++ b!" " ++ fmt2 _ = pre
  generalize colorOp c.rgb = u1
  generalize (createContent f c.text c.fontSize).1 = u2
  generalize drawBorder _ _ _ _ _ _ _ = u4
  exact ⟨pre, u1 ++ u2 ++ b!"ET\n" ++ (if c.fontStyle &&& 4 = 4 then underlineOp f.ttf c.fontSize c.x c.y (c.x + cw) c.pageHeight else []) ++ u4 ++ b!"\r\n",
    by simp only [List.append_assoc]⟩

/-- **C17** (whole `Save`, without encryption).  In a document with a flat page tree the names of the added fonts are pairwise different and differ from
every font name in the resources of any page; every drawn text selects its font by the name of that font.  Missing: deeper page trees, for which it is
false (`C17_refuted_deep`), and documents whose dictionaries are not read without loss. -/
theorem C17_saved_partial (hinv : NumInv a) (hp : a.protection = none) (hb : a.build env = .ok b) (h : SaveDoc env.unzip a.doc.objs a.doc.rootObjID tree ct node pages L) :
    (∀ p ∈ a.fontMap, ∀ q ∈ a.fontMap, p.2 ≠ q.2 → ∃ f f', b.app.fonts[p.2]? = some f ∧ b.app.fonts[q.2]? = some f' ∧
      b!"F" ++ itoa f.fontIndex ≠ b!"F" ++ itoa f'.fontIndex) ∧
    (∀ p ∈ a.fontMap, ∃ f, b.app.fonts[p.2]? = some f ∧
      ∀ g ∈ pages, ∀ fs, resourcesOf a.doc.objs g.id b!"Font" = some fs → ∀ q ∈ fs, q.key ≠ b!"F" ++ itoa f.fontIndex) ∧
    ∃ streams, List.Forall₂ (fun c s => s.1 = pageOf c ∧ ∀ t, c = .text t → ∃ f, b.app.fonts[t.font]? = some f ∧
      (b!"\n/F" ++ itoa f.fontIndex ++ b!" " ++ itoa t.fontSize ++ b!" Tf\n") <:+: s.2) a.contents streams ∧
      ∀ i x, L[i]? = some x → drawnOn streams (i + 1) ≠ [] → ∃ o, OnlyObj b.doc.objs x.obj o ∧ StreamObject o.data (x.body ++ b!"\n" ++ (drawnOn streams (i + 1)).flatten) := by
  obtain ⟨fids, d1, m, added, iids, d3, xs, c, n, streams, hs, hm, _, _, _, _, _, hsd⟩ := build_flat hinv hp hb h
  obtain ⟨ord, hperm, hfont⟩ := hs.font
  refine ⟨?_, ?_, streams, ?_, ?_⟩
  · intro p hp q hq hpq
    obtain ⟨j, hj⟩ := List.mem_iff_getElem?.1 (hperm.mem_iff.2 (List.mem_map_of_mem hp))
    obtain ⟨j', hj'⟩ := List.mem_iff_getElem?.1 (hperm.mem_iff.2 (List.mem_map_of_mem hq))
    obtain ⟨f, cf, hf, hc, hidx, hid, _⟩ := hfont j p.2 hj
    obtain ⟨f', cf', hf', hc', hidx', hid', _⟩ := hfont j' q.2 hj'
    refine ⟨f, f', hf, hf', ?_⟩
    intro e
    have h1 := (newCrFonts_get fids m hc).2.1
    have h2 := (newCrFonts_get fids m hc').2.1
    have h3 := (fontName_inj (by decide) (by decide) (by omega) e).2
    have h4 : j ≠ j' := by
      rintro rfl
      rw [hj] at hj'
      exact hpq (by simpa using hj')
    omega
  · intro p hp
    obtain ⟨j, hj⟩ := List.mem_iff_getElem?.1 (hperm.mem_iff.2 (List.mem_map_of_mem hp))
    obtain ⟨f, cf, hf, hc, hidx, hid, _⟩ := hfont j p.2 hj
    have hpfx := (newCrFonts_get fids m hc).1
    refine ⟨f, hf, fun g hg fs hfs q hq => ?_⟩
    obtain ⟨r, place, hgr, hfa⟩ := fontAt_of_resources h.fonts h.readable hg hfs
    obtain ⟨lf, hl, hlow, _⟩ := hsd.font g hg r hgr place fs hfa
    have ht := hfa
    obtain ⟨w, _, ht, _⟩ := ht
    have := (new_fresh (ids := fids) hm ht hl hlow cf (List.mem_of_getElem? hc)).1 q hq
    rw [fontName, hpfx, hidx] at this
    exact this
  · refine hs.streams.imp (fun cc s hcs => ⟨hcs.2, ?_⟩)
    rintro t rfl
    obtain ⟨hst, _⟩ := hcs
    simp only [Content.stream] at hst
    rw [Res.bind_eq_ok] at hst
    obtain ⟨f, hf, hst⟩ := hst
    rw [Res.bind_eq_ok] at hst
    obtain ⟨y, hy, hst⟩ := hst
    simp only [Res.ok.injEq] at hst
    refine ⟨f, ?_, ?_⟩
    · cases hg : b.app.fonts[t.font]? with
      | none => rw [hg] at hf; simp [Res.ofOption] at hf
      | some z => rw [hg] at hf; simp only [Res.ofOption, Res.ok.injEq] at hf; rw [hf]
    · rw [← hst]
      refine List.IsInfix.trans ?_ (text_font hy)
      exact ⟨b!" TD", [], by simp⟩
  · intro i x hx hne
    have := hsd.content i x hx
    rw [if_neg hne] at this
    exact this

/-- **C18** (whole `Save`, without encryption).  In a document with a flat page tree a page whose font names are all of the usual form (text without
digits and underscores, then a number without leading zeros) finds each of its fonts under the same name afterwards.  Missing: other names, for which it
is false (`C18_refuted`), and other documents. -/
theorem C18_saved_partial (hinv : NumInv a) (hp : a.protection = none) (hb : a.build env = .ok b) (h : SaveDoc env.unzip a.doc.objs a.doc.rootObjID tree ct node pages L) :
    ∀ g ∈ pages, ∀ fs, resourcesOf a.doc.objs g.id b!"Font" = some fs → (∀ p ∈ fs, NumberedName p.key) →
      ∀ name i, named a.doc.objs g.id b!"Font" name = some i → named b.doc.objs g.id b!"Font" name = some i := by
  obtain ⟨fids, d1, m, added, iids, d3, xs, c, n, streams, hs, hm, _, _, _, _, _, hsd⟩ := build_flat hinv hp hb h
  intro g hg fs hfs hnum name i hname
  obtain ⟨r, place, hgr, hfa⟩ := fontAt_of_resources h.fonts h.readable hg hfs
  obtain ⟨lf, hl, _, hres⟩ := hsd.font g hg r hgr place fs hfa
  have ht := hfa
  obtain ⟨w, _, ht, _⟩ := ht
  cases hv : valueOf fs name with
  | none =>
    unfold named at hname
    rw [hfs] at hname
    simp [hv] at hname
  | some v =>
    rw [named_eq hfs hv] at hname
    obtain ⟨h1, h2⟩ := (crFontsOf_numbered ht hnum hl).2 name v i hv hname
    rw [named_eq hres (v := itoa i ++ b!" 0 R") (by rw [fontProps_append, valueOf_append, h2]; rfl)]
    exact refOf_ref h1

/-- a page without resources -/
theorem resDict_none {objs : List Obj} {i : Int} {ps : Props} (h1 : Entries objs i ps) (h2 : valueOf ps b!"Resources" = none) : resDict objs i = none := by
  unfold resDict
  rw [entriesOf_of h1]
  simp only [Option.bind_eq_bind, Option.bind_some, h2, Option.bind_none]

/-- **C64** (whole `Save`, without encryption).  In a document with a flat page tree every page has resources afterwards if and only if it had before, and
every entry of the resources other than the lists of fonts and images keeps its value.  Missing: documents in which only some pages have images and only
some have resources of their own, for which it is false (`C64_refuted`), and other documents. -/
theorem C64_saved_partial (hinv : NumInv a) (hp : a.protection = none) (hb : a.build env = .ok b) (h : SaveDoc env.unzip a.doc.objs a.doc.rootObjID tree ct node pages L) :
    ∀ g ∈ pages, (resDict a.doc.objs g.id = none → resDict b.doc.objs g.id = none) ∧
      ∀ rs, resDict a.doc.objs g.id = some rs → ∃ rs', resDict b.doc.objs g.id = some rs' ∧
        (∀ k, k ≠ b!"Font" → k ≠ b!"XObject" → valueOf rs' k = valueOf rs k) ∧ (valueOf rs b!"Font" = none → valueOf rs' b!"Font" = none) := by
  obtain ⟨fids, d1, m, added, iids, d3, xs, c, n, streams, hs, hm, _, _, _, _, _, hsd⟩ := build_flat hinv hp hb h
  intro g hg
  have hok := h.fonts.pagesOk g hg
  cases hgr : g.res with
  | none =>
    have hn := hok.res
    rw [hgr] at hn
    obtain ⟨ps', e1, _, e3⟩ := hsd.page g hg
    refine ⟨fun _ => resDict_none e1 (e3 hgr), fun rs hrs => ?_⟩
    rw [resDict_none hok.entries hn] at hrs
    simp at hrs
  | some r =>
    rw [resDict_before h.fonts hg hgr]
    refine ⟨fun e => by simp at e, fun rs hrs => ?_⟩
    simp only [Option.some.injEq] at hrs
    subst hrs
    obtain ⟨rs', h1, _, h3, _, h5⟩ := hsd.res g hg r hgr
    exact ⟨rs', h1, h3, h5⟩

/-- **C15** (whole `Save`, without encryption).  In a document with a flat page tree whose pages have content objects of their own: the content of page `k`
is what it was, followed by the streams of the contents for page `k`, in the order of the calls; if there are none, the content object is unchanged; the
page still refers to the same content object.  Missing: pages with several content streams, for which it is false (`C15_refuted_array`), and other
documents. -/
theorem C15_saved_partial (hinv : NumInv a) (hp : a.protection = none) (hb : a.build env = .ok b) (h : SaveDoc env.unzip a.doc.objs a.doc.rootObjID tree ct node pages L) :
    ∃ streams, List.Forall₂ (fun c s => c.stream b.app.fonts b.app.imgs = .ok s ∧ s.1 = pageOf c) a.contents streams ∧
      ∀ i x, L[i]? = some x → (∃ ps v, Entries b.doc.objs x.page ps ∧ valueOf ps b!"Contents" = some v ∧ RefTo v x.obj) ∧
        if drawnOn streams (i + 1) = [] then ∀ o, OnlyObj a.doc.objs x.obj o → OnlyObj b.doc.objs x.obj o
        else ∃ o, OnlyObj b.doc.objs x.obj o ∧ StreamObject o.data (x.body ++ b!"\n" ++ (drawnOn streams (i + 1)).flatten) := by
  obtain ⟨fids, d1, m, added, iids, d3, xs, c, n, streams, hs, hm, _, _, _, _, _, hsd⟩ := build_flat hinv hp hb h
  refine ⟨streams, hs.streams, fun i x hx => ⟨?_, hsd.content i x hx⟩⟩
  have hxm := List.mem_of_getElem? hx
  obtain ⟨⟨ps, v, he, hv, hr⟩, _⟩ := h.contentsOk x hxm
  have hxp : x.page ∈ pages.map (·.id) := by rw [← h.contents]; exact List.mem_map_of_mem hxm
  obtain ⟨g, hg, hgx⟩ := List.mem_map.1 hxp
  obtain ⟨ps', e1, e2, _⟩ := hsd.page g hg
  have hps : ps = g.entries := by
    have h1 := entriesOf_of he
    rw [← hgx, entriesOf_of (h.fonts.pagesOk g hg).entries] at h1
    simpa using h1.symm
  exact ⟨ps', v, hgx ▸ e1, by rw [e2 _ (by decide) (by decide), ← hps]; exact hv, hr⟩

/-- **C65** (without encryption).  `Save` keeps the pages of a document with a flat page tree: the saved document has the same page objects in the same
order, and every entry of a page other than /Resources (and an added /XObject) keeps its value; the same holds for the catalog and the page tree node. -/
theorem C65_pages_kept_partial (hinv : NumInv a) (hp : a.protection = none) (hb : a.build env = .ok b) (h : SaveDoc env.unzip a.doc.objs a.doc.rootObjID tree ct node pages L) :
    HasTree a.doc (.node tree (pages.map (fun g => .leaf g.id))) ∧ HasTree b.doc (.node tree (pages.map (fun g => .leaf g.id))) ∧
    (∀ g ∈ pages, ∃ ps ps', Entries a.doc.objs g.id ps ∧ Entries b.doc.objs g.id ps' ∧ ∀ k, k ≠ b!"XObject" → k ≠ b!"Resources" → valueOf ps' k = valueOf ps k) ∧
    ∀ i, i = a.doc.rootObjID ∨ i = tree → ∃ ps ps', Entries a.doc.objs i ps ∧ Entries b.doc.objs i ps' ∧ ∀ k, k ≠ b!"XObject" → valueOf ps' k = valueOf ps k := by
  obtain ⟨fids, d1, m, added, iids, d3, xs, c, n, streams, hs, hm, _, _, _, _, hroot, hsd⟩ := build_flat hinv hp hb h
  have key : ∀ {d : Doc}, d.rootObjID = a.doc.rootObjID → (∃ ps, Entries d.objs a.doc.rootObjID ps ∧ ∀ k, k ≠ b!"XObject" → valueOf ps k = valueOf ct k) →
      (∃ ps, Entries d.objs tree ps ∧ ∀ k, k ≠ b!"XObject" → valueOf ps k = valueOf node k) →
      (∀ g ∈ pages, ∃ ps', Entries d.objs g.id ps' ∧ (∀ k, k ≠ b!"XObject" → k ≠ b!"Resources" → valueOf ps' k = valueOf g.entries k)) →
      HasTree d (.node tree (pages.map (fun g => .leaf g.id))) := by
    rintro d hr ⟨pc, c1, c2⟩ ⟨pn, n1, n2⟩ hg
    have he : pages.map (fun g => Tree.leaf g.id) = (pages.map (·.id)).map Tree.leaf := by rw [List.map_map]; rfl
    rw [he]
    refine ⟨?_, ?_⟩
    · obtain ⟨v, hv, hr'⟩ := h.fonts.pagesRef
      exact ⟨pc, v, by rw [hr]; exact c1, by rw [c2 _ (by decide)]; exact onlyKey_valueOf hv, refOf_some hr'⟩
    · rw [IsTree]
      refine ⟨?_, ?_⟩
      · obtain ⟨v, hv, _, hr'⟩ := h.fonts.kids
        obtain ⟨w, hw⟩ := h.isNode
        refine ⟨pn, n1, ⟨w, by rw [n2 _ (by decide)]; exact hw⟩, v, by rw [n2 _ (by decide)]; exact onlyKey_valueOf hv, Or.inl ?_⟩
        have : ((pages.map (·.id)).map Tree.leaf).map Tree.id = pages.map (·.id) := by
          rw [List.map_map, List.map_map]; rfl
        rw [this]
        exact hr'
      · refine isTreeL_leaves (fun i hi => ?_)
        obtain ⟨g, hgm, rfl⟩ := List.mem_map.1 hi
        obtain ⟨ps', e1, e2⟩ := hg g hgm
        obtain ⟨v, hv⟩ := h.isPage g hgm
        refine ⟨ps', e1, ⟨v, by rw [e2 _ (by decide) (by decide)]; exact hv⟩, Or.inl ?_⟩
        rw [e2 _ (by decide) (by decide)]
        exact lacks_pages (h.fonts.pagesOk g hgm).noPages
  refine ⟨key rfl ⟨ct, h.fonts.catEntries, fun _ _ => rfl⟩ ⟨node, h.fonts.nodeEntries, fun _ _ => rfl⟩ (fun g hg => ⟨g.entries, (h.fonts.pagesOk g hg).entries, fun _ _ _ => rfl⟩),
    key hroot hsd.cat hsd.node (fun g hg => ?_), ?_, ?_⟩
  · obtain ⟨ps', e1, e2, _⟩ := hsd.page g hg
    exact ⟨ps', e1, e2⟩
  · intro g hg
    obtain ⟨ps', e1, e2, _⟩ := hsd.page g hg
    exact ⟨g.entries, ps', (h.fonts.pagesOk g hg).entries, e1, e2⟩
  · rintro i (rfl | rfl)
    · obtain ⟨ps', e1, e2⟩ := hsd.cat
      exact ⟨ct, ps', h.fonts.catEntries, e1, e2⟩
    · obtain ⟨ps', e1, e2⟩ := hsd.node
      exact ⟨node, ps', h.fonts.nodeEntries, e1, e2⟩

/-- **C66** (without encryption).  `Save` changes no object of a document with a flat page tree but the catalog, the page tree node, the pages, their
resources and font lists, and their contents. -/
theorem C66_others_kept_partial (hinv : NumInv a) (hp : a.protection = none) (hb : a.build env = .ok b) (h : SaveDoc env.unzip a.doc.objs a.doc.rootObjID tree ct node pages L) :
    ∀ i o, OnlyObj a.doc.objs i o → i ≠ a.doc.rootObjID → i ≠ tree → (∀ g ∈ pages, i ≠ g.id ∧ g.resPlace ≠ some i ∧ i ∉ g.refs b!"Font") → (∀ x ∈ L, i ≠ x.obj) → OnlyObj b.doc.objs i o := by
  obtain ⟨fids, d1, m, added, iids, d3, xs, c, n, streams, hs, hm, _, _, _, _, _, hsd⟩ := build_flat hinv hp hb h
  intro i o ho h1 h2 h3 h4
  refine hsd.frame i o ho ?_ (fun g hg => (h3 g hg).2) ?_
  · simp only [List.mem_cons, not_or]
    refine ⟨h1, h2, fun hm => ?_⟩
    obtain ⟨g, hg, e⟩ := List.mem_map.1 hm
    exact (h3 g hg).1 e.symm
  · intro hm
    obtain ⟨x, hx, e⟩ := List.mem_map.1 hm
    exact h4 x hx e.symm

end Verif
