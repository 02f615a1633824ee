import Verif.Lemmas.StdRun
/-
C84: what an independent reader finds in the file that comes out, in terms of the file that went in and the calls in between.
-/
namespace Verif
open Spec

section
variable {unzip : Bytes → Option Bytes} {d : Doc} {views : List (List (Bytes × Val) × Bytes)}

theorem Spec.Shown.grown {d' : Doc} (h : Shown unzip d views) (hg : GrownDoc d d') : Shown unzip d' views := by
  obtain ⟨R, N, C, D, r, ts, L, hh, e⟩ := h
  exact ⟨R, N, C, D, r, ts, L, hh.mono hg.facts.1 hg.facts.2.1, e⟩

/-- **C84** (partial) Every call but `Save` edits the list of pages as it should and keeps the document linked.  Missing: see `C84_run_partial`. -/
theorem C84_call_partial {a : App} (h : Shown unzip a.doc views) (env : Env) (c : Call) (hs : c ≠ .save) (hne : c.edit views ≠ []) (hmax : maxID a.doc.objs + 2 < 2 ^ 63) :
    Shown unzip (a.after env c).doc (c.edit views) ∧ maxID (a.after env c).doc.objs ≤ maxID a.doc.objs + 2 := by
  by_cases hc : c.onPages = false
  · have hg := after_grown env a c hc hs
    have : c.edit views = views := by cases c <;> first | rfl | cases hc
    rw [this]
    have := hg.facts.2.2
    exact ⟨h.grown hg, by omega⟩
  obtain ⟨R, N, C, D, r, ts, L, hh, rfl⟩ := h
  have hids := StdRoot.pageIDs hh.root
  have hlen : (viewsOf D L).length = L.length := by simp [viewsOf]
  cases c with
  | remove k =>
    have e0 : (a.after env (.remove k)).doc = (stepOf a.doc (removePage a.doc k)).state := rfl
    rw [e0]
    simp only [Call.edit, hlen] at hne ⊢
    split at hne
    · rename_i hk
      rw [if_pos hk]
      have hne' : L.take (k - 1).toNat ++ L.drop k.toNat ≠ [] := by
        intro e
        apply hne
        have := congrArg (viewsOf D) e
        simpa [viewsOf, List.map_take, List.map_drop] using this
      obtain ⟨d', D', ts', h1, h2, h3, h4⟩ := hh.remove hk.1 hk.2 hne'
      rw [h1]
      exact ⟨⟨R, N, C, D', r, ts', _, h2, h3.symm⟩, by simp only [stepOf]; omega⟩
    · rename_i hk
      rw [if_neg hk, stepOf_fail (removePage_fail hids (by rw [hh.len]; exact hk))]
      exact ⟨⟨R, N, C, D, r, ts, L, hh, rfl⟩, by omega⟩
  | removeOthers k =>
    have e0 : (a.after env (.removeOthers k)).doc = (stepOf a.doc (removeOtherPages a.doc k)).state := rfl
    rw [e0]
    simp only [Call.edit]
    by_cases hk : 0 ≤ k ∧ k < L.length
    · obtain ⟨x, hx⟩ : ∃ x, L[k.toNat]? = some x := ⟨_, List.getElem?_eq_getElem (by omega : k.toNat < L.length)⟩
      rw [if_pos hk.1, show (viewsOf D L)[k.toNat]? = some (setVal b!"Contents" (.ref 0) (D x.page), x.body) by rw [viewsOf, List.getElem?_map, hx]; rfl]
      obtain ⟨d', D', ts', h1, h2, h3, h4⟩ := hh.removeOthers hk.1 hx
      rw [h1]
      simp only [Option.elim_some]
      exact ⟨⟨R, N, C, D', r, ts', _, h2, by rw [h3]; rfl⟩, by simp only [stepOf]; omega⟩
    · have : (if 0 ≤ k then (viewsOf D L)[k.toNat]?.elim (viewsOf D L) (fun x => [x]) else viewsOf D L) = viewsOf D L := by
        split
        · rw [List.getElem?_eq_none (by omega)]; rfl
        · rfl
      rw [this, stepOf_fail (removeOtherPages_fail hids (by rw [hh.len]; exact hk))]
      exact ⟨⟨R, N, C, D, r, ts, L, hh, rfl⟩, by omega⟩
  | duplicate t p =>
    have e0 : (a.after env (.duplicate t p)).doc = (duplicatePageAfter a.doc t p).state := rfl
    rw [e0]
    simp only [Call.edit, hlen]
    by_cases hk : 1 ≤ t ∧ t ≤ L.length ∧ -(L.length : Int) ≤ p ∧ p < L.length
    · obtain ⟨x, hx⟩ : ∃ x, L[(t - 1).toNat]? = some x := ⟨_, List.getElem?_eq_getElem (by omega : (t - 1).toNat < L.length)⟩
      rw [if_pos ⟨hk.1, hk.2.2⟩, show (viewsOf D L)[(t - 1).toNat]? = some (setVal b!"Contents" (.ref 0) (D x.page), x.body) by rw [viewsOf, List.getElem?_map, hx]; rfl]
      obtain ⟨d', R', C', D', ts', h1, h2, h3, h4⟩ := hh.duplicate hk.1 hx hk.2.2.1 hk.2.2.2 rfl hmax
      rw [h1]
      exact ⟨⟨R', N, C', D', r, ts', _, h2, h3.symm⟩, by simp only; omega⟩
    · have : (if 1 ≤ t ∧ -(L.length : Int) ≤ p ∧ p < L.length then
          (viewsOf D L)[(t - 1).toNat]?.elim (viewsOf D L) (fun x =>
            (viewsOf D L).take ((if p < 0 then (L.length + p).toNat else p.toNat) + 1) ++ [x] ++ (viewsOf D L).drop ((if p < 0 then (L.length + p).toNat else p.toNat) + 1))
          else viewsOf D L) = viewsOf D L := by
        split
        · rw [List.getElem?_eq_none (by omega)]; rfl
        · rfl
      rw [this]
      rcases duplicate_fail hids (t := t) (p := p) (by rw [hh.len]; exact hk) (StdRoot.page_obj hh.root) with e | ⟨content, props, e⟩
      · rw [e]
        exact ⟨⟨R, N, C, D, r, ts, L, hh, rfl⟩, by omega⟩
      · rw [e]
        refine ⟨⟨R, N, C, D, r, ts, L, hh.mono rfl (fun i o ho => onlyObj_dupObjs ho), rfl⟩, ?_⟩
        simp only
        rw [show maxID (dupObjs a.doc.objs content props) = maxID a.doc.objs + 2 from maxID_append_two _ _ _ rfl rfl]
  | save => exact absurd rfl hs
  | _ => exact absurd rfl hc

theorem C84_calls_partial : ∀ (calls : List (Env × Call)) {a : App} {views : List (List (Bytes × Val) × Bytes)}, Shown unzip a.doc views → (∀ c ∈ calls, c.2 ≠ .save) →
    calls.foldl (fun l c => c.2.edit l) views ≠ [] → maxID a.doc.objs + 2 * calls.length < 2 ^ 63 → Shown unzip (Run a calls).doc (calls.foldl (fun l c => c.2.edit l) views)
  | [], a, views, h, _, _, _ => h
  | c :: cs, a, views, h, hs, hne, hmax => by
    rw [List.length_cons] at hmax
    push_cast at hmax
    rw [List.foldl_cons] at hne ⊢
    have hne' : c.2.edit views ≠ [] := by
      intro e
      rw [e, edits_nil] at hne
      exact hne rfl
    obtain ⟨h1, h2⟩ := C84_call_partial h c.1 c.2 (hs c (by simp)) hne' (by omega)
    exact C84_calls_partial cs (a := a.after c.1 c.2) h1 (fun x hx => hs x (by simp [hx])) hne (by omega)

end

/-! ### from file to file -/

/-- The file consists of these objects: its cross-reference table has a row for each of them and for nothing else, which points at it, and the trailer names the catalog. -/
def Spec.FileOf (out : Bytes) (root : Nat) (objs : List Obj) : Prop :=
  ∃ es rest, readTable out = some (es, rest) ∧ TrailerAt rest es.length root none ∧
    (∀ (k : Nat) e, es[k]? = some e → e.inUse = true → ∃ o ∈ objs, o.objID = k ∧ e.gen = 0 ∧ ObjectAt out e.offset k (trimSpace o.data)) ∧
    (∀ o ∈ objs, ∃ (k : Nat) (e : Entry), o.objID = k ∧ es[k]? = some e ∧ e.inUse = true ∧ e.gen = 0 ∧ ObjectAt out e.offset k (trimSpace o.data))

theorem saved_view {F X : Option Val → Option Val → Prop} {d d' : List (Bytes × Val)} {c : Int} (h : DictSaved F X d d') (hc : d.lookup b!"Contents" = some (.ref c)) :
    DictSaved F X (setVal b!"Contents" (.ref 0) d) (setVal b!"Contents" (.ref 0) d') := by
  have hc' : d'.lookup b!"Contents" = some (.ref c) := by rw [h.same _ (by decide) (by decide) (by decide)]; exact hc
  refine ⟨fun k h1 h2 h3 => ?_, ?_, ?_, ?_⟩
  · by_cases e : k = b!"Contents"
    · rw [e, setVal_lookup_self hc, setVal_lookup_self hc']
    · rw [setVal_lookup e, setVal_lookup e, h.same k h1 h2 h3]
  · rw [setVal_lookup (by decide), setVal_lookup (by decide)]; exact h.font
  · rw [setVal_lookup (by decide), setVal_lookup (by decide)]; exact h.xobj
  · rw [setVal_lookup (by decide), setVal_lookup (by decide)]; exact h.res

/-- Page `i` (from 0) of the written objects: its entries are those of `v` with other fonts and images, and its content is that of `v`, followed by what was drawn. -/
def Spec.PageSaved (unzip : Bytes → Option Bytes) (objs : List Obj) (fonts imgs : List (Bytes × Val)) (drawn : List Bytes) (v : List (Bytes × Val) × Bytes) (p : Int) : Prop :=
  ∃ d' c o, StdDict objs p d' ∧ StdPage d' ∧ d'.lookup b!"Contents" = some (.ref c) ∧ DictSaved (FontVal fonts) (ImgVal imgs) v.1 (setVal b!"Contents" (.ref 0) d') ∧ OnlyObj objs c o ∧
    if drawn = [] then HoldsStream unzip o.data v.2 else StreamObject o.data (v.2 ++ b!"\n" ++ drawn.flatten)

theorem mem_setVal_of {k k' : Bytes} {v v' w : Val} : ∀ {d : List (Bytes × Val)}, d.lookup k = some w → (k', v') ∈ d → v' ≠ w → (k', v') ∈ setVal k v d
  | [], _, h, _ => by simp at h
  | e :: d, hl, h, hne => by
    rw [setVal]
    by_cases he : e.1 = k
    · have hw : e.2 = w := by
        subst he
        simpa [List.lookup] using hl
      rw [if_pos he]
      rcases List.mem_cons.1 h with h | h
      · exact absurd (by rw [← hw, ← h]) hne
      · exact List.mem_cons_of_mem _ h
    · rw [if_neg he]
      rw [List.lookup_cons, beq_eq_false_iff_ne.2 (Ne.symm he)] at hl
      rcases List.mem_cons.1 h with h | h
      · exact h ▸ List.mem_cons_self
      · exact List.mem_cons_of_mem _ (mem_setVal_of hl h hne)

theorem Spec.Shown.boxes {unzip : Bytes → Option Bytes} {d : Doc} {views : List (List (Bytes × Val) × Bytes)} (h : Shown unzip d views)
    (hb : ∀ v ∈ views, ∃ box : List ℚ, EntryIs v.1 b!"MediaBox" (.arr (box.map .num))) : ∃ tree, StdDoc d tree ∧ ∃ boxes, List.Forall₂ (BoxIs d.objs) tree.pages boxes := by
  obtain ⟨R, N, C, D, r, ts, L, hh, rfl⟩ := h
  refine ⟨_, StdRoot.doc hh.root, ?_⟩
  have hpg : Tree.pages (.node r ts) = L.map (·.page) := by rw [Tree.pages]; exact hh.pages
  have key : ∀ x ∈ L, ∃ box, BoxIs d.objs x.page box := by
    intro x hx
    have hR : R x.page := hh.pageR _ (by rw [hh.pages]; exact List.mem_map.2 ⟨x, hx, rfl⟩)
    obtain ⟨box, h1, h2⟩ := hb _ (List.mem_map.2 ⟨x, hx, rfl⟩)
    refine ⟨box, D x.page, hh.linked.dicts _ (Or.inl hR), ?_, fun k hk => h2 k (mem_setVal_of (hh.cont x hx).1 hk (by simp))⟩
    simp only at h1
    rw [setVal_lookup (by decide)] at h1
    exact h1
  rw [hpg]
  clear hpg hb hh
  induction L with
  | nil => exact ⟨[], .nil⟩
  | cons x L ih =>
    obtain ⟨bs, h1⟩ := ih (fun y hy => key y (by simp [hy]))
    obtain ⟨b, h2⟩ := key x (by simp)
    exact ⟨b :: bs, .cons h2 h1⟩

theorem stepOf_root {d : Doc} {r : Res Doc} (h : ∀ d', r = .ok d' → d'.rootObjID = d.rootObjID) : (stepOf d r).state.rootObjID = d.rootObjID := by
  unfold stepOf
  split
  · exact h _ rfl
  all_goals rfl

theorem removePage_root {d d' : Doc} {k : Int} (h : removePage d k = .ok d') : d'.rootObjID = d.rootObjID := by
  unfold removePage at h
  rw [Res.bind_eq_ok] at h
  obtain ⟨_, _, h⟩ := h
  split at h
  · cases h
  · split at h
    · cases h
    · exact setPages_root h

theorem removeOtherPages_root {d d' : Doc} {k : Int} (h : removeOtherPages d k = .ok d') : d'.rootObjID = d.rootObjID := by
  unfold removeOtherPages at h
  rw [Res.bind_eq_ok] at h
  obtain ⟨_, _, h⟩ := h
  split at h
  · cases h
  · split at h
    · cases h
    · rw [Res.bind_eq_ok] at h
      obtain ⟨_, _, h⟩ := h
      exact setPages_root h

theorem after_root (env : Env) (a : App) (c : Call) (hs : c ≠ .save) : (a.after env c).doc.rootObjID = a.doc.rootObjID := by
  by_cases hc : c.onPages = false
  · exact (after_grown env a c hc hs).facts.1
  cases c with
  | remove k => exact stepOf_root (fun d' => removePage_root)
  | removeOthers k => exact stepOf_root (fun d' => removeOtherPages_root)
  | duplicate t p =>
    show (duplicatePageAfter a.doc t p).state.rootObjID = _
    unfold duplicatePageAfter
    split
    · rfl
    · rfl
    · rfl
    · simp only [dupStore_eq]
      split
      · rfl
      · exact stepOf_root (fun d' => setPages_root)
  | save => exact absurd rfl hs
  | _ => exact absurd rfl hc

theorem run_root : ∀ (calls : List (Env × Call)) (a : App), (∀ c ∈ calls, c.2 ≠ .save) → (Run a calls).doc.rootObjID = a.doc.rootObjID
  | [], _, _ => rfl
  | c :: cs, a, hs => (run_root cs (a.after c.1 c.2) (fun x hx => hs x (by simp [hx]))).trans (after_root _ _ _ (hs c (by simp)))

/-- **C84** (partial) Saving a document with the pages `views`.  Missing: see `C84_run_partial`. -/
theorem C84_save_partial {env : Env} {a : App} {b : Built} {views : List (List (Bytes × Val) × Bytes)} (hinv : NumInv a) (hp : a.protection = none) (h : Shown env.unzip a.doc views)
    (hb : a.build env = .ok b) :
    ∃ t fonts imgs streams, StdDoc b.doc t ∧ t.pages.length = views.length ∧
      (∀ x ∈ a.fontMap, ∃ f, b.app.fonts[x.2]? = some f ∧ (b!"F" ++ itoa f.fontIndex, Val.ref f.fontID) ∈ fonts ∧ ∀ o ∈ f.objs, OnlyObj b.doc.objs o.objID o) ∧
      (∀ i ∈ b.app.imgs, (i.xObjChar ++ itoa i.xObjIndex, Val.ref i.objID) ∈ imgs ∧ OnlyObj b.doc.objs i.objID ⟨i.objID, i.buf⟩) ∧
      List.Forall₂ (fun c s => c.stream b.app.fonts b.app.imgs = .ok s ∧ s.1 = pageOf c) a.contents streams ∧
      ∀ i v, views[i]? = some v → ∃ p, t.pages[i]? = some p ∧ PageSaved env.unzip b.doc.objs fonts imgs (drawnOn streams (i + 1)) v p := by
  obtain ⟨R, N, C, D, r, ts, L, hh, rfl⟩ := h
  have ht := StdRoot.doc hh.root
  have hpg : Tree.pages (.node r ts) = L.map (·.page) := by rw [Tree.pages]; exact hh.pages
  obtain ⟨fonts, imgs, k1, k2, k3, _, _, k6⟩ := C83_saved_partial hinv hp hh.linked ht hb
  obtain ⟨streams, s1, s2⟩ := C83_content_partial hinv hp hh.linked ht hb hpg hh.nodup (fun x hx => ⟨(hh.cont x hx).1, (hh.cont x hx).2.2⟩)
  refine ⟨.node r ts, fonts, imgs, streams, k6, by rw [hpg]; simp [viewsOf], k1, k2, s1, ?_⟩
  intro i v hv
  rw [viewsOf, List.getElem?_map, Option.map_eq_some_iff] at hv
  obtain ⟨x, hx, rfl⟩ := hv
  have hxL := List.mem_of_getElem? hx
  have hR : R x.page := hh.pageR _ (by rw [hh.pages]; exact List.mem_map.2 ⟨x, hxL, rfl⟩)
  obtain ⟨d', d1, d2⟩ := k3 _ hR
  obtain ⟨c1, c2, o, c3, c4⟩ := hh.cont x hxL
  have hpage : StdPage d' := by
    obtain ⟨e, e1, e2⟩ := StdTreeL.pages ts k6.2.2 x.page (by rw [hh.pages]; exact List.mem_map.2 ⟨x, hxL, rfl⟩)
    cases StdDict.unique e1 d1
    exact e2
  have hs := s2 i x hx
  refine ⟨x.page, by rw [hpg, List.getElem?_map, hx]; rfl, ?_⟩
  split at hs
  · rename_i hn
    exact ⟨d', x.obj, o, d1, hpage, by rw [d2.same _ (by decide) (by decide) (by decide)]; exact c1, saved_view d2 c1, hs o c3, by rw [if_pos hn]; exact c4⟩
  · rename_i hn
    obtain ⟨o', h1, h2⟩ := hs
    exact ⟨d', x.obj, o', d1, hpage, by rw [d2.same _ (by decide) (by decide) (by decide)]; exact c1, saved_view d2 c1, h1, by rw [if_neg hn]; exact h2⟩

/-- **C84** (partial) From file to file.  A file whose objects form a linked document with the pages `views` is opened.  After any calls, `Save` writes a file in which an independent reader
finds the pages that the calls make of the list `views`, with the same entries but for fonts and images, which are there, and with the same contents, followed by what was drawn.
Missing: documents that are not linked like this or in other notations (see C78, C81, C83), pages without or with several content streams, saving twice, protection, removing all pages. -/
theorem C84_run_partial {env env' : Env} (hf : ReadsNums (fun s => (env.parseFloat s).isSome)) {raw : Bytes} {t : List (Bytes × Val)} {l : List (Nat × Entry)} {os : List Obj}
    (h : StdFile raw t l os) {root : Nat} (hr : EntryIs t b!"Root" (.ref root)) (hnd : (os.map Obj.objID).Nodup) (hpos : ∀ o ∈ os, 1 ≤ o.objID)
    {views : List (List (Bytes × Val) × Bytes)} (hv : Shown env'.unzip ⟨root, tableOf l, os, []⟩ views)
    (hb : ∀ v ∈ views, ∃ box : List ℚ, EntryIs v.1 b!"MediaBox" (.arr (box.map .num))) (calls : List (Env × Call)) (hs : ∀ c ∈ calls, c.2 ≠ .save)
    (hmax : maxID os + 2 * calls.length < 2 ^ 63) (hne : calls.foldl (fun l c => c.2.edit l) views ≠ []) :
    ∃ a0, App.openFrom env {} raw = ⟨a0, .ok ()⟩ ∧ ∀ {objs last out}, (Run a0 calls).protection = none → Saves env' (Run a0 calls) objs last out → out.length < 10 ^ 10 →
      FileOf out root objs ∧ ∃ b tree fonts imgs streams, (Run a0 calls).build env' = .ok b ∧ StdDoc ⟨root, [], objs, []⟩ tree ∧
        tree.pages.length = (calls.foldl (fun l c => c.2.edit l) views).length ∧
        (∀ x ∈ (Run a0 calls).fontMap, ∃ f, b.app.fonts[x.2]? = some f ∧ (b!"F" ++ itoa f.fontIndex, Val.ref f.fontID) ∈ fonts ∧ ∀ o ∈ f.objs, OnlyObj objs o.objID o) ∧
        (∀ i ∈ b.app.imgs, (i.xObjChar ++ itoa i.xObjIndex, Val.ref i.objID) ∈ imgs ∧ OnlyObj objs i.objID ⟨i.objID, i.buf⟩) ∧
        List.Forall₂ (fun c s => c.stream b.app.fonts b.app.imgs = .ok s ∧ s.1 = pageOf c) (Run a0 calls).contents streams ∧
        ∀ i v, (calls.foldl (fun l c => c.2.edit l) views)[i]? = some v → ∃ p, tree.pages[i]? = some p ∧ PageSaved env'.unzip objs fonts imgs (drawnOn streams (i + 1)) v p := by
  obtain ⟨tree, ht, boxes, hboxes⟩ := hv.boxes hb
  obtain ⟨a0, e0, e1, e2, e3, _⟩ := C81_openFrom_partial hf h hr ht hboxes
  refine ⟨a0, e0, fun {objs last out} hp hsave hlen => ?_⟩
  have hopen : Opened env raw a0 := ⟨e0, by rw [e1]; exact hnd, by rw [e1]; exact hpos⟩
  have hshown : Shown env'.unzip a0.doc views := by
    obtain ⟨R, N, C, D, r, ts, L, hh, e⟩ := hv
    exact ⟨R, N, C, D, r, ts, L, hh.mono e2 (fun i o ho => by rw [e1]; exact ho), e⟩
  have hfin := C84_calls_partial calls hshown hs hne (by rw [e1]; exact hmax)
  have hroot : (Run a0 calls).doc.rootObjID = root := by
    rw [run_root calls a0 hs, e2]
  have hinv := NumInv.run calls hopen.inv
  obtain ⟨es, rest, x1, x2, x3⟩ := C01_saved hopen calls hsave hlen
  obtain ⟨x, es', rest', y1, y2, y3, enc, y4, y5, _⟩ := C03_saved hopen calls hsave hlen (by rw [hroot]; omega)
  rw [x1] at y3
  cases y3
  rw [y5.2 hp, hroot] at y4
  obtain ⟨b, hb, rfl, rfl, hout⟩ := hsave
  rw [hp] at x2 x3 ⊢
  simp only [Option.map_none, writtenObjs] at x2 x3 ⊢
  have hbr : b.doc.rootObjID = root := by
    obtain ⟨_, _, h, _⟩ := build_numbers hinv hb
    rw [h, hroot]
  obtain ⟨t', fonts, imgs, streams, z1, z2, z3, z4, z5, z6⟩ := C84_save_partial hinv hp hfin hb
  refine ⟨⟨es, rest, x1, by simpa using y4, x2, x3⟩, b, t', fonts, imgs, streams, hb, ?_, z2, z3, z4, z5, z6⟩
  obtain ⟨⟨c, c1, c2⟩, c3⟩ := z1
  rw [hbr] at c1
  exact ⟨⟨c, c1, c2⟩, c3⟩

/-! ### example -/

/-- the bytes before the table: eight objects, two of them pages -/
def runPre : Bytes := b!"%PDF-1.4\n1 0 obj\n<< /Type /Catalog /Pages 2 0 R >>\nendobj\n2 0 obj\n<< /Type /Pages /Count 2 /Kids [ 3 0 R 4 0 R ] >>\nendobj\n3 0 obj\n<< /Type /Page /Parent 2 0 R /MediaBox [ 0 0 595 842 ] /Resources 5 0 R /Contents 6 0 R >>\nendobj" ++
  b!"\n4 0 obj\n<< /Type /Page /Parent 2 0 R /MediaBox [ 0 0 200 100 ] /Resources 5 0 R /Contents 7 0 R >>\nendobj\n5 0 obj\n<< /Font << /F1 8 0 R >> >>\nendobj\n6 0 obj\n<< /Length 1 >>\nstream\nq\nendstream\nendobj\n7 0 obj\n<< /Length 1 >>\nstream\nQ\nendstream\nendobj\n8 0 obj\n<< /Type /Font >>\nendobj"

def runTable : Bytes := b!"0 9\n0000000000 65535 f \n0000000009 00000 n \n0000000058 00000 n \n0000000123 00000 n \n0000000229 00000 n \n0000000335 00000 n \n0000000378 00000 n \n0000000428 00000 n \n0000000478 00000 n \n"

def runRaw : Bytes := runPre ++ b!"\nxref\n" ++ runTable ++ b!"trailer\n<< /Size 9 /Root 1 0 R >>\nstartxref\n511\n%%EOF\n"

def runRows : List (Nat × Entry) := [(0, ⟨0, 65535, false⟩), (1, ⟨9, 0, true⟩), (2, ⟨58, 0, true⟩), (3, ⟨123, 0, true⟩), (4, ⟨229, 0, true⟩), (5, ⟨335, 0, true⟩), (6, ⟨378, 0, true⟩), (7, ⟨428, 0, true⟩), (8, ⟨478, 0, true⟩)]

def runObjs : List Obj := [
  ⟨1, b!"\n<< /Type /Catalog /Pages 2 0 R >>\n"⟩,
  ⟨2, b!"\n<< /Type /Pages /Count 2 /Kids [ 3 0 R 4 0 R ] >>\n"⟩,
  ⟨3, b!"\n<< /Type /Page /Parent 2 0 R /MediaBox [ 0 0 595 842 ] /Resources 5 0 R /Contents 6 0 R >>\n"⟩,
  ⟨4, b!"\n<< /Type /Page /Parent 2 0 R /MediaBox [ 0 0 200 100 ] /Resources 5 0 R /Contents 7 0 R >>\n"⟩,
  ⟨5, b!"\n<< /Font << /F1 8 0 R >> >>\n"⟩,
  ⟨6, b!"\n<< /Length 1 >>\nstream\nq\nendstream\n"⟩,
  ⟨7, b!"\n<< /Length 1 >>\nstream\nQ\nendstream\n"⟩,
  ⟨8, b!"\n<< /Type /Font >>\n"⟩]

theorem runTable_is : SectionIs runTable runRows := by
  have num : ∀ (s : Bytes), s ≠ [] → s.all isDec = true → Numeral s (decVal s) := fun s h1 h2 => ⟨h1, h2, rfl⟩
  have r0 : RowIs b!"0000000000 65535 f \n" ⟨0, 65535, false⟩ := rowIs_of b!"0000000000" b!"65535" b!" \n" rfl (by decide) (by decide)
  have r1 : RowIs b!"0000000009 00000 n \n" ⟨9, 0, true⟩ := rowIs_of b!"0000000009" b!"00000" b!" \n" rfl (by decide) (by decide)
  have r2 : RowIs b!"0000000058 00000 n \n" ⟨58, 0, true⟩ := rowIs_of b!"0000000058" b!"00000" b!" \n" rfl (by decide) (by decide)
  have r3 : RowIs b!"0000000123 00000 n \n" ⟨123, 0, true⟩ := rowIs_of b!"0000000123" b!"00000" b!" \n" rfl (by decide) (by decide)
  have r4 : RowIs b!"0000000229 00000 n \n" ⟨229, 0, true⟩ := rowIs_of b!"0000000229" b!"00000" b!" \n" rfl (by decide) (by decide)
  have r5 : RowIs b!"0000000335 00000 n \n" ⟨335, 0, true⟩ := rowIs_of b!"0000000335" b!"00000" b!" \n" rfl (by decide) (by decide)
  have r6 : RowIs b!"0000000378 00000 n \n" ⟨378, 0, true⟩ := rowIs_of b!"0000000378" b!"00000" b!" \n" rfl (by decide) (by decide)
  have r7 : RowIs b!"0000000428 00000 n \n" ⟨428, 0, true⟩ := rowIs_of b!"0000000428" b!"00000" b!" \n" rfl (by decide) (by decide)
  have r8 : RowIs b!"0000000478 00000 n \n" ⟨478, 0, true⟩ := rowIs_of b!"0000000478" b!"00000" b!" \n" rfl (by decide) (by decide)
  exact SectionIs.sub (w := b!"\n") (s := []) (m := []) (num b!"0" (by decide) rfl) (num b!"9" (by decide) rfl) ⟨[], 10, rfl, by decide, Or.inl rfl⟩ (.cons r0 (.cons r1 (.cons r2 (.cons r3 (.cons r4 (.cons r5 (.cons r6 (.cons r7 (.cons r8 .nil))))))))) .nil

set_option maxRecDepth 20000 in
theorem runRaw_is : StdFile runRaw [(b!"Size", .num 9), (b!"Root", .ref 1)] runRows runObjs := by
  refine ⟨runPre, 10, b!"\n", runTable, b!"\n", b!" /Size 9 /Root 1 0 R ", b!"\n", b!"\n", b!"511", b!"\n", b!"\n", by decide +kernel, Or.inl rfl,
    ⟨[], 10, rfl, by decide, Or.inl rfl⟩, runTable_is, by decide, by decide, stdText_of (by decide +kernel) ⟨_, rfl, rfl⟩, by decide, by decide, ⟨[], 10, rfl, by decide, Or.inl rfl⟩,
    ⟨by decide, by decide, by decide +kernel⟩, ⟨[], 10, rfl, by decide, Or.inl rfl⟩, by decide, ?_, by decide +kernel, by decide +kernel,
    noRow_of_tails (by decide +kernel), by decide +kernel, noRow_of_tails (by decide +kernel)⟩
  exact .free rfl (.used rfl rfl (by decide) ⟨b!"1", 32, 32, runRaw.drop 57, ⟨by decide, by decide, by decide⟩, by decide, by decide, by decide +kernel, by decide +kernel⟩
    (.used rfl rfl (by decide) ⟨b!"2", 32, 32, runRaw.drop 122, ⟨by decide, by decide, by decide⟩, by decide, by decide, by decide +kernel, by decide +kernel⟩
    (.used rfl rfl (by decide) ⟨b!"3", 32, 32, runRaw.drop 228, ⟨by decide, by decide, by decide⟩, by decide, by decide, by decide +kernel, by decide +kernel⟩
    (.used rfl rfl (by decide) ⟨b!"4", 32, 32, runRaw.drop 334, ⟨by decide, by decide, by decide⟩, by decide, by decide, by decide +kernel, by decide +kernel⟩
    (.used rfl rfl (by decide) ⟨b!"5", 32, 32, runRaw.drop 377, ⟨by decide, by decide, by decide⟩, by decide, by decide, by decide +kernel, by decide +kernel⟩
    (.used rfl rfl (by decide) ⟨b!"6", 32, 32, runRaw.drop 427, ⟨by decide, by decide, by decide⟩, by decide, by decide, by decide +kernel, by decide +kernel⟩
    (.used rfl rfl (by decide) ⟨b!"7", 32, 32, runRaw.drop 477, ⟨by decide, by decide, by decide⟩, by decide, by decide, by decide +kernel, by decide +kernel⟩
    (.used rfl rfl (by decide) ⟨b!"8", 32, 32, runRaw.drop 510, ⟨by decide, by decide, by decide⟩, by decide, by decide, by decide +kernel, by decide +kernel⟩
    .nil))))))))

def runDict (i : Int) : List (Bytes × Val) :=
  if i = 1 then [(b!"Type", .name b!"Catalog"), (b!"Pages", .ref 2)]
  else if i = 2 then [(b!"Type", .name b!"Pages"), (b!"Count", .num 2), (b!"Kids", .arr [.ref 3, .ref 4])]
  else if i = 3 then [(b!"Type", .name b!"Page"), (b!"Parent", .ref 2), (b!"MediaBox", .arr [.num 0, .num 0, .num 595, .num 842]), (b!"Resources", .ref 5), (b!"Contents", .ref 6)]
  else if i = 4 then [(b!"Type", .name b!"Page"), (b!"Parent", .ref 2), (b!"MediaBox", .arr [.num 0, .num 0, .num 200, .num 100]), (b!"Resources", .ref 5), (b!"Contents", .ref 7)]
  else if i = 5 then [(b!"Font", .dict [(b!"F1", .ref 8)])] else []

set_option maxRecDepth 20000 in
theorem runObjs_dicts : ∀ i : Int, 1 ≤ i ∧ i ≤ 5 → StdDict runObjs i (runDict i) := by
  have o1 : StdDict runObjs 1 (runDict 1) := stdDict_of (x := b!" /Type /Catalog /Pages 2 0 R ") (by decide) (by decide) rfl (stdText_of (by decide +kernel) ⟨_, rfl, rfl⟩)
  have o2 : StdDict runObjs 2 (runDict 2) := stdDict_of (x := b!" /Type /Pages /Count 2 /Kids [ 3 0 R 4 0 R ] ") (by decide) (by decide) rfl (stdText_of (by decide +kernel) ⟨_, rfl, rfl⟩)
  have o3 : StdDict runObjs 3 (runDict 3) := stdDict_of (x := b!" /Type /Page /Parent 2 0 R /MediaBox [ 0 0 595 842 ] /Resources 5 0 R /Contents 6 0 R ") (by decide) (by decide) rfl (stdText_of (by decide +kernel) ⟨_, rfl, by rfl⟩)
  have o4 : StdDict runObjs 4 (runDict 4) := stdDict_of (x := b!" /Type /Page /Parent 2 0 R /MediaBox [ 0 0 200 100 ] /Resources 5 0 R /Contents 7 0 R ") (by decide) (by decide) rfl (stdText_of (by decide +kernel) ⟨_, rfl, by rfl⟩)
  have o5 : StdDict runObjs 5 (runDict 5) := stdDict_of (x := b!" /Font << /F1 8 0 R >> ") (by decide) (by decide) rfl (stdText_of (by decide +kernel) ⟨_, rfl, rfl⟩)
  intro i hi
  have : i = 1 ∨ i = 2 ∨ i = 3 ∨ i = 4 ∨ i = 5 := by omega
  rcases this with rfl | rfl | rfl | rfl | rfl <;> assumption

theorem run_cases {i : Int} (hi : 1 ≤ i ∧ i ≤ 5) : i = 1 ∨ i = 2 ∨ i = 3 ∨ i = 4 ∨ i = 5 := by omega

theorem runObjs_linked : LinkedDoc runObjs 1 (fun i => 1 ≤ i ∧ i ≤ 5) (fun _ => False) (fun i => i = 6 ∨ i = 7) runDict := by
  refine ⟨fun i hi => runObjs_dicts i (hi.elim id False.elim), fun i hi => ⟨id, by omega⟩, fun i hi => hi.elim, by decide, ?_, ?_, ?_, ?_, ?_, ?_, ?_, fun i hi => hi.elim, ?_⟩
  · intro k n h
    simp [runDict] at h
    obtain ⟨rfl, rfl⟩ := h
    exact ⟨by decide, by decide⟩
  · intro v h
    simp [runDict] at h
    exact ⟨2, h, by decide⟩
  · intro i hi v h
    rcases run_cases hi with rfl | rfl | rfl | rfl | rfl <;> simp [runDict] at h
    exact ⟨[3, 4], by simp, h, by simp⟩
  · intro i hi v h
    rcases run_cases hi with rfl | rfl | rfl | rfl | rfl <;> simp [runDict] at h
    · exact Or.inl ⟨5, h, by decide⟩
    · exact Or.inl ⟨5, h, by decide⟩
  · left
    intro i hi v h
    rcases run_cases hi with rfl | rfl | rfl | rfl | rfl <;> simp [runDict] at h
    · exact ⟨5, h⟩
    · exact ⟨5, h⟩
  · intro i hi
    refine ⟨?_, ?_, ?_⟩
    · intro k n h
      rcases run_cases hi with rfl | rfl | rfl | rfl | rfl <;> simp [runDict] at h <;> obtain ⟨rfl, rfl⟩ := h <;> exact ⟨by decide, by decide⟩
    · intro v h
      rcases run_cases hi with rfl | rfl | rfl | rfl | rfl <;> simp [runDict] at h
      refine Or.inr ⟨_, h, ?_⟩
      intro x hx
      simp at hx
      subst hx
      exact ⟨8, rfl, by unfold Readable; omega⟩
    · intro v h
      rcases run_cases hi with rfl | rfl | rfl | rfl | rfl <;> simp [runDict] at h
  · intro i hi v h
    rcases run_cases hi with rfl | rfl | rfl | rfl | rfl <;> simp [runDict] at h
    · exact Or.inl ⟨6, h, by unfold Readable; omega, by simp⟩
    · exact Or.inl ⟨7, h, by unfold Readable; omega, by simp⟩
  · intro i hi
    rcases hi with rfl | rfl
    · exact ⟨_, rfl⟩
    · exact ⟨_, rfl⟩

def runPages : List PageC := [⟨3, 6, b!"q"⟩, ⟨4, 7, b!"Q"⟩]

set_option maxRecDepth 20000 in
theorem runObjs_held (unzip : Bytes → Option Bytes) : Held unzip ⟨1, tableOf runRows, runObjs, []⟩ (fun i => 1 ≤ i ∧ i ≤ 5) (fun _ => False) (fun i => i = 6 ∨ i = 7) runDict 2
    [.leaf 3, .leaf 4] runPages := by
  have h := runObjs_dicts
  refine ⟨⟨⟨_, h 1 (by decide), rfl, by simp [runDict]⟩, by decide, h 2 (by decide), ⟨rfl, ⟨rfl, by simp [runDict]⟩, by simp⟩, ?_, ?_, ⟨_, h 3 (by decide), rfl, rfl, ?_⟩, ⟨_, h 4 (by decide), rfl, rfl, ?_⟩, trivial⟩,
    runObjs_linked, rfl, by decide, ?_⟩
  · exact ⟨by decide, by simp [runDict]⟩
  · exact ⟨2, rfl, by simp [runDict]⟩
  · simp [runDict]
  · simp [runDict]
  · intro x hx
    have hp6 : readProperties b!"\n<< /Length 1 >>\nstream\nq\nendstream\n" = .ok [⟨b!"Length", b!"1"⟩] := by decide +kernel
    have hp7 : readProperties b!"\n<< /Length 1 >>\nstream\nQ\nendstream\n" = .ok [⟨b!"Length", b!"1"⟩] := by decide +kernel
    simp [runPages] at hx
    rcases hx with rfl | rfl
    · exact ⟨rfl, by decide, ⟨6, b!"\n<< /Length 1 >>\nstream\nq\nendstream\n"⟩, rfl, ⟨_, b!"\n<< /Length 1 >>\n", b!"\n", b!"q", b!"\n", b!"\n", b!"1", 113, hp6, rfl, by decide +kernel, by decide, rfl, by decide +kernel, by decide, by decide, rfl,
        by decide, by decide, Or.inl ⟨rfl, rfl⟩⟩⟩
    · exact ⟨rfl, by decide, ⟨7, b!"\n<< /Length 1 >>\nstream\nQ\nendstream\n"⟩, rfl, ⟨_, b!"\n<< /Length 1 >>\n", b!"\n", b!"Q", b!"\n", b!"\n", b!"1", 81, hp7, rfl, by decide +kernel, by decide, rfl, by decide +kernel, by decide, by decide, rfl,
        by decide, by decide, Or.inl ⟨rfl, rfl⟩⟩⟩

/-- page 1 is copied to the end, page 2 removed, and an image put on what is then page 2, the copy -/
def runCalls : List (Env × Call) := [(plainEnv, .duplicate 1 (-1)), (plainEnv, .remove 2), (plainEnv, .img b!"x" 2 5 6 7 8)]

/-- every number is read as zero -/
def runEnv : Env := { plainEnv with parseFloat := fun _ => some 0 }

/-- the content of the second page of the saved file -/
def runDrawn : Obj := ⟨9, b!"<<\n/Length 41\n>>\nstream\nq\n" ++ b!"q 7.00 0 0 8.00 5.00 86.00 cm /I1 Do Q\n" ++ b!"endstream"⟩

/-- what is found by running the program on the file -/
def runCheck (r : Step App) : Bool :=
  match (Run r.state runCalls).build plainEnv with
  | .ok b => (Run r.state runCalls).protection.isNone && decide (b.doc.objs.filter (fun x => decide (x.objID = 9)) = [runDrawn]) &&
      decide ((toStream b.doc.objs b.doc.rootObjID b.lastID.toNat none).length < 10 ^ 10)
  | _ => false

set_option maxRecDepth 20000 in
theorem runCheck_eq : runCheck (App.openFrom runEnv {} runRaw) = true := by decide +kernel

theorem runCheck_saves {r : Step App} (h : runCheck r = true) : (Run r.state runCalls).protection = none ∧ ∃ objs last out, Saves plainEnv (Run r.state runCalls) objs last out ∧
    out.length < 10 ^ 10 ∧ OnlyObj objs 9 runDrawn := by
  unfold runCheck at h
  split at h
  · rename_i b hb
    simp only [Bool.and_eq_true, decide_eq_true_eq, Option.isNone_iff_eq_none] at h
    obtain ⟨⟨hp, hd⟩, hlen⟩ := h
    refine ⟨hp, b.doc.objs, _, _, ⟨b, hb, by rw [hp]; rfl, rfl, saveTo_eq hb⟩, by rw [hp]; exact hlen, hd⟩
  · exact absurd h (by decide)

/-- the two pages of the file -/
def runViews : List (List (Bytes × Val) × Bytes) := viewsOf runDict runPages

set_option maxRecDepth 20000 in
/-- the program opens the file, performs the calls and saves; an independent reader of the result finds two pages, the second a copy of the first with the image drawn after its own content -/
example : ∃ a0 objs last out, App.openFrom runEnv {} runRaw = ⟨a0, .ok ()⟩ ∧ Saves plainEnv (Run a0 runCalls) objs last out ∧ FileOf out 1 objs ∧
    (∃ tree fonts imgs streams, StdDoc ⟨1, [], objs, []⟩ tree ∧ tree.pages.length = 2 ∧
      ∀ i v, (runCalls.foldl (fun l c => c.2.edit l) runViews)[i]? = some v → ∃ p, tree.pages[i]? = some p ∧ PageSaved plainEnv.unzip objs fonts imgs (drawnOn streams (i + 1)) v p) ∧
    OnlyObj objs 9 runDrawn := by
  have hv : Shown plainEnv.unzip ⟨((1 : Nat) : Int), tableOf runRows, runObjs, []⟩ runViews := ⟨_, _, _, _, _, _, _, runObjs_held _, rfl⟩
  have hbox : ∀ v ∈ runViews, ∃ box : List ℚ, EntryIs v.1 b!"MediaBox" (.arr (box.map .num)) := by
    intro v hv
    simp only [runViews, viewsOf, runPages, List.map_cons, List.map_nil, List.mem_cons, List.not_mem_nil, or_false] at hv
    rcases hv with rfl | rfl
    · exact ⟨[0, 0, 595, 842], rfl, by simp [runDict, setVal]⟩
    · exact ⟨[0, 0, 200, 100], rfl, by simp [runDict, setVal]⟩
  have hr : EntryIs [(b!"Size", .num 9), (b!"Root", .ref 1)] b!"Root" (.ref ((1 : Nat) : Int)) := ⟨rfl, by simp⟩
  have hn : ReadsNums (fun s => (runEnv.parseFloat s).isSome) := fun _ _ _ => rfl
  have hne : runCalls.foldl (fun l c => c.2.edit l) runViews ≠ [] := by simp [runCalls, Call.edit, runViews, viewsOf, runPages]
  have hl : (runCalls.foldl (fun l c => c.2.edit l) runViews).length = 2 := by simp [runCalls, Call.edit, runViews, viewsOf, runPages]
  have hc : ∀ c ∈ runCalls, c.2 ≠ .save := by simp [runCalls]
  have hnd : (runObjs.map Obj.objID).Nodup := by decide
  have hpos : ∀ o ∈ runObjs, 1 ≤ o.objID := by decide
  have hmax : maxID runObjs + 2 * runCalls.length < 2 ^ 63 := by decide
  obtain ⟨a0, e0, h⟩ := C84_run_partial hn runRaw_is hr hnd hpos hv hbox runCalls hc hmax hne
  have hf := runCheck_eq
  rw [e0] at hf
  obtain ⟨hp, objs, last, out, hs, hlen, hd⟩ := runCheck_saves hf
  obtain ⟨h1, b', tree, fonts, imgs, streams, hb', h2, h3, _, _, _, h4⟩ := h hp hs hlen
  exact ⟨a0, objs, last, out, e0, hs, h1, ⟨tree, fonts, imgs, streams, h2, h3.trans hl, h4⟩, hd⟩

end Verif
