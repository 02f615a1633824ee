import Verif.Theorems.Fresh
import Verif.Theorems.Contents
/-!
# The steps of `build`
-/
namespace Verif
open Spec

theorem setIndexes_off : ∀ (is : List Nat) (cs : List CrFont) (fs : List FontData) {i : Nat}, i ∉ is → (setIndexes is cs fs)[i]? = fs[i]?
  | [], _, _, _, _ => by simp [setIndexes]
  | _ :: _, [], _, _, _ => by simp [setIndexes]
  | k :: is, c :: cs, fs, i, h => by
    rw [List.mem_cons, not_or] at h
    rw [setIndexes, setIndexes_off is cs _ h.2, List.getElem?_modify]
    cases fs[i]? with
    | none => rfl
    | some x => simp only [Option.map_eq_map, Option.map_some, if_neg (fun e : k = i => h.1 e.symm)]

theorem setIndexes_get : ∀ (is : List Nat) (cs : List CrFont) (fs : List FontData), is.Nodup → ∀ {j i : Nat} {c : CrFont}, is[j]? = some i → cs[j]? = some c →
    (setIndexes is cs fs)[i]? = (fs[i]?).map (fun f => { f with fontIndex := c.idx })
  | [], _, _, _, j, i, c, h, _ => by simp at h
  | _ :: _, [], _, _, j, i, c, _, h => by simp at h
  | k :: is, c0 :: cs, fs, hn, j, i, c, h1, h2 => by
    rw [List.nodup_cons] at hn
    rw [setIndexes]
    cases j with
    | zero =>
      simp only [List.getElem?_cons_zero, Option.some.injEq] at h1 h2
      subst h1 h2
      rw [setIndexes_off is cs _ hn.1, List.getElem?_modify]
      simp
    | succ j =>
      simp only [List.getElem?_cons_succ] at h1 h2
      rw [setIndexes_get is cs _ hn.2 h1 h2, List.getElem?_modify]
      have hki : k ≠ i := by
        rintro rfl
        exact hn.1 (List.mem_of_getElem? h1)
      cases fs[i]? with
      | none => rfl
      | some x => simp only [Option.map_eq_map, Option.map_some, if_neg hki]

theorem nameImgs_get : ∀ (is : List ImageData) (cs : List CrXObj) {j : Nat} {i : ImageData} {c : CrXObj}, (nameImgs is cs)[j]? = some i → cs[j]? = some c →
    i.xObjChar = c.chr ∧ i.xObjIndex = c.idx ∧ ∃ i0, is[j]? = some i0 ∧ i.objID = i0.objID ∧ i.buf = i0.buf
  | [], cs, j, i, c, h, _ => by simp [nameImgs] at h
  | _ :: _, [], j, i, c, _, h => by simp at h
  | i0 :: is, c0 :: cs, j, i, c, h1, h2 => by
    rw [nameImgs] at h1
    cases j with
    | zero =>
      simp only [List.getElem?_cons_zero, Option.some.injEq] at h1 h2
      subst h1 h2
      exact ⟨rfl, rfl, i0, rfl, rfl, rfl⟩
    | succ j =>
      simp only [List.getElem?_cons_succ] at h1 h2 ⊢
      exact nameImgs_get is cs h1 h2

theorem newCrFonts_objIDs : ∀ (ids : List Int) (m : Int), (newCrFonts m ids).map (·.objID) = ids
  | [], _ => rfl
  | id :: t, m => by simp [newCrFonts, newCrFonts_objIDs t]

theorem newCrXObjs_objIDs (c : Bytes) : ∀ (ids : List Int) (n : Int), (newCrXObjs c n ids).map (·.objID) = ids
  | [], _ => rfl
  | id :: t, n => by simp [newCrXObjs, newCrXObjs_objIDs c t]

theorem injectFonts_new {σ : Nat → Shuffle} {d d' : Doc} {ids : List Int} {new : List CrFont} (h : injectFonts σ d ids = .ok (d', new)) : ∃ m, new = newCrFonts m ids := by
  unfold injectFonts at h
  rw [Res.bind_eq_ok] at h
  obtain ⟨rs, _, h⟩ := h
  rw [Res.bind_eq_ok] at h
  obtain ⟨m, _, h⟩ := h
  simp only at h
  rw [Res.bind_eq_ok] at h
  obtain ⟨reps, _, h⟩ := h
  rw [Res.bind_eq_ok] at h
  obtain ⟨objs, _, h⟩ := h
  simp only [Res.ok.injEq, Prod.mk.injEq] at h
  exact ⟨_, h.2.symm⟩

theorem injectImgs_new {σ : Nat → Shuffle} {d d' : Doc} {ids : List Int} {new : List CrXObj} (h : injectImgs σ d ids = .ok (d', new)) : ∃ c n, new = newCrXObjs c n ids := by
  unfold injectImgs at h
  rw [Res.bind_eq_ok] at h
  obtain ⟨rs, _, h⟩ := h
  rw [Res.bind_eq_ok] at h
  obtain ⟨fr, _, h⟩ := h
  cases fr with
  | none => simp at h
  | some p =>
    obtain ⟨emb, fr⟩ := p
    simp only at h
    rw [Res.bind_eq_ok] at h
    obtain ⟨_, _, h⟩ := h
    rw [Res.bind_eq_ok] at h
    obtain ⟨⟨cw, vals⟩, _, h⟩ := h
    simp only at h
    rw [Res.bind_eq_ok] at h
    obtain ⟨reps, _, h⟩ := h
    rw [Res.bind_eq_ok] at h
    obtain ⟨objs, _, h⟩ := h
    simp only [Res.ok.injEq, Prod.mk.injEq] at h
    exact ⟨_, _, h.2.symm⟩

/-- The steps of a successful `build` without encryption: `fids`, `iids` are the numbers of the fonts and images, `added` the objects put at the end. -/
structure Steps (env : Env) (a : App) (b : Built) (fids : List Int) (d1 : Doc) (new : List CrFont) (added : List Obj) (iids : List Int) (d3 : Doc) (xs : List CrXObj)
    (streams : List (Int × Bytes)) : Prop where
  step1 : injectFonts env.order a.doc fids = .ok (d1, new)
  step2 : injectImgs env.order { d1 with objs := d1.objs ++ added } iids = .ok (d3, xs)
  step3 : injectContent env.unzip d3 streams = .ok b.doc
  streams : List.Forall₂ (fun c s => c.stream b.app.fonts b.app.imgs = .ok s ∧ s.1 = pageOf c) a.contents streams
  fresh : (idsOf d1.objs ++ idsOf added).Nodup
  range : ∀ i ∈ idsOf added, maxID a.doc.objs < i ∧ i ≤ b.lastID
  fidsIn : ∀ i ∈ fids, i ∈ idsOf added
  iidsIn : ∀ i ∈ iids, i ∈ idsOf added
  font : ∃ ord : List Nat, ord.Perm (a.fontMap.map (·.2)) ∧ ∀ (j i : Nat), ord[j]? = some i →
    ∃ f c, b.app.fonts[i]? = some f ∧ new[j]? = some c ∧ c.idx = f.fontIndex ∧ c.objID = f.fontID ∧ ∀ o ∈ f.objs, o ∈ added
  img : ∀ (j : Nat) i, b.app.imgs[j]? = some i → (∃ c, xs[j]? = some c ∧ c.chr = i.xObjChar ∧ c.idx = i.xObjIndex ∧ c.objID = i.objID) ∧ ⟨i.objID, i.buf⟩ ∈ added
  fmap : b.app.fontMap = a.fontMap
  contents : b.app.contents = a.contents
  newIDs : new.map (·.objID) = fids
  noneNew : a.fontMap = [] → a.imgs = [] → added = []
  doc : b.app.doc = if env.realloc && !added.isEmpty then d1 else { d1 with objs := b.doc.objs.take d1.objs.length }
  ids : idsOf b.doc.objs = idsOf d1.objs ++ idsOf added

theorem isEmpty_append_map {α β : Type} (l : List β) (f : α → β) (m : List α) : (l ++ m.map f).isEmpty = (l.isEmpty && m.isEmpty) := by
  cases l <;> cases m <;> rfl

theorem build_steps {env : Env} {a : App} {b : Built} (hinv : NumInv a) (hp : a.protection = none) (h : a.build env = .ok b) :
    ∃ fids d1 new added iids d3 xs streams, Steps env a b fids d1 new added iids d3 xs streams := by
  have hnum := build_numbers hinv h
  unfold App.build at h
  rw [Res.bind_eq_ok] at h
  obtain ⟨⟨fonts, nextID⟩, hbf, h⟩ := h
  simp only at h
  rw [Res.bind_eq_ok] at h
  obtain ⟨⟨d, new⟩, hif, h⟩ := h
  simp only at h
  rw [Res.bind_eq_ok] at h
  obtain ⟨⟨pdf2, xs⟩, hii, h⟩ := h
  simp only at h
  rw [Res.bind_eq_ok] at h
  obtain ⟨streams, hst, h⟩ := h
  rw [Res.bind_eq_ok] at h
  obtain ⟨pdf3, hic, h⟩ := h
  rw [Res.bind_eq_ok] at h
  obtain ⟨objs, hen, h⟩ := h
  simp only [hp, Res.ok.injEq] at hen h
  subst hen
  have hperm0 := ((env.order 0).perm a.fontMap).map (·.2)
  have hperm1 := ((env.order 1).perm a.fontMap).map (·.2)
  have hperm2 := ((env.order 2).perm a.fontMap).map (·.2)
  have hn0 := hperm0.nodup_iff.2 hinv.fonts.nodup
  have hn1 := hperm1.nodup_iff.2 hinv.fonts.nodup
  obtain ⟨hlen, _, _, hspec⟩ := buildFonts_spec _ _ _ _ _ hbf hn0
  have hf1 := injectFonts_frame hif
  have hf2 := injectImgs_frame hii
  have hf3 := injectContent_frame hic
  obtain ⟨m, hm⟩ := injectFonts_new hif
  obtain ⟨xc, xn, hx⟩ := injectImgs_new hii
  set order1 := List.map (fun x => x.2) ((env.order 1).fn a.fontMap) with ho1
  set order2 := List.map (fun x => x.2) ((env.order 2).fn a.fontMap) with ho2
  set fids := order1.map (fun i => ((fonts[i]?).map (·.fontID)).getD 0) with hfids
  set fonts' := setIndexes order1 new fonts with hfonts'
  set fontObjs := order2.flatMap (fun i => ((fonts'[i]?).map FontData.objs).getD []) with hfo
  set imgs := numberImgs nextID a.imgs with himgs
  have hmapnew : new.map (·.objID) = fids := by rw [hm, newCrFonts_objIDs]
  -- the fonts
  have hfont : ∀ (j i : Nat), order1[j]? = some i → ∃ f c, fonts'[i]? = some f ∧ new[j]? = some c ∧ c.idx = f.fontIndex ∧ c.objID = f.fontID ∧ ∀ o ∈ f.objs, o ∈ fontObjs := by
    intro j i hj
    have hi := List.mem_of_getElem? hj
    have hlt : i < fonts.length := by
      obtain ⟨p, hp1, hp2⟩ := List.mem_map.1 (hperm1.mem_iff.1 hi)
      rw [hlen, ← hp2]
      exact hinv.fonts.range p hp1
    obtain ⟨f0, hf0⟩ : ∃ f0, fonts[i]? = some f0 := ⟨_, List.getElem?_eq_getElem hlt⟩
    have hfj : fids[j]? = some f0.fontID := by rw [hfids, List.getElem?_map, hj]; simp [hf0]
    obtain ⟨c, hc, hce⟩ : ∃ c, new[j]? = some c ∧ c.objID = f0.fontID := by
      rw [← hmapnew, List.getElem?_map] at hfj
      cases hc : new[j]? with
      | none => rw [hc] at hfj; simp at hfj
      | some c => rw [hc] at hfj; exact ⟨c, rfl, by simpa using hfj⟩
    have hget := setIndexes_get order1 new fonts hn1 hj hc
    rw [hf0, Option.map_some] at hget
    refine ⟨_, c, hget, hc, rfl, hce, ?_⟩
    intro o ho
    rw [hfo, List.mem_flatMap]
    exact ⟨i, hperm2.mem_iff.2 (hperm1.mem_iff.1 hi), by rw [hget]; exact ho⟩
  subst h
  refine ⟨fids, d, new, fontObjs ++ imgs.map (fun i => ⟨i.objID, i.buf⟩), imgs.map (·.objID), pdf2, xs, streams, ?_⟩
  have hids3 : idsOf pdf3.objs = idsOf d.objs ++ idsOf (fontObjs ++ imgs.map (fun i => (⟨i.objID, i.buf⟩ : Obj))) := by
    rw [hf3.1, hf2.1]
    simp only
    rw [List.append_assoc, idsOf_append]
  obtain ⟨⟨nw, hnw1, hnw2, hnw3⟩, hnum2⟩ := hnum
  simp only at hnw1 hnw3
  have hnweq : idsOf (fontObjs ++ imgs.map (fun i => (⟨i.objID, i.buf⟩ : Obj))) = nw := by
    rw [hids3, hf1.1] at hnw1
    exact List.append_cancel_left hnw1
  refine ⟨hif, ?_, hic, (streamsOf_forall _ hst).imp (fun c s hs => ⟨hs, stream_page hs⟩), ?_, ?_, ?_, ?_, ?_, ?_, rfl, rfl, hmapnew, ?_, ?_, hids3⟩
  · rw [← List.append_assoc]
    exact hii
  · rw [hnweq, hf1.1, List.nodup_append]
    refine ⟨hinv.nodup, hnw2, ?_⟩
    rintro i hi _ hj rfl
    have h1 := idsOf_le_maxID hi
    have h2 := (hnw3 i hj).1
    omega
  · rw [hnweq]
    exact hnw3
  · intro i hi
    rw [hfids] at hi
    obtain ⟨k, hk, rfl⟩ := List.mem_map.1 hi
    obtain ⟨j, hj⟩ := List.mem_iff_getElem?.1 hk
    obtain ⟨f, c, hf1, _, _, _, hf3⟩ := hfont j k hj
    have hid : ((fonts[k]?).map (·.fontID)) = some f.fontID := by
      have := congrArg (fun l => l[k]?) (setIndexes_ids order1 new fonts)
      simp only [List.getElem?_map] at this
      rw [← this, ← hfonts', hf1]
      rfl
    rw [hid]
    simp only [idsOf, List.map_append, List.mem_append]
    exact Or.inl (List.mem_map.2 ⟨⟨f.fontID, f.fontBuf⟩, hf3 _ (by simp [FontData.objs]), rfl⟩)
  · intro i hi
    obtain ⟨x, hx, rfl⟩ := List.mem_map.1 hi
    simp only [idsOf, List.map_append, List.mem_append, List.map_map]
    exact Or.inr (List.mem_map.2 ⟨x, hx, rfl⟩)
  · refine ⟨order1, hperm1, fun j i hj => ?_⟩
    obtain ⟨f, c, h1, h2, h3, h4, h5⟩ := hfont j i hj
    exact ⟨f, c, h1, h2, h3, h4, fun o ho => List.mem_append_left _ (h5 o ho)⟩
  · intro j i hj
    simp only at hj
    have hl1 := lt_length_of_getElem? hj
    rw [nameImgs_length] at hl1
    have hxm : xs.map (·.objID) = imgs.map (·.objID) := by rw [hx, newCrXObjs_objIDs]
    have hl2 : j < xs.length := by
      have := congrArg List.length hxm
      simp only [List.length_map] at this
      omega
    obtain ⟨n1, n2, i0, n3, n4, n5⟩ := nameImgs_get _ _ hj (List.getElem?_eq_getElem hl2)
    refine ⟨⟨xs[j], List.getElem?_eq_getElem hl2, n1.symm, n2.symm, ?_⟩, ?_⟩
    · have := congrArg (fun l => l[j]?) hxm
      simp only [List.getElem?_map, List.getElem?_eq_getElem hl2, n3, Option.map_some, Option.some.injEq] at this
      rw [n4, this]
    · refine List.mem_append_right _ (List.mem_map.2 ⟨i0, List.mem_of_getElem? n3, by rw [n4, n5]⟩)
  · intro hf hi
    have e0 : order2 = [] := by
      have hl := hperm2.length_eq
      rw [hf] at hl
      exact List.eq_nil_of_length_eq_zero (by simpa using hl)
    have e1 : imgs = [] := by rw [himgs, hi]; rfl
    rw [hfo, e0, e1]
    rfl
  · rw [isEmpty_append_map]

end Verif
