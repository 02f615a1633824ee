import Verif.Lemmas.Succeed
import Verif.Theorems.Held
import Verif.Theorems.Subset
/-!
# Saving succeeds
-/
namespace Verif
open Spec

variable {root tree : Int} {ct node : Props} {pages : List FlatPage} {L : List PageC}

/-- every font of the pages has a numbered name and is an object of its own -/
def FontNamesNumbered (objs : List Obj) (pages : List FlatPage) : Prop :=
  ∀ g ∈ pages, ∀ r, g.res = some r → ∀ place fs, FontAt objs r place fs → ∀ p ∈ fs, NumberedName p.key ∧ ∃ i, refOf p.rawVal = some i

/-- Resources written in a page list a font, or their text is not of three words. -/
def WordsOk (objs : List Obj) (pages : List FlatPage) : Prop :=
  ∀ g ∈ pages, ∀ r v, g.res = some r → r.place = none → valueOf g.entries b!"Resources" = some v →
    (∃ fs, FontAt objs r none fs ∧ fs ≠ []) ∨ (v.count 32 ≠ 2 ∧ valueOf r.entries b!"Font" = none) ∨ (v.count 32 ≠ 2 ∧ ∃ i fs, FontAt objs r (some i) fs)

theorem count_dictVal_mem {ps : Props} {p : PropD} (hp : p ∈ ps) (c : UInt8) : p.rawVal.count c ≤ (dictVal ps).count c := by
  obtain ⟨a, b, rfl⟩ := List.append_of_mem hp
  unfold dictVal compact compact1
  simp only [List.flatMap_append, List.flatMap_cons, List.count_append, List.count_cons]
  omega

theorem count_fonts {l : List CrFont} (h : l ≠ []) : 3 ≤ (dictVal (fontProps l)).count 32 := by
  obtain ⟨f, t, rfl⟩ := List.exists_cons_of_ne_nil h
  unfold dictVal compact compact1 fontProps
  simp only [List.map_cons, List.flatMap_cons, noSep_ref, List.count_append, List.count_cons, Bool.false_eq_true, if_false]
  have e1 : (b!" 0 R").count 32 = 2 := by decide
  have e2 : List.count (32 : UInt8) [32] = 1 := by decide
  simp only [List.count_cons, List.count_nil] at *
  simp
  omega

theorem crFontsOf_total : ∀ (fs : Props), Tidy fs → (∀ p ∈ fs, NumberedName p.key ∧ ∃ i, refOf p.rawVal = some i) → ∃ lf, crFontsOf fs = .ok lf ∧ lf.length = fs.length
  | [], _, _ => ⟨[], rfl, rfl⟩
  | p :: ps, ht, h => by
    obtain ⟨⟨a, n, hk, hn, ha⟩, i, hi⟩ := h p (by simp)
    obtain ⟨lf, hlf, hlen⟩ := crFontsOf_total ps (Spec.Tidy.tail ht) (fun q hq => h q (by simp [hq]))
    refine ⟨⟨a, n, i⟩ :: lf, ?_, by simp [hlen]⟩
    have htr : trimSpace p.key = p.key := trimSpace_plain (fun c hc => by
      have k1 := (ht p (by simp)).1
      have := printable_byte (regular_printable (k1 c hc))
      exact ⟨this.1, this.2.2.2.2 (fun e => absurd (k1 c hc).1 (by rw [e]; decide))⟩)
    rw [crFontsOf, htr, hk, splitFont_numbered ha hn]
    simp only [Res.ok_bind, refOf_some hi, hlf]

theorem fontsNumbered {objs : List Obj} (h : FontNamesNumbered objs pages) : FontsNumbered objs pages := by
  intro g hg r hgr place fs hf
  obtain ⟨lf, h1, _⟩ := crFontsOf_total fs hf.choose_spec.2.1 (h g hg r hgr place fs hf)
  exact ⟨lf, h1⟩

/-- the resources with the new fonts are not three words -/
theorem words_fonts {objs : List Obj} {new : List CrFont} (h : FlatDoc b!"Font" objs root tree ct node pages) (hr : FontsReadable objs pages) (hw : Written pages)
    (hn : FontNamesNumbered objs pages) (hc : WordsOk objs pages) : NotThreeWords (pages.map (fontPage pages new)) := by
  intro g2 hg2 r2 hr2 hp2
  obtain ⟨g, hg, rfl⟩ := List.mem_map.1 hg2
  cases hgr : g.res with
  | none => rw [fontPage_none hgr, hgr] at hr2; simp at hr2
  | some r =>
    rw [(fontPage_some hgr).1] at hr2
    simp only [Option.some.injEq] at hr2
    subst hr2
    simp only at hp2 ⊢
    obtain ⟨t1, _⟩ := resEntries (h.pagesOk g hg) hgr
    have hv := hw g hg r hgr hp2
    have hoff : (¬ ∃ fs, FontAt objs r none fs) → (dictVal r.entries).count 32 ≠ 2 → (dictVal (fontEntries new (timesOf pages r) r.entries)).count 32 ≠ 2 := by
      intro h1 h2
      rw [fontEntries_off hg hr hgr t1 h1]
      exact h2
    rcases hc g hg r _ hgr hp2 hv with ⟨fs, hf, hne⟩ | ⟨hcnt, hno⟩ | ⟨hcnt, i, fs, hf⟩
    · obtain ⟨lf, hl, hlen⟩ := crFontsOf_total fs hf.choose_spec.2.1 (hn g hg r hgr none fs hf)
      have hlne : lf ++ new ≠ [] := by
        intro e
        have := congrArg List.length e
        rw [List.length_append, hlen] at this
        simp only [List.length_nil, Nat.add_eq_zero_iff, List.length_eq_zero_iff] at this
        exact hne this.1
      rw [fontEntries_at hf hl]
      obtain ⟨w, hw', _⟩ := hf
      have hval := setFirst_valueOf (key := b!"Font") (n := dictVal (fontProps (lf ++ new))) (v := w) (ps := copies (timesOf pages r) r.entries)
        (by rw [copies_valueOf (timesOf_pos hg hgr), hw']) b!"Font"
      rw [if_pos rfl] at hval
      have h1 := count_dictVal_mem (valueOf_mem hval) 32
      have h2 := count_fonts hlne
      simp only at h1
      omega
    · exact hoff (fun ⟨fs, w, hw', _⟩ => by rw [hno] at hw'; simp at hw') hcnt
    · refine hoff ?_ hcnt
      rintro ⟨fs', hf'⟩
      have := (fontAt_unique t1 hf hf').1
      simp at this

/-- The objects put at the end have new numbers. -/
theorem added_fresh {env : Env} {a : App} (hinv : NumInv a) {fonts : List FontData} {nextID : Int} (hbf : buildFonts env (((env.order 0).fn a.fontMap).map (·.2)) (maxID a.doc.objs) a.fonts = .ok (fonts, nextID))
    {fids : List Int} {d : Doc} {new : List CrFont} (hif : injectFonts env.order a.doc fids = .ok (d, new)) :
    (idsOf d.objs ++ idsOf ((((env.order 2).fn a.fontMap).map (·.2)).flatMap (fun i => (((setIndexes (((env.order 1).fn a.fontMap).map (·.2)) new fonts)[i]?).map FontData.objs).getD []) ++
      (numberImgs nextID a.imgs).map (fun i => (⟨i.objID, i.buf⟩ : Obj)))).Nodup := by
  have hperm0 := ((env.order 0).perm a.fontMap).map (·.2)
  have hperm2 := ((env.order 2).perm a.fontMap).map (·.2)
  have hn0 := hperm0.nodup_iff.2 hinv.fonts.nodup
  have hn2 := hperm2.nodup_iff.2 hinv.fonts.nodup
  obtain ⟨hlen, hlast, hrest, hspec⟩ := buildFonts_spec _ _ _ _ _ hbf hn0
  have hf1 := injectFonts_frame hif
  set order0 := List.map (fun x => x.2) ((env.order 0).fn a.fontMap) with ho0
  set order1 := List.map (fun x => x.2) ((env.order 1).fn a.fontMap) with ho1
  set order2 := List.map (fun x => x.2) ((env.order 2).fn a.fontMap) with ho2
  set fonts' := setIndexes order1 new fonts with hfonts'
  have hidseq : fonts'.map (·.fontID) = fonts.map (·.fontID) := setIndexes_ids _ _ _
  have hspec' : ∀ (j i : Nat), order0[j]? = some i → ∃ f, fonts'[i]? = some f ∧ f.fontID = maxID a.doc.objs + 6 * j + 2 := by
    intro j i hj
    obtain ⟨f, h1, h2⟩ := hspec j i hj
    obtain ⟨f', h3, h4⟩ := getElem?_ids hidseq h1
    exact ⟨f', h3, by rw [h4, h2]⟩
  have hsub : ∀ i ∈ order2, i ∈ order0 := by
    intro i hi
    exact hperm0.mem_iff.2 (hperm2.mem_iff.1 hi)
  have hfo := fontObjs_ids hspec' order2 hsub
  have himgs : idsOf ((numberImgs nextID a.imgs).map (fun i => (⟨i.objID, i.buf⟩ : Obj))) = (numberImgs nextID a.imgs).map (·.objID) := by
    unfold idsOf; rw [List.map_map]; rfl
  have hidx : ∀ i ∈ order2, order0.idxOf i < order0.length := fun i hi => List.idxOf_lt_length_of_mem (hsub i hi)
  have hnew : ∀ x ∈ ((order2.map (fun i => order0.idxOf i)).flatMap (fun (j : Nat) => fontBlock (maxID a.doc.objs + 6 * j + 2))),
      maxID a.doc.objs < x ∧ x ≤ nextID := by
    intro x hx
    obtain ⟨j, hj, hx⟩ := List.mem_flatMap.1 hx
    obtain ⟨i, hi, rfl⟩ := List.mem_map.1 hj
    have := hidx i hi
    simp only [fontBlock, List.mem_cons, List.not_mem_nil, or_false] at hx
    omega
  have himg : ∀ x ∈ (numberImgs nextID a.imgs).map (·.objID), nextID < x := by
    intro x hx
    obtain ⟨i, hi, rfl⟩ := List.mem_map.1 hx
    obtain ⟨j, hj⟩ := List.mem_iff_getElem?.1 hi
    have h1 := (numberImgs_ids nextID a.imgs).2 j i hj
    omega
  rw [idsOf_append, hfo, himgs, hf1.1, List.nodup_append]
  refine ⟨hinv.nodup, ?_, ?_⟩
  · rw [List.nodup_append]
    refine ⟨fontBlocks_nodup _ (nodup_map_idxOf hn2 hsub), numberImgs_nodup _ _, ?_⟩
    intro x hx y hy e
    have h1 := hnew x hx
    have h2 := himg y hy
    omega
  · intro x hx y hy e
    have h0 := idsOf_le_maxID hx
    rcases List.mem_append.1 hy with hy | hy
    · have h1 := hnew y hy
      omega
    · have h2 := himg y hy
      have h3 : maxID a.doc.objs ≤ nextID := by omega
      omega


/-- the contents and the cache refer to fonts and images there are -/
structure IdxInv (a : App) : Prop where
  text : ∀ c, Content.text c ∈ a.contents → c.font < a.fonts.length
  img : ∀ c, Content.img c ∈ a.contents → c.img < a.imgs.length
  cache : ∀ p ∈ a.imgMap, p.2 < a.imgs.length

theorem IdxInv.grow {a b : App} (h : IdxInv a) (hf : a.fonts.length ≤ b.fonts.length) (hi : a.imgs.length ≤ b.imgs.length) (hc : b.contents = a.contents) (hm : b.imgMap = a.imgMap) :
    IdxInv b := by
  refine ⟨fun c hcm => ?_, fun c hcm => ?_, fun p hp => ?_⟩
  · rw [hc] at hcm
    exact Nat.lt_of_lt_of_le (h.text c hcm) hf
  · rw [hc] at hcm
    exact Nat.lt_of_lt_of_le (h.img c hcm) hi
  · rw [hm] at hp
    exact Nat.lt_of_lt_of_le (h.cache p hp) hi

theorem IdxInv.setFontState {a : App} (h : IdxInv a) (i : Nat) (s : FontState) : IdxInv (a.setFontState i s) :=
  h.grow (by simp [App.setFontState]) (Nat.le_refl _) rfl rfl

theorem IdxInv.push {a : App} (h : IdxInv a) (c : Content) (h1 : ∀ t, c = .text t → t.font < a.fonts.length) (h2 : ∀ t, c = .img t → t.img < a.imgs.length) :
    IdxInv { a with contents := a.contents ++ [c] } := by
  refine ⟨fun t ht => ?_, fun t ht => ?_, h.cache⟩
  · simp only [List.mem_append, List.mem_singleton] at ht
    rcases ht with ht | ht
    · exact h.text t ht
    · exact h1 t ht.symm
  · simp only [List.mem_append, List.mem_singleton] at ht
    rcases ht with ht | ht
    · exact h.img t ht
    · exact h2 t ht.symm

theorem font?_lt {a : App} {n : Bytes} {i : Nat} {f : FontData} (h : a.font? n = some (i, f)) : i < a.fonts.length := by
  unfold App.font? at h
  split at h
  · simp at h
  · obtain ⟨g, hg, e⟩ := Option.map_eq_some_iff.1 h
    simp only [Prod.mk.injEq] at e
    rw [← e.1]
    exact (List.getElem?_eq_some_iff.1 hg).1

theorem IdxInv.insert {a : App} (h : IdxInv a) (env : Env) (text : Bytes) (page : Int) (x y w hh : ℚ) (align : Nat) (color : Option (Int × Int × Int)) :
    IdxInv (a.insert env text page x y w hh align color).state := by
  unfold App.insert
  split
  · split
    · exact h
    · rename_i i f hf
      simp only
      apply IdxInv.setFontState
      exact h.push _ (fun t ht => by simp only [Content.text.injEq] at ht; rw [← ht]; exact font?_lt hf) (fun t ht => by simp at ht)
  all_goals exact h

theorem IdxInv.measure {a : App} (h : IdxInv a) (env : Env) (text : Bytes) : IdxInv (a.measureTextWidth env text).1 := by
  unfold App.measureTextWidth
  split
  · exact h
  · simp only
    split
    · exact h.setFontState _ _
    · exact h.setFontState _ _
    · split <;> exact h.setFontState _ _

theorem IdxInv.wrapLoop (env : Env) (w step : ℚ) : ∀ (ts : List Bytes) {a : App} (_ : IdxInv a) (st : WrapState), IdxInv (App.wrapLoop env w step a st ts).1
  | [], a, h, st => by simpa [App.wrapLoop] using h
  | t :: ts, a, h, st => by
    rw [App.wrapLoop]
    split
    · exact IdxInv.wrapLoop env w step ts h st
    · have hm := h.measure env (st.curr ++ t)
      generalize hr : a.measureTextWidth env (st.curr ++ t) = r at hm ⊢
      obtain ⟨a', r⟩ := r
      cases r with
      | ok q =>
        simp only at hm ⊢
        split
        · exact IdxInv.wrapLoop env w step ts hm _
        · exact IdxInv.wrapLoop env w step ts hm _
      | err e => exact hm
      | panic => exact hm
      | hang => exact hm

theorem IdxInv.insertAll (env : Env) (page : Int) (x w hh : ℚ) (align : Nat) (color : Option (Int × Int × Int)) (yo : ℚ) :
    ∀ (ls : List (Bytes × ℚ)) {a : App} (_ : IdxInv a), IdxInv (App.insertAll env page x w hh align color yo a ls).state
  | [], a, h => by simpa [App.insertAll] using h
  | l :: ls, a, h => by
    rw [App.insertAll]
    have hi := h.insert env l.1 page x (l.2 - yo) w hh align color
    generalize a.insert env l.1 page x (l.2 - yo) w hh align color = r at hi ⊢
    obtain ⟨a', r⟩ := r
    cases r with
    | ok _ => exact IdxInv.insertAll env page x w hh align color yo ls hi
    | err e => exact hi
    | panic => exact hi
    | hang => exact hi

theorem IdxInv.insertWrap {a : App} (h : IdxInv a) (env : Env) (text : Bytes) (page : Int) (x y w hh : ℚ) (align : Nat) (color : Option (Int × Int × Int))
    (br : Option (Bytes → Option (List Bytes))) : IdxInv (a.insertWrapText env text page x y w hh align color br).state := by
  unfold App.insertWrapText
  split
  · exact h.insert env _ _ _ _ _ _ _ _
  · split
    · exact h
    · rename_i tokens _
      simp only
      have hl := IdxInv.wrapLoop env w (a.fontSize + a.fontSize * (2 / 10)) tokens h { lines := [], y := y, prev := [], curr := [] }
      generalize App.wrapLoop env w (a.fontSize + a.fontSize * (2 / 10)) a { lines := [], y := y, prev := [], curr := [] } tokens = r at hl ⊢
      obtain ⟨a', r⟩ := r
      cases r with
      | ok st => exact IdxInv.insertAll env page x w hh align color _ _ hl
      | err e => exact hl
      | panic => exact hl
      | hang => exact hl

theorem IdxInv.makeImg {a a' : App} (h : IdxInv a) {env : Env} {file : Bytes} {i : ImageData} (hm : a.makeImg env file = .ok (a', i)) : IdxInv a' := by
  unfold App.makeImg at hm
  rw [Res.bind_eq_ok] at hm
  obtain ⟨info, _, hm⟩ := hm
  split at hm
  · simp only [Res.ok.injEq, Prod.mk.injEq] at hm
    rw [← hm.1]; exact h
  · simp only [Res.ok.injEq, Prod.mk.injEq] at hm
    rw [← hm.1]
    exact h.grow (Nat.le_refl _) (Nat.le_refl _) rfl rfl

theorem IdxInv.addImgContent {a : App} (h : IdxInv a) (env : Env) {img : Nat} (hi : img < a.imgs.length) (page : Int) (x y w hh : ℚ) :
    IdxInv (a.addImgContent env img page x y w hh).state := by
  unfold App.addImgContent
  split
  · exact h.push _ (fun t ht => by simp at ht) (fun t ht => by simp only [Content.img.injEq] at ht; rw [← ht]; exact hi)
  all_goals exact h

theorem IdxInv.insertImg {a : App} (h : IdxInv a) (env : Env) (file : Bytes) (page : Int) (x y w hh : ℚ) : IdxInv (a.insertImg env file page x y w hh).state := by
  unfold App.insertImg
  split
  · rename_i a' i hm
    refine IdxInv.addImgContent ?_ env (by simp) page x y w hh
    exact (h.makeImg hm).grow (Nat.le_refl _) (by simp) rfl rfl
  all_goals exact h

theorem IdxInv.insertImgWithCache {a : App} (h : IdxInv a) (env : Env) (file : Bytes) (page : Int) (x y w hh : ℚ) :
    IdxInv (a.insertImgWithCache env file page x y w hh).state := by
  unfold App.insertImgWithCache
  split
  · rename_i i hl
    obtain ⟨k, hk⟩ : ∃ k, (k, i) ∈ a.imgMap := by
      obtain ⟨l1, l2, e, _⟩ := List.lookup_eq_some_iff.1 hl
      exact ⟨env.md5 file, by rw [e]; simp⟩
    exact h.addImgContent env (h.cache _ hk) page x y w hh
  · split
    · rename_i a' i hm
      refine IdxInv.addImgContent ?_ env (by simp) page x y w hh
      have h' := h.makeImg hm
      have hg : IdxInv { a' with imgs := a'.imgs ++ [i] } := h'.grow (Nat.le_refl _) (by simp) rfl rfl
      refine ⟨hg.text, hg.img, fun p hp => ?_⟩
      simp only [List.mem_append, List.mem_singleton] at hp
      rcases hp with hp | rfl
      · exact hg.cache p hp
      · simp
    all_goals exact h

theorem buildFonts_length {env : Env} : ∀ (is : List Nat) (id : Int) (fs fs' : List FontData) (last : Int), buildFonts env is id fs = .ok (fs', last) → fs'.length = fs.length
  | [], id, fs, fs', last, h => by
    simp only [buildFonts, Res.ok.injEq, Prod.mk.injEq] at h
    rw [h.1]
  | i0 :: t, id, fs, fs', last, h => by
    rw [buildFonts, Res.bind_eq_ok] at h
    obtain ⟨f, hf, h⟩ := h
    rw [Res.bind_eq_ok] at h
    obtain ⟨f', hb, h⟩ := h
    rw [buildFonts_length t _ _ _ _ h, List.length_set]

theorem build_lengths {env : Env} {a : App} {b : Built} (h : a.build env = .ok b) :
    b.app.fonts.length = a.fonts.length ∧ b.app.imgs.length = a.imgs.length ∧ b.app.contents = a.contents ∧ b.app.imgMap = a.imgMap := by
  unfold App.build at h
  simp only [Res.bind_eq_ok] at h
  obtain ⟨⟨fonts, nextID⟩, h1, ⟨d, new⟩, h2, ⟨d2, xs⟩, h3, streams, h4, d3, h5, objs, h6, h⟩ := h
  simp only [Res.ok.injEq] at h
  subst h
  refine ⟨?_, ?_, rfl, rfl⟩
  · have := congrArg List.length (setIndexes_ids (((env.order 1).fn a.fontMap).map (·.2)) new fonts)
    simp only [List.length_map] at this
    simp only
    rw [this, buildFonts_length _ _ _ _ _ h1]
  · simp only
    rw [nameImgs_length, (numberImgs_ids nextID a.imgs).1]

theorem IdxInv.after {a : App} (h : IdxInv a) (env : Env) (c : Call) : IdxInv (a.after env c) := by
  cases c with
  | insert t p x y w hh al co => exact h.insert env t p x y w hh al co
  | insertWrap t p x y w hh al co br => exact h.insertWrap env t p x y w hh al co br
  | measure t => exact h.measure env t
  | img f p x y w hh => exact h.insertImg env f p x y w hh
  | imgBase64 t p x y w hh =>
    show IdxInv (a.insertImgBase64 env t p x y w hh).state
    unfold App.insertImgBase64
    split
    · exact h
    · exact h.insertImg env _ p x y w hh
  | imgCached f p x y w hh => exact h.insertImgWithCache env f p x y w hh
  | addFont name file =>
    show IdxInv (a.addFont name file).state
    unfold App.addFont
    split
    · exact h
    · split
      · exact h.grow (by simp) (Nat.le_refl _) rfl rfl
      all_goals exact h
  | setFont n s z =>
    show IdxInv (a.setFont env n s z).state
    unfold App.setFont
    split
    · exact h.grow (Nat.le_refl _) (Nat.le_refl _) rfl rfl
    · exact h
  | textrise name fn =>
    show IdxInv (a.textriseOverride name fn).state
    unfold App.textriseOverride
    split
    · exact h
    · exact h.setFontState _ _
  | kern name fn =>
    show IdxInv (a.kernOverride name fn).state
    unfold App.kernOverride
    split
    · exact h
    · exact h.setFontState _ _
  | border s =>
    show IdxInv (a.showCellBorder s)
    unfold App.showCellBorder
    split
    · exact (h.push (.line (1 / 10) b!"dotted") (fun t ht => by simp at ht) (fun t ht => by simp at ht)).grow (Nat.le_refl _) (Nat.le_refl _) rfl rfl
    · exact (h.push (.line 0 []) (fun t ht => by simp at ht) (fun t ht => by simp at ht)).grow (Nat.le_refl _) (Nat.le_refl _) rfl rfl
  | protect r p u o =>
    show IdxInv (a.setProtection env r p u o).state
    unfold App.setProtection
    split
    · exact h.grow (Nat.le_refl _) (Nat.le_refl _) rfl rfl
    all_goals exact h
  | duplicate t p => exact h.grow (Nat.le_refl _) (Nat.le_refl _) rfl rfl
  | remove k => exact h.grow (Nat.le_refl _) (Nat.le_refl _) rfl rfl
  | removeOthers k => exact h.grow (Nat.le_refl _) (Nat.le_refl _) rfl rfl
  | save =>
    show IdxInv (a.saveTo env).1
    unfold App.saveTo
    split
    · rename_i b hb
      obtain ⟨h1, h2, h3, h4⟩ := build_lengths hb
      exact h.grow (by simp [h1]) (by simp [h2]) h3 h4
    all_goals exact h

theorem IdxInv.run : ∀ (calls : List (Env × Call)) {a : App}, IdxInv a → IdxInv (Run a calls)
  | [], _, h => h
  | c :: t, _, h => IdxInv.run t (h.after c.1 c.2)

theorem Spec.Opened.idx {env : Env} {raw : Bytes} {a : App} (h : Opened env raw a) : IdxInv a := by
  obtain ⟨h1, h2, h3⟩ := h
  unfold App.openFrom at h1
  simp only at h1
  split at h1
  · simp only [Step.mk.injEq] at h1
    rw [← h1.1]
    refine ⟨fun c hc => ?_, fun c hc => ?_, fun p hp => ?_⟩
    · simp [App.showCellBorder] at hc
    · simp [App.showCellBorder] at hc
    · simp [App.showCellBorder] at hp
  all_goals simp at h1


theorem build_total {env : Env} {a : App} (hinv : NumInv a) (hidx : IdxInv a) (hfonts : ∀ f ∈ a.fonts, FontUsable f.state) (hp : a.protection = none)
    (h : SaveDoc env.unzip a.doc.objs a.doc.rootObjID tree ct node pages L) (hsome : ∃ g ∈ pages, g.res ≠ none) (hnames : FontNamesNumbered a.doc.objs pages) (hwords : WordsOk a.doc.objs pages)
    (honce : ∀ g ∈ pages, ∃ v, OnlyKey g.entries b!"Contents" v) : ∃ b, a.build env = .ok b := by
  unfold App.build
  obtain ⟨fonts, nextID, hbf, hstates⟩ := buildFonts_total (env := env) (((env.order 0).fn a.fontMap).map (·.2)) (maxID a.doc.objs) a.fonts (by
    intro i hi
    have hperm0 := ((env.order 0).perm a.fontMap).map (·.2)
    obtain ⟨p, hp1, hp2⟩ := List.mem_map.1 (hperm0.mem_iff.1 hi)
    rw [← hp2]
    exact hinv.fonts.range p hp1) hfonts
  rw [hbf]
  simp only [Res.ok_bind]
  set order1 := List.map (fun x => x.2) ((env.order 1).fn a.fontMap) with ho1
  set order2 := List.map (fun x => x.2) ((env.order 2).fn a.fontMap) with ho2
  set fids := order1.map (fun i => ((fonts[i]?).map (·.fontID)).getD 0) with hfids
  obtain ⟨⟨d, new⟩, hif⟩ := injectFonts_total (σ := env.order) fids h.fonts h.readable (fontsNumbered hnames)
  rw [hif]
  simp only [Res.ok_bind]
  have hfresh := added_fresh hinv hbf hif
  set fontObjs := order2.flatMap (fun i => (((setIndexes order1 new fonts)[i]?).map FontData.objs).getD []) with hfo
  set imgs := numberImgs nextID a.imgs with himgs
  rw [List.append_assoc]
  obtain ⟨m, hm, hi, hroot, hsub, hx2, hw2, hfree, hsplit, hir2, hun2⟩ := flat_one h hif hfresh
  subst hm
  obtain ⟨⟨d3, newX⟩, hii⟩ := injectImgs_total (σ := env.order) (d := { d with objs := d.objs ++ (fontObjs ++ imgs.map (fun i => (⟨i.objID, i.buf⟩ : Obj))) }) (imgs.map (·.objID))
    (by simp only; rw [hroot]; exact hx2) h.catRes h.nodeRes hw2 hun2 (by
      obtain ⟨g, hg, hne⟩ := hsome
      refine ⟨_, List.mem_map_of_mem hg, ?_⟩
      obtain ⟨r, hgr⟩ := Option.ne_none_iff_exists'.1 hne
      rw [(fontPage_some hgr).1]
      simp) (words_fonts h.fonts h.readable h.written hnames hwords)
  obtain ⟨c, n, xs, _, _, _, _, _, _, hroot3, frame3, hfull, htree, hok3⟩ := flat_two h hif hfresh hi hii
  rw [hii]
  simp only [Res.ok_bind]
  obtain ⟨streams, hst⟩ := streamsOf_total (fonts := setIndexes order1 (newCrFonts m fids) fonts) (imgs := nameImgs imgs newX) a.contents (by
    have hs' : (setIndexes order1 (newCrFonts m fids) fonts).map (·.state) = a.fonts.map (·.state) := by rw [setIndexes_states, hstates]
    intro c hcm
    cases c with
    | text c =>
      have hlt := hidx.text c hcm
      have hg := congrArg (fun l => l[c.font]?) hs'
      simp only [List.getElem?_map, List.getElem?_eq_getElem hlt, Option.map_some] at hg
      obtain ⟨f, hf1, hf2⟩ := Option.map_eq_some_iff.1 hg
      have hw := (hfonts _ (List.getElem_mem hlt)).widths
      rw [← hf2] at hw
      obtain ⟨s, hs⟩ := textStream_total hw c f.fontIndex
      simp only [Content.stream, hf1, Res.ofOption, Res.ok_bind, hs]
      exact ⟨_, rfl⟩
    | img c =>
      have hlt := hidx.img c hcm
      have hl : (nameImgs imgs newX).length = a.imgs.length := by rw [nameImgs_length, himgs, (numberImgs_ids nextID a.imgs).1]
      simp only [Content.stream, List.getElem?_eq_getElem (hl ▸ hlt), Res.ofOption, Res.ok_bind]
      exact ⟨_, rfl⟩
    | line w t => exact ⟨_, rfl⟩)
  rw [hst]
  simp only [Res.ok_bind]
  obtain ⟨d', hd'⟩ := injectContent_total (unzip := env.unzip) (d := d3) streams htree (L := L) (by rw [Tree.pages, pagesL_leaves, h.contents]) hok3 h.own (by
    intro x hx
    obtain ⟨⟨ps, v, he, hv, hr⟩, o, ho, hho⟩ := hok3 x hx
    have hxp : x.page ∈ pages.map (·.id) := by rw [← h.contents]; exact List.mem_map_of_mem hx
    obtain ⟨g, hg, hgx⟩ := List.mem_map.1 hxp
    obtain ⟨ps', e1, e2, e3, _⟩ := hfull g hg
    rw [hgx] at e1
    obtain ⟨v', hv'⟩ := honce g hg
    have hps : ps = ps' := by
      have h1 := entriesOf_of he
      rw [entriesOf_of e1] at h1
      simpa using h1.symm
    subst hps
    have honce' : OnlyKey ps b!"Contents" v' := by
      have := e3 b!"Contents" (by decide) (by decide)
      unfold OnlyKey at hv' ⊢
      exact this.trans hv'
    obtain ⟨rs, h1, _⟩ := crawl_one (k := b!"Contents") (r := ⟨none, ps⟩) e1 e2 (by
      intro p hp hk
      right
      have : p ∈ ps.filter (fun p => p.key = b!"Contents") := List.mem_filter.2 ⟨hp, by simpa using hk⟩
      rw [honce'] at this
      simp only [List.mem_singleton] at this
      rw [onlyKey_valueOf honce'] at hv
      cases hv
      refine ⟨x.obj, o, ?_, ho⟩
      rw [this]
      unfold refOf
      rw [hr.2])
    exact ⟨rs, h1⟩)
  rw [hd']
  simp only [Res.ok_bind, hp]
  exact ⟨_, rfl⟩


/-! ### fonts that can be embedded -/

/-- A font whose tables agree with each other and lie inside the file: locations, components and characters name glyphs there are, every table has its
padding, and there are widths. -/
structure Spec.GoodFont (t : Ttf) : Prop where
  loca : LocaOK t
  some : 0 < t.numGlyphs
  parts : ∀ g < t.numGlyphs, ∃ cs, Parts t g cs ∧ ∀ c ∈ cs, c < t.numGlyphs
  cmap : ∀ r g, charToGlyph t r = .ok g → g < t.numGlyphs
  tables : ∀ tag ∈ [b!"cvt ", b!"fpgm", b!"head", b!"hhea", b!"hmtx", b!"maxp", b!"prep"], (t.table tag).offset + ((t.table tag).length + 3) / 4 * 4 ≤ t.fontData.length
  metrics : 0 < t.numberOfHMetrics ∧ t.numberOfHMetrics ≤ t.widths.length
  units : 0 < t.unitsPerEm

theorem GoodFont_widths {t : Ttf} (h : GoodFont t) : WidthsOk t := by
  intro g
  obtain ⟨h1, h2⟩ := h.metrics
  have h3 := h.units
  have key : ∀ i, i < t.widths.length → ∃ w, (do
      let w ← Res.ofOption t.widths[i]?
      if t.unitsPerEm = 1000 then Res.ok w
      else if t.unitsPerEm = 0 then .panic
      else .ok (w * 1000 / t.unitsPerEm)) = Res.ok w := by
    intro i hi
    rw [List.getElem?_eq_getElem hi]
    simp only [Res.ofOption, Res.ok_bind]
    split
    · exact ⟨_, rfl⟩
    · rw [if_neg (by omega)]
      exact ⟨_, rfl⟩
  unfold glyphWidth
  by_cases hg : g ≥ t.numberOfHMetrics
  · rw [if_pos hg, if_neg (by omega)]
    exact key _ (by omega)
  · rw [if_neg hg]
    exact key _ (by omega)

theorem GoodFont_usable {f : FontState} (h : GoodFont f.ttf) (hok : FontOK f.ttf f.chars) : FontUsable f := by
  refine ⟨GoodFont_widths h, ?_⟩
  have hv : ∀ g ∈ f.chars.vals, g < f.ttf.numGlyphs := by
    intro g hg
    obtain ⟨j, hj⟩ := List.mem_iff_getElem?.1 hg
    have hlt := (List.getElem?_eq_some_iff.1 hj).1
    have hk : j < f.chars.keys.length := by rw [hok.len]; exact hlt
    have hz : (f.chars.keys.zip f.chars.vals)[j]? = some (f.chars.keys[j], g) := by
      rw [List.getElem?_zip_eq_some]
      exact ⟨List.getElem?_eq_getElem hk, hj⟩
    exact h.cmap _ _ (hok.glyph _ (List.mem_of_getElem? hz))
  classical
  obtain ⟨parts, hparts⟩ : ∃ parts : Nat → List Nat, ∀ g < f.ttf.numGlyphs, Parts f.ttf g (parts g) ∧ ∀ c ∈ parts g, c < f.ttf.numGlyphs := by
    refine ⟨fun g => if hg : g < f.ttf.numGlyphs then (h.parts g hg).choose else [], fun g hg => ?_⟩
    simp only [dif_pos hg]
    exact (h.parts g hg).choose_spec
  refine C28_made h.loca (parts := parts) hv (fun g hg => (hparts g (hv g hg)).1) (fun g hg => (hparts g (hv g hg)).2) h.some ?_
  intro tag ht h1 h2
  refine h.tables tag ?_
  simp only [fontTags, List.mem_cons, List.not_mem_nil, or_false] at ht ⊢
  tauto

/-! ### saving -/

/-- What `Save` needs of the pages: some page has resources; every page has one /Contents; the fonts have names that end in a number, without an
underscore, and are objects of their own; a list of fonts written in the resources has a font; and resources that are written in the page, without such a
list, are not of exactly three words. -/
structure Spec.CanSave (objs : List Obj) (pages : List FlatPage) : Prop where
  found : ∃ g ∈ pages, g.res ≠ none
  once : ∀ g ∈ pages, ∃ v, OnlyKey g.entries b!"Contents" v
  names : ∀ g ∈ pages, ∀ fs, resourcesOf objs g.id b!"Font" = some fs → ∀ p ∈ fs, NumberedName p.key ∧ ∃ i, refOf p.rawVal = some i
  listed : ∀ g ∈ pages, ∀ r, g.res = some r → ∀ w, valueOf r.entries b!"Font" = some w → Inline w → readProperties w ≠ .ok []
  words : ∀ g ∈ pages, ∀ r, g.res = some r → r.place = none → ∀ v, valueOf g.entries b!"Resources" = some v →
    (∃ w, valueOf r.entries b!"Font" = some w ∧ Inline w) ∨ v.count 32 ≠ 2

theorem canSave_names {objs : List Obj} (h : FlatDoc b!"Font" objs root tree ct node pages) (hc : CanSave objs pages) : FontNamesNumbered objs pages := by
  intro g hg r hgr place fs hf
  obtain ⟨w, hw, hd⟩ := hf
  obtain ⟨t1, _⟩ := resEntries (h.pagesOk g hg) hgr
  exact hc.names g hg fs (resourcesOf_dict (resDict_before h hg hgr) hw (dictOf_at (mem_tidy t1 (valueOf_mem hw)) hd))

theorem canSave_words {objs : List Obj} (h : FlatDoc b!"Font" objs root tree ct node pages) (hr : FontsReadable objs pages) (hc : CanSave objs pages) : WordsOk objs pages := by
  intro g hg r v hgr hp hv
  obtain ⟨t1, _⟩ := resEntries (h.pagesOk g hg) hgr
  have hw := hc.words g hg r hgr hp v hv
  rcases hr g hg r hgr with hn | ⟨place, fs, hf⟩
  · right; left
    refine ⟨?_, hn⟩
    rcases hw with ⟨w, e, _⟩ | hw
    · rw [hn] at e; simp at e
    · exact hw
  · obtain ⟨w, e, hd⟩ := id hf
    cases place with
    | none =>
      left
      refine ⟨fs, hf, fun e' => hc.listed g hg r hgr w e hd.2.1 (by rw [hd.2.2, e'])⟩
    | some i =>
      right; right
      refine ⟨?_, i, fs, hf⟩
      rcases hw with ⟨w', e', hi⟩ | hw
      · rw [e] at e'
        simp only [Option.some.injEq] at e'
        subst e'
        exact absurd hi (ref_type (mem_tidy t1 (valueOf_mem e)) hd.2.1).2.1
      · exact hw

/-- **C76**.  After any calls, `Save` writes a file, if no protection is set, the page tree of the document is flat, the document meets `CanSave` and the
added fonts are good fonts.  Missing: other page trees, and documents with protection (`C76_protected_partial`). -/
theorem C76_saved_partial {env env' : Env} {raw : Bytes} {a0 : App} (ho : Opened env raw a0) (calls : List (Env × Call)) (hp : (Run a0 calls).protection = none)
    (hfonts : ∀ f ∈ (Run a0 calls).fonts, GoodFont f.state.ttf)
    (h : SaveDoc env'.unzip (Run a0 calls).doc.objs (Run a0 calls).doc.rootObjID tree ct node pages L) (hc : CanSave (Run a0 calls).doc.objs pages) :
    ∃ out, ((Run a0 calls).saveTo env').2 = .ok out := by
  have hheld := (FontsHeld.opened ho).1.run calls
  obtain ⟨b, hb⟩ := build_total (NumInv.run calls ho.inv) (IdxInv.run calls ho.idx) (fun f hf => GoodFont_usable (hfonts f hf) (hheld.chars f hf)) hp h hc.found
    (canSave_names h.fonts hc) (canSave_words h.fonts h.readable hc) hc.once
  exact ⟨_, saveTo_eq hb⟩

/-- **C76** (with protection).  If protection is set, `Save` writes a file exactly if every object it would write without protection can be encrypted (an
object with the word "stream" has the word "endstream" after it); otherwise it crashes. -/
theorem C76_protected_partial {env env' : Env} {raw : Bytes} {a0 : App} (ho : Opened env raw a0) (calls : List (Env × Call)) (hmd5 : ∀ c ∈ calls, ∀ x, (c.1.md5 x).length = 16)
    (hmd5' : ∀ x, (env'.md5 x).length = 16) {p : Protection} (hp : (Run a0 calls).protection = some p)
    (hfonts : ∀ f ∈ (Run a0 calls).fonts, GoodFont f.state.ttf)
    (h : SaveDoc env'.unzip (Run a0 calls).doc.objs (Run a0 calls).doc.rootObjID tree ct node pages L) (hc : CanSave (Run a0 calls).doc.objs pages) :
    ∃ objs last out0, Saves env' (Run a0 calls).unprotected objs last out0 ∧ ((∀ o ∈ objs, Protectable o.data) → ∃ out, ((Run a0 calls).saveTo env').2 = .ok out) ∧
      ((∃ o ∈ objs, ¬ Protectable o.data) → ((Run a0 calls).saveTo env').2 = .panic) := by
  have hheld := (FontsHeld.opened ho).1.run calls
  have h0 : KeyFive a0 := by
    have h1 := ho.1
    unfold App.openFrom at h1
    simp only at h1
    split at h1
    · simp only [Step.mk.injEq] at h1
      rw [← h1.1]
      unfold App.showCellBorder
      intro p hp
      simp at hp
    all_goals simp at h1
  have hk := KeyFive.run calls h0 hmd5
  have hidx := IdxInv.run calls ho.idx
  have hnum := NumInv.run calls ho.inv
  generalize Run a0 calls = a at *
  obtain ⟨b, hb⟩ := build_total (a := a.unprotected) (hnum.of_eq rfl rfl rfl) (hidx.grow (Nat.le_refl _) (Nat.le_refl _) rfl rfl)
    (fun f hf => GoodFont_usable (hfonts f hf) (hheld.chars f hf)) rfl h hc.found
    (canSave_names h.fonts hc) (canSave_words h.fonts h.readable hc) hc.once
  obtain ⟨_, h2, h3, _⟩ := C68_protection hmd5' a hp (hk p hp)
  refine ⟨b.doc.objs, _, _, ⟨b, hb, rfl, rfl, saveTo_eq hb⟩, fun hall => ?_, fun hex => ?_⟩
  · obtain ⟨b', hb'⟩ := h2 b hb hall
    exact ⟨_, saveTo_eq hb'⟩
  · unfold App.saveTo
    rw [h3 b hb hex]

/-! ### examples -/

/-- the file is opened and an image is inserted on page 2 -/
def imgCalls : List (Env × Call) := [(plainEnv, .img b!"x" 2 5 6 7 8)]

set_option maxRecDepth 20000 in
theorem imgCalls_facts : (App.openFrom plainEnv {} (fileOf imgSample)).res = .ok () ∧ (openedApp (fileOf imgSample)).doc.objs = opened imgSample ∧
    ((openedApp (fileOf imgSample)).doc.objs.map Obj.objID).Nodup ∧ (∀ o ∈ (openedApp (fileOf imgSample)).doc.objs, 1 ≤ o.objID) ∧
    (Run (openedApp (fileOf imgSample)) imgCalls).doc.objs = opened imgSample ∧ (Run (openedApp (fileOf imgSample)) imgCalls).doc.rootObjID = 1 ∧
    (Run (openedApp (fileOf imgSample)) imgCalls).protection = none ∧ (Run (openedApp (fileOf imgSample)) imgCalls).fonts.length = 0 ∧
    (Run (openedApp (fileOf imgSample)) imgCalls).imgs.length = 1 := by decide +kernel

/-- the names of the fonts on a page, and whether they are objects -/
def fontNames (objs : List Obj) (i : Int) : List (Bytes × Bool) := ((resourcesOf objs i b!"Font").getD []).map (fun p => (p.key, (refOf p.rawVal).isSome))

set_option maxRecDepth 20000 in
theorem imgSample_canSave : CanSave (opened imgSample) imgPages := by
  have hf : fontNames (opened imgSample) 3 = [(b!"F1", true), (b!"G7", true)] ∧ fontNames (opened imgSample) 5 = [(b!"F3", true)] := by decide +kernel
  have hw : (openEntries imgSample 5).filter (fun p => decide (p.key = b!"Contents")) = [⟨b!"Contents", b!"6 0 R"⟩] ∧
      (openEntries imgSample 3).filter (fun p => decide (p.key = b!"Contents")) = [⟨b!"Contents", b!"4 0 R"⟩] ∧
      ((valueOf (openEntries imgSample 5) b!"Resources").getD []).count 32 ≠ 2 := by decide +kernel
  refine ⟨⟨_, List.mem_cons_self, by decide⟩, ?_, ?_, ?_, ?_⟩
  · intro g hg
    simp only [imgPages, List.mem_cons, List.not_mem_nil, or_false] at hg
    rcases hg with rfl | rfl
    · exact ⟨_, hw.2.1⟩
    · exact ⟨_, hw.1⟩
  · intro g hg fs hfs p hp
    have key : ∀ l, fontNames (opened imgSample) g.id = l → (p.key, (refOf p.rawVal).isSome) ∈ l := by
      intro l hl
      rw [← hl]
      unfold fontNames
      rw [hfs]
      exact List.mem_map_of_mem (f := fun p : PropD => (p.key, (refOf p.rawVal).isSome)) hp
    have fin : ∀ a n, p.key = a ++ natDigits n → n < 2 ^ 63 → (∀ c ∈ a, isDigit c = false ∧ c ≠ 95) → (refOf p.rawVal).isSome = true → NumberedName p.key ∧ ∃ i, refOf p.rawVal = some i :=
      fun a n h1 h2 h3 h4 => ⟨⟨a, n, h1, h2, h3⟩, Option.isSome_iff_exists.1 h4⟩
    simp only [imgPages, List.mem_cons, List.not_mem_nil, or_false] at hg
    rcases hg with rfl | rfl
    · have := key _ hf.1
      simp only [List.mem_cons, List.not_mem_nil, or_false, Prod.mk.injEq] at this
      rcases this with ⟨h1, h2⟩ | ⟨h1, h2⟩
      · exact fin b!"F" 1 (by rw [h1]; rfl) (by decide) (by decide) h2
      · exact fin b!"G" 7 (by rw [h1]; rfl) (by decide) (by decide) h2
    · have := key _ hf.2
      simp only [List.mem_cons, List.not_mem_nil, or_false, Prod.mk.injEq] at this
      exact fin b!"F" 3 (by rw [this.1]; rfl) (by decide) (by decide) this.2
  · intro g hg r hr w hw hi e
    simp only [imgPages, List.mem_cons, List.not_mem_nil, or_false] at hg
    rcases hg with rfl | rfl
    · simp only [Option.some.injEq] at hr
      subst hr
      have : w = b!"<</F1 8 0 R/G7 8 0 R>>" := by
        have : some w = some b!"<</F1 8 0 R/G7 8 0 R>>" := by rw [← hw]; decide
        simpa using this
      subst this
      revert e
      decide +kernel
    · simp only [Option.some.injEq] at hr
      subst hr
      have : w = b!"7 0 R" := by
        have : some w = some b!"7 0 R" := by rw [← hw]; decide
        simpa using this
      subst this
      revert hi
      decide
  · intro g hg r hr hp v hv
    simp only [imgPages, List.mem_cons, List.not_mem_nil, or_false] at hg
    rcases hg with rfl | rfl
    · left
      simp only [Option.some.injEq] at hr
      subst hr
      exact ⟨b!"<</F1 8 0 R/G7 8 0 R>>", by decide, by decide⟩
    · right
      have := hw.2.2
      rw [show valueOf (openEntries imgSample 5) b!"Resources" = some v from hv] at this
      exact this

/-- The hypotheses of `C76_saved_partial` hold for the sample with two pages, after inserting an image. -/
example : Opened plainEnv (fileOf imgSample) (openedApp (fileOf imgSample)) ∧ (Run (openedApp (fileOf imgSample)) imgCalls).protection = none ∧
    (∀ f ∈ (Run (openedApp (fileOf imgSample)) imgCalls).fonts, GoodFont f.state.ttf) ∧
    SaveDoc plainEnv.unzip (Run (openedApp (fileOf imgSample)) imgCalls).doc.objs (Run (openedApp (fileOf imgSample)) imgCalls).doc.rootObjID 2 (openEntries imgSample 1) (openEntries imgSample 2)
      imgPages twoBodies ∧
    CanSave (Run (openedApp (fileOf imgSample)) imgCalls).doc.objs imgPages := by
  obtain ⟨h1, h2, h3, h4, h5, h6, h7, h8, h9⟩ := imgCalls_facts
  refine ⟨⟨?_, h3, h4⟩, h7, ?_, ?_, ?_⟩
  · show App.openFrom plainEnv {} (fileOf imgSample) = ⟨(App.openFrom plainEnv {} (fileOf imgSample)).state, .ok ()⟩
    rw [← h1]
  · rw [List.length_eq_zero_iff.1 h8]
    simp
  · rw [h5, h6]
    exact imgSample_ok
  · rw [h5]
    exact imgSample_canSave

/-- a font of five glyphs is a good font -/
theorem drawFont_good : GoodFont drawFont := by
  refine ⟨⟨by decide, by decide, by decide, by decide, by decide⟩, by decide, ?_, ?_, by decide, by decide, by decide⟩
  · intro g hg
    refine ⟨[], ?_, by simp⟩
    have hg' : g = 0 ∨ g = 1 ∨ g = 2 ∨ g = 3 ∨ g = 4 := by have : g < 5 := hg; omega
    unfold Parts
    rcases hg' with rfl | rfl | rfl | rfl | rfl
    · exact .inr ⟨1, by decide, .inl ⟨by decide, rfl⟩⟩
    · exact .inr ⟨1, by decide, .inl ⟨by decide, rfl⟩⟩
    · exact .inr ⟨1, by decide, .inl ⟨by decide, rfl⟩⟩
    · exact .inr ⟨1, by decide, .inl ⟨by decide, rfl⟩⟩
    · exact .inl ⟨by decide, rfl⟩
  · intro r g h
    show g < 5
    unfold charToGlyph at h
    by_cases h1 : r ≤ 0xFFFF
    · rw [if_pos h1] at h
      simp only [format4, drawFont, findSeg] at h
      by_cases h2 : r ≤ 32
      · simp [h2, Res.ofOption] at h
        split at h <;> simp at h <;> omega
      · by_cases h3 : r ≤ 67
        · simp [h2, h3, Res.ofOption] at h
          split at h <;> simp at h <;> omega
        · simp [h1, h2, h3, Res.ofOption] at h
          split at h <;> simp at h <;> omega
    · rw [if_neg h1] at h
      simp [format12, drawFont] at h

/-! ### documents that cannot be saved -/

/-- a page with these resources -/
def resPage (res : Bytes) : List Obj := [
  ⟨1, b!"<</Type /Catalog /Pages 2 0 R>>"⟩,
  ⟨2, b!"<</Type /Pages /Count 1 /Kids [3 0 R]>>"⟩,
  ⟨3, b!"<</Type /Page /Parent 2 0 R /MediaBox [0 0 595 842] " ++ res ++ b!"/Contents 4 0 R>>"⟩,
  ⟨4, b!"<</Length 5>>\nstream\nq 7 Q\nendstream"⟩,
  ⟨5, b!"<</Type /Font>>"⟩]

/-- the file is opened, but saving it gives an error -/
def openNotSave (raw : Bytes) : Bool :=
  match App.openFrom plainEnv {} raw with
  | ⟨a, .ok _⟩ => match (a.saveTo plainEnv).2 with
    | .err _ => true
    | _ => false
  | _ => false

theorem openNotSave_ok {raw : Bytes} (h : openNotSave raw = true) : ∃ a e, App.openFrom plainEnv {} raw = ⟨a, .ok ()⟩ ∧ (a.saveTo plainEnv).2 = .err e := by
  unfold openNotSave at h
  split at h
  · rename_i a u he
    split at h
    · rename_i e hs
      exact ⟨a, e, he, hs⟩
    · simp at h
  · simp at h

set_option maxRecDepth 20000 in
/-- **C76 is false without the conditions of `CanSave`.**  A document that was just opened cannot be saved if no page has resources, if a font is named
/Helv (the usual name in forms), if a font is named /A_B1, if a font is written in the list of fonts, or if the resources are of three words. -/
theorem C76_refuted : ∀ res ∈ [[], b!"/Resources <</Font <</Helv 5 0 R>>>>", b!"/Resources <</Font <</A_B1 5 0 R>>>>", b!"/Resources <</Font <</F1 <</Type /Font>>>>>>",
    b!"/Resources <</ExtGState <</GS0 <</ca 0.5 /CA 0.5>>>>>>"],
    ∃ a e, App.openFrom plainEnv {} (fileOf (resPage res)) = ⟨a, .ok ()⟩ ∧ (a.saveTo plainEnv).2 = .err e := by
  have : ∀ res ∈ [[], b!"/Resources <</Font <</Helv 5 0 R>>>>", b!"/Resources <</Font <</A_B1 5 0 R>>>>", b!"/Resources <</Font <</F1 <</Type /Font>>>>>>",
    b!"/Resources <</ExtGState <</GS0 <</ca 0.5 /CA 0.5>>>>>>"], openNotSave (fileOf (resPage res)) = true := by decide +kernel
  exact fun res hres => openNotSave_ok (this res hres)

end Verif
