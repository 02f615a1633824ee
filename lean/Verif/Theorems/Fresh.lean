import Verif.Lemmas.App
import Verif.AppSamples
import Verif.Theorems.Xref
/-
C12: object numbers, and C01 to C03 for whole runs of the program.
-/
namespace Verif
open Spec

/-- the calls a program can make after opening a document -/
inductive Call where
  | insert (text : Bytes) (page : Int) (x y w h : ℚ) (align : Nat) (color : Option (Int × Int × Int))
  | insertWrap (text : Bytes) (page : Int) (x y w h : ℚ) (align : Nat) (color : Option (Int × Int × Int)) (br : Option (Bytes → Option (List Bytes)))
  | measure (text : Bytes)
  | img (file : Bytes) (page : Int) (x y w h : ℚ)
  | imgBase64 (text : Bytes) (page : Int) (x y w h : ℚ)
  | imgCached (file : Bytes) (page : Int) (x y w h : ℚ)
  | addFont (name file : Bytes)
  | setFont (name style : Bytes) (size : Int)
  | textrise (name : Bytes) (fn : Nat → Nat → Int → Bytes → Nat → Bytes)
  | kern (name : Bytes) (fn : Nat → Nat → Nat → Nat → Int → Int)
  | border (isShow : Bool)
  | protect (random : Bytes) (perm : BitVec 64) (user owner : Bytes)
  | duplicate (target position : Int)
  | remove (page : Int)
  | removeOthers (page : Int)
  | save

/-- the value after a call, whatever its outcome -/
def App.after (env : Env) (a : App) : Call → App
  | .insert text page x y w h align color => (a.insert env text page x y w h align color).state
  | .insertWrap text page x y w h align color br => (a.insertWrapText env text page x y w h align color br).state
  | .measure text => (a.measureTextWidth env text).1
  | .img file page x y w h => (a.insertImg env file page x y w h).state
  | .imgBase64 text page x y w h => (a.insertImgBase64 env text page x y w h).state
  | .imgCached file page x y w h => (a.insertImgWithCache env file page x y w h).state
  | .addFont name file => (a.addFont name file).state
  | .setFont name style size => (a.setFont env name style size).state
  | .textrise name fn => (a.textriseOverride name fn).state
  | .kern name fn => (a.kernOverride name fn).state
  | .border s => a.showCellBorder s
  | .protect random perm user owner => (a.setProtection env random perm user owner).state
  | .duplicate t p => (a.duplicatePageAfter t p).state
  | .remove k => (a.removePage k).state
  | .removeOthers k => (a.removeOtherPages k).state
  | .save => (a.saveTo env).1

/-- the map of fonts names every font once -/
structure FontsOk (a : App) : Prop where
  nodup : (a.fontMap.map (·.2)).Nodup
  range : ∀ p ∈ a.fontMap, p.2 < a.fonts.length

/-- What calls preserve: the numbers are distinct and positive, and fonts are as they should be. -/
structure NumInv (a : App) : Prop where
  nodup : (idsOf a.doc.objs).Nodup
  pos : ∀ i ∈ idsOf a.doc.objs, 1 ≤ i
  fonts : FontsOk a

theorem idsOf_le_maxID {objs : List Obj} {i : Int} (h : i ∈ idsOf objs) : i ≤ maxID objs := by
  unfold idsOf at h
  obtain ⟨o, ho, rfl⟩ := List.mem_map.1 h
  exact le_maxID ho

/-- storing a new object keeps the numbers distinct and positive -/
theorem putNew_inv {d : Doc} (hn : (idsOf d.objs).Nodup) (hp : ∀ i ∈ idsOf d.objs, 1 ≤ i) (o : Obj) :
    (idsOf (d.putNewObject o).1.objs).Nodup ∧ ∀ i ∈ idsOf (d.putNewObject o).1.objs, 1 ≤ i := by
  have : idsOf (d.putNewObject o).1.objs = idsOf d.objs ++ [maxID d.objs + 1] := by
    simp [Doc.putNewObject, Doc.put, idsOf]
  rw [this]
  constructor
  · rw [List.nodup_append]
    refine ⟨hn, List.nodup_singleton _, ?_⟩
    intro a ha b hb
    simp at hb
    have := idsOf_le_maxID ha
    omega
  · intro i hi
    rw [List.mem_append, List.mem_singleton] at hi
    rcases hi with hi | hi
    · exact hp i hi
    · have := maxID_nonneg d.objs
      omega

theorem setPages_ids {d d' : Doc} {ids : List Int} (h : setPages d ids = .ok d') : idsOf d'.objs = idsOf d.objs := by
  unfold setPages at h
  rw [Res.bind_eq_ok] at h
  obtain ⟨_, _, h⟩ := h
  rw [Res.bind_eq_ok] at h
  obtain ⟨_, _, h⟩ := h
  rw [Res.bind_eq_ok] at h
  obtain ⟨_, _, h⟩ := h
  rw [Res.bind_eq_ok] at h
  obtain ⟨_, _, h⟩ := h
  rw [Res.bind_eq_ok] at h
  obtain ⟨_, _, h⟩ := h
  simp only at h
  rw [Res.bind_eq_ok] at h
  obtain ⟨_, _, h⟩ := h
  rw [Res.bind_eq_ok] at h
  obtain ⟨objs, ho, h⟩ := h
  simp only [Res.ok.injEq] at h
  subst h
  exact setObjData_ids ho

theorem stepOf_ids {d : Doc} {r : Res Doc} (h : ∀ d', r = .ok d' → idsOf d'.objs = idsOf d.objs) : idsOf (stepOf d r).state.objs = idsOf d.objs := by
  unfold stepOf
  split
  · exact h _ rfl
  all_goals rfl

theorem removePage_ids {d d' : Doc} {k : Int} (h : removePage d k = .ok d') : idsOf d'.objs = idsOf d.objs := by
  unfold removePage at h
  rw [Res.bind_eq_ok] at h
  obtain ⟨_, _, h⟩ := h
  split at h
  · cases h
  · split at h
    · cases h
    · exact setPages_ids h

theorem removeOtherPages_ids {d d' : Doc} {k : Int} (h : removeOtherPages d k = .ok d') : idsOf d'.objs = idsOf d.objs := by
  unfold removeOtherPages at h
  rw [Res.bind_eq_ok] at h
  obtain ⟨_, _, h⟩ := h
  split at h
  · cases h
  · split at h
    · cases h
    · rw [Res.bind_eq_ok] at h
      obtain ⟨_, _, h⟩ := h
      exact setPages_ids h

/-- a document edit keeps the invariant if it keeps the numbers distinct and positive -/
theorem NumInv.withDoc {a : App} (h : NumInv a) {d : Doc} (hn : (idsOf d.objs).Nodup) (hp : ∀ i ∈ idsOf d.objs, 1 ≤ i) : NumInv { a with doc := d } :=
  ⟨hn, hp, ⟨h.fonts.nodup, h.fonts.range⟩⟩

theorem NumInv.sameIds {a : App} (h : NumInv a) {d : Doc} (he : idsOf d.objs = idsOf a.doc.objs) : NumInv { a with doc := d } :=
  h.withDoc (by rw [he]; exact h.nodup) (by rw [he]; exact h.pos)

theorem NumInv.duplicate {a : App} (h : NumInv a) (t p : Int) : NumInv (a.duplicatePageAfter t p).state := by
  unfold App.duplicatePageAfter App.withDoc Verif.duplicatePageAfter
  split
  · exact h.sameIds rfl
  · exact h.sameIds rfl
  · exact h.sameIds rfl
  · rename_i ids po props co _
    have key : (idsOf (dupStore a.doc co po props).1.objs).Nodup ∧ ∀ i ∈ idsOf (dupStore a.doc co po props).1.objs, 1 ≤ i := by
      unfold dupStore
      have h1 := putNew_inv h.nodup h.pos co
      exact putNew_inv h1.1 h1.2 _
    simp only
    split
    · exact h.withDoc key.1 key.2
    · refine h.withDoc ?_ ?_
      · rw [stepOf_ids (fun d' hd => setPages_ids hd)]; exact key.1
      · rw [stepOf_ids (fun d' hd => setPages_ids hd)]; exact key.2

theorem NumInv.setFontState {a : App} (h : NumInv a) (i : Nat) (s : FontState) : NumInv (a.setFontState i s) :=
  ⟨h.nodup, h.pos, ⟨h.fonts.nodup, fun p hp => by
    have := h.fonts.range p hp
    simpa [App.setFontState] using this⟩⟩

/-- fields that do not matter -/
theorem NumInv.of_eq {a b : App} (h : NumInv a) (h1 : b.doc = a.doc) (h2 : b.fontMap = a.fontMap) (h3 : b.fonts.length = a.fonts.length) : NumInv b :=
  ⟨by rw [h1]; exact h.nodup, by rw [h1]; exact h.pos, ⟨by rw [h2]; exact h.fonts.nodup, by rw [h2, h3]; exact h.fonts.range⟩⟩

theorem NumInv.insert {a : App} (h : NumInv a) (env : Env) (text : Bytes) (page : Int) (x y w hh : ℚ) (align : Nat) (color : Option (Int × Int × Int)) :
    NumInv (a.insert env text page x y w hh align color).state := by
  unfold App.insert
  split
  · split
    · exact h
    · simp only
      apply NumInv.setFontState
      exact h.of_eq rfl rfl rfl
  all_goals exact h

theorem NumInv.measure {a : App} (h : NumInv a) (env : Env) (text : Bytes) : NumInv (a.measureTextWidth env text).1 := by
  unfold App.measureTextWidth
  split
  · exact h
  · simp only
    split
    · exact h.setFontState _ _
    · exact h.setFontState _ _
    · split <;> exact h.setFontState _ _

theorem NumInv.wrapLoop (env : Env) (w step : ℚ) : ∀ (ts : List Bytes) {a : App} (_ : NumInv a) (st : WrapState), NumInv (App.wrapLoop env w step a st ts).1
  | [], a, h, st => by simpa [App.wrapLoop] using h
  | t :: ts, a, h, st => by
    rw [App.wrapLoop]
    split
    · exact NumInv.wrapLoop env w step ts h st
    · have hm := h.measure env (st.curr ++ t)
      generalize hr : a.measureTextWidth env (st.curr ++ t) = r at hm ⊢
      obtain ⟨a', r⟩ := r
      cases r with
      | ok q =>
        simp only at hm ⊢
        split
        · exact NumInv.wrapLoop env w step ts hm _
        · exact NumInv.wrapLoop env w step ts hm _
      | err e => exact hm
      | panic => exact hm
      | hang => exact hm

theorem NumInv.insertAll (env : Env) (page : Int) (x w hh : ℚ) (align : Nat) (color : Option (Int × Int × Int)) (yo : ℚ) :
    ∀ (ls : List (Bytes × ℚ)) {a : App} (_ : NumInv a), NumInv (App.insertAll env page x w hh align color yo a ls).state
  | [], a, h => by simpa [App.insertAll] using h
  | l :: ls, a, h => by
    rw [App.insertAll]
    have hi := h.insert env l.1 page x (l.2 - yo) w hh align color
    generalize a.insert env l.1 page x (l.2 - yo) w hh align color = r at hi ⊢
    obtain ⟨a', r⟩ := r
    cases r with
    | ok _ => exact NumInv.insertAll env page x w hh align color yo ls hi
    | err e => exact hi
    | panic => exact hi
    | hang => exact hi

theorem NumInv.insertWrap {a : App} (h : NumInv a) (env : Env) (text : Bytes) (page : Int) (x y w hh : ℚ) (align : Nat) (color : Option (Int × Int × Int))
    (br : Option (Bytes → Option (List Bytes))) : NumInv (a.insertWrapText env text page x y w hh align color br).state := by
  unfold App.insertWrapText
  split
  · exact h.insert env _ _ _ _ _ _ _ _
  · split
    · exact h
    · rename_i tokens _
      simp only
      have hl := NumInv.wrapLoop env w (a.fontSize + a.fontSize * (2 / 10)) tokens h { lines := [], y := y, prev := [], curr := [] }
      generalize App.wrapLoop env w (a.fontSize + a.fontSize * (2 / 10)) a { lines := [], y := y, prev := [], curr := [] } tokens = r at hl ⊢
      obtain ⟨a', r⟩ := r
      cases r with
      | ok st => exact NumInv.insertAll env page x w hh align color _ _ hl
      | err e => exact hl
      | panic => exact hl
      | hang => exact hl

theorem NumInv.makeImg {a a' : App} (h : NumInv a) {env : Env} {file : Bytes} {i : ImageData} (hm : a.makeImg env file = .ok (a', i)) : NumInv a' := by
  unfold App.makeImg at hm
  rw [Res.bind_eq_ok] at hm
  obtain ⟨info, _, hm⟩ := hm
  split at hm
  · simp only [Res.ok.injEq, Prod.mk.injEq] at hm
    rw [← hm.1]; exact h
  · simp only [Res.ok.injEq, Prod.mk.injEq] at hm
    rw [← hm.1]
    exact h.withDoc (putNew_inv h.nodup h.pos _).1 (putNew_inv h.nodup h.pos _).2

theorem NumInv.addImgContent {a : App} (h : NumInv a) (env : Env) (img : Nat) (page : Int) (x y w hh : ℚ) :
    NumInv (a.addImgContent env img page x y w hh).state := by
  unfold App.addImgContent
  split
  · exact h.of_eq rfl rfl rfl
  all_goals exact h

theorem NumInv.insertImg {a : App} (h : NumInv a) (env : Env) (file : Bytes) (page : Int) (x y w hh : ℚ) : NumInv (a.insertImg env file page x y w hh).state := by
  unfold App.insertImg
  split
  · rename_i a' i hm
    apply NumInv.addImgContent
    exact (h.makeImg hm).of_eq rfl rfl rfl
  all_goals exact h

theorem NumInv.insertImgWithCache {a : App} (h : NumInv a) (env : Env) (file : Bytes) (page : Int) (x y w hh : ℚ) :
    NumInv (a.insertImgWithCache env file page x y w hh).state := by
  unfold App.insertImgWithCache
  split
  · exact h.addImgContent _ _ _ _ _ _ _
  · split
    · rename_i a' i hm
      apply NumInv.addImgContent
      exact (h.makeImg hm).of_eq rfl rfl rfl
    all_goals exact h

theorem NumInv.addFont {a : App} (h : NumInv a) (name file : Bytes) : NumInv (a.addFont name file).state := by
  unfold App.addFont
  split
  · exact h
  · split
    · refine ⟨h.nodup, h.pos, ⟨?_, ?_⟩⟩
      · simp only [List.map_append, List.map_cons, List.map_nil]
        rw [List.nodup_append]
        refine ⟨h.fonts.nodup, List.nodup_singleton _, ?_⟩
        intro x hx y hy
        obtain ⟨p, hp, rfl⟩ := List.mem_map.1 hx
        have := h.fonts.range p hp
        simp at hy
        omega
      · intro p hp
        simp only [List.length_append, List.length_cons, List.length_nil]
        rcases List.mem_append.1 hp with hp | hp
        · have := h.fonts.range p hp; omega
        · simp at hp; rw [hp]; simp
    all_goals exact h

/-! ### building -/

theorem fontObjs_ids {fonts : List FontData} {id : Int} {order0 : List Nat}
    (hf : ∀ (j i : Nat), order0[j]? = some i → ∃ f, fonts[i]? = some f ∧ f.fontID = id + 6 * j + 2) :
    ∀ (ps : List Nat), (∀ i ∈ ps, i ∈ order0) → idsOf (ps.flatMap (fun i => ((fonts[i]?).map FontData.objs).getD [])) =
      (ps.map (fun i => order0.idxOf i)).flatMap (fun (j : Nat) => fontBlock (id + 6 * j + 2))
  | [], _ => rfl
  | i :: t, h => by
    rw [List.flatMap_cons, idsOf_append, List.map_cons, List.flatMap_cons, fontObjs_ids hf t (fun x hx => h x (List.mem_cons_of_mem _ hx))]
    congr 1
    obtain ⟨f, h1, h2⟩ := hf (order0.idxOf i) i (List.getElem?_idxOf (h i List.mem_cons_self))
    rw [h1, ← h2]
    rfl

theorem nodup_map_idxOf {l ps : List Nat} (hn : ps.Nodup) (h : ∀ i ∈ ps, i ∈ l) : (ps.map (fun i => l.idxOf i)).Nodup := by
  refine hn.map_on ?_
  intro x hx y hy e
  have h1 := List.getElem?_idxOf (h x hx)
  have h2 := List.getElem?_idxOf (h y hy)
  rw [e, h2] at h1
  simpa using h1.symm

theorem getElem?_ids {l l' : List FontData} (h : l'.map (·.fontID) = l.map (·.fontID)) {i : Nat} {f : FontData} (hf : l[i]? = some f) :
    ∃ f', l'[i]? = some f' ∧ f'.fontID = f.fontID := by
  have : (l'.map (·.fontID))[i]? = (l.map (·.fontID))[i]? := by rw [h]
  rw [List.getElem?_map, List.getElem?_map, hf] at this
  cases hl : l'[i]? with
  | none => rw [hl] at this; simp at this
  | some f' => rw [hl] at this; simp at this; exact ⟨f', rfl, this⟩

theorem nameImgs_length : ∀ (l : List ImageData) (cs : List CrXObj), (nameImgs l cs).length = l.length
  | [], cs => by cases cs <;> rfl
  | i :: is, [] => rfl
  | i :: is, c :: cs => by simp [nameImgs, nameImgs_length is cs]

/-- The objects of a saved document: those of the opened one, in order, followed by new ones whose numbers are distinct and follow the largest number in use. -/
theorem build_numbers {env : Env} {a : App} {b : Built} (hinv : NumInv a) (h : a.build env = .ok b) :
    (∃ new, idsOf b.doc.objs = idsOf a.doc.objs ++ new ∧ new.Nodup ∧ ∀ i ∈ new, maxID a.doc.objs < i ∧ i ≤ b.lastID) ∧ maxID a.doc.objs ≤ b.lastID ∧
      b.doc.rootObjID = a.doc.rootObjID ∧ NumInv b.app := by
  unfold App.build at h
  rw [Res.bind_eq_ok] at h
  obtain ⟨⟨fonts, nextID⟩, hbf, h⟩ := h
  simp only at h
  rw [Res.bind_eq_ok] at h
  obtain ⟨⟨d, new⟩, hif, h⟩ := h
  simp only at h
  rw [Res.bind_eq_ok] at h
  obtain ⟨⟨pdf2, xs⟩, hii, h⟩ := h
  simp only at h
  rw [Res.bind_eq_ok] at h
  obtain ⟨streams, hst, h⟩ := h
  rw [Res.bind_eq_ok] at h
  obtain ⟨pdf3, hic, h⟩ := h
  rw [Res.bind_eq_ok] at h
  obtain ⟨objs, hen, h⟩ := h
  simp only [Res.ok.injEq] at h
  have hperm0 := ((env.order 0).perm a.fontMap).map (·.2)
  have hperm2 := ((env.order 2).perm a.fontMap).map (·.2)
  have hn0 := hperm0.nodup_iff.2 hinv.fonts.nodup
  have hn2 := hperm2.nodup_iff.2 hinv.fonts.nodup
  obtain ⟨hlen, hlast, hrest, hspec⟩ := buildFonts_spec _ _ _ _ _ hbf hn0
  have hf1 := injectFonts_frame hif
  have hf2 := injectImgs_frame hii
  have hf3 := injectContent_frame hic
  have hobjs : idsOf objs = idsOf pdf3.objs := by
    cases hp : a.protection with
    | none => rw [hp] at hen; simp only [Res.ok.injEq] at hen; rw [hen]
    | some p => rw [hp] at hen; exact encryptObjs_ids hen
  set order0 := List.map (fun x => x.2) ((env.order 0).fn a.fontMap) with ho0
  set order1 := List.map (fun x => x.2) ((env.order 1).fn a.fontMap) with ho1
  set order2 := List.map (fun x => x.2) ((env.order 2).fn a.fontMap) with ho2
  set fonts' := setIndexes order1 new fonts with hfonts'
  have hidseq : fonts'.map (·.fontID) = fonts.map (·.fontID) := setIndexes_ids _ _ _
  have hspec' : ∀ (j i : Nat), order0[j]? = some i → ∃ f, fonts'[i]? = some f ∧ f.fontID = maxID a.doc.objs + 6 * j + 2 := by
    intro j i hj
    obtain ⟨f, h1, h2⟩ := hspec j i hj
    obtain ⟨f', h3, h4⟩ := getElem?_ids hidseq h1
    exact ⟨f', h3, by rw [h4, h2]⟩
  have hsub : ∀ i ∈ order2, i ∈ order0 := by
    intro i hi
    exact hperm0.mem_iff.2 (hperm2.mem_iff.1 hi)
  have hfo := fontObjs_ids hspec' order2 hsub
  have hlen' : fonts'.length = a.fonts.length := by
    have := congrArg List.length hidseq
    simp only [List.length_map] at this
    rw [this, hlen]
  have hl0 : order0.length = a.fontMap.length := by rw [hperm0.length_eq, List.length_map]
  have himgs : idsOf ((numberImgs nextID a.imgs).map (fun i => (⟨i.objID, i.buf⟩ : Obj))) = (numberImgs nextID a.imgs).map (·.objID) := by
    unfold idsOf; rw [List.map_map]; rfl
  have hidx : ∀ i ∈ order2, order0.idxOf i < order0.length := fun i hi => List.idxOf_lt_length_of_mem (hsub i hi)
  have hnew : ∀ x ∈ ((order2.map (fun i => order0.idxOf i)).flatMap (fun (j : Nat) => fontBlock (maxID a.doc.objs + 6 * j + 2))),
      maxID a.doc.objs < x ∧ x ≤ nextID := by
    intro x hx
    obtain ⟨j, hj, hx⟩ := List.mem_flatMap.1 hx
    obtain ⟨i, hi, rfl⟩ := List.mem_map.1 hj
    have := hidx i hi
    simp only [fontBlock, List.mem_cons, List.not_mem_nil, or_false] at hx
    omega
  have himg : ∀ x ∈ (numberImgs nextID a.imgs).map (·.objID), nextID < x ∧ x ≤ nextID + (numberImgs nextID a.imgs).length := by
    intro x hx
    obtain ⟨i, hi, rfl⟩ := List.mem_map.1 hx
    obtain ⟨j, hj⟩ := List.mem_iff_getElem?.1 hi
    have h1 := (numberImgs_ids nextID a.imgs).2 j i hj
    have h2 := lt_length_of_getElem? hj
    omega
  subst h
  have hids : idsOf objs = idsOf a.doc.objs ++ (((order2.map (fun i => order0.idxOf i)).flatMap (fun (j : Nat) => fontBlock (maxID a.doc.objs + 6 * j + 2))) ++
      (numberImgs nextID a.imgs).map (·.objID)) := by
    rw [hobjs, hf3.1, hf2.1]
    simp only
    rw [idsOf_append, idsOf_append, hfo, himgs, hf1.1, List.append_assoc]
  refine ⟨⟨_, hids, ?_, ?_⟩, ?_, ?_, ?_⟩
  · rw [List.nodup_append]
    refine ⟨fontBlocks_nodup _ (nodup_map_idxOf hn2 hsub), numberImgs_nodup _ _, ?_⟩
    intro x hx y hy e
    have h1 := hnew x hx
    have h2 := himg y hy
    omega
  · intro i hi
    rcases List.mem_append.1 hi with hi | hi
    · have := hnew i hi
      constructor
      · exact this.1
      · have : nextID ≤ nextID + ((numberImgs nextID a.imgs).length : Int) := by omega
        simp only
        omega
    · have := himg i hi
      simp only
      omega
  · simp only
    omega
  · rw [hf3.2.1, hf2.2.1]
    simp only
    rw [hf1.2.1]
  · have hdoc : idsOf (if (env.realloc && !((order2.flatMap (fun i => ((fonts'[i]?).map FontData.objs).getD [])).isEmpty && (numberImgs nextID a.imgs).isEmpty)) = true
        then d else { d with objs := objs.take d.objs.length }).objs = idsOf a.doc.objs := by
      split
      · exact hf1.1
      · have h1 : idsOf (objs.take d.objs.length) = (idsOf objs).take d.objs.length := List.map_take
        simp only
        rw [h1, hids]
        have h2 : d.objs.length = (idsOf a.doc.objs).length := by rw [← hf1.1]; simp [idsOf]
        rw [h2, List.take_left]
    refine NumInv.mk ?_ ?_ ⟨hinv.fonts.nodup, fun p hp => ?_⟩
    · rw [hdoc]; exact hinv.nodup
    · rw [hdoc]; exact hinv.pos
    · simp only
      rw [hlen']
      exact hinv.fonts.range p hp

theorem NumInv.save {a : App} (h : NumInv a) (env : Env) : NumInv (a.saveTo env).1 := by
  unfold App.saveTo
  split
  · rename_i b hb
    exact (build_numbers h hb).2.2.2
  all_goals exact h

/-- Every call keeps the numbers of the objects distinct and positive. -/
theorem NumInv.after {a : App} (h : NumInv a) (env : Env) (c : Call) : NumInv (a.after env c) := by
  cases c with
  | insert => exact h.insert env _ _ _ _ _ _ _ _
  | insertWrap => exact h.insertWrap env _ _ _ _ _ _ _ _ _
  | measure => exact h.measure env _
  | img => exact h.insertImg env _ _ _ _ _ _
  | imgBase64 text page x y w hh =>
    show NumInv (a.insertImgBase64 env text page x y w hh).state
    unfold App.insertImgBase64
    split
    · exact h
    · exact h.insertImg env _ _ _ _ _ _
  | imgCached => exact h.insertImgWithCache env _ _ _ _ _ _
  | addFont => exact h.addFont _ _
  | setFont name style size =>
    show NumInv (a.setFont env name style size).state
    unfold App.setFont
    split
    · exact h.of_eq rfl rfl rfl
    · exact h
  | textrise name fn =>
    show NumInv (a.textriseOverride name fn).state
    unfold App.textriseOverride
    split
    · exact h
    · exact h.setFontState _ _
  | kern name fn =>
    show NumInv (a.kernOverride name fn).state
    unfold App.kernOverride
    split
    · exact h
    · exact h.setFontState _ _
  | border s =>
    show NumInv (a.showCellBorder s)
    unfold App.showCellBorder
    split <;> exact h.of_eq rfl rfl rfl
  | protect r p u o =>
    show NumInv (a.setProtection env r p u o).state
    unfold App.setProtection
    split
    · exact h.of_eq rfl rfl rfl
    all_goals exact h
  | duplicate t p => exact h.duplicate t p
  | remove k =>
    show NumInv (a.removePage k).state
    unfold App.removePage App.withDoc
    exact h.sameIds (stepOf_ids (fun d' hd => removePage_ids hd))
  | removeOthers k =>
    show NumInv (a.removeOtherPages k).state
    unfold App.removeOtherPages App.withDoc
    exact h.sameIds (stepOf_ids (fun d' hd => removeOtherPages_ids hd))
  | save => exact h.save env

/-- the value after these calls; every call sees its own environment (map orders, random numbers) -/
def Spec.Run (a : App) (calls : List (Env × Call)) : App := calls.foldl (fun a c => a.after c.1 c.2) a

theorem NumInv.run : ∀ (calls : List (Env × Call)) {a : App}, NumInv a → NumInv (Run a calls)
  | [], a, h => h
  | c :: t, a, h => NumInv.run t (h.after c.1 c.2)

/-- a fresh value has opened this file, whose objects have distinct, positive numbers -/
def Spec.Opened (env : Env) (raw : Bytes) (a : App) : Prop :=
  App.openFrom env {} raw = ⟨a, .ok ()⟩ ∧ (a.doc.objs.map Obj.objID).Nodup ∧ ∀ o ∈ a.doc.objs, 1 ≤ o.objID

theorem Spec.Opened.inv {env : Env} {raw : Bytes} {a : App} (h : Opened env raw a) : NumInv a := by
  obtain ⟨h1, h2, h3⟩ := h
  have hf : a.fontMap = [] := by
    unfold App.openFrom at h1
    simp only at h1
    split at h1
    · simp only [Step.mk.injEq] at h1
      rw [← h1.1]; rfl
    all_goals simp at h1
  refine ⟨h2, ?_, ⟨by rw [hf]; simp, by rw [hf]; simp⟩⟩
  intro i hi
  obtain ⟨o, ho, rfl⟩ := List.mem_map.1 hi
  exact h3 o ho

/-- the objects written by `Save` (with the encryption dictionary) and the last number -/
def Spec.Saves (env : Env) (a : App) (objs : List Obj) (last : Nat) (out : Bytes) : Prop :=
  ∃ b, a.build env = .ok b ∧ objs = writtenObjs b.doc.objs b.lastID.toNat (a.protection.map encBuild) ∧
    last = tableTop b.lastID.toNat (a.protection.map encBuild) ∧ (a.saveTo env).2 = .ok out

theorem build_range {env : Env} {a : App} {b : Built} (hinv : NumInv a) (hb : a.build env = .ok b) :
    (b.doc.objs.map Obj.objID).Nodup ∧ ∀ o ∈ b.doc.objs, 1 ≤ o.objID ∧ o.objID ≤ (b.lastID.toNat : Int) := by
  obtain ⟨⟨new, hids, hnn, hnr⟩, hmax, _, _⟩ := build_numbers hinv hb
  have hm0 := maxID_nonneg a.doc.objs
  have hdoc : (b.doc.objs.map Obj.objID).Nodup := by
    show (idsOf b.doc.objs).Nodup
    rw [hids, List.nodup_append]
    refine ⟨hinv.nodup, hnn, ?_⟩
    intro x hx y hy e
    have := idsOf_le_maxID hx
    have := (hnr y hy).1
    omega
  have hrange : ∀ o ∈ b.doc.objs, 1 ≤ o.objID ∧ o.objID ≤ (b.lastID.toNat : Int) := by
    intro o ho
    have : o.objID ∈ idsOf b.doc.objs := List.mem_map.2 ⟨o, ho, rfl⟩
    rw [hids] at this
    rcases List.mem_append.1 this with h | h
    · have h1 := idsOf_le_maxID h
      have h2 := hinv.pos _ h
      omega
    · have := hnr _ h
      omega
  exact ⟨hdoc, hrange⟩

/-- C12: after any calls, the objects written by `Save` have distinct numbers from 1 to `last`; those of the document come first, and every added one has
a number larger than all of them. -/
theorem C12_fresh_numbers {env env' : Env} {raw : Bytes} {a0 : App} (ho : Opened env raw a0) (calls : List (Env × Call)) {objs : List Obj} {last : Nat}
    {out : Bytes} (hs : Saves env' (Run a0 calls) objs last out) :
    (objs.map Obj.objID).Nodup ∧ (∀ o ∈ objs, 1 ≤ o.objID ∧ o.objID ≤ last) ∧
      ∃ new, objs.map Obj.objID = (Run a0 calls).doc.objs.map Obj.objID ++ new ∧ ∀ i ∈ new, ∀ o ∈ (Run a0 calls).doc.objs, o.objID < i := by
  obtain ⟨b, hb, rfl, rfl, _⟩ := hs
  have hinv := NumInv.run calls ho.inv
  generalize Run a0 calls = a at hb hinv ⊢
  obtain ⟨⟨new, hids, hnn, hnr⟩, hmax, _, _⟩ := build_numbers hinv hb
  have hm0 := maxID_nonneg a.doc.objs
  obtain ⟨hdoc, hrange⟩ := build_range hinv hb
  cases hp : a.protection with
  | none =>
    simp only [Option.map_none, writtenObjs, tableTop]
    refine ⟨hdoc, hrange, new, hids, ?_⟩
    intro i hi o ho
    have := (hnr i hi).1
    have := le_maxID ho
    omega
  | some p =>
    simp only [Option.map_some, writtenObjs, tableTop]
    refine ⟨?_, ?_, new ++ [((b.lastID.toNat + 1 : Nat) : Int)], ?_, ?_⟩
    · rw [List.map_append, List.nodup_append]
      refine ⟨hdoc, by simp, ?_⟩
      intro x hx y hy e
      obtain ⟨o, ho, rfl⟩ := List.mem_map.1 hx
      have := (hrange o ho).2
      simp at hy
      omega
    · intro o ho
      rcases List.mem_append.1 ho with ho | ho
      · have := hrange o ho
        push_cast; omega
      · simp at ho
        rw [ho]; push_cast
        omega
    · have : b.doc.objs.map Obj.objID = a.doc.objs.map Obj.objID ++ new := hids
      rw [List.map_append, this, List.append_assoc]; rfl
    · intro i hi o ho
      have := le_maxID ho
      rcases List.mem_append.1 hi with hi | hi
      · have := (hnr i hi).1
        omega
      · simp at hi
        omega

theorem saveTo_eq {env : Env} {a : App} {b : Built} (hb : a.build env = .ok b) :
    (a.saveTo env).2 = .ok (toStream b.doc.objs b.doc.rootObjID b.lastID.toNat (a.protection.map encBuild)) := by
  unfold App.saveTo
  rw [hb]

/-- C01 for whole runs: in the file written by `Save` after any calls, the cross-reference table names exactly the written objects, and every row
points at its object. -/
theorem C01_saved {env env' : Env} {raw : Bytes} {a0 : App} (ho : Opened env raw a0) (calls : List (Env × Call)) {objs : List Obj} {last : Nat}
    {out : Bytes} (hs : Saves env' (Run a0 calls) objs last out) (hlen : out.length < 10 ^ 10) :
    ∃ es rest, Spec.readTable out = some (es, rest) ∧
      (∀ (k : Nat) e, es[k]? = some e → e.inUse = true → ∃ o ∈ objs, o.objID = k ∧ e.gen = 0 ∧ Spec.ObjectAt out e.offset k (trimSpace o.data)) ∧
      (∀ o ∈ objs, ∃ (k : Nat) (e : Spec.Entry), o.objID = k ∧ es[k]? = some e ∧ e.inUse = true ∧ e.gen = 0 ∧
        Spec.ObjectAt out e.offset k (trimSpace o.data)) := by
  obtain ⟨b, hb, rfl, rfl, hout⟩ := hs
  have hinv := NumInv.run calls ho.inv
  generalize Run a0 calls = a at hb hinv hout ⊢
  obtain ⟨hdoc, hrange⟩ := build_range hinv hb
  rw [saveTo_eq hb] at hout
  simp only [Res.ok.injEq] at hout
  subst hout
  exact C01_xref_points_at_objects _ _ _ _ hrange hdoc hlen

/-- C02 for whole runs: the table has a row for every number up to the largest, and its free rows form one list. -/
theorem C02_saved {env : Env} (a : App) {objs : List Obj} {last : Nat} {out : Bytes} (hs : Saves env a objs last out) (hlen : out.length < 10 ^ 10) :
    ∃ es rest, Spec.readTable out = some (es, rest) ∧ es.length = last + 1 ∧ Spec.FreeListOk es := by
  obtain ⟨b, hb, rfl, rfl, hout⟩ := hs
  rw [saveTo_eq hb] at hout
  simp only [Res.ok.injEq] at hout
  subst hout
  exact C02_xref_table_well_formed _ _ _ _ hlen

/-- C03 for whole runs: `startxref` names the table, and the trailer has the size of the table, the catalog of the opened document and, with protection,
the encryption dictionary. -/
theorem C03_saved {env env' : Env} {raw : Bytes} {a0 : App} (ho : Opened env raw a0) (calls : List (Env × Call)) {objs : List Obj} {last : Nat}
    {out : Bytes} (hs : Saves env' (Run a0 calls) objs last out) (hlen : out.length < 10 ^ 10) (hroot : 0 ≤ (Run a0 calls).doc.rootObjID) :
    ∃ x es rest, Spec.startxref out = some x ∧ b!"\nxref\n" <+: out.drop x ∧ Spec.readTable out = some (es, rest) ∧
      ∃ enc, Spec.TrailerAt rest es.length (Run a0 calls).doc.rootObjID.toNat enc ∧
        (enc = none ↔ (Run a0 calls).protection = none) ∧ ∀ p, (Run a0 calls).protection = some p → ∃ k, enc = some k ∧ (⟨(k : Int), encBuild p⟩ : Obj) ∈ objs := by
  obtain ⟨b, hb, rfl, rfl, hout⟩ := hs
  have hinv := NumInv.run calls ho.inv
  generalize Run a0 calls = a at hb hinv hout hroot ⊢
  obtain ⟨_, _, hr, _⟩ := build_numbers hinv hb
  rw [saveTo_eq hb] at hout
  simp only [Res.ok.injEq] at hout
  have he : b.doc.rootObjID = ((a.doc.rootObjID.toNat : Nat) : Int) := by rw [hr]; omega
  rw [he] at hout
  subst hout
  obtain ⟨x, es, rest, h1, h2, h3, h4, h5⟩ := C03_trailer_agrees b.doc.objs a.doc.rootObjID.toNat b.lastID.toNat (a.protection.map encBuild) hlen
  refine ⟨x, es, rest, h1, h2, h3, _, h4, ?_, ?_⟩
  · cases a.protection <;> simp
  · intro p hp
    refine ⟨b.lastID.toNat + 1, by rw [hp]; rfl, ?_⟩
    exact h5 (encBuild p) (by rw [hp]; rfl)

/-- the file of one page, after opening and inserting an image -/
def oneImg : App := Run (openedApp (fileOf onePage)) [(plainEnv, .img b!"x" 1 0 0 1 1)]

-- the hypotheses hold for that run
example : Opened plainEnv (fileOf onePage) (openedApp (fileOf onePage)) ∧ savedObjs plainEnv oneImg ≠ [] ∧
    (savedObjs plainEnv oneImg).map Obj.objID = [1, 2, 3, 4, 5, 6, 7, 8] := by
  refine ⟨⟨?_, by decide +kernel, by decide +kernel⟩, by decide +kernel, by decide +kernel⟩
  have : (App.openFrom plainEnv {} (fileOf onePage)).res = .ok () := by decide +kernel
  show App.openFrom plainEnv {} (fileOf onePage) = ⟨(App.openFrom plainEnv {} (fileOf onePage)).state, .ok ()⟩
  rw [← this]

end Verif
