import Verif.App
import Verif.Lemmas.PageOps
import Mathlib.Data.List.Nodup
import Mathlib.Data.List.Perm.Basic
/-
Which object numbers editing and saving use.
-/
namespace Verif

/-- the numbers of the objects -/
def idsOf (objs : List Obj) : List Int := objs.map Obj.objID

theorem idsOf_append (a b : List Obj) : idsOf (a ++ b) = idsOf a ++ idsOf b := List.map_append

theorem setObjData_ids {objs objs' : List Obj} {id : Int} {data : Bytes} (h : setObjData objs id data = .ok objs') : idsOf objs' = idsOf objs := by
  unfold setObjData at h
  split at h
  · simp only [Res.ok.injEq] at h
    subst h
    unfold idsOf
    apply List.ext_getElem?
    intro n
    rw [List.getElem?_map, List.getElem?_map, List.getElem?_modify]
    split <;> cases objs[n]? <;> rfl
  · cases h

theorem applyReplaces_ids : ∀ (reps : List (Int × Bytes)) {objs objs' : List Obj}, applyReplaces reps objs = .ok objs' → idsOf objs' = idsOf objs
  | [], objs, objs', h => by simp only [applyReplaces, Res.ok.injEq] at h; rw [h]
  | (id, s) :: t, objs, objs', h => by
    rw [applyReplaces, Res.bind_eq_ok] at h
    obtain ⟨o1, h1, h2⟩ := h
    rw [applyReplaces_ids t h2, setObjData_ids h1]

/-- same numbers, root and page sizes -/
def SameFrame (d d' : Doc) : Prop := idsOf d'.objs = idsOf d.objs ∧ d'.rootObjID = d.rootObjID ∧ d'.pageSizes = d.pageSizes

theorem injectFonts_frame {σ : Nat → Shuffle} {d d' : Doc} {ids : List Int} {new : List CrFont} (h : injectFonts σ d ids = .ok (d', new)) : SameFrame d d' := by
  unfold injectFonts at h
  rw [Res.bind_eq_ok] at h
  obtain ⟨rs, _, h⟩ := h
  rw [Res.bind_eq_ok] at h
  obtain ⟨m, _, h⟩ := h
  simp only at h
  rw [Res.bind_eq_ok] at h
  obtain ⟨reps, _, h⟩ := h
  rw [Res.bind_eq_ok] at h
  obtain ⟨objs, ho, h⟩ := h
  simp only [Res.ok.injEq, Prod.mk.injEq] at h
  obtain ⟨rfl, _⟩ := h
  exact ⟨applyReplaces_ids _ ho, rfl, rfl⟩

theorem injectImgs_frame {σ : Nat → Shuffle} {d d' : Doc} {ids : List Int} {new : List CrXObj} (h : injectImgs σ d ids = .ok (d', new)) : SameFrame d d' := by
  unfold injectImgs at h
  rw [Res.bind_eq_ok] at h
  obtain ⟨rs, _, h⟩ := h
  rw [Res.bind_eq_ok] at h
  obtain ⟨fr, _, h⟩ := h
  cases fr with
  | none => simp at h
  | some p =>
    obtain ⟨emb, fr⟩ := p
    simp only at h
    rw [Res.bind_eq_ok] at h
    obtain ⟨_, _, h⟩ := h
    rw [Res.bind_eq_ok] at h
    obtain ⟨⟨cw, vals⟩, _, h⟩ := h
    simp only at h
    rw [Res.bind_eq_ok] at h
    obtain ⟨reps, _, h⟩ := h
    rw [Res.bind_eq_ok] at h
    obtain ⟨objs, ho, h⟩ := h
    simp only [Res.ok.injEq, Prod.mk.injEq] at h
    obtain ⟨rfl, _⟩ := h
    exact ⟨applyReplaces_ids _ ho, rfl, rfl⟩

theorem injectContent_frame {unzip : Bytes → Option Bytes} {d d' : Doc} {ss : List (Int × Bytes)} (h : injectContent unzip d ss = .ok d') : SameFrame d d' := by
  unfold injectContent at h
  rw [Res.bind_eq_ok] at h
  obtain ⟨ids, _, h⟩ := h
  rw [Res.bind_eq_ok] at h
  obtain ⟨reps, _, h⟩ := h
  rw [Res.bind_eq_ok] at h
  obtain ⟨objs, ho, h⟩ := h
  simp only [Res.ok.injEq] at h
  subst h
  exact ⟨applyReplaces_ids _ ho, rfl, rfl⟩

theorem encryptObjs_ids {env : Env} {key : Bytes} : ∀ {objs objs' : List Obj}, encryptObjs env key objs = .ok objs' → idsOf objs' = idsOf objs
  | [], objs', h => by simp only [encryptObjs, Res.ok.injEq] at h; subst h; rfl
  | o :: t, objs', h => by
    rw [encryptObjs, Res.bind_eq_ok] at h
    obtain ⟨data, _, h⟩ := h
    rw [Res.bind_eq_ok] at h
    obtain ⟨r, hr, h⟩ := h
    simp only [Res.ok.injEq] at h
    subst h
    have := encryptObjs_ids hr
    simp only [idsOf, List.map_cons] at this ⊢
    rw [this]

/-! ### fonts -/

theorem FontData.build_id {env : Env} {f f' : FontData} {s : Int} (h : f.build env s = .ok f') : f'.fontID = s + 1 := by
  unfold FontData.build at h
  rw [Res.bind_eq_ok] at h
  obtain ⟨cid, _, h⟩ := h
  rw [Res.bind_eq_ok] at h
  obtain ⟨dict, _, h⟩ := h
  simp only [Res.ok.injEq] at h
  subst h
  rfl

/-- Building the fonts at `is` gives the `j`-th of them the number `id + 6 j + 2`; the others are not touched. -/
theorem buildFonts_spec {env : Env} : ∀ (is : List Nat) (id : Int) (fs fs' : List FontData) (last : Int), buildFonts env is id fs = .ok (fs', last) → is.Nodup →
    fs'.length = fs.length ∧ last = id + 6 * is.length ∧ (∀ i, i ∉ is → fs'[i]? = fs[i]?) ∧
      ∀ (j i : Nat), is[j]? = some i → ∃ f, fs'[i]? = some f ∧ f.fontID = id + 6 * j + 2
  | [], id, fs, fs', last, h, _ => by
    simp only [buildFonts, Res.ok.injEq, Prod.mk.injEq] at h
    obtain ⟨rfl, rfl⟩ := h
    exact ⟨rfl, by simp, fun _ _ => rfl, fun j i hj => by simp at hj⟩
  | i0 :: t, id, fs, fs', last, h, hn => by
    rw [buildFonts, Res.bind_eq_ok] at h
    obtain ⟨f, hf, h⟩ := h
    rw [Res.bind_eq_ok] at h
    obtain ⟨f', hb, h⟩ := h
    obtain ⟨hni, hnt⟩ := List.nodup_cons.1 hn
    obtain ⟨h1, h2, h3, h4⟩ := buildFonts_spec t _ _ _ _ h hnt
    have hlt : i0 < fs.length := by
      cases hg : fs[i0]? with
      | none => rw [hg] at hf; simp at hf
      | some x => exact (List.getElem?_eq_some_iff.1 hg).1
    refine ⟨by rw [h1, List.length_set], by rw [h2]; simp only [List.length_cons]; push_cast; omega, ?_, ?_⟩
    · intro i hi
      rw [List.mem_cons, not_or] at hi
      rw [h3 i hi.2, List.getElem?_set, if_neg (fun e => hi.1 e.symm)]
    · intro j i hj
      cases j with
      | zero =>
        simp at hj; subst hj
        refine ⟨f', ?_, ?_⟩
        · rw [h3 _ hni, List.getElem?_set_self hlt]
        · rw [FontData.build_id hb]; push_cast; omega
      | succ j =>
        obtain ⟨g, hg, hid⟩ := h4 j i (by simpa using hj)
        exact ⟨g, hg, by rw [hid]; push_cast; omega⟩

theorem setIndexes_ids : ∀ (is : List Nat) (cs : List CrFont) (fs : List FontData), (setIndexes is cs fs).map (·.fontID) = fs.map (·.fontID)
  | [], cs, fs => by cases cs <;> simp [setIndexes]
  | i :: is, [], fs => by simp [setIndexes]
  | i :: is, c :: cs, fs => by
    rw [setIndexes, setIndexes_ids is cs]
    apply List.ext_getElem?
    intro n
    rw [List.getElem?_map, List.getElem?_map, List.getElem?_modify]
    split <;> cases fs[n]? <;> rfl

/-- the five numbers of a font -/
def fontBlock (b : Int) : List Int := [b, b + 1, b + 2, b + 3, b + 4]

theorem FontData.objs_ids (f : FontData) : idsOf f.objs = fontBlock f.fontID := rfl

theorem fontBlocks_nodup {id : Int} : ∀ (js : List Nat), js.Nodup → (js.flatMap (fun (j : Nat) => fontBlock (id + 6 * j + 2))).Nodup := by
  intro js hn
  rw [List.nodup_flatMap]
  constructor
  · intro j _
    simp only [fontBlock, List.nodup_cons, List.mem_cons, List.not_mem_nil, or_false, not_false_eq_true, List.nodup_nil, and_true]
    omega
  · refine hn.imp ?_
    intro a b hab
    simp only [Function.onFun, List.Disjoint, fontBlock, List.mem_cons, List.not_mem_nil, or_false]
    intro x hx hy
    omega

/-! ### images -/

theorem numberImgs_ids (id : Int) : ∀ (l : List ImageData), (numberImgs id l).length = l.length ∧ ∀ (j : Nat) i, (numberImgs id l)[j]? = some i → i.objID = id + j + 1
  | [] => ⟨rfl, fun j i h => by simp [numberImgs] at h⟩
  | x :: t => by
    obtain ⟨h1, h2⟩ := numberImgs_ids (id + 1) t
    refine ⟨by simp [numberImgs, h1], ?_⟩
    intro j i h
    cases j with
    | zero => simp [numberImgs] at h; subst h; simp
    | succ j => rw [h2 j i (by simpa [numberImgs] using h)]; push_cast; omega

theorem numberImgs_nodup (id : Int) (l : List ImageData) : ((numberImgs id l).map (·.objID)).Nodup := by
  rw [List.nodup_iff_getElem?_ne_getElem?]
  intro i j hij hj e
  rw [List.length_map] at hj
  rw [List.getElem?_map, List.getElem?_map] at e
  cases h1 : (numberImgs id l)[i]? with
  | none => rw [List.getElem?_eq_none_iff] at h1; omega
  | some a =>
    cases h2 : (numberImgs id l)[j]? with
    | none => rw [List.getElem?_eq_none_iff] at h2; omega
    | some b =>
      rw [h1, h2] at e
      have ha := (numberImgs_ids id l).2 i a h1
      have hb := (numberImgs_ids id l).2 j b h2
      simp at e
      omega

end Verif
