import Verif.Spec.PageTree
import Verif.Lemmas.ListAux
import Verif.Lemmas.Refs
import Mathlib.Data.Fintype.Card
/-
Object lookup, and the page tree traversal against the specification.
-/
namespace Verif
open Spec

theorem idxsOf_add (id : Int) (objs : List Obj) (n : Nat) : idxsOf id n objs = (idxsOf id 0 objs).map (· + n) := by
  induction objs generalizing n with
  | nil => rfl
  | cons o t ih =>
    simp only [idxsOf]
    rw [ih (n + 1), ih (0 + 1)]
    split <;> simp [Function.comp_def] <;> intros <;> omega

theorem idxsOf_nil_iff {id : Int} {objs : List Obj} (n : Nat) : idxsOf id n objs = [] ↔ objs.filter (fun x => decide (x.objID = id)) = [] := by
  induction objs generalizing n with
  | nil => simp [idxsOf]
  | cons o t ih =>
    rw [idxsOf]
    split
    · rename_i h; simp [h]
    · rename_i h; rw [ih, List.filter_cons_of_neg (by simpa using h)]

theorem idxsOf_single {id : Int} {objs : List Obj} {o : Obj} (h : OnlyObj objs id o) :
    ∃ i, idxsOf id 0 objs = [i] ∧ objs[i]? = some o ∧
      (∀ f, objs.modify i f = objs.map (fun x => if x.objID = id then f x else x)) := by
  unfold OnlyObj at h
  induction objs with
  | nil => simp at h
  | cons x t ih =>
    by_cases hx : x.objID = id
    · rw [List.filter_cons_of_pos (by simpa using hx)] at h
      simp only [List.cons.injEq] at h
      refine ⟨0, ?_, by simp [h.1], ?_⟩
      · rw [idxsOf, if_pos hx, (idxsOf_nil_iff 1).2 h.2]
      · intro f
        simp only [List.modify_zero_cons, List.map_cons, hx, if_true]
        congr 1
        have : ∀ y ∈ t, y.objID ≠ id := by
          intro y hy e
          have : y ∈ t.filter (fun x => decide (x.objID = id)) := by simp [hy, e]
          rw [h.2] at this; simp at this
        calc t = t.map _root_.id := by simp
          _ = _ := List.map_congr_left (fun y hy => by simp [this y hy])
    · rw [List.filter_cons_of_neg (by simpa using hx)] at h
      obtain ⟨i, h1, h2, h3⟩ := ih h
      refine ⟨i + 1, ?_, by simpa using h2, ?_⟩
      · rw [idxsOf, if_neg hx, idxsOf_add, h1]; simp
      · intro f
        simp [List.modify_succ_cons, h3, hx]

theorem getObj_only {id : Int} {objs : List Obj} {o : Obj} (h : OnlyObj objs id o) : getObj objs id = some o := by
  obtain ⟨i, h1, h2, _⟩ := idxsOf_single h
  simp [getObj, getObjIdx, h1, h2]

theorem setObjData_only {id : Int} {objs : List Obj} {o : Obj} (h : OnlyObj objs id o) (data : Bytes) :
    setObjData objs id data = .ok (objs.map (fun x => if x.objID = id then { x with data := data } else x)) := by
  obtain ⟨i, h1, h2, h3⟩ := idxsOf_single h
  simp [setObjData, getObjIdx, h1, h3]

theorem readObjProps_only {id : Int} {objs : List Obj} {ps : Props} (h : Entries objs id ps) : readObjProps objs id = .ok ps := by
  obtain ⟨o, h1, h2⟩ := h
  simp [readObjProps, getObj_only h1, h2]

theorem Spec.OnlyObj.unique {id : Int} {objs : List Obj} {o o' : Obj} (h : OnlyObj objs id o) (h' : OnlyObj objs id o') : o = o' := by
  unfold OnlyObj at h h'
  rw [h] at h'
  simpa using h'

theorem Spec.Entries.unique {id : Int} {objs : List Obj} {ps qs : Props} (h : Entries objs id ps) (h' : Entries objs id qs) : ps = qs := by
  obtain ⟨o, h1, h2⟩ := h
  obtain ⟨o', h1', h2'⟩ := h'
  have := h1.unique h1'
  subst this
  rw [h2] at h2'
  simpa using h2'

theorem Spec.OnlyObj.mem {id : Int} {objs : List Obj} {o : Obj} (h : OnlyObj objs id o) : o ∈ objs ∧ o.objID = id := by
  have : o ∈ objs.filter (fun x => decide (x.objID = id)) := by rw [h]; simp
  simpa using this

theorem valueOf_some {ps : Props} {k v : Bytes} (h : valueOf ps k = some v) : ∃ p, getPropByKey ps k = some p ∧ p.rawVal = v := by
  unfold valueOf at h
  rw [Option.map_eq_some_iff] at h
  exact h

theorem valueOf_none {ps : Props} {k : Bytes} : valueOf ps k = none ↔ getPropByKey ps k = none := by
  simp [valueOf, getPropByKey]

theorem hasKey_iff {ps : Props} {k : Bytes} : hasKey ps k = true ↔ ∃ v, valueOf ps k = some v := by
  unfold hasKey valueOf getPropByKey
  cases ps.find? (fun p => decide (p.key = k)) <;> simp

theorem readArr_empty {v : Bytes} (h : EmptyArray v) : readObjIDFromDictionaryArr v = .err .atoi := by
  have hsp : ∀ c ∈ removeByte 93 (removeByte 91 v), c = 32 := by
    intro c hc
    simp [removeByte] at hc
    rcases h c hc.1 with e | e | e
    · exact absurd e hc.2.2
    · exact absurd e hc.2.1
    · exact e
  have ht : trimSpace (removeByte 93 (removeByte 91 v)) = [] := by
    have := trimSpace_core (a := removeByte 93 (removeByte 91 v)) (x := []) (b := []) (by
      intro c hc; rw [hsp c hc]; rfl) (by simp) Ascii.nil (by simp) (by simp [EndOk])
    simpa using this
  unfold readObjIDFromDictionaryArr
  rw [ht]
  decide

/-- what the traversal does at an inner node -/
theorem kidsOf_node {ps : Props} {ks : List Int} (h : IsNode ps ks) :
    kidsOf ps = .ok (some ks) ∨ (ks = [] ∧ kidsOf ps = .ok none ∧ hasKey ps b!"Page" = false) := by
  obtain ⟨⟨v, h1⟩, w, h2, h3⟩ := h
  obtain ⟨p, hp, _⟩ := valueOf_some h1
  obtain ⟨q, hq, e⟩ := valueOf_some h2
  rcases h3 with h3 | ⟨h3, h4, h5⟩
  · left
    unfold ArrayRefs at h3
    simp [kidsOf, hp, hq, e, h3]
  · right
    refine ⟨h3, ?_, ?_⟩
    · simp [kidsOf, hp, hq, e, readArr_empty h4]
    · rw [valueOf_none] at h5
      simp [hasKey, h5]

theorem kidsOf_page {ps : Props} (h : IsPage ps) : kidsOf ps = .ok none := by
  obtain ⟨_, h | h⟩ := h
  · rw [valueOf_none] at h
    simp [kidsOf, h]
  · rw [valueOf_none] at h
    unfold kidsOf
    rw [h]
    cases getPropByKey ps b!"Pages" <;> rfl

/-! ### height of a tree and the traversal -/

mutual
def Spec.Tree.height : Tree → Nat
  | .leaf _ => 0
  | .node _ kids => heightL kids + 1
def Spec.heightL : List Tree → Nat
  | [] => 0
  | t :: ts => max t.height (heightL ts)
end

mutual
theorem visit_tree {objs : List Obj} (t : Tree) (h : IsTree objs t) : ∀ fuel, t.height < fuel → visit objs fuel t.id = .ok t.pages := by
  match t, h with
  | .leaf i, h =>
    intro fuel hf
    obtain ⟨ps, ⟨o, ho, hr⟩, hp⟩ := h
    cases fuel with
    | zero => simp at hf
    | succ n =>
      have hk := hasKey_iff.2 hp.1
      simp [visit, Tree.id, getObj_only ho, hr, kidsOf_page hp, hk, Tree.pages]
  | .node i kids, h =>
    intro fuel hf
    obtain ⟨⟨ps, ⟨o, ho, hr⟩, hn⟩, hkids⟩ := h
    cases fuel with
    | zero => simp at hf
    | succ n =>
      simp only [Tree.height, Nat.add_lt_add_iff_right] at hf
      simp only [visit, Tree.id, getObj_only ho, hr, Res.ofOption_some, Res.ok_bind, Tree.pages]
      rcases kidsOf_node hn with hk | ⟨hnil, hk, hp⟩
      · simp only [hk, Res.ok_bind]
        exact visit_treeL kids hkids n hf
      · simp only [List.map_eq_nil_iff] at hnil
        subst hnil
        simp [hk, hp, pagesL]
theorem visit_treeL {objs : List Obj} (ts : List Tree) (h : IsTreeL objs ts) : ∀ fuel, heightL ts < fuel →
    visitKids (visit objs fuel) (ts.map Tree.id) = .ok (pagesL ts) := by
  match ts, h with
  | [], _ => intro fuel _; rfl
  | t :: ts, h =>
    intro fuel hf
    have hm : t.height < fuel ∧ heightL ts < fuel := by
      simp only [heightL] at hf
      omega
    simp only [List.map_cons, visitKids, visit_tree t h.1 fuel hm.1, visit_treeL ts h.2 fuel hm.2, Res.ok_bind, pagesL]
end

theorem node_not_page {ps : Props} {ks : List Int} (hp : IsPage ps) (hn : IsNode ps ks) : False := by
  have a := kidsOf_page hp
  rcases kidsOf_node hn with hk | ⟨_, _, hk⟩
  · rw [hk] at a; simp at a
  · rw [hasKey_iff.2 hp.1] at hk; simp at hk

theorem node_unique {ps : Props} {ks ks' : List Int} (hn : IsNode ps ks) (hn' : IsNode ps ks') : ks = ks' := by
  rcases kidsOf_node hn with hk | ⟨h0, hk, _⟩ <;> rcases kidsOf_node hn' with hk' | ⟨h0', hk', _⟩
  · rw [hk] at hk'; simpa using hk'
  · rw [hk] at hk'; simp at hk'
  · rw [hk] at hk'; simp at hk'
  · rw [h0, h0']

mutual
/-- the objects determine the tree -/
theorem tree_unique {objs : List Obj} (t t' : Tree) (h : IsTree objs t) (h' : IsTree objs t') (he : t.id = t'.id) : t = t' := by
  match t, t', h, h' with
  | .leaf i, .leaf j, _, _ => simp [Tree.id] at he; rw [he]
  | .leaf i, .node j kids, h, h' =>
    exfalso
    simp [Tree.id] at he; subst he
    obtain ⟨ps, he1, hp⟩ := h
    obtain ⟨⟨qs, he2, hn⟩, _⟩ := h'
    have := he1.unique he2; subst this
    exact node_not_page hp hn
  | .node i kids, .leaf j, h, h' =>
    exfalso
    simp [Tree.id] at he; subst he
    obtain ⟨⟨ps, he1, hn⟩, _⟩ := h
    obtain ⟨qs, he2, hp⟩ := h'
    have := he1.unique he2; subst this
    exact node_not_page hp hn
  | .node i kids, .node j kids', h, h' =>
    simp [Tree.id] at he; subst he
    obtain ⟨⟨ps, he1, hn⟩, hk⟩ := h
    obtain ⟨⟨qs, he2, hn'⟩, hk'⟩ := h'
    have := he1.unique he2; subst this
    rw [tree_uniqueL kids kids' hk hk' (node_unique hn hn')]
theorem tree_uniqueL {objs : List Obj} (ts ts' : List Tree) (h : IsTreeL objs ts) (h' : IsTreeL objs ts')
    (he : ts.map Tree.id = ts'.map Tree.id) : ts = ts' := by
  match ts, ts', h, h' with
  | [], [], _, _ => rfl
  | [], t :: ts, _, _ => simp at he
  | t :: ts, [], _, _ => simp at he
  | t :: ts, t' :: ts', h, h' =>
    simp at he
    rw [tree_unique t t' h.1 h'.1 he.1, tree_uniqueL ts ts' h.2 h'.2 (by simpa using he.2)]
end

theorem Spec.IsTree.id_mem {objs : List Obj} {t : Tree} (h : IsTree objs t) : t.id ∈ objs.map (·.objID) := by
  cases t with
  | leaf i =>
    obtain ⟨ps, ⟨o, ho, _⟩, _⟩ := h
    exact List.mem_map.2 ⟨o, ho.mem⟩
  | node i kids =>
    obtain ⟨⟨ps, ⟨o, ho, _⟩, _⟩, _⟩ := h
    exact List.mem_map.2 ⟨o, ho.mem⟩

mutual
/-- subtrees of every smaller height occur -/
theorem sub_heights {objs : List Obj} (t : Tree) (h : IsTree objs t) : ∀ n, 1 ≤ n → n ≤ t.height → ∃ u, IsTree objs u ∧ u.height = n := by
  match t, h with
  | .leaf i, h => intro n h1 hn; simp [Tree.height] at hn; omega
  | .node i kids, h =>
    intro n h1 hn
    by_cases e : n = (Tree.node i kids).height
    · exact ⟨_, h, e.symm⟩
    · simp only [Tree.height] at hn e
      exact sub_heightsL kids h.2 n h1 (by omega)
theorem sub_heightsL {objs : List Obj} (ts : List Tree) (h : IsTreeL objs ts) :
    ∀ n, 1 ≤ n → n ≤ heightL ts → ∃ u, IsTree objs u ∧ u.height = n := by
  match ts, h with
  | [], _ => intro n h1 hn; simp [heightL] at hn; omega
  | t :: ts, h =>
    intro n h1 hn
    simp only [heightL] at hn
    rcases Nat.le_total n t.height with hn | hn'
    · exact sub_heights t h.1 n h1 hn
    · by_cases e : n = t.height
      · exact sub_heights t h.1 n h1 (by omega)
      · exact sub_heightsL ts h.2 n h1 (by omega)
end

/-- a page tree is not higher than there are objects -/
theorem height_le {objs : List Obj} {t : Tree} (h : IsTree objs t) : t.height ≤ objs.length := by
  classical
  have hex : ∀ n : Fin t.height, ∃ u, IsTree objs u ∧ u.height = n.val + 1 :=
    fun n => sub_heights t h (n.val + 1) (by omega) (by have := n.isLt; omega)
  choose f hf using hex
  have inj : Function.Injective (fun n => (f n).id) := by
    intro a b e
    have := tree_unique _ _ (hf a).1 (hf b).1 e
    have h1 := (hf a).2
    rw [this, (hf b).2] at h1
    exact Fin.ext (by omega)
  have hsub : (Finset.univ.image (fun n => (f n).id)) ⊆ (objs.map (·.objID)).toFinset := by
    intro x hx
    obtain ⟨n, _, e⟩ := Finset.mem_image.1 hx
    rw [List.mem_toFinset, ← e]
    exact (hf n).1.id_mem
  have hc := Finset.card_le_card hsub
  rw [Finset.card_image_of_injective _ inj, Finset.card_univ, Fintype.card_fin] at hc
  exact hc.trans ((List.toFinset_card_le _).trans (by simp))

theorem rootPagesID_of {d : Doc} {r : Int} (h : RootIs d r) : rootPagesID d = .ok r := by
  obtain ⟨ps, v, ⟨o, ho, hr⟩, hv, hi⟩ := h
  obtain ⟨p, hp, e⟩ := valueOf_some hv
  simp [rootPagesID, getObj_only ho, hr, hp, e, hi]

/-- the traversal lists the pages of the tree, left to right -/
theorem getPageObjIDs_tree {d : Doc} {t : Tree} (h : HasTree d t) : getPageObjIDs d = .ok t.pages := by
  have := height_le h.2
  simp [getPageObjIDs, rootPagesID_of h.1, visit_tree t h.2 (d.objs.length + 1) (by omega)]

end Verif
