import Verif.Lemmas.Store
/-
The page operations on well-formed documents.
-/
namespace Verif
open Spec

/-! ### object lists: update of one object, appending fresh objects -/

/-- change the data of the objects with number `id` -/
def updData (id : Int) (data : Bytes) (objs : List Obj) : List Obj :=
  objs.map (fun x => if x.objID = id then { x with data := data } else x)

theorem filter_updData (id id' : Int) (data : Bytes) (objs : List Obj) :
    (updData id data objs).filter (fun x => decide (x.objID = id')) =
      (objs.filter (fun x => decide (x.objID = id'))).map (fun x => if x.objID = id then { x with data := data } else x) := by
  unfold updData
  rw [List.filter_map]
  congr 1
  apply List.filter_congr
  intro x _
  simp only [Function.comp_def]
  split <;> rfl

theorem onlyObj_updData_ne {id id' : Int} {data : Bytes} {objs : List Obj} {o : Obj} (hne : id' ≠ id)
    (h : OnlyObj objs id' o) : OnlyObj (updData id data objs) id' o := by
  unfold OnlyObj
  rw [filter_updData, h]
  have := (h.mem).2
  simp [this, hne]

theorem onlyObj_updData_eq {id : Int} {data : Bytes} {objs : List Obj} {o : Obj}
    (h : OnlyObj objs id o) : OnlyObj (updData id data objs) id { o with data := data } := by
  unfold OnlyObj
  rw [filter_updData, h]
  have := (h.mem).2
  simp [this]

theorem entries_updData_ne {id id' : Int} {data : Bytes} {objs : List Obj} {ps : Props} (hne : id' ≠ id)
    (h : Entries objs id' ps) : Entries (updData id data objs) id' ps := by
  obtain ⟨o, h1, h2⟩ := h
  exact ⟨o, onlyObj_updData_ne hne h1, h2⟩

theorem onlyObj_append_fresh {id : Int} {objs new : List Obj} {o : Obj} (hf : ∀ x ∈ new, x.objID ≠ id)
    (h : OnlyObj objs id o) : OnlyObj (objs ++ new) id o := by
  unfold OnlyObj at *
  rw [List.filter_append, h]
  have : new.filter (fun x => decide (x.objID = id)) = [] := by
    rw [List.filter_eq_nil_iff]
    intro x hx
    simpa using hf x hx
  rw [this]; rfl

theorem onlyObj_append_new {id : Int} {objs : List Obj} {o : Obj} (hf : ∀ x ∈ objs, x.objID ≠ id)
    (h : o.objID = id) : OnlyObj (objs ++ [o]) id o := by
  unfold OnlyObj
  rw [List.filter_append]
  have : objs.filter (fun x => decide (x.objID = id)) = [] := by
    rw [List.filter_eq_nil_iff]
    intro x hx
    simpa using hf x hx
  rw [this]
  simp [h]

theorem entries_append_fresh {id : Int} {objs new : List Obj} {ps : Props} (hf : ∀ x ∈ new, x.objID ≠ id)
    (h : Entries objs id ps) : Entries (objs ++ new) id ps := by
  obtain ⟨o, h1, h2⟩ := h
  exact ⟨o, onlyObj_append_fresh hf h1, h2⟩

theorem foldl_max_ge (objs : List Obj) (m : Int) :
    m ≤ objs.foldl (fun m o => if o.objID > m then o.objID else m) m ∧
    ∀ o ∈ objs, o.objID ≤ objs.foldl (fun m o => if o.objID > m then o.objID else m) m := by
  induction objs generalizing m with
  | nil => simp
  | cons x t ih =>
    simp only [List.foldl_cons]
    by_cases h : x.objID > m
    · obtain ⟨h1, h2⟩ := ih x.objID
      simp only [h, if_true]
      refine ⟨by omega, ?_⟩
      intro o ho
      rcases List.mem_cons.1 ho with ho | ho
      · subst ho; exact h1
      · exact h2 o ho
    · obtain ⟨h1, h2⟩ := ih m
      simp only [h, if_false]
      refine ⟨h1, ?_⟩
      intro o ho
      rcases List.mem_cons.1 ho with ho | ho
      · subst ho; omega
      · exact h2 o ho

theorem le_maxID {objs : List Obj} {o : Obj} (h : o ∈ objs) : o.objID ≤ maxID objs := (foldl_max_ge objs 0).2 o h

theorem maxID_nonneg (objs : List Obj) : 0 ≤ maxID objs := (foldl_max_ge objs 0).1

theorem maxID_append_single (objs : List Obj) (o : Obj) (h : o.objID = maxID objs + 1) : maxID (objs ++ [o]) = maxID objs + 1 := by
  have : maxID (objs ++ [o]) = if o.objID > maxID objs then o.objID else maxID objs := by
    simp [maxID, List.foldl_append]
  rw [this, if_pos (by omega), h]

theorem maxID_updData (id : Int) (data : Bytes) (objs : List Obj) : maxID (updData id data objs) = maxID objs := by
  unfold maxID updData
  generalize (0 : Int) = m
  induction objs generalizing m with
  | nil => rfl
  | cons x t ih =>
    have : (if x.objID = id then ({ x with data := data } : Obj) else x).objID = x.objID := by split <;> rfl
    simp only [List.map_cons, List.foldl_cons, this]
    exact ih _

theorem OnlyObj_le_maxID {objs : List Obj} {id : Int} {o : Obj} (h : OnlyObj objs id o) : id ≤ maxID objs := by
  have := h.mem
  rw [← this.2]
  exact le_maxID this.1

/-! ### trees under changes of other objects -/

mutual
/-- object numbers of the tree -/
def Spec.Tree.ids : Tree → List Int
  | .leaf i => [i]
  | .node i kids => i :: idsL kids
def Spec.idsL : List Tree → List Int
  | [] => []
  | t :: ts => t.ids ++ idsL ts
end

theorem leaf_pages {objs : List Obj} : (t : Tree) → IsTree objs t → ∀ i ∈ t.pages, IsTree objs (.leaf i)
  | .leaf i, h => by intro j hj; simp [Tree.pages] at hj; subst hj; exact h
  | .node i kids, h => by
    exact leaf_pagesL kids h.2
where
  leaf_pagesL {objs : List Obj} : (ts : List Tree) → IsTreeL objs ts → ∀ i ∈ pagesL ts, IsTree objs (.leaf i)
  | [], _ => by intro i hi; simp [pagesL] at hi
  | t :: ts, h => by
    intro i hi
    rw [pagesL, List.mem_append] at hi
    rcases hi with hi | hi
    · exact leaf_pages t h.1 i hi
    · exact leaf_pagesL ts h.2 i hi

theorem isTreeL_leaves {objs : List Obj} {ids : List Int} (h : ∀ i ∈ ids, IsTree objs (.leaf i)) :
    IsTreeL objs (ids.map Tree.leaf) := by
  induction ids with
  | nil => trivial
  | cons i t ih => exact ⟨h i (by simp), ih (fun j hj => h j (by simp [hj]))⟩

theorem pagesL_leaves (ids : List Int) : pagesL (ids.map Tree.leaf) = ids := by
  induction ids with
  | nil => rfl
  | cons i t ih => simp [pagesL, Tree.pages, ih]

theorem map_id_leaves (ids : List Int) : (ids.map Tree.leaf).map Tree.id = ids := by
  simp [Function.comp_def, Tree.id]

/-! ### reading references gives representable numbers -/

theorem readRefTokens_range : (ts : List Bytes) → (vs : List Int) → readRefTokens ts = .ok vs → ∀ v ∈ vs, Int64 v
  | [], vs, h => by simp [readRefTokens] at h; subst h; simp
  | [a], vs, h => by
    rw [readRefTokens] at h
    split at h <;> simp at h
  | [a, b], vs, h => by
    rw [readRefTokens] at h
    split at h
    · simp at h
    · rename_i v hv
      split at h
      · simp at h
      · simp at h; subst h
        intro w hw; simp at hw; subst hw
        have := atoi_range hv
        exact ⟨by have := this.1; omega, by have := this.2; omega⟩
  | a :: b :: c :: t, vs, h => by
    rw [readRefTokens] at h
    split at h
    · simp at h
    · rename_i v hv
      split at h
      · simp at h
      · rw [Res.bind_eq_ok] at h
        obtain ⟨r, hr, h⟩ := h
        simp at h; subst h
        intro w hw
        rcases List.mem_cons.1 hw with hw | hw
        · subst hw
          have := atoi_range hv
          exact ⟨by have := this.1; omega, by have := this.2; omega⟩
        · exact readRefTokens_range t r hr w hw

theorem arrayRefs_range {v : Bytes} {ks : List Int} (h : ArrayRefs v ks) : ∀ k ∈ ks, Int64 k := readRefTokens_range _ _ h

theorem isNode_range {ps : Props} {ks : List Int} (h : IsNode ps ks) : ∀ k ∈ ks, Int64 k := by
  obtain ⟨_, w, _, h | ⟨h, _⟩⟩ := h
  · exact arrayRefs_range h
  · subst h; simp

theorem pages_range {objs : List Obj} : (t : Tree) → IsTree objs t → Int64 t.id → ∀ i ∈ t.pages, Int64 i
  | .leaf i, _, hi => by intro j hj; simp [Tree.pages] at hj; subst hj; exact hi
  | .node i kids, h, _ => by
    obtain ⟨⟨ps, _, hn⟩, hk⟩ := h
    have hr := isNode_range hn
    exact pages_rangeL kids hk (fun t ht => hr t.id (List.mem_map.2 ⟨t, ht, rfl⟩))
where
  pages_rangeL {objs : List Obj} : (ts : List Tree) → IsTreeL objs ts → (∀ t ∈ ts, Int64 t.id) → ∀ i ∈ pagesL ts, Int64 i
  | [], _, _ => by intro i hi; simp [pagesL] at hi
  | t :: ts, h, hr => by
    intro i hi
    rw [pagesL, List.mem_append] at hi
    rcases hi with hi | hi
    · exact pages_range t h.1 (hr t (by simp)) i hi
    · exact pages_rangeL ts h.2 (fun u hu => hr u (by simp [hu])) i hi

/-! ### `getPropByKey` after `setPropByKey` -/

theorem valueOf_set_eq {ps : Props} {k v w : Bytes} (h : valueOf ps k = some w) : valueOf (setPropByKey k v ps) k = some v := by
  induction ps with
  | nil => simp [valueOf] at h
  | cons p t ih =>
    rw [setPropByKey]
    split
    · rename_i hk; simp [valueOf, hk]
    · rename_i hk
      have h' : valueOf t k = some w := by simpa [valueOf, hk] using h
      simpa [valueOf, hk] using ih h'

theorem valueOf_set_ne {ps : Props} {k k' v : Bytes} (h : k' ≠ k) : valueOf (setPropByKey k v ps) k' = valueOf ps k' := by
  induction ps with
  | nil => rfl
  | cons p t ih =>
    rw [setPropByKey]
    split
    · rename_i hk
      have : p.key ≠ k' := by rw [hk]; exact h.symm
      simp [valueOf, this]
    · by_cases hk : p.key = k'
      · simp [valueOf, hk]
      · simpa [valueOf, hk] using ih

/-! ### the page tree root -/

/-- the entries of the page tree root are rewritable -/
structure RootBody (ps : Props) : Prop where
  canon : Canon ps
  noStream : NoStream ps
  count : ∃ v, valueOf ps b!"Count" = some v
  kids : ∃ v, valueOf ps b!"Kids" = some v
  pages : ∃ v, valueOf ps b!"Pages" = some v
  noPage : valueOf ps b!"Page" = none

/-- the entries of the page tree root after `setPages` -/
def newRoot (ids : List Int) (ps : Props) : Props :=
  setPropByKey b!"Kids" (if ids = [] then b!"[]" else refArrNorm ids) (setPropByKey b!"Count" (itoa ids.length) ps)

theorem emptyArr_ok : ValOk false b!"[]" ∧ b!"[]" ≠ [] ∧ EndOk b!"[]" := by
  refine ⟨⟨by unfold Ascii; decide, by decide, ⟨by decide, by decide, by decide, by decide⟩, ?_, Or.inl (by decide)⟩, by decide, ?_⟩
  · intro t ht
    exact absurd (ht.subset (a := 32) (by simp)) (by decide)
  · intro c hc; simp at hc; subst hc; rfl

theorem newRoot_read {ids : List Int} {ps : Props} (h : RootBody ps) :
    readProperties (setProperties (setPropByKey b!"Kids" (refArrString ids) (setPropByKey b!"Count" (itoa ids.length) ps))) =
      .ok (newRoot ids ps) ∧ RootBody (newRoot ids ps) := by
  have c1 : Canon (setPropByKey b!"Count" (itoa ids.length) ps) := by
    obtain ⟨a, b, c⟩ := itoa_valOk (ids.length : Int)
    exact setPropByKey_canon h.canon a b c
  have n1 : NoStream (setPropByKey b!"Count" (itoa ids.length) ps) := setPropByKey_noStream h.noStream (itoa_noStream _)
  have kv : ∀ w : Bytes, valueOf (setPropByKey b!"Kids" w (setPropByKey b!"Count" (itoa ids.length) ps)) b!"Kids" = some w := by
    intro w
    obtain ⟨v, hv⟩ := h.kids
    have : valueOf (setPropByKey b!"Count" (itoa ids.length) ps) b!"Kids" = some v := by
      rw [valueOf_set_ne (by decide)]; exact hv
    exact valueOf_set_eq this
  have other : ∀ (w k : Bytes), k ≠ b!"Kids" → k ≠ b!"Count" →
      valueOf (setPropByKey b!"Kids" w (setPropByKey b!"Count" (itoa ids.length) ps)) k = valueOf ps k := by
    intro w k h1 h2
    rw [valueOf_set_ne h1, valueOf_set_ne h2]
  have cnt : ∀ w : Bytes, ∃ v, valueOf (setPropByKey b!"Kids" w (setPropByKey b!"Count" (itoa ids.length) ps)) b!"Count" = some v := by
    intro w
    obtain ⟨v, hv⟩ := h.count
    rw [valueOf_set_ne (by decide)]
    exact ⟨_, valueOf_set_eq hv⟩
  have body : ∀ w, Canon (setPropByKey b!"Kids" w (setPropByKey b!"Count" (itoa ids.length) ps)) →
      NoStream (setPropByKey b!"Kids" w (setPropByKey b!"Count" (itoa ids.length) ps)) →
      RootBody (setPropByKey b!"Kids" w (setPropByKey b!"Count" (itoa ids.length) ps)) := by
    intro w hc hn
    exact ⟨hc, hn, cnt w, ⟨w, kv w⟩, by rw [other w _ (by decide) (by decide)]; exact h.pages,
      by rw [other w _ (by decide) (by decide)]; exact h.noPage⟩
  unfold newRoot
  by_cases he : ids = []
  · subst he
    have e : refArrString [] = b!"[]" := rfl
    obtain ⟨a, b, c⟩ := emptyArr_ok
    have c2 := setPropByKey_canon (k := b!"Kids") c1 a b c
    have n2 := setPropByKey_noStream (k := b!"Kids") n1 (v := b!"[]") (not_infix_short (by decide))
    rw [e, if_pos rfl]
    exact ⟨readProperties_setProperties c2 n2, body _ c2 n2⟩
  · obtain ⟨hp, hpn, hpe⟩ := refArrString_preOk he
    obtain ⟨hv, hvn, hve⟩ := refArrNorm_valOk ids he
    have hs := strip1_setPropByKey (k := b!"Kids") (v := refArrString ids) c1.strip
    rw [refArr_strip he] at hs
    have c2 := setPropByKey_canon (k := b!"Kids") c1 hv hvn hve
    have n2 : NoStream (setPropByKey b!"Kids" (refArrNorm ids) (setPropByKey b!"Count" (itoa ids.length) ps)) := by
      apply setPropByKey_noStream n1
      apply noStream_of_head
      simp [refArrNorm, refsT_no_s]
    have hread2 := readProperties_setProperties' (setPropByKey_pre (k := b!"Kids") c1 hp hpn hpe)
      (by rw [hs]; exact c2) (setPropByKey_noStream n1 (refArrString_noStream ids))
    rw [hs] at hread2
    rw [if_neg he]
    exact ⟨hread2, body _ c2 n2⟩

theorem newRoot_node {ids : List Int} {ps : Props} (h : RootBody ps) (hr : ∀ i ∈ ids, Int64 i) : IsNode (newRoot ids ps) ids := by
  have hb := (newRoot_read (ids := ids) h).2
  refine ⟨hb.pages, ?_⟩
  obtain ⟨v, hv⟩ := h.kids
  have : valueOf (setPropByKey b!"Count" (itoa ids.length) ps) b!"Kids" = some v := by
    rw [valueOf_set_ne (by decide)]; exact hv
  have hk := valueOf_set_eq (v := if ids = [] then b!"[]" else refArrNorm ids) this
  refine ⟨_, hk, ?_⟩
  by_cases he : ids = []
  · right
    rw [if_pos he]
    exact ⟨he, by unfold EmptyArray; decide, hb.noPage⟩
  · left
    rw [if_neg he]
    exact refArrNorm_read he hr

theorem newRoot_count {ids : List Int} {ps : Props} (h : RootBody ps) : valueOf (newRoot ids ps) b!"Count" = some (itoa ids.length) := by
  obtain ⟨v, hv⟩ := h.count
  rw [newRoot, valueOf_set_ne (by decide)]
  exact valueOf_set_eq hv

/-- A document whose page tree root can be rewritten. -/
structure Good (d : Doc) (r : Int) (ts : List Tree) : Prop where
  root : RootIs d r
  ne : r ≠ d.rootObjID
  tree : IsTree d.objs (.node r ts)
  body : ∃ ps, Entries d.objs r ps ∧ RootBody ps

theorem Good.hasTree {d : Doc} {r : Int} {ts : List Tree} (h : Good d r ts) : HasTree d (.node r ts) := ⟨h.root, h.tree⟩

theorem Good.pageIDs {d : Doc} {r : Int} {ts : List Tree} (h : Good d r ts) : getPageObjIDs d = .ok (pagesL ts) := by
  have := getPageObjIDs_tree h.hasTree
  simpa [Tree.pages] using this

/-- the document after `setPages` -/
def withPages (d : Doc) (r : Int) (ids : List Int) (ps : Props) : Doc :=
  { d with objs := updData r (setProperties (setPropByKey b!"Kids" (refArrString ids) (setPropByKey b!"Count" (itoa ids.length) ps))) d.objs }

theorem setPages_eq {d : Doc} {r : Int} {ps : Props} (hroot : RootIs d r) (he : Entries d.objs r ps) (hb : RootBody ps) (ids : List Int) :
    setPages d ids = .ok (withPages d r ids ps) := by
  obtain ⟨rps, v, hre, hv, hid⟩ := hroot
  obtain ⟨p, hp, e⟩ := valueOf_some hv
  obtain ⟨c, hc⟩ := hb.count
  obtain ⟨c', hc', _⟩ := valueOf_some hc
  have hk : ∃ w, valueOf (setPropByKey b!"Count" (itoa ids.length) ps) b!"Kids" = some w := by
    rw [valueOf_set_ne (by decide)]; exact hb.kids
  obtain ⟨k, hk⟩ := hk
  obtain ⟨k', hk', _⟩ := valueOf_some hk
  obtain ⟨o, ho, hread⟩ := he
  have hrp := readObjProps_only (ps := ps) ⟨o, ho, hread⟩
  simp only [setPages, readObjProps_only hre, hp, e, hid, hrp, hc', hk', Res.ok_bind, Res.ofOption_some, setObjProps,
    setObjData_only ho, withPages, updData]

theorem rootIs_upd {d : Doc} {r : Int} {data : Bytes} (hne : r ≠ d.rootObjID) (h : RootIs d r) :
    RootIs { d with objs := updData r data d.objs } r := by
  obtain ⟨rps, v, hre, hv, hid⟩ := h
  exact ⟨rps, v, entries_updData_ne (fun e => hne e.symm) hre, hv, hid⟩

/-- `setPages` on a good document -/
theorem setPages_good {d : Doc} {r : Int} {ts : List Tree} (h : Good d r ts) {ids : List Int} (hr : ∀ i ∈ ids, Int64 i)
    (hl : ∀ i ∈ ids, IsTree d.objs (.leaf i)) :
    ∃ ps, Entries d.objs r ps ∧ RootBody ps ∧ setPages d ids = .ok (withPages d r ids ps) ∧
      Good (withPages d r ids ps) r (ids.map .leaf) ∧ Entries (withPages d r ids ps).objs r (newRoot ids ps) := by
  obtain ⟨ps, he, hb⟩ := h.body
  obtain ⟨hread, hb'⟩ := newRoot_read (ids := ids) hb
  have hent : Entries (withPages d r ids ps).objs r (newRoot ids ps) := by
    obtain ⟨o, ho, _⟩ := he
    exact ⟨_, onlyObj_updData_eq ho, hread⟩
  refine ⟨ps, he, hb, setPages_eq h.root he hb ids, ⟨rootIs_upd h.ne h.root, h.ne, ?_, ⟨_, hent, hb'⟩⟩, hent⟩
  refine ⟨⟨_, hent, ?_⟩, ?_⟩
  · rw [map_id_leaves]; exact newRoot_node hb hr
  · apply isTreeL_leaves
    intro i hi
    obtain ⟨qs, hq, hp⟩ := hl i hi
    have hne : i ≠ r := by
      intro e; subst e
      obtain ⟨⟨ps', he', hn⟩, _⟩ := h.tree
      have := hq.unique he'; subst this
      exact node_not_page hp hn
    exact ⟨qs, entries_updData_ne hne hq, hp⟩

theorem Good.pages_leaf {d : Doc} {r : Int} {ts : List Tree} (h : Good d r ts) : ∀ i ∈ pagesL ts, IsTree d.objs (.leaf i) := by
  intro i hi
  exact leaf_pages _ h.tree i (by simpa [Tree.pages] using hi)

theorem Good.pages_range {d : Doc} {r : Int} {ts : List Tree} (h : Good d r ts) : ∀ i ∈ pagesL ts, Int64 i := by
  obtain ⟨⟨ps, _, hn⟩, hk⟩ := h.tree
  have hr := isNode_range hn
  exact pages_range.pages_rangeL ts hk (fun t ht => hr t.id (List.mem_map.2 ⟨t, ht, rfl⟩))

/-- `RemovePage` on a good document -/
theorem removePage_good {d : Doc} {r : Int} {ts : List Tree} (h : Good d r ts) {k : Int} (h1 : 1 ≤ k) (h2 : k ≤ (pagesL ts).length) :
    ∃ ps, Entries d.objs r ps ∧ RootBody ps ∧
      removePage d k = .ok (withPages d r ((pagesL ts).eraseIdx (k - 1).toNat) ps) ∧
      Good (withPages d r ((pagesL ts).eraseIdx (k - 1).toNat) ps) r (((pagesL ts).eraseIdx (k - 1).toNat).map .leaf) ∧
      Entries (withPages d r ((pagesL ts).eraseIdx (k - 1).toNat) ps).objs r (newRoot ((pagesL ts).eraseIdx (k - 1).toNat) ps) := by
  have hmem : ∀ i ∈ (pagesL ts).eraseIdx (k - 1).toNat, i ∈ pagesL ts := fun i hi => List.mem_of_mem_eraseIdx hi
  obtain ⟨ps, he, hb, hs, hg, hn⟩ := setPages_good h (ids := (pagesL ts).eraseIdx (k - 1).toNat)
    (fun i hi => h.pages_range i (hmem i hi)) (fun i hi => h.pages_leaf i (hmem i hi))
  refine ⟨ps, he, hb, ?_, hg, hn⟩
  have hlt : (k - 1).toNat < (pagesL ts).length := by omega
  have harr : ((pagesL ts).take (k - 1).toNat ++ (pagesL ts).drop ((k - 1).toNat + 1) ++
      (pagesL ts).drop ((pagesL ts).length - 1)).take ((pagesL ts).length - 1) = (pagesL ts).eraseIdx (k - 1).toNat := by
    rw [List.eraseIdx_eq_take_drop_succ]
    apply List.take_left'
    simp
    omega
  rw [removePage, h.pageIDs]
  simp only [Res.ok_bind]
  rw [if_neg (by omega), if_neg (by omega), harr, hs]

/-! ### duplication -/

theorem maxID_append_two (objs : List Obj) (a b : Obj) (ha : a.objID = maxID objs + 1) (hb : b.objID = maxID objs + 2) :
    maxID (objs ++ [a, b]) = maxID objs + 2 := by
  have h1 := maxID_append_single objs a ha
  have h2 := maxID_append_single (objs ++ [a]) b (by rw [h1, hb]; omega)
  rw [show objs ++ [a, b] = (objs ++ [a]) ++ [b] by simp, h2, h1]
  omega

/-- the object list after the two `putNewObject` calls of `DuplicatePageAfter` -/
def dupObjs (objs : List Obj) (content : Bytes) (props : Props) : List Obj :=
  objs ++ [⟨maxID objs + 1, content⟩,
    ⟨maxID objs + 2, setProperties (setPropByKey b!"Contents" (refString (maxID objs + 1) 0) props)⟩]

theorem dupStore_eq (d : Doc) (co po : Obj) (props : Props) :
    dupStore d co po props = ({ d with objs := dupObjs d.objs co.data props }, maxID d.objs + 2) := by
  have h1 := maxID_append_single d.objs { co with objID := maxID d.objs + 1 } rfl
  have : maxID d.objs + 1 + 1 = maxID d.objs + 2 := by omega
  simp [dupStore, Doc.putNewObject, Doc.put, h1, dupObjs, this]

theorem dupObjs_fresh {objs : List Obj} {content : Bytes} {props : Props} {id : Int} (h : id ≤ maxID objs) :
    ∀ x ∈ [(⟨maxID objs + 1, content⟩ : Obj),
    ⟨maxID objs + 2, setProperties (setPropByKey b!"Contents" (refString (maxID objs + 1) 0) props)⟩], x.objID ≠ id := by
  intro x hx
  simp only [List.mem_cons, List.not_mem_nil, or_false] at hx
  rcases hx with e | e <;> subst e <;> simp only <;> omega

theorem onlyObj_dupObjs {objs : List Obj} {content : Bytes} {props : Props} {id : Int} {o : Obj} (h : OnlyObj objs id o) :
    OnlyObj (dupObjs objs content props) id o := onlyObj_append_fresh (dupObjs_fresh (OnlyObj_le_maxID h)) h

theorem entries_dupObjs {objs : List Obj} {content : Bytes} {props qs : Props} {id : Int} (h : Entries objs id qs) :
    Entries (dupObjs objs content props) id qs := by
  obtain ⟨o, h1, h2⟩ := h
  exact ⟨o, onlyObj_dupObjs h1, h2⟩

theorem onlyObj_dup_content (objs : List Obj) (content : Bytes) (props : Props) :
    OnlyObj (dupObjs objs content props) (maxID objs + 1) ⟨maxID objs + 1, content⟩ := by
  rw [dupObjs, show objs ++ [(⟨maxID objs + 1, content⟩ : Obj),
    ⟨maxID objs + 2, setProperties (setPropByKey b!"Contents" (refString (maxID objs + 1) 0) props)⟩] =
    (objs ++ [(⟨maxID objs + 1, content⟩ : Obj)]) ++ [(⟨maxID objs + 2, setProperties (setPropByKey b!"Contents" (refString (maxID objs + 1) 0) props)⟩ : Obj)] by simp]
  apply onlyObj_append_fresh
  · intro x hx; simp at hx; subst hx; simp only; omega
  · apply onlyObj_append_new
    · intro x hx; have := le_maxID hx; omega
    · rfl

theorem onlyObj_dup_page (objs : List Obj) (content : Bytes) (props : Props) :
    OnlyObj (dupObjs objs content props) (maxID objs + 2)
      ⟨maxID objs + 2, setProperties (setPropByKey b!"Contents" (refString (maxID objs + 1) 0) props)⟩ := by
  rw [dupObjs, show objs ++ [(⟨maxID objs + 1, content⟩ : Obj),
    ⟨maxID objs + 2, setProperties (setPropByKey b!"Contents" (refString (maxID objs + 1) 0) props)⟩] =
    (objs ++ [(⟨maxID objs + 1, content⟩ : Obj)]) ++ [(⟨maxID objs + 2, setProperties (setPropByKey b!"Contents" (refString (maxID objs + 1) 0) props)⟩ : Obj)] by simp]
  apply onlyObj_append_new
  · intro x hx
    rcases List.mem_append.1 hx with hx | hx
    · have := le_maxID hx; omega
    · simp at hx; subst hx; simp only; omega
  · rfl

theorem refString_noStream (v : Int) : ¬ streamKw <:+: refString v 0 := by
  rw [refString_eq]; exact noStream_of_head (refsT_no_s _)

/-- the entries of the copy -/
def copyEntries (objs : List Obj) (props : Props) : Props := setPropByKey b!"Contents" (refString (maxID objs + 1) 0) props

theorem copy_canon {objs : List Obj} {props : Props} (hc : Canon props) (hn : NoStream props) :
    Canon (copyEntries objs props) ∧ NoStream (copyEntries objs props) := by
  obtain ⟨a, b, c⟩ := refsT_valOk (vs := [maxID objs + 1]) (by simp)
  rw [← refString_eq] at a b c
  exact ⟨setPropByKey_canon hc a b c, setPropByKey_noStream hn (refString_noStream _)⟩

theorem entries_dup_page {objs : List Obj} {content : Bytes} {props : Props} (hc : Canon props) (hn : NoStream props) :
    Entries (dupObjs objs content props) (maxID objs + 2) (copyEntries objs props) := by
  obtain ⟨h1, h2⟩ := copy_canon (objs := objs) hc hn
  exact ⟨_, onlyObj_dup_page objs content props, readProperties_setProperties h1 h2⟩

theorem isPage_copy {objs : List Obj} {props : Props} (h : IsPage props) : IsPage (copyEntries objs props) := by
  unfold IsPage copyEntries
  rw [valueOf_set_ne (by decide), valueOf_set_ne (by decide), valueOf_set_ne (by decide)]
  exact h

mutual
theorem isTree_dup {objs : List Obj} {content : Bytes} {props : Props} (t : Tree) (h : IsTree objs t) : IsTree (dupObjs objs content props) t := by
  match t, h with
  | .leaf i, h =>
    obtain ⟨ps, h1, h2⟩ := h
    exact ⟨ps, entries_dupObjs h1, h2⟩
  | .node i kids, h =>
    obtain ⟨⟨ps, h1, h2⟩, h3⟩ := h
    exact ⟨⟨ps, entries_dupObjs h1, h2⟩, isTreeL_dup kids h3⟩
theorem isTreeL_dup {objs : List Obj} {content : Bytes} {props : Props} (ts : List Tree) (h : IsTreeL objs ts) : IsTreeL (dupObjs objs content props) ts := by
  match ts, h with
  | [], _ => trivial
  | t :: ts, h => exact ⟨isTree_dup t h.1, isTreeL_dup ts h.2⟩
end

theorem Good.dup {d : Doc} {r : Int} {ts : List Tree} (h : Good d r ts) (content : Bytes) (props : Props) :
    Good { d with objs := dupObjs d.objs content props } r ts := by
  obtain ⟨rps, v, hre, hv, hid⟩ := h.root
  obtain ⟨ps, he, hb⟩ := h.body
  exact ⟨⟨rps, v, entries_dupObjs hre, hv, hid⟩, h.ne, isTree_dup _ h.tree, ⟨ps, entries_dupObjs he, hb⟩⟩

/-- zero-based position meant by `position` -/
def posIdx (n : Nat) (position : Int) : Nat := (dupPos n position).toNat

theorem insert_form (ids : List Int) (x : Int) (p : Nat) (hp : p + 1 ≤ ids.length) :
    ids.take (p + 1) ++ [x] ++ ids.drop (p + 1) = ids.insertIdx (p + 1) x := by
  induction ids generalizing p with
  | nil => simp at hp
  | cons a t ih =>
    cases p with
    | zero => simp
    | succ p =>
      have := ih p (by simpa using hp)
      simp at this ⊢
      exact this

/-- what a successful reading phase says -/
theorem dupRead_ok {d : Doc} {r : Int} {ts : List Tree} (h : Good d r ts) {t : Int} {x : List Int × Obj × Props × Obj}
    (hx : dupRead d t = .ok x) :
    x.1 = pagesL ts ∧ 1 ≤ t ∧ t ≤ (pagesL ts).length ∧ ∃ pid v cid, (pagesL ts)[(t - 1).toNat]? = some pid ∧ OnlyObj d.objs pid x.2.1 ∧
      readProperties x.2.1.data = .ok x.2.2.1 ∧ valueOf x.2.2.1 b!"Contents" = some v ∧ readObjIDFromDictionary v = .ok cid ∧
      getObj d.objs cid = some x.2.2.2 := by
  unfold dupRead at hx
  rw [h.pageIDs] at hx
  simp only [Res.ok_bind] at hx
  split at hx
  · simp at hx
  · rename_i hle
    split at hx
    · simp at hx
    · rename_i hge
      rw [Res.bind_eq_ok] at hx
      obtain ⟨pid, hpid, hx⟩ := hx
      have hpid' : (pagesL ts)[(t - 1).toNat]? = some pid := by
        cases hg : (pagesL ts)[(t - 1).toNat]? with
        | none => rw [hg] at hpid; simp at hpid
        | some q => rw [hg] at hpid; simp at hpid; rw [hpid]
      rw [Res.bind_eq_ok] at hx
      obtain ⟨po, hpo, hx⟩ := hx
      rw [Res.bind_eq_ok] at hx
      obtain ⟨props, hprops, hx⟩ := hx
      obtain ⟨qs, ⟨o, ho, hq⟩, hpage⟩ := h.pages_leaf pid (List.mem_of_getElem? hpid')
      rw [getObj_only ho] at hpo
      simp at hpo
      subst hpo
      split at hx
      · simp at hx
      · rename_i c hc
        rw [Res.bind_eq_ok] at hx
        obtain ⟨cid, hcid, hx⟩ := hx
        rw [Res.bind_eq_ok] at hx
        obtain ⟨co, hco, hx⟩ := hx
        have hco' : getObj d.objs cid = some co := by
          cases hg : getObj d.objs cid with
          | none => rw [hg] at hco; simp at hco
          | some q => rw [hg] at hco; simp at hco; rw [hco]
        simp at hx
        subst hx
        refine ⟨rfl, by omega, ?_, pid, c.rawVal, cid, hpid', ho, hprops, ?_, hcid, hco'⟩
        · have : ¬ (t > 0 ∧ ((pagesL ts).length : Int) < t) := hle
          omega
        · simp [valueOf, getPropByKey] at hc ⊢
          exact ⟨c, hc, rfl⟩

/-- `DuplicatePageAfter` on a good document, when it returns nil -/
theorem dup_good {d : Doc} {r : Int} {ts : List Tree} (h : Good d r ts) {t p : Int} {d' : Doc}
    (hd : duplicatePageAfter d t p = ⟨d', .ok ()⟩)
    (hclean : ∀ pid ps, (pagesL ts)[(t - 1).toNat]? = some pid → Entries d.objs pid ps → Canon ps ∧ NoStream ps)
    (hmax : maxID d.objs + 2 < 2 ^ 63) :
    1 ≤ t ∧ t ≤ (pagesL ts).length ∧ -((pagesL ts).length : Int) ≤ p ∧ p < (pagesL ts).length ∧
    ∃ pid props v cid co ps, (pagesL ts)[(t - 1).toNat]? = some pid ∧ Entries d.objs pid props ∧ Canon props ∧ NoStream props ∧
      valueOf props b!"Contents" = some v ∧ readObjIDFromDictionary v = .ok cid ∧ getObj d.objs cid = some co ∧
      Entries d.objs r ps ∧ RootBody ps ∧
      d' = withPages { d with objs := dupObjs d.objs co.data props } r
        ((pagesL ts).insertIdx (posIdx (pagesL ts).length p + 1) (maxID d.objs + 2)) ps ∧
      Good d' r (((pagesL ts).insertIdx (posIdx (pagesL ts).length p + 1) (maxID d.objs + 2)).map .leaf) ∧
      Entries d'.objs r (newRoot ((pagesL ts).insertIdx (posIdx (pagesL ts).length p + 1) (maxID d.objs + 2)) ps) := by
  unfold duplicatePageAfter at hd
  cases hx : dupRead d t with
  | err e => rw [hx] at hd; simp at hd
  | panic => rw [hx] at hd; simp at hd
  | hang => rw [hx] at hd; simp at hd
  | ok x =>
    rw [hx] at hd
    obtain ⟨ids, po, props, co⟩ := x
    obtain ⟨h1, h2, h3, pid, v, cid, h4, h5, h6, h7, h8, h9⟩ := dupRead_ok h hx
    simp only at h1 h5 h6 h7 h9
    subst h1
    simp only [dupStore_eq] at hd
    split at hd
    · simp at hd
    · rename_i hpos
      obtain ⟨hcan, hns⟩ := hclean pid props h4 ⟨po, h5, h6⟩
      have hp1 : -((pagesL ts).length : Int) ≤ p ∧ p < (pagesL ts).length := by
        unfold dupPos at hpos; split at hpos <;> omega
      have hidx : posIdx (pagesL ts).length p + 1 ≤ (pagesL ts).length := by
        unfold posIdx; omega
      have hg := h.dup co.data props
      have hmem : ∀ i ∈ (pagesL ts).insertIdx (posIdx (pagesL ts).length p + 1) (maxID d.objs + 2), i = maxID d.objs + 2 ∨ i ∈ pagesL ts := by
        intro i hi
        rwa [List.mem_insertIdx hidx] at hi
      obtain ⟨qs, hq, hpage⟩ := h.pages_leaf pid (List.mem_of_getElem? h4)
      have hqe : qs = props := hq.unique ⟨po, h5, h6⟩
      subst hqe
      obtain ⟨ps, he, hb, hs, hg', hn⟩ := setPages_good hg
        (ids := (pagesL ts).insertIdx (posIdx (pagesL ts).length p + 1) (maxID d.objs + 2))
        (by
          intro i hi
          rcases hmem i hi with e | hi
          · subst e
            have := maxID_nonneg d.objs
            exact ⟨by omega, by omega⟩
          · exact h.pages_range i hi)
        (by
          intro i hi
          rcases hmem i hi with e | hi
          · subst e
            exact ⟨_, entries_dup_page hcan hns, isPage_copy hpage⟩
          · exact hg.pages_leaf i hi)
      rw [show (dupPos (pagesL ts).length p).toNat = posIdx (pagesL ts).length p from rfl, insert_form _ _ _ hidx] at hd
      rw [hs] at hd
      simp only [stepOf, Step.mk.injEq, and_true] at hd
      subst hd
      obtain ⟨ps0, he0, hb0⟩ := h.body
      have hpe : ps0 = ps := (entries_dupObjs he0).unique he
      subst hpe
      exact ⟨h2, h3, hp1.1, hp1.2, pid, qs, v, cid, co, ps0, h4, ⟨po, h5, h6⟩, hcan, hns, h7, h8, h9, he0, hb0, rfl, hg', hn⟩

end Verif
