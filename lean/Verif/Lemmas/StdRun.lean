import Verif.Theorems.StdSave
import Verif.Theorems.File
/-
For C84: documents linked in the usual way stay so under the page operations and when objects are added, and what these do to the
list of pages.  `Spec.Held`, `Spec.Shown`, `Spec.viewsOf` and `Call.edit` are specification.
-/
namespace Verif
open Spec

theorem mem_setVal {k k' : Bytes} {v v' : Val} : ∀ {d : List (Bytes × Val)}, (k', v') ∈ setVal k v d → (k' = k ∧ v' = v) ∨ (k', v') ∈ d
  | [], h => by simp [setVal] at h
  | e :: d, h => by
    rw [setVal] at h
    split at h
    · rcases List.mem_cons.1 h with h | h
      · cases h; exact Or.inl ⟨rfl, rfl⟩
      · exact Or.inr (List.mem_cons_of_mem _ h)
    · rcases List.mem_cons.1 h with h | h
      · exact Or.inr (by rw [h]; exact List.mem_cons_self)
      · rcases mem_setVal h with h | h
        · exact Or.inl h
        · exact Or.inr (List.mem_cons_of_mem _ h)

/-- the entries of `d'` are entries of `d`, except for numbers, arrays of references to nodes and a reference to a content stream -/
def Derived (R C : Int → Prop) (d d' : List (Bytes × Val)) : Prop :=
  ∀ k v, (k, v) ∈ d' → (k, v) ∈ d ∨ (k = b!"Count" ∧ ∃ q, v = .num q) ∨ (k = b!"Kids" ∧ ∃ ids : List Int, ids ≠ [] ∧ v = .arr (ids.map .ref) ∧ ∀ j ∈ ids, R j) ∨
    (k = b!"Contents" ∧ ∃ c, v = .ref c ∧ Readable c ∧ C c)

theorem Derived.refl (R C : Int → Prop) (d : List (Bytes × Val)) : Derived R C d d := fun _ _ h => Or.inl h

theorem Derived.name {R C : Int → Prop} {d d' : List (Bytes × Val)} (h : Derived R C d d') {k n : Bytes} (hm : (k, Val.name n) ∈ d') : (k, Val.name n) ∈ d := by
  rcases h k _ hm with h | ⟨_, _, h⟩ | ⟨_, _, _, h, _⟩ | ⟨_, _, h, _⟩
  · exact h
  all_goals cases h

theorem Derived.other {R C : Int → Prop} {d d' : List (Bytes × Val)} (h : Derived R C d d') {k : Bytes} {v : Val} (h1 : k ≠ b!"Count") (h2 : k ≠ b!"Kids") (h3 : k ≠ b!"Contents")
    (hm : (k, v) ∈ d') : (k, v) ∈ d := by
  rcases h k _ hm with h | ⟨h, _⟩ | ⟨h, _⟩ | ⟨h, _⟩
  · exact h
  · exact absurd h h1
  · exact absurd h h2
  · exact absurd h h3

/-- a document whose dictionaries come from those of a linked document is linked -/
theorem Spec.LinkedDoc.derive {objs objs' : List Obj} {root : Int} {R R' N C C' : Int → Prop} {D D' : Int → List (Bytes × Val)} (h : LinkedDoc objs root R N C D)
    (hR : ∀ i, R i → R' i) (hC : ∀ i, C i → C' i) (hdict : ∀ i, R' i → StdDict objs' i (D' i)) (hN : ∀ i, N i → StdDict objs' i (D' i) ∧ D' i = D i)
    (hfrom : ∀ i, R' i → ∃ j, R j ∧ (i = root → j = root) ∧ Derived R' C' (D j) (D' i)) (hap : ∀ i, R' i → ¬ N i ∧ ¬ C' i) (hap' : ∀ i, N i → ¬ C' i)
    (hs : ∀ i, C' i → ∃ o, OnlyObj objs' i o) : LinkedDoc objs' root R' N C' D' := by
  refine ⟨fun i hi => hi.elim (hdict i) (fun h => (hN i h).1), hap, hap', hR _ h.top, ?_, ?_, ?_, ?_, ?_, ?_, ?_, ?_, hs⟩
  · intro k n hm
    obtain ⟨j, hj, e, hd⟩ := hfrom root (hR _ h.top)
    rw [e rfl] at hd
    exact h.rootNames k n (hd.name hm)
  · intro v hm
    obtain ⟨j, hj, e, hd⟩ := hfrom root (hR _ h.top)
    rw [e rfl] at hd
    obtain ⟨i, e, hi⟩ := h.pages v (hd.other (by decide) (by decide) (by decide) hm)
    exact ⟨i, e, hR i hi⟩
  · intro i hi v hm
    obtain ⟨j, hj, _, hd⟩ := hfrom i hi
    rcases hd _ v hm with hm | ⟨e, _⟩ | ⟨_, hm⟩ | ⟨e, _⟩
    · obtain ⟨ids, e1, e2, e3⟩ := h.kids j hj v hm
      exact ⟨ids, e1, e2, fun i hi => hR i (e3 i hi)⟩
    · exact absurd e (by decide)
    · exact hm
    · exact absurd e (by decide)
  · intro i hi v hm
    obtain ⟨j, hj, _, hd⟩ := hfrom i hi
    rcases h.res j hj v (hd.other (by decide) (by decide) (by decide) hm) with ⟨r, e, hr⟩ | h
    · exact Or.inl ⟨r, e, hR r hr⟩
    · exact Or.inr h
  · rcases h.uniform with hu | hu
    · left
      intro i hi v hm
      obtain ⟨j, hj, _, hd⟩ := hfrom i hi
      exact hu j hj v (hd.other (by decide) (by decide) (by decide) hm)
    · right
      intro i hi v hm
      obtain ⟨j, hj, _, hd⟩ := hfrom i hi
      exact hu j hj v (hd.other (by decide) (by decide) (by decide) hm)
  · intro i hi
    obtain ⟨j, hj, _, hd⟩ := hfrom i hi
    have he := h.entries j hj
    exact ⟨fun k n hm => he.names k n (hd.name hm), fun v hm => he.font v (hd.other (by decide) (by decide) (by decide) hm),
      fun v hm => he.xobj v (hd.other (by decide) (by decide) (by decide) hm)⟩
  · intro i hi v hm
    obtain ⟨j, hj, _, hd⟩ := hfrom i hi
    rcases hd _ v hm with hm | ⟨e, _⟩ | ⟨e, _⟩ | ⟨_, hm⟩
    · rcases h.contents j hj v hm with ⟨c, e1, e2, e3⟩ | ⟨ids, e1, e2, e3⟩
      · exact Or.inl ⟨c, e1, e2, hC c e3⟩
      · exact Or.inr ⟨ids, e1, e2, fun c hc => ⟨(e3 c hc).1, hC c (e3 c hc).2⟩⟩
    · exact absurd e (by decide)
    · exact absurd e (by decide)
    · exact Or.inl hm
  · intro i hi
    rw [(hN i hi).2]
    exact h.fonts i hi

theorem Spec.LinkedDoc.mono {objs objs' : List Obj} {root : Int} {R N C : Int → Prop} {D : Int → List (Bytes × Val)} (h : LinkedDoc objs root R N C D)
    (hk : ∀ i o, OnlyObj objs i o → OnlyObj objs' i o) : LinkedDoc objs' root R N C D :=
  h.derive (fun _ h => h) (fun _ h => h) (fun i hi => StdDict.kept (h.dicts i (Or.inl hi)) (hk i)) (fun i hi => ⟨StdDict.kept (h.dicts i (Or.inr hi)) (hk i), rfl⟩)
    (fun i hi => ⟨i, hi, fun e => e, Derived.refl _ _ _⟩) h.apart h.apart' (fun i hi => (h.streams i hi).imp (hk i))

/-- What the program works on: a linked document whose page tree has the root `r` and the subtrees `ts`, and whose pages `L` have a content stream each. -/
structure Spec.Held (unzip : Bytes → Option Bytes) (d : Doc) (R N C : Int → Prop) (D : Int → List (Bytes × Val)) (r : Int) (ts : List Tree) (L : List PageC) : Prop where
  root : StdRoot d r (D r) ts
  linked : LinkedDoc d.objs d.rootObjID R N C D
  pages : pagesL ts = L.map (·.page)
  nodup : (L.map (·.obj)).Nodup
  cont : ∀ x ∈ L, (D x.page).lookup b!"Contents" = some (.ref x.obj) ∧ 0 < x.obj ∧ ∃ o, OnlyObj d.objs x.obj o ∧ HoldsStream unzip o.data x.body

section
variable {unzip : Bytes → Option Bytes} {d d' : Doc} {R N C : Int → Prop} {D : Int → List (Bytes × Val)} {r : Int} {ts : List Tree} {L : List PageC}

theorem Spec.Held.mono (h : Held unzip d R N C D r ts L) (hr : d'.rootObjID = d.rootObjID) (hk : ∀ i o, OnlyObj d.objs i o → OnlyObj d'.objs i o) : Held unzip d' R N C D r ts L := by
  refine ⟨StdRoot.mono h.root hr hk, by rw [hr]; exact h.linked.mono hk, h.pages, h.nodup, fun x hx => ?_⟩
  obtain ⟨h1, h2, o, h3, h4⟩ := h.cont x hx
  exact ⟨h1, h2, o, hk _ _ h3, h4⟩

/-- the root is one of the followed objects -/
theorem Spec.Held.rootR (h : Held unzip d R N C D r ts L) : R r := by
  obtain ⟨c, c1, c2⟩ := h.root.catalog
  cases StdDict.unique c1 (h.linked.dicts _ (Or.inl h.linked.top))
  obtain ⟨i, e, hi⟩ := h.linked.pages _ (lookup_mem c2.1)
  cases e
  exact hi

mutual
theorem tree_R (hkids : ∀ i, R i → ∀ v, (b!"Kids", v) ∈ D i → ∃ ids : List Int, ids ≠ [] ∧ v = .arr (ids.map .ref) ∧ ∀ j ∈ ids, R j)
    {objs : List Obj} (hd : ∀ i, R i → StdDict objs i (D i)) : ∀ (t : Tree), StdTree objs t → R t.id → ∀ p ∈ t.pages, R p
  | .leaf i, _, h, p, hp => by
    simp [Tree.pages] at hp
    rw [hp]; exact h
  | .node i ks, hs, h, p, hp => by
    obtain ⟨⟨d, h1, h2⟩, h3⟩ := hs
    cases StdDict.unique h1 (hd i h)
    obtain ⟨ids, _, e, hj⟩ := hkids i h _ (lookup_mem h2.2.1.1)
    rw [Tree.pages] at hp
    have e' : ks.map Tree.id = ids := by
      simp only [Val.arr.injEq] at e
      exact (List.map_injective_iff.2 (fun a b h => by cases h; rfl)) e
    exact treeL_R hkids hd ks h3 (fun t ht => hj _ (by rw [← e']; exact List.mem_map.2 ⟨t, ht, rfl⟩)) p hp
theorem treeL_R (hkids : ∀ i, R i → ∀ v, (b!"Kids", v) ∈ D i → ∃ ids : List Int, ids ≠ [] ∧ v = .arr (ids.map .ref) ∧ ∀ j ∈ ids, R j)
    {objs : List Obj} (hd : ∀ i, R i → StdDict objs i (D i)) : ∀ (ts : List Tree), StdTreeL objs ts → (∀ t ∈ ts, R t.id) → ∀ p ∈ pagesL ts, R p
  | [], _, _, p, hp => by simp [pagesL] at hp
  | t :: ts, hs, h, p, hp => by
    rw [pagesL, List.mem_append] at hp
    rcases hp with hp | hp
    · exact tree_R hkids hd t hs.1 (h t (by simp)) p hp
    · exact treeL_R hkids hd ts hs.2 (fun t ht => h t (by simp [ht])) p hp
end

theorem Spec.Held.pageR (h : Held unzip d R N C D r ts L) : ∀ p ∈ pagesL ts, R p := by
  have : StdTree d.objs (.node r ts) := ⟨⟨D r, h.root.dict, h.root.node⟩, h.root.kids⟩
  intro p hp
  exact tree_R h.linked.kids (fun i hi => h.linked.dicts i (Or.inl hi)) (.node r ts) this h.rootR p (by simpa [Tree.pages] using hp)

theorem derived_root (D : Int → List (Bytes × Val)) {ids : List Int} (hne : ids ≠ []) (hids : ∀ j ∈ ids, R j) : Derived R C (D r) (withKids (D r) ids) := by
  intro k v hm
  rcases mem_setVal hm with ⟨rfl, rfl⟩ | hm
  · exact Or.inr (Or.inr (Or.inl ⟨rfl, ids, hne, rfl, hids⟩))
  · rcases mem_setVal hm with ⟨rfl, rfl⟩ | hm
    · exact Or.inr (Or.inl ⟨rfl, _, rfl⟩)
    · exact Or.inl hm

theorem Spec.Held.cont_ne (h : Held unzip d R N C D r ts L) : ∀ x ∈ L, x.obj ≠ r ∧ x.page ≠ r ∧ C x.obj ∧ Readable x.obj := by
  intro x hx
  have hp : x.page ∈ pagesL ts := by rw [h.pages]; exact List.mem_map.2 ⟨x, hx, rfl⟩
  have hR := h.pageR _ hp
  obtain ⟨h1, _⟩ := h.cont x hx
  rcases h.linked.contents _ hR _ (lookup_mem h1) with ⟨c, e, c1, c2⟩ | ⟨_, _, e, _⟩
  · cases e
    exact ⟨fun e => (h.linked.apart _ h.rootR).2 (e ▸ c2), StdRoot.page_ne h.root _ hp, c2, c1⟩
  · cases e

/-- giving the root other pages -/
theorem Spec.Held.setRoot (h : Held unzip d R N C D r ts L) {L' : List PageC} (hsub : ∀ x ∈ L', x ∈ L) (hne : L' ≠ []) (hnd : (L'.map (·.obj)).Nodup) (hr : d'.rootObjID = d.rootObjID)
    (hs : StdRoot d' r (withKids (D r) (L'.map (·.page))) ((L'.map (·.page)).map .leaf)) (hk : Kept d d' r) :
    Held unzip d' R N C (fun i => if i = r then withKids (D r) (L'.map (·.page)) else D i) r ((L'.map (·.page)).map .leaf) L' := by
  have hsp : ∀ x ∈ L', x.page ∈ pagesL ts := fun x hx => by rw [h.pages]; exact List.mem_map.2 ⟨x, hsub x hx, rfl⟩
  have hpl : ∀ l : List Int, pagesL (l.map .leaf) = l := by
    intro l
    induction l with
    | nil => rfl
    | cons a l ih => rw [List.map_cons, pagesL, ih]; rfl
  have key : ∀ i, i ≠ r → R i ∨ N i → StdDict d'.objs i (D i) := fun i hi h' => StdDict.kept (h.linked.dicts i h') (fun o => hk i o hi)
  refine ⟨by simpa using hs, ?_, hpl _, hnd, fun x hx => ?_⟩
  · rw [hr]
    refine h.linked.derive (fun _ h => h) (fun _ h => h) ?_ ?_ ?_ h.linked.apart h.linked.apart' ?_
    · intro i hi
      by_cases e : i = r
      · subst e; simpa using hs.dict
      · simpa [e] using key i e (Or.inl hi)
    · intro i hi
      have e : i ≠ r := fun e => (h.linked.apart _ h.rootR).1 (e ▸ hi)
      simpa [e] using key i e (Or.inr hi)
    · intro i hi
      refine ⟨i, hi, fun e => e, ?_⟩
      by_cases e : i = r
      · subst e
        simp only [if_true]
        exact derived_root D (by simpa using hne) (by
          intro j hj
          obtain ⟨x, hx, rfl⟩ := List.mem_map.1 hj
          exact h.pageR _ (hsp x hx))
      · simp only [e, if_false]
        exact Derived.refl _ _ _
    · intro i hi
      obtain ⟨o, ho⟩ := h.linked.streams i hi
      exact ⟨o, hk i o (fun e => (h.linked.apart _ h.rootR).2 (e ▸ hi)) ho⟩
  · obtain ⟨h1, h2, o, h3, h4⟩ := h.cont x (hsub x hx)
    obtain ⟨n1, n2, _⟩ := h.cont_ne x (hsub x hx)
    exact ⟨by simpa [n2] using h1, h2, o, hk _ o n1 h3, h4⟩

/-- `setPages` keeps the catalog -/
theorem setPages_root {d d' : Doc} {ids : List Int} (h : setPages d ids = .ok d') : d'.rootObjID = d.rootObjID := by
  unfold setPages at h
  rw [Res.bind_eq_ok] at h
  obtain ⟨_, _, h⟩ := h
  rw [Res.bind_eq_ok] at h
  obtain ⟨_, _, h⟩ := h
  rw [Res.bind_eq_ok] at h
  obtain ⟨_, _, h⟩ := h
  rw [Res.bind_eq_ok] at h
  obtain ⟨_, _, h⟩ := h
  rw [Res.bind_eq_ok] at h
  obtain ⟨_, _, h⟩ := h
  simp only at h
  rw [Res.bind_eq_ok] at h
  obtain ⟨_, _, h⟩ := h
  rw [Res.bind_eq_ok] at h
  obtain ⟨objs, ho, h⟩ := h
  simp only [Res.ok.injEq] at h
  subst h
  rfl

/-- the pages as an independent reader finds them: their entries, without the number of the content stream, and their contents -/
def Spec.viewsOf (D : Int → List (Bytes × Val)) (L : List PageC) : List (List (Bytes × Val) × Bytes) := L.map (fun x => (setVal b!"Contents" (.ref 0) (D x.page), x.body))

theorem viewsOf_congr {D D' : Int → List (Bytes × Val)} {L : List PageC} (h : ∀ x ∈ L, D' x.page = D x.page) : viewsOf D' L = viewsOf D L :=
  List.map_congr_left (fun x hx => by rw [h x hx])

theorem Spec.Held.len (h : Held unzip d R N C D r ts L) : (pagesL ts).length = L.length := by rw [h.pages, List.length_map]

theorem Spec.Held.shows (h : Held unzip d R N C D r ts L) : ∀ x ∈ L, ∃ o, OnlyObj d.objs x.obj o ∧ HoldsStream unzip o.data x.body ∧
    StdShows d.objs r x.page (setVal b!"Contents" (.ref 0) (D x.page), some o.data) := by
  intro x hx
  obtain ⟨h1, h2, o, h3, h4⟩ := h.cont x hx
  obtain ⟨n1, n2, n3, n4⟩ := h.cont_ne x hx
  have hp : x.page ∈ pagesL ts := by rw [h.pages]; exact List.mem_map.2 ⟨x, hx, rfl⟩
  have hR := h.pageR _ hp
  obtain ⟨d0, e1, e2⟩ := StdTreeL.pages ts h.root.kids _ hp
  cases StdDict.unique e1 (h.linked.dicts _ (Or.inl hR))
  have hn := NotNamed.no (NoLinkNames.not (h.linked.linked.names _ hR) (k := b!"Contents") (by decide))
  exact ⟨o, h3, h4, D x.page, e1, e2, Or.inl ⟨x.obj, o, h2, by have := n4.2; omega, n1, ⟨h1, hn⟩, h3, rfl⟩⟩

/-- `RemovePage` on such a document -/
theorem Spec.Held.remove (h : Held unzip d R N C D r ts L) {k : Int} (h1 : 1 ≤ k) (h2 : k ≤ L.length) (hne : L.take (k - 1).toNat ++ L.drop k.toNat ≠ []) :
    ∃ d' D' ts', removePage d k = .ok d' ∧ Held unzip d' R N C D' r ts' (L.take (k - 1).toNat ++ L.drop k.toNat) ∧
      viewsOf D' (L.take (k - 1).toNat ++ L.drop k.toNat) = (viewsOf D L).take (k - 1).toNat ++ (viewsOf D L).drop k.toNat ∧ maxID d'.objs = maxID d.objs := by
  obtain ⟨d', ids, e1, e2, e3, e4, e5⟩ := C80_remove_partial h.root h1 (by rw [h.len]; exact h2)
  have hids : ids = (L.take (k - 1).toNat ++ L.drop k.toNat).map (·.page) := by
    rw [e2, h.pages, ← List.map_take, ← List.map_drop, List.map_append]
  have hsub : ∀ x ∈ L.take (k - 1).toNat ++ L.drop k.toNat, x ∈ L := by
    intro x hx
    rcases List.mem_append.1 hx with hx | hx
    · exact List.mem_of_mem_take hx
    · exact List.mem_of_mem_drop hx
  have hnd : ((L.take (k - 1).toNat ++ L.drop k.toNat).map (·.obj)).Nodup := by
    have : (L.take (k - 1).toNat ++ L.drop k.toNat).Sublist L := by
      have := erase_eq L k h1
      rw [← this]
      exact List.eraseIdx_sublist _ _
    exact h.nodup.sublist (this.map _)
  rw [hids] at e3
  have hr : d'.rootObjID = d.rootObjID := by
    rw [removePage, StdRoot.pageIDs h.root] at e1
    simp only [Res.ok_bind] at e1
    split at e1
    · cases e1
    · split at e1
      · cases e1
      · exact setPages_root e1
  refine ⟨d', _, _, e1, h.setRoot hsub hne hnd hr e3 e4, ?_, e5⟩
  rw [viewsOf_congr (D := D) (fun x hx => by simp [(h.cont_ne x (hsub x hx)).2.1])]
  simp [viewsOf, List.map_take, List.map_drop]

theorem Spec.Held.removeOthers (h : Held unzip d R N C D r ts L) {k : Int} {x : PageC} (h1 : 0 ≤ k) (h2 : L[k.toNat]? = some x) :
    ∃ d' D' ts', removeOtherPages d k = .ok d' ∧ Held unzip d' R N C D' r ts' [x] ∧ viewsOf D' [x] = viewsOf D [x] ∧ maxID d'.objs = maxID d.objs := by
  have hx : x ∈ L := List.mem_of_getElem? h2
  have hp : x.page ∈ pagesL ts := by rw [h.pages]; exact List.mem_map.2 ⟨x, hx, rfl⟩
  obtain ⟨d', s1, s2, s3, s4, s5⟩ := setPages_std h.root (ids := [x.page]) (fun i hi => StdTreeL.pages ts h.root.kids i (by simp at hi; rw [hi]; exact hp))
  refine ⟨d', _, _, ?_, h.setRoot (L' := [x]) (by simpa using hx) (by simp) (by simp) s4 s2 s3, viewsOf_congr (fun y hy => by simp at hy; subst hy; simp [(h.cont_ne _ hx).2.1]), s5⟩
  have hlt := lt_length_of_getElem? h2
  rw [removeOtherPages, StdRoot.pageIDs h.root]
  simp only [Res.ok_bind]
  rw [if_neg (by rw [h.len]; omega), if_neg (by omega), h.pages, List.getElem?_map, h2]
  simpa using s1

theorem Spec.Held.le_max (h : Held unzip d R N C D r ts L) {i : Int} (hi : R i ∨ N i ∨ C i) : i ≤ maxID d.objs := by
  rcases hi with hi | hi | hi
  · obtain ⟨_, _, o, _, _, _, _, ho, _⟩ := h.linked.dicts _ (Or.inl hi)
    exact OnlyObj_le_maxID ho
  · obtain ⟨_, _, o, _, _, _, _, ho, _⟩ := h.linked.dicts _ (Or.inr hi)
    exact OnlyObj_le_maxID ho
  · obtain ⟨o, ho⟩ := h.linked.streams _ hi
    exact OnlyObj_le_maxID ho

theorem duplicate_root {d d' : Doc} {t p : Int} (hd : duplicatePageAfter d t p = ⟨d', .ok ()⟩) : d'.rootObjID = d.rootObjID := by
  unfold duplicatePageAfter at hd
  split at hd
  · simp at hd
  · simp at hd
  · simp at hd
  · simp only [dupStore_eq] at hd
    split at hd
    · simp at hd
    · unfold stepOf at hd
      split at hd
      · rename_i hs
        simp at hd
        subst hd
        exact (setPages_root hs :)
      all_goals simp at hd

/-- `DuplicatePageAfter` on such a document -/
theorem Spec.Held.duplicate (h : Held unzip d R N C D r ts L) {t p : Int} {x : PageC} {q : Nat} (ht : 1 ≤ t) (hx : L[(t - 1).toNat]? = some x) (hp1 : -(L.length : Int) ≤ p) (hp2 : p < L.length)
    (hq : q = if p < 0 then (L.length + p).toNat else p.toNat) (hmax : maxID d.objs + 2 < 2 ^ 63) :
    ∃ d' R' C' D' ts', duplicatePageAfter d t p = ⟨d', .ok ()⟩ ∧ Held unzip d' R' N C' D' r ts' (L.take (q + 1) ++ [⟨maxID d.objs + 2, maxID d.objs + 1, x.body⟩] ++ L.drop (q + 1)) ∧
      viewsOf D' (L.take (q + 1) ++ [⟨maxID d.objs + 2, maxID d.objs + 1, x.body⟩] ++ L.drop (q + 1)) =
        (viewsOf D L).take (q + 1) ++ [(setVal b!"Contents" (.ref 0) (D x.page), x.body)] ++ (viewsOf D L).drop (q + 1) ∧ maxID d'.objs = maxID d.objs + 2 := by
  have hxL : x ∈ L := List.mem_of_getElem? hx
  have hlen := h.len
  have hsrc : (pagesL ts)[(t - 1).toNat]? = some x.page := by rw [h.pages, List.getElem?_map, hx]; rfl
  obtain ⟨o, o1, o2, o3⟩ := h.shows x hxL
  obtain ⟨d', hd⟩ := C80_duplicate_succeeds_partial h.root ht hsrc o3 (p := p) (by rw [hlen]; exact hp1) (by rw [hlen]; exact hp2) hmax
  have hsh : ∀ i ∈ pagesL ts, ∃ v, StdShows d.objs r i v := by
    intro i hi
    rw [h.pages] at hi
    obtain ⟨y, hy, rfl⟩ := List.mem_map.1 hi
    obtain ⟨_, _, _, hs⟩ := h.shows y hy
    exact ⟨_, hs⟩
  obtain ⟨_, _, _, _, src, q', ids, b1, b2, b3, b4, b5, b6, b7, b8⟩ := C80_duplicate_partial h.root hd hsh hmax
  rw [hsrc] at b1
  cases b1
  rw [hlen, ← hq] at b2
  rw [b2] at b3
  clear b2
  generalize hm : maxID d.objs = m at *
  have hpos : 0 ≤ m := by rw [← hm]; exact maxID_nonneg _
  have hRx : R x.page := h.pageR _ (List.mem_of_getElem? hsrc)
  have hle : ∀ {i : Int}, R i ∨ N i ∨ C i → i ≤ m := fun hi => by rw [← hm]; exact h.le_max hi
  have hnew := b6 _ (h.linked.dicts _ (Or.inl hRx))
  obtain ⟨⟨dd, n1, n2, n3⟩, _⟩ := b5 _ o3
  cases StdDict.unique n1 hnew
  obtain ⟨c0, c1, c2⟩ := h.cont x hxL
  obtain ⟨o', p1, p2⟩ : ∃ o', OnlyObj d'.objs (m + 1) o' ∧ o'.data = o.data := by
    rcases n3 with ⟨c, o', _, _, _, e, ho', e'⟩ | ⟨_, _, e'⟩
    · have e1 := e.1
      rw [setVal_lookup_self c0] at e1
      cases e1
      exact ⟨o', ho', by simpa using (congrArg Prod.snd e').symm⟩
    · simp at e'
  set L' := L.take (q + 1) ++ [(⟨m + 2, m + 1, x.body⟩ : PageC)] ++ L.drop (q + 1) with hL'
  have hids : ids = L'.map (·.page) := by
    rw [b3, h.pages, hL']
    simp [List.map_take, List.map_drop]
  rw [hids] at b4
  have hmem : ∀ y ∈ L', y ∈ L ∨ y = ⟨m + 2, m + 1, x.body⟩ := by
    intro y hy
    rw [hL', List.mem_append, List.mem_append] at hy
    rcases hy with (hy | hy) | hy
    · exact Or.inl (List.mem_of_mem_take hy)
    · simp at hy; exact Or.inr hy
    · exact Or.inl (List.mem_of_mem_drop hy)
  have hr := hle (Or.inl h.rootR)
  have hpl : ∀ l : List Int, pagesL (l.map .leaf) = l := by
    intro l
    induction l with
    | nil => rfl
    | cons a l ih => rw [List.map_cons, pagesL, ih]; rfl
  have hpage : ∀ y ∈ L, y.page ≠ r ∧ y.page ≤ m ∧ y.obj ≤ m ∧ R y.page := by
    intro y hy
    have hRy : R y.page := h.pageR _ (by rw [h.pages]; exact List.mem_map.2 ⟨y, hy, rfl⟩)
    exact ⟨(h.cont_ne y hy).2.1, hle (Or.inl hRy), hle (Or.inr (Or.inr (h.cont_ne y hy).2.2.1)), hRy⟩
  let D' : Int → List (Bytes × Val) := fun i => if i = r then withKids (D r) (L'.map (·.page)) else if i = m + 2 then setVal b!"Contents" (.ref (m + 1)) (D x.page) else D i
  have hDr : D' r = withKids (D r) (L'.map (·.page)) := by simp [D']
  have hDn : D' (m + 2) = setVal b!"Contents" (.ref (m + 1)) (D x.page) := by simp [D', show m + 2 ≠ r by omega]
  have hDo : ∀ i, i ≠ r → i ≠ m + 2 → D' i = D i := fun i e1 e2 => by simp [D', e1, e2]
  refine ⟨d', fun i => R i ∨ i = m + 2, fun i => C i ∨ i = m + 1, D', (L'.map (·.page)).map .leaf, hd, ⟨by rw [hDr]; exact b4, ?_, hpl _, ?_, ?_⟩, ?_, by rw [b8]⟩
  · rw [duplicate_root hd]
    refine h.linked.derive (fun i hi => Or.inl hi) (fun i hi => Or.inl hi) ?_ ?_ ?_ ?_ ?_ ?_
    · intro i hi
      by_cases e : i = r
      · rw [e, hDr]; exact b4.dict
      · by_cases e' : i = m + 2
        · rw [e', hDn]; exact hnew
        · rw [hDo i e e']
          rcases hi with hi | hi
          · exact StdDict.kept (h.linked.dicts i (Or.inl hi)) (fun o => b7 i o e)
          · exact absurd hi e'
    · intro i hi
      have e : i ≠ r := fun e => (h.linked.apart _ h.rootR).1 (e ▸ hi)
      have := hle (Or.inr (Or.inl hi))
      have e' : D' i = D i := hDo i e (by omega)
      rw [e']
      exact ⟨StdDict.kept (h.linked.dicts i (Or.inr hi)) (fun o => b7 i o e), rfl⟩
    · intro i hi
      by_cases e : i = r
      · refine ⟨r, h.rootR, fun e' => by rw [← e, e'], ?_⟩
        rw [e, hDr]
        refine derived_root D (by rw [hL']; simp) (fun j hj => ?_)
        obtain ⟨y, hy, rfl⟩ := List.mem_map.1 hj
        rcases hmem y hy with hy | rfl
        · exact Or.inl (hpage y hy).2.2.2
        · exact Or.inr rfl
      · by_cases e' : i = m + 2
        · refine ⟨x.page, hRx, fun e2 => ?_, ?_⟩
          · have := hle (Or.inl h.linked.top)
            omega
          · rw [e', hDn]
            intro k v hmv
            rcases mem_setVal hmv with ⟨rfl, rfl⟩ | hmv
            · exact Or.inr (Or.inr (Or.inr ⟨rfl, _, rfl, ⟨by omega, by omega⟩, Or.inr rfl⟩))
            · exact Or.inl hmv
        · rcases hi with hi | hi
          · refine ⟨i, hi, fun e => e, ?_⟩
            rw [hDo i e e']
            exact Derived.refl _ _ _
          · exact absurd hi e'
    · intro i hi
      constructor
      · intro hN
        rcases hi with hi | hi
        · exact (h.linked.apart i hi).1 hN
        · have := hle (Or.inr (Or.inl hN)); omega
      · intro hC
        rcases hi with hi | hi <;> rcases hC with hC | hC
        · exact (h.linked.apart i hi).2 hC
        · have := hle (Or.inl hi); omega
        · have := hle (Or.inr (Or.inr hC)); omega
        · omega
    · intro i hN hC
      rcases hC with hC | hC
      · exact h.linked.apart' i hN hC
      · have := hle (Or.inr (Or.inl hN)); omega
    · intro i hC
      rcases hC with hC | rfl
      · obtain ⟨o, ho⟩ := h.linked.streams i hC
        exact ⟨o, b7 i o (fun e => (h.linked.apart _ h.rootR).2 (e ▸ hC)) ho⟩
      · exact ⟨o', p1⟩
  · have hperm : (L'.map (·.obj)).Perm ((m + 1) :: L.map (·.obj)) := by
      have : L'.Perm (⟨m + 2, m + 1, x.body⟩ :: L) := by
        rw [hL', List.append_assoc]
        refine List.perm_middle.trans ?_
        show (_ :: (L.take (q + 1) ++ L.drop (q + 1))).Perm _
        rw [List.take_append_drop]
      exact this.map (·.obj)
    rw [hperm.nodup_iff, List.nodup_cons]
    refine ⟨fun hy => ?_, h.nodup⟩
    obtain ⟨y, hy, e⟩ := List.mem_map.1 hy
    have := (hpage y hy).2.2.1
    omega
  · intro y hy
    rcases hmem y hy with hy | rfl
    · obtain ⟨h1, h2, o, h3, h4⟩ := h.cont y hy
      have := hpage y hy
      rw [hDo _ this.1 (by omega)]
      exact ⟨h1, h2, o, b7 _ o (h.cont_ne y hy).1 h3, h4⟩
    · simp only [hDn]
      exact ⟨setVal_lookup_self c0, by omega, o', p1, by rw [p2]; exact o2⟩
  · have e1 : ∀ l : List PageC, (∀ y ∈ l, y ∈ L) → viewsOf D' l = viewsOf D l := fun l hl => viewsOf_congr (fun y hy => by
      have := hpage y (hl y hy)
      exact hDo _ this.1 (by omega))
    have e2 : viewsOf D' L' = viewsOf D' (L.take (q + 1)) ++ viewsOf D' [⟨m + 2, m + 1, x.body⟩] ++ viewsOf D' (L.drop (q + 1)) := by
      rw [hL']; simp [viewsOf]
    rw [e2, e1 _ (fun y hy => List.mem_of_mem_take hy), e1 _ (fun y hy => List.mem_of_mem_drop hy)]
    simp only [viewsOf, List.map_cons, List.map_nil, hDn, setVal_setVal, List.map_take, List.map_drop]

end

/-- the document `d'` is `d`, perhaps with one more object -/
def GrownDoc (d d' : Doc) : Prop := d' = d ∨ ∃ o, d' = (d.putNewObject o).1

theorem GrownDoc.facts {d d' : Doc} (h : GrownDoc d d') : d'.rootObjID = d.rootObjID ∧ (∀ i o, OnlyObj d.objs i o → OnlyObj d'.objs i o) ∧ maxID d'.objs ≤ maxID d.objs + 1 := by
  rcases h with rfl | ⟨o, rfl⟩
  · exact ⟨rfl, fun _ _ h => h, by omega⟩
  · refine ⟨rfl, fun i x hx => ?_, ?_⟩
    · refine onlyObj_append_fresh (fun y hy e => ?_) hx
      have := OnlyObj_le_maxID hx
      simp at hy
      subst hy
      simp only at e
      omega
    · have := maxID_append_single d.objs { o with objID := maxID d.objs + 1 } rfl
      simp only [Doc.putNewObject, Doc.put]
      rw [this]

theorem insert_doc (a : App) (env : Env) (text : Bytes) (page : Int) (x y w hh : ℚ) (align : Nat) (color : Option (Int × Int × Int)) :
    (a.insert env text page x y w hh align color).state.doc = a.doc := by
  unfold App.insert
  split
  · split <;> rfl
  all_goals rfl

theorem measure_doc (a : App) (env : Env) (text : Bytes) : (a.measureTextWidth env text).1.doc = a.doc := by
  unfold App.measureTextWidth
  split
  · rfl
  · simp only
    split
    · rfl
    · rfl
    · split <;> rfl

theorem wrapLoop_doc (env : Env) (w step : ℚ) : ∀ (ts : List Bytes) (a : App) (st : WrapState), (App.wrapLoop env w step a st ts).1.doc = a.doc
  | [], a, st => by simp [App.wrapLoop]
  | t :: ts, a, st => by
    rw [App.wrapLoop]
    split
    · exact wrapLoop_doc env w step ts a st
    · have hm := measure_doc a env (st.curr ++ t)
      generalize hr : a.measureTextWidth env (st.curr ++ t) = r at hm ⊢
      obtain ⟨a', r⟩ := r
      cases r with
      | ok q =>
        simp only at hm ⊢
        split
        · rw [wrapLoop_doc env w step ts, hm]
        · rw [wrapLoop_doc env w step ts, hm]
      | err e => exact hm
      | panic => exact hm
      | hang => exact hm

theorem insertAll_doc (env : Env) (page : Int) (x w hh : ℚ) (align : Nat) (color : Option (Int × Int × Int)) (yo : ℚ) :
    ∀ (ls : List (Bytes × ℚ)) (a : App), (App.insertAll env page x w hh align color yo a ls).state.doc = a.doc
  | [], a => by simp [App.insertAll]
  | l :: ls, a => by
    rw [App.insertAll]
    have hi := insert_doc a env l.1 page x (l.2 - yo) w hh align color
    generalize a.insert env l.1 page x (l.2 - yo) w hh align color = r at hi ⊢
    obtain ⟨a', r⟩ := r
    cases r with
    | ok _ => exact (insertAll_doc env page x w hh align color yo ls a').trans hi
    | err e => exact hi
    | panic => exact hi
    | hang => exact hi

theorem insertWrap_doc (a : App) (env : Env) (text : Bytes) (page : Int) (x y w hh : ℚ) (align : Nat) (color : Option (Int × Int × Int))
    (br : Option (Bytes → Option (List Bytes))) : (a.insertWrapText env text page x y w hh align color br).state.doc = a.doc := by
  unfold App.insertWrapText
  split
  · exact insert_doc a env _ _ _ _ _ _ _ _
  · split
    · rfl
    · rename_i tokens _
      simp only
      have hl := wrapLoop_doc env w (a.fontSize + a.fontSize * (2 / 10)) tokens a { lines := [], y := y, prev := [], curr := [] }
      generalize App.wrapLoop env w (a.fontSize + a.fontSize * (2 / 10)) a { lines := [], y := y, prev := [], curr := [] } tokens = r at hl ⊢
      obtain ⟨a', r⟩ := r
      cases r with
      | ok st => exact (insertAll_doc env page x w hh align color _ _ a').trans hl
      | err e => exact hl
      | panic => exact hl
      | hang => exact hl

theorem makeImg_grown {a a' : App} {env : Env} {file : Bytes} {i : ImageData} (hm : a.makeImg env file = .ok (a', i)) : GrownDoc a.doc a'.doc := by
  unfold App.makeImg at hm
  rw [Res.bind_eq_ok] at hm
  obtain ⟨info, _, hm⟩ := hm
  split at hm
  · simp only [Res.ok.injEq, Prod.mk.injEq] at hm
    rw [← hm.1]; exact Or.inl rfl
  · simp only [Res.ok.injEq, Prod.mk.injEq] at hm
    rw [← hm.1]
    exact Or.inr ⟨_, rfl⟩

theorem addImgContent_doc (a : App) (env : Env) (img : Nat) (page : Int) (x y w hh : ℚ) : (a.addImgContent env img page x y w hh).state.doc = a.doc := by
  unfold App.addImgContent
  split <;> rfl

theorem insertImg_grown (a : App) (env : Env) (file : Bytes) (page : Int) (x y w hh : ℚ) : GrownDoc a.doc (a.insertImg env file page x y w hh).state.doc := by
  unfold App.insertImg
  split
  · rename_i a' i hm
    rw [addImgContent_doc]
    exact (makeImg_grown hm :)
  all_goals exact Or.inl rfl

theorem insertImgWithCache_grown (a : App) (env : Env) (file : Bytes) (page : Int) (x y w hh : ℚ) : GrownDoc a.doc (a.insertImgWithCache env file page x y w hh).state.doc := by
  unfold App.insertImgWithCache
  split
  · rw [addImgContent_doc]; exact Or.inl rfl
  · split
    · rename_i a' i hm
      rw [addImgContent_doc]
      exact (makeImg_grown hm :)
    all_goals exact Or.inl rfl

/-- calls on pages -/
def Call.onPages : Call → Bool
  | .duplicate _ _ | .remove _ | .removeOthers _ => true
  | _ => false

/-- the other calls only add objects to the document -/
theorem after_grown (env : Env) (a : App) (c : Call) (h : c.onPages = false) (hs : c ≠ .save) : GrownDoc a.doc (a.after env c).doc := by
  cases c with
  | insert => exact Or.inl (insert_doc ..)
  | insertWrap => exact Or.inl (insertWrap_doc ..)
  | measure => exact Or.inl (measure_doc ..)
  | img => exact insertImg_grown ..
  | imgBase64 text page x y w hh =>
    show GrownDoc a.doc (a.insertImgBase64 env text page x y w hh).state.doc
    unfold App.insertImgBase64
    split
    · exact Or.inl rfl
    · exact insertImg_grown ..
  | imgCached => exact insertImgWithCache_grown ..
  | addFont name file =>
    left
    show (a.addFont name file).state.doc = a.doc
    unfold App.addFont
    split
    · rfl
    · split <;> rfl
  | setFont name style size =>
    left
    show (a.setFont env name style size).state.doc = a.doc
    unfold App.setFont
    split <;> rfl
  | textrise name fn =>
    left
    show (a.textriseOverride name fn).state.doc = a.doc
    unfold App.textriseOverride
    split <;> rfl
  | kern name fn =>
    left
    show (a.kernOverride name fn).state.doc = a.doc
    unfold App.kernOverride
    split <;> rfl
  | border s =>
    left
    show (a.showCellBorder s).doc = a.doc
    unfold App.showCellBorder
    split <;> rfl
  | protect r p u o =>
    left
    show (a.setProtection env r p u o).state.doc = a.doc
    unfold App.setProtection
    split <;> rfl
  | duplicate => cases h
  | remove => cases h
  | removeOthers => cases h
  | save => exact absurd rfl hs


/-! ### runs -/

/-- What a call does to the list of pages.  A call that fails does nothing.  `RemoveOtherPages` keeps the page after the one named (C09). -/
def Call.edit {α : Type} : Call → List α → List α
  | .remove k, l => if 1 ≤ k ∧ k ≤ l.length then l.take (k - 1).toNat ++ l.drop k.toNat else l
  | .removeOthers k, l => if 0 ≤ k then l[k.toNat]?.elim l (fun x => [x]) else l
  | .duplicate t p, l =>
    if 1 ≤ t ∧ -(l.length : Int) ≤ p ∧ p < l.length then
      l[(t - 1).toNat]?.elim l (fun x =>
        l.take ((if p < 0 then (l.length + p).toNat else p.toNat) + 1) ++ [x] ++ l.drop ((if p < 0 then (l.length + p).toNat else p.toNat) + 1))
    else l
  | _, l => l

/-- What an independent reader finds: the document is linked, and these are its pages. -/
def Spec.Shown (unzip : Bytes → Option Bytes) (d : Doc) (views : List (List (Bytes × Val) × Bytes)) : Prop :=
  ∃ R N C D r ts L, Held unzip d R N C D r ts L ∧ views = viewsOf D L

theorem Call.edit_nil {α : Type} (c : Call) : c.edit ([] : List α) = [] := by
  cases c <;> simp [Call.edit]

theorem edits_nil {α : Type} : ∀ (calls : List (Env × Call)), calls.foldl (fun (l : List α) c => c.2.edit l) [] = []
  | [] => rfl
  | c :: cs => by rw [List.foldl_cons, Call.edit_nil]; exact edits_nil cs

theorem removePage_fail {d : Doc} {ids : List Int} (hids : getPageObjIDs d = .ok ids) {k : Int} (h : ¬ (1 ≤ k ∧ k ≤ ids.length)) : ∀ d', removePage d k ≠ .ok d' := by
  intro d'
  rw [removePage, hids]
  simp only [Res.ok_bind]
  split
  · simp
  · rw [if_pos (by omega)]; simp

theorem removeOtherPages_fail {d : Doc} {ids : List Int} (hids : getPageObjIDs d = .ok ids) {k : Int} (h : ¬ (0 ≤ k ∧ k < ids.length)) : ∀ d', removeOtherPages d k ≠ .ok d' := by
  intro d'
  rw [removeOtherPages, hids]
  simp only [Res.ok_bind]
  split
  · simp
  · split
    · simp
    · rw [List.getElem?_eq_none (by omega)]; simp

theorem stepOf_fail {d : Doc} {r : Res Doc} (h : ∀ d', r ≠ .ok d') : (stepOf d r).state = d := by
  unfold stepOf
  split
  · exact absurd rfl (h _)
  all_goals rfl

/-- a failing `DuplicatePageAfter` leaves the document alone, or adds objects -/
theorem duplicate_fail {d : Doc} {ids : List Int} (hids : getPageObjIDs d = .ok ids) {t p : Int} (h : ¬ (1 ≤ t ∧ t ≤ ids.length ∧ -(ids.length : Int) ≤ p ∧ p < ids.length))
    (hp : ∀ i ∈ ids, ∃ o, OnlyObj d.objs i o) :
    (duplicatePageAfter d t p).state = d ∨ ∃ content props, (duplicatePageAfter d t p).state = { d with objs := dupObjs d.objs content props } := by
  unfold duplicatePageAfter
  split
  · exact Or.inl rfl
  · exact Or.inl rfl
  · exact Or.inl rfl
  · rename_i ids' po props co hx
    obtain ⟨h1, h2, h3, _⟩ := dupRead_std hids hp hx
    simp only at h1
    subst h1
    simp only [dupStore_eq]
    rw [if_pos (by unfold dupPos; split <;> omega)]
    exact Or.inr ⟨_, _, rfl⟩

end Verif
