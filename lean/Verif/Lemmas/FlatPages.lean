import Verif.Lemmas.FlatFont
/-
The crawl of a flat document that ends at the /Resources of the pages, and the crawl of a single object.
-/
namespace Verif
open Spec

variable {k : Bytes} {objs : List Obj} {root tree : Int} {ct node : Props} {pages : List FlatPage}

/-! ### the events -/

def leafEv (g : FlatPage) : List Ev := resEv b!"Resources" g.id ⟨none, g.entries⟩

def leavesEv (pages : List FlatPage) : List Ev := pages.flatMap (fun g => .touch g.id :: leafEv g)

def nodeEv3 (tree : Int) (node : Props) (pages : List FlatPage) : List Ev :=
  node.flatMap (fun p => (if p.key = b!"Kids" then leavesEv pages else []) ++ [.add tree (.str p.key p.rawVal .nil)])

def catEv3 (root tree : Int) (ct node : Props) (pages : List FlatPage) : List Ev :=
  ct.flatMap (fun p => (if p.key = b!"Pages" then .touch tree :: nodeEv3 tree node pages else []) ++ [.add root (.str p.key p.rawVal .nil)])

theorem page_sound {g : FlatPage} (hg : g.Ok objs k) : Sound objs b!"Resources" g.entries := by
  intro p hp hk
  have hres := hg.res
  cases hr : g.res with
  | none => rw [hr] at hres; exact absurd hk (valueOf_none_iff.1 hres p hp)
  | some r =>
    rw [hr] at hres
    obtain ⟨v, h1, ⟨_, h3⟩, _⟩ := hres
    have hw : p.rawVal = v := by rw [onlyKey_eq h1 hp hk]
    cases hpl : r.place with
    | none => rw [hpl] at h3; exact Or.inl (by rw [hw]; exact h3.1)
    | some i =>
      rw [hpl] at h3
      obtain ⟨hr', o, ho, _⟩ := h3
      exact Or.inr ⟨i, o, by rw [hw]; exact hr', ho⟩

theorem evLeaf {data : Bytes} {g : FlatPage} (hg : g.Ok objs k) (hd : readProperties data = .ok g.entries) :
    evNext objs [b!"Resources"] data (some g.id) = (leafEv g, .nil, .ok ()) := evRes (r := ⟨none, g.entries⟩) hd hg.tidy (page_sound hg)

theorem evNode3 (h : FlatDoc k objs root tree ct node pages) {data : Bytes} (hd : readProperties data = .ok node) :
    evNext objs [b!"Kids", b!"Resources"] data (some tree) = (nodeEv3 tree node pages, .nil, .ok ()) := by
  rw [evNext, hd]
  refine evLoop_some (f := fun p => if p.key = b!"Kids" then leavesEv pages else []) (fun p hp => ?_)
  by_cases hk : p.key = b!"Kids"
  · obtain ⟨v, h1, h2, h3⟩ := h.kids
    have hw : p.rawVal = v := by rw [onlyKey_eq h1 hp hk]
    have ht := mem_tidy h.nodeTidy hp
    rw [evItem, if_neg (by simp [hk]), array_type ht (by rw [hw]; exact h2)]
    simp only
    rw [hw, h3]
    simp only
    rw [evKids_ok (f := leafEv) (fun g hg => by
      obtain ⟨o, ho, hod⟩ := (h.pagesOk g hg).entries
      exact ⟨o, .nil, ho, evLeaf (h.pagesOk g hg) hod⟩)]
    simp only [hk, if_true]
    rfl
  · rw [evItem_ne hk, if_neg hk]

theorem evCat3 (h : FlatDoc k objs root tree ct node pages) {data : Bytes} (hd : readProperties data = .ok ct) :
    evNext objs [b!"Pages", b!"Kids", b!"Resources"] data (some root) = (catEv3 root tree ct node pages, .nil, .ok ()) := by
  rw [evNext, hd]
  refine evLoop_some (f := fun p => if p.key = b!"Pages" then .touch tree :: nodeEv3 tree node pages else []) (fun p hp => ?_)
  by_cases hk : p.key = b!"Pages"
  · obtain ⟨v, h1, h2⟩ := h.pagesRef
    have hw : p.rawVal = v := by rw [onlyKey_eq h1 hp hk]
    have ht := mem_tidy h.catTidy hp
    obtain ⟨o, ho, hod⟩ := h.nodeEntries
    rw [if_pos hk]
    exact evItem_ref hk ht (by rw [hw]; exact h2) ho (evNode3 h hod)
  · rw [evItem_ne hk, if_neg hk]

/-! ### what is added to each result -/

theorem leavesEv_added {j : Int} (h : j ∈ added (leavesEv pages)) : ∃ g ∈ pages, j = g.id := by
  obtain ⟨g, hg, hp⟩ := added_flatMap.1 h
  exact ⟨g, hg, resEv_added hp⟩

theorem nodeEv3_added {j : Int} (h : j ∈ added (nodeEv3 tree node pages)) : j = tree ∨ ∃ g ∈ pages, j = g.id := by
  obtain ⟨p, _, hp⟩ := added_flatMap.1 h
  rw [added_append] at hp
  rcases List.mem_append.1 hp with hp | hp
  · split at hp
    · exact Or.inr (leavesEv_added hp)
    · simp [added] at hp
  · left; simpa [added] using hp

theorem nodeEv3_adds_tree (h : FlatDoc k objs root tree ct node pages) : addsOf tree (nodeEv3 tree node pages) = strs node := by
  have hd := h.distinct
  rw [List.nodup_cons, List.nodup_cons] at hd
  rw [nodeEv3, addsOf_flatMap, ← cat_strs]
  congr 1
  apply List.map_congr_left
  intro p _
  rw [addsOf_append, addsOf_none]
  · simp [addsOf, Items.append]
  · intro hm
    split at hm
    · obtain ⟨g, hg, e⟩ := leavesEv_added hm
      exact hd.2.1 (e ▸ List.mem_map_of_mem hg)
    · simp [added] at hm

theorem nodeEv3_adds_ne (h : FlatDoc k objs root tree ct node pages) {i : Int} (hi : i ≠ tree) :
    addsOf i (nodeEv3 tree node pages) = cat (pages.map (fun g => addsOf i (leafEv g))) := by
  obtain ⟨v, h1, _⟩ := h.kids
  have hF : ∀ p : PropD, addsOf i ((if p.key = b!"Kids" then leavesEv pages else []) ++ [.add tree (.str p.key p.rawVal .nil)]) =
      addsOf i (if p.key = b!"Kids" then leavesEv pages else []) := by
    intro p
    rw [addsOf_append]
    simp [addsOf, Ne.symm hi, Items.append_nil]
  rw [nodeEv3, addsOf_flatMap, cat_once h1 (fun p hp => by rw [hF, if_neg hp]; rfl), hF, if_pos rfl, leavesEv, addsOf_flatMap]
  rfl

theorem catEv3_adds_root (h : FlatDoc k objs root tree ct node pages) : addsOf root (catEv3 root tree ct node pages) = strs ct := by
  have hd := h.distinct
  rw [List.nodup_cons] at hd
  rw [catEv3, addsOf_flatMap, ← cat_strs]
  congr 1
  apply List.map_congr_left
  intro p _
  rw [addsOf_append, addsOf_none]
  · simp [addsOf, Items.append]
  · intro hm
    split at hm
    · rcases nodeEv3_added (show root ∈ added (nodeEv3 tree node pages) from hm) with e | ⟨g, hg, e⟩
      · exact hd.1 (by simp [e])
      · exact hd.1 (by simp [e]; exact Or.inr ⟨g, hg, rfl⟩)
    · simp [added] at hm

theorem catEv3_adds_ne (h : FlatDoc k objs root tree ct node pages) {i : Int} (hi : i ≠ root) :
    addsOf i (catEv3 root tree ct node pages) = addsOf i (nodeEv3 tree node pages) := by
  obtain ⟨v, h1, _⟩ := h.pagesRef
  have hF : ∀ p : PropD, addsOf i ((if p.key = b!"Pages" then .touch tree :: nodeEv3 tree node pages else []) ++ [.add root (.str p.key p.rawVal .nil)]) =
      addsOf i (if p.key = b!"Pages" then .touch tree :: nodeEv3 tree node pages else []) := by
    intro p
    rw [addsOf_append]
    simp [addsOf, Ne.symm hi, Items.append_nil]
  rw [catEv3, addsOf_flatMap, cat_once h1 (fun p hp => by rw [hF, if_neg hp]; rfl), hF, if_pos rfl]
  rfl

theorem catEv3_made (root tree : Int) (ct node : Props) (pages : List FlatPage) : Made [root] (catEv3 root tree ct node pages) := by
  refine made_flatMap (fun p _ => Made.append ?_ ⟨by simp, trivial⟩)
  split
  · refine made_flatMap (fun q _ => Made.append ?_ ⟨by simp, trivial⟩)
    split
    · exact made_flatMap (fun g _ => resEv_made _ _ (List.mem_cons_self ..))
    · trivial
  · trivial

theorem leafEv_touched {g : FlatPage} (hg : g.Ok objs k) {j : Int} (h : j ∈ touched (leafEv g)) : g.resPlace = some j := by
  obtain ⟨p, hm, hp⟩ := touched_flatMap.1 h
  rw [touched_append] at hp
  simp only [touched, List.append_nil] at hp
  obtain ⟨h1, h2⟩ := kindEv_touched hp
  have hres := hg.res
  cases hr : g.res with
  | none => rw [hr] at hres; exact absurd h1 (valueOf_none_iff.1 hres p hm)
  | some r =>
    rw [hr] at hres
    obtain ⟨v, a1, ⟨_, a3⟩, _⟩ := hres
    have hw : p.rawVal = v := by rw [onlyKey_eq a1 hm h1]
    rw [FlatPage.resPlace, hr]
    cases hpl : r.place with
    | none => rw [hpl, ← hw] at a3; exact absurd a3.1 (ref_type (mem_tidy hg.tidy hm) h2).2.1
    | some i =>
      rw [hpl, ← hw, h2] at a3
      simp only [Option.bind_some, hpl]
      rw [← a3.1]

theorem catEv3_touched (h : FlatDoc k objs root tree ct node pages) {j : Int} (hj : j ∈ touched (catEv3 root tree ct node pages)) :
    j = tree ∨ ∃ g ∈ pages, j = g.id ∨ g.resPlace = some j := by
  obtain ⟨p, _, hp⟩ := touched_flatMap.1 hj
  rw [touched_append] at hp
  simp only [touched, List.append_nil] at hp
  split at hp
  · rcases List.mem_cons.1 hp with rfl | hp
    · exact Or.inl rfl
    · obtain ⟨q, _, hq⟩ := touched_flatMap.1 hp
      rw [touched_append] at hq
      simp only [touched, List.append_nil] at hq
      split at hq
      · obtain ⟨g, hg, hm⟩ := touched_flatMap.1 hq
        rcases List.mem_cons.1 hm with rfl | hm
        · exact Or.inr ⟨g, hg, Or.inl rfl⟩
        · exact Or.inr ⟨g, hg, Or.inr (leafEv_touched (h.pagesOk g hg) hm)⟩
      · simp [touched] at hq
  · simp [touched] at hp

theorem touched3_tree (h : FlatDoc k objs root tree ct node pages) :
    tree ∈ touched (catEv3 root tree ct node pages) ∧ ∀ j ∈ touched (nodeEv3 tree node pages), j ∈ touched (catEv3 root tree ct node pages) := by
  obtain ⟨v, h1, _⟩ := h.pagesRef
  have hm := onlyKey_mem h1
  constructor
  · exact touched_flatMap.2 ⟨_, hm, by simp [touched]⟩
  · intro j hj
    refine touched_flatMap.2 ⟨_, hm, ?_⟩
    simp only [if_true, List.cons_append, touched, touched_append]
    simp [hj]

theorem touched3_kids (h : FlatDoc k objs root tree ct node pages) {g : FlatPage} (hg : g ∈ pages) : g.id ∈ touched (catEv3 root tree ct node pages) := by
  obtain ⟨v, h1, _⟩ := h.kids
  refine (touched3_tree h).2 _ (touched_flatMap.2 ⟨_, onlyKey_mem h1, ?_⟩)
  simp only [if_true, touched_append]
  refine List.mem_append_left _ (touched_flatMap.2 ⟨g, hg, by simp [touched]⟩)

/-! ### the results -/

/-- what the crawl up to the resources finds -/
structure FlatResults3 (root tree : Int) (ct node : Props) (pages : List FlatPage) (rs : Results) : Prop where
  nodup : (rs.map (·.1)).Nodup
  page : ∀ g ∈ pages, (g.id, strs g.entries) ∈ rs
  only : ∀ p ∈ rs, p = (root, strs ct) ∨ p = (tree, strs node) ∨ (∃ g ∈ pages, p = (g.id, strs g.entries)) ∨ ((∃ g ∈ pages, g.resPlace = some p.1) ∧ p.2 = .nil)

theorem crawl_flat3 (h : FlatDoc k objs root tree ct node pages) :
    ∃ rs, crawlRun objs root [b!"Pages", b!"Kids", b!"Resources"] = (rs, .ok ()) ∧ FlatResults3 root tree ct node pages rs := by
  obtain ⟨o, ho, hod⟩ := h.catEntries
  have hd := h.distinct
  rw [List.nodup_cons, List.nodup_cons] at hd
  obtain ⟨hd1, hd2, hd3⟩ := hd
  refine ⟨evApply [(root, .nil)] (catEv3 root tree ct node pages), ?_, ?_⟩
  · rw [crawlRun, getObj_only ho]
    simp only
    rw [crawlNext_ev, evCat3 h hod]
  have hk := evApply_keys (catEv3 root tree ct node pages) [(root, .nil)] (by simp)
  have hmade := catEv3_made root tree ct node pages
  have hroot : (evApply [(root, .nil)] (catEv3 root tree ct node pages)).lookup root = some (strs ct) := by
    rw [lookup_evApply (catEv3 root tree ct node pages) (rs := [(root, .nil)]) (i := root) (x := .nil) (by simp), catEv3_adds_root h]
    rfl
  have hne : ∀ i, i ≠ root → i ∈ touched (catEv3 root tree ct node pages) →
      (evApply [(root, .nil)] (catEv3 root tree ct node pages)).lookup i = some (addsOf i (nodeEv3 tree node pages)) := by
    intro i hi ht
    rw [lookup_made (catEv3 root tree ct node pages) (rs := [(root, .nil)]) hmade (by simpa using hi) ht, catEv3_adds_ne h hi]
  have htree : (evApply [(root, .nil)] (catEv3 root tree ct node pages)).lookup tree = some (strs node) := by
    rw [hne tree (fun e => hd1 (by simp [e])) (touched3_tree h).1, nodeEv3_adds_tree h]
  have hpage : ∀ g ∈ pages, (evApply [(root, .nil)] (catEv3 root tree ct node pages)).lookup g.id = some (strs g.entries) := by
    intro g hg
    have hgr : g.id ≠ root := fun e => hd1 (by rw [← e]; exact List.mem_cons_of_mem _ (List.mem_map_of_mem hg))
    have hgt : g.id ≠ tree := fun e => hd2 (by rw [← e]; exact List.mem_map_of_mem hg)
    rw [hne g.id hgr (touched3_kids h hg), nodeEv3_adds_ne h hgt, cat_single hd3 hg]
    · rw [leafEv, resEv_adds]
    · intro g' _ hne'
      exact addsOf_none (fun hm => hne' (resEv_added hm).symm)
  have hmem := fun {i : Int} {x : Items} => lookup_of_mem hk.1 (i := i) (x := x)
  refine ⟨hk.1, fun g hg => hmem.1 (hpage g hg), ?_⟩
  rintro ⟨i, x⟩ hp
  have hl := hmem.2 hp
  have hi : i ∈ [root] ∨ i ∈ touched (catEv3 root tree ct node pages) := by
    have := (hk.2 i).1 (List.mem_map_of_mem (f := (·.1)) hp)
    simpa using this
  rcases hi with hi | hi
  · have : i = root := by simpa using hi
    subst this
    rw [hroot] at hl
    exact Or.inl (by rw [Option.some.inj hl])
  · rcases catEv3_touched h hi with rfl | ⟨g, hg, rfl | e⟩
    · rw [htree] at hl
      exact Or.inr (Or.inl (by rw [Option.some.inj hl]))
    · rw [hpage g hg] at hl
      exact Or.inr (Or.inr (Or.inl ⟨g, hg, by rw [Option.some.inj hl]⟩))
    · have ha := h.resApart g hg i e
      simp only [List.mem_cons, not_or] at ha
      rw [hne i ha.1 hi, nodeEv3_adds_ne h ha.2.1, cat_nil] at hl
      · exact Or.inr (Or.inr (Or.inr ⟨⟨g, hg, e⟩, (Option.some.inj hl).symm⟩))
      · intro y hy
        obtain ⟨g', hg', rfl⟩ := List.mem_map.1 hy
        exact addsOf_none (fun hm => ha.2.2 (resEv_added hm ▸ List.mem_map_of_mem hg'))

theorem flatResults3_once (h : FlatDoc k objs root tree ct node pages) {rs : Results} (hr : FlatResults3 root tree ct node pages rs) : ∀ p ∈ rs,
    ¬ (contains b!"/Pages" p.2.string ∧ contains b!"/Parent" p.2.string) := by
  intro p hp
  rcases hr.only p hp with rfl | rfl | ⟨g, hg, rfl⟩ | ⟨_, h1⟩
  · rw [contains_false (w := b!"/Parent") (by simp) (Items.Lack.string parentWord (lacksName_strs h.catTidy h.catPlain.2))]
    simp
  · rw [contains_false (w := b!"/Parent") (by simp) (Items.Lack.string parentWord (lacksName_strs h.nodeTidy h.nodePlain.2))]
    simp
  · have hok := h.pagesOk g hg
    rw [contains_false (w := b!"/Pages") (by simp) (Items.Lack.string pagesWord (lacksName_strs hok.tidy hok.noPages))]
    simp
  · rw [h1]
    simp [Items.string, contains, index]

theorem pageCrawl_flat3 (h : FlatDoc k objs root tree ct node pages) (σ : Shuffle) :
    ∃ rs, getPageCrawl σ objs root [b!"Kids", b!"Resources"] = .ok rs ∧ crawlRun objs root [b!"Pages", b!"Kids", b!"Resources"] = (rs, .ok ()) ∧
      FlatResults3 root tree ct node pages rs := by
  obtain ⟨rs, h1, h2⟩ := crawl_flat3 h
  refine ⟨rs, ?_, h1, h2⟩
  rw [getPageCrawl, h1]
  exact pageCrawlLoop_none (flatResults3_once h h2) _

/-- the crawl of one object: its entries, and nothing of the objects it refers to -/
theorem crawl_one {i : Int} {r : ResInfo} (he : Entries objs i r.entries) (ht : Tidy r.entries) (hs : Sound objs k r.entries) :
    ∃ rs, crawlRun objs i [k] = (rs, .ok ()) ∧ (rs.map (·.1)).Nodup ∧ (i, strs r.entries) ∈ rs ∧ ∀ p ∈ rs, p = (i, strs r.entries) ∨ p.2 = .nil := by
  obtain ⟨o, ho, hod⟩ := he
  refine ⟨evApply [(i, .nil)] (resEv k i r), ?_, ?_⟩
  · rw [crawlRun, getObj_only ho]
    simp only
    rw [crawlNext_ev, evRes hod ht hs]
  have hk := evApply_keys (resEv k i r) [(i, .nil)] (by simp)
  have hroot : (evApply [(i, .nil)] (resEv k i r)).lookup i = some (strs r.entries) := by
    rw [lookup_evApply (resEv k i r) (rs := [(i, .nil)]) (i := i) (x := .nil) (by simp), resEv_adds]
    rfl
  have hmem := fun {j : Int} {x : Items} => lookup_of_mem hk.1 (i := j) (x := x)
  refine ⟨hk.1, hmem.1 hroot, ?_⟩
  rintro ⟨j, x⟩ hp
  have hl := hmem.2 hp
  by_cases e : j = i
  · subst e
    rw [hroot] at hl
    exact Or.inl (by rw [Option.some.inj hl])
  · right
    have ht : j ∈ touched (resEv k i r) := by
      have := (hk.2 j).1 (List.mem_map_of_mem (f := (·.1)) hp)
      simpa [e] using this
    rw [lookup_made (resEv k i r) (rs := [(i, .nil)]) (resEv_made i r (by simp)) (by simpa using e) ht, addsOf_none (fun hm => e (resEv_added hm))] at hl
    exact (Option.some.inj hl).symm

end Verif
