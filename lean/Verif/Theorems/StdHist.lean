import Verif.Theorems.StdEdit
/-
C80: page operations as an independent reader of the objects sees them.
-/
namespace Verif
open Spec

/-! ### a content stream must be named directly -/

theorem trim_bracket {pre t : Bytes} (h : ∀ c ∈ pre, c = 32) (ha : Ascii (pre ++ 91 :: t)) : trimSpace (pre ++ 91 :: t) = [] ∨ ∃ t', trimSpace (pre ++ 91 :: t) = 91 :: t' := by
  rw [trimSpace_ascii ha]
  have e : (pre ++ 91 :: t).dropWhile isSp = 91 :: t := by
    have : ∀ pre : Bytes, (∀ c ∈ pre, c = 32) → (pre ++ 91 :: t).dropWhile isSp = 91 :: t := by
      intro pre
      induction pre with
      | nil => intro _; rfl
      | cons c pre ih =>
        intro h
        have := h c (by simp)
        subst this
        rw [List.cons_append, List.dropWhile_cons_of_pos (by rfl)]
        exact ih (fun c hc => h c (by simp [hc]))
    exact this pre h
  rw [e]
  have h2 : ((91 :: t).reverse.dropWhile isSp).reverse <+: 91 :: t := by
    have h1 : (91 :: t).reverse.dropWhile isSp <:+ (91 :: t).reverse := List.dropWhile_suffix _
    have := List.reverse_prefix.2 h1
    simpa using this
  cases hx : ((91 :: t).reverse.dropWhile isSp).reverse with
  | nil => exact Or.inl rfl
  | cons c t' =>
    rw [hx] at h2
    obtain ⟨u, hu⟩ := h2
    simp at hu
    right
    exact ⟨t', by rw [hu.1]⟩

theorem array_no_ref {r : Bytes} {l : List Val} (h : Values r [.arr l]) (hs : SimpleText r) (hss : SS r) (n : Int) : readObjIDFromDictionary r ≠ .ok n := by
  have ht := Values.toks h
  simp only [toksL, toks, List.append_nil] at ht
  obtain ⟨pre, t, rfl, h1, _⟩ := open_split r _ hs hss.1 (by rw [show r ++ [32] = r ++ b!" " from rfl, ht, List.cons_append])
  have ha : Ascii (pre ++ 91 :: t) := fun c hc => UInt8.lt_trans (simple_ascii _ _ hs c hc).1 (by decide)
  intro hr
  unfold readObjIDFromDictionary at hr
  simp only at hr
  split at hr
  · cases hr
  · rename_i hne
    rcases trim_bracket h1 ha with h2 | ⟨t', h2⟩
    · exact hne h2
    · have ha' : Ascii (91 :: t') := by
        rw [← h2]
        intro c hc
        exact ha c ((trimSpace_infix_ascii ha).subset hc)
      rw [h2] at hr
      split at hr
      · rename_i a _ _ he
        have hh : ∃ a', a = 91 :: a' ∧ ∀ c ∈ a', c ∈ t' := by
          have hsub : ∀ (s : Bytes) a, a ∈ splitSpace s → ∀ c ∈ a, c ∈ s := by
            intro s
            induction s with
            | nil => intro a ha c hc; simp [splitSpace] at ha; subst ha; exact hc
            | cons x s ih =>
              intro a ha c hc
              rw [splitSpace] at ha
              split at ha
              · rcases List.mem_cons.1 ha with rfl | ha
                · simp at hc
                · simp [ih a ha c hc]
              · split at ha
                · simp at ha; subst ha; simp at hc; simp [hc]
                · rename_i hd tl hsp
                  rcases List.mem_cons.1 ha with rfl | ha
                  · rcases List.mem_cons.1 hc with rfl | hc
                    · simp
                    · simp [ih hd (by rw [hsp]; simp) c hc]
                  · simp [ih a (by rw [hsp]; simp [ha]) c hc]
          rw [splitSpace, if_neg (by decide)] at he
          split at he
          · simp at he
          · rename_i hd tl hsp
            simp at he
            exact ⟨hd, he.1.symm, hsub t' hd (by rw [hsp]; simp)⟩
        obtain ⟨a', rfl, hsub⟩ := hh
        have hr' : trimSpace (91 :: a') = [] ∨ ∃ t', trimSpace (91 :: a') = 91 :: t' := trim_bracket (pre := []) (by simp) (by
          intro c hc
          rcases List.mem_cons.1 hc with rfl | hc
          · decide
          · exact ha' c (by simp [hsub c hc]))
        have hz : atoi (trimSpace (91 :: a')) = none := by
          rcases hr' with h | ⟨t, h⟩ <;> rw [h]
          · rfl
          · simp [atoi, parseNat, digitsVal, isDigit]
        rw [hz] at hr
        cases hr
      · cases hr

/-! ### copies -/

theorem setVal_setVal {k : Bytes} {v w : Val} : ∀ (d : List (Bytes × Val)), setVal k v (setVal k w d) = setVal k v d
  | [] => rfl
  | e :: d => by
    by_cases h : e.1 = k
    · simp [setVal, h]
    · simp [setVal, h, setVal_setVal d]

theorem setVal_comm {k k' : Bytes} {v w : Val} (hne : k ≠ k') : ∀ (d : List (Bytes × Val)), setVal k v (setVal k' w d) = setVal k' w (setVal k v d)
  | [] => rfl
  | e :: d => by
    by_cases h : e.1 = k
    · have h' : e.1 ≠ k' := by rw [h]; exact hne
      simp [setVal, h, hne]
    · by_cases h' : e.1 = k'
      · simp [setVal, h', Ne.symm hne]
      · simp [setVal, h, h', setVal_comm hne d]

theorem withKids_withKids (root : List (Bytes × Val)) (a b : List Int) : withKids (withKids root a) b = withKids root b := by
  unfold withKids
  rw [setVal_comm (k := b!"Count") (k' := b!"Kids") (by decide), setVal_setVal, setVal_setVal]

mutual
theorem StdTree.mono {objs objs' : List Obj} (hk : ∀ id o, OnlyObj objs id o → OnlyObj objs' id o) : ∀ (t : Tree), StdTree objs t → StdTree objs' t
  | .leaf i, h => by
    obtain ⟨d, h1, h2⟩ := h
    exact ⟨d, StdDict.kept h1 (hk i), h2⟩
  | .node i kids, h => by
    obtain ⟨⟨d, h1, h2⟩, h3⟩ := h
    exact ⟨⟨d, StdDict.kept h1 (hk i), h2⟩, StdTreeL.mono hk kids h3⟩
theorem StdTreeL.mono {objs objs' : List Obj} (hk : ∀ id o, OnlyObj objs id o → OnlyObj objs' id o) : ∀ (ts : List Tree), StdTreeL objs ts → StdTreeL objs' ts
  | [], _ => trivial
  | t :: ts, h => ⟨StdTree.mono hk t h.1, StdTreeL.mono hk ts h.2⟩
end

theorem StdRoot.mono {d d' : Doc} {r : Int} {root : List (Bytes × Val)} {ts : List Tree} (h : StdRoot d r root ts) (hr : d'.rootObjID = d.rootObjID)
    (hk : ∀ id o, OnlyObj d.objs id o → OnlyObj d'.objs id o) : StdRoot d' r root ts := by
  refine ⟨?_, by rw [hr]; exact h.notCatalog, StdDict.kept h.dict (hk r), h.node, h.noPage, h.count, StdTreeL.mono hk ts h.kids⟩
  obtain ⟨c, hc, hp⟩ := h.catalog
  rw [hr]
  exact ⟨c, StdDict.kept hc (hk _), hp⟩

theorem dupRead_std {d : Doc} {ids : List Int} (hids : getPageObjIDs d = .ok ids) (hp : ∀ i ∈ ids, ∃ o, OnlyObj d.objs i o) {t : Int} {x : List Int × Obj × Props × Obj}
    (hx : dupRead d t = .ok x) :
    x.1 = ids ∧ 1 ≤ t ∧ t ≤ ids.length ∧ ∃ pid v cid, ids[(t - 1).toNat]? = some pid ∧ OnlyObj d.objs pid x.2.1 ∧
      readProperties x.2.1.data = .ok x.2.2.1 ∧ valueOf x.2.2.1 b!"Contents" = some v ∧ readObjIDFromDictionary v = .ok cid ∧
      getObj d.objs cid = some x.2.2.2 := by
  unfold dupRead at hx
  rw [hids] at hx
  simp only [Res.ok_bind] at hx
  split at hx
  · simp at hx
  · rename_i hle
    split at hx
    · simp at hx
    · rename_i hge
      have un : ∀ {α : Type} {o : Option α} {a : α}, Res.ofOption o = .ok a → o = some a := by
        intro α o a h
        cases o with
        | none => simp at h
        | some b => simp at h; rw [h]
      rw [Res.bind_eq_ok] at hx
      obtain ⟨pid, hpid, hx⟩ := hx
      have hpid' := un hpid
      rw [Res.bind_eq_ok] at hx
      obtain ⟨po, hpo, hx⟩ := hx
      rw [Res.bind_eq_ok] at hx
      obtain ⟨props, hprops, hx⟩ := hx
      obtain ⟨o, ho⟩ := hp pid (List.mem_of_getElem? hpid')
      have hpo := un hpo
      rw [getObj_only ho] at hpo
      simp at hpo
      subst hpo
      split at hx
      · simp at hx
      · rename_i c hc
        rw [Res.bind_eq_ok] at hx
        obtain ⟨cid, hcid, hx⟩ := hx
        rw [Res.bind_eq_ok] at hx
        obtain ⟨co, hco, hx⟩ := hx
        simp at hx
        subst hx
        refine ⟨rfl, by omega, ?_, pid, c.rawVal, cid, hpid', ho, hprops, ?_, hcid, un hco⟩
        · have : ¬ (t > 0 ∧ (ids.length : Int) < t) := hle
          omega
        · simp [valueOf, getPropByKey] at hc ⊢
          exact ⟨c, hc, rfl⟩

theorem stdPage_set {d : List (Bytes × Val)} {v : Val} (h : StdPage d) (hv : NoName v) : StdPage (setVal b!"Contents" v d) :=
  ⟨by rw [setVal_lookup (by decide)]; exact h.1, unused_set h.2 hv (by decide)⟩

theorem values_unique {r : Bytes} {a b : List Val} (h : Values r a) (h' : Values r b) : a = b := by
  obtain ⟨ts, e1, e2, e3⟩ := h
  obtain ⟨us, f1, f2, f3⟩ := h'
  rw [e1] at f1
  cases f1
  rw [e3] at f3
  simpa using f3

theorem readAs_unique {d d' : List (Bytes × Val)} {ps : Props} (h : ReadAs d ps) (h' : ReadAs d' ps) : d = d' := by
  induction h generalizing d' with
  | nil => cases h'; rfl
  | @name k n r r' d ps h1 h2 _ ih =>
    cases h' with
    | name a b c => rw [ih c]
    | value a b c => cases values_unique h1 b
  | @value k r v d ps h1 h2 _ ih =>
    cases h' with
    | name a b c => cases values_unique h2 a
    | value a b c =>
      cases values_unique h2 b
      rw [ih c]

theorem StdDict.unique {objs : List Obj} {id : Int} {d d' : List (Bytes × Val)} (h : StdDict objs id d) (h' : StdDict objs id d') : d = d' := by
  obtain ⟨ps, e, p, _⟩ := StdDict.props h
  obtain ⟨qs, e', p', _⟩ := StdDict.props h'
  cases e.unique e'
  exact readAs_unique p.1 p'.1

/-- The copy of a page shows the same as the page. -/
theorem copy_shows {objs : List Obj} {r src : Int} {o : Obj} {props : Props} {v : List (Bytes × Val) × Option Bytes} {x : Bytes} {cid : Int} {co : Obj}
    (hs : StdShows objs r src v) (ho : OnlyObj objs src o) (hp : readProperties o.data = .ok props) (hx : valueOf props b!"Contents" = some x)
    (hcid : readObjIDFromDictionary x = .ok cid) (hco : getObj objs cid = some co) (hr : r ≤ maxID objs) (hm : maxID objs + 2 < 2 ^ 63) :
    StdShows (dupObjs objs co.data props) r (maxID objs + 2) v ∧ v.2 = some co.data ∧
      ∀ e, StdDict objs src e → StdDict (dupObjs objs co.data props) (maxID objs + 2) (setVal b!"Contents" (.ref (maxID objs + 1)) e) := by
  obtain ⟨d, hd, hpg, hc⟩ := hs
  obtain ⟨ps, he, hps, hss⟩ := StdDict.props hd
  have hu := he.unique ⟨o, ho, hp⟩
  subst hu
  have hpos := maxID_nonneg objs
  have hg : ∀ p ∈ ps, SimpleText p.rawVal ∧ SS p.rawVal ∧ GoodEntry p := fun p hp => ⟨(hps.2 p hp).2.1, hss p hp, (hps.2 p hp).2.2⟩
  rcases hc with ⟨c, o', c0, c1, c2, c3, c4, rfl⟩ | ⟨h1, h2, _⟩
  · obtain ⟨w, w1, w2⟩ := std_ref hps.1 hg c3 ⟨by omega, by omega⟩
    rw [hx] at w1; cases w1
    rw [hcid] at w2; cases w2
    rw [getObj_only c4] at hco; cases hco
    have nr : ∀ n, NoName (.ref n) := by intro n m h; cases h
    have hset := StdProps.set hps c3 (nr _) (stdVal_ref (maxID objs + 1))
    refine ⟨⟨_, StdProps.dict hset (by omega) (by omega) (onlyObj_dup_page objs co.data ps), stdPage_set hpg (nr _), Or.inl ⟨maxID objs + 1, _, by omega, by omega, by omega,
      entryIs_set c3 (nr _), onlyObj_dup_content objs co.data ps, ?_⟩⟩, rfl, ?_⟩
    · rw [setVal_setVal]
    · intro e he
      cases StdDict.unique he hd
      exact StdProps.dict hset (by omega) (by omega) (onlyObj_dup_page objs co.data ps)
  · exfalso
    rcases h1 with h1 | ⟨l, h1⟩
    · rw [C78_no_entry hps.1 h1 (no_name_ne h2)] at hx
      cases hx
    · obtain ⟨w, w1, w2⟩ := ReadAs.value_at hps.1 ⟨h1, h2⟩ (by intro n h; cases h)
      rw [hx] at w1; cases w1
      obtain ⟨p, hp', rfl⟩ := valueOf_mem_key hx
      exact array_no_ref w2 (hg p hp').1 (hg p hp').2.1 cid hcid

theorem shows_mono {objs objs' : List Obj} {r id : Int} {v : List (Bytes × Val) × Option Bytes} (hk : ∀ i o, i ≠ r → OnlyObj objs i o → OnlyObj objs' i o) (hne : id ≠ r)
    (h : StdShows objs r id v) : StdShows objs' r id v := by
  obtain ⟨d, h1, h2, h3⟩ := h
  refine ⟨d, StdDict.kept h1 (fun o => hk id o hne), h2, ?_⟩
  rcases h3 with ⟨c, o, c0, c1, c2, c3, c4, e⟩ | h3
  · exact Or.inl ⟨c, o, c0, c1, c2, c3, hk c o c2 c4, e⟩
  · exact Or.inr h3

theorem StdRoot.page_obj {d : Doc} {r : Int} {root : List (Bytes × Val)} {ts : List Tree} (h : StdRoot d r root ts) : ∀ i ∈ pagesL ts, ∃ o, OnlyObj d.objs i o := by
  intro i hi
  obtain ⟨_, ⟨_, _, o, _, _, _, _, ho, _⟩, _⟩ := StdTreeL.pages ts h.kids i hi
  exact ⟨o, ho⟩

theorem StdRoot.root_le {d : Doc} {r : Int} {root : List (Bytes × Val)} {ts : List Tree} (h : StdRoot d r root ts) : r ≤ maxID d.objs := by
  obtain ⟨_, _, o, _, _, _, _, ho, _⟩ := h.dict
  exact OnlyObj_le_maxID ho

theorem StdRoot.page_ne {d : Doc} {r : Int} {root : List (Bytes × Val)} {ts : List Tree} (h : StdRoot d r root ts) : ∀ i ∈ pagesL ts, i ≠ r :=
  fun i hi => page_ne_root (StdTreeL.pages ts h.kids i hi) h.dict h.node

/-! ### the theorems -/

/-- **C80** (partial) `RemovePage`: an independent reader finds the other pages in the same order below the root, whose /Kids and /Count say so and whose other entries are as before;
all other objects are as before. Missing: see `C80_history_partial`. -/
theorem C80_remove_partial {d : Doc} {r : Int} {root : List (Bytes × Val)} {ts : List Tree} (h : StdRoot d r root ts) {k : Int} (h1 : 1 ≤ k) (h2 : k ≤ (pagesL ts).length) :
    ∃ d' ids, removePage d k = .ok d' ∧ ids = (pagesL ts).take (k - 1).toNat ++ (pagesL ts).drop k.toNat ∧ StdRoot d' r (withKids root ids) (ids.map .leaf) ∧
      Kept d d' r ∧ maxID d'.objs = maxID d.objs := by
  have hmem : ∀ i ∈ (pagesL ts).eraseIdx (k - 1).toNat, i ∈ pagesL ts := fun i hi => List.mem_of_mem_eraseIdx hi
  obtain ⟨d', s1, s2, s3, s4, s5⟩ := setPages_std h (ids := (pagesL ts).eraseIdx (k - 1).toNat) (fun i hi => StdTreeL.pages ts h.kids i (hmem i hi))
  have hlt : (k - 1).toNat < (pagesL ts).length := by omega
  have harr : ((pagesL ts).take (k - 1).toNat ++ (pagesL ts).drop ((k - 1).toNat + 1) ++
      (pagesL ts).drop ((pagesL ts).length - 1)).take ((pagesL ts).length - 1) = (pagesL ts).eraseIdx (k - 1).toNat := by
    rw [List.eraseIdx_eq_take_drop_succ]
    apply List.take_left'
    simp
    omega
  refine ⟨d', _, ?_, erase_eq _ _ h1, s2, s3, s5⟩
  rw [removePage, StdRoot.pageIDs h]
  simp only [Res.ok_bind]
  rw [if_neg (by omega), if_neg (by omega), harr, s1]

/-- **C80** (partial) `DuplicatePageAfter`: an independent reader finds the new page after page `p + 1` (from the end for negative `p`), with the entries of the page copied
except that /Contents is a new object, which is a copy of the content stream. Missing: see `C80_history_partial`. -/
theorem C80_duplicate_partial {d : Doc} {r : Int} {root : List (Bytes × Val)} {ts : List Tree} (h : StdRoot d r root ts) {t p : Int} {d' : Doc}
    (hd : duplicatePageAfter d t p = ⟨d', .ok ()⟩) (hsh : ∀ i ∈ pagesL ts, ∃ v, StdShows d.objs r i v) (hmax : maxID d.objs + 2 < 2 ^ 63) :
    1 ≤ t ∧ t ≤ (pagesL ts).length ∧ -((pagesL ts).length : Int) ≤ p ∧ p < (pagesL ts).length ∧ ∃ src q ids,
      (pagesL ts)[(t - 1).toNat]? = some src ∧ q = (if p < 0 then ((pagesL ts).length + p).toNat else p.toNat) ∧
      ids = (pagesL ts).take (q + 1) ++ [maxID d.objs + 2] ++ (pagesL ts).drop (q + 1) ∧ StdRoot d' r (withKids root ids) (ids.map .leaf) ∧
      (∀ v, StdShows d.objs r src v → StdShows d'.objs r (maxID d.objs + 2) v ∧ v.2 ≠ none) ∧
      (∀ e, StdDict d.objs src e → StdDict d'.objs (maxID d.objs + 2) (setVal b!"Contents" (.ref (maxID d.objs + 1)) e)) ∧ Kept d d' r ∧ maxID d'.objs = maxID d.objs + 2 := by
  unfold duplicatePageAfter at hd
  cases hx : dupRead d t with
  | err e => rw [hx] at hd; simp at hd
  | panic => rw [hx] at hd; simp at hd
  | hang => rw [hx] at hd; simp at hd
  | ok x =>
    rw [hx] at hd
    obtain ⟨ids, po, props, co⟩ := x
    obtain ⟨h1, h2, h3, src, v, cid, h4, h5, h6, h7, h8, h9⟩ := dupRead_std (StdRoot.pageIDs h) (StdRoot.page_obj h) hx
    simp only at h1 h5 h6 h7 h9
    subst h1
    simp only [dupStore_eq] at hd
    split at hd
    · simp at hd
    · rename_i hpos
      have hp1 : -((pagesL ts).length : Int) ≤ p ∧ p < (pagesL ts).length := by
        unfold dupPos at hpos; split at hpos <;> omega
      obtain ⟨q, hq⟩ : ∃ q, q = (if p < 0 then ((pagesL ts).length + p).toNat else p.toNat) := ⟨_, rfl⟩
      have hq' : (dupPos (pagesL ts).length p).toNat = q := by rw [hq]; unfold dupPos; split <;> rfl
      rw [hq'] at hd
      have hm : ∀ id o, OnlyObj d.objs id o → OnlyObj (dupObjs d.objs co.data props) id o := fun id o ho => onlyObj_dupObjs ho
      have hroot : StdRoot { d with objs := dupObjs d.objs co.data props } r root ts := StdRoot.mono h rfl hm
      have hcopy := fun v (hs : StdShows d.objs r src v) => copy_shows hs h5 h6 h7 h8 h9 (StdRoot.root_le h) hmax
      have hmaxd : maxID (dupObjs d.objs co.data props) = maxID d.objs + 2 := maxID_append_two _ _ _ rfl rfl
      have hnew : IsStdPage (dupObjs d.objs co.data props) (maxID d.objs + 2) := by
        obtain ⟨v, hs⟩ := hsh src (List.mem_of_getElem? h4)
        obtain ⟨⟨dd, e1, e2, _⟩, _⟩ := hcopy v hs
        exact ⟨dd, e1, e2⟩
      obtain ⟨d2, s1, s2, s3, s4, s5⟩ := setPages_std hroot (ids := (pagesL ts).take (q + 1) ++ [maxID d.objs + 2] ++ (pagesL ts).drop (q + 1)) (by
        intro i hi
        simp only [List.mem_append, List.mem_singleton] at hi
        rcases hi with (hi | rfl) | hi
        · exact StdTreeL.pages ts hroot.kids i (List.mem_of_mem_take hi)
        · exact hnew
        · exact StdTreeL.pages ts hroot.kids i (List.mem_of_mem_drop hi))
      rw [s1] at hd
      simp only [stepOf] at hd
      have hd : d2 = d' := by simpa using hd
      subst hd
      have hr := StdRoot.root_le h
      refine ⟨h2, h3, hp1.1, hp1.2, src, q, _, h4, hq, rfl, s2, ?_, ?_, ?_, by rw [s5, hmaxd]⟩
      · intro v hs
        obtain ⟨a, b, _⟩ := hcopy v hs
        exact ⟨shows_mono s3 (by omega) a, by rw [b]; simp⟩
      · intro e he
        obtain ⟨v, hs⟩ := hsh src (List.mem_of_getElem? h4)
        exact StdDict.kept ((hcopy v hs).2.2 e he) (fun o ho => s3 _ o (by omega) ho)
      · intro id o hne ho
        exact s3 id o hne (hm id o ho)

/-- **C80** (partial) It succeeds for every page with one content stream. Missing: pages without content stream or with an array of them cannot be duplicated (`C80_duplicate_partial`,
C06). -/
theorem C80_duplicate_succeeds_partial {d : Doc} {r : Int} {root : List (Bytes × Val)} {ts : List Tree} (h : StdRoot d r root ts) {t p src : Int}
    (ht : 1 ≤ t) (hsrc : (pagesL ts)[(t - 1).toNat]? = some src) {v : List (Bytes × Val)} {c : Bytes} (hs : StdShows d.objs r src (v, some c)) 
    (hp1 : -((pagesL ts).length : Int) ≤ p) (hp2 : p < (pagesL ts).length) (hmax : maxID d.objs + 2 < 2 ^ 63) : ∃ d', duplicatePageAfter d t p = ⟨d', .ok ()⟩ := by
  have hs' := hs
  obtain ⟨dd, hd, hpg, hc⟩ := hs
  obtain ⟨ps, ⟨o, ho, hr⟩, hps, hss⟩ := StdDict.props hd
  have hg : ∀ p ∈ ps, SimpleText p.rawVal ∧ SS p.rawVal ∧ GoodEntry p := fun p hp => ⟨(hps.2 p hp).2.1, hss p hp, (hps.2 p hp).2.2⟩
  rcases hc with ⟨c, co, c0, c1, c2, c3, c4, e⟩ | ⟨_, _, e⟩
  swap
  · cases e
  obtain ⟨w, w1, w2⟩ := std_ref hps.1 hg c3 ⟨by omega, by omega⟩
  obtain ⟨cp, hc1, hc2⟩ := valueOf_some w1
  have hlt := lt_length_of_getElem? hsrc
  have hread : dupRead d t = .ok (pagesL ts, o, ps, co) := by
    rw [dupRead, StdRoot.pageIDs h]
    simp only [Res.ok_bind]
    rw [if_neg (by omega), if_neg (by omega), hsrc]
    simp only [Res.ofOption_some, Res.ok_bind, getObj_only ho, hr, hc1, hc2, w2, getObj_only c4]
  have hm : ∀ id o, OnlyObj d.objs id o → OnlyObj (dupObjs d.objs co.data ps) id o := fun id o ho => onlyObj_dupObjs ho
  have hroot : StdRoot { d with objs := dupObjs d.objs co.data ps } r root ts := StdRoot.mono h rfl hm
  have hnew : IsStdPage (dupObjs d.objs co.data ps) (maxID d.objs + 2) := by
    obtain ⟨⟨dd, e1, e2, _⟩, _⟩ := copy_shows hs' ho hr w1 w2 (getObj_only c4) (StdRoot.root_le h) hmax
    exact ⟨dd, e1, e2⟩
  obtain ⟨d2, s1, _⟩ := setPages_std hroot (ids := (pagesL ts).take ((dupPos (pagesL ts).length p).toNat + 1) ++ [maxID d.objs + 2] ++ (pagesL ts).drop ((dupPos (pagesL ts).length p).toNat + 1)) (by
    intro i hi
    simp only [List.mem_append, List.mem_singleton] at hi
    rcases hi with (hi | rfl) | hi
    · exact StdTreeL.pages ts hroot.kids i (List.mem_of_mem_take hi)
    · exact hnew
    · exact StdTreeL.pages ts hroot.kids i (List.mem_of_mem_drop hi))
  refine ⟨d2, ?_⟩
  unfold duplicatePageAfter
  rw [hread]
  simp only [dupStore_eq]
  rw [if_neg (by unfold dupPos; split <;> omega), s1]
  rfl

/-! ### histories -/

theorem attr_mono {objs objs' : List Obj} {r : Int} {root : List (Bytes × Val)} {ids : List Int} {k : Bytes} (hk : ∀ i o, i ≠ r → OnlyObj objs i o → OnlyObj objs' i o)
    (h : StdDict objs r root) (h' : StdDict objs' r (withKids root ids)) (hc : k ≠ b!"Count") (hd : k ≠ b!"Kids") {i : Int} {v : Option Val} (ha : Attr objs k i v) : Attr objs' k i v := by
  have lk : ∀ k' : Bytes, k' ≠ b!"Count" → k' ≠ b!"Kids" → (withKids root ids).lookup k' = root.lookup k' := by
    intro k' h1 h2
    rw [withKids, setVal_lookup h2, setVal_lookup h1]
  have key : ∀ {i : Int} {d : List (Bytes × Val)}, StdDict objs i d → ∃ d', StdDict objs' i d' ∧ ∀ k' : Bytes, k' ≠ b!"Count" → k' ≠ b!"Kids" → d'.lookup k' = d.lookup k' := by
    intro i d hd
    by_cases hi : i = r
    · subst hi
      cases StdDict.unique h hd
      exact ⟨_, h', lk⟩
    · exact ⟨d, StdDict.kept hd (fun o => hk i o hi), fun _ _ _ => rfl⟩
  induction ha with
  | own h1 h2 =>
    obtain ⟨d', e1, e2⟩ := key h1
    exact .own e1 (by rw [e2 k hc hd]; exact h2)
  | up h1 h2 h3 _ ih =>
    obtain ⟨d', e1, e2⟩ := key h1
    exact .up e1 (by rw [e2 k hc hd]; exact h2) (by rw [e2 _ (by decide) (by decide)]; exact h3) ih
  | none h1 h2 h3 =>
    obtain ⟨d', e1, e2⟩ := key h1
    exact .none e1 (by rw [e2 k hc hd]; exact h2) (by rw [e2 _ (by decide) (by decide)]; exact h3)

theorem attr_copy {objs objs' : List Obj} {src new c : Int} {k : Bytes} {v : Option Val} (hcopy : ∀ e, StdDict objs src e → StdDict objs' new (setVal b!"Contents" (.ref c) e))
    (hm : ∀ i v, Attr objs k i v → Attr objs' k i v) (hk : k ≠ b!"Contents") (ha : Attr objs k src v) : Attr objs' k new v := by
  cases ha with
  | own h1 h2 => exact .own (hcopy _ h1) (by rw [setVal_lookup hk]; exact h2)
  | up h1 h2 h3 h4 => exact .up (hcopy _ h1) (by rw [setVal_lookup hk]; exact h2) (by rw [setVal_lookup (by decide)]; exact h3) (hm _ _ h4)
  | none h1 h2 h3 => exact .none (hcopy _ h1) (by rw [setVal_lookup hk]; exact h2) (by rw [setVal_lookup (by decide)]; exact h3)

theorem std_step {d : Doc} {r : Int} {root : List (Bytes × Val)} {ts : List Tree} {views : List (List (Bytes × Val) × Option Bytes)} (h : StdRoot d r root ts)
    (hv : List.Forall₂ (StdShows d.objs r) (pagesL ts) views) {op : Op} {d1 : Doc} (h1 : applyOp d op = ⟨d1, .ok ()⟩) (hmax : maxID d.objs + 2 < 2 ^ 63) :
    ∃ ids, StdRoot d1 r (withKids root ids) (ids.map .leaf) ∧ List.Forall₂ (StdShows d1.objs r) ids (op.edit views) ∧ maxID d1.objs ≤ maxID d.objs + 2 ∧
      ∀ k vs, Inherited k → List.Forall₂ (Attr d.objs k) (pagesL ts) vs → List.Forall₂ (Attr d1.objs k) ids (op.edit vs) := by
  cases op with
  | remove k =>
    simp only [applyOp] at h1
    have hop : removePage d k = .ok d1 := by
      cases hr : removePage d k with
      | ok x => rw [hr] at h1; simp [stepOf] at h1; rw [h1]
      | err e => rw [hr] at h1; simp [stepOf] at h1
      | panic => rw [hr] at h1; simp [stepOf] at h1
      | hang => rw [hr] at h1; simp [stepOf] at h1
    have hk : 1 ≤ k ∧ k ≤ (pagesL ts).length := by
      rw [removePage, StdRoot.pageIDs h] at hop
      simp only [Res.ok_bind] at hop
      split at hop
      · simp at hop
      · split at hop
        · simp at hop
        · omega
    obtain ⟨d2, ids, r1, r2, r3, r4, r5⟩ := C80_remove_partial h hk.1 hk.2
    rw [r1] at hop
    cases hop
    refine ⟨ids, r3, ?_, by omega, ?_⟩
    · have := forall2_take_drop hv (k - 1).toNat k.toNat
      rw [← r2] at this
      refine forall2_imp_mem this ?_
      intro a ha b hab
      refine shows_mono r4 (StdRoot.page_ne h a ?_) hab
      rw [r2] at ha
      rcases List.mem_append.1 ha with ha | ha
      · exact List.mem_of_mem_take ha
      · exact List.mem_of_mem_drop ha
    · intro k' vs hi hvs
      have := forall2_take_drop hvs (k - 1).toNat k.toNat
      rw [← r2] at this
      exact List.Forall₂.imp (fun a b hab => attr_mono r4 h.dict r3.dict hi.1 hi.2.1 hab) this
  | dup t p =>
    have hsh : ∀ i ∈ pagesL ts, ∃ v, StdShows d.objs r i v := by
      intro i hi
      obtain ⟨n, hn⟩ := List.getElem?_of_mem hi
      obtain ⟨b, _, hb⟩ := forall2_get hv hn
      exact ⟨b, hb⟩
    obtain ⟨a1, a2, a3, a4, src, q, ids, b1, b2, b3, b4, b5, b5', b6, b7⟩ := C80_duplicate_partial h h1 hsh (by omega)
    refine ⟨ids, b4, ?_, by omega, ?_⟩
    · obtain ⟨view, hview, hs⟩ := forall2_get hv b1
      have hold : List.Forall₂ (StdShows d1.objs r) (pagesL ts) views := forall2_imp_mem hv (fun a ha b hab => shows_mono b6 (StdRoot.page_ne h a ha) hab)
      simp only [Op.edit, hview]
      rw [hv.length_eq] at b2
      rw [← b2, b3]
      exact forall2_insert hold (q + 1) (b5 view hs).1
    · intro k' vs hi hvs
      obtain ⟨val, hval, hs⟩ := forall2_get hvs b1
      have hm : ∀ i v, Attr d.objs k' i v → Attr d1.objs k' i v := fun i v hab => attr_mono b6 h.dict b4.dict hi.1 hi.2.1 hab
      have hold : List.Forall₂ (Attr d1.objs k') (pagesL ts) vs := List.Forall₂.imp (fun a b hab => hm a b hab) hvs
      simp only [Op.edit, hval]
      rw [hvs.length_eq] at b2
      rw [← b2, b3]
      exact forall2_insert hold (q + 1) (attr_copy b5' hm hi.2.2 hs)

/-- **C80** (partial) Whatever pages are removed and duplicated one after the other, an independent reader finds the pages that the same edits of the list of pages give, each with
its entries, its content and the attributes it inherits; the root says their number and names exactly them.
Missing: dictionaries in other notations than simple ones (C78); that /Parent names the node above (refuted below for trees with more than one level). -/
theorem C80_history_partial {d : Doc} {r : Int} {root : List (Bytes × Val)} {ts : List Tree} {views : List (List (Bytes × Val) × Option Bytes)} (h : StdRoot d r root ts)
    (hv : List.Forall₂ (StdShows d.objs r) (pagesL ts) views) {ops : List Op} {d' : Doc} (hrun : Runs d ops d') (hmax : maxID d.objs + 2 * ops.length < 2 ^ 63) :
    ∃ root' ts', StdRoot d' r root' ts' ∧ List.Forall₂ (StdShows d'.objs r) (pagesL ts') (ops.foldl (fun l op => op.edit l) views) ∧
      numberOfPages d' = .ok (ops.foldl (fun l op => op.edit l) views).length ∧
      (ops ≠ [] → root' = withKids root (pagesL ts') ∧ ts' = (pagesL ts').map .leaf) ∧ (ops = [] → root' = root ∧ ts' = ts) ∧
      ∀ k vs, Inherited k → List.Forall₂ (Attr d.objs k) (pagesL ts) vs → List.Forall₂ (Attr d'.objs k) (pagesL ts') (ops.foldl (fun l op => op.edit l) vs) := by
  induction ops generalizing d root ts views with
  | nil =>
    simp only [Runs] at hrun
    subst hrun
    refine ⟨root, ts, h, hv, ?_, by simp, by simp, fun _ _ _ hvs => hvs⟩
    simp [numberOfPages, StdRoot.pageIDs h, hv.length_eq]
  | cons op ops ih =>
    obtain ⟨d1, h1, h2⟩ := hrun
    simp only [List.length_cons] at hmax
    obtain ⟨ids, g1, g2, g3, g4⟩ := std_step h hv h1 (by omega)
    rw [← pagesL_leaves ids] at g2
    obtain ⟨root', ts', i1, i2, i3, i4, i5, i6⟩ := ih g1 g2 h2 (by omega)
    refine ⟨root', ts', i1, i2, i3, fun _ => ?_, by simp, ?_⟩
    · cases ops with
      | nil =>
        obtain ⟨e1, e2⟩ := i5 rfl
        rw [e1, e2, pagesL_leaves]
        exact ⟨rfl, rfl⟩
      | cons o ops =>
        obtain ⟨e1, e2⟩ := i4 (by simp)
        exact ⟨by rw [e1, withKids_withKids], e2⟩
    · intro k vs hi hvs
      refine i6 k _ hi ?_
      rw [pagesL_leaves]
      exact g4 k vs hi hvs

/-! ### an example -/

def sampleRoot : List (Bytes × Val) :=
  [(b!"Type", .name b!"Pages"), (b!"Count", .num 3), (b!"Kids", .arr [.ref 3, .ref 4]), (b!"MediaBox", .arr [.num 0, .num 0, .num 595, .num 842])]

set_option maxRecDepth 20000 in
theorem sampleDoc_dict2 : StdDict sampleDoc.objs 2 sampleRoot :=
  stdDict_of (x := b!" /Type /Pages /Count 3 /Kids [ 3 0 R 4 0 R ] /MediaBox [0 0 595 842] ") (by decide) (by decide) rfl (stdText_of (by decide +kernel) ⟨_, rfl, by rfl⟩)

set_option maxRecDepth 20000 in
theorem sampleDoc_dict4 : StdDict sampleDoc.objs 4 [(b!"Type", .name b!"Pages"), (b!"Count", .num 2), (b!"Kids", .arr [.ref 5, .ref 6]), (b!"Parent", .ref 2)] :=
  stdDict_of (x := b!" /Type /Pages /Count 2 /Kids [ 5 0 R 6 0 R ] /Parent 2 0 R ") (by decide) (by decide) rfl (stdText_of (by decide +kernel) ⟨_, rfl, rfl⟩)

set_option maxRecDepth 20000 in
theorem sampleDoc_pages : StdDict sampleDoc.objs 3 [(b!"Type", .name b!"Page"), (b!"Parent", .ref 2), (b!"Contents", .ref 7)] ∧
    StdDict sampleDoc.objs 5 [(b!"Type", .name b!"Page"), (b!"Parent", .ref 4), (b!"Contents", .ref 8)] ∧
    StdDict sampleDoc.objs 6 [(b!"Type", .name b!"Page"), (b!"Parent", .ref 4), (b!"Contents", .ref 9)] := by
  refine ⟨?_, ?_, ?_⟩
  · exact stdDict_of (x := b!" /Type /Page /Parent 2 0 R /Contents 7 0 R ") (by decide) (by decide) rfl (stdText_of (by decide +kernel) ⟨_, rfl, rfl⟩)
  · exact stdDict_of (x := b!" /Type /Page /Parent 4 0 R /Contents 8 0 R ") (by decide) (by decide) rfl (stdText_of (by decide +kernel) ⟨_, rfl, rfl⟩)
  · exact stdDict_of (x := b!" /Type /Page /Parent 4 0 R /Contents 9 0 R ") (by decide) (by decide) rfl (stdText_of (by decide +kernel) ⟨_, rfl, rfl⟩)

theorem sampleDoc_stdRoot : StdRoot sampleDoc 2 sampleRoot [.leaf 3, .node 4 [.leaf 5, .leaf 6]] := by
  obtain ⟨c, _, t⟩ := sampleDoc_std
  exact ⟨c, by decide, sampleDoc_dict2, ⟨rfl, ⟨rfl, by simp [sampleRoot]⟩, by simp⟩, ⟨rfl, by simp [sampleRoot]⟩, ⟨3, rfl, by simp [sampleRoot]⟩, t⟩

/-- what the pages of the sample show -/
def sampleViews : List (List (Bytes × Val) × Option Bytes) :=
  [([(b!"Type", .name b!"Page"), (b!"Parent", .ref 2), (b!"Contents", .ref 0)], (getObj sampleDoc.objs 7).map Obj.data),
   ([(b!"Type", .name b!"Page"), (b!"Parent", .ref 4), (b!"Contents", .ref 0)], (getObj sampleDoc.objs 8).map Obj.data),
   ([(b!"Type", .name b!"Page"), (b!"Parent", .ref 4), (b!"Contents", .ref 0)], (getObj sampleDoc.objs 9).map Obj.data)]

theorem sampleDoc_shows : List.Forall₂ (StdShows sampleDoc.objs 2) (pagesL [.leaf 3, .node 4 [.leaf 5, .leaf 6]]) sampleViews := by
  obtain ⟨o3, o5, o6⟩ := sampleDoc_pages
  have page : ∀ {p q : Int}, StdPage [(b!"Type", .name b!"Page"), (b!"Parent", .ref p), (b!"Contents", .ref q)] := fun {p q} => ⟨rfl, rfl, by simp⟩
  exact .cons ⟨_, o3, page, Or.inl ⟨7, _, by decide, by decide, by decide, ⟨rfl, by simp⟩, rfl, rfl⟩⟩
    (.cons ⟨_, o5, page, Or.inl ⟨8, _, by decide, by decide, by decide, ⟨rfl, by simp⟩, rfl, rfl⟩⟩
    (.cons ⟨_, o6, page, Or.inl ⟨9, _, by decide, by decide, by decide, ⟨rfl, by simp⟩, rfl, rfl⟩⟩ .nil))

/-- every page inherits the size from the root -/
theorem sampleDoc_attr : List.Forall₂ (Attr sampleDoc.objs b!"MediaBox") (pagesL [.leaf 3, .node 4 [.leaf 5, .leaf 6]]) (List.replicate 3 (some (.arr [.num 0, .num 0, .num 595, .num 842]))) := by
  obtain ⟨o3, o5, o6⟩ := sampleDoc_pages
  have a2 : Attr sampleDoc.objs b!"MediaBox" 2 (some (.arr [.num 0, .num 0, .num 595, .num 842])) := .own sampleDoc_dict2 rfl
  have a4 : Attr sampleDoc.objs b!"MediaBox" 4 (some (.arr [.num 0, .num 0, .num 595, .num 842])) := .up sampleDoc_dict4 rfl rfl a2
  exact .cons (.up o3 rfl rfl a2) (.cons (.up o5 rfl rfl a4) (.cons (.up o6 rfl rfl a4) .nil))

/-- page 1 copied behind page 3, then page 1 removed -/
example : ∃ d' root' ts', Runs sampleDoc [.dup 1 2, .remove 1] d' ∧ StdRoot d' 2 root' ts' ∧
    List.Forall₂ (StdShows d'.objs 2) (pagesL ts') (sampleViews.drop 1 ++ sampleViews.take 1) ∧ numberOfPages d' = .ok 3 ∧
    List.Forall₂ (Attr d'.objs b!"MediaBox") (pagesL ts') (List.replicate 3 (some (.arr [.num 0, .num 0, .num 595, .num 842]))) := by
  have h0 := sampleDoc_stdRoot
  obtain ⟨d1, h1⟩ := C80_duplicate_succeeds_partial (p := 2) h0 (t := 1) (src := 3) (by decide) rfl (forall2_get sampleDoc_shows (i := 0) rfl |>.elim fun b hb => by
    obtain ⟨e, hb⟩ := hb
    cases e
    exact hb) (by decide) (by decide) (by decide)
  obtain ⟨ids, s1, s2, s3, _⟩ := std_step h0 sampleDoc_shows (op := .dup 1 2) h1 (by decide)
  have hl : ids.length = 4 := by
    have := s2.length_eq
    rw [this]; rfl
  obtain ⟨d2, _, h2, _⟩ := C80_remove_partial s1 (k := 1) (by decide) (by rw [pagesL_leaves]; omega)
  have hrun : Runs sampleDoc [.dup 1 2, .remove 1] d2 := ⟨d1, h1, d2, by rw [applyOp, h2]; rfl, rfl⟩
  obtain ⟨root', ts', r1, r2, r3, _, _, r4⟩ := C80_history_partial h0 sampleDoc_shows hrun (by decide)
  exact ⟨d2, root', ts', hrun, r1, r2, r3, r4 _ _ (by unfold Inherited; decide) sampleDoc_attr⟩

/-- **C80** In a tree with more levels, /Parent of a page is not the node above it after the first change: all pages are put below the root, but keep their /Parent. -/
theorem C80_refuted_parent : ∃ d' d5, removePage sampleDoc 1 = .ok d' ∧ StdRoot d' 2 (withKids sampleRoot [5, 6]) [.leaf 5, .leaf 6] ∧ StdDict d'.objs 5 d5 ∧
    d5.lookup b!"Parent" = some (.ref 4) := by
  obtain ⟨d', ids, h1, h2, h3, h4, _⟩ := C80_remove_partial sampleDoc_stdRoot (k := 1) (by decide) (by decide)
  have : ids = [5, 6] := h2
  subst this
  exact ⟨d', _, h1, h3, StdDict.kept sampleDoc_pages.2.1 (fun o ho => h4 5 o (by decide) ho), rfl⟩

end Verif
