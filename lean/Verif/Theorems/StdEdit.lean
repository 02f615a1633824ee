import Verif.Theorems.StdTree
import Verif.Lemmas.Object
/-
C80: page operations as the standard sees them.
-/
namespace Verif
open Spec

/-! ### values the program writes -/

/-- a value that is written in simple form -/
structure StdVal (r : Bytes) (v : Val) : Prop where
  values : Values r [v]
  noName : NoName v
  simple : SimpleText r
  refs : IntRefs r
  noStream : ¬ streamKw <:+: r

/-- digits, `-`, blank, `R`, `[` and `]` -/
def easy (c : UInt8) : Bool := isDigit c || c = 45 || c = 32 || c = 82 || c = 91 || c = 93

theorem easy_cases {c : UInt8} (h : easy c = true) : (regular c = true ∧ simpleChar c = true) ∨ c = 32 ∨ c = 91 ∨ c = 93 := by
  simp only [easy, isDigit, Bool.or_eq_true, Bool.and_eq_true, decide_eq_true_eq] at h
  rcases h with ((((⟨h1, h2⟩ | rfl) | rfl) | rfl) | rfl) | rfl
  · left
    rw [UInt8.le_iff_toNat_le] at h1 h2
    have e1 : (48 : UInt8).toNat = 48 := rfl
    have e2 : (57 : UInt8).toNat = 57 := rfl
    rw [e1] at h1; rw [e2] at h2
    have : c = UInt8.ofNat c.toNat := by simp
    obtain ⟨n, hn⟩ : ∃ n, c.toNat = n := ⟨_, rfl⟩
    rw [hn] at h1 h2 this
    have hall : ∀ n ≤ 57, 48 ≤ n → regular (UInt8.ofNat n) = true ∧ simpleChar (UInt8.ofNat n) = true := by decide
    rw [this]
    exact hall n h2 h1
  · left; decide
  · simp
  · left; decide
  · simp
  · simp

theorem simple_easy : ∀ (s : Bytes) (m : Mode), (m = .ground ∨ ∃ cur, m = .word cur) → (∀ c ∈ s, easy c = true) → simpleFrom m s = true := by
  intro s
  induction s with
  | nil =>
    intro m hm _
    rcases hm with rfl | ⟨cur, rfl⟩ <;> rfl
  | cons c s ih =>
    intro m hm h
    rw [simple_cons]
    have hr := fun m' (hm' : m' = Mode.ground ∨ ∃ cur, m' = .word cur) => ih m' hm' (fun d hd => h d (by simp [hd]))
    rcases easy_cases (h c (by simp)) with ⟨h1, h2⟩ | rfl | rfl | rfl
    · have h40 : c ≠ 40 := by rintro rfl; simp [regular, delim] at h1
      rcases hm with rfl | ⟨cur, rfl⟩
      · refine ⟨h2, hr _ ?_⟩
        right
        exact ⟨[c], by simp [lexStep, lexStart_reg h1]⟩
      · refine ⟨by simp [simpleByte, h2, h40], hr _ ?_⟩
        right
        exact ⟨cur ++ [c], by simp [lexStep, h1]⟩
    · rcases hm with rfl | ⟨cur, rfl⟩ <;> exact ⟨rfl, hr _ (Or.inl rfl)⟩
    · rcases hm with rfl | ⟨cur, rfl⟩ <;> exact ⟨rfl, hr _ (Or.inl rfl)⟩
    · rcases hm with rfl | ⟨cur, rfl⟩ <;> exact ⟨rfl, hr _ (Or.inl rfl)⟩

theorem intRefs_easy {s : Bytes} (h : ∀ c ∈ s, easy c = true) : IntRefs s := by
  intro w g n hi _ _
  have key : ∀ w ∈ words s, (46 : UInt8) ∉ w := by
    intro w hw hc
    rcases words_mem s [] w hw 46 hc with h' | ⟨h', _⟩
    · simp at h'
    · exact absurd (h 46 h') (by decide)
  exact ⟨key w (hi.subset (by simp)), key g (hi.subset (by simp))⟩

theorem noStream_easy {s : Bytes} (h : ∀ c ∈ s, easy c = true) : ¬ streamKw <:+: s := by
  intro hs
  exact absurd (h 115 (hs.subset (by decide))) (by decide)

theorem stdVal_easy {r : Bytes} {v : Val} (h : ∀ c ∈ r, easy c = true) (hn : NoName v) {ts : List Lexeme} (h1 : lexer .ground (r ++ b!" ") = (ts, .ground))
    (h2 : ts.foldl readStep (some [(true, [])]) = some [(true, [v])]) : StdVal r v :=
  ⟨⟨ts, h1, simple_end r _ (simple_easy r _ (Or.inl rfl) h), h2⟩, hn, simple_easy r _ (Or.inl rfl) h, intRefs_easy h, noStream_easy h⟩

theorem easy_itoa (n : Int) : ∀ c ∈ itoa n, easy c = true := by
  intro c hc
  rcases itoa_bytes n c hc with h | rfl
  · simp [easy, h]
  · rfl

theorem stdVal_num (n : Int) : StdVal (itoa n) (.num n) :=
  stdVal_easy (easy_itoa n) (by intro m h; cases h) (ts := [.num n]) (Lx.num n (by rfl) (Lx.last (ts := []) b!" " rfl)) (by simp [readStep])

theorem stdVal_ref (n : Int) : StdVal (refString n 0) (.ref n) := by
  have e : refString n 0 = itoa n ++ b!" 0 R" := by simp [refString]; rfl
  rw [e]
  refine stdVal_easy ?_ (by intro m h; cases h) (ts := [.num n, .num 0, .op b!"R"]) ?_ (by simp [readStep])
  · intro c hc
    rcases List.mem_append.1 hc with h | h
    · exact easy_itoa n c h
    · clear hc; revert c; decide
  · have := Lx.num n (by rfl) (Lx.last (ts := [.num 0, .op b!"R"]) b!" 0 R " rfl)
    exact Lx.of_eq this (by simp)

theorem Lx.refs {s : Bytes} {us : List Lexeme} (h : Lx s us) : ∀ ids : List Int,
    Lx (ids.flatMap (fun v => itoa v ++ b!" " ++ itoa 0 ++ b!" R ") ++ s) (ids.flatMap (fun n => [.num n, .num 0, .op b!"R"]) ++ us)
  | [] => by simpa using h
  | n :: ids => by
    have h' := Lx.num n (by rfl) <| Lx.const (ts := [.num 0, .op b!"R"]) b!" 0 R " rfl (Lx.refs h ids)
    have e : itoa 0 = b!"0" := rfl
    simpa [e] using h'

theorem read_refs (b : Bool) (r : List (Bool × List Val)) : ∀ (ids : List Int) (l : List Val),
    (ids.flatMap (fun n : Int => [Lexeme.num n, .num 0, .op b!"R"])).foldl readStep (some ((b, l) :: r)) = some ((b, (ids.map Val.ref).reverse ++ l) :: r)
  | [], l => by simp
  | n :: ids, l => by
    have ih := read_refs b r ids
    simp only [List.flatMap_cons, List.foldl_append, List.foldl_cons, List.foldl_nil, readStep]
    simp [ih]

theorem stdVal_refs (ids : List Int) : StdVal (refArrString ids) (.arr (ids.map .ref)) := by
  refine stdVal_easy ?_ (by intro m h; cases h) (ts := [.open] ++ ids.flatMap (fun n => [.num n, .num 0, .op b!"R"]) ++ [.close]) ?_ ?_
  · intro c hc
    simp only [refArrString, List.mem_append, List.mem_flatMap] at hc
    rcases hc with (hc | ⟨n, _, hc⟩) | hc
    · revert c; decide
    · rcases hc with ((hc | hc) | hc) | hc
      · exact easy_itoa n c hc
      · revert c; decide
      · exact easy_itoa 0 c hc
      · revert c; decide
    · revert c; decide
  · have := Lx.const (ts := [.open]) b!"[" rfl (Lx.refs (Lx.last (ts := [.close]) b!"] " rfl) ids)
    refine (Lx.of_eq this ?_).trans (by simp)
    simp [refArrString]
  · simp only [List.foldl_append, List.foldl_cons, List.foldl_nil, readStep]
    rw [read_refs]
    simp

/-! ### rewriting entries -/

/-- entries as they are read, which can be written again -/
def StdProps (d : List (Bytes × Val)) (ps : Props) : Prop := ReadAs d ps ∧ ∀ p ∈ ps, (∀ c ∈ p.key, regular c = true) ∧ SimpleText p.rawVal ∧ GoodEntry p

theorem readAs_values {d : List (Bytes × Val)} {ps : Props} (h : ReadAs d ps) : (∀ p ∈ ps, (∀ c ∈ p.key, regular c = true) ∧ SimpleText p.rawVal) →
    ∃ vss, List.Forall₂ EntryValues ps vss ∧ pairUp (List.zipWith (fun p l => Val.name p.key :: l) ps vss).flatten = some d := by
  induction h with
  | nil => intro _; exact ⟨[], .nil, rfl⟩
  | @name k n r r' d ps h1 h2 _ ih =>
    intro hg
    obtain ⟨vss, f1, f2⟩ := ih (fun p hp => hg p (by simp [hp]))
    have g1 := hg ⟨k, r⟩ (by simp)
    have g2 := hg ⟨n, r'⟩ (by simp)
    refine ⟨[] :: [] :: vss, .cons ⟨g1.1, h1, by simp, g1.2⟩ (.cons ⟨g2.1, h2, by simp, g2.2⟩ f1), ?_⟩
    simp only [List.zipWith_cons_cons, List.flatten_cons, List.cons_append, List.nil_append, pairUp, f2, Option.map_some]
  | @value k r v d ps h1 h2 _ ih =>
    intro hg
    obtain ⟨vss, f1, f2⟩ := ih (fun p hp => hg p (by simp [hp]))
    have g1 := hg ⟨k, r⟩ (by simp)
    refine ⟨[v] :: vss, .cons ⟨g1.1, h2, by intro x hx; simp at hx; subst hx; exact h1, g1.2⟩ f1, ?_⟩
    simp only [List.zipWith_cons_cons, List.flatten_cons, List.cons_append, List.nil_append, pairUp, f2, Option.map_some]

theorem readAs_set {d : List (Bytes × Val)} {ps : Props} {k r : Bytes} {v0 v : Val} (h : ReadAs d ps) (hk : EntryIs d k v0) (hv0 : NoName v0) (hv : StdVal r v) :
    ReadAs (setVal k v d) (setPropByKey k r ps) := by
  induction h with
  | nil => exact .nil
  | @name k1 n r1 r2 d ps h1 h2 _ ih =>
    have hn : n ≠ k := by rintro rfl; exact hk.2 k1 (by simp)
    have hk1 : k1 ≠ k := by
      rintro rfl
      have := hk.1
      simp at this
      exact hv0 n this.symm
    rw [setVal, if_neg hk1, setPropByKey, if_neg hk1, setPropByKey, if_neg hn]
    refine .name h1 h2 (ih ⟨?_, fun k' hm => hk.2 k' (by simp [hm])⟩)
    have := hk.1
    rw [List.lookup_cons] at this
    have e : (k == k1) = false := by simp [Ne.symm hk1]
    rw [e] at this
    exact this
  | @value k1 r1 v1 d ps h1 h2 hrest ih =>
    by_cases hk1 : k1 = k
    · subst hk1
      rw [setVal, if_pos rfl, setPropByKey, if_pos rfl]
      exact .value hv.noName hv.values hrest
    · rw [setVal, if_neg hk1, setPropByKey, if_neg hk1]
      refine .value h1 h2 (ih ⟨?_, fun k' hm => hk.2 k' (by simp [hm])⟩)
      have := hk.1
      rw [List.lookup_cons] at this
      have e : (k == k1) = false := by simp [Ne.symm hk1]
      rw [e] at this
      exact this

theorem StdProps.set {d : List (Bytes × Val)} {ps : Props} {k r : Bytes} {v0 v : Val} (h : StdProps d ps) (hk : EntryIs d k v0) (hv0 : NoName v0) (hv : StdVal r v) :
    StdProps (setVal k v d) (setPropByKey k r ps) := by
  refine ⟨readAs_set h.1 hk hv0 hv, ?_⟩
  have h2 := h.2
  clear h hk
  induction ps with
  | nil => simp [setPropByKey]
  | cons p ps ih =>
    intro q hq
    rw [setPropByKey] at hq
    split at hq
    · rcases List.mem_cons.1 hq with rfl | hq
      · obtain ⟨a, b, c⟩ := h2 p (by simp)
        exact ⟨a, hv.simple, ⟨hv.refs, hv.noStream, c.keyStream, c.key⟩⟩
      · exact h2 q (by simp [hq])
    · rcases List.mem_cons.1 hq with rfl | hq
      · exact h2 q (by simp)
      · exact ih (fun p hp => h2 p (by simp [hp])) q hq

/-- What is written is a simply written dictionary. -/
theorem StdProps.dict {d : List (Bytes × Val)} {ps : Props} (h : StdProps d ps) {objs : List Obj} {id : Int} (h0 : 0 < id) (h1 : id < 2 ^ 63)
    (ho : OnlyObj objs id ⟨id, setProperties ps⟩) : StdDict objs id d := by
  obtain ⟨vss, f1, f2⟩ := readAs_values h.1 (fun p hp => ⟨(h.2 p hp).1, (h.2 p hp).2.1⟩)
  obtain ⟨e, hx⟩ := std_write f1 f2 (fun p hp => (h.2 p hp).2.2)
  refine ⟨h0, h1, _, [], _, b!"\n", [], ho, ?_, by simp [White], by decide, Or.inl rfl, hx⟩
  rw [show (⟨id, setProperties ps⟩ : Obj).data = setProperties ps from rfl, e]
  simp

theorem StdDict.props {objs : List Obj} {id : Int} {d : List (Bytes × Val)} (h : StdDict objs id d) : ∃ ps, Entries objs id ps ∧ StdProps d ps ∧ ∀ p ∈ ps, SS p.rawVal := by
  obtain ⟨ps, vss, he, f1, f2, hr, hg⟩ := StdDict.entries h
  refine ⟨ps, he, ⟨hr, ?_⟩, fun p hp => (hg p hp).2.1⟩
  intro p hp
  obtain ⟨vs, hv⟩ := forall₂_left f1 p hp
  exact ⟨hv.1, (hg p hp).1, (hg p hp).2.2⟩

theorem setVal_lookup {k k' : Bytes} {v : Val} : ∀ {d : List (Bytes × Val)}, k' ≠ k → (setVal k v d).lookup k' = d.lookup k' := by
  intro d hne
  induction d with
  | nil => rfl
  | cons e d ih =>
    obtain ⟨k1, v1⟩ := e
    rw [setVal]
    split
    · rename_i h
      simp only at h
      subst h
      have e : (k' == k1) = false := by simp [hne]
      rw [List.lookup_cons, List.lookup_cons, e]
    · rw [List.lookup_cons, List.lookup_cons, ih]

theorem setVal_lookup_self {k : Bytes} {v v0 : Val} : ∀ {d : List (Bytes × Val)}, d.lookup k = some v0 → (setVal k v d).lookup k = some v := by
  intro d h
  induction d with
  | nil => simp at h
  | cons e d ih =>
    obtain ⟨k1, v1⟩ := e
    rw [setVal]
    split
    · simp
    · rename_i hne
      simp only at hne
      have e : (k == k1) = false := by simp [Ne.symm hne]
      rw [List.lookup_cons, e] at h ⊢
      exact ih h

theorem setVal_names {k : Bytes} {v : Val} (hv : NoName v) : ∀ {d : List (Bytes × Val)} {k' n : Bytes}, (k', Val.name n) ∈ setVal k v d → (k', Val.name n) ∈ d := by
  intro d k' n h
  induction d with
  | nil => exact h
  | cons e d ih =>
    rw [setVal] at h
    split at h
    · rcases List.mem_cons.1 h with h | h
      · simp at h; exact absurd h.2.symm (hv n)
      · simp [h]
    · rcases List.mem_cons.1 h with h | h
      · simp [h]
      · simp [ih h]

theorem entryIs_set {k : Bytes} {v v0 : Val} {d : List (Bytes × Val)} (h : EntryIs d k v0) (hv : NoName v) : EntryIs (setVal k v d) k v :=
  ⟨setVal_lookup_self h.1, fun k' hm => h.2 k' (setVal_names hv hm)⟩

theorem entryIs_set_ne {k k1 : Bytes} {v v0 : Val} {d : List (Bytes × Val)} (h : EntryIs d k v0) (hv : NoName v) (hne : k ≠ k1) : EntryIs (setVal k1 v d) k v0 :=
  ⟨by rw [setVal_lookup hne]; exact h.1, fun k' hm => h.2 k' (setVal_names hv hm)⟩

theorem unused_set {k k1 : Bytes} {v : Val} {d : List (Bytes × Val)} (h : Unused d k) (hv : NoName v) (hne : k ≠ k1) : Unused (setVal k1 v d) k :=
  ⟨by rw [setVal_lookup hne]; exact h.1, fun k' hm => h.2 k' (setVal_names hv hm)⟩

/-! ### the page list -/

theorem StdDict.kept {objs objs' : List Obj} {id : Int} {d : List (Bytes × Val)} (h : StdDict objs id d) (hk : ∀ o, OnlyObj objs id o → OnlyObj objs' id o) : StdDict objs' id d := by
  obtain ⟨h0, h1, o, a, x, b, tail, ho, hr⟩ := h
  exact ⟨h0, h1, o, a, x, b, tail, hk o ho, hr⟩

/-- the pages of a tree are pages -/
def IsStdPage (objs : List Obj) (i : Int) : Prop := ∃ d, StdDict objs i d ∧ StdPage d

mutual
theorem StdTree.pages {objs : List Obj} : ∀ (t : Tree), StdTree objs t → ∀ i ∈ t.pages, IsStdPage objs i
  | .leaf i, h => by
    intro j hj
    simp [Tree.pages] at hj
    subst hj
    exact h
  | .node i kids, h => by
    intro j hj
    rw [Tree.pages] at hj
    exact StdTreeL.pages kids h.2 j hj
theorem StdTreeL.pages {objs : List Obj} : ∀ (ts : List Tree), StdTreeL objs ts → ∀ i ∈ pagesL ts, IsStdPage objs i
  | [], _ => by simp [pagesL]
  | t :: ts, h => by
    intro j hj
    rw [pagesL] at hj
    rcases List.mem_append.1 hj with hj | hj
    · exact StdTree.pages t h.1 j hj
    · exact StdTreeL.pages ts h.2 j hj
end

theorem stdTreeL_leaves {objs : List Obj} : ∀ (ids : List Int), (∀ i ∈ ids, IsStdPage objs i) → StdTreeL objs (ids.map .leaf)
  | [], _ => trivial
  | i :: ids, h => ⟨h i (by simp), stdTreeL_leaves ids (fun j hj => h j (by simp [hj]))⟩

theorem StdRoot.doc {d : Doc} {r : Int} {root : List (Bytes × Val)} {ts : List Tree} (h : StdRoot d r root ts) : StdDoc d (.node r ts) :=
  ⟨h.catalog, ⟨root, h.dict, h.node⟩, h.kids⟩

theorem StdRoot.pageIDs {d : Doc} {r : Int} {root : List (Bytes × Val)} {ts : List Tree} (h : StdRoot d r root ts) : getPageObjIDs d = .ok (pagesL ts) := by
  have := (C79_pages_partial (StdRoot.doc h)).1
  simpa [Tree.pages] using this

/-- a page is not the root -/
theorem page_ne_root {objs : List Obj} {i r : Int} {root : List (Bytes × Val)} {kids : List Int} (hp : IsStdPage objs i) (hr : StdDict objs r root) (hn : StdNode root kids) : i ≠ r := by
  rintro rfl
  obtain ⟨d, hd, hp⟩ := hp
  obtain ⟨ps, e1, p1, _⟩ := StdDict.props hd
  obtain ⟨qs, e2, p2, _⟩ := StdDict.props hr
  have := e1.unique e2; subst this
  have h1 := C78_no_entry p1.1 hp.2.1 (no_name_ne hp.2.2)
  obtain ⟨v, h2, _⟩ := ReadAs.value_at p2.1 hn.2.1 (by intro n h; cases h)
  rw [h1] at h2
  cases h2

theorem setPages_eq' {d : Doc} {r : Int} {ps : Props} (hroot : RootIs d r) (he : Entries d.objs r ps) (hcount : ∃ v, valueOf ps b!"Count" = some v)
    (hkids : ∃ v, valueOf ps b!"Kids" = some v) (ids : List Int) : setPages d ids = .ok (withPages d r ids ps) := by
  obtain ⟨rps, v, hre, hv, hid⟩ := hroot
  obtain ⟨p, hp, e⟩ := valueOf_some hv
  obtain ⟨c, hc⟩ := hcount
  obtain ⟨c', hc', _⟩ := valueOf_some hc
  have hk : ∃ w, valueOf (setPropByKey b!"Count" (itoa ids.length) ps) b!"Kids" = some w := by
    rw [valueOf_set_ne (by decide)]; exact hkids
  obtain ⟨k, hk⟩ := hk
  obtain ⟨k', hk', _⟩ := valueOf_some hk
  obtain ⟨o, ho, hread⟩ := he
  have hrp := readObjProps_only (ps := ps) ⟨o, ho, hread⟩
  simp only [setPages, readObjProps_only hre, hp, e, hid, hrp, hc', hk', Res.ok_bind, Res.ofOption_some, setObjProps,
    setObjData_only ho, withPages, updData]

theorem setPages_std {d : Doc} {r : Int} {root : List (Bytes × Val)} {ts : List Tree} (h : StdRoot d r root ts) {ids : List Int} (hl : ∀ i ∈ ids, IsStdPage d.objs i) :
    ∃ d', setPages d ids = .ok d' ∧ StdRoot d' r (withKids root ids) (ids.map .leaf) ∧ Kept d d' r ∧ d'.rootObjID = d.rootObjID ∧ maxID d'.objs = maxID d.objs := by
  obtain ⟨ps, he, hp, hss⟩ := StdDict.props h.dict
  obtain ⟨q, hq⟩ := h.count
  have nn : ∀ q : ℚ, NoName (.num q) := by intro q n h; cases h
  have na : ∀ l : List Val, NoName (.arr l) := by intro q n h; cases h
  obtain ⟨vc, c1, _⟩ := ReadAs.value_at hp.1 hq (nn q)
  obtain ⟨vk, k1, _⟩ := ReadAs.value_at hp.1 h.node.2.1 (na _)
  have hs := setPages_eq' (StdDoc.hasTree (StdRoot.doc h)).1 he ⟨vc, c1⟩ ⟨vk, k1⟩ ids
  have p1 : StdProps (setVal b!"Count" (.num ids.length) root) (setPropByKey b!"Count" (itoa ids.length) ps) := by
    have := StdProps.set hp hq (nn q) (stdVal_num ids.length)
    simpa using this
  have hkids : EntryIs (setVal b!"Count" (.num ids.length) root) b!"Kids" (.arr ((ts.map Tree.id).map .ref)) := entryIs_set_ne h.node.2.1 (nn _) (by decide)
  have p2 := StdProps.set p1 hkids (na _) (stdVal_refs ids)
  have hkept : Kept d (withPages d r ids ps) r := kept_upd
  refine ⟨_, hs, ⟨?_, h.notCatalog, ?_, ⟨?_, ?_, ?_⟩, ?_, ?_, ?_⟩, hkept, rfl, by simp only [withPages]; rw [maxID_updData]⟩
  · obtain ⟨c, hc, hcp⟩ := h.catalog
    exact ⟨c, StdDict.kept hc (fun o ho => hkept _ o (fun e => h.notCatalog e.symm) ho), hcp⟩
  · obtain ⟨h0, h1, _⟩ := h.dict
    obtain ⟨o, ho, _⟩ := he
    have hid : o.objID = r := by
      have : o ∈ d.objs.filter (fun x => decide (x.objID = r)) := by rw [ho]; simp
      simpa using (List.mem_filter.1 this).2
    have h2 := onlyObj_updData_eq (data := setProperties (setPropByKey b!"Kids" (refArrString ids) (setPropByKey b!"Count" (itoa ids.length) ps))) ho
    rw [hid] at h2
    exact StdProps.dict p2 h0 h1 h2
  · rw [withKids, setVal_lookup (by decide), setVal_lookup (by decide)]
    exact h.node.1
  · rw [map_id_leaves]
    exact entryIs_set hkids (na _)
  · intro _
    exact unused_set (unused_set h.noPage (nn _) (by decide)) (na _) (by decide)
  · exact unused_set (unused_set h.noPage (nn _) (by decide)) (na _) (by decide)
  · exact ⟨_, entryIs_set_ne (entryIs_set hq (nn _)) (na _) (by decide)⟩
  · apply stdTreeL_leaves
    intro i hi
    have hne := page_ne_root (hl i hi) h.dict h.node
    obtain ⟨dp, h1, h2⟩ := hl i hi
    exact ⟨dp, StdDict.kept h1 (fun o ho => hkept _ o hne ho), h2⟩

end Verif
