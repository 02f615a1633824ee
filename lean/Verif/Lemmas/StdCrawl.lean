import Verif.Lemmas.StdItems
/-
What a crawl collects in documents whose dictionaries are simply written: results hold the entries of the objects.
-/
namespace Verif
open Spec

theorem items_append_assoc (a b c : Items) : (a.append b).append c = a.append (b.append c) := by
  induction a with
  | nil => rfl
  | str k v r ih => simp [Items.append, ih]
  | sub k s r _ ih => simp [Items.append, ih]
  | void k r ih => simp [Items.append, ih]

theorem items_append_nil (a : Items) : a.append .nil = a := by
  induction a with
  | nil => rfl
  | str k v r ih => simp [Items.append, ih]
  | sub k s r _ ih => simp [Items.append, ih]
  | void k r ih => simp [Items.append, ih]

theorem StdItems.unique {it : Items} {d e : List (Bytes × Val)} (h : StdItems it d) (h' : StdItems it e) : d = e := by
  induction h generalizing e with
  | nil => cases h'; rfl
  | name h1 h2 h3 h4 _ ih =>
    cases h' with
    | name _ _ _ _ h => rw [ih h]
    | value _ hv _ => have := values_same h3.values hv.values; simp at this
  | value h1 h2 _ ih =>
    cases h' with
    | name _ _ h3 _ _ => have := values_same h3.values h2.values; simp at this
    | value _ hv h => rw [ih h]; have := values_same h2.values hv.values; simp at this; rw [this]
  | sub h1 _ _ ih1 ih =>
    cases h' with
    | sub _ hs h => rw [ih h, ih1 hs]

/-- Raw values as they are read, nested results only for /Resources. -/
def Items.Fine : Items → Prop
  | .nil => True
  | .str _ v r => SS v ∧ r.Fine
  | .sub k s r => k = b!"Resources" ∧ s.Fine ∧ r.Fine
  | .void _ _ => False

theorem fine_append {a b : Items} (ha : a.Fine) (hb : b.Fine) : (a.append b).Fine := by
  induction a with
  | nil => exact hb
  | str k v r ih => exact ⟨ha.1, ih ha.2⟩
  | sub k s r _ ih => exact ⟨ha.1, ha.2.1, ih ha.2.2⟩
  | void k r => exact ha.elim

/-- items as collected -/
structure FineItems (it : Items) (e : List (Bytes × Val)) : Prop where
  std : StdItems it e
  fine : it.Fine

theorem FineItems.nil : FineItems .nil [] := ⟨.nil, trivial⟩

theorem FineItems.append {a b : Items} {d e : List (Bytes × Val)} (ha : FineItems a d) (hb : FineItems b e) : FineItems (a.append b) (d ++ e) := ⟨ha.std.append hb.std, fine_append ha.fine hb.fine⟩

theorem FineItems.unique {it : Items} {d e : List (Bytes × Val)} (h : FineItems it d) (h' : FineItems it e) : d = e := h.std.unique h'.std

section
variable (objs : List Obj) (R N : Int → Prop) (D : Int → List (Bytes × Val))

def Has (rs : Results) (i : Int) : Prop := ∃ it, (i, it) ∈ rs

/-- the result for object `i` has entries of the object, and at least the first ones in `pre` -/
def Prog (rs : Results) (i : Int) (pre : List (Bytes × Val)) : Prop :=
  ∀ it, (i, it) ∈ rs → ∃ e, FineItems it e ∧ (∀ k v, e.lookup k = some v → (D i).lookup k = some v) ∧ (∀ x ∈ e, x ∈ D i) ∧ ∀ k v, pre.lookup k = some v → e.lookup k = some v

/-- The results for the objects in `opn` are being made; the others are complete, or empty for objects at the end of the path. -/
structure CrawlInv (rs : Results) (opn : List Int) : Prop where
  has : ∀ i ∈ opn, Has rs i
  prog : ∀ i ∈ opn, R i ∧ Prog D rs i []
  done : ∀ i, Has rs i → i ∉ opn → ((∀ it, (i, it) ∈ rs → it = .nil) ∧ N i) ∨ (R i ∧ Prog D rs i (D i))

def Pres (rs rs' : Results) : Prop := ∀ i, Has rs i → Has rs' i ∧ ∀ pre, Prog D rs i pre → Prog D rs' i pre

/-- The values on the path are such that the crawl finds all: references to dictionaries, arrays of them, or dictionaries in place. -/
def PathOk : List Bytes → List (Bytes × Val) → Prop
  | [], _ => True
  | key :: path, d => (∀ k', (k', Val.name key) ∉ d) ∧ ∀ v, (key, v) ∈ d →
      (∃ i, v = .ref i ∧ InRange i ∧ ((path = [] → N i) ∧ (path ≠ [] → R i ∧ PathOk path (D i)))) ∨
      (∃ ids : List Int, ids ≠ [] ∧ v = .arr (ids.map .ref) ∧ ∀ i ∈ ids, InRange i ∧ ((path = [] → N i) ∧ (path ≠ [] → R i ∧ PathOk path (D i)))) ∨
      ∃ es, v = .dict es ∧ (path ≠ [] → key = b!"Resources") ∧ PathOk path es

def Target (path : List Bytes) (i : Int) : Prop := (path = [] → N i) ∧ (path ≠ [] → R i ∧ PathOk R N D path (D i))

structure GoodRec (path : List Bytes) (rec : Bytes → Option Int → Results → CrawlOut) : Prop where
  obj : ∀ i o rs opn, getObj objs i = some o → Target R N D path i → CrawlInv R N D rs opn →
    ∃ rs' own r, rec o.data (some i) (rs.touch i) = (rs', own, r) ∧ (∀ e, r ≠ .err e) ∧ (r = .ok () → CrawlInv R N D rs' opn ∧ Pres D rs rs')
  val : ∀ t es rs opn, path ≠ [] → StdVal t (.dict es) → SS t → PathOk R N D path es → CrawlInv R N D rs opn →
    ∃ rs' own r, rec t none rs = (rs', own, r) ∧ (∀ e, r ≠ .err e) ∧ (r = .ok () → CrawlInv R N D rs' opn ∧ Pres D rs rs' ∧ FineItems own es)
end

section
variable {objs : List Obj} {R N : Int → Prop} {D : Int → List (Bytes × Val)}

theorem Pres.refl (rs : Results) : Pres D rs rs := fun _ h => ⟨h, fun _ h => h⟩

theorem Pres.trans {a b c : Results} (h1 : Pres D a b) (h2 : Pres D b c) : Pres D a c := fun i h =>
  ⟨(h2 i (h1 i h).1).1, fun pre hp => (h2 i (h1 i h).1).2 pre ((h1 i h).2 pre hp)⟩

theorem lookup_has {rs : Results} {i : Int} : (rs.lookup i).isSome = true ↔ Has rs i := by
  unfold Has
  induction rs with
  | nil => simp
  | cons p rs ih =>
    obtain ⟨j, it⟩ := p
    rw [List.lookup_cons]
    cases hk : i == j with
    | true =>
      simp at hk
      subst hk
      simp
    | false =>
      simp at hk
      simp only
      rw [ih]
      constructor
      · rintro ⟨it', h⟩; exact ⟨it', by simp [h]⟩
      · rintro ⟨it', h⟩
        simp [hk] at h
        exact ⟨it', h⟩

theorem touch_mem {rs : Results} {i j : Int} {it : Items} : (j, it) ∈ rs.touch i ↔ (j, it) ∈ rs ∨ (¬ Has rs i ∧ j = i ∧ it = .nil) := by
  unfold Results.touch
  split
  · rename_i h
    have := lookup_has.1 h
    simp [this]
  · rename_i h
    have : ¬ Has rs i := fun hh => h (lookup_has.2 hh)
    simp [this]

theorem touch_has {rs : Results} {i j : Int} : Has (rs.touch i) j ↔ Has rs j ∨ j = i := by
  unfold Has
  simp only [touch_mem]
  constructor
  · rintro ⟨it, h | h⟩
    · exact Or.inl ⟨it, h⟩
    · exact Or.inr h.2.1
  · rintro (⟨it, h⟩ | rfl)
    · exact ⟨it, Or.inl h⟩
    · by_cases h : ∃ it, (j, it) ∈ rs
      · obtain ⟨it, h⟩ := h
        exact ⟨it, Or.inl h⟩
      · exact ⟨.nil, Or.inr ⟨h, rfl, rfl⟩⟩

theorem Pres.touch (rs : Results) (i : Int) : Pres D rs (rs.touch i) := by
  intro j hj
  refine ⟨touch_has.2 (Or.inl hj), ?_⟩
  intro pre hp it hit
  rcases touch_mem.1 hit with h | ⟨h1, rfl, _⟩
  · exact hp it h
  · exact absurd hj h1

theorem CrawlInv.touch_end {rs : Results} {opn : List Int} {i : Int} (h : CrawlInv R N D rs opn) (hN : N i) : CrawlInv R N D (rs.touch i) opn := by
  refine ⟨fun j hj => touch_has.2 (Or.inl (h.has j hj)), fun j hj => ⟨(h.prog j hj).1, ((Pres.touch rs i) j (h.has j hj)).2 _ (h.prog j hj).2⟩, ?_⟩
  intro j hj hno
  by_cases hr : Has rs j
  · rcases h.done j hr hno with ⟨h1, h2⟩ | ⟨h1, h2⟩
    · left
      refine ⟨fun it hit => ?_, h2⟩
      rcases touch_mem.1 hit with h | ⟨_, _, h⟩
      · exact h1 it h
      · exact h
    · exact Or.inr ⟨h1, ((Pres.touch rs i) j hr).2 _ h2⟩
  · rcases touch_has.1 hj with hj | rfl
    · exact absurd hj hr
    · left
      refine ⟨fun it hit => ?_, hN⟩
      rcases touch_mem.1 hit with h | ⟨_, _, h⟩
      · exact absurd ⟨it, h⟩ hr
      · exact h

theorem prog_nil {rs : Results} {i : Int} (h : ∀ it, (i, it) ∈ rs → it = .nil) : Prog D rs i [] := by
  intro it hit
  rw [h it hit]
  exact ⟨[], FineItems.nil, by simp, by simp, by simp⟩

theorem Prog.weaken {rs : Results} {i : Int} {pre : List (Bytes × Val)} (h : Prog D rs i pre) : Prog D rs i [] := by
  intro it hit
  obtain ⟨e, h1, h2, h3, _⟩ := h it hit
  exact ⟨e, h1, h2, h3, by simp⟩

/-- beginning with a dictionary -/
theorem CrawlInv.start {rs : Results} {opn : List Int} {i : Int} (h : CrawlInv R N D rs opn) (hR : R i) : CrawlInv R N D (rs.touch i) (i :: opn) ∧ Prog D (rs.touch i) i [] := by
  have hi : Prog D (rs.touch i) i [] := by
    by_cases hr : Has rs i
    · have : Prog D rs i [] := by
        by_cases ho : i ∈ opn
        · exact (h.prog i ho).2
        · rcases h.done i hr ho with ⟨h1, _⟩ | ⟨_, h2⟩
          · exact prog_nil h1
          · exact h2.weaken
      exact ((Pres.touch rs i) i hr).2 _ this
    · refine prog_nil (fun it hit => ?_)
      rcases touch_mem.1 hit with h | ⟨_, _, h⟩
      · exact absurd ⟨it, h⟩ hr
      · exact h
  refine ⟨⟨?_, ?_, ?_⟩, hi⟩
  · intro j hj
    rcases List.mem_cons.1 hj with rfl | hj
    · exact touch_has.2 (Or.inr rfl)
    · exact touch_has.2 (Or.inl (h.has j hj))
  · intro j hj
    rcases List.mem_cons.1 hj with rfl | hj
    · exact ⟨hR, hi⟩
    · exact ⟨(h.prog j hj).1, ((Pres.touch rs i) j (h.has j hj)).2 _ (h.prog j hj).2⟩
  · intro j hj hno
    simp at hno
    have hr : Has rs j := by
      rcases touch_has.1 hj with hj | hj
      · exact hj
      · exact absurd hj hno.1
    rcases h.done j hr hno.2 with ⟨h1, h2⟩ | ⟨h1, h2⟩
    · left
      refine ⟨fun it hit => ?_, h2⟩
      rcases touch_mem.1 hit with h | ⟨_, _, h⟩
      · exact h1 it h
      · exact h
    · exact Or.inr ⟨h1, ((Pres.touch rs i) j hr).2 _ h2⟩

theorem CrawlInv.finish {rs : Results} {opn : List Int} {i : Int} (h : CrawlInv R N D rs (i :: opn)) (hp : Prog D rs i (D i)) : CrawlInv R N D rs opn := by
  refine ⟨fun j hj => h.has j (by simp [hj]), fun j hj => h.prog j (by simp [hj]), ?_⟩
  intro j hj hno
  by_cases hji : j = i
  · subst hji
    exact Or.inr ⟨(h.prog j (by simp)).1, hp⟩
  · exact h.done j hj (by simp [hji, hno])

/-! ### adding items -/

theorem add_mem_ne {rs : Results} {i j : Int} {it it' : Items} (h : j ≠ i) : (j, it') ∈ rs.add i it ↔ (j, it') ∈ rs := by
  unfold Results.add
  rw [List.mem_map]
  constructor
  · rintro ⟨⟨a, b⟩, h1, h2⟩
    split at h2
    · rename_i ha
      simp only [Prod.mk.injEq] at h2
      exact absurd (h2.1.symm.trans ha) h
    · rw [← h2]; exact h1
  · intro hm
    exact ⟨(j, it'), hm, by simp [h]⟩

theorem add_mem {rs : Results} {i : Int} {it it' : Items} : (i, it') ∈ rs.add i it ↔ ∃ it0, (i, it0) ∈ rs ∧ it' = it0.append it := by
  unfold Results.add
  rw [List.mem_map]
  constructor
  · rintro ⟨⟨a, b⟩, h1, h2⟩
    split at h2
    · rename_i ha
      simp only at ha
      subst ha
      simp only [Prod.mk.injEq, true_and] at h2
      exact ⟨b, h1, h2.symm⟩
    · rename_i ha
      simp only [Prod.mk.injEq] at h2
      exact absurd h2.1 ha
  · rintro ⟨it0, h1, rfl⟩
    exact ⟨(i, it0), h1, by simp⟩

theorem add_has {rs : Results} {i j : Int} {it : Items} : Has (rs.add i it) j ↔ Has rs j := by
  unfold Has
  by_cases h : j = i
  · subst h
    simp only [add_mem]
    constructor
    · rintro ⟨_, it0, h, _⟩; exact ⟨it0, h⟩
    · rintro ⟨it0, h⟩; exact ⟨_, it0, h, rfl⟩
  · simp only [add_mem_ne h]

theorem prog_add_ne {rs : Results} {i j : Int} {it : Items} {pre : List (Bytes × Val)} (h : j ≠ i) (hp : Prog D rs j pre) : Prog D (rs.add i it) j pre := by
  intro it' hit
  exact hp it' ((add_mem_ne h).1 hit)

/-- one more entry -/
theorem prog_add {rs : Results} {i : Int} {it : Items} {pre suf p : List (Bytes × Val)} {x : Bytes × Val} (hD : D i = pre ++ x :: suf) (hx : FineItems it [x]) (hp : Prog D rs i pre) :
    Prog D (rs.add i it) i (pre ++ [x]) ∧ (Prog D rs i p → Prog D (rs.add i it) i p) := by
  have key : ∀ it0, (i, it0) ∈ rs → ∃ e, FineItems it0 e ∧ FineItems (it0.append it) (e ++ [x]) ∧ (∀ k v, (e ++ [x]).lookup k = some v → (D i).lookup k = some v) ∧ (∀ y ∈ e ++ [x], y ∈ D i) ∧
      ∀ k v, (pre ++ [x]).lookup k = some v → (e ++ [x]).lookup k = some v := by
    intro it0 h0
    obtain ⟨e, h1, h2, h3, h4⟩ := hp it0 h0
    have hx0 : ∀ k v, [x].lookup k = some v → pre.lookup k = none → (D i).lookup k = some v := by
      intro k v hk hn
      rw [hD, List.lookup_append, hn, Option.none_or]
      rw [List.lookup_cons] at hk ⊢
      cases hb : k == x.1 with
      | true => rw [hb] at hk; exact hk
      | false => rw [hb] at hk; simp at hk
    refine ⟨e, h1, h1.append hx, ?_, ?_, ?_⟩
    · intro k v hk
      rw [List.lookup_append] at hk
      cases he : e.lookup k with
      | some w => rw [he, Option.some_or] at hk; rw [← hk]; exact h2 k w he
      | none =>
        rw [he, Option.none_or] at hk
        refine hx0 k v hk ?_
        cases hpre : pre.lookup k with
        | none => rfl
        | some w => rw [h4 k w hpre] at he; cases he
    · intro y hy
      rcases List.mem_append.1 hy with hy | hy
      · exact h3 y hy
      · simp at hy; subst hy; rw [hD]; simp
    · intro k v hk
      rw [List.lookup_append] at hk ⊢
      cases hpre : pre.lookup k with
      | some w => rw [hpre, Option.some_or] at hk; rw [h4 k w hpre, Option.some_or, hk]
      | none =>
        rw [hpre, Option.none_or] at hk
        have hd := hx0 k v hk hpre
        cases he : e.lookup k with
        | some w =>
          rw [Option.some_or]
          have := h2 k w he
          rw [hd] at this
          exact this.symm
        | none => rw [Option.none_or]; exact hk
  constructor
  · intro it' hit
    obtain ⟨it0, h0, rfl⟩ := add_mem.1 hit
    obtain ⟨e, _, k2, k3, k4, k5⟩ := key it0 h0
    exact ⟨_, k2, k3, k4, k5⟩
  · intro hpp it' hit
    obtain ⟨it0, h0, rfl⟩ := add_mem.1 hit
    obtain ⟨e, k1, k2, k3, k4, _⟩ := key it0 h0
    refine ⟨_, k2, k3, k4, ?_⟩
    obtain ⟨e', h1, _, _, h4⟩ := hpp it0 h0
    rw [FineItems.unique h1 k1] at h4
    intro k v hk
    rw [List.lookup_append, h4 k v hk, Option.some_or]

theorem pres_add {rs : Results} {i : Int} {it : Items} {pre suf : List (Bytes × Val)} {x : Bytes × Val} (hD : D i = pre ++ x :: suf) (hx : FineItems it [x]) (hp : Prog D rs i pre) : Pres D rs (rs.add i it) := by
  intro j hj
  refine ⟨add_has.2 hj, fun p hpj => ?_⟩
  by_cases h : j = i
  · subst h
    exact (prog_add hD hx hp).2 hpj
  · exact prog_add_ne h hpj

theorem CrawlInv.add {rs : Results} {opn : List Int} {i : Int} {it : Items} {pre suf : List (Bytes × Val)} {x : Bytes × Val} (h : CrawlInv R N D rs (i :: opn)) (hD : D i = pre ++ x :: suf)
    (hx : FineItems it [x]) (hp : Prog D rs i pre) : CrawlInv R N D (rs.add i it) (i :: opn) := by
  refine ⟨fun j hj => add_has.2 (h.has j hj), fun j hj => ⟨(h.prog j hj).1, (pres_add hD hx hp j (h.has j hj)).2 _ (h.prog j hj).2⟩, ?_⟩
  intro j hj hno
  simp only [List.mem_cons, not_or] at hno
  have hr := add_has.1 hj
  rcases h.done j hr (by simp [hno]) with ⟨h1, h2⟩ | ⟨h1, h2⟩
  · exact Or.inl ⟨fun it' hit => h1 it' ((add_mem_ne hno.1).1 hit), h2⟩
  · exact Or.inr ⟨h1, prog_add_ne hno.1 h2⟩

theorem add_add (rs : Results) (i : Int) (a b : Items) : (rs.add i a).add i b = rs.add i (a.append b) := by
  unfold Results.add
  rw [List.map_map]
  apply List.map_congr_left
  intro p _
  by_cases h : p.1 = i
  · simp [h, items_append_assoc]
  · simp [h]

/-! ### one entry -/

/-- an entry that is read -/
structure ReadEntry (p : PropD) : Prop where
  key : ∀ c ∈ p.key, regular c = true
  simple : SimpleText p.rawVal
  good : GoodEntry p
  ss : SS p.rawVal

theorem ReadEntry.goodKey {p : PropD} (h : ReadEntry p) : GoodKey p.key := ⟨h.key, h.good.key, h.good.keyStream⟩

theorem ReadEntry.noVal {p : PropD} (h : ReadEntry p) (hv : Values p.rawVal []) : NoVal p.rawVal := ⟨hv, h.simple, h.good.refs, h.good.valStream⟩

theorem ReadEntry.stdVal {p : PropD} {v : Val} (h : ReadEntry p) (hv : Values p.rawVal [v]) (hn : NoName v) : StdVal p.rawVal v := ⟨hv, hn, h.simple, h.good.refs, h.good.valStream⟩

theorem kids_ok {path : List Bytes} {rec : Bytes → Option Int → Results → CrawlOut} (hrec : GoodRec objs R N D path rec) {opn : List Int} : ∀ (ids : List Int) (rs : Results),
    (∀ i ∈ ids, Target R N D path i) → CrawlInv R N D rs opn →
    ∃ rs' r, crawlKids objs rec ids rs = (rs', r) ∧ (∀ e, r ≠ .err e) ∧ (r = .ok () → CrawlInv R N D rs' opn ∧ Pres D rs rs') := by
  intro ids
  induction ids with
  | nil => intro rs _ h; exact ⟨rs, .ok (), rfl, by simp, fun _ => ⟨h, Pres.refl rs⟩⟩
  | cons i ids ih =>
    intro rs ht h
    unfold crawlKids
    cases ho : getObj objs i with
    | none => exact ⟨rs, .panic, rfl, by simp, by simp⟩
    | some o =>
      obtain ⟨rs1, own, r, e, hne, hok⟩ := hrec.obj i o rs opn ho (ht i (by simp)) h
      simp only [e]
      cases r with
      | ok u =>
        obtain ⟨i1, p1⟩ := hok rfl
        obtain ⟨rs2, r2, e2, hne2, hok2⟩ := ih rs1 (fun j hj => ht j (by simp [hj])) i1
        refine ⟨rs2, r2, e2, hne2, fun h => ?_⟩
        obtain ⟨i2, p2⟩ := hok2 h
        exact ⟨i2, p1.trans p2⟩
      | err x => exact absurd rfl (hne x)
      | panic => exact ⟨rs1, .panic, rfl, by simp, by simp⟩
      | hang => exact ⟨rs1, .hang, rfl, by simp, by simp⟩

theorem item_ok {path : List Bytes} {key : Bytes} {rec : Bytes → Option Int → Results → CrawlOut} (hrec : GoodRec objs R N D path rec) {opn : List Int} {p : PropD} {v : Val} {rs : Results}
    (hp : ReadEntry p) (hv : StdVal p.rawVal v) {d : List (Bytes × Val)} (hd : (p.key, v) ∈ d) (hpath : PathOk R N D (key :: path) d) (h : CrawlInv R N D rs opn) :
    ∃ rs' r, crawlItem objs key path.isEmpty rec p rs = (rs', r) ∧ (∀ e, r ≠ .err e) ∧ ∀ it, r = .ok it → CrawlInv R N D rs' opn ∧ Pres D rs rs' ∧ FineItems it [(p.key, v)] := by
  have hstr : FineItems (.str p.key p.rawVal .nil) [(p.key, v)] := ⟨.value hp.goodKey hv .nil, hp.ss, trivial⟩
  have plain : ∀ rs' : Results, CrawlInv R N D rs' opn → Pres D rs rs' → ∀ it, (Res.ok (Items.str p.key p.rawVal .nil) : Res Items) = .ok it → CrawlInv R N D rs' opn ∧ Pres D rs rs' ∧ FineItems it [(p.key, v)] := by
    intro rs' h1 h2 it e
    cases e
    exact ⟨h1, h2, hstr⟩
  unfold crawlItem
  by_cases hk : p.key = key
  · rw [if_neg (by simp [hk])]
    rw [hk] at hd
    rcases hpath.2 v hd with ⟨i, rfl, hr, ht⟩ | ⟨ids, hne, rfl, ht⟩ | ⟨es, rfl, hkr, ht⟩
    · rw [ref_type' hv hp.ss hr]
      simp only [value_ref hv.values hv.simple hp.ss hv.refs hr]
      cases ho : getObj objs i with
      | none => exact ⟨rs, .panic, rfl, by simp, by simp⟩
      | some o =>
        obtain ⟨rs1, own, r, e, hne, hok⟩ := hrec.obj i o rs opn ho ht h
        simp only [e]
        cases r with
        | ok u =>
          obtain ⟨i1, p1⟩ := hok rfl
          exact ⟨rs1, _, rfl, by simp, plain rs1 i1 p1⟩
        | err x => exact absurd rfl (hne x)
        | panic => exact ⟨rs1, .panic, rfl, by simp, by simp⟩
        | hang => exact ⟨rs1, .hang, rfl, by simp, by simp⟩
    · rw [refs_type hv hp.ss]
      have := (value_refs hv.values hv.simple hp.ss hv.refs (fun n hn => (ht n hn).1)).1 hne
      simp only [this]
      obtain ⟨rs1, r, e, hne, hok⟩ := kids_ok hrec ids rs (fun i hi => (ht i hi).2) h
      simp only [e]
      cases r with
      | ok u =>
        obtain ⟨i1, p1⟩ := hok rfl
        exact ⟨rs1, _, rfl, by simp, plain rs1 i1 p1⟩
      | err x => exact absurd rfl (hne x)
      | panic => exact ⟨rs1, .panic, rfl, by simp, by simp⟩
      | hang => exact ⟨rs1, .hang, rfl, by simp, by simp⟩
    · rw [dict_type hv hp.ss]
      cases path with
      | nil => exact ⟨rs, _, rfl, by simp, plain rs h (Pres.refl rs)⟩
      | cons k path =>
        obtain ⟨rs1, own, r, e, hne, hok⟩ := hrec.val p.rawVal es rs opn (by simp) hv hp.ss ht h
        simp only [List.isEmpty_cons, Bool.false_eq_true, if_false, e]
        cases r with
        | ok u =>
          obtain ⟨i1, p1, s1⟩ := hok rfl
          refine ⟨rs1, _, rfl, by simp, ?_⟩
          intro it e
          cases e
          exact ⟨i1, p1, .sub hp.goodKey s1.std .nil, hk.trans (hkr (by simp)), s1.fine, trivial⟩
        | err x => exact absurd rfl (hne x)
        | panic => exact ⟨rs1, .panic, rfl, by simp, by simp⟩
        | hang => exact ⟨rs1, .hang, rfl, by simp, by simp⟩
  · rw [if_pos hk]
    exact ⟨rs, _, rfl, by simp, plain rs h (Pres.refl rs)⟩

theorem pathOk_name {path : List Bytes} {key k n : Bytes} {d : List (Bytes × Val)} (h : PathOk R N D (key :: path) d) (hm : (k, Val.name n) ∈ d) : k ≠ key ∧ n ≠ key := by
  constructor
  · rintro rfl
    rcases h.2 _ hm with ⟨i, e, _⟩ | ⟨ids, _, e, _⟩ | ⟨es, e, _⟩ <;> cases e
  · rintro rfl
    exact h.1 k hm

/-! ### all entries -/

theorem loop_obj {path : List Bytes} {key : Bytes} {rec : Bytes → Option Int → Results → CrawlOut} (hrec : GoodRec objs R N D path rec) {opn : List Int} {i : Int}
    (hpath : PathOk R N D (key :: path) (D i)) {suf : List (Bytes × Val)} {ps : Props} (hps : ReadAs suf ps) : ∀ (pre : List (Bytes × Val)) (rs : Results) (own : Items), D i = pre ++ suf → (∀ p ∈ ps, ReadEntry p) →
    CrawlInv R N D rs (i :: opn) → Prog D rs i pre →
    ∃ rs' own' r, crawlLoop objs key path.isEmpty rec (some i) ps rs own = (rs', own', r) ∧ (∀ e, r ≠ .err e) ∧ (r = .ok () → CrawlInv R N D rs' opn ∧ Pres D rs rs') := by
  induction hps with
  | nil =>
    intro pre rs own hD _ h hp
    rw [List.append_nil] at hD
    exact ⟨rs, own, .ok (), rfl, by simp, fun _ => ⟨h.finish (by rw [hD]; exact hp), Pres.refl rs⟩⟩
  | @name k n r r' d ps h1 h2 _ ih =>
    intro pre rs own hD hg h hp
    have g1 := hg ⟨k, r⟩ (by simp)
    have g2 := hg ⟨n, r'⟩ (by simp)
    obtain ⟨hk, hn⟩ := pathOk_name hpath (k := k) (n := n) (by rw [hD]; simp)
    have hx : FineItems (.str k r (.str n r' .nil)) [(k, .name n)] := ⟨.name g1.goodKey g2.goodKey (g1.noVal h1) (g2.noVal h2) .nil, g1.ss, g2.ss, trivial⟩
    have e1 : crawlItem objs key path.isEmpty rec ⟨k, r⟩ rs = (rs, .ok (.str k r .nil)) := by simp [crawlItem, hk]
    have e2 : ∀ rs, crawlItem objs key path.isEmpty rec ⟨n, r'⟩ rs = (rs, .ok (.str n r' .nil)) := by intro rs; simp [crawlItem, hn]
    have step : crawlLoop objs key path.isEmpty rec (some i) (⟨k, r⟩ :: ⟨n, r'⟩ :: ps) rs own = crawlLoop objs key path.isEmpty rec (some i) ps (rs.add i (.str k r (.str n r' .nil))) own := by
      rw [crawlLoop, e1]
      simp only
      rw [crawlLoop, e2]
      simp only
      rw [add_add]
      rfl
    rw [step]
    obtain ⟨rs2, own2, r2, f1, f2, f3⟩ := ih (pre ++ [(k, .name n)]) _ own (by rw [hD]; simp) (fun p hp => hg p (by simp [hp])) (h.add hD hx hp) (prog_add (p := []) hD hx hp).1
    refine ⟨rs2, own2, r2, f1, f2, fun hr => ?_⟩
    obtain ⟨j1, j2⟩ := f3 hr
    exact ⟨j1, (pres_add hD hx hp).trans j2⟩
  | @value k r v d ps h1 h2 _ ih =>
    intro pre rs own hD hg h hp
    have g1 := hg ⟨k, r⟩ (by simp)
    obtain ⟨rs1, r1, e1, n1, o1⟩ := item_ok hrec (rs := rs) (opn := i :: opn) g1 (g1.stdVal h2 h1) (d := D i) (by rw [hD]; simp) hpath h
    rw [crawlLoop, e1]
    cases r1 with
    | ok it =>
      obtain ⟨i1, p1, s1⟩ := o1 it rfl
      have hp1 := (p1 i (h.has i (by simp))).2 _ hp
      obtain ⟨rs2, own2, r2, f1, f2, f3⟩ := ih (pre ++ [(k, v)]) (rs1.add i it) own (by rw [hD]; simp) (fun p hp => hg p (by simp [hp])) (i1.add hD s1 hp1) (prog_add (p := []) hD s1 hp1).1
      refine ⟨rs2, own2, r2, f1, f2, fun hr => ?_⟩
      obtain ⟨j1, j2⟩ := f3 hr
      exact ⟨j1, (p1.trans (pres_add hD s1 hp1)).trans j2⟩
    | err e => exact absurd rfl (n1 e)
    | panic => exact ⟨rs1, own, .panic, rfl, by simp, by simp⟩
    | hang => exact ⟨rs1, own, .hang, rfl, by simp, by simp⟩

theorem loop_val {path : List Bytes} {key : Bytes} {rec : Bytes → Option Int → Results → CrawlOut} (hrec : GoodRec objs R N D path rec) {opn : List Int} {es : List (Bytes × Val)}
    (hpath : PathOk R N D (key :: path) es) {suf : List (Bytes × Val)} {ps : Props} (hps : ReadAs suf ps) : ∀ (pre : List (Bytes × Val)) (rs : Results) (own : Items), es = pre ++ suf → (∀ p ∈ ps, ReadEntry p) →
    CrawlInv R N D rs opn → FineItems own pre →
    ∃ rs' own' r, crawlLoop objs key path.isEmpty rec none ps rs own = (rs', own', r) ∧ (∀ e, r ≠ .err e) ∧ (r = .ok () → CrawlInv R N D rs' opn ∧ Pres D rs rs' ∧ FineItems own' es) := by
  induction hps with
  | nil =>
    intro pre rs own hD _ h hp
    rw [List.append_nil] at hD
    exact ⟨rs, own, .ok (), rfl, by simp, fun _ => ⟨h, Pres.refl rs, by rw [hD]; exact hp⟩⟩
  | @name k n r r' d ps h1 h2 _ ih =>
    intro pre rs own hD hg h hp
    have g1 := hg ⟨k, r⟩ (by simp)
    have g2 := hg ⟨n, r'⟩ (by simp)
    obtain ⟨hk, hn⟩ := pathOk_name hpath (k := k) (n := n) (by rw [hD]; simp)
    have hx : FineItems (.str k r (.str n r' .nil)) [(k, .name n)] := ⟨.name g1.goodKey g2.goodKey (g1.noVal h1) (g2.noVal h2) .nil, g1.ss, g2.ss, trivial⟩
    have e1 : crawlItem objs key path.isEmpty rec ⟨k, r⟩ rs = (rs, .ok (.str k r .nil)) := by simp [crawlItem, hk]
    have e2 : ∀ rs, crawlItem objs key path.isEmpty rec ⟨n, r'⟩ rs = (rs, .ok (.str n r' .nil)) := by intro rs; simp [crawlItem, hn]
    have step : crawlLoop objs key path.isEmpty rec none (⟨k, r⟩ :: ⟨n, r'⟩ :: ps) rs own = crawlLoop objs key path.isEmpty rec none ps rs (own.append (.str k r (.str n r' .nil))) := by
      rw [crawlLoop, e1]
      simp only
      rw [crawlLoop, e2]
      simp only
      rw [items_append_assoc]
      rfl
    rw [step]
    exact ih (pre ++ [(k, .name n)]) rs _ (by rw [hD]; simp) (fun p hp => hg p (by simp [hp])) h (hp.append hx)
  | @value k r v d ps h1 h2 _ ih =>
    intro pre rs own hD hg h hp
    have g1 := hg ⟨k, r⟩ (by simp)
    obtain ⟨rs1, r1, e1, n1, o1⟩ := item_ok hrec (rs := rs) (opn := opn) g1 (g1.stdVal h2 h1) (d := es) (by rw [hD]; simp) hpath h
    rw [crawlLoop, e1]
    cases r1 with
    | ok it =>
      obtain ⟨i1, p1, s1⟩ := o1 it rfl
      obtain ⟨rs2, own2, r2, f1, f2, f3⟩ := ih (pre ++ [(k, v)]) rs1 (own.append it) (by rw [hD]; simp) (fun p hp => hg p (by simp [hp])) i1 (hp.append s1)
      refine ⟨rs2, own2, r2, f1, f2, fun hr => ?_⟩
      obtain ⟨j1, j2, j3⟩ := f3 hr
      exact ⟨j1, p1.trans j2, j3⟩
    | err e => exact absurd rfl (n1 e)
    | panic => exact ⟨rs1, own, .panic, rfl, by simp, by simp⟩
    | hang => exact ⟨rs1, own, .hang, rfl, by simp, by simp⟩

theorem readEntry_of {d : List (Bytes × Val)} {ps : Props} (h : StdProps d ps) (hs : ∀ p ∈ ps, SS p.rawVal) : ∀ p ∈ ps, ReadEntry p := fun p hp =>
  ⟨(h.2 p hp).1, (h.2 p hp).2.1, (h.2 p hp).2.2, hs p hp⟩

/-- **The crawl** keeps the results to the entries of the objects. -/
theorem crawl_ok (hstd : ∀ i, R i → StdDict objs i (D i)) : ∀ (path : List Bytes), GoodRec objs R N D path (crawlNext objs path) := by
  intro path
  induction path with
  | nil =>
    refine ⟨?_, ?_⟩
    · intro i o rs opn _ ht h
      exact ⟨_, _, _, rfl, by simp, fun _ => ⟨h.touch_end (ht.1 rfl), Pres.touch rs i⟩⟩
    · intro t es rs opn hne
      exact absurd rfl hne
  | cons key path ih =>
    refine ⟨?_, ?_⟩
    · intro i o rs opn ho ht h
      obtain ⟨hR, hpath⟩ := ht.2 (by simp)
      obtain ⟨ps, ⟨o', ho', hrd⟩, hp, hss⟩ := StdDict.props (hstd i hR)
      have : o = o' := by
        have := getObj_only ho'
        rw [ho] at this
        exact Option.some.inj this
      subst this
      obtain ⟨i1, p1⟩ := h.start hR
      rw [crawlNext, hrd]
      simp only
      obtain ⟨rs2, own2, r2, f1, f2, f3⟩ := loop_obj ih hpath hp.1 [] (rs.touch i) .nil rfl (readEntry_of hp hss) i1 p1
      refine ⟨rs2, own2, r2, f1, f2, fun hr => ?_⟩
      obtain ⟨j1, j2⟩ := f3 hr
      exact ⟨j1, (Pres.touch rs i).trans j2⟩
    · intro t es rs opn _ hv hss hpath h
      obtain ⟨ps, hrd, hp, hps⟩ := dict_props hv hss
      rw [crawlNext, hrd]
      simp only
      exact loop_val ih hpath hp.1 [] rs .nil rfl (readEntry_of hp hps) h FineItems.nil

/-- results that are complete -/
def Complete (R N : Int → Prop) (D : Int → List (Bytes × Val)) (rs : Results) : Prop :=
  ∀ i it, (i, it) ∈ rs → (it = .nil ∧ N i) ∨ (R i ∧ ∃ e, FineItems it e ∧ (∀ k, e.lookup k = (D i).lookup k) ∧ ∀ x ∈ e, x ∈ D i)

theorem crawlRun_ok (hstd : ∀ i, R i → StdDict objs i (D i)) {id : Int} {path : List Bytes} (ht : Target R N D path id) : ∃ rs r, crawlRun objs id path = (rs, r) ∧ (∀ e, r ≠ .err e) ∧ (r = .ok () → Complete R N D rs) := by
  unfold crawlRun
  cases ho : getObj objs id with
  | none => exact ⟨[], .panic, rfl, by simp, by simp⟩
  | some o =>
    obtain ⟨rs, own, r, e, h1, h2⟩ := (crawl_ok (N := N) hstd path).obj id o [] [] ho ht ⟨by simp, by simp, by rintro i ⟨it, h⟩; simp at h⟩
    have e0 : Results.touch [] id = [(id, .nil)] := by simp [Results.touch]
    rw [e0] at e
    simp only [e]
    refine ⟨rs, r, rfl, h1, fun hr => ?_⟩
    obtain ⟨hi, _⟩ := h2 hr
    intro i it hit
    rcases hi.done i ⟨it, hit⟩ (by simp) with ⟨k1, k2⟩ | ⟨k1, k2⟩
    · exact Or.inl ⟨k1 it hit, k2⟩
    · right
      obtain ⟨e, g1, g2, g3, g4⟩ := k2 it hit
      refine ⟨k1, e, g1, fun k => ?_, g3⟩
      cases hl : (D i).lookup k with
      | some v => exact g4 k v hl
      | none =>
        cases he : e.lookup k with
        | none => rfl
        | some v => rw [g2 k v he] at hl; cases hl

theorem Complete.put {rs : Results} {i : Int} {it : Items} (h : Complete R N D rs)
    (hi : (it = .nil ∧ N i) ∨ (R i ∧ ∃ e, FineItems it e ∧ (∀ k, e.lookup k = (D i).lookup k) ∧ ∀ x ∈ e, x ∈ D i)) : Complete R N D (rs.put i it) := by
  intro j jt hj
  unfold Results.put at hj
  split at hj
  · rw [List.mem_map] at hj
    obtain ⟨⟨a, b⟩, h1, h2⟩ := hj
    split at h2
    · cases h2; exact hi
    · cases h2; exact h j jt h1
  · rcases List.mem_append.1 hj with hj | hj
    · exact h j jt hj
    · simp at hj
      obtain ⟨rfl, rfl⟩ := hj
      exact hi

theorem Complete.puts {sub : Results} : ∀ {rs : Results}, Complete R N D rs → Complete R N D sub → Complete R N D (sub.foldl (fun r p => r.put p.1 p.2) rs) := by
  induction sub with
  | nil => intro rs h _; exact h
  | cons p sub ih =>
    intro rs h hs
    rw [List.foldl_cons]
    exact ih (h.put (hs p.1 p.2 (by simp))) (fun i it hi => hs i it (by simp [hi]))

theorem pageCrawl_loop (hstd : ∀ i, R i → StdDict objs i (D i)) {path : List Bytes} (ht : ∀ i, R i → Target R N D path i) : ∀ (ks : List Int) (rs out : Results), Complete R N D rs →
    pageCrawlLoop objs path ks rs = .ok out → Complete R N D out := by
  intro ks
  induction ks with
  | nil => intro rs out h e; cases e; exact h
  | cons k ks ih =>
    intro rs out h e
    rw [pageCrawlLoop] at e
    split at e
    · rename_i hc
      have hR : R k := by
        cases hl : rs.lookup k with
        | none =>
          rw [hl] at hc
          exact absurd hc.1 (by decide)
        | some it =>
          rw [hl] at hc
          have hm : (k, it) ∈ rs := by
            clear hc e ih h
            induction rs with
            | nil => simp at hl
            | cons q rs ih =>
              obtain ⟨j, jt⟩ := q
              rw [List.lookup_cons] at hl
              cases hk : k == j with
              | true => rw [hk] at hl; simp at hk hl; subst hk; subst hl; simp
              | false => rw [hk] at hl; simp [ih hl]
          rcases h k it hm with ⟨rfl, _⟩ | ⟨hR, _⟩
          · exact absurd hc.1 (by decide)
          · exact hR
      obtain ⟨sub, r, e1, h1, h2⟩ := crawlRun_ok (N := N) hstd (ht k hR)
      rw [e1] at e
      cases r with
      | ok u => exact ih _ _ (h.puts (h2 rfl)) e
      | err x => exact absurd rfl (h1 x)
      | panic => cases e
      | hang => cases e
    · exact ih rs out h e

theorem pageCrawl_ok (hstd : ∀ i, R i → StdDict objs i (D i)) {σ : Shuffle} {root : Int} {path : List Bytes} {rs : Results} (hroot : Target R N D (b!"Pages" :: path) root) (ht : ∀ i, R i → Target R N D path i)
    (h : getPageCrawl σ objs root path = .ok rs) : Complete R N D rs := by
  unfold getPageCrawl at h
  obtain ⟨sub, r, e1, h1, h2⟩ := crawlRun_ok (N := N) hstd hroot
  rw [e1] at h
  cases r with
  | ok u => exact pageCrawl_loop hstd ht _ _ _ (h2 rfl) h
  | err e => exact absurd rfl (h1 e)
  | panic => cases h
  | hang => cases h

end

end Verif
