import Verif.Crawl
import Verif.Lemmas.Store
/-
A crawl as a list of additions to the results: what is added does not depend on the results collected so far.
-/
namespace Verif

theorem Items.append_nil : ∀ (a : Items), a.append .nil = a
  | .nil => rfl
  | .str _ _ r => by simp only [Items.append]; rw [Items.append_nil r]
  | .sub _ _ r => by simp only [Items.append]; rw [Items.append_nil r]
  | .void _ r => by simp only [Items.append]; rw [Items.append_nil r]

theorem Items.append_assoc : ∀ (a b c : Items), (a.append b).append c = a.append (b.append c)
  | .nil, _, _ => rfl
  | .str _ _ r, b, c => by simp only [Items.append]; rw [Items.append_assoc r b c]
  | .sub _ _ r, b, c => by simp only [Items.append]; rw [Items.append_assoc r b c]
  | .void _ r, b, c => by simp only [Items.append]; rw [Items.append_assoc r b c]

/-- one step of a crawl -/
inductive Ev where
  | touch (id : Int)
  | add (id : Int) (it : Items)

def Ev.apply (rs : Results) : Ev → Results
  | .touch id => rs.touch id
  | .add id it => rs.add id it

/-- all steps -/
def evApply (rs : Results) (l : List Ev) : Results := l.foldl Ev.apply rs

theorem evApply_append (rs : Results) (a b : List Ev) : evApply rs (a ++ b) = evApply (evApply rs a) b := by simp [evApply]

abbrev EvOut := List Ev × Items × Res Unit

def evKids (objs : List Obj) (rec : Bytes → Option Int → EvOut) : List Int → List Ev × Res Unit
  | [] => ([], .ok ())
  | id :: ids =>
    match getObj objs id with
    | none => ([], .panic)
    | some o =>
      match rec o.data (some id) with
      | (l, _, .panic) => (.touch id :: l, .panic)
      | (l, _, .hang) => (.touch id :: l, .hang)
      | (l, _, _) => (.touch id :: l ++ (evKids objs rec ids).1, (evKids objs rec ids).2)

def evItem (objs : List Obj) (key : Bytes) (last : Bool) (rec : Bytes → Option Int → EvOut) (p : PropD) : List Ev × Res Items :=
  if p.key ≠ key then ([], .ok (.str p.key p.rawVal .nil))
  else
    match propertyType p.rawVal with
    | .dictionary =>
      match readObjIDFromDictionary p.rawVal with
      | .ok id =>
        match getObj objs id with
        | none => ([], .panic)
        | some o =>
          match rec o.data (some id) with
          | (l, _, .ok _) => (.touch id :: l, .ok (.str p.key p.rawVal .nil))
          | (l, _, .err e) => (.touch id :: l, .err e)
          | (l, _, .panic) => (.touch id :: l, .panic)
          | (l, _, .hang) => (.touch id :: l, .hang)
      | .err e => ([], .err e)
      | .panic => ([], .panic)
      | .hang => ([], .hang)
    | .array =>
      match readObjIDFromDictionaryArr p.rawVal with
      | .ok ids =>
        match evKids objs rec ids with
        | (l, .panic) => (l, .panic)
        | (l, .hang) => (l, .hang)
        | (l, _) => (l, .ok (.str p.key p.rawVal .nil))
      | .err e => ([], .err e)
      | .panic => ([], .panic)
      | .hang => ([], .hang)
    | .object =>
      if last then ([], .ok (.str p.key p.rawVal .nil))
      else
        match rec p.rawVal none with
        | (l, own, .ok _) => (l, .ok (.sub p.key own .nil))
        | (l, _, .err e) => (l, .err e)
        | (l, _, .panic) => (l, .panic)
        | (l, _, .hang) => (l, .hang)
    | .number => ([], .ok (.void p.key .nil))

def evLoop (objs : List Obj) (key : Bytes) (last : Bool) (rec : Bytes → Option Int → EvOut) (tgt : Option Int) : Props → EvOut
  | [] => ([], .nil, .ok ())
  | p :: ps =>
    match evItem objs key last rec p with
    | (l, .ok it) =>
      match tgt with
      | some id => (l ++ [.add id it] ++ (evLoop objs key last rec tgt ps).1, (evLoop objs key last rec tgt ps).2)
      | none => (l ++ (evLoop objs key last rec tgt ps).1, it.append (evLoop objs key last rec tgt ps).2.1, (evLoop objs key last rec tgt ps).2.2)
    | (l, .err e) => (l, .nil, .err e)
    | (l, .panic) => (l, .nil, .panic)
    | (l, .hang) => (l, .nil, .hang)

def evNext (objs : List Obj) : List Bytes → Bytes → Option Int → EvOut
  | [], _, _ => ([], .nil, .ok ())
  | key :: path, data, tgt =>
    match readProperties data with
    | .ok ps => evLoop objs key path.isEmpty (evNext objs path) tgt ps
    | .err e => ([], .nil, .err e)
    | .panic => ([], .nil, .panic)
    | .hang => ([], .nil, .hang)

/-- the crawl does what the list says -/
def Follows (f : Bytes → Option Int → Results → CrawlOut) (g : Bytes → Option Int → EvOut) : Prop :=
  ∀ data tgt rs, f data tgt rs = (evApply rs (g data tgt).1, (g data tgt).2)

theorem crawlKids_ev {objs : List Obj} {f : Bytes → Option Int → Results → CrawlOut} {g : Bytes → Option Int → EvOut} (h : Follows f g) :
    ∀ (ids : List Int) (rs : Results), crawlKids objs f ids rs = (evApply rs (evKids objs g ids).1, (evKids objs g ids).2)
  | [], rs => rfl
  | id :: ids, rs => by
    rw [crawlKids, evKids]
    cases getObj objs id with
    | none => rfl
    | some o =>
      simp only
      rw [h]
      rcases hg : g o.data (some id) with ⟨l, own, r⟩
      cases r with
      | ok u => simp only; rw [crawlKids_ev h ids]; simp [evApply, Ev.apply]
      | err e => simp only; rw [crawlKids_ev h ids]; simp [evApply, Ev.apply]
      | panic => rfl
      | hang => rfl

theorem crawlItem_ev {objs : List Obj} {f : Bytes → Option Int → Results → CrawlOut} {g : Bytes → Option Int → EvOut} (h : Follows f g) (key : Bytes) (last : Bool)
    (p : PropD) (rs : Results) : crawlItem objs key last f p rs = (evApply rs (evItem objs key last g p).1, (evItem objs key last g p).2) := by
  rw [crawlItem, evItem]
  split
  · rfl
  · cases propertyType p.rawVal with
    | dictionary =>
      simp only
      cases readObjIDFromDictionary p.rawVal with
      | ok id =>
        simp only
        cases getObj objs id with
        | none => rfl
        | some o =>
          simp only
          rw [h]
          rcases g o.data (some id) with ⟨l, own, r⟩
          cases r <;> rfl
      | err e => rfl
      | panic => rfl
      | hang => rfl
    | array =>
      simp only
      cases readObjIDFromDictionaryArr p.rawVal with
      | ok ids =>
        simp only
        rw [crawlKids_ev h]
        rcases evKids objs g ids with ⟨l, r⟩
        cases r <;> rfl
      | err e => rfl
      | panic => rfl
      | hang => rfl
    | object =>
      simp only
      split
      · rfl
      · rw [h]
        rcases g p.rawVal none with ⟨l, own, r⟩
        cases r <;> rfl
    | number => rfl

theorem crawlLoop_ev {objs : List Obj} {f : Bytes → Option Int → Results → CrawlOut} {g : Bytes → Option Int → EvOut} (h : Follows f g) (key : Bytes) (last : Bool)
    (tgt : Option Int) : ∀ (ps : Props) (rs : Results) (own : Items), crawlLoop objs key last f tgt ps rs own =
      (evApply rs (evLoop objs key last g tgt ps).1, own.append (evLoop objs key last g tgt ps).2.1, (evLoop objs key last g tgt ps).2.2)
  | [], rs, own => by simp [crawlLoop, evLoop, evApply, Items.append_nil]
  | p :: ps, rs, own => by
    rw [crawlLoop, evLoop, crawlItem_ev h]
    rcases evItem objs key last g p with ⟨l, r⟩
    cases r with
    | ok it =>
      cases tgt with
      | some id =>
        simp only
        rw [crawlLoop_ev h key last (some id) ps]
        simp [evApply_append, evApply, Ev.apply]
      | none =>
        simp only
        rw [crawlLoop_ev h key last none ps]
        simp [evApply_append, Items.append_assoc]
    | err e => simp [Items.append_nil]
    | panic => simp [Items.append_nil]
    | hang => simp [Items.append_nil]

theorem crawlNext_ev {objs : List Obj} : ∀ (path : List Bytes), Follows (crawlNext objs path) (evNext objs path)
  | [] => fun _ _ _ => rfl
  | key :: path => fun data tgt rs => by
    rw [crawlNext, evNext]
    cases readProperties data with
    | ok ps =>
      simp only
      rw [crawlLoop_ev (crawlNext_ev path)]
      rfl
    | err e => rfl
    | panic => rfl
    | hang => rfl

/-! ### looking up a result -/

/-- the items added to one result -/
def addsOf (id : Int) : List Ev → Items
  | [] => .nil
  | .touch _ :: l => addsOf id l
  | .add i it :: l => if i = id then it.append (addsOf id l) else addsOf id l

/-- the results of the list that are made -/
def touched : List Ev → List Int
  | [] => []
  | .touch i :: l => i :: touched l
  | .add _ _ :: l => touched l

/-- the results something is added to -/
def added : List Ev → List Int
  | [] => []
  | .touch _ :: l => added l
  | .add i _ :: l => i :: added l

theorem addsOf_append (id : Int) : ∀ (a b : List Ev), addsOf id (a ++ b) = (addsOf id a).append (addsOf id b)
  | [], b => rfl
  | .touch _ :: a, b => addsOf_append id a b
  | .add i it :: a, b => by
    simp only [List.cons_append, addsOf]
    split
    · rw [addsOf_append id a b, Items.append_assoc]
    · exact addsOf_append id a b

theorem addsOf_none {id : Int} : ∀ {l : List Ev}, id ∉ added l → addsOf id l = .nil
  | [], _ => rfl
  | .touch _ :: l, h => addsOf_none (l := l) h
  | .add i it :: l, h => by
    simp only [added, List.mem_cons, not_or] at h
    rw [addsOf, if_neg (fun e => h.1 e.symm)]
    exact addsOf_none h.2

theorem added_append : ∀ (a b : List Ev), added (a ++ b) = added a ++ added b
  | [], _ => rfl
  | .touch _ :: a, b => added_append a b
  | .add i _ :: a, b => by simp [added, added_append a b]

theorem touched_append : ∀ (a b : List Ev), touched (a ++ b) = touched a ++ touched b
  | [], _ => rfl
  | .touch i :: a, b => by simp [touched, touched_append a b]
  | .add _ _ :: a, b => touched_append a b

theorem lookup_some_mem {rs : Results} {i : Int} : (rs.lookup i).isSome ↔ i ∈ rs.map (·.1) := by
  induction rs with
  | nil => simp
  | cons p t ih =>
    obtain ⟨k, v⟩ := p
    rw [List.lookup_cons]
    by_cases h : i = k
    · subst h; simp
    · rw [beq_false_of_ne h]
      simp [ih, h]

theorem touch_keys (rs : Results) (id : Int) : (rs.touch id).map (·.1) = if id ∈ rs.map (·.1) then rs.map (·.1) else rs.map (·.1) ++ [id] := by
  unfold Results.touch
  by_cases h : id ∈ rs.map (·.1)
  · rw [if_pos (lookup_some_mem.2 h), if_pos h]
  · rw [if_neg (fun e => h (lookup_some_mem.1 e)), if_neg h]; simp

theorem add_keys (rs : Results) (id : Int) (it : Items) : (rs.add id it).map (·.1) = rs.map (·.1) := by
  simp only [Results.add, List.map_map]
  apply List.map_congr_left
  intro p _
  simp only [Function.comp]
  split <;> rfl

theorem evApply_keys : ∀ (l : List Ev) (rs : Results), (rs.map (·.1)).Nodup →
    ((evApply rs l).map (·.1)).Nodup ∧ ∀ i, i ∈ (evApply rs l).map (·.1) ↔ i ∈ rs.map (·.1) ∨ i ∈ touched l
  | [], rs, h => ⟨h, fun i => by simp [evApply, touched]⟩
  | .touch id :: l, rs, h => by
    have hk := touch_keys rs id
    have hn : ((rs.touch id).map (·.1)).Nodup := by
      rw [hk]
      split
      · exact h
      · rename_i hni
        rw [List.nodup_append]
        exact ⟨h, by simp, by
          intro a ha b hb
          simp at hb
          rintro rfl
          exact hni (hb ▸ ha)⟩
    obtain ⟨h1, h2⟩ := evApply_keys l (rs.touch id) hn
    refine ⟨h1, fun i => ?_⟩
    rw [show evApply rs (.touch id :: l) = evApply (rs.touch id) l from rfl, h2 i, hk]
    simp only [touched, List.mem_cons]
    split
    · rename_i hid
      constructor
      · rintro (h | h) <;> simp [h]
      · rintro (h | rfl | h)
        · exact Or.inl h
        · exact Or.inl hid
        · exact Or.inr h
    · simp only [List.mem_append, List.mem_singleton]
      tauto
  | .add id it :: l, rs, h => by
    have hk := add_keys rs id it
    obtain ⟨h1, h2⟩ := evApply_keys l (rs.add id it) (by rw [hk]; exact h)
    refine ⟨h1, fun i => ?_⟩
    rw [show evApply rs (.add id it :: l) = evApply (rs.add id it) l from rfl, h2 i, hk]
    rfl

theorem lookup_add_eq (rs : Results) (id i : Int) (it : Items) : (rs.add id it).lookup i = (rs.lookup i).map (fun x => if id = i then x.append it else x) := by
  induction rs with
  | nil => rfl
  | cons p t ih =>
    obtain ⟨k, v⟩ := p
    have e : Results.add ((k, v) :: t) id it = (if k = id then (k, v.append it) else (k, v)) :: Results.add t id it := rfl
    rw [e]
    by_cases h : i = k
    · subst h
      by_cases h2 : i = id
      · subst h2; simp
      · have h3 : ¬ id = i := fun e => h2 e.symm
        simp [h2, h3]
    · split <;> rw [List.lookup_cons, List.lookup_cons, beq_false_of_ne h] <;> exact ih

theorem lookup_touch_eq (rs : Results) (id i : Int) : (rs.touch id).lookup i = if i = id then some ((rs.lookup i).getD .nil) else rs.lookup i := by
  unfold Results.touch
  by_cases h : (rs.lookup id).isSome = true
  · rw [if_pos h]
    split
    · rename_i e
      subst e
      obtain ⟨x, hx⟩ := Option.isSome_iff_exists.1 h
      rw [hx]; rfl
    · rfl
  · rw [if_neg h]
    have hn : rs.lookup id = none := Option.not_isSome_iff_eq_none.1 h
    rw [List.lookup_append]
    split
    · rename_i e
      subst e
      rw [hn]
      simp
    · rename_i e
      rw [List.lookup_cons, beq_false_of_ne e]
      simp

/-- A result in the map gets what is added. -/
theorem lookup_evApply {i : Int} : ∀ (l : List Ev) {rs : Results} {x : Items}, rs.lookup i = some x → (evApply rs l).lookup i = some (x.append (addsOf i l))
  | [], rs, x, h => by simp [evApply, addsOf, Items.append_nil, h]
  | .touch id :: l, rs, x, h => by
    have : (rs.touch id).lookup i = some x := by
      rw [lookup_touch_eq]
      split
      · rw [h]; rfl
      · exact h
    exact lookup_evApply l this
  | .add id it :: l, rs, x, h => by
    have h' : (rs.add id it).lookup i = some (if id = i then x.append it else x) := by rw [lookup_add_eq, h]; rfl
    have := lookup_evApply l h'
    rw [show evApply rs (.add id it :: l) = evApply (rs.add id it) l from rfl, this]
    simp only [addsOf]
    split
    · rw [Items.append_assoc]
    · rfl

/-- nothing is added to a result that has not been made -/
def Made : List Int → List Ev → Prop
  | _, [] => True
  | m, .touch i :: l => Made (i :: m) l
  | m, .add i _ :: l => i ∈ m ∧ Made m l

theorem Made.mono : ∀ {l : List Ev} {m m' : List Int}, (∀ i ∈ m, i ∈ m') → Made m l → Made m' l
  | [], _, _, _, _ => trivial
  | .touch i :: l, m, m', h, hm => Made.mono (l := l) (m := i :: m) (fun j hj => by
      rcases List.mem_cons.1 hj with rfl | hj
      · simp
      · simp [h j hj]) hm
  | .add i _ :: l, m, m', h, hm => ⟨h i hm.1, Made.mono (l := l) h hm.2⟩

theorem Made.append : ∀ {a b : List Ev} {m : List Int}, Made m a → Made m b → Made m (a ++ b)
  | [], _, _, _, h => h
  | .touch i :: a, b, m, h, h' => Made.append (a := a) h (h'.mono (fun j hj => by simp [hj]))
  | .add i _ :: a, b, m, h, h' => ⟨h.1, Made.append (a := a) h.2 h'⟩

/-- A result that is made gets everything that is added. -/
theorem lookup_made {i : Int} : ∀ (l : List Ev) {rs : Results}, Made (rs.map (·.1)) l → i ∉ rs.map (·.1) → i ∈ touched l →
    (evApply rs l).lookup i = some (addsOf i l)
  | [], rs, _, _, h => by simp [touched] at h
  | .touch id :: l, rs, hm, hi, h => by
    by_cases e : i = id
    · subst e
      have : (rs.touch i).lookup i = some .nil := by
        rw [lookup_touch_eq, if_pos rfl]
        have : rs.lookup i = none := by
          cases hl : rs.lookup i with
          | none => rfl
          | some x => exact absurd (lookup_some_mem.1 (by rw [hl]; rfl)) hi
        rw [this]; rfl
      have := lookup_evApply l this
      rw [show evApply rs (.touch i :: l) = evApply (rs.touch i) l from rfl, this]
      rfl
    · refine lookup_made l ?_ ?_ ?_
      · refine Made.mono ?_ hm
        intro j hj
        change j ∈ List.map _ (rs.touch id)
        rw [touch_keys]
        rcases List.mem_cons.1 hj with rfl | hj
        · split <;> simp_all
        · split <;> simp [hj]
      · change i ∉ List.map _ (rs.touch id)
        rw [touch_keys]
        split
        · exact hi
        · simp [hi, e]
      · simpa [touched, e] using h
  | .add id it :: l, rs, hm, hi, h => by
    have hne : id ≠ i := fun e => hi (e ▸ hm.1)
    rw [show evApply rs (.add id it :: l) = evApply (rs.add id it) l from rfl, lookup_made l (by rw [add_keys]; exact hm.2) (by rw [add_keys]; exact hi) h, addsOf, if_neg hne]

end Verif
