import Verif.Lemmas.Events
import Verif.Lemmas.Tidy
import Verif.Lemmas.Refs
import Verif.Spec.Flat
/-
The crawl of a document with a flat page tree.
-/
namespace Verif
open Spec

/-! ### values -/

theorem digitsVal_bytes : ∀ {s : Bytes} {acc n : Nat}, digitsVal acc s = some n → ∀ c ∈ s, isDigit c = true
  | [], _, _, _, c, hc => by simp at hc
  | d :: t, acc, n, h, c, hc => by
    rw [digitsVal] at h
    split at h
    · rename_i hd
      rcases List.mem_cons.1 hc with rfl | hc
      · exact hd
      · exact digitsVal_bytes h c hc
    · simp at h

theorem parseNat_bytes {s : Bytes} {n : Nat} (h : parseNat s = some n) : s ≠ [] ∧ ∀ c ∈ s, isDigit c = true := by
  cases s with
  | nil => simp [parseNat] at h
  | cons c t => exact ⟨by simp, digitsVal_bytes h⟩

theorem atoi_bytes {s : Bytes} {v : Int} (h : atoi s = some v) : s ≠ [] ∧ ∀ c ∈ s, isDigit c = true ∨ c = 45 ∨ c = 43 := by
  have key : ∀ (t : Bytes) (d : UInt8), (∀ c ∈ t, isDigit c = true) → (d = 45 ∨ d = 43) → ∀ c ∈ d :: t, isDigit c = true ∨ c = 45 ∨ c = 43 := by
    intro t d ht hd c hc
    rcases List.mem_cons.1 hc with rfl | hc
    · exact Or.inr hd
    · exact Or.inl (ht c hc)
  unfold atoi at h
  split at h
  · rename_i t
    cases hp : parseNat t with
    | none => simp [hp] at h
    | some n => exact ⟨by simp, key t 45 (parseNat_bytes hp).2 (Or.inl rfl)⟩
  · rename_i t
    cases hp : parseNat t with
    | none => simp [hp] at h
    | some n => exact ⟨by simp, key t 43 (parseNat_bytes hp).2 (Or.inr rfl)⟩
  · cases hp : parseNat s with
    | none => simp [hp] at h
    | some n => exact ⟨(parseNat_bytes hp).1, fun c hc => Or.inl ((parseNat_bytes hp).2 c hc)⟩

theorem tidy_trim {v : Bytes} (h : TidyVal v) : trimSpace v = v := by
  have := trimSpace_core (a := []) (b := []) (x := v) (by simp) (by simp) h.valOk.ascii (fun c hc => by
    refine (printable_byte (h.printable c (List.mem_of_mem_head? hc))).2.2.2.2 ?_
    rintro rfl; exact h.first hc) (fun c hc => by
    refine (printable_byte (h.printable c (List.mem_of_getLast? hc))).2.2.2.2 ?_
    rintro rfl; exact h.end_ne hc)
  simpa using this

theorem splitSpace_head {c : UInt8} {t : Bytes} (h : c ≠ 32) : ∃ a r, splitSpace (c :: t) = (c :: a) :: r ∧ ∀ d ∈ a, d ∈ t := by
  rw [splitSpace, if_neg h]
  induction t generalizing c with
  | nil => exact ⟨[], [], by simp [splitSpace], by simp⟩
  | cons d u ih =>
    by_cases hd : d = 32
    · subst hd
      exact ⟨[], splitSpace u, by simp [splitSpace], by simp⟩
    · obtain ⟨a, r, h1, h2⟩ := ih hd
      rw [splitSpace, if_neg hd]
      rw [h1]
      refine ⟨d :: a, r, rfl, ?_⟩
      intro e he
      rcases List.mem_cons.1 he with rfl | he
      · simp
      · simp [h2 e he]

theorem splitSpace_mem {s : Bytes} : ∀ x ∈ splitSpace s, ∀ c ∈ x, c ∈ s ∧ c ≠ 32 := by
  induction s with
  | nil => simp [splitSpace]
  | cons d t ih =>
    intro x hx c hc
    rw [splitSpace] at hx
    split at hx
    · rcases List.mem_cons.1 hx with rfl | hx
      · simp at hc
      · exact ⟨by simp [(ih x hx c hc).1], (ih x hx c hc).2⟩
    · rename_i hd
      split at hx
      · simp at hx; subst hx; simp at hc; subst hc; exact ⟨by simp, hd⟩
      · rename_i h r hs
        rcases List.mem_cons.1 hx with rfl | hx
        · rcases List.mem_cons.1 hc with rfl | hc
          · exact ⟨by simp, hd⟩
          · have := ih h (by rw [hs]; simp) c hc
            exact ⟨by simp [this.1], this.2⟩
        · have := ih x (by rw [hs]; simp [hx]) c hc
          exact ⟨by simp [this.1], this.2⟩

theorem refOf_some {v : Bytes} {id : Int} (h : refOf v = some id) : readObjIDFromDictionary v = .ok id := by
  unfold refOf at h
  split at h
  · simp at h; subst h; assumption
  · simp at h

theorem ref_type {v : Bytes} {id : Int} (ht : TidyVal v) (h : refOf v = some id) : propertyType v = .dictionary ∧ ¬ Inline v ∧ v ≠ [] := by
  have h := refOf_some h
  unfold readObjIDFromDictionary at h
  rw [tidy_trim ht] at h
  simp only at h
  by_cases hv : v = []
  · rw [if_pos hv] at h; simp at h
  rw [if_neg hv] at h
  obtain ⟨c, t, rfl⟩ := List.exists_cons_of_ne_nil hv
  have hc32 : c ≠ 32 := by intro e; exact ht.first (by rw [e]; rfl)
  obtain ⟨a, r, hs, ha⟩ := splitSpace_head (t := t) hc32
  rw [hs] at h
  split at h
  · rename_i a' y z hl
    simp at hl
    obtain ⟨rfl, rfl⟩ := hl
    have hta : trimSpace (c :: a) = c :: a := trimSpace_plain (fun d hd => by
      have hm := splitSpace_mem (c :: a) (by rw [hs]; simp) d hd
      have hp := printable_byte (ht.printable d hm.1)
      exact ⟨hp.1, hp.2.2.2.2 hm.2⟩)
    rw [hta] at h
    split at h
    · rename_i n hn
      have hb := (atoi_bytes hn).2 c (by simp)
      have hc : c ≠ 60 ∧ c ≠ 91 := by
        constructor
        · rintro rfl; revert hb; decide
        · rintro rfl; revert hb; decide
      have h32 : (32 : UInt8) ∈ (c :: t) := by
        by_contra hno
        rw [splitSpace_single hno] at hs
        simp at hs
      have hna : atoi (c :: t) = none := by
        cases hx : atoi (c :: t) with
        | none => rfl
        | some n =>
          exact absurd ((atoi_bytes hx).2 32 h32) (by decide)
      refine ⟨?_, ?_, by simp⟩
      · unfold propertyType
        rw [tidy_trim ht]
        simp only
        rw [if_neg (by
          rintro ⟨_, h2⟩
          cases t with
          | nil => simp at h2
          | cons d u => simp at h2; exact hc.1 h2.1), if_neg (by
          rintro ⟨_, h2⟩
          simp at h2
          exact hc.2 h2), tidy_trim ht, hna]
        simp
      · unfold Inline
        rw [tidy_trim ht]
        intro h2
        cases t with
        | nil => simp at h2
        | cons d u => simp at h2; exact hc.1 h2.1
    · simp at h
  · simp at h

theorem inline_type {v : Bytes} (ht : TidyVal v) (h : Inline v) : propertyType v = .object ∧ ∃ u, v = 60 :: 60 :: u ∧ u ≠ [] := by
  unfold Inline at h
  rw [tidy_trim ht] at h
  obtain ⟨u, hu⟩ : ∃ u, v = 60 :: 60 :: u := by
    cases v with
    | nil => simp at h
    | cons c t =>
      cases t with
      | nil => simp at h
      | cons d u => simp at h; exact ⟨u, by rw [h.1, h.2]⟩
  have hne : u ≠ [] := by
    rintro rfl
    rcases ht.shape with hs | ⟨_, hg⟩
    · exact (hs 60 (by rw [hu]; simp)).2.2.2.1 rfl
    · rw [hu] at hg; simp [groupEnd] at hg
  refine ⟨?_, u, hu, hne⟩
  unfold propertyType
  rw [tidy_trim ht]
  simp only
  rw [if_pos]
  refine ⟨?_, h⟩
  rw [hu]
  obtain ⟨d, w, rfl⟩ := List.exists_cons_of_ne_nil hne
  simp

theorem array_type {v : Bytes} (ht : TidyVal v) (h : v.head? = some 91) : propertyType v = .array := by
  unfold propertyType
  rw [tidy_trim ht]
  simp only
  obtain ⟨u, hu⟩ : ∃ u, v = 91 :: u := by
    cases v with
    | nil => simp at h
    | cons c t => simp at h; exact ⟨t, by rw [h]⟩
  have hne : u ≠ [] := by
    rintro rfl
    rcases ht.shape with hs | ⟨_, hg⟩
    · exact (hs 91 (by rw [hu]; simp)).2.1 rfl
    · rw [hu] at hg; simp [groupEnd] at hg
  rw [hu]
  obtain ⟨d, w, rfl⟩ := List.exists_cons_of_ne_nil hne
  simp

/-! ### items of plain entries -/

/-- the items of a dictionary that is not on the path -/
def strs : Props → Items
  | [] => .nil
  | p :: t => .str p.key p.rawVal (strs t)

theorem strs_append : ∀ (a b : Props), strs (a ++ b) = (strs a).append (strs b)
  | [], _ => rfl
  | p :: t, b => by simp only [List.cons_append, strs, Items.append]; rw [strs_append t b]

theorem strs_valOf (k : Bytes) : ∀ (ps : Props), (strs ps).valOf k = valueOf ps k
  | [] => rfl
  | p :: t => by
    simp only [strs, Items.valOf, valueOf, List.find?_cons]
    by_cases h : p.key = k
    · simp [h]
    · simp only [h, decide_false, if_false]
      exact strs_valOf k t

/-- the value of the first entry with the key is changed -/
def setFirst (k v : Bytes) : Props → Props
  | [] => []
  | p :: t => if p.key = k then ⟨p.key, v⟩ :: t else p :: setFirst k v t

theorem reads_strs : ∀ {ps : Props}, Tidy ps → Reads (strs ps) ps
  | [], _ => .nil
  | p :: t, h => by
    obtain ⟨h1, h2, _⟩ := h p (by simp)
    have ih := reads_strs (Spec.Tidy.tail h)
    cases p with
    | mk k v =>
      by_cases hv : v = []
      · subst hv
        exact .empty (regular_keyOk h1) rfl ih
      · exact .str (regular_keyOk h1) (by rw [tidy_trim h2]; exact hv) (writesVal_tidy h2 hv) ih

theorem onlyKey_split {ps : Props} {k v : Bytes} (h : OnlyKey ps k v) : ∃ a b, ps = a ++ ⟨k, v⟩ :: b ∧ (∀ p ∈ a, p.key ≠ k) ∧ ∀ p ∈ b, p.key ≠ k := by
  induction ps with
  | nil => simp [OnlyKey] at h
  | cons p t ih =>
    unfold OnlyKey at h
    rw [List.filter_cons] at h
    by_cases hp : p.key = k
    · simp only [hp, decide_true, if_true, List.cons.injEq] at h
      refine ⟨[], t, by rw [h.1]; rfl, by simp, fun q hq e => ?_⟩
      have : q ∈ t.filter (fun p => decide (p.key = k)) := List.mem_filter.2 ⟨hq, by simp [e]⟩
      rw [h.2] at this
      simp at this
    · simp only [hp, decide_false, Bool.false_eq_true, if_false] at h
      obtain ⟨a, b, h1, h2, h3⟩ := ih h
      refine ⟨p :: a, b, by rw [h1]; rfl, ?_, h3⟩
      intro q hq
      rcases List.mem_cons.1 hq with rfl | hq
      · exact hp
      · exact h2 q hq

theorem onlyKey_valueOf {ps : Props} {k v : Bytes} (h : OnlyKey ps k v) : valueOf ps k = some v := by
  obtain ⟨a, b, rfl, h1, _⟩ := onlyKey_split h
  unfold valueOf
  rw [List.find?_append]
  have : a.find? (fun p => decide (p.key = k)) = none := by
    rw [List.find?_eq_none]
    intro p hp
    simp [h1 p hp]
  rw [this]
  simp

theorem onlyKey_mem {ps : Props} {k v : Bytes} (h : OnlyKey ps k v) : (⟨k, v⟩ : PropD) ∈ ps := by
  obtain ⟨a, b, rfl, _⟩ := onlyKey_split h
  simp

theorem valueOf_none_iff {ps : Props} {k : Bytes} : valueOf ps k = none ↔ ∀ p ∈ ps, p.key ≠ k := by
  unfold valueOf
  rw [Option.map_eq_none_iff, List.find?_eq_none]
  constructor
  · intro h p hp e
    exact h p hp (by simp [e])
  · intro h p hp
    simp [h p hp]

/-! ### loops -/

/-- the items, one after another -/
def cat : List Items → Items
  | [] => .nil
  | x :: t => x.append (cat t)

theorem cat_strs (ps : Props) : cat (ps.map (fun p => .str p.key p.rawVal .nil)) = strs ps := by
  induction ps with
  | nil => rfl
  | cons p t ih => rw [List.map_cons, cat, ih]; rfl

theorem evLoop_some {objs : List Obj} {key : Bytes} {last : Bool} {rec : Bytes → Option Int → EvOut} {id : Int} {f : PropD → List Ev} {g : PropD → Items} :
    ∀ {ps : Props}, (∀ p ∈ ps, evItem objs key last rec p = (f p, .ok (g p))) →
      evLoop objs key last rec (some id) ps = (ps.flatMap (fun p => f p ++ [.add id (g p)]), .nil, .ok ())
  | [], _ => rfl
  | p :: t, h => by
    rw [evLoop, h p (by simp)]
    simp only
    rw [evLoop_some (fun q hq => h q (by simp [hq]))]
    simp

theorem evLoop_none {objs : List Obj} {key : Bytes} {last : Bool} {rec : Bytes → Option Int → EvOut} {f : PropD → List Ev} {g : PropD → Items} :
    ∀ {ps : Props}, (∀ p ∈ ps, evItem objs key last rec p = (f p, .ok (g p))) →
      evLoop objs key last rec none ps = (ps.flatMap f, cat (ps.map g), .ok ())
  | [], _ => rfl
  | p :: t, h => by
    rw [evLoop, h p (by simp)]
    simp only
    rw [evLoop_none (fun q hq => h q (by simp [hq]))]
    simp [cat]

theorem evItem_ne {objs : List Obj} {key : Bytes} {last : Bool} {rec : Bytes → Option Int → EvOut} {p : PropD} (h : p.key ≠ key) :
    evItem objs key last rec p = ([], .ok (.str p.key p.rawVal .nil)) := by rw [evItem, if_pos h]

theorem evItem_ref {objs : List Obj} {key : Bytes} {last : Bool} {rec : Bytes → Option Int → EvOut} {p : PropD} {id : Int} {o : Obj} {l : List Ev} {own : Items}
    (h : p.key = key) (ht : TidyVal p.rawVal) (hr : refOf p.rawVal = some id) (ho : OnlyObj objs id o) (hrec : rec o.data (some id) = (l, own, .ok ())) :
    evItem objs key last rec p = (.touch id :: l, .ok (.str p.key p.rawVal .nil)) := by
  rw [evItem, if_neg (by simp [h]), (ref_type ht hr).1]
  simp only
  rw [refOf_some hr]
  simp only
  rw [getObj_only ho]
  simp only
  rw [hrec]

theorem evItem_inline {objs : List Obj} {key : Bytes} {rec : Bytes → Option Int → EvOut} {p : PropD} {l : List Ev} {own : Items}
    (h : p.key = key) (ht : TidyVal p.rawVal) (hr : Inline p.rawVal) (hrec : rec p.rawVal none = (l, own, .ok ())) :
    evItem objs key false rec p = (l, .ok (.sub p.key own .nil)) := by
  rw [evItem, if_neg (by simp [h]), (inline_type ht hr).1]
  simp only
  rw [if_neg (by simp), hrec]

theorem evItem_last {objs : List Obj} {key : Bytes} {rec : Bytes → Option Int → EvOut} {p : PropD} (h : p.key = key) (ht : TidyVal p.rawVal) (hr : Inline p.rawVal) :
    evItem objs key true rec p = ([], .ok (.str p.key p.rawVal .nil)) := by
  rw [evItem, if_neg (by simp [h]), (inline_type ht hr).1]
  simp

theorem evKids_ok {α : Type} {objs : List Obj} {rec : Bytes → Option Int → EvOut} {n : α → Int} {f : α → List Ev} : ∀ {l : List α},
    (∀ x ∈ l, ∃ o own, OnlyObj objs (n x) o ∧ rec o.data (some (n x)) = (f x, own, .ok ())) →
      evKids objs rec (l.map n) = (l.flatMap (fun x => .touch (n x) :: f x), .ok ())
  | [], _ => rfl
  | i :: t, h => by
    obtain ⟨o, own, h1, h2⟩ := h i (by simp)
    rw [List.map_cons, evKids, getObj_only h1]
    simp only
    rw [h2]
    simp only
    rw [evKids_ok (fun j hj => h j (by simp [hj]))]
    simp

/-! ### the events of a flat document -/

variable {k : Bytes}

def kindEv (k : Bytes) (p : PropD) : List Ev :=
  if p.key = k then
    match refOf p.rawVal with
    | some i => [.touch i]
    | none => []
  else []

def resEv (k : Bytes) (i : Int) (r : ResInfo) : List Ev := r.entries.flatMap (fun p => kindEv k p ++ [.add i (.str p.key p.rawVal .nil)])

def pageF (k : Bytes) (g : FlatPage) (p : PropD) : List Ev :=
  if p.key = b!"Resources" then
    match g.res with
    | none => []
    | some r =>
      match r.place with
      | some i => .touch i :: resEv k i r
      | none => r.entries.flatMap (kindEv k)
  else []

def pageG (g : FlatPage) (p : PropD) : Items :=
  if p.key = b!"Resources" then
    match g.res with
    | none => .str p.key p.rawVal .nil
    | some r =>
      match r.place with
      | some _ => .str p.key p.rawVal .nil
      | none => .sub p.key (strs r.entries) .nil
  else .str p.key p.rawVal .nil

def pageEv (k : Bytes) (g : FlatPage) : List Ev := g.entries.flatMap (fun p => pageF k g p ++ [.add g.id (pageG g p)])

def kidsEv (k : Bytes) (pages : List FlatPage) : List Ev := pages.flatMap (fun g => .touch g.id :: pageEv k g)

def nodeEv (k : Bytes) (tree : Int) (node : Props) (pages : List FlatPage) : List Ev :=
  node.flatMap (fun p => (if p.key = b!"Kids" then kidsEv k pages else []) ++ [.add tree (.str p.key p.rawVal .nil)])

def catEv (k : Bytes) (root tree : Int) (ct node : Props) (pages : List FlatPage) : List Ev :=
  ct.flatMap (fun p => (if p.key = b!"Pages" then .touch tree :: nodeEv k tree node pages else []) ++ [.add root (.str p.key p.rawVal .nil)])

theorem mem_tidy {ps : Props} {p : PropD} (h : Tidy ps) (hp : p ∈ ps) : TidyVal p.rawVal := (h p hp).2.1

theorem onlyKey_eq {ps : Props} {k v : Bytes} (h : OnlyKey ps k v) {p : PropD} (hp : p ∈ ps) (hk : p.key = k) : p = ⟨k, v⟩ := by
  have : p ∈ ps.filter (fun p => decide (p.key = k)) := List.mem_filter.2 ⟨hp, by simp [hk]⟩
  rw [h] at this
  simpa using this

theorem evKind {objs : List Obj} {qs : Props} (hq : Tidy qs) (hf : Sound objs k qs) : ∀ p ∈ qs,
    evItem objs k true (evNext objs []) p = (kindEv k p, .ok (.str p.key p.rawVal .nil)) := by
  intro p hp
  by_cases hk : p.key = k
  · have ht := mem_tidy hq hp
    rw [kindEv, if_pos hk]
    rcases hf p hp hk with hi | ⟨i, o, hr, ho⟩
    · rw [evItem_last hk ht hi]
      cases hr : refOf p.rawVal with
      | none => rfl
      | some i => exact absurd hi (ref_type ht hr).2.1
    · rw [evItem_ref hk ht hr ho (l := []) (own := .nil) rfl, hr]
  · rw [evItem_ne hk, kindEv, if_neg hk]

theorem evRes {objs : List Obj} {data : Bytes} {i : Int} {r : ResInfo} (hd : readProperties data = .ok r.entries) (hq : Tidy r.entries) (hf : Sound objs k r.entries) :
    evNext objs [k] data (some i) = (resEv k i r, .nil, .ok ()) := by
  rw [evNext, hd]
  exact evLoop_some (evKind hq hf)

theorem evResInline {objs : List Obj} {data : Bytes} {r : ResInfo} (hd : readProperties data = .ok r.entries) (hq : Tidy r.entries) (hf : Sound objs k r.entries) :
    evNext objs [k] data none = (r.entries.flatMap (kindEv k), strs r.entries, .ok ()) := by
  rw [evNext, hd]
  simp only [List.isEmpty_nil]
  rw [evLoop_none (evKind hq hf), cat_strs]

theorem evPage {objs : List Obj} {data : Bytes} {g : FlatPage} (hg : g.Ok objs k) (hd : readProperties data = .ok g.entries) :
    evNext objs [b!"Resources", k] data (some g.id) = (pageEv k g, .nil, .ok ()) := by
  rw [evNext, hd]
  refine evLoop_some (fun p hp => ?_)
  by_cases hk : p.key = b!"Resources"
  · have hres := hg.res
    cases hr : g.res with
    | none => rw [hr] at hres; exact absurd hk (valueOf_none_iff.1 hres p hp)
    | some r =>
      rw [hr] at hres
      obtain ⟨v, h1, ⟨h2, h3⟩, h4, _⟩ := hres
      have e := onlyKey_eq h1 hp hk
      have hw : p.rawVal = v := by rw [e]
      have ht := mem_tidy hg.tidy hp
      rw [pageF, if_pos hk, pageG, if_pos hk, hr]
      simp only
      cases hpl : r.place with
      | none =>
        rw [hpl] at h3
        exact evItem_inline hk ht (by rw [hw]; exact h3.1) (by rw [hw]; exact evResInline h3.2 h2 h4)
      | some i =>
        rw [hpl] at h3
        obtain ⟨hr', o, ho, hod⟩ := h3
        exact evItem_ref hk ht (by rw [hw]; exact hr') ho (evRes hod h2 h4)
  · rw [evItem_ne hk, pageF, if_neg hk, pageG, if_neg hk]

theorem evNode {objs : List Obj} {root tree : Int} {ct node : Props} {pages : List FlatPage} (h : FlatDoc k objs root tree ct node pages) {data : Bytes}
    (hd : readProperties data = .ok node) :
    evNext objs [b!"Kids", b!"Resources", k] data (some tree) = (nodeEv k tree node pages, .nil, .ok ()) := by
  rw [evNext, hd]
  refine evLoop_some (f := fun p => if p.key = b!"Kids" then kidsEv k pages else []) (fun p hp => ?_)
  by_cases hk : p.key = b!"Kids"
  · obtain ⟨v, h1, h2, h3⟩ := h.kids
    have e := onlyKey_eq h1 hp hk
    have hw : p.rawVal = v := by rw [e]
    have ht := mem_tidy h.nodeTidy hp
    rw [evItem, if_neg (by simp [hk]), array_type ht (by rw [hw]; exact h2)]
    simp only
    rw [hw, h3]
    simp only
    rw [evKids_ok (f := pageEv k) (fun g hg => by
      obtain ⟨o, ho, hod⟩ := (h.pagesOk g hg).entries
      exact ⟨o, .nil, ho, evPage (h.pagesOk g hg) hod⟩)]
    simp only [hk, if_true]
    rfl
  · rw [evItem_ne hk, if_neg hk]

theorem evCat {objs : List Obj} {root tree : Int} {ct node : Props} {pages : List FlatPage} (h : FlatDoc k objs root tree ct node pages) {data : Bytes}
    (hd : readProperties data = .ok ct) :
    evNext objs [b!"Pages", b!"Kids", b!"Resources", k] data (some root) = (catEv k root tree ct node pages, .nil, .ok ()) := by
  rw [evNext, hd]
  refine evLoop_some (f := fun p => if p.key = b!"Pages" then .touch tree :: nodeEv k tree node pages else []) (fun p hp => ?_)
  by_cases hk : p.key = b!"Pages"
  · obtain ⟨v, h1, h2⟩ := h.pagesRef
    have e := onlyKey_eq h1 hp hk
    have hw : p.rawVal = v := by rw [e]
    have ht := mem_tidy h.catTidy hp
    obtain ⟨o, ho, hod⟩ := h.nodeEntries
    rw [if_pos hk]
    exact evItem_ref hk ht (by rw [hw]; exact h2) ho (evNode h hod)
  · rw [evItem_ne hk, if_neg hk]

/-! ### what is added to each result -/

theorem addsOf_flatMap {α : Type} (i : Int) (F : α → List Ev) : ∀ (l : List α), addsOf i (l.flatMap F) = cat (l.map (fun x => addsOf i (F x)))
  | [] => rfl
  | x :: t => by rw [List.flatMap_cons, addsOf_append, addsOf_flatMap i F t]; rfl

theorem added_flatMap {α : Type} {i : Int} {F : α → List Ev} {l : List α} : i ∈ added (l.flatMap F) ↔ ∃ x ∈ l, i ∈ added (F x) := by
  induction l with
  | nil => simp [added]
  | cons x t ih => simp [added_append, ih]

theorem touched_flatMap {α : Type} {i : Int} {F : α → List Ev} {l : List α} : i ∈ touched (l.flatMap F) ↔ ∃ x ∈ l, i ∈ touched (F x) := by
  induction l with
  | nil => simp [touched]
  | cons x t ih => simp [touched_append, ih]

theorem made_flatMap {α : Type} {m : List Int} {F : α → List Ev} : ∀ {l : List α}, (∀ x ∈ l, Made m (F x)) → Made m (l.flatMap F)
  | [], _ => trivial
  | x :: t, h => by
    rw [List.flatMap_cons]
    exact (h x (by simp)).append (made_flatMap (fun y hy => h y (by simp [hy])))

theorem made_none : ∀ {l : List Ev} {m : List Int}, added l = [] → Made m l
  | [], _, _ => trivial
  | .touch _ :: l, _, h => made_none (l := l) h
  | .add _ _ :: l, _, h => by simp [added] at h

theorem kindEv_added (p : PropD) : added (kindEv k p) = [] := by
  unfold kindEv
  split
  · split <;> rfl
  · rfl

theorem kindEv_touched {p : PropD} {i : Int} (h : i ∈ touched (kindEv k p)) : p.key = k ∧ refOf p.rawVal = some i := by
  unfold kindEv at h
  split at h
  · rename_i hk
    split at h
    · rename_i j hj
      simp [touched] at h
      exact ⟨hk, by rw [hj, h]⟩
    · simp [touched] at h
  · simp [touched] at h

theorem kindEv_adds (i : Int) (p : PropD) : addsOf i (kindEv k p) = .nil := addsOf_none (by rw [kindEv_added]; simp)

theorem resEv_added {i j : Int} {r : ResInfo} (h : j ∈ added (resEv k i r)) : j = i := by
  obtain ⟨p, _, hp⟩ := added_flatMap.1 h
  rw [added_append, kindEv_added] at hp
  simpa [added] using hp

theorem resEv_adds (i : Int) (r : ResInfo) : addsOf i (resEv k i r) = strs r.entries := by
  rw [resEv, addsOf_flatMap, ← cat_strs]
  congr 1
  apply List.map_congr_left
  intro p _
  rw [addsOf_append, kindEv_adds]
  simp [addsOf, Items.append]

theorem mem_refs {g : FlatPage} {r : ResInfo} {p : PropD} {i : Int} (hr : g.res = some r) (hp : p ∈ r.entries) (hk : p.key = k) (hi : refOf p.rawVal = some i) : i ∈ g.refs k := by
  rw [FlatPage.refs, hr]
  exact List.mem_filterMap.2 ⟨p, List.mem_filter.2 ⟨hp, by simp [hk]⟩, hi⟩

theorem resEv_touched {g : FlatPage} {r : ResInfo} (hr : g.res = some r) {i j : Int} (h : j ∈ touched (resEv k i r)) : j ∈ g.refs k := by
  obtain ⟨p, hm, hp⟩ := touched_flatMap.1 h
  rw [touched_append] at hp
  simp only [touched, List.append_nil] at hp
  obtain ⟨h1, h2⟩ := kindEv_touched hp
  exact mem_refs hr hm h1 h2

theorem resEv_made (i : Int) (r : ResInfo) {m : List Int} (hi : i ∈ m) : Made m (resEv k i r) :=
  made_flatMap (fun p _ => (made_none (kindEv_added p)).append ⟨hi, trivial⟩)

theorem pageF_added {g : FlatPage} {p : PropD} {j : Int} (h : j ∈ added (pageF k g p)) : g.resPlace = some j := by
  unfold pageF at h
  split at h
  · split at h
    · simp [added] at h
    · rename_i r hr
      split at h
      · rename_i i hi
        have := resEv_added h
        rw [this, FlatPage.resPlace, hr]
        exact hi
      · obtain ⟨q, _, hq⟩ := added_flatMap.1 h
        rw [kindEv_added] at hq
        simp at hq
  · simp [added] at h

theorem pageF_touched {g : FlatPage} {p : PropD} {j : Int} (h : j ∈ touched (pageF k g p)) : g.resPlace = some j ∨ j ∈ g.refs k := by
  unfold pageF at h
  split at h
  · split at h
    · simp [touched] at h
    · rename_i r hr
      split at h
      · rename_i i hi
        rcases List.mem_cons.1 h with rfl | h
        · left; rw [FlatPage.resPlace, hr]; exact hi
        · exact Or.inr (resEv_touched hr h)
      · obtain ⟨q, hm, hq⟩ := touched_flatMap.1 h
        obtain ⟨h1, h2⟩ := kindEv_touched hq
        exact Or.inr (mem_refs hr hm h1 h2)
  · simp [touched] at h

theorem pageF_made (g : FlatPage) (p : PropD) (m : List Int) : Made m (pageF k g p) := by
  unfold pageF
  split
  · split
    · trivial
    · split
      · exact resEv_made _ _ (List.mem_cons_self ..)
      · exact made_flatMap (fun p _ => made_none (kindEv_added p))
  · trivial

theorem pageEv_added {g : FlatPage} {j : Int} (h : j ∈ added (pageEv k g)) : j = g.id ∨ g.resPlace = some j := by
  obtain ⟨p, _, hp⟩ := added_flatMap.1 h
  rw [added_append] at hp
  rcases List.mem_append.1 hp with hp | hp
  · exact Or.inr (pageF_added hp)
  · left; simpa [added] using hp

theorem pageEv_touched {g : FlatPage} {j : Int} (h : j ∈ touched (pageEv k g)) : g.resPlace = some j ∨ j ∈ g.refs k := by
  obtain ⟨p, _, hp⟩ := touched_flatMap.1 h
  rw [touched_append] at hp
  simp only [touched, List.append_nil] at hp
  exact pageF_touched hp

theorem pageEv_made (g : FlatPage) {m : List Int} (h : g.id ∈ m) : Made m (pageEv k g) :=
  made_flatMap (fun p _ => (pageF_made g p m).append ⟨h, trivial⟩)

/-- the items of a page -/
def pageItems (g : FlatPage) : Items := cat (g.entries.map (pageG g))

theorem pageEv_adds {g : FlatPage} (h : g.resPlace ≠ some g.id) : addsOf g.id (pageEv k g) = pageItems g := by
  rw [pageEv, addsOf_flatMap, pageItems]
  congr 1
  apply List.map_congr_left
  intro p _
  rw [addsOf_append, addsOf_none (fun hm => h (pageF_added hm))]
  simp [addsOf, Items.append, Items.append_nil]

theorem cat_nil : ∀ {l : List Items}, (∀ x ∈ l, x = .nil) → cat l = .nil
  | [], _ => rfl
  | x :: t, h => by rw [cat, h x (by simp), cat_nil (fun y hy => h y (by simp [hy]))]; rfl

theorem cat_append : ∀ (a b : List Items), cat (a ++ b) = (cat a).append (cat b)
  | [], _ => rfl
  | x :: t, b => by rw [List.cons_append, cat, cat_append t b, cat, Items.append_assoc]

theorem cat_once {ps : Props} {key v : Bytes} (h : OnlyKey ps key v) {F : PropD → Items} (hF : ∀ p, p.key ≠ key → F p = .nil) : cat (ps.map F) = F ⟨key, v⟩ := by
  obtain ⟨a, b, rfl, h1, h2⟩ := onlyKey_split h
  rw [List.map_append, List.map_cons, cat_append, cat, cat_nil, cat_nil (l := b.map _)]
  · rw [Items.append_nil]; rfl
  · intro x hx
    obtain ⟨p, hp, rfl⟩ := List.mem_map.1 hx
    exact hF p (h2 p hp)
  · intro x hx
    obtain ⟨p, hp, rfl⟩ := List.mem_map.1 hx
    exact hF p (h1 p hp)

theorem cat_single {α : Type} {n : α → Int} {F : α → Items} {x : α} : ∀ {l : List α}, (l.map n).Nodup → x ∈ l → (∀ y ∈ l, n y ≠ n x → F y = .nil) → cat (l.map F) = F x
  | y :: t, hn, hx, hF => by
    rw [List.map_cons, List.nodup_cons] at hn
    rw [List.map_cons, cat]
    rcases List.mem_cons.1 hx with rfl | hx
    · rw [cat_nil, Items.append_nil]
      intro z hz
      obtain ⟨w, hw, rfl⟩ := List.mem_map.1 hz
      exact hF w (by simp [hw]) (fun e => hn.1 (e ▸ List.mem_map_of_mem hw))
    · rw [hF y (by simp) (fun e => hn.1 (e ▸ List.mem_map_of_mem hx)), cat_single hn.2 hx (fun z hz => hF z (by simp [hz]))]
      rfl

/-- the entries, several times -/
def copies (n : Nat) (qs : Props) : Props := (List.replicate n qs).flatten

theorem copies_succ (n : Nat) (qs : Props) : copies (n + 1) qs = qs ++ copies n qs := by simp [copies, List.replicate_succ]

theorem cat_copies {α : Type} {F : α → Items} {P : α → Bool} {qs : Props} : ∀ {l : List α}, (∀ y ∈ l, F y = if P y then strs qs else .nil) →
    cat (l.map F) = strs (copies (l.filter P).length qs)
  | [], _ => rfl
  | y :: t, h => by
    rw [List.map_cons, cat, cat_copies (l := t) (fun z hz => h z (by simp [hz])), h y (by simp), List.filter_cons]
    split
    · rw [List.length_cons, copies_succ, strs_append]
    · rfl

/-- what a page adds to its resource object -/
theorem pageEv_adds_res {objs : List Obj} {g : FlatPage} (hg : g.Ok objs k) {r : ResInfo} {i : Int} (hr : g.res = some r) (hi : r.place = some i) (hne : i ≠ g.id) :
    addsOf i (pageEv k g) = strs r.entries := by
  have hres := hg.res
  rw [hr] at hres
  obtain ⟨v, h1, _⟩ := hres
  have hF : ∀ p, addsOf i (pageF k g p ++ [.add g.id (pageG g p)]) = addsOf i (pageF k g p) := by
    intro p
    rw [addsOf_append]
    simp [addsOf, Ne.symm hne, Items.append_nil]
  rw [pageEv, addsOf_flatMap, cat_once h1 (fun p hp => by rw [hF, pageF, if_neg hp]; rfl), hF, pageF, if_pos rfl, hr]
  simp only [hi]
  exact resEv_adds i r

theorem kidsEv_added {pages : List FlatPage} {j : Int} (h : j ∈ added (kidsEv k pages)) : ∃ g ∈ pages, j = g.id ∨ g.resPlace = some j := by
  obtain ⟨g, hg, hp⟩ := added_flatMap.1 h
  exact ⟨g, hg, pageEv_added hp⟩

theorem nodeEv_added {tree : Int} {node : Props} {pages : List FlatPage} {j : Int} (h : j ∈ added (nodeEv k tree node pages)) :
    j = tree ∨ ∃ g ∈ pages, j = g.id ∨ g.resPlace = some j := by
  obtain ⟨p, _, hp⟩ := added_flatMap.1 h
  rw [added_append] at hp
  rcases List.mem_append.1 hp with hp | hp
  · split at hp
    · exact Or.inr (kidsEv_added hp)
    · simp [added] at hp
  · left; simpa [added] using hp

theorem nodeEv_adds_tree {objs : List Obj} {root tree : Int} {ct node : Props} {pages : List FlatPage} (h : FlatDoc k objs root tree ct node pages) :
    addsOf tree (nodeEv k tree node pages) = strs node := by
  have hd := h.distinct
  rw [List.nodup_cons, List.nodup_cons] at hd
  rw [nodeEv, addsOf_flatMap, ← cat_strs]
  congr 1
  apply List.map_congr_left
  intro p _
  rw [addsOf_append, addsOf_none]
  · simp [addsOf, Items.append]
  · intro hm
    split at hm
    · obtain ⟨g, hg, e | e⟩ := kidsEv_added hm
      · exact hd.2.1 (e ▸ List.mem_map_of_mem hg)
      · exact h.resApart g hg _ e (by simp)
    · simp [added] at hm

theorem nodeEv_adds_ne {objs : List Obj} {root tree : Int} {ct node : Props} {pages : List FlatPage} (h : FlatDoc k objs root tree ct node pages) {i : Int} (hi : i ≠ tree) :
    addsOf i (nodeEv k tree node pages) = cat (pages.map (fun g => addsOf i (pageEv k g))) := by
  obtain ⟨v, h1, _⟩ := h.kids
  have hF : ∀ p : PropD, addsOf i ((if p.key = b!"Kids" then kidsEv k pages else []) ++ [.add tree (.str p.key p.rawVal .nil)]) =
      addsOf i (if p.key = b!"Kids" then kidsEv k pages else []) := by
    intro p
    rw [addsOf_append]
    simp [addsOf, Ne.symm hi, Items.append_nil]
  rw [nodeEv, addsOf_flatMap, cat_once h1 (fun p hp => by rw [hF, if_neg hp]; rfl), hF, if_pos rfl, kidsEv, addsOf_flatMap]
  rfl

theorem catEv_adds_root {objs : List Obj} {root tree : Int} {ct node : Props} {pages : List FlatPage} (h : FlatDoc k objs root tree ct node pages) :
    addsOf root (catEv k root tree ct node pages) = strs ct := by
  have hd := h.distinct
  rw [List.nodup_cons] at hd
  rw [catEv, addsOf_flatMap, ← cat_strs]
  congr 1
  apply List.map_congr_left
  intro p _
  rw [addsOf_append, addsOf_none]
  · simp [addsOf, Items.append]
  · intro hm
    split at hm
    · rcases nodeEv_added (show root ∈ added (nodeEv k tree node pages) from hm) with e | ⟨g, hg, e | e⟩
      · exact hd.1 (by simp [e])
      · exact hd.1 (by simp [e]; exact Or.inr ⟨g, hg, rfl⟩)
      · exact h.resApart g hg _ e (by simp)
    · simp [added] at hm

theorem catEv_adds_ne {objs : List Obj} {root tree : Int} {ct node : Props} {pages : List FlatPage} (h : FlatDoc k objs root tree ct node pages) {i : Int} (hi : i ≠ root) :
    addsOf i (catEv k root tree ct node pages) = addsOf i (nodeEv k tree node pages) := by
  obtain ⟨v, h1, _⟩ := h.pagesRef
  have hF : ∀ p : PropD, addsOf i ((if p.key = b!"Pages" then .touch tree :: nodeEv k tree node pages else []) ++ [.add root (.str p.key p.rawVal .nil)]) =
      addsOf i (if p.key = b!"Pages" then .touch tree :: nodeEv k tree node pages else []) := by
    intro p
    rw [addsOf_append]
    simp [addsOf, Ne.symm hi, Items.append_nil]
  rw [catEv, addsOf_flatMap, cat_once h1 (fun p hp => by rw [hF, if_neg hp]; rfl), hF, if_pos rfl]
  rfl

theorem catEv_made (root tree : Int) (ct node : Props) (pages : List FlatPage) : Made [root] (catEv k root tree ct node pages) := by
  refine made_flatMap (fun p _ => Made.append ?_ ⟨by simp, trivial⟩)
  split
  · refine made_flatMap (fun q _ => Made.append ?_ ⟨by simp, trivial⟩)
    split
    · exact made_flatMap (fun g _ => pageEv_made g (List.mem_cons_self ..))
    · trivial
  · trivial

theorem catEv_touched {root tree : Int} {ct node : Props} {pages : List FlatPage} {j : Int} (h : j ∈ touched (catEv k root tree ct node pages)) :
    j = tree ∨ ∃ g ∈ pages, j = g.id ∨ g.resPlace = some j ∨ j ∈ g.refs k := by
  obtain ⟨p, _, hp⟩ := touched_flatMap.1 h
  rw [touched_append] at hp
  simp only [touched, List.append_nil] at hp
  split at hp
  · rcases List.mem_cons.1 hp with rfl | hp
    · exact Or.inl rfl
    · obtain ⟨q, _, hq⟩ := touched_flatMap.1 hp
      rw [touched_append] at hq
      simp only [touched, List.append_nil] at hq
      split at hq
      · obtain ⟨g, hg, hm⟩ := touched_flatMap.1 hq
        rcases List.mem_cons.1 hm with rfl | hm
        · exact Or.inr ⟨g, hg, Or.inl rfl⟩
        · exact Or.inr ⟨g, hg, Or.inr (pageEv_touched hm)⟩
      · simp [touched] at hq
  · simp [touched] at hp

theorem touched_tree {objs : List Obj} {root tree : Int} {ct node : Props} {pages : List FlatPage} (h : FlatDoc k objs root tree ct node pages) :
    tree ∈ touched (catEv k root tree ct node pages) ∧ ∀ j ∈ touched (nodeEv k tree node pages), j ∈ touched (catEv k root tree ct node pages) := by
  obtain ⟨v, h1, _⟩ := h.pagesRef
  have hm := onlyKey_mem h1
  constructor
  · exact touched_flatMap.2 ⟨_, hm, by simp [touched]⟩
  · intro j hj
    refine touched_flatMap.2 ⟨_, hm, ?_⟩
    simp only [if_true, List.cons_append, touched, touched_append]
    simp [hj]

theorem touched_kids {objs : List Obj} {root tree : Int} {ct node : Props} {pages : List FlatPage} (h : FlatDoc k objs root tree ct node pages) {g : FlatPage} (hg : g ∈ pages) :
    g.id ∈ touched (catEv k root tree ct node pages) ∧ ∀ j ∈ touched (pageEv k g), j ∈ touched (catEv k root tree ct node pages) := by
  obtain ⟨v, h1, _⟩ := h.kids
  have hm := onlyKey_mem h1
  have key : ∀ j ∈ touched (kidsEv k pages), j ∈ touched (catEv k root tree ct node pages) := by
    intro j hj
    refine (touched_tree h).2 j (touched_flatMap.2 ⟨_, hm, ?_⟩)
    simp only [if_true, touched_append]
    simp [hj]
  constructor
  · exact key _ (touched_flatMap.2 ⟨g, hg, by simp [touched]⟩)
  · intro j hj
    exact key _ (touched_flatMap.2 ⟨g, hg, by simp [touched, hj]⟩)

theorem touched_res {objs : List Obj} {g : FlatPage} (hg : g.Ok objs k) {i : Int} (hi : g.resPlace = some i) : i ∈ touched (pageEv k g) := by
  unfold FlatPage.resPlace at hi
  cases hr : g.res with
  | none => simp [hr] at hi
  | some r =>
    rw [hr] at hi
    have hi' : r.place = some i := hi
    have hres := hg.res
    rw [hr] at hres
    obtain ⟨v, h1, _⟩ := hres
    refine touched_flatMap.2 ⟨_, onlyKey_mem h1, ?_⟩
    rw [touched_append, pageF, if_pos rfl, hr]
    simp [hi', touched]

/-! ### the results of a crawl -/

theorem lookup_of_mem {rs : Results} (hn : (rs.map (·.1)).Nodup) {i : Int} {x : Items} : rs.lookup i = some x ↔ (i, x) ∈ rs := by
  induction rs with
  | nil => simp
  | cons p t ih =>
    obtain ⟨j, y⟩ := p
    rw [List.map_cons, List.nodup_cons] at hn
    rw [List.lookup_cons]
    by_cases h : i = j
    · subst h
      simp only [beq_self_eq_true, List.mem_cons, Prod.mk.injEq, true_and]
      constructor
      · intro e; exact Or.inl (by simpa using e.symm)
      · rintro (rfl | hm)
        · rfl
        · exact absurd (List.mem_map_of_mem (f := (·.1)) hm) hn.1
    · rw [beq_false_of_ne h, ih hn.2]
      simp [h]

/-- what the crawl of a flat document finds -/
structure FlatResults (k : Bytes) (root tree : Int) (ct node : Props) (pages : List FlatPage) (rs : Results) : Prop where
  nodup : (rs.map (·.1)).Nodup
  catalog : (root, strs ct) ∈ rs
  kids : (tree, strs node) ∈ rs
  page : ∀ g ∈ pages, (g.id, pageItems g) ∈ rs
  res : ∀ g ∈ pages, ∀ r i, g.res = some r → r.place = some i → (i, strs (copies (sharers pages i) r.entries)) ∈ rs
  only : ∀ p ∈ rs, p = (root, strs ct) ∨ p = (tree, strs node) ∨ (∃ g ∈ pages, p = (g.id, pageItems g)) ∨
    (∃ g ∈ pages, ∃ r, g.res = some r ∧ r.place = some p.1 ∧ p.2 = strs (copies (sharers pages p.1) r.entries)) ∨
    ((∃ g ∈ pages, p.1 ∈ g.refs k) ∧ p.2 = .nil)

theorem sharers_pos {pages : List FlatPage} {g : FlatPage} (hg : g ∈ pages) {r : ResInfo} {i : Int} (hr : g.res = some r) (hi : r.place = some i) : 1 ≤ sharers pages i := by
  have : g ∈ pages.filter (fun g => decide (g.resPlace = some i)) := List.mem_filter.2 ⟨hg, by simp [FlatPage.resPlace, hr, hi]⟩
  exact List.length_pos_of_mem this

theorem dictAt_unique {objs : List Obj} {v v' : Bytes} {i : Int} {qs qs' : Props} (h : DictAt objs v (some i) qs) (h' : DictAt objs v' (some i) qs') : qs = qs' :=
  h.2.2.unique h'.2.2

theorem resAgree {objs : List Obj} {g g' : FlatPage} (hg : g.Ok objs k) (hg' : g'.Ok objs k) {r r' : ResInfo} {i : Int} (hr : g.res = some r) (hr' : g'.res = some r')
    (hi : r.place = some i) (hi' : r'.place = some i) : r = r' := by
  have h1 := hg.res
  have h2 := hg'.res
  rw [hr] at h1
  rw [hr'] at h2
  obtain ⟨v, _, a, _⟩ := h1
  obtain ⟨v', _, a', _⟩ := h2
  cases r; cases r'
  simp only at hi hi' a a'
  subst hi hi'
  rw [dictAt_unique a a']

theorem crawl_flat {objs : List Obj} {root tree : Int} {ct node : Props} {pages : List FlatPage} (h : FlatDoc k objs root tree ct node pages) :
    ∃ rs, crawlRun objs root [b!"Pages", b!"Kids", b!"Resources", k] = (rs, .ok ()) ∧ FlatResults k root tree ct node pages rs := by
  obtain ⟨o, ho, hod⟩ := h.catEntries
  have hd := h.distinct
  rw [List.nodup_cons, List.nodup_cons] at hd
  obtain ⟨hd1, hd2, hd3⟩ := hd
  refine ⟨evApply [(root, .nil)] (catEv k root tree ct node pages), ?_, ?_⟩
  · rw [crawlRun, getObj_only ho]
    simp only
    rw [crawlNext_ev, evCat h hod]
  have hk := evApply_keys (catEv k root tree ct node pages) [(root, .nil)] (by simp)
  have hmade := catEv_made (k := k) root tree ct node pages
  have hroot : (evApply [(root, .nil)] (catEv k root tree ct node pages)).lookup root = some (strs ct) := by
    rw [lookup_evApply (catEv k root tree ct node pages) (rs := [(root, .nil)]) (i := root) (x := .nil) (by simp), catEv_adds_root h]
    rfl
  have hne : ∀ i, i ≠ root → i ∈ touched (catEv k root tree ct node pages) →
      (evApply [(root, .nil)] (catEv k root tree ct node pages)).lookup i = some (addsOf i (nodeEv k tree node pages)) := by
    intro i hi ht
    rw [lookup_made (catEv k root tree ct node pages) (rs := [(root, .nil)]) hmade (by simpa using hi) ht, catEv_adds_ne h hi]
  have htree : (evApply [(root, .nil)] (catEv k root tree ct node pages)).lookup tree = some (strs node) := by
    rw [hne tree (fun e => hd1 (by simp [e])) (touched_tree h).1, nodeEv_adds_tree h]
  have hpage : ∀ g ∈ pages, (evApply [(root, .nil)] (catEv k root tree ct node pages)).lookup g.id = some (pageItems g) := by
    intro g hg
    have hgr : g.id ≠ root := fun e => hd1 (by rw [← e]; exact List.mem_cons_of_mem _ (List.mem_map_of_mem hg))
    have hgt : g.id ≠ tree := fun e => hd2 (by rw [← e]; exact List.mem_map_of_mem hg)
    rw [hne g.id hgr (touched_kids h hg).1, nodeEv_adds_ne h hgt, cat_single hd3 hg]
    · rw [pageEv_adds]
      intro e
      exact h.resApart g hg _ e (by simp only [List.mem_cons]; exact Or.inr (Or.inr (List.mem_map_of_mem hg)))
    · intro g' hg' hne'
      refine addsOf_none (fun hm => ?_)
      rcases pageEv_added hm with e | e
      · exact hne' e.symm
      · exact h.resApart g' hg' _ e (by simp only [List.mem_cons]; exact Or.inr (Or.inr (List.mem_map_of_mem hg)))
  have hres : ∀ g ∈ pages, ∀ r i, g.res = some r → r.place = some i →
      (evApply [(root, .nil)] (catEv k root tree ct node pages)).lookup i = some (strs (copies (sharers pages i) r.entries)) := by
    intro g hg r i hr hi
    have hplace : g.resPlace = some i := by rw [FlatPage.resPlace, hr]; exact hi
    have hap := h.resApart g hg i hplace
    simp only [List.mem_cons, not_or] at hap
    have hne' : ∀ g' ∈ pages, i ≠ g'.id := fun g' hg' e => hap.2.2 (e ▸ List.mem_map_of_mem hg')
    rw [hne i hap.1 ((touched_kids h hg).2 _ (touched_res (h.pagesOk g hg) hplace)), nodeEv_adds_ne h hap.2.1,
      cat_copies (P := fun g => decide (g.resPlace = some i)) (qs := r.entries)]
    · rfl
    · intro g' hg'
      by_cases e : g'.resPlace = some i
      · rw [if_pos (by simp [e])]
        unfold FlatPage.resPlace at e
        cases hr' : g'.res with
        | none => simp [hr'] at e
        | some r' =>
          rw [hr'] at e
          have hi' : r'.place = some i := e
          rw [pageEv_adds_res (h.pagesOk g' hg') hr' hi' (hne' g' hg'), resAgree (h.pagesOk g hg) (h.pagesOk g' hg') hr hr' hi hi']
      · rw [if_neg (by simp [e])]
        refine addsOf_none (fun hm => ?_)
        rcases pageEv_added hm with e' | e'
        · exact hne' g' hg' e'
        · exact e e'
  have hmem := fun {i : Int} {x : Items} => lookup_of_mem hk.1 (i := i) (x := x)
  refine ⟨hk.1, hmem.1 hroot, hmem.1 htree, fun g hg => hmem.1 (hpage g hg), ?_, ?_⟩
  · intro g hg r i hr hi
    exact hmem.1 (hres g hg r i hr hi)
  · rintro ⟨i, x⟩ hp
    have hl := hmem.2 hp
    have hi : i ∈ [root] ∨ i ∈ touched (catEv k root tree ct node pages) := by
      have := (hk.2 i).1 (List.mem_map_of_mem (f := (·.1)) hp)
      simpa using this
    rcases hi with hi | hi
    · have : i = root := by simpa using hi
      subst this
      rw [hroot] at hl
      exact Or.inl (by rw [Option.some.inj hl])
    · rcases catEv_touched hi with rfl | ⟨g, hg, rfl | e | e⟩
      · rw [htree] at hl
        exact Or.inr (Or.inl (by rw [Option.some.inj hl]))
      · rw [hpage g hg] at hl
        exact Or.inr (Or.inr (Or.inl ⟨g, hg, by rw [Option.some.inj hl]⟩))
      · have e' := e
        unfold FlatPage.resPlace at e
        cases hr : g.res with
        | none => simp [hr] at e
        | some r =>
          rw [hr] at e
          rw [hres g hg r i hr e] at hl
          exact Or.inr (Or.inr (Or.inr (Or.inl ⟨g, hg, r, hr, e, (Option.some.inj hl).symm⟩)))
      · obtain ⟨ha, hb⟩ := h.refsApart g hg i e
        simp only [List.mem_cons, not_or] at ha
        rw [hne i ha.1 hi, nodeEv_adds_ne h ha.2.1, cat_nil] at hl
        · exact Or.inr (Or.inr (Or.inr (Or.inr ⟨⟨g, hg, e⟩, (Option.some.inj hl).symm⟩)))
        · intro y hy
          obtain ⟨g', hg', rfl⟩ := List.mem_map.1 hy
          refine addsOf_none (fun hm => ?_)
          rcases pageEv_added hm with e' | e'
          · exact ha.2.2 (e' ▸ List.mem_map_of_mem hg')
          · exact hb g' hg' e'

end Verif
