import Verif.Lemmas.FlatFont
/-!
# Checking that a concrete document is flat
-/
namespace Verif
open Spec

variable {objs : List Obj} {root tree : Int} {ct node : Props} {pages : List FlatPage} {k : Bytes}

theorem entries_of_entriesOf {i : Int} {ps : Props} (h : entriesOf objs i = some ps) : Entries objs i ps := by
  unfold entriesOf at h
  split at h
  · rename_i o ho
    split at h
    · rename_i qs hq
      simp only [Option.some.injEq] at h
      subst h
      exact ⟨o, ho, hq⟩
    · simp at h
  · simp at h

def checkDictAt (objs : List Obj) (v : Bytes) (place : Option Int) (ps : Props) : Bool :=
  decide (Tidy ps) && match place with
    | none => decide (Inline v) && decide (readProperties v = .ok ps)
    | some i => decide (refOf v = some i) && decide (entriesOf objs i = some ps)

theorem checkDictAt_ok {v : Bytes} {place : Option Int} {ps : Props} (h : checkDictAt objs v place ps = true) : DictAt objs v place ps := by
  unfold checkDictAt at h
  cases place with
  | none =>
    simp only [Bool.and_eq_true, decide_eq_true_eq] at h
    exact ⟨h.1, h.2⟩
  | some i =>
    simp only [Bool.and_eq_true, decide_eq_true_eq] at h
    exact ⟨h.1, h.2.1, entries_of_entriesOf h.2.2⟩

def checkSound (objs : List Obj) (k : Bytes) (qs : Props) : Bool :=
  qs.all (fun p => if p.key = k then decide (Inline p.rawVal) || (match refOf p.rawVal with
    | some i => decide ((objs.filter (fun x => decide (x.objID = i))).length = 1)
    | none => false) else true)

theorem checkSound_ok {qs : Props} (h : checkSound objs k qs = true) : Sound objs k qs := by
  intro p hp hk
  have := List.all_eq_true.1 h p hp
  rw [if_pos hk, Bool.or_eq_true, decide_eq_true_eq] at this
  rcases this with h1 | h1
  · exact Or.inl h1
  · right
    split at h1
    · rename_i i hi
      simp only [decide_eq_true_eq] at h1
      obtain ⟨o, ho⟩ := List.length_eq_one_iff.1 h1
      exact ⟨i, o, hi, ho⟩
    · simp at h1

def checkRes (objs : List Obj) (k : Bytes) (ps : Props) : Option ResInfo → Bool
  | none => decide (valueOf ps b!"Resources" = none)
  | some r => match valueOf ps b!"Resources" with
    | none => false
    | some v => decide (OnlyKey ps b!"Resources" v) && checkDictAt objs v r.place r.entries && checkSound objs k r.entries && decide (LacksName b!"Pages" r.entries)

theorem checkRes_ok {ps : Props} {r : Option ResInfo} (h : checkRes objs k ps r = true) : ResOk objs k ps r := by
  cases r with
  | none => rw [checkRes, decide_eq_true_eq] at h; exact h
  | some r =>
    simp only [checkRes] at h
    split at h
    · simp at h
    · rename_i v _
      simp only [Bool.and_eq_true, decide_eq_true_eq] at h
      exact ⟨v, h.1.1.1, checkDictAt_ok h.1.1.2, checkSound_ok h.1.2, h.2⟩

def checkPage (objs : List Obj) (k : Bytes) (g : FlatPage) : Bool :=
  decide (entriesOf objs g.id = some g.entries) && decide (Tidy g.entries) && decide (valueOf g.entries k = none) && decide (LacksName b!"Pages" g.entries) && checkRes objs k g.entries g.res

theorem checkPage_ok {g : FlatPage} (h : checkPage objs k g = true) : g.Ok objs k := by
  simp only [checkPage, Bool.and_eq_true, decide_eq_true_eq] at h
  exact ⟨entries_of_entriesOf h.1.1.1.1, h.1.1.1.2, h.1.1.2, h.1.2, checkRes_ok h.2⟩

def checkFlat (k : Bytes) (objs : List Obj) (root tree : Int) (ct node : Props) (pages : List FlatPage) : Bool :=
  decide (entriesOf objs root = some ct) && decide (entriesOf objs tree = some node) && decide (Tidy ct) && decide (Tidy node) &&
  (match valueOf ct b!"Pages" with
    | none => false
    | some v => decide (OnlyKey ct b!"Pages" v) && decide (refOf v = some tree)) &&
  (match valueOf node b!"Kids" with
    | none => false
    | some v => decide (OnlyKey node b!"Kids" v) && decide (v.head? = some 91) && decide (readObjIDFromDictionaryArr v = .ok (pages.map (·.id)))) &&
  decide (valueOf ct k = none ∧ LacksName b!"Parent" ct) && decide (valueOf node k = none ∧ LacksName b!"Parent" node) &&
  pages.all (checkPage objs k) && decide ((root :: tree :: pages.map (·.id)).Nodup) &&
  pages.all (fun g => match g.resPlace with
    | none => true
    | some i => decide (i ∉ root :: tree :: pages.map (·.id))) &&
  pages.all (fun g => (g.refs k).all (fun i => decide (i ∉ root :: tree :: pages.map (·.id)) && pages.all (fun g' => decide (g'.resPlace ≠ some i))))

theorem checkFlat_ok (h : checkFlat k objs root tree ct node pages = true) : FlatDoc k objs root tree ct node pages := by
  simp only [checkFlat, Bool.and_eq_true, decide_eq_true_eq, List.all_eq_true] at h
  obtain ⟨⟨⟨⟨⟨⟨⟨⟨⟨⟨⟨h1, h2⟩, h3⟩, h4⟩, h5⟩, h6⟩, h7⟩, h8⟩, h9⟩, h10⟩, h11⟩, h12⟩ := h
  refine ⟨entries_of_entriesOf h1, entries_of_entriesOf h2, h3, h4, ?_, ?_, h7, h8, fun g hg => checkPage_ok (h9 g hg), h10, ?_, h12⟩
  · split at h5
    · simp at h5
    · rename_i v _
      simp only [Bool.and_eq_true, decide_eq_true_eq] at h5
      exact ⟨v, h5.1, h5.2⟩
  · split at h6
    · simp at h6
    · rename_i v _
      simp only [Bool.and_eq_true, decide_eq_true_eq] at h6
      exact ⟨v, h6.1.1, h6.1.2, h6.2⟩
  · intro g hg i hi
    have := h11 g hg
    rw [hi] at this
    simpa using this

def checkFonts (objs : List Obj) (pages : List FlatPage) : Bool :=
  pages.all (fun g => match g.res with
    | none => true
    | some r => match valueOf r.entries b!"Font" with
      | none => true
      | some w => match dictOf objs w with
        | none => false
        | some fs => checkDictAt objs w none fs || (match refOf w with
          | some i => checkDictAt objs w (some i) fs
          | none => false))

theorem checkFonts_ok (h : checkFonts objs pages = true) : FontsReadable objs pages := by
  intro g hg r hr
  have := List.all_eq_true.1 h g hg
  rw [hr] at this
  simp only at this
  split at this
  · left; assumption
  · rename_i w hw
    right
    split at this
    · simp at this
    · rename_i fs _
      rw [Bool.or_eq_true] at this
      rcases this with h1 | h1
      · exact ⟨none, fs, w, hw, checkDictAt_ok h1⟩
      · split at h1
        · rename_i i _
          exact ⟨some i, fs, w, hw, checkDictAt_ok h1⟩
        · simp at h1

end Verif
