import Verif.Store
import Verif.AppSamples
/-!
# Which object a number means (C61)

A file that was changed by appending to it has several objects with one number, and the last one counts (ISO 32000-1, 7.5.6).
-/
namespace Verif
open Spec

/-- the objects with this number, in file order -/
def Spec.versions (objs : List Obj) (id : Int) : List Obj := objs.filter (fun o => o.objID = id)

/-- the dictionary of the object can be read and has an entry `/Annots` -/
def Spec.Annotated (o : Obj) : Prop := ∃ ps, readProperties o.data = .ok ps ∧ ∃ p ∈ ps, p.key = b!"Annots"

theorem hasAnnots_iff (o : Obj) : hasAnnots o = true ↔ Annotated o := by
  unfold hasAnnots Annotated
  split
  · rename_i ps h
    simp [h, hasKey, getPropByKey]
  · rename_i h
    constructor
    · intro hf; cases hf
    · rintro ⟨ps, hp, _⟩
      exact absurd hp (h ps)

private def pick (objs : List Obj) (r j : Nat) : Nat :=
  match objs[j]? with
  | some o => if hasAnnots o then j else r
  | none => r

private theorem pick_fold (objs : List Obj) (id : Int) : ∀ (t pre : List Obj) (r : Nat) (ro : Obj), objs = pre ++ t → objs[r]? = some ro →
    objs[(idxsOf id pre.length t).foldl (pick objs) r]? = some (((t.filter (fun o => o.objID = id)).filter hasAnnots).getLast?.getD ro)
  | [], pre, r, ro, h, hr => by simpa [idxsOf] using hr
  | o :: t, pre, r, ro, h, hr => by
    have h' : objs = (pre ++ [o]) ++ t := by simp [h]
    have hl : (pre ++ [o]).length = pre.length + 1 := by simp
    have ho : objs[pre.length]? = some o := by simp [h]
    unfold idxsOf
    split
    · rename_i hid
      rw [List.foldl_cons]
      by_cases ha : hasAnnots o = true
      · have hp : pick objs r pre.length = pre.length := by simp [pick, ho, ha]
        rw [hp, ← hl, pick_fold objs id t (pre ++ [o]) pre.length o h' ho]
        simp only [List.filter_cons, hid, decide_true, if_true, ha]
        cases hf : ((t.filter (fun o => o.objID = id)).filter hasAnnots) with
        | nil => simp
        | cons x l => rw [List.getLast?_cons_cons, List.getLast?_cons]; rfl
      · have hp : pick objs r pre.length = r := by simp [pick, ho, ha]
        rw [hp, ← hl, pick_fold objs id t (pre ++ [o]) r ro h' hr]
        simp [List.filter_cons, hid, ha]
    · rename_i hid
      rw [← hl, pick_fold objs id t (pre ++ [o]) r ro h' hr]
      simp [List.filter_cons, hid]

private theorem idxsOf_head (objs : List Obj) (id : Int) : ∀ (t pre : List Obj), objs = pre ++ t →
    ((idxsOf id pre.length t).head?.bind (fun i => objs[i]?)) = (t.filter (fun o => o.objID = id)).head?
  | [], pre, h => by simp [idxsOf]
  | o :: t, pre, h => by
    have h' : objs = (pre ++ [o]) ++ t := by simp [h]
    have ho : objs[pre.length]? = some o := by simp [h]
    unfold idxsOf
    split
    · rename_i hid
      simp [hid, ho]
    · rename_i hid
      have := idxsOf_head objs id t (pre ++ [o]) h'
      simp only [List.length_append, List.length_singleton] at this
      simp [this, List.filter_cons, hid]

private theorem idxsOf_length (id : Int) : ∀ (t : List Obj) (k : Nat), (idxsOf id k t).length = (t.filter (fun o => o.objID = id)).length
  | [], k => rfl
  | o :: t, k => by
    unfold idxsOf
    split
    · rename_i hid; simp [hid, idxsOf_length id t]
    · rename_i hid; simp [List.filter_cons, hid, idxsOf_length id t]

private theorem getObj_eq (objs : List Obj) (id : Int) :
    getObj objs id = match (versions objs id).head? with
      | none => none
      | some f => some (((versions objs id).filter hasAnnots).getLast?.getD f) := by
  have hh := idxsOf_head objs id objs [] rfl
  have hl := idxsOf_length id objs 0
  have hp := fun r ro hr => pick_fold objs id objs [] r ro rfl hr
  simp only [List.length_nil] at hh hp
  unfold getObj getObjIdx versions
  cases hi : idxsOf id 0 objs with
  | nil =>
    rw [hi] at hh
    simp only [List.head?_nil, Option.bind_none] at hh
    simp [← hh]
  | cons i rest =>
    rw [hi] at hh hl hp
    simp only [List.head?_cons, Option.bind_some] at hh
    cases rest with
    | nil =>
      simp only
      rw [hh]
      cases hf : objs.filter (fun o => o.objID = id) with
      | nil => simp
      | cons f l =>
        rw [hf] at hl
        have : l = [] := by simpa using hl
        subst this
        by_cases ha : hasAnnots f = true <;> simp [ha]
    | cons j rest =>
      simp only
      cases hf : (objs.filter (fun o => o.objID = id)) with
      | nil => rw [hf] at hl; simp at hl
      | cons f l =>
        rw [hf] at hh
        have := hp i f (by simpa using hh)
        rw [hf] at this
        simp only [List.head?_cons]
        exact this

/-- C61, what holds: a number with objects always finds one of them, and a number with one object finds that object. -/
theorem C61_one_of_them (objs : List Obj) (id : Int) :
    (versions objs id = [] → getObj objs id = none) ∧ (∀ o, versions objs id = [o] → getObj objs id = some o) ∧
      (versions objs id ≠ [] → ∃ o ∈ versions objs id, getObj objs id = some o) := by
  rw [getObj_eq]
  refine ⟨fun h => by simp [h], fun o h => ?_, fun h => ?_⟩
  · rw [h]
    by_cases ha : hasAnnots o = true <;> simp [ha]
  · cases hv : versions objs id with
    | nil => exact absurd hv h
    | cons f l =>
      refine ⟨_, ?_, rfl⟩
      cases hg : ((f :: l).filter hasAnnots).getLast? with
      | none => simp
      | some g => exact (List.mem_filter.1 (List.mem_of_getLast? hg)).1

/-- C61, partial: the last version is used when it is annotated. -/
theorem C61_last_annotated_partial (objs : List Obj) (id : Int) (o : Obj) (hl : (versions objs id).getLast? = some o) (ha : Annotated o) :
    getObj objs id = some o := by
  obtain ⟨l, hv⟩ := List.getLast?_eq_some_iff.1 hl
  rw [getObj_eq, hv]
  have h := (hasAnnots_iff o).2 ha
  cases l <;> simp [List.filter_append, h]

/-- C61 is violated: without annotations the first version is used, for every document. -/
theorem C61_refuted_first (objs : List Obj) (id : Int) (f : Obj) (hf : (versions objs id).head? = some f)
    (ha : ∀ o ∈ versions objs id, ¬ Annotated o) : getObj objs id = some f := by
  rw [getObj_eq, hf]
  have : (versions objs id).filter hasAnnots = [] := by
    rw [List.filter_eq_nil_iff]
    intro o ho h
    exact ha o ho ((hasAnnots_iff o).1 h)
  simp [this]

/-- C61 is violated: an older version with annotations wins over a newer one whose annotations were removed. -/
theorem C61_refuted_annotations (objs : List Obj) (id : Int) (o : Obj) (pre post : List Obj) (hv : versions objs id = pre ++ o :: post) (ha : Annotated o)
    (hp : ∀ q ∈ post, ¬ Annotated q) : getObj objs id = some o := by
  rw [getObj_eq, hv]
  have h := (hasAnnots_iff o).2 ha
  have : post.filter hasAnnots = [] := by
    rw [List.filter_eq_nil_iff]
    intro q hq hh
    exact hp q hq ((hasAnnots_iff q).1 hh)
  rw [List.filter_append, List.filter_cons, if_pos h, this, List.getLast?_append]
  cases pre <;> simp

/-- a page and its changed version -/
def twoVersions : List Obj := [⟨3, b!"<<\n/Type /Page\n/Rotate 0\n>>"⟩, ⟨4, b!"<<\n/Length 0\n>>"⟩, ⟨3, b!"<<\n/Type /Page\n/Rotate 90\n>>"⟩]
/-- the same, with annotations -/
def annotatedVersions : List Obj := [⟨3, b!"<<\n/Type /Page\n>>"⟩, ⟨3, b!"<<\n/Type /Page\n/Annots 5 0 R\n>>"⟩]

example : (versions twoVersions 3).head? = some ⟨3, b!"<<\n/Type /Page\n/Rotate 0\n>>"⟩ ∧ (∀ o ∈ versions twoVersions 3, hasAnnots o = false) ∧
    (versions twoVersions 3).length = 2 ∧ getObj twoVersions 3 ≠ (versions twoVersions 3).getLast? := by decide +kernel

example : (versions annotatedVersions 3).getLast? = some ⟨3, b!"<<\n/Type /Page\n/Annots 5 0 R\n>>"⟩ ∧
    hasAnnots ⟨3, b!"<<\n/Type /Page\n/Annots 5 0 R\n>>"⟩ = true ∧ getObj annotatedVersions 3 = annotatedVersions[1]? := by decide +kernel

end Verif
