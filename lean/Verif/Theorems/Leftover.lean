import Verif.Theorems.Lost
/-
C99: what is left of removed pages.
-/
namespace Verif
open Spec

/-- **C99 is violated** by every document: an object that belongs to no page of the document, be it that its page was removed, is in the saved file, byte for byte and with a row in the table. -/
theorem C99_refuted_all {env env' : Env} {raw : Bytes} {a0 : App} (ho : Opened env raw a0) (calls : List (Env × Call)) {objs : List Obj} {last : Nat} {out : Bytes}
    (hp : (Run a0 calls).protection = none) (hs : Saves env' (Run a0 calls) objs last out) (hlen : out.length < 10 ^ 10) {tree : Int} {ct node : Props} {pages : List FlatPage} {L : List PageC}
    (h : SaveDoc env'.unzip (Run a0 calls).doc.objs (Run a0 calls).doc.rootObjID tree ct node pages L) {i : Int} {o : Obj} (hi : OnlyObj (Run a0 calls).doc.objs i o)
    (h1 : i ≠ (Run a0 calls).doc.rootObjID) (h2 : i ≠ tree) (h3 : ∀ g ∈ pages, i ≠ g.id ∧ g.resPlace ≠ some i ∧ i ∉ g.refs b!"Font") (h4 : ∀ x ∈ L, i ≠ x.obj) :
    ∃ es rest k e, readTable out = some (es, rest) ∧ i = (k : Nat) ∧ es[k]? = some e ∧ e.inUse = true ∧ ObjectAt out e.offset k (trimSpace o.data) := by
  obtain ⟨es, rest, t1, _, t3⟩ := C01_saved ho calls hs hlen
  obtain ⟨b, hb, hobjs, _, _⟩ := hs
  have hk := C66_others_kept_partial (NumInv.run calls ho.inv) hp hb h i o hi h1 h2 h3 h4
  have hid : o.objID = i := by
    have : o ∈ List.filter (fun x => decide (x.objID = i)) b.doc.objs := by rw [show List.filter _ _ = [o] from hk]; simp
    simpa using (List.mem_filter.1 this).2
  have hmem : o ∈ objs := by
    rw [hobjs, hp]
    have : o ∈ List.filter (fun x => decide (x.objID = i)) b.doc.objs := by rw [show List.filter _ _ = [o] from hk]; simp
    simpa [writtenObjs] using (List.mem_filter.1 this).1
  obtain ⟨k, e, e1, e2, e3, _, e5⟩ := t3 o hmem
  exact ⟨es, rest, k, e, t1, by rw [← hid, e1], e2, e3, e5⟩

/-- two pages, one of which is to be removed -/
def secretPage : List Obj := [
  ⟨1, b!"<< /Type /Catalog /Pages 2 0 R >>"⟩,
  ⟨2, b!"<< /Type /Pages /Count 2 /Kids [ 3 0 R 5 0 R ] >>"⟩,
  ⟨3, b!"<< /Type /Page /Parent 2 0 R /MediaBox [0 0 595 842] /Resources 7 0 R /Contents 4 0 R >>"⟩,
  ⟨4, b!"<< /Length 5 >>\nstream\nq 7 Q\nendstream"⟩,
  ⟨5, b!"<< /Type /Page /Parent 2 0 R /MediaBox [0 0 595 842] /Resources 7 0 R /Contents 6 0 R >>"⟩,
  ⟨6, b!"<< /Length 11 >>\nstream\n(secret) Tj\nendstream"⟩,
  ⟨7, b!"<< /Font << /F1 8 0 R >> >>"⟩,
  ⟨8, b!"<< /Type /Font >>"⟩]

def secretCalls : List (Env × Call) := [(plainEnv, .remove 2)]

/-- page 2 is removed and the document saved -/
def secretFile : Bytes := savedFile (Run (openedApp (fileOf secretPage)) secretCalls)

set_option maxRecDepth 20000 in
/-- **C99 is violated**: the file has one page, and the text of the removed page is still in it. -/
theorem C99_refuted : (App.openFrom plainEnv {} (fileOf secretPage)).res = .ok () ∧ getPageObjIDs (openedApp secretFile).doc = .ok [3] ∧
    contains b!"\n6 0 obj\n<< /Length 11 >>\nstream\n(secret) Tj\nendstream\nendobj\n" secretFile = true := by decide +kernel

/-- what is left after the removal -/
def secretLeft : List Obj := (Run (openedApp (fileOf secretPage)) secretCalls).doc.objs

def leftEntries (i : Int) : Props := (entriesOf secretLeft i).getD []

def secretPages : List FlatPage := [⟨3, leftEntries 3, some ⟨some 7, leftEntries 7⟩⟩]

set_option maxRecDepth 20000 in
theorem secretLeft_ok : SaveDoc some secretLeft 1 2 (leftEntries 1) (leftEntries 2) secretPages [⟨3, 4, b!"q 7 Q"⟩] := by
  refine checkSave_ok (by decide +kernel) ?_
  intro x hx
  rw [List.mem_singleton] at hx
  subst hx
  refine ⟨⟨leftEntries 3, b!"4 0 R", entries_of_entriesOf (by decide +kernel), by decide +kernel, by decide +kernel⟩,
    ⟨4, b!"\n<< /Length 5 >>\nstream\nq 7 Q\nendstream\n"⟩, by decide +kernel, ⟨?_⟩⟩
  exact ⟨_, b!"\n<< /Length 5 >>\n", b!"\n", b!"q 7 Q", b!"\n", b!"\n", _, 113, by rfl, by rfl, by decide +kernel, by decide, by decide +kernel, by decide +kernel,
    by decide, by decide, by rfl, by decide, by decide, Or.inl ⟨by rfl, rfl⟩⟩

/-- saving succeeds -/
def secretReady (a : App) : Bool :=
  (match a.build plainEnv with
    | .ok b => decide ((toStream b.doc.objs b.doc.rootObjID b.lastID.toNat none).length < 10 ^ 10)
    | _ => false) && decide (a.doc.rootObjID = 1) && a.protection.isNone

set_option maxRecDepth 20000 in
theorem secretReady_eq : secretReady (Run (openedApp (fileOf secretPage)) secretCalls) = true ∧ OnlyObj secretLeft 6 ⟨6, b!"\n<< /Length 11 >>\nstream\n(secret) Tj\nendstream\n"⟩ ∧
    (openedApp (fileOf secretPage)).doc.objs = opened secretPage := by decide +kernel

theorem secretReady_saves {a : App} (h : secretReady a = true) : a.protection = none ∧ a.doc.rootObjID = 1 ∧ ∃ objs last out, Saves plainEnv a objs last out ∧ out.length < 10 ^ 10 := by
  simp only [secretReady, Bool.and_eq_true, decide_eq_true_eq, Option.isNone_iff_eq_none] at h
  refine ⟨h.2, h.1.2, ?_⟩
  have h1 := h.1.1
  split at h1
  · rename_i b hb
    exact ⟨_, _, _, ⟨b, hb, rfl, rfl, saveTo_eq hb⟩, by rw [h.2]; simpa using h1⟩
  · simp at h1

set_option maxRecDepth 20000 in
/-- The hypotheses of `C99_refuted_all` hold for the content of the removed page. -/
example : ∃ a0 objs last out, Opened plainEnv (fileOf secretPage) a0 ∧ (Run a0 secretCalls).protection = none ∧ Saves plainEnv (Run a0 secretCalls) objs last out ∧ out.length < 10 ^ 10 ∧
    SaveDoc plainEnv.unzip (Run a0 secretCalls).doc.objs (Run a0 secretCalls).doc.rootObjID 2 (leftEntries 1) (leftEntries 2) secretPages [⟨3, 4, b!"q 7 Q"⟩] ∧
    OnlyObj (Run a0 secretCalls).doc.objs 6 ⟨6, b!"\n<< /Length 11 >>\nstream\n(secret) Tj\nendstream\n"⟩ ∧
    ∀ g ∈ secretPages, (6 : Int) ≠ g.id ∧ g.resPlace ≠ some 6 ∧ 6 ∉ g.refs b!"Font" := by
  obtain ⟨h1, h2, h3⟩ := secretReady_eq
  obtain ⟨p1, p2, objs, last, out, p3, p4⟩ := secretReady_saves h1
  refine ⟨openedApp (fileOf secretPage), objs, last, out, ⟨step_eta C99_refuted.1, by rw [h3]; decide, by rw [h3]; decide⟩, p1, p3, p4, ?_, h2, by decide +kernel⟩
  rw [p2]
  exact secretLeft_ok

end Verif
