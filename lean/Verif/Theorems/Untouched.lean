import Verif.Theorems.SavedExample
import Verif.Theorems.Session
/-
C15: the first page of every document that is opened and saved.
-/
namespace Verif
open Spec

variable {env env' : Env} {tree : Int} {ct node : Props} {pages : List FlatPage} {L : List PageC}

/-- **C15** (violated for every document with a flat page tree whose pages have content objects of their own): if the document is only opened and saved, the content of its first page is another one
afterwards: the width and the style of lines are set at its end.  The contents of all other pages are as before. -/
theorem C15_refuted_all {raw : Bytes} {a : App} {b : Built} (ho : App.openFrom env' {} raw = ⟨a, .ok ()⟩) (hinv : NumInv a) (hb : a.build env = .ok b)
    (h : SaveDoc env.unzip a.doc.objs a.doc.rootObjID tree ct node pages L) :
    (∀ x, L[0]? = some x → ∃ o, OnlyObj b.doc.objs x.obj o ∧ StreamObject o.data (x.body ++ b!"\n[] 0 d\n0.00 w\n")) ∧
      ∀ i x, L[i + 1]? = some x → ∀ o, OnlyObj a.doc.objs x.obj o → OnlyObj b.doc.objs x.obj o := by
  obtain ⟨a', e, _, _, hc, _, _, hp, _⟩ := C44_refuted_kept (env := env') (a := {}) (raw := raw) (by rw [ho])
  rw [ho] at e
  cases e
  obtain ⟨streams, h1, h2⟩ := C15_saved_partial hinv hp hb h
  rw [hc] at h1
  have hs : streams = [(1, b!"[] 0 d\n0.00 w\n")] := by
    cases h1 with
    | cons q1 q2 =>
      cases q2
      obtain ⟨q, _⟩ := q1
      simp only [Content.stream, Res.ok.injEq] at q
      rw [← q]
      exact congrArg (fun s => [((1 : Int), s)]) (by decide +kernel)
  subst hs
  constructor
  · intro x hx
    have := (h2 0 x hx).2
    rw [if_neg (by decide)] at this
    obtain ⟨o, o1, o2⟩ := this
    exact ⟨o, o1, by simpa [drawnOn] using o2⟩
  · intro i x hx
    have := (h2 (i + 1) x hx).2
    rw [if_pos (by simp [drawnOn]; omega)] at this
    exact this

/-- a file as it is opened, which can be saved -/
def JustOpened (a : App) (sample : List Obj) : Prop :=
  a.doc.objs = opened sample ∧ a.doc.rootObjID = 1 ∧ a.fontMap = [] ∧ (idsOf (opened sample)).Nodup ∧ (∀ i ∈ idsOf (opened sample), 1 ≤ i) ∧ (saveResult a [] []).isSome = true

instance (a : App) (sample : List Obj) : Decidable (JustOpened a sample) := by unfold JustOpened; infer_instance

theorem step_ok {s : Step App} (h : s.res = .ok ()) : s = ⟨s.state, .ok ()⟩ := by rw [← h]

set_option maxRecDepth 20000 in
theorem imgSample_opened : (App.openFrom plainEnv {} (fileOf imgSample)).res = .ok () ∧ JustOpened (openedApp (fileOf imgSample)) imgSample := by decide +kernel

example : ∃ a b, App.openFrom plainEnv {} (fileOf imgSample) = ⟨a, .ok ()⟩ ∧ NumInv a ∧ a.build plainEnv = .ok b ∧
    SaveDoc plainEnv.unzip a.doc.objs a.doc.rootObjID 2 (openEntries imgSample 1) (openEntries imgSample 2) imgPages twoBodies := by
  obtain ⟨h0, h1, h2, h3, h4, h5, h6⟩ := imgSample_opened
  obtain ⟨⟨n, u, v⟩, hr⟩ := Option.isSome_iff_exists.1 h6
  obtain ⟨b, hb, _⟩ := build_of hr
  refine ⟨openedApp (fileOf imgSample), b, ?_, ⟨by rw [h1]; exact h4, by rw [h1]; exact h5, ⟨by rw [h3]; simp, by rw [h3]; simp⟩⟩, hb, ?_⟩
  · exact step_ok h0
  · rw [h1, h2]
    exact imgSample_ok

end Verif
