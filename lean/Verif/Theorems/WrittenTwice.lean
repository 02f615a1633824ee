import Verif.Theorems.GoSession
/-
C86: no document that was made with `GoPdf` can be written twice.
-/
namespace Verif
open Spec

/-- the first object is left alone by the rest of the loop -/
theorem compileLoop_first (env : GEnv) : ∀ (ss : List GSlot) (i : Nat) (g : Gp) (out : Bytes) (offs : List Nat), 0 < i →
    (compileLoop env ss i g out offs).1.slots[0]? = g.slots[0]?
  | [], i, g, out, offs, hi => rfl
  | s :: ss, i, g, out, offs, hi => by
    rw [compileLoop]
    split
    · rw [compileLoop_first env ss (i + 1) _ _ _ (by omega)]
      simp [show i ≠ 0 by omega]
    all_goals rfl

theorem compile_first {env : GEnv} {g g' : Gp} {buf out : Bytes} (h : g.compile env = (g', .ok out)) (h0 : g.slots[0]? = some ⟨.catalog, buf⟩) :
    g'.slots[0]? = some ⟨.catalog, buf ++ b!"<<\n  /Type /Catalog\n  /Pages 2 0 R\n>>\n"⟩ := by
  have hp : g.prepare.slots[0]? = some ⟨.catalog, buf⟩ := by
    rw [prepare_eq]
    simp only
    rw [updSlots_get, List.getElem?_append_left (by
      rw [List.getElem?_eq_some_iff] at h0
      exact h0.1), h0]
    rfl
  unfold Gp.compile at h
  simp only at h
  cases hs : g.prepare.slots with
  | nil => simp [hs] at hp
  | cons s rest =>
    have e : s = ⟨.catalog, buf⟩ := by simpa [hs] using hp
    subst e
    rw [hs, compileLoop] at h
    simp only [GObj.build] at h
    generalize hg : ({ g.prepare with slots := _, countL := _ } : Gp) = q at h
    have hf := compileLoop_first env rest (0 + 1) q (b!"%PDF-1.7\n\n" ++ itoa ((0 : ℕ) + 1) ++ b!" 0 obj\n" ++ (buf ++ b!"<<\n  /Type /Catalog\n  /Pages 2 0 R\n>>\n") ++ b!"endobj\n\n")
      ([] ++ [(b!"%PDF-1.7\n\n").length]) (by omega)
    have hq : q.slots[0]? = some ⟨.catalog, buf ++ b!"<<\n  /Type /Catalog\n  /Pages 2 0 R\n>>\n"⟩ := by
      rw [← hg]
      simp [hs, GObj.built]
    rw [← hq, ← hf]
    split at h
    all_goals
      rename_i heq
      simp only [Prod.mk.injEq, reduceCtorEq, and_false] at h
    obtain ⟨rfl, -⟩ := h
    rw [heq]

theorem run_whole {env : GEnv} {g g' : Gp} {cs : List GCall} (hr : GRun env g cs g') : g.Whole → g'.Whole := by
  induction hr with
  | nil => exact id
  | cons _ _ _ ih => exact fun h => ih (call_whole h _)

/-- **C86** (refuted for every document that is written twice): whatever was put into the document, the second file has the catalog twice in object 1, which is no object of PDF. -/
theorem C86_refuted_twice_all {env : GEnv} {z : GRect} {prot : Option Protection} {cs : List GCall} {g g1 g2 : Gp} {out out' : Bytes} (hr : GRun env (Gp.start z prot) cs g)
    (h1 : g.compile env = (g1, .ok out)) (h2 : g1.compile env = (g2, .ok out')) (hl : out'.length < 10 ^ 10) :
    ∃ bodies trailer body, FileHolds out' bodies trailer ∧ objAt bodies 1 = some body ∧ ∀ v, ¬ ReadsVal body v := by
  have hw : g.Whole := run_whole hr (start_whole z prot).1
  obtain ⟨fs, xs, rest, hs, -⟩ := hw.laid
  have h3 := compile_first h1 (by rw [hs]; rfl)
  obtain ⟨bs, h4, -, h5⟩ := compile_holds h2 (by intro e; simp [e] at h3) hl
  obtain ⟨q, b, -, -, h6, h7⟩ := h4.2 0 ⟨.catalog, b!"<<\n  /Type /Catalog\n  /Pages 2 0 R\n>>\n"⟩ (by
    rw [prepare_eq]
    simp only
    rw [updSlots_get, List.getElem?_append_left (by
      rw [List.getElem?_eq_some_iff] at h3
      exact h3.1), h3]
    rfl)
  simp only [GObj.build, Res.ok.injEq] at h6
  refine ⟨_, _, b!"\n" ++ (b!"<<\n  /Type /Catalog\n  /Pages 2 0 R\n>>\n" ++ b), h5, ?_, ?_⟩
  · simp [objAt, h7]
  · rw [← h6]
    exact not_value (by decide +kernel)

set_option maxRecDepth 20000 in
/-- a page with a line, in a document with a title -/
example : ∃ g g1 g2 out out', GRun goEnv (Gp.start ⟨595, 842⟩ none) [.addPage ⟨200, 300⟩, .line 10 20 30 40, .setInfo { title := b!"A" }] g ∧ g.compile goEnv = (g1, .ok out) ∧
    g1.compile goEnv = (g2, .ok out') ∧ out'.length < 10 ^ 10 := by
  obtain ⟨g, g1, out, h1, h2⟩ := C86_total goEnv ⟨595, 842⟩ (cs := [.addPage ⟨200, 300⟩, .line 10 20 30 40, .setInfo { title := b!"A" }]) (by simp [plainCall, addsFont])
  have hs : goShort ((((goRun goEnv (Gp.start ⟨595, 842⟩ none) [.addPage ⟨200, 300⟩, .line 10 20 30 40, .setInfo { title := b!"A" }]).compile goEnv).1).compile goEnv).2 = true := by
    decide +kernel
  rw [← goRun_run h1, h2] at hs
  rcases h3 : g1.compile goEnv with ⟨g2, r⟩
  rw [h3] at hs
  cases r with
  | ok out' => exact ⟨g, g1, g2, out, out', h1, h2, h3, by simpa [goShort] using hs⟩
  | err e => simp [goShort] at hs
  | panic => simp [goShort] at hs
  | hang => simp [goShort] at hs

end Verif
