import Verif.Theorems.GoSealSample
/-
C92: the strings in the dictionaries of fonts of every protected document.
-/
namespace Verif
open Spec

/-- **C92** (violated in every protected document with a font): strings have to be enciphered like streams.  For every font that is added, with whatever passwords and permissions, the
dictionary of its descendant in the file has the strings `Adobe` and `Identity` in the clear, so that a reader who deciphers them finds others. -/
theorem C92_refuted_strings_all {env : GEnv} {z : GRect} {p : Protection} {cs : List GCall} {g g' : Gp} {out : Bytes} (hd : GDone env (Gp.start z (some p)) cs g)
    (hc : g.compile env = (g', .ok out)) (hl : out.length < 10 ^ 10) (hu : ∀ a ∈ addedFonts cs, a.style &&& 4 ≠ 4) {a : Added} (ha : a ∈ addedFonts cs) (hn : GoodName a.family) :
    ∃ bodies trailer n body d i, FileHolds out bodies trailer ∧ objAt bodies n = some body ∧ DictObject body d ∧ d.lookup b!"Subtype" = some (.name b!"CIDFontType2") ∧
      d.lookup b!"BaseFont" = some (.name (subsetName a.family)) ∧ d.lookup b!"CIDSystemInfo" = some (.dict i) ∧ i.lookup b!"Registry" = some (.lit b!"Adobe") ∧ i.lookup b!"Ordering" = some (.lit b!"Identity") := by
  have hr0 : GDone env (Gp.start z none) cs (g.shield none) := done_shield none hd
  have hlaid : Laid g.slots := (held_run hr0 (start_held env _)).whole.laid
  obtain ⟨hkept, _⟩ := furnished_run hr0 (ds := []) (l := []) (start_whole z none).1 (start_stocked env z) (by intro s hs; simp at hs) hu
  rw [List.nil_append] at hkept
  obtain ⟨bs, b1, _, b3⟩ := compile_holds hc (by intro e; rw [e] at hlaid; simp [Laid] at hlaid) hl
  obtain ⟨F, hF, _, f2, _⟩ := forall2_right hkept.fonts ha
  obtain ⟨j, hj⟩ := List.mem_iff_getElem?.1 hF
  obtain ⟨_, _, _, _, _, e1, _⟩ := hkept.slots j F hj
  have e1 : g.slots[F.unicode + 3]? = some ⟨.cid j (F.unicode + 2), []⟩ := e1
  obtain ⟨h, b, q1, _, q3, q4⟩ := b1.2 (F.unicode + 3) ⟨.cid j (F.unicode + 2), []⟩ (by
    have hlt := (List.getElem?_eq_some_iff.1 e1).1
    rw [prepare_eq]
    simp only [updSlots_get, List.getElem?_append_left hlt, e1, Option.map_some, updObj])
  have hf : h.fonts[j]? = some F := by rw [q1.fonts, prepare_eq]; exact hj
  simp only [GObj.build, hf] at q3
  obtain ⟨es, _, _, d3⟩ := cidBuild_reads (by rw [f2]; exact hn) q3
  refine ⟨_, _, _, b!"\n" ++ b, _, _, b3, objAt_succ _ _ _ q4, dict_nl d3, rfl, ?_, rfl, rfl, rfl⟩
  rw [← f2]
  rfl

/-- a document with a font, in which the enciphered string would look otherwise -/
example : ∃ p g g' out, setProtection sealEnv.md5 [] 4#64 b!"u" b!"o" = .ok p ∧ GDone sealEnv (Gp.start ⟨595, 842⟩ (some p)) sealCalls g ∧ g.compile sealEnv = (g', .ok out) ∧ out.length < 10 ^ 10 ∧
    (∀ a ∈ addedFonts sealCalls, a.style &&& 4 ≠ 4 ∧ GoodName a.family) ∧ ⟨b!"A", tinyFile, false, 0⟩ ∈ addedFonts sealCalls ∧
    rc4Cip (objKey sealEnv.md5 p.key 7 0) b!"Identity" ≠ .ok b!"Identity" := by
  obtain ⟨p, hp, _⟩ := C35_password_entries_partial seal_md5 [] b!"u" b!"o" (perm := 4#64) (by decide)
  obtain ⟨g, g', out, hd, _, hc, hl⟩ := sealFine_spec (sealedRun_of sealFine_run hp)
  have : addedFonts sealCalls = [⟨b!"A", tinyFile, false, 0⟩] := rfl
  refine ⟨p, g, g', out, hp, hd, hc, hl, ?_, by rw [this]; simp, otherOrder_spec (sealedRun_of otherOrder_run hp) p rfl⟩
  intro a ha
  rw [this, List.mem_singleton] at ha
  subst ha
  exact ⟨by decide, named_tiny.1⟩

end Verif
