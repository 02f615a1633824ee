import Verif.Theorems.GoSeal
import Verif.Theorems.GoFontSample
import Verif.Lemmas.QuickGuard

namespace Verif
open Spec

/-! ### an example -/

/-- an environment with a digest of 16 bytes -/
def sealEnv : GEnv := { goEnv with md5 := fun x => (x.reverse ++ List.replicate 16 0).take 16 }

def sealedRun (f : Gp → Bool) : Bool := match quickProtection sealEnv.md5 [] 4#64 b!"u" b!"o" with
  | .ok p => f (Gp.start ⟨595, 842⟩ (some p))
  | _ => false

theorem sealedRun_of {f : Gp → Bool} (h : sealedRun f = true) {p : Protection} (hp : setProtection sealEnv.md5 [] 4#64 b!"u" b!"o" = .ok p) : f (Gp.start ⟨595, 842⟩ (some p)) = true := by
  unfold sealedRun at h
  rw [← setProtection_quick, hp] at h
  exact h

/-- object 7 is the descendant of the font with the family `A` -/
def cidCheck (g : Gp) : Bool :=
  (match (g.slots[6]? : Option GSlot) with | some ⟨.cid 0 5, []⟩ => true | _ => false) && (match g.fonts[0]? with | some F => decide (F.family = b!"A") | none => false)

theorem cidCheck_of {g : Gp} (h : cidCheck g = true) : g.slots[6]? = some ⟨.cid 0 5, []⟩ ∧ ∃ F, g.fonts[0]? = some F ∧ F.family = b!"A" := by
  unfold cidCheck at h
  rw [Bool.and_eq_true] at h
  obtain ⟨h1, h2⟩ := h
  split at h1
  · rename_i e
    split at h2
    · rename_i F e'
      exact ⟨e, F, e', of_decide_eq_true h2⟩
    · simp at h2
  · simp at h1

/-- The strings of the descendant font are in the clear. -/
theorem strings_clear {env : GEnv} {z : GRect} {p : Option Protection} {cs : List GCall} {g g' : Gp} {out : Bytes} (hd : GDone env (Gp.start z p) cs g) (h3 : cidCheck g = true)
    (hc : g.compile env = (g', .ok out)) (h2 : out.length < 10 ^ 10) : ∃ bodies trailer body d i, FileHolds out bodies trailer ∧ objAt bodies 7 = some body ∧ DictObject body d ∧
      d.lookup b!"Subtype" = some (.name b!"CIDFontType2") ∧ d.lookup b!"CIDSystemInfo" = some (.dict i) ∧ i.lookup b!"Ordering" = some (.lit b!"Identity") := by
  have hlaid : Laid g.slots := (held_run (done_shield none hd) (start_held env _)).whole.laid
  obtain ⟨bs, b1, _, b3⟩ := compile_holds hc (by intro e; rw [e] at hlaid; simp [Laid] at hlaid) h2
  obtain ⟨e1, F, e2, e3⟩ := cidCheck_of h3
  obtain ⟨h, b, q1, _, q3, q4⟩ := b1.2 6 ⟨.cid 0 5, []⟩ (by
    have hlt := (List.getElem?_eq_some_iff.1 e1).1
    rw [prepare_eq]
    simp only [updSlots_get, List.getElem?_append_left hlt, e1, Option.map_some, updObj])
  have hf : h.fonts[0]? = some F := by rw [q1.fonts, prepare_eq]; exact e2
  simp only [GObj.build, hf] at q3
  obtain ⟨es, _, _, d3⟩ := cidBuild_reads (by rw [e3]; exact named_tiny.1) q3
  exact ⟨_, _, b!"\n" ++ b, _, _, b3, objAt_succ _ _ _ q4, dict_nl d3, rfl, rfl, rfl⟩

/-- one text on one page -/
def sealCalls : List GCall := [.addFont b!"A" tinyFile false 0, .addPage ⟨0, 0⟩, .setFont b!"A" 0 10, .setX 20, .setY 30, .text b!"A"]

/-- the calls are made, the file is short and object 7 is the descendant -/
def sealFine (s : Gp) : Bool :=
  goDone sealEnv s sealCalls && (cidCheck (goRun sealEnv s sealCalls) && goShort ((goRun sealEnv s sealCalls).compile sealEnv).2)

set_option maxRecDepth 20000 in
theorem sealFine_run : sealedRun sealFine = true := by decide +kernel

theorem sealFine_spec {s : Gp} (h : sealFine s = true) : ∃ g g' out, GDone sealEnv s sealCalls g ∧ cidCheck g = true ∧ g.compile sealEnv = (g', .ok out) ∧ out.length < 10 ^ 10 := by
  unfold sealFine at h
  simp only [Bool.and_eq_true] at h
  obtain ⟨h1, h3, h2⟩ := h
  have hd := goDone_of h1
  rcases hc : (goRun sealEnv s sealCalls).compile sealEnv with ⟨g', r⟩
  rw [hc] at h2
  cases r with
  | ok out => exact ⟨_, g', out, hd, h3, hc, of_decide_eq_true h2⟩
  | _ => cases h2

/-- enciphered `Identity` would look otherwise -/
def otherOrder (s : Gp) : Bool := match s.protection with
  | some p => decide (packCip (objKey sealEnv.md5 p.key 7 0) b!"Identity" ≠ .ok b!"Identity")
  | none => false

set_option maxRecDepth 20000 in
theorem otherOrder_run : sealedRun otherOrder = true := by decide +kernel

theorem otherOrder_spec {s : Gp} (h : otherOrder s = true) (p : Protection) (hp : s.protection = some p) : rc4Cip (objKey sealEnv.md5 p.key 7 0) b!"Identity" ≠ .ok b!"Identity" := by
  unfold otherOrder at h
  rw [hp] at h
  rw [rc4Cip_pack]
  exact of_decide_eq_true h

theorem seal_md5 (x : Bytes) : (sealEnv.md5 x).length = 16 := by simp [sealEnv]

set_option maxRecDepth 20000 in
theorem seal_things : thingsFine (thingsOf sealEnv (Gp.start ⟨595, 842⟩ none) sealCalls []) = true := by decide +kernel

/-- The hypotheses of `C92_session_partial` hold. -/
example : ∃ p g g' out, (∀ x, (sealEnv.md5 x).length = 16) ∧ setProtection sealEnv.md5 [] 4#64 b!"u" b!"o" = .ok p ∧ GDone sealEnv (Gp.start ⟨595, 842⟩ (some p)) sealCalls g ∧
    g.compile sealEnv = (g', .ok out) ∧ out.length < 10 ^ 10 ∧ (∀ l b, sealEnv.unzip (sealEnv.zipLevel l b) = some b) ∧
    (∀ s ∈ thingsOf sealEnv (Gp.start ⟨595, 842⟩ none) sealCalls [], s.2 ≠ [] ∧ ∀ w, .text w ∈ s.2 → Legible w) ∧ ∀ a ∈ addedFonts sealCalls, a.style &&& 4 ≠ 4 ∧ GoodName a.family := by
  obtain ⟨p, hp, _⟩ := C35_password_entries_partial seal_md5 [] b!"u" b!"o" (perm := 4#64) (by decide)
  obtain ⟨g, g', out, hd, _, hc, hl⟩ := sealFine_spec (sealedRun_of sealFine_run hp)
  refine ⟨p, g, g', out, seal_md5, hp, hd, hc, hl, fun _ _ => rfl, thingsFine_of seal_things, ?_⟩
  intro a ha
  have : addedFonts sealCalls = [⟨b!"A", tinyFile, false, 0⟩] := rfl
  rw [this, List.mem_singleton] at ha
  subst ha
  exact ⟨by decide, named_tiny.1⟩

/-- **C92** (refuted: strings): in a protected document strings have to be enciphered like streams.  Those in the dictionaries of fonts are not: here a reader finds another ordering than `Identity`. -/
theorem C92_refuted_strings : ∃ p g g' out bodies trailer body d i, setProtection sealEnv.md5 [] 4#64 b!"u" b!"o" = .ok p ∧ GDone sealEnv (Gp.start ⟨595, 842⟩ (some p)) sealCalls g ∧
    g.compile sealEnv = (g', .ok out) ∧ FileHolds out bodies trailer ∧ objAt bodies 7 = some body ∧ DictObject body d ∧ d.lookup b!"Subtype" = some (.name b!"CIDFontType2") ∧
    d.lookup b!"CIDSystemInfo" = some (.dict i) ∧ i.lookup b!"Ordering" = some (.lit b!"Identity") ∧
    rc4Cip (objKey sealEnv.md5 (docKey sealEnv.md5 b!"u" p.oValue p.pValue []) 7 0) b!"Identity" ≠ .ok b!"Identity" := by
  obtain ⟨p, hp, _, c2, _⟩ := C35_password_entries_partial seal_md5 [] b!"u" b!"o" (perm := 4#64) (by decide)
  obtain ⟨g, g', out, hd, h3, hc, hl⟩ := sealFine_spec (sealedRun_of sealFine_run hp)
  obtain ⟨bodies, trailer, body, d, i, k⟩ := strings_clear hd h3 hc hl
  refine ⟨p, g, g', out, bodies, trailer, body, d, i, hp, hd, hc, k.1, k.2.1, k.2.2.1, k.2.2.2.1, k.2.2.2.2.1, k.2.2.2.2.2, ?_⟩
  rw [← c2]
  exact otherOrder_spec (sealedRun_of otherOrder_run hp) p rfl

end Verif
