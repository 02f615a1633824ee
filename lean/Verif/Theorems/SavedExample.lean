import Verif.Theorems.SavedImg
import Verif.Theorems.Save
/-!
# Documents that meet the hypotheses of the theorems about `Save`
-/
namespace Verif
open Spec

variable {objs : List Obj} {root tree : Int} {ct node : Props} {pages : List FlatPage} {L : List PageC}

/-- the hypotheses of `SaveDoc` that can be computed, without the contents -/
def checkSave (objs : List Obj) (root tree : Int) (ct node : Props) (pages : List FlatPage) (L : List PageC) : Bool :=
  checkFlat b!"Font" objs root tree ct node pages && checkFlat b!"XObject" objs root tree ct node pages && checkFonts objs pages &&
  pages.all (fun g => match g.res with
    | none => true
    | some r => (match valueOf r.entries b!"Font" with
      | none => true
      | some w => match readProperties w with
        | .ok fs => decide (LacksName b!"Pages" fs)
        | _ => true) &&
      (match r.place with
        | none => decide (valueOf g.entries b!"Resources" = some (dictVal r.entries))
        | some _ => true) &&
      (match valueOf r.entries b!"XObject" with
        | none => true
        | some w => match readProperties w with
          | .ok xs => decide (Inline w) && decide (Tidy xs)
          | _ => false)) &&
  (pages.all (fun g => match g.res with
    | none => true
    | some r => r.place.isNone) || pages.all (fun g => match g.res with
    | none => true
    | some r => r.place.isSome)) &&
  (valueOf ct b!"Resources").isNone && (valueOf node b!"Resources").isNone && (valueOf node b!"Pages").isSome && pages.all (fun g => (valueOf g.entries b!"Page").isSome) &&
  decide (L.map (·.page) = pages.map (·.id)) && decide (L.map (·.obj)).Nodup &&
  L.all (fun x => decide (x.obj ∉ root :: tree :: pages.map (·.id)) && pages.all (fun g => decide (g.resPlace ≠ some x.obj ∧ x.obj ∉ g.refs b!"Font" ∧ x.obj ∉ g.refs b!"XObject")))

theorem checkSave_ok {unzip : Bytes → Option Bytes} (h : checkSave objs root tree ct node pages L = true) (hc : ∀ x ∈ L, x.Ok unzip objs) :
    SaveDoc unzip objs root tree ct node pages L := by
  simp only [checkSave, Bool.and_eq_true, decide_eq_true_eq] at h
  obtain ⟨⟨⟨⟨⟨⟨⟨⟨⟨⟨⟨h1, h2⟩, h3⟩, h4⟩, h5⟩, h6⟩, h7⟩, h8⟩, h9⟩, h10⟩, h11⟩, h12⟩ := h
  have h4' : ∀ g ∈ pages, ∀ r, g.res = some r → _ := fun g hg r hr => by
    have := List.all_eq_true.1 h4 g hg
    rw [hr] at this
    simp only [Bool.and_eq_true] at this
    exact this
  refine ⟨checkFlat_ok h1, checkFlat_ok h2, checkFonts_ok h3, ?_, ?_, ?_, ?_, by simpa using h6, by simpa using h7, Option.isSome_iff_exists.1 h8,
    fun g hg => Option.isSome_iff_exists.1 (List.all_eq_true.1 h9 g hg), h10, hc, h11, ?_⟩
  · rintro g hg r hr fs ⟨w, hw, _, _, hf⟩
    obtain ⟨⟨q, _⟩, _⟩ := h4' g hg r hr
    rw [hw] at q
    simp only [hf, decide_eq_true_eq] at q
    exact q
  · intro g hg r hr hp
    obtain ⟨⟨_, q⟩, _⟩ := h4' g hg r hr
    rw [hp] at q
    simpa using q
  · intro g hg r hr w hw
    obtain ⟨_, q⟩ := h4' g hg r hr
    rw [hw] at q
    simp only at q
    split at q
    · rename_i xs hx
      simp only [Bool.and_eq_true, decide_eq_true_eq] at q
      exact Or.inl ⟨q.1, xs, hx, q.2⟩
    · simp at q
  · intro _
    rw [Bool.or_eq_true] at h5
    rcases h5 with h5 | h5
    · left
      intro g hg r hr
      have := List.all_eq_true.1 h5 g hg
      rw [hr] at this
      simpa using this
    · right
      intro g hg r hr
      have := List.all_eq_true.1 h5 g hg
      rw [hr] at this
      simp only at this
      intro e
      rw [e] at this
      simp at this
  · intro x hx
    have := List.all_eq_true.1 h12 x hx
    simp only [Bool.and_eq_true, decide_eq_true_eq, List.all_eq_true] at this
    exact this

/-- two pages with images; the fonts of the second are in an object of their own -/
def imgSample : List Obj := [
  ⟨1, b!"<</Type /Catalog /Pages 2 0 R>>"⟩,
  ⟨2, b!"<</Type /Pages /Count 2 /Kids [3 0 R 5 0 R]>>"⟩,
  ⟨3, b!"<</Type /Page /Parent 2 0 R /MediaBox [0 0 595 842] /Resources <</ProcSet [/PDF] /Font <</F1 8 0 R /G7 8 0 R>> /XObject <</Im1 9 0 R /Fm4 9 0 R>>>> /Contents 4 0 R>>"⟩,
  ⟨4, b!"<</Length 5>>\nstream\nq 7 Q\nendstream"⟩,
  ⟨5, b!"<</Type /Page /Parent 2 0 R /MediaBox [0 0 200 300] /Resources <</XObject <</Im2 9 0 R>> /Font 7 0 R>> /Contents 6 0 R>>"⟩,
  ⟨6, b!"<</Length 5>>\nstream\nq 8 Q\nendstream"⟩,
  ⟨7, b!"<</F3 8 0 R>>"⟩,
  ⟨8, b!"<</Type /Font>>"⟩,
  ⟨9, b!"<</Type /XObject>>"⟩]

/-- two pages without images that share their resources -/
def freeSample : List Obj := [
  ⟨1, b!"<</Type /Catalog /Pages 2 0 R>>"⟩,
  ⟨2, b!"<</Type /Pages /Count 2 /Kids [3 0 R 5 0 R]>>"⟩,
  ⟨3, b!"<</Type /Page /Parent 2 0 R /MediaBox [0 0 595 842] /Resources 7 0 R /Contents 4 0 R>>"⟩,
  ⟨4, b!"<</Length 5>>\nstream\nq 7 Q\nendstream"⟩,
  ⟨5, b!"<</Type /Page /Parent 2 0 R /MediaBox [0 0 200 300] /Resources 7 0 R /Contents 6 0 R>>"⟩,
  ⟨6, b!"<</Length 5>>\nstream\nq 8 Q\nendstream"⟩,
  ⟨7, b!"<</ProcSet [/PDF] /Font <</F2 8 0 R>>>>"⟩,
  ⟨8, b!"<</Type /Font>>"⟩]

/-- the file is opened, a font is added, a text is inserted on page 1 and an image on page 2 -/
def workOn (sample : List Obj) : App :=
  ((((withFont (openedApp (fileOf sample)) b!"A").setFont plainEnv b!"A" [] 10).state.insert plainEnv b!"AB" 1 10 20 30 40 0 none).state.insertImg plainEnv b!"x" 2 5 6 7 8).state

/-- the objects of the opened file -/
def opened (sample : List Obj) : List Obj := sample.map (fun o => ⟨o.objID, b!"\n" ++ o.data ++ b!"\n"⟩)

/-- the entries of an object of the opened file -/
def openEntries (sample : List Obj) (i : Int) : Props := (entriesOf (opened sample) i).getD []

def imgPages : List FlatPage := [
  ⟨3, openEntries imgSample 3, some ⟨none, [⟨b!"ProcSet", b!"[/PDF]"⟩, ⟨b!"Font", b!"<</F1 8 0 R/G7 8 0 R>>"⟩, ⟨b!"XObject", b!"<</Im1 9 0 R/Fm4 9 0 R>>"⟩]⟩⟩,
  ⟨5, openEntries imgSample 5, some ⟨none, [⟨b!"XObject", b!"<</Im2 9 0 R>>"⟩, ⟨b!"Font", b!"7 0 R"⟩]⟩⟩]

def freePages : List FlatPage := [
  ⟨3, openEntries freeSample 3, some ⟨some 7, openEntries freeSample 7⟩⟩,
  ⟨5, openEntries freeSample 5, some ⟨some 7, openEntries freeSample 7⟩⟩]

def twoBodies : List PageC := [⟨3, 4, b!"q 7 Q"⟩, ⟨5, 6, b!"q 8 Q"⟩]

theorem holds_of {objs : List Obj} {page obj : Int} {ps : Props} {v body : Bytes} {data : Bytes} (h1 : entriesOf objs page = some ps) (h2 : valueOf ps b!"Contents" = some v)
    (h3 : RefTo v obj) (h4 : OnlyObj objs obj ⟨obj, data⟩) (h5 : HoldsStream some data body) : PageC.Ok some objs ⟨page, obj, body⟩ :=
  ⟨⟨ps, v, entries_of_entriesOf h1, h2, h3⟩, _, h4, h5⟩

theorem body7 : HoldsStream some b!"\n<</Length 5>>\nstream\nq 7 Q\nendstream\n" b!"q 7 Q" :=
  ⟨⟨_, b!"\n<</Length 5>>\n", b!"\n", b!"q 7 Q", b!"\n", b!"\n", _, 113, by rfl, by rfl, by decide +kernel, by decide, by decide +kernel, by decide +kernel, by decide, by decide,
    by rfl, by decide, by decide, Or.inl ⟨by rfl, rfl⟩⟩⟩

theorem body8 : HoldsStream some b!"\n<</Length 5>>\nstream\nq 8 Q\nendstream\n" b!"q 8 Q" :=
  ⟨⟨_, b!"\n<</Length 5>>\n", b!"\n", b!"q 8 Q", b!"\n", b!"\n", _, 113, by rfl, by rfl, by decide +kernel, by decide, by decide +kernel, by decide +kernel, by decide, by decide,
    by rfl, by decide, by decide, Or.inl ⟨by rfl, rfl⟩⟩⟩

instance (objs : List Obj) (i : Int) (o : Obj) : Decidable (OnlyObj objs i o) := by unfold OnlyObj; infer_instance
instance (v : Bytes) (i : Int) : Decidable (RefTo v i) := by unfold RefTo; infer_instance

theorem bodies_ok {objs : List Obj} {ps qs : Props} (h : entriesOf objs 3 = some ps ∧ valueOf ps b!"Contents" = some b!"4 0 R" ∧ entriesOf objs 5 = some qs ∧ valueOf qs b!"Contents" = some b!"6 0 R" ∧
    OnlyObj objs 4 ⟨4, b!"\n<</Length 5>>\nstream\nq 7 Q\nendstream\n"⟩ ∧ OnlyObj objs 6 ⟨6, b!"\n<</Length 5>>\nstream\nq 8 Q\nendstream\n"⟩) : ∀ x ∈ twoBodies, x.Ok some objs := by
  intro x hx
  simp only [twoBodies, List.mem_cons, List.not_mem_nil, or_false] at hx
  obtain ⟨h1, h2, h3, h4, h5, h6⟩ := h
  rcases hx with rfl | rfl
  · exact ⟨⟨ps, _, entries_of_entriesOf h1, h2, by decide +kernel⟩, _, h5, body7⟩
  · exact ⟨⟨qs, _, entries_of_entriesOf h3, h4, by decide +kernel⟩, _, h6, body8⟩

set_option maxRecDepth 20000 in
theorem imgSample_ok : SaveDoc some (opened imgSample) 1 2 (openEntries imgSample 1) (openEntries imgSample 2) imgPages twoBodies :=
  checkSave_ok (by decide +kernel) (bodies_ok (ps := openEntries imgSample 3) (qs := openEntries imgSample 5) (by decide +kernel))

set_option maxRecDepth 20000 in
theorem freeSample_ok : SaveDoc some (opened freeSample) 1 2 (openEntries freeSample 1) (openEntries freeSample 2) freePages twoBodies :=
  checkSave_ok (by decide +kernel) (bodies_ok (ps := openEntries freeSample 3) (qs := openEntries freeSample 5) (by decide +kernel))

/-- the number of the last object, and what page 1 and 2 know afterwards, if `Save` succeeds -/
def saveResult (a : App) (fonts imgs : List Bytes) : Option (Int × List (Option Int) × List (Option Int)) :=
  match a.build plainEnv with
  | .ok b => some (b.lastID, fonts.flatMap (fun f => [named b.doc.objs 3 b!"Font" f, named b.doc.objs 5 b!"Font" f]),
      imgs.flatMap (fun f => [named b.doc.objs 3 b!"XObject" f, named b.doc.objs 5 b!"XObject" f]))
  | _ => none

theorem build_of {a : App} {fonts imgs : List Bytes} {n : Int} {u v : List (Option Int)} (h : saveResult a fonts imgs = some (n, u, v)) : ∃ b, a.build plainEnv = .ok b ∧ b.lastID = n := by
  unfold saveResult at h
  split at h
  · rename_i b hb
    simp only [Option.some.injEq, Prod.mk.injEq] at h
    exact ⟨b, hb, h.1⟩
  · simp at h

/-- what the theorems ask of the value -/
def Ready (a : App) (sample : List Obj) : Prop :=
  a.doc.objs = opened sample ∧ a.doc.rootObjID = 1 ∧ a.protection = none ∧ a.fontMap = [(b!"A", 0)] ∧ a.fonts.length = 1 ∧ a.contents.length = 3 ∧
    (idsOf (opened sample)).Nodup ∧ ∀ i ∈ idsOf (opened sample), 1 ≤ i

instance (a : App) (sample : List Obj) : Decidable (Ready a sample) := by unfold Ready; infer_instance

theorem Ready.inv {a : App} {sample : List Obj} (h : Ready a sample) : NumInv a := by
  obtain ⟨h1, h2, h3, h4, h5, h6, h7, h8⟩ := h
  exact ⟨by rw [h1]; exact h7, by rw [h1]; exact h8, ⟨by rw [h4]; simp, by rw [h4, h5]; simp⟩⟩

set_option maxRecDepth 20000 in
theorem imgSample_ready : Ready (workOn imgSample) imgSample ∧ saveResult (workOn imgSample) [b!"F1", b!"G7", b!"F3", b!"F8"] [b!"Im1", b!"Fm4", b!"Im2", b!"Im5"] =
    some (16, [some 8, none, some 8, none, none, some 8, some 11, some 11], [some 9, some 9, some 9, some 9, some 9, some 9, some 16, some 16]) := by decide +kernel

set_option maxRecDepth 20000 in
theorem freeSample_ready : Ready (workOn freeSample) freeSample ∧ saveResult (workOn freeSample) [b!"F2", b!"F3"] [b!"I1"] = some (15, [some 8, some 8, some 10, some 10], [some 15, some 15]) := by
  decide +kernel

/-- The hypotheses of the theorems about `Save`, of `C18_saved_partial`, `C19_saved_partial` and `C20_more_partial` hold for the first sample.  The font is
named /F8 and the image /Im5 on both pages. -/
example : ∃ b, (workOn imgSample).build plainEnv = .ok b ∧ b.lastID < 2 ^ 63 ∧ NumInv (workOn imgSample) ∧ (workOn imgSample).protection = none ∧
    SaveDoc plainEnv.unzip (workOn imgSample).doc.objs (workOn imgSample).doc.rootObjID 2 (openEntries imgSample 1) (openEntries imgSample 2) imgPages twoBodies ∧
    ¬ Split imgPages ∧
    ImageList [⟨b!"Im1", b!"9 0 R"⟩, ⟨b!"Fm4", b!"9 0 R"⟩] [(b!"Im", 1), (b!"Fm", 4)] ∧ LastGreatest [(b!"Im", 1), (b!"Fm", 4)] ∧
    readProperties b!"<</Im1 9 0 R/Fm4 9 0 R>>" = .ok [⟨b!"Im1", b!"9 0 R"⟩, ⟨b!"Fm4", b!"9 0 R"⟩] ∧
    ImageList [⟨b!"Im2", b!"9 0 R"⟩] [(b!"Im", 2)] ∧ LastGreatest [(b!"Im", 2)] ∧ readProperties b!"<</Im2 9 0 R>>" = .ok [⟨b!"Im2", b!"9 0 R"⟩] := by
  obtain ⟨h1, h2⟩ := imgSample_ready
  obtain ⟨b, hb, hl⟩ := build_of h2
  refine ⟨b, hb, by rw [hl]; decide, h1.inv, h1.2.2.1, ?_, ?_, ?_, ?_, by decide +kernel, ?_, ?_, by decide +kernel⟩
  · rw [h1.1, h1.2.1]
    exact imgSample_ok
  · rintro ⟨g, hg, r, g', hg', r', e1, e2, e3⟩
    have key : ∀ g ∈ imgPages, ∀ r, g.res = some r → r.place = none := by
      intro g hg r hr
      simp only [imgPages, List.mem_cons, List.not_mem_nil, or_false] at hg
      rcases hg with rfl | rfl <;> (simp only [Option.some.injEq] at hr; subst hr; rfl)
    rw [key g hg r e1, key g' hg' r' e2] at e3
    exact e3 rfl
  · refine ⟨by decide, by unfold Letter; decide, fun p hp => ⟨9, ?_⟩⟩
    simp only [List.mem_cons, List.not_mem_nil, or_false] at hp
    rcases hp with rfl | rfl <;> decide +kernel
  · intro k hk l hl
    simp only [List.getLast?_cons_cons, List.getLast?_singleton, Option.some.injEq] at hl
    subst hl
    simp only [List.mem_cons, List.not_mem_nil, or_false] at hk
    rcases hk with rfl | rfl <;> decide
  · refine ⟨by decide, by unfold Letter; decide, fun p hp => ⟨9, ?_⟩⟩
    simp only [List.mem_cons, List.not_mem_nil, or_false] at hp
    subst hp
    decide +kernel
  · intro k hk l hl
    simp only [List.getLast?_singleton, Option.some.injEq] at hl
    subst hl
    simp only [List.mem_cons, List.not_mem_nil, or_false] at hk
    subst hk
    decide

/-- The hypotheses of the theorems about `Save` and of `C20_first_partial` hold for the second sample.  The font is named /F3 and the image /I1 on both
pages. -/
example : ∃ b, (workOn freeSample).build plainEnv = .ok b ∧ b.lastID < 2 ^ 63 ∧ NumInv (workOn freeSample) ∧ (workOn freeSample).protection = none ∧
    SaveDoc plainEnv.unzip (workOn freeSample).doc.objs (workOn freeSample).doc.rootObjID 2 (openEntries freeSample 1) (openEntries freeSample 2) freePages twoBodies ∧
    ∀ g ∈ freePages, ∀ rs, resDict (workOn freeSample).doc.objs g.id = some rs → valueOf rs b!"XObject" = none := by
  obtain ⟨h1, h2⟩ := freeSample_ready
  obtain ⟨b, hb, hl⟩ := build_of h2
  refine ⟨b, hb, by rw [hl]; decide, h1.inv, h1.2.2.1, ?_, ?_⟩
  · rw [h1.1, h1.2.1]
    exact freeSample_ok
  · rw [h1.1]
    intro g hg rs hrs
    simp only [freePages, List.mem_cons, List.not_mem_nil, or_false] at hg
    rcases hg with rfl | rfl
    · have : (resDict (opened freeSample) 3).all (fun rs => decide (valueOf rs b!"XObject" = none)) = true := by decide +kernel
      rw [hrs] at this
      simpa using this
    · have : (resDict (opened freeSample) 5).all (fun rs => decide (valueOf rs b!"XObject" = none)) = true := by decide +kernel
      rw [hrs] at this
      simpa using this

end Verif
