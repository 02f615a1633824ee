import Verif.Theorems.SavedExample
import Verif.Theorems.Held
/-
C97: insertions that are lost, and C98: contents in other filters.
-/
namespace Verif
open Spec

theorem contentReplaces_congr {unzip : Bytes → Option Bytes} {objs : List Obj} {f g : Nat → Option Bytes} :
    ∀ {ids : List Int} {k : Nat} {m : List (Int × Bytes)}, (∀ j, k < j → j ≤ k + ids.length → f j = g j) → contentReplaces unzip objs f k ids m = contentReplaces unzip objs g k ids m
  | [], _, _, _ => rfl
  | id :: ids, k, m, h => by
    rw [contentReplaces, contentReplaces]
    have h1 : f (k + 1) = g (k + 1) := h _ (by omega) (by simp)
    have h2 : ∀ m, contentReplaces unzip objs f (k + 1) ids m = contentReplaces unzip objs g (k + 1) ids m := fun m =>
      contentReplaces_congr (fun j hj hl => h j (by omega) (by simp only [List.length_cons]; omega))
    simp only [h1, h2]

/-- **C97 is violated** by every insertion on a page the document does not have: saving is the same as without it, and does not fail because of it. -/
theorem C97_refuted_outside {unzip : Bytes → Option Bytes} {d : Doc} {ids : List Int} (hids : getPageObjIDs d = .ok ids) (pre post : List (Int × Bytes)) {page : Int} (s : Bytes)
    (hp : page < 1 ∨ (ids.length : Int) < page) : injectContent unzip d (pre ++ (page, s) :: post) = injectContent unzip d (pre ++ post) := by
  unfold injectContent
  simp only [hids, Res.ok_bind]
  rw [contentReplaces_congr (fun j h1 h2 => ?_)]
  unfold pageBuff
  have hj : ¬ page = (j : Int) := by omega
  simp only [List.filter_append, List.filter_cons, decide_eq_true_eq, hj, if_false]

/-- inserting an image on a page that does not exist is no error, whatever the document -/
theorem C97_refuted_accepted (env : Env) (a : App) (file : Bytes) (page : Int) (x y w h : ℚ) (hp : page < 1) {a' : App} {i : ImageData} (hm : a.makeImg env file = .ok (a', i)) :
    (a.insertImg env file page x y w h).res = .ok () := by
  unfold App.insertImg
  rw [hm]
  simp only [App.addImgContent, pageHeight]
  rw [if_neg (by omega)]

/-- inserting an image on page `n` -/
def imgAt (a : App) (n : Int) : App := (a.insertImg plainEnv b!"x" n 0 0 1 1).state

/-- two pages; the second one has no content -/
def bareSecond : List Obj := [
  ⟨1, b!"<< /Type /Catalog /Pages 2 0 R >>"⟩,
  ⟨2, b!"<< /Type /Pages /Count 2 /Kids [ 3 0 R 5 0 R ] >>"⟩,
  ⟨3, b!"<< /Type /Page /Parent 2 0 R /MediaBox [0 0 595 842] /Resources 6 0 R /Contents 4 0 R >>"⟩,
  ⟨4, b!"<< /Length 3 >>\nstream\n0 g\nendstream"⟩,
  ⟨5, b!"<< /Type /Page /Parent 2 0 R /MediaBox [0 0 595 842] /Resources 6 0 R >>"⟩,
  ⟨6, b!"<< /Font << /F1 7 0 R >> >>"⟩,
  ⟨7, b!"<< /Type /Font >>"⟩]

/-- two pages that have the same content -/
def sameContent : List Obj := [
  ⟨1, b!"<< /Type /Catalog /Pages 2 0 R >>"⟩,
  ⟨2, b!"<< /Type /Pages /Count 2 /Kids [ 3 0 R 5 0 R ] >>"⟩,
  ⟨3, b!"<< /Type /Page /Parent 2 0 R /MediaBox [0 0 595 842] /Resources 6 0 R /Contents 4 0 R >>"⟩,
  ⟨4, b!"<< /Length 3 >>\nstream\n0 g\nendstream"⟩,
  ⟨5, b!"<< /Type /Page /Parent 2 0 R /MediaBox [0 0 595 842] /Resources 6 0 R /Contents 4 0 R >>"⟩,
  ⟨6, b!"<< /Font << /F1 7 0 R >> >>"⟩,
  ⟨7, b!"<< /Type /Font >>"⟩]

set_option maxRecDepth 20000 in
/-- **C97 is violated** by a page without content: the insertion succeeds, saving succeeds, and no object draws the image. -/
theorem C97_refuted_bare : (App.openFrom plainEnv {} (fileOf bareSecond)).res = .ok () ∧ ((openedApp (fileOf bareSecond)).insertImg plainEnv b!"x" 2 0 0 1 1).res = .ok () ∧
    (savedObjs plainEnv (imgAt (openedApp (fileOf bareSecond)) 2)).map (·.objID) = [1, 2, 3, 4, 5, 6, 7, 8] ∧
    (∀ o ∈ savedObjs plainEnv (imgAt (openedApp (fileOf bareSecond)) 2), contains b!" Do" o.data = false) ∧
    (∃ o ∈ savedObjs plainEnv (imgAt (openedApp (fileOf bareSecond)) 1), contains b!" Do" o.data = true) := by
  decide +kernel

set_option maxRecDepth 20000 in
/-- The hypotheses of `C97_refuted_outside` and `C97_refuted_accepted` hold. -/
example : getPageObjIDs (openedApp (fileOf bareSecond)).doc = .ok [3, 5] ∧ ∃ a' i, (openedApp (fileOf bareSecond)).makeImg plainEnv b!"x" = .ok (a', i) :=
  ⟨by decide +kernel, _, _, rfl⟩

set_option maxRecDepth 20000 in
/-- **C97 is violated** by pages with the same content: of two insertions the one on page 2 is on both pages, the one on page 1 is lost. -/
theorem C97_refuted_shared : (App.openFrom plainEnv {} (fileOf sameContent)).res = .ok () ∧
    (getObj (savedObjs plainEnv (imgAt (imgAt (openedApp (fileOf sameContent)) 1) 2)) 4).map (·.data) =
      some b!"<<\n/Length 44\n>>\nstream\n0 g\nq 1.00 0 0 1.00 0.00 841.00 cm /I2 Do Q\nendstream" := by
  decide +kernel

/-- a content written in hexadecimal digits -/
def hexContent : List Obj := [
  ⟨1, b!"<< /Type /Catalog /Pages 2 0 R >>"⟩,
  ⟨2, b!"<< /Type /Pages /Count 1 /Kids [ 3 0 R ] >>"⟩,
  ⟨3, b!"<< /Type /Page /Parent 2 0 R /MediaBox [0 0 595 842] /Resources 6 0 R /Contents 4 0 R >>"⟩,
  ⟨4, b!"<< /Length 7 /Filter /ASCIIHexDecode >>\nstream\n302067>\nendstream"⟩,
  ⟨6, b!"<< /Font << /F1 7 0 R >> >>"⟩,
  ⟨7, b!"<< /Type /Font >>"⟩]

/-- **C98 is violated** by every page that is drawn on and whose content has another filter than /FlateDecode: the bytes stay as they were, and the dictionary no longer names a filter. -/
theorem C98_refuted_all {env : Env} {a : App} {b : Built} {tree : Int} {ct node : Props} {pages : List FlatPage} {L : List PageC} (hinv : NumInv a) (hp : a.protection = none)
    (hb : a.build env = .ok b) (h : SaveDoc env.unzip a.doc.objs a.doc.rootObjID tree ct node pages L) {i : Nat} {x : PageC} (hx : L[i]? = some x) {o : Obj}
    (ho : OnlyObj a.doc.objs x.obj o) {ps : Props} (hps : readProperties o.data = .ok ps) {f : Bytes} (_ : valueOf ps b!"Filter" = some f) (hn : valueOf ps b!"FlateDecode" = none)
    (hd : ∃ c ∈ a.contents, pageOf c = (i : Int) + 1) :
    ∃ head sp raw mid drawn o', o.data = head ++ b!"stream" ++ sp ++ raw ++ mid ∧ OnlyObj b.doc.objs x.obj o' ∧ StreamObject o'.data (raw ++ b!"\n" ++ drawn) := by
  obtain ⟨streams, h1, h2⟩ := C15_saved_partial hinv hp hb h
  have h3 := (h2 i x hx).2
  have hne : drawnOn streams (i + 1) ≠ [] := by
    obtain ⟨c, hc, hcp⟩ := hd
    obtain ⟨s, hs, hcs⟩ := forall₂_mem h1.flip hc
    intro h0
    have : s.2 ∈ drawnOn streams (i + 1) := by
      unfold drawnOn
      refine List.mem_map.2 ⟨s, List.mem_filter.2 ⟨hs, ?_⟩, rfl⟩
      simp [hcs.2, hcp]
    rw [h0] at this
    simp at this
  rw [if_neg hne] at h3
  obtain ⟨o', h4, h5⟩ := h3
  obtain ⟨_, o1, ho1, hst⟩ := h.contentsOk x (List.mem_of_getElem? hx)
  obtain rfl : o1 = o := by
    have := Eq.trans (Eq.symm ho1) ho
    simpa using this
  obtain ⟨ps', head, sp, raw, mid, sp2, v, c, e1, _, _, _, e5, _, _, _, _, _, _, e12⟩ := hst.parts
  rw [hps] at e1
  obtain rfl := Res.ok.inj e1
  rcases e12 with ⟨_, hbody⟩ | ⟨⟨w, hw⟩, _⟩
  · exact ⟨head, sp, raw, mid ++ b!"endstream" ++ sp2, _, o', by rw [e5]; simp, h4, by rw [← hbody]; exact h5⟩
  · rw [hn] at hw
    simp at hw

set_option maxRecDepth 20000 in
/-- **C98 is violated** by opening a file with a content in hexadecimal digits and saving it: the digits are the content now. -/
theorem C98_refuted : (App.openFrom plainEnv {} (fileOf hexContent)).res = .ok () ∧
    (getObj (savedObjs plainEnv (openedApp (fileOf hexContent))) 4).map (·.data) =
      some b!"<<\n/Length 22\n>>\nstream\n302067>\n[] 0 d\n0.00 w\nendstream" := by
  decide +kernel

def hexPages : List FlatPage := [⟨3, openEntries hexContent 3, some ⟨some 6, openEntries hexContent 6⟩⟩]

set_option maxRecDepth 20000 in
theorem hexContent_ok : SaveDoc some (opened hexContent) 1 2 (openEntries hexContent 1) (openEntries hexContent 2) hexPages [⟨3, 4, b!"302067>"⟩] := by
  refine checkSave_ok (by decide +kernel) ?_
  intro x hx
  rw [List.mem_singleton] at hx
  subst hx
  refine ⟨⟨openEntries hexContent 3, b!"4 0 R", entries_of_entriesOf (by decide +kernel), by decide +kernel, by decide +kernel⟩,
    ⟨4, b!"\n<< /Length 7 /Filter /ASCIIHexDecode >>\nstream\n302067>\nendstream\n"⟩, by decide +kernel, ⟨?_⟩⟩
  exact ⟨_, b!"\n<< /Length 7 /Filter /ASCIIHexDecode >>\n", b!"\n", b!"302067>", b!"\n", b!"\n", _, 51, by rfl, by rfl, by decide +kernel, by decide, by decide +kernel, by decide +kernel,
    by decide, by decide, by rfl, by decide, by decide, Or.inl ⟨by rfl, rfl⟩⟩

/-- saving succeeds, and something is drawn on page 1 -/
def hexReady (a : App) : Bool :=
  (match a.build plainEnv with
    | .ok _ => true
    | _ => false) && decide (a.doc.objs = opened hexContent) && decide (a.doc.rootObjID = 1) && a.protection.isNone && a.contents.any (fun c => decide (pageOf c = 1))

set_option maxRecDepth 20000 in
theorem hexReady_eq : hexReady (openedApp (fileOf hexContent)) = true := by decide +kernel

theorem step_eta {s : Step App} (h : s.res = .ok ()) : s = ⟨s.state, .ok ()⟩ := by
  cases s
  simp only at h
  rw [h]

/-- The hypotheses of `C98_refuted_all` hold. -/
example : ∃ a b o ps f, NumInv a ∧ a.protection = none ∧ a.build plainEnv = .ok b ∧
    SaveDoc plainEnv.unzip a.doc.objs a.doc.rootObjID 2 (openEntries hexContent 1) (openEntries hexContent 2) hexPages [⟨3, 4, b!"302067>"⟩] ∧ OnlyObj a.doc.objs 4 o ∧
    readProperties o.data = .ok ps ∧ valueOf ps b!"Filter" = some f ∧ valueOf ps b!"FlateDecode" = none ∧ ∃ c ∈ a.contents, pageOf c = ((0 : Nat) : Int) + 1 := by
  obtain ⟨a, ha⟩ : ∃ a, a = openedApp (fileOf hexContent) := ⟨_, rfl⟩
  have h := hexReady_eq
  have hres := C98_refuted.1
  have hopen : App.openFrom plainEnv {} (fileOf hexContent) = ⟨a, .ok ()⟩ := by rw [ha]; exact step_eta hres
  rw [← ha] at h
  simp only [hexReady, Bool.and_eq_true, decide_eq_true_eq, Option.isNone_iff_eq_none, List.any_eq_true] at h
  obtain ⟨⟨⟨⟨h1, h2⟩, h3⟩, h4⟩, c, h5, h6⟩ := h
  have hinv : NumInv a := Spec.Opened.inv (env := plainEnv) ⟨hopen, by rw [h2]; decide, by rw [h2]; decide⟩
  split at h1
  · rename_i b hb
    refine ⟨a, b, ⟨4, b!"\n<< /Length 7 /Filter /ASCIIHexDecode >>\nstream\n302067>\nendstream\n"⟩, _, _, hinv, h4, hb, ?_, ?_, by rfl, by rfl, by rfl, c, h5, by rw [h6]; rfl⟩
    · rw [h2, h3]
      exact hexContent_ok
    · rw [h2]
      decide +kernel
  · simp at h1

end Verif
