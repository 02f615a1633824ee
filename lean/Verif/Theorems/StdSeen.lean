import Verif.Theorems.StdSeal
import Verif.Theorems.PaintPage
import Verif.Theorems.FontSample
/-
C94: what is seen on the pages of the file that comes out.
-/
namespace Verif
open Spec

/-- Page `p` of the written objects: its entries are those of `v` with other fonts and images.  If nothing is asked for, its content is that of `v`; otherwise a viewer that, having read the content
of `v` and a line end, is between two operators, paints the same and then all that is asked for, in this order. -/
def Spec.PageSeen (unzip : Bytes → Option Bytes) (objs : List Obj) (fonts imgs : List (Bytes × Val)) (fs : List FontData) (is : List ImageData) (asked : List Content)
    (v : List (Bytes × Val) × Bytes) (p : Int) : Prop :=
  ∃ d' c o, StdDict objs p d' ∧ StdPage d' ∧ d'.lookup b!"Contents" = some (.ref c) ∧ DictSaved (FontVal fonts) (ImgVal imgs) v.1 (setVal b!"Contents" (.ref 0) d') ∧ OnlyObj objs c o ∧
    if asked = [] then HoldsStream unzip o.data v.2
    else ∃ body, StreamObject o.data body ∧ ∀ adv own q, Paints adv {} (v.2 ++ b!"\n") own q → Idle q →
      ∃ ms q', Paints adv {} body (own ++ ms) q' ∧ Idle q' ∧ q'.saved = q.saved ∧ AllAsked fs is asked q.g q'.g ms

theorem page_seen {unzip : Bytes → Option Bytes} {objs : List Obj} {fonts imgs : List (Bytes × Val)} {fs : List FontData} {is : List ImageData} {cs : List Content} {ss : List (Int × Bytes)}
    (h : List.Forall₂ (fun c s => c.stream fs is = .ok s ∧ s.1 = pageOf c) cs ss) (ht : ∀ t, .text t ∈ cs → Drawable fs t) (hi : ∀ i ∈ is, ∀ d ∈ i.xObjChar, regular d = true)
    {k : Nat} {v : List (Bytes × Val) × Bytes} {p : Int} (hp : PageSaved unzip objs fonts imgs (drawnOn ss k) v p) : PageSeen unzip objs fonts imgs fs is (askedOn cs k) v p := by
  obtain ⟨d', c, o, h1, h2, h3, h4, h5, h6⟩ := hp
  refine ⟨d', c, o, h1, h2, h3, h4, h5, ?_⟩
  have h7 := askedOn_streams (k := k) h
  by_cases hk : askedOn cs k = []
  · rw [if_pos hk]
    rw [hk] at h7
    have : drawnOn ss k = [] := by
      unfold drawnOn
      rw [List.forall₂_nil_left_iff.1 h7]
      rfl
    rw [if_pos this] at h6
    exact h6
  · rw [if_neg hk]
    have hne : drawnOn ss k ≠ [] := by
      intro e
      unfold drawnOn at e
      rw [List.map_eq_nil_iff] at e
      rw [e] at h7
      exact hk (List.forall₂_nil_right_iff.1 h7)
    rw [if_neg hne] at h6
    refine ⟨_, h6, fun adv own q hq hidle => ?_⟩
    obtain ⟨ms, q', g1, g2, g3, g4⟩ := contents_paint adv hi hidle h7 (fun t e => ht t (List.mem_of_mem_filter e))
    exact ⟨ms, q', Paints.append hq g1, g2, g3, g4⟩

/-- **C94** (partial) From file to file: what is seen.  A file whose objects form a linked document with the pages `views` is opened and saved after any calls.  On each page of the saved file a viewer
paints what the page painted before, followed by the texts and images inserted on it, in the order of the calls, each where it was asked to be in the coordinates the page's own content leaves; fonts and
images are found under the names used.
Missing: what is missing in `C84_run_partial` and `C70_page_partial` (other than the form of the page tree). -/
theorem C94_run_partial {env env' : Env} (hf : ReadsNums (fun s => (env.parseFloat s).isSome)) {raw : Bytes} {t : List (Bytes × Val)} {l : List (Nat × Entry)} {os : List Obj}
    (h : StdFile raw t l os) {root : Nat} (hr : EntryIs t b!"Root" (.ref root)) (hnd : (os.map Obj.objID).Nodup) (hpos : ∀ o ∈ os, 1 ≤ o.objID)
    {views : List (List (Bytes × Val) × Bytes)} (hv : Shown env'.unzip ⟨root, tableOf l, os, []⟩ views)
    (hb : ∀ v ∈ views, ∃ box : List ℚ, EntryIs v.1 b!"MediaBox" (.arr (box.map .num))) (calls : List (Env × Call)) (hs : ∀ c ∈ calls, c.2 ≠ .save)
    (hmax : maxID os + 2 * calls.length < 2 ^ 63) (hne : calls.foldl (fun l c => c.2.edit l) views ≠ []) :
    ∃ a0, App.openFrom env {} raw = ⟨a0, .ok ()⟩ ∧ ∀ {objs last out}, (Run a0 calls).protection = none → Saves env' (Run a0 calls) objs last out → out.length < 10 ^ 10 →
      ∀ {b}, (Run a0 calls).build env' = .ok b → (∀ t, .text t ∈ (Run a0 calls).contents → Drawable b.app.fonts t) → (∀ i ∈ b.app.imgs, ∀ d ∈ i.xObjChar, regular d = true) →
      FileOf out root objs ∧ ∃ tree fonts imgs, StdDoc ⟨root, [], objs, []⟩ tree ∧
        (∀ x ∈ (Run a0 calls).fontMap, ∃ f, b.app.fonts[x.2]? = some f ∧ (b!"F" ++ itoa f.fontIndex, Val.ref f.fontID) ∈ fonts ∧ ∀ o ∈ f.objs, OnlyObj objs o.objID o) ∧
        (∀ i ∈ b.app.imgs, (i.xObjChar ++ itoa i.xObjIndex, Val.ref i.objID) ∈ imgs ∧ OnlyObj objs i.objID ⟨i.objID, i.buf⟩) ∧
        List.Forall₂ (fun v p => PageSeen env'.unzip objs fonts imgs b.app.fonts b.app.imgs (askedOn (Run a0 calls).contents (v.2 + 1)) v.1 p)
          (calls.foldl (fun l c => c.2.edit l) views).zipIdx tree.pages := by
  obtain ⟨a0, e0, hk⟩ := C84_run_partial hf h hr hnd hpos hv hb calls hs hmax hne
  refine ⟨a0, e0, fun {objs last out} hp hsave hlen b hb ht hi => ?_⟩
  obtain ⟨h1, b', tree, fonts, imgs, streams, h2, h3, h4, h5, h6, h7, h8⟩ := hk hp hsave hlen
  rw [hb, Res.ok.injEq] at h2
  subst h2
  refine ⟨h1, tree, fonts, imgs, h3, h5, h6, List.forall₂_iff_get.2 ⟨by simp [h4], fun i hi1 hi2 => ?_⟩⟩
  have hi3 : i < (calls.foldl (fun l c => c.2.edit l) views).length := by simpa using hi1
  obtain ⟨p, p1, p2⟩ := h8 i _ (List.getElem?_eq_getElem hi3)
  have := page_seen h7 ht hi p2
  rw [List.getElem?_eq_some_iff] at p1
  obtain ⟨q1, q2⟩ := p1
  simpa [← q2] using this

/-- **C94** (partial, with protection) The same for a protected file, once its streams are deciphered with the password. -/
theorem C94_protected_partial {env env' : Env} (hf : ReadsNums (fun s => (env.parseFloat s).isSome)) {raw : Bytes} {t : List (Bytes × Val)} {l : List (Nat × Entry)} {os : List Obj}
    (h : StdFile raw t l os) {root : Nat} (hr : EntryIs t b!"Root" (.ref root)) (hnd : (os.map Obj.objID).Nodup) (hpos : ∀ o ∈ os, 1 ≤ o.objID)
    {views : List (List (Bytes × Val) × Bytes)} (hv : Shown env'.unzip ⟨root, tableOf l, os, []⟩ views)
    (hb : ∀ v ∈ views, ∃ box : List ℚ, EntryIs v.1 b!"MediaBox" (.arr (box.map .num))) (calls : List (Env × Call)) (hs : ∀ c ∈ calls, c.2 ≠ .save)
    (hmax : maxID os + 2 * calls.length < 2 ^ 63) (hne : calls.foldl (fun l c => c.2.edit l) views ≠ []) (hmd5 : ∀ x, (env'.md5 x).length = 16)
    (hm : ∀ c ∈ calls, c.1.md5 = env'.md5 ∧ ∀ x, c.2.guard = some x → x.2.1.toNat < 256) {random user owner : Bytes} {perm : BitVec 64} (hg : lastGuard calls = some (random, perm, user, owner)) :
    ∃ a0, App.openFrom env {} raw = ⟨a0, .ok ()⟩ ∧ ∀ {objs last out}, Saves env' (Run a0 calls) objs last out → out.length < 10 ^ 10 →
      ∃ encd plain body o u p, objs = encd ++ [⟨last, body⟩] ∧ GuardedFile out root last objs ∧ GuardIs body o u p ∧
        rc4Cip (docKey env'.md5 user o p []) u = .ok (padPassword []) ∧ List.Forall₂ (Protected rc4Cip env'.md5 (docKey env'.md5 user o p [])) plain encd ∧
        ∃ b, (Run a0 calls).unprotected.build env' = .ok b ∧
          ((∀ t, .text t ∈ (Run a0 calls).contents → Drawable b.app.fonts t) → (∀ i ∈ b.app.imgs, ∀ d ∈ i.xObjChar, regular d = true) →
          ∃ tree fonts imgs, StdDoc ⟨root, [], plain, []⟩ tree ∧
            (∀ x ∈ (Run a0 calls).fontMap, ∃ f, b.app.fonts[x.2]? = some f ∧ (b!"F" ++ itoa f.fontIndex, Val.ref f.fontID) ∈ fonts ∧ ∀ o ∈ f.objs, OnlyObj plain o.objID o) ∧
            (∀ i ∈ b.app.imgs, (i.xObjChar ++ itoa i.xObjIndex, Val.ref i.objID) ∈ imgs ∧ OnlyObj plain i.objID ⟨i.objID, i.buf⟩) ∧
            List.Forall₂ (fun v p => PageSeen env'.unzip plain fonts imgs b.app.fonts b.app.imgs (askedOn (Run a0 calls).contents (v.2 + 1)) v.1 p)
              (calls.foldl (fun l c => c.2.edit l) views).zipIdx tree.pages) := by
  obtain ⟨a0, e0, hk⟩ := C93_run_partial hf h hr hnd hpos hv hb calls hs hmax hne hmd5 hm hg
  refine ⟨a0, e0, fun {objs last out} hsave hlen => ?_⟩
  obtain ⟨encd, plain, body, o, u, p, k1, k2, k3, k4, k5, b, tree, fonts, imgs, streams, h2, h3, h4, h5, h6, h7, h8⟩ := hk hsave hlen
  refine ⟨encd, plain, body, o, u, p, k1, k2, k3, k4, k5, b, h2, fun ht hi => ⟨tree, fonts, imgs, h3, h5, h6, List.forall₂_iff_get.2 ⟨by simp [h4], fun i hi1 hi2 => ?_⟩⟩⟩
  have hi3 : i < (calls.foldl (fun l c => c.2.edit l) views).length := by simpa using hi1
  obtain ⟨p, p1, p2⟩ := h8 i _ (List.getElem?_eq_getElem hi3)
  have := page_seen h7 ht hi p2
  rw [List.getElem?_eq_some_iff] at p1
  obtain ⟨q1, q2⟩ := p1
  simpa [← q2] using this

/-! ### example -/

/-- a text on page 1 and an image on page 2 -/
def seenCalls : List (Env × Call) := [(plainEnv, .addFont b!"A" tinyFile), (plainEnv, .setFont b!"A" [] 10), (plainEnv, .insert b!"AB" 1 50 60 100 20 0 none), (plainEnv, .img b!"x" 2 5 6 7 8)]

/-- the file is short, there is no protection, texts can be drawn, and the contents are the line style that opening adds, the text and the image -/
def seenCheck (r : Step App) : Bool :=
  match (Run r.state seenCalls).build plainEnv with
  | .ok b => (Run r.state seenCalls).protection.isNone && decide ((toStream b.doc.objs b.doc.rootObjID b.lastID.toNat none).length < 10 ^ 10) &&
      plainContents b.app.fonts b.app.imgs (Run r.state seenCalls).contents && decide ((askedOn (Run r.state seenCalls).contents 1).length = 2 ∧ (askedOn (Run r.state seenCalls).contents 2).length = 1)
  | _ => false

set_option maxRecDepth 20000 in
theorem seenCheck_eq : seenCheck (App.openFrom runEnv {} runRaw) = true := by decide +kernel

theorem seenCheck_saves {r : Step App} (h : seenCheck r = true) : (Run r.state seenCalls).protection = none ∧ ∃ b objs last out, (Run r.state seenCalls).build plainEnv = .ok b ∧
    Saves plainEnv (Run r.state seenCalls) objs last out ∧ out.length < 10 ^ 10 ∧ plainContents b.app.fonts b.app.imgs (Run r.state seenCalls).contents = true := by
  unfold seenCheck at h
  split at h
  · rename_i b hb
    simp only [Bool.and_eq_true, decide_eq_true_eq, Option.isNone_iff_eq_none] at h
    obtain ⟨⟨⟨hp, hlen⟩, h3⟩, _⟩ := h
    exact ⟨hp, b, _, _, _, hb, ⟨b, hb, rfl, rfl, saveTo_eq hb⟩, by rw [hp]; exact hlen, h3⟩
  · simp at h

-- the hypotheses of `C94_run_partial` hold, with a text on page 1 and an image on page 2
example : ∃ a0 objs last out b, App.openFrom runEnv {} runRaw = ⟨a0, .ok ()⟩ ∧ Saves plainEnv (Run a0 seenCalls) objs last out ∧ (Run a0 seenCalls).build plainEnv = .ok b ∧
    FileOf out 1 objs ∧ ∃ tree fonts imgs, StdDoc ⟨1, [], objs, []⟩ tree ∧
      List.Forall₂ (fun v p => PageSeen plainEnv.unzip objs fonts imgs b.app.fonts b.app.imgs (askedOn (Run a0 seenCalls).contents (v.2 + 1)) v.1 p) runViews.zipIdx tree.pages := by
  have hv : Shown plainEnv.unzip ⟨((1 : Nat) : Int), tableOf runRows, runObjs, []⟩ runViews := ⟨_, _, _, _, _, _, _, runObjs_held _, rfl⟩
  have hbox : ∀ v ∈ runViews, ∃ box : List ℚ, EntryIs v.1 b!"MediaBox" (.arr (box.map .num)) := by
    intro v hv
    simp only [runViews, viewsOf, runPages, List.map_cons, List.map_nil, List.mem_cons, List.not_mem_nil, or_false] at hv
    rcases hv with rfl | rfl
    · exact ⟨[0, 0, 595, 842], rfl, by simp [runDict, setVal]⟩
    · exact ⟨[0, 0, 200, 100], rfl, by simp [runDict, setVal]⟩
  have hr : EntryIs [(b!"Size", .num 9), (b!"Root", .ref 1)] b!"Root" (.ref ((1 : Nat) : Int)) := ⟨rfl, by simp⟩
  have hn : ReadsNums (fun s => (runEnv.parseFloat s).isSome) := fun _ _ _ => rfl
  have hed : seenCalls.foldl (fun l c => c.2.edit l) runViews = runViews := rfl
  have hne : seenCalls.foldl (fun l c => c.2.edit l) runViews ≠ [] := by rw [hed]; simp [runViews, viewsOf, runPages]
  have hc : ∀ c ∈ seenCalls, c.2 ≠ .save := by simp [seenCalls]
  have hmax : maxID runObjs + 2 * seenCalls.length < 2 ^ 63 := by decide
  obtain ⟨a0, e0, h⟩ := C94_run_partial hn runRaw_is hr (by decide) (by decide) hv hbox seenCalls hc hmax hne
  have hf := seenCheck_eq
  rw [e0] at hf
  obtain ⟨hp, b, objs, last, out, hb, hs, hlen, hpl⟩ := seenCheck_saves hf
  obtain ⟨ht, hi⟩ := plainContents_ok hpl
  obtain ⟨h1, tree, fonts, imgs, h2, _, _, h5⟩ := h hp hs hlen hb ht hi
  exact ⟨a0, objs, last, out, b, e0, hs, hb, h1, tree, fonts, imgs, h2, h5⟩

end Verif
