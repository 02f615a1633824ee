import Verif.Theorems.StdRun
import Verif.Theorems.Session
/-
C22, C84: what the receiver holds after `Save`, and what a second `Save` writes.
-/
namespace Verif
open Spec

section
variable {R N C : Int → Prop} {D D1 : Int → List (Bytes × Val)} {root : Int} {objs objs' : List Obj} {F X : Option Val → Option Val → Prop}

theorem fontsAdded_list {new fs fs' : List (Bytes × Val)} (h : FontsAdded new fs fs') (h1 : FontList fs) (h2 : FontList new) : FontList fs' := by
  obtain ⟨fs0, rfl, hf⟩ := h
  intro x hx
  rcases List.mem_append.1 hx with hx | hx
  · obtain ⟨y, hy, hyx⟩ : ∃ y ∈ fs, x.2 = y.2 := by
      clear h1 h2
      induction hf with
      | nil => simp at hx
      | cons h _ ih =>
        rcases List.mem_cons.1 hx with rfl | hx
        · exact ⟨_, by simp, h.1⟩
        · obtain ⟨y, h1, h2⟩ := ih (by simp [hx]) hx
          exact ⟨y, by simp [h1], h2⟩
    rw [hyx]
    exact h1 y hy
  · exact h2 x hx

/-- the value of /Font -/
def FontsVal (N : Int → Prop) (v : Val) : Prop := (∃ j, v = .ref j ∧ N j) ∨ ∃ fs, v = .dict fs ∧ FontList fs

theorem UpdR.resEntries {es es' : List (Bytes × Val)} (u : UpdR F X es es') (h : ResEntries N es) (hF : ∀ w v, F (some w) (some v) → FontsVal N w → FontsVal N v) : ResEntries N es' := by
  refine ⟨fun k n hm => h.names k n (u.mem_name hm), fun v hv => ?_, fun v hv => ?_⟩
  · rcases u.fonts v hv with hv | ⟨w, hw, hf⟩
    · exact h.font v hv
    · exact hF w v hf (h.font w hw)
  · rcases u.mem _ hv with hv | ⟨_, es, e⟩
    · exact h.xobj v hv
    · exact ⟨es, e⟩

/-- a linked document whose fonts and images are changed is linked -/
theorem Spec.LinkedDoc.upd (h : LinkedDoc objs root R N C D) (hu : ∀ i, R i → Upd F X (D i) (D1 i)) (hd : ∀ i, R i ∨ N i → StdDict objs' i (D1 i))
    (hF : ∀ w v, F (some w) (some v) → FontsVal N w → FontsVal N v) (hN : ∀ i, N i → FontList (D1 i)) (hs : ∀ i, C i → ∃ o, OnlyObj objs' i o) : LinkedDoc objs' root R N C D1 := by
  have hl := h.linked.upd hu
  refine ⟨hd, h.apart, h.apart', h.top, hl.rootNames, hl.pages, hl.kids, ?_, hl.uniform, ?_, hl.contents, hN, hs⟩
  · intro i hi v hv
    rcases (hu i hi).mem _ hv with hv | ⟨e | e, _⟩ | ⟨_, es, es', hes, e, u⟩
    · exact h.res i hi v hv
    · simp at e
    · simp at e
    · simp only at e
      subst e
      rcases h.res i hi _ hes with ⟨j, e, _⟩ | ⟨es0, e, r1, r2, r3⟩
      · cases e
      · cases e
        exact Or.inr ⟨es', rfl, u.resEntries r1 hF, fun w hw => r2 w (u.mem_ne hw (by decide) (by decide)), fun w hw => r3 w (u.mem_ne hw (by decide) (by decide))⟩
  · intro i hi
    have he := h.entries i hi
    refine ⟨fun k n hm => he.names k n ((hu i hi).mem_name hm), fun v hv => ?_, fun v hv => ?_⟩
    · rcases (hu i hi).fonts v hv with hv | ⟨w, hw, hf⟩
      · exact he.font v hv
      · exact hF w v hf (he.font w hw)
    · rcases (hu i hi).mem _ hv with hv | ⟨_, es, e⟩ | ⟨e, _⟩
      · exact he.xobj v hv
      · exact ⟨es, e⟩
      · simp at e

theorem fontVal_ok {new : List (Bytes × Val)} (hn : FontList new) : ∀ w v, FontVal new (some w) (some v) → FontsVal N w → FontsVal N v := by
  intro w v h hw
  rcases h with h | ⟨fs, fs', e1, e2, h⟩
  · cases h; exact hw
  · cases e1
    cases e2
    rcases hw with ⟨j, e, _⟩ | ⟨fs, e, hl⟩
    · cases e
    · cases e
      exact Or.inr ⟨fs', rfl, fontsAdded_list h hl hn⟩

end

theorem onlyObj_take {objs : List Obj} {n : Nat} {i : Int} {o : Obj} (h : OnlyObj objs i o) (hi : i ∉ idsOf (objs.drop n)) : OnlyObj (objs.take n) i o := by
  have e := h
  unfold OnlyObj at e ⊢
  rw [← List.take_append_drop n objs, List.filter_append] at e
  have e2 : (objs.drop n).filter (fun x => decide (x.objID = i)) = [] := by
    rw [List.filter_eq_nil_iff]
    intro x hx he
    exact hi (List.mem_map.2 ⟨x, hx, by simpa using he⟩)
  rw [e2, List.append_nil] at e
  exact e

theorem onlyObj_exists {objs : List Obj} (h : (idsOf objs).Nodup) {i : Int} (hi : i ∈ idsOf objs) : ∃ o, OnlyObj objs i o := by
  obtain ⟨o, ho, rfl⟩ := List.mem_map.1 hi
  exact ⟨o, onlyObj_of_nodup h ho⟩

theorem contentObject_trim (s : Bytes) : trimSpace (contentObject s) = contentObject s := by
  have := trimSpace_ends (a := []) (b := []) (x := contentObject s) (c := 60) (e := 109) (by simp) (by simp) (by simp [contentObject]) (by
    rw [show contentObject s = (b!"<<\n/Length " ++ itoa s.length ++ b!"\n>>\nstream\n" ++ s ++ b!"endstrea") ++ [109] by simp [contentObject]]
    exact List.getLast?_concat) (by decide) (by decide) (by decide) (by decide)
  simpa using this

/-- a written content that begins with a visible character can be read back -/
theorem contentObject_holds {unzip : Bytes → Option Bytes} {s : Bytes} {c : UInt8} (hl : s.length < 2 ^ 63) (hc : s.head? = some c) (h1 : c < 128) (h2 : isSp c = false) :
    HoldsStream unzip (contentObject s) s := by
  have hp := readProperties_content [] (by simp) s []
  rw [List.nil_append, List.append_nil] at hp
  refine ⟨_, lengthDict s.length ++ [10], [10], s, [], [], itoa s.length, c, hp, by simp [valueOf], trimSpace_itoa _, hl, ?_, ?_, by decide, by simp, hc, h1, h2, Or.inl ⟨by simp [valueOf], rfl⟩⟩
  · rw [contentObject_eq]
    simp [streamKw]
  · exact lengthDict_noStream [] (by simp) s.length

/-- The pages `views'` are the pages `views` with other fonts and images, and with what was drawn on them behind their contents. -/
def Spec.ViewsSaved (fonts imgs : List (Bytes × Val)) (drawn : Nat → List Bytes) (views views' : List (List (Bytes × Val) × Bytes)) : Prop :=
  views'.length = views.length ∧ ∀ (i : Nat) (v : List (Bytes × Val) × Bytes), views[i]? = some v → ∃ v' : List (Bytes × Val) × Bytes, views'[i]? = some v' ∧
    DictSaved (FontVal fonts) (ImgVal imgs) v.1 v'.1 ∧ v'.2 = if drawn (i + 1) = [] then v.2 else v.2 ++ b!"\n" ++ (drawn (i + 1)).flatten

/-- the content begins with a visible character -/
def Spec.VisibleStart (s : Bytes) : Prop := ∃ c, s.head? = some c ∧ c < 128 ∧ isSp c = false

theorem saved_held {env : Env} {a : App} {b : Built} {R N C : Int → Prop} {D : Int → List (Bytes × Val)} {r : Int} {ts : List Tree} {L : List PageC} (hinv : NumInv a) (hp : a.protection = none)
    (h : Held env.unzip a.doc R N C D r ts L) (hb : a.build env = .ok b) (hm : env.realloc = false ∨ (a.fontMap = [] ∧ a.imgs = [])) (hlast : b.lastID < 2 ^ 63)
    (hsize : ∀ o ∈ b.doc.objs, (trimSpace o.data).length < 2 ^ 63) (hvis : ∀ x ∈ L, VisibleStart x.body) :
    ∃ fonts imgs streams D3, List.Forall₂ (fun c s => c.stream b.app.fonts b.app.imgs = .ok s ∧ s.1 = pageOf c) a.contents streams ∧
      Held env.unzip b.app.doc R N C D3 r ts (L.mapIdx (fun i x => ⟨x.page, x.obj, if drawnOn streams (i + 1) = [] then x.body else x.body ++ b!"\n" ++ (drawnOn streams (i + 1)).flatten⟩)) ∧
      ∀ i, R i → DictSaved (FontVal fonts) (ImgVal imgs) (D i) (D3 i) := by
  obtain ⟨fids, d1, new, added, iids, d3, xs, streams, hs⟩ := build_steps hinv hp hb
  have hd := h.linked
  have ht := StdRoot.doc h.root
  have hpg : Tree.pages (.node r ts) = L.map (·.page) := by rw [Tree.pages]; exact h.pages
  have hco := content_objects hs hd ht hpg h.nodup (fun x hx => ⟨(h.cont x hx).1, (h.cont x hx).2.2⟩)
  obtain ⟨r1, _, f1, f2, f3⟩ := fonts_std hd hs.step1
  have hids1 : idsOf d1.objs = idsOf a.doc.objs := (injectFonts_frame hs.step1).1
  have hnew : FontList (refEntries (new.map CrFont.named)) := by
    intro x hx
    simp only [refEntries, List.map_map, List.mem_map] at hx
    obtain ⟨c, hc, rfl⟩ := hx
    refine ⟨c.objID, rfl, ?_⟩
    have h1 : c.objID ∈ idsOf added := hs.fidsIn _ (by rw [← hs.newIDs]; exact List.mem_map.2 ⟨c, hc, rfl⟩)
    have h2 := hs.range _ h1
    have h3 : 0 ≤ maxID a.doc.objs := by
      have := onlyObj_id (hd.dicts _ (Or.inl hd.top)).2.2.choose_spec.choose_spec.choose_spec.choose_spec.choose_spec.1
      have := idsOf_le_maxID this
      have := (hd.dicts _ (Or.inl hd.top)).1
      omega
    constructor <;> omega
  have hsub : ∀ i o, OnlyObj d1.objs i o → OnlyObj (d1.objs ++ added) i o := by
    intro i o ho
    refine onlyObj_append_fresh (fun x hx e => ?_) ho
    have h1 := onlyObj_id ho
    have h2 := hs.fresh
    rw [List.nodup_append] at h2
    exact h2.2.2 i h1 i (List.mem_map.2 ⟨x, hx, e⟩) rfl
  have hnd1 : (idsOf d1.objs).Nodup := (List.nodup_append.1 hs.fresh).1
  classical
  let D1 : Int → List (Bytes × Val) := fun i => if hi : R i then (f1 i hi).choose else if hj : N i then (f2 i hj).choose else []
  have hD1 : ∀ i, R i → StdDict d1.objs i (D1 i) ∧ Upd (FontVal (refEntries (new.map CrFont.named))) (fun o o' => o' = o) (D i) (D1 i) := by
    intro i hi
    have : D1 i = (f1 i hi).choose := dif_pos hi
    rw [this]
    exact (f1 i hi).choose_spec
  have hN1 : ∀ i, N i → StdDict d1.objs i (D1 i) ∧ (D1 i = D i ∨ FontsAdded (refEntries (new.map CrFont.named)) (D i) (D1 i)) := by
    intro i hi
    have : D1 i = (f2 i hi).choose := (dif_neg (fun hR => (hd.apart i hR).1 hi)).trans (dif_pos hi)
    rw [this]
    exact (f2 i hi).choose_spec
  have hC1 : ∀ i, C i → i ∈ idsOf d1.objs := by
    intro i hi
    rw [hids1]
    exact onlyObj_id (hd.streams i hi).choose_spec
  have hL1 : LinkedDoc d1.objs a.doc.rootObjID R N C D1 := by
    refine hd.upd (fun i hi => (hD1 i hi).2) (fun i hi => hi.elim (fun h => (hD1 i h).1) (fun h => (hN1 i h).1)) (fontVal_ok hnew) (fun i hi => ?_) (fun i hi => onlyObj_exists hnd1 (hC1 i hi))
    rcases (hN1 i hi).2 with e | e
    · rw [e]; exact hd.fonts i hi
    · exact fontsAdded_list e (hd.fonts i hi) hnew
  have hL1' : Linked R C D1 d1.rootObjID := by rw [r1]; exact hL1.linked
  obtain ⟨r3, g1, g2⟩ := imgs_std (d := { d1 with objs := d1.objs ++ added }) (fun i hi => StdDict.kept (hD1 i hi).1 (hsub i)) hL1' hs.step2
  simp only at r3 g1 g2
  let D3 : Int → List (Bytes × Val) := fun i => if hi : R i then (g1 i hi).choose else D1 i
  have hD3 : ∀ i, R i → StdDict d3.objs i (D3 i) ∧ Upd (fun o o' => o' = o) (ImgVal (refEntries (xs.map CrXObj.named))) (D1 i) (D3 i) := by
    intro i hi
    have : D3 i = (g1 i hi).choose := dif_pos hi
    rw [this]
    exact (g1 i hi).choose_spec
  have hN3 : ∀ i, N i → D3 i = D1 i ∧ StdDict d3.objs i (D3 i) := by
    intro i hi
    have hR : ¬ R i := fun hR => (hd.apart i hR).1 hi
    have e : D3 i = D1 i := dif_neg hR
    refine ⟨e, ?_⟩
    rw [e]
    exact StdDict.kept (hN1 i hi).1 (fun o ho => g2 i o hR (hsub i o ho))
  have hroot : d3.rootObjID = a.doc.rootObjID := r3.trans r1
  obtain ⟨_, _, _, _, _, k3, _, k5, k6⟩ := before_contents hd ht hs
  have hC3 : ∀ i, C i → ∃ o, OnlyObj d3.objs i o := fun i hi => (hd.streams i hi).imp (fun o ho => k3 i o (fun hR => (hd.apart i hR).2 hi) (fun hN => hd.apart' i hN hi) ho)
  have hL3 : LinkedDoc d3.objs a.doc.rootObjID R N C D3 :=
    hL1.upd (fun i hi => (hD3 i hi).2) (fun i hi => hi.elim (fun h => (hD3 i h).1) (fun h => (hN3 i h).2)) (fun w v e hw => by cases e; exact hw) (fun i hi => by rw [(hN3 i hi).1]; exact hL1.fonts i hi) hC3
  obtain ⟨r4, hc⟩ := content_std (hroot ▸ hL3.linked) (fun i hi => (hD3 i hi).1) hC3 k5 k6 hs.step3
  -- the objects of the receiver
  have hdoc : b.app.doc = { d1 with objs := b.doc.objs.take d1.objs.length } := by
    rw [hs.doc]
    rcases hm with hm | ⟨hm1, hm2⟩
    · simp [hm]
    · simp [hs.noneNew hm1 hm2]
  have hdrop : idsOf (b.doc.objs.drop d1.objs.length) = idsOf added := by
    have e := hs.ids
    unfold idsOf at e ⊢
    rw [List.map_drop, e, ← List.length_map (as := d1.objs) (f := Obj.objID), List.drop_left]
  have htake : ∀ i o, i ∈ idsOf d1.objs → OnlyObj b.doc.objs i o → OnlyObj b.app.doc.objs i o := by
    intro i o hi ho
    rw [hdoc]
    refine onlyObj_take ho ?_
    rw [hdrop]
    intro hj
    exact (List.nodup_append.1 hs.fresh).2.2 i hi i hj rfl
  have hids : idsOf b.app.doc.objs = idsOf d1.objs := by
    have e := hs.ids
    rw [hdoc]
    unfold idsOf at e ⊢
    simp only
    rw [List.map_take, e, ← List.length_map (as := d1.objs) (f := Obj.objID), List.take_left]
  have hrootA : b.app.doc.rootObjID = a.doc.rootObjID := by rw [hdoc]; exact r1
  have hin : ∀ i {d0 : List (Bytes × Val)}, StdDict a.doc.objs i d0 → i ∈ idsOf d1.objs := by
    intro i d0 hd0
    obtain ⟨_, _, o, _, _, _, _, ho, _⟩ := hd0
    rw [hids1]
    exact onlyObj_id ho
  have hRb : ∀ i, R i → StdDict b.app.doc.objs i (D3 i) := fun i hi =>
    StdDict.kept (hD3 i hi).1 (fun o ho => htake i o (hin i (hd.dicts i (Or.inl hi))) (hc i o (hd.apart i hi).2 ho))
  have hNb : ∀ i, N i → StdDict b.app.doc.objs i (D3 i) := fun i hi =>
    StdDict.kept (hN3 i hi).2 (fun o ho => htake i o (hin i (hd.dicts i (Or.inr hi))) (hc i o (hd.apart' i hi) ho))
  have hLb : LinkedDoc b.app.doc.objs b.app.doc.rootObjID R N C D3 := by
    rw [hrootA]
    exact hL3.upd (F := fun o o' => o' = o) (X := fun o o' => o' = o) (fun i _ => upd_refl (F := fun o o' => o' = o) (X := fun o o' => o' = o) (fun _ => rfl) (fun _ => rfl) _) (fun i hi => hi.elim (hRb i) (hNb i)) (fun w v e hw => by cases e; exact hw)
      hL3.fonts (fun i hi => onlyObj_exists (by rw [hids]; exact hnd1) (by rw [hids]; exact hC1 i hi))
  have hkept : ∀ i, R i → KeptBut (D i) (D3 i) := fun i hi => (hD1 i hi).2.kept.trans (hD3 i hi).2.kept
  have hkeep : ∀ i, R i → ∀ k, k ≠ b!"Font" → k ≠ b!"XObject" → k ≠ b!"Resources" → (D3 i).lookup k = (D i).lookup k := fun i hi => (hkept i hi).1
  have hrR := h.rootR
  refine ⟨refEntries (new.map CrFont.named), refEntries (xs.map CrXObj.named), streams, D3, hs.streams, ⟨?_, hLb, ?_, ?_, ?_⟩,
    fun i hi => saved_comp (fun o => Or.inl rfl) (fun o => Or.inl rfl) (hD1 i hi).2 (hD3 i hi).2⟩
  · have hr := h.root
    obtain ⟨c, c1, c2⟩ := hr.catalog
    cases StdDict.unique c1 (hd.dicts _ (Or.inl hd.top))
    have ht2 : StdTree a.doc.objs (.node r ts) := ⟨⟨D r, hr.dict, hr.node⟩, hr.kids⟩
    refine ⟨⟨D3 a.doc.rootObjID, by rw [hrootA]; exact hRb _ hd.top, (hkept _ hd.top).entry c2 (by decide) (by decide) (by decide)⟩, by rw [hrootA]; exact hr.notCatalog, hRb _ hrR, ?_,
      (hkept _ hrR).unused hr.noPage (by decide) (by decide) (by decide), ?_, (tree_saved hd.kids (fun i hi => hd.dicts i (Or.inl hi)) (fun i hi => ⟨D3 i, hRb i hi, hkept i hi⟩) _ ht2 hrR).1.2⟩
    · obtain ⟨n1, n2, n3⟩ := hr.node
      exact ⟨by rw [hkeep _ hrR _ (by decide) (by decide) (by decide)]; exact n1, (hkept _ hrR).entry n2 (by decide) (by decide) (by decide),
        fun hn => (hkept _ hrR).unused (n3 hn) (by decide) (by decide) (by decide)⟩
    · obtain ⟨q, hq⟩ := hr.count
      exact ⟨q, (hkept _ hrR).entry hq (by decide) (by decide) (by decide)⟩
  · rw [h.pages]
    refine List.ext_getElem? (fun i => ?_)
    simp [List.getElem?_mapIdx, Function.comp_def]
  · have e : (L.mapIdx (fun i x => (⟨x.page, x.obj, if drawnOn streams (i + 1) = [] then x.body else x.body ++ b!"\n" ++ (drawnOn streams (i + 1)).flatten⟩ : PageC))).map (·.obj) = L.map (·.obj) := by
      refine List.ext_getElem? (fun i => ?_)
      simp [List.getElem?_mapIdx, Function.comp_def]
    rw [e]
    exact h.nodup
  · intro y hy
    obtain ⟨i, hi⟩ := List.mem_iff_getElem?.1 hy
    rw [List.getElem?_mapIdx, Option.map_eq_some_iff] at hi
    obtain ⟨x, hx, rfl⟩ := hi
    have hxL := List.mem_of_getElem? hx
    obtain ⟨c1, c2, o, c3, c4⟩ := h.cont x hxL
    have hR : R x.page := h.pageR _ (by rw [h.pages]; exact List.mem_map.2 ⟨x, hxL, rfl⟩)
    have hmem : x.obj ∈ idsOf d1.objs := by rw [hids1]; exact onlyObj_id c3
    refine ⟨by rw [hkeep _ hR _ (by decide) (by decide) (by decide)]; exact c1, c2, ?_⟩
    have h1 := hco i x hx
    simp only
    split at h1
    · rename_i hn
      rw [if_pos hn]
      exact ⟨o, htake _ _ hmem (h1 o c3), c4⟩
    · rename_i hn
      rw [if_neg hn]
      obtain ⟨o', h2, h3⟩ := h1
      obtain ⟨c, v1, v2, v3⟩ := hvis x hxL
      refine ⟨o', htake _ _ hmem h2, ?_⟩
      have hz := hsize o' h2.mem.1
      rw [h3] at hz ⊢
      rw [contentObject_trim] at hz
      refine contentObject_holds ?_ (c := c) ?_ v2 v3
      · refine lt_of_le_of_lt ?_ hz
        simp only [contentObject, List.length_append]
        omega
      · cases hbd : x.body with
        | nil => rw [hbd] at v1; simp at v1
        | cons u w => rw [hbd] at v1; simpa using v1

/-- **C84** (partial) What the receiver holds after `Save`: the same pages, with the fonts and images added, and with what was drawn behind their contents.  The contents are still to be drawn
(`C22_refuted_all`).  Missing: see `C84_run_partial`; the case that the program stored fonts or images and the objects were moved; contents that do not begin with a visible character. -/
theorem C84_saved_partial {env : Env} {a : App} {b : Built} {views : List (List (Bytes × Val) × Bytes)} (hinv : NumInv a) (hp : a.protection = none) (h : Shown env.unzip a.doc views)
    (hb : a.build env = .ok b) (hm : env.realloc = false ∨ (a.fontMap = [] ∧ a.imgs = [])) (hlast : b.lastID < 2 ^ 63)
    (hsize : ∀ o ∈ b.doc.objs, (trimSpace o.data).length < 2 ^ 63) (hvis : ∀ v ∈ views, VisibleStart v.2) :
    ∃ fonts imgs streams views', List.Forall₂ (fun c s => c.stream b.app.fonts b.app.imgs = .ok s ∧ s.1 = pageOf c) a.contents streams ∧ b.app.contents = a.contents ∧
      Shown env.unzip b.app.doc views' ∧ ViewsSaved fonts imgs (drawnOn streams) views views' := by
  obtain ⟨R, N, C, D, r, ts, L, hh, rfl⟩ := h
  have hvis' : ∀ x ∈ L, VisibleStart x.body := fun x hx => hvis _ (List.mem_map.2 ⟨x, hx, rfl⟩)
  obtain ⟨fonts, imgs, streams, D3, h1, h2, h3⟩ := saved_held hinv hp hh hb hm hlast hsize hvis'
  obtain ⟨_, _, _, _, _, _, _, _, hs⟩ := build_steps hinv hp hb
  refine ⟨fonts, imgs, streams, _, h1, hs.contents, ⟨R, N, C, D3, r, ts, _, h2, rfl⟩, by simp [viewsOf], ?_⟩
  intro i v hv
  rw [viewsOf, List.getElem?_map, Option.map_eq_some_iff] at hv
  obtain ⟨x, hx, rfl⟩ := hv
  have hxL := List.mem_of_getElem? hx
  have hR : R x.page := hh.pageR _ (by rw [hh.pages]; exact List.mem_map.2 ⟨x, hxL, rfl⟩)
  refine ⟨_, by rw [viewsOf, List.getElem?_map, List.getElem?_mapIdx, hx]; rfl, ?_, rfl⟩
  exact saved_view (h3 _ hR) (hh.cont x hxL).1

theorem drawnOn_of_mem {cs : List Content} {streams : List (Int × Bytes)} {P : Content → Int × Bytes → Prop} (h : List.Forall₂ (fun c s => P c s ∧ s.1 = pageOf c) cs streams) (k : Nat) :
    drawnOn streams k ≠ [] ↔ ∃ c ∈ cs, pageOf c = (k : Int) := by
  induction h with
  | nil => simp [drawnOn]
  | @cons c s cs ss hc _ ih =>
    by_cases e : pageOf c = (k : Int)
    · have : drawnOn (s :: ss) k ≠ [] := by simp [drawnOn, hc.2, e]
      exact ⟨fun _ => ⟨c, by simp, e⟩, fun _ => this⟩
    · have : drawnOn (s :: ss) k = drawnOn ss k := by simp [drawnOn, hc.2, e]
      rw [this, ih]
      simp [e]

/-- two saves of a document with the pages `L` -/
theorem saved_twice {env : Env} {a : App} {b b2 : Built} {R N C : Int → Prop} {D : Int → List (Bytes × Val)} {r : Int} {ts : List Tree} {L : List PageC} (hinv : NumInv a) (hp : a.protection = none)
    (h : Held env.unzip a.doc R N C D r ts L) (hb : a.build env = .ok b) (hm : env.realloc = false ∨ (a.fontMap = [] ∧ a.imgs = [])) (hlast : b.lastID < 2 ^ 63)
    (hsize : ∀ o ∈ b.doc.objs, (trimSpace o.data).length < 2 ^ 63) (hvis : ∀ x ∈ L, VisibleStart x.body) (hb2 : b.app.build env = .ok b2) (hp2 : b.app.protection = none) :
    ∃ streams streams2, List.Forall₂ (fun c s => c.stream b.app.fonts b.app.imgs = .ok s ∧ s.1 = pageOf c) a.contents streams ∧
      List.Forall₂ (fun c s => c.stream b2.app.fonts b2.app.imgs = .ok s ∧ s.1 = pageOf c) a.contents streams2 ∧
      ∀ (i : Nat) (x : PageC), L[i]? = some x → (∃ c ∈ a.contents, pageOf c = ((i + 1 : Nat) : Int)) → ∃ o o2, OnlyObj b.doc.objs x.obj o ∧
        o.data = contentObject (x.body ++ b!"\n" ++ (drawnOn streams (i + 1)).flatten) ∧
        OnlyObj b2.doc.objs x.obj o2 ∧ o2.data = contentObject (x.body ++ b!"\n" ++ (drawnOn streams (i + 1)).flatten ++ b!"\n" ++ (drawnOn streams2 (i + 1)).flatten) := by
  obtain ⟨fids, d1, new, added, iids, d3, xs, streams, hs⟩ := build_steps hinv hp hb
  have hinv2 : NumInv b.app := (build_numbers hinv hb).2.2.2
  obtain ⟨fids2, d12, new2, added2, iids2, d32, xs2, streams2, hs2⟩ := build_steps hinv2 hp2 hb2
  obtain ⟨fonts, imgs, streams', D3, h1, h2, h3⟩ := saved_held hinv hp h hb hm hlast hsize hvis
  have e : streams' = streams := by
    have : ∀ (cs : List Content) (s s' : List (Int × Bytes)), List.Forall₂ (fun c s => c.stream b.app.fonts b.app.imgs = .ok s ∧ s.1 = pageOf c) cs s →
        List.Forall₂ (fun c s => c.stream b.app.fonts b.app.imgs = .ok s ∧ s.1 = pageOf c) cs s' → s' = s := by
      intro cs s s' k k'
      induction k generalizing s' with
      | nil => cases k'; rfl
      | cons h _ ih =>
        cases k' with
        | cons h' t' =>
          have := h.1.symm.trans h'.1
          cases this
          rw [ih _ t']
    exact this _ _ _ hs.streams h1
  subst e
  refine ⟨streams', streams2, hs.streams, by rw [← hs.contents]; exact hs2.streams, fun i x hx hc => ?_⟩
  have hpg : Tree.pages (.node r ts) = L.map (·.page) := by rw [Tree.pages]; exact h.pages
  have hco := content_objects hs h.linked (StdRoot.doc h.root) hpg h.nodup (fun x hx => ⟨(h.cont x hx).1, (h.cont x hx).2.2⟩) i x hx
  have hn : drawnOn streams' (i + 1) ≠ [] := (drawnOn_of_mem hs.streams (i + 1)).2 hc
  have hn2 : drawnOn streams2 (i + 1) ≠ [] := (drawnOn_of_mem hs2.streams (i + 1)).2 (by rw [hs.contents]; exact hc)
  have hco2 := content_objects hs2 h2.linked (StdRoot.doc h2.root) (by rw [Tree.pages]; exact h2.pages) h2.nodup (fun x hx => ⟨(h2.cont x hx).1, (h2.cont x hx).2.2⟩) i _
    (by rw [List.getElem?_mapIdx, hx]; rfl)
  rw [if_neg hn] at hco
  simp only [if_neg hn2, if_neg hn] at hco2
  obtain ⟨o, o1, o2⟩ := hco
  obtain ⟨o', p1, p2⟩ := hco2
  exact ⟨o, o', o1, o2, p1, p2⟩

/-! ### the files -/

theorem digits_prefix : ∀ {s t a b l : Bytes} {c d : UInt8}, s.all isDec = true → t.all isDec = true → isDec c = false → isDec d = false → (s ++ c :: a) <+: l → (t ++ d :: b) <+: l →
    s = t ∧ ∃ l', a <+: l' ∧ b <+: l'
  | [], [], a, b, l, c, d, _, _, _, _, ⟨x, hx⟩, ⟨y, hy⟩ => by
    subst hx
    simp only [List.nil_append, List.cons_append, List.cons.injEq] at hy
    exact ⟨rfl, _, ⟨x, rfl⟩, ⟨y, hy.2⟩⟩
  | [], t0 :: t, a, b, l, c, d, _, ht, hc, _, ⟨x, hx⟩, ⟨y, hy⟩ => by
    subst hx
    simp only [List.nil_append, List.cons_append, List.cons.injEq] at hy
    simp only [List.all_cons, Bool.and_eq_true] at ht
    rw [hy.1, hc] at ht
    exact absurd ht.1 (by decide)
  | s0 :: s, [], a, b, l, c, d, hs, _, _, hd, ⟨x, hx⟩, ⟨y, hy⟩ => by
    subst hx
    simp only [List.nil_append, List.cons_append, List.cons.injEq] at hy
    simp only [List.all_cons, Bool.and_eq_true] at hs
    rw [← hy.1, hd] at hs
    exact absurd hs.1 (by decide)
  | s0 :: s, t0 :: t, a, b, l, c, d, hs, ht, hc, hd, ⟨x, hx⟩, ⟨y, hy⟩ => by
    subst hx
    simp only [List.cons_append, List.cons.injEq] at hy
    simp only [List.all_cons, Bool.and_eq_true] at hs ht
    obtain ⟨e, h⟩ := digits_prefix (l := s ++ c :: a ++ x) hs.2 ht.2 hc hd ⟨x, rfl⟩ ⟨y, hy.2⟩
    exact ⟨by rw [e, hy.1], h⟩

theorem cons_prefix : ∀ {p a b l : Bytes}, (p ++ a) <+: l → (p ++ b) <+: l → ∃ l', a <+: l' ∧ b <+: l'
  | p, a, b, l, ⟨x, hx⟩, ⟨y, hy⟩ => by
    subst hx
    refine ⟨a ++ x, ⟨x, rfl⟩, ⟨y, ?_⟩⟩
    rw [List.append_assoc, List.append_assoc] at hy
    exact List.append_cancel_left hy

/-- the contents of one object have one length -/
theorem objectAt_length {out X Y : Bytes} {off k : Nat} (h1 : ObjectAt out off k (contentObject X)) (h2 : ObjectAt out off k (contentObject Y)) : X.length = Y.length := by
  obtain ⟨n1, ⟨_, a1, _⟩, h1⟩ := h1
  obtain ⟨n2, ⟨_, a2, _⟩, h2⟩ := h2
  have e : ∀ (n Z : Bytes), b!"\n" ++ n ++ b!" 0 obj\n" ++ contentObject Z ++ b!"\nendobj\n" =
      b!"\n" ++ (n ++ 32 :: (b!"0 obj\n<<\n/Length " ++ (natDigits Z.length ++ 10 :: (b!">>\nstream\n" ++ Z ++ b!"endstream\nendobj\n")))) := by
    intro n Z
    simp [contentObject]
  rw [e] at h1 h2
  obtain ⟨l1, h1, h2⟩ := cons_prefix h1 h2
  obtain ⟨_, l2, h1, h2⟩ := digits_prefix a1 a2 (by decide) (by decide) h1 h2
  obtain ⟨l3, h1, h2⟩ := cons_prefix h1 h2
  obtain ⟨e, _⟩ := digits_prefix (natDigits_numeral _).2.1 (natDigits_numeral _).2.1 (by decide) (by decide) h1 h2
  have := (natDigits_numeral X.length).2.2
  rw [e, (natDigits_numeral Y.length).2.2] at this
  exact this.symm

theorem run_contents : ∀ (calls : List (Env × Call)) (a : App), a.contents <+: (Run a calls).contents
  | [], _ => List.prefix_refl _
  | c :: cs, a => (C82_contents c.1 [c.2] a).trans (run_contents cs (a.after c.1 c.2))

theorem saveTo_protection (env : Env) (a : App) : (a.saveTo env).1.protection = a.protection := by
  unfold App.saveTo
  split
  · rename_i b hb
    simp only
    unfold App.build at hb
    rw [Res.bind_eq_ok] at hb
    obtain ⟨⟨_, _⟩, _, hb⟩ := hb
    simp only at hb
    rw [Res.bind_eq_ok] at hb
    obtain ⟨⟨_, _⟩, _, hb⟩ := hb
    simp only at hb
    rw [Res.bind_eq_ok] at hb
    obtain ⟨⟨_, _⟩, _, hb⟩ := hb
    simp only at hb
    rw [Res.bind_eq_ok] at hb
    obtain ⟨_, _, hb⟩ := hb
    rw [Res.bind_eq_ok] at hb
    obtain ⟨_, _, hb⟩ := hb
    rw [Res.bind_eq_ok] at hb
    obtain ⟨_, _, hb⟩ := hb
    simp only [Res.ok.injEq] at hb
    rw [← hb]
  all_goals rfl

theorem openFrom_draws {env : Env} {raw : Bytes} {a0 a : App} (h : App.openFrom env a raw = ⟨a0, .ok ()⟩) : ∃ c ∈ a0.contents, pageOf c = 1 := by
  unfold App.openFrom at h
  simp only at h
  split at h
  · simp only [Step.mk.injEq, and_true] at h
    subst h
    exact ⟨.line 0 [], by simp [App.showCellBorder], rfl⟩
  all_goals simp at h

/-- **C22 is violated** by every file: it is opened, and after any calls it is saved twice (so that no objects are moved, for instance without fonts and images).  The two files differ, because
what was drawn is in the second one twice.  On the first page something is always drawn, the style of lines. -/
theorem C22_refuted_all {env env' : Env} (hf : ReadsNums (fun s => (env.parseFloat s).isSome)) {raw : Bytes} {t : List (Bytes × Val)} {l : List (Nat × Entry)} {os : List Obj}
    (h : StdFile raw t l os) {root : Nat} (hr : EntryIs t b!"Root" (.ref root)) (hnd : (os.map Obj.objID).Nodup) (hpos : ∀ o ∈ os, 1 ≤ o.objID)
    {views : List (List (Bytes × Val) × Bytes)} (hv : Shown env'.unzip ⟨root, tableOf l, os, []⟩ views)
    (hb : ∀ v ∈ views, ∃ box : List ℚ, EntryIs v.1 b!"MediaBox" (.arr (box.map .num))) (calls : List (Env × Call)) (hs : ∀ c ∈ calls, c.2 ≠ .save)
    (hmax : maxID os + 2 * calls.length < 2 ^ 63) (hne : calls.foldl (fun l c => c.2.edit l) views ≠ []) (hvis : ∀ v ∈ calls.foldl (fun l c => c.2.edit l) views, VisibleStart v.2) :
    ∃ a0, App.openFrom env {} raw = ⟨a0, .ok ()⟩ ∧ ∀ {objs last out objs' last' out'}, (Run a0 calls).protection = none → Saves env' (Run a0 calls) objs last out →
      (env'.realloc = false ∨ ((Run a0 calls).fontMap = [] ∧ (Run a0 calls).imgs = [])) → Saves env' ((Run a0 calls).saveTo env').1 objs' last' out' →
      out.length < 10 ^ 10 → out'.length < 10 ^ 10 → last < 2 ^ 63 →
      out' ≠ out ∧ ∃ fonts pics fonts' pics' streams streams', List.Forall₂ (fun c s => c.stream fonts pics = .ok s ∧ s.1 = pageOf c) (Run a0 calls).contents streams ∧
        List.Forall₂ (fun c s => c.stream fonts' pics' = .ok s ∧ s.1 = pageOf c) (Run a0 calls).contents streams' ∧
        ∀ (i : Nat) (v : List (Bytes × Val) × Bytes), (calls.foldl (fun l c => c.2.edit l) views)[i]? = some v → (∃ c ∈ (Run a0 calls).contents, pageOf c = ((i + 1 : Nat) : Int)) →
          ∃ c o o', OnlyObj objs c o ∧ StreamObject o.data (v.2 ++ b!"\n" ++ (drawnOn streams (i + 1)).flatten) ∧
            OnlyObj objs' c o' ∧ StreamObject o'.data (v.2 ++ b!"\n" ++ (drawnOn streams (i + 1)).flatten ++ b!"\n" ++ (drawnOn streams' (i + 1)).flatten) := by
  obtain ⟨tree, ht, boxes, hboxes⟩ := hv.boxes hb
  obtain ⟨a0, e0, e1, e2, e3, _⟩ := C81_openFrom_partial hf h hr ht hboxes
  refine ⟨a0, e0, fun {objs last out objs' last' out'} hp hsave hm hsave' hlen hlen' hlast => ?_⟩
  have hopen : Opened env raw a0 := ⟨e0, by rw [e1]; exact hnd, by rw [e1]; exact hpos⟩
  have hshown : Shown env'.unzip a0.doc views := by
    obtain ⟨R, N, C, D, r, ts, L, hh, e⟩ := hv
    exact ⟨R, N, C, D, r, ts, L, hh.mono e2 (fun i o ho => by rw [e1]; exact ho), e⟩
  have hfin := C84_calls_partial calls hshown hs hne (by rw [e1]; exact hmax)
  have hinv := NumInv.run calls hopen.inv
  obtain ⟨es, rest, x1, _, x3⟩ := C01_saved hopen calls hsave hlen
  have hrun : Run a0 (calls ++ [(env', .save)]) = ((Run a0 calls).saveTo env').1 := by
    unfold Run
    rw [List.foldl_append]
    rfl
  rw [← hrun] at hsave'
  obtain ⟨es', rest', y1, _, y3⟩ := C01_saved hopen (calls ++ [(env', .save)]) hsave' hlen'
  rw [hrun] at hsave'
  obtain ⟨b, hb, rfl, rfl, hout⟩ := hsave
  have hstate : ((Run a0 calls).saveTo env').1 = b.app := by
    unfold App.saveTo
    rw [hb]
  rw [hstate] at hsave'
  have hp2 : b.app.protection = none := by
    rw [← hstate]
    exact (saveTo_protection env' (Run a0 calls)).trans hp
  obtain ⟨b2, hb2, rfl, rfl, hout'⟩ := hsave'
  simp only [hp, hp2, Option.map_none, writtenObjs, tableTop] at x3 y3 hlast ⊢
  obtain ⟨R, N, C, D, r, ts, L, hh, hviews⟩ := hfin
  have hsize : ∀ o ∈ b.doc.objs, (trimSpace o.data).length < 2 ^ 63 := by
    intro o ho
    obtain ⟨k, e, _, _, _, _, num, _, hpre⟩ := x3 o ho
    have h1 := hpre.length_le
    simp only [List.length_append, List.length_drop] at h1
    have : (10 : Nat) ^ 10 < 2 ^ 63 := by norm_num
    omega
  have hvis' : ∀ x ∈ L, VisibleStart x.body := fun x hx => hvis _ (by rw [hviews]; exact List.mem_map.2 ⟨x, hx, rfl⟩)
  obtain ⟨streams, streams2, st1, st2, key⟩ := saved_twice hinv hp hh hb hm (by omega) hsize hvis' hb2 hp2
  have hline : ∃ c ∈ (Run a0 calls).contents, pageOf c = ((0 + 1 : Nat) : Int) := by
    obtain ⟨c, hc, hcp⟩ := openFrom_draws e0
    exact ⟨c, (run_contents calls a0).subset hc, by rw [hcp]; rfl⟩
  constructor
  · intro eo
    obtain ⟨x, hx⟩ : ∃ x, L[0]? = some x := by
      cases L with
      | nil => rw [hviews] at hne; exact absurd rfl hne
      | cons x _ => exact ⟨x, rfl⟩
    obtain ⟨o, o2, k1, k2, k3, k4⟩ := key 0 x hx hline
    obtain ⟨k, e, f1, f2, _, _, f5⟩ := x3 o k1.mem.1
    obtain ⟨k', e', g1, g2, _, _, g5⟩ := y3 o2 k3.mem.1
    rw [eo, x1] at y1
    cases y1
    have hk : k = k' := by
      have := k1.mem.2
      have := k3.mem.2
      omega
    subst hk
    rw [f2] at g2
    cases g2
    rw [eo, k4, contentObject_trim] at g5
    rw [k2, contentObject_trim] at f5
    have := objectAt_length f5 g5
    simp at this
  · refine ⟨_, _, _, _, streams, streams2, st1, st2, fun i v hv hc => ?_⟩
    rw [hviews, viewsOf, List.getElem?_map, Option.map_eq_some_iff] at hv
    obtain ⟨x, hx, rfl⟩ := hv
    obtain ⟨o, o2, k1, k2, k3, k4⟩ := key i x hx hc
    exact ⟨x.obj, o, o2, k1, k2 ▸ contentObject_stream _, k3, k4 ▸ contentObject_stream _⟩

/-! ### example -/

/-- objects that are appended stay where they are -/
def stayEnv : Env := { plainEnv with realloc := false }

/-- what is found by saving twice -/
def twiceCheck (r : Step App) : Bool :=
  match (Run r.state runCalls).build stayEnv with
  | .ok b => (Run r.state runCalls).protection.isNone && decide ((toStream b.doc.objs b.doc.rootObjID b.lastID.toNat none).length < 10 ^ 10) && decide (b.lastID < 2 ^ 63) &&
    match b.app.build stayEnv with
    | .ok b2 => decide ((toStream b2.doc.objs b2.doc.rootObjID b2.lastID.toNat none).length < 10 ^ 10)
    | _ => false
  | _ => false

set_option maxRecDepth 20000 in
theorem twiceCheck_eq : twiceCheck (App.openFrom runEnv {} runRaw) = true := by decide +kernel

theorem twiceCheck_saves {r : Step App} (h : twiceCheck r = true) : (Run r.state runCalls).protection = none ∧ ∃ objs last out objs' last' out', Saves stayEnv (Run r.state runCalls) objs last out ∧
    Saves stayEnv ((Run r.state runCalls).saveTo stayEnv).1 objs' last' out' ∧ out.length < 10 ^ 10 ∧ out'.length < 10 ^ 10 ∧ last < 2 ^ 63 := by
  unfold twiceCheck at h
  split at h
  · rename_i b hb
    simp only [Bool.and_eq_true, decide_eq_true_eq, Option.isNone_iff_eq_none] at h
    obtain ⟨⟨⟨hp, hlen⟩, hlast⟩, h⟩ := h
    have hstate : ((Run r.state runCalls).saveTo stayEnv).1 = b.app := by
      unfold App.saveTo
      rw [hb]
    have hp2 : b.app.protection = none := by
      rw [← hstate]
      exact (saveTo_protection stayEnv _).trans hp
    split at h
    · rename_i b2 hb2
      simp only [decide_eq_true_eq] at h
      refine ⟨hp, b.doc.objs, _, _, b2.doc.objs, _, _, ⟨b, hb, by rw [hp]; rfl, rfl, saveTo_eq hb⟩, by rw [hstate]; exact ⟨b2, hb2, by rw [hp2]; rfl, rfl, saveTo_eq hb2⟩, by rw [hp]; exact hlen,
        by rw [hp2]; exact h, by rw [hp]; show b.lastID.toNat < 2 ^ 63; omega⟩
    · exact absurd h (by decide)
  · exact absurd h (by decide)

/-- a file of two pages, of which the first is copied, the second removed and the copy drawn on: it is saved twice, and the files differ -/
example : ∃ a0 objs last out objs' last' out', App.openFrom runEnv {} runRaw = ⟨a0, .ok ()⟩ ∧ Saves stayEnv (Run a0 runCalls) objs last out ∧
    Saves stayEnv ((Run a0 runCalls).saveTo stayEnv).1 objs' last' out' ∧ out' ≠ out := by
  have hv : Shown stayEnv.unzip ⟨((1 : Nat) : Int), tableOf runRows, runObjs, []⟩ runViews := ⟨_, _, _, _, _, _, _, runObjs_held _, rfl⟩
  have hbox : ∀ v ∈ runViews, ∃ box : List ℚ, EntryIs v.1 b!"MediaBox" (.arr (box.map .num)) := by
    intro v hv
    simp only [runViews, viewsOf, runPages, List.map_cons, List.map_nil, List.mem_cons, List.not_mem_nil, or_false] at hv
    rcases hv with rfl | rfl
    · exact ⟨[0, 0, 595, 842], rfl, by simp [runDict, setVal]⟩
    · exact ⟨[0, 0, 200, 100], rfl, by simp [runDict, setVal]⟩
  have hr : EntryIs [(b!"Size", .num 9), (b!"Root", .ref 1)] b!"Root" (.ref ((1 : Nat) : Int)) := ⟨rfl, by simp⟩
  have hn : ReadsNums (fun s => (runEnv.parseFloat s).isSome) := fun _ _ _ => rfl
  have hne : runCalls.foldl (fun l c => c.2.edit l) runViews ≠ [] := by simp [runCalls, Call.edit, runViews, viewsOf, runPages]
  have hvis : ∀ v ∈ runCalls.foldl (fun l c => c.2.edit l) runViews, VisibleStart v.2 := by
    have : ∀ v ∈ (runCalls.foldl (fun l c => c.2.edit l) runViews).map (·.2), VisibleStart v := by
      rw [show (runCalls.foldl (fun l c => c.2.edit l) runViews).map (·.2) = [b!"q", b!"q"] from rfl]
      intro v hv
      simp only [List.mem_cons, List.not_mem_nil, or_false, or_self] at hv
      subst hv
      exact ⟨_, rfl, by decide, by decide⟩
    exact fun v hv => this _ (List.mem_map.2 ⟨v, hv, rfl⟩)
  have hc : ∀ c ∈ runCalls, c.2 ≠ .save := by simp [runCalls]
  have hnd : (runObjs.map Obj.objID).Nodup := by decide
  have hpos : ∀ o ∈ runObjs, 1 ≤ o.objID := by decide
  have hmax : maxID runObjs + 2 * runCalls.length < 2 ^ 63 := by decide
  obtain ⟨a0, e0, h⟩ := C22_refuted_all hn runRaw_is hr hnd hpos hv hbox runCalls hc hmax hne hvis
  have hf := twiceCheck_eq
  rw [e0] at hf
  obtain ⟨hp, objs, last, out, objs', last', out', s1, s2, l1, l2, l3⟩ := twiceCheck_saves hf
  exact ⟨a0, objs, last, out, objs', last', out', e0, s1, s2, (h hp s1 (.inl rfl) s2 l1 l2 l3).1⟩

end Verif
