import Verif.Lemmas.StdImg
import Verif.Theorems.StdHist
/-
Saving documents whose dictionaries are simply written.
-/
namespace Verif
open Spec

section
variable {R N C : Int → Prop} {D D1 : Int → List (Bytes × Val)} {root : Int} {F X : Option Val → Option Val → Prop} {d d' d'' : List (Bytes × Val)}

theorem UpdR.mem_ne (h : UpdR F X d d') {k : Bytes} {v : Val} (hm : (k, v) ∈ d') (h1 : k ≠ b!"Font") (h2 : k ≠ b!"XObject") : (k, v) ∈ d := by
  rcases h.mem _ hm with h | ⟨h | h, _⟩
  · exact h
  · exact absurd h h1
  · exact absurd h h2

theorem UpdR.mem_name (h : UpdR F X d d') {k n : Bytes} (hm : (k, Val.name n) ∈ d') : (k, Val.name n) ∈ d := by
  rcases h.mem _ hm with h | ⟨_, es, e⟩
  · exact h
  · cases e

theorem Upd.mem_ne (h : Upd F X d d') {k : Bytes} {v : Val} (hm : (k, v) ∈ d') (h1 : k ≠ b!"Font") (h2 : k ≠ b!"XObject") (h3 : k ≠ b!"Resources") : (k, v) ∈ d := by
  rcases h.mem _ hm with h | ⟨h | h, _⟩ | ⟨h, _⟩
  · exact h
  · exact absurd h h1
  · exact absurd h h2
  · exact absurd h h3

theorem Upd.mem_name (h : Upd F X d d') {k n : Bytes} (hm : (k, Val.name n) ∈ d') : (k, Val.name n) ∈ d := by
  rcases h.mem _ hm with h | ⟨_, es, e⟩ | ⟨_, es, es', _, e, _⟩
  · exact h
  · cases e
  · cases e

/-- Documents stay linked when fonts and images change. -/
theorem Linked.upd (h : Linked R C D root) (hu : ∀ i, R i → Upd F X (D i) (D1 i)) : Linked R C D1 root := by
  have hres : ∀ i, R i → ∀ v, (b!"Resources", v) ∈ D1 i → (b!"Resources", v) ∈ D i ∨ ∃ es es', (b!"Resources", Val.dict es) ∈ D i ∧ v = .dict es' ∧ UpdR F X es es' := by
    intro i hi v hv
    rcases (hu i hi).mem _ hv with h | ⟨h | h, _⟩ | ⟨_, h⟩
    · exact Or.inl h
    · simp at h
    · simp at h
    · exact Or.inr h
  refine ⟨h.range, h.top, fun k n hm => h.rootNames k n ((hu root h.top).mem_name hm), fun v hv => h.pages v ((hu root h.top).mem_ne hv (by decide) (by decide) (by decide)),
    fun i hi v hv => h.kids i hi v ((hu i hi).mem_ne hv (by decide) (by decide) (by decide)), ?_, ?_, fun i hi k n hm => h.names i hi k n ((hu i hi).mem_name hm), ?_,
    fun i hi v hv => h.contents i hi v ((hu i hi).mem_ne hv (by decide) (by decide) (by decide))⟩
  · intro i hi v hv
    rcases hres i hi v hv with hv | ⟨es, es', h1, rfl, h2⟩
    · exact h.res i hi v hv
    · rcases h.res i hi _ h1 with ⟨j, e, _⟩ | ⟨es0, e, k1, k2, k3, k4⟩
      · cases e
      · cases e
        refine Or.inr ⟨es', rfl, fun k n hm => k1 k n (h2.mem_name hm), ?_, fun w hw => k3 w (h2.mem_ne hw (by decide) (by decide)), fun w hw => k4 w (h2.mem_ne hw (by decide) (by decide))⟩
        intro w hw
        rcases h2.mem _ hw with h | ⟨_, h⟩
        · exact k2 w h
        · exact h
  · rcases h.uniform with hf | hf
    · left
      intro i hi v hv
      rcases hres i hi v hv with hv | ⟨es, es', h1, rfl, h2⟩
      · exact hf i hi v hv
      · obtain ⟨j, e⟩ := hf i hi _ h1
        cases e
    · right
      intro i hi v hv
      rcases hres i hi v hv with hv | ⟨es, es', h1, rfl, h2⟩
      · exact hf i hi v hv
      · exact ⟨es', rfl⟩
  · intro i hi v hv
    rcases (hu i hi).mem _ hv with h1 | ⟨_, h1⟩ | ⟨h1, _⟩
    · exact h.xobj i hi v h1
    · exact h1
    · simp at h1

/-- entries that do not concern fonts and images are kept -/
def KeptBut (d d' : List (Bytes × Val)) : Prop := (∀ k, k ≠ b!"Font" → k ≠ b!"XObject" → k ≠ b!"Resources" → d'.lookup k = d.lookup k) ∧ ∀ k n, (k, Val.name n) ∈ d' → (k, Val.name n) ∈ d

theorem Upd.kept (h : Upd F X d d') : KeptBut d d' := ⟨h.same, fun _ _ hm => h.mem_name hm⟩

theorem KeptBut.trans (h : KeptBut d d') (h' : KeptBut d' d'') : KeptBut d d'' :=
  ⟨fun k h1 h2 h3 => (h'.1 k h1 h2 h3).trans (h.1 k h1 h2 h3), fun k n hm => h.2 k n (h'.2 k n hm)⟩

theorem saved_comp (hF : ∀ o, F o o) (hX : ∀ o, X o o) (h : Upd F (fun o o' => o' = o) d d') (h' : Upd (fun o o' => o' = o) X d' d'') : DictSaved F X d d'' := by
  refine ⟨fun k h1 h2 h3 => (h'.same k h1 h2 h3).trans (h.same k h1 h2 h3), by rw [h'.font]; exact h.font, by rw [← h.xobj]; exact h'.xobj, ?_⟩
  rcases h.res with h1 | ⟨es, es', e1, e2, u⟩
  · rcases h'.res with h2 | ⟨fs, fs', f1, f2, u'⟩
    · exact Or.inl (h2.trans h1)
    · exact Or.inr ⟨fs, fs', h1 ▸ f1, f2, u'.same, by rw [u'.font]; exact hF _, u'.xobj⟩
  · rcases h'.res with h2 | ⟨fs, fs', f1, f2, u'⟩
    · exact Or.inr ⟨es, es', e1, h2.trans e2, u.same, u.font, by rw [u.xobj]; exact hX _⟩
    · rw [e2] at f1
      cases f1
      exact Or.inr ⟨es, fs', e1, f2, fun k h1 h2 => (u'.same k h1 h2).trans (u.same k h1 h2), by rw [u'.font]; exact u.font, by rw [← u.xobj]; exact u'.xobj⟩

/-! ### the page tree is the same -/

theorem KeptBut.unused (h : KeptBut d d') {k : Bytes} (hu : Unused d k) (h1 : k ≠ b!"Font") (h2 : k ≠ b!"XObject") (h3 : k ≠ b!"Resources") : Unused d' k :=
  ⟨by rw [h.1 k h1 h2 h3]; exact hu.1, fun k' hm => hu.2 k' (h.2 _ _ hm)⟩

theorem KeptBut.entry (h : KeptBut d d') {k : Bytes} {v : Val} (hu : EntryIs d k v) (h1 : k ≠ b!"Font") (h2 : k ≠ b!"XObject") (h3 : k ≠ b!"Resources") : EntryIs d' k v :=
  ⟨by rw [h.1 k h1 h2 h3]; exact hu.1, fun k' hm => hu.2 k' (h.2 _ _ hm)⟩

variable {objs objs' : List Obj}

mutual
theorem tree_saved (hkids : ∀ i, R i → ∀ v, (b!"Kids", v) ∈ D i → ∃ ids : List Int, ids ≠ [] ∧ v = .arr (ids.map .ref) ∧ ∀ j ∈ ids, R j) (hold : ∀ i, R i → StdDict objs i (D i))
    (hnew : ∀ i, R i → ∃ e', StdDict objs' i e' ∧ KeptBut (D i) e') : ∀ (t : Tree), StdTree objs t → R t.id → StdTree objs' t ∧ ∀ p ∈ t.pages, R p
  | .leaf i, h, hi => by
    obtain ⟨d, h1, h2⟩ := h
    cases StdDict.unique h1 (hold i hi)
    obtain ⟨e', k1, k2⟩ := hnew i hi
    exact ⟨⟨e', k1, by rw [k2.1 _ (by decide) (by decide) (by decide)]; exact h2.1, k2.unused h2.2 (by decide) (by decide) (by decide)⟩, by intro p hp; simp only [Tree.pages, List.mem_singleton] at hp; exact hp ▸ hi⟩
  | .node i kids, h, hi => by
    obtain ⟨⟨d, h1, h2, h3, h4⟩, h5⟩ := h
    cases StdDict.unique h1 (hold i hi)
    obtain ⟨e', k1, k2⟩ := hnew i hi
    have hk : ∀ j ∈ kids.map Tree.id, R j := by
      obtain ⟨ids, _, e, hids⟩ := hkids i hi _ (lookup_mem h3.1)
      have e2 : ids = kids.map Tree.id := by
        have e := Val.arr.inj e
        have inj : Function.Injective Val.ref := fun a b h => by cases h; rfl
        exact (List.map_injective_iff.2 inj e).symm
      rw [← e2]
      exact hids
    obtain ⟨t1, t2⟩ := trees_saved hkids hold hnew kids h5 hk
    refine ⟨⟨⟨e', k1, by rw [k2.1 _ (by decide) (by decide) (by decide)]; exact h2, k2.entry h3 (by decide) (by decide) (by decide), fun hn => k2.unused (h4 hn) (by decide) (by decide) (by decide)⟩, t1⟩, t2⟩
theorem trees_saved (hkids : ∀ i, R i → ∀ v, (b!"Kids", v) ∈ D i → ∃ ids : List Int, ids ≠ [] ∧ v = .arr (ids.map .ref) ∧ ∀ j ∈ ids, R j) (hold : ∀ i, R i → StdDict objs i (D i))
    (hnew : ∀ i, R i → ∃ e', StdDict objs' i e' ∧ KeptBut (D i) e') : ∀ (ts : List Tree), StdTreeL objs ts → (∀ j ∈ ts.map Tree.id, R j) → StdTreeL objs' ts ∧ ∀ p ∈ pagesL ts, R p
  | [], _, _ => ⟨trivial, by simp [pagesL]⟩
  | t :: ts, h, hi => by
    obtain ⟨h1, h2⟩ := tree_saved hkids hold hnew t h.1 (hi t.id (by simp))
    obtain ⟨h3, h4⟩ := trees_saved hkids hold hnew ts h.2 (fun j hj => hi j (by simp only [List.map_cons, List.mem_cons]; exact Or.inr hj))
    refine ⟨⟨h1, h3⟩, ?_⟩
    intro p hp
    simp only [pagesL, List.mem_append] at hp
    exact hp.elim (h2 p) (h4 p)
end

/-! ### contents -/

theorem lookup_mem_int {α : Type} {l : List (Int × α)} {i : Int} {v : α} (h : l.lookup i = some v) : (i, v) ∈ l := by
  induction l with
  | nil => simp at h
  | cons x l ih =>
    rw [List.lookup_cons] at h
    by_cases e : i = x.1
    · rw [beq_iff_eq.2 e] at h
      cases h
      rw [e]
      simp
    · rw [beq_eq_false_iff_ne.2 e] at h
      simp [ih h]


theorem contents_std (h : Linked R C D root) (hstd : ∀ i, R i → StdDict objs i (D i)) {unzip : Bytes → Option Bytes} {buffs : Nat → Option Bytes} :
    ∀ (ids : List Int) (k : Nat) (m out : List (Int × Bytes)), (∀ i ∈ ids, R i) → (∀ p ∈ m, C p.1) → (m.map (·.1)).Nodup → contentReplaces unzip objs buffs k ids m = .ok out →
      (∀ p ∈ out, C p.1) ∧ (out.map (·.1)).Nodup := by
  intro ids
  induction ids with
  | nil => intro k m out _ hm hnd e; cases e; exact ⟨hm, hnd⟩
  | cons i ids ih =>
    intro k m out hR hm hnd e
    have hi := hR i (by simp)
    have ih := fun k m => ih k m out (fun j hj => hR j (by simp [hj]))
    have ht : Target R C D [b!"Contents"] i := by
      refine ⟨fun h => absurd h (by simp), fun _ => ⟨hi, pathEnd_ok ⟨NotNamed.no (NoLinkNames.not (h.names i hi) (by decide)), fun v hv => ?_⟩⟩⟩
      rcases h.contents i hi v hv with h | h
      · exact Or.inl h
      · exact Or.inr (Or.inl h)
    obtain ⟨rs, r, e1, _, hc⟩ := crawlRun_ok hstd ht
    rw [contentReplaces, e1] at e
    simp only at e
    rw [Res.bind_eq_ok] at e
    obtain ⟨_, rfl, e⟩ := e
    have hc := hc rfl
    rw [Res.bind_eq_ok] at e
    obtain ⟨o, ho, e⟩ := e
    cases o with
    | none => exact ih _ _ hm hnd e
    | some id =>
      have hC : C id := by
        cases hl : rs.lookup i with
        | none => rw [hl] at ho; simp [contentsID, Items.valOf] at ho
        | some it =>
          rw [hl] at ho
          simp only [Option.getD_some] at ho
          rcases hc i it (lookup_mem_int hl) with ⟨rfl, _⟩ | ⟨_, e0, f1, f2, f3⟩
          · simp [contentsID, Items.valOf] at ho
          unfold contentsID at ho
          cases hv : it.valOf b!"Contents" with
          | none => rw [hv] at ho; simp at ho
          | some v =>
            rw [hv] at ho
            simp only at ho
            obtain ⟨s1, w, s2, s3⟩ := upd_items h hi (by decide) f1 f3 hv
            have hw : (b!"Contents", w) ∈ D i := by
              rcases s3 with ⟨s3, _⟩ | ⟨_, _, es, _, _, k1, k2, _⟩
              · exact s3
              · rcases h.res i hi _ k1 with ⟨j, e, _⟩ | ⟨es', e, _, _, _, k3⟩
                · cases e
                · cases e; exact absurd k2 (k3 w)
            rcases h.contents i hi w hw with ⟨c, rfl, c1, c2⟩ | ⟨cs, c0, rfl, c1⟩
            · rw [ref_type' s2 s1 c1] at ho
              simp only [value_ref s2.values s2.simple s1 s2.refs c1, Res.ok_bind, Res.ok.injEq, Option.some.injEq] at ho
              exact ho ▸ c2
            · rw [refs_type s2 s1] at ho
              simp only [(value_refs s2.values s2.simple s1 s2.refs (fun n hn => (c1 n hn).1)).1 c0, Res.ok_bind] at ho
              cases cs with
              | nil => exact absurd rfl c0
              | cons c cs =>
                simp only [List.head?_cons, Res.ofOption, Res.ok_bind, Res.ok.injEq, Option.some.injEq] at ho
                exact ho ▸ (c1 c (by simp)).2
      simp only at e
      rw [Res.bind_eq_ok] at e
      obtain ⟨stm, _, e⟩ := e
      cases hb : buffs (k + 1) with
      | none => rw [hb] at e; exact ih _ _ hm hnd e
      | some b =>
        rw [hb] at e
        refine ih _ _ ?_ (mapPut_nodup hnd _ _) e
        intro p hp
        rcases mapPut_mem hp with rfl | hp
        · exact hC
        · exact hm p hp

/-- Only content objects are changed when contents are added. -/
theorem content_std {d d' : Doc} {t : Tree} (h : Linked R C D d.rootObjID) (hstd : ∀ i, R i → StdDict d.objs i (D i)) (hC : ∀ i, C i → ∃ o, OnlyObj d.objs i o) (ht : StdDoc d t) (hp : ∀ p ∈ t.pages, R p)
    {unzip : Bytes → Option Bytes} {streams : List (Int × Bytes)} (hi : injectContent unzip d streams = .ok d') :
    d'.rootObjID = d.rootObjID ∧ ∀ i o, ¬ C i → OnlyObj d.objs i o → OnlyObj d'.objs i o := by
  unfold injectContent at hi
  rw [(C79_pages_partial ht).1] at hi
  simp only [Res.ok_bind] at hi
  rw [Res.bind_eq_ok] at hi
  obtain ⟨reps, hr, hi⟩ := hi
  rw [Res.bind_eq_ok] at hi
  obtain ⟨objs, ho, hi⟩ := hi
  simp only [Res.ok.injEq] at hi
  subst hi
  obtain ⟨h1, h2⟩ := contents_std h hstd t.pages 0 [] reps hp (by simp) (by simp) hr
  obtain ⟨k1, _⟩ := applyReplaces_only _ ho (fun p hp => hC _ (h1 p hp)) h2
  refine ⟨rfl, fun i o hn ho => filter_only (k1 i ?_) ho⟩
  intro hm
  obtain ⟨p, hp, rfl⟩ := List.mem_map.1 hm
  exact hn (h1 p hp)

end

end Verif
