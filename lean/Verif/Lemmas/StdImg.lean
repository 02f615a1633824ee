import Verif.Lemmas.StdFont
import Verif.Theorems.SavedImg
/-
`injectImgsToPDF` in documents whose dictionaries are simply written.
-/
namespace Verif
open Spec

/-- the beginning of a key -/
def GoodPre (c : Bytes) : Prop := ∃ k, GoodKey k ∧ c <+: k

theorem GoodPre.numbered {c : Bytes} (h : GoodPre c) (n : Int) : GoodKey (c ++ itoa n) := by
  obtain ⟨k, h1, h2⟩ := h
  exact h1.numbered h2 n

theorem crXObjs_std {es : List (Bytes × Val)} {ps : Props} (h : StdProps es ps) (hss : ∀ p ∈ ps, SS p.rawVal) : (∀ x ∈ crXObjsOf ps, GoodPre x.chr) ∧
    ((∀ x ∈ es, ImgName x.1 ∧ ∃ n, x.2 = Val.ref n ∧ Readable n) → refEntries ((crXObjsOf ps).map CrXObj.named) = es) := by
  obtain ⟨h1, h2⟩ := h
  constructor
  · have : ∀ ps : Props, (∀ p ∈ ps, GoodKey p.key) → ∀ x ∈ crXObjsOf ps, GoodPre x.chr := by
      intro ps
      induction ps with
      | nil => intro _ x hx; simp [crXObjsOf] at hx
      | cons p ps ih =>
        intro hk x hx
        rw [crXObjsOf] at hx
        split at hx
        · simp at hx
        · rename_i a n hs
          split at hx
          · rcases List.mem_cons.1 hx with rfl | hx
            · exact ⟨p.key, hk p (by simp), splitXObj_prefix hs⟩
            · exact ih (fun q hq => hk q (by simp [hq])) x hx
          · simp at hx
    exact this ps (fun p hp => ⟨(h2 p hp).1, (h2 p hp).2.2.key, (h2 p hp).2.2.keyStream⟩)
  · induction h1 with
    | nil => intro _; rfl
    | @name k n r r' d ps _ _ _ ih => intro hf; obtain ⟨_, m, e, _⟩ := hf (k, .name n) (by simp); cases e
    | @value k r v d ps hn hv _ ih =>
      intro hf
      obtain ⟨⟨p, q, e0, hq, hp⟩, m, e, hm⟩ := hf (k, v) (by simp)
      simp only at e0 e
      subst e0
      subst e
      obtain ⟨g1, g2, g3⟩ := h2 ⟨p ++ natDigits q, r⟩ (by simp)
      have hid : readObjIDFromDictionary r = .ok m := value_ref hv g2 (hss ⟨p ++ natDigits q, r⟩ (by simp)) g3.refs hm
      have ih' := ih (fun p hp => hss p (by simp [hp])) (fun p hp => h2 p (by simp [hp])) (fun x hx => hf x (by simp [hx]))
      rw [crXObjsOf, splitXObj_name (fun c hc => hp c hc) hq]
      simp only [hid, List.map_cons, refEntries, CrXObj.named, itoa_natCast]
      rw [← ih']
      rfl

theorem parseX_std {v : Bytes} {es : List (Bytes × Val)} (h : StdVal v (.dict es)) (hs : SS v) : (∀ x ∈ parseCrXObjs v, GoodPre x.chr) ∧
    ((∀ x ∈ es, ImgName x.1 ∧ ∃ n, x.2 = Val.ref n ∧ Readable n) → refEntries ((parseCrXObjs v).map CrXObj.named) = es) := by
  obtain ⟨ps, h1, h2, h3⟩ := dict_props h hs
  unfold parseCrXObjs
  rw [h1]
  exact crXObjs_std h2 h3

theorem scan_good : ∀ (vs : List Bytes) (xs : List CrXObj) (c : Bytes) (n : Int), (∀ v ∈ vs, ∀ x ∈ parseCrXObjs v, GoodPre x.chr) → (∀ x ∈ xs, GoodPre x.chr) → GoodPre c →
    (∀ x ∈ (xobjScan vs xs c n).1, GoodPre x.chr) ∧ GoodPre (xobjScan vs xs c n).2.1 := by
  intro vs
  induction vs with
  | nil => intro xs c n _ h1 h2; exact ⟨h1, h2⟩
  | cons v vs ih =>
    intro xs c n h h1 h2
    have h3 : ∀ x ∈ xs ++ parseCrXObjs v, GoodPre x.chr := by
      intro x hx
      rcases List.mem_append.1 hx with hx | hx
      · exact h1 x hx
      · exact h v (by simp) x hx
    rw [xobjScan]
    split
    · exact ih _ _ _ (fun w hw => h w (by simp [hw])) h3 h2
    · rename_i l hl
      exact ih _ _ _ (fun w hw => h w (by simp [hw])) h3 (h3 l (List.mem_of_getLast? hl))

theorem newX_good {c : Bytes} (hc : GoodPre c) (ids : List Int) : ∀ n, ∀ x ∈ newCrXObjs c n ids, GoodPre x.chr := by
  induction ids with
  | nil => intro n x hx; simp [newCrXObjs] at hx
  | cons i ids ih =>
    intro n x hx
    rw [newCrXObjs] at hx
    rcases List.mem_cons.1 hx with rfl | hx
    · exact hc
    · exact ih _ x hx

theorem merge_names (t : List CrXObj) : ∀ acc : List CrXObj, ∀ x, x ∈ acc ∨ x ∈ t → ∃ y ∈ mergeXObjs acc t, y.chr = x.chr ∧ y.idx = x.idx := by
  induction t with
  | nil => intro acc x hx; simp at hx; exact ⟨x, hx, rfl, rfl⟩
  | cons z t ih =>
    intro acc x hx
    rw [mergeXObjs]
    rw [List.mem_cons] at hx
    split
    · rename_i ha
      rcases hx with hx | rfl | hx
      · exact ih acc x (Or.inl hx)
      · rw [List.any_eq_true] at ha
        obtain ⟨e, he, h2⟩ := ha
        simp only [decide_eq_true_eq] at h2
        obtain ⟨y, hy, h3, h4⟩ := ih acc e (Or.inl he)
        exact ⟨y, hy, h3.trans h2.1, h4.trans h2.2⟩
      · exact ih acc x (Or.inr hx)
    · rcases hx with hx | rfl | hx
      · exact ih _ x (Or.inl (by simp [hx]))
      · exact ih _ x (Or.inl (by simp))
      · exact ih _ x (Or.inr hx)

theorem entries_names {l : List CrXObj} {l' : List CrXObj} (h : ∀ x ∈ l, ∃ y ∈ l', y.chr = x.chr ∧ y.idx = x.idx) :
    ∀ x ∈ refEntries (l.map CrXObj.named), ∃ y ∈ refEntries (l'.map CrXObj.named), y.1 = x.1 := by
  intro x hx
  simp only [refEntries, List.map_map, List.mem_map] at hx ⊢
  obtain ⟨z, hz, rfl⟩ := hx
  obtain ⟨y, hy, h1, h2⟩ := h z hz
  exact ⟨_, ⟨y, hy, rfl⟩, by simp [CrXObj.named, h1, h2]⟩

theorem merge_prefix (t : List CrXObj) : ∀ acc : List CrXObj, acc <+: mergeXObjs acc t ∧ ∀ x ∈ mergeXObjs acc t, x ∈ acc ∨ x ∈ t := by
  induction t with
  | nil => intro acc; simp [mergeXObjs]
  | cons y t ih =>
    intro acc
    rw [mergeXObjs]
    split
    · obtain ⟨h1, h2⟩ := ih acc
      exact ⟨h1, fun x hx => (h2 x hx).imp id (by simp +contextual)⟩
    · obtain ⟨h1, h2⟩ := ih (acc ++ [y])
      refine ⟨(List.prefix_append _ _).trans h1, fun x hx => ?_⟩
      rcases h2 x hx with h | h
      · simp at h
        rcases h with h | h
        · exact Or.inl h
        · exact Or.inr (by simp [h])
      · exact Or.inr (by simp [h])

theorem xobjs_writes {l : List CrXObj} (h : ∀ x ∈ l, GoodPre x.chr) : Writes (crXObjsString l) (refEntries (l.map CrXObj.named)) := by
  refine ⟨_, crXObjs_flat l, refProps_std (Or.inl rfl) ?_⟩
  intro x hx
  obtain ⟨y, hy, rfl⟩ := List.mem_map.1 hx
  exact (h y hy).numbered y.idx

theorem Writes.text {s : Bytes} {d : List (Bytes × Val)} (h : Writes s d) : StdText s d := by
  obtain ⟨ps, rfl, hp⟩ := h
  exact stdProps_text hp

theorem xobjs_val {l : List CrXObj} (h : ∀ x ∈ l, GoodPre x.chr) : StdVal (b!"<<" ++ crXObjsString l ++ b!">>\n") (.dict (refEntries (l.map CrXObj.named))) := by
  have := stdVal_dict (a := []) (b := b!"\n") (by simp [White]) (by decide) (by decide) (xobjs_writes h).text
  have e : b!"<<" ++ crXObjsString l ++ b!">>\n" = [] ++ (b!"<<" ++ crXObjsString l ++ b!">>") ++ b!"\n" := by simp
  rw [e]
  exact this

section
variable {R C : Int → Prop} {D : Int → List (Bytes × Val)} {root : Int} {objs : List Obj} {new : List (Bytes × Val)}

theorem findResources_std (h : Linked R C D root) : ∀ (rs : List (Int × Items)) {b : Bool} {i : Int}, Complete R R D rs → findResources rs = .ok (some (b, i)) →
    R i ∧ (b = true → ∃ j es, R j ∧ (b!"Resources", Val.dict es) ∈ D j) := by
  intro rs
  induction rs with
  | nil => intro b i _ e; simp [findResources] at e
  | cons q rs ih =>
    obtain ⟨k, it⟩ := q
    intro b i hc e
    have hc' : Complete R R D rs := fun j jt hj => hc j jt (by simp [hj])
    rw [findResources] at e
    cases hv : it.valOf b!"Resources" with
    | none => rw [hv] at e; exact ih hc' e
    | some v =>
      rw [hv] at e
      rcases hc k it (by simp) with ⟨rfl, _⟩ | ⟨hR, e0, f1, f2, f3⟩
      · simp [Items.valOf] at hv
      obtain ⟨s1, w, s2, s3⟩ := upd_items h hR (by decide) f1 f3 hv
      have hw : (b!"Resources", w) ∈ D k := by
        rcases s3 with ⟨s3, _⟩ | ⟨_, _, es, _, _, k1, k2, _⟩
        · exact s3
        · rcases h.res k hR _ k1 with ⟨j, e, _⟩ | ⟨es', e, _, _, k3, _⟩
          · cases e
          · cases e; exact absurd k2 (k3 w)
      rcases h.res k hR _ hw with ⟨j, rfl, hj⟩ | ⟨es, rfl, _⟩
      · simp only [value_ref s2.values s2.simple s1 s2.refs (h.range j hj)] at e
        simp at e
        obtain ⟨rfl, rfl⟩ := e
        exact ⟨hj, by simp⟩
      · have hno := dict_no_ref s2 s1
        simp only at e
        split at e
        · rename_i id hid; exact absurd hid (hno id)
        · simp at e
          obtain ⟨rfl, rfl⟩ := e
          exact ⟨hR, fun _ => ⟨k, es, hR, hw⟩⟩
        · simp at e
        · simp at e
        · simp at e

/-- a text that may be written for an object -/
def ImgRep (R : Int → Prop) (D : Int → List (Bytes × Val)) (new : List (Bytes × Val)) (p : Int × Bytes) : Prop := R p.1 ∧ ∃ e', Writes p.2 e' ∧ Upd (fun o o' => o' = o) (ImgVal new) (D p.1) e'

/-- the value of /XObject in a result -/
theorem xobj_val (h : Linked R C D root) {i : Int} {it : Items} (hc : (it = .nil ∧ False) ∨ (R i ∧ ∃ e, FineItems it e ∧ (∀ k, e.lookup k = (D i).lookup k) ∧ ∀ x ∈ e, x ∈ D i)) {v : Bytes}
    (hv : it.valOf b!"XObject" = some v) : R i ∧ SS v ∧ ∃ es, StdVal v (.dict es) ∧
      ∀ v' es', StdVal v' (.dict es') → (∀ x ∈ new, ∃ y ∈ es', y.1 = x.1) → ((∀ x ∈ es, ImgName x.1 ∧ ∃ n, x.2 = Val.ref n ∧ Readable n) → es <+: es') → ∃ e', StdItems (it.setValOf b!"XObject" v') e' ∧ Upd (fun o o' => o' = o) (ImgVal new) (D i) e' := by
  rcases hc with ⟨_, hf⟩ | ⟨hR, e0, f1, f2, f3⟩
  · exact hf.elim
  obtain ⟨s1, w, s2, s3, s4⟩ := upd_of_font (F := fun o o' => o' = o) (X := ImgVal new) (fun o => rfl) (fun o => Or.inl rfl) h hR (Or.inr rfl) f1 f2 f3 hv
  have hw : ∃ es, w = .dict es := by
    rcases s3 with s3 | ⟨es, k1, k2⟩
    · exact h.xobj i hR w s3
    · rcases h.res i hR _ k1 with ⟨j, e, _⟩ | ⟨es', e, _, k3, _⟩
      · cases e
      · cases e; exact k3 w k2
  obtain ⟨es, rfl⟩ := hw
  exact ⟨hR, s1, es, s2, fun v' es' k1 k0 k2 => s4 v' es' k1 (fun h => absurd h (by decide)) (fun _ => Or.inr (Or.inr ⟨es, es', rfl, rfl, k0, k2⟩))⟩

theorem xobjReplaces_std (h : Linked R C D root) {xobjs : List CrXObj} (hx : ∀ x ∈ xobjs, GoodPre x.chr) (hn : new <:+ refEntries (xobjs.map CrXObj.named)) : ∀ (rs : List (Int × Items)) (m : List (Int × Bytes)), Complete R (fun _ => False) D rs →
    (∀ p ∈ m, ImgRep R D new p) → (m.map (·.1)).Nodup → (∀ p ∈ xobjReplaces xobjs rs m, ImgRep R D new p) ∧ ((xobjReplaces xobjs rs m).map (·.1)).Nodup := by
  intro rs
  induction rs with
  | nil => intro m _ hm hnd; exact ⟨hm, hnd⟩
  | cons q rs ih =>
    obtain ⟨i, it⟩ := q
    intro m hc hm hnd
    have hc' : Complete R (fun _ => False) D rs := fun j jt hj => hc j jt (by simp [hj])
    rw [xobjReplaces]
    cases hv : it.valOf b!"XObject" with
    | none => exact ih m hc' hm hnd
    | some v =>
      simp only
      obtain ⟨hR, s1, es, s2, s3⟩ := xobj_val h (hc i it (by simp)) hv
      obtain ⟨g1, g2⟩ := parseX_std s2 s1
      obtain ⟨p1, p2⟩ := merge_prefix xobjs (parseCrXObjs v)
      refine ih _ hc' ?_ (mapPut_nodup hnd _ _)
      intro p hp
      rcases mapPut_mem hp with rfl | hp
      · obtain ⟨e', k1, k2⟩ := s3 _ _ (xobjs_val (l := mergeXObjs (parseCrXObjs v) xobjs) (fun x hx' => (p2 x hx').elim (g1 x) (hx x))) (fun x hx' => entries_names (fun x hx => merge_names xobjs (parseCrXObjs v) x (Or.inr hx)) x (hn.subset hx')) (by
          intro hall
          rw [← g2 hall]
          obtain ⟨t, ht⟩ := p1
          rw [← ht, List.map_append, refEntries_append]
          exact List.prefix_append _ _)
        exact ⟨hR, e', k1.writes, k2⟩
      · exact hm p hp

theorem xobject_key : GoodKey b!"XObject" := ⟨by decide, by decide, by decide⟩

theorem addReplaces_std {xobjs : List CrXObj} (hx : ∀ x ∈ xobjs, GoodPre x.chr) (hn : new <:+ refEntries (xobjs.map CrXObj.named)) : ∀ (rs : List (Int × Items)) (m : List (Int × Bytes)), Complete R (fun _ => False) D rs →
    (∀ p ∈ m, ImgRep R D new p) → (m.map (·.1)).Nodup → (∀ p ∈ addReplaces xobjs rs m, ImgRep R D new p) ∧ ((addReplaces xobjs rs m).map (·.1)).Nodup := by
  intro rs
  induction rs with
  | nil => intro m _ hm hnd; exact ⟨hm, hnd⟩
  | cons q rs ih =>
    obtain ⟨i, it⟩ := q
    intro m hc hm hnd
    have hc' : Complete R (fun _ => False) D rs := fun j jt hj => hc j jt (by simp [hj])
    rw [addReplaces]
    refine ih _ hc' ?_ (mapPut_nodup hnd _ _)
    intro p hp
    rcases mapPut_mem hp with rfl | hp
    · rcases hc i it (by simp) with ⟨_, hf⟩ | ⟨hR, e0, f1, f2, f3⟩
      · exact hf.elim
      have hs : StdItems (.str b!"XObject" (b!"<<" ++ crXObjsString xobjs ++ b!">>\n") .nil) [(b!"XObject", .dict (refEntries (xobjs.map CrXObj.named)))] := .value xobject_key (xobjs_val hx) .nil
      refine ⟨hR, _, (f1.std.append hs).writes, ?_⟩
      have hl : ∀ k, k ≠ b!"XObject" → (e0 ++ [(b!"XObject", Val.dict (refEntries (xobjs.map CrXObj.named)))]).lookup k = (D i).lookup k := by
        intro k hk
        rw [List.lookup_append, List.lookup_cons, beq_eq_false_iff_ne.2 hk, f2]
        simp
      refine ⟨fun k _ k2 _ => hl k k2, hl _ (by decide), ?_, Or.inl (hl _ (by decide)), ?_, ?_⟩
      · rw [List.lookup_append, f2]
        cases (D i).lookup b!"XObject" with
        | some w => exact Or.inl rfl
        | none => exact Or.inr (Or.inl ⟨rfl, _, rfl, hn⟩)
      · intro x hx
        rcases List.mem_append.1 hx with hx | hx
        · exact Or.inl (f3 x hx)
        · simp at hx
          subst hx
          exact Or.inr (Or.inl ⟨Or.inr rfl, _, rfl⟩)
      · intro u hu
        rcases List.mem_append.1 hu with hu | hu
        · exact Or.inl (f3 _ hu)
        · simp at hu
    · exact hm p hp

/-- resources in place get images -/
theorem embed_val {v : Bytes} {es : List (Bytes × Val)} (h : StdVal v (.dict es)) (hs : SS v) {xobjs : List CrXObj} (hx : ∀ x ∈ xobjs, GoodPre x.chr) :
    ¬ (trimSpace v).length < 4 ∧ StdVal (b!"<<" ++ (((trimSpace v).take ((trimSpace v).length - 2)).drop 2 ++ b!" /XObject <<" ++ crXObjsString xobjs ++ b!">>") ++ b!">>\n")
      (.dict (es ++ [(b!"XObject", .dict (refEntries (xobjs.map CrXObj.named)))])) := by
  obtain ⟨pre, x, post, rfl, h1, h2, h3⟩ := dict_text h hs
  rw [dict_trim h1 h2]
  have e1 : ((b!"<<" ++ x ++ b!">>").take ((b!"<<" ++ x ++ b!">>").length - 2)).drop 2 = x := by
    have : (b!"<<" ++ x ++ b!">>").length - 2 = (b!"<<" ++ x).length := by simp
    rw [this, List.take_left]
    rfl
  refine ⟨by simp, ?_⟩
  rw [e1]
  have ht : StdText (47 :: (b!"XObject " ++ (b!"<<" ++ crXObjsString xobjs ++ b!">>"))) [(b!"XObject", .dict (refEntries (xobjs.map CrXObj.named)))] := by
    have hv := stdVal_core (xobjs_writes hx).text
    have hw : Writes (47 :: (b!"XObject " ++ (b!"<<" ++ crXObjsString xobjs ++ b!">>"))) [(b!"XObject", .dict (refEntries (xobjs.map CrXObj.named)))] := by
      refine ⟨[⟨b!"XObject", b!"<<" ++ crXObjsString xobjs ++ b!">>"⟩], by simp [flat1], .value hv.noName hv.values .nil, ?_⟩
      intro p hp
      simp only [List.mem_singleton] at hp
      subst hp
      exact ⟨xobject_key.regular, hv.simple, hv.refs, hv.noStream, xobject_key.noStream, xobject_key.simple⟩
    exact hw.text
  have := stdVal_dict (a := []) (b := b!"\n") (by simp [White]) (by decide) (by decide) (stdText_append h3 ht)
  have e2 : b!"<<" ++ (x ++ b!" /XObject <<" ++ crXObjsString xobjs ++ b!">>") ++ b!">>\n" =
      [] ++ (b!"<<" ++ (x ++ 32 :: 47 :: (b!"XObject " ++ (b!"<<" ++ crXObjsString xobjs ++ b!">>"))) ++ b!">>") ++ b!"\n" := by simp
  rw [e2]
  exact this

theorem embedReplaces_std (h : Linked R C D root) (hd : ∀ i, R i → ∀ v, (b!"Resources", v) ∈ D i → ∃ es, v = Val.dict es) {xobjs : List CrXObj} (hx : ∀ x ∈ xobjs, GoodPre x.chr)
    (hn : new <:+ refEntries (xobjs.map CrXObj.named)) : ∀ (rs : List (Int × Items)) (m out : List (Int × Bytes)), Complete R R D rs →
    (∀ p ∈ m, ImgRep R D new p) → (m.map (·.1)).Nodup → embedReplaces xobjs rs m = .ok out → (∀ p ∈ out, ImgRep R D new p) ∧ (out.map (·.1)).Nodup := by
  intro rs
  induction rs with
  | nil => intro m out _ hm hnd e; cases e; exact ⟨hm, hnd⟩
  | cons q rs ih =>
    obtain ⟨i, it⟩ := q
    intro m out hc hm hnd e
    have hc' : Complete R R D rs := fun j jt hj => hc j jt (by simp [hj])
    rw [embedReplaces] at e
    cases hv : it.valOf b!"Resources" with
    | none => rw [hv] at e; exact ih m out hc' hm hnd e
    | some v =>
      rw [hv] at e
      simp only at e
      rcases hc i it (by simp) with ⟨rfl, _⟩ | ⟨hR, e0, f1, f2, f3⟩
      · simp [Items.valOf] at hv
      obtain ⟨s1, w, s2, s3⟩ := upd_items h hR (by decide) f1 f3 hv
      rcases s3 with ⟨s3, a, b, e1, e2⟩ | ⟨_, _, es, _, _, k1, k2, _⟩
      · obtain ⟨es, rfl⟩ := hd i hR w s3
        obtain ⟨n1, n2⟩ := embed_val s2 s1 hx
        rw [if_neg n1] at e
        refine ih _ out hc' ?_ (mapPut_nodup hnd _ _) e
        intro p hp
        rcases mapPut_mem hp with rfl | hp
        · refine ⟨hR, _, (e2 _ _ n2).writes, ?_⟩
          have hl : ∀ k, k ≠ b!"Resources" → (a ++ (b!"Resources", Val.dict (es ++ [(b!"XObject", .dict (refEntries (xobjs.map CrXObj.named)))])) :: b).lookup k = (D i).lookup k := by
            intro k hk
            rw [lookup_repl_ne hk (w := .dict es), ← e1, f2]
          have hes : UpdR (fun o o' => o' = o) (ImgVal new) es (es ++ [(b!"XObject", .dict (refEntries (xobjs.map CrXObj.named)))]) := by
            have hl' : ∀ k, k ≠ b!"XObject" → (es ++ [(b!"XObject", Val.dict (refEntries (xobjs.map CrXObj.named)))]).lookup k = es.lookup k := by
              intro k hk
              rw [List.lookup_append, List.lookup_cons, beq_eq_false_iff_ne.2 hk]
              simp
            refine ⟨fun k _ k2 => hl' k k2, hl' _ (by decide), ?_, ?_, ?_⟩
            · rw [List.lookup_append]
              cases es.lookup b!"XObject" with
              | some w => exact Or.inl rfl
              | none => exact Or.inr (Or.inl ⟨rfl, _, rfl, hn⟩)
            · intro x hx
              rcases List.mem_append.1 hx with hx | hx
              · exact Or.inl hx
              · simp at hx
                subst hx
                exact Or.inr ⟨Or.inr rfl, _, rfl⟩
            · intro u hu
              rcases List.mem_append.1 hu with hu | hu
              · exact Or.inl hu
              · simp at hu
          refine ⟨fun k _ _ k3 => hl k k3, hl _ (by decide), Or.inl (hl _ (by decide)), ?_, ?_, ?_⟩
          · rcases lookup_repl (k := b!"Resources") (a := a) (b := b) (w := .dict es) (w' := .dict (es ++ [(b!"XObject", .dict (refEntries (xobjs.map CrXObj.named)))])) with e | ⟨k1, k2⟩
            · left; rw [e, ← e1, f2]
            · right; exact ⟨es, _, by rw [← f2, e1, k1], k2, hes⟩
          · intro x hx
            rw [List.mem_append, List.mem_cons] at hx
            rcases hx with hx | rfl | hx
            · exact Or.inl (f3 x (by rw [e1]; simp [hx]))
            · exact Or.inr (Or.inr ⟨rfl, es, _, s3, rfl, hes⟩)
            · exact Or.inl (f3 x (by rw [e1]; simp [hx]))
          · intro u hu
            rw [List.mem_append, List.mem_cons] at hu
            rcases hu with hu | hu | hu
            · exact Or.inl (f3 _ (by rw [e1]; simp [hu]))
            · simp at hu
            · exact Or.inl (f3 _ (by rw [e1]; simp [hu]))
        · exact hm p hp
      · rcases h.res i hR _ k1 with ⟨j, e, _⟩ | ⟨es', e, _, _, k3, _⟩
        · cases e
        · cases e; exact absurd k2 (k3 w)

/-- **Images** in such documents. -/
theorem imgs_std {d d3 : Doc} (hstd : ∀ i, R i → StdDict d.objs i (D i)) (h : Linked R C D d.rootObjID) {σ : Nat → Shuffle} {iids : List Int} {xnew : List CrXObj} (hi : injectImgs σ d iids = .ok (d3, xnew)) :
    d3.rootObjID = d.rootObjID ∧ (∀ i, R i → ∃ e', StdDict d3.objs i e' ∧ Upd (fun o o' => o' = o) (ImgVal (refEntries (xnew.map CrXObj.named))) (D i) e') ∧
    ∀ i o, ¬ R i → OnlyObj d.objs i o → OnlyObj d3.objs i o := by
  have hl : ∀ {es}, NoLinkNames es → (∀ v, (b!"XObject", v) ∈ es → ∃ xs, v = .dict xs) → PathEnd (fun _ => False) b!"XObject" es :=
    fun h1 h2 => ⟨NotNamed.no (NoLinkNames.not h1 (by decide)), fun v hv => Or.inr (Or.inr (h2 v hv))⟩
  obtain ⟨t1, t2, t3⟩ := h.paths (N := fun _ => False) (key := b!"XObject") (fun i hi => hl (h.names i hi) (h.xobj i hi)) (by
    intro i hi es hes
    rcases h.res i hi _ hes with ⟨j, e, _⟩ | ⟨es', e, k1, k2, _⟩
    · cases e
    · cases e; exact hl k1 k2)
  obtain ⟨u1, u2⟩ := h.resPaths
  unfold injectImgs at hi
  rw [Res.bind_eq_ok] at hi
  obtain ⟨rs, hrs, hi⟩ := hi
  have hcomp := pageCrawl_ok (N := R) hstd u2 u1 hrs
  rw [Res.bind_eq_ok] at hi
  obtain ⟨fr, hfr, hi⟩ := hi
  cases fr with
  | none => simp at hi
  | some p =>
    obtain ⟨emb, from_⟩ := p
    obtain ⟨hfrom, hemb⟩ := findResources_std h _ (fun i it hit => hcomp i it (((σ 21).perm rs).subset hit)) hfr
    simp only at hi
    obtain ⟨cw, r, ecw, _, hcw⟩ := crawlRun_ok (N := fun _ => False) hstd (t2 from_ hfrom)
    rw [ecw] at hi
    simp only at hi
    rw [Res.bind_eq_ok] at hi
    obtain ⟨_, hr, hi⟩ := hi
    have hcw := hcw hr
    rw [Res.bind_eq_ok] at hi
    obtain ⟨⟨cw', vals⟩, hsel, hi⟩ := hi
    have hcw' : Complete R (fun _ => False) D cw' ∧ vals = xobjVals cw' := by
      split at hsel
      · rw [Res.bind_eq_ok] at hsel
        obtain ⟨cw2, h2, hsel⟩ := hsel
        simp only [Res.ok.injEq, Prod.mk.injEq] at hsel
        obtain ⟨rfl, rfl⟩ := hsel
        exact ⟨pageCrawl_ok hstd t3 t1 h2, rfl⟩
      · simp only [Res.ok.injEq, Prod.mk.injEq] at hsel
        obtain ⟨rfl, rfl⟩ := hsel
        exact ⟨hcw, rfl⟩
    obtain ⟨hc', rfl⟩ := hcw'
    simp only at hi
    have hvals : ∀ v ∈ (σ 23).fn (xobjVals cw'), ∀ x ∈ parseCrXObjs v, GoodPre x.chr := by
      intro v hv
      have hv := ((σ 23).perm _).subset hv
      unfold xobjVals at hv
      rw [List.mem_filterMap] at hv
      obtain ⟨⟨i, it⟩, hq, hv⟩ := hv
      obtain ⟨_, s1, es, s2, _⟩ := xobj_val (new := []) h (hc' i it hq) hv
      exact (parseX_std s2 s1).1
    obtain ⟨g1, g2⟩ := scan_good _ [] b!"I" 0 hvals (by simp) ⟨b!"I", goodKey_letter (Or.inr rfl), List.prefix_refl _⟩
    obtain ⟨⟨xs, c, n⟩, hscan⟩ : ∃ y, xobjScan ((σ 23).fn (xobjVals cw')) [] b!"I" 0 = y := ⟨_, rfl⟩
    rw [hscan] at hi g1 g2
    simp only at hi g1 g2
    have hx : ∀ x ∈ xs ++ newCrXObjs c n iids, GoodPre x.chr := by
      intro x hx
      rcases List.mem_append.1 hx with hx | hx
      · exact g1 x hx
      · exact newX_good g2 iids n x hx
    rw [Res.bind_eq_ok] at hi
    obtain ⟨reps, hreps, hi⟩ := hi
    rw [Res.bind_eq_ok] at hi
    obtain ⟨objs', happ, hi⟩ := hi
    simp only [Res.ok.injEq, Prod.mk.injEq] at hi
    obtain ⟨rfl, rfl⟩ := hi
    have hn : refEntries ((newCrXObjs c n iids).map CrXObj.named) <:+ refEntries ((xs ++ newCrXObjs c n iids).map CrXObj.named) := by
      rw [List.map_append, refEntries_append]
      exact List.suffix_append _ _
    have hrep : (∀ p ∈ reps, ImgRep R D (refEntries ((newCrXObjs c n iids).map CrXObj.named)) p) ∧ (reps.map (·.1)).Nodup := by
      split at hreps
      · simp only [Res.ok.injEq] at hreps
        subst hreps
        exact xobjReplaces_std h hx hn _ [] (fun i it hit => hc' i it (((σ 24).perm _).subset hit)) (by simp) (by simp)
      · split at hreps
        · rename_i hem
          obtain ⟨cw1, r1, e1, _, h1⟩ := crawlRun_ok (N := R) hstd u2
          rw [e1] at hreps
          simp only at hreps
          rw [Res.bind_eq_ok] at hreps
          obtain ⟨_, hr1, hreps⟩ := hreps
          have hd : ∀ i, R i → ∀ v, (b!"Resources", v) ∈ D i → ∃ es, v = Val.dict es := by
            rcases h.uniform with hu | hu
            · obtain ⟨j, es, k1, k2⟩ := hemb hem
              obtain ⟨_, e⟩ := hu j k1 _ k2
              cases e
            · exact hu
          exact embedReplaces_std h hd hx hn _ [] reps (fun i it hit => h1 hr1 i it (((σ 25).perm _).subset hit)) (by simp) (by simp) hreps
        · simp only [Res.ok.injEq] at hreps
          subst hreps
          exact addReplaces_std hx hn _ [] (fun i it hit => hc' i it (((σ 26).perm _).subset hit)) (by simp) (by simp)
    obtain ⟨r1, r2⟩ := hrep
    obtain ⟨a1, a2⟩ := apply_std happ r2 (fun p hp => ⟨_, hstd p.1 (r1 p hp).1⟩)
    refine ⟨rfl, ?_, ?_⟩
    · intro i hR
      by_cases hin : i ∈ reps.map (·.1)
      · obtain ⟨⟨j, s⟩, hp, rfl⟩ := List.mem_map.1 hin
        obtain ⟨_, e', k1, k2⟩ := r1 _ hp
        exact ⟨e', a2 j s e' hp k1, k2⟩
      · exact ⟨D i, StdDict.kept (hstd i hR) (fun o ho => a1 i o hin ho), upd_refl (F := fun o o' => o' = o) (fun o => rfl) (fun o => Or.inl rfl) _⟩
    · intro i o n1 ho
      refine a1 i o (fun hin => ?_) ho
      obtain ⟨⟨j, s⟩, hp, rfl⟩ := List.mem_map.1 hin
      exact n1 (r1 _ hp).1

end

end Verif
