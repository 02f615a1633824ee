import Verif.Lemmas.StdUpdate
import Verif.Spec.StdSave
/-
`injectFontsToPDF` in documents whose dictionaries are simply written.
-/
namespace Verif
open Spec

/-! ### what is needed of the documents -/

section
variable {R N C : Int → Prop} {D : Int → List (Bytes × Val)} {root : Int}

/-- the values of the last key on a path -/
def PathEnd (N : Int → Prop) (key : Bytes) (d : List (Bytes × Val)) : Prop :=
  (∀ k', (k', Val.name key) ∉ d) ∧ ∀ v, (key, v) ∈ d → (∃ j, v = .ref j ∧ InRange j ∧ N j) ∨ (∃ ids : List Int, ids ≠ [] ∧ v = .arr (ids.map .ref) ∧ ∀ j ∈ ids, InRange j ∧ N j) ∨ ∃ fs, v = .dict fs

theorem pathEnd_ok {key : Bytes} {d : List (Bytes × Val)} (h : PathEnd N key d) : PathOk R N D [key] d := by
  refine ⟨h.1, fun v hv => ?_⟩
  rcases h.2 v hv with ⟨j, rfl, h1, h2⟩ | ⟨ids, h0, rfl, h1⟩ | ⟨fs, rfl⟩
  · exact Or.inl ⟨j, rfl, h1, fun _ => h2, fun h => absurd rfl h⟩
  · exact Or.inr (Or.inl ⟨ids, h0, rfl, fun j hj => ⟨(h1 j hj).1, fun _ => (h1 j hj).2, fun h => absurd rfl h⟩⟩)
  · exact Or.inr (Or.inr ⟨fs, rfl, fun h => absurd rfl h, trivial⟩)

/-- The part of what is assumed of a document that does not concern fonts. -/
structure Linked (R C : Int → Prop) (D : Int → List (Bytes × Val)) (root : Int) : Prop where
  range : ∀ i, R i → InRange i
  top : R root
  rootNames : ∀ k n, (k, Val.name n) ∈ D root → k ≠ b!"Pages" ∧ n ≠ b!"Pages"
  pages : ∀ v, (b!"Pages", v) ∈ D root → ∃ i, v = .ref i ∧ R i
  kids : ∀ i, R i → ∀ v, (b!"Kids", v) ∈ D i → ∃ ids : List Int, ids ≠ [] ∧ v = .arr (ids.map .ref) ∧ ∀ j ∈ ids, R j
  res : ∀ i, R i → ∀ v, (b!"Resources", v) ∈ D i → (∃ j, v = .ref j ∧ R j) ∨ ∃ es, v = .dict es ∧ NoLinkNames es ∧ (∀ w, (b!"XObject", w) ∈ es → ∃ xs, w = .dict xs) ∧
    (∀ w, (b!"Resources", w) ∉ es) ∧ ∀ w, (b!"Contents", w) ∉ es
  uniform : (∀ i, R i → ∀ v, (b!"Resources", v) ∈ D i → ∃ j, v = .ref j) ∨ ∀ i, R i → ∀ v, (b!"Resources", v) ∈ D i → ∃ es, v = .dict es
  names : ∀ i, R i → NoLinkNames (D i)
  xobj : ∀ i, R i → ∀ v, (b!"XObject", v) ∈ D i → ∃ xs, v = .dict xs
  contents : ∀ i, R i → ∀ v, (b!"Contents", v) ∈ D i → (∃ c, v = .ref c ∧ InRange c ∧ C c) ∨ ∃ ids : List Int, ids ≠ [] ∧ v = .arr (ids.map .ref) ∧ ∀ c ∈ ids, InRange c ∧ C c

theorem Spec.LinkedDoc.linked {objs : List Obj} (h : LinkedDoc objs root R N C D) : Linked R C D root := by
  refine ⟨fun i hi => StdDict.range (h.dicts i (Or.inl hi)), h.top, h.rootNames, h.pages, h.kids, ?_, h.uniform, fun i hi => (h.entries i hi).names, fun i hi => (h.entries i hi).xobj, h.contents⟩
  intro i hi v hv
  rcases h.res i hi v hv with h | ⟨es, h1, h2, h3⟩
  · exact Or.inl h
  · exact Or.inr ⟨es, h1, h2.names, h2.xobj, h3⟩

theorem NoLinkNames.not {d : List (Bytes × Val)} {k : Bytes} (h : NoLinkNames d) (hk : k ∈ linkKeys) : NotNamed k d := by
  intro k' n hm
  obtain ⟨h1, h2⟩ := h k' n hm
  exact ⟨fun e => h1 (e ▸ hk), fun e => h2 (e ▸ hk)⟩

theorem NotNamed.no {d : List (Bytes × Val)} {k : Bytes} (h : NotNamed k d) : ∀ k', (k', Val.name k) ∉ d := fun k' hm => (h k' k hm).2 rfl

/-- paths that end with a key of the resources -/
theorem Linked.paths (h : Linked R C D root) {key : Bytes} (hk : ∀ i, R i → PathEnd N key (D i)) (hk' : ∀ i, R i → ∀ es, (b!"Resources", Val.dict es) ∈ D i → PathEnd N key es) :
    (∀ i, R i → Target R N D [b!"Kids", b!"Resources", key] i) ∧ (∀ i, R i → Target R N D [key] i) ∧ Target R N D [b!"Pages", b!"Kids", b!"Resources", key] root := by
  have p1 : ∀ i, R i → PathOk R N D [key] (D i) := fun i hi => pathEnd_ok (hk i hi)
  have p2 : ∀ i, R i → PathOk R N D [b!"Resources", key] (D i) := by
    intro i hi
    refine ⟨NotNamed.no (NoLinkNames.not (h.names i hi) (by decide)), fun v hv => ?_⟩
    rcases h.res i hi v hv with ⟨j, rfl, hj⟩ | ⟨es, rfl, h1, h2, h3, h4⟩
    · exact Or.inl ⟨j, rfl, h.range j hj, fun h => absurd h (by simp), fun _ => ⟨hj, p1 j hj⟩⟩
    · exact Or.inr (Or.inr ⟨es, rfl, fun _ => rfl, pathEnd_ok (hk' i hi es hv)⟩)
  have p3 : ∀ i, R i → PathOk R N D [b!"Kids", b!"Resources", key] (D i) := by
    intro i hi
    refine ⟨NotNamed.no (NoLinkNames.not (h.names i hi) (by decide)), fun v hv => ?_⟩
    obtain ⟨ids, h1, rfl, h2⟩ := h.kids i hi v hv
    exact Or.inr (Or.inl ⟨ids, h1, rfl, fun j hj => ⟨h.range j (h2 j hj), fun h => absurd h (by simp), fun _ => ⟨h2 j hj, p2 j (h2 j hj)⟩⟩⟩)
  refine ⟨fun i hi => ⟨fun h => absurd h (by simp), fun _ => ⟨hi, p3 i hi⟩⟩, fun i hi => ⟨fun h => absurd h (by simp), fun _ => ⟨hi, p1 i hi⟩⟩, fun h => absurd h (by simp), fun _ => ⟨h.top, ?_, ?_⟩⟩
  · exact fun k' hm => (h.rootNames k' _ hm).2 rfl
  · intro v hv
    obtain ⟨i, rfl, hi⟩ := h.pages v hv
    exact Or.inl ⟨i, rfl, h.range i hi, fun h => absurd h (by simp), fun _ => ⟨hi, p3 i hi⟩⟩

/-- paths that end with the resources -/
theorem Linked.resPaths (h : Linked R C D root) : (∀ i, R i → Target R R D [b!"Kids", b!"Resources"] i) ∧ Target R R D [b!"Pages", b!"Kids", b!"Resources"] root := by
  have p2 : ∀ i, R i → PathOk R R D [b!"Resources"] (D i) := by
    intro i hi
    refine pathEnd_ok ⟨NotNamed.no (NoLinkNames.not (h.names i hi) (by decide)), fun v hv => ?_⟩
    rcases h.res i hi v hv with ⟨j, rfl, hj⟩ | ⟨es, rfl, h1⟩
    · exact Or.inl ⟨j, rfl, h.range j hj, hj⟩
    · exact Or.inr (Or.inr ⟨es, rfl⟩)
  have p3 : ∀ i, R i → PathOk R R D [b!"Kids", b!"Resources"] (D i) := by
    intro i hi
    refine ⟨NotNamed.no (NoLinkNames.not (h.names i hi) (by decide)), fun v hv => ?_⟩
    obtain ⟨ids, h1, rfl, h2⟩ := h.kids i hi v hv
    exact Or.inr (Or.inl ⟨ids, h1, rfl, fun j hj => ⟨h.range j (h2 j hj), fun h => absurd h (by simp), fun _ => ⟨h2 j hj, p2 j (h2 j hj)⟩⟩⟩)
  refine ⟨fun i hi => ⟨fun h => absurd h (by simp), fun _ => ⟨hi, p3 i hi⟩⟩, fun h => absurd h (by simp), fun _ => ⟨h.top, ?_, ?_⟩⟩
  · exact fun k' hm => (h.rootNames k' _ hm).2 rfl
  · intro v hv
    obtain ⟨i, rfl, hi⟩ := h.pages v hv
    exact Or.inl ⟨i, rfl, h.range i hi, fun h => absurd h (by simp), fun _ => ⟨hi, p3 i hi⟩⟩

/-! ### one result with another value -/

/-- **A key of the resources gets another value.** -/
theorem upd_items (h : Linked R C D root) {i : Int} (hi : R i) {key : Bytes} (hkey : key ∈ linkKeys) {it : Items} {e : List (Bytes × Val)} (hit : FineItems it e)
    (hm : ∀ x ∈ e, x ∈ D i) {v : Bytes} (hv : it.valOf key = some v) :
    SS v ∧ ∃ w, StdVal v w ∧ (((key, w) ∈ D i ∧ ∃ a b, e = a ++ (key, w) :: b ∧ ∀ v' w', StdVal v' w' → StdItems (it.setValOf key v') (a ++ (key, w') :: b)) ∨
      ∃ a b es a' b', (b!"Resources", Val.dict es) ∈ D i ∧ (key, w) ∈ es ∧ e = a ++ (b!"Resources", .dict es) :: b ∧ es = a' ++ (key, w) :: b' ∧
        ∀ v' w', StdVal v' w' → StdItems (it.setValOf key v') (a ++ (b!"Resources", .dict (a' ++ (key, w') :: b')) :: b)) := by
  obtain ⟨h1, w, h2, h3⟩ := repl_items hit.std hit.fine hv (fun k n hkn => NoLinkNames.not (h.names i hi) hkey k n (hm _ hkn)) (by
    intro es hes
    rcases h.res i hi _ (hm _ hes) with ⟨j, e, _⟩ | ⟨es', e, k1, _, k3, _⟩
    · cases e
    · cases e
      exact ⟨NoLinkNames.not k1 hkey, k3⟩)
  refine ⟨h1, w, h2, ?_⟩
  rcases h3 with ⟨a, b, e1, e2⟩ | ⟨a, b, es, a', b', e1, e2, e3⟩
  · exact Or.inl ⟨hm _ (by rw [e1]; simp), a, b, e1, e2⟩
  · exact Or.inr ⟨a, b, es, a', b', hm _ (by rw [e1]; simp), by rw [e2]; simp, e1, e2, e3⟩

/-- the fonts are changed (`F`), or the images (`X`) -/
theorem upd_of_font {F X : Option Val → Option Val → Prop} (hF : ∀ o, F o o) (hX : ∀ o, X o o) (h : Linked R C D root) {i : Int} (hi : R i) {key : Bytes} (hkey : key = b!"Font" ∨ key = b!"XObject") {it : Items}
    {e : List (Bytes × Val)} (hit : FineItems it e) (he : ∀ k, e.lookup k = (D i).lookup k) (hm : ∀ x ∈ e, x ∈ D i) {v : Bytes} (hv : it.valOf key = some v) :
    SS v ∧ ∃ w, StdVal v w ∧ ((key, w) ∈ D i ∨ ∃ es, (b!"Resources", Val.dict es) ∈ D i ∧ (key, w) ∈ es) ∧
      ∀ v' es', StdVal v' (.dict es') → (key = b!"Font" → F (some w) (some (.dict es'))) → (key = b!"XObject" → X (some w) (some (.dict es'))) →
        ∃ e', StdItems (it.setValOf key v') e' ∧ Upd F X (D i) e' := by
  have hne : key ≠ b!"Resources" := by rcases hkey with rfl | rfl <;> decide
  have hlk : key ∈ linkKeys := by rcases hkey with rfl | rfl <;> decide
  obtain ⟨h1, w, h2, h3⟩ := upd_items h hi hlk hit hm hv
  refine ⟨h1, w, h2, ?_, ?_⟩
  · rcases h3 with ⟨h3, _⟩ | ⟨_, _, es, _, _, h3, h4, _⟩
    · exact Or.inl h3
    · exact Or.inr ⟨es, h3, h4⟩
  intro v' es' hv' f1 f2
  -- the two entries in any list
  have two : ∀ (a b : List (Bytes × Val)), F ((a ++ (key, w) :: b).lookup b!"Font") ((a ++ (key, .dict es') :: b).lookup b!"Font") ∧ X ((a ++ (key, w) :: b).lookup b!"XObject") ((a ++ (key, .dict es') :: b).lookup b!"XObject") := by
    intro a b
    constructor
    · by_cases hk : b!"Font" = key
      · rw [hk]
        rcases lookup_repl (k := key) (a := a) (b := b) (w := w) (w' := .dict es') with e | ⟨e1, e2⟩
        · rw [e]; exact hF _
        · rw [e1, e2]; exact f1 hk.symm
      · rw [lookup_repl_ne hk (w := w) (w' := .dict es')]; exact hF _
    · by_cases hk : b!"XObject" = key
      · rw [hk]
        rcases lookup_repl (k := key) (a := a) (b := b) (w := w) (w' := .dict es') with e | ⟨e1, e2⟩
        · rw [e]; exact hX _
        · rw [e1, e2]; exact f2 hk.symm
      · rw [lookup_repl_ne hk (w := w) (w' := .dict es')]; exact hX _
  rcases h3 with ⟨h3, a, b, e1, e2⟩ | ⟨a, b, es, a', b', h3, h4, e1, e2, e3⟩
  · refine ⟨_, e2 v' _ hv', ?_⟩
    refine ⟨?_, ?_, ?_, ?_, ?_, ?_⟩
    · intro k k1 k2 k3
      have : k ≠ key := by rcases hkey with rfl | rfl <;> assumption
      rw [lookup_repl_ne this (w := w), ← e1, he]
    · rw [← he, e1]; exact (two a b).1
    · rw [← he, e1]; exact (two a b).2
    · left
      rw [lookup_repl_ne hne.symm (w := w), ← e1, he]
    · intro x hx
      rw [List.mem_append, List.mem_cons] at hx
      rcases hx with hx | rfl | hx
      · exact Or.inl (hm x (by rw [e1]; simp [hx]))
      · exact Or.inr (Or.inl ⟨hkey, es', rfl⟩)
      · exact Or.inl (hm x (by rw [e1]; simp [hx]))
    · intro u hu
      rw [List.mem_append, List.mem_cons] at hu
      rcases hu with hu | hu | hu
      · exact Or.inl (hm _ (by rw [e1]; simp [hu]))
      · obtain ⟨k1, k2⟩ := Prod.mk.injEq .. ▸ hu
        subst k2
        exact Or.inr ⟨w, k1 ▸ h3, f1 k1.symm⟩
      · exact Or.inl (hm _ (by rw [e1]; simp [hu]))
  · have hres : UpdR F X es (a' ++ (key, .dict es') :: b') := by
      refine ⟨?_, ?_, ?_, ?_, ?_⟩
      · intro k k1 k2
        have : k ≠ key := by rcases hkey with rfl | rfl <;> assumption
        rw [lookup_repl_ne this (w := w), ← e2]
      · rw [e2]; exact (two a' b').1
      · rw [e2]; exact (two a' b').2
      · intro x hx
        rw [List.mem_append, List.mem_cons] at hx
        rcases hx with hx | rfl | hx
        · exact Or.inl (by rw [e2]; simp [hx])
        · exact Or.inr ⟨hkey, es', rfl⟩
        · exact Or.inl (by rw [e2]; simp [hx])
      · intro u hu
        rw [List.mem_append, List.mem_cons] at hu
        rcases hu with hu | hu | hu
        · exact Or.inl (by rw [e2]; simp [hu])
        · obtain ⟨k1, k2⟩ := Prod.mk.injEq .. ▸ hu
          subst k2
          exact Or.inr ⟨w, k1 ▸ h4, f1 k1.symm⟩
        · exact Or.inl (by rw [e2]; simp [hu])
    refine ⟨_, e3 v' _ hv', ?_⟩
    refine ⟨?_, ?_, ?_, ?_, ?_, ?_⟩
    · intro k k1 k2 k3
      rw [lookup_repl_ne k3 (w := .dict es), ← e1, he]
    · rw [lookup_repl_ne (by decide) (w := .dict es), ← e1, he]; exact hF _
    · rw [lookup_repl_ne (by decide) (w := .dict es), ← e1, he]; exact hX _
    · rcases lookup_repl (k := b!"Resources") (a := a) (b := b) (w := .dict es) (w' := .dict (a' ++ (key, .dict es') :: b')) with e | ⟨k1, k2⟩
      · left; rw [e, ← e1, he]
      · right; exact ⟨es, _, by rw [← he, e1, k1], k2, hres⟩
    · intro x hx
      rw [List.mem_append, List.mem_cons] at hx
      rcases hx with hx | rfl | hx
      · exact Or.inl (hm x (by rw [e1]; simp [hx]))
      · exact Or.inr (Or.inr ⟨rfl, es, _, h3, rfl, hres⟩)
      · exact Or.inl (hm x (by rw [e1]; simp [hx]))
    · intro u hu
      rw [List.mem_append, List.mem_cons] at hu
      rcases hu with hu | hu | hu
      · exact Or.inl (hm _ (by rw [e1]; simp [hu]))
      · simp at hu
      · exact Or.inl (hm _ (by rw [e1]; simp [hu]))

end

/-! ### writing -/

/-- the text is written from such entries -/
def Writes (s : Bytes) (d : List (Bytes × Val)) : Prop := ∃ ps : Props, s = ps.flatMap flat1 ∧ StdProps d ps

theorem StdItems.writes {it : Items} {e : List (Bytes × Val)} (h : StdItems it e) : Writes it.string e := ⟨it.props, items_string it, h.props⟩

theorem apply_std {reps : List (Int × Bytes)} {objs objs' : List Obj} (h : applyReplaces (reps.map (fun p => (p.1, wrapDict p.2))) objs = .ok objs') (hnd : (reps.map (·.1)).Nodup)
    (ho : ∀ p ∈ reps, ∃ d, StdDict objs p.1 d) :
    (∀ i o, i ∉ reps.map (·.1) → OnlyObj objs i o → OnlyObj objs' i o) ∧ ∀ i s d, (i, s) ∈ reps → Writes s d → StdDict objs' i d := by
  have e : (reps.map (fun p => (p.1, wrapDict p.2))).map (·.1) = reps.map (·.1) := by rw [List.map_map]; rfl
  obtain ⟨h1, h2⟩ := applyReplaces_only _ h (by
    intro p hp
    obtain ⟨q, hq, rfl⟩ := List.mem_map.1 hp
    obtain ⟨d, _, _, o, _, _, _, _, hd, _⟩ := ho q hq
    exact ⟨o, hd⟩) (by rw [e]; exact hnd)
  rw [e] at h1
  refine ⟨fun i o hi hoo => ?_, fun i s d hm hw => ?_⟩
  · unfold OnlyObj at hoo ⊢
    rw [h1 i hi]; exact hoo
  · obtain ⟨d0, g0, g1, _⟩ := ho (i, s) hm
    obtain ⟨o, k1, k2⟩ := h2 (i, wrapDict s) (List.mem_map_of_mem (f := fun p : Int × Bytes => (p.1, wrapDict p.2)) hm)
    obtain ⟨ps, rfl, hp⟩ := hw
    refine hp.dict g0 g1 ?_
    have e1 : o.objID = i := by
      have : o ∈ objs.filter (fun x => decide (x.objID = i)) := by rw [k1]; simp
      simpa using (List.mem_filter.1 this).2
    have e2 : wrapDict (ps.flatMap flat1) = setProperties ps := by rw [setProperties_eq]; simp [wrapDict]
    rw [e2] at k2
    rw [e1] at k2
    exact k2

/-! ### fonts -/

theorem regular_trim {k : Bytes} (h : ∀ c ∈ k, simpleChar c = true ∧ regular c = true) : trimSpace k = k := by
  refine trimSpace_plain (fun c hc => ?_)
  obtain ⟨h1, h2⟩ := h c hc
  have h3 : c ≤ 126 := by
    simp only [simpleChar, blankChar, Bool.or_eq_true, Bool.and_eq_true, decide_eq_true_eq] at h1
    rcases h1 with (((rfl | rfl) | rfl) | rfl) | h1
    · decide
    · decide
    · decide
    · decide
    · exact h1.1.1.2
  refine ⟨?_, ?_⟩
  · have := UInt8.le_iff_toNat_le.1 h3
    exact UInt8.lt_iff_toNat_lt.2 (by rw [show (128 : UInt8).toNat = 128 from rfl]; rw [show (126 : UInt8).toNat = 126 from rfl] at this; omega)
  · by_contra hs
    simp only [Bool.not_eq_false] at hs
    have : white c = true ∨ c = 133 ∨ c = 160 ∨ c = 11 := by
      revert hs
      simp only [isSp, white, Bool.or_eq_true, decide_eq_true_eq]
      tauto
    rcases this with hw | rfl | rfl | rfl
    · simp [regular, hw] at h2
    · exact absurd h3 (by decide)
    · exact absurd h3 (by decide)
    · exact absurd h1 (by decide)

/-- what is read of a dictionary of fonts -/
theorem crFonts_std {fs : List (Bytes × Val)} {ps : Props} (h : StdProps fs ps) (hss : ∀ p ∈ ps, SS p.rawVal) (hf : FontList fs) {l : List CrFont} (hl : crFontsOf ps = .ok l) :
    (∀ f ∈ l, GoodKey f.named.1) ∧ List.Forall₂ (fun x y : Bytes × Val => y.2 = x.2 ∧ (FontName x.1 → y.1 = x.1)) fs (refEntries (l.map CrFont.named)) := by
  obtain ⟨h1, h2⟩ := h
  induction h1 generalizing l with
  | nil => simp [crFontsOf] at hl; subst hl; exact ⟨by simp, .nil⟩
  | @name k n r r' d ps _ _ _ ih => obtain ⟨m, e, _⟩ := hf (k, .name n) (by simp); cases e
  | @value k r v d ps hn hv _ ih =>
    obtain ⟨m, e, hm⟩ := hf (k, v) (by simp)
    simp only at e
    subst e
    obtain ⟨g1, g2, g3⟩ := h2 ⟨k, r⟩ (by simp)
    have hid : readObjIDFromDictionary r = .ok m := value_ref hv g2 (hss ⟨k, r⟩ (by simp)) g3.refs hm
    rw [crFontsOf] at hl
    rw [regular_trim (k := k) (fun c hc => ⟨g3.key c hc, g1 c hc⟩), Res.bind_eq_ok] at hl
    obtain ⟨⟨a, n⟩, hs, hl⟩ := hl
    simp only [hid, Res.ok_bind] at hl
    rw [Res.bind_eq_ok] at hl
    obtain ⟨t, ht, hl⟩ := hl
    simp only [Res.ok.injEq] at hl
    subst hl
    obtain ⟨i1, i2⟩ := ih (fun p hp => hss p (by simp [hp])) (fun x hx => hf x (by simp [hx])) ht (fun p hp => h2 p (by simp [hp]))
    have hk : GoodKey k := ⟨g1, g3.key, g3.keyStream⟩
    refine ⟨?_, .cons ⟨rfl, ?_⟩ i2⟩
    · intro f hf
      rcases List.mem_cons.1 hf with rfl | hf
      · exact hk.numbered (splitFont_prefix hs) n
      · exact i1 f hf
    · rintro ⟨p, q, rfl, hq, hp⟩
      rw [splitFont_numbered hp hq] at hs
      simp only [Res.ok.injEq, Prod.mk.injEq] at hs
      obtain ⟨rfl, rfl⟩ := hs
      simp [CrFont.named, itoa_natCast]

/-- the new fonts -/
theorem newFonts_good (ids : List Int) (m : Int) : ∀ f ∈ newCrFonts m ids, GoodKey f.named.1 := by
  induction ids generalizing m with
  | nil => simp [newCrFonts]
  | cons i ids ih =>
    intro f hf
    rw [newCrFonts] at hf
    rcases List.mem_cons.1 hf with rfl | hf
    · exact (goodKey_letter (c := 70) (Or.inl rfl)).numbered (List.prefix_refl _) (m + 1)
    · exact ih _ f hf

theorem fonts_writes {l : List CrFont} (h : ∀ f ∈ l, GoodKey f.named.1) : Writes (crFontsString l) (refEntries (l.map CrFont.named)) :=
  ⟨_, crFonts_flat l, refProps_std (Or.inr rfl) (by simpa using h)⟩

theorem Writes.dictVal {s : Bytes} {d : List (Bytes × Val)} (h : Writes s d) : StdVal (wrapDict s) (.dict d) := by
  obtain ⟨ps, rfl, hp⟩ := h
  have := stdVal_dict (a := []) (b := b!"\n") (by simp [White]) (by decide) (by decide) (stdProps_line hp)
  have e : wrapDict (ps.flatMap flat1) = [] ++ (b!"<<" ++ (10 :: ps.flatMap flat1) ++ b!">>") ++ b!"\n" := by simp [wrapDict]
  rw [e]
  exact this

theorem refEntries_append (a b : List (Bytes × Int)) : refEntries (a ++ b) = refEntries a ++ refEntries b := by simp [refEntries]

section
variable {R N C : Int → Prop} {D : Int → List (Bytes × Val)} {root : Int} {objs : List Obj}

/-- a text that may be written for an object -/
def FontRep (R N : Int → Prop) (D : Int → List (Bytes × Val)) (new : List (Bytes × Val)) (p : Int × Bytes) : Prop :=
  (R p.1 ∧ ∃ e', Writes p.2 e' ∧ Upd (FontVal new) (fun o o' => o' = o) (D p.1) e') ∨ (N p.1 ∧ ∃ fs', Writes p.2 fs' ∧ FontsAdded new (D p.1) fs')

theorem fontReplaces_std (h : LinkedDoc objs root R N C D) {new : List CrFont} (hnew : ∀ f ∈ new, GoodKey f.named.1) : ∀ (rs : List (Int × Items)) (m out : List (Int × Bytes)), Complete R N D rs →
    (∀ p ∈ m, FontRep R N D (refEntries (new.map CrFont.named)) p) → (m.map (·.1)).Nodup → fontReplaces objs new rs m = .ok out →
    (∀ p ∈ out, FontRep R N D (refEntries (new.map CrFont.named)) p) ∧ (out.map (·.1)).Nodup := by
  intro rs
  induction rs with
  | nil => intro m out _ hm hnd e; cases e; exact ⟨hm, hnd⟩
  | cons q rs ih =>
    obtain ⟨i, it⟩ := q
    intro m out hc hm hnd e
    rw [fontReplaces, Res.bind_eq_ok] at e
    obtain ⟨r, hr, e⟩ := e
    have hc' : Complete R N D rs := fun j jt hj => hc j jt (by simp [hj])
    refine ih _ out hc' ?_ ?_ e
    all_goals
      unfold fontsOfResult at hr
      cases hv : it.valOf b!"Font" with
      | none =>
        rw [hv] at hr
        cases hr
        first | exact hm | exact hnd
      | some v =>
        rw [hv] at hr
        simp only at hr
        rcases hc i it (by simp) with ⟨rfl, _⟩ | ⟨hR, e0, f1, f2, f3⟩
        · simp [Items.valOf] at hv
        obtain ⟨s1, w, s2, s3, s4⟩ := upd_of_font (F := FontVal (refEntries (new.map CrFont.named))) (X := fun o o' => o' = o) (fun o => Or.inl rfl) (fun o => rfl) h.linked hR (Or.inl rfl) f1 f2 f3 hv
        have hw : (∃ j, w = .ref j ∧ N j) ∨ ∃ fs, w = .dict fs ∧ FontList fs := by
          rcases s3 with s3 | ⟨es, k1, k2⟩
          · exact (h.entries i hR).font w s3
          · rcases h.res i hR _ k1 with ⟨j, e, _⟩ | ⟨es', e, k3, _⟩
            · cases e
            · cases e; exact k3.font w k2
        rcases hw with ⟨j, rfl, hj⟩ | ⟨fs, rfl, hfs⟩
        · have hd := h.dicts j (Or.inr hj)
          rw [ref_type' s2 s1 (StdDict.range hd)] at hr
          simp only at hr
          rw [value_ref s2.values s2.simple s1 s2.refs (StdDict.range hd)] at hr
          obtain ⟨ps, ⟨o, ho, hrd⟩, hp, hss⟩ := StdDict.props hd
          simp only [Res.ok_bind, getObj_only ho, Res.ofOption, parseCrFonts, hrd] at hr
          rw [Res.bind_eq_ok] at hr
          obtain ⟨l, hl, hr⟩ := hr
          simp at hr
          subst hr
          obtain ⟨g1, g2⟩ := crFonts_std hp hss (h.fonts j hj) hl
          first
          | (intro p hp
             rcases mapPut_mem hp with rfl | hp
             · refine Or.inr ⟨hj, _, fonts_writes (l := l ++ new) (fun f hf => ?_), refEntries (l.map CrFont.named), by rw [List.map_append, refEntries_append], g2⟩
               rcases List.mem_append.1 hf with hf | hf
               · exact g1 f hf
               · exact hnew f hf
             · exact hm p hp)
          | exact mapPut_nodup hnd _ _
        · rw [dict_type s2 s1] at hr
          obtain ⟨ps, hrd, hp, hss⟩ := dict_props s2 s1
          simp only [Res.ok_bind, parseCrFonts, hrd] at hr
          rw [Res.bind_eq_ok] at hr
          obtain ⟨l, hl, hr⟩ := hr
          simp at hr
          subst hr
          obtain ⟨g1, g2⟩ := crFonts_std hp hss hfs hl
          first
          | (intro p hp
             rcases mapPut_mem hp with rfl | hp
             · obtain ⟨e', k1, k2⟩ := s4 _ _ (fonts_writes (l := l ++ new) (fun f hf => by
                 rcases List.mem_append.1 hf with hf | hf
                 · exact g1 f hf
                 · exact hnew f hf)).dictVal (fun _ => Or.inr ⟨fs, _, rfl, rfl, refEntries (l.map CrFont.named), by rw [List.map_append, refEntries_append], g2⟩) (fun h => absurd h (by decide))
               exact Or.inl ⟨hR, e', k1.writes, k2⟩
             · exact hm p hp)
          | exact mapPut_nodup hnd _ _

theorem upd_refl {F X : Option Val → Option Val → Prop} (hF : ∀ o, F o o) (hX : ∀ o, X o o) (d : List (Bytes × Val)) : Upd F X d d :=
  ⟨fun _ _ _ _ => rfl, hF _, hX _, Or.inl rfl, fun _ h => Or.inl h, fun _ h => Or.inl h⟩

/-- **Fonts** in such documents. -/
theorem fonts_std {d d1 : Doc} (h : LinkedDoc d.objs d.rootObjID R N C D) {σ : Nat → Shuffle} {fids : List Int} {new : List CrFont} (hi : injectFonts σ d fids = .ok (d1, new)) :
    d1.rootObjID = d.rootObjID ∧ (∀ f ∈ new, GoodKey f.named.1) ∧
    (∀ i, R i → ∃ e', StdDict d1.objs i e' ∧ Upd (FontVal (refEntries (new.map CrFont.named))) (fun o o' => o' = o) (D i) e') ∧
    (∀ i, N i → ∃ fs', StdDict d1.objs i fs' ∧ (fs' = D i ∨ FontsAdded (refEntries (new.map CrFont.named)) (D i) fs')) ∧
    ∀ i o, ¬ R i → ¬ N i → OnlyObj d.objs i o → OnlyObj d1.objs i o := by
  unfold injectFonts at hi
  rw [Res.bind_eq_ok] at hi
  obtain ⟨rs, hrs, hi⟩ := hi
  rw [Res.bind_eq_ok] at hi
  obtain ⟨m, hm, hi⟩ := hi
  simp only at hi
  rw [Res.bind_eq_ok] at hi
  obtain ⟨reps, hreps, hi⟩ := hi
  rw [Res.bind_eq_ok] at hi
  obtain ⟨objs', happ, hi⟩ := hi
  simp only [Res.ok.injEq, Prod.mk.injEq] at hi
  obtain ⟨rfl, rfl⟩ := hi
  have hl : ∀ {es}, ResEntries N es → PathEnd N b!"Font" es := by
    intro es he
    refine ⟨NotNamed.no (NoLinkNames.not he.names (by decide)), fun v hv => ?_⟩
    rcases he.font v hv with ⟨j, rfl, hj⟩ | ⟨fs, rfl, _⟩
    · exact Or.inl ⟨j, rfl, StdDict.range (h.dicts j (Or.inr hj)), hj⟩
    · exact Or.inr (Or.inr ⟨fs, rfl⟩)
  obtain ⟨t1, _, t2⟩ := h.linked.paths (N := N) (key := b!"Font") (fun i hi => hl (h.entries i hi)) (by
    intro i hi es hes
    rcases h.res i hi _ hes with ⟨j, e, _⟩ | ⟨es', e, k3, _⟩
    · cases e
    · cases e; exact hl k3)
  have hcomp := pageCrawl_ok (fun i hi => h.dicts i (Or.inl hi)) t2 t1 hrs
  obtain ⟨r1, r2⟩ := fontReplaces_std h (newFonts_good fids m) ((σ 12).fn rs) [] reps (fun i it hit => hcomp i it (((σ 12).perm rs).subset hit)) (by simp) (by simp) hreps
  obtain ⟨a1, a2⟩ := apply_std happ r2 (by
    intro p hp
    rcases r1 p hp with ⟨h1, _⟩ | ⟨h1, _⟩
    · exact ⟨_, h.dicts p.1 (Or.inl h1)⟩
    · exact ⟨_, h.dicts p.1 (Or.inr h1)⟩)
  refine ⟨rfl, newFonts_good fids m, ?_, ?_, ?_⟩
  · intro i hR
    by_cases hin : i ∈ reps.map (·.1)
    · obtain ⟨⟨j, s⟩, hp, rfl⟩ := List.mem_map.1 hin
      rcases r1 _ hp with ⟨_, e', k1, k2⟩ | ⟨k1, _⟩
      · exact ⟨e', a2 j s e' hp k1, k2⟩
      · exact absurd k1 (h.apart j hR).1
    · exact ⟨D i, StdDict.kept (h.dicts i (Or.inl hR)) (fun o ho => a1 i o hin ho), upd_refl (X := fun o o' => o' = o) (fun o => Or.inl rfl) (fun o => rfl) _⟩
  · intro i hN
    by_cases hin : i ∈ reps.map (·.1)
    · obtain ⟨⟨j, s⟩, hp, rfl⟩ := List.mem_map.1 hin
      rcases r1 _ hp with ⟨k1, _⟩ | ⟨_, e', k1, k2⟩
      · exact absurd hN (h.apart j k1).1
      · exact ⟨e', a2 j s e' hp k1, Or.inr k2⟩
    · exact ⟨D i, StdDict.kept (h.dicts i (Or.inr hN)) (fun o ho => a1 i o hin ho), Or.inl rfl⟩
  · intro i o n1 n2 ho
    refine a1 i o (fun hin => ?_) ho
    obtain ⟨⟨j, s⟩, hp, rfl⟩ := List.mem_map.1 hin
    rcases r1 _ hp with ⟨k1, _⟩ | ⟨k1, _⟩
    · exact n1 k1
    · exact n2 k1

end

end Verif
