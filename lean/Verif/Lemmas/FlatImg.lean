import Verif.Lemmas.FlatPages
/-
Injecting images into a flat document.
-/
namespace Verif
open Spec

variable {objs : List Obj} {root tree : Int} {ct node : Props} {pages : List FlatPage}

/-! ### the entries of a list of images -/

/-- entries of an image list -/
def xobjProps (l : List CrXObj) : Props := l.map (fun x => ⟨x.chr ++ itoa x.idx, itoa x.objID ++ b!" 0 R"⟩)

/-- a name that can be written -/
def CrXObjOk (x : CrXObj) : Prop := (∀ c ∈ x.chr, Regular c) ∧ ¬ streamKw <:+: x.chr

theorem xobjProps_tidy {l : List CrXObj} (h : ∀ x ∈ l, CrXObjOk x) : Tidy (xobjProps l) := by
  have := fontProps_tidy (l := l.map (fun x => ⟨x.chr, x.idx, x.objID⟩)) (by
    intro f hf
    obtain ⟨x, hx, rfl⟩ := List.mem_map.1 hf
    exact h x hx)
  have e : fontProps (l.map (fun x => ⟨x.chr, x.idx, x.objID⟩)) = xobjProps l := by simp [fontProps, xobjProps]
  rw [← e]; exact this

theorem noSep_ref (n : Int) : noSep (itoa n ++ b!" 0 R") = false := by
  obtain ⟨c, t, ht⟩ := List.exists_cons_of_ne_nil (itoa_ne_nil n)
  have hc := itoa_regular n c (by rw [ht]; simp)
  have h1 : c ≠ 91 := hc.2.2.2.1
  have h2 : c ≠ 60 := hc.2.2.2.2.2.1
  rw [ht]
  simp [noSep, List.isPrefixOf, h1.symm, h2.symm]

theorem crXObjsString_eq (l : List CrXObj) : crXObjsString l = compact (xobjProps l) := by
  induction l with
  | nil => rfl
  | cons x t ih =>
    have e : crXObjsString (x :: t) = b!"/" ++ x.chr ++ itoa x.idx ++ b!" " ++ itoa x.objID ++ b!" 0 R" ++ crXObjsString t := rfl
    rw [e, ih]
    simp [xobjProps, compact, compact1, noSep_ref]

theorem splitXObj_prefix {key a : Bytes} {n : Int} (h : splitXObj key = some (a, n)) : a <+: key := by
  unfold splitXObj at h
  simp only at h
  split at h
  · simp only [Option.some.injEq, Prod.mk.injEq] at h
    rw [← h.1]
    exact List.takeWhile_prefix _
  · simp at h

theorem crXObjsOf_ok {xs : Props} (ht : Tidy xs) : ∀ x ∈ crXObjsOf xs, CrXObjOk x := by
  induction xs with
  | nil => simp [crXObjsOf]
  | cons p t ih =>
    intro x hx
    rw [crXObjsOf] at hx
    split at hx
    · simp at hx
    · rename_i a n hs
      split at hx
      · rcases List.mem_cons.1 hx with rfl | hx
        · obtain ⟨k1, _, k3, _⟩ := ht p (by simp)
          have hpre := splitXObj_prefix hs
          exact ⟨fun c hc => k1 c (hpre.subset hc), fun hi => lacks_iff.1 k3 (hi.trans hpre.isInfix)⟩
        · exact ih (Spec.Tidy.tail ht) x hx
      · simp at hx

theorem newCrXObjs_ok {c : Bytes} (hc : (∀ d ∈ c, Regular d) ∧ ¬ streamKw <:+: c) : ∀ (ids : List Int) (n : Int), ∀ x ∈ newCrXObjs c n ids, CrXObjOk x
  | [], _, x, h => by simp [newCrXObjs] at h
  | id :: t, n, x, h => by
    rcases List.mem_cons.1 h with rfl | h
    · exact hc
    · exact newCrXObjs_ok hc t (n + 1) x h

theorem mergeXObjs_eq : ∀ (l acc : List CrXObj), ∃ l', mergeXObjs acc l = acc ++ l' ∧ ∀ x ∈ l', x ∈ l
  | [], acc => ⟨[], by simp [mergeXObjs], by simp⟩
  | x :: t, acc => by
    rw [mergeXObjs]
    split
    · obtain ⟨l', h1, h2⟩ := mergeXObjs_eq t acc
      exact ⟨l', h1, fun y hy => List.mem_cons_of_mem _ (h2 y hy)⟩
    · obtain ⟨l', h1, h2⟩ := mergeXObjs_eq t (acc ++ [x])
      refine ⟨x :: l', by rw [h1]; simp, ?_⟩
      intro y hy
      rcases List.mem_cons.1 hy with rfl | hy
      · simp
      · exact List.mem_cons_of_mem _ (h2 y hy)

theorem mergeXObjs_ok {acc l : List CrXObj} (h1 : ∀ x ∈ acc, CrXObjOk x) (h2 : ∀ x ∈ l, CrXObjOk x) : ∀ x ∈ mergeXObjs acc l, CrXObjOk x := by
  obtain ⟨l', e, h⟩ := mergeXObjs_eq l acc
  rw [e]
  intro x hx
  rcases List.mem_append.1 hx with hx | hx
  · exact h1 x hx
  · exact h2 x (h x hx)

/-- the names that are given come from the values read -/
theorem xobjScan_ok : ∀ (vs : List Bytes) (xs : List CrXObj) (c : Bytes) (n : Int), (∀ v ∈ vs, ∀ x ∈ parseCrXObjs v, CrXObjOk x) → (∀ x ∈ xs, CrXObjOk x) →
    ((∀ d ∈ c, Regular d) ∧ ¬ streamKw <:+: c) →
    (∀ x ∈ (xobjScan vs xs c n).1, CrXObjOk x) ∧ (∀ d ∈ (xobjScan vs xs c n).2.1, Regular d) ∧ ¬ streamKw <:+: (xobjScan vs xs c n).2.1
  | [], xs, c, n, _, hx, hc => ⟨hx, hc⟩
  | v :: vs, xs, c, n, hv, hx, hc => by
    have hx' : ∀ x ∈ xs ++ parseCrXObjs v, CrXObjOk x := by
      intro x h
      rcases List.mem_append.1 h with h | h
      · exact hx x h
      · exact hv v (by simp) x h
    rw [xobjScan]
    split
    · exact xobjScan_ok vs _ c n (fun u hu => hv u (by simp [hu])) hx' hc
    · rename_i l hl
      exact xobjScan_ok vs _ l.chr _ (fun u hu => hv u (by simp [hu])) hx' (hx' l (List.mem_of_getLast? hl))

/-- an entry that was read comes from one of the values -/
theorem xobjScan_mem : ∀ (vs : List Bytes) (xs : List CrXObj) (c : Bytes) (n : Int) (x : CrXObj), x ∈ (xobjScan vs xs c n).1 → x ∉ xs → ∃ v ∈ vs, x ∈ parseCrXObjs v
  | [], xs, c, n, x, h, hx => absurd h hx
  | v :: vs, xs, c, n, x, h, hx => by
    by_cases hv : x ∈ parseCrXObjs v
    · exact ⟨v, by simp, hv⟩
    have hx' : x ∉ xs ++ parseCrXObjs v := by simp [hx, hv]
    rw [xobjScan] at h
    split at h
    · obtain ⟨u, hu, e⟩ := xobjScan_mem vs _ _ _ x h hx'
      exact ⟨u, by simp [hu], e⟩
    · obtain ⟨u, hu, e⟩ := xobjScan_mem vs _ _ _ x h hx'
      exact ⟨u, by simp [hu], e⟩

/-! ### texts -/

theorem writesVal_nl {v n : Bytes} (h : WritesVal v n) : WritesVal (v ++ [10]) n := by
  refine ⟨h.1, fun w y hw hw0 hy hy0 => ?_⟩
  have := h.2 (10 :: w) y (by
    intro c hc
    rcases List.mem_cons.1 hc with rfl | hc
    · rfl
    · exact hw c hc) (by simp) hy hy0
  rw [← this]
  simp

theorem dictNl_trim (ps : Props) : trimSpace (dictVal ps ++ [10]) ≠ [] := by
  have e : dictVal ps ++ [10] = [] ++ ((b!"<<" ++ compact ps ++ b!">") ++ [62]) ++ [10] := by simp [dictVal]
  rw [e, trimSpace_ends (c := 60) (e := 62) (by simp) (by decide) (by simp) List.getLast?_concat (by decide) (by decide) (by decide) (by decide)]
  simp

theorem lack_nl {w v : Bytes} (hw : Word w) (h : ¬ w <:+: v) : ¬ w <:+: v ++ [10] := by
  intro hi
  rcases infix_split (hw.2 10 (by simp)) (show w <:+: v ++ 10 :: [] from hi) with hi | hi
  · exact h hi
  · exact hw.1 (List.eq_nil_of_infix_nil hi)

theorem compact_append (a b : Props) : compact (a ++ b) = compact a ++ compact b := by simp [compact]

theorem dictVal_take (ps : Props) : ((dictVal ps).take ((dictVal ps).length - 2)).drop 2 = compact ps := by
  have h1 : dictVal ps = (b!"<<" ++ compact ps) ++ b!">>" := rfl
  have h2 : (dictVal ps).length - 2 = (b!"<<" ++ compact ps).length := by simp [dictVal]
  rw [h2, h1, List.take_left]
  rfl

/-- a dictionary with one more entry at the end, as it is written into a page -/
theorem writesVal_embed {ps xs : Props} (hp : Tidy ps) (hx : Tidy xs) :
    WritesVal (b!"<<" ++ (compact ps ++ b!" /XObject <<" ++ compact xs ++ b!">>") ++ b!">>\n") (dictVal (ps ++ [⟨b!"XObject", dictVal xs⟩])) := by
  refine ⟨by simp [dictVal], fun w y hw hw0 hy hy0 => ?_⟩
  have hnw : ∀ c ∈ (10 :: w), isWs c = true := by
    intro c hc
    rcases List.mem_cons.1 hc with rfl | hc
    · rfl
    · exact hw c hc
  have e : (32 :: ((b!"<<" ++ (compact ps ++ b!" /XObject <<" ++ compact xs ++ b!">>") ++ b!">>\n") ++ (w ++ y)) : Bytes) =
      [32] ++ (b!"<<" ++ (compact ps ++ ([32] ++ (b!"/XObject" ++ (32 :: (dictVal xs ++ (b!">>" ++ ((10 :: w) ++ y)))))))) := by simp [dictVal]
  have h1 : ∀ z, nf ([32] ++ (b!"<<" ++ z)) = nf (b!"<<" ++ z) := by
    intro z
    unfold nf
    simp only [List.cons_append, List.nil_append, collapseWs, isWs]
    simp [stripQ, dropSp]
  have hlast : ∀ c, (compact ps).getLast? = some c → isWs c = false := by
    intro c hc
    have hpr := compact_printable hp c (List.mem_of_getLast? hc)
    apply isWs_false (by have := printable_byte hpr; exact ⟨this.2.1, this.2.2.1, this.2.2.2.1⟩)
    rintro rfl
    obtain ⟨u, hu⟩ := List.getLast?_eq_some_iff.1 hc
    rcases compact_blanks hp (y := []) (Or.inl rfl) [] (by rw [List.append_nil, hu]; exact List.suffix_append _ _) with h | h
    · exact h.1 rfl
    · simp at h
  have hT : ∀ z : Bytes, Term (b!"/XObject" ++ z) := fun z => Or.inr (Or.inl ⟨_, rfl⟩)
  have ht2 : Term (b!">>" ++ ((10 :: w) ++ y)) := Or.inr (Or.inr ⟨_, rfl⟩)
  have hc : nf (compact ps) = compact ps := by
    have := nf_compact hp (y := []) (Or.inl rfl)
    simpa [nf, collapseWs, stripQ] using this
  rw [e, h1, nf_clean (by decide), nf_before hlast (by decide) (by simp) (hT _) (by simp), hc, nf_clean (by decide),
    nf_blank_tidy (tidy_dictVal hx) (by simp [dictVal]) ht2, nf_clean (by decide), nf_ws hnw hy hy0]
  simp [dictVal, compact, compact1, noSep]

theorem embed_trim (s : Bytes) : trimSpace (b!"<<" ++ s ++ b!">>\n") ≠ [] := by
  have e : b!"<<" ++ s ++ b!">>\n" = [] ++ ((b!"<<" ++ s ++ b!">") ++ [62]) ++ [10] := by simp
  rw [e, trimSpace_ends (c := 60) (e := 62) (by simp) (by decide) (by simp) List.getLast?_concat (by decide) (by decide) (by decide) (by decide)]
  simp

/-! ### the texts to be written, one for each result -/

theorem mapPut_fresh {α : Type} {m : List (Int × α)} {i : Int} {v : α} (h : i ∉ m.map (·.1)) : mapPut m i v = m ++ [(i, v)] := by
  unfold mapPut
  rw [if_neg]
  intro hs
  apply h
  clear h
  induction m with
  | nil => simp at hs
  | cons p t ih =>
    obtain ⟨j, y⟩ := p
    rw [List.lookup_cons] at hs
    by_cases e : i = j
    · simp [e]
    · rw [beq_false_of_ne e] at hs
      simp [ih hs]

/-- what replaces a result with an /XObject -/
def xobjText (xobjs : List CrXObj) (p : Int × Items) : Option (Int × Bytes) :=
  (p.2.valOf b!"XObject").map (fun old => (p.1, (p.2.setValOf b!"XObject" (b!"<<" ++ crXObjsString (mergeXObjs (parseCrXObjs old) xobjs) ++ b!">>\n")).string))

theorem xobjReplaces_eq (xobjs : List CrXObj) : ∀ (l : List (Int × Items)) (m : List (Int × Bytes)), (l.map (·.1)).Nodup → (∀ p ∈ l, p.1 ∉ m.map (·.1)) →
    xobjReplaces xobjs l m = m ++ l.filterMap (xobjText xobjs)
  | [], m, _, _ => by simp [xobjReplaces]
  | (i, it) :: t, m, hn, hm => by
    rw [List.map_cons, List.nodup_cons] at hn
    rw [xobjReplaces]
    cases hv : it.valOf b!"XObject" with
    | none =>
      simp only
      rw [xobjReplaces_eq xobjs t m hn.2 (fun p hp => hm p (by simp [hp])), List.filterMap_cons]
      simp [xobjText, hv]
    | some old =>
      simp only
      rw [mapPut_fresh (hm (i, it) (by simp)), xobjReplaces_eq xobjs t _ hn.2, List.filterMap_cons]
      · simp [xobjText, hv]
      · intro p hp
        have h1 := hm p (by simp [hp])
        rw [List.map_append, List.mem_append]
        rintro (h | h)
        · exact h1 h
        · have e : p.1 = i := by simpa using h
          exact hn.1 (List.mem_map.2 ⟨p, hp, e⟩)

/-- what replaces a result with /Resources -/
def embedText (xobjs : List CrXObj) (p : Int × Items) : Option (Int × Bytes) :=
  (p.2.valOf b!"Resources").map (fun v => (p.1, (p.2.setValOf b!"Resources" (b!"<<" ++ (((trimSpace v).take ((trimSpace v).length - 2)).drop 2 ++ b!" /XObject <<" ++
    crXObjsString xobjs ++ b!">>") ++ b!">>\n")).string))

theorem embedReplaces_eq (xobjs : List CrXObj) : ∀ (l : List (Int × Items)) {m reps : List (Int × Bytes)}, embedReplaces xobjs l m = .ok reps →
    (l.map (·.1)).Nodup → (∀ p ∈ l, p.1 ∉ m.map (·.1)) → reps = m ++ l.filterMap (embedText xobjs)
  | [], m, reps, h, _, _ => by simp only [embedReplaces, Res.ok.injEq] at h; simp [h]
  | (i, it) :: t, m, reps, h, hn, hm => by
    rw [List.map_cons, List.nodup_cons] at hn
    rw [embedReplaces] at h
    cases hv : it.valOf b!"Resources" with
    | none =>
      rw [hv] at h
      simp only at h
      rw [embedReplaces_eq xobjs t h hn.2 (fun p hp => hm p (by simp [hp])), List.filterMap_cons]
      simp [embedText, hv]
    | some v =>
      rw [hv] at h
      simp only at h
      split at h
      · simp at h
      · rw [mapPut_fresh (hm (i, it) (by simp))] at h
        rw [embedReplaces_eq xobjs t h hn.2, List.filterMap_cons]
        · simp [embedText, hv]
        · intro p hp
          have h1 := hm p (by simp [hp])
          rw [List.map_append, List.mem_append]
          rintro (h | h)
          · exact h1 h
          · have e : p.1 = i := by simpa using h
            exact hn.1 (List.mem_map.2 ⟨p, hp, e⟩)

/-- what replaces a result, whatever it is -/
def addText (xobjs : List CrXObj) (p : Int × Items) : Int × Bytes :=
  (p.1, (p.2.append (.str b!"XObject" (b!"<<" ++ crXObjsString xobjs ++ b!">>\n") .nil)).string)

theorem addReplaces_eq (xobjs : List CrXObj) : ∀ (l : List (Int × Items)) (m : List (Int × Bytes)), (l.map (·.1)).Nodup → (∀ p ∈ l, p.1 ∉ m.map (·.1)) →
    addReplaces xobjs l m = m ++ l.map (addText xobjs)
  | [], m, _, _ => by simp [addReplaces]
  | (i, it) :: t, m, hn, hm => by
    rw [List.map_cons, List.nodup_cons] at hn
    rw [addReplaces, mapPut_fresh (hm (i, it) (by simp)), addReplaces_eq xobjs t _ hn.2]
    · simp [addText]
    · intro p hp
      have h1 := hm p (by simp [hp])
      rw [List.map_append, List.mem_append]
      rintro (h | h)
      · exact h1 h
      · have e : p.1 = i := by simpa using h
        exact hn.1 (List.mem_map.2 ⟨p, hp, e⟩)


/-! ### values -/

theorem ref_head {v : Bytes} {id : Int} (ht : TidyVal v) (h : refOf v = some id) : ∃ c t, v = c :: t ∧ (isDigit c = true ∨ c = 45 ∨ c = 43) := by
  have h := refOf_some h
  unfold readObjIDFromDictionary at h
  rw [tidy_trim ht] at h
  simp only at h
  by_cases hv : v = []
  · rw [if_pos hv] at h; simp at h
  rw [if_neg hv] at h
  obtain ⟨c, t, rfl⟩ := List.exists_cons_of_ne_nil hv
  have hc32 : c ≠ 32 := by intro e; exact ht.first (by rw [e]; rfl)
  obtain ⟨a, r, hs, ha⟩ := splitSpace_head (t := t) hc32
  rw [hs] at h
  split at h
  · rename_i a' y z hl
    simp at hl
    obtain ⟨rfl, rfl⟩ := hl
    have hta : trimSpace (c :: a) = c :: a := trimSpace_plain (fun d hd => by
      have hm := splitSpace_mem (c :: a) (by rw [hs]; simp) d hd
      have hp := printable_byte (ht.printable d hm.1)
      exact ⟨hp.1, hp.2.2.2.2 hm.2⟩)
    rw [hta] at h
    split at h
    · rename_i n hn
      exact ⟨c, t, rfl, (atoi_bytes hn).2 c (by simp)⟩
    · simp at h
  · simp at h

theorem parseCrXObjs_ref {v : Bytes} {id : Int} (ht : TidyVal v) (h : refOf v = some id) : parseCrXObjs v = [] := by
  obtain ⟨c, t, rfl, hc⟩ := ref_head ht h
  have hpl : PlainVal (c :: t) := by
    rcases ht.shape with hs | ⟨hg, _⟩
    · exact hs
    · exfalso
      simp only [List.head?_cons, Option.some.injEq] at hg
      rcases hg with rfl | rfl
      · rcases hc with e | e | e <;> exact absurd e (by decide)
      · rcases hc with e | e | e <;> exact absurd e (by decide)
  have hb : ∀ d ∈ beforeStream (c :: t), d ∈ c :: t := by
    intro d hd
    unfold beforeStream at hd
    split at hd
    · exact List.mem_of_mem_take hd
    · exact hd
  have hi : index b!"<<" (beforeStream (c :: t)) = none := (index_none_iff (by simp)).2 (fun hi => (hpl 60 (hb 60 (hi.subset (by simp)))).2.2.2.1 rfl)
  unfold parseCrXObjs readProperties
  rw [hi]

/-! ### the step -/

/-- resources in place are written as they are read -/
def Spec.Written (pages : List FlatPage) : Prop := ∀ g ∈ pages, ∀ r, g.res = some r → r.place = none → valueOf g.entries b!"Resources" = some (dictVal r.entries)

/-- the images of the pages can be read -/
def Spec.ImagesReadable (pages : List FlatPage) : Prop :=
  ∀ g ∈ pages, ∀ r, g.res = some r → ∀ w, valueOf r.entries b!"XObject" = some w → (Inline w ∧ ∃ xs, readProperties w = .ok xs ∧ Tidy xs) ∨ ∃ i, refOf w = some i

/-- no page has images -/
def Spec.ImageFree (pages : List FlatPage) : Prop := ∀ g ∈ pages, ∀ r, g.res = some r → valueOf r.entries b!"XObject" = none

/-- if no page has images, the resources are in place for all pages, or in objects of their own for all -/
def Spec.Unmixed (pages : List FlatPage) : Prop :=
  ImageFree pages → (∀ g ∈ pages, ∀ r, g.res = some r → r.place = none) ∨ ∀ g ∈ pages, ∀ r, g.res = some r → r.place ≠ none

/-- the resources of the pages are in different places -/
def Spec.Split (pages : List FlatPage) : Prop := ∃ g ∈ pages, ∃ r, ∃ g' ∈ pages, ∃ r', g.res = some r ∧ g'.res = some r' ∧ r.place ≠ r'.place

/-- the images of all pages are known, and the last of each page has at most the number `n` -/
def Covers (pages : List FlatPage) (xs : List CrXObj) (n : Int) : Prop :=
  ∀ g ∈ pages, ∀ r v, g.res = some r → valueOf r.entries b!"XObject" = some v → (∀ x ∈ parseCrXObjs v, x ∈ xs) ∧ ∀ l, (parseCrXObjs v).getLast? = some l → l.idx ≤ n

/-- the same entries but for /XObject -/
def Keeps (a b : Props) : Prop := Tidy b ∧ ∀ key, key ≠ b!"XObject" → valueOf b key = valueOf a key

/-- the entries with this key are the same -/
def KeyKept (key : Bytes) (a b : Props) : Prop := b.filter (fun p => decide (p.key = key)) = a.filter (fun p => decide (p.key = key))

theorem KeyKept.valueOf {key : Bytes} {a b : Props} (h : KeyKept key a b) : Spec.valueOf b key = Spec.valueOf a key := by
  unfold Spec.valueOf
  rw [← List.head?_filter, ← List.head?_filter]
  unfold KeyKept at h
  rw [h]

theorem setFirst_kept {k key v : Bytes} (h : key ≠ k) : ∀ (ps : Props), KeyKept key ps (setFirst k v ps)
  | [] => rfl
  | p :: t => by
    have ih := setFirst_kept (v := v) h t
    unfold KeyKept at ih ⊢
    rw [setFirst]
    split
    · rename_i e
      rw [List.filter_cons_of_neg (by simp only [decide_eq_true_eq]; exact fun e' => h (e'.symm.trans e)), List.filter_cons_of_neg (by simp only [decide_eq_true_eq]; exact fun e' => h (e'.symm.trans e))]
    · by_cases e : p.key = key
      · rw [List.filter_cons_of_pos (by simpa using e), List.filter_cons_of_pos (by simpa using e), ih]
      · rw [List.filter_cons_of_neg (by simpa using e), List.filter_cons_of_neg (by simpa using e), ih]

theorem append_kept {key v : Bytes} (h : key ≠ b!"XObject") (ps : Props) : KeyKept key ps (ps ++ [⟨b!"XObject", v⟩]) := by
  unfold KeyKept
  rw [List.filter_append, List.filter_cons_of_neg (by simpa using Ne.symm h)]
  simp

/-- the /XObject entry afterwards -/
def XObjNew (xobjs new : List CrXObj) (pages : List FlatPage) (a b : Props) : Prop :=
  (valueOf b b!"XObject" = valueOf a b!"XObject" ∧ ¬ ImageFree pages ∧ (valueOf a b!"XObject" = none ∨ Split pages)) ∨
  (∃ old, valueOf a b!"XObject" = some old ∧ valueOf b b!"XObject" = some (dictVal (xobjProps (mergeXObjs (parseCrXObjs old) xobjs)))) ∨
  (valueOf a b!"XObject" = none ∧ valueOf b b!"XObject" = some (dictVal (xobjProps new)) ∧ ImageFree pages)

/-- the new objects of a document with images -/
structure ImgsInjected (objs objs' : List Obj) (root tree : Int) (ct node : Props) (pages : List FlatPage) (xobjs new : List CrXObj) : Prop where
  frame : ∀ i, i ≠ root → i ≠ tree → (∀ g ∈ pages, i ≠ g.id ∧ g.resPlace ≠ some i) → objs'.filter (fun x => decide (x.objID = i)) = objs.filter (fun x => decide (x.objID = i))
  cat : ∃ ct', Entries objs' root ct' ∧ Keeps ct ct'
  node : ∃ node', Entries objs' tree node' ∧ Keeps node node'
  page : ∀ g ∈ pages, ∃ ps', Entries objs' g.id ps' ∧ Tidy ps' ∧ (∀ key, key ≠ b!"XObject" → key ≠ b!"Resources" → KeyKept key g.entries ps') ∧
    (g.res = none → valueOf ps' b!"Resources" = none) ∧
    ∀ r, g.res = some r → ∃ rs', Keeps r.entries rs' ∧ XObjNew xobjs new pages r.entries rs' ∧ (match r.place with
      | none => valueOf ps' b!"Resources" = some (dictVal rs')
      | some i => valueOf ps' b!"Resources" = valueOf g.entries b!"Resources" ∧ Entries objs' i rs')

theorem findResources_spec : ∀ {l : List (Int × Items)} {b : Bool} {i : Int}, findResources l = .ok (some (b, i)) → ∃ p ∈ l, ∃ v, p.2.valOf b!"Resources" = some v ∧
    ((b = false ∧ refOf v = some i) ∨ (b = true ∧ i = p.1 ∧ refOf v = none))
  | [], b, i, h => by simp [findResources] at h
  | (j, it) :: t, b, i, h => by
    rw [findResources] at h
    cases hv : it.valOf b!"Resources" with
    | none =>
      rw [hv] at h
      obtain ⟨p, hp, r⟩ := findResources_spec h
      exact ⟨p, by simp [hp], r⟩
    | some v =>
      rw [hv] at h
      simp only at h
      refine ⟨(j, it), by simp, v, hv, ?_⟩
      unfold refOf
      split at h
      · rename_i id hr
        simp only [Res.ok.injEq, Option.some.injEq, Prod.mk.injEq] at h
        exact Or.inl ⟨h.1.symm, by rw [hr, h.2]⟩
      · rename_i hr
        simp only [Res.ok.injEq, Option.some.injEq, Prod.mk.injEq] at h
        exact Or.inr ⟨h.1.symm, h.2.symm, by rw [hr]⟩
      · simp at h
      · simp at h
      · simp at h

/-- the page found, and where its resources are -/
theorem findResources_flat (h : FlatDoc b!"XObject" objs root tree ct node pages) (h1 : valueOf ct b!"Resources" = none) (h2 : valueOf node b!"Resources" = none)
    {rs : Results} (hrs : FlatResults3 root tree ct node pages rs) {l : List (Int × Items)} (hl : ∀ p ∈ l, p ∈ rs) {b : Bool} {i : Int} (hf : findResources l = .ok (some (b, i))) :
    ∃ g ∈ pages, ∃ r, g.res = some r ∧ ((b = false ∧ r.place = some i) ∨ (b = true ∧ r.place = none ∧ i = g.id)) := by
  obtain ⟨p, hp, v, hv, hr⟩ := findResources_spec hf
  rcases hrs.only p (hl p hp) with rfl | rfl | ⟨g, hg, rfl⟩ | ⟨_, e⟩
  · rw [strs_valOf, h1] at hv; simp at hv
  · rw [strs_valOf, h2] at hv; simp at hv
  · rw [strs_valOf] at hv
    have hok := h.pagesOk g hg
    refine ⟨g, hg, ?_⟩
    cases hres : g.res with
    | none =>
      have := hok.res
      rw [hres] at this
      rw [show valueOf g.entries b!"Resources" = none from this] at hv
      simp at hv
    | some r =>
      obtain ⟨_, _, _, v', hv', hd⟩ := resEntries hok hres
      rw [onlyKey_valueOf hv'] at hv
      cases hv
      have ht := mem_tidy hok.tidy (onlyKey_mem hv')
      refine ⟨r, rfl, ?_⟩
      obtain ⟨_, hd⟩ := hd
      cases hpl : r.place with
      | none =>
        rw [hpl] at hd
        rcases hr with ⟨_, e⟩ | ⟨e1, e2, _⟩
        · exact absurd hd.1 (ref_type ht e).2.1
        · exact Or.inr ⟨e1, rfl, e2⟩
      | some j =>
        rw [hpl] at hd
        rcases hr with ⟨e1, e⟩ | ⟨_, _, e⟩
        · rw [hd.1] at e
          exact Or.inl ⟨e1, e⟩
        · rw [hd.1] at e; simp at e
  · rw [e] at hv; simp [Items.valOf] at hv

theorem keeps_refl {ps : Props} (h : Tidy ps) : Keeps ps ps := ⟨h, fun _ _ => rfl⟩

theorem setFirst_keeps {ps : Props} {v : Bytes} {xs : Props} (ht : Tidy ps) (h : valueOf ps b!"XObject" = some v) (hx : Tidy xs) :
    Keeps ps (setFirst b!"XObject" (dictVal xs) ps) ∧ valueOf (setFirst b!"XObject" (dictVal xs) ps) b!"XObject" = some (dictVal xs) := by
  refine ⟨⟨setFirst_tidy ht h (tidy_dictVal hx) (lacks_dictVal hx), fun key hk => ?_⟩, ?_⟩
  · rw [setFirst_valueOf h, if_neg hk]
  · rw [setFirst_valueOf h, if_pos rfl]

theorem xobj_tidy {xs : Props} (hx : Tidy xs) : Tidy [(⟨b!"XObject", dictVal xs⟩ : PropD)] := by
  intro p hp
  have e : p = ⟨b!"XObject", dictVal xs⟩ := by simpa using hp
  subst e
  exact ⟨(by decide : ∀ c ∈ b!"XObject", Regular c), tidy_dictVal hx, (by decide : Lacks b!"stream" b!"XObject"), lacks_iff.2 (lacks_dictVal hx)⟩

theorem append_keeps {ps : Props} {xs : Props} (ht : Tidy ps) (hx : Tidy xs) : Keeps ps (ps ++ [⟨b!"XObject", dictVal xs⟩]) := by
  refine ⟨Spec.Tidy.append ht (xobj_tidy hx), fun key hk => ?_⟩
  rw [valueOf_append]
  have : valueOf [(⟨b!"XObject", dictVal xs⟩ : PropD)] key = none := by simp [valueOf, Ne.symm hk]
  rw [this, Option.or_none]

theorem append_xobj {ps : Props} {xs : Props} (h : valueOf ps b!"XObject" = none) : valueOf (ps ++ [⟨b!"XObject", dictVal xs⟩]) b!"XObject" = some (dictVal xs) := by
  rw [valueOf_append, h]
  simp [valueOf]

theorem copies_keeps {n : Nat} (hn : 1 ≤ n) {ps qs : Props} (h : Keeps (copies n ps) qs) : Keeps ps qs :=
  ⟨h.1, fun key hk => by rw [h.2 key hk, copies_valueOf hn]⟩

/-- what is written replaces the objects -/
theorem replaced {reps : List (Int × Bytes)} {objs' : List Obj} (hap : applyReplaces (reps.map (fun p => (p.1, wrapDict p.2))) objs = .ok objs') (hn : (reps.map (·.1)).Nodup)
    (hex : ∀ p ∈ reps, ∃ o, OnlyObj objs p.1 o) :
    (∀ i, i ∉ reps.map (·.1) → objs'.filter (fun x => decide (x.objID = i)) = objs.filter (fun x => decide (x.objID = i))) ∧
    ∀ p ∈ reps, ∀ {it : Items} {ps : Props}, p.2 = it.string → Reads it ps → Tidy ps → it.Lack streamKw → Entries objs' p.1 ps := by
  have hk2 : ((reps.map (fun p => (p.1, wrapDict p.2))).map (·.1)) = reps.map (·.1) := by simp
  obtain ⟨hframe, hwritten⟩ := applyReplaces_only _ hap (by
    intro p hp
    obtain ⟨q, hq, rfl⟩ := List.mem_map.1 hp
    exact hex q hq) (by rw [hk2]; exact hn)
  rw [hk2] at hframe
  refine ⟨hframe, ?_⟩
  intro p hp it ps e hr ht hl
  obtain ⟨o, _, ho⟩ := hwritten (p.1, wrapDict p.2) (List.mem_map.2 ⟨p, hp, rfl⟩)
  refine entries_of_only ho ?_
  simp only
  rw [e]
  exact readProperties_items hr (Spec.Tidy.canon ht) (Items.Lack.string streamWord hl)

theorem filterMap_keys {f : Int × Items → Option (Int × Bytes)} (hf : ∀ p q, f p = some q → q.1 = p.1) : ∀ {l : List (Int × Items)}, (l.map (·.1)).Nodup →
    ((l.filterMap f).map (·.1)).Nodup
  | [], _ => by simp
  | p :: t, h => by
    rw [List.map_cons, List.nodup_cons] at h
    rw [List.filterMap_cons]
    split
    · exact filterMap_keys hf h.2
    · rename_i q hq
      rw [List.map_cons, List.nodup_cons]
      refine ⟨?_, filterMap_keys hf h.2⟩
      rw [hf p q hq]
      intro hm
      obtain ⟨q', hq', e⟩ := List.mem_map.1 hm
      obtain ⟨p', hp', e'⟩ := List.mem_filterMap.1 hq'
      exact h.1 (List.mem_map.2 ⟨p', hp', by rw [← hf p' q' e', e]⟩)

theorem xobjText_key {xobjs : List CrXObj} (p : Int × Items) (q : Int × Bytes) (h : xobjText xobjs p = some q) : q.1 = p.1 := by
  obtain ⟨_, _, rfl⟩ := Option.map_eq_some_iff.1 h
  rfl

theorem embedText_key {xobjs : List CrXObj} (p : Int × Items) (q : Int × Bytes) (h : embedText xobjs p = some q) : q.1 = p.1 := by
  obtain ⟨_, _, rfl⟩ := Option.map_eq_some_iff.1 h
  rfl

theorem shuffle_nodup (σ : Shuffle) {l : List (Int × Items)} (h : (l.map (·.1)).Nodup) : ((σ.fn l).map (·.1)).Nodup :=
  ((σ.perm l).map _).nodup_iff.2 h


theorem not_written {f : Int × Items → Option (Int × Bytes)} (hf : ∀ p q, f p = some q → q.1 = p.1) {l : List (Int × Items)} (hn : (l.map (·.1)).Nodup) {p : Int × Items} (hp : p ∈ l)
    (h : f p = none) : p.1 ∉ (l.filterMap f).map (·.1) := by
  intro hm
  obtain ⟨q, hq, e⟩ := List.mem_map.1 hm
  obtain ⟨p', hp', e'⟩ := List.mem_filterMap.1 hq
  have e1 := hf p' q e'
  have h1 := (lookup_of_mem hn (i := p'.1) (x := p'.2)).2 hp'
  have h2 := (lookup_of_mem hn (i := p.1) (x := p.2)).2 hp
  rw [← e1, e, h2] at h1
  have : p' = p := Prod.ext (e1.symm.trans e) (Option.some.inj h1).symm
  rw [this, h] at e'
  simp at e'

theorem xobjText_some {xobjs : List CrXObj} {p : Int × Items} {old : Bytes} (h : p.2.valOf b!"XObject" = some old) :
    xobjText xobjs p = some (p.1, (p.2.setValOf b!"XObject" (dictVal (xobjProps (mergeXObjs (parseCrXObjs old) xobjs)) ++ [10])).string) := by
  rw [xobjText, h]
  simp [crXObjsString_eq, dictVal]

theorem xobjText_none {xobjs : List CrXObj} {p : Int × Items} (h : p.2.valOf b!"XObject" = none) : xobjText xobjs p = none := by
  rw [xobjText, h]; rfl

theorem embedText_none {xobjs : List CrXObj} {p : Int × Items} (h : p.2.valOf b!"Resources" = none) : embedText xobjs p = none := by
  rw [embedText, h]; rfl

theorem writes_nl {ps : Props} (h : Tidy ps) : WritesVal (dictVal ps ++ [10]) (dictVal ps) := writesVal_nl (writesVal_tidy (tidy_dictVal h) (by simp [dictVal]))

theorem lack_dictNl {ps : Props} (h : Tidy ps) : ¬ streamKw <:+: dictVal ps ++ [10] := lack_nl streamWord (lacks_dictVal h)

/-- the images can be written into any list -/
def Writable (xobjs : List CrXObj) (pages : List FlatPage) : Prop :=
  ∀ g ∈ pages, ∀ r, g.res = some r → ∀ old, valueOf r.entries b!"XObject" = some old → Tidy (xobjProps (mergeXObjs (parseCrXObjs old) xobjs))

/-- a page left alone -/
theorem page_left {objs' : List Obj} {xobjs new : List CrXObj} (hw : Written pages) {g : FlatPage} (hg : g ∈ pages) (hok : g.Ok objs b!"XObject")
    (hf : objs'.filter (fun x => decide (x.objID = g.id)) = objs.filter (fun x => decide (x.objID = g.id)))
    (hr : ∀ r, g.res = some r → match r.place with
      | none => ¬ ImageFree pages ∧ (valueOf r.entries b!"XObject" = none ∨ Split pages)
      | some i => ∃ rs', Keeps r.entries rs' ∧ XObjNew xobjs new pages r.entries rs' ∧ Entries objs' i rs') :
    ∃ ps', Entries objs' g.id ps' ∧ Tidy ps' ∧ (∀ key, key ≠ b!"XObject" → key ≠ b!"Resources" → KeyKept key g.entries ps') ∧
    (g.res = none → valueOf ps' b!"Resources" = none) ∧
    ∀ r, g.res = some r → ∃ rs', Keeps r.entries rs' ∧ XObjNew xobjs new pages r.entries rs' ∧ (match r.place with
      | none => valueOf ps' b!"Resources" = some (dictVal rs')
      | some i => valueOf ps' b!"Resources" = valueOf g.entries b!"Resources" ∧ Entries objs' i rs') := by
  refine ⟨g.entries, entries_frame hf hok.entries, hok.tidy, fun _ _ _ => rfl, fun e => ?_, fun r e => ?_⟩
  · have := hok.res
    rw [e] at this
    exact this
  · have := hr r e
    cases hp : r.place with
    | none =>
      rw [hp] at this
      exact ⟨r.entries, keeps_refl (resEntries hok e).1, Or.inl ⟨rfl, this⟩, hw g hg r e hp⟩
    | some i =>
      rw [hp] at this
      obtain ⟨rs', h1, h2, h3⟩ := this
      exact ⟨rs', h1, h2, rfl, h3⟩

/-- A resource object is written anew. -/
theorem imgs_found_one (h : FlatDoc b!"XObject" objs root tree ct node pages) (hw : Written pages) {g0 : FlatPage} (hg0 : g0 ∈ pages) {r0 : ResInfo} (hr0 : g0.res = some r0) {i0 : Int}
    (hi0 : r0.place = some i0) {old : Bytes} (hold : valueOf r0.entries b!"XObject" = some old) {l : List (Int × Items)} (hn : (l.map (·.1)).Nodup)
    (hin : (i0, strs r0.entries) ∈ l) (honly : ∀ p ∈ l, p = (i0, strs r0.entries) ∨ p.2 = .nil) {xobjs new : List CrXObj} (hx : Writable xobjs pages) {objs' : List Obj}
    (hap : applyReplaces ((l.filterMap (xobjText xobjs)).map (fun p => (p.1, wrapDict p.2))) objs = .ok objs') :
    ImgsInjected objs objs' root tree ct node pages xobjs new := by
  have hnf : ¬ ImageFree pages := fun hf => by
    have := hf g0 hg0 r0 hr0
    rw [hold] at this
    simp at this
  have hok0 := h.pagesOk g0 hg0
  obtain ⟨t0, _, _, v0, _, _, hd0⟩ := resEntries hok0 hr0
  rw [hi0] at hd0
  have hkeys : ∀ q ∈ l.filterMap (xobjText xobjs), q.1 = i0 := by
    intro q hq
    obtain ⟨p, hp, e⟩ := List.mem_filterMap.1 hq
    rcases honly p hp with rfl | e'
    · exact xobjText_key _ _ e
    · rw [xobjText_none (by rw [e']; rfl)] at e
      simp at e
  obtain ⟨hframe, hget⟩ := replaced hap (filterMap_keys xobjText_key hn) (fun q hq => by
    rw [hkeys q hq]
    obtain ⟨o, ho, _⟩ := hd0.2
    exact ⟨o, ho⟩)
  have hfr : ∀ i, i ≠ i0 → objs'.filter (fun x => decide (x.objID = i)) = objs.filter (fun x => decide (x.objID = i)) := by
    intro i hi
    refine hframe i (fun hm => ?_)
    obtain ⟨q, hq, rfl⟩ := List.mem_map.1 hm
    exact hi (hkeys q hq)
  have htx := hx g0 hg0 r0 hr0 old hold
  have hv : (strs r0.entries).valOf b!"XObject" = some old := by rw [strs_valOf, hold]
  have hent : Entries objs' i0 (setFirst b!"XObject" (dictVal (xobjProps (mergeXObjs (parseCrXObjs old) xobjs))) r0.entries) := by
    refine hget _ (List.mem_filterMap.2 ⟨_, hin, xobjText_some hv⟩) rfl (reads_set t0 hold (dictNl_trim _) (writes_nl htx)) (setFirst_keeps t0 hold htx).1.1 ?_
    exact Items.Lack.setValOf (lack_dictNl htx) (lacksStream_strs t0)
  have hapart := h.resApart g0 hg0 i0 (by rw [FlatPage.resPlace, hr0]; exact hi0)
  simp only [List.mem_cons, not_or] at hapart
  refine ⟨fun i _ _ hi => hfr i (fun e => ?_), ⟨ct, entries_frame (hfr root (Ne.symm hapart.1)) h.catEntries, keeps_refl h.catTidy⟩,
    ⟨node, entries_frame (hfr tree (Ne.symm hapart.2.1)) h.nodeEntries, keeps_refl h.nodeTidy⟩, fun g hg => ?_⟩
  · subst e
    exact (hi g0 hg0).2 (by rw [FlatPage.resPlace, hr0]; exact hi0)
  · have hok := h.pagesOk g hg
    refine page_left hw hg hok (hfr g.id (fun e => hapart.2.2 (e ▸ List.mem_map_of_mem hg))) (fun r hr => ?_)
    cases hp : r.place with
    | none => exact ⟨hnf, Or.inr ⟨g, hg, r, g0, hg0, r0, hr, hr0, by rw [hp, hi0]; simp⟩⟩
    | some i =>
      by_cases hi : i = i0
      · subst hi
        obtain rfl := resAgree hok hok0 hr hr0 hp hi0
        obtain ⟨k1, k2⟩ := setFirst_keeps t0 hold htx
        exact ⟨_, k1, Or.inr (Or.inl ⟨old, hold, k2⟩), hent⟩
      · obtain ⟨t, _, _, v, _, _, hd⟩ := resEntries hok hr
        rw [hp] at hd
        exact ⟨r.entries, keeps_refl t, Or.inl ⟨rfl, hnf, Or.inr ⟨g, hg, r, g0, hg0, r0, hr, hr0, by rw [hp, hi0]; simpa using hi⟩⟩, entries_frame (hfr i hi) hd.2⟩

/-- All the pages and resource objects with images are written anew. -/
theorem imgs_found_all (h : FlatDoc b!"XObject" objs root tree ct node pages) (hw : Written pages) {rs : Results} (hrs : FlatResults b!"XObject" root tree ct node pages rs)
    (hnf : ¬ ImageFree pages) {l : List (Int × Items)} (hl : l.Perm rs) {xobjs new : List CrXObj} (hx : Writable xobjs pages) {objs' : List Obj}
    (hap : applyReplaces ((l.filterMap (xobjText xobjs)).map (fun p => (p.1, wrapDict p.2))) objs = .ok objs') :
    ImgsInjected objs objs' root tree ct node pages xobjs new := by
  have hn : (l.map (·.1)).Nodup := (hl.map _).nodup_iff.2 hrs.nodup
  have hmem : ∀ {p}, p ∈ rs → p ∈ l := fun hp => hl.mem_iff.2 hp
  -- what is written
  have hsrc : ∀ q ∈ l.filterMap (xobjText xobjs), (∃ g ∈ pages, q.1 = g.id) ∨ ∃ g ∈ pages, ∃ r, g.res = some r ∧ r.place = some q.1 := by
    intro q hq
    obtain ⟨p, hp, e⟩ := List.mem_filterMap.1 hq
    have e1 := xobjText_key _ _ e
    rcases hrs.only p (hl.mem_iff.1 hp) with rfl | rfl | ⟨g, hg, rfl⟩ | ⟨g, hg, r, h1, h2, _⟩ | ⟨_, e'⟩
    · rw [xobjText_none (by rw [strs_valOf]; exact h.catPlain.1)] at e; simp at e
    · rw [xobjText_none (by rw [strs_valOf]; exact h.nodePlain.1)] at e; simp at e
    · exact Or.inl ⟨g, hg, e1⟩
    · exact Or.inr ⟨g, hg, r, h1, by rw [e1]; exact h2⟩
    · rw [xobjText_none (by rw [e']; rfl)] at e; simp at e
  obtain ⟨hframe, hget⟩ := replaced hap (filterMap_keys xobjText_key hn) (fun q hq => by
    rcases hsrc q hq with ⟨g, hg, e⟩ | ⟨g, hg, r, h1, h2⟩
    · rw [e]
      obtain ⟨o, ho, _⟩ := (h.pagesOk g hg).entries
      exact ⟨o, ho⟩
    · obtain ⟨_, _, _, v, _, _, hd⟩ := resEntries (h.pagesOk g hg) h1
      rw [h2] at hd
      obtain ⟨_, o, ho, _⟩ := hd
      exact ⟨o, ho⟩)
  have hno : ∀ {p : Int × Items}, p ∈ rs → p.2.valOf b!"XObject" = none →
      objs'.filter (fun x => decide (x.objID = p.1)) = objs.filter (fun x => decide (x.objID = p.1)) :=
    fun hp hv => hframe _ (not_written xobjText_key hn (hmem hp) (xobjText_none hv))
  -- resource objects
  have hres : ∀ g ∈ pages, ∀ r i, g.res = some r → r.place = some i → ∃ rs', Keeps r.entries rs' ∧ XObjNew xobjs new pages r.entries rs' ∧ Entries objs' i rs' := by
    intro g hg r i hr hp
    obtain ⟨t, _, _, v, _, _, hd⟩ := resEntries (h.pagesOk g hg) hr
    rw [hp] at hd
    have hn1 := sharers_pos hg hr hp
    have hin := hrs.res g hg r i hr hp
    cases hv : valueOf r.entries b!"XObject" with
    | none =>
      refine ⟨r.entries, keeps_refl t, Or.inl ⟨rfl, hnf, Or.inl hv⟩, entries_frame (hno hin ?_) hd.2⟩
      rw [strs_valOf, copies_valueOf hn1, hv]
    | some old =>
      have htx := hx g hg r hr old hv
      have hv' : valueOf (copies (sharers pages i) r.entries) b!"XObject" = some old := by rw [copies_valueOf hn1, hv]
      have hv2 : (strs (copies (sharers pages i) r.entries)).valOf b!"XObject" = some old := by rw [strs_valOf, hv']
      obtain ⟨k1, k2⟩ := setFirst_keeps (copies_tidy t) hv' htx
      refine ⟨_, copies_keeps hn1 k1, Or.inr (Or.inl ⟨old, hv, k2⟩), ?_⟩
      exact hget _ (List.mem_filterMap.2 ⟨_, hmem hin, xobjText_some hv2⟩) rfl (reads_set (copies_tidy t) hv' (dictNl_trim _) (writes_nl htx)) k1.1
        (Items.Lack.setValOf (lack_dictNl htx) (lacksStream_strs (copies_tidy t)))
  refine ⟨fun i _ _ hi => hframe i (fun hm => ?_), ⟨ct, entries_frame (hno hrs.catalog (by rw [strs_valOf]; exact h.catPlain.1)) h.catEntries, keeps_refl h.catTidy⟩,
    ⟨node, entries_frame (hno hrs.kids (by rw [strs_valOf]; exact h.nodePlain.1)) h.nodeEntries, keeps_refl h.nodeTidy⟩, fun g hg => ?_⟩
  · obtain ⟨q, hq, rfl⟩ := List.mem_map.1 hm
    rcases hsrc q hq with ⟨g, hg, e⟩ | ⟨g, hg, r, h1, h2⟩
    · exact (hi g hg).1 e
    · exact (hi g hg).2 (by rw [FlatPage.resPlace, h1]; exact h2)
  · have hok := h.pagesOk g hg
    have hval := pageItems_valOf hok
    have leave : (pageItems g).valOf b!"XObject" = none → _ := fun hv => page_left (xobjs := xobjs) (new := new) hw hg hok (hno (hrs.page g hg) hv) (fun r hr => by
      cases hp : r.place with
      | none =>
        rw [hr] at hval
        simp only [hp, if_true] at hval
        exact ⟨hnf, Or.inl (by rw [← hval, hv])⟩
      | some i => exact hres g hg r i hr hp)
    cases hr : g.res with
    | none =>
      rw [hr] at hval
      have := leave hval
      rw [hr] at this
      exact this
    | some r =>
      rw [hr] at hval
      simp only at hval
      by_cases hp : r.place = none
      · rw [if_pos hp] at hval
        cases hv : valueOf r.entries b!"XObject" with
        | none =>
          rw [hv] at hval
          have := leave hval
          rw [hr] at this
          exact this
        | some old =>
          rw [hv] at hval
          have htx := hx g hg r hr old hv
          obtain ⟨t1, _, _, v, hu, _⟩ := resEntries hok hr
          obtain ⟨k1, k2⟩ := setFirst_keeps t1 hv htx
          have huv := onlyKey_valueOf hu
          have htp := setFirst_tidy hok.tidy huv (tidy_dictVal k1.1) (lacks_dictVal k1.1)
          refine ⟨_, hget _ (List.mem_filterMap.2 ⟨_, hmem (hrs.page g hg), xobjText_some hval⟩) rfl (reads_page hok hr hp hv (dictNl_trim _) (writes_nl htx)) htp ?_, htp, ?_, by simp, ?_⟩
          · exact Items.Lack.setValOf (lack_dictNl htx) (pageItems_lack hok (lacksStream_strs hok.tidy) (fun r' hr' => lacksStream_strs (resEntries hok hr').1))
          · intro key _ hk
            exact setFirst_kept hk _
          · intro r' hr'
            cases hr'
            refine ⟨_, k1, Or.inr (Or.inl ⟨old, hv, k2⟩), ?_⟩
            rw [hp]
            simp only
            rw [setFirst_valueOf huv, if_pos rfl]
      · rw [if_neg hp] at hval
        have := leave hval
        rw [hr] at this
        exact this

/-- No page has images; the resources are in the pages. -/
theorem imgs_embedded (h : FlatDoc b!"XObject" objs root tree ct node pages) (hw : Written pages) (h1 : valueOf ct b!"Resources" = none) (h2 : valueOf node b!"Resources" = none)
    {rs : Results} (hrs : FlatResults3 root tree ct node pages rs)
    (hf : ImageFree pages) (hin : ∀ g ∈ pages, ∀ r, g.res = some r → r.place = none) {l : List (Int × Items)} (hl : l.Perm rs) {new : List CrXObj} (hx : Tidy (xobjProps new))
    {objs' : List Obj} (hap : applyReplaces ((l.filterMap (embedText new)).map (fun p => (p.1, wrapDict p.2))) objs = .ok objs') :
    ImgsInjected objs objs' root tree ct node pages new new := by
  have hn : (l.map (·.1)).Nodup := (hl.map _).nodup_iff.2 hrs.nodup
  have hmem : ∀ {p}, p ∈ rs → p ∈ l := fun hp => hl.mem_iff.2 hp
  have hsrc : ∀ q ∈ l.filterMap (embedText new), ∃ g ∈ pages, q.1 = g.id := by
    intro q hq
    obtain ⟨p, hp, e⟩ := List.mem_filterMap.1 hq
    have e1 := embedText_key _ _ e
    rcases hrs.only p (hl.mem_iff.1 hp) with rfl | rfl | ⟨g, hg, rfl⟩ | ⟨_, e'⟩
    · rw [embedText_none (by rw [strs_valOf]; exact h1)] at e; simp at e
    · rw [embedText_none (by rw [strs_valOf]; exact h2)] at e; simp at e
    · exact ⟨g, hg, e1⟩
    · rw [embedText_none (by rw [e']; rfl)] at e; simp at e
  obtain ⟨hframe, hget⟩ := replaced hap (filterMap_keys embedText_key hn) (fun q hq => by
    obtain ⟨g, hg, e⟩ := hsrc q hq
    rw [e]
    obtain ⟨o, ho, _⟩ := (h.pagesOk g hg).entries
    exact ⟨o, ho⟩)
  have hno : ∀ {p : Int × Items}, p ∈ rs → p.2.valOf b!"Resources" = none →
      objs'.filter (fun x => decide (x.objID = p.1)) = objs.filter (fun x => decide (x.objID = p.1)) :=
    fun hp hv => hframe _ (not_written embedText_key hn (hmem hp) (embedText_none hv))
  have hoff : ∀ i, (∀ g ∈ pages, i ≠ g.id) → objs'.filter (fun x => decide (x.objID = i)) = objs.filter (fun x => decide (x.objID = i)) := by
    intro i hi
    refine hframe i (fun hm => ?_)
    obtain ⟨q, hq, rfl⟩ := List.mem_map.1 hm
    obtain ⟨g, hg, e⟩ := hsrc q hq
    exact hi g hg e
  have hd := h.distinct
  rw [List.nodup_cons, List.nodup_cons] at hd
  refine ⟨fun i _ _ hi => hoff i (fun g hg => (hi g hg).1), ⟨ct, entries_frame (hoff root (fun g hg e => hd.1 (by simp only [List.mem_cons, List.mem_map]; exact Or.inr ⟨g, hg, e.symm⟩))) h.catEntries, keeps_refl h.catTidy⟩,
    ⟨node, entries_frame (hoff tree (fun g hg e => hd.2.1 (List.mem_map.2 ⟨g, hg, e.symm⟩))) h.nodeEntries, keeps_refl h.nodeTidy⟩, fun g hg => ?_⟩
  · have hok := h.pagesOk g hg
    cases hr : g.res with
    | none =>
      have hv : valueOf g.entries b!"Resources" = none := by
        have := hok.res
        rw [hr] at this
        exact this
      have := page_left (xobjs := new) (new := new) hw hg hok (hno (hrs.page g hg) (by rw [strs_valOf]; exact hv)) (fun r e => by rw [hr] at e; simp at e)
      rw [hr] at this
      exact this
    | some r =>
      have hp := hin g hg r hr
      obtain ⟨t1, _, _, v, hu, _⟩ := resEntries hok hr
      have huv := onlyKey_valueOf hu
      have hvd := hw g hg r hr hp
      rw [huv] at hvd
      cases hvd
      have k1 := append_keeps t1 hx
      have k2 := append_xobj (xs := xobjProps new) (hf g hg r hr)
      have htp := setFirst_tidy hok.tidy huv (tidy_dictVal k1.1) (lacks_dictVal k1.1)
      have htext : embedText new (g.id, strs g.entries) = some (g.id, ((strs g.entries).setValOf b!"Resources"
          (b!"<<" ++ (compact r.entries ++ b!" /XObject <<" ++ compact (xobjProps new) ++ b!">>") ++ b!">>\n")).string) := by
        rw [embedText]
        simp only
        rw [strs_valOf, huv]
        simp only [Option.map_some]
        rw [tidy_trim (tidy_dictVal t1), dictVal_take, crXObjsString_eq]
      refine ⟨_, hget _ (List.mem_filterMap.2 ⟨_, hmem (hrs.page g hg), htext⟩) rfl (reads_set hok.tidy huv (embed_trim _) (writesVal_embed t1 hx)) htp ?_, htp, ?_, by simp, ?_⟩
      · refine Items.Lack.setValOf ?_ (lacksStream_strs hok.tidy)
        have e : b!"<<" ++ (compact r.entries ++ b!" /XObject <<" ++ compact (xobjProps new) ++ b!">>") ++ b!">>\n" =
            60 :: 60 :: (compact r.entries ++ 32 :: (b!"/XObject" ++ 32 :: (dictVal (xobjProps new) ++ 62 :: (62 :: (10 :: []))))) := by simp [dictVal]
        rw [e]
        intro hi
        have hi := infix_cons_of_not_mem (streamWord.2 60 (by simp)) (infix_cons_of_not_mem (streamWord.2 60 (by simp)) hi)
        rcases infix_split (streamWord.2 32 (by simp)) hi with hi | hi
        · exact lacks_dictVal t1 (hi.trans ⟨b!"<<", b!">>", rfl⟩)
        rcases infix_split (streamWord.2 32 (by simp)) hi with hi | hi
        · exact absurd hi (by decide)
        rcases infix_split (streamWord.2 62 (by simp)) hi with hi | hi
        · exact lacks_dictVal hx hi
        · exact absurd hi (by decide)
      · intro key _ hk
        exact setFirst_kept hk _
      · intro r' hr'
        cases hr'
        refine ⟨_, k1, Or.inr (Or.inr ⟨hf g hg r hr, k2, hf⟩), ?_⟩
        rw [hp]
        simp only
        rw [setFirst_valueOf huv, if_pos rfl]

/-- No page has images; the resources are in objects of their own. -/
theorem imgs_added (h : FlatDoc b!"XObject" objs root tree ct node pages) {rs : Results} (hrs : FlatResults b!"XObject" root tree ct node pages rs)
    (hf : ImageFree pages) (hin : ∀ g ∈ pages, ∀ r, g.res = some r → r.place ≠ none) {l : List (Int × Items)} (hl : l.Perm rs) {new : List CrXObj} (hx : Tidy (xobjProps new))
    {objs' : List Obj} (hap : applyReplaces ((l.map (addText new)).map (fun p => (p.1, wrapDict p.2))) objs = .ok objs') :
    ImgsInjected objs objs' root tree ct node pages new new := by
  have hn : (l.map (·.1)).Nodup := (hl.map _).nodup_iff.2 hrs.nodup
  have hmem : ∀ {p}, p ∈ rs → p ∈ l := fun hp => hl.mem_iff.2 hp
  have hrefs : ∀ g ∈ pages, g.refs b!"XObject" = [] := by
    intro g hg
    unfold FlatPage.refs
    cases hr : g.res with
    | none => rfl
    | some r =>
      simp only
      rw [List.filter_eq_nil_iff.2 (fun p hp => by simpa using valueOf_none_iff.1 (hf g hg r hr) p hp)]
      rfl
  have hsrc : ∀ q ∈ l.map (addText new), q.1 = root ∨ q.1 = tree ∨ (∃ g ∈ pages, q.1 = g.id) ∨ ∃ g ∈ pages, ∃ r, g.res = some r ∧ r.place = some q.1 := by
    intro q hq
    obtain ⟨p, hp, rfl⟩ := List.mem_map.1 hq
    rcases hrs.only p (hl.mem_iff.1 hp) with rfl | rfl | ⟨g, hg, rfl⟩ | ⟨g, hg, r, a, b, _⟩ | ⟨⟨g, hg, e⟩, _⟩
    · exact Or.inl rfl
    · exact Or.inr (Or.inl rfl)
    · exact Or.inr (Or.inr (Or.inl ⟨g, hg, rfl⟩))
    · exact Or.inr (Or.inr (Or.inr ⟨g, hg, r, a, b⟩))
    · rw [hrefs g hg] at e; simp at e
  have hk : (l.map (addText new)).map (·.1) = l.map (·.1) := by simp [addText]
  obtain ⟨hframe, hget⟩ := replaced hap (by rw [hk]; exact hn) (fun q hq => by
    rcases hsrc q hq with e | e | ⟨g, hg, e⟩ | ⟨g, hg, r, a, b⟩
    · rw [e]
      obtain ⟨o, ho, _⟩ := h.catEntries
      exact ⟨o, ho⟩
    · rw [e]
      obtain ⟨o, ho, _⟩ := h.nodeEntries
      exact ⟨o, ho⟩
    · rw [e]
      obtain ⟨o, ho, _⟩ := (h.pagesOk g hg).entries
      exact ⟨o, ho⟩
    · obtain ⟨_, _, _, v, _, _, hd⟩ := resEntries (h.pagesOk g hg) a
      rw [b] at hd
      obtain ⟨_, o, ho, _⟩ := hd
      exact ⟨o, ho⟩)
  have hadd : ∀ {i : Int} {ps : Props}, (i, strs ps) ∈ rs → Tidy ps → Entries objs' i (ps ++ [⟨b!"XObject", dictVal (xobjProps new)⟩]) := by
    intro i ps hp ht
    have hlack : (Items.str b!"XObject" (dictVal (xobjProps new) ++ [10]) .nil).Lack streamKw := ⟨by decide, lack_dictNl hx, trivial⟩
    have e : (b!"<<" ++ crXObjsString new ++ b!">>\n" : Bytes) = dictVal (xobjProps new) ++ [10] := by simp [crXObjsString_eq, dictVal]
    refine hget (addText new (i, strs ps)) (List.mem_map_of_mem (hmem hp)) (it := (strs ps).append (.str b!"XObject" (dictVal (xobjProps new) ++ [10]) .nil)) ?_
      ((reads_strs ht).append ?_) (append_keeps ht hx).1 ((lacksStream_strs ht).append hlack)
    · rw [addText, e]
    · exact .str (regular_keyOk (by decide)) (dictNl_trim _) (writes_nl hx) .nil
  refine ⟨fun i hi1 hi2 hi => hframe i (fun hm => ?_), ⟨_, hadd hrs.catalog h.catTidy, append_keeps h.catTidy hx⟩, ⟨_, hadd hrs.kids h.nodeTidy, append_keeps h.nodeTidy hx⟩, fun g hg => ?_⟩
  · obtain ⟨q, hq, rfl⟩ := List.mem_map.1 hm
    rcases hsrc q hq with e | e | ⟨g, hg, e⟩ | ⟨g, hg, r, a, b⟩
    · exact hi1 e
    · exact hi2 e
    · exact (hi g hg).1 e
    · exact (hi g hg).2 (by rw [FlatPage.resPlace, a]; exact b)
  · have hok := h.pagesOk g hg
    have hpg := hrs.page g hg
    rw [pageItems_other (hin g hg)] at hpg
    have kp := append_keeps hok.tidy hx
    refine ⟨_, hadd hpg hok.tidy, kp.1, fun key hk _ => append_kept hk _, fun e => ?_, fun r hr => ?_⟩
    · rw [kp.2 _ (by decide)]
      have := hok.res
      rw [e] at this
      exact this
    · obtain ⟨t1, _⟩ := resEntries hok hr
      cases hp : r.place with
      | none => exact absurd hp (hin g hg r hr)
      | some i =>
        have hn1 := sharers_pos hg hr hp
        refine ⟨copies (sharers pages i) r.entries ++ [⟨b!"XObject", dictVal (xobjProps new)⟩], copies_keeps hn1 (append_keeps (copies_tidy t1) hx),
          Or.inr (Or.inr ⟨hf g hg r hr, append_xobj (by rw [copies_valueOf hn1]; exact hf g hg r hr), hf⟩), ?_⟩
        simp only
        exact ⟨kp.2 _ (by decide), hadd (hrs.res g hg r i hr hp) (copies_tidy t1)⟩


theorem xobjVals_mem {l : List (Int × Items)} {v : Bytes} : v ∈ xobjVals l ↔ ∃ p ∈ l, p.2.valOf b!"XObject" = some v := by
  unfold xobjVals
  exact List.mem_filterMap

theorem newCrXObjs_length (c : Bytes) : ∀ (ids : List Int) (n : Int), (newCrXObjs c n ids).length = ids.length
  | [], _ => rfl
  | _ :: t, n => by rw [newCrXObjs, List.length_cons, newCrXObjs_length c t, List.length_cons]

theorem xobjScan_le : ∀ (vs : List Bytes) (xs : List CrXObj) (c : Bytes) (n : Int), n ≤ (xobjScan vs xs c n).2.2
  | [], _, _, _ => le_refl _
  | v :: vs, xs, c, n => by
    rw [xobjScan]
    split
    · exact xobjScan_le vs _ c n
    · refine le_trans ?_ (xobjScan_le vs _ _ _)
      split <;> omega

theorem xobjScan_sub : ∀ (vs : List Bytes) (xs : List CrXObj) (c : Bytes) (n : Int), ∀ x ∈ xs, x ∈ (xobjScan vs xs c n).1
  | [], _, _, _, x, h => h
  | v :: vs, xs, c, n, x, h => by
    rw [xobjScan]
    split
    · exact xobjScan_sub vs _ c n x (by simp [h])
    · exact xobjScan_sub vs _ _ _ x (by simp [h])

theorem xobjScan_covers : ∀ (vs : List Bytes) (xs : List CrXObj) (c : Bytes) (n : Int), ∀ v ∈ vs, (∀ x ∈ parseCrXObjs v, x ∈ (xobjScan vs xs c n).1) ∧
    ∀ l, (parseCrXObjs v).getLast? = some l → l.idx ≤ (xobjScan vs xs c n).2.2
  | [], _, _, _, v, h => by simp at h
  | u :: vs, xs, c, n, v, h => by
    rw [xobjScan]
    rcases List.mem_cons.1 h with rfl | h
    · split
      · rename_i hl
        rw [List.getLast?_eq_none_iff, List.append_eq_nil_iff] at hl
        rw [hl.2]
        simp
      · rename_i l hl
        refine ⟨fun x hx => xobjScan_sub vs _ _ _ x (by simp [hx]), fun l' hl' => ?_⟩
        rw [List.getLast?_append, hl'] at hl
        simp only [Option.some_or, Option.some.injEq] at hl
        subst hl
        refine le_trans ?_ (xobjScan_le vs _ _ _)
        split <;> omega
    · split
      · exact xobjScan_covers vs _ _ _ v h
      · exact xobjScan_covers vs _ _ _ v h

theorem xobjScan_chr : ∀ (vs : List Bytes) (xs : List CrXObj) (c : Bytes) (n : Int), (c = b!"I" ∨ ∃ x ∈ xs, c = x.chr) →
    (xobjScan vs xs c n).2.1 = b!"I" ∨ ∃ x ∈ (xobjScan vs xs c n).1, (xobjScan vs xs c n).2.1 = x.chr
  | [], _, _, _, h => h
  | v :: vs, xs, c, n, h => by
    rw [xobjScan]
    split
    · exact xobjScan_chr vs _ c n (h.imp id (fun ⟨x, hx, e⟩ => ⟨x, by simp [hx], e⟩))
    · rename_i l hl
      exact xobjScan_chr vs _ _ _ (Or.inr ⟨l, List.mem_of_getLast? hl, rfl⟩)

/-- the entries that can be read from a value of the pages -/
theorem image_ok (h : FlatDoc b!"XObject" objs root tree ct node pages) (hi : ImagesReadable pages) {g : FlatPage} (hg : g ∈ pages) {r : ResInfo} (hr : g.res = some r) {v : Bytes}
    (hv : valueOf r.entries b!"XObject" = some v) : ∀ x ∈ parseCrXObjs v, CrXObjOk x := by
  obtain ⟨t, _⟩ := resEntries (h.pagesOk g hg) hr
  rcases hi g hg r hr v hv with ⟨_, xs, hd, ht⟩ | ⟨j, hd⟩
  · intro x hx
    unfold parseCrXObjs at hx
    rw [hd] at hx
    exact crXObjsOf_ok ht x hx
  · rw [parseCrXObjs_ref (mem_tidy t (valueOf_mem hv)) hd]
    simp

/-- Adding images to a document with a flat page tree. -/
theorem injectImgs_flat {σ : Nat → Shuffle} {d d' : Doc} {ids : List Int} {new : List CrXObj} (h : FlatDoc b!"XObject" d.objs d.rootObjID tree ct node pages)
    (h1 : valueOf ct b!"Resources" = none) (h2 : valueOf node b!"Resources" = none) (hw : Written pages) (hi : ImagesReadable pages) (hu : Unmixed pages)
    (hok : injectImgs σ d ids = .ok (d', new)) :
    ∃ c n xs, new = newCrXObjs c n ids ∧ (ImageFree pages → c = b!"I" ∧ n = 0 ∧ xs = []) ∧ (0 ≤ n ∧ (c = b!"I" ∨ ∃ x ∈ xs, c = x.chr) ∧ (¬ Split pages → Covers pages xs n)) ∧ (∀ x ∈ xs ++ new, CrXObjOk x) ∧
      (∀ x ∈ xs, ∃ g ∈ pages, ∃ r v, g.res = some r ∧ valueOf r.entries b!"XObject" = some v ∧ x ∈ parseCrXObjs v) ∧
      ImgsInjected d.objs d'.objs d.rootObjID tree ct node pages (xs ++ new) new ∧ d' = { d with objs := d'.objs } := by
  unfold injectImgs at hok
  obtain ⟨rs3, hc3, hc3', hrs3⟩ := pageCrawl_flat3 h (σ 20)
  rw [hc3, Res.ok_bind, Res.bind_eq_ok] at hok
  obtain ⟨f, hf, hok⟩ := hok
  cases f with
  | none => simp at hok
  | some f =>
  obtain ⟨emb, from_⟩ := f
  simp only at hok
  obtain ⟨g0, hg0, r0, hr0, hcase⟩ := findResources_flat h h1 h2 hrs3 (fun p hp => ((σ 21).perm rs3).mem_iff.1 hp) hf
  have hok0 := h.pagesOk g0 hg0
  obtain ⟨t0, s0, _, v0, hv0, hd0⟩ := resEntries hok0 hr0
  -- the first crawl
  obtain ⟨rs1, hrun1, hn1, hvals1, hone1⟩ : ∃ rs1, crawlRun d.objs from_ [b!"XObject"] = (rs1, .ok ()) ∧ (rs1.map (·.1)).Nodup ∧
      (∀ v ∈ xobjVals rs1, emb = false ∧ valueOf r0.entries b!"XObject" = some v) ∧
      (xobjVals rs1 ≠ [] → r0.place = some from_ ∧ (from_, strs r0.entries) ∈ rs1 ∧ ∀ p ∈ rs1, p = (from_, strs r0.entries) ∨ p.2 = .nil) := by
    rcases hcase with ⟨e1, e2⟩ | ⟨e1, e2, rfl⟩
    · rw [e2] at hd0
      obtain ⟨rs1, a, b, c, e⟩ := crawl_one (k := b!"XObject") hd0.2.2 t0 s0
      refine ⟨rs1, a, b, ?_, fun _ => ⟨e2, c, e⟩⟩
      intro v hv
      obtain ⟨p, hp, hpv⟩ := xobjVals_mem.1 hv
      rcases e p hp with rfl | e'
      · rw [strs_valOf] at hpv
        exact ⟨e1, hpv⟩
      · rw [e'] at hpv; simp [Items.valOf] at hpv
    · obtain ⟨rs1, a, b, c, e⟩ := crawl_one (k := b!"XObject") (r := ⟨none, g0.entries⟩) hok0.entries hok0.tidy (fun p hp hk => absurd hk (valueOf_none_iff.1 hok0.plain p hp))
      have hno : ∀ v, v ∉ xobjVals rs1 := by
        intro v hv
        obtain ⟨p, hp, hpv⟩ := xobjVals_mem.1 hv
        rcases e p hp with rfl | e'
        · rw [strs_valOf, hok0.plain] at hpv; simp at hpv
        · rw [e'] at hpv; simp [Items.valOf] at hpv
      exact ⟨rs1, a, b, fun v hv => absurd hv (hno v), fun hne => absurd (List.eq_nil_iff_forall_not_mem.2 hno) hne⟩
  rw [hrun1] at hok
  simp only [Res.ok_bind] at hok
  -- the second crawl
  obtain ⟨rs2, hc2, hrs2⟩ := pageCrawl_flat h (σ 22)
  have hvals2 : ∀ v ∈ xobjVals rs2, ∃ g ∈ pages, ∃ r, g.res = some r ∧ valueOf r.entries b!"XObject" = some v := by
    intro v hv
    obtain ⟨p, hp, hpv⟩ := xobjVals_mem.1 hv
    rcases hrs2.only p hp with rfl | rfl | ⟨g, hg, rfl⟩ | ⟨g, hg, r, a, b, e⟩ | ⟨_, e⟩
    · rw [strs_valOf, h.catPlain.1] at hpv; simp at hpv
    · rw [strs_valOf, h.nodePlain.1] at hpv; simp at hpv
    · rw [pageItems_valOf (h.pagesOk g hg)] at hpv
      cases hr : g.res with
      | none => rw [hr] at hpv; simp at hpv
      | some r =>
        rw [hr] at hpv
        simp only at hpv
        by_cases hp : r.place = none
        · rw [if_pos hp] at hpv
          exact ⟨g, hg, r, hr, hpv⟩
        · rw [if_neg hp] at hpv; simp at hpv
    · rw [e, strs_valOf, copies_valueOf (sharers_pos hg a b)] at hpv
      exact ⟨g, hg, r, a, hpv⟩
    · rw [e] at hpv; simp [Items.valOf] at hpv
  have hin2 : ∀ g ∈ pages, ∀ r v, g.res = some r → valueOf r.entries b!"XObject" = some v → v ∈ xobjVals rs2 := by
    intro g hg r v hr hv
    cases hp : r.place with
    | none =>
      refine xobjVals_mem.2 ⟨_, hrs2.page g hg, ?_⟩
      rw [pageItems_valOf (h.pagesOk g hg), hr]
      simp only [hp, if_true]
      exact hv
    | some i => exact xobjVals_mem.2 ⟨_, hrs2.res g hg r i hr hp, by rw [strs_valOf, copies_valueOf (sharers_pos hg hr hp), hv]⟩
  have hfree2 : xobjVals rs2 = [] → ImageFree pages := by
    intro he g hg r hr
    cases hv : valueOf r.entries b!"XObject" with
    | none => rfl
    | some v =>
      have := hin2 g hg r v hr hv
      rw [he] at this
      simp at this
  -- the entries
  have hscan : ∀ (vs : List Bytes), (∀ v ∈ vs, ∃ g ∈ pages, ∃ r, g.res = some r ∧ valueOf r.entries b!"XObject" = some v) →
      ∀ x ∈ (xobjScan vs [] b!"I" 0).1 ++ newCrXObjs (xobjScan vs [] b!"I" 0).2.1 (xobjScan vs [] b!"I" 0).2.2 ids, CrXObjOk x := by
    intro vs hvs
    obtain ⟨a, b⟩ := xobjScan_ok vs [] b!"I" 0 (fun v hv => by
      obtain ⟨g, hg, r, hr, e⟩ := hvs v hv
      exact image_ok h hi hg hr e) (by simp) ⟨by decide, by decide⟩
    intro x hx
    rcases List.mem_append.1 hx with hx | hx
    · exact a x hx
    · exact newCrXObjs_ok b ids _ x hx
  have hsrc : ∀ (vs : List Bytes), (∀ v ∈ vs, ∃ g ∈ pages, ∃ r, g.res = some r ∧ valueOf r.entries b!"XObject" = some v) →
      ∀ x ∈ (xobjScan vs [] b!"I" 0).1, ∃ g ∈ pages, ∃ r v, g.res = some r ∧ valueOf r.entries b!"XObject" = some v ∧ x ∈ parseCrXObjs v := by
    intro vs hvs x hx
    obtain ⟨v, hv, hx⟩ := xobjScan_mem vs [] b!"I" 0 x hx (by simp)
    obtain ⟨g, hg, r, hr, e⟩ := hvs v hv
    exact ⟨g, hg, r, v, hr, e, hx⟩
  have hwr : ∀ {xobjs : List CrXObj}, (∀ x ∈ xobjs, CrXObjOk x) → Writable xobjs pages := by
    intro xobjs hx g hg r hr old hold
    exact xobjProps_tidy (mergeXObjs_ok (image_ok h hi hg hr hold) hx)
  by_cases hv1 : xobjVals rs1 = []
  · rw [if_pos hv1, hc2] at hok
    simp only [Res.ok_bind] at hok
    by_cases hv2 : xobjVals rs2 = []
    · -- no images
      have hfree := hfree2 hv2
      have hsh : (σ 23).fn (xobjVals rs2) = [] := by
        have := ((σ 23).perm (xobjVals rs2)).length_eq
        rw [hv2] at this ⊢
        exact List.length_eq_zero_iff.1 this
      rw [hsh] at hok
      rw [hv2] at hok
      simp only [List.isEmpty_nil, Bool.not_true, Bool.false_eq_true, if_false, xobjScan, List.nil_append] at hok
      have hokx : ∀ x ∈ newCrXObjs b!"I" 0 ids, CrXObjOk x := newCrXObjs_ok ⟨by decide, by decide⟩ ids 0
      have htx := xobjProps_tidy hokx
      rw [Res.bind_eq_ok] at hok
      obtain ⟨reps, hreps, hok⟩ := hok
      rw [Res.bind_eq_ok] at hok
      obtain ⟨objs', hap, hok⟩ := hok
      simp only [Res.ok.injEq, Prod.mk.injEq] at hok
      obtain ⟨rfl, rfl⟩ := hok
      refine ⟨b!"I", 0, [], rfl, fun _ => ⟨rfl, rfl, rfl⟩, ⟨le_refl _, Or.inl rfl, fun _ g hg r v hr hv => absurd hv (by rw [hfree g hg r hr]; simp)⟩, by simpa using hokx, by simp, ?_, rfl⟩
      rw [List.nil_append]
      rcases hcase with ⟨rfl, e2⟩ | ⟨rfl, e2, rfl⟩
      · simp only [Bool.false_eq_true, if_false, Res.ok.injEq] at hreps
        rw [addReplaces_eq _ _ _ (shuffle_nodup (σ 26) hrs2.nodup) (by simp), List.nil_append] at hreps
        subst hreps
        refine imgs_added h hrs2 hfree ?_ ((σ 26).perm rs2) htx hap
        rcases hu hfree with e | e
        · exact absurd (e g0 hg0 r0 hr0) (by rw [e2]; simp)
        · exact e
      · simp only [if_true] at hreps
        rw [hc3'] at hreps
        simp only [Res.ok_bind] at hreps
        have := embedReplaces_eq _ _ hreps (shuffle_nodup (σ 25) hrs3.nodup) (by simp)
        rw [List.nil_append] at this
        subst this
        refine imgs_embedded h hw h1 h2 hrs3 hfree ?_ ((σ 25).perm rs3) htx hap
        rcases hu hfree with e | e
        · exact e
        · exact absurd e2 (e g0 hg0 r0 hr0)
    · -- found on the second crawl
      have hem : (xobjVals rs2).isEmpty = false := by
        cases e : xobjVals rs2 with
        | nil => exact absurd e hv2
        | cons _ _ => rfl
      rw [hem] at hok
      simp only [Bool.not_false, if_true, Res.ok_bind] at hok
      rw [Res.bind_eq_ok] at hok
      obtain ⟨objs', hap, hok⟩ := hok
      simp only [Res.ok.injEq, Prod.mk.injEq] at hok
      obtain ⟨rfl, rfl⟩ := hok
      have hnf : ¬ ImageFree pages := by
        intro hf
        obtain ⟨v, hv⟩ := List.exists_mem_of_ne_nil _ hv2
        obtain ⟨g, hg, r, hr, e⟩ := hvals2 v hv
        rw [hf g hg r hr] at e
        simp at e
      have hall := hscan ((σ 23).fn (xobjVals rs2)) (fun v hv => hvals2 v (((σ 23).perm _).mem_iff.1 hv))
      have hcov : Covers pages (xobjScan ((σ 23).fn (xobjVals rs2)) [] b!"I" 0).1 (xobjScan ((σ 23).fn (xobjVals rs2)) [] b!"I" 0).2.2 :=
        fun g hg r v hr hv => xobjScan_covers _ _ _ _ v (((σ 23).perm _).mem_iff.2 (hin2 g hg r v hr hv))
      refine ⟨_, _, _, rfl, fun hf => absurd hf hnf, ⟨xobjScan_le _ _ _ 0, xobjScan_chr _ _ _ _ (Or.inl rfl), fun _ => hcov⟩, hall, hsrc _ (fun v hv => hvals2 v (((σ 23).perm _).mem_iff.1 hv)), ?_, rfl⟩
      rw [xobjReplaces_eq _ _ _ (shuffle_nodup (σ 24) hrs2.nodup) (by simp), List.nil_append] at hap
      exact imgs_found_all h hw hrs2 hnf ((σ 24).perm rs2) (hwr hall) hap
  · rw [if_neg hv1] at hok
    have hem : (xobjVals rs1).isEmpty = false := by
      cases e : xobjVals rs1 with
      | nil => exact absurd e hv1
      | cons _ _ => rfl
    simp only [Res.ok_bind] at hok
    rw [hem] at hok
    simp only [Bool.not_false, if_true, Res.ok_bind] at hok
    rw [Res.bind_eq_ok] at hok
    obtain ⟨objs', hap, hok⟩ := hok
    simp only [Res.ok.injEq, Prod.mk.injEq] at hok
    obtain ⟨rfl, rfl⟩ := hok
    obtain ⟨hpl, hin1, honly1⟩ := hone1 hv1
    obtain ⟨old, hold⟩ := List.exists_mem_of_ne_nil _ hv1
    have hold := (hvals1 old hold).2
    have hnf : ¬ ImageFree pages := by
      intro hf
      rw [hf g0 hg0 r0 hr0] at hold
      simp at hold
    have hvs : ∀ v ∈ (σ 23).fn (xobjVals rs1), ∃ g ∈ pages, ∃ r, g.res = some r ∧ valueOf r.entries b!"XObject" = some v :=
      fun v hv => ⟨g0, hg0, r0, hr0, (hvals1 v (((σ 23).perm _).mem_iff.1 hv)).2⟩
    have hall := hscan ((σ 23).fn (xobjVals rs1)) hvs
    have hcov : ¬ Split pages → Covers pages (xobjScan ((σ 23).fn (xobjVals rs1)) [] b!"I" 0).1 (xobjScan ((σ 23).fn (xobjVals rs1)) [] b!"I" 0).2.2 := by
      intro hns g hg r v hr hv
      have hpp : r.place = some from_ := by
        by_contra hne
        exact hns ⟨g, hg, r, g0, hg0, r0, hr, hr0, by rw [hpl]; exact hne⟩
      obtain rfl := resAgree (h.pagesOk g hg) hok0 hr hr0 hpp hpl
      refine xobjScan_covers _ _ _ _ v (((σ 23).perm _).mem_iff.2 (xobjVals_mem.2 ⟨_, hin1, ?_⟩))
      rw [strs_valOf, hv]
    refine ⟨_, _, _, rfl, fun hf => absurd hf hnf, ⟨xobjScan_le _ _ _ 0, xobjScan_chr _ _ _ _ (Or.inl rfl), hcov⟩, hall, hsrc _ hvs, ?_, rfl⟩
    rw [xobjReplaces_eq _ _ _ (shuffle_nodup (σ 24) hn1) (by simp), List.nil_append] at hap
    exact imgs_found_one h hw hg0 hr0 hpl hold (shuffle_nodup (σ 24) hn1) (((σ 24).perm rs1).mem_iff.2 hin1)
      (fun p hp => honly1 p (((σ 24).perm rs1).mem_iff.1 hp)) (hwr hall) hap

end Verif
