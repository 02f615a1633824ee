import Verif.Lemmas.Rewrite
import Verif.Lemmas.Num
/-
References written into a dictionary and read back.
-/
namespace Verif

theorem splitSpace_cons {a b : Bytes} (h : (32 : UInt8) ∉ a) : splitSpace (a ++ 32 :: b) = a :: splitSpace b := by
  induction a with
  | nil => simp [splitSpace]
  | cons c t ih =>
    have hc : c ≠ 32 := by intro e; subst e; simp at h
    rw [List.cons_append, splitSpace, if_neg hc, ih (fun hm => h (by simp [hm]))]

theorem splitSpace_single {a : Bytes} (h : (32 : UInt8) ∉ a) : splitSpace a = [a] := by
  induction a with
  | nil => simp [splitSpace]
  | cons c t ih =>
    have hc : c ≠ 32 := by intro e; subst e; simp at h
    rw [splitSpace, if_neg hc, ih (fun hm => h (by simp [hm]))]

/-- the bytes of a printed integer -/
theorem itoa_plain (n : Int) : ∀ c ∈ itoa n, c < 128 ∧ isSp c = false ∧ isPat c = false := by
  intro c hc
  rcases (itoa_bytes n c hc).symm with h | h
  · subst h; decide
  · rw [isDigit_iff] at h
    have : c.toNat < 58 ∧ 48 ≤ c.toNat := by omega
    refine ⟨by rw [UInt8.lt_iff_toNat_lt]; simp; omega, ?_, ?_⟩
    · simp only [isSp, Bool.or_eq_false_iff, decide_eq_false_iff_not]
      refine ⟨⟨⟨⟨⟨?_, ?_⟩, ?_⟩, ?_⟩, ?_⟩, ?_⟩ <;> (intro e; subst e; simp at this)
    · simp only [isPat, Bool.or_eq_false_iff, decide_eq_false_iff_not]
      refine ⟨⟨⟨⟨?_, ?_⟩, ?_⟩, ?_⟩, ?_⟩ <;> (intro e; subst e; simp at this)

theorem itoa_ascii (n : Int) : Ascii (itoa n) := fun c hc => (itoa_plain n c hc).1

theorem isSp_ne {c : UInt8} (h : isSp c = false) : c ≠ 32 ∧ c ≠ 9 ∧ c ≠ 10 ∧ c ≠ 13 := by
  refine ⟨?_, ?_, ?_, ?_⟩ <;> (intro e; subst e; simp [isSp] at h)

theorem isPat_ne {c : UInt8} (h : isPat c = false) : c ≠ 47 ∧ c ≠ 91 ∧ c ≠ 93 ∧ c ≠ 60 ∧ c ≠ 62 := by
  refine ⟨?_, ?_, ?_, ?_, ?_⟩ <;> (intro e; subst e; simp [isPat] at h)

theorem itoa_no_space (n : Int) : (32 : UInt8) ∉ itoa n := fun h => (isSp_ne (itoa_plain n 32 h).2.1).1 rfl

theorem trimSpace_plain {x : Bytes} (h : ∀ c ∈ x, c < 128 ∧ isSp c = false) : trimSpace x = x := by
  have := trimSpace_core (a := []) (b := []) (x := x) (by simp) (by simp) (fun c hc => (h c hc).1)
    (fun c hc => (h c (List.mem_of_head? hc)).2) (fun c hc => (h c (List.mem_of_getLast? hc)).2)
  simpa using this

theorem trimSpace_itoa (n : Int) : trimSpace (itoa n) = itoa n :=
  trimSpace_plain (fun c hc => ⟨(itoa_plain n c hc).1, (itoa_plain n c hc).2.1⟩)

/-- an integer that fits a Go `int` -/
def Int64 (v : Int) : Prop := -(2 ^ 63 : Int) ≤ v ∧ v < 2 ^ 63

theorem atoi_itoa_64 {v : Int} (h : Int64 v) : atoi (itoa v) = some v := by
  apply atoi_itoa
  · have := h.1; omega
  · have := h.2; omega

/-- references separated by single spaces -/
def refsT : List Int → Bytes
  | [] => []
  | [v] => itoa v ++ b!" 0 R"
  | v :: w :: t => itoa v ++ b!" 0 R " ++ refsT (w :: t)

theorem refArrString_eq {vs : List Int} (h : vs ≠ []) : refArrString vs = 91 :: (refsT vs ++ [32, 93]) := by
  have i0 : itoa 0 = [48] := by decide
  have : ∀ vs : List Int, vs ≠ [] → vs.flatMap (fun v => itoa v ++ b!" " ++ itoa 0 ++ b!" R ") = refsT vs ++ [32] := by
    intro vs
    induction vs with
    | nil => simp
    | cons v t ih =>
      intro _
      cases t with
      | nil => simp [refsT, i0]
      | cons w t =>
        rw [List.flatMap_cons, ih (by simp)]
        simp [refsT, i0]
  unfold refArrString
  rw [this vs h]
  simp

theorem refsT_mem {vs : List Int} : ∀ c ∈ refsT vs, c < 128 ∧ (c = 32 ∨ isSp c = false) ∧ isPat c = false := by
  induction vs with
  | nil => simp [refsT]
  | cons v t ih =>
    have key : ∀ c ∈ itoa v ++ b!" 0 R ", c < 128 ∧ (c = 32 ∨ isSp c = false) ∧ isPat c = false := by
      intro c hc
      rcases List.mem_append.1 hc with hc | hc
      · have := itoa_plain v c hc
        exact ⟨this.1, Or.inr this.2.1, this.2.2⟩
      · clear ih
        have : ∀ c ∈ b!" 0 R ", c < 128 ∧ (c = 32 ∨ isSp c = false) ∧ isPat c = false := by decide
        exact this c hc
    cases t with
    | nil =>
      intro c hc
      apply key
      simp only [refsT, List.mem_append] at hc ⊢
      rcases hc with hc | hc
      · exact Or.inl hc
      · right; revert c; decide
    | cons w t =>
      intro c hc
      simp only [refsT] at hc
      rcases List.mem_append.1 hc with hc | hc
      · exact key c hc
      · exact ih c hc

theorem refsT_head {vs : List Int} (c : UInt8) (h : (refsT vs).head? = some c) : isSp c = false := by
  cases vs with
  | nil => simp [refsT] at h
  | cons v t =>
    obtain ⟨d, w, hd⟩ : ∃ d w, itoa v = d :: w := by
      cases hi : itoa v with
      | nil => exact absurd hi (itoa_ne_nil v)
      | cons d w => exact ⟨d, w, rfl⟩
    have hm := itoa_plain v d (by rw [hd]; simp)
    cases t with
    | nil => simp [refsT, hd] at h; subst h; exact hm.2.1
    | cons u t => simp [refsT, hd] at h; subst h; exact hm.2.1

theorem refsT_last {vs : List Int} (h : vs ≠ []) : (refsT vs).getLast? = some 82 := by
  induction vs with
  | nil => exact absurd rfl h
  | cons v t ih =>
    cases t with
    | nil => simp [refsT]
    | cons w t =>
      have := ih (by simp)
      rw [refsT, getLast?_append_of (by intro e; rw [e] at this; simp at this)]
      exact this

theorem refsT_ascii (vs : List Int) : Ascii (refsT vs) := fun c hc => (refsT_mem c hc).1

theorem trimSpace_refsT {vs : List Int} (h : vs ≠ []) (b : Bytes) (hb : ∀ c ∈ b, isSp c = true) : trimSpace (refsT vs ++ b) = refsT vs := by
  have := trimSpace_core (a := []) (x := refsT vs) (b := b) (by simp) hb (refsT_ascii vs)
    (fun c hc => refsT_head c hc) (by
      intro c hc; rw [refsT_last h] at hc; simp at hc; subst hc; rfl)
  simpa using this

theorem readRefTokens_refsT {vs : List Int} (h : vs ≠ []) (hr : ∀ v ∈ vs, Int64 v) :
    readRefTokens (splitSpace (refsT vs)) = .ok vs := by
  have t0 : trimSpace b!"0" = b!"0" := trimSpace_plain (by decide)
  have a0 : atoi b!"0" = some 0 := by decide
  induction vs with
  | nil => exact absurd rfl h
  | cons v t ih =>
    have hv := hr v (by simp)
    have hat : atoi (trimSpace (itoa v)) = some v := by rw [trimSpace_itoa]; exact atoi_itoa_64 hv
    cases t with
    | nil =>
      have e : refsT [v] = itoa v ++ 32 :: (b!"0" ++ 32 :: b!"R") := by simp [refsT]
      rw [e, splitSpace_cons (itoa_no_space v), splitSpace_cons (by decide), splitSpace_single (by decide)]
      simp [readRefTokens, hat, t0, a0]
    | cons w t =>
      have e : refsT (v :: w :: t) = itoa v ++ 32 :: (b!"0" ++ 32 :: (b!"R" ++ 32 :: refsT (w :: t))) := by simp [refsT]
      rw [e, splitSpace_cons (itoa_no_space v), splitSpace_cons (by decide), splitSpace_cons (by decide)]
      have ih := ih (by simp) (fun x hx => hr x (by simp [hx]))
      rw [readRefTokens, hat]
      simp only [t0, a0, ih, Res.ok_bind]

theorem removeByte_append (c : UInt8) (a b : Bytes) : removeByte c (a ++ b) = removeByte c a ++ removeByte c b := by
  simp [removeByte]

theorem removeByte_none {c : UInt8} {a : Bytes} (h : ∀ d ∈ a, d ≠ c) : removeByte c a = a := by
  unfold removeByte
  rw [List.filter_eq_self]
  intro d hd
  simpa using h d hd

/-- both the written and the normalised form of a reference array -/
theorem readArr_refs {vs : List Int} (h : vs ≠ []) (hr : ∀ v ∈ vs, Int64 v) (b : Bytes) (hb : ∀ c ∈ b, c = 32) :
    readObjIDFromDictionaryArr (91 :: (refsT vs ++ b ++ [93])) = .ok vs := by
  have m : ∀ c ∈ refsT vs ++ b, c ≠ 91 ∧ c ≠ 93 := by
    intro c hc
    rcases List.mem_append.1 hc with hc | hc
    · have := isPat_ne (refsT_mem c hc).2.2
      exact ⟨this.2.1, this.2.2.1⟩
    · rw [hb c hc]; decide
  have e1 : removeByte 91 (91 :: (refsT vs ++ b ++ [93])) = refsT vs ++ b ++ [93] := by
    rw [show (91 : UInt8) :: (refsT vs ++ b ++ [93]) = [91] ++ ((refsT vs ++ b) ++ [93]) by simp]
    rw [removeByte_append, removeByte_append, removeByte_none (fun d hd => (m d hd).1)]
    simp [removeByte]
  have e2 : removeByte 93 (refsT vs ++ b ++ [93]) = refsT vs ++ b := by
    rw [removeByte_append, removeByte_none (fun d hd => (m d hd).2)]
    simp [removeByte]
  unfold readObjIDFromDictionaryArr
  rw [e1, e2, trimSpace_refsT h b (by intro c hc; rw [hb c hc]; rfl)]
  exact readRefTokens_refsT h hr

theorem readArr_refArrString {vs : List Int} (h : vs ≠ []) (hr : ∀ v ∈ vs, Int64 v) :
    readObjIDFromDictionaryArr (refArrString vs) = .ok vs := by
  rw [refArrString_eq h]
  have := readArr_refs h hr [32] (by simp)
  simpa using this

theorem refString_eq (v : Int) : refString v 0 = refsT [v] := by
  have i0 : itoa 0 = [48] := by decide
  simp [refString, refsT, i0]

theorem readObjID_refString {v : Int} (h : Int64 v) : readObjIDFromDictionary (refString v 0) = .ok v := by
  unfold readObjIDFromDictionary
  have e0 : refString v 0 = refsT [v] ++ [] := by rw [refString_eq]; simp
  have et : trimSpace (refString v 0) = refsT [v] := by
    rw [e0]; exact trimSpace_refsT (by simp) [] (by simp)
  have hne : refsT [v] ≠ [] := by
    intro e; have := refsT_last (vs := [v]) (by simp); rw [e] at this; simp at this
  have e : refsT [v] = itoa v ++ 32 :: (b!"0" ++ 32 :: b!"R") := by simp [refsT]
  have sp : splitSpace (refsT [v]) = [itoa v, b!"0", b!"R"] := by
    rw [e, splitSpace_cons (itoa_no_space v), splitSpace_cons (by decide), splitSpace_single (by decide)]
  simp only [et, if_neg hne, sp, trimSpace_itoa, atoi_itoa_64 h]

/-! ### putting values into canonical lists -/

theorem setPropByKey_mem {k v : Bytes} {ps : Props} {p : PropD} (h : p ∈ setPropByKey k v ps) :
    p ∈ ps ∨ (p.key = k ∧ p.rawVal = v ∧ ∃ q ∈ ps, q.key = p.key) := by
  induction ps with
  | nil => simp [setPropByKey] at h
  | cons q t ih =>
    rw [setPropByKey] at h
    split at h
    · rename_i hk
      rcases List.mem_cons.1 h with h | h
      · subst h; exact Or.inr ⟨hk, rfl, q, by simp, rfl⟩
      · exact Or.inl (by simp [h])
    · rcases List.mem_cons.1 h with h | h
      · subst h; exact Or.inl (by simp)
      · rcases ih h with h | ⟨h1, h2, r, hr, h3⟩
        · exact Or.inl (by simp [h])
        · exact Or.inr ⟨h1, h2, r, by simp [hr], h3⟩

theorem setPropByKey_eq_nil {k v : Bytes} {ps : Props} : setPropByKey k v ps = [] ↔ ps = [] := by
  cases ps with
  | nil => simp [setPropByKey]
  | cons p t => rw [setPropByKey]; split <;> simp

theorem setPropByKey_canon {k v : Bytes} {ps : Props} (h : Canon ps) (hv : ValOk false v) (hne : v ≠ []) (he : EndOk v) :
    Canon (setPropByKey k v ps) := by
  induction ps with
  | nil => exact h
  | cons p t ih =>
    have hk := (h.all p (by simp)).1
    have ht : Canon t := by
      cases t with
      | nil => trivial
      | cons q t => exact h.2.2
    rw [setPropByKey]
    split
    · refine Canon.cons (p := { p with rawVal := v }) hk hv ?_ ht
      intro _ c hc
      simp only at hc
      rw [← List.cons_append, getLast?_append_of hne] at hc
      exact he c hc
    · cases t with
      | nil => simpa [setPropByKey] using h
      | cons q t =>
        have hn : setPropByKey k v (q :: t) ≠ [] := by rw [Ne, setPropByKey_eq_nil]; simp
        exact Canon.cons hk h.2.1 (fun e => absurd e hn) (ih ht)

theorem strip1_setPropByKey {k v : Bytes} {ps : Props} (h : ps.map strip1 = ps) :
    (setPropByKey k v ps).map strip1 = setPropByKey k (stripQ dropSp v) ps := by
  induction ps with
  | nil => rfl
  | cons p t ih =>
    simp only [List.map_cons, List.cons.injEq] at h
    rw [setPropByKey, setPropByKey]
    split
    · simp [h.2, strip1]
    · simp [ih h.2, h.1]

theorem setPropByKey_pre {k v : Bytes} {ps : Props} (h : Canon ps) (hv : PreOk v) (hne : v ≠ []) (he : EndOk v) :
    Pre (setPropByKey k v ps) := by
  refine ⟨?_, ?_⟩
  · intro p hp
    rcases setPropByKey_mem hp with hp | ⟨h1, h2, q, hq, h3⟩
    · exact h.pre.entry p hp
    · exact ⟨by rw [← h3]; exact (h.all q hq).1, by rw [h2]; exact hv⟩
  · intro p hp
    have hlast := h.last
    clear h
    induction ps with
    | nil => simp [setPropByKey] at hp
    | cons q t ih =>
      rw [setPropByKey] at hp
      split at hp
      · cases t with
        | nil =>
          simp at hp; subst hp
          intro c hc
          simp only at hc
          rw [← List.cons_append, getLast?_append_of hne] at hc
          exact he c hc
        | cons r t => exact hlast p (by simpa [List.getLast?_cons_cons] using hp)
      · cases t with
        | nil => simp [setPropByKey] at hp; subst hp; exact hlast q rfl
        | cons r t =>
          apply ih
          · cases hs : setPropByKey k v (r :: t) with
            | nil => rw [setPropByKey_eq_nil] at hs; simp at hs
            | cons a b => rw [hs, List.getLast?_cons_cons] at hp; rw [← hp]
          · intro x hx; exact hlast x (by simpa [List.getLast?_cons_cons] using hx)

theorem setPropByKey_noStream {k v : Bytes} {ps : Props} (h : NoStream ps) (hv : ¬ streamKw <:+: v) :
    NoStream (setPropByKey k v ps) := by
  intro p hp
  rcases setPropByKey_mem hp with hp | ⟨_, h2, q, hq, h3⟩
  · exact h p hp
  · exact ⟨by rw [← h3]; exact (h q hq).1, by rw [h2]; exact hv⟩

/-- values made of plain words -/
theorem valScan_plain {v w : Bytes} (h : ∀ c ∈ v, isPat c = false) (a b : Int) : valScan a b (v ++ w) = valScan a b w := by
  induction v with
  | nil => rfl
  | cons c t ih =>
    obtain ⟨h1, h2, h3, h4, h5⟩ := isPat_ne (h c (by simp))
    rw [List.cons_append, valScan]
    rw [if_neg (by simp [h3, h5]), if_neg (by simp [h1]), show cnt1 a c = a by simp [cnt1, h4, h5],
      show cnt2 b c = b by simp [cnt2, h2, h3]]
    exact ih (fun d hd => h d (by simp [hd]))

theorem dropSp_plain {t : Bytes} {c : UInt8} {u : Bytes} (ht : t = c :: u) (h : isPat c = false) : dropSp t = false := by
  cases hd : dropSp t with
  | false => rfl
  | true =>
    obtain ⟨d, w, e, hp⟩ := dropSp_head hd
    rw [ht] at e; simp at e
    rw [e.1, hp] at h; simp at h

theorem itoa_valOk (n : Int) : ValOk false (itoa n) ∧ itoa n ≠ [] ∧ EndOk (itoa n) := by
  have hne := itoa_ne_nil n
  have hp := itoa_plain n
  refine ⟨⟨itoa_ascii n, ?_, ?_, ?_, ?_⟩, hne, fun c hc => (hp c (List.mem_of_getLast? hc)).2.1⟩
  · intro c hc; exact (isSp_ne (hp c hc).2.1).2
  · refine ⟨?_, ?_, ?_, ?_⟩
    · intro e; exact (isSp_ne (hp _ (List.mem_of_head? e)).2.1).1 rfl
    · intro e; exact (isPat_ne (hp _ (List.mem_of_head? e)).2.2).1 rfl
    · intro e; exact (isPat_ne (hp _ (List.mem_of_head? e)).2.2).2.2.1 rfl
    · intro e; exact (isPat_ne (hp 62 (e.subset (by simp))).2.2).2.2.2.2 rfl
  · intro t ht
    exact absurd (ht.subset (by simp)) (itoa_no_space n)
  · right; left
    have := valScan_plain (v := itoa n) (w := []) (fun c hc => (hp c hc).2.2) 0 0
    simpa [valScan] using this

/-- every space of `refsT vs` is followed by a plain byte -/
theorem refsT_space {vs : List Int} : ∀ t, (32 :: t) <:+ refsT vs → ∃ c u, t = c :: u ∧ c ≠ 32 ∧ isPat c = false := by
  have word : ∀ (v : Int) (y : Bytes) (t : Bytes), (32 :: t) <:+ itoa v ++ b!" 0 R" ++ y →
      (32 :: t) <:+ y ∨ ∃ c u, t = c :: u ∧ c ≠ 32 ∧ isPat c = false := by
    intro v y t h
    have aux : ∀ (w y : Bytes), (32 : UInt8) ∉ w → (32 :: t) <:+ w ++ y → (32 :: t) <:+ y := by
      intro w y hw h
      induction w with
      | nil => exact h
      | cons c w ih =>
        rw [List.cons_append, List.suffix_cons_iff] at h
        rcases h with h | h
        · simp at h; exfalso; apply hw; simp [h.1]
        · exact ih (fun hm => hw (by simp [hm])) h
    rw [List.append_assoc] at h
    have h := aux _ _ (itoa_no_space v) h
    rw [show b!" 0 R" ++ y = 32 :: 48 :: (32 :: 82 :: y) by simp, List.suffix_cons_iff] at h
    rcases h with h | h
    · right; simp at h; exact ⟨48, _, h, by decide, by decide⟩
    · have h := aux [48] _ (by decide) h
      rw [List.suffix_cons_iff] at h
      rcases h with h | h
      · right; simp at h; exact ⟨82, _, h, by decide, by decide⟩
      · left; exact aux [82] _ (by decide) h
  induction vs with
  | nil => intro t h; simp [refsT] at h
  | cons v s ih =>
    intro t h
    cases s with
    | nil =>
      have h : (32 :: t) <:+ itoa v ++ b!" 0 R" ++ [] := by simpa [refsT] using h
      rcases word v [] t h with h | h
      · simp at h
      · exact h
    | cons w s =>
      have e : refsT (v :: w :: s) = itoa v ++ b!" 0 R" ++ (32 :: refsT (w :: s)) := by simp [refsT]
      rw [e] at h
      rcases word v _ t h with h | h
      · rw [List.suffix_cons_iff] at h
        rcases h with h | h
        · simp at h
          obtain ⟨d, u, hd⟩ : ∃ d u, refsT (w :: s) = d :: u := by
            cases hr : refsT (w :: s) with
            | nil => have := refsT_last (vs := w :: s) (by simp); rw [hr] at this; simp at this
            | cons d u => exact ⟨d, u, rfl⟩
          have hh := refsT_head (vs := w :: s) d (by rw [hd]; rfl)
          have hm := refsT_mem (vs := w :: s) d (by rw [hd]; simp)
          exact ⟨d, u, by rw [h, hd], (isSp_ne hh).1, hm.2.2⟩
        · exact ih t h
      · exact h

/-- a reference as a value -/
theorem refsT_valOk {vs : List Int} (h : vs ≠ []) : ValOk false (refsT vs) ∧ refsT vs ≠ [] ∧ EndOk (refsT vs) := by
  have hl := refsT_last h
  have hne : refsT vs ≠ [] := by intro e; rw [e] at hl; simp at hl
  refine ⟨⟨refsT_ascii vs, ?_, ?_, ?_, ?_⟩, hne, ?_⟩
  · intro c hc
    rcases (refsT_mem c hc).2.1 with e | e
    · subst e; decide
    · exact (isSp_ne e).2
  · refine ⟨?_, ?_, ?_, ?_⟩
    · intro e; have := refsT_head 32 e; simp [isSp] at this
    · intro e; exact (isPat_ne (refsT_mem _ (List.mem_of_head? e)).2.2).1 rfl
    · intro e; exact (isPat_ne (refsT_mem _ (List.mem_of_head? e)).2.2).2.2.1 rfl
    · intro e; exact (isPat_ne (refsT_mem 62 (e.subset (by simp))).2.2).2.2.2.2 rfl
  · intro t ht
    obtain ⟨c, u, e, h1, h2⟩ := refsT_space t ht
    exact ⟨by rw [e]; simp, by rw [e]; simpa using h1, dropSp_plain e h2⟩
  · right; left
    have := valScan_plain (v := refsT vs) (w := []) (fun c hc => (refsT_mem c hc).2.2) 0 0
    simpa [valScan] using this
  · intro c hc; rw [hl] at hc; simp at hc; subst hc; rfl

/-- the reference array as it is read back -/
def refArrNorm (vs : List Int) : Bytes := 91 :: (refsT vs ++ [93])

theorem refArrNorm_read {vs : List Int} (h : vs ≠ []) (hr : ∀ v ∈ vs, Int64 v) :
    readObjIDFromDictionaryArr (refArrNorm vs) = .ok vs := by
  have := readArr_refs h hr [] (by simp)
  simpa [refArrNorm] using this

theorem refArr_strip {vs : List Int} (h : vs ≠ []) : stripQ dropSp (refArrString vs) = refArrNorm vs := by
  rw [refArrString_eq h, show (91 : UInt8) :: (refsT vs ++ [32, 93]) = (91 :: refsT vs) ++ [32, 93] by simp,
    stripQ_append_clean]
  · simp [stripQ, dropSp, refArrNorm]
  · intro t ht
    rw [List.suffix_cons_iff] at ht
    rcases ht with ht | ht
    · simp at ht
    · obtain ⟨c, u, e, h1, h2⟩ := refsT_space t ht
      exact dropSp_plain (u := u ++ [32, 93]) (by rw [e]; simp) h2

theorem refArrNorm_valOk (vs : List Int) (h : vs ≠ []) : ValOk false (refArrNorm vs) ∧ refArrNorm vs ≠ [] ∧ EndOk (refArrNorm vs) := by
  obtain ⟨hv, hne, he⟩ := refsT_valOk h
  refine ⟨⟨?_, ?_, ?_, ?_, ?_⟩, by simp [refArrNorm], ?_⟩
  · exact Ascii.cons.2 ⟨by decide, Ascii.append.2 ⟨hv.ascii, Ascii.single (by decide)⟩⟩
  · intro c hc
    simp only [refArrNorm, List.mem_cons, List.mem_append, List.not_mem_nil, or_false] at hc
    rcases hc with hc | hc | hc
    · subst hc; decide
    · exact hv.noTab c hc
    · subst hc; decide
  · refine ⟨by simp [refArrNorm], by simp [refArrNorm], by simp [refArrNorm], ?_⟩
    rintro ⟨u, hu⟩
    simp [refArrNorm] at hu
  · intro t ht
    rw [refArrNorm, List.suffix_cons_iff] at ht
    rcases ht with ht | ht
    · simp at ht
    · obtain ⟨p, hp⟩ := ht
      rcases List.append_eq_append_iff.1 hp with ⟨a', h1, h2⟩ | ⟨c', h1, h2⟩
      · -- refsT = p ++ a', 32 :: t = a' ++ [93]
        cases a' with
        | nil => simp at h2
        | cons d w =>
          simp at h2
          obtain ⟨hd, hw⟩ := h2
          have : (32 :: w) <:+ refsT vs := ⟨p, by rw [h1, ← hd]⟩
          obtain ⟨c, u, e, e1, e2⟩ := refsT_space w this
          refine ⟨by rw [hw]; simp, by rw [hw, e]; simpa using e1, dropSp_plain (c := c) (u := u ++ [93]) (by rw [hw, e]; simp) e2⟩
      · cases c' with
        | nil => simp at h2
        | cons d w => 
          have := congrArg List.length h2
          simp at this
  · left
    rw [refArrNorm, valScan]
    rw [if_neg (by simp), if_neg (by simp)]
    rw [valScan_plain (fun c hc => (refsT_mem c hc).2.2)]
    decide
  · intro c hc
    simp only [refArrNorm] at hc
    rw [← List.cons_append, getLast?_append_of (by simp)] at hc
    simp at hc; subst hc; rfl

theorem refArrString_preOk {vs : List Int} (h : vs ≠ []) : PreOk (refArrString vs) ∧ refArrString vs ≠ [] ∧ EndOk (refArrString vs) := by
  obtain ⟨hv, hne, he⟩ := refsT_valOk h
  have e : refArrString vs = (91 :: refsT vs) ++ [32, 93] := by rw [refArrString_eq h]; simp
  have hl : (refArrString vs).getLast? = some 93 := by rw [e, getLast?_append_of (by simp)]; rfl
  refine ⟨⟨?_, ?_, ?_, ?_, ?_⟩, ?_, ?_⟩
  · rw [e]
    exact Ascii.append.2 ⟨Ascii.cons.2 ⟨by decide, hv.ascii⟩, by intro c hc; revert c; decide⟩
  · rw [e]
    apply SS.append_no_space
    · rw [show (91 : UInt8) :: refsT vs = [91] ++ refsT vs by simp]
      apply SS.append_no_space
      · exact SS.of_no_space (by decide)
      · exact hv.SS
      · simp
    · refine ⟨by decide, ?_⟩
      rintro ⟨p, q, hpq⟩
      have hlen := congrArg List.length hpq
      simp at hlen
      have hp : p = [] := List.eq_nil_of_length_eq_zero (by omega)
      have hq : q = [] := List.eq_nil_of_length_eq_zero (by omega)
      subst hp; subst hq; simp at hpq
    · intro hc
      rw [show (91 : UInt8) :: refsT vs = [91] ++ refsT vs by simp, getLast?_append_of hne, refsT_last h] at hc
      simp at hc
  · refine ⟨by rw [e]; simp, by rw [e]; simp, by rw [e]; simp, ?_⟩
    rw [e]
    rintro ⟨u, hu⟩
    simp at hu
  · rw [hl]; simp
  · rw [refArr_strip h, e]; rfl
  · rw [e]; simp
  · intro c hc; rw [hl] at hc; simp at hc; subst hc; rfl

theorem noStream_of_head {v : Bytes} (h : (115 : UInt8) ∉ v) : ¬ streamKw <:+: v := fun hi => h (hi.subset (by decide))

theorem itoa_noStream (n : Int) : ¬ streamKw <:+: itoa n := by
  apply noStream_of_head
  intro h
  rcases itoa_bytes n 115 h with e | e
  · exact absurd e (by decide)
  · exact absurd e (by decide)

theorem refsT_no_s (vs : List Int) : (115 : UInt8) ∉ refsT vs := by
  have hi : ∀ n, (115 : UInt8) ∉ itoa n := by
    intro n h
    rcases itoa_bytes n 115 h with e | e
    · exact absurd e (by decide)
    · exact absurd e (by decide)
  induction vs with
  | nil => simp [refsT]
  | cons v t ih =>
    cases t with
    | nil => simp [refsT, hi v]
    | cons w t => simp [refsT, hi v, ih]

theorem refArrString_noStream (vs : List Int) : ¬ streamKw <:+: refArrString vs := by
  by_cases h : vs = []
  · subst h; exact not_infix_short (by decide)
  · rw [refArrString_eq h]
    apply noStream_of_head
    simp [refsT_no_s]

end Verif
