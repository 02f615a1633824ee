import Verif.Lemmas.Canon
import Verif.Lemmas.Find
import Verif.Lemmas.Trim
import Verif.Spec.Clean
/-
Reading back what `setProperties` wrote.
-/
namespace Verif

/-! ### white space -/

theorem collapseWs_of_SS {s : Bytes} (h : SS s) : collapseWs false s = s ∧ (s.head? ≠ some 32 → collapseWs true s = s) := by
  induction s with
  | nil => simp [collapseWs]
  | cons c t ih =>
    have ih := ih h.tail
    by_cases hc : c = 32
    · subst hc
      refine ⟨?_, by simp⟩
      have : t.head? ≠ some 32 := by
        intro e
        cases t with
        | nil => simp at e
        | cons d u => simp at e; exact h.head_ne rfl e
      simp [collapseWs, isWs, ih.2 this]
    · have hw := isWs_false (h.1 c (by simp)) hc
      simp [collapseWs, hw, ih.1]

/-- `strings.TrimSpace` cuts white space at both ends, and nothing else, of an ASCII text. -/
theorem trimSpace_ascii {s : Bytes} (h : Ascii s) :
    trimSpace s = ((s.dropWhile isSp).reverse.dropWhile isSp).reverse := by
  unfold trimSpace
  rw [trimLeftSpace_ascii h, trimRightSpace_ascii]
  exact Ascii.sublist (List.dropWhile_sublist _) h

theorem trimSpace_infix_ascii {s : Bytes} (h : Ascii s) : trimSpace s <:+: s := by
  rw [trimSpace_ascii h]
  have h1 : (s.dropWhile isSp).reverse.dropWhile isSp <:+ (s.dropWhile isSp).reverse := List.dropWhile_suffix _
  have h2 : ((s.dropWhile isSp).reverse.dropWhile isSp).reverse <+: s.dropWhile isSp := by
    simpa using List.reverse_prefix.2 h1
  exact h2.isInfix.trans (List.dropWhile_suffix _).isInfix

/-- the shape of `trimSpace` on texts whose core is clean at both ends -/
theorem trimSpace_core {a x b : Bytes} (ha : ∀ c ∈ a, isSp c = true) (hb : ∀ c ∈ b, isSp c = true)
    (hx : Ascii x) (hh : ∀ c, x.head? = some c → isSp c = false) (he : EndOk x) : trimSpace (a ++ x ++ b) = x := by
  have asp : ∀ {l : Bytes}, (∀ c ∈ l, isSp c = true) → Ascii l := by
    intro l hl c hc
    have := hl c hc
    simp [isSp] at this
    rcases this with ((((h | h) | h) | h) | h) | h <;> subst h <;> decide
  have hasc : Ascii (a ++ x ++ b) := Ascii.append.2 ⟨Ascii.append.2 ⟨asp ha, hx⟩, asp hb⟩
  rw [trimSpace_ascii hasc]
  have drop_all : ∀ {l y : Bytes}, (∀ c ∈ l, isSp c = true) → (l ++ y).dropWhile isSp = y.dropWhile isSp := by
    intro l y hl
    induction l with
    | nil => rfl
    | cons c t ih => simp [hl c (by simp), ih (fun d hd => hl d (by simp [hd]))]
  rw [List.append_assoc, drop_all ha]
  cases x with
  | nil =>
    simp only [List.nil_append]
    have : b.dropWhile isSp = [] := by
      have := drop_all (y := []) hb
      simpa using this
    simp [this]
  | cons c t =>
    have hc := hh c rfl
    have e1 : (c :: t ++ b).dropWhile isSp = c :: t ++ b := by simp [hc]
    rw [e1, List.reverse_append, drop_all (l := b.reverse) (by simpa using hb)]
    obtain ⟨d, hd⟩ : ∃ d, (c :: t).getLast? = some d := by
      cases hl : (c :: t).getLast? with
      | none => rw [List.getLast?_eq_none_iff] at hl; simp at hl
      | some d => exact ⟨d, rfl⟩
    have hsp := he d hd
    obtain ⟨u, hu⟩ := List.getLast?_eq_some_iff.1 hd
    rw [hu]
    simp [hsp]

/-! ### the written text is single-spaced -/

theorem SS.append_no_space {x y : Bytes} (hx : SS x) (hy : SS y) (h : x.getLast? = some 32 → y.head? ≠ some 32) : SS (x ++ y) := by
  refine ⟨?_, ?_⟩
  · intro c hc
    rcases List.mem_append.1 hc with hc | hc
    · exact hx.1 c hc
    · exact hy.1 c hc
  · intro hi
    obtain ⟨p, q, hpq⟩ := hi
    rw [List.append_assoc] at hpq
    rcases List.append_eq_append_iff.1 hpq with ⟨a', h1, h2⟩ | ⟨c', h1, h2⟩
    · -- x = p ++ a', [32,32] ++ q = a' ++ y
      cases a' with
      | nil =>
        simp at h2
        exact hy.2 ⟨[], q, by simp [← h2]⟩
      | cons d w =>
        cases w with
        | nil =>
          simp at h2
          obtain ⟨hd, hy2⟩ := h2
          apply h
          · rw [h1, ← hd]; simp
          · rw [← hy2]; simp
        | cons e w =>
          simp at h2
          obtain ⟨hd, he, _⟩ := h2
          exact hx.2 ⟨p, w, by rw [h1, ← hd, ← he]; simp⟩
    · exact hy.2 ⟨c', q, by rw [h2]; simp⟩

theorem SS.of_no_space {x : Bytes} (h : ∀ c ∈ x, c ≠ 32 ∧ c ≠ 9 ∧ c ≠ 10 ∧ c ≠ 13) : SS x := by
  refine ⟨fun c hc => (h c hc).2, ?_⟩
  intro hi
  have := hi.subset (a := 32) (by simp)
  exact (h 32 this).1 rfl

theorem KeyOk.SS {k : Bytes} (h : KeyOk k) : SS (47 :: k) := by
  apply SS.of_no_space
  intro c hc
  rcases List.mem_cons.1 hc with hc | hc
  · subst hc; decide
  · obtain ⟨_, h1, _, _, _, h2, h3, h4⟩ := h c hc
    exact ⟨h1, h2, h3, h4⟩

theorem flatT_SS {ps : Props} (h : Pre ps) : SS (flatT ps) := by
  have single : SS [32] := ⟨by simp, by rintro ⟨p, q, h⟩; have := congrArg List.length h; simp at this; omega⟩
  have entry : ∀ (p : PropD), KeyOk p.key → PreOk p.rawVal → SS (47 :: (p.key ++ 32 :: p.rawVal)) := by
    intro p hk hv
    have e : 47 :: (p.key ++ 32 :: p.rawVal) = (47 :: p.key) ++ ([32] ++ p.rawVal) := by simp
    rw [e]
    apply SS.append_no_space hk.SS
    · apply SS.append_no_space single hv.ss
      intro _; exact hv.head.1
    · intro hl
      exfalso
      have : (32 : UInt8) ∈ 47 :: p.key := List.mem_of_getLast? hl
      rcases List.mem_cons.1 this with h | h
      · simp at h
      · exact (hk 32 h).2.1 rfl
  induction ps with
  | nil => exact ⟨by simp [flatT], by simp [flatT]⟩
  | cons p t ih =>
    have ⟨hk, hv⟩ := h.entry p (by simp)
    cases t with
    | nil =>
      rw [flatT]
      split
      · simpa using hk.SS
      · exact entry p hk hv
    | cons q t =>
      obtain ⟨u, hu⟩ := flatT_head q t
      have e : flatT (p :: q :: t) = (47 :: (p.key ++ 32 :: p.rawVal)) ++ flatT (q :: t) := by simp [flatT, flat1]
      rw [e]
      apply SS.append_no_space (entry p hk hv) (ih h.tail)
      intro _; rw [hu]; simp

theorem flat_eq_flatT {ps : Props} (hne : ps ≠ []) :
    ∃ b, (b = [] ∨ b = [32]) ∧ ps.flatMap flat1 = flatT ps ++ b := by
  induction ps with
  | nil => exact absurd rfl hne
  | cons p t ih =>
    cases t with
    | nil =>
      by_cases hv : p.rawVal = []
      · exact ⟨[32], Or.inr rfl, by simp [flatT, flat1, hv]⟩
      · exact ⟨[], Or.inl rfl, by simp [flatT, flat1, hv]⟩
    | cons q t =>
      obtain ⟨b, hb, e⟩ := ih (by simp)
      refine ⟨b, hb, ?_⟩
      rw [List.flatMap_cons, e]
      simp [flatT]

theorem KeyOk.ascii {k : Bytes} (h : KeyOk k) : Ascii k := fun c hc => (h c hc).1

theorem flatT_ascii {ps : Props} (h : Pre ps) : Ascii (flatT ps) := by
  have hall := h.entry
  clear h
  induction ps with
  | nil => exact Ascii.nil
  | cons p t ih =>
    have ⟨hk, hv⟩ := hall p (by simp)
    have e : Ascii (47 :: (p.key ++ 32 :: p.rawVal)) :=
      Ascii.cons.2 ⟨by decide, Ascii.append.2 ⟨hk.ascii, Ascii.cons.2 ⟨by decide, hv.ascii⟩⟩⟩
    cases t with
    | nil =>
      rw [flatT]
      split
      · exact Ascii.cons.2 ⟨by decide, Ascii.append.2 ⟨hk.ascii, Ascii.nil⟩⟩
      · exact e
    | cons q t =>
      have := ih (fun r hr => hall r (by simp [hr]))
      rw [show flatT (p :: q :: t) = (47 :: (p.key ++ 32 :: p.rawVal)) ++ flatT (q :: t) by simp [flatT, flat1]]
      exact Ascii.append.2 ⟨e, this⟩

theorem flatT_end {ps : Props} (h : Pre ps) : EndOk (flatT ps) := by
  induction ps with
  | nil => simp [flatT, EndOk]
  | cons p t ih =>
    cases t with
    | nil =>
      have hl := h.last p rfl
      rw [flatT]
      split
      · rename_i hv
        simpa [LastOk, hv] using hl
      · rename_i hv
        intro c hc
        apply hl c
        rw [← hc, ← List.cons_append, ← List.cons_append, getLast?_append_of hv,
          show (47 :: p.key ++ 32 :: p.rawVal) = (47 :: p.key ++ [32]) ++ p.rawVal by simp, getLast?_append_of hv]
    | cons q t =>
      intro c hc
      apply ih h.tail c
      rw [← hc]
      obtain ⟨u, hu⟩ := flatT_head q t
      rw [flatT, getLast?_append_of (by rw [hu]; simp)]

/-- normalising the written text gives the compact text -/
theorem normalize_written {ps : Props} (h : Pre ps) : normalizeProps (10 :: ps.flatMap flat1) = compact (ps.map strip1) := by
  rw [normalizeProps_eq]
  by_cases hne : ps = []
  · subst hne; rfl
  · obtain ⟨b, hb, e⟩ := flat_eq_flatT hne
    have ht : trimSpace (10 :: ps.flatMap flat1) = flatT ps := by
      rw [e, show 10 :: (flatT ps ++ b) = [10] ++ flatT ps ++ b by simp]
      apply trimSpace_core
      · intro c hc; simp at hc; subst hc; rfl
      · rcases hb with hb | hb <;> subst hb <;> simp [isSp]
      · exact flatT_ascii h
      · cases ps with
        | nil => exact absurd rfl hne
        | cons p t =>
          obtain ⟨u, hu⟩ := flatT_head p t
          rw [hu]
          intro c hc
          simp at hc; subst hc; rfl
      · exact flatT_end h
    rw [ht, (collapseWs_of_SS (flatT_SS h)).1, stripQ_flatT h]

/-! ### the word "stream" -/

/-- no key and no value contains the word `stream` -/
def NoStream (ps : Props) : Prop := ∀ p ∈ ps, ¬ streamKw <:+: p.key ∧ ¬ streamKw <:+: p.rawVal

theorem not_infix_short {w x : Bytes} (h : x.length < w.length) : ¬ w <:+: x := fun hi => by
  have := hi.length_le; omega

theorem noStream_flat {ps : Props} (h : NoStream ps) (tail : Bytes) (ht : ∀ u, tail ≠ [] → tail = 62 :: u → ¬ streamKw <:+: u)
    (htail : tail = [] ∨ ∃ u, tail = 62 :: u) : ¬ streamKw <:+: ps.flatMap flat1 ++ tail := by
  induction ps with
  | nil =>
    simp only [List.flatMap_nil, List.nil_append]
    rcases htail with e | ⟨u, e⟩
    · rw [e]; intro hi; exact not_infix_short (by simp [streamKw]) hi
    · rw [e]; intro hi
      exact ht u (by rw [e]; simp) e (infix_cons_of_not_mem (by simp [streamKw]) hi)
  | cons p t ih =>
    have ih := ih (fun q hq => h q (by simp [hq]))
    obtain ⟨h1, h2⟩ := h p (by simp)
    intro hi
    have e : (p :: t).flatMap flat1 ++ tail = 47 :: (p.key ++ 32 :: (p.rawVal ++ (t.flatMap flat1 ++ tail))) := by
      simp [flat1]
    rw [e] at hi
    have hi := infix_cons_of_not_mem (by simp [streamKw]) hi
    rcases infix_split (by simp [streamKw]) hi with hi | hi
    · exact h1 hi
    · have hc : t.flatMap flat1 ++ tail = [] ∨ (∃ u, t.flatMap flat1 ++ tail = 47 :: u) ∨ (∃ u, t.flatMap flat1 ++ tail = 62 :: u) := by
        cases t with
        | nil =>
          rcases htail with e | ⟨u, e⟩
          · left; simpa using e
          · right; right; exact ⟨u, by simpa using e⟩
        | cons q t => right; left; exact ⟨_, rfl⟩
      rcases hc with hc | ⟨u, hc⟩ | ⟨u, hc⟩
      · rw [hc] at hi; simp at hi; exact h2 hi
      · rw [hc] at hi ih
        rcases infix_split (by simp [streamKw]) hi with hi | hi
        · exact h2 hi
        · exact ih (hi.trans (List.suffix_cons _ _).isInfix)
      · rw [hc] at hi ih
        rcases infix_split (by simp [streamKw]) hi with hi | hi
        · exact h2 hi
        · exact ih (hi.trans (List.suffix_cons _ _).isInfix)

theorem setProperties_eq (ps : Props) : setProperties ps = 60 :: 60 :: 10 :: (ps.flatMap flat1 ++ [62, 62, 10]) := by
  have : (fun p : PropD => b!"/" ++ p.key ++ b!" " ++ p.rawVal) = flat1 := rfl
  rw [setProperties, this]
  simp

theorem noStream_setProperties {ps : Props} (h : NoStream ps) : ¬ streamKw <:+: setProperties ps := by
  rw [setProperties_eq]
  intro hi
  have hi := infix_cons_of_not_mem (by simp [streamKw]) hi
  have hi := infix_cons_of_not_mem (by simp [streamKw]) hi
  have hi := infix_cons_of_not_mem (by simp [streamKw]) hi
  refine noStream_flat h [62, 62, 10] ?_ (Or.inr ⟨_, rfl⟩) hi
  intro u _ hu
  simp at hu
  rw [← hu]
  exact not_infix_short (by simp [streamKw])

/-- Reading back a written list. -/
theorem readProperties_setProperties' {ps : Props} (h : Pre ps) (hc : Canon (ps.map strip1)) (hs : NoStream ps) :
    readProperties (setProperties ps) = .ok (ps.map strip1) := by
  have h1 : index streamKw (setProperties ps) = none :=
    (index_none_iff (by simp [streamKw])).2 (noStream_setProperties hs)
  have h2 : index b!"<<" (setProperties ps) = some 0 := by
    apply index_eq (Nat.zero_le _)
    · rw [setProperties_eq]; exact ⟨_, rfl⟩
    · intro j hj; omega
  have h3 : lastIndex b!">>" (setProperties ps) = some (3 + (ps.flatMap flat1).length) := by
    rw [setProperties_eq]
    have := lastIndex_append_exact (pat := [62, 62]) (t := [10]) (s := 60 :: 60 :: 10 :: ps.flatMap flat1) (by simp) (by
      intro j hj hj2
      simp at hj2
      have : j = 1 ∨ j = 2 ∨ j = 3 := by omega
      rcases this with e | e | e <;> subst e <;> simp)
    rw [show 3 + (ps.flatMap flat1).length = (60 :: 60 :: 10 :: ps.flatMap flat1).length by simp; omega]
    rw [← this]
    simp
  have h4 : ((setProperties ps).take (3 + (ps.flatMap flat1).length)).drop 2 = 10 :: ps.flatMap flat1 := by
    rw [setProperties_eq]
    rw [show 3 + (ps.flatMap flat1).length = (60 :: 60 :: 10 :: ps.flatMap flat1).length by simp; omega]
    rw [show 60 :: 60 :: 10 :: (ps.flatMap flat1 ++ [62, 62, 10]) = (60 :: 60 :: 10 :: ps.flatMap flat1) ++ [62, 62, 10] by simp]
    rw [List.take_left]
    rfl
  unfold readProperties
  simp only [beforeStream, h1, h2, h3]
  rw [if_neg (by omega)]
  rw [h4, normalize_written h, parseProps_eq_run, run_compact hc]

/-- Reading back a written canonical list. -/
theorem readProperties_setProperties {ps : Props} (h : Canon ps) (hs : NoStream ps) :
    readProperties (setProperties ps) = .ok ps := by
  have := readProperties_setProperties' h.pre (by rwa [h.strip]) hs
  rwa [h.strip] at this

/-! ### from the raw text -/

/-- the bytes after which a space may be removed -/
def isPat (c : UInt8) : Bool := c = 47 || c = 91 || c = 93 || c = 60 || c = 62

theorem dropSp_head {t : Bytes} (h : dropSp t = true) : ∃ d u, t = d :: u ∧ isPat d = true := by
  rw [dropSp_iff] at h
  obtain ⟨u, h | h | h | h | h⟩ := h <;> exact ⟨_, _, h, rfl⟩

theorem stripQ_prefix {w u : Bytes} (hw : ∀ c ∈ w, c ≠ 32 ∧ isPat c = false) (h : w <+: stripQ dropSp u) : w = [] ∨ w <+: u := by
  induction u generalizing w with
  | nil => simp [stripQ] at h; exact Or.inl h
  | cons c t ih =>
    cases w with
    | nil => exact Or.inl rfl
    | cons x w =>
      right
      obtain ⟨hx32, hxp⟩ := hw x (by simp)
      rw [stripQ] at h
      split at h
      · rename_i hc
        obtain ⟨d, v, hdv, hp⟩ := dropSp_head hc.2
        exfalso
        rw [hdv, stripQ] at h
        have hd32 : d ≠ 32 := by intro e; subst e; simp [isPat] at hp
        rw [if_neg (by simp [hd32])] at h
        obtain ⟨z, hz⟩ := h
        simp at hz
        rw [← hz.1] at hp; rw [hp] at hxp; simp at hxp
      · have h1 : x = c := by obtain ⟨z, hz⟩ := h; simp at hz; exact hz.1
        have h2 : w <+: stripQ dropSp t := by obtain ⟨z, hz⟩ := h; simp at hz; exact ⟨z, hz.2⟩
        subst h1
        rcases ih (fun c hc => hw c (by simp [hc])) h2 with h | h
        · subst h; exact ⟨t, rfl⟩
        · obtain ⟨z, hz⟩ := h; exact ⟨z, by simp [hz]⟩

theorem stripQ_infix {w u : Bytes} (hw : ∀ c ∈ w, c ≠ 32 ∧ isPat c = false) (h : w <:+: stripQ dropSp u) : w <:+: u := by
  induction u with
  | nil => simpa [stripQ] using h
  | cons c t ih =>
    by_cases hd : c = 32 ∧ dropSp t = true
    · rw [stripQ, if_pos hd] at h
      exact (ih h).trans (List.suffix_cons _ _).isInfix
    · have e : stripQ dropSp (c :: t) = c :: stripQ dropSp t := by rw [stripQ, if_neg hd]
      rw [e, List.infix_cons_iff] at h
      rcases h with h | h
      · rw [← e] at h
        rcases stripQ_prefix hw h with h | h
        · subst h; exact List.nil_infix
        · exact h.isInfix
      · exact (ih h).trans (List.suffix_cons _ _).isInfix

theorem collapseWs_prefix {w s : Bytes} {b : Bool} (hw : ∀ c ∈ w, c ≠ 32) (h : w <+: collapseWs b s) : w = [] ∨ w <:+: s := by
  induction s generalizing b with
  | nil => simp [collapseWs] at h; exact Or.inl h
  | cons c t ih =>
    by_cases hc : isWs c = true
    · cases b with
      | true =>
        simp [collapseWs, hc] at h
        rcases ih h with h | h
        · exact Or.inl h
        · exact Or.inr (h.trans (List.suffix_cons _ _).isInfix)
      | false =>
        simp [collapseWs, hc] at h
        cases w with
        | nil => exact Or.inl rfl
        | cons x w =>
          exfalso
          obtain ⟨z, hz⟩ := h
          simp at hz
          exact hw x (by simp) hz.1
    · have hc : isWs c = false := by simpa using hc
      have hpre : ∀ (w t : Bytes), (∀ c ∈ w, c ≠ 32) → w <+: collapseWs false t → w <+: t := by
        intro w t
        induction t generalizing w with
        | nil => intro _ h; simpa [collapseWs] using h
        | cons d u ih2 =>
          intro hw h
          cases w with
          | nil => exact List.nil_prefix
          | cons x w =>
            by_cases hd : isWs d = true
            · exfalso
              simp [collapseWs, hd] at h
              exact hw x (by simp) h.1
            · simp [collapseWs, hd] at h
              obtain ⟨z2, hz2⟩ := ih2 w (fun c hc => hw c (by simp [hc])) h.2
              exact ⟨z2, by simp [h.1, hz2]⟩
      right
      have e : collapseWs b (c :: t) = c :: collapseWs false t := by simp [collapseWs, hc]
      rw [e] at h
      cases w with
      | nil => exact List.nil_infix
      | cons x w =>
        obtain ⟨z, hz⟩ := h
        simp at hz
        obtain ⟨z2, hz2⟩ := hpre w t (fun c hc => hw c (by simp [hc])) ⟨z, hz.2⟩
        exact ⟨[], z2, by simp [hz.1, hz2]⟩

theorem collapseWs_infix {w s : Bytes} {b : Bool} (hw : ∀ c ∈ w, c ≠ 32) (h : w <:+: collapseWs b s) : w <:+: s := by
  induction s generalizing b with
  | nil => simpa [collapseWs] using h
  | cons c t ih =>
    have key : w <+: collapseWs b (c :: t) ∨ (∃ b', w <:+: collapseWs b' t) := by
      by_cases hc : isWs c = true
      · cases b with
        | true => simp [collapseWs, hc] at h; exact Or.inr ⟨_, h⟩
        | false =>
          have e : collapseWs false (c :: t) = 32 :: collapseWs true t := by simp [collapseWs, hc]
          rw [e, List.infix_cons_iff] at h
          rcases h with h | h
          · left; rw [e]; exact h
          · exact Or.inr ⟨_, h⟩
      · have e : collapseWs b (c :: t) = c :: collapseWs false t := by simp [collapseWs, hc]
        rw [e, List.infix_cons_iff] at h
        rcases h with h | h
        · left; rw [e]; exact h
        · exact Or.inr ⟨_, h⟩
    rcases key with h | ⟨b', h⟩
    · rcases collapseWs_prefix hw h with h | h
      · subst h; exact List.nil_infix
      · exact h
    · exact (ih h).trans (List.suffix_cons _ _).isInfix

/-- keys and values are parts of the text read -/
theorem run_infix (s : Bytes) (hs : Ascii s) :
    (∀ p ∈ run .top s, p.key <:+: s ∧ p.rawVal <:+: s) ∧
    (∀ k, ∀ p ∈ run (.key k) s, p.key <:+: k ++ s ∧ p.rawVal <:+: s) ∧
    (∀ k v c1 c2, ∀ p ∈ run (.val k v c1 c2) s, (p.key = k ∨ p.key <:+: s) ∧ p.rawVal <:+: v ++ s) := by
  induction s with
  | nil =>
    refine ⟨by simp [run], ?_, ?_⟩
    · intro k p hp; simp [run] at hp; subst hp; simp
    · intro k v c1 c2 p hp; simp [run] at hp; subst hp; simp
  | cons c t ih =>
    obtain ⟨hc, ht⟩ := Ascii.cons.1 hs
    obtain ⟨ihT, ihK, ihV⟩ := ih ht
    have step : ∀ {x : Bytes}, x <:+: t → x <:+: c :: t := fun h => h.trans (List.suffix_cons _ _).isInfix
    have app : ∀ {x : Bytes} (k : Bytes), x <:+: t → x <:+: k ++ c :: t := fun k h => (step h).trans (List.suffix_append _ _).isInfix
    refine ⟨?_, ?_, ?_⟩
    · intro p hp
      rw [run] at hp
      split at hp
      · obtain ⟨h1, h2⟩ := ihK [] p hp
        exact ⟨step (by simpa using h1), step h2⟩
      · obtain ⟨h1, h2⟩ := ihT p hp
        exact ⟨step h1, step h2⟩
    · intro k p hp
      rw [run] at hp
      split at hp
      · obtain ⟨h1, h2⟩ := ihV k [] 0 0 p hp
        refine ⟨?_, step (by simpa using h2)⟩
        rcases h1 with h1 | h1
        · rw [h1]; exact (List.prefix_append _ _).isInfix
        · exact app k h1
      · split at hp
        · obtain ⟨h1, h2⟩ := ihV k _ _ _ p hp
          refine ⟨?_, by simpa using h2⟩
          rcases h1 with h1 | h1
          · rw [h1]; exact (List.prefix_append _ _).isInfix
          · exact app k h1
        · split at hp
          · rcases List.mem_cons.1 hp with hp | hp
            · subst hp; exact ⟨(List.prefix_append _ _).isInfix, List.nil_infix⟩
            · obtain ⟨h1, h2⟩ := ihK [] p hp
              exact ⟨app k (by simpa using h1), step h2⟩
          · rw [byteAsRune_ascii hc] at hp
            obtain ⟨h1, h2⟩ := ihK _ p hp
            exact ⟨by simpa using h1, step h2⟩
    · intro k v c1 c2 p hp
      rw [run] at hp
      split at hp
      · rcases List.mem_cons.1 hp with hp | hp
        · subst hp
          refine ⟨Or.inl rfl, ?_⟩
          show v ++ [c] <:+: v ++ c :: t
          exact ⟨[], t, by simp⟩
        · obtain ⟨h1, h2⟩ := ihT p hp
          exact ⟨Or.inr (step h1), app v h2⟩
      · split at hp
        · rcases List.mem_cons.1 hp with hp | hp
          · subst hp
            exact ⟨Or.inl rfl, (List.prefix_append _ _).isInfix⟩
          · obtain ⟨h1, h2⟩ := ihK [] p hp
            exact ⟨Or.inr (step (by simpa using h1)), app v h2⟩
        · rw [byteAsRune_ascii hc] at hp
          obtain ⟨h1, h2⟩ := ihV _ _ _ _ p hp
          refine ⟨?_, by simpa using h2⟩
          rcases h1 with h1 | h1
          · exact Or.inl h1
          · exact Or.inr (step h1)

theorem NoLoneAngle.infix {s raw : Bytes} (h : NoLoneAngle raw) (hs : s <:+: raw) : NoLoneAngle s :=
  fun a x b ha hx hb hb2 hi => h a x b ha hx hb hb2 (hi.trans hs)

theorem collapse_back2 {a : UInt8} (ha : a = 60 ∨ a = 62) {s : Bytes} {b : Bool} (h : [a, a] <+: collapseWs b s) :
    ∃ w, (∀ c ∈ w, isWs c = true) ∧ (b = false → w = []) ∧ (w ++ [a, a]) <+: s := by
  have ha32 : a ≠ 32 := by rcases ha with e | e <;> subst e <;> decide
  induction s generalizing b with
  | nil => simp [collapseWs] at h
  | cons c t ih =>
    by_cases hc : isWs c = true
    · cases b with
      | true =>
        simp [collapseWs, hc] at h
        obtain ⟨w, h1, _, h3⟩ := ih h
        refine ⟨c :: w, ?_, by simp, by simpa using h3⟩
        intro d hd
        rcases List.mem_cons.1 hd with hd | hd
        · subst hd; exact hc
        · exact h1 d hd
      | false =>
        simp [collapseWs, hc] at h
        exact absurd h.1 ha32
    · have e : collapseWs b (c :: t) = c :: collapseWs false t := by simp [collapseWs, hc]
      rw [e] at h
      refine ⟨[], by simp, by simp, ?_⟩
      simp at h ⊢
      refine ⟨h.1, ?_⟩
      cases t with
      | nil => simp [collapseWs] at h
      | cons d u =>
        by_cases hd : isWs d = true
        · exfalso
          simp [collapseWs, hd] at h
          exact ha32 h.2
        · simp [collapseWs, hd] at h
          simpa using h.2

theorem noSplit_collapse {s : Bytes} (h : NoLoneAngle s) (b : Bool) : NoSplit (collapseWs b s) := by
  have main : ∀ a : UInt8, (a = 60 ∨ a = 62) → ∀ (s : Bytes) b, NoLoneAngle s → ¬ [32, a, 32, a, a] <:+: collapseWs b s := by
    intro a ha s
    have ha32 : a ≠ 32 := by rcases ha with e | e <;> subst e <;> decide
    have haw : isWs a = false := by rcases ha with e | e <;> subst e <;> decide
    -- the text after the first white-space byte
    have after : ∀ (x : UInt8), isWs x = true → ∀ t, NoLoneAngle (x :: t) → ¬ [a, 32, a, a] <+: collapseWs true t := by
      intro x hx t
      induction t generalizing x with
      | nil => intro _ h; simp [collapseWs] at h
      | cons c t ih =>
        intro hn h
        by_cases hc : isWs c = true
        · simp [collapseWs, hc] at h
          exact ih c hc (hn.infix (List.suffix_cons _ _).isInfix) h
        · simp [collapseWs, hc] at h
          obtain ⟨h1, h2⟩ := h
          subst h1
          -- collapseWs false t starts with 32 a a
          cases t with
          | nil => simp [collapseWs] at h2
          | cons d u =>
            by_cases hd : isWs d = true
            · simp [collapseWs, hd] at h2
              obtain ⟨w, hw1, _, hw3⟩ := collapse_back2 ha h2
              obtain ⟨z, hz⟩ := hw3
              refine hn a x (d :: w) ha hx (by simp) ?_ ⟨[], z, ?_⟩
              · intro e he
                rcases List.mem_cons.1 he with he | he
                · subst he; exact hd
                · exact hw1 e he
              · rw [← hz]; simp
            · simp [collapseWs, hd] at h2
              rw [← h2.1] at hd; simp [isWs] at hd
    intro b
    induction s generalizing b with
    | nil => intro _ h; simp [collapseWs] at h
    | cons c t ih =>
      intro hn h
      have hnt := hn.infix (List.suffix_cons c t).isInfix
      by_cases hc : isWs c = true
      · cases b with
        | true => simp only [collapseWs, hc, if_true] at h; exact ih _ hnt h
        | false =>
          have e : collapseWs false (c :: t) = 32 :: collapseWs true t := by simp [collapseWs, hc]
          rw [e, List.infix_cons_iff] at h
          rcases h with h | h
          · obtain ⟨z, hz⟩ := h
            simp at hz
            exact after c hc t hn ⟨z, by simpa using hz⟩
          · exact ih _ hnt h
      · have e : collapseWs b (c :: t) = c :: collapseWs false t := by simp [collapseWs, hc]
        rw [e, List.infix_cons_iff] at h
        rcases h with h | h
        · obtain ⟨z, hz⟩ := h
          simp at hz
          rw [← hz.1] at hc; simp [isWs] at hc
        · exact ih _ hnt h
  exact ⟨main 60 (Or.inl rfl) s b h, main 62 (Or.inr rfl) s b h⟩

/-- a part of `s` ending where `s.take`… : the text between two positions -/
theorem take_drop_infix (s : Bytes) (i j : Nat) : (s.take i).drop j <:+: s :=
  ((s.take i).drop_suffix j).isInfix.trans (s.take_prefix i).isInfix

theorem collapseWs_ascii {s : Bytes} (h : Ascii s) (b : Bool) : Ascii (collapseWs b s) := by
  induction s generalizing b with
  | nil => simpa [collapseWs] using h
  | cons c t ih =>
    obtain ⟨h1, h2⟩ := Ascii.cons.1 h
    rw [collapseWs]
    split
    · split
      · exact ih h2 _
      · exact Ascii.cons.2 ⟨by decide, ih h2 _⟩
    · exact Ascii.cons.2 ⟨h1, ih h2 _⟩

theorem collapseWs_getLast? {s : Bytes} {c : UInt8} (h : s.getLast? = some c) (hc : isSp c = false) (b : Bool) :
    (collapseWs b s).getLast? = some c := by
  have hw : isWs c = false := by
    simp [isSp] at hc
    simp [isWs, hc]
  induction s generalizing b with
  | nil => simp at h
  | cons d t ih =>
    cases t with
    | nil =>
      simp at h; subst h
      simp [collapseWs, hw]
    | cons e u =>
      have h' : (e :: u).getLast? = some c := by simpa [List.getLast?_cons_cons] using h
      have ih := ih h'
      have ne : ∀ b, collapseWs b (e :: u) ≠ [] := by
        intro b hn; have := ih b; rw [hn] at this; simp at this
      rw [collapseWs]
      split
      · split
        · exact ih _
        · rw [show 32 :: collapseWs true (e :: u) = [32] ++ collapseWs true (e :: u) by simp, getLast?_append_of (ne _)]
          exact ih _
      · rw [show d :: collapseWs false (e :: u) = [d] ++ collapseWs false (e :: u) by simp, getLast?_append_of (ne _)]
        exact ih _

theorem trimSpace_end {s : Bytes} (h : Ascii s) : EndOk (trimSpace s) := by
  rw [trimSpace_ascii h]
  intro c hc
  rw [List.getLast?_reverse] at hc
  have := List.head?_dropWhile_not (p := isSp) (l := (s.dropWhile isSp).reverse)
  rw [hc] at this
  simpa using this

theorem normalize_norm {tmp : Bytes} (ha : Ascii tmp) (hl : NoLoneAngle tmp) : Norm (normalizeProps tmp) := by
  rw [normalizeProps_eq]
  have hinf := trimSpace_infix_ascii ha
  apply norm_stripQ
  · exact collapseWs_SS false _
  · intro c hc
    cases ht : (trimSpace tmp).getLast? with
    | none =>
      rw [List.getLast?_eq_none_iff] at ht
      rw [ht] at hc
      simp [collapseWs] at hc
    | some d =>
      have hd := trimSpace_end ha d ht
      rw [collapseWs_getLast? ht hd] at hc
      simp at hc; subst hc; exact hd
  · exact collapseWs_ascii (Ascii.sublist hinf.sublist ha) _
  · exact noSplit_collapse (hl.infix hinf) _

/-- What reading yields is canonical and free of the word `stream`. -/
theorem readProperties_canon {raw : Bytes} {ps : Props} (ha : Ascii raw) (hl : NoLoneAngle raw)
    (h : readProperties raw = .ok ps) : Canon ps ∧ NoStream ps := by
  unfold readProperties at h
  generalize htmp : beforeStream raw = tmp0 at h
  unfold beforeStream at htmp
  have hns : ¬ streamKw <:+: tmp0 := by
    cases hi : index streamKw raw with
    | none =>
      rw [hi] at htmp; simp only at htmp; rw [← htmp]
      exact (index_none_iff (by simp [streamKw])).1 hi
    | some i =>
      rw [hi] at htmp; simp only at htmp; rw [← htmp]
      rintro ⟨p, q, hpq⟩
      obtain ⟨_, _, hmin⟩ := index_some hi
      have hlen := congrArg List.length hpq
      simp [streamKw] at hlen
      refine hmin p.length (by omega) ?_
      have : raw = p ++ (streamKw ++ (q ++ raw.drop i)) := by
        calc raw = raw.take i ++ raw.drop i := (List.take_append_drop i raw).symm
          _ = _ := by rw [← hpq]; simp
      rw [this, List.drop_left]
      exact List.prefix_append _ _
  have htp : tmp0 <+: raw := by
    cases hi : index streamKw raw with
    | none => rw [hi] at htmp; simp only at htmp; rw [← htmp]; exact List.prefix_refl _
    | some i => rw [hi] at htmp; simp only at htmp; rw [← htmp]; exact List.take_prefix _ _
  split at h
  · rename_i s e hs he
    split at h
    · simp at h
    · simp only [Res.ok.injEq] at h
      obtain ⟨hele, _, _⟩ := lastIndex_some he
      have heq : (raw.take e).drop (s + 2) = (tmp0.take e).drop (s + 2) := by
        obtain ⟨z, hz⟩ := htp
        rw [← hz, List.take_append_of_le_length hele]
      rw [heq] at h
      have hinf : (tmp0.take e).drop (s + 2) <:+: tmp0 := take_drop_infix _ _ _
      have hinf2 := hinf.trans htp.isInfix
      have haT : Ascii ((tmp0.take e).drop (s + 2)) := Ascii.sublist hinf2.sublist ha
      have hn := normalize_norm haT (hl.infix hinf2)
      rw [parseProps_eq_run] at h
      subst h
      refine ⟨(run_canon _).1 hn, ?_⟩
      have back : ∀ w, (∀ c ∈ w, c ≠ 32 ∧ isPat c = false) → w <:+: normalizeProps ((tmp0.take e).drop (s + 2)) → w <:+: tmp0 := by
        intro w hw hi
        rw [normalizeProps_eq] at hi
        exact ((collapseWs_infix (fun c hc => (hw c hc).1) (stripQ_infix hw hi)).trans (trimSpace_infix_ascii haT)).trans hinf
      intro p hp
      obtain ⟨h1, h2⟩ := (run_infix _ hn.ascii).1 p hp
      have hw : ∀ c ∈ streamKw, c ≠ 32 ∧ isPat c = false := by decide
      exact ⟨fun hk => hns (back _ hw (hk.trans h1)), fun hk => hns (back _ hw (hk.trans h2))⟩
  · simp at h

end Verif
