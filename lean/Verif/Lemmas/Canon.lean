import Verif.Lemmas.Norm
import Verif.Lemmas.Loop
/-
Entry lists in the form the parser produces, and the proof that writing and reading them is the identity.
-/
namespace Verif

/-- Read a value: `none` if it would end before the end of the text, `some none` if it is closed by its last byte,
`some (some (c1, c2))` if it is still open. -/
def valScan : Int → Int → Bytes → Option (Option (Int × Int))
  | c1, c2, [] => some (some (c1, c2))
  | c1, c2, c :: t =>
    if (c = 93 ∨ c = 62) ∧ cnt1 c1 c = 0 ∧ cnt2 c2 c = 0 then (if t = [] then some none else none)
    else if c = 47 ∧ c1 = 0 ∧ c2 = 0 then none
    else valScan (cnt1 c1 c) (cnt2 c2 c) t

theorem valScan_append {v w : Bytes} {a b c d : Int} (h : valScan a b v = some (some (c, d))) :
    valScan a b (v ++ w) = valScan c d w := by
  induction v generalizing a b with
  | nil => simp [valScan] at h; simp [h]
  | cons x t ih =>
    rw [valScan] at h
    rw [List.cons_append, valScan]
    split at h
    · split at h <;> simp at h
    · rename_i h1
      rw [if_neg h1]
      split at h
      · simp at h
      · rename_i h2
        rw [if_neg h2]
        exact ih h

/-- a key as the parser reads it -/
def KeyOk (k : Bytes) : Prop := ∀ c ∈ k, c < 128 ∧ c ≠ 32 ∧ c ≠ 60 ∧ c ≠ 91 ∧ c ≠ 47 ∧ c ≠ 9 ∧ c ≠ 10 ∧ c ≠ 13

/-- how a value may start -/
def HeadOk (v : Bytes) : Prop := v.head? ≠ some 32 ∧ v.head? ≠ some 47 ∧ v.head? ≠ some 93 ∧ ¬ [62, 62] <+: v

/-- a value as the parser reads it; only the last one may be left open -/
structure ValOk (last : Bool) (v : Bytes) : Prop where
  ascii : Ascii v
  noTab : ∀ c ∈ v, c ≠ 9 ∧ c ≠ 10 ∧ c ≠ 13
  head : HeadOk v
  space : ∀ t, (32 :: t) <:+ v → t ≠ [] ∧ t.head? ≠ some 32 ∧ dropSp t = false
  scan : valScan 0 0 v = some none ∨ valScan 0 0 v = some (some (0, 0)) ∨ (last = true ∧ ∃ c d, valScan 0 0 v = some (some (c, d)))

/-- the text of the last entry does not end in white space -/
def LastOk (p : PropD) : Prop := EndOk (47 :: (p.key ++ p.rawVal))

/-- a list of entries as the parser reads it -/
def Canon : Props → Prop
  | [] => True
  | [p] => KeyOk p.key ∧ ValOk true p.rawVal ∧ LastOk p
  | p :: q :: t => KeyOk p.key ∧ ValOk false p.rawVal ∧ Canon (q :: t)

theorem Canon.cons {p : PropD} {t : Props} (hk : KeyOk p.key) (hv : ValOk false p.rawVal)
    (hl : t = [] → LastOk p) (ht : Canon t) : Canon (p :: t) := by
  cases t with
  | nil =>
    refine ⟨hk, ?_, hl rfl⟩
    exact ⟨hv.ascii, hv.noTab, hv.head, hv.space, by
      rcases hv.scan with h | h | ⟨h, _⟩
      · exact Or.inl h
      · exact Or.inr (Or.inl h)
      · simp at h⟩
  | cons q t => exact ⟨hk, hv, ht⟩

theorem ValOk.nil (l : Bool) : ValOk l [] where
  ascii := by simp [Ascii]
  noTab := by simp
  head := by simp [HeadOk]
  space := by intro t ht; simp at ht
  scan := by right; left; rfl

theorem Ascii.nil : Ascii [] := by simp [Ascii]

theorem Ascii.single {c : UInt8} (h : c < 128) : Ascii [c] := by simp [Ascii, h]

theorem getLast?_append_of {a b : Bytes} (h : b ≠ []) : (a ++ b).getLast? = b.getLast? := by
  rw [List.getLast?_append]
  cases hb : b.getLast? with
  | none => rw [List.getLast?_eq_none_iff] at hb; exact absurd hb h
  | some c => rfl

/-- parts of a normal text that end before a slash or with a bracket are canonical values -/
theorem valOk_of {v t : Bytes} (hn : Norm (v ++ t)) (hh : HeadOk (v ++ t)) (hv : v ≠ [])
    (hend : v.getLast? ≠ some 32) (l : Bool)
    (hs : valScan 0 0 v = some none ∨ valScan 0 0 v = some (some (0, 0)) ∨ (l = true ∧ ∃ c d, valScan 0 0 v = some (some (c, d)))) :
    ValOk l v where
  ascii := (Ascii.append.1 hn.ascii).1
  noTab := fun c hc => hn.noTab c (by simp [hc])
  head := by
    cases v with
    | nil => exact absurd rfl hv
    | cons c w =>
      obtain ⟨h1, h2, h3, h4⟩ := hh
      exact ⟨by simpa using h1, by simpa using h2, by simpa using h3, fun h => h4 (h.trans (List.prefix_append _ _))⟩
  space := by
    intro u hu
    have hu2 : (32 :: (u ++ t)) <:+ (v ++ t) := by
      obtain ⟨p, hp⟩ := hu
      exact ⟨p, by rw [← hp]; simp⟩
    obtain ⟨_, h2, h3⟩ := hn.space _ hu2
    have hne : u ≠ [] := by
      intro e; subst e
      obtain ⟨p, hp⟩ := hu
      apply hend
      rw [← hp]; simp
    refine ⟨hne, ?_, dropSp_false_of_append h3⟩
    cases u with
    | nil => exact absurd rfl hne
    | cons d w => simpa using h2
  scan := hs

theorem Norm.append_right {a b : Bytes} (h : Norm (a ++ b)) : Norm b := h.suffix (List.suffix_append a b)

theorem cnt_ascii_noteq {c : UInt8} {c1 c2 : Int} (h : valScan 0 0 [] = some (some (c1, c2))) : c1 = 0 ∧ c2 = 0 := by
  simp [valScan] at h; exact ⟨h.1.symm, h.2.symm⟩

/-- Lemma A: the parser produces canonical lists from normal texts. -/
theorem run_canon (s : Bytes) :
    (Norm s → Canon (run .top s)) ∧
    (∀ k, KeyOk k → Norm s → EndOk (47 :: (k ++ s)) → Canon (run (.key k) s) ∧ run (.key k) s ≠ []) ∧
    (∀ k v c1 c2, KeyOk k → Norm (v ++ s) → HeadOk (v ++ s) → v ++ s ≠ [] →
      (v = [] → dropSp s = false) → valScan 0 0 v = some (some (c1, c2)) →
      Canon (run (.val k v c1 c2) s) ∧ run (.val k v c1 c2) s ≠ []) := by
  induction s with
  | nil =>
    refine ⟨fun _ => trivial, ?_, ?_⟩
    · intro k hk _ he
      exact ⟨⟨hk, ValOk.nil true, by simpa [LastOk] using he⟩, by simp [run]⟩
    · intro k v c1 c2 hk hn hh hne hd hs
      have hv : v ≠ [] := by simpa using hne
      simp only [List.append_nil] at hn hh
      refine ⟨⟨hk, ?_, ?_⟩, by simp [run]⟩
      · have hn' : Norm (v ++ []) := by simpa using hn
        have hh' : HeadOk (v ++ []) := by simpa using hh
        refine valOk_of hn' hh' hv ?_ true (Or.inr (Or.inr ⟨rfl, c1, c2, hs⟩))
        intro e
        have := hn.endOk 32 e
        simp [isSp] at this
      · intro c hc
        rw [← List.cons_append] at hc
        rw [getLast?_append_of hv] at hc
        exact hn.endOk c hc
  | cons c t ih =>
    obtain ⟨ihT, ihK, ihV⟩ := ih
    refine ⟨?_, ?_, ?_⟩
    · intro hn
      rw [run]
      split
      · rename_i hc
        subst hc
        exact (ihK [] (by simp [KeyOk]) hn.tail (by simpa using hn.endOk)).1
      · exact ihT hn.tail
    · intro k hk hn he
      have hasc : c < 128 := hn.ascii c (by simp)
      rw [run]
      split
      · rename_i hc
        subst hc
        obtain ⟨h1, h2, h3⟩ := hn.space t (List.suffix_refl _)
        refine ihV k [] 0 0 hk (by simpa using hn.tail) ?_ (by simpa using h1) (fun _ => h3) rfl
        rw [List.nil_append]
        refine ⟨h2, ?_, ?_, ?_⟩
        · intro e
          cases t with
          | nil => simp at e
          | cons d u => simp at e; subst e; simp [dropSp] at h3
        · intro e
          cases t with
          | nil => simp at e
          | cons d u => simp at e; subst e; simp [dropSp] at h3
        · rintro ⟨u, hu⟩
          subst hu
          simp [dropSp] at h3
      · rename_i h32
        split
        · rename_i hc
          refine ihV k [c] (cnt1 0 c) (cnt2 0 c) hk (by simpa using hn) ?_ (by simp) (by simp) ?_
          · rcases hc with hc | hc <;> subst hc <;>
              refine ⟨by simp, by simp, by simp, ?_⟩ <;> (intro h; simp at h)
          · rcases hc with hc | hc <;> subst hc <;> decide
        · rename_i hob
          split
          · rename_i hc
            subst hc
            have hrest := ihK [] (by simp [KeyOk]) hn.tail (by simpa using hn.endOk)
            refine ⟨Canon.cons hk (ValOk.nil false) (fun e => absurd e hrest.2) hrest.1, by simp⟩
          · rename_i h47
            rw [byteAsRune_ascii hasc]
            have hk' : KeyOk (k ++ [c]) := by
              intro d hd
              simp only [List.mem_append, List.mem_cons, List.not_mem_nil, or_false] at hd
              rcases hd with hd | hd
              · exact hk d hd
              · subst hd
                have h := hn.noTab d (by simp)
                refine ⟨hasc, h32, fun e => hob (Or.inl e), fun e => hob (Or.inr e), h47, h.1, h.2.1, h.2.2⟩
            exact ihK (k ++ [c]) hk' hn.tail (by simpa using he)
    · intro k v c1 c2 hk hn hh hne hd hs
      have hasc : c < 128 := hn.ascii c (by simp)
      rw [run]
      split
      · rename_i hclose
        have hc32 : c ≠ 32 := by rcases hclose.1 with h | h <;> subst h <;> decide
        have hsp : isSp c = false := by rcases hclose.1 with h | h <;> subst h <;> decide
        have hn' : Norm ((v ++ [c]) ++ t) := by simpa using hn
        have hh' : HeadOk ((v ++ [c]) ++ t) := by simpa using hh
        have hval : ValOk false (v ++ [c]) := by
          refine valOk_of hn' hh' (by simp) (by simpa using hc32) false (Or.inl ?_)
          rw [valScan_append hs]
          simp [valScan, hclose]
        refine ⟨Canon.cons hk hval ?_ (ihT hn'.append_right), by simp⟩
        intro _ d hd
        simp only at hd
        rw [← List.cons_append, getLast?_append_of (by simp)] at hd
        simp at hd; subst hd; exact hsp
      · rename_i hnc
        split
        · rename_i hsl
          obtain ⟨hc, h1, h2⟩ := hsl
          subst hc; subst h1; subst h2
          have hn2 : Norm (47 :: t) := hn.append_right
          have hrest := ihK [] (by simp [KeyOk]) hn2.tail (by simpa using hn2.endOk)
          refine ⟨Canon.cons hk ?_ (fun e => absurd e hrest.2) hrest.1, by simp⟩
          by_cases hv : v = []
          · subst hv; exact ValOk.nil false
          · refine valOk_of hn hh hv ?_ false (Or.inr (Or.inl hs))
            intro e
            have : (32 :: (47 :: t)) <:+ (v ++ 47 :: t) := by
              obtain ⟨w, hw⟩ : ∃ w, v = w ++ [32] := by
                rw [List.getLast?_eq_some_iff] at e
                exact e
              exact ⟨w, by rw [hw]; simp⟩
            have := (hn.space _ this).2.2
            simp [dropSp] at this
        · rename_i hns
          rw [byteAsRune_ascii hasc]
          refine ihV k (v ++ [c]) (cnt1 c1 c) (cnt2 c2 c) hk (by simpa using hn) (by simpa using hh) (by simp) (by simp) ?_
          rw [valScan_append hs]
          simp [valScan, hnc, hns]

/-- Does the normalisation remove the space between key and value? -/
def noSep (v : Bytes) : Bool := v.isEmpty || [91].isPrefixOf v || [60, 60].isPrefixOf v

/-- normal form of one written entry -/
def compact1 (p : PropD) : Bytes := 47 :: (p.key ++ ((if noSep p.rawVal then [] else [32]) ++ p.rawVal))

/-- normal form of the written entries -/
def compact (ps : Props) : Bytes := ps.flatMap compact1

/-- the text `setProperties` writes between the brackets -/
def flat1 (p : PropD) : Bytes := b!"/" ++ p.key ++ b!" " ++ p.rawVal

theorem run_key_append {k1 k2 : Bytes} (h : KeyOk k2) (t : Bytes) : run (.key k1) (k2 ++ t) = run (.key (k1 ++ k2)) t := by
  induction k2 generalizing k1 with
  | nil => simp
  | cons c w ih =>
    obtain ⟨h1, h2, h3, h4, h5, _⟩ := h c (by simp)
    rw [List.cons_append, run]
    simp only [h2, h3, h4, h5, if_false, or_self]
    rw [byteAsRune_ascii h1, ih (fun d hd => h d (by simp [hd]))]
    simp

theorem run_val_closed {k v0 v t : Bytes} {c1 c2 : Int} (ha : Ascii v) (h : valScan c1 c2 v = some none) :
    run (.val k v0 c1 c2) (v ++ t) = ⟨k, v0 ++ v⟩ :: run .top t := by
  induction v generalizing v0 c1 c2 with
  | nil => simp [valScan] at h
  | cons c w ih =>
    obtain ⟨h1, h2⟩ := Ascii.cons.1 ha
    rw [valScan] at h
    rw [List.cons_append, run]
    split at h
    · rename_i hc
      rw [if_pos hc]
      split at h
      · rename_i hw; subst hw; simp
      · simp at h
    · rename_i hc
      rw [if_neg hc]
      split at h
      · simp at h
      · rename_i hs
        rw [if_neg hs, byteAsRune_ascii h1, ih h2 h]
        simp

theorem run_val_open {k v0 v t : Bytes} {c1 c2 d1 d2 : Int} (ha : Ascii v) (h : valScan c1 c2 v = some (some (d1, d2))) :
    run (.val k v0 c1 c2) (v ++ t) = run (.val k (v0 ++ v) d1 d2) t := by
  induction v generalizing v0 c1 c2 with
  | nil => simp [valScan] at h; simp [h]
  | cons c w ih =>
    obtain ⟨h1, h2⟩ := Ascii.cons.1 ha
    rw [valScan] at h
    rw [List.cons_append, run]
    split at h
    · split at h <;> simp at h
    · rename_i hc
      rw [if_neg hc]
      split at h
      · simp at h
      · rename_i hs
        rw [if_neg hs, byteAsRune_ascii h1, ih h2 h]
        simp

/-- entering the value -/
theorem run_key_sep {k v t : Bytes} (hv : v ≠ []) :
    run (.key k) ((if noSep v then [] else [32]) ++ v ++ t) = run (.val k [] 0 0) (v ++ t) := by
  cases hn : noSep v with
  | false => simp [run]
  | true =>
    simp only [if_true, List.nil_append]
    cases v with
    | nil => exact absurd rfl hv
    | cons c w =>
      have hc : c = 91 ∨ c = 60 := by
        simp [noSep, List.isPrefixOf] at hn
        rcases hn with h | h
        · exact Or.inl h.symm
        · exact Or.inr h.1.symm
      rcases hc with hc | hc <;> subst hc <;> simp [run, byteAsRune, cnt1, cnt2]

/-- Lemma C: reading the normal form gives the entries back. -/
theorem run_compact {ps : Props} (h : Canon ps) : run .top (compact ps) = ps := by
  have key : ∀ (p : PropD) (t : Bytes), KeyOk p.key →
      run .top (compact1 p ++ t) = run (.key p.key) ((if noSep p.rawVal then [] else [32]) ++ p.rawVal ++ t) := by
    intro p t hk
    simp only [compact1, List.cons_append, run, if_true, List.append_assoc]
    rw [run_key_append hk]
    simp
  have next : ∀ (p : PropD) (t : Bytes) (hasNext : t ≠ [] → ∃ u, t = 47 :: u), KeyOk p.key → ∀ l, ValOk l p.rawVal → (l = true → t = []) →
      run .top (compact1 p ++ t) = p :: run .top t := by
    intro p t hnext hk l hv hl
    rw [key p t hk]
    by_cases hv0 : p.rawVal = []
    · rw [hv0]
      simp only [noSep, List.isEmpty_nil, Bool.true_or, if_true, List.nil_append]
      cases ht : t with
      | nil => simp only [run]; cases p; simp_all
      | cons d u =>
        obtain ⟨u', hu⟩ := hnext (by rw [ht]; simp)
        rw [ht] at hu
        simp at hu
        rw [hu.1]
        cases p
        simp only at hv0
        simp [run, hv0]
    · rw [run_key_sep hv0]
      rcases hv.scan with hs | hs | ⟨hlast, c, d, hs⟩
      · rw [run_val_closed hv.ascii hs]; simp
      · rw [run_val_open hv.ascii hs]
        cases ht : t with
        | nil => simp [run]
        | cons d u =>
          obtain ⟨u', hu⟩ := hnext (by rw [ht]; simp)
          rw [ht] at hu
          simp at hu
          rw [hu.1]
          simp [run]
      · rw [run_val_open hv.ascii hs, hl hlast]
        simp [run]
  induction ps with
  | nil => rfl
  | cons p t ih =>
    have e : compact (p :: t) = compact1 p ++ compact t := rfl
    rw [e]
    cases t with
    | nil =>
      obtain ⟨h1, h2, _⟩ := h
      have := next p [] (by simp) h1 true h2 (by simp)
      simpa [compact, run] using this
    | cons q t =>
      obtain ⟨h1, h2, h3⟩ := h
      rw [next p (compact (q :: t)) (fun _ => ⟨_, rfl⟩) h1 false h2 (by simp), ih h3]

/-- passes do nothing to a text whose spaces are all kept -/
theorem stripQ_append_clean {q : Bytes → Bool} {x y : Bytes} (h : ∀ t, (32 :: t) <:+ x → q (t ++ y) = false) :
    stripQ q (x ++ y) = x ++ stripQ q y := by
  induction x with
  | nil => rfl
  | cons c w ih =>
    rw [List.cons_append, stripQ]
    rw [ih (fun t ht => h t (ht.trans (List.suffix_cons c w)))]
    by_cases hc : c = 32
    · subst hc
      rw [h w (List.suffix_refl _)]
      simp
    · simp [hc]

theorem no_space_suffix {k : Bytes} (h : KeyOk k) (t : Bytes) : ¬ (32 :: t) <:+ k := by
  intro hs
  have := hs.subset (a := 32) (by simp)
  exact (h 32 this).2.1 rfl

/-- what follows an entry: nothing, or the next slash -/
def SlashNext (y : Bytes) : Prop := y = [] ∨ ∃ u, y = 47 :: u

theorem dropSp_val {v y : Bytes} (hv : v ≠ []) (hh : HeadOk v) (hy : SlashNext y) : dropSp (v ++ y) = noSep v := by
  cases v with
  | nil => exact absurd rfl hv
  | cons c w =>
    obtain ⟨_, h47, h93, h62⟩ := hh
    simp at h47 h93
    cases hd : noSep (c :: w) with
    | true =>
      rw [dropSp_iff]
      simp [noSep, List.isPrefixOf] at hd
      rcases hd with h | ⟨h1, h2⟩
      · exact ⟨w ++ y, by simp [h]⟩
      · cases w with
        | nil => simp [List.isPrefixOf] at h2
        | cons d w =>
          simp at h2
          exact ⟨w ++ y, by simp [← h1, ← h2]⟩
    | false =>
      simp [noSep, List.isPrefixOf] at hd
      cases hdr : dropSp (c :: w ++ y) with
      | false => rfl
      | true =>
        exfalso
        rw [dropSp_iff] at hdr
        obtain ⟨u, h | h | h | h | h⟩ := hdr
        · simp at h; exact h47 h.1
        · simp at h; exact hd.1 h.1.symm
        · simp at h; exact h93 h.1
        · simp at h
          obtain ⟨h1, h2⟩ := h
          cases w with
          | nil =>
            rcases hy with hy | ⟨u', hy⟩
            · simp [hy] at h2
            · simp [hy] at h2
          | cons d w =>
            simp at h2
            have := hd.2 h1.symm
            rw [h2.1] at this
            simp [List.isPrefixOf] at this
        · simp at h
          obtain ⟨h1, h2⟩ := h
          cases w with
          | nil =>
            rcases hy with hy | ⟨u', hy⟩
            · simp [hy] at h2
            · simp [hy] at h2
          | cons d w =>
            simp at h2
            exact h62 ⟨w, by simp [h1, h2.1]⟩

theorem clean_val {l : Bool} {v y : Bytes} (hv : ValOk l v) (hy : SlashNext y) :
    ∀ t, (32 :: t) <:+ v → dropSp (t ++ y) = false := by
  intro t ht
  obtain ⟨h1, h2, h3⟩ := hv.space t ht
  cases hd : dropSp (t ++ y) with
  | false => rfl
  | true =>
    exfalso
    rw [dropSp_iff] at hd
    cases t with
    | nil => exact h1 rfl
    | cons c w =>
      have fal : ∀ z, c :: w = z → dropSp z = true → False := by
        intro z e hz; rw [← e, h3] at hz; simp at hz
      obtain ⟨u, h | h | h | h | h⟩ := hd
      · simp at h; exact fal (47 :: w) (by rw [h.1]) rfl
      · simp at h; exact fal (91 :: w) (by rw [h.1]) rfl
      · simp at h; exact fal (93 :: w) (by rw [h.1]) rfl
      · simp at h
        obtain ⟨e1, e2⟩ := h
        cases w with
        | nil =>
          rcases hy with hy | ⟨u', hy⟩
          · simp [hy] at e2
          · simp [hy] at e2
        | cons d w => simp at e2; exact fal (60 :: 60 :: w) (by rw [e1, e2.1]) rfl
      · simp at h
        obtain ⟨e1, e2⟩ := h
        cases w with
        | nil =>
          rcases hy with hy | ⟨u', hy⟩
          · simp [hy] at e2
          · simp [hy] at e2
        | cons d w => simp at e2; exact fal (62 :: 62 :: w) (by rw [e1, e2.1]) rfl

/-- a value that may be written: after removing the superfluous spaces it is `stripQ dropSp v` -/
structure PreOk (v : Bytes) : Prop where
  ascii : Ascii v
  ss : SS v
  head : HeadOk v
  last : v.getLast? ≠ some 32
  sep : noSep (stripQ dropSp v) = noSep v

/-- the entry as it is read back -/
def strip1 (p : PropD) : PropD := ⟨p.key, stripQ dropSp p.rawVal⟩

theorem ValOk.strip {l : Bool} {v : Bytes} (h : ValOk l v) : stripQ dropSp v = v := by
  have := stripQ_append_clean (clean_val h (y := []) (Or.inl rfl))
  simpa [stripQ] using this

theorem ValOk.SS {l : Bool} {v : Bytes} (h : ValOk l v) : SS v := by
  refine ⟨h.noTab, ?_⟩
  rintro ⟨p, q, hpq⟩
  have : (32 :: (32 :: q)) <:+ v := ⟨p, by rw [← hpq]; simp⟩
  exact (h.space _ this).2.1 rfl

theorem ValOk.last_ne {l : Bool} {v : Bytes} (h : ValOk l v) : v.getLast? ≠ some 32 := by
  intro e
  obtain ⟨u, hu⟩ := List.getLast?_eq_some_iff.1 e
  exact (h.space [] ⟨u, hu.symm⟩).1 rfl

theorem ValOk.pre {l : Bool} {v : Bytes} (h : ValOk l v) : PreOk v :=
  ⟨h.ascii, h.SS, h.head, h.last_ne, by rw [h.strip]⟩

/-- a list of entries that may be written -/
structure Pre (ps : Props) : Prop where
  entry : ∀ p ∈ ps, KeyOk p.key ∧ PreOk p.rawVal
  last : ∀ p, ps.getLast? = some p → LastOk p

theorem Pre.tail {p : PropD} {t : Props} (h : Pre (p :: t)) : Pre t where
  entry := fun q hq => h.entry q (by simp [hq])
  last := fun q hq => by
    cases t with
    | nil => simp at hq
    | cons r t => exact h.last q (by simpa [List.getLast?_cons_cons] using hq)

theorem Canon.all {ps : Props} (h : Canon ps) : ∀ p ∈ ps, KeyOk p.key ∧ ValOk true p.rawVal := by
  have weak : ∀ v, ValOk false v → ValOk true v := by
    intro v hv
    exact ⟨hv.ascii, hv.noTab, hv.head, hv.space, by
      rcases hv.scan with h | h | ⟨h, _⟩
      · exact Or.inl h
      · exact Or.inr (Or.inl h)
      · simp at h⟩
  induction ps with
  | nil => simp
  | cons p t ih =>
    cases t with
    | nil => intro q hq; simp at hq; subst hq; exact ⟨h.1, h.2.1⟩
    | cons r t =>
      intro q hq
      rcases List.mem_cons.1 hq with hq | hq
      · subst hq; exact ⟨h.1, weak _ h.2.1⟩
      · exact ih h.2.2 q hq

theorem Canon.last {ps : Props} (h : Canon ps) : ∀ p, ps.getLast? = some p → LastOk p := by
  induction ps with
  | nil => simp
  | cons p t ih =>
    cases t with
    | nil => intro q hq; simp at hq; subst hq; exact h.2.2
    | cons r t => intro q hq; exact ih h.2.2 q (by simpa [List.getLast?_cons_cons] using hq)

theorem Canon.pre {ps : Props} (h : Canon ps) : Pre ps where
  entry := fun p hp => ⟨(h.all p hp).1, (h.all p hp).2.pre⟩
  last := h.last

theorem Canon.strip {ps : Props} (h : Canon ps) : ps.map strip1 = ps := by
  have : ∀ p ∈ ps, strip1 p = p := by
    intro p hp
    have := (h.all p hp).2.strip
    cases p
    simp only at this
    simp [strip1, this]
  calc ps.map strip1 = ps.map id := List.map_congr_left this
    _ = ps := by simp

theorem dropSp_append_slash {t y : Bytes} (ht : t ≠ []) (hy : SlashNext y) : dropSp (t ++ y) = dropSp t := by
  cases hd : dropSp t with
  | true => exact dropSp_append y hd
  | false =>
    cases he : dropSp (t ++ y) with
    | false => rfl
    | true =>
      exfalso
      rw [dropSp_iff] at he
      cases t with
      | nil => exact ht rfl
      | cons c w =>
        have fal : ∀ z, c :: w = z → dropSp z = true → False := by
          intro z e hz; rw [← e, hd] at hz; simp at hz
        obtain ⟨u, h | h | h | h | h⟩ := he
        · simp at h; exact fal (47 :: w) (by rw [h.1]) rfl
        · simp at h; exact fal (91 :: w) (by rw [h.1]) rfl
        · simp at h; exact fal (93 :: w) (by rw [h.1]) rfl
        · simp at h
          obtain ⟨e1, e2⟩ := h
          cases w with
          | nil =>
            rcases hy with hy | ⟨u', hy⟩
            · simp [hy] at e2
            · simp [hy] at e2
          | cons d w => simp at e2; exact fal (60 :: 60 :: w) (by rw [e1, e2.1]) rfl
        · simp at h
          obtain ⟨e1, e2⟩ := h
          cases w with
          | nil =>
            rcases hy with hy | ⟨u', hy⟩
            · simp [hy] at e2
            · simp [hy] at e2
          | cons d w => simp at e2; exact fal (62 :: 62 :: w) (by rw [e1, e2.1]) rfl

theorem stripQ_append_slash {v y : Bytes} (hv : v.getLast? ≠ some 32) (hy : SlashNext y) :
    stripQ dropSp (v ++ y) = stripQ dropSp v ++ stripQ dropSp y := by
  induction v with
  | nil => simp [stripQ]
  | cons c t ih =>
    have ht : t.getLast? ≠ some 32 := by
      cases t with
      | nil => simp
      | cons d u => simpa [List.getLast?_cons_cons] using hv
    rw [List.cons_append, stripQ, stripQ, ih ht]
    by_cases hc : c = 32
    · subst hc
      have hne : t ≠ [] := by intro e; subst e; simp at hv
      rw [dropSp_append_slash hne hy]
      split <;> simp
    · simp [hc]

theorem stripQ_eq_nil {v : Bytes} (h : v.getLast? ≠ some 32) : stripQ dropSp v = [] ↔ v = [] := by
  constructor
  · intro e
    cases hl : v.getLast? with
    | none => rwa [List.getLast?_eq_none_iff] at hl
    | some c =>
      have hc : c ≠ 32 := by intro e2; subst e2; exact h hl
      have := stripQ_getLast? (q := dropSp) hl hc
      rw [e] at this; simp at this
  · intro e; subst e; rfl

/-- the normalisation of one written entry -/
theorem stripQ_flat1 {p : PropD} {y : Bytes} (hk : KeyOk p.key) (hv : PreOk p.rawVal) (hy : SlashNext y)
    (hlast : p.rawVal = [] → y ≠ []) :
    stripQ dropSp (flat1 p ++ y) = compact1 (strip1 p) ++ stripQ dropSp y := by
  have e1 : flat1 p ++ y = (47 :: p.key) ++ (32 :: (p.rawVal ++ y)) := by simp [flat1]
  rw [e1, stripQ_append_clean (x := 47 :: p.key) (by
    intro t ht
    rw [List.suffix_cons_iff] at ht
    rcases ht with ht | ht
    · simp at ht
    · exact absurd ht (no_space_suffix hk t))]
  by_cases hv0 : p.rawVal = []
  · rw [hv0]
    have hyn := hlast hv0
    rcases hy with hy | ⟨u, hy⟩
    · exact absurd hy hyn
    · have : dropSp y = true := by rw [hy]; rfl
      simp [stripQ, this, compact1, strip1, hv0, noSep]
  · rw [stripQ, dropSp_val hv0 hv.head hy, stripQ_append_slash hv.last hy]
    have := hv.sep
    cases hn : noSep p.rawVal <;> rw [hn] at this <;> simp [compact1, strip1, this]

/-- the text `setProperties` writes, without a trailing space -/
def flatT : Props → Bytes
  | [] => []
  | [p] => 47 :: (p.key ++ (if p.rawVal = [] then [] else 32 :: p.rawVal))
  | p :: q :: t => flat1 p ++ flatT (q :: t)

theorem flatT_head (p : PropD) (t : Props) : ∃ u, flatT (p :: t) = 47 :: u := by
  cases t with
  | nil => exact ⟨_, rfl⟩
  | cons q t => exact ⟨_, rfl⟩

theorem stripQ_flatT {ps : Props} (h : Pre ps) : stripQ dropSp (flatT ps) = compact (ps.map strip1) := by
  induction ps with
  | nil => rfl
  | cons p t ih =>
    have ⟨h1, h2⟩ := h.entry p (by simp)
    cases t with
    | nil =>
      by_cases hv : p.rawVal = []
      · have : stripQ dropSp (flatT [p]) = flatT [p] := by
          have := stripQ_append_clean (q := dropSp) (x := flatT [p]) (y := []) (by
            intro t ht
            simp only [flatT, hv, if_true, List.append_nil] at ht
            rw [List.suffix_cons_iff] at ht
            rcases ht with ht | ht
            · simp at ht
            · exact absurd ht (no_space_suffix h1 t))
          simpa [stripQ] using this
        rw [this]
        simp [flatT, hv, compact, compact1, noSep, strip1, stripQ]
      · have := stripQ_flat1 (y := []) h1 h2 (Or.inl rfl) (fun e => absurd e hv)
        simp only [List.append_nil, stripQ] at this
        have e : flatT [p] = flat1 p := by simp [flatT, hv, flat1]
        rw [e, this]
        simp [compact]
    | cons q t =>
      obtain ⟨u, hu⟩ := flatT_head q t
      have : stripQ dropSp (flat1 p ++ flatT (q :: t)) = compact1 (strip1 p) ++ stripQ dropSp (flatT (q :: t)) :=
        stripQ_flat1 h1 h2 (Or.inr ⟨u, hu⟩) (fun _ => by rw [hu]; simp)
      rw [flatT, this, ih h.tail]
      rfl

end Verif
