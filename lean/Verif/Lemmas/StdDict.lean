import Verif.Spec.StdTree
import Verif.Lemmas.RefText
import Verif.Theorems.Agree
/-
Dictionaries that are simply written: what is read, and that rewritten dictionaries are simply written again.
-/
namespace Verif
open Spec

/-! ### words -/

theorem infix_split' {α : Type} {w a b : List α} {d : α} (hd : d ∉ w) (h : w <:+: a ++ d :: b) : w <:+: a ∨ w <:+: b := by
  obtain ⟨x, y, hxy⟩ := h
  rw [List.append_assoc] at hxy
  rcases List.append_eq_append_iff.1 hxy with ⟨a', h1, h2⟩ | ⟨c', h1, h2⟩
  · rcases List.append_eq_append_iff.1 h2 with ⟨a'', h3, h4⟩ | ⟨c'', h3, h4⟩
    · exact Or.inl ⟨x, a'', by rw [h1, h3]; simp⟩
    · cases c'' with
      | nil => exact Or.inl ⟨x, [], by rw [h1, h3]; simp⟩
      | cons e c'' =>
        simp at h4
        exact absurd (by rw [h3, ← h4.1]; simp) hd
  · cases c' with
    | nil =>
      simp at h2
      cases w with
      | nil => exact Or.inl (List.nil_infix)
      | cons e w => simp at h2; exact absurd (by rw [h2.1]; simp) hd
    | cons e c' =>
      simp at h2
      obtain ⟨rfl, h2⟩ := h2
      exact Or.inr ⟨c', y, by rw [h2]; simp⟩

/-- words are pieces of the text -/
theorem word_infix : ∀ (s cur : Bytes), ∀ w ∈ wordsFrom cur s, w <:+: cur ++ s := by
  intro s
  induction s with
  | nil =>
    intro cur w hw
    simp only [wordsFrom] at hw
    split at hw
    · simp at hw
    · simp at hw; subst hw; simp
  | cons c s ih =>
    intro cur w hw
    by_cases hc : regular c = true
    · rw [wordsFrom_reg hc] at hw
      have := ih _ w hw
      simpa using this
    · rw [wordsFrom_sep (by simpa using hc)] at hw
      rcases List.mem_append.1 hw with hw | hw
      · unfold flushWord at hw
        split at hw
        · simp at hw
        · simp at hw; subst hw; exact ⟨[], c :: s, by simp⟩
      · have back : w <:+: c :: s → w <:+: cur ++ c :: s := fun h => h.trans ⟨cur, [], by simp⟩
        by_cases h47 : c = 47
        · subst h47
          rw [words_slash] at hw
          exact back (ih _ w hw)
        · by_cases hd : delim c = true
          · rw [words_delim hd h47] at hw
            rcases List.mem_cons.1 hw with rfl | hw
            · exact back ⟨[], s, rfl⟩
            · exact back ((ih _ w hw).trans ⟨[c], [], by simp⟩)
          · have hwh : white c = true := by simp [regular, hd] at hc; exact hc
            rw [words_white hwh] at hw
            exact back ((ih _ w hw).trans ⟨[c], [], by simp⟩)

/-- a piece without white space and delimiters is in one word -/
theorem infix_word {u : Bytes} (hu : ∀ c ∈ u, regular c = true) (hne : u ≠ []) : ∀ (s cur : Bytes), u <:+: cur ++ s → (∀ c ∈ cur.tail, regular c = true) →
    ∃ w ∈ wordsFrom cur s, u <:+: w := by
  intro s
  induction s with
  | nil =>
    intro cur h _
    rw [List.append_nil] at h
    refine ⟨cur, ?_, h⟩
    have : cur ≠ [] := by rintro rfl; exact hne (List.eq_nil_of_infix_nil h)
    simp [wordsFrom, this]
  | cons c s ih =>
    intro cur h ht
    by_cases hc : regular c = true
    · rw [wordsFrom_reg hc]
      refine ih _ (by simpa using h) ?_
      intro d hd
      cases cur with
      | nil => simp at hd
      | cons e cur =>
        simp at hd
        rcases hd with hd | rfl
        · exact ht d (by simpa using hd)
        · exact hc
    · have hc : regular c = false := by simpa using hc
      rw [wordsFrom_sep hc]
      rcases infix_split' (d := c) (by intro h; have := hu c h; rw [hc] at this; cases this) h with hx | hx
      · refine ⟨cur, ?_, hx⟩
        have : cur ≠ [] := by rintro rfl; exact hne (List.eq_nil_of_infix_nil hx)
        simp [flushWord, this]
      · have fwd : (∃ w ∈ words (c :: s), u <:+: w) → ∃ w ∈ flushWord cur ++ words (c :: s), u <:+: w := by
          rintro ⟨w, h1, h2⟩
          exact ⟨w, by simp [h1], h2⟩
        apply fwd
        by_cases h47 : c = 47
        · subst h47
          rw [words_slash]
          exact ih [47] (hx.trans ⟨[47], [], by simp⟩) (by simp)
        · by_cases hd : delim c = true
          · rw [words_delim hd h47]
            obtain ⟨w, h1, h2⟩ := ih [] (by simpa using hx) (by simp)
            exact ⟨w, by simp [words, h1], h2⟩
          · have hwh : white c = true := by simp [regular, hd] at hc; exact hc
            rw [words_white hwh]
            exact ih [] (by simpa using hx) (by simp)

theorem infix_of_words {u s t : Bytes} (hu : ∀ c ∈ u, regular c = true) (hne : u ≠ []) (h : ∀ w ∈ words s, w ∈ words t) (hs : u <:+: s) : u <:+: t := by
  obtain ⟨w, h1, h2⟩ := infix_word hu hne s [] (by simpa using hs) (by simp)
  exact h2.trans (by simpa using word_infix t [] w (h w h1))

theorem stream_regular : ∀ c ∈ streamKw, regular c = true := by decide

/-! ### keys -/

theorem run_keys : ∀ (s : Bytes), (∀ c ∈ s, c < 127) → (∀ p ∈ run .top s, p.key <:+: s) ∧ (∀ k, ∀ p ∈ run (.key k) s, (∃ v' b, s = v' ++ b ∧ p.key = k ++ v') ∨ p.key <:+: s) ∧
    ∀ k v c1 c2, ∀ p ∈ run (.val k v c1 c2) s, p.key = k ∨ p.key <:+: s := by
  intro s
  induction s with
  | nil =>
    intro _
    refine ⟨by simp [run], ?_, ?_⟩
    · intro k p hp
      simp [run] at hp
      subst hp
      exact Or.inl ⟨[], [], rfl, by simp⟩
    · intro k v c1 c2 p hp
      simp [run] at hp
      subst hp
      exact Or.inl rfl
  | cons c t ih =>
    intro ha
    obtain ⟨i1, i2, i3⟩ := ih (fun d hd => ha d (by simp [hd]))
    have hc : c < 128 := by have := ha c (by simp); exact UInt8.lt_trans this (by decide)
    have up : ∀ {u : Bytes}, u <:+: t → u <:+: c :: t := fun h => h.trans ⟨[c], [], by simp⟩
    refine ⟨?_, ?_, ?_⟩
    · intro p hp
      simp only [run] at hp
      split at hp
      · rcases i2 _ p hp with ⟨v', b, rfl, h⟩ | h
        · rw [h]; exact ⟨[c], b, by simp⟩
        · exact up h
      · exact up (i1 p hp)
    · intro k p hp
      simp only [run] at hp
      split at hp
      · rcases i3 _ _ _ _ p hp with h | h
        · exact Or.inl ⟨[], c :: t, rfl, by simp [h]⟩
        · exact Or.inr (up h)
      · split at hp
        · rcases i3 _ _ _ _ p hp with h | h
          · exact Or.inl ⟨[], c :: t, rfl, by simp [h]⟩
          · exact Or.inr (up h)
        · split at hp
          · rcases List.mem_cons.1 hp with rfl | hp
            · exact Or.inl ⟨[], c :: t, rfl, by simp⟩
            · rcases i2 _ p hp with ⟨v', b, rfl, h⟩ | h
              · rw [h]; exact Or.inr ⟨[c], b, by simp⟩
              · exact Or.inr (up h)
          · rw [byteAsRune_ascii hc] at hp
            rcases i2 _ p hp with ⟨v', b, rfl, h⟩ | h
            · exact Or.inl ⟨c :: v', b, rfl, by simp [h]⟩
            · exact Or.inr (up h)
    · intro k v c1 c2 p hp
      simp only [run] at hp
      split at hp
      · rcases List.mem_cons.1 hp with rfl | hp
        · exact Or.inl rfl
        · exact Or.inr (up (i1 p hp))
      · split at hp
        · rcases List.mem_cons.1 hp with rfl | hp
          · exact Or.inl rfl
          · rcases i2 _ p hp with ⟨v', b, rfl, h⟩ | h
            · rw [h]; exact Or.inr ⟨[c], b, by simp⟩
            · exact Or.inr (up h)
        · rcases i3 _ _ _ _ p hp with h | h
          · exact Or.inl h
          · exact Or.inr (up h)

/-- characters of a simple text -/
theorem simple_chars : ∀ (s : Bytes) (m : Mode), simpleFrom m s = true → ∀ c ∈ s, blankChar c = true ∨ (32 ≤ c ∧ c ≤ 126) := by
  intro s
  induction s with
  | nil => intro m _; simp
  | cons d s ih =>
    intro m h c hc
    rw [simple_cons] at h
    rcases List.mem_cons.1 hc with rfl | hc
    · have hx : ∀ c : UInt8, Spec.hexDigit c = true → 32 ≤ c ∧ c ≤ 126 := by
        intro c h
        simp only [Spec.hexDigit, Bool.or_eq_true, Bool.and_eq_true, decide_eq_true_eq, UInt8.le_iff_toNat_le] at h ⊢
        simp at h ⊢
        omega
      have hs : ∀ c : UInt8, simpleChar c = true → blankChar c = true ∨ (32 ≤ c ∧ c ≤ 126) := by
        intro c h
        simp only [simpleChar, Bool.or_eq_true, Bool.and_eq_true, decide_eq_true_eq] at h
        rcases h with h | h
        · exact Or.inl h
        · right
          obtain ⟨⟨⟨h1, h2⟩, _⟩, _⟩ := h
          exact ⟨UInt8.le_trans (by decide) h1, h2⟩
      have h1 := h.1
      cases m <;> simp only [simpleByte, Bool.and_eq_true, Bool.or_eq_true, decide_eq_true_eq, Bool.false_eq_true] at h1
      · exact hs c h1
      · exact hs c h1.1
      · exact Or.inr ⟨h1.1.1.1.1.1.1.1, h1.1.1.1.1.1.1.2⟩
      · rcases h1 with (h | h) | h
        · exact Or.inr (hx c h)
        · exact Or.inl h
        · subst h; exact Or.inr (by decide)
      · rcases h1 with ((h | h) | h) | h
        · subst h; exact Or.inr (by decide)
        · exact Or.inr (hx c h)
        · exact Or.inl h
        · subst h; exact Or.inr (by decide)
      · subst h1; exact Or.inr (by decide)
    · exact ih _ h.2 c hc

/-! ### reading -/

/-- an entry that can be written again -/
structure GoodEntry (p : PropD) : Prop where
  refs : IntRefs p.rawVal
  valStream : ¬ streamKw <:+: p.rawVal
  keyStream : ¬ streamKw <:+: p.key
  key : ∀ c ∈ p.key, simpleChar c = true

theorem regular_simple {c : UInt8} (hr : regular c = true) (h : blankChar c = true ∨ (32 ≤ c ∧ c ≤ 126)) : simpleChar c = true := by
  simp only [regular, white, delim, Bool.and_eq_true, Bool.not_eq_true', Bool.or_eq_false_iff, decide_eq_false_iff_not] at hr
  rcases h with h | ⟨h1, h2⟩
  · simp [simpleChar, h]
  · have h32 : c ≠ 32 := hr.1.2
    have h3 : 33 ≤ c := by
      rw [UInt8.le_iff_toNat_le] at h1 ⊢
      have : c.toNat ≠ 32 := fun h => h32 (by rw [← UInt8.toNat_inj]; exact h)
      have e : (32 : UInt8).toNat = 32 := rfl
      have e' : (33 : UInt8).toNat = 33 := rfl
      omega
    simp [simpleChar, h3, h2, hr]

theorem forall₂_left {α β : Type} {R : α → β → Prop} {l : List α} {m : List β} (h : List.Forall₂ R l m) : ∀ p ∈ l, ∃ v, R p v := by
  induction h with
  | nil => simp
  | cons h _ ih =>
    intro p hp
    rcases List.mem_cons.1 hp with rfl | hp
    · exact ⟨_, h⟩
    · exact ih p hp

theorem normal_SS (x : Bytes) : SS (normalizeProps x) := by
  rw [normalizeProps_eq]
  exact stripQ_SS dropSp (by intro u; rfl) rfl (collapseWs_SS _ _)

theorem StdText.props {x : Bytes} {d : List (Bytes × Val)} (h : StdText x d) :
    ∃ vss, List.Forall₂ EntryValues (parseProps (normalizeProps x)) vss ∧
      pairUp (List.zipWith (fun p l => Val.name p.key :: l) (parseProps (normalizeProps x)) vss).flatten = some d ∧
      ∀ p ∈ parseProps (normalizeProps x), SS p.rawVal ∧ GoodEntry p := by
  obtain ⟨vss, f1, f2⟩ := read_values h.simple (dictText_of_reads h.simple h.reads)
  refine ⟨vss, f1, f2, ?_⟩
  intro p hp
  have hpc := parse_pieces h.simple p hp
  have hw := hpc.words
  rw [words_normalize h.simple] at hw
  have hi := hpc.infix
  have hn := (normalize_lex h.simple).2
  have hk : p.key <:+: normalizeProps x := by
    rw [parseProps_eq_run] at hp
    exact (run_keys _ (fun c hc => (simple_ascii _ _ hn c hc).1)).1 p hp
  have hkr : ∀ c ∈ p.key, regular c = true := by
    obtain ⟨vs, he⟩ := forall₂_left f1 p hp
    exact he.1
  have hst : ¬ streamKw <:+: normalizeProps x := by
    intro hs
    exact h.noStream (infix_of_words stream_regular (by decide) (by rw [words_normalize h.simple]; exact fun w hw => hw) hs)
  have ss := normal_SS x
  exact ⟨⟨fun c hc => ss.1 c (hi.subset hc), fun h => ss.2 (h.trans hi)⟩, ⟨fun w g n hwg => h.refs w g n (hwg.trans hw),
    fun h => hst (h.trans hi), fun h => hst (h.trans hk), fun c hc => regular_simple (hkr c hc) (simple_chars _ _ hn c (hk.subset hc))⟩⟩

/-! ### writing -/

theorem simple_append : ∀ (a : Bytes) (m : Mode) (b : Bytes), simpleFrom m a = true → b.head? ≠ some 32 → simpleFrom (lexer m a).2 b = true → simpleFrom m (a ++ b) = true := by
  intro a
  induction a with
  | nil => intro m b _ _ h; exact h
  | cons c a ih =>
    intro m b h hb hr
    rw [simple_cons] at h
    rw [List.cons_append, simple_cons]
    refine ⟨simple_rest' h.1 ?_, ih _ b h.2 hb (by rw [lexer_cons] at hr; exact hr)⟩
    intro _ ha
    cases a with
    | nil => exact hb
    | cons d a => exact ha

/-- a key and the blank after it -/
theorem simple_key : ∀ (k cur t : Bytes), cur ≠ [] → (∀ c ∈ k, simpleChar c = true ∧ regular c = true) → simpleFrom .ground t = true → simpleFrom (.word cur) (k ++ 32 :: t) = true := by
  intro k
  induction k with
  | nil =>
    intro cur t _ _ ht
    rw [List.nil_append, simple_cons]
    exact ⟨rfl, ht⟩
  | cons c k ih =>
    intro cur t hne h ht
    rw [List.cons_append, simple_cons]
    obtain ⟨h1, h2⟩ := h c (by simp)
    refine ⟨?_, ?_⟩
    · have h40 : c ≠ 40 := by rintro rfl; simp [regular, delim] at h2
      simp [simpleByte, h1, h40]
    · have e : (lexStep (.word cur) c).2 = .word (cur ++ [c]) := by simp [lexStep, h2]
      rw [e]
      exact ih _ t (by simp) (fun d hd => h d (by simp [hd])) ht

theorem simple_entries : ∀ (ps : Props) (vss : List (List Val)), List.Forall₂ EntryValues ps vss → (∀ p ∈ ps, GoodEntry p) → SimpleText (ps.flatMap flat1) := by
  intro ps vss h
  induction h with
  | nil => intro _; rfl
  | @cons p vs ps vss hp _ ih =>
    intro hg
    have hrest := ih (fun q hq => hg q (by simp [hq]))
    rw [List.flatMap_cons, show flat1 p ++ ps.flatMap flat1 = 47 :: (p.key ++ 32 :: (p.rawVal ++ ps.flatMap flat1)) by simp [flat1]]
    unfold SimpleText
    rw [simple_cons]
    refine ⟨rfl, ?_⟩
    have e : (lexStep .ground 47).2 = .word [47] := rfl
    rw [e]
    refine simple_key p.key [47] _ (by simp) (fun c hc => ⟨(hg p (by simp)).key c hc, hp.1 c hc⟩) ?_
    refine simple_append _ _ _ hp.2.2.2 ?_ ?_
    · cases ps with
      | nil => simp
      | cons q ps => simp [flat1]
    · cases ps with
      | nil =>
        rcases simple_mode _ _ hp.2.2.2 with h | ⟨cur, h⟩ <;> rw [h] <;> rfl
      | cons q ps =>
        rw [List.flatMap_cons, show flat1 q ++ ps.flatMap flat1 = 47 :: (q.key ++ b!" " ++ q.rawVal ++ ps.flatMap flat1) by simp [flat1]] at hrest ⊢
        unfold SimpleText at hrest
        rw [simple_cons] at hrest
        rcases simple_mode _ _ hp.2.2.2 with h | ⟨cur, h⟩
        · rw [h, simple_cons]; exact hrest
        · rw [h, simple_cons]; exact ⟨rfl, hrest.2⟩

theorem words_entries : ∀ (ps : Props) (vss : List (List Val)), List.Forall₂ EntryValues ps vss → words (ps.flatMap flat1) = ps.flatMap (fun p => (47 :: p.key) :: words p.rawVal) := by
  intro ps vss h
  induction h with
  | nil => rfl
  | @cons p vs ps vss hp _ ih =>
    have e1 : ∀ (k cur t : Bytes), cur ≠ [] → (∀ c ∈ k, regular c = true) → wordsFrom cur (k ++ 32 :: t) = (cur ++ k) :: words t := by
      intro k
      induction k with
      | nil =>
        intro cur t hc _
        rw [List.nil_append, wordsFrom_sep rfl, words_white rfl]
        simp [flushWord, hc]
      | cons c k ih =>
        intro cur t hc h
        rw [List.cons_append, wordsFrom_reg (h c (by simp)), ih _ _ (by simp) (fun d hd => h d (by simp [hd]))]
        simp
    have hsep : Sep p.rawVal (ps.flatMap flat1) := by
      cases ps with
      | nil => exact Or.inr (Or.inl rfl)
      | cons q ps => exact Or.inr (Or.inr (Or.inr ⟨47, q.key ++ b!" " ++ q.rawVal ++ ps.flatMap flat1, by simp [flat1], rfl⟩))
    rw [List.flatMap_cons, List.flatMap_cons, show flat1 p ++ ps.flatMap flat1 = 47 :: (p.key ++ 32 :: (p.rawVal ++ ps.flatMap flat1)) by simp [flat1],
      words_slash, e1 _ _ _ (by simp) hp.1, words_append hsep, ih]
    rfl

theorem slash_no_num (k : Bytes) (q : ℚ) : wordTok (47 :: k) ≠ .num q := by
  intro h
  simp [wordTok] at h

theorem triple_entries {T : List Bytes} (hT : ∀ w ∈ T, ∀ k : Bytes, w ≠ 47 :: k) (hne : T ≠ []) : ∀ (ps : Props), T <:+: ps.flatMap (fun p => (47 :: p.key) :: words p.rawVal) →
    ∃ p ∈ ps, T <:+: words p.rawVal := by
  intro ps
  induction ps with
  | nil => intro h; exact absurd (List.eq_nil_of_infix_nil h) hne
  | cons p ps ih =>
    intro h
    rw [List.flatMap_cons] at h
    have h0 : T <:+: words p.rawVal ++ ps.flatMap (fun p => (47 :: p.key) :: words p.rawVal) := by
      rcases infix_split' (a := []) (d := 47 :: p.key) (fun hm => hT _ hm _ rfl) h with h | h
      · exact absurd (List.eq_nil_of_infix_nil h) hne
      · exact h
    cases ps with
    | nil => exact ⟨p, by simp, by simpa using h0⟩
    | cons q ps =>
      rw [List.flatMap_cons] at h0
      rcases infix_split' (d := 47 :: q.key) (fun hm => hT _ hm _ rfl) (by simpa using h0) with h1 | h1
      · exact ⟨p, by simp, h1⟩
      · obtain ⟨r, hr, h2⟩ := ih (h1.trans ⟨[47 :: q.key], [], by simp⟩)
        exact ⟨r, by simp [hr], h2⟩

/-- What is written for entries is simply written. -/
theorem std_write {ps : Props} {vss : List (List Val)} {d : List (Bytes × Val)} (h1 : List.Forall₂ EntryValues ps vss)
    (h2 : pairUp (List.zipWith (fun p l => Val.name p.key :: l) ps vss).flatten = some d) (hg : ∀ p ∈ ps, GoodEntry p) :
    setProperties ps = b!"<<" ++ (10 :: ps.flatMap flat1) ++ b!">>" ++ b!"\n" ∧ StdText (10 :: ps.flatMap flat1) d := by
  refine ⟨by rw [setProperties_eq]; simp, ?_⟩
  have hw : words (10 :: ps.flatMap flat1) = ps.flatMap (fun p => (47 :: p.key) :: words p.rawVal) := by
    rw [words_white rfl, words_entries ps vss h1]
  refine ⟨?_, ?_, ?_, ?_⟩
  · unfold SimpleText
    rw [simple_cons]
    exact ⟨rfl, simple_entries ps vss h1 hg⟩
  · intro hs
    obtain ⟨w, k1, k2⟩ := infix_word (u := streamKw) stream_regular (by decide) (10 :: ps.flatMap flat1) [] (by rw [List.nil_append]; exact hs) (by simp)
    rw [show wordsFrom [] (10 :: ps.flatMap flat1) = words (10 :: ps.flatMap flat1) from rfl, hw] at k1
    obtain ⟨p, hp, k1⟩ := List.mem_flatMap.1 k1
    rcases List.mem_cons.1 k1 with rfl | k1
    · exact (hg p hp).keyStream (infix_cons_of_not_mem (by decide) k2)
    · exact (hg p hp).valStream (k2.trans (by simpa using word_infix p.rawVal [] w k1))
  · intro w g n hi hn hz
    rw [hw] at hi
    obtain ⟨p, hp, hi⟩ := triple_entries (by
      intro w' hw' k e
      subst e
      simp at hw'
      rcases hw' with rfl | rfl
      · exact slash_no_num _ _ hn
      · exact slash_no_num _ _ hz) (by simp) ps hi
    exact (hg p hp).refs w g n hi hn hz
  · obtain ⟨ts, k1, k2⟩ := entries_lexed ps vss [62] h1
    refine ⟨.dictOpen :: (ts ++ [.dictClose]), ?_, ?_⟩
    · rw [show b!"<<" ++ (10 :: ps.flatMap flat1) ++ b!">>" = b!"<<\n" ++ (ps.flatMap flat1 ++ [62, 62]) by simp, lexer_append]
      have e : lexer .ground b!"<<\n" = ([.dictOpen], .ground) := rfl
      have e2 : lexer .ground [62, 62] = ([.dictClose], .ground) := rfl
      rw [e, k1, e2]
      rfl
    · have h3 := fold_extend (R := [(false, [])]) ts (by simp) k2
      unfold valueOfToks
      rw [List.foldl_cons, List.foldl_append]
      simp only [readStep]
      rw [show [(true, []), (false, [])] = ([(true, [])] ++ [(false, [])] : RStack) from rfl, h3]
      simp only [List.cons_append, List.nil_append, List.foldl_cons, List.foldl_nil, readStep, List.reverse_reverse, h2, Option.map_some]

end Verif
