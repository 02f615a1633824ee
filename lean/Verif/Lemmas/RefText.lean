import Verif.Lemmas.Toks
import Verif.Lemmas.Words
/-
Texts that say references, and what the program reads in them.
-/
namespace Verif
open Spec

/-- a number or another word -/
def Wordy (t : Lexeme) : Prop := (∃ q, t = .num q) ∨ ∃ w, t = .op w

/-- a token that is neither a word nor a closing bracket -/
def OddTok (t : Lexeme) : Prop := ¬ Wordy t ∧ t ≠ .close

theorem odd_lit (x : Bytes) : OddTok (.lit x) := ⟨(by rintro (⟨_, h⟩ | ⟨_, h⟩) <;> cases h), (by simp)⟩
theorem odd_hex (x : Bytes) : OddTok (.hex x) := ⟨(by rintro (⟨_, h⟩ | ⟨_, h⟩) <;> cases h), (by simp)⟩
theorem odd_name (x : Bytes) : OddTok (.name x) := ⟨(by rintro (⟨_, h⟩ | ⟨_, h⟩) <;> cases h), (by simp)⟩
theorem odd_dictOpen : OddTok .dictOpen := ⟨(by rintro (⟨_, h⟩ | ⟨_, h⟩) <;> cases h), (by simp)⟩
theorem odd_dictClose : OddTok .dictClose := ⟨(by rintro (⟨_, h⟩ | ⟨_, h⟩) <;> cases h), (by simp)⟩
theorem odd_open : OddTok .open := ⟨(by rintro (⟨_, h⟩ | ⟨_, h⟩) <;> cases h), (by simp)⟩

/-- the next token is odd -/
def OddNext (us : List Lexeme) : Prop := ∃ t us', us = t :: us' ∧ OddTok t

theorem oddNext_lit : ∀ (s : Bytes) (d : Nat) (e : Bool) (cur : Bytes) (us : List Lexeme), lexer (.lit d e cur) (s ++ [32]) = (us, .ground) → OddNext us := by
  intro s
  induction s with
  | nil => intro d e cur us h; cases e <;> simp [lexer, lexStep] at h
  | cons c s ih =>
    intro d e cur us h
    rw [List.cons_append, lexer_cons] at h
    cases e with
    | true => simp only [lexStep, List.nil_append] at h; exact ih _ _ _ _ h
    | false =>
      by_cases h1 : c = 92
      · simp only [lexStep, h1, if_true, List.nil_append] at h; exact ih _ _ _ _ h
      by_cases h2 : c = 40
      · subst h2
        have e : lexStep (.lit d false cur) 40 = ([], .lit (d + 1) false (cur ++ [40])) := by simp [lexStep]
        rw [e, List.nil_append] at h; exact ih _ _ _ _ h
      by_cases h3 : c = 41
      · subst h3
        cases d with
        | zero =>
          have e : lexStep (.lit 0 false cur) 41 = ([.lit cur], .ground) := by simp [lexStep]
          rw [e] at h
          simp only [Prod.mk.injEq] at h
          exact ⟨.lit cur, _, h.1.symm, odd_lit _⟩
        | succ d =>
          have e : lexStep (.lit (d + 1) false cur) 41 = ([], .lit d false (cur ++ [41])) := by simp [lexStep]
          rw [e, List.nil_append] at h; exact ih _ _ _ _ h
      · have e : lexStep (.lit d false cur) c = ([], .lit d false (cur ++ [c])) := by simp [lexStep, h1, h2, h3]
        rw [e, List.nil_append] at h; exact ih _ _ _ _ h

theorem oddNext_hex : ∀ (s : Bytes) (cur : Bytes) (us : List Lexeme), lexer (.hex cur) (s ++ [32]) = (us, .ground) → OddNext us := by
  intro s
  induction s with
  | nil => intro cur us h; simp [lexer, lexStep, white] at h
  | cons c s ih =>
    intro cur us h
    rw [List.cons_append, lexer_cons] at h
    simp only [lexStep] at h
    split at h
    · simp only [Prod.mk.injEq] at h
      exact ⟨.hex cur, _, h.1.symm, odd_hex _⟩
    · split at h
      · exact ih _ _ h
      · exact ih _ _ h

theorem oddNext_lt (s : Bytes) (us : List Lexeme) (h : lexer .lt (s ++ [32]) = (us, .ground)) : OddNext us := by
  cases s with
  | nil => simp [lexer, lexStep, white] at h
  | cons c s =>
    rw [List.cons_append, lexer_cons] at h
    simp only [lexStep] at h
    split at h
    · simp only [Prod.mk.injEq] at h
      exact ⟨_, _, h.1.symm, odd_dictOpen⟩
    · split at h
      · simp only [Prod.mk.injEq] at h
        exact ⟨_, _, h.1.symm, odd_hex _⟩
      · split at h
        · exact oddNext_hex _ _ _ h
        · exact oddNext_hex _ _ _ h

theorem oddNext_gt (s : Bytes) (us : List Lexeme) (hs : simpleFrom .gt s = true) (h : lexer .gt (s ++ [32]) = (us, .ground)) : OddNext us := by
  cases s with
  | nil => simp [simpleFrom] at hs
  | cons c s =>
    obtain ⟨h1, _⟩ := simple_cons.1 hs
    simp only [simpleByte, decide_eq_true_eq] at h1
    subst h1
    rw [List.cons_append, lexer_cons, show lexStep .gt 62 = ([.dictClose], .ground) from rfl] at h
    simp only [Prod.mk.injEq] at h
    exact ⟨_, _, h.1.symm, odd_dictClose⟩

theorem word_first : ∀ (s cur : Bytes), ∃ k us, (lexer (.word cur) (s ++ [32])).1 = wordTok (cur ++ k) :: us := by
  intro s
  induction s with
  | nil => intro cur; exact ⟨[], [], by simp [lexer, lexStep, regular, white, lexStart]⟩
  | cons c s ih =>
    intro cur
    rw [List.cons_append, lexer_cons]
    by_cases hr : regular c = true
    · obtain ⟨k, us, h⟩ := ih (cur ++ [c])
      refine ⟨c :: k, us, ?_⟩
      simp only [lexStep, hr, if_true, List.nil_append, h]
      simp
    · refine ⟨[], (lexStart c).1 ++ (lexer (lexStart c).2 (s ++ [32])).1, ?_⟩
      simp only [lexStep, hr, Bool.false_eq_true, if_false, List.append_nil]
      rw [List.cons_append]

theorem oddNext_name (s k : Bytes) (us : List Lexeme) (h : lexer (.word (47 :: k)) (s ++ [32]) = (us, .ground)) : OddNext us := by
  obtain ⟨k', us', e⟩ := word_first s (47 :: k)
  rw [h] at e
  simp only at e
  exact ⟨_, us', e, odd_name _⟩

/-- the kinds of characters in simple texts, outside of strings -/
theorem char_cases {c : UInt8} (h : simpleChar c = true) (hb : c ≠ 9 ∧ c ≠ 10 ∧ c ≠ 13) :
    c = 32 ∨ (regular c = true ∧ lexStart c = ([], .word [c])) ∨ c = 40 ∨ c = 60 ∨ c = 62 ∨ c = 91 ∨ c = 93 ∨ c = 47 := by
  have hw : white c = true → c = 32 := by
    intro hw
    simp only [white, Bool.or_eq_true, decide_eq_true_eq] at hw
    rcases hw with ((((rfl | rfl) | rfl) | rfl) | rfl) | rfl
    · exact absurd h (by decide)
    · exact absurd rfl hb.1
    · exact absurd rfl hb.2.1
    · exact absurd h (by decide)
    · exact absurd rfl hb.2.2
    · rfl
  by_cases h32 : c = 32
  · exact Or.inl h32
  have hnw : white c = false := by
    by_contra hc
    exact h32 (hw (by simpa using hc))
  by_cases h1 : c = 40
  · tauto
  by_cases h2 : c = 60
  · tauto
  by_cases h3 : c = 62
  · tauto
  by_cases h4 : c = 91
  · tauto
  by_cases h5 : c = 93
  · tauto
  by_cases h6 : c = 47
  · tauto
  have h7 : c ≠ 37 := by rintro rfl; exact absurd h (by decide)
  have h8 : c ≠ 41 := by rintro rfl; exact absurd h (by decide)
  right; left
  constructor
  · simp [regular, hnw, delim, h1, h2, h3, h4, h5, h6, h7, h8]
  · simp [lexStart, hnw, h7, h1, h2, h3, h4, h5]

/-- letters and blanks only -/
def PlainChars (s : Bytes) : Prop := ∀ c ∈ s, regular c = true ∨ c = 32

theorem lexStart_reg {a : UInt8} (ha : regular a = true) : lexStart a = ([], .word [a]) := by
  simp only [regular, Bool.and_eq_true, Bool.not_eq_true', delim, Bool.or_eq_false_iff, decide_eq_false_iff_not] at ha
  obtain ⟨w, ⟨⟨⟨⟨⟨⟨⟨d1, d2⟩, d3⟩, d4⟩, d5⟩, d6⟩, d7⟩, d8⟩⟩ := ha
  simp [lexStart, w, d1, d3, d4, d5, d6, d8]

theorem no_words : ∀ (t : Bytes), PlainChars t → (lexer .ground (t ++ [32])).1 = [] → ∀ c ∈ t, c = 32 := by
  intro t
  induction t with
  | nil => intro _ _ c hc; simp at hc
  | cons a t ih =>
    intro hp hl c hc
    rw [List.cons_append, lexer_cons] at hl
    rcases hp a (by simp) with ha | rfl
    · rw [show lexStep .ground a = lexStart a from rfl, lexStart_reg ha] at hl
      obtain ⟨k, us, e3⟩ := word_first t [a]
      rw [List.nil_append, e3] at hl
      simp at hl
    · rw [show lexStep .ground 32 = ([], .ground) from rfl] at hl
      rcases List.mem_cons.1 hc with rfl | hc
      · rfl
      · exact ih (fun x hx => hp x (by simp [hx])) hl c hc

/-- After a character: only words follow, or the character begins something odd. -/
theorem start_plain {c : UInt8} {t : Bytes} {us : List Lexeme} (hc : simpleChar c = true) (hb : c ≠ 9 ∧ c ≠ 10 ∧ c ≠ 13) (ht : simpleFrom (lexStart c).2 t = true)
    (h : (lexStart c).1 ++ (lexer (lexStart c).2 (t ++ [32])).1 = us) (hg : (lexer (lexStart c).2 (t ++ [32])).2 = .ground) (hn : ¬ OddNext us) :
    (c = 32 ∧ (lexStart c) = ([], .ground)) ∨ (regular c = true ∧ lexStart c = ([], .word [c])) ∨ (c = 93 ∧ lexStart c = ([.close], .ground)) := by
  rcases char_cases hc hb with rfl | h1 | rfl | rfl | rfl | rfl | rfl | rfl
  · exact Or.inl ⟨rfl, rfl⟩
  · exact Or.inr (Or.inl h1)
  · exfalso
    exact hn (oddNext_lit t 0 false [] us (Prod.ext h hg))
  · exfalso
    exact hn (oddNext_lt t us (Prod.ext h hg))
  · exfalso
    exact hn (oddNext_gt t us ht (Prod.ext h hg))
  · exfalso
    exact hn ⟨.open, _, h.symm, odd_open⟩
  · exact Or.inr (Or.inr ⟨rfl, rfl⟩)
  · exfalso
    exact hn (oddNext_name t [] us (Prod.ext h hg))

def WordMode (m : Mode) : Prop := m = .ground ∨ ∃ cur, m = .word cur

theorem wordy_close : ¬ Wordy .close := by rintro (⟨_, h⟩ | ⟨_, h⟩) <;> cases h

/-- Words, and possibly a closing bracket at the end. -/
theorem plain_split : ∀ (s : Bytes) (m : Mode) (us E : List Lexeme), WordMode m → simpleFrom m s = true → (∀ c ∈ s, c ≠ 9 ∧ c ≠ 10 ∧ c ≠ 13) →
    lexer m (s ++ [32]) = (us ++ E, .ground) → (∀ t ∈ us, Wordy t) → (E = [] ∨ E = [.close]) →
    (E = [] → PlainChars s) ∧ (E = [.close] → ∃ body post, s = body ++ 93 :: post ∧ PlainChars body ∧ (∀ c ∈ post, c = 32) ∧ lexer m (body ++ [32]) = (us, .ground)) := by
  intro s
  induction s with
  | nil =>
    intro m us E hm _ _ h hw hE
    refine ⟨fun _ c hc => by simp at hc, fun e => ?_⟩
    exfalso
    subst e
    rw [List.nil_append] at h
    rcases hm with rfl | ⟨cur, rfl⟩
    · simp [lexer, lexStep, lexStart, white] at h
    · have e : lexer (.word cur) [32] = ([wordTok cur], .ground) := by simp [lexer, lexStep, lexStart, white, regular]
      rw [e] at h
      have h := (Prod.mk.inj h).1
      cases us with
      | nil =>
        simp at h
        unfold wordTok at h
        split at h
        · cases h
        · split at h <;> cases h
      | cons u us => simp at h
  | cons c t ih =>
    intro m us E hm hs hb h hw hE
    obtain ⟨h1, h2⟩ := simple_cons.1 hs
    have hb' : ∀ d ∈ t, d ≠ 9 ∧ d ≠ 10 ∧ d ≠ 13 := fun d hd => hb d (by simp [hd])
    rw [List.cons_append, lexer_cons] at h
    -- the character read outside of words
    have start : ∀ (us : List Lexeme), simpleChar c = true → simpleFrom (lexStart c).2 t = true →
        (lexStart c).1 ++ (lexer (lexStart c).2 (t ++ [32])).1 = us ++ E → (lexer (lexStart c).2 (t ++ [32])).2 = .ground → (∀ t ∈ us, Wordy t) →
        (E = [] → PlainChars (c :: t)) ∧ (E = [.close] → ∃ body post, c :: t = body ++ 93 :: post ∧ PlainChars body ∧ (∀ c ∈ post, c = 32) ∧
          ((body = [] ∧ us = []) ∨ ∃ b, body = c :: b ∧ (lexStart c).1 ++ (lexer (lexStart c).2 (b ++ [32])).1 = us ∧ (lexer (lexStart c).2 (b ++ [32])).2 = .ground)) := by
      intro us hc ht hl hg hw
      have hn : ¬ OddNext (us ++ E) := by
        rintro ⟨o, os, e, ho⟩
        cases us with
        | nil =>
          rw [List.nil_append] at e
          rcases hE with rfl | rfl
          · simp at e
          · simp at e; exact ho.2 e.1.symm
        | cons u us => simp at e; exact ho.1 (e.1 ▸ hw u (by simp))
      rcases start_plain hc (hb c (by simp)) ht hl hg hn with ⟨rfl, e⟩ | ⟨hr, e⟩ | ⟨rfl, e⟩
      · rw [e] at ht hl hg
        obtain ⟨i1, i2⟩ := ih .ground us E (Or.inl rfl) ht hb' (Prod.ext hl hg) hw hE
        refine ⟨fun hE d hd => ?_, fun hE => ?_⟩
        · rcases List.mem_cons.1 hd with rfl | hd
          · exact Or.inr rfl
          · exact i1 hE d hd
        · obtain ⟨body, post, rfl, j2, j3, j4⟩ := i2 hE
          refine ⟨32 :: body, post, rfl, ?_, j3, Or.inr ⟨body, rfl, ?_⟩⟩
          · intro d hd
            rcases List.mem_cons.1 hd with rfl | hd
            · exact Or.inr rfl
            · exact j2 d hd
          · rw [e, j4]; exact ⟨rfl, rfl⟩
      · rw [e] at ht hl hg
        obtain ⟨i1, i2⟩ := ih (.word [c]) us E (Or.inr ⟨_, rfl⟩) ht hb' (Prod.ext hl hg) hw hE
        refine ⟨fun hE d hd => ?_, fun hE => ?_⟩
        · rcases List.mem_cons.1 hd with rfl | hd
          · exact Or.inl hr
          · exact i1 hE d hd
        · obtain ⟨body, post, rfl, j2, j3, j4⟩ := i2 hE
          refine ⟨c :: body, post, rfl, ?_, j3, Or.inr ⟨body, rfl, ?_⟩⟩
          · intro d hd
            rcases List.mem_cons.1 hd with rfl | hd
            · exact Or.inl hr
            · exact j2 d hd
          · rw [e, j4]; exact ⟨rfl, rfl⟩
      · rw [e] at ht hl hg
        cases us with
        | cons u us =>
          simp at hl
          exact absurd (hl.1 ▸ hw u (by simp)) wordy_close
        | nil =>
          rw [List.nil_append] at hl
          rcases hE with rfl | rfl
          · simp at hl
          · refine ⟨by simp, fun _ => ?_⟩
            simp only [List.cons_append, List.nil_append, List.cons.injEq, true_and] at hl
            obtain ⟨i1, _⟩ := ih .ground [] [] (Or.inl rfl) ht hb' (Prod.ext hl hg) (by simp) (Or.inl rfl)
            refine ⟨[], t, rfl, by intro d hd; simp at hd, ?_, Or.inl ⟨rfl, rfl⟩⟩
            -- no words: only blanks
            have hp := i1 rfl
            exact no_words t hp hl
    rcases hm with rfl | ⟨cur, rfl⟩
    · have hl := (Prod.mk.inj h).1
      have hg := (Prod.mk.inj h).2
      obtain ⟨i1, i2⟩ := start us h1 h2 hl hg hw
      refine ⟨i1, fun e => ?_⟩
      obtain ⟨body, post, j1, j2, j3, j4⟩ := i2 e
      refine ⟨body, post, j1, j2, j3, ?_⟩
      rcases j4 with ⟨rfl, rfl⟩ | ⟨b, rfl, j4, j5⟩
      · rfl
      · exact Prod.ext j4 j5
    · by_cases hr : regular c = true
      · have e : lexStep (.word cur) c = ([], .word (cur ++ [c])) := by simp [lexStep, hr]
        rw [e] at h h2
        obtain ⟨i1, i2⟩ := ih (.word (cur ++ [c])) us E (Or.inr ⟨_, rfl⟩) h2 hb' h hw hE
        refine ⟨fun hE d hd => ?_, fun hE => ?_⟩
        · rcases List.mem_cons.1 hd with rfl | hd
          · exact Or.inl hr
          · exact i1 hE d hd
        · obtain ⟨body, post, rfl, j2, j3, j4⟩ := i2 hE
          refine ⟨c :: body, post, rfl, ?_, j3, ?_⟩
          · intro d hd
            rcases List.mem_cons.1 hd with rfl | hd
            · exact Or.inl hr
            · exact j2 d hd
          · rw [List.cons_append, lexer_cons, e, j4]; rfl
      · have e : lexStep (.word cur) c = (wordTok cur :: (lexStart c).1, (lexStart c).2) := by simp [lexStep, hr]
        have h1 : simpleChar c = true := by
          simp only [simpleByte, Bool.and_eq_true] at h1
          exact h1.1
        rw [e] at h h2
        have hl := (Prod.mk.inj h).1
        have hg := (Prod.mk.inj h).2
        simp only [List.cons_append] at hl
        cases us with
        | nil =>
          rw [List.nil_append] at hl
          rcases hE with rfl | rfl
          · simp at hl
          · simp at hl
            exfalso
            have hl := hl.1
            unfold wordTok at hl
            split at hl
            · cases hl
            · split at hl <;> cases hl
        | cons u us =>
          simp only [List.cons_append, List.cons.injEq] at hl
          obtain ⟨rfl, hl⟩ := hl
          obtain ⟨i1, i2⟩ := start us h1 h2 hl hg (fun t ht => hw t (by simp [ht]))
          refine ⟨i1, fun e' => ?_⟩
          obtain ⟨body, post, j1, j2, j3, j4⟩ := i2 e'
          refine ⟨body, post, j1, j2, j3, ?_⟩
          rcases j4 with ⟨rfl, rfl⟩ | ⟨b, rfl, j4, j5⟩
          · simp [lexer, lexStep, lexStart, white, regular]
          · rw [List.cons_append, lexer_cons, e]
            simp only [List.cons_append, j4, j5]

/-! ### words -/

theorem plain_words : ∀ (s : Bytes), PlainChars s → lexer .ground (s ++ [32]) = ((words s).map wordTok, .ground) ∧
    ∀ cur, cur ≠ [] → lexer (.word cur) (s ++ [32]) = ((wordsFrom cur s).map wordTok, .ground) := by
  intro s
  induction s with
  | nil =>
    intro _
    refine ⟨rfl, fun cur hc => ?_⟩
    simp [lexer, lexStep, lexStart, white, regular, wordsFrom, hc]
  | cons a s ih =>
    intro hp
    obtain ⟨i1, i2⟩ := ih (fun x hx => hp x (by simp [hx]))
    rcases hp a (by simp) with ha | rfl
    · refine ⟨?_, fun cur hc => ?_⟩
      · rw [List.cons_append, lexer_cons, show lexStep .ground a = lexStart a from rfl, lexStart_reg ha, i2 _ (by simp)]
        unfold words
        rw [wordsFrom_reg ha]
        rfl
      · rw [List.cons_append, lexer_cons]
        simp only [lexStep, ha, if_true]
        rw [i2 _ (by simp), wordsFrom_reg ha]
        rfl
    · refine ⟨?_, fun cur hc => ?_⟩
      · rw [List.cons_append, lexer_cons, show lexStep .ground 32 = ([], .ground) from rfl, i1, words_white rfl]
        rfl
      · rw [List.cons_append, lexer_cons]
        have e : lexStep (.word cur) 32 = ([wordTok cur], .ground) := by simp [lexStep, regular, white, lexStart]
        rw [e, i1, wordsFrom_sep rfl]
        rw [words_white rfl]
        simp [flushWord, hc]

theorem wordsFrom_all : ∀ (w cur : Bytes), (∀ c ∈ w, regular c = true) → wordsFrom cur w = flushWord (cur ++ w) := by
  intro w
  induction w with
  | nil => intro cur _; simp [wordsFrom, flushWord]
  | cons c w ih =>
    intro cur h
    rw [wordsFrom_reg (h c (by simp)), ih _ (fun d hd => h d (by simp [hd]))]
    simp

/-- Single blanks: the words are what the program gets when it splits the text. -/
theorem split_words (N : Nat) : ∀ (s : Bytes), s.length ≤ N → PlainChars s → ¬ [32, 32] <:+: s → s.head? ≠ some 32 → s.getLast? ≠ some 32 → s ≠ [] → splitSpace s = words s := by
  induction N with
  | zero => intro s h _ _ _ _ hne; exact absurd (by simpa using h) hne
  | succ N ih =>
    intro s hN hp hd hh hl hne
    obtain ⟨w, r, e, hw, hr⟩ : ∃ w r, s = w ++ r ∧ (∀ c ∈ w, regular c = true) ∧ (r = [] ∨ ∃ t, r = 32 :: t) := by
      refine ⟨s.takeWhile (· ≠ 32), s.dropWhile (· ≠ 32), (List.takeWhile_append_dropWhile).symm, ?_, ?_⟩
      · intro c hc
        have h1 := List.all_eq_true.1 List.all_takeWhile c hc
        rcases hp c ((List.takeWhile_prefix _).subset hc) with h | rfl
        · exact h
        · simp at h1
      · cases h : s.dropWhile (· ≠ 32) with
        | nil => exact Or.inl rfl
        | cons c t =>
          have := List.head?_dropWhile_not (fun x : UInt8 => decide (x ≠ 32)) s
          rw [h] at this
          simp at this
          exact Or.inr ⟨t, by rw [this]⟩
    have hwne : w ≠ [] := by
      rintro rfl
      rcases hr with rfl | ⟨t, rfl⟩
      · exact hne (by simpa using e)
      · rw [e] at hh; simp at hh
    have h32 : (32 : UInt8) ∉ w := fun h => absurd (hw 32 h) (by decide)
    have hfw : wordsFrom [] w = [w] := by rw [wordsFrom_all w [] hw]; simp [flushWord, hwne]
    rcases hr with rfl | ⟨t, rfl⟩
    · rw [List.append_nil] at e
      subst e
      rw [splitSpace_single h32]
      exact hfw.symm
    · subst e
      rw [splitSpace_cons h32, words_split rfl]
      have ht : t ≠ [] := by rintro rfl; simp at hl
      rw [ih t (by simp at hN; omega) (fun c hc => hp c (by simp [hc])) (fun h => hd (h.trans ⟨w ++ [32], [], by simp⟩)) ?_ ?_ ht]
      · unfold words; rw [hfw]; rfl
      · intro h
        cases t with
        | nil => exact ht rfl
        | cons c t => simp at h; subst h; exact hd ⟨w, t, by simp⟩
      · intro h
        apply hl
        rw [List.getLast?_append_of_ne_nil _ (by simp), List.getLast?_cons_of_ne_nil ht]
        exact h

theorem first_nonblank : ∀ (s : Bytes), (∃ c ∈ s, c ≠ 32) → ∃ a c t, s = a ++ c :: t ∧ (∀ d ∈ a, d = 32) ∧ c ≠ 32 := by
  intro s
  induction s with
  | nil => rintro ⟨c, hc, _⟩; simp at hc
  | cons d s ih =>
    rintro ⟨c, hc, hne⟩
    by_cases hd : d = 32
    · obtain ⟨a, e, t, rfl, h2, h3⟩ := ih (by
        rcases List.mem_cons.1 hc with rfl | h
        · exact absurd hd hne
        · exact ⟨c, h, hne⟩)
      refine ⟨d :: a, e, t, rfl, ?_, h3⟩
      intro x hx
      rcases List.mem_cons.1 hx with rfl | hx
      · exact hd
      · exact h2 x hx
    · exact ⟨[], d, s, rfl, by simp, hd⟩

theorem core_of {s : Bytes} (h : ∃ c ∈ s, c ≠ 32) : ∃ a x b, s = a ++ x ++ b ∧ (∀ c ∈ a, c = 32) ∧ (∀ c ∈ b, c = 32) ∧ x.head? ≠ some 32 ∧ x.getLast? ≠ some 32 ∧ x ≠ [] := by
  obtain ⟨a, c, t, rfl, h2, h3⟩ := first_nonblank s h
  obtain ⟨b, d, u, e, h5, h6⟩ := first_nonblank (c :: t).reverse ⟨c, by simp, h3⟩
  have e' : c :: t = (u.reverse ++ [d]) ++ b.reverse := by
    have := congrArg List.reverse e
    rw [List.reverse_reverse] at this
    rw [this]; simp
  refine ⟨a, u.reverse ++ [d], b.reverse, by rw [List.append_assoc, ← e'], h2, by simpa using h5, ?_, by simp [h6], by simp⟩
  cases hu : u.reverse with
  | nil => simp [h6]
  | cons y z =>
    rw [hu] at e'
    simp at e'
    simp [← e'.1, h3]

theorem trim_words {pre body post : Bytes} (hpre : ∀ c ∈ pre, c = 32) (hpost : ∀ c ∈ post, c = 32) (hp : PlainChars body) (ha : ∀ c ∈ body, c < 127 ∧ c ≠ 11)
    (hd : ¬ [32, 32] <:+: body) (hw : words body ≠ []) : splitSpace (trimSpace (pre ++ body ++ post)) = words body := by
  obtain ⟨a, x, b, rfl, h1, h2, h3, h4, h5⟩ := core_of (s := body) (by
    by_contra h
    push Not at h
    exact hw (words_blanks (fun c hc => by rw [h c hc]; rfl)))
  have hsp : ∀ c, c ∈ x → c ≠ 32 → isSp c = false := by
    intro c hc hne
    rcases hp c (by simp [hc]) with hr | h
    · have := (ha c (by simp [hc])).2
      simp only [regular, Bool.and_eq_true, Bool.not_eq_true', white, Bool.or_eq_false_iff, decide_eq_false_iff_not] at hr
      unfold isSp
      simp [hr.1, this]
    · exact absurd h hne
  have hb : ∀ l : Bytes, (∀ c ∈ l, c = 32) → ∀ c ∈ l, isSp c = true := by intro l hl c hc; rw [hl c hc]; rfl
  have ht : trimSpace (pre ++ (a ++ x ++ b) ++ post) = x := by
    rw [show pre ++ (a ++ x ++ b) ++ post = (pre ++ a) ++ x ++ (b ++ post) by simp]
    refine trimSpace_core (hb _ ?_) (hb _ ?_) (fun c hc => ?_) (fun c hc => ?_) (fun c hc => ?_)
    · intro c hc; rcases List.mem_append.1 hc with h | h
      · exact hpre c h
      · exact h1 c h
    · intro c hc; rcases List.mem_append.1 hc with h | h
      · exact h2 c h
      · exact hpost c h
    · exact UInt8.lt_trans (ha c (by simp [hc])).1 (by decide)
    · exact hsp c (List.mem_of_head? hc) (fun e => h3 (by rw [hc, e]))
    · exact hsp c (List.mem_of_getLast? hc) (fun e => h4 (by rw [hc, e]))
  rw [ht, words_around (fun c hc => by rw [h1 c hc]; rfl) (fun c hc => by rw [h2 c hc]; rfl)]
  exact split_words x.length x (Nat.le_refl _) (fun c hc => hp c (by simp [hc])) (fun h => hd (h.trans ⟨a, b, rfl⟩)) h3 h4 h5

/-! ### numbers -/

theorem readDec_none {w : Bytes} (h : 46 ∉ w) : readDec w = none := by
  have hu : ∀ s : Bytes, 46 ∉ s → readUDec s = none := by
    intro s hs
    unfold readUDec
    have : s.dropWhile (· ≠ 46) = [] := by
      clear h
      induction s with
      | nil => rfl
      | cons c s ih =>
        simp only [List.mem_cons, not_or] at hs
        rw [List.dropWhile_cons_of_pos (by simpa using Ne.symm hs.1)]
        exact ih hs.2
    simp only [this]
  unfold readDec
  split
  · rename_i s
    rw [hu s (fun h' => h (by simp [h']))]
    rfl
  · exact hu w h

theorem wordTok_num {w : Bytes} {n : Int} (h : wordTok w = .num (n : ℚ)) (hp : 46 ∉ w) (hr : -9223372036854775808 ≤ n ∧ n ≤ 9223372036854775807) : atoi w = some n := by
  unfold wordTok at h
  split at h
  · cases h
  · split at h
    · rename_i q hq
      simp only [Lexeme.num.injEq] at h
      subst h
      unfold readNum at hq
      rw [readDec_none hp] at hq
      simp only at hq
      unfold atoi
      split at hq
      · rename_i t
        simp only [Option.map_eq_some_iff] at hq ⊢
        obtain ⟨k, hk, e⟩ := hq
        have e : -(k : Int) = n := by exact_mod_cast e
        rw [hk]
        simp only [Option.map_some, e]
        rw [if_pos hr]
      · rename_i hne
        obtain ⟨k, hk, e⟩ := Option.map_eq_some_iff.1 hq
        have e : (k : Int) = n := by exact_mod_cast e
        have h43 : ∀ t, w ≠ 43 :: t := by
          rintro t rfl
          simp [parseNat, digitsVal] at hk
          exact absurd hk.1 (by decide)
        split
        · rename_i t; exact absurd rfl (hne _)
        · rename_i t; exact absurd rfl (h43 _)
        · rw [hk]
          simp only [Option.map_some, e]
          rw [if_pos hr]
    · cases h

theorem words_mem : ∀ (s cur : Bytes), ∀ w ∈ wordsFrom cur s, (∀ c ∈ w, c ∈ cur ∨ (c ∈ s ∧ white c = false)) := by
  intro s
  induction s with
  | nil =>
    intro cur w hw c hc
    simp only [wordsFrom] at hw
    split at hw
    · simp at hw
    · simp at hw; subst hw; exact Or.inl hc
  | cons d s ih =>
    intro cur w hw c hc
    by_cases hd : regular d = true
    · rw [wordsFrom_reg hd] at hw
      rcases ih _ w hw c hc with h | h
      · rcases List.mem_append.1 h with h | h
        · exact Or.inl h
        · simp at h; subst h; exact Or.inr ⟨by simp, by simp [regular] at hd; exact hd.1⟩
      · exact Or.inr ⟨by simp [h.1], h.2⟩
    · rw [wordsFrom_sep (by simpa using hd)] at hw
      rcases List.mem_append.1 hw with hw | hw
      · unfold flushWord at hw
        split at hw
        · simp at hw
        · simp at hw; subst hw; exact Or.inl hc
      by_cases h47 : d = 47
      · subst h47
        rw [words_slash] at hw
        rcases ih _ w hw c hc with h | h
        · simp at h; subst h; exact Or.inr ⟨by simp, rfl⟩
        · exact Or.inr ⟨by simp [h.1], h.2⟩
      · by_cases hdd : delim d = true
        · rw [words_delim hdd h47] at hw
          rcases List.mem_cons.1 hw with rfl | hw
          · simp at hc; subst hc
            refine Or.inr ⟨by simp, ?_⟩
            simp only [delim, Bool.or_eq_true, decide_eq_true_eq] at hdd
            rcases hdd with ((((((rfl | rfl) | rfl) | rfl) | rfl) | rfl) | rfl) | rfl <;> rfl
          · rcases ih _ w hw c hc with h | h
            · simp at h
            · exact Or.inr ⟨by simp [h.1], h.2⟩
        · have hwh : white d = true := by simp [regular, hdd] at hd; exact hd
          rw [words_white hwh] at hw
          rcases ih _ w hw c hc with h | h
          · simp at h
          · exact Or.inr ⟨by simp [h.1], h.2⟩

theorem trim_word {s w : Bytes} (hw : w ∈ words s) (ha : ∀ c ∈ s, c < 127 ∧ c ≠ 11) : trimSpace w = w := by
  refine trimSpace_plain (fun c hc => ?_)
  rcases words_mem s [] w hw c hc with h | ⟨h, hr⟩
  · simp at h
  · have := ha c h
    refine ⟨UInt8.lt_trans this.1 (by decide), ?_⟩
    simp only [white, Bool.or_eq_false_iff, decide_eq_false_iff_not] at hr
    unfold isSp
    simp [hr, this.2]

/-! ### references -/

/-- numbers the program can read -/
def InRange (n : Int) : Prop := -9223372036854775808 ≤ n ∧ n ≤ 9223372036854775807

theorem wordTok_op {w x : Bytes} (h : wordTok w = .op x) : w = x := by
  unfold wordTok at h
  split at h
  · cases h
  · split at h
    · cases h
    · simpa using h

theorem value_ref {r : Bytes} {n : Int} (h : Values r [.ref n]) (hs : SimpleText r) (hss : SS r) (hi : IntRefs r) (hn : InRange n) : readObjIDFromDictionary r = .ok n := by
  have ht := Values.toks h
  simp only [toksL, toks, List.append_nil] at ht
  obtain ⟨h1, _⟩ := plain_split r .ground _ [] (Or.inl rfl) hs hss.1 (by rw [List.append_nil]; exact ht) (by
    intro t ht
    simp at ht
    rcases ht with rfl | rfl | rfl
    · exact Or.inl ⟨_, rfl⟩
    · exact Or.inl ⟨_, rfl⟩
    · exact Or.inr ⟨_, rfl⟩) (Or.inl rfl)
  have hp := h1 rfl
  have hw := (plain_words r hp).1
  rw [show r ++ [32] = r ++ b!" " from rfl, ht] at hw
  have hw := (Prod.mk.inj hw).1
  obtain ⟨w1, w2, w3, e⟩ : ∃ w1 w2 w3, words r = [w1, w2, w3] := by
    rcases hr : words r with _ | ⟨w1, _ | ⟨w2, _ | ⟨w3, _ | ⟨w4, l⟩⟩⟩⟩ <;> rw [hr] at hw <;> simp at hw
    exact ⟨w1, w2, w3, rfl⟩
  rw [e] at hw
  simp only [List.map_cons, List.map_nil, List.cons.injEq, and_true] at hw
  obtain ⟨e1, e2, e3⟩ := hw
  have ha : ∀ c ∈ r, c < 127 ∧ c ≠ 11 := fun c hc => ⟨(simple_ascii r _ hs c hc).1, (simple_ascii r _ hs c hc).2.2.1⟩
  have hsplit := trim_words (pre := []) (post := []) (by simp) (by simp) hp ha hss.2 (by rw [e]; simp)
  rw [List.nil_append, List.append_nil, e] at hsplit
  have h3 := wordTok_op e3.symm
  subst h3
  have h46 := (hi w1 w2 n (by rw [e]) e1.symm e2.symm).1
  have hat := wordTok_num e1.symm h46 hn
  have htw := trim_word (s := r) (w := w1) (by rw [e]; simp) ha
  unfold readObjIDFromDictionary
  simp only
  rw [if_neg (by intro h0; rw [h0] at hsplit; simp [splitSpace] at hsplit), hsplit]
  simp only [htw, hat]

theorem open_split : ∀ (r : Bytes) (us : List Lexeme), simpleFrom .ground r = true → (∀ c ∈ r, c ≠ 9 ∧ c ≠ 10 ∧ c ≠ 13) → lexer .ground (r ++ [32]) = (.open :: us, .ground) →
    ∃ pre t, r = pre ++ 91 :: t ∧ (∀ c ∈ pre, c = 32) ∧ simpleFrom .ground t = true ∧ lexer .ground (t ++ [32]) = (us, .ground) := by
  intro r
  induction r with
  | nil => intro us _ _ h; simp [lexer, lexStep, lexStart, white] at h
  | cons c r ih =>
    intro us hs hb h
    obtain ⟨h1, h2⟩ := simple_cons.1 hs
    rw [List.cons_append, lexer_cons] at h
    have hl := (Prod.mk.inj h).1
    have hg := (Prod.mk.inj h).2
    have hno : ∀ {k : Bytes}, (lexer (.word k) (r ++ [32])).1 = .open :: us → False := by
      intro k hk
      obtain ⟨k', us', e⟩ := word_first r k
      rw [hk] at e
      simp only [List.cons.injEq] at e
      have e := e.1
      unfold wordTok at e
      split at e
      · cases e
      · split at e <;> cases e
    rcases char_cases h1 (hb c (by simp)) with rfl | ⟨_, e⟩ | rfl | rfl | rfl | rfl | rfl | rfl
    · obtain ⟨pre, t, rfl, j2, j3, j4⟩ := ih us h2 (fun d hd => hb d (by simp [hd])) (Prod.ext hl hg)
      refine ⟨32 :: pre, t, rfl, ?_, j3, j4⟩
      intro d hd
      rcases List.mem_cons.1 hd with rfl | hd
      · rfl
      · exact j2 d hd
    · exfalso
      rw [show lexStep .ground c = lexStart c from rfl, e] at hl
      exact hno hl
    · exfalso
      have key : ∀ (s : Bytes) (d : Nat) (e : Bool) (cur : Bytes), (lexer (.lit d e cur) s).1 ≠ .open :: us := by
        intro s
        induction s with
        | nil => intro d e cur h; simp [lexer] at h
        | cons c s ih =>
          intro d e cur h
          rw [lexer_cons] at h
          cases e with
          | true => simp only [lexStep, List.nil_append] at h; exact ih _ _ _ h
          | false =>
            by_cases h1 : c = 92
            · simp only [lexStep, h1, if_true, List.nil_append] at h; exact ih _ _ _ h
            by_cases h2 : c = 40
            · subst h2
              have e : lexStep (.lit d false cur) 40 = ([], .lit (d + 1) false (cur ++ [40])) := by simp [lexStep]
              rw [e, List.nil_append] at h; exact ih _ _ _ h
            by_cases h3 : c = 41
            · subst h3
              cases d with
              | zero =>
                have e : lexStep (.lit 0 false cur) 41 = ([.lit cur], .ground) := by simp [lexStep]
                rw [e] at h
                simp at h
              | succ d =>
                have e : lexStep (.lit (d + 1) false cur) 41 = ([], .lit d false (cur ++ [41])) := by simp [lexStep]
                rw [e, List.nil_append] at h; exact ih _ _ _ h
            · have e : lexStep (.lit d false cur) c = ([], .lit d false (cur ++ [c])) := by simp [lexStep, h1, h2, h3]
              rw [e, List.nil_append] at h; exact ih _ _ _ h
      exact key _ _ _ _ hl
    · exfalso
      have hex : ∀ (s cur : Bytes), (lexer (.hex cur) s).1 ≠ .open :: us := by
        intro s
        induction s with
        | nil => intro cur h; simp [lexer] at h
        | cons c s ih =>
          intro cur h
          rw [lexer_cons] at h
          simp only [lexStep] at h
          split at h
          · simp at h
          · split at h
            · exact ih _ h
            · exact ih _ h
      have hl : (lexer .lt (r ++ [32])).1 = .open :: us := hl
      obtain ⟨c, s, hc⟩ : ∃ c s, r ++ [32] = c :: s := by
        cases r with
        | nil => exact ⟨_, _, rfl⟩
        | cons c s => exact ⟨_, _, rfl⟩
      rw [hc, lexer_cons] at hl
      simp only [lexStep] at hl
      split at hl
      · simp at hl
      · split at hl
        · simp at hl
        · split at hl
          · exact hex _ _ hl
          · exact hex _ _ hl
    · exfalso
      have h2 : simpleFrom .gt r = true := h2
      have hl : (lexer .gt (r ++ [32])).1 = .open :: us := hl
      cases r with
      | nil => simp [simpleFrom] at h2
      | cons c s =>
        obtain ⟨h1, _⟩ := simple_cons.1 h2
        simp only [simpleByte, decide_eq_true_eq] at h1
        subst h1
        rw [List.cons_append, lexer_cons, show lexStep .gt 62 = ([.dictClose], .ground) from rfl] at hl
        simp at hl
    · have hl : .open :: (lexer .ground (r ++ [32])).1 = .open :: us := hl
      simp only [List.cons.injEq, true_and] at hl
      exact ⟨[], r, rfl, by simp, h2, Prod.ext hl hg⟩
    · exfalso
      have hl : .close :: (lexer .ground (r ++ [32])).1 = .open :: us := hl
      simp at hl
    · exfalso
      exact hno hl

/-- an array of references: what stands between the brackets -/
theorem array_body {r : Bytes} {us : List Lexeme} (h : lexer .ground (r ++ [32]) = (.open :: us ++ [.close], .ground)) (hu : ∀ t ∈ us, Wordy t) (hs : SimpleText r) (hss : SS r) :
    ∃ pre body post, r = pre ++ 91 :: (body ++ 93 :: post) ∧ (∀ c ∈ pre, c = 32) ∧ (∀ c ∈ post, c = 32) ∧ PlainChars body ∧ (words body).map wordTok = us := by
  obtain ⟨pre, t, rfl, h2, h3, h4⟩ := open_split r _ hs hss.1 h
  obtain ⟨_, h5⟩ := plain_split t .ground us [.close] (Or.inl rfl) h3 (fun c hc => hss.1 c (by simp [hc])) h4 hu (Or.inr rfl)
  obtain ⟨body, post, rfl, j2, j3, j4⟩ := h5 rfl
  refine ⟨pre, body, post, rfl, h2, j3, j2, ?_⟩
  rw [(plain_words body j2).1] at j4
  exact (Prod.mk.inj j4).1

theorem refs_wordy (ids : List Int) : ∀ t ∈ toksL (ids.map Val.ref), Wordy t := by
  induction ids with
  | nil => simp [toksL]
  | cons n ids ih =>
    intro t ht
    simp only [List.map_cons, toksL, toks, List.mem_append, List.mem_cons, List.not_mem_nil, or_false] at ht
    rcases ht with (rfl | rfl | rfl) | ht
    · exact Or.inl ⟨_, rfl⟩
    · exact Or.inl ⟨_, rfl⟩
    · exact Or.inr ⟨_, rfl⟩
    · exact ih t ht

theorem refTokens_ok : ∀ (ids : List Int) (ws : List Bytes), ws.map wordTok = toksL (ids.map Val.ref) → (∀ n ∈ ids, InRange n) → (∀ w ∈ ws, trimSpace w = w) →
    (∀ (w g : Bytes) (n : Int), [w, g, b!"R"] <:+: ws → wordTok w = .num n → wordTok g = .num 0 → 46 ∉ w ∧ 46 ∉ g) → readRefTokens ws = .ok ids := by
  intro ids
  induction ids with
  | nil =>
    intro ws h _ _ _
    simp [toksL] at h
    subst h
    rfl
  | cons n ids ih =>
    intro ws h hn ht hi
    simp only [List.map_cons, toksL, toks, List.cons_append, List.nil_append] at h
    rcases ws with _ | ⟨w1, _ | ⟨w2, _ | ⟨w3, ws⟩⟩⟩
    · simp at h
    · simp at h
    · simp at h
    · simp only [List.map_cons, List.cons.injEq] at h
      obtain ⟨e1, e2, e3, e4⟩ := h
      have h3 := wordTok_op e3
      subst h3
      obtain ⟨h46, h46'⟩ := hi w1 w2 n ⟨[], ws, rfl⟩ e1 e2
      have a1 := wordTok_num e1 h46 (hn n (by simp))
      have a2 := wordTok_num (n := 0) (by rw [e2]; simp) h46' (by decide)
      have rest := ih ws e4 (fun m hm => hn m (by simp [hm])) (fun w hw => ht w (by simp [hw])) (fun w g n h => hi w g n (h.trans ⟨[w1, w2, b!"R"], [], by simp⟩))
      simp only [readRefTokens, ht w1 (by simp), ht w2 (by simp), a1, a2, rest]
      rfl

theorem removeByte_plain {s : Bytes} {c : UInt8} (h : c ∉ s) : removeByte c s = s := by
  unfold removeByte
  rw [List.filter_eq_self]
  intro d hd
  simp only [ne_eq, decide_not, Bool.not_eq_true', decide_eq_false_iff_not]
  rintro rfl
  exact h hd

theorem value_refs {r : Bytes} {ids : List Int} (h : Values r [.arr (ids.map .ref)]) (hs : SimpleText r) (hss : SS r) (hi : IntRefs r) (hn : ∀ n ∈ ids, InRange n) :
    (ids ≠ [] → readObjIDFromDictionaryArr r = .ok ids) ∧ (ids = [] → ∀ c ∈ r, c = 91 ∨ c = 93 ∨ c = 32) := by
  have ht := Values.toks h
  simp only [toksL, toks, List.append_nil] at ht
  obtain ⟨pre, body, post, rfl, h1, h2, hp, hw⟩ := array_body ht (refs_wordy ids) hs hss
  have ha : ∀ c ∈ pre ++ 91 :: (body ++ 93 :: post), c < 127 ∧ c ≠ 11 := fun c hc => ⟨(simple_ascii _ _ hs c hc).1, (simple_ascii _ _ hs c hc).2.2.1⟩
  have ha' : ∀ c ∈ body, c < 127 ∧ c ≠ 11 := fun c hc => ha c (by simp [hc])
  have hwords : words (pre ++ 91 :: (body ++ 93 :: post)) = b!"[" :: words body ++ [b!"]"] := by
    rw [words_split rfl, words_delim rfl (by decide), words_split rfl, words_delim rfl (by decide), words_blanks (fun c hc => by rw [h1 c hc]; rfl),
      words_blanks (a := post) (fun c hc => by rw [h2 c hc]; rfl)]
    simp
  constructor
  · intro hne
    have hb : words body ≠ [] := by
      intro e
      rw [e] at hw
      cases ids with
      | nil => exact hne rfl
      | cons n ids => simp [toksL, toks] at hw
    have n91 : ∀ l : Bytes, PlainChars l → (91 : UInt8) ∉ l ∧ (93 : UInt8) ∉ l := by
      intro l hl
      constructor <;> intro hc <;> rcases hl _ hc with h | h <;> simp [regular, white, delim] at h
    have pl : ∀ l : Bytes, (∀ c ∈ l, c = 32) → PlainChars l := fun l hl c hc => Or.inr (hl c hc)
    have er : removeByte 93 (removeByte 91 (pre ++ 91 :: (body ++ 93 :: post))) = pre ++ body ++ post := by
      have r1 : removeByte 91 (pre ++ 91 :: (body ++ 93 :: post)) = pre ++ (body ++ 93 :: post) := by
        have e1 := removeByte_plain (n91 _ (pl _ h1)).1
        have e2 := removeByte_plain (n91 _ hp).1
        have e3 := removeByte_plain (n91 _ (pl _ h2)).1
        unfold removeByte at *
        rw [List.filter_append, List.filter_cons_of_neg (by simp), List.filter_append, List.filter_cons_of_pos (by simp), e1, e2, e3]
      rw [r1]
      have e1 := removeByte_plain (n91 _ (pl _ h1)).2
      have e2 := removeByte_plain (n91 _ hp).2
      have e3 := removeByte_plain (n91 _ (pl _ h2)).2
      unfold removeByte at *
      rw [List.filter_append, List.filter_append, List.filter_cons_of_neg (by simp), e1, e2, e3]; simp
    unfold readObjIDFromDictionaryArr
    rw [er, trim_words h1 h2 hp ha' (fun h => hss.2 (h.trans ⟨pre ++ [91], 93 :: post, by simp⟩)) hb]
    refine refTokens_ok ids _ hw hn (fun w hw => trim_word hw ha') ?_
    intro w g n h
    exact hi w g n (by rw [hwords]; exact h.trans ⟨[b!"["], [b!"]"], by simp⟩)
  · rintro rfl
    have hb : ∀ c ∈ body, c = 32 := by
      refine no_words body hp ?_
      rw [(plain_words body hp).1]
      simpa [toksL] using hw
    intro c hc
    simp only [List.mem_append, List.mem_cons] at hc
    rcases hc with hc | rfl | hc | rfl | hc
    · exact Or.inr (Or.inr (h1 c hc))
    · exact Or.inl rfl
    · exact Or.inr (Or.inr (hb c hc))
    · exact Or.inr (Or.inl rfl)
    · exact Or.inr (Or.inr (h2 c hc))

end Verif
