import Verif.Lemmas.AgreeRun
import Verif.Lemmas.Reopen
import Verif.Lemmas.Refs
/-
The words of a text; the values that are read are pieces of the text, cut between words.
-/
namespace Verif
open Spec

def flushWord (cur : Bytes) : List Bytes := if cur = [] then [] else [cur]

theorem wordsFrom_sep {c : UInt8} (hc : regular c = false) (cur t : Bytes) : wordsFrom cur (c :: t) = flushWord cur ++ words (c :: t) := by
  simp [wordsFrom, words, hc, flushWord]

theorem wordsFrom_reg {c : UInt8} (hc : regular c = true) (cur t : Bytes) : wordsFrom cur (c :: t) = wordsFrom (cur ++ [c]) t := by
  simp [wordsFrom, hc]

theorem wordsFrom_flush {t : Bytes} {c : UInt8} (hc : regular c = false) (h : t.head? = some c) (cur : Bytes) : wordsFrom cur t = flushWord cur ++ wordsFrom [] t := by
  cases t with
  | nil => simp at h
  | cons d t =>
    simp at h
    subst h
    rw [wordsFrom_sep hc]
    rfl

theorem words_slash (t : Bytes) : words (47 :: t) = wordsFrom [47] t := by
  simp [words, wordsFrom, show regular 47 = false from rfl]

theorem words_delim {c : UInt8} (hc : delim c = true) (h : c ≠ 47) (t : Bytes) : words (c :: t) = [c] :: words t := by
  simp [words, wordsFrom, regular, hc, h]

theorem words_white {c : UInt8} (hc : white c = true) (t : Bytes) : words (c :: t) = words t := by
  have h : delim c = false ∧ c ≠ 47 := by
    simp only [white, Bool.or_eq_true, decide_eq_true_eq] at hc
    rcases hc with ((((rfl | rfl) | rfl) | rfl) | rfl) | rfl <;> exact ⟨rfl, by decide⟩
  simp [words, wordsFrom, regular, hc, h]

theorem wordsFrom_split {c : UInt8} (hc : regular c = false) : ∀ (a cur b : Bytes), wordsFrom cur (a ++ c :: b) = wordsFrom cur a ++ words (c :: b) := by
  intro a
  induction a with
  | nil => intro cur b; rw [List.nil_append, wordsFrom_sep hc]; rfl
  | cons d a ih =>
    intro cur b
    rw [List.cons_append]
    by_cases hd : regular d = true
    · rw [wordsFrom_reg hd, wordsFrom_reg hd, ih]
    · rw [wordsFrom_sep (by simpa using hd), wordsFrom_sep (by simpa using hd), List.append_assoc]
      congr 1
      by_cases h47 : d = 47
      · subst h47
        rw [words_slash, words_slash, ih]
      · by_cases hdd : delim d = true
        · rw [words_delim hdd h47, words_delim hdd h47]
          unfold words
          rw [ih]
          rfl
        · have hw : white d = true := by simp [regular, hdd] at hd; exact hd
          rw [words_white hw, words_white hw]
          unfold words
          rw [ih]
          rfl

theorem words_split {c : UInt8} (hc : regular c = false) (a b : Bytes) : words (a ++ c :: b) = words a ++ words (c :: b) := wordsFrom_split hc a [] b

/-- a character that belongs to no word that goes on -/
def Ends (d : UInt8) : Prop := regular d = false ∧ d ≠ 47

/-- there is no word across this place -/
def Sep (a b : Bytes) : Prop := a = [] ∨ b = [] ∨ (∃ a' d, a = a' ++ [d] ∧ Ends d) ∨ ∃ d b', b = d :: b' ∧ regular d = false

theorem words_end {d : UInt8} (hd : Ends d) (b : Bytes) : words (d :: b) = words [d] ++ words b := by
  by_cases hdd : delim d = true
  · rw [words_delim hdd hd.2, words_delim hdd hd.2]; rfl
  · have hw : white d = true := by have := hd.1; simp [regular, hdd] at this; exact this
    rw [words_white hw, words_white hw]; rfl

theorem words_append {a b : Bytes} (h : Sep a b) : words (a ++ b) = words a ++ words b := by
  rcases h with rfl | rfl | ⟨a', d, rfl, hd⟩ | ⟨d, b', rfl, hd⟩
  · simp [words, wordsFrom]
  · simp [words, wordsFrom]
  · rw [List.append_assoc, List.singleton_append, words_split hd.1, words_end hd]
    have := words_split hd.1 a' []
    rw [this]
    simp
  · rw [words_split hd]

theorem white_ends {c : UInt8} (hc : white c = true) : Ends c := by
  simp only [white, Bool.or_eq_true, decide_eq_true_eq] at hc
  rcases hc with ((((rfl | rfl) | rfl) | rfl) | rfl) | rfl <;> exact ⟨rfl, by decide⟩

theorem words_blanks : ∀ {a : Bytes}, (∀ c ∈ a, white c = true) → words a = [] := by
  intro a
  induction a with
  | nil => intro _; rfl
  | cons c a ih => intro h; rw [words_white (h c (by simp)), ih (fun d hd => h d (by simp [hd]))]

theorem words_around {a x b : Bytes} (ha : ∀ c ∈ a, white c = true) (hb : ∀ c ∈ b, white c = true) : words (a ++ x ++ b) = words x := by
  have h1 : Sep a x := by
    rcases List.eq_nil_or_concat a with rfl | ⟨a', d, rfl⟩
    · exact Or.inl rfl
    · exact Or.inr (Or.inr (Or.inl ⟨a', d, by simp, white_ends (ha d (by simp))⟩))
  have h2 : Sep (a ++ x) b := by
    cases b with
    | nil => exact Or.inr (Or.inl rfl)
    | cons d b => exact Or.inr (Or.inr (Or.inr ⟨d, b, rfl, (white_ends (hb d (by simp))).1⟩))
  rw [words_append h2, words_append h1, words_blanks ha, words_blanks hb]
  simp

/-! ### normal form -/

/-- equal continuations give equal words -/
theorem words_cons {c : UInt8} {t t' : Bytes} (h : ∀ cur, wordsFrom cur t = wordsFrom cur t') (cur : Bytes) : wordsFrom cur (c :: t) = wordsFrom cur (c :: t') := by
  simp only [wordsFrom, h]

theorem wordsFrom_collapse : ∀ (s : Bytes), (∀ cur, wordsFrom cur (collapseWs false s) = wordsFrom cur s) ∧ words (collapseWs true s) = words s := by
  intro s
  induction s with
  | nil => simp [collapseWs]
  | cons c t ih =>
    by_cases hw : isWs c = true
    · have hr : white c = true := by
        rw [isWs_blank] at hw
        rcases blankChar_cases hw with rfl | rfl | rfl | rfl <;> rfl
      refine ⟨fun cur => ?_, ?_⟩
      · simp only [collapseWs, hw, if_true, Bool.false_eq_true, if_false]
        rw [wordsFrom_sep (c := 32) rfl, wordsFrom_sep (white_ends hr).1, words_white (c := 32) rfl, ih.2, words_white hr]
      · simp only [collapseWs, hw, if_true]
        rw [ih.2, words_white hr]
    · have e : ∀ b, collapseWs b (c :: t) = c :: collapseWs false t := by intro b; simp [collapseWs, hw]
      rw [e, e]
      exact ⟨words_cons ih.1, words_cons ih.1 []⟩

theorem dropSp_sep {t : Bytes} (h : dropSp t = true) : ∃ c, t.head? = some c ∧ regular c = false ∧ c ≠ 32 := by
  unfold dropSp at h
  split at h <;> first | exact ⟨_, rfl, rfl, by decide⟩ | simp at h

theorem wordsFrom_strip : ∀ (s cur : Bytes), wordsFrom cur (stripQ dropSp s) = wordsFrom cur s := by
  intro s
  induction s with
  | nil => intro cur; rfl
  | cons c t ih =>
    intro cur
    simp only [stripQ]
    split
    · rename_i h
      obtain ⟨rfl, hq⟩ := h
      obtain ⟨d, hd, hr, h32⟩ := dropSp_sep hq
      rw [ih, wordsFrom_sep (c := 32) rfl, wordsFrom_flush hr hd, words_white (c := 32) rfl]
      rfl
    · exact words_cons ih cur

theorem space_sep {x : Bytes} (hx : SimpleText x) {a : Bytes} (ha : ∀ c ∈ a, c ∈ spaceBytes) (hax : ∀ c ∈ a, c ∈ x) : ∀ c ∈ a, white c = true := by
  intro c hc
  obtain ⟨h1, h2, h3, h4⟩ := simple_ascii x .ground hx c (hax c hc)
  have key : ∀ c ∈ spaceBytes, c < 127 → c ≠ 11 → white c = true := by decide
  exact key c (ha c hc) h1 h3

theorem words_normalize {x : Bytes} (hx : SimpleText x) : words (normalizeProps x) = words x := by
  rw [normalizeProps_eq]
  unfold words
  rw [wordsFrom_strip, (wordsFrom_collapse _).1]
  obtain ⟨a, b, h1, h2, h3⟩ := trimSpace_split x
  have := words_around (x := trimSpace x) (space_sep hx h2 (fun c hc => by rw [h1]; simp [hc])) (space_sep hx h3 (fun c hc => by rw [h1]; simp [hc]))
  rw [← h1] at this
  exact this.symm

/-! ### pieces -/

/-- a piece of a text that is cut out between words -/
def Piece (v s : Bytes) : Prop := ∃ a b, s = a ++ v ++ b ∧ (v = [] ∨ ((∃ a' d, a = a' ++ [d] ∧ Ends d) ∨ ∃ d v', v = d :: v' ∧ regular d = false) ∧ Sep v b)

theorem Piece.cons {v s : Bytes} (h : Piece v s) (c : UInt8) : Piece v (c :: s) := by
  obtain ⟨a, b, rfl, h⟩ := h
  refine ⟨c :: a, b, rfl, ?_⟩
  rcases h with rfl | ⟨h, hs⟩
  · exact Or.inl rfl
  · right
    refine ⟨?_, hs⟩
    rcases h with ⟨a', d, rfl, hd⟩ | h
    · exact Or.inl ⟨c :: a', d, rfl, hd⟩
    · exact Or.inr h

theorem Piece.nil (s : Bytes) : Piece [] s := ⟨[], s, rfl, Or.inl rfl⟩

theorem Piece.words {v s : Bytes} (h : Piece v s) : words v <:+: words s := by
  obtain ⟨a, b, rfl, h⟩ := h
  rcases h with rfl | ⟨h, hs⟩
  · exact ⟨[], Spec.words _, rfl⟩
  · have h1 : Sep a v := by
      rcases h with h | h
      · exact Or.inr (Or.inr (Or.inl h))
      · exact Or.inr (Or.inr (Or.inr h))
    by_cases hv : v = []
    · subst hv; exact ⟨[], Spec.words _, rfl⟩
    · have h2 : Sep (a ++ v) b := by
        rcases hs with h | h | ⟨v', d, rfl, hd⟩ | h
        · exact absurd h hv
        · exact Or.inr (Or.inl h)
        · exact Or.inr (Or.inr (Or.inl ⟨a ++ v', d, by simp, hd⟩))
        · exact Or.inr (Or.inr (Or.inr h))
      rw [words_append h2, words_append h1]
      exact ⟨Spec.words a, Spec.words b, rfl⟩

theorem Piece.infix {v s : Bytes} (h : Piece v s) : v <:+: s := by
  obtain ⟨a, b, rfl, _⟩ := h
  exact ⟨a, b, rfl⟩

theorem run_pieces : ∀ (s : Bytes), (∀ c ∈ s, c < 127) → (∀ p ∈ run .top s, Piece p.rawVal s) ∧ (∀ k, ∀ p ∈ run (.key k) s, Piece p.rawVal s) ∧
    ∀ k v c1 c2, ∀ p ∈ run (.val k v c1 c2) s, (∃ v' b, s = v' ++ b ∧ p.rawVal = v ++ v' ∧ Sep p.rawVal b) ∨ Piece p.rawVal s := by
  intro s
  induction s with
  | nil =>
    intro _
    refine ⟨by simp [run], ?_, ?_⟩
    · intro k p hp
      simp [run] at hp
      subst hp
      exact Piece.nil _
    · intro k v c1 c2 p hp
      simp [run] at hp
      subst hp
      exact Or.inl ⟨[], [], rfl, by simp, Or.inr (Or.inl rfl)⟩
  | cons c t ih =>
    intro ha
    obtain ⟨i1, i2, i3⟩ := ih (fun d hd => ha d (by simp [hd]))
    have hc : c < 128 := by have := ha c (by simp); exact UInt8.lt_trans this (by decide)
    refine ⟨?_, ?_, ?_⟩
    · intro p hp
      simp only [run] at hp
      split at hp
      · exact (i2 _ p hp).cons c
      · exact (i1 p hp).cons c
    · intro k p hp
      simp only [run] at hp
      split at hp
      · rename_i h32
        subst h32
        rcases i3 _ _ _ _ p hp with ⟨v', b, rfl, h2, h3⟩ | h
        · rw [List.nil_append] at h2
          rw [h2] at h3 ⊢
          exact ⟨[32], b, rfl, Or.inr ⟨Or.inl ⟨[], 32, rfl, rfl, by decide⟩, h3⟩⟩
        · exact h.cons _
      · split at hp
        · rename_i hb
          rcases i3 _ _ _ _ p hp with ⟨v', b, rfl, h2, h3⟩ | h
          · refine ⟨[], b, by rw [h2]; simp, Or.inr ⟨Or.inr ⟨c, v', h2, ?_⟩, h3⟩⟩
            rcases hb with rfl | rfl <;> rfl
          · exact h.cons _
        · split at hp
          · rcases List.mem_cons.1 hp with rfl | hp
            · exact Piece.nil _
            · exact (i2 _ p hp).cons c
          · exact (i2 _ p hp).cons c
    · intro k v c1 c2 p hp
      simp only [run] at hp
      split at hp
      · rename_i hcl
        rcases List.mem_cons.1 hp with rfl | hp
        · refine Or.inl ⟨[c], t, rfl, rfl, Or.inr (Or.inr (Or.inl ⟨v, c, rfl, ?_⟩))⟩
          rcases hcl.1 with rfl | rfl <;> exact ⟨rfl, by decide⟩
        · exact Or.inr ((i1 p hp).cons c)
      · split at hp
        · rename_i h47
          rcases List.mem_cons.1 hp with rfl | hp
          · exact Or.inl ⟨[], c :: t, rfl, by simp, Or.inr (Or.inr (Or.inr ⟨c, t, rfl, by rw [h47.1]; rfl⟩))⟩
          · exact Or.inr ((i2 _ p hp).cons c)
        · rw [byteAsRune_ascii hc] at hp
          rcases i3 _ _ _ _ p hp with ⟨v', b, rfl, h2, h3⟩ | h
          · exact Or.inl ⟨c :: v', b, rfl, by rw [h2]; simp, h3⟩
          · exact Or.inr (h.cons _)

/-- The values that are read are pieces of the text in normal form. -/
theorem parse_pieces {x : Bytes} (hx : SimpleText x) : ∀ p ∈ parseProps (normalizeProps x), Piece p.rawVal (normalizeProps x) := by
  rw [parseProps_eq_run]
  exact (run_pieces _ (fun c hc => (simple_ascii _ _ (normalize_lex hx).2 c hc).1)).1

end Verif
