import Verif.Spec.Plain
import Verif.Lemmas.Object
import Verif.Lemmas.Norm
import Verif.Lemmas.Rewrite
/-
The white space that `readProperties` removes is not read by an independent reader of objects.
-/
namespace Verif
open Spec

def NoLit (m : Mode) : Prop := (∀ d e c, m ≠ .lit d e c) ∧ m ≠ .comment

theorem blankChar_cases {c : UInt8} (h : blankChar c = true) : c = 9 ∨ c = 10 ∨ c = 13 ∨ c = 32 := by
  simp [blankChar] at h; tauto

theorem isWs_blank (c : UInt8) : isWs c = blankChar c := by
  simp only [isWs, blankChar]
  by_cases h1 : c = 32 <;> by_cases h2 : c = 9 <;> by_cases h3 : c = 10 <;> by_cases h4 : c = 13 <;> simp [h1, h2, h3, h4]

/-- all blanks are read alike -/
theorem lexStep_blank {m : Mode} (hm : NoLit m) {c : UInt8} (h : blankChar c = true) : lexStep m c = lexStep m 32 := by
  have hw : lexStart c = lexStart 32 := by rcases blankChar_cases h with rfl | rfl | rfl | rfl <;> decide
  have hr : regular c = false := by rcases blankChar_cases h with rfl | rfl | rfl | rfl <;> decide
  have hr' : regular 32 = false := by decide
  cases m with
  | ground => exact hw
  | word cur => simp [lexStep, hr, hr', hw]
  | lit d e cur => exact absurd rfl (hm.1 d e cur)
  | hex cur => rcases blankChar_cases h with rfl | rfl | rfl | rfl <;> rfl
  | comment => exact absurd rfl hm.2
  | lt => rcases blankChar_cases h with rfl | rfl | rfl | rfl <;> rfl
  | gt => rcases blankChar_cases h with rfl | rfl | rfl | rfl <;> rfl

/-- after a blank further blanks change nothing -/
def Stable (m : Mode) : Prop := NoLit m ∧ lexStep m 32 = ([], m)

theorem stable_after {m : Mode} (hm : NoLit m) : Stable (lexStep m 32).2 := by
  cases m with
  | ground => exact ⟨⟨by intros; simp [lexStep, lexStart, white], by simp [lexStep, lexStart, white]⟩, rfl⟩
  | word cur => exact ⟨⟨by intros; simp [lexStep, lexStart, white, regular], by simp [lexStep, lexStart, white, regular]⟩, by simp [lexStep, lexStart, white, regular]⟩
  | lit d e cur => exact absurd rfl (hm.1 d e cur)
  | hex cur => exact ⟨⟨by intros; simp [lexStep, white], by simp [lexStep, white]⟩, by simp [lexStep, white]⟩
  | comment => exact absurd rfl hm.2
  | lt => exact ⟨⟨by intros; simp [lexStep, white], by simp [lexStep, white]⟩, by simp [lexStep, white]⟩
  | gt => exact ⟨⟨by intros; simp [lexStep, lexStart, white], by simp [lexStep, lexStart, white]⟩, by simp [lexStep, lexStart, white]⟩

theorem simple_cons {m : Mode} {c : UInt8} {s : Bytes} : simpleFrom m (c :: s) = true ↔ simpleByte m c s = true ∧ simpleFrom (lexStep m c).2 s = true := by
  cases m <;> simp [simpleFrom]

/-- blanks are simple everywhere but in parentheses -/
theorem simple_blank {m : Mode} {c : UInt8} {s : Bytes} (hm : NoLit m) (hb : blankChar c = true) (h : simpleByte m c s = true) (t : Bytes) : simpleByte m 32 t = true := by
  cases m with
  | ground => rfl
  | word cur => rfl
  | lit d e cur => exact absurd rfl (hm.1 d e cur)
  | hex cur => rfl
  | comment => exact absurd rfl hm.2
  | lt => rfl
  | gt => rcases blankChar_cases hb with rfl | rfl | rfl | rfl <;> simp [simpleByte] at h

/-- what is simple does not depend on the rest but in parentheses -/
theorem simple_rest {m : Mode} {c : UInt8} {s t : Bytes} (h : simpleByte m c s = true) (hh : s.head? = t.head? ∨ t.head? ≠ some 32) : simpleByte m c t = true := by
  cases m with
  | lit d e cur =>
    simp only [simpleByte, Bool.and_eq_true] at h ⊢
    refine ⟨h.1, ?_⟩
    rcases hh with hh | hh
    · rw [← hh]; exact h.2
    · simp [hh]
  | _ => exact h

theorem noLit_dec (m : Mode) : NoLit m ∨ (∃ d e c, m = .lit d e c) ∨ m = .comment := by
  cases m <;> simp [NoLit]

/-- joining white space to single blanks does not change what is read -/
theorem collapse_lex : ∀ (s : Bytes) (b : Bool) (m : Mode), simpleFrom m s = true → (b = true → Stable m ∨ (∀ c, s.head? = some c → blankChar c = false)) →
    lexer m (collapseWs b s) = lexer m s ∧ simpleFrom m (collapseWs b s) = true ∧ (b = true → (collapseWs b s).head? ≠ some 32) ∧
      (∀ c, s.head? = some c → blankChar c = false → (collapseWs b s).head? = some c) := by
  intro s
  induction s with
  | nil => intro b m hs _; exact ⟨rfl, hs, by simp [collapseWs], by simp⟩
  | cons c t ih =>
    intro b m hs hb
    obtain ⟨h1, h2⟩ := simple_cons.1 hs
    by_cases hc : blankChar c = true
    · have hw : isWs c = true := by rw [isWs_blank]; exact hc
      rcases noLit_dec m with hm | ⟨d, e, cur, rfl⟩ | rfl
      · have hst : Stable (lexStep m c).2 := by rw [lexStep_blank hm hc]; exact stable_after hm
        obtain ⟨i1, i2, i3, i4⟩ := ih true _ h2 (fun _ => Or.inl hst)
        by_cases hbb : b = true
        · subst hbb
          rcases hb rfl with hb | hb
          · have he : lexStep m c = ([], m) := by rw [lexStep_blank hm hc]; exact hb.2
            rw [he] at i1 i2
            simp only [collapseWs, hw, if_true]
            refine ⟨?_, i2, fun _ => i3 rfl, ?_⟩
            · rw [i1]; simp [lexer, he]
            · intro c' h h'; simp at h; subst h; simp [hc] at h'
          · exact absurd hc (by simp [hb c rfl])
        · have hbb : b = false := by simpa using hbb
          subst hbb
          simp only [collapseWs, hw, if_true, Bool.false_eq_true, if_false]
          refine ⟨?_, ?_, by simp, ?_⟩
          · simp only [lexer]
            rw [lexStep_blank hm hc] at i1 ⊢
            rw [i1]
          · rw [simple_cons]
            refine ⟨simple_blank hm hc h1 _, ?_⟩
            rw [lexStep_blank hm hc] at i2
            exact i2
          · intro c' h h'; simp at h; subst h; simp [hc] at h'
      · -- a blank in parentheses stands alone
        have hc32 : c = 32 ∧ t.head? ≠ some 32 := by
          simp only [simpleByte, Bool.and_eq_true, Bool.or_eq_true, decide_eq_true_eq] at h1
          rcases blankChar_cases hc with rfl | rfl | rfl | rfl
          · exact absurd h1.1.1.1.1.1.1.1 (by decide)
          · exact absurd h1.1.1.1.1.1.1.1 (by decide)
          · exact absurd h1.1.1.1.1.1.1.1 (by decide)
          · refine ⟨rfl, ?_⟩
            rcases h1.2 with h | h
            · exact absurd h (by decide)
            · simpa using h
        obtain ⟨rfl, ht⟩ := hc32
        have htb : ∀ c, t.head? = some c → blankChar c = false := by
          intro c' hc'
          cases t with
          | nil => simp at hc'
          | cons x t' =>
            simp at hc'; subst hc'
            have hx := (simple_cons.1 h2).1
            have hx32 : x ≠ 32 := by simpa using ht
            have hm' : ∃ d' e' cur', (lexStep (.lit d e cur) 32).2 = .lit d' e' cur' := by
              cases e <;> simp [lexStep]
            obtain ⟨d', e', cur', hm'⟩ := hm'
            rw [hm'] at hx
            simp only [simpleByte, Bool.and_eq_true, decide_eq_true_eq] at hx
            have h32 := hx.1.1.1.1.1.1.1
            by_contra hbl
            rcases blankChar_cases (by simpa using hbl) with rfl | rfl | rfl | rfl
            · exact absurd h32 (by decide)
            · exact absurd h32 (by decide)
            · exact absurd h32 (by decide)
            · exact hx32 rfl
        obtain ⟨i1, i2, i3, i4⟩ := ih true _ h2 (fun _ => Or.inr htb)
        by_cases hbb : b = true
        · subst hbb
          rcases hb rfl with hb | hb
          · exact absurd rfl (hb.1.1 d e cur)
          · exact absurd (hb 32 rfl) (by decide)
        · have hbb : b = false := by simpa using hbb
          subst hbb
          simp only [collapseWs, hw, if_true, Bool.false_eq_true, if_false]
          refine ⟨?_, ?_, by simp, ?_⟩
          · simp only [lexer, i1]
          · rw [simple_cons]
            exact ⟨simple_rest h1 (Or.inr (i3 rfl)), i2⟩
          · intro c' h h'; simp at h; subst h; simp [hc] at h'
      · exact absurd h1 (by simp [simpleByte])
    · have hw : isWs c = false := by rw [isWs_blank]; simpa using hc
      obtain ⟨i1, i2, i3, i4⟩ := ih false _ h2 (by simp)
      simp only [collapseWs, hw, Bool.false_eq_true, if_false]
      refine ⟨by simp only [lexer, i1], ?_, ?_, ?_⟩
      · rw [simple_cons]
        refine ⟨?_, i2⟩
        cases t with
        | nil => simpa [collapseWs] using h1
        | cons x t' =>
          by_cases hx : blankChar x = true
          · have : (collapseWs false (x :: t')).head? = some 32 := by
              have : isWs x = true := by rw [isWs_blank]; exact hx
              simp [collapseWs, this]
            by_cases hx2 : x = 32
            · subst hx2; exact simple_rest h1 (Or.inl (by rw [this]; rfl))
            · cases m with
              | lit d e cur =>
                simp only [simpleByte, Bool.and_eq_true, Bool.or_eq_true, decide_eq_true_eq] at h1 ⊢
                refine ⟨h1.1, Or.inl ?_⟩
                intro e; subst e; exact hc rfl
              | _ => exact h1
          · exact simple_rest h1 (Or.inl (i4 x rfl (by simpa using hx)).symm)
      · intro _ h
        simp at h; subst h; exact hc rfl
      · intro c' h _; simp at h; subst h; rfl

theorem simple_rest' {m : Mode} {c : UInt8} {s t : Bytes} (h : simpleByte m c s = true) (hh : c = 32 → s.head? ≠ some 32 → t.head? ≠ some 32) : simpleByte m c t = true := by
  cases m with
  | lit d e cur =>
    simp only [simpleByte, Bool.and_eq_true, Bool.or_eq_true, decide_eq_true_eq] at h ⊢
    refine ⟨h.1, ?_⟩
    by_cases hc : c = 32
    · right
      refine hh hc ?_
      rcases h.2 with h2 | h2
      · exact absurd hc h2
      · exact h2
    · exact Or.inl hc
  | _ => exact h

theorem lexer_cons (m : Mode) (c : UInt8) (s : Bytes) : lexer m (c :: s) = ((lexStep m c).1 ++ (lexer (lexStep m c).2 s).1, (lexer (lexStep m c).2 s).2) := rfl

/-- white space at the end of a text -/
theorem trimR_lex : ∀ (y : Bytes) (m : Mode) (w : Bytes), (∀ c ∈ w, blankChar c = true) → simpleFrom m (y ++ w) = true →
    simpleFrom m y = true ∧ lexer m (y ++ w ++ [32]) = lexer m (y ++ [32]) := by
  intro y
  induction y with
  | nil =>
    intro m w
    induction w generalizing m with
    | nil => intro _ h; exact ⟨h, rfl⟩
    | cons c t ih =>
      intro hb h
      obtain ⟨h1, h2⟩ := simple_cons.1 h
      have hc := hb c (by simp)
      obtain ⟨i1, i2⟩ := ih (lexStep m c).2 (fun d hd => hb d (by simp [hd])) h2
      rcases noLit_dec m with hm | ⟨d, e, cur, rfl⟩ | rfl
      · rw [lexStep_blank hm hc] at i1 i2
        constructor
        · cases m with
          | ground => rfl
          | word cur => rfl
          | lit d e cur => exact absurd rfl (hm.1 d e cur)
          | hex cur => simp [lexStep, white, simpleFrom] at i1
          | comment => exact absurd rfl hm.2
          | lt => simp [lexStep, white, simpleFrom] at i1
          | gt => rcases blankChar_cases hc with rfl | rfl | rfl | rfl <;> simp [simpleByte] at h1
        · simp only [List.nil_append, List.cons_append] at i2 ⊢
          rw [lexer_cons, lexStep_blank hm hc, i2, lexer_cons m 32, lexer_cons _ 32, (stable_after hm).2]
          simp
      · cases e <;> rcases blankChar_cases hc with rfl | rfl | rfl | rfl <;> simp [lexStep, simpleFrom] at i1
      · simp [simpleByte] at h1
  | cons c y ih =>
    intro m w hb h
    obtain ⟨h1, h2⟩ := simple_cons.1 h
    obtain ⟨i1, i2⟩ := ih _ w hb h2
    constructor
    · rw [simple_cons]
      refine ⟨simple_rest' h1 ?_, i1⟩
      intro _ hh
      cases y with
      | nil => simp
      | cons d y => simpa using hh
    · simp only [List.cons_append] at i2 ⊢
      rw [lexer_cons, lexer_cons, i2]

theorem trimL_lex : ∀ (w y : Bytes), (∀ c ∈ w, blankChar c = true) → simpleFrom .ground (w ++ y) = true →
    simpleFrom .ground y = true ∧ ∀ z, lexer .ground (w ++ z) = lexer .ground z := by
  intro w y
  induction w with
  | nil => intro _ h; exact ⟨h, fun _ => rfl⟩
  | cons c w ih =>
    intro hb h
    have hc := hb c (by simp)
    have he : lexStep .ground c = ([], .ground) := by rcases blankChar_cases hc with rfl | rfl | rfl | rfl <;> rfl
    obtain ⟨_, h2⟩ := simple_cons.1 h
    rw [he] at h2
    obtain ⟨i1, i2⟩ := ih (fun d hd => hb d (by simp [hd])) h2
    refine ⟨i1, fun z => ?_⟩
    rw [List.cons_append, lexer_cons, he, i2]
    simp

/-- the blanks that are removed separate nothing -/
theorem drop_lex {m : Mode} {t : Bytes} (h : simpleFrom m (32 :: t) = true) (hq : dropSp t = true) :
    lexer m (32 :: t) = lexer m t ∧ simpleFrom m t = true := by
  obtain ⟨h1, h2⟩ := simple_cons.1 h
  obtain ⟨c, u, rfl, hc⟩ : ∃ c u, t = c :: u ∧ (c = 47 ∨ c = 91 ∨ c = 93 ∨ c = 60 ∨ c = 62) := by
    obtain ⟨u, hu | hu | hu | hu | hu⟩ := (dropSp_iff t).1 hq
    all_goals exact ⟨_, _, hu, by simp⟩
  have hr : regular c = false := by rcases hc with rfl | rfl | rfl | rfl | rfl <;> decide
  have hs : simpleChar c = true ∧ c ≠ 40 := by rcases hc with rfl | rfl | rfl | rfl | rfl <;> decide
  cases m with
  | ground =>
    refine ⟨?_, h2⟩
    rw [lexer_cons]
    simp [lexStep, lexStart, white]
  | word cur =>
    have h32 : lexStep (.word cur) 32 = ([wordTok cur], .ground) := by simp [lexStep, regular, white, lexStart]
    rw [h32] at h2
    have hstep : lexStep (.word cur) c = (wordTok cur :: (lexStart c).1, (lexStart c).2) := by simp [lexStep, hr]
    constructor
    · rw [lexer_cons, h32, lexer_cons, lexer_cons, hstep]
      simp [lexStep]
    · obtain ⟨_, k2⟩ := simple_cons.1 h2
      rw [simple_cons, hstep]
      exact ⟨by simp [simpleByte, hs], k2⟩
  | lit d e cur =>
    obtain ⟨k1, _⟩ := simple_cons.1 h2
    have hm' : ∃ d' e' cur', (lexStep (.lit d e cur) 32).2 = .lit d' e' cur' := by
      cases e <;> simp [lexStep]
    obtain ⟨d', e', cur', hm'⟩ := hm'
    rw [hm'] at k1
    rcases hc with rfl | rfl | rfl | rfl | rfl <;> simp [simpleByte] at k1
  | hex cur =>
    have h32 : lexStep (.hex cur) 32 = ([], .hex cur) := by simp [lexStep, white]
    rw [h32] at h2
    exact ⟨by rw [lexer_cons, h32]; simp, h2⟩
  | comment => simp [simpleByte] at h1
  | lt =>
    have h32 : lexStep .lt 32 = ([], .hex []) := rfl
    rw [h32] at h2
    obtain ⟨k1, k2⟩ := simple_cons.1 h2
    have : c = 62 := by
      rcases hc with rfl | rfl | rfl | rfl | rfl <;> first | rfl | exact absurd k1 (by simp [simpleByte, Spec.hexDigit, blankChar])
    subst this
    have e1 : lexStep (.hex []) 62 = ([.hex []], .ground) := rfl
    have e2 : lexStep .lt 62 = ([.hex []], .ground) := rfl
    constructor
    · rw [lexer_cons, h32, lexer_cons, lexer_cons, e1, e2]; simp
    · rw [simple_cons, e2]
      exact ⟨rfl, by rw [e1] at k2; exact k2⟩
  | gt => simp [simpleByte] at h1

theorem stripQ_head {q : Bytes → Bool} {t : Bytes} (h : t.head? ≠ some 32) : (stripQ q t).head? = t.head? := by
  cases t with
  | nil => rfl
  | cons c t =>
    have : c ≠ 32 := by simpa using h
    simp [stripQ, this]

theorem strip_lex : ∀ (s : Bytes) (m : Mode), simpleFrom m s = true →
    lexer m (stripQ dropSp s) = lexer m s ∧ simpleFrom m (stripQ dropSp s) = true := by
  intro s
  induction s with
  | nil => intro m h; exact ⟨rfl, h⟩
  | cons c t ih =>
    intro m h
    unfold stripQ
    split
    · rename_i hc
      obtain ⟨rfl, hq⟩ := hc
      obtain ⟨d1, d2⟩ := drop_lex h hq
      obtain ⟨i1, i2⟩ := ih m d2
      exact ⟨by rw [i1, d1], i2⟩
    · obtain ⟨h1, h2⟩ := simple_cons.1 h
      obtain ⟨i1, i2⟩ := ih _ h2
      refine ⟨by rw [lexer_cons, i1, lexer_cons], ?_⟩
      rw [simple_cons]
      refine ⟨simple_rest' h1 ?_, i2⟩
      intro _ hh
      rw [stripQ_head hh]; exact hh

theorem simple_ascii : ∀ (s : Bytes) (m : Mode), simpleFrom m s = true → ∀ c ∈ s, c < 127 ∧ c ≠ 0 ∧ c ≠ 11 ∧ c ≠ 12 := by
  intro s
  induction s with
  | nil => intro m _; simp
  | cons d t ih =>
    intro m h c hc
    obtain ⟨h1, h2⟩ := simple_cons.1 h
    rcases List.mem_cons.1 hc with rfl | hc
    · have key : (blankChar c = true ∨ (32 ≤ c ∧ c ≤ 126)) := by
        cases m with
        | ground => simp [simpleByte, simpleChar] at h1; rcases h1 with h | h <;> [exact Or.inl h; exact Or.inr ⟨UInt8.le_trans (by decide) h.1.1.1, h.1.1.2⟩]
        | word cur => simp [simpleByte, simpleChar] at h1; rcases h1.1 with h | h <;> [exact Or.inl h; exact Or.inr ⟨UInt8.le_trans (by decide) h.1.1.1, h.1.1.2⟩]
        | lit d e cur => simp [simpleByte] at h1; exact Or.inr ⟨h1.1.1.1.1.1.1.1, h1.1.1.1.1.1.1.2⟩
        | hex cur =>
          simp [simpleByte, Spec.hexDigit] at h1
          rcases h1 with (((h | h) | h) | h) | h
          · exact Or.inr ⟨UInt8.le_trans (by decide) h.1, UInt8.le_trans h.2 (by decide)⟩
          · exact Or.inr ⟨UInt8.le_trans (by decide) h.1, UInt8.le_trans h.2 (by decide)⟩
          · exact Or.inr ⟨UInt8.le_trans (by decide) h.1, UInt8.le_trans h.2 (by decide)⟩
          · exact Or.inl h
          · subst h; exact Or.inr (by decide)
        | comment => simp [simpleByte] at h1
        | lt =>
          simp [simpleByte, Spec.hexDigit] at h1
          rcases h1 with ((h | (h | h) | h) | h) | h
          · subst h; exact Or.inr (by decide)
          · exact Or.inr ⟨UInt8.le_trans (by decide) h.1, UInt8.le_trans h.2 (by decide)⟩
          · exact Or.inr ⟨UInt8.le_trans (by decide) h.1, UInt8.le_trans h.2 (by decide)⟩
          · exact Or.inr ⟨UInt8.le_trans (by decide) h.1, UInt8.le_trans h.2 (by decide)⟩
          · exact Or.inl h
          · subst h; exact Or.inr (by decide)
        | gt => simp [simpleByte] at h1; subst h1; exact Or.inr (by decide)
      rcases key with hb | ⟨ha, hb⟩
      · rcases blankChar_cases hb with rfl | rfl | rfl | rfl <;> decide
      · rw [UInt8.le_iff_toNat_le] at ha hb
        refine ⟨by rw [UInt8.lt_iff_toNat_lt]; have : (126 : UInt8).toNat = 126 := rfl; have : (127 : UInt8).toNat = 127 := rfl; omega, ?_, ?_, ?_⟩ <;>
          (rintro rfl; revert ha; decide)
    · exact ih _ h2 c hc

/-- The normalisation of white space does not change what is read. -/
theorem normalize_lex {x : Bytes} (h : SimpleText x) :
    lexer .ground (normalizeProps x ++ [32]) = lexer .ground (x ++ [32]) ∧ SimpleText (normalizeProps x) := by
  rw [normalizeProps_eq]
  have hasc : Ascii x := fun c hc => UInt8.lt_trans (simple_ascii x _ h c hc).1 (by decide)
  have hsp : ∀ c ∈ x, isSp c = true → blankChar c = true := by
    intro c hc hs
    obtain ⟨_, k0, k1, k2⟩ := simple_ascii x _ h c hc
    simp [isSp] at hs
    simp [blankChar]; tauto
  obtain ⟨w1, y, w2, hx, hw1, hw2, hy⟩ : ∃ w1 y w2, x = w1 ++ (y ++ w2) ∧ (∀ c ∈ w1, isSp c = true) ∧ (∀ c ∈ w2, isSp c = true) ∧ trimSpace x = y := by
    rw [trimSpace_ascii hasc]
    refine ⟨x.takeWhile isSp, _, ((x.dropWhile isSp).reverse.takeWhile isSp).reverse, ?_, ?_, ?_, rfl⟩
    · rw [← List.reverse_append, List.takeWhile_append_dropWhile, List.reverse_reverse, List.takeWhile_append_dropWhile]
    · intro c hc; exact List.all_eq_true.1 List.all_takeWhile c hc
    · intro c hc; exact List.all_eq_true.1 List.all_takeWhile c (List.mem_reverse.1 hc)
  rw [hy]
  unfold SimpleText at h ⊢
  have hw1' : ∀ c ∈ w1, blankChar c = true := fun c hc => hsp c (by rw [hx]; simp [hc]) (hw1 c hc)
  have hw2' : ∀ c ∈ w2, blankChar c = true := fun c hc => hsp c (by rw [hx]; simp [hc]) (hw2 c hc)
  rw [hx] at h ⊢
  obtain ⟨a1, a2⟩ := trimL_lex w1 _ hw1' h
  obtain ⟨b1, b2⟩ := trimR_lex y .ground w2 hw2' a1
  obtain ⟨c1, c2, _, _⟩ := collapse_lex y false .ground b1 (by simp)
  obtain ⟨d1, d2⟩ := strip_lex _ .ground c2
  refine ⟨?_, d2⟩
  have e : ∀ (u v : Bytes), lexer .ground u = lexer .ground v → lexer .ground (u ++ [32]) = lexer .ground (v ++ [32]) := by
    intro u v huv; rw [lexer_append, lexer_append, huv]
  rw [e _ _ (d1.trans c1), List.append_assoc, a2, b2]

end Verif
