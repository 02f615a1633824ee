import Verif.Theorems.StdEdit
import Verif.Lemmas.Flat
import Verif.Lemmas.Stream
/-
The texts of values that are dictionaries, references, and arrays of references.
-/
namespace Verif
open Spec

/-! ### dictionaries -/

theorem first_lit : ∀ (s : Bytes) (d : Nat) (e : Bool) (cur : Bytes), (lexer (.lit d e cur) s).1 = [] ∨ ∃ w us, (lexer (.lit d e cur) s).1 = .lit w :: us := by
  intro s
  induction s with
  | nil => intro d e cur; exact Or.inl rfl
  | cons c s ih =>
    intro d e cur
    rw [lexer_cons]
    cases e with
    | true => simp only [lexStep, List.nil_append]; exact ih _ _ _
    | false =>
      simp only [lexStep]
      split
      · exact ih _ _ _
      · split
        · exact ih _ _ _
        · split
          · cases d with
            | zero => exact Or.inr ⟨cur, _, rfl⟩
            | succ d => exact ih _ _ _
          · exact ih _ _ _

theorem first_hex : ∀ (s : Bytes) (cur : Bytes), (lexer (.hex cur) s).1 = [] ∨ ∃ w us, (lexer (.hex cur) s).1 = .hex w :: us := by
  intro s
  induction s with
  | nil => intro cur; exact Or.inl rfl
  | cons c s ih =>
    intro cur
    rw [lexer_cons]
    simp only [lexStep]
    split
    · exact Or.inr ⟨cur, _, rfl⟩
    · split
      · exact ih _
      · exact ih _

/-- a word is no bracket -/
theorem wordTok_cases (w : Bytes) : (∃ n, wordTok w = .name n) ∨ (∃ q, wordTok w = .num q) ∨ ∃ x, wordTok w = .op x := by
  unfold wordTok
  split
  · exact Or.inl ⟨_, rfl⟩
  · split
    · exact Or.inr (Or.inl ⟨_, rfl⟩)
    · exact Or.inr (Or.inr ⟨_, rfl⟩)

theorem dictOpen_split : ∀ (r : Bytes) (us : List Lexeme), simpleFrom .ground r = true → (∀ c ∈ r, c ≠ 9 ∧ c ≠ 10 ∧ c ≠ 13) → (lexer .ground (r ++ [32])).1 = .dictOpen :: us →
    ∃ pre t, r = pre ++ 60 :: 60 :: t ∧ (∀ c ∈ pre, c = 32) ∧ simpleFrom .ground t = true ∧ (lexer .ground (t ++ [32])).1 = us := by
  intro r
  induction r with
  | nil => intro us _ _ h; simp [lexer, lexStep, lexStart, white] at h
  | cons c r ih =>
    intro us hs hb hl
    obtain ⟨h1, h2⟩ := simple_cons.1 hs
    rw [List.cons_append, lexer_cons] at hl
    have hno : ∀ {k : Bytes}, (lexer (.word k) (r ++ [32])).1 = .dictOpen :: us → False := by
      intro k hk
      obtain ⟨k', us', e⟩ := word_first r k
      rw [hk] at e
      simp only [List.cons.injEq] at e
      rcases wordTok_cases (k ++ k') with ⟨n, h⟩ | ⟨n, h⟩ | ⟨n, h⟩ <;> rw [h] at e <;> cases e.1
    rcases char_cases h1 (hb c (by simp)) with rfl | ⟨_, e⟩ | rfl | rfl | rfl | rfl | rfl | rfl
    · obtain ⟨pre, t, rfl, j2, j3, j4⟩ := ih us h2 (fun d hd => hb d (by simp [hd])) hl
      refine ⟨32 :: pre, t, rfl, ?_, j3, j4⟩
      intro d hd
      rcases List.mem_cons.1 hd with rfl | hd
      · rfl
      · exact j2 d hd
    · exfalso
      rw [show lexStep .ground c = lexStart c from rfl, e] at hl
      exact hno hl
    · exfalso
      have hl : (lexer (.lit 0 false []) (r ++ [32])).1 = .dictOpen :: us := hl
      rcases first_lit (r ++ [32]) 0 false [] with h | ⟨w, us', h⟩ <;> rw [h] at hl <;> cases hl
    · have hl : (lexer .lt (r ++ [32])).1 = .dictOpen :: us := hl
      have h2 : simpleFrom .lt r = true := h2
      cases r with
      | nil => simp [simpleFrom] at h2
      | cons c s =>
        obtain ⟨k1, k2⟩ := simple_cons.1 h2
        rw [List.cons_append, lexer_cons] at hl
        by_cases h60 : c = 60
        · subst h60
          have hl : .dictOpen :: (lexer .ground (s ++ [32])).1 = .dictOpen :: us := hl
          simp only [List.cons.injEq, true_and] at hl
          exact ⟨[], s, rfl, by simp, k2, hl⟩
        · exfalso
          simp only [lexStep, h60, if_false] at hl
          split at hl
          · simp at hl
          · split at hl
            · rcases first_hex (s ++ [32]) [] with h | ⟨w, us', h⟩ <;> rw [h] at hl <;> cases hl
            · rcases first_hex (s ++ [32]) [c] with h | ⟨w, us', h⟩ <;> rw [h] at hl <;> cases hl
    · exfalso
      have h2 : simpleFrom .gt r = true := h2
      have hl : (lexer .gt (r ++ [32])).1 = .dictOpen :: us := hl
      cases r with
      | nil => simp [simpleFrom] at h2
      | cons c s =>
        obtain ⟨h1, _⟩ := simple_cons.1 h2
        simp only [simpleByte, decide_eq_true_eq] at h1
        subst h1
        rw [List.cons_append, lexer_cons, show lexStep .gt 62 = ([.dictClose], .ground) from rfl] at hl
        simp at hl
    · exfalso
      have hl : .open :: (lexer .ground (r ++ [32])).1 = .dictOpen :: us := hl
      simp at hl
    · exfalso
      have hl : .close :: (lexer .ground (r ++ [32])).1 = .dictOpen :: us := hl
      simp at hl
    · exfalso
      exact hno hl

/-- where a bracket `>` may be waiting for its second half -/
theorem gt_last {y : Bytes} {m : Mode} (hm : m ≠ .gt) (h : (lexer m y).2 = .gt) : ∃ z, y = z ++ [62] ∧ ((lexer m z).2 = .ground ∨ (lexer m z).2 = .gt ∨ ∃ cur, (lexer m z).2 = .word cur) := by
  rcases List.eq_nil_or_concat y with rfl | ⟨z, c, rfl⟩
  · exact absurd h hm
  · rw [List.concat_eq_append] at h ⊢
    rw [lexer_append] at h
    simp only [lexer] at h
    have hs : ∀ c : UInt8, (lexStart c).2 = .gt → c = 62 := by
      intro c hc
      unfold lexStart at hc
      split at hc
      · cases hc
      · split at hc
        · cases hc
        · split at hc
          · cases hc
          · split at hc
            · cases hc
            · split at hc
              · assumption
              · split at hc
                · cases hc
                · split at hc <;> cases hc
    generalize hk : (lexer m z).2 = k at h
    cases k with
    | ground => exact ⟨z, by rw [hs c h], Or.inl hk⟩
    | word cur =>
      simp only [lexStep] at h
      split at h
      · cases h
      · exact ⟨z, by rw [hs c h], Or.inr (Or.inr ⟨cur, hk⟩)⟩
    | lit d e cur =>
      cases e with
      | true => cases h
      | false =>
        simp only [lexStep] at h
        split at h
        · cases h
        · split at h
          · cases h
          · split at h
            · cases d <;> cases h
            · cases h
    | hex cur =>
      simp only [lexStep] at h
      split at h
      · cases h
      · split at h <;> cases h
    | comment =>
      simp only [lexStep] at h
      split at h <;> cases h
    | lt =>
      simp only [lexStep] at h
      split at h
      · cases h
      · split at h
        · cases h
        · split at h <;> cases h
    | gt =>
      simp only [lexStep] at h
      split at h
      · cases h
      · exact ⟨z, by rw [hs c h], Or.inr (Or.inl hk)⟩

/-- a suffix of a simple text -/
theorem simple_suffix : ∀ (u r : Bytes) (m : Mode), simpleFrom m (u ++ r) = true → simpleFrom (lexer m u).2 r = true := by
  intro u
  induction u with
  | nil => intro r m h; exact h
  | cons c u ih =>
    intro r m h
    rw [List.cons_append] at h
    exact ih r _ (simple_cons.1 h).2

theorem blanks_nil : ∀ (b : Bytes), (∀ c ∈ b, c = 32) → (lexer .ground b) = ([], .ground) := by
  intro b
  induction b with
  | nil => intro _; rfl
  | cons c b ih =>
    intro h
    have := h c (by simp)
    subst this
    rw [lexer_cons, show lexStep .ground 32 = ([], .ground) from rfl, ih (fun d hd => h d (by simp [hd]))]
    rfl

/-- the end of a text that ends with the end of a dictionary -/
theorem dictClose_split {t : Bytes} {us : List Lexeme} (hs : simpleFrom .ground t = true) (hb : ∀ c ∈ t, c ≠ 9 ∧ c ≠ 10 ∧ c ≠ 13) (h : (lexer .ground (t ++ [32])).1 = us ++ [.dictClose]) :
    ∃ x post, t = x ++ 62 :: 62 :: post ∧ (∀ c ∈ post, c = 32) ∧ SimpleText x := by
  have hne : ∃ c ∈ t, c ≠ 32 := by
    by_contra hcon
    push Not at hcon
    have : (lexer .ground (t ++ [32])).1 = [] := by
      rw [blanks_nil (t ++ [32]) (by intro c hc; rcases List.mem_append.1 hc with hc | hc; exact hcon c hc; simpa using hc)]
    rw [this] at h
    simp at h
  obtain ⟨post', c, u, e, h5, h6⟩ := first_nonblank t.reverse (by obtain ⟨c, hc, hn⟩ := hne; exact ⟨c, by simpa using hc, hn⟩)
  have et : t = (u.reverse ++ [c]) ++ post'.reverse := by
    have := congrArg List.reverse e
    simpa using this
  have hpost : ∀ d ∈ post'.reverse ++ [32], d = 32 := by
    intro d hd
    rcases List.mem_append.1 hd with hd | hd
    · exact h5 d (by simpa using hd)
    · simpa using hd
  generalize u.reverse = y at et
  generalize hpo : post'.reverse = post at et hpost
  subst et
  have hsy := simple_suffix (y ++ [c]) post .ground hs
  have hc0 : simpleFrom (lexer .ground y).2 (c :: post) = true := simple_suffix y _ .ground (by rw [show y ++ c :: post = y ++ [c] ++ post by simp]; exact hs)
  obtain ⟨hcb, hcr⟩ := simple_cons.1 hc0
  have hl : (lexer .ground y).1 ++ ((lexStep (lexer .ground y).2 c).1 ++ (lexer (lexStep (lexer .ground y).2 c).2 (post ++ [32])).1) = us ++ [.dictClose] := by
    rw [← h]
    rw [show y ++ [c] ++ post ++ [32] = y ++ (c :: (post ++ [32])) by simp, lexer_append _ y, lexer_cons]
  have hcbl : c ≠ 9 ∧ c ≠ 10 ∧ c ≠ 13 := hb c (by simp)
  have hnw : white c = false := by
    have ha := (simple_ascii _ _ hs c (by simp))
    by_contra hw
    simp only [Bool.not_eq_false] at hw
    simp only [white, Bool.or_eq_true, decide_eq_true_eq] at hw
    rcases hw with ((((hw | hw) | hw) | hw) | hw) | hw
    · exact ha.2.1 hw
    · exact hcbl.1 hw
    · exact hcbl.2.1 hw
    · exact ha.2.2.2 hw
    · exact hcbl.2.2 hw
    · exact h6 hw
  -- the last token
  have fin : ∀ (T : List Lexeme) (w : Lexeme), w ≠ .dictClose → T ++ [w] = us ++ [.dictClose] → False := by
    intro T w hw he
    have := congrArg List.getLast? he
    rw [List.getLast?_concat, List.getLast?_concat] at this
    exact hw (by simpa using this)
  have gr : ∀ (T : List Lexeme) (w : Lexeme), w ≠ .dictClose → (lexStep (lexer .ground y).2 c) = (T ++ [w], .ground) → False := by
    intro T w hw he
    rw [he, blanks_nil _ hpost, List.append_nil, ← List.append_assoc] at hl
    exact fin _ w hw hl
  have wd : ∀ (T : List Lexeme) (w : Bytes), (lexStep (lexer .ground y).2 c) = (T, .word w) → False := by
    intro T w he
    have e2 : (lexer (.word w) (post ++ [32])).1 = [wordTok w] := by
      obtain ⟨p, hp⟩ : ∃ p, post ++ [32] = 32 :: p ∧ ∀ c ∈ p, c = 32 := by
        cases hpp : post with
        | nil => exact ⟨[], rfl, by simp⟩
        | cons d p =>
          rw [hpp] at hpost
          have := hpost d (by simp)
          subst this
          exact ⟨p ++ [32], rfl, fun c hc => hpost c (by simp only [List.cons_append, List.mem_cons]; exact Or.inr hc)⟩
      rw [hp.1, lexer_cons, show lexStep (.word w) 32 = ([wordTok w], .ground) by simp [lexStep, regular, white, lexStart], blanks_nil _ hp.2]
      rfl
    rw [he] at hl
    simp only [e2] at hl
    rw [← List.append_assoc] at hl
    refine fin _ _ ?_ hl
    rcases wordTok_cases w with ⟨n, h⟩ | ⟨n, h⟩ | ⟨n, h⟩ <;> rw [h] <;> simp
  have bad : ∀ (T : List Lexeme) (k : Mode), (lexStep (lexer .ground y).2 c) = (T, k) → (∀ cur, k ≠ .word cur) → k ≠ .ground → (∀ d e cur, k ≠ .lit d e cur) → (∀ cur, k ≠ .hex cur) → False := by
    intro T k he h1 h2 h3 h4
    rw [he] at hcr
    cases hp : post with
    | nil =>
      rw [hp] at hcr
      cases k <;> simp_all [simpleFrom]
    | cons d p =>
      rw [hp] at hcr hpost
      have := hpost d (by simp)
      subst this
      obtain ⟨q1, q2⟩ := simple_cons.1 hcr
      cases k with
      | lt =>
        have q2 : simpleFrom (.hex []) p = true := q2
        have hp' : ∀ c ∈ p, c = 32 := fun c hc => hpost c (by simp [hc])
        have : ∀ (p : Bytes), (∀ c ∈ p, c = 32) → simpleFrom (.hex []) p = false := by
          intro p
          induction p with
          | nil => intro _; rfl
          | cons c p ih =>
            intro h
            have := h c (by simp)
            subst this
            have := ih (fun c hc => h c (by simp [hc]))
            simp only [simpleFrom, Bool.and_eq_false_iff]
            exact Or.inr this
        rw [this p hp'] at q2
        cases q2
      | gt => simp [simpleByte] at q1
      | comment => simp [simpleByte] at q1
      | _ => simp_all
  have stuck : ∀ (p : Bytes), (∀ c ∈ p, c = 32) → (∀ d e cur, simpleFrom (.lit d e cur) p = false) ∧ ∀ cur, simpleFrom (.hex cur) p = false := by
    intro p
    induction p with
    | nil => intro _; exact ⟨fun _ _ _ => rfl, fun _ => rfl⟩
    | cons c p ih =>
      intro h
      have := h c (by simp)
      subst this
      obtain ⟨i1, i2⟩ := ih (fun c hc => h c (by simp [hc]))
      constructor
      · intro d e cur
        simp only [simpleFrom, Bool.and_eq_false_iff]
        right
        cases e <;> simp [lexStep, i1]
      · intro cur
        simp only [simpleFrom, Bool.and_eq_false_iff]
        right
        simp [lexStep, white, i2]
  have hpost' : ∀ c ∈ post, c = 32 := fun c hc => hpost c (by simp [hc])
  have start : ∀ (pre : List Lexeme), (lexStep (lexer .ground y).2 c) = (pre ++ (lexStart c).1, (lexStart c).2) → False := by
    intro pre he
    have h37 : c ≠ 37 := by
      rintro rfl
      generalize hk : (lexer .ground y).2 = k at hcb he
      cases k with
      | lit d e cur =>
        cases e <;> simp [lexStep, lexStart, white] at he
      | _ => simp [simpleByte, simpleChar, blankChar, Spec.hexDigit] at hcb
    have est : lexStart c = if c = 40 then ([], .lit 0 false []) else if c = 60 then ([], .lt) else if c = 62 then ([], .gt) else if c = 91 then ([.open], .ground) else if c = 93 then ([.close], .ground) else ([], .word [c]) := by
      simp [lexStart, hnw, h37]
    rw [est] at he
    split at he
    · rw [he] at hcr
      exact Bool.false_ne_true (((stuck post hpost').1 0 false []).symm.trans hcr)
    · split at he
      · exact bad _ _ he (by simp) (by simp) (by simp) (by simp)
      · split at he
        · exact bad _ _ he (by simp) (by simp) (by simp) (by simp)
        · split at he
          · exact gr _ _ (by simp) he
          · split at he
            · exact gr _ _ (by simp) he
            · exact wd _ _ he
  have hgt : (lexer .ground y).2 = .gt ∧ c = 62 := by
    generalize hk : (lexer .ground y).2 = k at *
    cases k with
    | ground => exact (start [] rfl).elim
    | word cur =>
      exfalso
      by_cases hr : regular c = true
      · exact wd [] (cur ++ [c]) (by simp [lexStep, hr])
      · exact start [wordTok cur] (by simp [lexStep, hr])
    | lit d e cur =>
      exfalso
      have k2 : ∀ T d' e' cur', (lexStep (.lit d e cur) c) = (T, .lit d' e' cur') → False := by
        intro T d' e' cur' he
        rw [he] at hcr
        exact Bool.false_ne_true (((stuck post hpost').1 _ _ _).symm.trans hcr)
      cases e with
      | true => exact k2 _ _ _ _ rfl
      | false =>
        by_cases h1 : c = 92
        · exact k2 [] d true (cur ++ [c]) (by simp [lexStep, h1])
        by_cases h2 : c = 40
        · exact k2 [] (d + 1) false (cur ++ [c]) (by simp [lexStep, h2])
        by_cases h3 : c = 41
        · cases d with
          | zero => exact gr [] (.lit cur) (by simp) (by simp [lexStep, h3])
          | succ d => exact k2 [] d false (cur ++ [c]) (by simp [lexStep, h3])
        · exact k2 [] d false (cur ++ [c]) (by simp [lexStep, h1, h2, h3])
    | hex cur =>
      exfalso
      by_cases h1 : c = 62
      · exact gr [] (.hex cur) (by simp) (by simp [lexStep, h1])
      · have he : lexStep (.hex cur) c = ([], .hex (cur ++ [c])) := by simp [lexStep, h1, hnw]
        rw [he] at hcr
        exact Bool.false_ne_true (((stuck post hpost').2 _).symm.trans hcr)
    | comment => simp [simpleByte] at hcb
    | lt =>
      exfalso
      by_cases h1 : c = 60
      · exact gr [] .dictOpen (by simp) (by simp [lexStep, h1])
      · by_cases h2 : c = 62
        · exact gr [] (.hex []) (by simp) (by simp [lexStep, h2])
        · have he : lexStep .lt c = ([], .hex [c]) := by simp [lexStep, h1, h2, hnw]
          rw [he] at hcr
          exact Bool.false_ne_true (((stuck post hpost').2 _).symm.trans hcr)
    | gt =>
      refine ⟨rfl, ?_⟩
      simpa [simpleByte] using hcb
  obtain ⟨hgm, rfl⟩ := hgt
  obtain ⟨z, rfl, hz⟩ := gt_last (by simp) hgm
  refine ⟨z, post, by simp, hpost', ?_⟩
  have hz' : (lexer .ground z).2 = .ground ∨ ∃ cur, (lexer .ground z).2 = .word cur := by
    rcases hz with h | h | h
    · exact Or.inl h
    · exfalso
      rw [lexer_append, h] at hgm
      cases hgm
    · exact Or.inr h
  exact simple_prefix z _ .ground (by rw [show z ++ [62] ++ [62] ++ post = z ++ ([62, 62] ++ post) by simp] at hs; exact hs) hz'

theorem flip_step {fr : RStack} {u : List Val} {T : RStack} {t : Lexeme} (h : readStep (some (fr ++ [(true, u)])) t = some T) :
    ∃ fr' u', T = fr' ++ [(true, u')] ∧ readStep (some (fr ++ [(false, u)])) t = some (fr' ++ [(false, u')]) := by
  cases fr with
  | nil =>
    simp only [List.nil_append] at h ⊢
    cases t with
    | num q => simp only [readStep, Option.some.injEq] at h ⊢; exact ⟨[], _, h.symm, rfl⟩
    | name n => simp only [readStep, Option.some.injEq] at h ⊢; exact ⟨[], _, h.symm, rfl⟩
    | hex s => simp only [readStep, Option.some.injEq] at h ⊢; exact ⟨[], _, h.symm, rfl⟩
    | lit s => simp only [readStep, Option.some.injEq] at h ⊢; exact ⟨[], _, h.symm, rfl⟩
    | «open» => simp only [readStep, Option.some.injEq] at h ⊢; exact ⟨[(false, [])], _, h.symm, rfl⟩
    | dictOpen => simp only [readStep, Option.some.injEq] at h ⊢; exact ⟨[(true, [])], _, h.symm, rfl⟩
    | op x =>
      simp only [readStep] at h ⊢
      split at h
      · rename_i hx
        rw [if_pos hx]
        split at h
        · split at h
          · rename_i hg
            simp only [Option.some.injEq] at h
            simp only [hg, and_self, if_true]
            exact ⟨[], _, h.symm, rfl⟩
          · simp at h
        · simp at h
      · rename_i hx
        rw [if_neg hx]
        simp only [Option.some.injEq] at h
        exact ⟨[], _, h.symm, rfl⟩
    | close => simp [readStep] at h
    | dictClose => simp [readStep] at h
  | cons f fr =>
    obtain ⟨b, l⟩ := f
    simp only [List.cons_append] at h ⊢
    cases t with
    | num q => simp only [readStep, Option.some.injEq] at h ⊢; exact ⟨(b, .num q :: l) :: fr, _, h.symm, rfl⟩
    | name n => simp only [readStep, Option.some.injEq] at h ⊢; exact ⟨(b, .name n :: l) :: fr, _, h.symm, rfl⟩
    | hex s => simp only [readStep, Option.some.injEq] at h ⊢; exact ⟨(b, .hex s :: l) :: fr, _, h.symm, rfl⟩
    | lit s => simp only [readStep, Option.some.injEq] at h ⊢; exact ⟨(b, .lit s :: l) :: fr, _, h.symm, rfl⟩
    | «open» => simp only [readStep, Option.some.injEq] at h ⊢; exact ⟨(false, []) :: (b, l) :: fr, _, h.symm, rfl⟩
    | dictOpen => simp only [readStep, Option.some.injEq] at h ⊢; exact ⟨(true, []) :: (b, l) :: fr, _, h.symm, rfl⟩
    | op x =>
      simp only [readStep] at h ⊢
      split at h
      · rename_i hx
        rw [if_pos hx]
        split at h
        · rename_i g n l'
          split at h
          · rename_i hg
            simp only [Option.some.injEq] at h
            simp only [hg, and_self, if_true]
            exact ⟨(b, .ref n.num :: l') :: fr, _, h.symm, rfl⟩
          · simp at h
        · simp at h
      · rename_i hx
        rw [if_neg hx]
        simp only [Option.some.injEq] at h
        exact ⟨(b, .word x :: l) :: fr, _, h.symm, rfl⟩
    | close =>
      cases b with
      | true => cases fr <;> simp [readStep] at h
      | false =>
        cases fr with
        | nil => simp only [List.nil_append, readStep, Option.some.injEq] at h ⊢; exact ⟨[], _, h.symm, rfl⟩
        | cons g fr => obtain ⟨c, m⟩ := g; simp only [List.cons_append, readStep, Option.some.injEq] at h ⊢; exact ⟨(c, .arr l.reverse :: m) :: fr, _, h.symm, rfl⟩
    | dictClose =>
      cases b with
      | false => cases fr <;> simp [readStep] at h
      | true =>
        cases fr with
        | nil =>
          simp only [List.nil_append, readStep, Option.map_eq_some_iff] at h ⊢
          obtain ⟨d, hd, h⟩ := h
          exact ⟨[], .dict d :: u, h.symm, d, hd, rfl⟩
        | cons g fr =>
          obtain ⟨c, m⟩ := g
          simp only [List.cons_append, readStep, Option.map_eq_some_iff] at h ⊢
          obtain ⟨d, hd, h⟩ := h
          exact ⟨(c, .dict d :: m) :: fr, _, h.symm, d, hd, rfl⟩

theorem flip_fold : ∀ (ts : List Lexeme) {fr : RStack} {u : List Val} {T : RStack}, ts.foldl readStep (some (fr ++ [(true, u)])) = some T →
    ∃ fr' u', T = fr' ++ [(true, u')] ∧ ts.foldl readStep (some (fr ++ [(false, u)])) = some (fr' ++ [(false, u')]) := by
  intro ts
  induction ts with
  | nil => intro fr u T h; simp only [List.foldl_nil, Option.some.injEq] at h; exact ⟨fr, u, h.symm, rfl⟩
  | cons t ts ih =>
    intro fr u T h
    rw [List.foldl_cons] at h
    cases hm : readStep (some (fr ++ [(true, u)])) t with
    | none => rw [hm, fold_none] at h; simp at h
    | some M =>
      rw [hm] at h
      obtain ⟨fr1, u1, rfl, h2⟩ := flip_step hm
      rw [List.foldl_cons, h2]
      exact ih h

/-- a text with one value -/
theorem Values.value {r : Bytes} {v : Val} (h : Values r [v]) : ∃ ts, lexer .ground (r ++ b!" ") = (ts, .ground) ∧ valueOfToks ts = some v := by
  obtain ⟨ts, h1, _, h2⟩ := h
  refine ⟨ts, h1, ?_⟩
  obtain ⟨fr, u, e, h3⟩ := flip_fold ts (fr := []) (u := []) h2
  simp only [List.reverse_cons, List.reverse_nil, List.nil_append] at e
  cases fr with
  | cons f fr => have := congrArg List.length e; simp at this
  | nil =>
    simp at e
    subst e
    unfold valueOfToks
    simp only [List.nil_append] at h3
    rw [h3]

/-- The text of a dictionary as value. -/
theorem dict_split {r : Bytes} {es : List (Bytes × Val)} (h : Values r [.dict es]) (hs : SimpleText r) (hss : SS r) :
    ∃ pre x post, r = pre ++ (b!"<<" ++ x ++ b!">>") ++ post ∧ (∀ c ∈ pre, c = 32) ∧ (∀ c ∈ post, c = 32) ∧ SimpleText x ∧ ReadsVal (b!"<<" ++ x ++ b!">>") (.dict es) := by
  obtain ⟨ts, h1, h2⟩ := Values.value h
  have ht := Values.toks h
  simp only [toksL, toks, List.append_nil] at ht
  obtain ⟨pre, t, rfl, p1, p2, p3⟩ := dictOpen_split r (toksD es ++ [.dictClose]) hs hss.1 (by rw [show r ++ [32] = r ++ b!" " from rfl, ht]; simp)
  obtain ⟨x, post, rfl, q1, q2⟩ := dictClose_split p2 (fun c hc => hss.1 c (by simp [hc])) p3
  refine ⟨pre, x, post, by simp, p1, q1, q2, ?_⟩
  refine ⟨ts, ?_, h2⟩
  have e : pre ++ 60 :: 60 :: (x ++ 62 :: 62 :: post) ++ b!" " = pre ++ ((b!"<<" ++ x ++ b!">>") ++ (post ++ [32])) := by simp
  rw [e, lexer_append, blanks_nil pre p1, lexer_append] at h1
  have hm : (lexer .ground (b!"<<" ++ x ++ b!">>")).2 = .ground := by
    rw [List.append_assoc, lexer_append, show lexer .ground b!"<<" = ([.dictOpen], .ground) from rfl]
    simp only
    rw [lexer_append]
    rcases simple_mode x .ground q2 with e | ⟨cur, e⟩ <;> rw [e]
    · rfl
    · simp [lexer, lexStep, regular, delim, white, lexStart]
  simp only [hm, blanks_nil (post ++ [32]) (by intro c hc; rcases List.mem_append.1 hc with hc | hc; exact q1 c hc; simpa using hc), List.nil_append, List.append_nil] at h1
  exact Prod.ext (Prod.mk.inj h1).1 hm

/-- the words between brackets -/
theorem words_inside {pre x post : Bytes} (h1 : ∀ c ∈ pre, c = 32) (h2 : ∀ c ∈ post, c = 32) :
    words (pre ++ (b!"<<" ++ x ++ b!">>") ++ post) = b!"<" :: b!"<" :: (words x ++ [b!">", b!">"]) := by
  rw [words_around (fun c hc => by rw [h1 c hc]; rfl) (fun c hc => by rw [h2 c hc]; rfl)]
  rw [show b!"<<" ++ x ++ b!">>" = 60 :: 60 :: (x ++ 62 :: 62 :: []) by simp, words_delim rfl (by decide), words_delim rfl (by decide), words_split rfl, words_delim rfl (by decide), words_delim rfl (by decide)]
  rfl

theorem dict_text {r : Bytes} {es : List (Bytes × Val)} (h : StdVal r (.dict es)) (hss : SS r) :
    ∃ pre x post, r = pre ++ (b!"<<" ++ x ++ b!">>") ++ post ∧ (∀ c ∈ pre, c = 32) ∧ (∀ c ∈ post, c = 32) ∧ StdText x es := by
  obtain ⟨pre, x, post, rfl, h1, h2, h3, h4⟩ := dict_split h.values h.simple hss
  refine ⟨pre, x, post, rfl, h1, h2, h3, ?_, ?_, h4⟩
  · intro hc
    exact h.noStream (hc.trans ⟨pre ++ b!"<<", b!">>" ++ post, by simp⟩)
  · intro w g n hi
    refine h.refs w g n (hi.trans ?_)
    rw [words_inside h1 h2]
    exact ⟨[b!"<", b!"<"], [b!">", b!">"], by simp⟩

theorem blanks_sp {l : Bytes} (h : ∀ c ∈ l, c = 32) : ∀ c ∈ l, isSp c = true := fun c hc => by rw [h c hc]; rfl

theorem dict_trim {pre x post : Bytes} (h1 : ∀ c ∈ pre, c = 32) (h2 : ∀ c ∈ post, c = 32) : trimSpace (pre ++ (b!"<<" ++ x ++ b!">>") ++ post) = b!"<<" ++ x ++ b!">>" :=
  trimSpace_ends (c := 60) (e := 62) (blanks_sp h1) (blanks_sp h2) rfl (by rw [show b!"<<" ++ x ++ b!">>" = (b!"<<" ++ x ++ b!">") ++ [62] by simp]; exact List.getLast?_concat) (by decide) (by decide) (by decide) (by decide)

theorem dict_type {r : Bytes} {es : List (Bytes × Val)} (h : StdVal r (.dict es)) (hss : SS r) : propertyType r = .object := by
  obtain ⟨pre, x, post, rfl, h1, h2, _⟩ := dict_text h hss
  unfold propertyType
  simp only [dict_trim h1 h2]
  rw [if_pos]
  constructor
  · simp
  · rfl

/-- reading a dictionary that is a value -/
theorem dict_props {r : Bytes} {es : List (Bytes × Val)} (h : StdVal r (.dict es)) (hss : SS r) : ∃ ps, readProperties r = .ok ps ∧ StdProps es ps ∧ ∀ p ∈ ps, SS p.rawVal := by
  obtain ⟨pre, x, post, rfl, h1, h2, hx⟩ := dict_text h hss
  obtain ⟨vss, f1, f2, f3⟩ := StdText.props hx
  refine ⟨parseProps (normalizeProps x), ?_, ⟨readAs_of _ vss es f1 f2, ?_⟩, fun p hp => (f3 p hp).1⟩
  · have := readProperties_frame (a := pre) (x := x) (b := post) (tail := []) (fun c hc => Or.inl (h1 c hc)) (fun c hc => Or.inl (h2 c hc)) hx.noStream (Or.inl rfl)
    rwa [List.append_nil] at this
  · intro p hp
    obtain ⟨vs, he⟩ := forall₂_left f1 p hp
    exact ⟨he.1, he.2.2.2, (f3 p hp).2⟩

/-! ### references -/

theorem splitSpace_one : ∀ {s : Bytes}, (32 : UInt8) ∉ s → ∃ w, splitSpace s = [w] := by
  intro s
  induction s with
  | nil => intro _; exact ⟨[], rfl⟩
  | cons c s ih =>
    intro h
    obtain ⟨w, hw⟩ := ih (fun hm => h (by simp [hm]))
    rw [splitSpace, if_neg (by rintro rfl; simp at h), hw]
    exact ⟨_, rfl⟩

theorem ref_type' {r : Bytes} {n : Int} (h : StdVal r (.ref n)) (hss : SS r) (hn : InRange n) : propertyType r = .dictionary := by
  have hr := value_ref h.values h.simple hss h.refs hn
  have ht := Values.toks h.values
  simp only [toksL, toks, List.append_nil] at ht
  obtain ⟨h1, _⟩ := plain_split r .ground _ [] (Or.inl rfl) h.simple hss.1 (by rw [List.append_nil]; exact ht) (by
    intro t ht
    simp at ht
    rcases ht with rfl | rfl | rfl
    · exact Or.inl ⟨_, rfl⟩
    · exact Or.inl ⟨_, rfl⟩
    · exact Or.inr ⟨_, rfl⟩) (Or.inl rfl)
  have hp := h1 rfl
  obtain ⟨a, x, b, rfl, b1, b2, b3, b4, b5⟩ := core_of (s := r) (by
    by_contra hc
    push Not at hc
    have := blanks_nil (r ++ b!" ") (by intro c h; rcases List.mem_append.1 h with h | h; exact hc c h; simpa using h)
    rw [ht] at this
    simp at this)
  have hx : ∀ c ∈ x, c < 128 ∧ (c = 32 ∨ isSp c = false) ∧ c ≠ 60 ∧ c ≠ 91 := by
    intro c hc
    have h2 := simple_ascii _ _ h.simple c (by simp [hc])
    refine ⟨UInt8.lt_trans h2.1 (by decide), ?_, ?_⟩
    · rcases hp c (by simp [hc]) with hr | hr
      · right
        simp only [regular, white, delim, Bool.and_eq_true, Bool.not_eq_true', Bool.or_eq_false_iff, decide_eq_false_iff_not] at hr
        simp [isSp, hr, h2.2.2.1]
      · exact Or.inl hr
    · rcases hp c (by simp [hc]) with hr | rfl
      · constructor <;> (rintro rfl; simp [regular, delim] at hr)
      · exact ⟨by decide, by decide⟩
  have hh : ∀ c, x.head? = some c → isSp c = false := by
    intro c hc
    rcases (hx c (List.mem_of_head? hc)).2.1 with rfl | h
    · exact absurd hc b3
    · exact h
  have he : EndOk x := by
    intro c hc
    rcases (hx c (List.mem_of_getLast? hc)).2.1 with rfl | h
    · exact absurd hc b4
    · exact h
  have t1 : trimSpace (a ++ x ++ b) = x := trimSpace_core (blanks_sp b1) (blanks_sp b2) (fun c hc => (hx c hc).1) hh he
  have t2 : trimSpace x = x := by
    have := trimSpace_core (a := []) (b := []) (by simp) (by simp) (fun c hc => (hx c hc).1) hh he
    simpa using this
  have hsp : (32 : UInt8) ∈ x := by
    by_contra hc
    obtain ⟨w, hw⟩ := splitSpace_one hc
    unfold readObjIDFromDictionary at hr
    simp only [t1, hw] at hr
    split at hr <;> cases hr
  have hf : ∀ c t, x = c :: t → c ≠ 60 ∧ c ≠ 91 := fun c t e => (hx c (by rw [e]; simp)).2.2
  unfold propertyType
  simp only [t1, t2]
  rw [if_neg, if_neg, if_neg]
  · rw [Bool.not_eq_true, Option.isSome_eq_false_iff, Option.isNone_iff_eq_none]
    cases hat : atoi x with
    | none => rfl
    | some v =>
      rcases (atoi_bytes hat).2 32 hsp with h | h | h <;> exact absurd h (by decide)
  · rintro ⟨_, hc⟩
    cases x with
    | nil => simp at hc
    | cons c t => simp at hc; exact (hf c t rfl).2 hc
  · rintro ⟨_, hc⟩
    rcases x with _ | ⟨c, _ | ⟨d, t⟩⟩
    · simp at hc
    · simp at hc
    · simp at hc; exact (hf c _ rfl).1 hc.1

/-- an array of references -/
theorem refs_type {r : Bytes} {ids : List Int} (h : StdVal r (.arr (ids.map .ref))) (hss : SS r) : propertyType r = .array := by
  have ht := Values.toks h.values
  simp only [toksL, toks, List.append_nil] at ht
  obtain ⟨pre, body, post, rfl, h1, h2, hp, hw⟩ := array_body ht (refs_wordy ids) h.simple hss
  have htr : trimSpace (pre ++ 91 :: (body ++ 93 :: post)) = 91 :: (body ++ [93]) := by
    have := trimSpace_ends (a := pre) (b := post) (x := 91 :: (body ++ [93])) (c := 91) (e := 93) (blanks_sp h1) (blanks_sp h2) rfl
      (by rw [← List.cons_append]; exact List.getLast?_concat) (by decide) (by decide) (by decide) (by decide)
    simpa using this
  unfold propertyType
  simp only [htr]
  rw [if_neg (by
    rintro ⟨_, h⟩
    cases body <;> simp at h), if_pos (by simp)]

/-- A dictionary is no reference. -/
theorem dict_no_ref {r : Bytes} {es : List (Bytes × Val)} (h : StdVal r (.dict es)) (hss : SS r) (n : Int) : readObjIDFromDictionary r ≠ .ok n := by
  obtain ⟨pre, x, post, rfl, h1, h2, _⟩ := dict_text h hss
  intro hr
  unfold readObjIDFromDictionary at hr
  simp only [dict_trim h1 h2] at hr
  split at hr
  · cases hr
  · split at hr
    · rename_i a _ _ he
      have ha : ∃ a', a = 60 :: a' := by
        rw [show b!"<<" ++ x ++ b!">>" = 60 :: (60 :: (x ++ b!">>")) by simp, splitSpace, if_neg (by decide)] at he
        split at he
        · simp at he
        · simp at he
          exact ⟨_, he.1.symm⟩
      obtain ⟨a', rfl⟩ := ha
      split at hr
      · rename_i v hv
        have hm : (60 : UInt8) ∈ trimSpace (60 :: a') := by
          obtain ⟨u, w, e, s1, s2⟩ := trimSpace_split (60 :: a')
          cases u with
          | nil =>
            cases ht : trimSpace (60 :: a') with
            | nil =>
              rw [ht] at e
              simp at e
              have := s2 60 (by rw [← e]; simp)
              exact absurd this (by decide)
            | cons c t =>
              rw [ht] at e
              simp at e
              rw [← e.1]
              simp
          | cons c u =>
            simp at e
            have := s1 c (by simp)
            rw [← e.1] at this
            exact absurd this (by decide)
        rcases (atoi_bytes hv).2 60 hm with h | h | h <;> revert h <;> decide
      · cases hr
    · cases hr

end Verif
