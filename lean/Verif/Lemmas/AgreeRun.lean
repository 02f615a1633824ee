import Verif.Lemmas.AgreeStep
/-
The entries that `readProperties` finds in a simple text, against an independent reader of objects.
-/
namespace Verif
open Spec

/-- not a name -/
def NoName (v : Val) : Prop := ∀ n, v ≠ .name n

theorem under_step {w : List Val} {S S' T : RStack} {t : Lexeme} (h : Over w S S') (hs : readStep (some S) t = some T) :
    ∃ T', readStep (some S') t = some T' ∧ Over w T T' := by
  obtain ⟨fr, u, rfl, rfl⟩ := h
  cases fr with
  | nil =>
    simp only [List.nil_append] at hs ⊢
    cases t with
    | num q => simp only [readStep, Option.some.injEq] at hs ⊢; exact ⟨_, rfl, [], .num q :: u, hs.symm, rfl⟩
    | name n => simp only [readStep, Option.some.injEq] at hs ⊢; exact ⟨_, rfl, [], .name n :: u, hs.symm, rfl⟩
    | hex s => simp only [readStep, Option.some.injEq] at hs ⊢; exact ⟨_, rfl, [], .hex s :: u, hs.symm, rfl⟩
    | lit s => simp only [readStep, Option.some.injEq] at hs ⊢; exact ⟨_, rfl, [], .lit s :: u, hs.symm, rfl⟩
    | «open» => simp only [readStep, Option.some.injEq] at hs ⊢; exact ⟨_, rfl, [(false, [])], u, hs.symm, rfl⟩
    | dictOpen => simp only [readStep, Option.some.injEq] at hs ⊢; exact ⟨_, rfl, [(true, [])], u, hs.symm, rfl⟩
    | close => simp [readStep] at hs
    | dictClose => simp [readStep] at hs
    | op x =>
      simp only [readStep] at hs ⊢
      split
      · rename_i hx
        simp only [hx, if_true] at hs
        split at hs
        · rename_i g n l
          split at hs
          · rename_i hg
            simp only [Option.some.injEq] at hs
            exact ⟨_, by simp only [List.cons_append, hg, and_self, if_true]; rfl, [], .ref n.num :: l, hs.symm, rfl⟩
          · simp at hs
        · simp at hs
      · rename_i hx
        simp only [hx, if_false, Option.some.injEq] at hs
        exact ⟨_, rfl, [], .word x :: u, hs.symm, rfl⟩
  | cons f fr =>
    obtain ⟨b, l⟩ := f
    simp only [List.cons_append] at hs ⊢
    cases t with
    | num q => simp only [readStep, Option.some.injEq] at hs ⊢; exact ⟨_, rfl, (b, .num q :: l) :: fr, u, hs.symm, rfl⟩
    | name n => simp only [readStep, Option.some.injEq] at hs ⊢; exact ⟨_, rfl, (b, .name n :: l) :: fr, u, hs.symm, rfl⟩
    | hex s => simp only [readStep, Option.some.injEq] at hs ⊢; exact ⟨_, rfl, (b, .hex s :: l) :: fr, u, hs.symm, rfl⟩
    | lit s => simp only [readStep, Option.some.injEq] at hs ⊢; exact ⟨_, rfl, (b, .lit s :: l) :: fr, u, hs.symm, rfl⟩
    | «open» => simp only [readStep, Option.some.injEq] at hs ⊢; exact ⟨_, rfl, (false, []) :: (b, l) :: fr, u, hs.symm, rfl⟩
    | dictOpen => simp only [readStep, Option.some.injEq] at hs ⊢; exact ⟨_, rfl, (true, []) :: (b, l) :: fr, u, hs.symm, rfl⟩
    | op x =>
      simp only [readStep] at hs ⊢
      split
      · rename_i hx
        simp only [hx, if_true] at hs
        split at hs
        · rename_i g n l'
          split at hs
          · rename_i hg
            simp only [Option.some.injEq] at hs
            exact ⟨_, by simp only [hg, and_self, if_true]; rfl, (b, .ref n.num :: l') :: fr, u, hs.symm, rfl⟩
          · simp at hs
        · simp at hs
      · rename_i hx
        simp only [hx, if_false, Option.some.injEq] at hs
        exact ⟨_, rfl, (b, .word x :: l) :: fr, u, hs.symm, rfl⟩
    | close =>
      cases b with
      | true => cases fr <;> simp [readStep] at hs
      | false =>
        cases fr with
        | nil => simp only [List.nil_append, readStep, Option.some.injEq] at hs ⊢; exact ⟨_, rfl, [], .arr l.reverse :: u, hs.symm, rfl⟩
        | cons f fr =>
          obtain ⟨b, m⟩ := f
          simp only [List.cons_append, readStep, Option.some.injEq] at hs ⊢
          exact ⟨_, rfl, (b, .arr l.reverse :: m) :: fr, u, hs.symm, rfl⟩
    | dictClose =>
      cases b with
      | false => cases fr <;> simp [readStep] at hs
      | true =>
        cases fr with
        | nil =>
          simp only [List.nil_append, readStep, Option.map_eq_some_iff] at hs ⊢
          obtain ⟨d, hd, hs⟩ := hs
          exact ⟨_, ⟨d, hd, rfl⟩, [], .dict d :: u, hs.symm, rfl⟩
        | cons f fr =>
          obtain ⟨b, m⟩ := f
          simp only [List.cons_append, readStep, Option.map_eq_some_iff] at hs ⊢
          obtain ⟨d, hd, hs⟩ := hs
          exact ⟨_, ⟨d, hd, rfl⟩, (b, .dict d :: m) :: fr, u, hs.symm, rfl⟩

theorem under_fold {w : List Val} : ∀ (ts : List Lexeme) {S S' T : RStack}, Over w S S' → ts.foldl readStep (some S) = some T →
    ∃ T', ts.foldl readStep (some S') = some T' ∧ Over w T T' := by
  intro ts
  induction ts with
  | nil => intro S S' T h hs; simp only [List.foldl_nil, Option.some.injEq] at hs; subst hs; exact ⟨S', rfl, h⟩
  | cons t ts ih =>
    intro S S' T h hs
    rw [List.foldl_cons] at hs
    cases hm : readStep (some S) t with
    | none => rw [hm, fold_none] at hs; simp at hs
    | some M =>
      rw [hm] at hs
      obtain ⟨M1, h1, h2⟩ := under_step h hm
      obtain ⟨T, h3, h4⟩ := ih h2 hs
      exact ⟨T, by rw [List.foldl_cons, h1, h3], h4⟩

/-- values can be read after others -/
theorem under_base (w : List Val) {ts : List Lexeme} {u : List Val} (h : ts.foldl readStep (some [(true, [])]) = some [(true, u)]) :
    ts.foldl readStep (some [(true, w)]) = some [(true, u ++ w)] := by
  obtain ⟨T, h1, fr, u', h2, h3⟩ := under_fold ts (S := [(true, [])]) (S' := [(true, w)]) ⟨[], [], rfl, rfl⟩ h
  cases fr with
  | nil => simp at h2; subst h2; rw [h1, h3]; rfl
  | cons f fr => have := congrArg List.length h2; simp at this

/-! ### texts that do not begin with a name -/

/-- something that is not a name has been read, or begun -/
def Started (S : RStack) : Prop :=
  ∃ fr u, S = fr ++ [(true, u)] ∧ ((u = [] ∧ fr ≠ []) ∨ ∃ u' y, u = u' ++ [y] ∧ NoName y)

theorem started_push {l u' : List Val} {y v : Val} (h : l = u' ++ [y]) (hy : NoName y) : Started [(true, v :: l)] :=
  ⟨[], v :: l, rfl, Or.inr ⟨v :: u', y, by rw [h]; rfl, hy⟩⟩

theorem started_step {S T : RStack} {t : Lexeme} (h : Started S) (hs : readStep (some S) t = some T) : Started T := by
  obtain ⟨fr, u, rfl, hu⟩ := h
  cases fr with
  | nil =>
    obtain ⟨u', y, rfl, hy⟩ : ∃ u' y, u = u' ++ [y] ∧ NoName y := by
      rcases hu with ⟨_, h⟩ | h
      · exact absurd rfl h
      · exact h
    simp only [List.nil_append] at hs
    cases t with
    | num q => simp only [readStep, Option.some.injEq] at hs; rw [← hs]; exact started_push rfl hy
    | name n => simp only [readStep, Option.some.injEq] at hs; rw [← hs]; exact started_push rfl hy
    | hex s => simp only [readStep, Option.some.injEq] at hs; rw [← hs]; exact started_push rfl hy
    | lit s => simp only [readStep, Option.some.injEq] at hs; rw [← hs]; exact started_push rfl hy
    | «open» => simp only [readStep, Option.some.injEq] at hs; rw [← hs]; exact ⟨[(false, [])], _, rfl, Or.inr ⟨u', y, rfl, hy⟩⟩
    | dictOpen => simp only [readStep, Option.some.injEq] at hs; rw [← hs]; exact ⟨[(true, [])], _, rfl, Or.inr ⟨u', y, rfl, hy⟩⟩
    | close => simp [readStep] at hs
    | dictClose => simp [readStep] at hs
    | op x =>
      simp only [readStep] at hs
      split at hs
      · split at hs
        · rename_i g n l hl
          split at hs
          · simp only [Option.some.injEq] at hs; rw [← hs]
            rcases List.eq_nil_or_concat l with rfl | ⟨l', z, rfl⟩
            · exact ⟨[], _, rfl, Or.inr ⟨[], _, rfl, by intro n h; cases h⟩⟩
            · have hz : z = y := by
                have h' : u' ++ [y] = (.num g :: .num n :: l') ++ [z] := by simpa using hl
                simpa using (List.append_inj' h' rfl).2.symm
              subst hz
              exact started_push (u' := l') (by simp) hy
          · simp at hs
        · simp at hs
      · simp only [Option.some.injEq] at hs; rw [← hs]; exact started_push rfl hy
  | cons f fr =>
    obtain ⟨b, l⟩ := f
    have keep : ∀ f' fr', T = f' :: fr' ++ [(true, u)] → Started T := by
      intro f' fr' h
      refine ⟨f' :: fr', u, h, ?_⟩
      rcases hu with ⟨h, _⟩ | h
      · exact Or.inl ⟨h, by simp⟩
      · exact Or.inr h
    have base : ∀ v, NoName v → T = [(true, v :: u)] → Started T := by
      intro v hv h
      rw [h]
      rcases hu with ⟨rfl, _⟩ | ⟨u', y, rfl, hy⟩
      · exact ⟨[], [v], rfl, Or.inr ⟨[], v, rfl, hv⟩⟩
      · exact started_push rfl hy
    simp only [List.cons_append] at hs
    cases t with
    | num q => simp only [readStep, Option.some.injEq] at hs; exact keep _ _ hs.symm
    | name n => simp only [readStep, Option.some.injEq] at hs; exact keep _ _ hs.symm
    | hex s => simp only [readStep, Option.some.injEq] at hs; exact keep _ _ hs.symm
    | lit s => simp only [readStep, Option.some.injEq] at hs; exact keep _ _ hs.symm
    | «open» => simp only [readStep, Option.some.injEq] at hs; exact keep _ ((b, l) :: fr) hs.symm
    | dictOpen => simp only [readStep, Option.some.injEq] at hs; exact keep _ ((b, l) :: fr) hs.symm
    | op x =>
      simp only [readStep] at hs
      split at hs
      · split at hs
        · split at hs
          · simp only [Option.some.injEq] at hs; exact keep _ _ hs.symm
          · simp at hs
        · simp at hs
      · simp only [Option.some.injEq] at hs; exact keep _ _ hs.symm
    | close =>
      cases b with
      | true => cases fr <;> simp [readStep] at hs
      | false =>
        cases fr with
        | nil => simp only [List.nil_append, readStep, Option.some.injEq] at hs; exact base _ (by intro n h; cases h) hs.symm
        | cons f fr =>
          obtain ⟨b, m⟩ := f
          simp only [List.cons_append, readStep, Option.some.injEq] at hs
          exact keep _ _ hs.symm
    | dictClose =>
      cases b with
      | false => cases fr <;> simp [readStep] at hs
      | true =>
        cases fr with
        | nil =>
          simp only [List.nil_append, readStep, Option.map_eq_some_iff] at hs
          obtain ⟨d, hd, hs⟩ := hs
          exact base _ (by intro n h; cases h) hs.symm
        | cons f fr =>
          obtain ⟨b, m⟩ := f
          simp only [List.cons_append, readStep, Option.map_eq_some_iff] at hs
          obtain ⟨d, hd, hs⟩ := hs
          exact keep _ _ hs.symm

theorem started_fold : ∀ (ts : List Lexeme) {S T : RStack}, Started S → ts.foldl readStep (some S) = some T → Started T := by
  intro ts
  induction ts with
  | nil => intro S T h hs; simp only [List.foldl_nil, Option.some.injEq] at hs; subst hs; exact h
  | cons t ts ih =>
    intro S T h hs
    rw [List.foldl_cons] at hs
    cases hm : readStep (some S) t with
    | none => rw [hm, fold_none] at hs; simp at hs
    | some M => rw [hm] at hs; exact ih (started_step h hm) hs

/-- something other than a name is being read -/
def Pending : Mode → Prop
  | .ground => False
  | .word cur => cur.head? ≠ some 47
  | _ => True

theorem started_first {v : Val} (hv : NoName v) : Started [(true, [v])] := ⟨[], [v], rfl, Or.inr ⟨[], v, rfl, hv⟩⟩

/-- the first value is not a name -/
theorem pending_lex : ∀ (s : Bytes) (m : Mode), simpleFrom m s = true → Pending m → ∀ T, (lexer m (s ++ [32])).1.foldl readStep (some [(true, [])]) = some T → Started T := by
  have wordFirst : ∀ (cur : Bytes) (ts : List Lexeme) T, cur.head? ≠ some 47 → (wordTok cur :: ts).foldl readStep (some [(true, [])]) = some T → Started T := by
    intro cur ts T hc h
    rw [List.foldl_cons] at h
    have hw : (∃ q, wordTok cur = .num q) ∨ ∃ w, wordTok cur = .op w := by
      unfold wordTok
      split
      · simp at hc
      · split
        · exact Or.inl ⟨_, rfl⟩
        · exact Or.inr ⟨_, rfl⟩
    rcases hw with ⟨q, hw⟩ | ⟨w, hw⟩
    · rw [hw] at h
      exact started_fold ts (started_first (v := .num q) (by intro n h; cases h)) h
    · rw [hw] at h
      by_cases hR : w = b!"R"
      · subst hR
        simp only [readStep, if_true, fold_none] at h
        simp at h
      · simp only [readStep, hR, if_false] at h
        exact started_fold ts (started_first (v := .word w) (by intro n h; cases h)) h
  intro s
  induction s with
  | nil =>
    intro m hs hp T h
    cases m with
    | ground => exact absurd hp (by simp [Pending])
    | word cur =>
      have hk : lexStep (.word cur) 32 = ([wordTok cur], .ground) := by simp [lexStep, regular, white, lexStart]
      simp only [List.nil_append, lexer_cons, hk, lexer, List.append_nil] at h
      exact wordFirst cur [] T hp h
    | _ => simp [simpleFrom] at hs
  | cons c s ih =>
    intro m hs hp T h
    obtain ⟨h1, h2⟩ := simple_cons.1 hs
    rw [List.cons_append, lexer_cons] at h
    simp only at h
    cases m with
    | ground => exact absurd hp (by simp [Pending])
    | comment => simp [simpleByte] at h1
    | word cur =>
      by_cases hr : regular c = true
      · have hk : lexStep (.word cur) c = ([], .word (cur ++ [c])) := by simp [lexStep, hr]
        rw [hk] at h h2
        refine ih _ h2 ?_ T h
        simp only [Pending] at hp ⊢
        cases cur with
        | nil =>
          simp only [List.nil_append, List.head?_cons, ne_eq, Option.some.injEq]
          rintro rfl; exact absurd hr (by decide)
        | cons a cur => simpa using hp
      · have hk : lexStep (.word cur) c = (wordTok cur :: (lexStart c).1, (lexStart c).2) := by simp [lexStep, hr]
        rw [hk] at h
        exact wordFirst cur _ T hp h
    | lit d e cur =>
      have key : (∃ s, lexStep (.lit d e cur) c = ([.lit s], .ground)) ∨ ∃ d' e' cur', lexStep (.lit d e cur) c = ([], .lit d' e' cur') := by
        cases e
        · simp only [lexStep]
          split
          · exact Or.inr ⟨_, _, _, rfl⟩
          · split
            · exact Or.inr ⟨_, _, _, rfl⟩
            · split
              · cases d
                · exact Or.inl ⟨_, rfl⟩
                · exact Or.inr ⟨_, _, _, rfl⟩
              · exact Or.inr ⟨_, _, _, rfl⟩
        · exact Or.inr ⟨_, _, _, rfl⟩
      rcases key with ⟨x, hk⟩ | ⟨d', e', cur', hk⟩
      · rw [hk] at h
        exact started_fold _ (started_first (v := .lit x) (by intro n h; cases h)) h
      · rw [hk] at h h2
        exact ih _ h2 trivial T h
    | hex cur =>
      by_cases h62 : c = 62
      · subst h62
        have hk : lexStep (.hex cur) 62 = ([.hex cur], .ground) := by simp [lexStep]
        rw [hk] at h
        exact started_fold _ (started_first (v := .hex cur) (by intro n h; cases h)) h
      · have hk : ∃ cur', lexStep (.hex cur) c = ([], .hex cur') := by
          simp only [lexStep, h62, if_false]
          split <;> exact ⟨_, rfl⟩
        obtain ⟨cur', hk⟩ := hk
        rw [hk] at h h2
        exact ih _ h2 trivial T h
    | lt =>
      by_cases h62 : c = 62
      · subst h62
        have hk : lexStep .lt 62 = ([.hex []], .ground) := by simp [lexStep]
        rw [hk] at h
        exact started_fold _ (started_first (v := .hex []) (by intro n h; cases h)) h
      by_cases h60 : c = 60
      · subst h60
        have hk : lexStep .lt 60 = ([.dictOpen], .ground) := by simp [lexStep]
        rw [hk] at h
        exact started_fold _ (S := [(true, []), (true, [])]) ⟨[(true, [])], [], rfl, Or.inl ⟨rfl, by simp⟩⟩ h
      · have hk : ∃ cur', lexStep .lt c = ([], .hex cur') := by
          simp only [lexStep, h60, h62, if_false]
          split <;> exact ⟨_, rfl⟩
        obtain ⟨cur', hk⟩ := hk
        rw [hk] at h h2
        exact ih _ h2 trivial T h
    | gt =>
      simp only [simpleByte, decide_eq_true_eq] at h1
      subst h1
      have hk : lexStep .gt 62 = ([.dictClose], .ground) := by simp [lexStep]
      rw [hk, List.cons_append, List.foldl_cons] at h
      simp only [readStep, fold_none] at h
      simp at h

/-- a text that begins neither with white space nor with a name -/
theorem values_noName {c : UInt8} {s : Bytes} {vs : List Val} (hs : SimpleText (c :: s)) (hc : blankChar c = false) (h47 : c ≠ 47) (hv : Values (c :: s) vs) :
    ∃ y r, vs = y :: r ∧ NoName y := by
  obtain ⟨ts, h1, h0, h2⟩ := hv
  have hst : Started [(true, vs.reverse)] := by
    obtain ⟨k1, k2⟩ := simple_cons.1 hs
    have e : (lexer .ground (c :: s ++ b!" ")).1 = ts := by rw [h1]
    rw [List.cons_append, lexer_cons] at e
    simp only at e
    have hw : white c = false := by
      have := (simple_ascii (c :: s) _ hs c (by simp)).2
      simp [white, blankChar] at hc ⊢
      tauto
    have h37 : c ≠ 37 := by rintro rfl; exact absurd k1 (by simp [simpleByte, simpleChar, blankChar])
    rw [← e] at h2
    by_cases h91 : c = 91
    · subst h91
      have hk : lexStep .ground 91 = ([.open], .ground) := rfl
      rw [hk] at h2
      exact started_fold _ (S := [(false, []), (true, [])]) ⟨[(false, [])], [], rfl, Or.inl ⟨rfl, by simp⟩⟩ h2
    by_cases h93 : c = 93
    · subst h93
      have hk : lexStep .ground 93 = ([.close], .ground) := rfl
      rw [hk, List.cons_append, List.foldl_cons] at h2
      simp only [readStep, fold_none] at h2
      simp at h2
    have hk : ∃ m, lexStep .ground c = ([], m) ∧ Pending m := by
      simp only [lexStep, lexStart, hw, h37, h91, h93, if_false, Bool.false_eq_true]
      split
      · exact ⟨_, rfl, trivial⟩
      · split
        · exact ⟨_, rfl, trivial⟩
        · split
          · exact ⟨_, rfl, trivial⟩
          · exact ⟨_, rfl, by simpa [Pending] using h47⟩
    obtain ⟨m, hk, hp⟩ := hk
    rw [hk] at h2 k2
    exact pending_lex s m k2 hp _ h2
  obtain ⟨fr, u, hf, hu⟩ := hst
  cases fr with
  | cons f fr => have := congrArg List.length hf; simp at this
  | nil =>
    simp at hf
    subst hf
    rcases hu with ⟨_, h⟩ | ⟨u', y, h, hy⟩
    · exact absurd rfl h
    · have : vs = y :: u'.reverse := by
        have := congrArg List.reverse h
        simpa using this
      exact ⟨y, _, this, hy⟩

theorem simple_end : ∀ (s : Bytes) (m : Mode), simpleFrom m s = true → (lexer m s).2 ≠ .gt := by
  intro s
  induction s with
  | nil => intro m h e; simp only [lexer] at e; subst e; simp [simpleFrom] at h
  | cons c t ih => intro m h; exact ih _ (simple_cons.1 h).2

/-! ### keys -/

theorem lex_key {k s : Bytes} (hk : ∀ c ∈ k, regular c = true) (hs : ends s = true) :
    lexer .ground (47 :: k ++ s) = (.name k :: (lexer .ground s).1, (lexer .ground s).2) := by
  obtain ⟨e, r, rfl, he⟩ : ∃ e r, s = e :: r ∧ regular e = false := by
    cases s with
    | nil => simp [ends] at hs
    | cons e r => exact ⟨e, r, rfl, by simpa [ends] using hs⟩
  rw [lexer_append]
  have h1 : lexer .ground (47 :: k) = ([], .word (47 :: k)) := by
    rw [lexer_cons]
    have : lexStep .ground 47 = ([], .word [47]) := rfl
    rw [this, lexer_word _ _ hk]
    rfl
  rw [h1]
  have h2 : lexStep (.word (47 :: k)) e = (.name k :: (lexStart e).1, (lexStart e).2) := by simp [lexStep, he, wordTok]
  rw [lexer_cons, lexer_cons, h2]
  rfl

/-- the bytes at which a key ends -/
def keyStop (t : Bytes) : Prop := t = [] ∨ ∃ c r, t = c :: r ∧ (c = 32 ∨ c = 60 ∨ c = 91 ∨ c = 47)

theorem keyStop_ends {t : Bytes} (h : keyStop t) : ends (t ++ [32]) = true := by
  rcases h with rfl | ⟨c, r, rfl, rfl | rfl | rfl | rfl⟩ <;> rfl

def afterKey (k t : Bytes) : Props :=
  match t with
  | [] => [⟨k, []⟩]
  | 32 :: r => run (.val k [] 0 0) r
  | 47 :: r => ⟨k, []⟩ :: run .top (47 :: r)
  | r => run (.val k [] 0 0) r

theorem key_split : ∀ (t k : Bytes) (S : RStack), simpleFrom (.word (47 :: k)) t = true → (∀ c ∈ t, c ≠ 9 ∧ c ≠ 10 ∧ c ≠ 13) → S.length = 1 →
    (lexer (.word (47 :: k)) (t ++ [32])).1.foldl readStep (some S) ≠ none →
    ∃ k' t', t = k' ++ t' ∧ (∀ c ∈ k', regular c = true) ∧ keyStop t' ∧ run (.key k) t = afterKey (k ++ k') t' ∧ SimpleText t' := by
  intro t
  induction t with
  | nil => intro k S _ _ _ _; exact ⟨[], [], rfl, by simp, Or.inl rfl, by simp [run, afterKey], rfl⟩
  | cons c t ih =>
    intro k S hs hb hS hf
    obtain ⟨h1, h2⟩ := simple_cons.1 hs
    have h1c : simpleChar c = true := by simp [simpleByte] at h1; exact h1.1
    by_cases hc : c = 32 ∨ c = 60 ∨ c = 91 ∨ c = 47
    · refine ⟨[], c :: t, rfl, by simp, Or.inr ⟨c, t, rfl, hc⟩, ?_, ?_⟩
      · rw [List.append_nil]
        rcases hc with rfl | rfl | rfl | rfl
        · simp [run, afterKey]
        · simp [run, afterKey, byteAsRune]
        · simp [run, afterKey, byteAsRune]
        · simp [run, afterKey]
      · have hr : regular c = false := by rcases hc with rfl | rfl | rfl | rfl <;> decide
        unfold SimpleText
        rw [simple_cons]
        refine ⟨h1c, ?_⟩
        have hk : lexStep (.word (47 :: k)) c = (.name k :: (lexStart c).1, (lexStart c).2) := by simp [lexStep, hr, wordTok]
        rw [hk] at h2
        exact h2
    · simp only [not_or] at hc
      have hbc := hb c (by simp)
      have hasc := (simple_ascii (c :: t) _ hs c (by simp))
      have hr : regular c = true := by
        by_contra hr
        have hr : regular c = false := by simpa using hr
        have hcase : c = 40 ∨ c = 62 ∨ c = 93 := by
          have h37 : c ≠ 37 ∧ c ≠ 41 := by
            constructor <;> (rintro rfl; exact absurd h1c (by decide))
          simp [regular, white, delim] at hr
          tauto
        have hk : lexStep (.word (47 :: k)) c = (.name k :: (lexStart c).1, (lexStart c).2) := by simp [lexStep, hr, wordTok]
        rcases hcase with rfl | rfl | rfl
        · simp [simpleByte] at h1
        · rw [hk] at h2
          cases t with
          | nil => simp [lexStart, white, simpleFrom] at h2
          | cons d t =>
            obtain ⟨g1, _⟩ := simple_cons.1 h2
            have hd : d = 62 := by simpa [lexStart, white, simpleByte] using g1
            subst hd
            apply hf
            rw [List.cons_append, lexer_cons, hk]
            have e1 : lexStart 62 = ([], .gt) := rfl
            have e2 : lexStep .gt 62 = ([.dictClose], .ground) := rfl
            rw [e1]
            simp only [List.cons_append, lexer_cons, e2]
            match S, hS with
            | [(b, l)], _ =>
              cases b <;> simp only [List.nil_append, List.foldl_cons, readStep, fold_none]
        · apply hf
          rw [List.cons_append, lexer_cons, hk]
          have e1 : lexStart 93 = ([.close], .ground) := rfl
          rw [e1]
          match S, hS with
          | [(b, l)], _ =>
            cases b <;> simp only [List.nil_append, List.cons_append, List.foldl_cons, readStep, fold_none]
      have hk : lexStep (.word (47 :: k)) c = ([], .word (47 :: (k ++ [c]))) := by simp [lexStep, hr]
      rw [hk] at h2
      obtain ⟨k', t', e1, e2, e3, e4, e5⟩ := ih (k ++ [c]) S h2 (fun d hd => hb d (by simp [hd])) hS (by
        intro hn
        apply hf
        rw [List.cons_append, lexer_cons, hk]
        exact hn)
      refine ⟨c :: k', t', by rw [e1]; rfl, ?_, e3, ?_, e5⟩
      · intro d hd
        rcases List.mem_cons.1 hd with rfl | hd
        · exact hr
        · exact e2 d hd
      · have hasc2 : c < 128 := UInt8.lt_trans hasc.1 (by decide)
        have : run (.key k) (c :: t) = run (.key (k ++ [c])) t := by
          simp only [run, hc, if_false, or_self, byteAsRune_ascii hasc2]
        rw [this, e4]
        simp

/-- a name and what follows -/
theorem values_key {k t : Bytes} {vs : List Val} (hk : ∀ c ∈ k, regular c = true) (ht : keyStop t) (h : Values (47 :: k ++ t) vs) :
    ∃ vs', vs = .name k :: vs' ∧ Values t vs' := by
  obtain ⟨ts, h1, h0, h2⟩ := h
  rw [List.append_assoc, lex_key hk (keyStop_ends ht)] at h1
  simp only [Prod.mk.injEq] at h1
  rw [← h1.1, List.foldl_cons] at h2
  simp only [readStep] at h2
  obtain ⟨u, hu, he⟩ := over_base (by intro q r h; cases h) h2
  refine ⟨u.reverse, ?_, _, Prod.ext rfl h1.2, ?_, by rw [List.reverse_reverse]; exact hu⟩
  rotate_left
  · rcases ht with rfl | ⟨c, r, rfl, hc⟩
    · decide
    · rw [lex_key hk (s := c :: r) (by rcases hc with rfl | rfl | rfl | rfl <;> rfl)] at h0
      exact h0
  have := congrArg List.reverse he
  simpa using this

/-! ### values -/

/-- an array, a dictionary or a hexadecimal string -/
def Group (v : Val) : Prop := (∃ l, v = .arr l) ∨ (∃ d, v = .dict d) ∨ ∃ s, v = .hex s

theorem Group.noName {v : Val} (h : Group v) : NoName v := by
  rcases h with ⟨l, rfl⟩ | ⟨l, rfl⟩ | ⟨l, rfl⟩ <;> (intro n h; cases h)

theorem Group.noNum {v : Val} {w : List Val} (h : Group v) : ∀ q r, v :: w ≠ .num q :: r := by
  rcases h with ⟨l, rfl⟩ | ⟨l, rfl⟩ | ⟨l, rfl⟩ <;> (intro q r h; cases h)

theorem values_nil : Values [] [] := ⟨[], rfl, by decide, rfl⟩

/-- the end of a value that is closed by a bracket -/
theorem closed_value {m : Mode} {S T : RStack} {c : UInt8} {s : Bytes} {c1 c2 : Int} (hc : c = 93 ∨ c = 62) (hb : simpleByte m c s = true)
    (h : Counts m S c1 c2) (hf : (lexStep m c).1.foldl readStep (some S) = some T) (z1 : cnt1 c1 c = 0) (z2 : cnt2 c2 c = 0) :
    (lexStep m c).2 = .ground ∧ ∃ g u, T = [(true, g :: u)] ∧ Group g := by
  have hC := counts_step hb h hf
  rw [z1, z2] at hC
  obtain ⟨k1, k2, _⟩ := hC
  have lastTok : (lexStep m c).2 = .ground ∧ ∃ ts t, (lexStep m c).1 = ts ++ [t] ∧ (t = .close ∨ t = .dictClose ∨ ∃ s, t = .hex s) := by
    cases m with
    | ground =>
      rcases hc with rfl | rfl
      · exact ⟨rfl, [], _, rfl, Or.inl rfl⟩
      · have e : lexStep .ground 62 = ([], .gt) := rfl
        rw [e] at k1; simp [flag] at k1; omega
    | word cur =>
      rcases hc with rfl | rfl
      · have e : lexStep (.word cur) 93 = ([wordTok cur, .close], .ground) := by simp [lexStep, regular, delim, white, lexStart]
        rw [e]
        exact ⟨rfl, [wordTok cur], _, rfl, Or.inl rfl⟩
      · have e : lexStep (.word cur) 62 = ([wordTok cur], .gt) := by simp [lexStep, regular, delim, white, lexStart]
        rw [e] at k1; simp [flag] at k1; omega
    | lit d e cur => rcases hc with rfl | rfl <;> simp [simpleByte] at hb
    | hex cur =>
      rcases hc with rfl | rfl
      · simp [simpleByte, blankChar, Spec.hexDigit] at hb
      · have e : lexStep (.hex cur) 62 = ([.hex cur], .ground) := by simp [lexStep]
        rw [e]
        exact ⟨rfl, [], _, rfl, Or.inr (Or.inr ⟨_, rfl⟩)⟩
    | comment => simp [simpleByte] at hb
    | lt =>
      rcases hc with rfl | rfl
      · simp [simpleByte, blankChar, Spec.hexDigit] at hb
      · have e : lexStep .lt 62 = ([.hex []], .ground) := by simp [lexStep]
        rw [e]
        exact ⟨rfl, [], _, rfl, Or.inr (Or.inr ⟨_, rfl⟩)⟩
    | gt =>
      rcases hc with rfl | rfl
      · simp [simpleByte] at hb
      · have e : lexStep .gt 62 = ([.dictClose], .ground) := by simp [lexStep]
        rw [e]
        exact ⟨rfl, [], _, rfl, Or.inr (Or.inl rfl)⟩
  obtain ⟨hg, ts, t, ht, hk⟩ := lastTok
  rw [hg] at k1
  simp only [flag] at k1
  obtain ⟨u, rfl⟩ := single_of_count (S := T) (by omega) (by omega)
  refine ⟨hg, ?_⟩
  rw [ht, List.foldl_append] at hf
  cases hM : ts.foldl readStep (some S) with
  | none => rw [hM, fold_none] at hf; simp at hf
  | some M =>
    rw [hM] at hf
    simp only [List.foldl_cons, List.foldl_nil] at hf
    rcases hk with rfl | rfl | ⟨x, rfl⟩
    · match M, hf with
      | [], hf => simp [readStep] at hf
      | [(b, l)], hf => cases b <;> simp [readStep] at hf
      | (true, l) :: f :: r, hf => simp [readStep] at hf
      | (false, l) :: (b, m) :: r, hf =>
        simp only [readStep, Option.some.injEq, List.cons.injEq, Prod.mk.injEq] at hf
        exact ⟨_, _, by rw [← hf.1.2], Or.inl ⟨_, rfl⟩⟩
    · match M, hf with
      | [], hf => simp [readStep] at hf
      | [(b, l)], hf => cases b <;> simp [readStep] at hf
      | (false, l) :: f :: r, hf => simp [readStep] at hf
      | (true, l) :: (b, m) :: r, hf =>
        simp only [readStep, Option.map_eq_some_iff, List.cons.injEq, Prod.mk.injEq] at hf
        obtain ⟨d, _, hf⟩ := hf
        exact ⟨_, _, by rw [← hf.1.2], Or.inr (Or.inl ⟨_, rfl⟩)⟩
    · match M, hf with
      | [], hf => simp [readStep] at hf
      | (b, l) :: r, hf =>
        simp only [readStep, Option.some.injEq, List.cons.injEq, Prod.mk.injEq] at hf
        exact ⟨_, _, by rw [← hf.1.2], Or.inr (Or.inr ⟨_, rfl⟩)⟩

theorem fold_append_some {a b : List Lexeme} {S : RStack} {T : RStack} (h : (a ++ b).foldl readStep (some S) = some T) :
    ∃ M, a.foldl readStep (some S) = some M ∧ b.foldl readStep (some M) = some T := by
  rw [List.foldl_append] at h
  cases hM : a.foldl readStep (some S) with
  | none => rw [hM, fold_none] at h; simp at h
  | some M => rw [hM] at h; exact ⟨M, rfl, h⟩

/-- No name has been read outside of brackets, and none is being read there. -/
def NoNames (m : Mode) (S : RStack) : Prop :=
  ∃ fr u, S = fr ++ [(true, u)] ∧ (∀ v ∈ u, NoName v) ∧ ∀ cur, m = .word cur → cur.head? = some 47 → fr ≠ []

theorem noNames_tok {fr : RStack} {u : List Val} {T : RStack} {t : Lexeme} (hu : ∀ v ∈ u, NoName v) (ht : ∀ n, t = .name n → fr ≠ [])
    (hs : readStep (some (fr ++ [(true, u)])) t = some T) : ∃ fr' u', T = fr' ++ [(true, u')] ∧ ∀ v ∈ u', NoName v := by
  have push : ∀ v, NoName v → T = [(true, v :: u)] → ∃ fr' u', T = fr' ++ [(true, u')] ∧ ∀ v ∈ u', NoName v := by
    intro v hv h
    refine ⟨[], v :: u, h, ?_⟩
    intro x hx
    rcases List.mem_cons.1 hx with rfl | hx
    · exact hv
    · exact hu x hx
  have keep : ∀ fr', T = fr' ++ [(true, u)] → ∃ fr' u', T = fr' ++ [(true, u')] ∧ ∀ v ∈ u', NoName v := fun fr' h => ⟨fr', u, h, hu⟩
  cases fr with
  | nil =>
    simp only [List.nil_append] at hs
    cases t with
    | num q => simp only [readStep, Option.some.injEq] at hs; exact push _ (by intro n h; cases h) hs.symm
    | name n => exact absurd rfl (ht n rfl)
    | hex s => simp only [readStep, Option.some.injEq] at hs; exact push _ (by intro n h; cases h) hs.symm
    | lit s => simp only [readStep, Option.some.injEq] at hs; exact push _ (by intro n h; cases h) hs.symm
    | «open» => simp only [readStep, Option.some.injEq] at hs; exact keep [(false, [])] hs.symm
    | dictOpen => simp only [readStep, Option.some.injEq] at hs; exact keep [(true, [])] hs.symm
    | close => simp [readStep] at hs
    | dictClose => simp [readStep] at hs
    | op x =>
      simp only [readStep] at hs
      split at hs
      · split at hs
        · rename_i g n l
          split at hs
          · simp only [Option.some.injEq] at hs
            refine ⟨[], _, hs.symm, ?_⟩
            intro x hx
            rcases List.mem_cons.1 hx with rfl | hx
            · intro n h; cases h
            · exact hu x (by simp [hx])
          · simp at hs
        · simp at hs
      · simp only [Option.some.injEq] at hs; exact push _ (by intro n h; cases h) hs.symm
  | cons f fr =>
    obtain ⟨b, l⟩ := f
    simp only [List.cons_append] at hs
    cases t with
    | num q => simp only [readStep, Option.some.injEq] at hs; exact keep (_ :: fr) hs.symm
    | name n => simp only [readStep, Option.some.injEq] at hs; exact keep (_ :: fr) hs.symm
    | hex s => simp only [readStep, Option.some.injEq] at hs; exact keep (_ :: fr) hs.symm
    | lit s => simp only [readStep, Option.some.injEq] at hs; exact keep (_ :: fr) hs.symm
    | «open» => simp only [readStep, Option.some.injEq] at hs; exact keep (_ :: (b, l) :: fr) hs.symm
    | dictOpen => simp only [readStep, Option.some.injEq] at hs; exact keep (_ :: (b, l) :: fr) hs.symm
    | op x =>
      simp only [readStep] at hs
      split at hs
      · split at hs
        · split at hs
          · simp only [Option.some.injEq] at hs; exact keep (_ :: fr) hs.symm
          · simp at hs
        · simp at hs
      · simp only [Option.some.injEq] at hs; exact keep (_ :: fr) hs.symm
    | close =>
      cases b with
      | true => cases fr <;> simp [readStep] at hs
      | false =>
        cases fr with
        | nil => simp only [List.nil_append, readStep, Option.some.injEq] at hs; exact push _ (by intro n h; cases h) hs.symm
        | cons f fr =>
          obtain ⟨b, m⟩ := f
          simp only [List.cons_append, readStep, Option.some.injEq] at hs
          exact keep (_ :: fr) hs.symm
    | dictClose =>
      cases b with
      | false => cases fr <;> simp [readStep] at hs
      | true =>
        cases fr with
        | nil =>
          simp only [List.nil_append, readStep, Option.map_eq_some_iff] at hs
          obtain ⟨d, hd, hs⟩ := hs
          exact push _ (by intro n h; cases h) hs.symm
        | cons f fr =>
          obtain ⟨b, m⟩ := f
          simp only [List.cons_append, readStep, Option.map_eq_some_iff] at hs
          obtain ⟨d, hd, hs⟩ := hs
          exact keep (_ :: fr) hs.symm

theorem noNames_start {fr : RStack} {u : List Val} {T : RStack} {c : UInt8} (hu : ∀ v ∈ u, NoName v)
    (hf : (lexStart c).1.foldl readStep (some (fr ++ [(true, u)])) = some T) : ∃ fr' u', T = fr' ++ [(true, u')] ∧ ∀ v ∈ u', NoName v := by
  have key : (lexStart c).1 = [] ∨ (lexStart c).1 = [.open] ∨ (lexStart c).1 = [.close] := by
    unfold lexStart
    repeat' split
    all_goals simp
  rcases key with h | h | h
  · rw [h] at hf
    simp only [List.foldl_nil, Option.some.injEq] at hf
    exact ⟨fr, u, hf.symm, hu⟩
  · rw [h] at hf; exact noNames_tok hu (by intro n h; cases h) hf
  · rw [h] at hf; exact noNames_tok hu (by intro n h; cases h) hf

theorem noNames_step {m : Mode} {S T : RStack} {c : UInt8} (h : NoNames m S) (hf : (lexStep m c).1.foldl readStep (some S) = some T)
    (h47 : ∀ cur, (lexStep m c).2 = .word cur → c = 47 → ∀ u, T ≠ [(true, u)]) : NoNames (lexStep m c).2 T := by
  obtain ⟨fr, u, rfl, hu, hfr⟩ := h
  have fin : (∃ fr' u', T = fr' ++ [(true, u')] ∧ ∀ v ∈ u', NoName v) → (∀ cur, (lexStep m c).2 = .word cur → cur.head? = some 47 → c = 47) → NoNames (lexStep m c).2 T := by
    rintro ⟨fr', u', hT, hu'⟩ hw
    refine ⟨fr', u', hT, hu', ?_⟩
    intro cur hc hh he
    subst he
    exact h47 cur hc (hw cur hc hh) u' hT
  have startWord : ∀ cur, (lexStart c).2 = .word cur → cur.head? = some 47 → c = 47 := by
    intro cur hc hh
    unfold lexStart at hc
    split at hc <;> try cases hc
    split at hc <;> try cases hc
    split at hc <;> try cases hc
    split at hc <;> try cases hc
    split at hc <;> try cases hc
    split at hc <;> try cases hc
    split at hc <;> try cases hc
    simpa using hh
  cases m with
  | ground => exact fin (noNames_start hu hf) startWord
  | word cur =>
    by_cases hr : regular c = true
    · have hk : lexStep (.word cur) c = ([], .word (cur ++ [c])) := by simp [lexStep, hr]
      rw [hk] at hf ⊢
      simp only [List.foldl_nil, Option.some.injEq] at hf
      refine ⟨fr, u, hf.symm, hu, ?_⟩
      intro cur' hc hh
      simp only [Mode.word.injEq] at hc
      subst hc
      refine hfr cur rfl ?_
      cases cur with
      | nil =>
        simp only [List.nil_append, List.head?_cons, Option.some.injEq] at hh
        subst hh; exact absurd hr (by decide)
      | cons a cur => simpa using hh
    · have hk : lexStep (.word cur) c = (wordTok cur :: (lexStart c).1, (lexStart c).2) := by simp [lexStep, hr]
      rw [hk] at hf fin ⊢
      rw [List.foldl_cons] at hf
      cases hM : readStep (some (fr ++ [(true, u)])) (wordTok cur) with
      | none => simp only [hM, fold_none] at hf; simp at hf
      | some M =>
        rw [hM] at hf
        obtain ⟨fr', u', rfl, hu'⟩ := noNames_tok hu (by
          intro n hn
          refine hfr cur rfl ?_
          unfold wordTok at hn
          split at hn
          · rfl
          · split at hn <;> cases hn) hM
        exact fin (noNames_start hu' hf) startWord
  | lit d e cur =>
    have key : (∃ s, lexStep (.lit d e cur) c = ([.lit s], .ground)) ∨ ∃ d' e' cur', lexStep (.lit d e cur) c = ([], .lit d' e' cur') := by
      cases e
      · simp only [lexStep]
        split
        · exact Or.inr ⟨_, _, _, rfl⟩
        · split
          · exact Or.inr ⟨_, _, _, rfl⟩
          · split
            · cases d
              · exact Or.inl ⟨_, rfl⟩
              · exact Or.inr ⟨_, _, _, rfl⟩
            · exact Or.inr ⟨_, _, _, rfl⟩
      · exact Or.inr ⟨_, _, _, rfl⟩
    rcases key with ⟨s, hk⟩ | ⟨d', e', cur', hk⟩
    · rw [hk] at hf fin ⊢
      exact fin (noNames_tok hu (by intro n h; cases h) hf) (by simp)
    · rw [hk] at hf fin ⊢
      simp only [List.foldl_nil, Option.some.injEq] at hf
      exact fin ⟨fr, u, hf.symm, hu⟩ (by simp)
  | hex cur =>
    have key : lexStep (.hex cur) c = ([.hex cur], .ground) ∨ ∃ cur', lexStep (.hex cur) c = ([], .hex cur') := by
      simp only [lexStep]
      split
      · exact Or.inl rfl
      · split <;> exact Or.inr ⟨_, rfl⟩
    rcases key with hk | ⟨cur', hk⟩
    · rw [hk] at hf fin ⊢
      exact fin (noNames_tok hu (by intro n h; cases h) hf) (by simp)
    · rw [hk] at hf fin ⊢
      simp only [List.foldl_nil, Option.some.injEq] at hf
      exact fin ⟨fr, u, hf.symm, hu⟩ (by simp)
  | comment =>
    have key : lexStep .comment c = ([], .ground) ∨ lexStep .comment c = ([], .comment) := by
      simp only [lexStep]
      split <;> simp
    rcases key with hk | hk <;>
    · rw [hk] at hf fin ⊢
      simp only [List.foldl_nil, Option.some.injEq] at hf
      exact fin ⟨fr, u, hf.symm, hu⟩ (by simp)
  | lt =>
    have key : lexStep .lt c = ([.dictOpen], .ground) ∨ lexStep .lt c = ([.hex []], .ground) ∨ ∃ cur', lexStep .lt c = ([], .hex cur') := by
      simp only [lexStep]
      split
      · exact Or.inl rfl
      · split
        · exact Or.inr (Or.inl rfl)
        · split <;> exact Or.inr (Or.inr ⟨_, rfl⟩)
    rcases key with hk | hk | ⟨cur', hk⟩
    · rw [hk] at hf fin ⊢
      exact fin (noNames_tok hu (by intro n h; cases h) hf) (by simp)
    · rw [hk] at hf fin ⊢
      exact fin (noNames_tok hu (by intro n h; cases h) hf) (by simp)
    · rw [hk] at hf fin ⊢
      simp only [List.foldl_nil, Option.some.injEq] at hf
      exact fin ⟨fr, u, hf.symm, hu⟩ (by simp)
  | gt =>
    by_cases hc : c = 62
    · have hk : lexStep .gt c = ([.dictClose], .ground) := by simp [lexStep, hc]
      rw [hk] at hf fin ⊢
      exact fin (noNames_tok hu (by intro n h; cases h) hf) (by simp)
    · have hk : lexStep .gt c = lexStart c := by simp [lexStep, hc]
      rw [hk] at hf fin ⊢
      exact fin (noNames_start hu hf) startWord

theorem NoNames.base {m : Mode} {u : List Val} (h : NoNames m [(true, u)]) : ∀ v ∈ u, NoName v := by
  obtain ⟨fr, u', he, hu, _⟩ := h
  cases fr with
  | nil => simp at he; subst he; exact hu
  | cons f fr => have := congrArg List.length he; simp at this

/-- what a value ends with: the end of the text, the next name, or a closing bracket of its own -/
def ValueEnd (r : Bytes) (vs : List Val) : Prop := r = [] ∨ r.head? = some 47 ∨ ∃ vs' g, vs = vs' ++ [g] ∧ Group g

theorem value_split : ∀ (s k v : Bytes) (c1 c2 : Int) (m : Mode) (ts1 ts2 : List Lexeme) (S : RStack) (uf : List Val),
    lexer .ground v = (ts1, m) → ts1.foldl readStep (some [(true, [])]) = some S → Counts m S c1 c2 → NoNames m S → simpleFrom m s = true →
    (∀ c ∈ s, c ≠ 9 ∧ c ≠ 10 ∧ c ≠ 13) →
    lexer m (s ++ [32]) = (ts2, .ground) → ts2.foldl readStep (some S) = some [(true, uf)] →
    ∃ v' r, s = v' ++ r ∧ run (.val k v c1 c2) s = ⟨k, v ++ v'⟩ :: run .top r ∧ SimpleText r ∧
      ∃ vs1 vs2, Values (v ++ v') vs1 ∧ Values r vs2 ∧ uf.reverse = vs1 ++ vs2 ∧ ValueEnd r vs1 ∧ ∀ v ∈ vs1, NoName v := by
  intro s
  induction s with
  | nil =>
    intro k v c1 c2 m ts1 ts2 S uf h1 h2 hC hn hs hb h3 h4
    refine ⟨[], [], rfl, by simp [run], rfl, uf.reverse, [], ?_, values_nil, by simp, Or.inl rfl, ?_⟩
    rotate_left
    · simp only [List.nil_append, lexer_cons, lexer, List.append_nil, Prod.mk.injEq] at h3
      rw [← h3.1] at h4
      have := (noNames_step (c := 32) hn h4 (by intro _ _ h; cases h)).base
      intro v hv
      exact this v (by simpa using hv)
    refine ⟨ts1 ++ ts2, ?_, ?_, ?_⟩
    · rw [List.append_nil, lexer_append, h1]
      simp only [List.nil_append] at h3
      rw [h3]
    · rw [List.append_nil, h1]
      exact simple_end [] m hs
    · rw [List.foldl_append, h2, h4, List.reverse_reverse]
  | cons c t ih =>
    intro k v c1 c2 m ts1 ts2 S uf h1 h2 hC hn hs hb h3 h4
    obtain ⟨hs1, hs2⟩ := simple_cons.1 hs
    rw [List.cons_append, lexer_cons] at h3
    simp only [Prod.mk.injEq] at h3
    obtain ⟨h3a, h3b⟩ := h3
    rw [← h3a] at h4
    obtain ⟨T, hT1, hT2⟩ := fold_append_some h4
    have hvc : lexer .ground (v ++ [c]) = (ts1 ++ (lexStep m c).1, (lexStep m c).2) := by
      rw [lexer_append, h1, lexer_cons]; simp [lexer]
    have hasc : c < 128 := UInt8.lt_trans (simple_ascii (c :: t) _ hs c (by simp)).1 (by decide)
    by_cases hcl : (c = 93 ∨ c = 62) ∧ cnt1 c1 c = 0 ∧ cnt2 c2 c = 0
    · -- closed by a bracket
      obtain ⟨hg, g, u, rfl, hgr⟩ := closed_value hcl.1 hs1 hC hT1 hcl.2.1 hcl.2.2
      rw [hg] at hT2 hs2 h3b
      obtain ⟨u2, hu2, he⟩ := over_base (hgr.noNum) hT2
      refine ⟨[c], t, rfl, ?_, hs2, (g :: u).reverse, u2.reverse, ?_, ?_, ?_, Or.inr (Or.inr ⟨u.reverse, g, by simp, hgr⟩), ?_⟩
      rotate_right
      · have := (noNames_step (c := c) hn hT1 (by rcases hcl.1 with h | h <;> (intro _ _ e; rw [h] at e; cases e))).base
        intro v hv
        exact this v (List.mem_reverse.1 hv)
      · simp only [run, hcl, and_self, if_true]
      · refine ⟨ts1 ++ (lexStep m c).1, ?_, ?_, ?_⟩
        · rw [lexer_append, hvc, hg]
          simp [lexer, lexStep, lexStart, white]
        · rw [hvc, hg]; simp
        · rw [List.foldl_append, h2, hT1, List.reverse_reverse]
      · exact ⟨_, Prod.ext rfl h3b, simple_end _ _ hs2, by rw [List.reverse_reverse]; exact hu2⟩
      · rw [he]; simp
    by_cases hsl : c = 47 ∧ c1 = 0 ∧ c2 = 0
    · -- followed by a name
      obtain ⟨rfl, rfl, rfl⟩ := hsl
      have hm : m = .ground ∨ ∃ cur, m = .word cur := by
        cases m with
        | ground => exact Or.inl rfl
        | word cur => exact Or.inr ⟨cur, rfl⟩
        | lit d e cur => simp [simpleByte] at hs1
        | hex cur => simp [simpleByte, blankChar, Spec.hexDigit] at hs1
        | comment => simp [simpleByte] at hs1
        | lt => simp [simpleByte, blankChar, Spec.hexDigit] at hs1
        | gt => simp [simpleByte] at hs1
      obtain ⟨fl, hfl, hst, hbl⟩ : ∃ fl, (lexStep m 47) = (fl, .word [47]) ∧ lexer .ground (v ++ [32]) = (ts1 ++ fl, .ground) ∧ flag m = 0 := by
        rcases hm with rfl | ⟨cur, rfl⟩
        · exact ⟨[], rfl, by rw [lexer_append, h1]; simp [lexer, lexStep, lexStart, white], rfl⟩
        · refine ⟨[wordTok cur], by simp [lexStep, regular, white, delim, lexStart], ?_, rfl⟩
          rw [lexer_append, h1]
          simp [lexer, lexStep, regular, white, delim, lexStart]
      rw [hfl] at hT1 hT2 hs2 h3b
      have hT : ∃ u, T = [(true, u)] := by
        obtain ⟨k1, k2, k3⟩ := hC
        rw [hbl] at k1
        obtain ⟨u, rfl⟩ := single_of_count (S := S) (by omega) (by omega)
        have hflat : fl = [] ∨ ∃ cur, fl = [wordTok cur] := by
          rcases hm with rfl | ⟨cur, rfl⟩
          · left
            have : lexStep .ground 47 = ([], .word [47]) := rfl
            rw [this] at hfl
            exact (Prod.mk.inj hfl).1.symm
          · right
            have : lexStep (.word cur) 47 = ([wordTok cur], .word [47]) := by simp [lexStep, regular, white, delim, lexStart]
            rw [this] at hfl
            exact ⟨cur, (Prod.mk.inj hfl).1.symm⟩
        rcases hflat with rfl | ⟨cur, rfl⟩
        · simp only [List.foldl_nil, Option.some.injEq] at hT1; exact ⟨u, hT1.symm⟩
        · simp only [List.foldl_cons, List.foldl_nil] at hT1
          obtain ⟨j1, j2, _, _⟩ := count_step hT1 (by simp)
          obtain ⟨w1, w2⟩ := wordTok_flat cur
          exact single_of_count (S := T) (by rw [j1, w1]; rfl) (by rw [j2, w2]; rfl)
      obtain ⟨u, rfl⟩ := hT
      -- the name and what follows
      obtain ⟨k', t', e1, e2, e3, _, _⟩ := key_split t [] [(true, u)] hs2 (fun d hd => hb d (by simp [hd])) rfl (by rw [hT2]; simp)
      have hlx : lexer .ground (47 :: t ++ [32]) = (.name k' :: (lexer .ground (t' ++ [32])).1, (lexer .ground (t' ++ [32])).2) := by
        rw [e1, List.cons_append, List.append_assoc]
        exact lex_key e2 (keyStop_ends e3)
      have hlx2 : lexer .ground (47 :: t ++ [32]) = ((lexer (.word [47]) (t ++ [32])).1, (lexer (.word [47]) (t ++ [32])).2) := by
        rw [List.cons_append, lexer_cons]; rfl
      have hlx3 := congrArg Prod.fst (hlx2.symm.trans hlx)
      have hlx4 := congrArg Prod.snd (hlx2.symm.trans hlx)
      simp only at hlx3 hlx4
      rw [hlx3, List.foldl_cons] at hT2
      simp only [readStep] at hT2
      obtain ⟨u2, hu2, he⟩ := over_base (w := .name k' :: u) (by intro q r h; cases h) hT2
      refine ⟨[], 47 :: t, rfl, ?_, ?_, u.reverse, .name k' :: u2.reverse, ?_, ?_, ?_, Or.inr (Or.inl rfl), ?_⟩
      rotate_right
      · have hst' : (lexStep m 32).1 = fl := by
          rcases hm with rfl | ⟨cur, rfl⟩
          · have : lexStep .ground 47 = ([], .word [47]) := rfl
            rw [this] at hfl
            exact (Prod.mk.inj hfl).1
          · have : lexStep (.word cur) 47 = ([wordTok cur], .word [47]) := by simp [lexStep, regular, white, delim, lexStart]
            rw [this] at hfl
            rw [← (Prod.mk.inj hfl).1]
            simp [lexStep, regular, white, lexStart]
        have := (noNames_step (c := 32) (T := [(true, u)]) hn (by rw [hst']; exact hT1) (by intro _ _ h; cases h)).base
        intro v hv
        exact this v (by simpa using hv)
      · rw [List.append_nil]
        simp only [run, if_true, and_self]
        rw [if_neg (by simp)]
      · unfold SimpleText
        rw [simple_cons]
        exact ⟨by simp [simpleByte]; decide, hs2⟩
      · refine ⟨ts1 ++ fl, by rw [List.append_nil]; exact hst, by rw [List.append_nil, h1]; rcases hm with rfl | ⟨cur, rfl⟩ <;> simp, ?_⟩
        rw [List.foldl_append, h2, hT1, List.reverse_reverse]
      · refine ⟨_, hlx.trans (Prod.ext rfl (by rw [← hlx4]; exact h3b)), simple_end (47 :: t) .ground (simple_cons.2 ⟨by simp [simpleByte]; decide, hs2⟩), ?_⟩
        rw [List.foldl_cons]
        simp only [readStep]
        rw [under_base [.name k'] hu2]
        simp
      · rw [he]; simp
    · have hstep : run (.val k v c1 c2) (c :: t) = run (.val k (v ++ [c]) (cnt1 c1 c) (cnt2 c2 c)) t := by
        simp only [run]
        rw [if_neg hcl, if_neg hsl, byteAsRune_ascii hasc]
      obtain ⟨v', r, e1, e2, e3, vs1, vs2, e4, e5, e6, e7, e8⟩ := ih k (v ++ [c]) (cnt1 c1 c) (cnt2 c2 c) (lexStep m c).2 _ _ T uf hvc
        (by rw [List.foldl_append, h2, hT1]) (counts_step hs1 hC hT1) (noNames_step hn hT1 (by
          intro cur hw h47 u hT
          subst h47
          subst hT
          obtain ⟨q1, q2, _⟩ := counts_step hs1 hC hT1
          rw [hw] at q1
          simp [cnt1, cnt2, ntrue, nfalse, flag] at q1 q2
          exact hsl ⟨rfl, q1, q2⟩)) hs2 (fun d hd => hb d (by simp [hd])) (Prod.ext rfl h3b) hT2
      refine ⟨c :: v', r, by rw [e1]; rfl, ?_, e3, vs1, vs2, ?_, e5, e6, e7, e8⟩
      · rw [hstep, e2]; simp
      · rw [List.append_assoc] at e4; exact e4

/-! ### entries -/

/-- the key of an entry is a name, and these are its values, which are no names and simply written -/
def EntryValues (p : PropD) (vs : List Val) : Prop := (∀ c ∈ p.key, regular c = true) ∧ Values p.rawVal vs ∧ (∀ v ∈ vs, NoName v) ∧ SimpleText p.rawVal

/-- a beginning of a simple text that ends outside of strings -/
theorem simple_prefix : ∀ (u r : Bytes) (m : Mode), simpleFrom m (u ++ r) = true → ((lexer m u).2 = .ground ∨ ∃ cur, (lexer m u).2 = .word cur) → simpleFrom m u = true := by
  intro u
  induction u with
  | nil =>
    intro r m _ h
    rcases h with h | ⟨cur, h⟩ <;> (simp only [lexer] at h; subst h; rfl)
  | cons c u ih =>
    intro r m hs h
    rw [List.cons_append] at hs
    obtain ⟨h1, h2⟩ := simple_cons.1 hs
    refine simple_cons.2 ⟨?_, ih r _ h2 h⟩
    cases u with
    | cons d u => exact simple_rest h1 (Or.inl rfl)
    | nil => exact simple_rest h1 (Or.inr (by simp))

theorem values_mode {u : Bytes} {vs : List Val} (h : Values u vs) : (lexer .ground u).2 = .ground ∨ ∃ cur, (lexer .ground u).2 = .word cur := by
  obtain ⟨ts, h1, h0, _⟩ := h
  rw [lexer_append] at h1
  generalize (lexer .ground u).2 = m at h0 h1
  simp only [lexer, Prod.mk.injEq, List.append_nil] at h1
  obtain ⟨_, h3⟩ := h1
  cases m with
  | ground => exact Or.inl rfl
  | word cur => exact Or.inr ⟨cur, rfl⟩
  | lit d e cur => cases e <;> simp [lexStep] at h3
  | hex cur => simp [lexStep, white] at h3
  | comment => simp [lexStep] at h3
  | lt => simp [lexStep, white] at h3
  | gt => exact absurd rfl h0

theorem pairUp_noName : ∀ (pre : List Val) {g y : Val} {r : List Val}, NoName g → NoName y → pairUp (pre ++ g :: y :: r) = none
  | [], g, y, r, hg, hy => by
    cases g with
    | name n => exact absurd rfl (hg n)
    | _ => rfl
  | [a], g, y, r, hg, hy => by
    cases a with
    | name n =>
      simp only [List.cons_append, List.nil_append, pairUp]
      cases y with
      | name n => exact absurd rfl (hy n)
      | _ => simp [pairUp]
    | _ => rfl
  | a :: b :: pre, g, y, r, hg, hy => by
    cases a with
    | name n => simp [pairUp, pairUp_noName pre hg hy]
    | _ => rfl

theorem pairUp_first {y : Val} {r : List Val} (hy : NoName y) : pairUp (y :: r) = none := by
  cases y with
  | name n => exact absurd rfl (hy n)
  | _ => rfl

/-- a place at which a dictionary goes on with a key -/
def KeyNext (pre : List Val) (s : Bytes) : Prop := pre = [] ∨ (∃ pre' g, pre = pre' ++ [g] ∧ NoName g) ∨ s.head? = some 47 ∨ s = []

theorem run_values (N : Nat) : ∀ (s : Bytes) (pre vs : List Val), s.length ≤ N → SimpleText s → (∀ c ∈ s, c ≠ 9 ∧ c ≠ 10 ∧ c ≠ 13) → Values s vs → KeyNext pre s →
    pairUp (pre ++ vs) ≠ none →
    ∃ vss, List.Forall₂ EntryValues (run .top s) vss ∧ vs = (List.zipWith (fun p l => Val.name p.key :: l) (run .top s) vss).flatten := by
  induction N with
  | zero =>
    intro s pre vs hN _ _ hv _ _
    have : s = [] := by simpa using hN
    subst this
    obtain ⟨ts, h1, h0, h2⟩ := hv
    have : ts = [] := by
      have : lexer .ground ([] ++ b!" ") = ([], .ground) := rfl
      rw [this] at h1; exact (Prod.mk.inj h1).1.symm
    subst this
    simp at h2
    refine ⟨[], by simp [run], ?_⟩
    rw [h2]; rfl
  | succ N ih =>
    intro s pre vs hN hs hb hv hk hp
    cases s with
    | nil => exact ih [] pre vs (by simp) hs hb hv hk hp
    | cons c t =>
      have hb' : ∀ d ∈ t, d ≠ 9 ∧ d ≠ 10 ∧ d ≠ 13 := fun d hd => hb d (by simp [hd])
      have hN' : t.length ≤ N := by simpa using hN
      by_cases h47 : c = 47
      · subst h47
        obtain ⟨ts, h1, h0, h2⟩ := id hv
        obtain ⟨_, hs2⟩ := simple_cons.1 hs
        have e47 : lexStep .ground 47 = ([], .word [47]) := rfl
        rw [e47] at hs2
        obtain ⟨k, t', rfl, e2, e3, e4, e5⟩ := key_split t [] [(true, [])] hs2 hb' rfl (by
          rw [List.cons_append, lexer_cons, e47] at h1
          have := (Prod.mk.inj h1).1
          simp only [List.nil_append] at this
          rw [this, h2]; simp)
        rw [List.nil_append] at e4
        obtain ⟨vs', rfl, hv'⟩ := values_key (k := k) (t := t') e2 e3 hv
        have htop : run .top (47 :: (k ++ t')) = afterKey k t' := by rw [← e4]; simp [run]
        rw [htop]
        have hlen : t'.length ≤ N := by
          have : (k ++ t').length ≤ N := hN'
          rw [List.length_append] at this; omega
        have hbt : ∀ d ∈ t', d ≠ 9 ∧ d ≠ 10 ∧ d ≠ 13 := fun d hd => hb' d (by simp [hd])
        -- a value
        have value : ∀ r : Bytes, r.length ≤ N → SimpleText r → (∀ d ∈ r, d ≠ 9 ∧ d ≠ 10 ∧ d ≠ 13) → Values r vs' →
            ∃ vss, List.Forall₂ EntryValues (run (.val k [] 0 0) r) vss ∧
              Val.name k :: vs' = (List.zipWith (fun p l => Val.name p.key :: l) (run (.val k [] 0 0) r) vss).flatten := by
          intro r hr hrs hrb hrv
          obtain ⟨ts, g1, g0, g2⟩ := hrv
          obtain ⟨v', r', j1, j2, j3, vs1, vs2, j4, j5, j6, j7, j8⟩ := value_split r k [] 0 0 .ground [] ts [(true, [])] vs'.reverse rfl rfl ⟨by simp [ntrue, flag], by simp [nfalse], by simp⟩ ⟨[], [], rfl, by simp, by intro _ h; cases h⟩ hrs hrb g1 g2
          rw [List.reverse_reverse] at j6
          rw [List.nil_append] at j2 j4
          subst j6
          have hnext : KeyNext (pre ++ .name k :: vs1) r' := by
            rcases j7 with rfl | h | ⟨vs', g, rfl, hg⟩
            · exact Or.inr (Or.inr (Or.inr rfl))
            · exact Or.inr (Or.inr (Or.inl h))
            · exact Or.inr (Or.inl ⟨pre ++ .name k :: vs', g, by simp, hg.noName⟩)
          obtain ⟨vss, f1, f2⟩ := ih r' (pre ++ .name k :: vs1) vs2 (by
              have := congrArg List.length j1
              rw [List.length_append] at this; omega) j3 (fun d hd => hrb d (by rw [j1]; simp [hd])) j5 hnext (by simpa using hp)
          rw [j2]
          refine ⟨vs1 :: vss, List.Forall₂.cons ⟨e2, j4, j8, simple_prefix v' r' _ (by rw [← j1]; exact hrs) (values_mode j4)⟩ f1, ?_⟩
          rw [List.zipWith_cons_cons, List.flatten_cons, ← f2]
          rfl
        rcases e3 with rfl | ⟨c, r, rfl, hc⟩
        · have hvs : vs' = [] := by
            obtain ⟨ts, h1, h0, h2⟩ := hv'
            have : ts = [] := by
              have : lexer .ground ([] ++ b!" ") = ([], .ground) := rfl
              rw [this] at h1; exact (Prod.mk.inj h1).1.symm
            subst this
            simpa using h2
          subst hvs
          exact ⟨[[]], List.Forall₂.cons ⟨e2, values_nil, by simp, rfl⟩ List.Forall₂.nil, rfl⟩
        · rcases hc with rfl | rfl | rfl | rfl
          · -- a blank
            have hr : Values r vs' := by
              obtain ⟨ts, g1, g0, g2⟩ := hv'
              refine ⟨ts, ?_, simple_end _ _ (by have := (simple_cons.1 e5).2; simpa [lexStep, lexStart, white] using this), g2⟩
              rw [List.cons_append, lexer_cons] at g1
              simpa [lexStep, lexStart, white] using g1
            have hrs : SimpleText r := by
              have := (simple_cons.1 e5).2
              unfold SimpleText
              simpa [lexStep, lexStart, white] using this
            exact value r (by simp at hlen; omega) hrs (fun d hd => hbt d (by simp [hd])) hr
          · exact value _ hlen e5 hbt hv'
          · exact value _ hlen e5 hbt hv'
          · obtain ⟨vss, f1, f2⟩ := ih (47 :: r) (pre ++ [.name k]) vs' hlen e5 hbt hv' (Or.inr (Or.inr (Or.inl rfl))) (by simpa using hp)
            refine ⟨[] :: vss, List.Forall₂.cons ⟨e2, values_nil, by simp, rfl⟩ f1, ?_⟩
            simp only [afterKey]
            rw [List.zipWith_cons_cons, List.flatten_cons, ← f2]
            rfl
      · by_cases hbl : blankChar c = true
        · have e : lexStep .ground c = ([], .ground) := by rcases blankChar_cases hbl with rfl | rfl | rfl | rfl <;> rfl
          have hv' : Values t vs := by
            obtain ⟨ts, g1, g0, g2⟩ := hv
            refine ⟨ts, ?_, simple_end _ _ (by have := (simple_cons.1 hs).2; rw [e] at this; exact this), g2⟩
            rw [List.cons_append, lexer_cons, e] at g1
            simpa using g1
          have hs' : SimpleText t := by have := (simple_cons.1 hs).2; rw [e] at this; exact this
          have : run .top (c :: t) = run .top t := by simp [run, h47]
          rw [this]
          by_cases ht : t = []
          · subst ht
            exact ih [] pre vs (by simp) rfl (by simp) hv' (Or.inr (Or.inr (Or.inr rfl))) hp
          refine ih t pre vs hN' hs' hb' hv' ?_ hp
          rcases hk with h | h | h | h
          · exact Or.inl h
          · exact Or.inr (Or.inl h)
          · simp at h; exact absurd h h47
          · simp at h
        · obtain ⟨y, r, rfl, hy⟩ := values_noName hs (by simpa using hbl) h47 hv
          exfalso
          apply hp
          rcases hk with rfl | ⟨pre', g, rfl, hg⟩ | h | h
          · exact pairUp_first hy
          · rw [List.append_assoc]; exact pairUp_noName pre' hg hy
          · simp at h; exact absurd h h47
          · simp at h

end Verif
