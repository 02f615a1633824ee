import Verif.Lemmas.Agree
import Verif.Lemmas.Loop
/-
The reader of objects step by step, and the bracket counters of `readProperties` against it.
-/
namespace Verif
open Spec

/-! ### the reader of objects, step by step -/

abbrev RStack := List (Bool × List Val)

/-- the same stack, with more values below those of the outermost bracket -/
def Over (w : List Val) (S S' : RStack) : Prop := ∃ fr u, S = fr ++ [(true, u)] ∧ S' = fr ++ [(true, u ++ w)]

theorem fold_none (ts : List Lexeme) : ts.foldl readStep none = none := by
  induction ts with
  | nil => rfl
  | cons t ts ih =>
    rw [List.foldl_cons]
    cases t <;> exact ih

theorem over_step {w : List Val} {S S' T' : RStack} {t : Lexeme} (hw : ∀ q r, w ≠ .num q :: r) (h : Over w S S') (hs : readStep (some S') t = some T') :
    ∃ T, readStep (some S) t = some T ∧ Over w T T' := by
  obtain ⟨fr, u, rfl, rfl⟩ := h
  cases fr with
  | nil =>
    simp only [List.nil_append] at hs ⊢
    cases t with
    | num q => simp only [readStep, Option.some.injEq] at hs ⊢; exact ⟨_, rfl, [], .num q :: u, rfl, hs.symm⟩
    | name n => simp only [readStep, Option.some.injEq] at hs ⊢; exact ⟨_, rfl, [], .name n :: u, rfl, hs.symm⟩
    | hex s => simp only [readStep, Option.some.injEq] at hs ⊢; exact ⟨_, rfl, [], .hex s :: u, rfl, hs.symm⟩
    | lit s => simp only [readStep, Option.some.injEq] at hs ⊢; exact ⟨_, rfl, [], .lit s :: u, rfl, hs.symm⟩
    | «open» => simp only [readStep, Option.some.injEq] at hs ⊢; exact ⟨_, rfl, [(false, [])], u, rfl, hs.symm⟩
    | dictOpen => simp only [readStep, Option.some.injEq] at hs ⊢; exact ⟨_, rfl, [(true, [])], u, rfl, hs.symm⟩
    | close => simp [readStep] at hs
    | dictClose => simp [readStep] at hs
    | op x =>
      by_cases hx : x = b!"R"
      · subst hx
        rcases u with _ | ⟨a, _ | ⟨b, u⟩⟩
        · simp only [readStep, if_true, List.nil_append] at hs
          split at hs
          · rename_i h; exact absurd rfl (hw _ _)
          · simp at hs
        · simp only [readStep, if_true, List.cons_append, List.nil_append] at hs
          split at hs
          · rename_i h
            simp only [List.cons.injEq] at h
            exact absurd h.2 (hw _ _)
          · simp at hs
        · simp only [readStep, if_true, List.cons_append] at hs ⊢
          split at hs
          · rename_i g n l h
            simp only [List.cons.injEq] at h
            obtain ⟨rfl, rfl, rfl⟩ := h
            split at hs
            · rename_i hg
              simp only [Option.some.injEq] at hs
              exact ⟨_, by simp only [hg, and_self, if_true]; rfl, [], .ref n.num :: u, rfl, hs.symm⟩
            · simp at hs
          · simp at hs
      · simp only [readStep, hx, if_false, Option.some.injEq] at hs ⊢
        exact ⟨_, rfl, [], .word x :: u, rfl, hs.symm⟩
  | cons f fr =>
    obtain ⟨b, l⟩ := f
    simp only [List.cons_append] at hs ⊢
    cases t with
    | num q => simp only [readStep, Option.some.injEq] at hs ⊢; exact ⟨_, rfl, (b, .num q :: l) :: fr, u, rfl, hs.symm⟩
    | name n => simp only [readStep, Option.some.injEq] at hs ⊢; exact ⟨_, rfl, (b, .name n :: l) :: fr, u, rfl, hs.symm⟩
    | hex s => simp only [readStep, Option.some.injEq] at hs ⊢; exact ⟨_, rfl, (b, .hex s :: l) :: fr, u, rfl, hs.symm⟩
    | lit s => simp only [readStep, Option.some.injEq] at hs ⊢; exact ⟨_, rfl, (b, .lit s :: l) :: fr, u, rfl, hs.symm⟩
    | «open» => simp only [readStep, Option.some.injEq] at hs ⊢; exact ⟨_, rfl, (false, []) :: (b, l) :: fr, u, rfl, hs.symm⟩
    | dictOpen => simp only [readStep, Option.some.injEq] at hs ⊢; exact ⟨_, rfl, (true, []) :: (b, l) :: fr, u, rfl, hs.symm⟩
    | op x =>
      simp only [readStep] at hs ⊢
      split
      · rename_i hx
        simp only [hx, if_true] at hs
        split at hs
        · rename_i g n l'
          split at hs
          · rename_i hg
            simp only [Option.some.injEq] at hs
            exact ⟨_, by simp only [hg, and_self, if_true]; rfl, (b, .ref n.num :: l') :: fr, u, rfl, hs.symm⟩
          · simp at hs
        · simp at hs
      · rename_i hx
        simp only [hx, if_false, Option.some.injEq] at hs
        exact ⟨_, rfl, (b, .word x :: l) :: fr, u, rfl, hs.symm⟩
    | close =>
      cases b with
      | true => cases fr <;> simp [readStep] at hs
      | false =>
        cases fr with
        | nil => simp only [List.nil_append, readStep, Option.some.injEq] at hs ⊢; exact ⟨_, rfl, [], .arr l.reverse :: u, rfl, hs.symm⟩
        | cons f fr =>
          obtain ⟨b, m⟩ := f
          simp only [List.cons_append, readStep, Option.some.injEq] at hs ⊢
          exact ⟨_, rfl, (b, .arr l.reverse :: m) :: fr, u, rfl, hs.symm⟩
    | dictClose =>
      cases b with
      | false => cases fr <;> simp [readStep] at hs
      | true =>
        cases fr with
        | nil =>
          simp only [List.nil_append, readStep, Option.map_eq_some_iff] at hs ⊢
          obtain ⟨d, hd, hs⟩ := hs
          exact ⟨_, ⟨d, hd, rfl⟩, [], .dict d :: u, rfl, hs.symm⟩
        | cons f fr =>
          obtain ⟨b, m⟩ := f
          simp only [List.cons_append, readStep, Option.map_eq_some_iff] at hs ⊢
          obtain ⟨d, hd, hs⟩ := hs
          exact ⟨_, ⟨d, hd, rfl⟩, (b, .dict d :: m) :: fr, u, rfl, hs.symm⟩

theorem over_fold {w : List Val} (hw : ∀ q r, w ≠ .num q :: r) : ∀ (ts : List Lexeme) {S S' T' : RStack}, Over w S S' → ts.foldl readStep (some S') = some T' →
    ∃ T, ts.foldl readStep (some S) = some T ∧ Over w T T' := by
  intro ts
  induction ts with
  | nil => intro S S' T' h hs; simp only [List.foldl_nil, Option.some.injEq] at hs; subst hs; exact ⟨S, rfl, h⟩
  | cons t ts ih =>
    intro S S' T' h hs
    rw [List.foldl_cons] at hs
    cases hm : readStep (some S') t with
    | none => rw [hm, fold_none] at hs; simp at hs
    | some M =>
      rw [hm] at hs
      obtain ⟨M1, h1, h2⟩ := over_step hw h hm
      obtain ⟨T, h3, h4⟩ := ih h2 hs
      exact ⟨T, by rw [List.foldl_cons, h1, h3], h4⟩

/-- what is read above `w` does not depend on `w` -/
theorem over_base {w : List Val} (hw : ∀ q r, w ≠ .num q :: r) {ts : List Lexeme} {uf : List Val} (h : ts.foldl readStep (some [(true, w)]) = some [(true, uf)]) :
    ∃ u, ts.foldl readStep (some [(true, [])]) = some [(true, u)] ∧ uf = u ++ w := by
  obtain ⟨T, h1, fr, u, h2, h3⟩ := over_fold hw ts (S := [(true, [])]) ⟨[], [], rfl, rfl⟩ h
  cases fr with
  | nil => simp at h3; exact ⟨u, by rw [h1, h2]; rfl, h3⟩
  | cons f fr => have := congrArg List.length h3; simp at this

/-! ### depths -/

def ntrue (S : RStack) : Int := (S.countP (·.1) : Int)
def nfalse (S : RStack) : Int := (S.countP (!·.1) : Int)

def dTrue : Lexeme → Int
  | .dictOpen => 1
  | .dictClose => -1
  | _ => 0
def dFalse : Lexeme → Int
  | .open => 1
  | .close => -1
  | _ => 0

/-- the kind of the outermost bracket -/
def baseKind (S : RStack) : Option Bool := S.getLast?.map (·.1)

theorem baseKind_cons {a b : Bool × List Val} {r : RStack} : baseKind (a :: b :: r) = baseKind (b :: r) := by
  simp [baseKind, List.getLast?_cons_cons]

theorem baseKind_head {b : Bool} {l l' : List Val} {r : RStack} : baseKind ((b, l) :: r) = baseKind ((b, l') :: r) := by
  cases r with
  | nil => rfl
  | cons c r => rw [baseKind_cons, baseKind_cons]

theorem ntrue_head {b : Bool} {l l' : List Val} {r : RStack} : ntrue ((b, l) :: r) = ntrue ((b, l') :: r) := by
  simp [ntrue, List.countP_cons]
theorem nfalse_head {b : Bool} {l l' : List Val} {r : RStack} : nfalse ((b, l) :: r) = nfalse ((b, l') :: r) := by
  simp [nfalse, List.countP_cons]

theorem count_step {S T : RStack} {t : Lexeme} (hs : readStep (some S) t = some T) (hb : S ≠ []) :
    ntrue T = ntrue S + dTrue t ∧ nfalse T = nfalse S + dFalse t ∧ baseKind T = baseKind S ∧ T ≠ [] := by
  cases S with
  | nil => exact absurd rfl hb
  | cons f r =>
    obtain ⟨b, l⟩ := f
    have push : ∀ v, T = (b, v :: l) :: r → ntrue T = ntrue ((b, l) :: r) + 0 ∧ nfalse T = nfalse ((b, l) :: r) + 0 ∧ baseKind T = baseKind ((b, l) :: r) ∧ T ≠ [] := by
      intro v h
      subst h
      exact ⟨by rw [ntrue_head (l' := l)]; omega, by rw [nfalse_head (l' := l)]; omega, baseKind_head, by simp⟩
    cases t with
    | num q => simp only [readStep, Option.some.injEq] at hs; exact push _ hs.symm
    | name n => simp only [readStep, Option.some.injEq] at hs; exact push _ hs.symm
    | hex s => simp only [readStep, Option.some.injEq] at hs; exact push _ hs.symm
    | lit s => simp only [readStep, Option.some.injEq] at hs; exact push _ hs.symm
    | «open» =>
      simp only [readStep, Option.some.injEq] at hs; subst hs
      refine ⟨?_, ?_, baseKind_cons, by simp⟩ <;> simp [ntrue, nfalse, dTrue, dFalse, List.countP_cons]
    | dictOpen =>
      simp only [readStep, Option.some.injEq] at hs; subst hs
      refine ⟨?_, ?_, baseKind_cons, by simp⟩ <;> simp [ntrue, nfalse, dTrue, dFalse, List.countP_cons]
    | op x =>
      simp only [readStep] at hs
      split at hs
      · split at hs
        · split at hs
          · simp only [Option.some.injEq] at hs; subst hs
            refine ⟨?_, ?_, baseKind_head, by simp⟩ <;> simp [ntrue, nfalse, dTrue, dFalse, List.countP_cons]
          · simp at hs
        · simp at hs
      · simp only [Option.some.injEq] at hs; exact push _ hs.symm
    | close =>
      cases b with
      | true => cases r <;> simp [readStep] at hs
      | false =>
        cases r with
        | nil => simp [readStep] at hs
        | cons f r =>
          obtain ⟨b, m⟩ := f
          simp only [readStep, Option.some.injEq] at hs; subst hs
          refine ⟨?_, ?_, ?_, by simp⟩
          · cases b <;> simp [ntrue, dTrue]
          · cases b <;> simp [nfalse, dFalse]
          · rw [baseKind_cons]; exact baseKind_head
    | dictClose =>
      cases b with
      | false => cases r <;> simp [readStep] at hs
      | true =>
        cases r with
        | nil => simp [readStep] at hs
        | cons f r =>
          obtain ⟨b, m⟩ := f
          simp only [readStep, Option.map_eq_some_iff] at hs
          obtain ⟨d, hd, rfl⟩ := hs
          refine ⟨?_, ?_, ?_, by simp⟩
          · cases b <;> simp [ntrue, dTrue]
          · cases b <;> simp [nfalse, dFalse]
          · rw [baseKind_cons]; exact baseKind_head

/-- one bracket is open, which is a dictionary -/
theorem single_of_count {S : RStack} (h1 : ntrue S = 1) (h2 : nfalse S = 0) : ∃ u, S = [(true, u)] := by
  have hl : S.length = 1 := by
    have := List.length_eq_countP_add_countP (fun x : Bool × List Val => x.1) (l := S)
    have e : S.countP (fun a => decide ¬(a.1 = true)) = S.countP (!·.1) := by
      congr 1; funext a; cases a.1 <;> rfl
    simp only [ntrue, nfalse] at h1 h2
    simp only [this]
    simp only [e]
    omega
  match S, hl with
  | [(true, u)], _ => exact ⟨u, rfl⟩
  | [(false, u)], _ => simp [ntrue] at h1

/-! ### counting while reading -/

def flag : Mode → Int
  | .lt => 1
  | .hex _ => 1
  | .gt => -1
  | _ => 0

/-- the two counters of the program, against what is open -/
def Counts (m : Mode) (S : RStack) (c1 c2 : Int) : Prop :=
  c1 = 2 * (ntrue S - 1) + flag m ∧ c2 = nfalse S ∧ S ≠ []

theorem wordTok_flat (w : Bytes) : dTrue (wordTok w) = 0 ∧ dFalse (wordTok w) = 0 := by
  unfold wordTok
  split
  · exact ⟨rfl, rfl⟩
  · split <;> exact ⟨rfl, rfl⟩

theorem counts_start {S T : RStack} {c : UInt8} {c1 c2 : Int} (hc : simpleChar c = true) (h : Counts .ground S c1 c2) (hf : (lexStart c).1.foldl readStep (some S) = some T) :
    Counts (lexStart c).2 T (cnt1 c1 c) (cnt2 c2 c) := by
  obtain ⟨rfl, rfl, h3⟩ := h
  unfold lexStart at hf ⊢
  have h37 : c ≠ 37 := by rintro rfl; exact absurd hc (by decide)
  by_cases hw : white c = true
  · have : c ≠ 60 ∧ c ≠ 62 ∧ c ≠ 91 ∧ c ≠ 93 := by
      refine ⟨?_, ?_, ?_, ?_⟩ <;> (rintro rfl; exact absurd hw (by decide))
    simp only [hw, if_true, List.foldl_nil, Option.some.injEq] at hf ⊢
    subst hf
    simp [Counts, cnt1, cnt2, this, flag, h3]
  · by_cases h40 : c = 40
    · subst h40
      simp [white] at hf ⊢
      subst hf
      simp [Counts, cnt1, cnt2, flag, h3]
    by_cases h60 : c = 60
    · subst h60
      simp [white] at hf ⊢
      subst hf
      simp [Counts, cnt1, cnt2, flag, h3]
    by_cases h62 : c = 62
    · subst h62
      simp [white] at hf ⊢
      subst hf
      simp [Counts, cnt1, cnt2, flag, h3]
      omega
    by_cases h91 : c = 91
    · subst h91
      simp [white] at hf ⊢
      obtain ⟨k1, k2, _, k4⟩ := count_step hf h3
      simp [Counts, cnt1, cnt2, flag, k1, k2, k4, dTrue, dFalse]
    by_cases h93 : c = 93
    · subst h93
      simp [white] at hf ⊢
      obtain ⟨k1, k2, _, k4⟩ := count_step hf h3
      simp [Counts, cnt1, cnt2, flag, k1, k2, k4, dTrue, dFalse]
      omega
    simp [hw, h37, h40, h60, h62, h91, h93] at hf ⊢
    subst hf
    simp [Counts, cnt1, cnt2, flag, h3, h60, h62, h91, h93]

theorem counts_step {m : Mode} {S T : RStack} {c : UInt8} {s : Bytes} {c1 c2 : Int} (hc : simpleByte m c s = true) (h : Counts m S c1 c2)
    (hf : (lexStep m c).1.foldl readStep (some S) = some T) : Counts (lexStep m c).2 T (cnt1 c1 c) (cnt2 c2 c) := by
  cases m with
  | ground => exact counts_start hc h hf
  | word cur =>
    simp only [simpleByte, Bool.and_eq_true] at hc
    unfold lexStep at hf ⊢
    by_cases hr : regular c = true
    · have : c ≠ 60 ∧ c ≠ 62 ∧ c ≠ 91 ∧ c ≠ 93 := by
        refine ⟨?_, ?_, ?_, ?_⟩ <;> (rintro rfl; exact absurd hr (by decide))
      simp only [hr, if_true, List.foldl_nil, Option.some.injEq] at hf ⊢
      subst hf
      obtain ⟨rfl, rfl, h3⟩ := h
      simp [Counts, cnt1, cnt2, flag, h3, this]
    · simp only [hr, Bool.false_eq_true, if_false, List.foldl_cons] at hf ⊢
      cases hm : readStep (some S) (wordTok cur) with
      | none => rw [hm, fold_none] at hf; simp at hf
      | some M =>
        rw [hm] at hf
        obtain ⟨k1, k2, _, k4⟩ := count_step hm h.2.2
        obtain ⟨w1, w2⟩ := wordTok_flat cur
        obtain ⟨rfl, rfl, h3⟩ := h
        exact counts_start hc.1 ⟨by rw [k1, w1]; simp [flag], by rw [k2, w2]; simp, k4⟩ hf
  | lit d e cur =>
    obtain ⟨rfl, rfl, h3⟩ := h
    simp only [simpleByte, Bool.and_eq_true, decide_eq_true_eq] at hc
    have e1 : cnt1 (2 * (ntrue S - 1) + flag (.lit d e cur)) c = 2 * (ntrue S - 1) := by simp [cnt1, hc, flag]
    have e2 : cnt2 (nfalse S) c = nfalse S := by simp [cnt2, hc]
    rw [e1, e2]
    have key : (∃ s, lexStep (.lit d e cur) c = ([.lit s], .ground)) ∨ ∃ d' e' cur', lexStep (.lit d e cur) c = ([], .lit d' e' cur') := by
      cases e
      · simp only [lexStep]
        split
        · exact Or.inr ⟨_, _, _, rfl⟩
        · split
          · exact Or.inr ⟨_, _, _, rfl⟩
          · split
            · cases d
              · exact Or.inl ⟨_, rfl⟩
              · exact Or.inr ⟨_, _, _, rfl⟩
            · exact Or.inr ⟨_, _, _, rfl⟩
      · exact Or.inr ⟨_, _, _, rfl⟩
    rcases key with ⟨s, hk⟩ | ⟨d', e', cur', hk⟩
    · rw [hk] at hf ⊢
      obtain ⟨k1, k2, _, k4⟩ := count_step hf h3
      exact ⟨by rw [k1]; simp [flag, dTrue], by rw [k2]; simp [dFalse], k4⟩
    · rw [hk] at hf ⊢
      simp only [List.foldl_nil, Option.some.injEq] at hf
      subst hf
      exact ⟨by simp [flag], rfl, h3⟩
  | hex cur =>
    obtain ⟨rfl, rfl, h3⟩ := h
    by_cases h62 : c = 62
    · subst h62
      have hk : lexStep (.hex cur) 62 = ([.hex cur], .ground) := by simp [lexStep]
      rw [hk] at hf ⊢
      obtain ⟨k1, k2, _, k4⟩ := count_step hf h3
      exact ⟨by rw [k1]; simp [flag, dTrue, cnt1], by rw [k2]; simp [dFalse, cnt2], k4⟩
    · have hh : Spec.hexDigit c = true ∨ blankChar c = true := by
        simp only [simpleByte, Bool.or_eq_true, decide_eq_true_eq] at hc
        rcases hc with (h | h) | h
        · exact Or.inl h
        · exact Or.inr h
        · exact absurd h h62
      have hn : c ≠ 60 ∧ c ≠ 91 ∧ c ≠ 93 := by
        refine ⟨?_, ?_, ?_⟩ <;> (rintro rfl; exact absurd hh (by decide))
      have hk : ∃ cur', lexStep (.hex cur) c = ([], .hex cur') := by
        simp only [lexStep, h62, if_false]
        split <;> exact ⟨_, rfl⟩
      obtain ⟨cur', hk⟩ := hk
      rw [hk] at hf ⊢
      simp only [List.foldl_nil, Option.some.injEq] at hf
      subst hf
      exact ⟨by simp [flag, cnt1, hn, h62], by simp [cnt2, hn], h3⟩
  | comment => simp [simpleByte] at hc
  | lt =>
    obtain ⟨rfl, rfl, h3⟩ := h
    by_cases h62 : c = 62
    · subst h62
      have hk : lexStep .lt 62 = ([.hex []], .ground) := by simp [lexStep]
      rw [hk] at hf ⊢
      obtain ⟨k1, k2, _, k4⟩ := count_step hf h3
      exact ⟨by rw [k1]; simp [flag, dTrue, cnt1], by rw [k2]; simp [dFalse, cnt2], k4⟩
    by_cases h60 : c = 60
    · subst h60
      have hk : lexStep .lt 60 = ([.dictOpen], .ground) := by simp [lexStep]
      rw [hk] at hf ⊢
      obtain ⟨k1, k2, _, k4⟩ := count_step hf h3
      exact ⟨by rw [k1]; simp [flag, dTrue, cnt1]; omega, by rw [k2]; simp [dFalse, cnt2], k4⟩
    · have hh : Spec.hexDigit c = true ∨ blankChar c = true := by
        simp only [simpleByte, Bool.or_eq_true, decide_eq_true_eq] at hc
        rcases hc with ((h | h) | h) | h
        · exact absurd h h60
        · exact Or.inl h
        · exact Or.inr h
        · exact absurd h h62
      have hn : c ≠ 91 ∧ c ≠ 93 := by
        refine ⟨?_, ?_⟩ <;> (rintro rfl; exact absurd hh (by decide))
      have hk : ∃ cur', lexStep .lt c = ([], .hex cur') := by
        simp only [lexStep, h60, h62, if_false]
        split <;> exact ⟨_, rfl⟩
      obtain ⟨cur', hk⟩ := hk
      rw [hk] at hf ⊢
      simp only [List.foldl_nil, Option.some.injEq] at hf
      subst hf
      exact ⟨by simp [flag, cnt1, h60, h62], by simp [cnt2, hn], h3⟩
  | gt =>
    obtain ⟨rfl, rfl, h3⟩ := h
    simp only [simpleByte, decide_eq_true_eq] at hc
    subst hc
    have hk : lexStep .gt 62 = ([.dictClose], .ground) := by simp [lexStep]
    rw [hk] at hf ⊢
    obtain ⟨k1, k2, _, k4⟩ := count_step hf h3
    exact ⟨by rw [k1]; simp [flag, dTrue, cnt1]; omega, by rw [k2]; simp [dFalse, cnt2], k4⟩

end Verif
