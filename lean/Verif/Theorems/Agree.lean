import Verif.Lemmas.AgreeRun
import Verif.Lemmas.Stream
import Verif.Lemmas.Layout
import Verif.Lemmas.Reopen
import Verif.Spec.Layout
import Verif.Spec.PageTree
/-
Dictionaries are read and rewritten as the PDF standard says (C78).
-/
namespace Verif
open Spec

/-! ### lemmas -/

theorem readProperties_stream {head r : Bytes} (hs : ¬ streamKw <:+: head) : readProperties (head ++ (streamKw ++ r)) = readProperties head := by
  have h1 : beforeStream (head ++ (streamKw ++ r)) = head := by
    unfold beforeStream
    have h := index_first borderless_stream hs r
    rw [show index streamKw (head ++ (streamKw ++ r)) = some head.length from h]
    simp
  have h2 : beforeStream head = head := by
    unfold beforeStream
    rw [(index_none_iff (by simp [streamKw])).2 hs]
  unfold readProperties
  rw [h1, h2]
  split
  · rename_i s e hs he
    split
    · rfl
    · rw [List.take_append_of_le_length (lastIndex_some he).1]
  · rfl

theorem readStep_extend {S T R : RStack} {t : Lexeme} (h : readStep (some S) t = some T) (hS : S ≠ []) : readStep (some (S ++ R)) t = some (T ++ R) := by
  cases S with
  | nil => exact absurd rfl hS
  | cons f r =>
    obtain ⟨b, l⟩ := f
    simp only [List.cons_append]
    cases t with
    | num q => simp only [readStep, Option.some.injEq] at h ⊢; rw [← h]; rfl
    | name n => simp only [readStep, Option.some.injEq] at h ⊢; rw [← h]; rfl
    | hex s => simp only [readStep, Option.some.injEq] at h ⊢; rw [← h]; rfl
    | lit s => simp only [readStep, Option.some.injEq] at h ⊢; rw [← h]; rfl
    | «open» => simp only [readStep, Option.some.injEq] at h ⊢; rw [← h]; rfl
    | dictOpen => simp only [readStep, Option.some.injEq] at h ⊢; rw [← h]; rfl
    | op x =>
      simp only [readStep] at h ⊢
      split at h
      · rename_i hx
        rw [if_pos hx]
        split at h
        · split at h
          · rename_i hg
            simp only [Option.some.injEq] at h
            simp only [hg, and_self, if_true, ← h]
            rfl
          · simp at h
        · simp at h
      · rename_i hx
        rw [if_neg hx]
        simp only [Option.some.injEq] at h; rw [← h]; rfl
    | close =>
      cases b with
      | true => cases r <;> simp [readStep] at h
      | false =>
        cases r with
        | nil => simp [readStep] at h
        | cons f r => obtain ⟨b, m⟩ := f; simp only [List.cons_append, readStep, Option.some.injEq] at h ⊢; rw [← h]; rfl
    | dictClose =>
      cases b with
      | false => cases r <;> simp [readStep] at h
      | true =>
        cases r with
        | nil => simp [readStep] at h
        | cons f r =>
          obtain ⟨b, m⟩ := f
          simp only [List.cons_append, readStep, Option.map_eq_some_iff] at h ⊢
          obtain ⟨d, hd, h⟩ := h
          exact ⟨d, hd, by rw [← h]; rfl⟩

theorem fold_extend {R : RStack} : ∀ (ts : List Lexeme) {S T : RStack}, S ≠ [] → ts.foldl readStep (some S) = some T → ts.foldl readStep (some (S ++ R)) = some (T ++ R) := by
  intro ts
  induction ts with
  | nil => intro S T _ h; simp only [List.foldl_nil, Option.some.injEq] at h ⊢; rw [h]
  | cons t ts ih =>
    intro S T hS h
    rw [List.foldl_cons] at h ⊢
    cases hm : readStep (some S) t with
    | none => rw [hm, fold_none] at h; simp at h
    | some M =>
      rw [hm] at h
      rw [readStep_extend hm hS]
      exact ih (count_step hm hS).2.2.2 h

/-- a text of values before a delimiter -/
theorem values_before {s : Bytes} {vs : List Val} (h : Values s vs) {c : UInt8} (hc : c = 47 ∨ c = 62) (r : Bytes) :
    ∃ ts, lexer .ground (s ++ c :: r) = (ts ++ (lexer .ground (c :: r)).1, (lexer .ground (c :: r)).2) ∧ ts.foldl readStep (some [(true, [])]) = some [(true, vs.reverse)] := by
  obtain ⟨ts, h1, h0, h2⟩ := h
  refine ⟨ts, ?_, h2⟩
  rw [lexer_append] at h1 ⊢
  generalize hm : (lexer .ground s).2 = m at h0 h1
  have hr : regular c = false := by rcases hc with rfl | rfl <;> decide
  simp only [lexer, Prod.mk.injEq, List.append_nil] at h1
  obtain ⟨h1, h3⟩ := h1
  cases m with
  | ground =>
    rw [← h1]
    simp [lexStep, lexStart, white]
  | word cur =>
    have e1 : lexStep (.word cur) 32 = ([wordTok cur], .ground) := by simp [lexStep, regular, white, lexStart]
    have e2 : lexStep (.word cur) c = (wordTok cur :: (lexStart c).1, (lexStart c).2) := by simp [lexStep, hr]
    rw [e1] at h1
    rw [lexer_cons, lexer_cons, e2, ← h1]
    simp [lexStep]
  | lit d e cur => cases e <;> simp [lexStep] at h3
  | hex cur => simp [lexStep, white] at h3
  | comment => simp [lexStep] at h3
  | lt => simp [lexStep, white] at h3
  | gt => exact absurd rfl h0

/-- the text of entries, one after the other -/
theorem entries_lexed : ∀ (ps : Props) (vss : List (List Val)) (r : Bytes), List.Forall₂ EntryValues ps vss →
    ∃ ts, lexer .ground (ps.flatMap flat1 ++ 62 :: r) = (ts ++ (lexer .ground (62 :: r)).1, (lexer .ground (62 :: r)).2) ∧
      ts.foldl readStep (some [(true, [])]) = some [(true, ((List.zipWith (fun p l => Val.name p.key :: l) ps vss).flatten).reverse)] := by
  intro ps vss r h
  induction h with
  | nil => exact ⟨[], by simp, rfl⟩
  | @cons p vs ps vss hp _ ih =>
    obtain ⟨ts, h1, h2⟩ := ih
    obtain ⟨hk, hv, _⟩ := hp
    obtain ⟨c, r', hcr, hc⟩ : ∃ c r', ps.flatMap flat1 ++ 62 :: r = c :: r' ∧ (c = 47 ∨ c = 62) := by
      cases ps with
      | nil => exact ⟨62, r, rfl, Or.inr rfl⟩
      | cons q ps => exact ⟨47, _, rfl, Or.inl rfl⟩
    obtain ⟨tv, k1, k2⟩ := values_before hv hc r'
    refine ⟨.name p.key :: (tv ++ ts), ?_, ?_⟩
    · have e : (p :: ps).flatMap flat1 ++ 62 :: r = 47 :: p.key ++ (32 :: (p.rawVal ++ (ps.flatMap flat1 ++ 62 :: r))) := by
        simp [flat1]
      rw [e, lex_key hk rfl, lexer_cons]
      have e32 : lexStep .ground 32 = ([], .ground) := rfl
      rw [e32, hcr, k1, ← hcr, h1]
      simp
    · rw [List.foldl_cons]
      simp only [readStep]
      rw [List.foldl_append, under_base [.name p.key] k2, under_base _ h2]
      simp

theorem readAs_of : ∀ (ps : Props) (vss : List (List Val)) (d : List (Bytes × Val)), List.Forall₂ EntryValues ps vss →
    pairUp (List.zipWith (fun p l => Val.name p.key :: l) ps vss).flatten = some d → ReadAs d ps
  | [], _, d, h, hp => by
    cases h
    simp [pairUp] at hp
    subst hp; exact .nil
  | p :: ps, _, d, h, hp => by
    cases h with
    | @cons _ vs _ vss h1 hr =>
    obtain ⟨_, hv, hn⟩ := h1
    rw [List.zipWith_cons_cons, List.flatten_cons] at hp
    cases vs with
    | nil =>
      cases hr with
      | nil => simp [pairUp] at hp
      | @cons q vq ps vss h2 hr =>
        obtain ⟨_, hv2, hn2⟩ := h2
        rw [List.zipWith_cons_cons, List.flatten_cons] at hp
        cases vq with
        | nil =>
          simp only [List.cons_append, List.nil_append, pairUp, Option.map_eq_some_iff] at hp
          obtain ⟨d', hd, rfl⟩ := hp
          exact .name hv hv2 (readAs_of ps vss d' hr hd)
        | cons y vq =>
          simp only [List.cons_append, List.nil_append, pairUp, Option.map_eq_some_iff] at hp
          obtain ⟨d', hd, _⟩ := hp
          rw [pairUp_first (hn2.1 y (by simp))] at hd
          simp at hd
    | cons y vs =>
      cases vs with
      | nil =>
        simp only [List.cons_append, List.nil_append, pairUp, Option.map_eq_some_iff] at hp
        obtain ⟨d', hd, rfl⟩ := hp
        exact .value (hn.1 y (by simp)) hv (readAs_of ps vss d' hr hd)
      | cons z vs =>
        simp only [List.cons_append, pairUp, Option.map_eq_some_iff] at hp
        obtain ⟨d', hd, _⟩ := hp
        rw [pairUp_first (hn.1 z (by simp))] at hd
        simp at hd

theorem read_values {x : Bytes} {d : List (Bytes × Val)} (hx : SimpleText x) (hd : DictText x d) :
    ∃ vss, List.Forall₂ EntryValues (parseProps (normalizeProps x)) vss ∧
      pairUp (List.zipWith (fun p l => Val.name p.key :: l) (parseProps (normalizeProps x)) vss).flatten = some d := by
  obtain ⟨vs, ⟨ts, h1, h0, h2⟩, h3⟩ := hd
  obtain ⟨n1, n2⟩ := normalize_lex hx
  have hss : SS (normalizeProps x) := by
    rw [normalizeProps_eq]
    exact stripQ_SS dropSp (by intro u; rfl) rfl (collapseWs_SS _ _)
  rw [parseProps_eq_run]
  obtain ⟨vss, f1, f2⟩ := run_values (normalizeProps x).length (normalizeProps x) [] vs (Nat.le_refl _) n2 hss.1
    ⟨ts, n1.trans h1, simple_end _ _ n2, h2⟩ (Or.inl rfl) (by rw [List.nil_append, h3]; simp)
  exact ⟨vss, f1, by rw [← f2]; exact h3⟩

theorem white_space {a : Bytes} (h : White a) : ∀ c ∈ a, c ∈ spaceBytes := by
  intro c hc
  rcases h c hc with rfl | rfl | rfl | rfl <;> decide

theorem noStream_wrap {l x r : Bytes} (hx : ¬ streamKw <:+: x) (hl : ∀ c ∈ l, c ∉ streamKw) (hr : ∀ c ∈ r, c ∉ streamKw) : ¬ streamKw <:+: l ++ x ++ r := by
  intro h
  have h1 : streamKw <:+: x ++ r := by
    rw [List.append_assoc] at h
    clear hx
    induction l with
    | nil => exact h
    | cons c l ih => exact ih (fun d hd => hl d (by simp [hd])) (infix_cons_of_not_mem (hl c (by simp)) h)
  cases r with
  | nil => rw [List.append_nil] at h1; exact hx h1
  | cons c r =>
    rcases infix_split (hr c (by simp)) h1 with h | h
    · exact hx h
    · have : (115 : UInt8) ∈ r := h.subset (by decide)
      exact hr 115 (by simp [this]) (by decide)

theorem white_notStream {a : Bytes} (h : White a) : ∀ c ∈ a, c ∉ streamKw := by
  intro c hc
  rcases h c hc with rfl | rfl | rfl | rfl <;> decide

theorem readProperties_frame {a x b tail : Bytes} (ha : White a) (hb : White b) (hs : ¬ streamKw <:+: x) (ht : tail = [] ∨ ∃ r, tail = streamKw ++ r) :
    readProperties (a ++ (b!"<<" ++ x ++ b!">>") ++ b ++ tail) = .ok (parseProps (normalizeProps x)) := by
  have hs1 : ¬ streamKw <:+: b!"<<" ++ x ++ b!">>" := noStream_wrap hs (by decide) (by decide)
  have hs' : ¬ streamKw <:+: a ++ (b!"<<" ++ x ++ b!">>") ++ b := noStream_wrap hs1 (white_notStream ha) (white_notStream hb)
  have h1 : readProperties (a ++ (b!"<<" ++ x ++ b!">>") ++ b ++ tail) = readProperties (a ++ (b!"<<" ++ x ++ b!">>") ++ b) := by
    rcases ht with rfl | ⟨r, rfl⟩
    · rw [List.append_nil]
    · exact readProperties_stream hs'
  rw [h1, readProperties_around (white_space ha) (white_space hb)]
  have := readProperties_brackets (x := x) (w := []) (by simpa using hs1) (by simp)
  simpa using this

/-- the outermost bracket has a value that is not a number -/
def HasVal (S : RStack) : Prop := ∃ fr b l v, S = fr ++ [(b, l)] ∧ v ∈ l ∧ ∀ q, v ≠ .num q

theorem hasVal_step {S T : RStack} {t : Lexeme} (h : HasVal S) (hs : readStep (some S) t = some T) : HasVal T := by
  obtain ⟨fr, b, l, v, rfl, hv, hn⟩ := h
  cases fr with
  | nil =>
    simp only [List.nil_append] at hs
    cases t with
    | num q => simp only [readStep, Option.some.injEq] at hs; exact ⟨[], b, _, v, hs.symm, by simp [hv], hn⟩
    | name q => simp only [readStep, Option.some.injEq] at hs; exact ⟨[], b, _, v, hs.symm, by simp [hv], hn⟩
    | hex q => simp only [readStep, Option.some.injEq] at hs; exact ⟨[], b, _, v, hs.symm, by simp [hv], hn⟩
    | lit q => simp only [readStep, Option.some.injEq] at hs; exact ⟨[], b, _, v, hs.symm, by simp [hv], hn⟩
    | «open» => simp only [readStep, Option.some.injEq] at hs; exact ⟨[(false, [])], b, _, v, hs.symm, hv, hn⟩
    | dictOpen => simp only [readStep, Option.some.injEq] at hs; exact ⟨[(true, [])], b, _, v, hs.symm, hv, hn⟩
    | close => cases b <;> simp [readStep] at hs
    | dictClose => cases b <;> simp [readStep] at hs
    | op x =>
      simp only [readStep] at hs
      split at hs
      · split at hs
        · split at hs
          · simp only [Option.some.injEq] at hs
            refine ⟨[], b, _, v, hs.symm, ?_, hn⟩
            simp only [List.mem_cons] at hv ⊢
            rcases hv with rfl | rfl | hv
            · exact absurd rfl (hn _)
            · exact absurd rfl (hn _)
            · exact Or.inr hv
          · simp at hs
        · simp at hs
      · simp only [Option.some.injEq] at hs; exact ⟨[], b, _, v, hs.symm, by simp [hv], hn⟩
  | cons f fr =>
    obtain ⟨b', l'⟩ := f
    simp only [List.cons_append] at hs
    cases t with
    | num q => simp only [readStep, Option.some.injEq] at hs; exact ⟨_ :: fr, b, _, v, hs.symm, hv, hn⟩
    | name q => simp only [readStep, Option.some.injEq] at hs; exact ⟨_ :: fr, b, _, v, hs.symm, hv, hn⟩
    | hex q => simp only [readStep, Option.some.injEq] at hs; exact ⟨_ :: fr, b, _, v, hs.symm, hv, hn⟩
    | lit q => simp only [readStep, Option.some.injEq] at hs; exact ⟨_ :: fr, b, _, v, hs.symm, hv, hn⟩
    | «open» => simp only [readStep, Option.some.injEq] at hs; exact ⟨_ :: _ :: fr, b, _, v, hs.symm, hv, hn⟩
    | dictOpen => simp only [readStep, Option.some.injEq] at hs; exact ⟨_ :: _ :: fr, b, _, v, hs.symm, hv, hn⟩
    | op x =>
      simp only [readStep] at hs
      split at hs
      · split at hs
        · split at hs
          · simp only [Option.some.injEq] at hs
            exact ⟨_ :: fr, b, _, v, hs.symm, hv, hn⟩
          · simp at hs
        · simp at hs
      · simp only [Option.some.injEq] at hs; exact ⟨_ :: fr, b, _, v, hs.symm, hv, hn⟩
    | close =>
      cases b' with
      | true => cases fr <;> simp [readStep] at hs
      | false =>
        cases fr with
        | nil =>
          simp only [List.nil_append, readStep, Option.some.injEq] at hs
          exact ⟨[], b, _, v, hs.symm, by simp [hv], hn⟩
        | cons f fr =>
          obtain ⟨b'', l''⟩ := f
          simp only [List.cons_append, readStep, Option.some.injEq] at hs
          exact ⟨_ :: fr, b, _, v, hs.symm, hv, hn⟩
    | dictClose =>
      cases b' with
      | false => cases fr <;> simp [readStep] at hs
      | true =>
        cases fr with
        | nil =>
          simp only [List.nil_append, readStep, Option.map_eq_some_iff] at hs
          obtain ⟨d, _, hs⟩ := hs
          exact ⟨[], b, _, v, hs.symm, by simp [hv], hn⟩
        | cons f fr =>
          obtain ⟨b'', l''⟩ := f
          simp only [List.cons_append, readStep, Option.map_eq_some_iff] at hs
          obtain ⟨d, _, hs⟩ := hs
          exact ⟨_ :: fr, b, _, v, hs.symm, hv, hn⟩

theorem hasVal_fold : ∀ (ts : List Lexeme) {S T : RStack}, HasVal S → ts.foldl readStep (some S) = some T → HasVal T := by
  intro ts
  induction ts with
  | nil => intro S T h hs; simp only [List.foldl_nil, Option.some.injEq] at hs; rw [← hs]; exact h
  | cons t ts ih =>
    intro S T h hs
    rw [List.foldl_cons] at hs
    cases hm : readStep (some S) t with
    | none => rw [hm, fold_none] at hs; simp at hs
    | some M => rw [hm] at hs; exact ih (hasVal_step h hm) hs

/-- a bracket that closes the last one leaves a value -/
theorem closes_base {S T : RStack} {t : Lexeme} (hS : S ≠ []) (h0 : readStep (some S) t = none) (h : readStep (some (S ++ [(false, [])])) t = some T) : HasVal T := by
  cases S with
  | nil => exact absurd rfl hS
  | cons f r =>
    obtain ⟨b, l⟩ := f
    simp only [List.cons_append] at h
    cases t with
    | num q => simp [readStep] at h0
    | name n => simp [readStep] at h0
    | hex s => simp [readStep] at h0
    | lit s => simp [readStep] at h0
    | «open» => simp [readStep] at h0
    | dictOpen => simp [readStep] at h0
    | op x =>
      simp only [readStep] at h h0
      split at h
      · rename_i hx
        rw [if_pos hx] at h0
        split at h
        · split at h
          · rename_i hg
            simp [hg] at h0
          · simp at h
        · simp at h
      · rename_i hx
        rw [if_neg hx] at h0
        simp at h0
    | close =>
      cases b with
      | true => cases r <;> simp [readStep] at h
      | false =>
        cases r with
        | nil =>
          simp only [List.nil_append, readStep, Option.some.injEq] at h
          exact ⟨[], false, [.arr l.reverse], .arr l.reverse, h.symm, by simp, by simp⟩
        | cons f r => obtain ⟨b, m⟩ := f; simp [readStep] at h0
    | dictClose =>
      cases b with
      | false => cases r <;> simp [readStep] at h
      | true =>
        cases r with
        | nil =>
          simp only [List.nil_append, readStep, Option.map_eq_some_iff] at h
          obtain ⟨d, _, h⟩ := h
          exact ⟨[], false, [.dict d], .dict d, h.symm, by simp, by simp⟩
        | cons f r =>
          obtain ⟨b, m⟩ := f
          simp only [List.cons_append, readStep, Option.map_eq_some_iff] at h h0
          obtain ⟨d, hd, h⟩ := h
          rw [hd] at h0
          simp at h0

theorem fold_inside {d : List (Bytes × Val)} : ∀ (ts : List Lexeme) {S : RStack}, S ≠ [] →
    (ts ++ [Lexeme.dictClose]).foldl readStep (some (S ++ [(false, [])])) = some [(false, [.dict d])] →
    ∃ l, ts.foldl readStep (some S) = some [(true, l)] ∧ pairUp l.reverse = some d := by
  intro ts
  induction ts with
  | nil =>
    intro S hS h
    simp only [List.nil_append, List.foldl_cons, List.foldl_nil] at h
    rcases S with _ | ⟨⟨b, l⟩, _ | ⟨⟨b', l'⟩, r⟩⟩
    · exact absurd rfl hS
    · cases b with
      | false => simp [readStep] at h
      | true =>
        simp only [List.cons_append, List.nil_append, readStep, Option.map_eq_some_iff] at h
        obtain ⟨d', hd, h⟩ := h
        simp at h
        subst h
        exact ⟨l, rfl, hd⟩
    · cases b with
      | false => simp [readStep] at h
      | true =>
        simp only [List.cons_append, readStep, Option.map_eq_some_iff] at h
        obtain ⟨d', hd, h⟩ := h
        simp at h
  | cons t ts ih =>
    intro S hS h
    rw [List.cons_append, List.foldl_cons] at h
    rw [List.foldl_cons]
    cases hm : readStep (some S) t with
    | some M =>
      rw [readStep_extend hm hS] at h
      exact ih (count_step hm hS).2.2.2 h
    | none =>
      exfalso
      cases hm' : readStep (some (S ++ [(false, [])])) t with
      | none => rw [hm', fold_none] at h; simp at h
      | some M =>
        rw [hm', List.foldl_append] at h
        cases hf : ts.foldl readStep (some M) with
        | none => rw [hf] at h; simp [readStep] at h
        | some M' =>
          rw [hf] at h
          obtain ⟨fr, b, l, v, rfl, hv, _⟩ := hasVal_fold ts (closes_base hS hm hm') hf
          simp only [List.foldl_cons, List.foldl_nil] at h
          rcases fr with _ | ⟨⟨b1, l1⟩, _ | ⟨⟨b2, l2⟩, r⟩⟩
          · cases b <;> simp [readStep] at h
          · cases b1 with
            | false => simp [readStep] at h
            | true =>
              simp only [List.cons_append, List.nil_append, readStep, Option.map_eq_some_iff] at h
              obtain ⟨d', hd, h⟩ := h
              simp at h
              rw [h.2.2] at hv
              simp at hv
          · cases b1 with
            | false => simp [readStep] at h
            | true =>
              simp only [List.cons_append, readStep, Option.map_eq_some_iff] at h
              obtain ⟨d', hd, h⟩ := h
              simp at h

/-- simple texts end outside of strings -/
theorem simple_mode : ∀ (s : Bytes) (m : Mode), simpleFrom m s = true → (lexer m s).2 = .ground ∨ ∃ cur, (lexer m s).2 = .word cur := by
  intro s
  induction s with
  | nil => intro m h; cases m <;> simp_all [simpleFrom, lexer]
  | cons c t ih => intro m h; exact ih _ (simple_cons.1 h).2

/-- What stands between the brackets of a dictionary. -/
theorem dictText_of_reads {x : Bytes} {d : List (Bytes × Val)} (hx : SimpleText x) (h : ReadsVal (b!"<<" ++ x ++ b!">>") (.dict d)) : DictText x d := by
  obtain ⟨ts, h1, h2⟩ := h
  have hl : ∃ us, lexer .ground (x ++ b!" ") = (us, .ground) ∧ lexer .ground (x ++ b!">>") = (us ++ [.dictClose], .ground) := by
    rw [lexer_append, lexer_append]
    rcases simple_mode x .ground hx with e | ⟨cur, e⟩
    · rw [e]
      refine ⟨(lexer .ground x).1, ?_, rfl⟩
      simp [lexer, lexStep, lexStart, white]
    · rw [e]
      refine ⟨(lexer .ground x).1 ++ [wordTok cur], ?_, ?_⟩ <;> simp [lexer, lexStep, lexStart, white, regular, delim]
  obtain ⟨us, e1, e2⟩ := hl
  rw [List.append_assoc, lexer_append, show lexer .ground b!"<<" = ([.dictOpen], .ground) from rfl] at h1
  simp only [e2, Prod.mk.injEq, and_true] at h1
  subst h1
  unfold valueOfToks at h2
  split at h2
  · rename_i v hv
    simp only [Option.some.injEq] at h2
    subst h2
    rw [List.cons_append, List.nil_append, List.foldl_cons] at hv
    obtain ⟨l, f1, f2⟩ := fold_inside us (S := [(true, [])]) (by simp) hv
    exact ⟨l.reverse, ⟨us, e1, simple_end x _ hx, by rw [f1, List.reverse_reverse]⟩, f2⟩
  · simp at h2

/-! ### the theorems -/

/-- **C78** (partial) A dictionary is read as it stands in the file: the entries found are those that the independent reader finds.
Missing: other notations than `SimpleText` (comments, white space other than blank and line end, escapes before special characters, bytes above 126; some of them are refuted below),
and the word `stream` inside the dictionary. -/
theorem C78_read_partial {a x b tail : Bytes} {d : List (Bytes × Val)} (ha : White a) (hb : White b) (hx : SimpleText x) (hs : ¬ streamKw <:+: x)
    (ht : tail = [] ∨ ∃ r, tail = streamKw ++ r) (hd : ReadsVal (b!"<<" ++ x ++ b!">>") (.dict d)) :
    ∃ ps, readProperties (a ++ (b!"<<" ++ x ++ b!">>") ++ b ++ tail) = .ok ps ∧ ReadAs d ps := by
  obtain ⟨vss, f1, f2⟩ := read_values hx (dictText_of_reads hx hd)
  exact ⟨_, readProperties_frame ha hb hs ht, readAs_of _ vss d f1 f2⟩

/-- **C78** (partial) The text written again for the entries found says the same to the independent reader. Missing: as for `C78_read_partial`. -/
theorem C78_rewritten_partial {a x b tail : Bytes} {d : List (Bytes × Val)} (ha : White a) (hb : White b) (hx : SimpleText x) (hs : ¬ streamKw <:+: x)
    (ht : tail = [] ∨ ∃ r, tail = streamKw ++ r) (hd : ReadsVal (b!"<<" ++ x ++ b!">>") (.dict d)) :
    ∃ ps, readProperties (a ++ (b!"<<" ++ x ++ b!">>") ++ b ++ tail) = .ok ps ∧ ReadsVal (setProperties ps) (.dict d) := by
  obtain ⟨vss, f1, f2⟩ := read_values hx (dictText_of_reads hx hd)
  refine ⟨_, readProperties_frame ha hb hs ht, ?_⟩
  generalize parseProps (normalizeProps x) = ps at f1 f2
  obtain ⟨ts, h1, h2⟩ := entries_lexed ps vss [62, 10] f1
  refine ⟨.dictOpen :: (ts ++ [.dictClose]), ?_, ?_⟩
  · rw [setProperties_eq, show 60 :: 60 :: 10 :: (ps.flatMap flat1 ++ [62, 62, 10]) = b!"<<\n" ++ (ps.flatMap flat1 ++ [62, 62, 10]) by rfl, lexer_append]
    have e : lexer .ground b!"<<\n" = ([.dictOpen], .ground) := rfl
    have e2 : lexer .ground [62, 62, 10] = ([.dictClose], .ground) := rfl
    rw [e, h1, e2]
    rfl
  · have h3 := fold_extend (R := [(false, [])]) ts (by simp) h2
    unfold valueOfToks
    rw [List.foldl_cons, List.foldl_append]
    simp only [readStep]
    rw [show [(true, []), (false, [])] = ([(true, [])] ++ [(false, [])] : RStack) from rfl, h3]
    simp only [List.cons_append, List.nil_append, List.foldl_cons, List.foldl_nil, readStep, List.reverse_reverse, f2, Option.map_some]

/-- The hypotheses on the text say what an independent reader finds. -/
theorem Spec.DictText.reads {a x b : Bytes} {d : List (Bytes × Val)} (ha : White a) (hb : White b) (hd : DictText x d) :
    ReadsVal (a ++ (b!"<<" ++ x ++ b!">>") ++ b) (.dict d) := by
  obtain ⟨vs, hv, hp⟩ := hd
  have lexWhite : ∀ w : Bytes, White w → ∀ z, lexer .ground (w ++ z) = lexer .ground z := by
    intro w hw z
    induction w with
    | nil => rfl
    | cons c w ih =>
      have e : lexStep .ground c = ([], .ground) := by rcases hw c (by simp) with rfl | rfl | rfl | rfl <;> rfl
      rw [List.cons_append, lexer_cons, e, ih (fun d hd => hw d (by simp [hd]))]
      simp
  obtain ⟨ts, h1, h2⟩ := values_before hv (Or.inr rfl) (62 :: b)
  refine ⟨.dictOpen :: (ts ++ [.dictClose]), ?_, ?_⟩
  · rw [show a ++ (b!"<<" ++ x ++ b!">>") ++ b = a ++ (b!"<<" ++ (x ++ (62 :: 62 :: b))) by simp, lexWhite a ha, lexer_append]
    have e : lexer .ground b!"<<" = ([.dictOpen], .ground) := rfl
    have e2 : lexer .ground (62 :: 62 :: b) = ([.dictClose], .ground) := by
      have := lexWhite b hb []
      rw [List.append_nil] at this
      rw [lexer_cons, lexer_cons, show lexStep .ground 62 = ([], .gt) from rfl]
      simp only [show lexStep .gt 62 = ([.dictClose], .ground) from rfl, this]
      rfl
    rw [e, h1, e2]
    rfl
  · have h3 := fold_extend (R := [(false, [])]) ts (by simp) h2
    unfold valueOfToks
    rw [List.foldl_cons, List.foldl_append]
    simp only [readStep]
    rw [show [(true, []), (false, [])] = ([(true, [])] ++ [(false, [])] : RStack) from rfl, h3]
    simp only [List.cons_append, List.nil_append, List.foldl_cons, List.foldl_nil, readStep, List.reverse_reverse, hp, Option.map_some]

/-- a value that is looked up -/
theorem C78_entry {d : List (Bytes × Val)} {ps : Props} {k : Bytes} {v : Val} (h : ReadAs d ps) (hk : d.lookup k = some v) (hn : ∀ k' n, (k', Val.name n) ∈ d → n ≠ k) :
    ∃ r, valueOf ps k = some r ∧ ((∃ n, v = .name n) ∧ Values r [] ∨ (∀ n, v ≠ .name n) ∧ Values r [v]) := by
  induction h with
  | nil => simp at hk
  | @name k1 n r r' d ps h1 h2 _ ih =>
    by_cases e : k = k1
    · subst e
      simp at hk
      exact ⟨r, by simp [valueOf], Or.inl ⟨⟨n, hk.symm⟩, h1⟩⟩
    · have hnk : n ≠ k := hn k1 n (by simp)
      have : (k == k1) = false := by simp [e]
      rw [List.lookup_cons, this] at hk
      obtain ⟨r0, j1, j2⟩ := ih hk (fun k' n' h => hn k' n' (by simp [h]))
      refine ⟨r0, ?_, j2⟩
      simp only [valueOf] at j1 ⊢
      rw [List.find?_cons_of_neg (by simp [Ne.symm e]), List.find?_cons_of_neg (by simp [hnk])]
      exact j1
  | @value k1 r v1 d ps h1 h2 _ ih =>
    by_cases e : k = k1
    · subst e
      simp at hk
      subst hk
      exact ⟨r, by simp [valueOf], Or.inr ⟨h1, h2⟩⟩
    · have : (k == k1) = false := by simp [e]
      rw [List.lookup_cons, this] at hk
      obtain ⟨r0, j1, j2⟩ := ih hk (fun k' n' h => hn k' n' (by simp [h]))
      refine ⟨r0, ?_, j2⟩
      simp only [valueOf] at j1 ⊢
      rw [List.find?_cons_of_neg (by simp [Ne.symm e])]
      exact j1

/-- a key that is not there -/
theorem C78_no_entry {d : List (Bytes × Val)} {ps : Props} {k : Bytes} (h : ReadAs d ps) (hk : d.lookup k = none) (hn : ∀ k' n, (k', Val.name n) ∈ d → n ≠ k) :
    valueOf ps k = none := by
  induction h with
  | nil => rfl
  | @name k1 n r r' d ps h1 h2 _ ih =>
    have hnk : n ≠ k := hn k1 n (by simp)
    by_cases e : k = k1
    · subst e; simp at hk
    · have : (k == k1) = false := by simp [e]
      rw [List.lookup_cons, this] at hk
      have j1 := ih hk (fun k' n' h => hn k' n' (by simp [h]))
      simp only [valueOf] at j1 ⊢
      rw [List.find?_cons_of_neg (by simp [Ne.symm e]), List.find?_cons_of_neg (by simp [hnk])]
      exact j1
  | @value k1 r v1 d ps h1 h2 _ ih =>
    by_cases e : k = k1
    · subst e; simp at hk
    · have : (k == k1) = false := by simp [e]
      rw [List.lookup_cons, this] at hk
      have j1 := ih hk (fun k' n' h => hn k' n' (by simp [h]))
      simp only [valueOf] at j1 ⊢
      rw [List.find?_cons_of_neg (by simp [Ne.symm e])]
      exact j1

/-! ### an example, and where it fails -/

/-- a page with a string, a hexadecimal string, an array and a nested dictionary -/
def samplePage : Bytes := b!" /Type /Page\n/T (a b)/H <4a 4B>\n/A [ true /X << /Y false >> ] /Parent 2 0 R "

def samplePageDict : List (Bytes × Val) :=
  [(b!"Type", .name b!"Page"), (b!"T", .lit b!"a b"), (b!"H", .hex b!"4a4B"),
   (b!"A", .arr [.word b!"true", .name b!"X", .dict [(b!"Y", .word b!"false")]]), (b!"Parent", .ref 2)]

theorem samplePage_simple : SimpleText samplePage := by
  unfold SimpleText
  decide +kernel

set_option maxRecDepth 20000 in
theorem samplePage_dict : DictText samplePage samplePageDict := by
  refine ⟨[.name b!"Type", .name b!"Page", .name b!"T", .lit b!"a b", .name b!"H", .hex b!"4a4B", .name b!"A",
    .arr [.word b!"true", .name b!"X", .dict [(b!"Y", .word b!"false")]], .name b!"Parent", .ref 2], ⟨_, rfl, by decide +kernel, rfl⟩, rfl⟩

theorem samplePage_noStream : ¬ streamKw <:+: samplePage := by decide +kernel

theorem samplePage_reads : ReadsVal (b!"<<" ++ samplePage ++ b!">>") (.dict samplePageDict) := by
  have h := DictText.reads (a := []) (b := []) (by simp [White]) (by simp [White]) samplePage_dict
  simpa using h

example (tail : Bytes) : ∃ ps, readProperties (b!"\n" ++ (b!"<<" ++ samplePage ++ b!">>") ++ b!"\n" ++ (streamKw ++ tail)) = .ok ps ∧
    ReadAs samplePageDict ps :=
  C78_read_partial (by decide) (by decide) samplePage_simple samplePage_noStream (Or.inr ⟨_, rfl⟩) samplePage_reads

example : ∃ ps, readProperties ((b!"" ++ (b!"<<" ++ samplePage ++ b!">>")) ++ b!"\n" ++ []) = .ok ps ∧ ReadsVal (setProperties ps) (.dict samplePageDict) :=
  C78_rewritten_partial (by decide) (by decide) samplePage_simple samplePage_noStream (Or.inl rfl) samplePage_reads

example : ∀ ps, ReadAs samplePageDict ps → ∃ r, valueOf ps b!"Parent" = some r ∧ Values r [.ref 2] := by
  intro ps h
  obtain ⟨r, h1, h2⟩ := C78_entry (k := b!"Parent") (v := .ref 2) h rfl (by
    intro k' n hn
    simp [samplePageDict] at hn
    obtain ⟨_, rfl⟩ := hn
    decide)
  refine ⟨r, h1, ?_⟩
  rcases h2 with ⟨⟨n, h⟩, _⟩ | ⟨_, h⟩
  · cases h
  · exact h

example : ∀ ps, ReadAs samplePageDict ps → valueOf ps b!"Contents" = none := by
  intro ps h
  refine C78_no_entry h rfl ?_
  intro k' n hn
  simp [samplePageDict] at hn
  obtain ⟨_, rfl⟩ := hn
  decide

/-- what the reader makes of a text, and what is written again -/
def rewrite (s : Bytes) : Option Bytes :=
  match readProperties s with
  | .ok ps => some (setProperties ps)
  | _ => none

/-- **C78** Two blanks in a string become one. -/
theorem C78_refuted_blanks : let s := b!"<< /T (a  b) >>"; let t := b!"<<\n/T (a b)>>\n"
    rewrite s = some t ∧ ReadsVal s (.dict [(b!"T", .lit b!"a  b")]) ∧ ReadsVal t (.dict [(b!"T", .lit b!"a b")]) := by
  refine ⟨by decide +kernel, ⟨_, rfl, rfl⟩, ⟨_, rfl, rfl⟩⟩

/-- **C78** A string with a slash is taken apart, and a blank gets into it. -/
theorem C78_refuted_slash : let s := b!"<< /T (http://x) >>"; let t := b!"<<\n/T (http:/ /x) >>\n"
    rewrite s = some t ∧ ReadsVal s (.dict [(b!"T", .lit b!"http://x")]) ∧ ReadsVal t (.dict [(b!"T", .lit b!"http:/ /x")]) := by
  refine ⟨by decide +kernel, ⟨_, rfl, rfl⟩, ⟨_, rfl, rfl⟩⟩

/-- **C78** Of a dictionary with a comment something is written that is no dictionary: the comment does not end any more. -/
theorem C78_refuted_comment : let s := b!"<< /A true % note\n/B true >>"; let t := b!"<<\n/A true % note/B true>>\n"
    rewrite s = some t ∧ ReadsVal s (.dict [(b!"A", .word b!"true"), (b!"B", .word b!"true")]) ∧ ∀ v, ¬ ReadsVal t v := by
  refine ⟨by decide +kernel, ⟨_, rfl, rfl⟩, ?_⟩
  rintro v ⟨ts, h1, h2⟩
  have e : lexer .ground b!"<<\n/A true % note/B true>>\n" = ([.dictOpen, .name b!"A", .op b!"true"], .ground) := rfl
  rw [e] at h1
  obtain ⟨rfl, _⟩ := Prod.mk.inj h1
  have e2 : valueOfToks [.dictOpen, .name b!"A", .op b!"true"] = none := rfl
  rw [e2] at h2
  cases h2

/-- **C78** A key directly before a string is not found. -/
theorem C78_refuted_paren : let s := b!"<< /T(a) /B true >>"
    readProperties s = .ok [⟨b!"T(a)", []⟩, ⟨b!"B", b!"true"⟩] ∧ ReadsVal s (.dict [(b!"T", .lit b!"a"), (b!"B", .word b!"true")]) ∧
      ∀ ps, readProperties s = .ok ps → valueOf ps b!"T" = none ∧ ¬ ReadAs [(b!"T", .lit b!"a"), (b!"B", .word b!"true")] ps := by
  have h : readProperties b!"<< /T(a) /B true >>" = .ok [⟨b!"T(a)", []⟩, ⟨b!"B", b!"true"⟩] := by decide +kernel
  refine ⟨h, ⟨_, rfl, rfl⟩, ?_⟩
  intro ps hp
  have e := h.symm.trans hp
  simp only [Res.ok.injEq] at e
  subst e
  refine ⟨rfl, ?_⟩
  intro hr
  obtain ⟨r, h1, _⟩ := C78_entry (k := b!"T") (v := .lit b!"a") hr rfl (by simp)
  rw [show valueOf [⟨b!"T(a)", []⟩, ⟨b!"B", b!"true"⟩] b!"T" = none from rfl] at h1
  cases h1

end Verif
