import Verif.Lemmas.Layout
import Verif.Spec.Layout
/-
C48: the layout of dictionaries.
-/
namespace Verif
open Spec

/-- the normal form of a text of tokens -/
def tokNf : List (Bytes × Tok) → Bytes
  | [] => []
  | (g, t) :: r => (if t.IsWord ∧ g ≠ [] then [32] else []) ++ t.bytes ++ tokNf r

theorem white_isWs {g : Bytes} (h : White g) : ∀ c ∈ g, isWs c = true := by
  intro c hc
  rcases h c hc with h | h | h | h <;> subst h <;> rfl

theorem regular_byte {c : UInt8} (h : Regular c) : isWs c = false ∧ c < 128 ∧ isSp c = false ∧ c ≠ 47 ∧ c ≠ 91 ∧ c ≠ 93 ∧ c ≠ 60 ∧ c ≠ 62 := by
  obtain ⟨h1, h2, h3⟩ := h
  have : c.toNat < 127 := h2
  have : 32 < c.toNat := h1
  refine ⟨?_, ?_, ?_, h3⟩
  · apply isWs_false
    · refine ⟨?_, ?_, ?_⟩ <;> rintro rfl <;> revert h1 <;> decide
    · rintro rfl; revert h1; decide
  · show c.toNat < 128; omega
  · have hne : ∀ d : UInt8, d.toNat ≤ 32 → c ≠ d := by
      rintro d hd rfl
      omega
    simp [isSp, hne 9 (by decide), hne 10 (by decide), hne 11 (by decide), hne 12 (by decide), hne 13 (by decide), hne 32 (by decide)]

theorem tok_clean {t : Tok} (h : t.Ok) : ∀ c ∈ t.bytes, isWs c = false := by
  intro c hc
  cases t with
  | name b =>
    rcases List.mem_cons.1 hc with rfl | hc
    · rfl
    · exact (regular_byte (h c hc)).1
  | word b => exact (regular_byte (h.2 c hc)).1
  | openArr => revert c; decide
  | closeArr => revert c; decide
  | openDict => revert c; decide
  | closeDict => revert c; decide

theorem tok_ends {t : Tok} (h : t.Ok) : ∃ c e, t.bytes.head? = some c ∧ t.bytes.getLast? = some e ∧ c < 128 ∧ isSp c = false ∧ e < 128 ∧ isSp e = false := by
  have plain : ∀ c ∈ t.bytes, c < 128 ∧ isSp c = false := by
    intro c hc
    cases t with
    | name b =>
      rcases List.mem_cons.1 hc with rfl | hc
      · exact ⟨by decide, rfl⟩
      · exact ⟨(regular_byte (h c hc)).2.1, (regular_byte (h c hc)).2.2.1⟩
    | word b => exact ⟨(regular_byte (h.2 c hc)).2.1, (regular_byte (h.2 c hc)).2.2.1⟩
    | openArr => revert c; decide
    | closeArr => revert c; decide
    | openDict => revert c; decide
    | closeDict => revert c; decide
  have hne : t.bytes ≠ [] := by
    cases t with
    | word b => exact h.1
    | _ => simp [Tok.bytes]
  obtain ⟨c, u, hc⟩ := List.exists_cons_of_ne_nil hne
  obtain ⟨e, he⟩ : ∃ e, t.bytes.getLast? = some e := by
    cases hl : t.bytes.getLast? with
    | none => exact absurd (List.getLast?_eq_none_iff.1 hl) hne
    | some e => exact ⟨e, rfl⟩
  have p1 := plain c (by rw [hc]; simp)
  have p2 := plain e (List.mem_of_getLast? he)
  exact ⟨c, e, by rw [hc]; rfl, he, p1.1, p1.2, p2.1, p2.2⟩

/-- white space before a token -/
theorem nf_tok {g : Bytes} {t : Tok} (hg : White g) (ht : t.Ok) (y : Bytes) : nf (g ++ (t.bytes ++ y)) = (if t.IsWord ∧ g ≠ [] then [32] else []) ++ t.bytes ++ nf y := by
  by_cases hg0 : g = []
  · subst hg0
    simp only [List.nil_append, ne_eq, not_true_eq_false, and_false, if_false]
    exact nf_clean (tok_clean ht) y
  have hc : ∀ b, collapseWs b (t.bytes ++ y) = t.bytes ++ collapseWs false y := by
    intro b
    obtain ⟨c, u, hu⟩ : ∃ c u, t.bytes = c :: u := by
      obtain ⟨c, _, h, _⟩ := tok_ends ht
      exact ⟨c, t.bytes.tail, by cases hb : t.bytes with
        | nil => simp [hb] at h
        | cons d v => simp [hb] at h; simp [h]⟩
    rw [collapseWs_append, collapseWs_clean _ b (tok_clean ht)]
    have hl : (t.bytes.getLast?.map isWs).getD b = false := by
      obtain ⟨_, e, _, he, _⟩ := tok_ends ht
      rw [he]
      simpa using tok_clean ht e (List.mem_of_getLast? he)
    rw [hl]
  have hn : nf (t.bytes ++ y) = t.bytes ++ nf y := nf_clean (tok_clean ht) y
  have hn' : stripQ dropSp (t.bytes ++ collapseWs false y) = t.bytes ++ nf y := by rw [← hn, nf, hc false]
  have e : nf (g ++ (t.bytes ++ y)) = stripQ dropSp (32 :: (t.bytes ++ collapseWs false y)) := by
    unfold nf
    rw [collapseWs_append, collapseWs_ws' (white_isWs hg) hg0, hc]
    rfl
  rw [e, stripQ, hn']
  cases t with
  | name b => simp [Tok.bytes, dropSp, Tok.IsWord]
  | openArr => simp [Tok.bytes, dropSp, Tok.IsWord]
  | closeArr => simp [Tok.bytes, dropSp, Tok.IsWord]
  | openDict => simp [Tok.bytes, dropSp, Tok.IsWord]
  | closeDict => simp [Tok.bytes, dropSp, Tok.IsWord]
  | word b =>
    obtain ⟨c, u, rfl⟩ := List.exists_cons_of_ne_nil ht.1
    obtain ⟨_, _, _, h1, h2, h3, h4, h5⟩ := regular_byte (ht.2 c (by simp))
    have : dropSp (Tok.bytes (.word (c :: u)) ++ collapseWs false y) = false := by
      cases hd : dropSp (Tok.bytes (.word (c :: u)) ++ collapseWs false y) with
      | false => rfl
      | true =>
        exfalso
        rw [dropSp_iff] at hd
        simp only [Tok.bytes, List.cons_append, List.cons.injEq] at hd
        obtain ⟨v, h | h | h | h | h⟩ := hd
        · exact h1 h.1
        · exact h2 h.1
        · exact h3 h.1
        · exact h4 h.1
        · exact h5 h.1
    rw [this]
    simp [Tok.IsWord, hg0]

theorem nf_render : ∀ {r : List (Bytes × Tok)}, (∀ p ∈ r, White p.1 ∧ p.2.Ok) → nf (render r) = tokNf r
  | [], _ => rfl
  | (g, t) :: r, h => by
    obtain ⟨h1, h2⟩ := h (g, t) (by simp)
    rw [render, List.append_assoc, nf_tok h1 h2, nf_render (fun p hp => h p (by simp [hp]))]
    rfl

theorem render_getLast : ∀ {r : List (Bytes × Tok)}, r ≠ [] → (∀ p ∈ r, White p.1 ∧ p.2.Ok) → ∃ e, (render r).getLast? = some e ∧ e < 128 ∧ isSp e = false
  | [], h, _ => absurd rfl h
  | [(g, t)], _, h => by
    obtain ⟨_, e, _, he, _, _, h1, h2⟩ := tok_ends (h (g, t) (by simp)).2
    exact ⟨e, by simp [render, List.getLast?_append, he], h1, h2⟩
  | (g, t) :: q :: r, _, h => by
    obtain ⟨e, he, h1, h2⟩ := render_getLast (r := q :: r) (by simp) (fun p hp => h p (by simp [hp]))
    exact ⟨e, by rw [render, List.getLast?_append, he]; rfl, h1, h2⟩

theorem normalize_render {g : Bytes} {t : Tok} {r : List (Bytes × Tok)} {w : Bytes} (h : ∀ p ∈ (g, t) :: r, White p.1 ∧ p.2.Ok) (hw : White w) :
    normalizeProps (render ((g, t) :: r) ++ w) = tokNf (([], t) :: r) := by
  have hok : ∀ p ∈ ([], t) :: r, White p.1 ∧ p.2.Ok := by
    intro p hp
    rcases List.mem_cons.1 hp with rfl | hp
    · exact ⟨by simp [White], (h (g, t) (by simp)).2⟩
    · exact h p (by simp [hp])
  rw [normalizeProps_eq, ← nf_render hok]
  obtain ⟨e, he, h1, h2⟩ := render_getLast (by simp) hok
  obtain ⟨c, _, hc, _, h3, h4, _⟩ := tok_ends (h (g, t) (by simp)).2
  have sp : ∀ x : Bytes, White x → ∀ d ∈ x, isSp d = true := by
    intro x hx d hd
    rcases hx d hd with h | h | h | h <;> subst h <;> rfl
  have := trimSpace_ends (a := g) (b := w) (x := render (([], t) :: r)) (c := c) (e := e) (sp g (h (g, t) (by simp)).1) (sp w hw)
    (by simp [render, List.head?_append, hc]) he h3 h4 h1 h2
  rw [← this] 
  unfold nf
  rw [show render ((g, t) :: r) ++ w = g ++ render (([], t) :: r) ++ w by simp [render]]

theorem tokNf_same {r s : List (Bytes × Tok)} (h : SameTokens r s) : tokNf r = tokNf s := by
  induction h with
  | nil => rfl
  | @cons g h t r s _ _ _ h5 _ ih =>
    rw [tokNf, tokNf, ih]
    congr 2
    simp only [ne_eq]
    by_cases hw : t.IsWord
    · simp only [h5 hw]
    · simp [hw]

theorem sameTokens_ok {r s : List (Bytes × Tok)} (h : SameTokens r s) : (∀ p ∈ r, White p.1 ∧ p.2.Ok) ∧ ∀ p ∈ s, White p.1 ∧ p.2.Ok := by
  induction h with
  | nil => simp
  | cons h1 h2 h3 _ _ ih =>
    refine ⟨?_, ?_⟩
    · intro p hp
      rcases List.mem_cons.1 hp with rfl | hp
      · exact ⟨h1, h3⟩
      · exact ih.1 p hp
    · intro p hp
      rcases List.mem_cons.1 hp with rfl | hp
      · exact ⟨h2, h3⟩
      · exact ih.2 p hp

/-- C48 (partial).  Two texts of the same tokens are read the same: white space may be of any kind and length, and before names and brackets it may be there or not.
White space after an opening bracket or before the first token of an array matters (`C48_refuted`). -/
theorem C48_layout_partial {r s : List (Bytes × Tok)} (h : SameTokens r s) {a1 a2 b1 b2 : Bytes}
    (ha : White a1 ∧ White b1) (hb : White a2 ∧ White b2)
    (hs1 : ¬ streamKw <:+: render r) (hs2 : ¬ streamKw <:+: render s) :
    readProperties (b!"<<" ++ (render r ++ a1) ++ b!">>" ++ b1) = readProperties (b!"<<" ++ (render s ++ a2) ++ b!">>" ++ b2) := by
  have key : ∀ {x a b : Bytes}, White a → White b → ¬ streamKw <:+: x → readProperties (b!"<<" ++ (x ++ a) ++ b!">>" ++ b) = .ok (parseProps (normalizeProps (x ++ a))) := by
    intro x a b ha hb hx
    have nosp : ∀ {g : Bytes}, White g → ∀ y, streamKw <:+: g ++ y → streamKw <:+: y := by
      intro g hg y
      induction g with
      | nil => exact id
      | cons c t ih =>
        intro h
        have hc : c ∉ streamKw := by
          rcases hg c (by simp) with h | h | h | h <;> subst h <;> decide
        exact ih (fun d hd => hg d (by simp [hd])) (infix_cons_of_not_mem hc h)
    refine readProperties_brackets ?_ ?_
    · intro hi
      have e2 : b!"<<" ++ (x ++ a) ++ b!">>" ++ b = 60 :: 60 :: (x ++ a ++ 62 :: 62 :: b) := by simp
      rw [e2] at hi
      have hi := infix_cons_of_not_mem (by decide) (infix_cons_of_not_mem (by decide) hi)
      rcases infix_split (by decide) hi with hi | hi
      · cases a with
        | nil => rw [List.append_nil] at hi; exact hx hi
        | cons c t =>
          have hc : c ∉ streamKw := by
            rcases ha c (by simp) with h | h | h | h <;> subst h <;> decide
          rcases infix_split hc hi with hi | hi
          · exact hx hi
          · have := nosp (g := t) (fun d hd => ha d (by simp [hd])) [] (by simpa using hi)
            exact absurd this (by decide)
      · have hi := infix_cons_of_not_mem (by decide) hi
        have := nosp hb [] (by simpa using hi)
        exact absurd this (by decide)
    · intro c hc e
      rcases hb c hc with h | h | h | h <;> rw [h] at e <;> revert e <;> decide
  rw [key ha.1 ha.2 hs1, key hb.1 hb.2 hs2]
  congr 2
  have ws : ∀ {a : Bytes}, White a → normalizeProps a = [] := by
    intro a ha
    rw [normalizeProps_eq]
    have : trimSpace a = [] := by
      have sp : ∀ d ∈ a, isSp d = true := by
        intro d hd
        rcases ha d hd with h | h | h | h <;> subst h <;> rfl
      have := trimSpace_core (a := a) (x := []) (b := []) sp (by simp) Ascii.nil (by simp) (by simp [EndOk])
      simpa using this
    rw [this]; rfl
  cases h with
  | nil => simp only [render, List.nil_append]; rw [ws ha.1, ws hb.1]
  | cons h1 h2 h3 h4 h5 =>
    have hh := sameTokens_ok (SameTokens.cons h1 h2 h3 h4 h5)
    rw [normalize_render hh.1 ha.1, normalize_render hh.2 hb.1]
    exact tokNf_same (SameTokens.cons (by simp [White]) (by simp [White]) h3 (by simp) h5)

/-- two layouts of a page -/
def layoutA : List (Bytes × Tok) := [(b!"", .name b!"Type"), (b!"", .name b!"Page"), (b!"", .name b!"Parent"), (b!" ", .word b!"3"), (b!" ", .word b!"0"), (b!" ", .word b!"R"),
  (b!"", .name b!"MediaBox"), (b!"", .openArr), (b!"", .word b!"0"), (b!" ", .word b!"0"), (b!" ", .word b!"595"), (b!" ", .word b!"842"), (b!"", .closeArr),
  (b!"", .name b!"Resources"), (b!"", .openDict), (b!"", .name b!"Font"), (b!"", .openDict), (b!"", .closeDict), (b!"", .closeDict)]

def layoutB : List (Bytes × Tok) := [(b!"\n  ", .name b!"Type"), (b!" ", .name b!"Page"), (b!"\n", .name b!"Parent"), (b!" \n", .word b!"3"), (b!"  ", .word b!"0"), (b!"\t", .word b!"R"),
  (b!"\n  ", .name b!"MediaBox"), (b!" ", .openArr), (b!"", .word b!"0"), (b!" ", .word b!"0"), (b!"  ", .word b!"595"), (b!" ", .word b!"842"), (b!" ", .closeArr),
  (b!"\n  ", .name b!"Resources"), (b!"\n", .openDict), (b!"\n    ", .name b!"Font"), (b!" ", .openDict), (b!"\n", .closeDict), (b!"\n", .closeDict)]

example : SameTokens layoutA layoutB ∧ render layoutA ≠ render layoutB ∧ ¬ streamKw <:+: render layoutA ∧ ¬ streamKw <:+: render layoutB ∧
    readProperties (b!"<<" ++ (render layoutA ++ b!"") ++ b!">>" ++ b!"") =
      .ok [⟨b!"Type", []⟩, ⟨b!"Page", []⟩, ⟨b!"Parent", b!"3 0 R"⟩, ⟨b!"MediaBox", b!"[0 0 595 842]"⟩, ⟨b!"Resources", b!"<</Font<<>>>>"⟩] := by
  refine ⟨?_, by decide, (index_none_iff (by decide)).1 (by decide +kernel), (index_none_iff (by decide)).1 (by decide +kernel), by decide +kernel⟩
  unfold layoutA layoutB
  repeat' constructor
  all_goals decide

/-- White space after the opening bracket of an array stays in the value that is read. -/
theorem C48_refuted : readProperties b!"<</Kids [ 3 0 R]>>" = .ok [⟨b!"Kids", b!"[ 3 0 R]"⟩] ∧ readProperties b!"<</Kids [3 0 R]>>" = .ok [⟨b!"Kids", b!"[3 0 R]"⟩] := by
  decide +kernel

end Verif
