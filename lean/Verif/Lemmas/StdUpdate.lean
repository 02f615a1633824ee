import Verif.Lemmas.StdCrawl
import Verif.Lemmas.FlatImg
import Verif.Lemmas.FlatSave
/-
Entries that are written anew in documents whose dictionaries are simply written.
-/
namespace Verif
open Spec

/-! ### texts -/

theorem simple_append' : ∀ (a : Bytes) (m : Mode) (b : Bytes), simpleFrom m a = true → simpleFrom (lexer m a).2 b = true → simpleFrom m (a ++ b) = true := by
  intro a
  induction a with
  | nil => intro m b _ h; exact h
  | cons c a ih =>
    intro m b h hr
    have hr' : simpleFrom (lexer (lexStep m c).2 a).2 b = true := by rw [lexer_cons] at hr; exact hr
    rw [simple_cons] at h
    rw [List.cons_append, simple_cons]
    refine ⟨?_, ih _ b h.2 hr'⟩
    cases a with
    | cons d a => exact simple_rest' h.1 (fun _ ha => ha)
    | nil =>
      obtain ⟨h1, h2⟩ := h
      cases m with
      | lit d e cur =>
        refine simple_rest' h1 ?_
        rintro rfl _ _
        cases e <;> simp [lexStep, simpleFrom] at h2
      | _ => exact h1

theorem pairUp_append : ∀ (vs : List Val) {ws : List Val} {d e : List (Bytes × Val)}, pairUp vs = some d → pairUp ws = some e → pairUp (vs ++ ws) = some (d ++ e)
  | [], ws, d, e, h, h' => by simp [pairUp] at h; subst h; exact h'
  | [v], ws, d, e, h, h' => by cases v <;> simp [pairUp] at h
  | v :: w :: vs, ws, d, e, h, h' => by
    cases v with
    | name k =>
      simp only [pairUp, Option.map_eq_some_iff] at h
      obtain ⟨d', h1, rfl⟩ := h
      simp [pairUp, pairUp_append vs h1 h']
    | _ => simp [pairUp] at h

theorem values_append {x y : Bytes} {vs ws : List Val} (h : Values x vs) (h' : Values y ws) : Values (x ++ 32 :: y) (vs ++ ws) := by
  obtain ⟨ts, h1, h2, h3⟩ := h
  obtain ⟨us, k1, k2, k3⟩ := h'
  have e : x ++ 32 :: y = (x ++ b!" ") ++ y := by simp
  refine ⟨ts ++ us, ?_, ?_, ?_⟩
  · rw [e, List.append_assoc, lexer_append, h1, k1]
  · rw [e, lexer_append, h1]; exact k2
  · rw [List.foldl_append, h3, under_base _ k3]
    simp

/-- two texts of entries, one after the other -/
theorem stdText_append {x y : Bytes} {d e : List (Bytes × Val)} (h : StdText x d) (h' : StdText (47 :: y) e) : StdText (x ++ 32 :: 47 :: y) (d ++ e) := by
  refine ⟨?_, ?_, ?_, ?_⟩
  · refine simple_append' x .ground _ h.simple ?_
    rw [simple_cons]
    rcases simple_mode x .ground h.simple with e | ⟨cur, e⟩
    · rw [e]; exact ⟨rfl, h'.simple⟩
    · rw [e]; exact ⟨rfl, h'.simple⟩
  · intro hs
    rcases infix_split' (by decide) hs with hs | hs
    · exact h.noStream hs
    · exact h'.noStream hs
  · have hw : words (x ++ 32 :: 47 :: y) = words x ++ words (47 :: y) := by
      rw [words_split rfl, words_white rfl]
    have hy : ∃ k ws, words (47 :: y) = (47 :: k) :: ws := by
      have : ∀ (s cur : Bytes), ∃ k ws, wordsFrom (47 :: cur) s = (47 :: k) :: ws := by
        intro s
        induction s with
        | nil => intro cur; exact ⟨cur, [], by simp [wordsFrom]⟩
        | cons c s ih =>
          intro cur
          rw [wordsFrom]
          split
          · exact ih (cur ++ [c])
          · exact ⟨cur, _, by simp; rfl⟩
      obtain ⟨k, ws, e⟩ := this y []
      exact ⟨k, ws, by rw [words, wordsFrom]; simpa [regular, delim, white] using e⟩
    obtain ⟨k, ws, ek⟩ := hy
    intro w g n hi hn hz
    rw [hw, ek] at hi
    have : (47 :: k : Bytes) ∉ [w, g, b!"R"] := by
      intro hm
      simp at hm
      rcases hm with rfl | rfl
      · exact slash_no_num _ _ hn
      · exact slash_no_num _ _ hz
    rcases infix_split' this hi with hi | hi
    · exact h.refs w g n hi hn hz
    · exact h'.refs w g n (by rw [ek]; exact hi.trans ⟨[47 :: k], [], by simp⟩) hn hz
  · obtain ⟨vs, v1, v2⟩ := dictText_of_reads h.simple h.reads
    obtain ⟨ws, w1, w2⟩ := dictText_of_reads h'.simple h'.reads
    have := Spec.DictText.reads (a := []) (b := []) (by simp [White]) (by simp [White]) ⟨_, values_append v1 w1, pairUp_append _ v2 w2⟩
    simpa using this

theorem stdProps_line {d : List (Bytes × Val)} {ps : Props} (h : StdProps d ps) : StdText (10 :: ps.flatMap flat1) d := by
  obtain ⟨vss, f1, f2⟩ := readAs_values h.1 (fun p hp => ⟨(h.2 p hp).1, (h.2 p hp).2.1⟩)
  exact (std_write f1 f2 (fun p hp => (h.2 p hp).2.2)).2

/-! ### dictionaries of references -/

/-- entries that are references, `nl` after each -/
def refProps (nl : Bytes) (l : List (Bytes × Int)) : Props := l.map (fun x => ⟨x.1, refString x.2 0 ++ nl⟩)

def refEntries (l : List (Bytes × Int)) : List (Bytes × Val) := l.map (fun x => (x.1, .ref x.2))

theorem refProps_std {nl : Bytes} (hn : nl = [] ∨ nl = b!"\n") {l : List (Bytes × Int)} (h : ∀ x ∈ l, GoodKey x.1) : StdProps (refEntries l) (refProps nl l) := by
  have hv : ∀ n, StdVal (refString n 0 ++ nl) (.ref n) := by
    intro n
    rcases hn with rfl | rfl
    · rw [List.append_nil]; exact stdVal_ref n
    · have := (stdVal_ref n).pad (a := []) (b := b!"\n") (by simp [White]) (by decide) (by decide)
      simpa using this
  induction l with
  | nil => exact ⟨.nil, by simp [refProps]⟩
  | cons x l ih =>
    obtain ⟨i1, i2⟩ := ih (fun y hy => h y (by simp [hy]))
    have hx := hv x.2
    have hk := h x (by simp)
    refine ⟨.value hx.noName hx.values i1, ?_⟩
    intro p hp
    simp only [refProps, List.map_cons, List.mem_cons] at hp
    rcases hp with rfl | hp
    · exact ⟨hk.regular, hx.simple, hx.refs, hx.noStream, hk.noStream, hk.simple⟩
    · exact i2 p hp

def CrFont.named (f : CrFont) : Bytes × Int := (f.pfx ++ itoa f.idx, f.objID)
def CrXObj.named (f : CrXObj) : Bytes × Int := (f.chr ++ itoa f.idx, f.objID)

theorem crFonts_flat (l : List CrFont) : crFontsString l = (refProps b!"\n" (l.map CrFont.named)).flatMap flat1 := by
  have e : ∀ n, refString n 0 = itoa n ++ b!" 0 R" := by intro n; simp [refString]; rfl
  unfold crFontsString refProps
  rw [List.map_map, List.flatMap_map]
  apply List.flatMap_congr
  intro f _
  simp [flat1, CrFont.named, e]

theorem crXObjs_flat (l : List CrXObj) : crXObjsString l = (refProps [] (l.map CrXObj.named)).flatMap flat1 := by
  have e : ∀ n, refString n 0 = itoa n ++ b!" 0 R" := by intro n; simp [refString]; rfl
  unfold crXObjsString refProps
  rw [List.map_map, List.flatMap_map]
  apply List.flatMap_congr
  intro f _
  simp [flat1, CrXObj.named, e]

theorem itoa_good (n : Int) : ∀ c ∈ itoa n, regular c = true ∧ simpleChar c = true := by
  intro c hc
  have h0 : isDigit c = true ∨ c = 45 := by
    cases n with
    | ofNat n => exact Or.inl (natDigits_isDigit n c hc)
    | negSucc n =>
      rcases List.mem_cons.1 hc with h | h
      · exact Or.inr h
      · exact Or.inl (natDigits_isDigit _ c h)
  rcases h0 with h | rfl
  · rcases easy_cases (c := c) (by simp [easy, h]) with k | rfl | rfl | rfl
    · exact k
    · exact absurd h (by decide)
    · exact absurd h (by decide)
    · exact absurd h (by decide)
  · exact ⟨rfl, rfl⟩

/-- a part of a key and a number -/
theorem GoodKey.numbered {k a : Bytes} (h : GoodKey k) (ha : a <+: k) (n : Int) : GoodKey (a ++ itoa n) := by
  refine ⟨?_, ?_, ?_⟩
  · intro c hc
    rcases List.mem_append.1 hc with hc | hc
    · exact h.regular c (ha.subset hc)
    · exact (itoa_good n c hc).1
  · intro c hc
    rcases List.mem_append.1 hc with hc | hc
    · exact h.simple c (ha.subset hc)
    · exact (itoa_good n c hc).2
  · intro hs
    obtain ⟨d, t, e⟩ : ∃ d t, itoa n = d :: t := by
      cases n with
      | ofNat n => exact List.exists_cons_of_ne_nil (natDigits_ne_nil n)
      | negSucc n => exact ⟨_, _, rfl⟩
    have hd : ∀ c ∈ itoa n, c ∉ streamKw := by
      intro c hc hm
      have h1 := easy_itoa n c hc
      revert h1
      have : ∀ c ∈ streamKw, easy c = true → False := by decide
      exact this c hm
    rw [e] at hs hd
    rcases infix_split' (hd d (by simp)) hs with hs | hs
    · exact h.noStream (hs.trans ha.isInfix)
    · have hm : (115 : UInt8) ∈ t := hs.subset (by decide)
      exact hd 115 (by simp [hm]) (by decide)

theorem goodKey_letter {c : UInt8} (h : c = 70 ∨ c = 73) : GoodKey [c] := by
  rcases h with rfl | rfl <;> exact ⟨by decide, by decide, by decide⟩

/-! ### replacing an entry -/

/-- one entry with another value -/
def Repl (P : Val → Val → Prop) (k : Bytes) (d d' : List (Bytes × Val)) : Prop := ∃ a w w' b, d = a ++ (k, w) :: b ∧ d' = a ++ (k, w') :: b ∧ P w w'

/-- `k` is not among the keys with names as values, nor among these names -/
def NotNamed (k : Bytes) (d : List (Bytes × Val)) : Prop := ∀ k' n, (k', Val.name n) ∈ d → k' ≠ k ∧ n ≠ k

theorem repl_items {it : Items} {e : List (Bytes × Val)} (h : StdItems it e) : ∀ {key v : Bytes}, it.Fine → it.valOf key = some v → NotNamed key e →
    (∀ es, (b!"Resources", Val.dict es) ∈ e → NotNamed key es ∧ ∀ w, (b!"Resources", w) ∉ es) →
    SS v ∧ ∃ w, StdVal v w ∧ ((∃ a b, e = a ++ (key, w) :: b ∧ ∀ v' w', StdVal v' w' → StdItems (it.setValOf key v') (a ++ (key, w') :: b)) ∨
      ∃ a b es a' b', e = a ++ (b!"Resources", .dict es) :: b ∧ es = a' ++ (key, w) :: b' ∧
        ∀ v' w', StdVal v' w' → StdItems (it.setValOf key v') (a ++ (b!"Resources", .dict (a' ++ (key, w') :: b')) :: b)) := by
  induction h with
  | nil => intro key v _ hv; simp [Items.valOf] at hv
  | @name k n r r' rest d h1 h2 h3 h4 hr ih =>
    intro key v hf hv hn hin
    obtain ⟨n1, n2⟩ := hn k n (by simp)
    rw [Items.valOf, if_neg n1, Items.valOf, if_neg n2] at hv
    obtain ⟨s1, w, s2, s3⟩ := ih hf.2.2 hv (fun a b hab => hn a b (by simp [hab])) (fun es hes => hin es (by simp [hes]))
    refine ⟨s1, w, s2, ?_⟩
    rcases s3 with ⟨a, b, e1, e2⟩ | ⟨a, b, es, a', b', e1, e2, e3⟩
    · refine Or.inl ⟨(k, .name n) :: a, b, by rw [e1]; rfl, fun v' w' hv' => ?_⟩
      rw [Items.setValOf, if_neg n1, Items.setValOf, if_neg n2]
      exact .name h1 h2 h3 h4 (e2 v' w' hv')
    · refine Or.inr ⟨(k, .name n) :: a, b, es, a', b', by rw [e1]; rfl, e2, fun v' w' hv' => ?_⟩
      rw [Items.setValOf, if_neg n1, Items.setValOf, if_neg n2]
      exact .name h1 h2 h3 h4 (e3 v' w' hv')
  | @value k r x rest d h1 h2 hr ih =>
    intro key v hf hv hn hin
    by_cases hk : k = key
    · subst hk
      rw [Items.valOf, if_pos rfl] at hv
      cases hv
      refine ⟨hf.1, x, h2, Or.inl ⟨[], d, rfl, fun v' w' hv' => ?_⟩⟩
      rw [Items.setValOf, if_pos rfl]
      exact .value h1 hv' hr
    · rw [Items.valOf, if_neg hk] at hv
      obtain ⟨s1, w, s2, s3⟩ := ih hf.2 hv (fun a b hab => hn a b (by simp [hab])) (fun es hes => hin es (by simp [hes]))
      refine ⟨s1, w, s2, ?_⟩
      rcases s3 with ⟨a, b, e1, e2⟩ | ⟨a, b, es, a', b', e1, e2, e3⟩
      · refine Or.inl ⟨(k, x) :: a, b, by rw [e1]; rfl, fun v' w' hv' => ?_⟩
        rw [Items.setValOf, if_neg hk]
        exact .value h1 h2 (e2 v' w' hv')
      · refine Or.inr ⟨(k, x) :: a, b, es, a', b', by rw [e1]; rfl, e2, fun v' w' hv' => ?_⟩
        rw [Items.setValOf, if_neg hk]
        exact .value h1 h2 (e3 v' w' hv')
  | @sub k s rest es d h1 hs hr ih1 ih =>
    intro key v hf hv hn hin
    obtain ⟨rfl, f2, f3⟩ := hf
    rw [Items.valOf] at hv
    obtain ⟨g1, g2⟩ := hin es (by simp)
    obtain ⟨s1, w, s2, s3⟩ := ih1 f2 hv g1 (fun es' hes => absurd hes (g2 _))
    refine ⟨s1, w, s2, Or.inr ?_⟩
    rcases s3 with ⟨a, b, e1, e2⟩ | ⟨a, b, es', a', b', e1, e2, e3⟩
    · refine ⟨[], d, es, a, b, rfl, e1, fun v' w' hv' => ?_⟩
      rw [Items.setValOf]
      exact .sub h1 (e2 v' w' hv') hr
    · exact absurd (by rw [e1]; simp) (g2 (.dict es'))

/-! ### what changes -/

/-- entries of resources with other fonts and images -/
structure UpdR (F X : Option Val → Option Val → Prop) (d d' : List (Bytes × Val)) : Prop where
  same : ∀ k, k ≠ b!"Font" → k ≠ b!"XObject" → d'.lookup k = d.lookup k
  font : F (d.lookup b!"Font") (d'.lookup b!"Font")
  xobj : X (d.lookup b!"XObject") (d'.lookup b!"XObject")
  mem : ∀ x ∈ d', x ∈ d ∨ ((x.1 = b!"Font" ∨ x.1 = b!"XObject") ∧ ∃ es, x.2 = .dict es)
  fonts : ∀ v, (b!"Font", v) ∈ d' → (b!"Font", v) ∈ d ∨ ∃ w, (b!"Font", w) ∈ d ∧ F (some w) (some v)

/-- entries of a dictionary with other fonts and images, perhaps in its resources -/
structure Upd (F X : Option Val → Option Val → Prop) (d d' : List (Bytes × Val)) : Prop where
  same : ∀ k, k ≠ b!"Font" → k ≠ b!"XObject" → k ≠ b!"Resources" → d'.lookup k = d.lookup k
  font : F (d.lookup b!"Font") (d'.lookup b!"Font")
  xobj : X (d.lookup b!"XObject") (d'.lookup b!"XObject")
  res : d'.lookup b!"Resources" = d.lookup b!"Resources" ∨ ∃ es es', d.lookup b!"Resources" = some (.dict es) ∧ d'.lookup b!"Resources" = some (.dict es') ∧ UpdR F X es es'
  mem : ∀ x ∈ d', x ∈ d ∨ ((x.1 = b!"Font" ∨ x.1 = b!"XObject") ∧ ∃ es, x.2 = .dict es) ∨
    (x.1 = b!"Resources" ∧ ∃ es es', (b!"Resources", .dict es) ∈ d ∧ x.2 = .dict es' ∧ UpdR F X es es')
  fonts : ∀ v, (b!"Font", v) ∈ d' → (b!"Font", v) ∈ d ∨ ∃ w, (b!"Font", w) ∈ d ∧ F (some w) (some v)

theorem lookup_repl_ne {k k' : Bytes} {a b : List (Bytes × Val)} {w w' : Val} (h : k' ≠ k) : (a ++ (k, w') :: b).lookup k' = (a ++ (k, w) :: b).lookup k' := by
  rw [List.lookup_append, List.lookup_append, List.lookup_cons, List.lookup_cons, beq_eq_false_iff_ne.2 h]

theorem lookup_repl {k : Bytes} {a b : List (Bytes × Val)} {w w' : Val} : (a ++ (k, w') :: b).lookup k = (a ++ (k, w) :: b).lookup k ∨
    ((a ++ (k, w) :: b).lookup k = some w ∧ (a ++ (k, w') :: b).lookup k = some w') := by
  cases h : a.lookup k with
  | some v => left; rw [List.lookup_append, List.lookup_append, h]; rfl
  | none => right; rw [List.lookup_append, List.lookup_append, h]; simp

end Verif
