import Verif.Lemmas.DictVal
import Verif.Crawl
/-
Crawl results whose items are the entries of dictionaries, and the texts written for them.
-/
namespace Verif
open Spec

/-! ### white space around values -/

theorem lexer_white : ∀ (a z : Bytes), White a → lexer .ground (a ++ z) = lexer .ground z := by
  intro a
  induction a with
  | nil => intro z _; rfl
  | cons c a ih =>
    intro z h
    have e : lexStep .ground c = ([], .ground) := by rcases h c (by simp) with rfl | rfl | rfl | rfl <;> rfl
    rw [List.cons_append, lexer_cons, e, ih z (fun d hd => h d (by simp [hd]))]
    simp

theorem white_step {c : UInt8} (h : c = 32 ∨ c = 9 ∨ c = 10 ∨ c = 13) (cur : Bytes) : lexStep (.word cur) c = ([wordTok cur], .ground) := by
  rcases h with rfl | rfl | rfl | rfl <;> simp [lexStep, regular, white, lexStart]

theorem lexer_white_end {m : Mode} (hm : m = .ground ∨ ∃ cur, m = .word cur) {b : Bytes} (hb : White b) : lexer m (b ++ b!" ") = lexer m b!" " := by
  rcases hm with rfl | ⟨cur, rfl⟩
  · rw [lexer_white b _ hb]
  · cases b with
    | nil => rfl
    | cons c b =>
      rw [List.cons_append, lexer_cons, white_step (hb c (by simp)), lexer_white b _ (fun d hd => hb d (by simp [hd])), lexer_cons (.word cur), white_step (Or.inl rfl)]
      rfl

theorem values_pad {a r b : Bytes} {vs : List Val} (ha : White a) (hb : White b) (h : Values r vs) : Values (a ++ r ++ b) vs := by
  have hm := values_mode h
  obtain ⟨ts, h1, h2, h3⟩ := h
  refine ⟨ts, ?_, ?_, h3⟩
  · rw [List.append_assoc, List.append_assoc, lexer_white a _ ha, lexer_append, lexer_white_end hm hb, ← lexer_append]
    exact h1
  · rw [List.append_assoc, lexer_white a _ ha, lexer_append]
    have key : ∀ (b : Bytes) (m : Mode), White b → (m = .ground ∨ ∃ cur, m = .word cur) → (lexer m b).2 ≠ .gt := by
      intro b
      induction b with
      | nil => intro m _ hm; rcases hm with rfl | ⟨cur, rfl⟩ <;> simp [lexer]
      | cons c b ih =>
        intro m hb hm
        rw [lexer_cons]
        refine ih _ (fun d hd => hb d (by simp [hd])) ?_
        rcases hm with rfl | ⟨cur, rfl⟩
        · left
          rcases hb c (by simp) with rfl | rfl | rfl | rfl <;> rfl
        · left
          rw [white_step (hb c (by simp))]
    exact key b _ hb hm

theorem simple_white : ∀ (a z : Bytes), White a → simpleFrom .ground z = true → simpleFrom .ground (a ++ z) = true := by
  intro a
  induction a with
  | nil => intro z _ h; exact h
  | cons c a ih =>
    intro z h hz
    rw [List.cons_append, simple_cons]
    have e : simpleByte .ground c (a ++ z) = true ∧ lexStep .ground c = ([], .ground) := by rcases h c (by simp) with rfl | rfl | rfl | rfl <;> exact ⟨rfl, rfl⟩
    rw [e.2]
    exact ⟨e.1, ih z (fun d hd => h d (by simp [hd])) hz⟩

theorem simple_pad {a r b : Bytes} (ha : White a) (hb : White b) (hh : b.head? ≠ some 32) (h : SimpleText r) : SimpleText (a ++ r ++ b) := by
  unfold SimpleText
  rw [List.append_assoc]
  refine simple_white a _ ha (simple_append r _ b h hh ?_)
  have key : ∀ (b : Bytes) (m : Mode), White b → (m = .ground ∨ ∃ cur, m = .word cur) → simpleFrom m b = true := by
    intro b
    induction b with
    | nil => intro m _ hm; rcases hm with rfl | ⟨cur, rfl⟩ <;> rfl
    | cons c b ih =>
      intro m hb hm
      rw [simple_cons]
      rcases hm with rfl | ⟨cur, rfl⟩
      · have e : simpleByte .ground c b = true ∧ lexStep .ground c = ([], .ground) := by rcases hb c (by simp) with rfl | rfl | rfl | rfl <;> exact ⟨rfl, rfl⟩
        rw [e.2]
        exact ⟨e.1, ih _ (fun d hd => hb d (by simp [hd])) (Or.inl rfl)⟩
      · rw [white_step (hb c (by simp))]
        refine ⟨?_, ih _ (fun d hd => hb d (by simp [hd])) (Or.inl rfl)⟩
        rcases hb c (by simp) with rfl | rfl | rfl | rfl <;> rfl
  exact key b _ hb (simple_mode r .ground h)

theorem White.is {a : Bytes} (h : White a) : ∀ c ∈ a, white c = true := by
  intro c hc
  rcases h c hc with rfl | rfl | rfl | rfl <;> rfl

theorem words_pad {a r b : Bytes} (ha : White a) (hb : White b) : words (a ++ r ++ b) = words r := words_around (White.is ha) (White.is hb)

theorem noStream_pad {a r b : Bytes} (ha : White a) (hb : White b) (h : ¬ streamKw <:+: r) : ¬ streamKw <:+: a ++ r ++ b := by
  intro hs
  exact h (infix_of_words stream_regular (by decide) (by rw [words_pad ha hb]; exact fun w hw => hw) hs)

theorem intRefs_pad {a r b : Bytes} (ha : White a) (hb : White b) (h : IntRefs r) : IntRefs (a ++ r ++ b) := by
  intro w g n hi
  rw [words_pad ha hb] at hi
  exact h w g n hi

theorem StdVal.pad {a r b : Bytes} {v : Val} (ha : White a) (hb : White b) (hh : b.head? ≠ some 32) (h : StdVal r v) : StdVal (a ++ r ++ b) v :=
  ⟨values_pad ha hb h.values, h.noName, simple_pad ha hb hh h.simple, intRefs_pad ha hb h.refs, noStream_pad ha hb h.noStream⟩

/-! ### dictionaries as values -/

theorem stdVal_core {x : Bytes} {es : List (Bytes × Val)} (h : StdText x es) : StdVal (b!"<<" ++ x ++ b!">>") (.dict es) := by
  have hd := dictText_of_reads h.simple h.reads
  have hm := simple_mode x .ground h.simple
  have hsimple : SimpleText (b!"<<" ++ x ++ b!">>") := by
    unfold SimpleText
    rw [List.append_assoc, show b!"<<" ++ (x ++ b!">>") = 60 :: 60 :: (x ++ b!">>") by simp, simple_cons]
    refine ⟨rfl, ?_⟩
    rw [show (lexStep .ground 60).2 = .lt from rfl, simple_cons]
    refine ⟨rfl, simple_append x .ground _ h.simple (by simp) ?_⟩
    rcases hm with e | ⟨cur, e⟩ <;> rw [e]
    · rfl
    · rw [simple_cons]
      refine ⟨rfl, ?_⟩
      have : (lexStep (.word cur) 62).2 = .gt := by simp [lexStep, regular, delim, lexStart, white]
      rw [this]
      rfl
  refine ⟨?_, (by intro n h; cases h), hsimple, ?_, ?_⟩
  · obtain ⟨vs, hv, hp⟩ := hd
    obtain ⟨ts, k1, k2⟩ := values_before hv (Or.inr rfl) (62 :: b!" ")
    refine ⟨.dictOpen :: (ts ++ [.dictClose]), ?_, simple_end _ _ hsimple, ?_⟩
    · rw [show b!"<<" ++ x ++ b!">>" ++ b!" " = b!"<<" ++ (x ++ 62 :: 62 :: b!" ") by simp, lexer_append, show lexer .ground b!"<<" = ([.dictOpen], .ground) from rfl, k1]
      rfl
    · have h3 := fold_extend (R := [(true, [])]) ts (by simp) k2
      rw [List.foldl_cons, List.foldl_append]
      simp only [readStep]
      rw [show [(true, []), (true, [])] = ([(true, [])] ++ [(true, [])] : RStack) from rfl, h3]
      simp only [List.cons_append, List.nil_append, List.foldl_cons, List.foldl_nil, readStep, List.reverse_reverse, hp, Option.map_some]
      rfl
  · intro w g n hi hn hz
    have := words_inside (pre := []) (x := x) (post := []) (by simp) (by simp)
    rw [List.nil_append, List.append_nil] at this
    rw [this] at hi
    have n1 : ∀ w : Bytes, ∀ q : ℚ, wordTok w = .num q → w ≠ b!"<" ∧ w ≠ b!">" := by
      intro w q h
      constructor <;> (rintro rfl; exact absurd h (by simp [show wordTok b!"<" = .op b!"<" from rfl, show wordTok b!">" = .op b!">" from rfl]))
    have hT : ∀ d, (d = b!"<" ∨ d = b!">") → d ∉ [w, g, b!"R"] := by
      intro d hd hm
      simp only [List.mem_cons, List.not_mem_nil, or_false] at hm
      rcases hm with rfl | rfl | rfl
      · rcases hd with rfl | rfl
        · exact (n1 _ _ hn).1 rfl
        · exact (n1 _ _ hn).2 rfl
      · rcases hd with rfl | rfl
        · exact (n1 _ _ hz).1 rfl
        · exact (n1 _ _ hz).2 rfl
      · rcases hd with h | h <;> simp at h
    have nn : ¬ [w, g, b!"R"] <:+: [] := fun h => by have := List.eq_nil_of_infix_nil h; simp at this
    rcases infix_split' (a := []) (hT _ (Or.inl rfl)) hi with hi | hi
    · exact absurd hi nn
    rcases infix_split' (a := []) (hT _ (Or.inl rfl)) hi with hi | hi
    · exact absurd hi nn
    rcases infix_split' (a := words x) (b := [b!">"]) (hT _ (Or.inr rfl)) (by simpa using hi) with hi | hi
    · exact h.refs w g n hi hn hz
    rcases infix_split' (a := []) (b := []) (hT _ (Or.inr rfl)) hi with hi | hi <;> exact absurd hi nn
  · intro hs
    obtain ⟨w, k1, k2⟩ := infix_word (u := streamKw) stream_regular (by decide) (b!"<<" ++ x ++ b!">>") [] (by rw [List.nil_append]; exact hs) (by simp)
    have hw := words_inside (pre := []) (x := x) (post := []) (by simp) (by simp)
    rw [List.nil_append, List.append_nil] at hw
    rw [show wordsFrom [] (b!"<<" ++ x ++ b!">>") = words (b!"<<" ++ x ++ b!">>") from rfl, hw] at k1
    have nb : ∀ c : UInt8, ¬ streamKw <:+: [c] := fun c h => by have := h.length_le; simp [streamKw] at this
    simp only [List.mem_cons, List.mem_append, List.not_mem_nil, or_false] at k1
    rcases k1 with rfl | rfl | k1 | rfl | rfl
    · exact nb _ k2
    · exact nb _ k2
    · refine h.noStream ?_
      exact k2.trans (by simpa using word_infix x [] w k1)
    · exact nb _ k2
    · exact nb _ k2

theorem stdVal_dict {a x b : Bytes} {es : List (Bytes × Val)} (ha : White a) (hb : White b) (hh : b.head? ≠ some 32) (h : StdText x es) :
    StdVal (a ++ (b!"<<" ++ x ++ b!">>") ++ b) (.dict es) := (stdVal_core h).pad ha hb hh

/-! ### items -/

/-- a key that can be written -/
structure GoodKey (k : Bytes) : Prop where
  regular : ∀ c ∈ k, regular c = true
  simple : ∀ c ∈ k, simpleChar c = true
  noStream : ¬ streamKw <:+: k

/-- the text after a key without value -/
structure NoVal (r : Bytes) : Prop where
  values : Values r []
  simple : SimpleText r
  refs : IntRefs r
  noStream : ¬ streamKw <:+: r

/-- The items are the entries of a dictionary. A name as value is a second key without value. -/
inductive StdItems : Items → List (Bytes × Val) → Prop
  | nil : StdItems .nil []
  | name {k n r r' : Bytes} {rest : Items} {d : List (Bytes × Val)} : GoodKey k → GoodKey n → NoVal r → NoVal r' → StdItems rest d →
      StdItems (.str k r (.str n r' rest)) ((k, .name n) :: d)
  | value {k r : Bytes} {v : Val} {rest : Items} {d : List (Bytes × Val)} : GoodKey k → StdVal r v → StdItems rest d → StdItems (.str k r rest) ((k, v) :: d)
  | sub {k : Bytes} {s rest : Items} {es d : List (Bytes × Val)} : GoodKey k → StdItems s es → StdItems rest d → StdItems (.sub k s rest) ((k, .dict es) :: d)

theorem StdItems.append {a b : Items} {d e : List (Bytes × Val)} (ha : StdItems a d) (hb : StdItems b e) : StdItems (a.append b) (d ++ e) := by
  induction ha with
  | nil => exact hb
  | name h1 h2 h3 h4 _ ih => exact .name h1 h2 h3 h4 ih
  | value h1 h2 _ ih => exact .value h1 h2 ih
  | sub h1 h2 _ _ ih => exact .sub h1 h2 ih

/-- the items as entries that are written -/
def Items.props : Items → Props
  | .nil => []
  | .str k v r => ⟨k, if trimSpace v ≠ [] then v ++ b!"\n" else []⟩ :: r.props
  | .sub k s r => ⟨k, b!"\n\t<<" ++ s.string ++ b!">>\n"⟩ :: r.props
  | .void k r => ⟨k, []⟩ :: r.props

theorem items_string (it : Items) : it.string = it.props.flatMap flat1 := by
  induction it with
  | nil => rfl
  | str k v r ih => simp only [Items.string, Items.props, List.flatMap_cons, ih, flat1]
  | sub k s r ih1 ih => simp [Items.string, Items.props, ih, flat1]
  | void k r ih => simp [Items.string, Items.props, ih, flat1]

theorem blank_white {v : Bytes} (hs : SimpleText v) (h : trimSpace v = []) : White v := by
  obtain ⟨a, b, e, h1, h2⟩ := trimSpace_split v
  rw [h, List.append_nil] at e
  intro c hc
  have hsp : c ∈ spaceBytes := by
    rw [e] at hc
    rcases List.mem_append.1 hc with hc | hc
    · exact h1 c hc
    · exact h2 c hc
  obtain ⟨k1, k2, k3, k4⟩ := simple_ascii v .ground hs c hc
  have key : ∀ c ∈ spaceBytes, c < 127 → c ≠ 11 → c ≠ 12 → c = 32 ∨ c = 9 ∨ c = 10 ∨ c = 13 := by decide
  exact key c hsp k1 k3 k4

theorem values_same {r : Bytes} {vs ws : List Val} (h : Values r vs) (h' : Values r ws) : vs = ws := by
  obtain ⟨ts, h1, _, h3⟩ := h
  obtain ⟨us, k1, _, k3⟩ := h'
  rw [h1] at k1
  obtain ⟨rfl, _⟩ := Prod.mk.inj k1
  rw [h3] at k3
  simp at k3
  exact k3

theorem values_white {v : Bytes} (h : White v) : Values v [] := by
  have := values_pad (a := v) (r := []) (b := []) (vs := []) h (by simp [White]) ⟨[], rfl, by simp [lexer], rfl⟩
  simpa using this

theorem NoVal.empty : NoVal [] :=
  ⟨values_white (by simp [White]), rfl, (by intro w g n h; exact absurd (List.eq_nil_of_infix_nil h) (by simp)), (by decide)⟩

theorem NoVal.pad {r b : Bytes} (hb : White b) (hh : b.head? ≠ some 32) (h : NoVal r) : NoVal (r ++ b) := by
  have e : r ++ b = [] ++ r ++ b := rfl
  rw [e]
  exact ⟨values_pad (by simp [White]) hb h.values, simple_pad (by simp [White]) hb hh h.simple, intRefs_pad (by simp [White]) hb h.refs, noStream_pad (by simp [White]) hb h.noStream⟩

theorem NoVal.written {r : Bytes} (h : NoVal r) : NoVal (if trimSpace r ≠ [] then r ++ b!"\n" else []) := by
  split
  · exact NoVal.pad (by decide) (by decide) h
  · exact .empty

theorem StdVal.written {r : Bytes} {v : Val} (h : StdVal r v) : StdVal (if trimSpace r ≠ [] then r ++ b!"\n" else []) v := by
  rw [if_pos]
  · have := h.pad (a := []) (b := b!"\n") (by simp [White]) (by decide) (by decide)
    simpa using this
  · intro h0
    have := values_same h.values (values_white (blank_white h.simple h0))
    simp at this

theorem stdText_strip {c : UInt8} {x : Bytes} {d : List (Bytes × Val)} (hc : c = 32 ∨ c = 9 ∨ c = 10 ∨ c = 13) (h : StdText (c :: x) d) : StdText x d := by
  have e : lexStep .ground c = ([], .ground) := by rcases hc with rfl | rfl | rfl | rfl <;> rfl
  have hw : words (c :: x) = words x := words_white (by rcases hc with rfl | rfl | rfl | rfl <;> rfl) x
  refine ⟨?_, ?_, ?_, ?_⟩
  · have := (simple_cons.1 h.simple).2
    rw [e] at this
    exact this
  · intro hs
    exact h.noStream (hs.trans ⟨[c], [], by simp⟩)
  · intro w g n hi
    exact h.refs w g n (by rw [hw]; exact hi)
  · obtain ⟨ts, h1, h2⟩ := h.reads
    refine ⟨ts, ?_, h2⟩
    rw [List.append_assoc, lexer_append, show lexer .ground b!"<<" = ([.dictOpen], .ground) from rfl] at h1 ⊢
    have e2 : lexer .ground (c :: x ++ b!">>") = lexer .ground (x ++ b!">>") := by
      rw [List.cons_append, lexer_cons, e]
      simp
    simp only [e2] at h1 ⊢
    exact h1

theorem stdProps_text {d : List (Bytes × Val)} {ps : Props} (h : StdProps d ps) : StdText (ps.flatMap flat1) d := by
  obtain ⟨vss, f1, f2⟩ := readAs_values h.1 (fun p hp => ⟨(h.2 p hp).1, (h.2 p hp).2.1⟩)
  obtain ⟨_, hx⟩ := std_write f1 f2 (fun p hp => (h.2 p hp).2.2)
  exact stdText_strip (Or.inr (Or.inr (Or.inl rfl))) hx

theorem StdItems.props {it : Items} {e : List (Bytes × Val)} (h : StdItems it e) : StdProps e it.props := by
  induction h with
  | nil => exact ⟨.nil, by simp [Items.props]⟩
  | @name k n r r' rest d h1 h2 h3 h4 _ ih =>
    have g3 := h3.written
    have g4 := h4.written
    refine ⟨.name g3.values g4.values ih.1, ?_⟩
    intro p hp
    simp only [Items.props, List.mem_cons] at hp
    rcases hp with rfl | rfl | hp
    · exact ⟨h1.regular, g3.simple, g3.refs, g3.noStream, h1.noStream, h1.simple⟩
    · exact ⟨h2.regular, g4.simple, g4.refs, g4.noStream, h2.noStream, h2.simple⟩
    · exact ih.2 p hp
  | @value k r v rest d h1 h2 _ ih =>
    have g2 := h2.written
    refine ⟨.value g2.noName g2.values ih.1, ?_⟩
    intro p hp
    simp only [Items.props, List.mem_cons] at hp
    rcases hp with rfl | hp
    · exact ⟨h1.regular, g2.simple, g2.refs, g2.noStream, h1.noStream, h1.simple⟩
    · exact ih.2 p hp
  | @sub k s rest es d h1 _ _ ih1 ih =>
    have hx : StdText s.string es := by rw [items_string]; exact stdProps_text ih1
    have g2 := stdVal_dict (a := b!"\n\t") (b := b!"\n") (by decide) (by decide) (by decide) hx
    have e : b!"\n\t" ++ (b!"<<" ++ s.string ++ b!">>") ++ b!"\n" = b!"\n\t<<" ++ s.string ++ b!">>\n" := by simp
    rw [e] at g2
    refine ⟨.value g2.noName g2.values ih.1, ?_⟩
    intro p hp
    simp only [Items.props, List.mem_cons] at hp
    rcases hp with rfl | hp
    · exact ⟨h1.regular, g2.simple, g2.refs, g2.noStream, h1.noStream, h1.simple⟩
    · exact ih.2 p hp

theorem StdItems.text {it : Items} {e : List (Bytes × Val)} (h : StdItems it e) : StdText it.string e := by
  rw [items_string]
  exact stdProps_text h.props

end Verif
