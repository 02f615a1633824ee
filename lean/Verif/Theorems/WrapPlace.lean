import Verif.Theorems.Held
/-
C96: where the lines of a wrapped text are, and C40 for wrapped texts.
-/
namespace Verif
open Spec

/-- **C40 is violated** by measuring, in every state whose current font is unknown. -/
theorem C40_refuted_measure_all (env : Env) (a : App) (text : Bytes) (h : a.font? a.fontName = none) : a.measureTextWidth env text = (a, .panic) := by
  unfold App.measureTextWidth
  rw [h]

/-- **C40 is violated** by `InsertWrapText`: with an unknown font it crashes on every text that has a token, where `Insert` returns an error (`C40_insert`). -/
theorem C40_refuted_wrap (env : Env) (a : App) (text : Bytes) (page : Int) (x y w h : ℚ) (align : Nat) (color : Option (Int × Int × Int)) {br : Bytes → Option (List Bytes)}
    {tokens : List Bytes} (hb : br text = some tokens) (ht : ∃ t ∈ tokens, t ≠ []) (hf : a.font? a.fontName = none) :
    a.insertWrapText env text page x y w h align color (some br) = ⟨a, .panic⟩ := by
  have key : ∀ (ts : List Bytes) st, (∃ t ∈ ts, t ≠ []) → App.wrapLoop env w (a.fontSize + a.fontSize * (2 / 10)) a st ts = (a, .panic) := by
    intro ts
    induction ts with
    | nil => simp
    | cons t ts ih =>
      intro st h
      rw [App.wrapLoop]
      split
      · rename_i h0
        exact ih st (by simpa [h0] using h)
      · rw [C40_refuted_measure_all _ _ _ hf]
  unfold App.insertWrapText
  simp only [hb, key tokens _ ht]

/-- the lines only get more -/
theorem wrapLoop_lines {env : Env} {w step : ℚ} : ∀ {ts : List Bytes} {a b : App} {st st' : WrapState}, App.wrapLoop env w step a st ts = (b, .ok st') → st.lines <+: st'.lines
  | [], a, b, st, st', h => by
    simp only [App.wrapLoop, Prod.mk.injEq, Res.ok.injEq] at h
    rw [h.2]
  | t :: ts, a, b, st, st', h => by
    rw [App.wrapLoop] at h
    split at h
    · exact wrapLoop_lines h
    · split at h
      · split at h
        · exact (List.prefix_append _ _).trans (wrapLoop_lines h)
        · exact wrapLoop_lines (st := ⟨st.lines, st.y, st.curr ++ t, st.curr ++ t⟩) h
      all_goals simp at h

/-- what the first token does -/
theorem wrapLoop_first {env : Env} {w step : ℚ} {a b : App} {st : WrapState} {y : ℚ} {t : Bytes} {i : Nat} {f : Ttf} {kern : Option (Nat → Nat → Nat → Nat → Int → Int)} {v : ℚ}
    (hu : Using a i f kern) (hv : TextWidth f kern a.fontSize t v) (hw : w < v) :
    ∀ {ts : List Bytes}, (ts.filter (· ≠ [])).head? = some t → App.wrapLoop env w step a { lines := [], y := y, prev := [], curr := [] } ts = (b, .ok st) → [([], y)] <+: st.lines
  | [], h, _ => by simp at h
  | s :: ts, h, hl => by
    rw [App.wrapLoop] at hl
    split at hl
    · rename_i h0
      exact wrapLoop_first hu hv hw (by simpa [h0] using h) hl
    · rename_i h0
      have hst : s = t := by simpa [h0] using h
      subst hst
      simp only [List.nil_append] at hl
      split at hl
      · rename_i a1 width e
        obtain ⟨hw1, hu1, hs1⟩ := C25_call hu e
        obtain ⟨f0, hf, ht, hk, hok⟩ := id hu
        have hwv : width = v := by
          have h1 := (C25_kerned (text := s) (fs := a.fontSize) (x := width) (by rw [ht]; exact hok)).2 (by rw [ht, hk]; exact hw1)
          have h2 := (C25_kerned (text := s) (fs := a.fontSize) (x := v) (by rw [ht]; exact hok)).2 (by rw [ht, hk]; exact hv)
          rw [h1] at h2
          simpa using h2
        rw [if_pos (by rw [hwv]; exact hw)] at hl
        exact wrapLoop_lines hl
      all_goals simp at hl

/-- **C96 is violated**: if the first token is wider than the cell, the call draws an empty text at the top of the cell, and what was asked for begins below it. -/
theorem C96_refuted_blank {env : Env} {a b : App} {text : Bytes} {page : Int} {x y w h : ℚ} {align : Nat} {color : Option (Int × Int × Int)}
    {br : Bytes → Option (List Bytes)} {tokens : List Bytes} {i : Nat} {f : Ttf} {kern : Option (Nat → Nat → Nat → Nat → Int → Int)} (hu : Using a i f kern)
    (hb : br text = some tokens) (hi : a.insertWrapText env text page x y w h align color (some br) = ⟨b, .ok ()⟩)
    {t : Bytes} {v : ℚ} (ht : (tokens.filter (· ≠ [])).head? = some t) (hv : TextWidth f kern a.fontSize t v) (hw : w < v) :
    ∃ c cs yo, b.contents = a.contents ++ c :: cs ∧ TextOf env a i [] page x (y - yo) w h align color c := by
  unfold App.insertWrapText at hi
  simp only [hb] at hi
  cases hl : App.wrapLoop env w (a.fontSize + a.fontSize * (2 / 10)) a { lines := [], y := y, prev := [], curr := [] } tokens with
  | mk a1 r =>
    rw [hl] at hi
    cases r with
    | ok st =>
      simp only at hi
      obtain ⟨rest, hrest⟩ := wrapLoop_first hu hv hw ht hl
      have hm : ∀ s x, (fun s => (measureText (Classical.choose hu).state s a.fontSize).2) s = .ok x ↔ TextWidth f kern a.fontSize s x := by
        obtain ⟨hf, ht, hk, hok⟩ := Classical.choose_spec hu
        intro s x
        show (measureText _ s a.fontSize).2 = .ok x ↔ _
        rw [C25_kerned (by rw [ht]; exact hok), ht, hk]
      obtain ⟨_, hu1, hs1⟩ := wrapLoop_pure hm hu hl
      obtain ⟨⟨cs, hcs, hds⟩, _, _⟩ := insertAll_texts hu1 hi
      have hlines : ∃ r', (if st.curr ≠ [] then { st with lines := st.lines ++ [(trimSpace st.prev, st.y)], y := st.y + (a.fontSize + a.fontSize * (2 / 10)) } else st : WrapState).lines = ([], y) :: r' := by
        split
        · exact ⟨rest ++ [(trimSpace st.prev, st.y)], by simp [← hrest]⟩
        · exact ⟨rest, by simp [← hrest]⟩
      obtain ⟨r', hr'⟩ := hlines
      rw [hr'] at hds
      obtain ⟨c, cs', hc, _, rfl⟩ := List.forall₂_cons_left_iff.1 hds
      exact ⟨c, cs', _, by rw [hcs, hs1.contents], TextOf.congr hs1.doc hs1.fontStyle hs1.fontSize hs1.lineWidth hc⟩
    | err e => simp at hi
    | panic => simp at hi
    | hang => simp at hi

/-- the place of a text -/
def Spec.TopOf (c : Content) (y : ℚ) : Prop := ∃ t, c = .text t ∧ t.y = y

theorem topOf {env : Env} {a : App} {font : Nat} {text : Bytes} {page : Int} {x y w h : ℚ} {align : Nat} {color : Option (Int × Int × Int)} {c : Content}
    (ht : TextOf env a font text page x y w h align color c) : TopOf c y := by
  obtain ⟨ph, _, rfl⟩ := ht.content
  exact ⟨_, rfl, rfl⟩

/-- **C96**, what holds: a text that is aligned to the top and whose first token is not wider than the cell begins at the top of the cell with that token; the lines follow at 1.2 font sizes. -/
theorem C96_top_partial {env : Env} {a b : App} {text : Bytes} {page : Int} {x y w h : ℚ} {align : Nat} {color : Option (Int × Int × Int)}
    {br : Bytes → Option (List Bytes)} {tokens : List Bytes} {i : Nat} {f : Ttf} {kern : Option (Nat → Nat → Nat → Nat → Int → Int)} (hu : Using a i f kern)
    (hb : br text = some tokens) (hi : a.insertWrapText env text page x y w h align color (some br) = ⟨b, .ok ()⟩) (hal : align &&& 32 ≠ 32)
    {t : Bytes} (ht : (tokens.filter (· ≠ [])).head? = some t) (hfit : ∀ v, TextWidth f kern a.fontSize t v → v ≤ w) :
    ∃ c cs r, b.contents = a.contents ++ c :: cs ∧ TextOf env a i (trimSpace (t ++ r)) page x y w h align color c ∧ ∀ (k : Nat) c', (c :: cs)[k]? = some c' → TopOf c' (y + k * (6 / 5 * (a.fontSize : ℚ))) := by
  obtain ⟨groups, cs, g1, g2, g3, g4, g5, g6, g7⟩ := C23_call hu hb hi
  cases groups with
  | nil =>
    rw [← g1] at ht
    simp at ht
  | cons g gs =>
    cases cs with
    | nil => simp at g3
    | cons c cs =>
      have hg : ∃ r, g = t :: r := by
        cases g with
        | cons s r =>
          rw [← g1] at ht
          simp at ht
          exact ⟨r, by rw [ht]⟩
        | nil =>
          exfalso
          cases gs with
          | nil =>
            rw [← g1] at ht
            simp at ht
          | cons g' gs' =>
            cases g' with
            | nil => exact g5 [] (by simp) rfl
            | cons s r =>
              obtain ⟨v, hv, hlt⟩ := g6 0 [] s r rfl rfl
              rw [← g1] at ht
              simp at ht
              subst ht
              exact absurd (hfit v (by simpa using hv)) (not_le.2 hlt)
      obtain ⟨r, rfl⟩ := hg
      have h0 := g7 0 _ c rfl rfl
      rw [if_neg hal] at h0
      refine ⟨c, cs, r.flatten, g2, by simpa using h0, fun k c' hk => ?_⟩
      have hlt := (List.getElem?_eq_some_iff.1 hk).1
      have := topOf (g7 k _ c' (List.getElem?_eq_getElem (by rw [← g3]; exact hlt)) hk)
      rw [if_neg hal, sub_zero] at this
      exact this

/-- **C96 is violated** by the alignment to the bottom: the first line is where a single line would be, and all others are below the cell. -/
theorem C96_refuted_bottom {env : Env} {a b : App} {text : Bytes} {page : Int} {x y w h : ℚ} {align : Nat} {color : Option (Int × Int × Int)}
    {br : Bytes → Option (List Bytes)} {tokens : List Bytes} {i : Nat} {f : Ttf} {kern : Option (Nat → Nat → Nat → Nat → Int → Int)} (hu : Using a i f kern)
    (hb : br text = some tokens) (hi : a.insertWrapText env text page x y w h align color (some br) = ⟨b, .ok ()⟩) (_ : align &&& 1 = 1) (hal : align &&& 32 ≠ 32) (hs : 0 < a.fontSize) :
    ∃ cs, b.contents = a.contents ++ cs ∧ ∀ k c, 0 < k → cs[k]? = some c → ∃ y', y < y' ∧ TopOf c y' := by
  obtain ⟨groups, cs, g1, g2, g3, g4, g5, g6, g7⟩ := C23_call hu hb hi
  refine ⟨cs, g2, fun k c hk hc => ?_⟩
  have hlt := (List.getElem?_eq_some_iff.1 hc).1
  have := topOf (g7 k _ c (List.getElem?_eq_getElem (by rw [← g3]; exact hlt)) hc)
  rw [if_neg hal, sub_zero] at this
  refine ⟨_, ?_, this⟩
  have h1 : (0 : ℚ) < k := by exact_mod_cast hk
  have h2 : (0 : ℚ) < a.fontSize := by exact_mod_cast hs
  have : 0 < (k : ℚ) * (6 / 5 * (a.fontSize : ℚ)) := by positivity
  linarith

/-- **C96 is violated** by the alignment to the middle: the lines are not around the place of a single line, but a tenth of the font size higher, even if there is only one. -/
theorem C96_refuted_middle {env : Env} {a b : App} {text : Bytes} {page : Int} {x y w h : ℚ} {align : Nat} {color : Option (Int × Int × Int)}
    {br : Bytes → Option (List Bytes)} {tokens : List Bytes} {i : Nat} {f : Ttf} {kern : Option (Nat → Nat → Nat → Nat → Int → Int)} (hu : Using a i f kern)
    (hb : br text = some tokens) (hi : a.insertWrapText env text page x y w h align color (some br) = ⟨b, .ok ()⟩) (hal : align &&& 32 = 32) :
    ∃ cs, b.contents = a.contents ++ cs ∧ ∀ c d, cs.head? = some c → cs.getLast? = some d →
      ∃ y1 y2, TopOf c y1 ∧ TopOf d y2 ∧ (y1 + y2) / 2 = y - (a.fontSize : ℚ) / 10 := by
  obtain ⟨groups, cs, g1, g2, g3, g4, g5, g6, g7⟩ := C23_call hu hb hi
  refine ⟨cs, g2, fun c d hc hd => ?_⟩
  have hne : 0 < cs.length := by cases cs with
    | nil => simp at hc
    | cons => simp
  have hc0 : cs[0]? = some c := by rw [← List.head?_eq_getElem?]; exact hc
  have hd0 : cs[cs.length - 1]? = some d := by rw [← List.getLast?_eq_getElem?]; exact hd
  have h1 := topOf (g7 0 _ c (List.getElem?_eq_getElem (by omega)) hc0)
  have h2 := topOf (g7 (cs.length - 1) _ d (List.getElem?_eq_getElem (by omega)) hd0)
  refine ⟨_, _, h1, h2, ?_⟩
  rw [if_pos hal, ← g3, Nat.cast_sub (by omega)]
  push_cast
  ring

/-- The hypotheses hold: a first token that is too wide, with each alignment. -/
def wrapCase (align : Nat) (tokens : List Bytes) : Step App := inUse.insertWrapText plainEnv b!"A" 1 10 20 14 40 align none (some (fun _ => some tokens))

def textsOf (s : Step App) : List (Bytes × ℚ) := s.state.contents.filterMap (fun c => match c with | .text t => some (t.text, t.y) | _ => none)

/-- **C96 is violated** by blanks: two words that fill a line each are drawn with an empty line between them. -/
theorem C96_refuted_gap : (wrapCase 4 [b!"AA", b!" ", b!"CC"]).res = .ok () ∧ textsOf (wrapCase 4 [b!"AA", b!" ", b!"CC"]) = [(b!"AA", 20), ([], 32), (b!"CC", 44)] := by
  decide +kernel

example : (wrapCase 4 [b!"AAA", b!"A"]).res = .ok () ∧ textsOf (wrapCase 4 [b!"AAA", b!"A"]) = [([], 20), (b!"AAA", 32), (b!"A", 44)] ∧
    (wrapCase 1 [b!"AA", b!"A"]).res = .ok () ∧ textsOf (wrapCase 1 [b!"AA", b!"A"]) = [(b!"AA", 20), (b!"A", 32)] ∧
    (wrapCase 32 [b!"AA"]).res = .ok () ∧ textsOf (wrapCase 32 [b!"AA"]) = [(b!"AA", 19)] ∧ Using inUse 0 drawFont none ∧ (0 : Int) < inUse.fontSize := by
  refine ⟨by decide +kernel, by decide +kernel, by decide +kernel, by decide +kernel, by decide +kernel, by decide +kernel, ⟨_, rfl, rfl, rfl, FontOK.empty _⟩, by decide +kernel⟩

end Verif
