import Verif.Theorems.Text
import Verif.Theorems.Font
import Verif.Theorems.Contents
/-
C25 with kerning, and C23 for the calls of a program.
-/
namespace Verif
open Spec

/-! ### widths with kerning -/

/-- The advance of characters drawn in a font after the character `prev` (with its glyph), in 1/1000 of the font size: the widths of the glyphs, and between two
characters what the kerning override, if there is one, makes of the value of the font's kerning table. -/
def Spec.Advances (t : Ttf) (kern : Option (Nat → Nat → Nat → Nat → Int → Int)) : Option (Nat × Nat) → List Nat → Int → Prop
  | _, [], s => s = 0
  | prev, r :: rs, s => ∃ (g w : Nat) (k s' : Int), charToGlyph t r = .ok g ∧ glyphWidth t g = .ok w ∧
      (match prev, kern with
        | some (l, lg), some fn => convertUnit (fn l r lg g ((t.kern.lookup (lg, g)).getD 0)) t.unitsPerEm = .ok k
        | _, _ => k = 0) ∧
      Advances t kern (some (r, g)) rs s' ∧ s = w + k + s'

/-- the width of a text drawn in a font of this size -/
def Spec.TextWidth (t : Ttf) (kern : Option (Nat → Nat → Nat → Nat → Int → Int)) (fs : Int) (text : Bytes) (x : ℚ) : Prop :=
  ∃ s, Advances t kern none (runes text) s ∧ x = (s : ℚ) * fs / 1000

theorem advances_glyph {t : Ttf} {kern : Option (Nat → Nat → Nat → Nat → Int → Int)} : ∀ {rs : List Nat} {prev : Option (Nat × Nat)} {s : Int},
    Advances t kern prev rs s → ∀ r ∈ rs, ∃ g, charToGlyph t r = .ok g
  | [], _, _, _ => by simp
  | r :: rs, prev, s, h => by
    obtain ⟨g, w, k, s', h1, _, _, h4, _⟩ := h
    intro x hx
    rw [List.mem_cons] at hx
    rcases hx with rfl | hx
    · exact ⟨g, h1⟩
    · exact advances_glyph h4 x hx

/-- the character before, as the loop knows it -/
def CCState.prev (st : CCState) : Option (Nat × Nat) := if st.pos > 0 then some (st.left, st.leftIdx) else none

theorem charIndex_iff {t : Ttf} {m : CharMap} (h : FontOK t m) {r g : Nat} : charIndex m r = .ok g ↔ r ∈ m.keys ∧ charToGlyph t r = .ok g := by
  unfold charIndex Res.orErr
  constructor
  · intro hg
    cases hv : m.val r with
    | none => rw [hv] at hg; simp at hg
    | some g' =>
      rw [hv] at hg
      simp only [Res.ok.injEq] at hg
      subst hg
      exact ⟨(List.of_mem_zip ((val_iff h).1 hv)).1, val_glyph h hv⟩
  · rintro ⟨hk, hg⟩
    obtain ⟨v, hv⟩ := val_of_mem h hk
    rw [val_glyph h hv] at hg
    rw [hv]
    exact hg

theorem ccLoop_advances {f : FontState} (h : FontOK f.ttf f.chars) (text : Bytes) (fs : Int) : ∀ (rs : List Nat) (st : CCState) (s : Int),
    (∃ st', ccLoop f text fs st rs = (st', .ok ()) ∧ st'.sum = st.sum + s) ↔ (∀ r ∈ rs, r ∈ f.chars.keys) ∧ Advances f.ttf f.kernOverride st.prev rs s
  | [], st, s => by
    simp only [ccLoop, Prod.mk.injEq, and_true, exists_eq_left', List.not_mem_nil, false_implies, implies_true, true_and, Advances]
    omega
  | r :: rs, st, s => by
    have hkr : ∀ (g : Nat) (k : Int), (if st.pos > 0 ∧ f.kernOverride.isSome then convertUnit (kernPair f st.left r st.leftIdx g) f.ttf.unitsPerEm else .ok 0) = Res.ok k ↔
        (match st.prev, f.kernOverride with
          | some (l, lg), some fn => convertUnit (fn l r lg g ((f.ttf.kern.lookup (lg, g)).getD 0)) f.ttf.unitsPerEm = .ok k
          | _, _ => k = 0) := by
      intro g k
      unfold CCState.prev kernPair
      by_cases hp : st.pos > 0
      · cases hk : f.kernOverride with
        | none => simp [hp, eq_comm]
        | some fn => simp [hp]
      · rw [if_neg (fun h => hp h.1), if_neg hp]
        simp only [Res.ok.injEq]
        exact eq_comm
    have hnext : ∀ (o : Bytes) (n : Int) (g : Nat), CCState.prev { out := o, sum := n, left := r, leftIdx := g, pos := st.pos + 1 } = some (r, g) := by
      intro o n g
      unfold CCState.prev
      simp
    constructor
    · rintro ⟨st', hc, hs⟩
      rw [ccLoop] at hc
      split at hc
      · rename_i g hg
        simp only at hc
        split at hc
        · rename_i pv hpv
          split at hc
          · rename_i w hw
            have ih := (ccLoop_advances h text fs rs _ (st'.sum - (st.sum + (w + pv)))).1 ⟨st', hc, by simp⟩
            rw [hnext] at ih
            obtain ⟨hm, hgl⟩ := (charIndex_iff h).1 hg
            refine ⟨by
              intro x hx
              rw [List.mem_cons] at hx
              rcases hx with rfl | hx
              · exact hm
              · exact ih.1 x hx, g, w, pv, _, hgl, ?_, (hkr g pv).1 hpv, ih.2, by rw [hs]; ring⟩
            obtain ⟨_, hw⟩ := (charWidth_iff h).1 hw
            unfold runeWidth at hw
            rw [hgl] at hw
            exact hw
          all_goals simp at hc
        all_goals simp at hc
      all_goals simp at hc
    · rintro ⟨hm, g, w, k, s', hgl, hw, hk, hrest, rfl⟩
      rw [ccLoop, (charIndex_iff h).2 ⟨hm r (by simp), hgl⟩]
      simp only [(hkr g k).2 hk]
      have hcw : charWidth f.ttf f.chars r = .ok w := (charWidth_iff h).2 ⟨hm r (by simp), by unfold runeWidth; rw [hgl]; exact hw⟩
      simp only [hcw]
      generalize hst : ({ out := _, sum := st.sum + (w + k), left := r, leftIdx := g, pos := st.pos + 1 } : CCState) = st1
      have h1 : st1.prev = some (r, g) := by rw [← hst]; exact hnext _ _ _
      obtain ⟨st', h2, h3⟩ := (ccLoop_advances h text fs rs st1 s').2 ⟨fun x hx => hm x (by simp [hx]), by rw [h1]; exact hrest⟩
      refine ⟨st', h2, ?_⟩
      rw [h3, ← hst]
      ring

theorem createContent_advances {f : FontState} (h : FontOK f.ttf f.chars) {text : Bytes} {fs s : Int} :
    (createContent f text fs).2 = .ok s ↔ (∀ r ∈ runes text, r ∈ f.chars.keys) ∧ Advances f.ttf f.kernOverride none (runes text) s := by
  have h1 := ccLoop_advances h text fs (runes text) { out := b!"[<" } s
  have h0 : CCState.prev { out := b!"[<" } = none := rfl
  rw [h0] at h1
  rw [← h1]
  unfold createContent
  constructor
  · intro hs
    split at hs
    · rename_i st u heq
      simp only [Res.ok.injEq] at hs
      exact ⟨st, heq, by simp [hs]⟩
    all_goals simp at hs
  · rintro ⟨st', heq, hs⟩
    rw [heq]
    simp only [Res.ok.injEq]
    simpa using hs

/-- **C25**, with any kerning: measuring gives a value exactly when every character has a width, and the value is the sum of the widths of the glyphs and of the
kerning between them, scaled by the font size — whatever was measured or inserted before. -/
theorem C25_kerned {f : FontState} (h : FontOK f.ttf f.chars) (text : Bytes) (fs : Int) (x : ℚ) :
    (measureText f text fs).2 = .ok x ↔ TextWidth f.ttf f.kernOverride fs text x := by
  have hok : FontOK f.ttf (addChars f.ttf f.chars text).1 := addRunes_ok _ h
  constructor
  · intro hx
    unfold measureText at hx
    have hm : measureWith { f with chars := (addChars f.ttf f.chars text).1 } text fs = .ok x := by
      split at hx
      · simp at hx
      · simp at hx
      · exact hx
    unfold measureWith at hm
    rw [Res.bind_eq_ok] at hm
    obtain ⟨s, hs, hm⟩ := hm
    obtain ⟨_, ha⟩ := (createContent_advances (f := { f with chars := (addChars f.ttf f.chars text).1 }) hok).1 hs
    refine ⟨s, ha, ?_⟩
    simp only [Res.ok.injEq] at hm
    rw [← hm, textWidth]
    ring
  · rintro ⟨s, ha, rfl⟩
    obtain ⟨h1, hall⟩ := addRunes_all (t := f.ttf) (runes text) (m := f.chars) (advances_glyph ha)
    unfold measureText
    have ha' : (addChars f.ttf f.chars text).2 = .ok () := h1
    rw [ha']
    simp only
    unfold measureWith
    rw [(createContent_advances (f := { f with chars := (addChars f.ttf f.chars text).1 }) hok).2 ⟨hall, ha⟩]
    simp only [Res.ok_bind, textWidth, Res.ok.injEq]
    ring

theorem measureText_state (f : FontState) (text : Bytes) (fs : Int) :
    (measureText f text fs).1 = { f with chars := (addChars f.ttf f.chars text).1 } := by
  unfold measureText
  simp only
  split <;> rfl

/-! ### the font in use -/

/-- the font in use has this program and kerning, and its characters are as they should be -/
def Spec.Using (a : App) (i : Nat) (t : Ttf) (kern : Option (Nat → Nat → Nat → Nat → Int → Int)) : Prop :=
  ∃ f, a.font? a.fontName = some (i, f) ∧ f.state.ttf = t ∧ f.state.kernOverride = kern ∧ FontOK t f.state.chars

theorem font?_set {a : App} {n : Bytes} {i : Nat} {f : FontData} (h : a.font? n = some (i, f)) (s : FontState) :
    (a.setFontState i s).font? n = some (i, { f with state := s }) := by
  unfold App.font? at h ⊢
  unfold App.setFontState
  cases hl : a.fontMap.lookup n with
  | none => rw [hl] at h; simp at h
  | some j =>
    rw [hl] at h
    simp only [Option.map_eq_some_iff, Prod.mk.injEq] at h
    obtain ⟨g, hg, rfl, rfl⟩ := h
    simp [List.getElem?_modify, hg]

/-- everything but the fonts is as before -/
structure SameButFonts (a b : App) : Prop where
  doc : b.doc = a.doc
  contents : b.contents = a.contents
  fontMap : b.fontMap = a.fontMap
  fontName : b.fontName = a.fontName
  fontStyle : b.fontStyle = a.fontStyle
  fontSize : b.fontSize = a.fontSize
  lineWidth : b.lineWidth = a.lineWidth

/-- C25 for a program: the width given is the width of the text in the font in use. -/
theorem C25_call {env : Env} {a b : App} {text : Bytes} {x : ℚ} {i : Nat} {t : Ttf} {kern : Option (Nat → Nat → Nat → Nat → Int → Int)} (hu : Using a i t kern)
    (h : a.measureTextWidth env text = (b, .ok x)) : TextWidth t kern a.fontSize text x ∧ Using b i t kern ∧ SameButFonts a b := by
  obtain ⟨f, hf, rfl, rfl, hok⟩ := hu
  unfold App.measureTextWidth at h
  rw [hf] at h
  simp only at h
  have hst := measureText_state f.state text a.fontSize
  have hw := C25_kerned hok text a.fontSize
  have hok2 : FontOK f.state.ttf (addChars f.state.ttf f.state.chars text).1 := addRunes_ok _ hok
  generalize measureText f.state text a.fontSize = r at h hst hw
  obtain ⟨s, r⟩ := r
  simp only at h hst hw
  subst hst
  cases r with
  | panic => simp at h
  | hang => simp at h
  | err e =>
    simp only at h
    split at h <;> simp at h
  | ok v =>
    simp only at h
    split at h
    · simp only [Prod.mk.injEq, Res.ok.injEq] at h
      obtain ⟨rfl, rfl⟩ := h
      refine ⟨(hw _).1 rfl, ⟨_, font?_set hf _, rfl, rfl, hok2⟩, rfl, rfl, rfl, rfl, rfl, rfl, rfl⟩
    · simp at h

theorem SameButFonts.trans {a b c : App} (h : SameButFonts a b) (h' : SameButFonts b c) : SameButFonts a c :=
  ⟨h'.doc.trans h.doc, h'.contents.trans h.contents, h'.fontMap.trans h.fontMap, h'.fontName.trans h.fontName, h'.fontStyle.trans h.fontStyle,
    h'.fontSize.trans h.fontSize, h'.lineWidth.trans h.lineWidth⟩

theorem SameButFonts.refl (a : App) : SameButFonts a a := ⟨rfl, rfl, rfl, rfl, rfl, rfl, rfl⟩

/-- the loop with the effects of measuring is the loop without them -/
theorem wrapLoop_pure {env : Env} {w step : ℚ} {i : Nat} {t : Ttf} {kern : Option (Nat → Nat → Nat → Nat → Int → Int)} {measure : Bytes → Res ℚ} :
    ∀ {tokens : List Bytes} {a b : App} {st st' : WrapState}, (∀ s x, measure s = .ok x ↔ TextWidth t kern a.fontSize s x) → Using a i t kern →
      App.wrapLoop env w step a st tokens = (b, .ok st') → wrapLoop measure w step st tokens = .ok st' ∧ Using b i t kern ∧ SameButFonts a b
  | [], a, b, st, st', _, hu, h => by
    simp only [App.wrapLoop, Prod.mk.injEq, Res.ok.injEq] at h
    obtain ⟨rfl, rfl⟩ := h
    exact ⟨rfl, hu, SameButFonts.refl _⟩
  | tok :: ts, a, b, st, st', hm, hu, h => by
    rw [App.wrapLoop] at h
    split at h
    · rename_i ht
      obtain ⟨h1, h2⟩ := wrapLoop_pure hm hu h
      refine ⟨?_, h2⟩
      rw [wrapLoop, wrapStep, if_pos ht]
      exact h1
    · rename_i ht
      cases hr : a.measureTextWidth env (st.curr ++ tok) with
      | mk a1 r =>
        rw [hr] at h
        cases r with
        | ok width =>
          simp only at h
          obtain ⟨hw, hu1, hs1⟩ := C25_call hu hr
          have hm1 : ∀ s x, measure s = .ok x ↔ TextWidth t kern a1.fontSize s x := by rw [hs1.fontSize]; exact hm
          rw [wrapLoop, wrapStep, if_neg ht]
          simp only [(hm _ _).2 hw, Res.ok_bind]
          split at h
          · rename_i hgt
            obtain ⟨h1, h2, h3⟩ := wrapLoop_pure hm1 hu1 h
            rw [if_pos hgt]
            exact ⟨h1, h2, hs1.trans h3⟩
          · rename_i hgt
            obtain ⟨h1, h2, h3⟩ := wrapLoop_pure hm1 hu1 h
            rw [if_neg hgt]
            exact ⟨h1, h2, hs1.trans h3⟩
        | err e => simp at h
        | panic => simp at h
        | hang => simp at h

/-- a text asked for by a call: the text and where it is, and the settings made before -/
structure Spec.TextOf (env : Env) (a : App) (font : Nat) (text : Bytes) (page : Int) (x y w h : ℚ) (align : Nat) (color : Option (Int × Int × Int)) (c : Content) : Prop where
  content : ∃ ph, pageHeight env a.doc page = .ok ph ∧ c = .text
    { text := text, color := color, font := font, fontStyle := a.fontStyle, fontSize := a.fontSize, page := page, x := x, y := y, w := w, h := h, align := align,
      lineWidth := a.lineWidth, pageHeight := ph }

/-- C15 for a text: the content has the values of the call and of the settings, and is drawn after the others. -/
theorem C15_insert_all {env : Env} {a b : App} {text : Bytes} {page : Int} {x y w h : ℚ} {align : Nat} {color : Option (Int × Int × Int)} {i : Nat} {t : Ttf}
    {kern : Option (Nat → Nat → Nat → Nat → Int → Int)} (hu : Using a i t kern) (hi : a.insert env text page x y w h align color = ⟨b, .ok ()⟩) :
    (∃ c, b.contents = a.contents ++ [c] ∧ TextOf env a i text page x y w h align color c) ∧ Using b i t kern ∧ SameButFonts { a with contents := b.contents } b := by
  obtain ⟨f, hf, rfl, rfl, hok⟩ := hu
  unfold App.insert at hi
  split at hi
  · rename_i ph hph
    rw [hf] at hi
    simp only [Step.mk.injEq] at hi
    obtain ⟨rfl, hr⟩ := hi
    refine ⟨⟨_, rfl, ⟨ph, hph, rfl⟩⟩, ?_, rfl, rfl, rfl, rfl, rfl, rfl, rfl⟩
    exact ⟨_, font?_set (a := { a with contents := _ }) hf _, rfl, rfl, addRunes_ok _ hok⟩
  all_goals simp at hi

theorem TextOf.congr {env : Env} {a b : App} {font : Nat} {text : Bytes} {page : Int} {x y w h : ℚ} {align : Nat} {color : Option (Int × Int × Int)} {c : Content}
    (h1 : b.doc = a.doc) (h2 : b.fontStyle = a.fontStyle) (h3 : b.fontSize = a.fontSize) (h4 : b.lineWidth = a.lineWidth)
    (hc : TextOf env b font text page x y w h align color c) : TextOf env a font text page x y w h align color c := by
  obtain ⟨ph, hp, rfl⟩ := hc.content
  exact ⟨ph, by rw [← h1]; exact hp, by rw [h2, h3, h4]⟩

theorem insertAll_texts {env : Env} {page : Int} {x w h : ℚ} {align : Nat} {color : Option (Int × Int × Int)} {yo : ℚ} {i : Nat} {t : Ttf}
    {kern : Option (Nat → Nat → Nat → Nat → Int → Int)} : ∀ {ls : List (Bytes × ℚ)} {a b : App}, Using a i t kern →
      App.insertAll env page x w h align color yo a ls = ⟨b, .ok ()⟩ →
      (∃ cs, b.contents = a.contents ++ cs ∧ List.Forall₂ (fun l c => TextOf env a i l.1 page x (l.2 - yo) w h align color c) ls cs) ∧ Using b i t kern ∧
        SameButFonts { a with contents := b.contents } b
  | [], a, b, hu, h => by
    simp only [App.insertAll, Step.mk.injEq, and_true] at h
    subst h
    exact ⟨⟨[], by simp, .nil⟩, hu, rfl, rfl, rfl, rfl, rfl, rfl, rfl⟩
  | l :: ls, a, b, hu, h => by
    rw [App.insertAll] at h
    cases hr : a.insert env l.1 page x (l.2 - yo) w _ align color with
    | mk a1 r =>
      rw [hr] at h
      cases r with
      | ok u =>
        obtain ⟨⟨c, hc, hd⟩, hu1, hs1⟩ := C15_insert_all hu hr
        obtain ⟨⟨cs, hcs, hds⟩, hu2, hs2⟩ := insertAll_texts hu1 h
        refine ⟨⟨c :: cs, by rw [hcs, hc]; simp, .cons hd ?_⟩, hu2, ?_⟩
        · exact hds.imp (fun l c hl => TextOf.congr (a := a) hs1.doc hs1.fontStyle hs1.fontSize hs1.lineWidth hl)
        · exact ⟨hs2.doc.trans hs1.doc, rfl, hs2.fontMap.trans hs1.fontMap, hs2.fontName.trans hs1.fontName, hs2.fontStyle.trans hs1.fontStyle,
            hs2.fontSize.trans hs1.fontSize, hs2.lineWidth.trans hs1.lineWidth⟩
      | err e => simp at h
      | panic => simp at h
      | hang => simp at h

/-! ### C23 for a call -/

/-- **C23** for a program: when `InsertWrapText` with a breaker that gives `tokens` succeeds, it adds texts to the contents, one for each of consecutive groups
of the tokens: the text of a group is its concatenation (trimmed), in the font, size, style and colour in use and with the box of the call; every group of two or more tokens
is at most as wide as the box; a group is followed by another only if it would be wider than the box with the next token; text i is i times 1.2 font sizes
below the first one, which is at the given height, or higher by half of the total height less half a font size when centred. -/
theorem C23_call {env : Env} {a b : App} {text : Bytes} {page : Int} {x y w h : ℚ} {align : Nat} {color : Option (Int × Int × Int)}
    {br : Bytes → Option (List Bytes)} {tokens : List Bytes} {i : Nat} {t : Ttf} {kern : Option (Nat → Nat → Nat → Nat → Int → Int)} (hu : Using a i t kern)
    (hb : br text = some tokens) (hi : a.insertWrapText env text page x y w h align color (some br) = ⟨b, .ok ()⟩) :
    ∃ (groups : List (List Bytes)) (cs : List Content), groups.flatten = tokens.filter (· ≠ []) ∧ b.contents = a.contents ++ cs ∧ cs.length = groups.length ∧
      (∀ g ∈ groups, 2 ≤ g.length → ∃ v, TextWidth t kern a.fontSize g.flatten v ∧ v ≤ w) ∧ (∀ g ∈ groups.tail, g ≠ []) ∧
      (∀ (k : Nat) g s r, groups[k]? = some g → groups[k + 1]? = some (s :: r) → ∃ v, TextWidth t kern a.fontSize (g.flatten ++ s) v ∧ w < v) ∧
      ∀ (k : Nat) g c, groups[k]? = some g → cs[k]? = some c → TextOf env a i (trimSpace g.flatten) page x
        (y - (if align &&& 32 = 32 then ((groups.length : ℚ) * (6 / 5 * (a.fontSize : ℚ))) / 2 - (a.fontSize : ℚ) / 2 else 0) + k * (6 / 5 * (a.fontSize : ℚ))) w h align color c := by
  obtain ⟨f, hf, ht, hk, hok⟩ := id hu
  let measure : Bytes → Res ℚ := fun s => (measureText f.state s a.fontSize).2
  have hm : ∀ s x, measure s = .ok x ↔ TextWidth t kern a.fontSize s x := by
    intro s x
    show (measureText f.state s a.fontSize).2 = .ok x ↔ _
    rw [C25_kerned (by rw [ht]; exact hok), ht, hk]
  unfold App.insertWrapText at hi
  simp only [hb] at hi
  cases hl : App.wrapLoop env w (a.fontSize + a.fontSize * (2 / 10)) a { lines := [], y := y, prev := [], curr := [] } tokens with
  | mk a1 r =>
    rw [hl] at hi
    cases r with
    | ok st =>
      simp only at hi
      obtain ⟨hp, hu1, hs1⟩ := wrapLoop_pure hm hu hl
      obtain ⟨⟨cs, hcs, hds⟩, _, _⟩ := insertAll_texts hu1 hi
      rw [hs1.fontSize] at hds
      obtain ⟨st2, hst2⟩ : ∃ s : WrapState, s = (if st.curr ≠ [] then { st with lines := st.lines ++ [(trimSpace st.prev, st.y)], y := st.y + (a.fontSize + a.fontSize * (2 / 10)) } else st) :=
        ⟨_, rfl⟩
      rw [← hst2] at hds
      obtain ⟨yo, hyo⟩ : ∃ q : ℚ, q = if align &&& 32 = 32 then (st2.y - y) / 2 - (a.fontSize : ℚ) / 2 else 0 := ⟨_, rfl⟩
      rw [← hyo] at hds
      have hcalls : wrapCalls measure w y a.fontSize (align &&& 32 = 32) tokens = .ok (st2.lines.map (fun l => (l.1, l.2 - yo))) := by
        unfold wrapCalls
        simp only [hp, Res.ok_bind, decide_eq_true_eq]
        rw [← hst2, ← hyo]
      obtain ⟨groups, g1, g2, g3, g4, g5, g6⟩ := C23_wrap measure w y a.fontSize _ tokens _ hcalls
      refine ⟨groups, cs, g1, by rw [hcs, hs1.contents], ?_, ?_, g4, ?_, ?_⟩
      · have e1 := hds.length_eq
        have e2 := congrArg List.length g2
        simp only [List.length_map] at e2
        omega
      · intro g hg h2
        obtain ⟨v, hv, hle⟩ := g3 g hg h2
        exact ⟨v, (hm _ _).1 hv, hle⟩
      · intro k g s r hg hn
        obtain ⟨v, hv, hle⟩ := g5 k g s r hg hn
        exact ⟨v, (hm _ _).1 hv, hle⟩
      · intro k g c hg hc
        have hgl := congrArg List.length g2
        simp only [List.length_map] at hgl
        have g2k := congrArg (·[k]?) g2
        simp only [List.getElem?_map, hg, Option.map_some, Option.map_map, Function.comp_def] at g2k
        obtain ⟨l, hl1, hl2⟩ := Option.map_eq_some_iff.1 g2k
        have hd := List.forall₂_iff_get.1 hds
        have hkc := (List.getElem?_eq_some_iff.1 hc).1
        have hkl := (List.getElem?_eq_some_iff.1 hl1).1
        have hd := hd.2 k hkl hkc
        simp only [List.get_eq_getElem, (List.getElem?_eq_some_iff.1 hc).2, (List.getElem?_eq_some_iff.1 hl1).2] at hd
        have hy := g6 k (l.1, l.2 - yo) (by simp only [List.getElem?_map, hl1, Option.map_some])
        simp only [List.length_map, decide_eq_true_eq, hgl] at hy
        rw [hl2] at hd
        have hd := TextOf.congr hs1.doc hs1.fontStyle hs1.fontSize hs1.lineWidth hd
        rw [← hy]
        exact hd
    | err e => simp at hi
    | panic => simp at hi
    | hang => simp at hi

end Verif
