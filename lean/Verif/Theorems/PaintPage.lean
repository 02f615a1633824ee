import Verif.Theorems.Paint
import Verif.Theorems.SavedExample
/-!
# What a viewer paints for a saved page (C70, C71)
-/
namespace Verif
open Spec

/-- What a content asks for, given the fonts and images and their names: what is painted, and the state after it. -/
def Spec.Asked (fonts : List FontData) (imgs : List ImageData) : Content → GState → GState → List Mark → Prop
  | .text c, g, g', ms => ∃ f sum, fonts[c.font]? = some f ∧ (createContent f.state c.text c.fontSize).2 = .ok sum ∧ TextAsked f.state f.fontIndex sum c g g' ms
  | .img c, g, g', ms => ∃ i w h x y, imgs[c.img]? = some i ∧ Near w c.w ∧ Near h c.h ∧ Near x c.x ∧ Near y (c.pageHeight - (c.y + c.h)) ∧
      ms = [.external (i.xObjChar ++ itoa i.xObjIndex) { g with ctm := (Mat.mk w 0 0 h x y).mul g.ctm }] ∧ g' = g
  | .line width t, g, g', ms => ∃ w d, Near w width ∧ ms = [] ∧ g' = (g.set b!"d" b!"d" d).set b!"w" b!"w" [.num w] ∧
      d = (if t = b!"dashed" then [.open, .num 5, .close, .num 2] else if t = b!"dotted" then [.open, .num 2, .num 3, .close, .num 11] else [.open, .close, .num 0])

/-- Contents one after the other, each beginning in the state the one before it leaves. -/
inductive Spec.AllAsked (fonts : List FontData) (imgs : List ImageData) : List Content → GState → GState → List Mark → Prop
  | nil (g : GState) : AllAsked fonts imgs [] g g []
  | cons {c : Content} {cs : List Content} {g g' g'' : GState} {ms ns : List Mark} : Asked fonts imgs c g g' ms → AllAsked fonts imgs cs g' g'' ns →
      AllAsked fonts imgs (c :: cs) g g'' (ms ++ ns)

/-- The text can be drawn: the font has its characters, the override of the text rise prints numbers, and the underline is not thinner than nothing. -/
def Spec.Drawable (fonts : List FontData) (c : TextContent) : Prop := ∀ f, fonts[c.font]? = some f →
  0 < f.state.ttf.unitsPerEm ∧ (∃ sum, (createContent f.state c.text c.fontSize).2 = .ok sum) ∧ RiseNumbers f.state c.text c.fontSize ∧
    (c.fontStyle &&& 4 = 4 → 0 ≤ ((f.state.ttf.underlineThickness : ℚ) / f.state.ttf.unitsPerEm) * c.fontSize)

theorem ofOption_ok {α : Type} {o : Option α} {x : α} (h : Res.ofOption o = .ok x) : o = some x := by
  cases o with
  | none => simp [Res.ofOption] at h
  | some y => simp only [Res.ofOption, Res.ok.injEq] at h; rw [h]

theorem content_paints (adv : TextMove) {p : Painter} (hp : Idle p) {fonts : List FontData} {imgs : List ImageData} {c : Content} {s : Int × Bytes}
    (h : c.stream fonts imgs = .ok s) (ht : ∀ t, c = .text t → Drawable fonts t) (hi : ∀ i ∈ imgs, ∀ d ∈ i.xObjChar, regular d = true) :
    ∃ ms p', Paints adv p s.2 ms p' ∧ Idle p' ∧ p'.saved = p.saved ∧ Asked fonts imgs c p.g p'.g ms := by
  cases c with
  | text t =>
    simp only [Content.stream] at h
    rw [Res.bind_eq_ok] at h
    obtain ⟨f, hf, h⟩ := h
    rw [Res.bind_eq_ok] at h
    obtain ⟨st, hs, h⟩ := h
    simp only [Res.ok.injEq] at h
    subst h
    have hf := ofOption_ok hf
    obtain ⟨h0, ⟨sum, h1⟩, h2, h3⟩ := ht t rfl f hf
    obtain ⟨ms, p', q1, q2, q3, q4⟩ := C70_text adv hp h2 h0 h1 h3 hs
    exact ⟨ms, p', q1, q2, q3, f, sum, hf, h1, q4⟩
  | img t =>
    simp only [Content.stream] at h
    rw [Res.bind_eq_ok] at h
    obtain ⟨i, him, h⟩ := h
    simp only [Res.ok.injEq] at h
    subst h
    have him := ofOption_ok him
    obtain ⟨w, h, x, y, h1, h2, h3, h4, h5⟩ := C70_image adv p hp.args t i.xObjIndex (hi i (List.mem_of_getElem? him))
    exact ⟨_, p, h5, hp, rfl, i, w, h, x, y, him, h1, h2, h3, h4, rfl, rfl⟩
  | line w t =>
    simp only [Content.stream, Res.ok.injEq] at h
    subst h
    obtain ⟨w', d, h1, h2, h3⟩ := C70_style adv hp w t
    exact ⟨[], _, h2, ⟨hp.args, hp.path, hp.clipping⟩, rfl, w', d, h1, rfl, rfl, h3⟩

theorem contents_paint (adv : TextMove) {fonts : List FontData} {imgs : List ImageData} (hi : ∀ i ∈ imgs, ∀ d ∈ i.xObjChar, regular d = true) :
    ∀ {cs : List Content} {ss : List (Int × Bytes)} {p : Painter}, Idle p → List.Forall₂ (fun c s => c.stream fonts imgs = .ok s) cs ss →
      (∀ t, .text t ∈ cs → Drawable fonts t) →
      ∃ ms p', Paints adv p (ss.map (·.2)).flatten ms p' ∧ Idle p' ∧ p'.saved = p.saved ∧ AllAsked fonts imgs cs p.g p'.g ms
  | _, _, p, hp, .nil, _ => ⟨[], p, Paints.nil adv p, hp, rfl, .nil _⟩
  | _, _, p, hp, .cons (l₁ := cs) (l₂ := ss) (a := c) (b := s) h hs, ht => by
    obtain ⟨ms, p', h1, h2, h3, h4⟩ := content_paints adv hp h (fun t e => ht t (by simp [e])) hi
    obtain ⟨ns, p'', g1, g2, g3, g4⟩ := contents_paint adv hi h2 hs (fun t e => ht t (by simp [e]))
    refine ⟨ms ++ ns, p'', ?_, g2, by rw [g3, h3], .cons h4 g4⟩
    simpa using Paints.append h1 g1

/-- the contents for a page -/
def Spec.askedOn (cs : List Content) (k : Nat) : List Content := cs.filter (fun c => decide (pageOf c = (k : Int)))

theorem askedOn_streams {fonts : List FontData} {imgs : List ImageData} {k : Nat} {cs : List Content} {ss : List (Int × Bytes)}
    (h : List.Forall₂ (fun c s => c.stream fonts imgs = .ok s ∧ s.1 = pageOf c) cs ss) :
    List.Forall₂ (fun c s => c.stream fonts imgs = .ok s) (askedOn cs k) (ss.filter (fun s => decide (s.1 = (k : Int)))) := by
  unfold askedOn
  induction h with
  | nil => exact .nil
  | @cons c s cs ss h _ ih =>
    rw [List.filter_cons, List.filter_cons, h.2]
    split
    · exact .cons h.1 ih
    · exact ih

variable {env : Env} {a : App} {b : Built} {tree : Int} {ct node : Props} {pages : List FlatPage} {L : List PageC}

/-- **C70** (whole `Save`, without encryption).  In a document with a flat page tree, in which every page has a content object of its own, take a page that
something was inserted on, and suppose reading the page's own content and a line end stops between two operators.  A viewer of the saved page first paints what
the page painted before, and then all that was inserted on the page, in the order of the calls.  Each text and each image is where it was asked to be, in the
coordinates the page's own content leaves.  Missing: texts with characters the font does not have, fonts with 0 units per em, overrides of the text rise that print something
other than a number, fonts with a negative underline thickness, images whose names hold brackets; pages with several content streams, other page trees. -/
theorem C70_page_partial (hinv : NumInv a) (hp : a.protection = none) (hb : a.build env = .ok b) (h : SaveDoc env.unzip a.doc.objs a.doc.rootObjID tree ct node pages L)
    (ht : ∀ t, .text t ∈ a.contents → Drawable b.app.fonts t) (hi : ∀ i ∈ b.app.imgs, ∀ d ∈ i.xObjChar, regular d = true) {k : Nat} {x : PageC} (hx : L[k]? = some x)
    (hk : askedOn a.contents (k + 1) ≠ []) (adv : TextMove) {own : List Mark} {p : Painter} (hown : Paints adv {} (x.body ++ b!"\n") own p) (hidle : Idle p) :
    ∃ o body ms p', OnlyObj b.doc.objs x.obj o ∧ StreamObject o.data body ∧ Paints adv {} body (own ++ ms) p' ∧ Idle p' ∧ p'.saved = p.saved ∧
      AllAsked b.app.fonts b.app.imgs (askedOn a.contents (k + 1)) p.g p'.g ms := by
  obtain ⟨streams, h1, h2⟩ := C15_saved_partial hinv hp hb h
  have h3 := askedOn_streams (k := k + 1) h1
  have hne : drawnOn streams (k + 1) ≠ [] := by
    intro e
    unfold drawnOn at e
    rw [List.map_eq_nil_iff] at e
    rw [e] at h3
    exact hk (List.forall₂_nil_right_iff.1 h3)
  have h4 := (h2 k x hx).2
  rw [if_neg hne] at h4
  obtain ⟨o, ho, hs⟩ := h4
  obtain ⟨ms, p', g1, g2, g3, g4⟩ := contents_paint adv hi hidle h3 (fun t e => ht t (List.mem_of_mem_filter e))
  exact ⟨o, _, ms, p', ho, hs, Paints.append hown g1, g2, g3, g4⟩

/-- the texts can be drawn without overrides and underlines, and the names of the images are plain -/
def plainContents (fonts : List FontData) (imgs : List ImageData) (cs : List Content) : Bool :=
  cs.all (fun c => match c with
    | .text t => (match fonts[t.font]? with
      | some f => (match (createContent f.state t.text t.fontSize).2 with
        | .ok _ => f.state.textrise.isNone && decide (t.fontStyle &&& 4 ≠ 4 ∧ 0 < f.state.ttf.unitsPerEm)
        | _ => false)
      | none => true)
    | _ => true) && imgs.all (fun i => i.xObjChar.all regular)

theorem plainContents_ok {fonts : List FontData} {imgs : List ImageData} {cs : List Content} (h : plainContents fonts imgs cs = true) :
    (∀ t, .text t ∈ cs → Drawable fonts t) ∧ ∀ i ∈ imgs, ∀ d ∈ i.xObjChar, regular d = true := by
  unfold plainContents at h
  rw [Bool.and_eq_true, List.all_eq_true, List.all_eq_true] at h
  refine ⟨fun t ht f hf => ?_, fun i hi => List.all_eq_true.1 (h.2 i hi)⟩
  have := h.1 _ ht
  simp only [hf] at this
  split at this
  · rename_i s hs
    rw [Bool.and_eq_true] at this
    have h5 := of_decide_eq_true this.2
    refine ⟨h5.2, ⟨s, hs⟩, fun fn hfn => ?_, fun h4 => absurd h4 h5.1⟩
    rw [hfn] at this
    simp at this
  · simp at this

/-- `Save` succeeds and the texts are plain -/
def savedPlain (a : App) : Bool :=
  match a.build plainEnv with
  | .ok b => plainContents b.app.fonts b.app.imgs a.contents && decide (askedOn a.contents 1 ≠ []) && decide (askedOn a.contents 2 ≠ [])
  | _ => false

/-- The hypotheses of `C70_page_partial` hold for both pages of the second sample. -/
example (adv : TextMove) : ∃ b, (workOn freeSample).build plainEnv = .ok b ∧ NumInv (workOn freeSample) ∧ (workOn freeSample).protection = none ∧
    SaveDoc plainEnv.unzip (workOn freeSample).doc.objs (workOn freeSample).doc.rootObjID 2 (openEntries freeSample 1) (openEntries freeSample 2) freePages twoBodies ∧
    (∀ t, .text t ∈ (workOn freeSample).contents → Drawable b.app.fonts t) ∧ (∀ i ∈ b.app.imgs, ∀ d ∈ i.xObjChar, regular d = true) ∧
    ∀ x ∈ twoBodies, ∃ p, Paints adv {} (x.body ++ b!"\n") [] p ∧ Idle p := by
  have hs : savedPlain (workOn freeSample) = true := by decide +kernel
  obtain ⟨h1, -⟩ := freeSample_ready
  unfold savedPlain at hs
  split at hs
  · rename_i b hb
    simp only [Bool.and_eq_true] at hs
    obtain ⟨g1, g2⟩ := plainContents_ok hs.1.1
    refine ⟨b, hb, h1.inv, h1.2.2.1, ?_, g1, g2, ?_⟩
    · rw [h1.1, h1.2.1]
      exact freeSample_ok
    · intro x hx
      simp only [twoBodies, List.mem_cons, List.not_mem_nil, or_false] at hx
      rcases hx with rfl | rfl
      · exact ⟨_, ⟨[.op b!"q", .num 7, .op b!"Q"], by decide +kernel, rfl⟩, rfl, rfl, rfl⟩
      · exact ⟨_, ⟨[.op b!"q", .num 8, .op b!"Q"], by decide +kernel, rfl⟩, rfl, rfl, rfl⟩
  · simp at hs

/-! ### C71 -/

/-- a page whose content changes the coordinates and the clipping path for what follows it -/
def scaledPage : List Obj := [
  ⟨1, b!"<</Type /Catalog /Pages 2 0 R>>"⟩,
  ⟨2, b!"<</Type /Pages /Count 1 /Kids [3 0 R]>>"⟩,
  ⟨3, b!"<</Type /Page /Parent 2 0 R /MediaBox [0 0 595 842] /Resources <</ProcSet [/PDF]>> /Contents 4 0 R>>"⟩,
  ⟨4, b!"<</Length 33>>\nstream\n0.5 0 0 0.5 0 0 cm 0 0 9 9 re W n\nendstream"⟩]

def scaledBody : Bytes := b!"0.5 0 0 0.5 0 0 cm 0 0 9 9 re W n\n[] 0 d\n0.00 w\nq 1.00 0 0 1.00 0.00 841.00 cm /I1 Do Q\n"

theorem run_silent (adv adv' : TextMove) (ts : List Lexeme) (h : ∀ t ∈ ts, t ∉ [Lexeme.op b!"Tj", .op b!"TJ", .op b!"'", .op [34]]) :
    ∀ p : Painter, p.run adv ts = p.run adv' ts := by
  induction ts with
  | nil => intro p; rfl
  | cons t ts ih =>
    have ih := ih (fun t ht => h t (List.mem_cons_of_mem _ ht))
    intro p
    cases t with
    | op w =>
      have hw := h (.op w) (List.mem_cons_self ..)
      simp only [List.mem_cons, Lexeme.op.injEq, List.not_mem_nil, or_false, not_or] at hw
      have e : ∀ q : Painter, q.exec adv w p.args = q.exec adv' w p.args := by
        intro q
        unfold Painter.exec
        simp only [hw.1, hw.2.1, hw.2.2.1, hw.2.2.2, or_false, if_false]
      simp only [Painter.run, e, ih]
    | _ => simp only [Painter.run, ih]

def scaledToks : List Lexeme := [.num (1 / 2), .num 0, .num 0, .num (1 / 2), .num 0, .num 0, .op b!"cm", .num 0, .num 0, .num 9, .num 9, .op b!"re", .op b!"W", .op b!"n",
  .open, .close, .num 0, .op b!"d", .num 0, .op b!"w", .op b!"q", .num 1, .num 0, .num 0, .num 1, .num 0, .num 841, .op b!"cm", .name b!"I1", .op b!"Do", .op b!"Q"]

set_option maxRecDepth 20000 in
/-- C71 is violated: the page is 842 units high and an image of one unit was asked for in the upper left corner, but it is painted in the middle of the left
edge, half as large, and clipped to a square at the lower left corner. -/
theorem C71_refuted :
    (App.openFrom plainEnv {} (fileOf scaledPage)).res = .ok () ∧ ((openedApp (fileOf scaledPage)).insertImg plainEnv b!"x" 1 0 0 1 1).res = .ok () ∧
    (getObj (savedObjs plainEnv (withImg (fileOf scaledPage))) 4).map (·.data) = some (contentObject scaledBody) ∧ StreamObject (contentObject scaledBody) scaledBody ∧
    ∀ adv, ∃ p g, Paints adv {} scaledBody [.external b!"I1" g] p ∧ Idle p ∧ g.ctm = ⟨1 / 2, 0, 0, 1 / 2, 0, 841 / 2⟩ ∧
      g.clip = [[⟨b!"re", [(0, 0), (9 / 2, 0), (9 / 2, 9 / 2), (0, 9 / 2)]⟩]] := by
  refine ⟨?_, ?_, ?_, contentObject_stream _, ?_⟩
  · decide +kernel
  · decide +kernel
  · decide +kernel
  · intro adv
    obtain ⟨p, g, h1, h2, h3, h4⟩ : ∃ p g, Paints (fun _ _ _ => 0) {} scaledBody [.external b!"I1" g] p ∧ Idle p ∧ g.ctm = ⟨1 / 2, 0, 0, 1 / 2, 0, 841 / 2⟩ ∧
        g.clip = [[⟨b!"re", [(0, 0), (9 / 2, 0), (9 / 2, 9 / 2), (0, 9 / 2)]⟩]] :=
      ⟨_, _, ⟨scaledToks, by decide +kernel, rfl⟩, ⟨rfl, rfl, rfl⟩, by decide +kernel, by decide +kernel⟩
    refine ⟨p, g, ?_, h2, h3, h4⟩
    obtain ⟨ts, h5, h6⟩ := h1
    have h7 : lexer .ground scaledBody = (scaledToks, .ground) := by decide +kernel
    rw [h5] at h7
    simp only [Prod.mk.injEq, and_true] at h7
    subst h7
    exact ⟨scaledToks, h5, by rw [run_silent adv (fun _ _ _ => 0) _ (by decide), h6]⟩

/-! ### C72 -/

theorem But.param {ks : List Bytes} {g h : GState} (hb : g.But ks h) {k : Bytes} (hk : k ∉ ks) : h.param k = g.param k := hb.2.2 k hk

/-- texts and images leave the style of lines alone -/
theorem asked_style {fonts : List FontData} {imgs : List ImageData} {c : Content} {g g' : GState} {ms : List Mark} (h : Asked fonts imgs c g g' ms)
    (hc : ∀ w t, c ≠ .line w t) : g'.param b!"d" = g.param b!"d" ∧ g'.param b!"w" = g.param b!"w" := by
  cases c with
  | text c =>
    obtain ⟨f, sum, _, _, x, y, gs, _, _, _, hd⟩ := h
    exact ⟨But.param hd.after (by decide), But.param hd.after (by decide)⟩
  | img c =>
    obtain ⟨i, w, h, x, y, _, _, _, _, _, _, rfl⟩ := h
    exact ⟨rfl, rfl⟩
  | line w t => exact absurd rfl (hc w t)

theorem allAsked_append {fonts : List FontData} {imgs : List ImageData} {cs ds : List Content} {g g' : GState} {ms : List Mark} (h : AllAsked fonts imgs (cs ++ ds) g g' ms) :
    ∃ k ms1 ms2, ms = ms1 ++ ms2 ∧ AllAsked fonts imgs cs g k ms1 ∧ AllAsked fonts imgs ds k g' ms2 := by
  induction cs generalizing g ms with
  | nil => exact ⟨g, [], ms, rfl, .nil g, h⟩
  | cons c cs ih =>
    cases h with
    | cons h1 h2 =>
      obtain ⟨k, m1, m2, rfl, h3, h4⟩ := ih h2
      exact ⟨k, _, m2, by rw [List.append_assoc], .cons h1 h3, h4⟩

theorem allAsked_style {fonts : List FontData} {imgs : List ImageData} {cs : List Content} {g g' : GState} {ms : List Mark} (h : AllAsked fonts imgs cs g g' ms)
    (hc : ∀ w t, .line w t ∉ cs) : g'.param b!"d" = g.param b!"d" ∧ g'.param b!"w" = g.param b!"w" := by
  induction h with
  | nil g => exact ⟨rfl, rfl⟩
  | cons h1 _ ih =>
    have e1 := asked_style h1 (fun w t e => hc w t (by simp [e]))
    have e2 := ih (fun w t e => hc w t (by simp [e]))
    exact ⟨e2.1.trans e1.1, e2.2.trans e1.2⟩

/-- **C72** (page 1).  After `ShowCellBorder` every text of the page is drawn, with its border, in a state in which lines are dotted and 0.1 units wide. -/
theorem C72_first_page_partial {fonts : List FontData} {imgs : List ImageData} {pre mid post : List Content} {c : TextContent} {g g' : GState} {ms : List Mark}
    (h : AllAsked fonts imgs (pre ++ .line (1 / 10) b!"dotted" :: mid ++ .text c :: post) g g' ms) (hc : ∀ w t, .line w t ∉ mid) :
    ∃ before drawn after k k' w, ms = before ++ drawn ++ after ∧ Asked fonts imgs (.text c) k k' drawn ∧ Near w (1 / 10) ∧
      k'.param b!"d" = some (b!"d", [.open, .num 2, .num 3, .close, .num 11]) ∧ k'.param b!"w" = some (b!"w", [.num w]) := by
  obtain ⟨k, m1, m2, rfl, h1, h2⟩ := allAsked_append h
  obtain ⟨k0, m3, m4, rfl, h3, h4⟩ := allAsked_append h1
  cases h4 with
  | cons h5 h6 =>
    cases h2 with
    | cons h7 h8 =>
      obtain ⟨w, d, hw, _, rfl, hd⟩ := h5
      obtain ⟨e1, e2⟩ := allAsked_style h6 hc
      obtain ⟨f1, f2⟩ := asked_style h7 (by simp)
      refine ⟨_, _, _, k, _, w, (List.append_assoc _ _ _).symm, h7, hw, ?_, ?_⟩
      · rw [f1, e1, hd]
        rfl
      · rw [f2, e2]
        rfl

/-- The hypotheses of `C72_first_page_partial` and of `C73_rise_partial` below hold for a text after the two styles set by `Open` and `ShowCellBorder`. -/
example : ∃ g' ms, AllAsked [⟨b!"A", contentFont, 3, 0, [], [], [], [], []⟩] []
    ([.line 0 []] ++ .line (1 / 10) b!"dotted" :: [] ++ .text { contentText none with lineWidth := 1 / 10 } :: []) {} g' ms ∧ contentFont.textrise = none := by
  obtain ⟨ms, p', _, _, _, h⟩ := contents_paint (fun _ _ _ => 0) (fonts := [⟨b!"A", contentFont, 3, 0, [], [], [], [], []⟩]) (imgs := []) (by simp)
    (cs := [.line 0 [], .line (1 / 10) b!"dotted", .text { contentText none with lineWidth := 1 / 10 }])
    (ss := [(1, lineStyleStream 0 []), (1, lineStyleStream (1 / 10) b!"dotted"), (1, _)]) (p := {}) ⟨rfl, rfl, rfl⟩ (.cons rfl (.cons rfl (.cons rfl .nil)))
    (by
      intro t ht
      simp only [List.mem_cons, reduceCtorEq, Content.text.injEq, List.not_mem_nil, or_false, false_or] at ht
      subst ht
      intro f hf
      simp only [contentText, List.getElem?_cons_zero, Option.some.injEq] at hf
      subst hf
      exact ⟨by decide, ⟨500, by decide +kernel⟩, fun fn h => by simp [contentFont] at h, fun h => by simp [contentText] at h⟩)
  exact ⟨p'.g, ms, h, rfl⟩

/-- the file is opened, a font is added, borders are asked for, and a text is inserted on page 2 -/
def bordered : App :=
  (((withFont (openedApp (fileOf freeSample)) b!"A").setFont plainEnv b!"A" [] 10).state.showCellBorder true).insert plainEnv b!"A" 2 10 20 30 40 0 none |>.state

/-- what `Save` makes of it can be painted, and what is asked for on page 2 -/
def borderedCheck : Bool :=
  (match (App.openFrom plainEnv {} (fileOf freeSample)).res, bordered.build plainEnv with
  | .ok _, .ok b => plainContents b.app.fonts b.app.imgs bordered.contents
  | _, _ => false) &&
  (match askedOn bordered.contents 2 with
  | [.text c] => decide (c.x = 10 ∧ c.y = 20 ∧ c.w = 30 ∧ c.h = 40 ∧ c.pageHeight = 300 ∧ c.lineWidth = 1 / 10)
  | _ => false) &&
  decide (bordered.doc.objs = opened freeSample ∧ bordered.doc.rootObjID = 1 ∧ bordered.protection = none ∧ bordered.fontMap = [(b!"A", 0)] ∧ bordered.fonts.length = 1 ∧
    (idsOf (opened freeSample)).Nodup ∧ ∀ i ∈ idsOf (opened freeSample), 1 ≤ i)

set_option maxRecDepth 20000 in
theorem borderedCheck_ok : borderedCheck = true := by decide +kernel

/-- C72 is violated: on page 2 the border is drawn in the style of lines the page begins with. -/
theorem C72_refuted_second_page (adv : TextMove) :
    ∃ b o body ms p es g, bordered.build plainEnv = .ok b ∧ OnlyObj b.doc.objs 6 o ∧ StreamObject o.data body ∧ Paints adv {} body (ms ++ es) p ∧ Idle p ∧
      Edges g (cell 300 10 20 30 40) (1 / 20) es ∧ g.param b!"d" = none ∧ g.param b!"w" = none := by
  have h := borderedCheck_ok
  unfold borderedCheck at h
  simp only [Bool.and_eq_true, decide_eq_true_eq] at h
  obtain ⟨⟨h1, h2⟩, h3, h4, h5, h6, h7, h8, h9⟩ := h
  split at h1
  · rename_i b _ hb
    obtain ⟨g1, g2⟩ := plainContents_ok h1
    have hinv : NumInv bordered := ⟨by rw [h3]; exact h8, by rw [h3]; exact h9, ⟨by rw [h6]; simp, by rw [h6, h7]; simp⟩⟩
    have hsd : SaveDoc plainEnv.unzip bordered.doc.objs bordered.doc.rootObjID 2 (openEntries freeSample 1) (openEntries freeSample 2) freePages twoBodies := by
      rw [h3, h4]
      exact freeSample_ok
    split at h2
    · rename_i c hc
      simp only [decide_eq_true_eq] at h2
      obtain ⟨e1, e2, e3, e4, e5, e6⟩ := h2
      obtain ⟨o, body, ms, p, q1, q2, q3, q4, q5, q6⟩ := C70_page_partial hinv h5 hb hsd g1 g2 (k := 1) (x := ⟨5, 6, b!"q 8 Q"⟩) rfl (by rw [hc]; simp) adv
        (own := []) (p := {}) ⟨[.op b!"q", .num 8, .op b!"Q"], by decide +kernel, rfl⟩ ⟨rfl, rfl, rfl⟩
      rw [hc] at q6
      cases q6 with
      | cons a1 a2 =>
        cases a2
        obtain ⟨s1, s2⟩ := asked_style a1 (by simp)
        obtain ⟨f, sum, _, _, x, y, gs, _, _, _, hd⟩ := a1
        obtain ⟨k, x', y', ts, us, es, rfl, _, _, _, _, _, _, _, _, _, hes⟩ := hd.parts
        rw [e6, if_pos (by norm_num), e1, e2, e3, e4, e5] at hes
        refine ⟨b, o, body, ts ++ us, p, es, p.g, hb, q1, q2, by simpa using q3, q4, ?_, s1, s2⟩
        have : ((1 : ℚ) / 10) / 2 = 1 / 20 := by norm_num
        rw [this] at hes
        exact hes
    · simp at h2
  · simp at h1

/-! ### C73 -/

theorem riseAfter_none {f : FontState} (h : f.textrise = none) (text : Bytes) (fs : Int) (rise : Option (Bytes × List Lexeme)) :
    ∀ (left pos : Nat) (rs : List Nat), riseAfter f text fs rise left pos rs = rise
  | _, _, [] => rfl
  | left, pos, r :: rs => by
    rw [riseAfter]
    have : riseOf f text fs rise left r pos = rise := by unfold riseOf; rw [h]
    rw [this]
    exact riseAfter_none h text fs rise r (pos + 1) rs

/-- **C73** (fonts without overrides of the text rise).  Every text is drawn with the text rise the page's own content leaves, whatever was drawn before it.
Missing: fonts with an override, for which it is false (`C73_refuted_rise`). -/
theorem C73_rise_partial {fonts : List FontData} {imgs : List ImageData} {cs ds : List Content} {c : TextContent} {g g' : GState} {ms : List Mark}
    (h : AllAsked fonts imgs (cs ++ .text c :: ds) g g' ms) (hf : ∀ f ∈ fonts, f.state.textrise = none) :
    ∃ before drawn after k k', ms = before ++ drawn ++ after ∧ Asked fonts imgs (.text c) k k' drawn ∧ k.param b!"Ts" = g.param b!"Ts" := by
  obtain ⟨k, m1, m2, rfl, h1, h2⟩ := allAsked_append h
  cases h2 with
  | cons h3 h4 =>
    refine ⟨m1, _, _, k, _, (List.append_assoc _ _ _).symm, h3, ?_⟩
    clear h h3 h4
    induction h1 with
    | nil g => rfl
    | @cons c cs g g' g'' ms ns h5 _ ih =>
      rw [ih]
      cases c with
      | text t =>
        obtain ⟨f, sum, hfi, _, x, y, gs, _, _, hr, _⟩ := h5
        rw [hr, riseAfter_none (hf f (List.mem_of_getElem? hfi))]
      | img t =>
        obtain ⟨i, w, h, x, y, _, _, _, _, _, _, rfl⟩ := h5
        rfl
      | line w t =>
        obtain ⟨w', d, _, _, rfl, _⟩ := h5
        rfl

/-- a font whose characters are raised by 5 -/
def raisedFont : FontState := { contentFont with textrise := some (fun _ _ _ _ _ => fmt2 5) }

/-- C73 is violated: a text in a font without an override of the text rise is raised if the text before it is in a font with one. -/
theorem C73_refuted_rise (adv : TextMove) : ∃ s1 s2 ms1 ms2 ms3 p1 p2 p3, (contentText none).stream raisedFont 1 = .ok s1 ∧ (contentText none).stream contentFont 2 = .ok s2 ∧
    Paints adv {} (s1 ++ s2) (ms1 ++ ms2) p2 ∧ Paints adv {} s1 ms1 p1 ∧ Paints adv p1 s2 ms2 p2 ∧ Paints adv {} s2 ms3 p3 ∧
    items ms2 = b!"0001".map (Item.digit · (some (b!"Ts", [.num 5]))) ∧ items ms3 = b!"0001".map (Item.digit · none) := by
  have u : ∀ f : FontState, (contentText none).fontStyle &&& 4 = 4 → 0 ≤ ((f.ttf.underlineThickness : ℚ) / f.ttf.unitsPerEm) * (contentText none).fontSize :=
    fun f h => absurd h (by decide)
  obtain ⟨ms1, p1, a1, a2, a3, x1, y1, g1, _, a4, a5, a6⟩ := C70_text adv (p := {}) ⟨rfl, rfl, rfl⟩ (c := contentText none) (f := raisedFont) (idx := 1) (sum := 500) (s := _)
    (fun fn h l r p => ⟨5, by simp only [raisedFont, Option.some.injEq] at h; rw [← h]⟩) (by decide) (by decide +kernel) (u _) rfl
  obtain ⟨ms2, p2, b1, b2, b3, x2, y2, g2, _, b4, b5, b6⟩ := C70_text adv (p := p1) a2 (c := contentText none) (f := contentFont) (idx := 2) (sum := 500) (s := _)
    (fun fn h => by simp [contentFont] at h) (by decide) (by decide +kernel) (u _) rfl
  obtain ⟨ms3, p3, c1, c2, c3, x3, y3, g3, _, c4, c5, c6⟩ := C70_text adv (p := {}) ⟨rfl, rfl, rfl⟩ (c := contentText none) (f := contentFont) (idx := 2) (sum := 500) (s := _)
    (fun fn h => by simp [contentFont] at h) (by decide) (by decide +kernel) (u _) rfl
  have key : ∀ gs, List.Forall₂ (fun r g => charIndex contentFont.chars r = .ok g) (runes (contentText none).text) gs → ∀ rise,
      textItems contentFont (contentText none).text (contentText none).fontSize rise 0 0 0 ((runes (contentText none).text).zip gs) = b!"0001".map (Item.digit · rise) := by
    intro gs hg rise
    have hr : runes (contentText none).text = [65] := by decide
    rw [hr] at hg ⊢
    cases hg with
    | cons e1 e2 =>
      cases e2
      have : charIndex contentFont.chars 65 = .ok 1 := by decide
      rw [this] at e1
      simp only [Res.ok.injEq] at e1
      subst e1
      rfl
  have h5 : p1.g.param b!"Ts" = some (b!"Ts", [.num 5]) := by
    rw [a5]
    have : readNum (fmt2 5) = some 5 := by decide +kernel
    have hr : runes (contentText none).text = [65] := by decide
    rw [hr]
    simp only [riseAfter, riseOf, raisedFont, this, Option.map_some]
  refine ⟨_, _, ms1, ms2, ms3, p1, p2, p3, rfl, rfl, Paints.append a1 b1, a1, b1, c1, ?_, ?_⟩
  · obtain ⟨h, x', y', ts, us, es, rfl, _, _, _, _, _, _, e, _, hu, he⟩ := b6.parts
    rw [if_neg (by decide)] at hu he
    subst hu he
    rw [List.append_nil, List.append_nil, e, key _ b4, h5]
  · obtain ⟨h, x', y', ts, us, es, rfl, _, _, _, _, _, _, e, _, hu, he⟩ := c6.parts
    rw [if_neg (by decide)] at hu he
    subst hu he
    rw [List.append_nil, List.append_nil, e, key _ c4]

end Verif
