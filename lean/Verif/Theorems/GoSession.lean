import Verif.Theorems.GoDraw
/-!
# Sessions of calls of GoPdf (C86)
-/
namespace Verif
open Spec

/-! ### a session -/

theorem put_sizes (g : Gp) (f : List GCache → List GCache) : (g.put f).pageSize = g.pageSize ∧ (g.put f).curSize = g.curSize ∧ (g.put f).protection = g.protection := by
  unfold Gp.put Gp.getContent
  cases g.contentIdx <;> simp [Gp.addObj]

theorem draws_drawing {env : GEnv} {H : ℚ} {c : GCall} (h : drawing c = true) : ∃ k, c.draws env H = some k := by
  cases c <;> first | exact ⟨_, rfl⟩ | simp [drawing] at h

theorem addFont_sizes (g : Gp) (family file : Bytes) (kerning : Bool) (style : Nat) :
    (g.addFont family file kerning style).state.pageSize = g.pageSize ∧ (g.addFont family file kerning style).state.curSize = g.curSize ∧
      (g.addFont family file kerning style).state.protection = g.protection := by
  unfold Gp.addFont
  split
  · dsimp only [Gp.addObj]
    refine ⟨?_, ?_, ?_⟩ <;> split <;> rfl
  all_goals exact ⟨rfl, rfl, rfl⟩

theorem quiet_sizes {env : GEnv} (g : Gp) {c : GCall} (hc : c.quiet = true) : (g.call env c).state.pageSize = g.pageSize ∧ (g.call env c).state.curSize = g.curSize ∧
    (g.call env c).state.protection = g.protection := by
  cases c with
  | addFont a b c d => exact addFont_sizes g a b c d
  | setFont a b c => obtain ⟨x, y, z, w, e⟩ := setFont_fields g a b c; simp [Gp.call, e]
  | kernOverride a b => obtain ⟨x, e⟩ := kernOverride_fields g a b; simp [Gp.call, e]
  | setCompressLevel l => simp only [Gp.call, Gp.setCompressLevel]; split <;> [exact ⟨rfl, rfl, rfl⟩; split <;> exact ⟨rfl, rfl, rfl⟩]
  | setNoCompression => exact ⟨rfl, rfl, rfl⟩
  | br _ => exact ⟨rfl, rfl, rfl⟩
  | setLeftMargin _ => exact ⟨rfl, rfl, rfl⟩
  | setTopMargin _ => exact ⟨rfl, rfl, rfl⟩
  | setX _ => exact ⟨rfl, rfl, rfl⟩
  | setY _ => exact ⟨rfl, rfl, rfl⟩
  | setTextColor _ _ _ => exact ⟨rfl, rfl, rfl⟩
  | setInfo _ => exact ⟨rfl, rfl, rfl⟩
  | _ => simp [GCall.quiet] at hc

theorem drawing_sizes {env : GEnv} (g : Gp) {c : GCall} (hc : drawing c = true) : (g.call env c).state.pageSize = g.pageSize ∧ (g.call env c).state.curSize = g.curSize ∧
    (g.call env c).state.protection = g.protection := by
  cases c with
  | setLineWidth w => exact put_sizes { g with lineWidth := w } _
  | setGrayFill v => exact put_sizes { g with grayFill := v } _
  | _ => first | exact put_sizes g _ | simp [drawing] at hc

theorem plain_cases {c : GCall} (h : plainCall c = true) : (∃ z, c = .addPage z) ∨ c.quiet = true ∨ drawing c = true := by
  cases c <;> simp_all [plainCall, GCall.quiet, drawing]

theorem sheetStep_quiet {l : List (Option GRect × List GCall)} {c : GCall} (h : c.quiet = true) : sheetStep l c = l := by
  cases c <;> simp_all [GCall.quiet, sheetStep, drawing]

theorem sheetStep_drawing {l : List (Option GRect × List GCall)} {c : GCall} (h : drawing c = true) : sheetStep l c = onLast (fun p => (p.1, p.2 ++ [c])) l := by
  rcases List.eq_nil_or_concat l with rfl | ⟨m, a, rfl⟩
  · cases c <;> simp_all [sheetStep, drawing, onLast]
  · rw [List.concat_eq_append, onLast_append]
    cases c <;> simp_all [sheetStep, drawing]

/-- what has been drawn up to now -/
structure Kept (env : GEnv) (z : GRect) (prot : Option Protection) (g : Gp) (l : List (Option GRect × List GCall)) : Prop where
  whole : g.Whole
  size : g.pageSize = z
  prot : g.protection = prot
  pages : List.Forall₂ (fun p s => p.1 = s.1 ∧ List.Forall₂ (fun c k => c.draws env (s.1.getD z).h = some k) s.2 p.2) (sheetsOf g.kinds) l
  cur : ∀ s, l.getLast? = some s → g.curSize = s.1.getD z

theorem Kept.step {env : GEnv} {z : GRect} {prot : Option Protection} {g : Gp} {l : List (Option GRect × List GCall)} (h : Kept env z prot g l) {c : GCall} (hc : plainCall c = true) :
    Kept env z prot (g.call env c).state (sheetStep l c) := by
  have hw := call_whole (env := env) h.whole c
  rcases plain_cases hc with ⟨w, rfl⟩ | hq | hd
  · have hs := (addPage_whole h.whole w).2
    refine ⟨hw, h.size, h.prot, ?_, ?_⟩
    · show List.Forall₂ _ (sheetsOf (g.addPage w).kinds) _
      rw [hs]
      refine forall2_append h.pages (.cons ⟨?_, .nil⟩ .nil)
      simp only [pageOpt, and_comm]
    · intro s hs
      simp only [sheetStep, List.getLast?_append, List.getLast?_singleton, Option.some_or, Option.some.injEq] at hs
      subst hs
      show (if w.h = 0 ∧ w.w = 0 then none else some w).getD g.pageSize = _
      rw [h.size]
      simp only [and_comm]
  · obtain ⟨s1, s2, s3⟩ := quiet_sizes (env := env) g hq
    rw [sheetStep_quiet hq]
    exact ⟨hw, s1.trans h.size, s3.trans h.prot, by rw [quiet_sheets h.whole hq]; exact h.pages, fun s hs => s2.trans (h.cur s hs)⟩
  · obtain ⟨s1, s2, s3⟩ := drawing_sizes (env := env) g hd
    obtain ⟨k, hk⟩ := draws_drawing (env := env) (H := g.curSize.h) hd
    have hs := draws_sheets h.whole hk
    rw [sheetStep_drawing hd]
    refine ⟨hw, s1.trans h.size, s3.trans h.prot, ?_, ?_⟩
    · rw [hs]
      rcases List.eq_nil_or_concat l with rfl | ⟨m, a, rfl⟩
      · have := h.pages
        rw [List.forall₂_nil_right_iff] at this
        rw [this]
        exact .nil
      · have hp := h.pages
        have hc := h.cur a (by simp)
        rw [List.concat_eq_append] at hp ⊢
        obtain ⟨m', a', hm, ha, e⟩ : ∃ m' a', List.Forall₂ _ m' m ∧ _ ∧ sheetsOf g.kinds = m' ++ [a'] := by
          rcases List.eq_nil_or_concat (sheetsOf g.kinds) with e | ⟨m', a', e⟩
          · rw [e] at hp
            simp at hp
          · rw [List.concat_eq_append] at e
            rw [e] at hp
            have hl : m'.length = m.length := by simpa using hp.length_eq
            refine ⟨m', a', ?_, ?_, e⟩
            · have := List.forall₂_take m.length hp
              rw [List.take_left' hl, List.take_left' rfl] at this
              exact this
            · have := List.forall₂_drop m.length hp
              rw [List.drop_left' hl, List.drop_left' rfl, List.forall₂_cons] at this
              exact this.1
        rw [e, onLast_append, onLast_append]
        refine forall2_append hm (.cons ⟨ha.1, ?_⟩ .nil)
        refine forall2_append ha.2 (.cons ?_ .nil)
        rw [← hc]
        exact hk
    · intro s hs
      rcases List.eq_nil_or_concat l with rfl | ⟨m, a, rfl⟩
      · simp [onLast] at hs
      · rw [List.concat_eq_append, onLast_append] at hs
        simp at hs
        subst hs
        exact s2.trans (h.cur a (by simp))

theorem kept_run {env : GEnv} {z : GRect} {prot : Option Protection} {g g' : Gp} {cs : List GCall} (hr : GRun env g cs g') : ∀ {l : List (Option GRect × List GCall)}, Kept env z prot g l → (∀ c ∈ cs, plainCall c = true) →
    Kept env z prot g' (cs.foldl sheetStep l) := by
  induction hr with
  | nil => intro l h _; exact h
  | cons _ _ _ ih => intro l h hc; exact ih (h.step (hc _ (by simp))) (fun c hm => hc c (by simp [hm]))

theorem start_kept (env : GEnv) (z : GRect) (prot : Option Protection) : Kept env z prot (Gp.start z prot) [] := by
  obtain ⟨h1, h2⟩ := start_whole z prot
  exact ⟨h1, rfl, rfl, by rw [h2]; exact .nil, by simp⟩

theorem forall2_comp {α β γ : Type} {R : α → β → Prop} {S : α → γ → Prop} {T : β → γ → Prop} (h : ∀ a b c, R a b → S a c → T b c) :
    ∀ {l : List α} {m : List β} {n : List γ}, List.Forall₂ R l m → List.Forall₂ S l n → List.Forall₂ T m n
  | [], _, _, .nil, .nil => .nil
  | _ :: _, _, _, .cons h1 t1, .cons h2 t2 => .cons (h _ _ _ h1 h2) (forall2_comp h t1 t2)

theorem forall2_right {α β : Type} {R : α → β → Prop} {l : List α} {m : List β} (h : List.Forall₂ R l m) {a : α} (ha : a ∈ l) : ∃ b ∈ m, R a b := by
  induction h with
  | nil => simp at ha
  | cons h1 _ ih =>
    rcases List.mem_cons.1 ha with rfl | ha
    · exact ⟨_, by simp, h1⟩
    · obtain ⟨b, hb, h⟩ := ih ha
      exact ⟨b, by simp [hb], h⟩

/-- **C86**: What a session draws is what the file shows.  Calls of `GoPdf` that put no texts and no images on a page are made in any order, and then the document is written.  The file has a
catalog and a page tree with the pages asked for, in this order, with their sizes; the content of each page paints, in the order of the calls, what was asked for while it was the last page, to
half a hundredth of a point, from the top of the page. -/
theorem C86_session_partial {env : GEnv} {z : GRect} {cs : List GCall} {g g' : Gp} {out : Bytes} (hr : GRun env (Gp.start z none) cs g) (hc : ∀ c ∈ cs, plainCall c = true)
    (h : g.compile env = (g', .ok out)) (hl : out.length < 10 ^ 10) (hz : ∀ l b, env.unzip (env.zipLevel l b) = some b) (hs : ∀ s ∈ sheets cs, s.2 ≠ []) :
    ∃ bodies trailer pages, FileHolds out bodies trailer ∧ TreeIs env.unzip bodies z pages ∧
      List.Forall₂ (fun s p => p.1 = s.1 ∧ ∀ adv, ∃ ms e, DrawnAll env.upper (s.1.getD z).h s.2 {} ms e ∧ Paints adv {} p.2 ms { g := e }) (sheets cs) pages := by
  have hk := kept_run hr (start_kept env z none) hc
  obtain ⟨bs, h1, _, h3⟩ := compile_holds h (by
    intro e
    have := hk.whole.laid
    rw [e] at this
    simp [Laid] at this) hl
  obtain ⟨pages, p1, p2⟩ := tree_of hk.whole hk.prot hz h1 (by
    intro p hp e
    obtain ⟨s, hs', q1, q2⟩ := forall2_right hk.pages hp
    rw [e, List.forall₂_nil_right_iff] at q2
    exact hs s hs' q2)
  rw [hk.size] at p2
  refine ⟨_, _, pages, h3, p2, forall2_comp ?_ hk.pages p1⟩
  rintro p s q ⟨a1, a2⟩ ⟨b1, b2⟩
  refine ⟨b1.trans a1, fun adv => ?_⟩
  exact draws_paint g.fonts adv a2 (p := {}) ⟨rfl, rfl, rfl⟩ b2

/-! ### such documents can always be written -/

/-- objects that can always be written -/
def GObj.Simple : GObj → Prop
  | .catalog | .pages _ _ | .procset _ _ | .page _ _ _ => True
  | .content _ cs => ∀ c ∈ cs, ∀ fonts, ∃ s, c.stream fonts = .ok s
  | _ => False

def Gp.Simple (g : Gp) : Prop := ∀ s ∈ g.slots, s.obj.Simple

theorem cachesStream_total (fonts : List GFont) : ∀ {cs : List GCache}, (∀ c ∈ cs, ∀ fonts, ∃ s, c.stream fonts = .ok s) → ∃ s, cachesStream fonts cs = .ok s
  | [], _ => ⟨[], rfl⟩
  | c :: cs, h => by
    obtain ⟨s, h1⟩ := h c (by simp) fonts
    obtain ⟨t, h2⟩ := cachesStream_total fonts (cs := cs) (fun c hc => h c (by simp [hc]))
    exact ⟨s ++ t, by simp [cachesStream, h1, h2, bind, Res.bind]⟩

theorem GObj.Simple.builds {env : GEnv} {o : GObj} (h : o.Simple) {g : Gp} (hp : g.protection = none) (id : Nat) : ∃ b, o.build env g id = .ok b := by
  cases o with
  | content st cs =>
    obtain ⟨s, hs⟩ := cachesStream_total g.fonts h
    simp only [GObj.build, hs, hp, sealed, bind, Res.bind]
    exact ⟨_, rfl⟩
  | catalog => exact ⟨_, rfl⟩
  | pages _ _ => exact ⟨_, rfl⟩
  | procset _ _ => exact ⟨_, rfl⟩
  | page _ _ _ => exact ⟨_, rfl⟩
  | _ => exact absurd h (by simp [GObj.Simple])

theorem compileLoop_total {env : GEnv} : ∀ {ss : List GSlot} {i : Nat} {g : Gp} {out : Bytes} {offs : List Nat}, (∀ s ∈ ss, s.obj.Simple) → g.protection = none →
    ∃ g' r, compileLoop env ss i g out offs = (g', .ok r)
  | [], i, g, out, offs, _, _ => ⟨_, _, rfl⟩
  | s :: ss, i, g, out, offs, h, hp => by
    obtain ⟨b, hb⟩ := (h s (by simp)).builds (env := env) hp (i + 1)
    rw [compileLoop, hb]
    exact compileLoop_total (fun s hs => h s (by simp [hs])) hp

theorem simple_upd (vs : List PageView) (k : Nat) {o : GObj} (h : o.Simple) : (updObj vs k o).Simple := by
  cases o with
  | pages n kids => by_cases hk : k = 1 <;> simp [updObj, hk, GObj.Simple]
  | _ => exact h

theorem Gp.Simple.compiles {env : GEnv} {g : Gp} (h : g.Simple) (hp : g.protection = none) : ∃ g' out, g.compile env = (g', .ok out) := by
  have hs : ∀ s ∈ g.prepare.slots, s.obj.Simple := by
    rw [prepare_eq]
    simp only [Gp.encSlots, hp, Option.elim_none, List.append_nil]
    intro s hm
    obtain ⟨k, hk⟩ := List.getElem?_of_mem hm
    rw [updSlots_get] at hk
    obtain ⟨t, ht, rfl⟩ := Option.map_eq_some_iff.1 hk
    exact simple_upd _ _ (h t (List.mem_of_getElem? ht))
  obtain ⟨g', r, e⟩ := compileLoop_total (env := env) (i := 0) (g := g.prepare) (out := b!"%PDF-1.7\n\n") (offs := []) hs (by rw [prepare_eq]; exact hp)
  unfold Gp.compile
  simp only [e]
  exact ⟨_, _, rfl⟩

theorem Gp.Simple.put {g : Gp} (h : g.Simple) {c : GCache} (hc : ∀ fonts, ∃ s, c.stream fonts = .ok s) : (g.draw c).Simple := by
  have key : ∀ (l : List GSlot) (i : Nat), (∀ s ∈ l, s.obj.Simple) → ∀ s ∈ l.modify i (GSlot.mapCaches (· ++ [c])), s.obj.Simple := by
    intro l i hl s hs
    obtain ⟨k, hk⟩ := List.getElem?_of_mem hs
    rw [List.getElem?_modify] at hk
    obtain ⟨t, ht, rfl⟩ := Option.map_eq_some_iff.1 hk
    have hb := hl t (List.mem_of_getElem? ht)
    split
    · unfold GSlot.mapCaches
      split
      · rename_i e
        rw [e] at hb
        intro d hd
        rcases List.mem_append.1 hd with hd | hd
        · exact hb d hd
        · rw [List.mem_singleton.1 hd]; exact hc
      · exact hb
    · exact hb
  unfold Gp.draw Gp.put Gp.getContent
  cases g.contentIdx with
  | some i => exact key _ _ h
  | none =>
    refine key _ _ ?_
    intro s hs
    simp only [Gp.addObj, List.mem_append, List.mem_singleton] at hs
    rcases hs with hs | rfl
    · exact h s hs
    · intro c hc; simp at hc

theorem Gp.Simple.call {env : GEnv} {g : Gp} (h : g.Simple) {c : GCall} (hc : plainCall c = true) (hf : addsFont c = false) :
    (g.call env c).state.Simple ∧ ∃ r, (g.call env c).res = r ∧ r ≠ .panic ∧ r ≠ .hang := by
  cases c with
  | addPage z =>
    refine ⟨?_, _, rfl, by simp [Gp.call], by simp [Gp.call]⟩
    intro s hs
    rcases List.mem_append.1 hs with hs | hs
    · exact h s hs
    · rw [List.mem_singleton.1 hs]; trivial
  | setLineWidth w => exact ⟨Gp.Simple.put (g := { g with lineWidth := w }) h (fun _ => ⟨_, rfl⟩), _, rfl, by simp [Gp.call], by simp [Gp.call]⟩
  | setGrayFill v => exact ⟨Gp.Simple.put (g := { g with grayFill := v }) h (fun _ => ⟨_, rfl⟩), _, rfl, by simp [Gp.call], by simp [Gp.call]⟩
  | setLineType _ | line _ _ _ _ | rectFromLowerLeft _ _ _ _ _ | rectFromUpperLeft _ _ _ _ _ | oval _ _ _ _ | curve _ _ _ _ _ _ _ _ _ | setGrayStroke _ | setStrokeColor _ _ _ | setFillColor _ _ _ =>
    exact ⟨h.put (fun _ => ⟨_, rfl⟩), _, rfl, by simp [Gp.call], by simp [Gp.call]⟩
  | setFont a b c =>
    obtain ⟨x, y, z, w, e⟩ := setFont_fields g a b c
    refine ⟨by simp only [Gp.call, e]; exact h, _, rfl, ?_, ?_⟩ <;> simp only [Gp.call, Gp.setFont] <;> split <;> simp
  | kernOverride a b =>
    obtain ⟨x, e⟩ := kernOverride_fields g a b
    refine ⟨by simp only [Gp.call, e]; exact h, _, rfl, ?_, ?_⟩ <;> simp only [Gp.call, Gp.kernOverride] <;> split <;> simp
  | setCompressLevel l =>
    refine ⟨?_, _, rfl, by simp [Gp.call], by simp [Gp.call]⟩
    simp only [Gp.call, Gp.setCompressLevel]
    split <;> [exact h; split <;> exact h]
  | setNoCompression | br _ | setLeftMargin _ | setTopMargin _ | setX _ | setY _ | setTextColor _ _ _ | setInfo _ => exact ⟨h, _, rfl, by simp [Gp.call], by simp [Gp.call]⟩
  | addFont _ _ _ _ => simp [addsFont] at hf
  | _ => simp [plainCall] at hc

theorem simple_run {env : GEnv} : ∀ {cs : List GCall} {g : Gp}, g.Simple → (∀ c ∈ cs, plainCall c = true ∧ addsFont c = false) → ∃ g', GRun env g cs g' ∧ g'.Simple
  | [], g, h, _ => ⟨g, .nil, h⟩
  | c :: cs, g, h, hc => by
    obtain ⟨h1, r, hr, h2, h3⟩ := h.call (env := env) (hc c (by simp)).1 (hc c (by simp)).2
    obtain ⟨g', h4, h5⟩ := simple_run (env := env) (cs := cs) h1 (fun c hm => hc c (by simp [hm]))
    exact ⟨g', .cons (hr ▸ h2) (hr ▸ h3) h4, h5⟩

/-- **C86** (totality): calls that put no texts and no images on a page and add no fonts never fail to be carried out, and the document can be written. -/
theorem C86_total (env : GEnv) (z : GRect) {cs : List GCall} (hc : ∀ c ∈ cs, plainCall c = true ∧ addsFont c = false) :
    ∃ g g' out, GRun env (Gp.start z none) cs g ∧ g.compile env = (g', .ok out) := by
  obtain ⟨g, h1, h2⟩ := simple_run (env := env) (g := Gp.start z none) (by
    intro s hs
    simp only [Gp.start, List.mem_cons, List.not_mem_nil, or_false] at hs
    rcases hs with rfl | rfl | rfl <;> trivial) hc
  have hk := kept_run h1 (start_kept env z none) (fun c hm => (hc c hm).1)
  obtain ⟨g', out, h3⟩ := h2.compiles (env := env) hk.prot
  exact ⟨g, g', out, h1, h3⟩

/-! ### an example -/

/-- two pages: a line; a rectangle on a page of its own size, filled with a colour -/
def goCalls : List GCall := [.addPage ⟨0, 0⟩, .setLineWidth (1 / 2), .line 10 20 30 40, .setNoCompression, .addPage ⟨200, 300⟩, .setFillColor 255 0 0, .rectFromUpperLeft 5 6 70 80 b!"F"]

def goRun (env : GEnv) (g : Gp) (cs : List GCall) : Gp := cs.foldl (fun g c => (g.call env c).state) g

theorem goRun_run {env : GEnv} {cs : List GCall} {g g' : Gp} (h : GRun env g cs g') : g' = goRun env g cs := by
  induction h with
  | nil => rfl
  | cons _ _ _ ih => exact ih

def goShort (r : Res Bytes) : Bool := match r with
  | .ok out => decide (out.length < 10 ^ 10)
  | _ => false

set_option maxRecDepth 20000 in
theorem goCalls_file : ∃ g g' out, GRun goEnv (Gp.start ⟨595, 842⟩ none) goCalls g ∧ g.compile goEnv = (g', .ok out) ∧ out.length < 10 ^ 10 := by
  obtain ⟨g, g', out, h1, h2⟩ := C86_total goEnv ⟨595, 842⟩ (cs := goCalls) (by decide)
  refine ⟨g, g', out, h1, h2, ?_⟩
  have : goShort ((goRun goEnv (Gp.start ⟨595, 842⟩ none) goCalls).compile goEnv).2 = true := by decide +kernel
  rw [← goRun_run h1, h2] at this
  simpa [goShort] using this

example : ∃ out bodies trailer c1 c2, FileHolds out bodies trailer ∧ TreeIs goEnv.unzip bodies ⟨595, 842⟩ [(none, c1), (some ⟨200, 300⟩, c2)] ∧
    (∀ adv, ∃ ms e, DrawnAll goEnv.upper 842 [.setLineWidth (1 / 2), .line 10 20 30 40] {} ms e ∧ Paints adv {} c1 ms { g := e }) ∧
    ∀ adv, ∃ ms e, DrawnAll goEnv.upper 300 [.setFillColor 255 0 0, .rectFromUpperLeft 5 6 70 80 b!"F"] {} ms e ∧ Paints adv {} c2 ms { g := e } := by
  obtain ⟨g, g', out, h1, h2, h3⟩ := goCalls_file
  obtain ⟨bodies, tr, pages, h4, h5, h6⟩ := C86_session_partial h1 (by decide) h2 h3 (fun _ _ => rfl) (by decide)
  have e : sheets goCalls = [(none, [.setLineWidth (1 / 2), .line 10 20 30 40]), (some ⟨200, 300⟩, [.setFillColor 255 0 0, .rectFromUpperLeft 5 6 70 80 b!"F"])] := by rfl
  rw [e] at h6
  obtain ⟨p1, _, ⟨a1, a2⟩, h7, rfl⟩ := List.forall₂_cons_left_iff.1 h6
  obtain ⟨p2, _, ⟨b1, b2⟩, h8, rfl⟩ := List.forall₂_cons_left_iff.1 h7
  rw [List.forall₂_nil_left_iff] at h8
  subst h8
  obtain ⟨x1, c1⟩ := p1
  obtain ⟨x2, c2⟩ := p2
  subst a1
  subst b1
  exact ⟨out, bodies, tr, c1, c2, h4, h5, a2, b2⟩

/-! ### what does not hold -/

theorem not_value {x : Bytes} (h : (valueOfToks (lexer .ground x).1).isNone = true) : ∀ v, ¬ ReadsVal x v := by
  rintro v ⟨ts, t1, t2⟩
  rw [t1, t2] at h
  simp at h

/-- the body of object `n` -/
def goBody (env : GEnv) (g : Gp) (n : Nat) : Option Bytes :=
  match g.prepare.slots[n]? with
  | some s => match s.obj.build env g.prepare (n + 1) with
    | .ok b => some (s.buf ++ b)
    | _ => none
  | none => none

theorem goBody_of {env : GEnv} {g : Gp} {bs : List Bytes} (h : GoBuilds env g.prepare 0 g.prepare.slots bs) {n : Nat} {c r : Bytes} {z : Option GRect} {buf : Bytes}
    (hn : g.prepare.slots[n]? = some ⟨.page c r z, buf⟩) : objAt (bs.map (b!"\n" ++ ·)) (n + 1) = (goBody env g n).map (b!"\n" ++ ·) := by
  obtain ⟨q, b, _, _, h2, h3⟩ := h.2 n _ hn
  simp only [objAt, Nat.add_one_ne_zero, if_false, Nat.add_sub_cancel, List.getElem?_map, h3, goBody, hn]
  simp only [GObj.build, Res.ok.injEq] at h2 ⊢
  subst h2
  rfl

def goPageBad (g : Gp) (n : Nat) : Bool :=
  match g.prepare.slots[n]? with
  | some ⟨.page _ _ _, _⟩ => match goBody goEnv g n with
    | some b => (valueOfToks (lexer .ground (b!"\n" ++ b)).1).isNone
    | none => false
  | _ => false

theorem goPageBad_spec {g : Gp} {n : Nat} {bs : List Bytes} (h : goPageBad g n = true) (hb : GoBuilds goEnv g.prepare 0 g.prepare.slots bs) :
    ∃ body, objAt (bs.map (b!"\n" ++ ·)) (n + 1) = some body ∧ ∀ v, ¬ ReadsVal body v := by
  unfold goPageBad at h
  split at h
  · rename_i hn
    split at h
    · rename_i b e
      exact ⟨_, by rw [goBody_of hb hn, e]; rfl, not_value h⟩
    · simp at h
  · simp at h

/-- **C86** (refuted: pages on which nothing is drawn): the object of such a page is not an object of PDF, since nothing stands after `/Contents`. -/
theorem C86_refuted_empty : ∀ z ∈ [(⟨0, 0⟩ : GRect), ⟨200, 300⟩], ∃ g g' out bodies trailer body, GRun goEnv (Gp.start ⟨595, 842⟩ none) [.addPage z] g ∧ g.compile goEnv = (g', .ok out) ∧
    FileHolds out bodies trailer ∧ objAt bodies 4 = some body ∧ ∀ v, ¬ ReadsVal body v := by
  intro z hz
  obtain ⟨g, g', out, h1, h2⟩ := C86_total goEnv ⟨595, 842⟩ (cs := [.addPage z]) (by simp [plainCall, addsFont])
  have e := goRun_run h1
  have hs : out.length < 10 ^ 10 := by
    have : goShort ((goRun goEnv (Gp.start ⟨595, 842⟩ none) [.addPage z]).compile goEnv).2 = true := by
      clear * - hz
      revert z
      decide +kernel
    rw [← e, h2] at this
    simpa [goShort] using this
  have hk := kept_run h1 (start_kept goEnv ⟨595, 842⟩ none) (by simp [plainCall])
  obtain ⟨bs, h3, _, h4⟩ := compile_holds h2 (by
    intro e
    have := hk.whole.laid
    rw [e] at this
    simp [Laid] at this) hs
  obtain ⟨body, h5, h6⟩ := goPageBad_spec (n := 3) (by
    rw [e]
    clear * - hz
    revert z
    decide +kernel) h3
  exact ⟨g, g', out, _, _, body, h1, h2, h4, h5, h6⟩

/-- **C86** (refuted: the document cannot be written twice): the buffers of the objects are kept, so that in the second file the catalog stands twice in object 1 (and everything else twice in
its object). -/
theorem C86_refuted_twice : ∃ g g' out out' bodies trailer body, (goDoc {}).compile goEnv = (g, .ok out) ∧ g.compile goEnv = (g', .ok out') ∧
    FileHolds out' bodies trailer ∧ objAt bodies 1 = some body ∧ ∀ v, ¬ ReadsVal body v := by
  obtain ⟨g, out, h1, h2⟩ := goDoc_compiles (i := {}) (by decide +kernel)
  have hs : goShort ((((goDoc {}).compile goEnv).1).compile goEnv).2 = true := by decide +kernel
  have hc : ((((goDoc {}).compile goEnv).1).slots.head?.map (fun s => (s.buf, match s.obj with | .catalog => true | _ => false))) =
      some (b!"<<\n  /Type /Catalog\n  /Pages 2 0 R\n>>\n", true) := by decide +kernel
  rw [h1] at hs hc
  rcases h3 : g.compile goEnv with ⟨g', r⟩
  rw [h3] at hs
  cases r with
  | ok out' =>
    have hl : out'.length < 10 ^ 10 := by simpa [goShort] using hs
    cases hg : g.slots with
    | nil => simp [hg] at hc
    | cons s rest =>
      obtain ⟨obj, buf⟩ := s
      rw [hg] at hc
      simp only [List.head?_cons, Option.map_some, Option.some.injEq, Prod.mk.injEq] at hc
      cases obj <;> simp only [reduceCtorEq, and_false] at hc
      obtain ⟨bs, h4, _, h5⟩ := compile_holds h3 (by simp [hg]) hl
      obtain ⟨q, b, _, _, h6, h7⟩ := h4.2 0 ⟨.catalog, buf⟩ (by rw [prepare_eq]; simp only; rw [updSlots_get, hg]; rfl)
      simp only [GObj.build, Res.ok.injEq] at h6
      refine ⟨g, g', out, out', _, _, b!"\n" ++ (buf ++ b), h1, h3, h5, ?_, ?_⟩
      · simp [objAt, h7]
      · rw [hc.1, ← h6]
        exact not_value (by decide +kernel)
  | err e => simp [goShort] at hs
  | panic => simp [goShort] at hs
  | hang => simp [goShort] at hs

end Verif
