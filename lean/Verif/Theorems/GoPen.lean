import Verif.Theorems.GoTextSample
import Verif.Spec.GoPen
/-!
# How texts look and where they stand (C89)
-/
namespace Verif
open Verif.Spec

/-- the generator has the settings of the pen -/
structure Penned (g : Gp) (p : Pen) : Prop where
  size : g.fontSize = p.size
  style : g.fontStyle = p.style
  color : g.color = p.color
  gray : g.grayFill = p.gray
  lineWidth : g.lineWidth = p.lineWidth
  left : g.leftMargin = p.left
  top : g.topMargin = p.top
  x : g.x = p.x
  y : g.y = p.y
  turn : g.setXCount = p.turn

theorem put_rest (g : Gp) (f : List GCache → List GCache) : ∃ slots ci, g.put f = { g with slots := slots, contentIdx := ci } := by
  unfold Gp.put Gp.getContent
  cases g.contentIdx with
  | none => exact ⟨_, _, rfl⟩
  | some i => exact ⟨_, g.contentIdx, rfl⟩

theorem Penned.draw {g : Gp} {p : Pen} (h : Penned g p) (f : List GCache → List GCache) : Penned (g.put f) p := by
  obtain ⟨s, c, e⟩ := put_rest g f
  rw [e]
  exact ⟨h.1, h.2, h.3, h.4, h.5, h.6, h.7, h.8, h.9, h.10⟩

theorem addFont_only {g : Gp} {a b : Bytes} {k : Bool} {s : Nat} : ∃ slots fonts n, (g.addFont a b k s).state = { g with slots := slots, fonts := fonts, countFont := n } := by
  unfold Gp.addFont
  split
  · dsimp only
    split
    · exact ⟨_, _, _, rfl⟩
    · exact ⟨_, _, g.countFont, rfl⟩
  all_goals exact ⟨g.slots, g.fonts, g.countFont, rfl⟩

theorem kern_only {g : Gp} {a : Bytes} {fn : Nat → Nat → Nat → Nat → Int → Int} : ∃ fonts, (g.kernOverride a fn).state = { g with fonts := fonts } := by
  unfold Gp.kernOverride
  split
  · exact ⟨_, rfl⟩
  · exact ⟨g.fonts, rfl⟩

theorem image_only {env : GEnv} {g : Gp} {id file : Bytes} {x y : ℚ} {r : Option GRect} :
    ∃ slots ci ic n, (g.image env id file x y r).state = { g with slots := slots, contentIdx := ci, imgCaches := ic, countImg := n } := by
  unfold Gp.image
  split
  · split
    · obtain ⟨s, c, e⟩ := put_rest g _
      exact ⟨s, c, g.imgCaches, g.countImg, e⟩
    · exact ⟨g.slots, g.contentIdx, g.imgCaches, g.countImg, rfl⟩
  · split
    · rename_i q i _
      obtain ⟨s1, e1⟩ := addPalette_fields ((g.addImage id x y q i).addMask g.slots.length (createSMask i)) g.slots.length i
      obtain ⟨s2, e2⟩ := addMask_fields (g.addImage id x y q i) g.slots.length (createSMask i)
      obtain ⟨s, c, e⟩ := put_rest (g.addObj (.image i)) (· ++ [.image g.countImg x y g.curSize.h q])
      dsimp only
      rw [e1, e2]
      unfold Gp.addImage
      dsimp only
      unfold Gp.draw
      rw [e]
      exact ⟨_, _, _, _, rfl⟩
    all_goals exact ⟨g.slots, g.contentIdx, g.imgCaches, g.countImg, rfl⟩

theorem lastText_of {l : List (Option GRect × List Thing)} {s : Option GRect × List Thing} {v : Inscribed} (h1 : l.getLast? = some s) (h2 : s.2.getLast? = some (.text v)) :
    lastText l = some v := by
  unfold lastText
  rw [h1]
  simp only [h2]

theorem Penned.write {env : GEnv} {z : GRect} {g : Gp} {p : Pen} {l : List (Option GRect × List Thing)} (h : Penned g p) (hh : Held env z g l) (hl : l ≠ []) {text : Bytes}
    {cell : Option (Option GRect × GCellOpt)} (hr : (g.write text cell).res = .ok ()) {u : Inscribed} (hu : asInscribed g (g.write text cell).state.fonts text cell = some u) :
    Penned (g.write text cell).state ((lastText (lastPage (fun ts => writeOn (g.write text cell).state.fonts ts u) l)).elim p p.pass) := by
  obtain ⟨s, w, sum, h1, h2, h3, h4, h5⟩ := write_position hh hl hr hu
  rw [lastText_of h1 h2]
  obtain ⟨i, f, fonts, q, k1, k2, k3, k4, k5, k6⟩ := write_ok hr
  obtain ⟨sl, ci, e⟩ := put_rest { g with fonts := fonts } (fun cs => (appendText fonts cs (g.newText i cell) text).1)
  rw [e] at k6
  have hx : (g.write text cell).state.x = (p.pass w).x ∧ (g.write text cell).state.y = (p.pass w).y ∧ (p.pass w) = { p with x := (p.pass w).x, y := (p.pass w).y } := by
    rw [h4, h5, h.x, h.y]
    unfold Pen.pass
    rw [h3]
    dsimp only
    cases w.cell with
    | none => simp
    | some c =>
      dsimp only [Option.elim]
      refine ⟨?_, ?_, rfl⟩
      · split <;> simp
      · split <;> simp
  obtain ⟨x1, x2, x3⟩ := hx
  show Penned _ (p.pass w)
  rw [x3]
  refine ⟨?_, ?_, ?_, ?_, ?_, ?_, ?_, x1, x2, ?_⟩ <;> rw [k6]
  exacts [h.1, h.2, h.3, h.4, h.5, h.6, h.7, h.10]

theorem Penned.step {env : GEnv} {z : GRect} {g : Gp} {p : Pen} {l : List (Option GRect × List Thing)} (h : Penned g p) (hh : Held env z g l) {c : GCall}
    (hl : ∀ t k, Writes c t k → l ≠ []) (hr : (g.call env c).res = .ok ()) : Penned (g.call env c).state (p.step (thingStep g (g.call env c).state c l) c) := by
  have h' := h
  obtain ⟨h1, h2, h3, h4, h5, h6, h7, h8, h9, h10⟩ := h'
  cases c with
  | addPage s => exact ⟨h1, h2, h3, h4, h5, h6, h7, h6, h7, h10⟩
  | setLineWidth w => exact Penned.draw (g := { g with lineWidth := w }) (p := { p with lineWidth := w }) ⟨h1, h2, h3, h4, rfl, h6, h7, h8, h9, h10⟩ _
  | setCompressLevel v =>
    show Penned (g.setCompressLevel v) p
    unfold Gp.setCompressLevel
    split
    · exact ⟨h1, h2, h3, h4, h5, h6, h7, h8, h9, h10⟩
    · split
      · exact h
      · exact ⟨h1, h2, h3, h4, h5, h6, h7, h8, h9, h10⟩
  | setNoCompression => exact ⟨h1, h2, h3, h4, h5, h6, h7, h8, h9, h10⟩
  | setLineType t => exact h.draw _
  | line a b c d => exact h.draw _
  | rectFromLowerLeft a b c d e => exact h.draw _
  | rectFromUpperLeft a b c d e => exact h.draw _
  | oval a b c d => exact h.draw _
  | curve a b c d e f g h i => rename_i h0; exact h0.draw _
  | br v => exact ⟨h1, h2, h3, h4, h5, h6, h7, h6, by show g.y + v = p.y + v; rw [h9], h10⟩
  | setGrayFill v => exact Penned.draw (g := { g with grayFill := v }) (p := { p with gray := v }) ⟨h1, h2, h3, rfl, h5, h6, h7, h8, h9, h10⟩ _
  | setGrayStroke v => exact h.draw _
  | setLeftMargin m => exact ⟨h1, h2, h3, h4, h5, rfl, h7, h8, h9, h10⟩
  | setTopMargin m => exact ⟨h1, h2, h3, h4, h5, h6, rfl, h8, h9, h10⟩
  | setX x => exact ⟨h1, h2, h3, h4, h5, h6, h7, rfl, h9, by show g.setXCount + 1 = p.turn + 1; rw [h10]⟩
  | setY y => exact ⟨h1, h2, h3, h4, h5, h6, h7, h8, rfl, h10⟩
  | setTextColor a b c => exact ⟨h1, h2, rfl, h4, h5, h6, h7, h8, h9, h10⟩
  | setStrokeColor a b c => exact h.draw _
  | setFillColor a b c => exact h.draw _
  | setInfo i => exact ⟨h1, h2, h3, h4, h5, h6, h7, h8, h9, h10⟩
  | addFont a b k s =>
    obtain ⟨x, y, n, e⟩ := addFont_only (g := g) (a := a) (b := b) (k := k) (s := s)
    show Penned (g.addFont a b k s).state p
    rw [e]
    exact ⟨h1, h2, h3, h4, h5, h6, h7, h8, h9, h10⟩
  | setFont a s n =>
    replace hr : (g.setFont a s n).res = .ok () := hr
    show Penned (g.setFont a s n).state _
    unfold Gp.setFont at hr ⊢
    split at hr
    · exact ⟨rfl, rfl, h3, h4, h5, h6, h7, h8, h9, h10⟩
    · cases hr
  | kernOverride a fn =>
    obtain ⟨x, e⟩ := kern_only (g := g) (a := a) (fn := fn)
    show Penned (g.kernOverride a fn).state p
    rw [e]
    exact ⟨h1, h2, h3, h4, h5, h6, h7, h8, h9, h10⟩
  | text t =>
    have hl := hl t none (.inl ⟨rfl, rfl⟩)
    obtain ⟨u, e1, _⟩ := write_held hh (text := t) (cell := none) hr
    have := h.write hh hl hr e1
    unfold thingStep Pen.step
    simp only [show (g.call env (.text t)).state = (g.write t none).state from rfl, e1]
    exact this
  | cell r t o =>
    have hl := hl t (some (r, o)) (.inr ⟨r, o, rfl, rfl⟩)
    obtain ⟨u, e1, _⟩ := write_held hh (text := t) (cell := some (r, o)) hr
    have := h.write hh hl hr e1
    unfold thingStep Pen.step
    simp only [show (g.call env (.cell r t o)).state = (g.write t (some (r, o))).state from rfl, e1]
    exact this
  | image id f x y r =>
    obtain ⟨a, b, c, d, e⟩ := image_only (env := env) (g := g) (id := id) (file := f) (x := x) (y := y) (r := r)
    show Penned (g.image env id f x y r).state p
    rw [e]
    exact ⟨h1, h2, h3, h4, h5, h6, h7, h8, h9, h10⟩

theorem lastPage_ne {f : List Thing → List Thing} {l : List (Option GRect × List Thing)} (h : l ≠ []) : lastPage f l ≠ [] := by
  unfold lastPage
  rcases List.eq_nil_or_concat l with rfl | ⟨m, a, rfl⟩
  · exact absurd rfl h
  · simp

theorem thingStep_ne {g g' : Gp} {c : GCall} {l : List (Option GRect × List Thing)} (h : l ≠ []) : thingStep g g' c l ≠ [] := by
  unfold thingStep
  split
  · simp
  · split
    · exact lastPage_ne h
    · exact h
  · split
    · exact lastPage_ne h
    · exact h
  · split
    · exact lastPage_ne h
    · exact h
  · split
    · exact lastPage_ne h
    · exact h

/-- there is a page when something is written, if there are the pages `l` at first -/
def PagesFrom (l : List (Option GRect × List Thing)) (cs : List GCall) : Prop := ∀ a c b t k, cs = a ++ c :: b → Writes c t k → l ≠ [] ∨ ∃ z, .addPage z ∈ a

theorem PagesFrom.tail {l : List (Option GRect × List Thing)} {c : GCall} {cs : List GCall} (h : PagesFrom l (c :: cs)) (g g' : Gp) : PagesFrom (thingStep g g' c l) cs := by
  intro a d b t k e hw
  rcases h (c :: a) d b t k (by rw [e]; rfl) hw with h1 | ⟨z, hz⟩
  · exact .inl (thingStep_ne h1)
  · rcases List.mem_cons.1 hz with rfl | hz
    · exact .inl (by simp [thingStep])
    · exact .inr ⟨z, hz⟩

theorem penned_run {env : GEnv} {z : GRect} {g g' : Gp} {cs : List GCall} (hr : GDone env g cs g') : ∀ {l : List (Option GRect × List Thing)} {p : Pen}, Held env z g l → Penned g p →
    PagesFrom l cs → Penned g' (penOf env g cs l p) := by
  induction hr with
  | nil => intro l p _ h _; exact h
  | cons h1 _ ih =>
    intro l p hh hp hf
    refine ih (hh.step h1) (hp.step hh (fun t k hw => ?_) h1) (hf.tail _ _)
    rcases hf [] _ _ t k rfl hw with h | ⟨_, h⟩
    · exact h
    · simp at h

theorem Spec.PagesFirst.from {cs : List GCall} (h : PagesFirst cs) : PagesFrom [] cs := fun a c b t k e hw => .inr (h a c b t k e hw)

theorem start_penned (z : GRect) : Penned (Gp.start z none) {} := ⟨rfl, rfl, rfl, rfl, rfl, rfl, rfl, rfl, rfl, rfl⟩

theorem Spec.PagesFirst.head {a b : List GCall} (h : PagesFirst (a ++ b)) : PagesFirst a := by
  intro x c y t k e hw
  exact h x c (y ++ b) t k (by rw [e]; simp) hw

theorem Spec.GDone.split {env : GEnv} {a : List GCall} : ∀ {g g' : Gp} {b : List GCall}, GDone env g (a ++ b) g' → ∃ h, GDone env g a h ∧ GDone env h b g' := by
  induction a with
  | nil => intro g g' b hr; exact ⟨g, .nil, hr⟩
  | cons c a ih =>
    intro g g' b hr
    cases hr with
    | cons h1 h2 =>
      obtain ⟨h, k1, k2⟩ := ih h2
      exact ⟨h, .cons h1 k1, k2⟩

theorem things_ne {env : GEnv} {g : Gp} {cs : List GCall} : ∀ {l : List (Option GRect × List Thing)} {g : Gp}, (l ≠ [] ∨ ∃ z, .addPage z ∈ cs) → thingsOf env g cs l ≠ [] := by
  induction cs with
  | nil => intro l g h; rcases h with h | ⟨z, h⟩; exact h; simp at h
  | cons c cs ih =>
    intro l g h
    refine ih ?_
    rcases h with h | ⟨z, h⟩
    · exact .inl (thingStep_ne h)
    · rcases List.mem_cons.1 h with rfl | h
      · exact .inl (by simp [thingStep])
      · exact .inr ⟨z, h⟩

/-- what a call that writes does to the pages -/
theorem writes_step {env : GEnv} {z : GRect} {g : Gp} {l : List (Option GRect × List Thing)} (hh : Held env z g l) {p : Pen} (hp : Penned g p) {c : GCall} {t : Bytes}
    {k : Option (Option GRect × GCellOpt)} (hw : Writes c t k) (h : (g.call env c).res = .ok ()) :
    ∃ w, LooksAs w p ∧ w.x = p.x ∧ w.lineWidth = p.lineWidth ∧ w.text = t ∧ w.cell = k ∧
      thingStep g (g.call env c).state c l = lastPage (fun ts => writeOn (g.call env c).state.fonts ts w) l := by
  have key : ∀ (k : Option (Option GRect × GCellOpt)) (u : Inscribed), asInscribed g (g.write t k).state.fonts t k = some u →
      LooksAs u p ∧ u.x = p.x ∧ u.lineWidth = p.lineWidth ∧ u.text = t ∧ u.cell = k := by
    intro k u hu
    unfold asInscribed at hu
    cases hf : g.font with
    | none => rw [hf] at hu; simp at hu
    | some i =>
      rw [hf] at hu
      simp only [Option.bind_some, Option.map_eq_some_iff] at hu
      obtain ⟨f, _, rfl⟩ := hu
      exact ⟨⟨hp.size, hp.style, hp.color, hp.gray, hp.turn, hp.y⟩, hp.x, hp.lineWidth, rfl, rfl⟩
  rcases hw with ⟨rfl, rfl⟩ | ⟨r, o, rfl, rfl⟩
  · obtain ⟨u, e1, _⟩ := write_held hh (text := t) (cell := none) h
    obtain ⟨k1, k2, k3, k4, k5⟩ := key _ _ e1
    refine ⟨u, k1, k2, k3, k4, k5, ?_⟩
    unfold thingStep
    simp only [show (g.call env (.text t)).state = (g.write t none).state from rfl, e1]
  · obtain ⟨u, e1, _⟩ := write_held hh (text := t) (cell := some (r, o)) h
    obtain ⟨k1, k2, k3, k4, k5⟩ := key _ _ e1
    refine ⟨u, k1, k2, k3, k4, k5, ?_⟩
    unfold thingStep
    simp only [show (g.call env (.cell r t o)).state = (g.write t (some (r, o))).state from rfl, e1]

theorem lastText_writeOn {fonts : List GFont} {l : List (Option GRect × List Thing)} (hl : l ≠ []) (w : Inscribed) :
    ∃ v, lastText (lastPage (fun ts => writeOn fonts ts w) l) = some v ∧ ((v = w ∧ ∀ u, lastText l = some u → ¬ Continues u w) ∨
      ∃ u, lastText l = some u ∧ Continues u w ∧ v = { u with state := v.state, text := u.text ++ w.text }) := by
  rcases List.eq_nil_or_concat l with rfl | ⟨m, a, rfl⟩
  · exact absurd rfl hl
  · rw [lastPage_eq, List.concat_eq_append, onLast_append]
    unfold lastText
    simp only [List.getLast?_append, List.getLast?_singleton, Option.some_or]
    unfold writeOn
    cases ha : a.2.getLast? with
    | none => exact ⟨w, by simp, .inl ⟨rfl, by simp⟩⟩
    | some x =>
      cases x with
      | text v =>
        dsimp only
        by_cases hc : Continues v w
        · simp only [if_pos hc]
          exact ⟨_, by simp; rfl, .inr ⟨v, rfl, hc, rfl⟩⟩
        · simp only [if_neg hc]
          refine ⟨w, by simp, .inl ⟨rfl, ?_⟩⟩
          intro u hu
          cases hu
          exact hc
      | draw c => exact ⟨w, by simp, .inl ⟨rfl, by simp⟩⟩
      | image a b c d => exact ⟨w, by simp, .inl ⟨rfl, by simp⟩⟩

/-- **C89**, one text: a text that is written is the last thing on the last page, and looks as the pen says.  If the thing before it is a text without rectangle, with the same font and look, on the same
line, and no position from the left was set since, then it is added to that; else it is a new text where the pen is, in the cell that is asked for. -/
theorem C89_text {env : GEnv} {z : GRect} {cs : List GCall} {g : Gp} (hr : GDone env (Gp.start z none) cs g) {c : GCall} {t : Bytes} {k : Option (Option GRect × GCellOpt)} (hw : Writes c t k)
    (hf : PagesFirst (cs ++ [c])) (h : (g.call env c).res = .ok ()) :
    ∃ v, lastText (thingsOf env (Gp.start z none) (cs ++ [c]) []) = some v ∧ LooksAs v (penOf env (Gp.start z none) cs [] {}) ∧
      ((v.text = t ∧ v.cell = k ∧ v.x = (penOf env (Gp.start z none) cs [] {}).x ∧ v.lineWidth = (penOf env (Gp.start z none) cs [] {}).lineWidth ∧
          ∀ u, lastText (thingsOf env (Gp.start z none) cs []) = some u → u.cell.bind Prod.fst = none → LooksAs u (penOf env (Gp.start z none) cs [] {}) → u.idx ≠ v.idx) ∨
        ∃ u, lastText (thingsOf env (Gp.start z none) cs []) = some u ∧ u.cell.bind Prod.fst = none ∧ LooksAs u (penOf env (Gp.start z none) cs [] {}) ∧
          v = { u with state := v.state, text := u.text ++ t }) := by
  have hk := held_run hr (start_held env z)
  have hp := penned_run hr (start_held env z) (start_penned z) hf.head.from
  obtain ⟨z', hz'⟩ := hf cs c [] t k rfl hw
  have hne : thingsOf env (Gp.start z none) cs [] ≠ [] := things_ne (g := g) (.inr ⟨z', hz'⟩)
  obtain ⟨w, w1, w2, w3, w4, w5, w6⟩ := writes_step hk hp hw h
  rw [thingsOf_append hr, w6]
  obtain ⟨v, v1, ⟨rfl, hn⟩ | ⟨u, u1, u2, u3⟩⟩ := lastText_writeOn (fonts := (g.call env c).state.fonts) hne w
  · refine ⟨v, v1, w1, .inl ⟨w4, w5, w2, w3, ?_⟩⟩
    intro u hu e1 ⟨l1, l2, l3, l4, l5, l6⟩ e2
    obtain ⟨m1, m2, m3, m4, m5, m6⟩ := w1
    exact hn u hu ⟨e1, l3.trans m3.symm, l4.trans m4.symm, e2, l1.trans m1.symm, l2.trans m2.symm, l5.trans m5.symm, l6.trans m6.symm⟩
  · obtain ⟨c1, c2, c3, c4, c5, c6, c7, c8⟩ := u2
    obtain ⟨l1, l2, l3, l4, l5, l6⟩ := w1
    have hu : LooksAs u (penOf env (Gp.start z none) cs [] {}) := ⟨c5.trans l1, c6.trans l2, c2.trans l3, c3.trans l4, c7.trans l5, c8.trans l6⟩
    refine ⟨v, v1, ?_, .inr ⟨u, u1, c1, hu, by rw [u3, w4]⟩⟩
    rw [u3]
    exact hu

theorem Spec.Began.more {env : GEnv} {z : GRect} {cs : List GCall} {w v : Inscribed} (h : Began env z cs w) (c : GCall) (st : FontState) (t : Bytes) (hv : v = { w with state := st, text := w.text ++ t }) :
    Began env z (cs ++ [c]) v := by
  obtain ⟨a, d, b, s, k, e, h1, h2, h3, h4, h5, h6⟩ := h
  subst hv
  exact ⟨a, d, b ++ [c], s, k, by rw [e]; simp, h1, h2.trans (List.prefix_append _ _), h3, h4, h5, h6⟩

theorem Spec.Began.snoc {env : GEnv} {z : GRect} {cs : List GCall} {w : Inscribed} (h : Began env z cs w) (c : GCall) : Began env z (cs ++ [c]) w := by
  obtain ⟨a, d, b, s, k, e, h⟩ := h
  exact ⟨a, d, b ++ [c], s, k, by rw [e]; simp, h⟩

theorem mem_writeOn {fonts : List GFont} {ts : List Thing} {w v : Inscribed} (h : .text v ∈ writeOn fonts ts w) :
    .text v ∈ ts ∨ v = w ∨ ∃ u st, .text u ∈ ts ∧ v = { u with state := st, text := u.text ++ w.text } := by
  unfold writeOn at h
  split at h
  · rename_i u hu
    split at h
    · rcases List.mem_append.1 h with h | h
      · exact .inl (List.mem_of_mem_dropLast h)
      · rw [List.mem_singleton, Thing.text.injEq] at h
        exact .inr (.inr ⟨u, _, List.mem_of_getLast? hu, h⟩)
    · rcases List.mem_append.1 h with h | h
      · exact .inl h
      · rw [List.mem_singleton, Thing.text.injEq] at h
        exact .inr (.inl h)
  · rcases List.mem_append.1 h with h | h
    · exact .inl h
    · rw [List.mem_singleton, Thing.text.injEq] at h
      exact .inr (.inl h)

/-- **C89**: Every text on the pages has the size, style, colour and place that were in force when it was begun.  Calls of `GoPdf` are made, all of which succeed, and there is a page when the first
text is written.  Then every text was begun by one of the calls, in the cell that was asked for there, with the look the calls before it say, and at the position that is reached by the margins,
`SetX`, `SetY`, `Br` and the texts before it (`penOf`). -/
theorem C89_session {env : GEnv} {z : GRect} {cs : List GCall} : ∀ {g : Gp}, GDone env (Gp.start z none) cs g → PagesFirst cs →
    ∀ s ∈ thingsOf env (Gp.start z none) cs [], ∀ w, .text w ∈ s.2 → Began env z cs w := by
  induction cs using List.reverseRecOn with
  | nil => intro g _ _ s hs; simp [thingsOf] at hs
  | append_singleton cs c ih =>
    intro g hr hf s hs w hw
    obtain ⟨h, h1, h2⟩ := hr.split
    have hc : (h.call env c).res = .ok () := by cases h2 with | cons q _ => exact q
    have hk := held_run h1 (start_held env z)
    have hp := penned_run h1 (start_held env z) (start_penned z) hf.head.from
    rw [thingsOf_append h1] at hs
    have old : ∀ s ∈ thingsOf env (Gp.start z none) cs [], ∀ w, .text w ∈ s.2 → Began env z (cs ++ [c]) w := fun s hs w hw => (ih h1 hf.head s hs w hw).snoc c
    have grow : ∀ t : Thing, (∀ v, t ≠ .text v) → s ∈ lastPage (· ++ [t]) (thingsOf env (Gp.start z none) cs []) → Began env z (cs ++ [c]) w := by
      intro t ht hs
      rcases mem_lastPage hs with hs | ⟨q, hq, rfl⟩
      · exact old s hs w hw
      · rcases List.mem_append.1 hw with hw | hw
        · exact old q (List.mem_of_getLast? hq) w hw
        · rw [List.mem_singleton] at hw
          exact absurd hw.symm (ht w)
    have wr : ∀ t k, Writes c t k → Began env z (cs ++ [c]) w := by
      intro t k hwr
      obtain ⟨u, w1, w2, w3, w4, w5, w6⟩ := writes_step hk hp hwr hc
      rw [w6] at hs
      rcases mem_lastPage hs with hs | ⟨q, hq, rfl⟩
      · exact old s hs w hw
      · rcases mem_writeOn hw with hw | rfl | ⟨v, st, hv, e⟩
        · exact old q (List.mem_of_getLast? hq) w hw
        · exact ⟨cs, c, [], t, k, rfl, hwr, by rw [w4], w5, w1, w2, w3⟩
        · exact (ih h1 hf.head q (List.mem_of_getLast? hq) v hv).more c st _ e
    rcases call_cases c with ⟨q, rfl⟩ | hq | hd | ⟨t, rfl⟩ | ⟨r, t, o, rfl⟩ | ⟨id, f, x, y, r, rfl⟩
    · rcases List.mem_append.1 hs with hs | hs
      · exact old s hs w hw
      · rw [List.mem_singleton] at hs
        rw [hs] at hw
        simp at hw
    · rw [thingStep_quiet hq] at hs
      exact old s hs w hw
    · rw [thingStep_drawing hd] at hs
      exact grow _ (by intro v; simp) hs
    · exact wr t none (.inl ⟨rfl, rfl⟩)
    · exact wr t (some (r, o)) (.inr ⟨r, o, rfl, rfl⟩)
    · obtain ⟨k, e, _⟩ := image_held hk hc
      unfold thingStep at hs
      simp only [show (h.call env (.image id f x y r)).state = (h.image env id f x y r).state from rfl, e] at hs
      exact grow _ (by intro v; simp) hs

theorem pagesFirst_of {a b : List GCall} {z : GRect} (h : ∀ c ∈ a, ∀ t k, ¬ Writes c t k) : PagesFirst (a ++ .addPage z :: b) := by
  intro x c y t k e hw
  rcases List.append_eq_append_iff.1 e with ⟨m, rfl, e2⟩ | ⟨m, rfl, e2⟩
  · cases m with
    | nil =>
      rw [List.nil_append, List.cons.injEq] at e2
      obtain ⟨rfl, -⟩ := e2
      rcases hw with ⟨h, -⟩ | ⟨_, _, h, -⟩ <;> cases h
    | cons d m =>
      rw [List.cons_append, List.cons.injEq] at e2
      exact ⟨z, by rw [e2.1]; simp⟩
  · cases m with
    | nil =>
      rw [List.nil_append, List.cons.injEq] at e2
      obtain ⟨rfl, -⟩ := e2
      rcases hw with ⟨h, -⟩ | ⟨_, _, h, -⟩ <;> cases h
    | cons d m =>
      rw [List.cons_append, List.cons.injEq] at e2
      exact absurd hw (h c (by rw [e2.1]; simp) t k)

theorem textCalls_first (n : Nat) : PagesFirst (textCalls.take (n + 2)) := by
  refine pagesFirst_of (a := [.addFont b!"A" tinyFile false 0]) (z := ⟨0, 0⟩) (b := (textCalls.drop 2).take n) ?_
  intro c hc t k hw
  rw [List.mem_singleton] at hc
  subst hc
  rcases hw with ⟨h, -⟩ | ⟨_, _, h, -⟩ <;> cases h

set_option maxRecDepth 20000 in
/-- The hypotheses of `C89_session` and, for the text and the cell, of `C89_text` hold. -/
example : ∃ g h k, GDone goEnv (Gp.start ⟨595, 842⟩ none) textCalls g ∧ PagesFirst textCalls ∧
    GDone goEnv (Gp.start ⟨595, 842⟩ none) (textCalls.take 5) h ∧ Writes (.text b!"AB") b!"AB" none ∧ PagesFirst (textCalls.take 5 ++ [.text b!"AB"]) ∧ (h.call goEnv (.text b!"AB")).res = .ok () ∧
    GDone goEnv (Gp.start ⟨595, 842⟩ none) (textCalls.take 9) k ∧ PagesFirst (textCalls.take 9 ++ [.cell (some ⟨100, 20⟩) b!"A" { align := 0, border := 15, float := 1 }]) ∧
    (k.call goEnv (.cell (some ⟨100, 20⟩) b!"A" { align := 0, border := 15, float := 1 })).res = .ok () := by
  have h1 : goDone goEnv (Gp.start ⟨595, 842⟩ none) textCalls = true := by decide +kernel
  have hg := goDone_of h1
  obtain ⟨h, h2, h3⟩ := Spec.GDone.split (a := textCalls.take 5) (b := textCalls.drop 5) (by rw [List.take_append_drop]; exact hg)
  obtain ⟨k, k2, k3⟩ := Spec.GDone.split (a := textCalls.take 9) (b := textCalls.drop 9) (by rw [List.take_append_drop]; exact hg)
  refine ⟨_, h, k, hg, textCalls_first 8, h2, .inl ⟨rfl, rfl⟩, textCalls_first 4, ?_, k2, textCalls_first 8, ?_⟩
  · cases h3 with | cons q _ => exact q
  · cases k3 with | cons q _ => exact q

def penShows (p : Pen) (size : Int) (style : Nat) (x y : ℚ) : Bool := decide (p.size = size ∧ p.style = style ∧ p.x = x ∧ p.y = y)

set_option maxRecDepth 20000 in
/-- The text begins at (20, 30), and the pen is behind it then; the cell begins at (20, 50), and the pen is below it then. -/
example : penShows (penOf goEnv (Gp.start ⟨595, 842⟩ none) (textCalls.take 5) [] {}) 10 4 20 30 = true ∧ penShows (penOf goEnv (Gp.start ⟨595, 842⟩ none) (textCalls.take 6) [] {}) 10 4 32 30 = true ∧
    penShows (penOf goEnv (Gp.start ⟨595, 842⟩ none) (textCalls.take 9) [] {}) 10 4 20 50 = true ∧ penShows (penOf goEnv (Gp.start ⟨595, 842⟩ none) textCalls [] {}) 10 4 20 70 = true := by
  decide +kernel

end Verif
