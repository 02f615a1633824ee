import Verif.Theorems.GoPages
/-!
# What GoPdf draws (C86)
-/
namespace Verif
open Spec

/-! ### what is painted -/

theorem lexes_opOf {tail : Bytes} {ts : List Lexeme} (h : lexer .ground tail = (ts, .ground)) : ∀ qs : List ℚ,
    ∃ vs, List.Forall₂ Near vs qs ∧ lexer .ground (opOf qs tail) = (vs.map Lexeme.num ++ ts, .ground)
  | [] => ⟨[], .nil, by simpa [opOf] using h⟩
  | q :: qs => by
    obtain ⟨vs, h1, h2⟩ := lexes_opOf h qs
    obtain ⟨v, hv, hl⟩ := lexes_fmt2 q (e := 32) rfl
    refine ⟨v :: vs, .cons hv h1, ?_⟩
    have := lexes_append hl h2
    simpa [opOf, List.append_assoc] using this

theorem near1 {vs : List ℚ} {x : ℚ} (h : List.Forall₂ Near vs [x]) : ∃ a, vs = [a] ∧ Near a x := by
  cases h with | cons h1 h => cases h; exact ⟨_, rfl, h1⟩

theorem near2 {vs : List ℚ} {x y : ℚ} (h : List.Forall₂ Near vs [x, y]) : ∃ a b, vs = [a, b] ∧ Near a x ∧ Near b y := by
  cases h with | cons h1 h => obtain ⟨b, rfl, hb⟩ := near1 h; exact ⟨_, _, rfl, h1, hb⟩

theorem near4 {vs : List ℚ} {x y z w : ℚ} (h : List.Forall₂ Near vs [x, y, z, w]) : ∃ a b c d, vs = [a, b, c, d] ∧ Near a x ∧ Near b y ∧ Near c z ∧ Near d w := by
  cases h with | cons h1 h => cases h with | cons h2 h => obtain ⟨c, d, rfl, hc, hd⟩ := near2 h; exact ⟨_, _, _, _, rfl, h1, h2, hc, hd⟩

theorem near6 {vs : List ℚ} {x y z w u v : ℚ} (h : List.Forall₂ Near vs [x, y, z, w, u, v]) :
    ∃ a b c d e f, vs = [a, b, c, d, e, f] ∧ Near a x ∧ Near b y ∧ Near c z ∧ Near d w ∧ Near e u ∧ Near f v := by
  cases h with | cons h1 h => cases h with | cons h2 h => obtain ⟨c, d, e, f, rfl, hc, hd, he, hf⟩ := near4 h; exact ⟨_, _, _, _, _, _, rfl, h1, h2, hc, hd, he, hf⟩

theorem rect_paints (adv : TextMove) {p : Painter} (hp : Idle p) (x y w h : ℚ) (st : Bytes) :
    ∃ m, RectIs p.g (paintOp st) x y w h m ∧ Paints adv p (opOf [x, y, w, h] (b!"re " ++ parseStyle st ++ b!"\n")) [m] p := by
  have hs : parseStyle st = paintOp st := by unfold parseStyle paintOp; simp only [or_comm]
  rw [hs]
  have hl : lexer .ground (b!"re " ++ paintOp st ++ b!"\n") = ([.op b!"re", .op (paintOp st)], .ground) := by
    unfold paintOp; split_ifs <;> decide +kernel
  obtain ⟨vs, h1, h2⟩ := lexes_opOf hl [x, y, w, h]
  obtain ⟨a, b, c, d, rfl, ha, hb, hc, hd⟩ := near4 h1
  refine ⟨_, ⟨a, b, c, d, ha, hb, hc, hd, rfl⟩, _, h2, ?_⟩
  obtain ⟨g, saved, args, tm, tlm, path, clipping⟩ := p
  obtain ⟨h1, h2, h3⟩ := hp
  simp only at h1 h2 h3
  subst h1 h2 h3
  unfold paintOp
  split_ifs <;> rfl

theorem curve_paints (adv : TextMove) {p : Painter} (hp : Idle p) (x0 y0 x1 y1 x2 y2 x3 y3 : ℚ) (st : Bytes) :
    ∃ m, PathIs p.g (paintOp st) [(b!"m", [(x0, y0)]), (b!"c", [(x1, y1), (x2, y2), (x3, y3)])] m ∧
      Paints adv p (opOf [x0, y0] b!"m\n" ++ opOf [x1, y1, x2, y2, x3, y3] b!"c" ++ b!" " ++ parseStyle st ++ b!"\n") [m] p := by
  have hs : parseStyle st = paintOp st := by unfold parseStyle paintOp; simp only [or_comm]
  rw [hs]
  have hl : lexer .ground (b!"c " ++ paintOp st ++ b!"\n") = ([.op b!"c", .op (paintOp st)], .ground) := by
    unfold paintOp; split_ifs <;> decide +kernel
  obtain ⟨us, h1, h2⟩ := lexes_opOf (tail := b!"m\n") (ts := [.op b!"m"]) (by decide +kernel) [x0, y0]
  obtain ⟨vs, h3, h4⟩ := lexes_opOf hl [x1, y1, x2, y2, x3, y3]
  obtain ⟨a0, b0, rfl, n0, n0'⟩ := near2 h1
  obtain ⟨a1, b1, a2, b2, a3, b3, rfl, n1, n1', n2, n2', n3, n3'⟩ := near6 h3
  refine ⟨_, ⟨[(b!"m", [(a0, b0)]), (b!"c", [(a1, b1), (a2, b2), (a3, b3)])], ?_, rfl⟩, _, by
    have := lexes_append h2 h4
    simpa [opOf, List.append_assoc] using this, ?_⟩
  · simp [n0, n0', n1, n1', n2, n2', n3, n3']
  obtain ⟨g, saved, args, tm, tlm, path, clipping⟩ := p
  obtain ⟨h1, h2, h3⟩ := hp
  simp only at h1 h2 h3
  subst h1 h2 h3
  unfold paintOp
  split_ifs <;> rfl

theorem numbers_map : ∀ us : List ℚ, numbers (us.map Lexeme.num) = some us
  | [] => rfl
  | u :: us => by simp [numbers, numbers_map us]

/-- a part of a path -/
theorem seg_paints (adv : TextMove) {p : Painter} (hp : p.args = []) {w tail : Bytes} (hw : w = b!"m" ∨ w = b!"c") (hl : lexer .ground tail = ([.op w], .ground)) (qs : List ℚ) :
    ∃ vs, List.Forall₂ Near vs qs ∧ Paints adv p (opOf qs tail) [] { p with path := p.path ++ [⟨w, pagePoints p.g.ctm vs⟩] } := by
  obtain ⟨vs, h1, h2⟩ := lexes_opOf hl qs
  refine ⟨vs, h1, _, h2, ?_⟩
  obtain ⟨g, saved, args, tm, tlm, path, clipping⟩ := p
  simp only at hp
  subst hp
  have hrun : ∀ (us as : List ℚ), Painter.run adv ⟨g, saved, as.map Lexeme.num, tm, tlm, path, clipping⟩ (us.map Lexeme.num ++ [.op w]) =
      ([], ⟨g, saved, [], tm, tlm, path ++ [⟨w, pagePoints g.ctm (as ++ us)⟩], clipping⟩) := by
    intro us
    induction us with
    | nil =>
      intro as
      rcases hw with rfl | rfl <;> simp [Painter.run, Painter.exec, paramOf, numbers_map]
    | cons u us ih =>
      intro as
      rw [List.map_cons, List.cons_append, Painter.run]
      · have := ih (as ++ [u])
        simp only [List.map_append, List.map_cons, List.map_nil, List.append_assoc, List.cons_append, List.nil_append] at this
        exact this
      · simp
  simpa using hrun vs []

theorem stroke_paints (adv : TextMove) {p : Painter} (hp : p.args = []) (hc : p.clipping = false) : Paints adv p b!"S\n" [.path b!"S" p.path p.g] { p with path := [] } := by
  refine ⟨[.op b!"S"], by decide +kernel, ?_⟩
  obtain ⟨g, saved, args, tm, tlm, path, clipping⟩ := p
  simp only at hp hc
  subst hp hc
  rfl

/-- an oval in the stream -/
def ovalText (x y a b : ℚ) : Bytes := opOf [x, y - b] b!"m\n" ++
  opOf [x + 55228 / 100000 * a, y - b, x + a, y - 55228 / 100000 * b, x + a, y] b!"c\n" ++ opOf [x + a, y + 55228 / 100000 * b, x + 55228 / 100000 * a, y + b, x, y + b] b!"c\n" ++
  opOf [x - 55228 / 100000 * a, y + b, x - a, y + 55228 / 100000 * b, x - a, y] b!"c\n" ++ opOf [x - a, y - 55228 / 100000 * b, x - 55228 / 100000 * a, y - b, x, y - b] b!"c S\n"

theorem oval_paints (adv : TextMove) {p : Painter} (hp : Idle p) (x y a b : ℚ) {s : Bytes} (hs : s = ovalText x y a b) :
    ∃ m, PathIs p.g b!"S" (ovalPath x y a b) m ∧ Paints adv p s [m] p := by
  have zm : lexer .ground b!"m\n" = ([.op b!"m"], .ground) := by decide +kernel
  have zc : lexer .ground b!"c\n" = ([.op b!"c"], .ground) := by decide +kernel
  have zs : lexer .ground b!"c " = ([.op b!"c"], .ground) := by decide +kernel
  obtain ⟨ha, hq, hc⟩ := hp
  obtain ⟨v0, g0, l0⟩ := seg_paints adv ha (Or.inl rfl) zm [x, y - b]
  obtain ⟨v1, g1, l1⟩ := seg_paints adv (p := { p with path := p.path ++ [⟨b!"m", pagePoints p.g.ctm v0⟩] }) ha (Or.inr rfl) zc [x + 55228 / 100000 * a, y - b, x + a, y - 55228 / 100000 * b, x + a, y]
  obtain ⟨v2, g2, l2⟩ := seg_paints adv (p := { p with path := p.path ++ [⟨b!"m", pagePoints p.g.ctm v0⟩] ++ [⟨b!"c", pagePoints p.g.ctm v1⟩] }) ha (Or.inr rfl) zc
    [x + a, y + 55228 / 100000 * b, x + 55228 / 100000 * a, y + b, x, y + b]
  obtain ⟨v3, g3, l3⟩ := seg_paints adv (p := { p with path := p.path ++ [⟨b!"m", pagePoints p.g.ctm v0⟩] ++ [⟨b!"c", pagePoints p.g.ctm v1⟩] ++ [⟨b!"c", pagePoints p.g.ctm v2⟩] }) ha (Or.inr rfl) zc
    [x - 55228 / 100000 * a, y + b, x - a, y + 55228 / 100000 * b, x - a, y]
  obtain ⟨v4, g4, l4⟩ := seg_paints adv (p := { p with path := p.path ++ [⟨b!"m", pagePoints p.g.ctm v0⟩] ++ [⟨b!"c", pagePoints p.g.ctm v1⟩] ++ [⟨b!"c", pagePoints p.g.ctm v2⟩] ++
    [⟨b!"c", pagePoints p.g.ctm v3⟩] }) ha (Or.inr rfl) zs [x - a, y - 55228 / 100000 * b, x - 55228 / 100000 * a, y - b, x, y - b]
  have l5 := stroke_paints adv (p := { p with path := p.path ++ [⟨b!"m", pagePoints p.g.ctm v0⟩] ++ [⟨b!"c", pagePoints p.g.ctm v1⟩] ++ [⟨b!"c", pagePoints p.g.ctm v2⟩] ++
    [⟨b!"c", pagePoints p.g.ctm v3⟩] ++ [⟨b!"c", pagePoints p.g.ctm v4⟩] }) ha hc
  have hall := Paints.append (Paints.append (Paints.append (Paints.append (Paints.append l0 l1) l2) l3) l4) l5
  have hpe : { p with path := [] } = p := by
    obtain ⟨g, saved, args, tm, tlm, path, clipping⟩ := p
    simp only at hq
    rw [hq]
  obtain ⟨p0, q0, rfl, e0, f0⟩ := near2 g0
  obtain ⟨p1, q1, p2, q2, p3, q3, rfl, e1, f1, e2, f2, e3, f3⟩ := near6 g1
  obtain ⟨p4, q4, p5, q5, p6, q6, rfl, e4, f4, e5, f5, e6, f6⟩ := near6 g2
  obtain ⟨p7, q7, p8, q8, p9, q9, rfl, e7, f7, e8, f8, e9, f9⟩ := near6 g3
  obtain ⟨pa, qa, pb, qb, pc, qc, rfl, ea, fa, eb, fb, ec, fc⟩ := near6 g4
  refine ⟨_, ⟨[(b!"m", [(p0, q0)]), (b!"c", [(p1, q1), (p2, q2), (p3, q3)]), (b!"c", [(p4, q4), (p5, q5), (p6, q6)]), (b!"c", [(p7, q7), (p8, q8), (p9, q9)]),
    (b!"c", [(pa, qa), (pb, qb), (pc, qc)])], ?_, rfl⟩, ?_⟩
  · simp only [ovalPath, List.forall₂_cons, List.forall₂_nil_left_iff, and_true, true_and]
    exact ⟨⟨e0, f0⟩, ⟨⟨e1, f1⟩, ⟨e2, f2⟩, e3, f3⟩, ⟨⟨e4, f4⟩, ⟨e5, f5⟩, e6, f6⟩, ⟨⟨e7, f7⟩, ⟨e8, f8⟩, e9, f9⟩, ⟨ea, fa⟩, ⟨eb, fb⟩, ec, fc⟩
  · rw [hpe, hq] at hall
    rw [hs, ovalText]
    have e : ∀ l : List ℚ, opOf l b!"c S\n" = opOf l b!"c " ++ b!"S\n" := fun l => by simp [opOf]
    rw [e]
    simpa only [List.append_assoc, List.nil_append, List.map_cons, List.map_nil, List.cons_append, pagePoints] using hall

/-- operators with numbers that set a parameter -/
theorem set_paints (adv : TextMove) {p : Painter} (hp : Idle p) {k w tail : Bytes} (hk : paramOf w = some k) (hl : lexer .ground tail = ([.op w], .ground)) (qs : List ℚ) :
    ∃ vs, List.Forall₂ Near vs qs ∧ Paints adv p (opOf qs tail) [] { p with g := p.g.set k w (vs.map Lexeme.num) } := by
  obtain ⟨vs, h1, h2⟩ := lexes_opOf hl qs
  refine ⟨vs, h1, _, h2, ?_⟩
  obtain ⟨g, saved, args, tm, tlm, path, clipping⟩ := p
  obtain ⟨h1, h2, h3⟩ := hp
  simp only at h1 h2 h3
  subst h1 h2 h3
  have hrun : ∀ (us : List ℚ) (as : List Lexeme), Painter.run adv ⟨g, saved, as, tm, tlm, [], false⟩ (us.map Lexeme.num ++ [.op w]) =
      ([], ⟨g.set k w (as ++ us.map Lexeme.num), saved, [], tm, tlm, [], false⟩) := by
    intro us
    induction us with
    | nil => intro as; simp [Painter.run, Painter.exec, hk]
    | cons u us ih => intro as; rw [List.map_cons, List.cons_append, Painter.run]; rw [ih]; simp; simp
  simpa using hrun vs []

theorem fixRange10_eq (v : ℚ) : fixRange10 v = clamp v := by
  unfold fixRange10 clamp
  split_ifs with h1 h2
  · rw [max_eq_left (le_trans (min_le_right _ _) h1.le)]
  · rw [min_eq_left h2.le, max_eq_right (by norm_num)]
  · rw [min_eq_right (not_lt.1 h2), max_eq_right (not_lt.1 h1)]

theorem list2 {a b a' b' : ℚ} (h1 : a = a') (h2 : b = b') : [a, b] = [a', b'] := by rw [h1, h2]

theorem list6 {a b c d e f a' b' c' d' e' f' : ℚ} (h1 : a = a') (h2 : b = b') (h3 : c = c') (h4 : d = d') (h5 : e = e') (h6 : f = f') :
    [a, b, c, d, e, f] = [a', b', c', d', e', f'] := by rw [h1, h2, h3, h4, h5, h6]

theorem oval_stream (fonts : List GFont) (H x1 y1 x2 y2 : ℚ) : (GCache.oval H x1 y1 x2 y2).stream fonts = .ok (ovalText ((x1 + x2) / 2) (H - (y1 + y2) / 2) ((x2 - x1) / 2) ((y2 - y1) / 2)) := by
  unfold ovalText
  rw [GCache.stream]
  rw [list2 (a := x1 + (x2 - x1) / 2) (b := H - y2) (a' := (x1 + x2) / 2) (b' := H - (y1 + y2) / 2 - (y2 - y1) / 2) (by ring) (by ring)]
  rw [list6 (a := x1 + (x2 - x1) / 2 + (x2 - x1) / 2 * (55228 / 100000)) (b := H - y2) (c := x2) (d := H - (y1 + (y2 - y1) / 2) - (y2 - y1) / 2 * (55228 / 100000)) (e := x2) (f := H - (y1 + (y2 - y1) / 2))
    (a' := (x1 + x2) / 2 + 55228 / 100000 * ((x2 - x1) / 2)) (b' := H - (y1 + y2) / 2 - (y2 - y1) / 2) (c' := (x1 + x2) / 2 + (x2 - x1) / 2)
    (d' := H - (y1 + y2) / 2 - 55228 / 100000 * ((y2 - y1) / 2)) (e' := (x1 + x2) / 2 + (x2 - x1) / 2) (f' := H - (y1 + y2) / 2) (by ring) (by ring) (by ring) (by ring) (by ring) (by ring)]
  rw [list6 (a := x2) (b := H - (y1 + (y2 - y1) / 2) + (y2 - y1) / 2 * (55228 / 100000)) (c := x1 + (x2 - x1) / 2 + (x2 - x1) / 2 * (55228 / 100000)) (d := H - y1) (e := x1 + (x2 - x1) / 2) (f := H - y1)
    (a' := (x1 + x2) / 2 + (x2 - x1) / 2) (b' := H - (y1 + y2) / 2 + 55228 / 100000 * ((y2 - y1) / 2)) (c' := (x1 + x2) / 2 + 55228 / 100000 * ((x2 - x1) / 2))
    (d' := H - (y1 + y2) / 2 + (y2 - y1) / 2) (e' := (x1 + x2) / 2) (f' := H - (y1 + y2) / 2 + (y2 - y1) / 2) (by ring) (by ring) (by ring) (by ring) (by ring) (by ring)]
  rw [list6 (a := x1 + (x2 - x1) / 2 - (x2 - x1) / 2 * (55228 / 100000)) (b := H - y1) (c := x1) (d := H - (y1 + (y2 - y1) / 2) + (y2 - y1) / 2 * (55228 / 100000)) (e := x1) (f := H - (y1 + (y2 - y1) / 2))
    (a' := (x1 + x2) / 2 - 55228 / 100000 * ((x2 - x1) / 2)) (b' := H - (y1 + y2) / 2 + (y2 - y1) / 2) (c' := (x1 + x2) / 2 - (x2 - x1) / 2)
    (d' := H - (y1 + y2) / 2 + 55228 / 100000 * ((y2 - y1) / 2)) (e' := (x1 + x2) / 2 - (x2 - x1) / 2) (f' := H - (y1 + y2) / 2) (by ring) (by ring) (by ring) (by ring) (by ring) (by ring)]
  rw [list6 (a := x1) (b := H - (y1 + (y2 - y1) / 2) - (y2 - y1) / 2 * (55228 / 100000)) (c := x1 + (x2 - x1) / 2 - (x2 - x1) / 2 * (55228 / 100000)) (d := H - y2) (e := (x1 + x2) / 2) (f := H - (y1 + y2) / 2 - (y2 - y1) / 2)
    (a' := (x1 + x2) / 2 - (x2 - x1) / 2) (b' := H - (y1 + y2) / 2 - 55228 / 100000 * ((y2 - y1) / 2)) (c' := (x1 + x2) / 2 - 55228 / 100000 * ((x2 - x1) / 2))
    (d' := H - (y1 + y2) / 2 - (y2 - y1) / 2) (e' := (x1 + x2) / 2) (f' := H - (y1 + y2) / 2 - (y2 - y1) / 2) (by ring) (by ring) (by ring) (by ring) (by ring) (by ring)]

/-- a colour -/
theorem color_paints (adv : TextMove) {p : Painter} (hp : Idle p) {k w : Bytes} (hk : paramOf w = some k) (hl : lexer .ground (w ++ b!"\n") = ([.op w], .ground)) (r v b : UInt8) :
    ∃ x y z, Component x r ∧ Component y v ∧ Component z b ∧ Paints adv p (colorVal r ++ b!" " ++ colorVal v ++ b!" " ++ colorVal b ++ b!" " ++ (w ++ b!"\n")) []
      { p with g := p.g.set k w [.num x, .num y, .num z] } := by
  have e : ∀ x y z : ℚ, opOf [x, y, z] (w ++ b!"\n") = fmt2 x ++ b!" " ++ fmt2 y ++ b!" " ++ fmt2 z ++ b!" " ++ (w ++ b!"\n") := fun x y z => by simp [opOf]
  unfold colorVal
  rw [← e]
  obtain ⟨vs, h1, h2⟩ := set_paints adv hp hk hl
    [(r.toNat : ℚ) * (392156862745 / 100000000000000), (v.toNat : ℚ) * (392156862745 / 100000000000000), (b.toNat : ℚ) * (392156862745 / 100000000000000)]
  obtain _ | ⟨n1, h1⟩ := h1
  obtain ⟨y, z, rfl, n2, n3⟩ := near2 h1
  exact ⟨_, y, z, component_value n1, component_value n2, component_value n3, h2⟩

theorem draw_paints {env : GEnv} {H : ℚ} {c : GCall} {k : GCache} (hc : c.draws env H = some k) (fonts : List GFont) (adv : TextMove) {p : Painter} (hp : Idle p) :
    ∃ s ms g', k.stream fonts = .ok s ∧ Drawn env.upper H c p.g ms g' ∧ Paints adv p s ms { p with g := g' } := by
  cases c with
  | setLineWidth w =>
    cases hc
    obtain ⟨vs, h1, h2⟩ := set_paints adv hp (k := b!"w") (w := b!"w") (tail := b!"w\n") (by decide) (by decide +kernel) [w]
    obtain ⟨a, rfl, ha⟩ := near1 h1
    exact ⟨_, _, _, rfl, ⟨rfl, a, ha, rfl⟩, h2⟩
  | setLineType t =>
    cases hc
    refine ⟨_, [], _, rfl, ⟨rfl, rfl⟩, ?_⟩
    obtain ⟨g, saved, args, tm, tlm, path, clipping⟩ := p
    obtain ⟨h1, h2, h3⟩ := hp
    simp only at h1 h2 h3
    subst h1 h2 h3
    split_ifs
    · exact ⟨[.open, .num 5, .close, .num 2, .op b!"d"], by decide +kernel, rfl⟩
    · exact ⟨[.open, .num 2, .num 3, .close, .num 11, .op b!"d"], by decide +kernel, rfl⟩
    · exact ⟨[.open, .close, .num 0, .op b!"d"], by decide +kernel, rfl⟩
  | line x1 y1 x2 y2 =>
    cases hc
    obtain ⟨m, h1, h2⟩ := lineOp_paints adv hp x1 (H - y1) x2 (H - y2)
    exact ⟨_, _, _, rfl, ⟨rfl, m, rfl, h1⟩, h2⟩
  | rectFromLowerLeft x y w h st =>
    cases hc
    obtain ⟨m, h1, h2⟩ := rect_paints adv hp x (H - y) w h st
    exact ⟨_, _, _, rfl, ⟨rfl, m, rfl, h1⟩, h2⟩
  | rectFromUpperLeft x y w h st =>
    cases hc
    obtain ⟨m, h1, h2⟩ := rect_paints adv hp x (H - (y + h)) w h st
    exact ⟨_, _, _, rfl, ⟨rfl, m, rfl, by rw [sub_sub]; exact h1⟩, h2⟩
  | oval x1 y1 x2 y2 =>
    cases hc
    obtain ⟨m, h1, h2⟩ := oval_paints adv hp ((x1 + x2) / 2) (H - (y1 + y2) / 2) ((x2 - x1) / 2) ((y2 - y1) / 2) rfl
    exact ⟨_, _, _, oval_stream fonts H x1 y1 x2 y2, ⟨rfl, m, rfl, h1⟩, h2⟩
  | curve x0 y0 x1 y1 x2 y2 x3 y3 st =>
    cases hc
    obtain ⟨m, h1, h2⟩ := curve_paints adv hp x0 (H - y0) x1 (H - y1) x2 (H - y2) x3 (H - y3) (toUpper env.upper (trimSpace st))
    exact ⟨_, _, _, rfl, ⟨rfl, m, rfl, h1⟩, h2⟩
  | setGrayFill v =>
    cases hc
    obtain ⟨vs, h1, h2⟩ := set_paints adv hp (k := b!"fill") (w := b!"g") (tail := b!"g\n") (by decide) (by decide +kernel) [fixRange10 v]
    obtain ⟨a, rfl, ha⟩ := near1 h1
    exact ⟨_, _, _, rfl, ⟨rfl, a, by rw [← fixRange10_eq]; exact ha, rfl⟩, h2⟩
  | setGrayStroke v =>
    cases hc
    obtain ⟨vs, h1, h2⟩ := set_paints adv hp (k := b!"stroke") (w := b!"G") (tail := b!"G\n") (by decide) (by decide +kernel) [fixRange10 v]
    obtain ⟨a, rfl, ha⟩ := near1 h1
    exact ⟨_, _, _, rfl, ⟨rfl, a, by rw [← fixRange10_eq]; exact ha, rfl⟩, h2⟩
  | setFillColor r v b =>
    cases hc
    obtain ⟨x, y, z, h1, h2, h3, h4⟩ := color_paints adv hp (k := b!"fill") (w := b!"rg") (by decide) (by decide +kernel) r v b
    exact ⟨colorVal r ++ b!" " ++ colorVal v ++ b!" " ++ colorVal b ++ b!" " ++ b!"rg\n", [], _, by rw [GCache.stream, if_neg (by simp)], ⟨rfl, x, y, z, h1, h2, h3, rfl⟩, h4⟩
  | setStrokeColor r v b =>
    cases hc
    obtain ⟨x, y, z, h1, h2, h3, h4⟩ := color_paints adv hp (k := b!"stroke") (w := b!"RG") (by decide) (by decide +kernel) r v b
    exact ⟨colorVal r ++ b!" " ++ colorVal v ++ b!" " ++ colorVal b ++ b!" " ++ b!"RG\n", [], _, by rw [GCache.stream, if_pos rfl], ⟨rfl, x, y, z, h1, h2, h3, rfl⟩, h4⟩
  | _ => cases hc

theorem draws_paint {env : GEnv} {H : ℚ} (fonts : List GFont) (adv : TextMove) {cs : List GCall} {ks : List GCache} (hk : List.Forall₂ (fun c k => c.draws env H = some k) cs ks) :
    ∀ {s : Bytes} {p : Painter}, Idle p → cachesStream fonts ks = .ok s → ∃ ms g', DrawnAll env.upper H cs p.g ms g' ∧ Paints adv p s ms { p with g := g' } := by
  induction hk with
  | nil =>
    intro s p hp h
    simp only [cachesStream, Res.ok.injEq] at h
    subst h
    exact ⟨[], p.g, .nil, Paints.nil _ _⟩
  | @cons c k cs ks h1 h2 ih =>
    intro s p hp h
    obtain ⟨s1, m1, g1, a1, a2, a3⟩ := draw_paints h1 fonts adv hp
    simp only [cachesStream, a1, bind, Res.bind] at h
    cases hr : cachesStream fonts ks with
    | ok r =>
      rw [hr] at h
      simp only [Res.ok.injEq] at h
      subst h
      obtain ⟨m2, g2, b1, b2⟩ := ih (p := { p with g := g1 }) (by obtain ⟨a, b, c⟩ := hp; exact ⟨a, b, c⟩) hr
      exact ⟨m1 ++ m2, g2, .cons a2 b1, Paints.append a3 b2⟩
    | err e => rw [hr] at h; simp at h
    | panic => rw [hr] at h; simp at h
    | hang => rw [hr] at h; simp at h

end Verif
