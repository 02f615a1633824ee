import Verif.Spec.GoText
import Verif.Theorems.GoSession
/-!
# Texts and images of sessions of GoPdf (C87)
-/
namespace Verif
open Spec

theorem border_paints (adv : TextMove) {p : Painter} (hp : Idle p) (border : Nat) (x y w h lw pageHeight : ℚ) :
    ∃ ms, BorderIs border p.g (cell pageHeight x y w h) (lw / 2) ms ∧ Paints adv p (drawBorder border x y w h lw pageHeight) ms p := by
  have one : ∀ (c : Prop) [Decidable c] (x1 y1 x2 y2 : ℚ), ∃ ms, (if c then ∃ m, ms = [m] ∧ Stroke p.g x1 y1 x2 y2 m else ms = []) ∧ Paints adv p (if c then lineOp x1 y1 x2 y2 else []) ms p := by
    intro c _ x1 y1 x2 y2
    by_cases hc : c
    · simp only [if_pos hc]
      obtain ⟨m, s, q⟩ := lineOp_paints adv hp x1 y1 x2 y2
      exact ⟨[m], ⟨m, rfl, s⟩, q⟩
    · simp only [if_neg hc]
      exact ⟨[], rfl, Paints.nil adv p⟩
  have e : lw * (1 / 2) = lw / 2 := by ring
  unfold drawBorder
  simp only [e]
  obtain ⟨t, t1, t2⟩ := one (border &&& 4 = 4) (x - lw / 2) (pageHeight - y) (x + w + lw / 2) (pageHeight - y)
  obtain ⟨l, l1, l2⟩ := one (border &&& 8 = 8) x (pageHeight - y) x (pageHeight - y - h)
  obtain ⟨r, r1, r2⟩ := one (border &&& 2 = 2) (x + w) (pageHeight - y) (x + w) (pageHeight - y - h)
  obtain ⟨u, u1, u2⟩ := one (border &&& 1 = 1) (x - lw / 2) (pageHeight - y - h) (x + w + lw / 2) (pageHeight - y - h)
  exact ⟨t ++ l ++ r ++ u, ⟨t, l, r, u, rfl, t1, l1, r1, u1⟩, Paints.append (Paints.append (Paints.append t2 l2) r2) u2⟩

/-- the cache of a text -/
def Spec.Inscribed.cache (w : Inscribed) (H : ℚ) (sum : Int) : GText :=
  { font := w.font, rect := w.cell.bind Prod.fst, color := w.color, gray := w.gray, fontCount := w.idx, size := w.size, style := w.style, setX := w.turn, x := w.x, y := w.y, pageHeight := H
    isCell := w.cell.isSome, opt := (w.cell.map Prod.snd).getD {}, lineWidth := w.lineWidth, content := (createContent w.state w.text w.size).1, text := w.text
    cellW := ((w.cell.bind Prod.fst).map GRect.w).getD (textWidth sum w.size)
    cellH := ((w.cell.bind Prod.fst).map GRect.h).getD
      (convertTypoUnit w.state.ttf.typoAscender w.state.ttf.unitsPerEm w.size - convertTypoUnit w.state.ttf.typoDescender w.state.ttf.unitsPerEm w.size)
    textW := textWidth sum w.size }

theorem riseAfter_plain {f : FontState} (h : f.textrise = none) (text : Bytes) (fs : Int) : ∀ (rs : List Nat) (rise : Option (Bytes × List Lexeme)) (left pos : Nat),
    riseAfter f text fs rise left pos rs = rise
  | [], _, _, _ => rfl
  | r :: rs, rise, left, pos => by
    rw [riseAfter, riseAfter_plain h]
    simp [riseOf, h]

theorem written_paints (adv : TextMove) {p : Painter} (hp : Idle p) {w : Inscribed} {H : ℚ} {sum : Int} {F : GFont} (hF : F.ttf = w.state.ttf) (ht : w.state.textrise = none)
    (h0 : 0 < w.state.ttf.unitsPerEm) (hs : (createContent w.state w.text w.size).2 = .ok sum)
    (hu : w.style &&& 4 = 4 → 0 ≤ ((w.state.ttf.underlineThickness : ℚ) / w.state.ttf.unitsPerEm) * w.size) :
    ∃ ms p', Paints adv p ((w.cache H sum).stream F) ms p' ∧ Idle p' ∧ TextShown H w p.g ms p'.g := by
  have e : ∀ v : Int, convertTypoUnit v w.state.ttf.unitsPerEm w.size = (v : ℚ) * w.size / w.state.ttf.unitsPerEm := by
    intro v; unfold convertTypoUnit; ring
  have hw : textWidth sum w.size = (sum : ℚ) * w.size / 1000 := by unfold textWidth; ring
  have hr : RiseNumbers w.state w.text w.size := by intro fn hfn; rw [ht] at hfn; cases hfn
  have z1 : (w.cache H sum).cellW = (cellSize w ((sum : ℚ) * w.size / 1000)).w := by
    unfold Inscribed.cache cellSize
    rw [hw]
    cases w.cell.bind Prod.fst <;> rfl
  have z2 : (w.cache H sum).cellH = (cellSize w ((sum : ℚ) * w.size / 1000)).h := by
    unfold Inscribed.cache cellSize
    simp only [e]
    cases w.cell.bind Prod.fst <;> rfl
  unfold GText.stream
  rw [z1, z2, hF]
  generalize hZ : cellSize w ((sum : ℚ) * w.size / 1000) = Z at *
  obtain ⟨X, Y, hX, hY, hpl⟩ : ∃ X Y, (if (w.cache H sum).isCell then calX (w.cache H sum).opt.align (w.cache H sum).x Z.w (w.cache H sum).textW else (w.cache H sum).x) = X ∧
      (if (w.cache H sum).isCell then calY (w.cache H sum).opt.align (w.cache H sum).pageHeight (w.cache H sum).y Z.h
        (convertTypoUnit w.state.ttf.typoAscender w.state.ttf.unitsPerEm (w.cache H sum).size) (convertTypoUnit w.state.ttf.typoDescender w.state.ttf.unitsPerEm (w.cache H sum).size)
        else (w.cache H sum).pageHeight - (w.cache H sum).y) = Y ∧
      (match w.cell with
      | none => X = w.x ∧ Y = H - w.y
      | some (_, o) => Placed o.align (textBox X Y ((sum : ℚ) * w.size / 1000) ((w.state.ttf.typoAscender : ℚ) * w.size / w.state.ttf.unitsPerEm)
          ((w.state.ttf.typoDescender : ℚ) * w.size / w.state.ttf.unitsPerEm)) (cell H w.x w.y Z.w Z.h)) := by
    refine ⟨_, _, rfl, rfl, ?_⟩
    cases hc : w.cell with
    | none => simp [Inscribed.cache, hc]
    | some c =>
      obtain ⟨r, o⟩ := c
      simp only [Inscribed.cache, hc, Option.isSome_some, if_true, Option.map_some, Option.getD_some, hw, e]
      exact ⟨C54_horizontal _ _ _ _ _ _ _ _ _ _, C54_vertical _ _ _ _ _ _ _ _ _ _⟩
  simp only [hX, hY]
  obtain ⟨x, y, hx, hy, q1⟩ := begin_paints adv hp X Y w.idx w.size
  generalize hp1 : ({ p with g := (p.g.set b!"TL" b!"TL" [.num (-y)]).set b!"Tf" b!"Tf" [.name (b!"F" ++ itoa w.idx), .num w.size], tm := .shift x y, tlm := .shift x y } : Painter) = p1 at q1
  have r1 : Idle p1 := by subst hp1; exact ⟨hp.args, hp.path, hp.clipping⟩
  have b1 : p.g.But [b!"TL", b!"Tf"] p1.g := by
    subst hp1
    exact But.trans (But.set _ _ (by decide) _ _) (But.set _ _ (by decide) _ _)
  obtain ⟨g2, b2, f2, q2⟩ := colorOp_paints adv r1 w.color
  obtain ⟨gs, ts, p3, hgs, q3, a3, ⟨v3, w3⟩, b3, s3, t3, c3, o3⟩ := createContent_paints (adv := adv) (p0 := { p1 with g := g2 }) (x := x) (y := y) hr h0 hs r1.args (by subst hp1; rfl)
  have r3 : Idle p3 := ⟨a3, t3.trans r1.path, c3.trans r1.clipping⟩
  have hts : g2.param b!"Ts" = p.g.param b!"Ts" := by rw [b2.2.2 _ (by decide), b1.2.2 _ (by decide)]
  have q4 := end_paints adv (p := p3) a3
  obtain ⟨us, hus, q5⟩ : ∃ us, (if w.style &&& 4 = 4 then ∃ m, us = [m] ∧ Filled p3.g w.x
      (H - (w.y - ((w.state.ttf.underlinePosition : ℚ) / w.state.ttf.unitsPerEm) * w.size) - 7 / 10 * w.size) Z.w
      (-(((w.state.ttf.underlineThickness : ℚ) / w.state.ttf.unitsPerEm) * w.size)) m else us = []) ∧
      Paints adv p3 (if w.style &&& 4 = 4 then underlineOp w.state.ttf w.size w.x w.y (w.x + Z.w) H else []) us p3 := by
    by_cases h4 : w.style &&& 4 = 4
    · simp only [if_pos h4]
      obtain ⟨m, hm, hq⟩ := underlineOp_paints adv r3 w.state.ttf w.size w.x w.y (w.x + Z.w) H (hu h4)
      rw [show w.x + Z.w - w.x = Z.w by ring] at hm
      exact ⟨[m], ⟨m, rfl, hm⟩, hq⟩
    · simp only [if_neg h4]
      exact ⟨[], rfl, Paints.nil adv p3⟩
  obtain ⟨es, hes, q6⟩ := border_paints adv r3 ((w.cell.map (fun c => c.2.border)).getD 0) w.x w.y Z.w Z.h w.lineWidth H
  have hb : (w.cache H sum).opt.border = (w.cell.map (fun c => c.2.border)).getD 0 := by
    unfold Inscribed.cache
    cases w.cell <;> rfl
  subst hZ
  refine ⟨ts ++ us ++ es, p3, ?_, r3, sum, X, Y, gs, hs, hgs, hpl, ?_, ⟨?_, g2, x, y, ts, us, es, rfl, hx, hy, ?_, ?_, ?_, o3, by rw [v3, hts], b3, hus, hes⟩⟩
  · have := Paints.append q1 (Paints.append q2 (Paints.append q3 (Paints.append q4 (Paints.append q5 q6))))
    rw [hb]
    simpa [List.append_assoc, Inscribed.cache] using this
  · rw [w3, riseAfter_plain ht, hts]
  · exact But.mono (by decide) (But.trans (But.mono (ls := [b!"TL", b!"Tf", b!"fill", b!"Ts"]) (by decide) b1)
      (But.trans (But.mono (ls := [b!"TL", b!"Tf", b!"fill", b!"Ts"]) (by decide) b2) (But.mono (ls := [b!"TL", b!"Tf", b!"fill", b!"Ts"]) (by decide) b3)))
  · exact But.trans (But.mono (by decide) b1) (But.mono (by decide) b2)
  · rw [b2.2.2 _ (by decide)]
    subst hp1
    simp [GState.set]
  · have e1 : p1.g.param b!"fill" = p.g.param b!"fill" := b1.2.2 _ (by decide)
    unfold FillOf at f2 ⊢
    rw [e1] at f2
    exact f2

/-! ### texts -/

theorem caches_last {g : Gp} (h : Drawable g.kinds g.contentIdx) {p : Option GRect × List GCache} (hp : (sheetsOf g.kinds).getLast? = some p) : p.2 = g.caches := by
  unfold Gp.caches
  generalize hkk : g.kinds = kk at h hp
  generalize hcc : g.contentIdx = o at h
  cases h with
  | start h =>
    have := viewOf_others [] kk h
    simp only [List.nil_append, show viewOf [] = [] from rfl] at this
    simp [sheetsOf, this] at hp
  | page h =>
    unfold sheetsOf at hp
    rw [viewOf_page _ _ _ h] at hp
    simp at hp
    subst hp
    rfl
  | @content ks l cs hcs hl hv =>
    have e : (g.slots[ks.length]?).map (fun s => s.obj.kind) = some (.content cs) := by
      have : g.kinds[ks.length]? = some (.content cs) := by rw [hkk]; simp
      unfold Gp.kinds at this
      rwa [List.getElem?_map] at this
    obtain ⟨s, hs, hk⟩ := Option.map_eq_some_iff.1 e
    unfold sheetsOf at hp
    rw [viewOf_content _ _ _ hl] at hp
    rcases hv with hv | ⟨vs, i, z, hv⟩
    · simp [hv, onLast] at hp
    · rw [hv, onLast_append] at hp
      simp at hp
      subst hp
      simp only [Option.bind_some, hs, Option.map_some]
      cases ho : s.obj <;> rw [ho] at hk <;> simp [GObj.kind] at hk
      subst hk
      simp

theorem write_ok {g : Gp} {text : Bytes} {cell : Option (Option GRect × GCellOpt)} (h : (g.write text cell).res = .ok ()) :
    ∃ i f fonts p, g.font = some i ∧ g.fonts[i]? = some f ∧ fonts = g.fonts.modify i (fun _ => { f with chars := (addChars f.ttf f.chars text).1 }) ∧
      (addChars f.ttf f.chars text).2 = .ok () ∧ (appendText fonts g.caches (g.newText i cell) text).2 = .ok p ∧
      (g.write text cell).state = { Gp.put { g with fonts := fonts } (fun cs => (appendText fonts cs (g.newText i cell) text).1) with x := p.1, y := p.2 } := by
  unfold Gp.write at h ⊢
  split at h
  · simp at h
  · rename_i i hf
    split at h
    · simp at h
    · rename_i f hi
      simp only at h
      cases hr : (addChars f.ttf f.chars text).2 with
      | ok u =>
        rw [hr] at h
        simp only at h
        have hn : ({ g with fonts := g.fonts.modify i (fun _ => { f with chars := (addChars f.ttf f.chars text).1 }) } : Gp).newText i cell = g.newText i cell := rfl
        have hc : ({ g with fonts := g.fonts.modify i (fun _ => { f with chars := (addChars f.ttf f.chars text).1 }) } : Gp).caches = g.caches := rfl
        rw [hn, hc] at h
        cases ha : (appendText (g.fonts.modify i (fun _ => { f with chars := (addChars f.ttf f.chars text).1 })) g.caches (g.newText i cell) text).2 with
        | ok p =>
          refine ⟨i, f, _, p, hf, hi, rfl, hr, ha, ?_⟩
          simp only [hr, hn, hc, ha]
        | _ => rw [ha] at h; simp at h
      | _ => rw [hr] at h; simp at h

/-- the cache of a text before anything is written -/
def Spec.Inscribed.blank (w : Inscribed) (H : ℚ) : GText :=
  { font := w.font, rect := w.cell.bind Prod.fst, color := w.color, gray := w.gray, fontCount := w.idx, size := w.size, style := w.style, setX := w.turn, x := w.x, y := w.y, pageHeight := H
    isCell := w.cell.isSome, opt := (w.cell.map Prod.snd).getD {}, lineWidth := w.lineWidth }

/-- the cache of what is on a page of the height `H` -/
def Cached (env : GEnv) (H : ℚ) : Thing → GCache → Prop
  | .draw c, k => c.draws env H = some k
  | .text w, k => ∃ sum, (createContent w.state w.text w.size).2 = .ok sum ∧ k = .text (w.cache H sum)
  | .image n x y r, k => k = .image n x y H r

theorem same_continues (v w : Inscribed) (H : ℚ) (sum : Int) : (v.cache H sum).same (w.blank H) = true ↔ Continues v w := by
  unfold GText.same Continues Inscribed.cache Inscribed.blank
  simp [and_assoc]

theorem create_ok {v w : Inscribed} {H : ℚ} {c : GText} {F : GFont} {t : Bytes} (hc : ∃ a b d e, c = { v.blank H with content := a, textW := b, cellW := d, cellH := e })
    (hw : w = { v with state := F.state, text := t }) (h : ({ c with text := t }.create F).2 = .ok ()) :
    ∃ sum, (createContent w.state w.text w.size).2 = .ok sum ∧ ({ c with text := t }.create F).1 = w.cache H sum := by
  obtain ⟨a, b, d, e, rfl⟩ := hc
  subst hw
  unfold GText.create at h ⊢
  simp only [Inscribed.blank] at h ⊢
  cases hcc : (createContent F.state t v.size).2 with
  | ok s =>
    refine ⟨s, rfl, ?_⟩
    simp only [Inscribed.cache]
    rfl
  | _ => rw [hcc] at h; simp at h

theorem append_cached {env : GEnv} {H : ℚ} {fonts : List GFont} {ts : List Thing} {cs : List GCache} (hc : List.Forall₂ (Cached env H) ts cs) {w : Inscribed} {F : GFont}
    (hw : fonts[w.font]? = some F) (hst : w.state = F.state) (hv : ∀ v, .text v ∈ ts → ∃ F, fonts[v.font]? = some F) {p : ℚ × ℚ}
    (h : (appendText fonts cs (w.blank H) w.text).2 = .ok p) : List.Forall₂ (Cached env H) (writeOn fonts ts w) (appendText fonts cs (w.blank H) w.text).1 := by
  -- a new text
  have new : ∀ (hm : ∀ last, cs.getLast? = some (.text last) → last.same (w.blank H) ≠ true), List.Forall₂ (Cached env H) (ts ++ [.text w]) (appendText fonts cs (w.blank H) w.text).1 := by
    intro hm
    have e : appendText fonts cs (w.blank H) w.text = (cs ++ [.text ({ w.blank H with text := w.text }.create F).1], (appendText fonts cs (w.blank H) w.text).2) := by
      have hf : fonts[(w.blank H).font]? = some F := hw
      have hb : (w.blank H).text = [] := rfl
      refine Prod.ext ?_ rfl
      unfold appendText
      cases hl : cs.getLast? with
      | none => simp only [hf, hb, List.nil_append]
      | some k =>
        cases k with
        | text last => simp only [if_neg (hm last hl), hf, hb, List.nil_append]
        | _ => simp only [hf, hb, List.nil_append]
    have e2 : ({ w.blank H with text := w.text }.create F).2 = .ok () := by
      have hf : fonts[(w.blank H).font]? = some F := hw
      have hb : (w.blank H).text = [] := rfl
      unfold appendText at h
      cases hcr : ({ w.blank H with text := w.text }.create F).2 with
      | ok u => rfl
      | _ =>
        cases hl : cs.getLast? with
        | none => simp only [hl, hf, hb, List.nil_append, hcr] at h; simp at h
        | some k =>
          cases k with
          | text last => simp only [hl, if_neg (hm last hl), hf, hb, List.nil_append, hcr] at h; simp at h
          | _ => simp only [hl, hf, hb, List.nil_append, hcr] at h; simp at h
    rw [e]
    refine forall2_append hc (.cons ?_ .nil)
    obtain ⟨sum, s1, s2⟩ := create_ok (v := w) (w := w) (H := H) (c := w.blank H) (F := F) (t := w.text) ⟨_, _, _, _, rfl⟩ (by rw [← hst]) e2
    exact ⟨sum, s1, by rw [s2]⟩
  unfold writeOn
  rcases List.eq_nil_or_concat ts with rfl | ⟨ts', a, rfl⟩
  · rw [List.forall₂_nil_left_iff] at hc
    subst hc
    exact new (by simp)
  · rw [List.concat_eq_append] at *
    obtain ⟨cs', b, hcs, hab, rfl⟩ : ∃ cs' b, List.Forall₂ (Cached env H) ts' cs' ∧ Cached env H a b ∧ cs = cs' ++ [b] := by
      have h1 := List.forall₂_take ts'.length hc
      have h2 := List.forall₂_drop ts'.length hc
      rw [List.take_left' rfl] at h1
      rw [List.drop_left' rfl] at h2
      obtain ⟨b, r, h3, h4, h5⟩ := List.forall₂_cons_left_iff.1 h2
      rw [List.forall₂_nil_left_iff] at h4
      subst h4
      exact ⟨_, b, h1, h3, by rw [← h5, List.take_append_drop]⟩
    simp only [List.getLast?_append, List.getLast?_singleton, Option.some_or, List.dropLast_concat, Option.some.injEq] at new ⊢
    cases a with
    | text v =>
      obtain ⟨sum, s1, rfl⟩ := hab
      by_cases hcw : Continues v w
      · simp only [if_pos hcw]
        obtain ⟨G, hG⟩ := hv v (by simp)
        unfold appendText at h ⊢
        simp only [List.getLast?_append, List.getLast?_singleton, Option.some_or, (same_continues v w H sum).2 hcw, if_true, List.dropLast_concat] at h ⊢
        have hf : fonts[(v.cache H sum).font]? = some G := hG
        simp only [hf] at h ⊢
        have hb : (v.cache H sum).text = v.text := rfl
        simp only [hb] at h ⊢
        refine forall2_append hcs (.cons ?_ .nil)
        obtain ⟨sum, s1, s2⟩ := create_ok (v := v) (w := { v with state := G.state, text := v.text ++ w.text }) (H := H) (c := { v.cache H sum with text := [] }) (F := G) (t := v.text ++ w.text) ⟨_, _, _, _, rfl⟩ rfl (by
          show ({ v.cache H sum with text := v.text ++ w.text }.create G).2 = .ok ()
          cases hcr : ({ v.cache H sum with text := v.text ++ w.text }.create G).2 with
          | ok u => rfl
          | _ => rw [hcr] at h; simp at h)
        rw [hG]
        exact ⟨sum, s1, by simp only [Option.map_some, Option.getD_some]; rw [← s2]⟩
      · simp only [if_neg hcw]
        exact new (by intro l hl; simp at hl; subst hl; rw [Ne, same_continues]; exact hcw)
    | draw c =>
      refine new ?_
      cases b with
      | text l => cases c <;> simp [Cached, GCall.draws] at hab
      | _ => simp
    | image n x y r =>
      refine new ?_
      cases b with
      | text l => simp [Cached] at hab
      | _ => simp

/-! ### sessions with texts and images -/

theorem lastPage_eq (f : List Thing → List Thing) (l : List (Option GRect × List Thing)) : lastPage f l = onLast (fun p => (p.1, f p.2)) l := by
  rcases List.eq_nil_or_concat l with rfl | ⟨m, a, rfl⟩
  · rfl
  · rw [List.concat_eq_append, onLast_append]
    simp [lastPage]

/-- the fonts are the same, but for the characters used and the overrides -/
def FontsKept (l m : List GFont) : Prop := ∀ (i : Nat) (F : GFont), l[i]? = some F → ∃ F' : GFont, m[i]? = some F' ∧ F'.ttf = F.ttf

theorem FontsKept.refl (l : List GFont) : FontsKept l l := fun _ F h => ⟨F, h, rfl⟩

theorem FontsKept.append (l m : List GFont) : FontsKept l (l ++ m) := fun i F h => ⟨F, by rw [List.getElem?_append_left (by simpa using (List.getElem?_eq_some_iff.1 h).1)]; exact h, rfl⟩

theorem FontsKept.modify (l : List GFont) (i : Nat) (fn : GFont → GFont) (h : ∀ F, l[i]? = some F → (fn F).ttf = F.ttf) : FontsKept l (l.modify i fn) := by
  intro j F hF
  refine ⟨_, by rw [List.getElem?_modify, hF]; rfl, ?_⟩
  split
  · rename_i e
    subst e
    exact h F hF
  · rfl

theorem put_fields (g : Gp) (f : List GCache → List GCache) : (g.put f).fonts = g.fonts ∧ (g.put f).imgCaches = g.imgCaches ∧ (g.put f).countImg = g.countImg := by
  unfold Gp.put Gp.getContent
  cases g.contentIdx <;> simp [Gp.addObj]

/-- what the images used up to now are -/
def ImgsOk (g : Gp) : Prop := g.countImg = g.imgCaches.length ∧ ∀ (k : Nat) (c : Bytes × Nat × GRect), g.imgCaches[k]? = some c → c.2.1 = k

structure Held (env : GEnv) (z : GRect) (g : Gp) (l : List (Option GRect × List Thing)) : Prop where
  whole : g.Whole
  size : g.pageSize = z
  prot : g.protection = none
  pages : List.Forall₂ (fun p s => p.1 = s.1 ∧ List.Forall₂ (Cached env (s.1.getD z).h) s.2 p.2) (sheetsOf g.kinds) l
  cur : ∀ s, l.getLast? = some s → g.curSize = s.1.getD z
  fonts : ∀ s ∈ l, ∀ w, .text w ∈ s.2 → w.state.textrise = none ∧ ∃ F, g.fonts[w.font]? = some F ∧ F.ttf = w.state.ttf
  imgs : ImgsOk g

theorem start_held (env : GEnv) (z : GRect) : Held env z (Gp.start z none) [] := by
  obtain ⟨h1, h2⟩ := start_whole z none
  exact ⟨h1, rfl, rfl, by rw [h2]; exact .nil, by simp, by simp, rfl, by simp [Gp.start]⟩

theorem pages_last {env : GEnv} {z : GRect} {ps : List (Option GRect × List GCache)} {l : List (Option GRect × List Thing)} {f : List Thing → List Thing} {fn : List GCache → List GCache}
    (hp : List.Forall₂ (fun p s => p.1 = s.1 ∧ List.Forall₂ (Cached env (s.1.getD z).h) s.2 p.2) ps l)
    (h : ∀ p s, ps.getLast? = some p → l.getLast? = some s → List.Forall₂ (Cached env (s.1.getD z).h) s.2 p.2 → List.Forall₂ (Cached env (s.1.getD z).h) (f s.2) (fn p.2)) :
    List.Forall₂ (fun p s => p.1 = s.1 ∧ List.Forall₂ (Cached env (s.1.getD z).h) s.2 p.2) (onLast (fun p => (p.1, fn p.2)) ps) (lastPage f l) := by
  rw [lastPage_eq]
  rcases List.eq_nil_or_concat l with rfl | ⟨m, a, rfl⟩
  · rw [List.forall₂_nil_right_iff] at hp
    rw [hp]
    exact .nil
  · rw [List.concat_eq_append] at hp h ⊢
    rcases List.eq_nil_or_concat ps with rfl | ⟨m', a', rfl⟩
    · simp at hp
    · rw [List.concat_eq_append] at hp h ⊢
      have hl : m'.length = m.length := by simpa using hp.length_eq
      have h1 := List.forall₂_take m.length hp
      rw [List.take_left' hl, List.take_left' rfl] at h1
      have h2 := List.forall₂_drop m.length hp
      rw [List.drop_left' hl, List.drop_left' rfl, List.forall₂_cons] at h2
      rw [onLast_append, onLast_append]
      exact forall2_append h1 (.cons ⟨h2.1.1, h a' a (by simp) (by simp) h2.1.2⟩ .nil)

theorem mem_lastPage {f : List Thing → List Thing} {l : List (Option GRect × List Thing)} {s : Option GRect × List Thing} (h : s ∈ lastPage f l) :
    s ∈ l ∨ ∃ t, l.getLast? = some t ∧ s = (t.1, f t.2) := by
  rw [lastPage_eq] at h
  rcases List.eq_nil_or_concat l with rfl | ⟨m, a, rfl⟩
  · simp [onLast] at h
  · rw [List.concat_eq_append, onLast_append] at h
    rcases List.mem_append.1 h with h | h
    · exact .inl (by simp [h])
    · exact .inr ⟨a, by simp, by simpa using h⟩

theorem lastPage_last {f : List Thing → List Thing} {l : List (Option GRect × List Thing)} {s : Option GRect × List Thing} (h : (lastPage f l).getLast? = some s) :
    ∃ t, l.getLast? = some t ∧ t.1 = s.1 := by
  rw [lastPage_eq] at h
  rcases List.eq_nil_or_concat l with rfl | ⟨m, a, rfl⟩
  · simp [onLast] at h
  · rw [List.concat_eq_append, onLast_append] at h
    simp at h
    exact ⟨a, by simp, by rw [← h]⟩

/-- the last page is changed -/
theorem Held.last {env : GEnv} {z : GRect} {g h : Gp} {l : List (Option GRect × List Thing)} (hh : Held env z g l) {f : List Thing → List Thing} {fn : List GCache → List GCache} (hw : h.Whole)
    (hsz : h.pageSize = g.pageSize ∧ h.curSize = g.curSize ∧ h.protection = g.protection) (hs : sheetsOf h.kinds = onLast (fun p => (p.1, fn p.2)) (sheetsOf g.kinds))
    (hc : ∀ p s, (sheetsOf g.kinds).getLast? = some p → l.getLast? = some s → List.Forall₂ (Cached env (s.1.getD z).h) s.2 p.2 → List.Forall₂ (Cached env (s.1.getD z).h) (f s.2) (fn p.2))
    (hf : FontsKept g.fonts h.fonts)
    (ht : ∀ s, l.getLast? = some s → ∀ w, .text w ∈ f s.2 → .text w ∈ s.2 ∨ w.state.textrise = none ∧ ∃ F, h.fonts[w.font]? = some F ∧ F.ttf = w.state.ttf) (hi : ImgsOk h) :
    Held env z h (lastPage f l) := by
  have old : ∀ s ∈ l, ∀ w, .text w ∈ s.2 → w.state.textrise = none ∧ ∃ F, h.fonts[w.font]? = some F ∧ F.ttf = w.state.ttf := by
    intro s hs w hw
    obtain ⟨h1, F, h2, h3⟩ := hh.fonts s hs w hw
    obtain ⟨F', h4, h5⟩ := hf _ _ h2
    exact ⟨h1, F', h4, h5.trans h3⟩
  refine ⟨hw, hsz.1.trans hh.size, hsz.2.2.trans hh.prot, ?_, ?_, ?_, hi⟩
  · rw [hs]
    exact pages_last hh.pages hc
  · intro s hs
    obtain ⟨t, h1, h2⟩ := lastPage_last hs
    rw [hsz.2.1, ← h2]
    exact hh.cur t h1
  · intro s hs w hw
    rcases mem_lastPage hs with hs | ⟨t, h1, rfl⟩
    · exact old s hs w hw
    · rcases ht t h1 w hw with h2 | h2
      · exact old t (List.mem_of_getLast? h1) w h2
      · exact h2

/-- nothing on the pages is changed -/
theorem Held.same {env : GEnv} {z : GRect} {g h : Gp} {l : List (Option GRect × List Thing)} (hh : Held env z g l) (hw : h.Whole)
    (hsz : h.pageSize = g.pageSize ∧ h.curSize = g.curSize ∧ h.protection = g.protection) (hs : sheetsOf h.kinds = sheetsOf g.kinds) (hf : FontsKept g.fonts h.fonts) (hi : ImgsOk h) :
    Held env z h l := by
  refine ⟨hw, hsz.1.trans hh.size, hsz.2.2.trans hh.prot, by rw [hs]; exact hh.pages, fun s hs => by rw [hsz.2.1]; exact hh.cur s hs, ?_, hi⟩
  intro s hs w hw
  obtain ⟨h1, F, h2, h3⟩ := hh.fonts s hs w hw
  obtain ⟨F', h4, h5⟩ := hf _ _ h2
  exact ⟨h1, F', h4, h5.trans h3⟩

theorem addFont_kept (g : Gp) (family file : Bytes) (kerning : Bool) (style : Nat) :
    FontsKept g.fonts (g.addFont family file kerning style).state.fonts ∧ (g.addFont family file kerning style).state.imgCaches = g.imgCaches ∧
      (g.addFont family file kerning style).state.countImg = g.countImg := by
  unfold Gp.addFont
  split
  · dsimp only [Gp.addObj]
    refine ⟨?_, ?_, ?_⟩
    · split <;> exact FontsKept.append _ _
    · split <;> rfl
    · split <;> rfl
  all_goals exact ⟨FontsKept.refl _, rfl, rfl⟩

theorem kernOverride_kept (g : Gp) (family : Bytes) (fn : Nat → Nat → Nat → Nat → Int → Int) :
    FontsKept g.fonts (g.kernOverride family fn).state.fonts ∧ (g.kernOverride family fn).state.imgCaches = g.imgCaches ∧ (g.kernOverride family fn).state.countImg = g.countImg := by
  unfold Gp.kernOverride
  split
  · refine ⟨?_, rfl, rfl⟩
    exact FontsKept.modify _ _ _ (fun _ _ => rfl)
  · exact ⟨FontsKept.refl _, rfl, rfl⟩

theorem quiet_kept {env : GEnv} (g : Gp) {c : GCall} (hc : c.quiet = true) : FontsKept g.fonts (g.call env c).state.fonts ∧ (g.call env c).state.imgCaches = g.imgCaches ∧
    (g.call env c).state.countImg = g.countImg := by
  cases c with
  | addFont a b c d => exact addFont_kept g a b c d
  | setFont a b c => obtain ⟨x, y, z, w, e⟩ := setFont_fields g a b c; rw [show g.call env (.setFont a b c) = g.setFont a b c from rfl, e]; exact ⟨FontsKept.refl _, rfl, rfl⟩
  | kernOverride a b => exact kernOverride_kept g a b
  | setCompressLevel l => simp only [Gp.call, Gp.setCompressLevel]; split <;> [exact ⟨FontsKept.refl _, rfl, rfl⟩; split <;> exact ⟨FontsKept.refl _, rfl, rfl⟩]
  | setNoCompression | br _ | setLeftMargin _ | setTopMargin _ | setX _ | setY _ | setTextColor _ _ _ | setInfo _ => exact ⟨FontsKept.refl _, rfl, rfl⟩
  | _ => simp [GCall.quiet] at hc

theorem drawing_kept {env : GEnv} (g : Gp) {c : GCall} (hc : drawing c = true) : (g.call env c).state.fonts = g.fonts ∧ (g.call env c).state.imgCaches = g.imgCaches ∧
    (g.call env c).state.countImg = g.countImg := by
  cases c with
  | setLineWidth w => exact put_fields { g with lineWidth := w } _
  | setGrayFill v => exact put_fields { g with grayFill := v } _
  | _ => first | exact put_fields g _ | simp [drawing] at hc

theorem ImgsOk.of {g h : Gp} (hg : ImgsOk g) (h1 : h.imgCaches = g.imgCaches) (h2 : h.countImg = g.countImg) : ImgsOk h := by
  unfold ImgsOk
  rw [h1, h2]
  exact hg

theorem write_held {env : GEnv} {z : GRect} {g : Gp} {l : List (Option GRect × List Thing)} (hh : Held env z g l) {text : Bytes} {cell : Option (Option GRect × GCellOpt)}
    (h : (g.write text cell).res = .ok ()) : ∃ w, asInscribed g (g.write text cell).state.fonts text cell = some w ∧
      Held env z (g.write text cell).state (lastPage (fun ts => writeOn (g.write text cell).state.fonts ts w) l) := by
  obtain ⟨i, F, fonts, p, h1, h2, h3, h4, h5, h6⟩ := write_ok h
  have hF : fonts[i]? = some { F with chars := (addChars F.ttf F.chars text).1 } := by
    rw [h3, List.getElem?_modify, h2]
    simp
  have hk : FontsKept g.fonts fonts := by
    rw [h3]
    exact FontsKept.modify _ _ _ (fun G hG => by rw [h2] at hG; cases hG; rfl)
  have hst : (g.write text cell).state.fonts = fonts := by
    rw [h6]
    exact (put_fields { g with fonts := fonts } (fun cs => (appendText fonts cs (g.newText i cell) text).1)).1
  have hw := (write_whole hh.whole text cell).1
  obtain ⟨q1, q2⟩ := hh.whole.of_eq (h := { g with fonts := fonts }) rfl rfl rfl
  obtain ⟨q3, q4⟩ := q1.put (fun cs => (appendText fonts cs (g.newText i cell) text).1) (fun cs => appendText_ne _ _ _ _)
  have hsh : sheetsOf (g.write text cell).state.kinds = onLast (fun p => (p.1, (appendText fonts p.2 (g.newText i cell) text).1)) (sheetsOf g.kinds) := by
    rw [h6]
    exact q4.trans (by rw [q2])
  rw [hst]
  refine ⟨_, by unfold asInscribed; rw [h1]; simp only [Option.bind_some, hF, Option.map_some]; rfl, ?_⟩
  refine hh.last (fn := fun cs => (appendText fonts cs (g.newText i cell) text).1) hw ?_ hsh ?_ (by rw [hst]; exact hk) ?_ ?_
  · rw [h6]
    exact put_sizes { g with fonts := fonts } (fun cs => (appendText fonts cs (g.newText i cell) text).1)
  · intro p' s hp hs hc
    have hcs : p'.2 = g.caches := caches_last hh.whole.drawable hp
    have hH : (s.1.getD z).h = g.curSize.h := by rw [hh.cur s hs]
    rw [hH] at hc ⊢
    refine append_cached (F := { F with chars := (addChars F.ttf F.chars text).1 }) hc hF rfl ?_ (p := p) (by rw [hcs]; exact h5)
    intro v hv
    obtain ⟨_, G, e1, _⟩ := hh.fonts s (List.mem_of_getLast? hs) v hv
    obtain ⟨G', e2, _⟩ := hk _ _ e1
    exact ⟨G', e2⟩
  · intro s hs v hv
    rw [hst]
    unfold writeOn at hv
    have new : ∀ v, .text v ∈ s.2 ++ [.text ({ font := i, state := ({ F with chars := (addChars F.ttf F.chars text).1 } : GFont).state, idx := g.fontCount + 1, size := g.fontSize, style := g.fontStyle, color := g.color, gray := g.grayFill, turn := g.setXCount, x := g.x, y := g.y, cell := cell, lineWidth := g.lineWidth, text := text } : Inscribed)] → .text v ∈ s.2 ∨ v.state.textrise = none ∧ ∃ F, fonts[v.font]? = some F ∧ F.ttf = v.state.ttf := by
      intro v hv
      rcases List.mem_append.1 hv with hv | hv
      · exact .inl hv
      · simp only [List.mem_singleton, Thing.text.injEq] at hv
        subst hv
        exact .inr ⟨rfl, _, hF, rfl⟩
    split at hv
    · rename_i u hu
      split at hv
      · rcases List.mem_append.1 hv with hv | hv
        · exact .inl (List.mem_of_mem_dropLast hv)
        · simp only [List.mem_singleton, Thing.text.injEq] at hv
          subst hv
          obtain ⟨_, G, e1, _⟩ := hh.fonts s (List.mem_of_getLast? hs) u (List.mem_of_getLast? hu)
          obtain ⟨G', e2, _⟩ := hk _ _ e1
          refine .inr ⟨?_, G', e2, ?_⟩ <;> simp only [e2, Option.map_some, Option.getD_some] <;> rfl
      · exact new v hv
    · exact new v hv
  · obtain ⟨_, e1, e2⟩ := put_fields { g with fonts := fonts } (fun cs => (appendText fonts cs (g.newText i cell) text).1)
    exact hh.imgs.of (by rw [h6]; exact e1) (by rw [h6]; exact e2)

theorem draw_fields (g : Gp) (k : GCache) : (g.draw k).fonts = g.fonts ∧ (g.draw k).imgCaches = g.imgCaches ∧ (g.draw k).countImg = g.countImg := put_fields g _

theorem addImage_fields (g : Gp) (id : Bytes) (x y : ℚ) (r : GRect) (i : ImgInfo) : (g.addImage id x y r i).fonts = g.fonts ∧
    (g.addImage id x y r i).imgCaches = g.imgCaches ++ [(id, g.countImg, r)] ∧ (g.addImage id x y r i).countImg = g.countImg + 1 ∧
    (g.addImage id x y r i).pageSize = g.pageSize ∧ (g.addImage id x y r i).curSize = g.curSize ∧ (g.addImage id x y r i).protection = g.protection := by
  obtain ⟨h1, h2, h3⟩ := draw_fields (g.addObj (.image i)) (.image g.countImg x y g.curSize.h r)
  obtain ⟨s1, s2, s3⟩ := put_sizes (g.addObj (.image i)) (· ++ [.image g.countImg x y g.curSize.h r])
  unfold Gp.addImage
  exact ⟨h1, by simp only [h2, h3]; rfl, by simp only [h3]; rfl, s1, s2, s3⟩

theorem addMask_fields (g : Gp) (n : Nat) (m : Option ImgInfo) : ∃ slots, g.addMask n m = { g with slots := slots } := by
  cases m <;> exact ⟨_, rfl⟩

theorem addPalette_fields (g : Gp) (n : Nat) (i : ImgInfo) : ∃ slots, g.addPalette n i = { g with slots := slots } := by
  unfold Gp.addPalette
  split
  · exact ⟨_, rfl⟩
  · exact ⟨_, rfl⟩

theorem find_idx {α : Type} {p : α → Bool} : ∀ {l : List α} {c : α}, l.find? p = some c → ∃ k, l.findIdx? p = some k ∧ l[k]? = some c
  | [], c, h => by simp at h
  | a :: l, c, h => by
    rw [List.find?_cons] at h
    by_cases ha : p a = true
    · simp only [ha, Option.some.injEq] at h
      subst h
      exact ⟨0, by simp [List.findIdx?_cons, ha], rfl⟩
    · simp only [ha] at h
      obtain ⟨k, h1, h2⟩ := find_idx h
      exact ⟨k + 1, by simp [List.findIdx?_cons, ha, h1], by simpa using h2⟩

theorem find_new {α : Type} {p : α → Bool} {c : α} (hc : p c = true) : ∀ {l : List α}, l.find? p = none → (l ++ [c]).findIdx? p = some l.length
  | [], _ => by simp [List.findIdx?_cons, hc]
  | a :: l, h => by
    rw [List.find?_cons] at h
    by_cases ha : p a = true
    · simp [ha] at h
    · simp only [ha] at h
      simp [List.findIdx?_cons, ha, find_new hc h]

theorem image_held {env : GEnv} {z : GRect} {g : Gp} {l : List (Option GRect × List Thing)} (hh : Held env z g l) {id file : Bytes} {x y : ℚ} {rect : Option GRect}
    (h : (g.image env id file x y rect).res = .ok ()) : ∃ k, (g.image env id file x y rect).state.imgCaches.findIdx? (fun c => c.1 = id) = some k ∧
      Held env z (g.image env id file x y rect).state
        (lastPage (· ++ [.image k x y (rect.getD ((((g.image env id file x y rect).state.imgCaches[k]?).map (fun d => d.2.2)).getD ⟨0, 0⟩))]) l) := by
  have gen : ∀ (q : Gp) (k : Nat) (r : GRect), q.Whole → q.pageSize = g.pageSize ∧ q.curSize = g.curSize ∧ q.protection = g.protection → q.fonts = g.fonts → ImgsOk q →
      sheetsOf q.kinds = onLast (fun p => (p.1, p.2 ++ [.image k x y g.curSize.h r])) (sheetsOf g.kinds) → Held env z q (lastPage (· ++ [.image k x y r]) l) := by
    intro q k r h1 h2 h3 h4 h5
    refine hh.last (fn := (· ++ [.image k x y g.curSize.h r])) h1 h2 h5 ?_ (by rw [h3]; exact FontsKept.refl _) ?_ h4
    · intro p s _ hs hc
      refine forall2_append hc (.cons ?_ .nil)
      rw [Cached, hh.cur s hs]
    · intro s _ w hw
      simp at hw
      exact .inl hw
  unfold Gp.image at h ⊢
  split at h
  · rename_i c hc
    obtain ⟨k, k1, k2⟩ := find_idx hc
    have k3 := hh.imgs.2 _ _ k2
    split at h
    · rename_i r hr
      obtain ⟨e1, e2, e3⟩ := draw_fields g (.image c.2.1 x y g.curSize.h r)
      obtain ⟨d1, d2⟩ := hh.whole.draw (.image c.2.1 x y g.curSize.h r)
      refine ⟨k, by rw [e2]; exact k1, ?_⟩
      have er : rect.getD (((g.imgCaches[k]?).map (fun d => d.2.2)).getD ⟨0, 0⟩) = r := by
        rw [k3] at hr
        cases rect with
        | some a => simpa using hr
        | none =>
          simp only [Option.orElse_none] at hr
          rw [hr]
          rfl
      rw [e2, er]
      refine gen _ _ _ d1 (put_sizes g _) e1 (hh.imgs.of e2 e3) ?_
      rw [d2, k3]
    · simp at h
  · rename_i hn
    split at h
    · rename_i r i hr
      obtain ⟨a1, a2, a3, a4⟩ := addImage_fields g id x y r i
      obtain ⟨w1, w2⟩ := addImage_whole hh.whole id x y r i
      obtain ⟨w3, w4⟩ := addMask_whole w1 g.slots.length (createSMask i)
      obtain ⟨w5, w6⟩ := addPalette_whole w3 g.slots.length i
      obtain ⟨s1, b1⟩ := addMask_fields (g.addImage id x y r i) g.slots.length (createSMask i)
      obtain ⟨s2, b2⟩ := addPalette_fields ((g.addImage id x y r i).addMask g.slots.length (createSMask i)) g.slots.length i
      have hq : ∃ q, ((g.addImage id x y r i).addMask g.slots.length (createSMask i)).addPalette g.slots.length i = q ∧ q.imgCaches = g.imgCaches ++ [(id, g.countImg, r)] ∧ q.countImg = g.countImg + 1 ∧
          q.fonts = g.fonts ∧ q.pageSize = g.pageSize ∧ q.curSize = g.curSize ∧ q.protection = g.protection := by
        refine ⟨_, rfl, ?_⟩
        rw [b2, b1]
        exact ⟨a2, a3, a1, a4⟩
      obtain ⟨q, q0, q1, q2, q3, q4⟩ := hq
      rw [w4, w2] at w6
      rw [q0] at w5 w6 ⊢
      refine ⟨g.imgCaches.length, by rw [q1]; exact find_new (by simp) hn, ?_⟩
      have er : rect.getD (((q.imgCaches[g.imgCaches.length]?).map (fun d => d.2.2)).getD ⟨0, 0⟩) = r := by
        rw [q1]
        cases rect with
        | none => simp
        | some a =>
          simp only [bind, Res.bind] at hr
          split at hr <;> simp_all
      rw [er]
      refine gen q _ r w5 q4 q3 ?_ ?_
      · refine ⟨by rw [q1, q2, hh.imgs.1]; simp, ?_⟩
        intro k c hk
        rw [q1, List.getElem?_append] at hk
        split at hk
        · exact hh.imgs.2 _ _ hk
        · rename_i hlt
          rw [List.getElem?_singleton] at hk
          split at hk
          · rename_i h0
            simp at hk
            rw [← hk]
            simp only [hh.imgs.1]
            omega
          · simp at hk
      · rw [← hh.imgs.1]
        exact w6
    all_goals simp at h

theorem call_cases (c : GCall) : (∃ z, c = .addPage z) ∨ c.quiet = true ∨ drawing c = true ∨ (∃ t, c = .text t) ∨ (∃ r t o, c = .cell r t o) ∨ (∃ id f x y r, c = .image id f x y r) := by
  cases c <;> simp [GCall.quiet, drawing]

theorem thingStep_quiet {g g' : Gp} {c : GCall} (h : c.quiet = true) (l : List (Option GRect × List Thing)) : thingStep g g' c l = l := by
  cases c <;> simp_all [GCall.quiet, thingStep, drawing]

theorem thingStep_drawing {g g' : Gp} {c : GCall} (h : drawing c = true) (l : List (Option GRect × List Thing)) : thingStep g g' c l = lastPage (· ++ [.draw c]) l := by
  cases c <;> simp_all [thingStep, drawing]

theorem Held.step {env : GEnv} {z : GRect} {g : Gp} {l : List (Option GRect × List Thing)} (hh : Held env z g l) {c : GCall} (h : (g.call env c).res = .ok ()) :
    Held env z (g.call env c).state (thingStep g (g.call env c).state c l) := by
  have hw := call_whole (env := env) hh.whole c
  rcases call_cases c with ⟨w, rfl⟩ | hq | hd | ⟨t, rfl⟩ | ⟨r, t, o, rfl⟩ | ⟨id, f, x, y, r, rfl⟩
  · have hs := (addPage_whole hh.whole w).2
    refine ⟨hw, hh.size, hh.prot, ?_, ?_, ?_, hh.imgs⟩
    · show List.Forall₂ _ (sheetsOf (g.addPage w).kinds) _
      rw [hs]
      refine forall2_append hh.pages (.cons ⟨?_, .nil⟩ .nil)
      simp only [pageOpt, and_comm]
    · intro s hs
      simp only [thingStep, List.getLast?_append, List.getLast?_singleton, Option.some_or, Option.some.injEq] at hs
      subst hs
      show (if w.h = 0 ∧ w.w = 0 then none else some w).getD g.pageSize = _
      rw [hh.size]
      simp only [and_comm]
    · intro s hs v hv
      rcases List.mem_append.1 hs with hs | hs
      · exact hh.fonts s hs v hv
      · rw [List.mem_singleton.1 hs] at hv
        simp at hv
  · obtain ⟨f1, f2, f3⟩ := quiet_kept (env := env) g hq
    rw [thingStep_quiet hq]
    exact hh.same hw (quiet_sizes g hq) (quiet_sheets hh.whole hq) f1 (hh.imgs.of f2 f3)
  · obtain ⟨f1, f2, f3⟩ := drawing_kept (env := env) g hd
    obtain ⟨k, hk⟩ := draws_drawing (env := env) (H := g.curSize.h) hd
    rw [thingStep_drawing hd]
    refine hh.last (fn := (· ++ [k])) hw (drawing_sizes g hd) (draws_sheets hh.whole hk) ?_ (by rw [f1]; exact FontsKept.refl _) ?_ (hh.imgs.of f2 f3)
    · intro p s _ hs hc
      refine forall2_append hc (.cons ?_ .nil)
      rw [Cached, ← hh.cur s hs]
      exact hk
    · intro s _ w hw
      simp at hw
      exact .inl hw
  · obtain ⟨w, h1, h2⟩ := write_held hh (text := t) (cell := none) h
    unfold thingStep
    simp only [show (g.call env (.text t)).state = (g.write t none).state from rfl, h1]
    exact h2
  · obtain ⟨w, h1, h2⟩ := write_held hh (text := t) (cell := some (r, o)) h
    unfold thingStep
    simp only [show (g.call env (.cell r t o)).state = (g.write t (some (r, o))).state from rfl, h1]
    exact h2
  · obtain ⟨k, h1, h2⟩ := image_held hh h
    unfold thingStep
    simp only [show (g.call env (.image id f x y r)).state = (g.image env id f x y r).state from rfl, h1]
    exact h2

theorem held_run {env : GEnv} {z : GRect} {g g' : Gp} {cs : List GCall} (hr : GDone env g cs g') : ∀ {l : List (Option GRect × List Thing)}, Held env z g l → Held env z g' (thingsOf env g cs l) := by
  induction hr with
  | nil => intro l h; exact h
  | cons h1 _ ih => intro l h; exact ih (h.step h1)

/-! ### what is painted -/

theorem forall2_mem {α β : Type} {R : α → β → Prop} : ∀ {l : List α} {m : List β}, List.Forall₂ R l m → List.Forall₂ (fun a b => b ∈ m ∧ R a b) l m
  | [], _, .nil => .nil
  | _ :: _, _, .cons h t => .cons ⟨by simp, h⟩ ((forall2_mem t).imp (fun _ _ h => ⟨by simp [h.1], h.2⟩))

theorem image_paints (adv : TextMove) {p : Painter} (hp : Idle p) (n : Nat) (x y H : ℚ) (r : GRect) (fonts : List GFont) (upper : Upper) :
    ∃ s ms, GCache.stream fonts (.image n x y H r) = .ok s ∧ Paints adv p s ms p ∧ ThingShown upper H (.image n x y r) p.g ms p.g := by
  obtain ⟨w, h, u, v, h1, h2, h3, h4, h5⟩ := C70_image adv p hp.args { page := 0, x := x, y := y, w := r.w, h := r.h, img := 0, pageHeight := H } (xObjChar := b!"I") (n + 1) (by decide)
  refine ⟨_, _, rfl, ?_, rfl, w, h, u, v, h1, h2, h3, h4, rfl⟩
  have : (b!"q " ++ fmt2 r.w ++ b!" 0 0 " ++ fmt2 r.h ++ b!" " ++ fmt2 x ++ b!" " ++ fmt2 (H - (y + r.h)) ++ b!" cm /I" ++ itoa (n + 1) ++ b!" Do Q\n" : Bytes) =
    ImgContent.stream { page := 0, x := x, y := y, w := r.w, h := r.h, img := 0, pageHeight := H } b!"I" (n + 1) := by simp [ImgContent.stream]
  rw [this]
  exact h5

theorem things_paint {env : GEnv} {H : ℚ} (fonts : List GFont) (adv : TextMove) {ts : List Thing} {ks : List GCache} (hk : List.Forall₂ (Cached env H) ts ks) :
    ∀ {s : Bytes} {p : Painter}, Idle p → (∀ w, .text w ∈ ts → Legible w ∧ w.state.textrise = none ∧ ∃ F, fonts[w.font]? = some F ∧ F.ttf = w.state.ttf) → cachesStream fonts ks = .ok s →
      ∃ ms p', AllShown env.upper H ts p.g ms p'.g ∧ Paints adv p s ms p' ∧ Idle p' := by
  induction hk with
  | nil =>
    intro s p hp _ h
    simp only [cachesStream, Res.ok.injEq] at h
    subst h
    exact ⟨[], p, .nil, Paints.nil _ _, hp⟩
  | @cons t k ts ks h1 h2 ih =>
    intro s p hp hw h
    obtain ⟨s1, m1, p1, a1, a2, a3, a4⟩ : ∃ s1 m1 p1, k.stream fonts = .ok s1 ∧ ThingShown env.upper H t p.g m1 p1.g ∧ Paints adv p s1 m1 p1 ∧ Idle p1 := by
      cases t with
      | draw c =>
        obtain ⟨s1, m1, g1, a1, a2, a3⟩ := draw_paints h1 fonts adv hp
        exact ⟨s1, m1, { p with g := g1 }, a1, a2, a3, hp.args, hp.path, hp.clipping⟩
      | text w =>
        obtain ⟨sum, e1, rfl⟩ := h1
        obtain ⟨⟨w1, w2⟩, w3, F, w4, w5⟩ := hw w (by simp)
        obtain ⟨ms, p', b1, b2, b3⟩ := written_paints (H := H) adv hp w5 w3 w1 e1 w2
        refine ⟨_, ms, p', ?_, b3, b1, b2⟩
        have : fonts[(w.cache H sum).font]? = some F := w4
        simp only [GCache.stream, this]
      | image n x y r =>
        obtain rfl : k = .image n x y H r := h1
        obtain ⟨s1, m1, b1, b2, b3⟩ := image_paints adv hp n x y H r fonts env.upper
        exact ⟨s1, m1, p, b1, b3, b2, hp⟩
    simp only [cachesStream, a1, bind, Res.bind] at h
    cases hr : cachesStream fonts ks with
    | ok r =>
      rw [hr] at h
      simp only [Res.ok.injEq] at h
      subst h
      obtain ⟨m2, p2, b1, b2, b3⟩ := ih (p := p1) a4 (fun w hm => hw w (by simp [hm])) hr
      exact ⟨m1 ++ m2, p2, .cons a2 b1, Paints.append a3 b2, b3⟩
    | err e => rw [hr] at h; simp at h
    | panic => rw [hr] at h; simp at h
    | hang => rw [hr] at h; simp at h

/-- **C87**: What a session writes and draws is what the file shows.  Calls of `GoPdf` are made, all of which succeed, and then the document is written.  The file has a catalog and a page tree with
the pages asked for, in this order, with their sizes; the content of each page paints, in the order of the calls, the drawings, the texts (in the font, size and colours set, at the position, or
where the alignment in the cell says, underlined if the style says so, with the edges of the cell asked for) and the images asked for while it was the last page. -/
theorem C87_session_partial {env : GEnv} {z : GRect} {cs : List GCall} {g g' : Gp} {out : Bytes} (hr : GDone env (Gp.start z none) cs g)
    (h : g.compile env = (g', .ok out)) (hl : out.length < 10 ^ 10) (hz : ∀ l b, env.unzip (env.zipLevel l b) = some b)
    (hs : ∀ s ∈ thingsOf env (Gp.start z none) cs [], s.2 ≠ [] ∧ ∀ w, .text w ∈ s.2 → Legible w) :
    ∃ bodies trailer pages, FileHolds out bodies trailer ∧ TreeIs env.unzip bodies z pages ∧
      List.Forall₂ (fun s p => p.1 = s.1 ∧ ∀ adv, ∃ ms q, AllShown env.upper (s.1.getD z).h s.2 {} ms q.g ∧ Paints adv {} p.2 ms q) (thingsOf env (Gp.start z none) cs []) pages := by
  have hk := held_run hr (start_held env z)
  obtain ⟨bs, h1, _, h3⟩ := compile_holds h (by
    intro e
    have := hk.whole.laid
    rw [e] at this
    simp [Laid] at this) hl
  obtain ⟨pages, p1, p2⟩ := tree_of hk.whole hk.prot hz h1 (by
    intro p hp e
    obtain ⟨s, hs', q1, q2⟩ := forall2_right hk.pages hp
    rw [e, List.forall₂_nil_right_iff] at q2
    exact (hs s hs').1 q2)
  rw [hk.size] at p2
  refine ⟨_, _, pages, h3, p2, ?_⟩
  have hm : List.Forall₂ (fun p s => s ∈ thingsOf env (Gp.start z none) cs [] ∧ p.1 = s.1 ∧ List.Forall₂ (Cached env (s.1.getD z).h) s.2 p.2) (sheetsOf g.kinds) (thingsOf env (Gp.start z none) cs []) :=
    forall2_mem hk.pages
  refine forall2_comp ?_ hm p1
  rintro p s q ⟨a0, a1, a2⟩ ⟨b1, b2⟩
  refine ⟨b1.trans a1, fun adv => ?_⟩
  obtain ⟨ms, p', c1, c2, _⟩ := things_paint g.fonts adv a2 (p := {}) ⟨rfl, rfl, rfl⟩ (fun w hw => ⟨(hs s a0).2 w hw, hk.fonts s a0 w hw⟩) b2
  exact ⟨ms, p', c1, c2⟩

/-! ### the position afterwards -/

theorem append_position {fonts : List GFont} {cs : List GCache} {new : GText} {text : Bytes} {p : ℚ × ℚ} (h : (appendText fonts cs new text).2 = .ok p) :
    ∃ c, (appendText fonts cs new text).1.getLast? = some (.text c) ∧ p = (if c.opt.float = 0 ∨ c.opt.float &&& 2 = 2 ∨ c.isCell = false then new.x + c.cellW else new.x,
      if c.opt.float &&& 1 = 1 then new.y + c.cellH else new.y) := by
  unfold appendText at h ⊢
  simp only at h ⊢
  refine ⟨_, by rw [List.getLast?_append]; rfl, ?_⟩
  split at h
  · exact (Res.ok.inj h).symm
  all_goals simp at h

theorem writeOn_last (fonts : List GFont) (l : List Thing) (w : Inscribed) : ∃ v, (writeOn fonts l w).getLast? = some (.text v) := by
  unfold writeOn
  split
  · split
    · exact ⟨_, by rw [List.getLast?_append]; rfl⟩
    · exact ⟨_, by rw [List.getLast?_append]; rfl⟩
  · exact ⟨_, by rw [List.getLast?_append]; rfl⟩

theorem forall2_last {α β : Type} {R : α → β → Prop} {l : List α} {m : List β} (h : List.Forall₂ R l m) {a : α} {b : β} (ha : l.getLast? = some a) (hb : m.getLast? = some b) : R a b := by
  have h := List.rel_reverse h
  rw [← List.head?_reverse] at ha hb
  cases hl : l.reverse with
  | nil => rw [hl] at ha; simp at ha
  | cons x xs =>
    cases hm : m.reverse with
    | nil => rw [hm] at hb; simp at hb
    | cons y ys =>
      rw [hl, hm] at h
      rw [hl] at ha
      rw [hm] at hb
      cases h with
      | cons h _ => simp at ha hb; subst ha; subst hb; exact h

theorem write_position {env : GEnv} {z : GRect} {g : Gp} {l : List (Option GRect × List Thing)} (hh : Held env z g l) (hl : l ≠ []) {text : Bytes} {cell : Option (Option GRect × GCellOpt)}
    (h : (g.write text cell).res = .ok ()) {u : Inscribed} (hu : asInscribed g (g.write text cell).state.fonts text cell = some u) :
    ∃ s w sum, (lastPage (fun ts => writeOn (g.write text cell).state.fonts ts u) l).getLast? = some s ∧ s.2.getLast? = some (.text w) ∧ (createContent w.state w.text w.size).2 = .ok sum ∧
      (g.write text cell).state.x = g.x + (w.cell.elim (cellSize w ((sum : ℚ) * w.size / 1000)).w (fun c => if c.2.float = 0 ∨ c.2.float &&& 2 = 2 then (cellSize w ((sum : ℚ) * w.size / 1000)).w else 0)) ∧
      (g.write text cell).state.y = g.y + (w.cell.elim 0 (fun c => if c.2.float &&& 1 = 1 then (cellSize w ((sum : ℚ) * w.size / 1000)).h else 0)) := by
  obtain ⟨v, h0, h1⟩ := write_held hh h
  rw [hu, Option.some.injEq] at h0
  subst h0
  obtain ⟨i, F, fonts, p, e1, e2, e3, e4, e5, e6⟩ := write_ok h
  rcases List.eq_nil_or_concat l with rfl | ⟨m, s, rfl⟩
  · simp at hl
  rw [List.concat_eq_append] at *
  have hL : lastPage (fun ts => writeOn (g.write text cell).state.fonts ts u) (m ++ [s]) = m ++ [(s.1, writeOn (g.write text cell).state.fonts s.2 u)] := by
    rw [lastPage_eq, onLast_append]
  obtain ⟨w, hw⟩ := writeOn_last (g.write text cell).state.fonts s.2 u
  obtain ⟨q1, q2⟩ := hh.whole.of_eq (h := { g with fonts := fonts }) rfl rfl rfl
  obtain ⟨q3, q4⟩ := q1.put (fun cs => (appendText fonts cs (g.newText i cell) text).1) (fun cs => appendText_ne _ _ _ _)
  have hsh : sheetsOf (g.write text cell).state.kinds = onLast (fun p => (p.1, (appendText fonts p.2 (g.newText i cell) text).1)) (sheetsOf g.kinds) := by
    rw [e6]
    exact q4.trans (by rw [q2])
  have hp := h1.pages
  rw [hL, hsh] at hp
  have hne : ∃ m' a, sheetsOf g.kinds = m' ++ [a] := by
    rcases List.eq_nil_or_concat (sheetsOf g.kinds) with e | ⟨m', a, e⟩
    · have := hh.pages
      rw [e, List.forall₂_nil_left_iff] at this
      simp at this
    · exact ⟨m', a, by rw [e, List.concat_eq_append]⟩
  obtain ⟨m', a, ha⟩ := hne
  have hca : a.2 = g.caches := caches_last hh.whole.drawable (by rw [ha]; simp)
  rw [ha, onLast_append, hca] at hp
  have h3 := (forall2_last hp (a := (a.1, (appendText fonts g.caches (g.newText i cell) text).1)) (b := (s.1, writeOn (g.write text cell).state.fonts s.2 u)) (by simp) (by simp)).2
  obtain ⟨c, c1, c2⟩ := append_position e5
  obtain ⟨sum, c3, c4⟩ := forall2_last h3 hw c1
  simp only [GCache.text.injEq] at c4
  have hH : (cellSize w ((sum : ℚ) * w.size / 1000)).w = c.cellW ∧ (cellSize w ((sum : ℚ) * w.size / 1000)).h = c.cellH := by
    rw [c4]
    have hw : textWidth sum w.size = (sum : ℚ) * w.size / 1000 := by unfold textWidth; ring
    have e : ∀ v : Int, convertTypoUnit v w.state.ttf.unitsPerEm w.size = (v : ℚ) * w.size / w.state.ttf.unitsPerEm := by
      intro v; unfold convertTypoUnit; ring
    unfold Inscribed.cache cellSize
    simp only [hw, e]
    cases w.cell.bind Prod.fst <;> exact ⟨rfl, rfl⟩
  have hx : (g.newText i cell).x = g.x ∧ (g.newText i cell).y = g.y := ⟨rfl, rfl⟩
  refine ⟨(s.1, writeOn (g.write text cell).state.fonts s.2 u), w, sum, by rw [hL]; simp, hw, c3, ?_, ?_⟩
  · rw [e6]
    show p.1 = _
    rw [c2, hH.1]
    simp only [hx]
    rw [c4]
    cases hc : w.cell with
    | none => simp [Inscribed.cache, hc]
    | some o =>
      simp only [Inscribed.cache, hc, Option.isSome_some, Option.map_some, Option.getD_some, Option.elim_some, Bool.true_eq_false, or_false]
      split <;> simp
  · rw [e6]
    show p.2 = _
    rw [c2, hH.2]
    simp only [hx]
    rw [c4]
    cases hc : w.cell with
    | none => simp [Inscribed.cache, hc]
    | some o =>
      simp only [Inscribed.cache, hc, Option.map_some, Option.getD_some, Option.elim_some]
      split <;> simp

theorem thingsOf_append {env : GEnv} {g g' : Gp} {cs : List GCall} (hr : GDone env g cs g') (c : GCall) : ∀ l, thingsOf env g (cs ++ [c]) l = thingStep g' (g'.call env c).state c (thingsOf env g cs l) := by
  induction hr with
  | nil => intro l; rfl
  | cons _ _ ih => intro l; exact ih _

/-- **C87** (the position after a text): after a text the position is at the end of what is now the last text on the page (the new text, or that which it continues, measured from where the new text
began); after a cell it is at the right edge or below, as the option says. -/
theorem C87_position {env : GEnv} {z : GRect} {cs : List GCall} {g : Gp} (hr : GDone env (Gp.start z none) cs g) (hl : thingsOf env (Gp.start z none) cs [] ≠ []) {c : GCall}
    (hc : (∃ t, c = .text t) ∨ ∃ r t o, c = .cell r t o) (h : (g.call env c).res = .ok ()) :
    ∃ s w sum, (thingsOf env (Gp.start z none) (cs ++ [c]) []).getLast? = some s ∧ s.2.getLast? = some (.text w) ∧ (createContent w.state w.text w.size).2 = .ok sum ∧
      (g.call env c).state.x = g.x + (w.cell.elim (cellSize w ((sum : ℚ) * w.size / 1000)).w (fun c => if c.2.float = 0 ∨ c.2.float &&& 2 = 2 then (cellSize w ((sum : ℚ) * w.size / 1000)).w else 0)) ∧
      (g.call env c).state.y = g.y + (w.cell.elim 0 (fun c => if c.2.float &&& 1 = 1 then (cellSize w ((sum : ℚ) * w.size / 1000)).h else 0)) := by
  have hk := held_run hr (start_held env z)
  rw [thingsOf_append hr]
  rcases hc with ⟨t, rfl⟩ | ⟨r, t, o, rfl⟩
  · obtain ⟨u, h1, _⟩ := write_held hk (text := t) (cell := none) h
    have := write_position hk hl h h1
    unfold thingStep
    simp only [show (g.call env (.text t)).state = (g.write t none).state from rfl, h1]
    exact this
  · obtain ⟨u, h1, _⟩ := write_held hk (text := t) (cell := some (r, o)) h
    have := write_position hk hl h h1
    unfold thingStep
    simp only [show (g.call env (.cell r t o)).state = (g.write t (some (r, o))).state from rfl, h1]
    exact this

end Verif
