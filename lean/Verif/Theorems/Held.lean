import Verif.Theorems.Wrap
import Verif.Theorems.FontObj
import Verif.Theorems.Protected
import Verif.Theorems.SavedExample
/-!
# What calls do to the fonts
-/
namespace Verif
open Spec

/-- the font with more characters, or with other callbacks -/
structure FontGrown (f g : FontData) : Prop where
  same : g = { f with state := g.state }
  ttf : g.state.ttf = f.state.ttf
  keys : ∀ r ∈ f.state.chars.keys, r ∈ g.state.chars.keys
  ok : FontOK f.state.ttf f.state.chars → FontOK g.state.ttf g.state.chars

theorem FontGrown.refl (f : FontData) : FontGrown f f := ⟨rfl, rfl, fun _ h => h, id⟩

theorem FontGrown.trans {f g h : FontData} (a : FontGrown f g) (b : FontGrown g h) : FontGrown f h :=
  ⟨by rw [b.same, a.same], b.ttf.trans a.ttf, fun r hr => b.keys r (a.keys r hr), fun x => b.ok (a.ok x)⟩

/-- the same fonts, with more characters -/
structure FontsGrow (a b : App) : Prop where
  map : b.fontMap = a.fontMap
  fonts : List.Forall₂ FontGrown a.fonts b.fonts

theorem forall₂_refl_of {α : Type} {R : α → α → Prop} (h : ∀ x, R x x) : ∀ l : List α, List.Forall₂ R l l
  | [] => .nil
  | x :: l => .cons (h x) (forall₂_refl_of h l)

theorem forall₂_trans_of {α : Type} {R : α → α → Prop} (h : ∀ x y z, R x y → R y z → R x z) : ∀ {l m n : List α}, List.Forall₂ R l m → List.Forall₂ R m n → List.Forall₂ R l n
  | _, _, _, .nil, .nil => .nil
  | _, _, _, .cons a as, .cons b bs => .cons (h _ _ _ a b) (forall₂_trans_of h as bs)

theorem forall₂_modify {α : Type} {R : α → α → Prop} (h : ∀ x, R x x) (f : α → α) : ∀ (l : List α) (i : Nat), (∀ x, l[i]? = some x → R x (f x)) → List.Forall₂ R l (l.modify i f)
  | [], i, _ => by simp
  | x :: l, 0, hx => by
    rw [List.modify_zero_cons]
    exact .cons (hx x rfl) (forall₂_refl_of h l)
  | x :: l, i + 1, hx => by
    rw [List.modify_succ_cons]
    exact .cons (h x) (forall₂_modify h f l i (fun y hy => hx y (by simpa using hy)))

theorem FontsGrow.refl (a : App) : FontsGrow a a := ⟨rfl, forall₂_refl_of FontGrown.refl _⟩

theorem FontsGrow.of_eq {a b : App} (h1 : b.fontMap = a.fontMap) (h2 : b.fonts = a.fonts) : FontsGrow a b := ⟨h1, by rw [h2]; exact forall₂_refl_of FontGrown.refl _⟩

theorem FontsGrow.trans {a b c : App} (h : FontsGrow a b) (h' : FontsGrow b c) : FontsGrow a c :=
  ⟨h'.map.trans h.map, forall₂_trans_of (R := FontGrown) (fun _ _ _ x y => FontGrown.trans x y) h.fonts h'.fonts⟩

theorem grow_set {a : App} {n : Bytes} {i : Nat} {f : FontData} (h : a.font? n = some (i, f)) (s : FontState) (h1 : s.ttf = f.state.ttf)
    (h2 : ∀ r ∈ f.state.chars.keys, r ∈ s.chars.keys) (h3 : FontOK f.state.ttf f.state.chars → FontOK s.ttf s.chars) : FontsGrow a (a.setFontState i s) := by
  refine ⟨rfl, forall₂_modify FontGrown.refl _ _ _ fun x hx => ?_⟩
  have : x = f := by
    unfold App.font? at h
    split at h
    · simp at h
    · rename_i j hj
      cases hg : a.fonts[j]? with
      | none => rw [hg] at h; simp at h
      | some y =>
        rw [hg] at h
        simp only [Option.map_some, Option.some.injEq, Prod.mk.injEq] at h
        rw [h.1, hx] at hg
        simp only [Option.some.injEq] at hg
        rw [hg, h.2]
  subst this
  exact ⟨rfl, h1, h2, h3⟩

theorem grow_insert (env : Env) (a : App) (text : Bytes) (page : Int) (x y w h : ℚ) (align : Nat) (color : Option (Int × Int × Int)) :
    FontsGrow a (a.insert env text page x y w h align color).state := by
  unfold App.insert
  split
  · split
    · exact .refl a
    · rename_i i f hf
      refine FontsGrow.trans (b := { a with contents := a.contents ++ [_] }) (.of_eq rfl rfl) (grow_set (n := a.fontName) ?_ _ rfl (fun r hr => addRunes_keys _ r hr) (addRunes_ok _))
      exact hf
  all_goals exact .refl a

theorem grow_measure (env : Env) (a : App) (text : Bytes) : FontsGrow a (a.measureTextWidth env text).1 := by
  unfold App.measureTextWidth
  split
  · exact .refl a
  · rename_i i f hf
    have hst := measureText_state f.state text a.fontSize
    generalize measureText f.state text a.fontSize = r at hst ⊢
    obtain ⟨s, r⟩ := r
    simp only at hst
    subst hst
    have hg : FontsGrow a (a.setFontState i { f.state with chars := (addChars f.state.ttf f.state.chars text).1 }) :=
      grow_set hf _ rfl (fun r hr => addRunes_keys _ r hr) (addRunes_ok _)
    cases r with
    | panic => exact hg
    | hang => exact hg
    | _ => simp only; split <;> exact hg

theorem grow_wrapLoop (env : Env) (w step : ℚ) : ∀ (ts : List Bytes) (a : App) (st : WrapState), FontsGrow a (App.wrapLoop env w step a st ts).1
  | [], a, st => by simpa [App.wrapLoop] using .refl a
  | t :: ts, a, st => by
    rw [App.wrapLoop]
    split
    · exact grow_wrapLoop env w step ts a st
    · have hm := grow_measure env a (st.curr ++ t)
      generalize hr : a.measureTextWidth env (st.curr ++ t) = r at hm ⊢
      obtain ⟨a', r⟩ := r
      cases r with
      | ok q =>
        simp only at hm ⊢
        split
        · exact hm.trans (grow_wrapLoop env w step ts a' _)
        · exact hm.trans (grow_wrapLoop env w step ts a' _)
      | err e => exact hm
      | panic => exact hm
      | hang => exact hm

theorem grow_insertAll (env : Env) (page : Int) (x w h : ℚ) (align : Nat) (color : Option (Int × Int × Int)) (yo : ℚ) :
    ∀ (ls : List (Bytes × ℚ)) (a : App), FontsGrow a (App.insertAll env page x w h align color yo a ls).state
  | [], a => by simpa [App.insertAll] using .refl a
  | l :: ls, a => by
    rw [App.insertAll]
    have hi := grow_insert env a l.1 page x (l.2 - yo) w h align color
    generalize a.insert env l.1 page x (l.2 - yo) w h align color = s at hi ⊢
    obtain ⟨a', r⟩ := s
    cases r with
    | ok u => exact hi.trans (grow_insertAll env page x w h align color yo ls a')
    | err e => exact hi
    | panic => exact hi
    | hang => exact hi

theorem grow_insertWrap (env : Env) (a : App) (text : Bytes) (page : Int) (x y w h : ℚ) (align : Nat) (color : Option (Int × Int × Int))
    (br : Option (Bytes → Option (List Bytes))) : FontsGrow a (a.insertWrapText env text page x y w h align color br).state := by
  unfold App.insertWrapText
  split
  · exact grow_insert env _ _ _ _ _ _ _ _ _
  · split
    · exact .refl a
    · rename_i tokens _
      simp only
      have hl := grow_wrapLoop env w (a.fontSize + a.fontSize * (2 / 10)) tokens a { lines := [], y := y, prev := [], curr := [] }
      generalize App.wrapLoop env w (a.fontSize + a.fontSize * (2 / 10)) a { lines := [], y := y, prev := [], curr := [] } tokens = r at hl ⊢
      obtain ⟨a', r⟩ := r
      cases r with
      | ok st => exact hl.trans (grow_insertAll env page x w h align color _ _ _)
      | err e => exact hl
      | panic => exact hl
      | hang => exact hl

theorem grow_makeImg {env : Env} {a a' : App} {file : Bytes} {i : ImageData} (hm : a.makeImg env file = .ok (a', i)) : FontsGrow a a' := by
  unfold App.makeImg at hm
  rw [Res.bind_eq_ok] at hm
  obtain ⟨info, _, hm⟩ := hm
  split at hm
  · simp only [Res.ok.injEq, Prod.mk.injEq] at hm
    rw [← hm.1]; exact .refl a
  · simp only [Res.ok.injEq, Prod.mk.injEq] at hm
    rw [← hm.1]; exact .of_eq rfl rfl

theorem grow_addImg (env : Env) (a : App) (img : Nat) (page : Int) (x y w h : ℚ) : FontsGrow a (a.addImgContent env img page x y w h).state := by
  unfold App.addImgContent
  split
  · exact .of_eq rfl rfl
  all_goals exact .refl a

theorem grow_insertImg (env : Env) (a : App) (file : Bytes) (page : Int) (x y w h : ℚ) : FontsGrow a (a.insertImg env file page x y w h).state := by
  unfold App.insertImg
  split
  · rename_i a' i hm
    exact (grow_makeImg hm).trans (.trans (b := { a' with imgs := a'.imgs ++ [i] }) (.of_eq rfl rfl) (grow_addImg _ _ _ _ _ _ _ _))
  all_goals exact .refl a

/-- no call but adding a font and saving does more to the fonts -/
theorem grow_after (env : Env) (a : App) (c : Call) (h1 : ∀ n f, c ≠ .addFont n f) (h2 : c ≠ .save) : FontsGrow a (a.after env c) := by
  cases c with
  | insert => exact grow_insert env _ _ _ _ _ _ _ _ _
  | insertWrap => exact grow_insertWrap env _ _ _ _ _ _ _ _ _ _
  | measure => exact grow_measure env _ _
  | img => exact grow_insertImg env _ _ _ _ _ _ _
  | imgBase64 text page x y w hh =>
    show FontsGrow a (a.insertImgBase64 env text page x y w hh).state
    unfold App.insertImgBase64
    split
    · exact .refl a
    · exact grow_insertImg env _ _ _ _ _ _ _
  | imgCached file page x y w hh =>
    show FontsGrow a (a.insertImgWithCache env file page x y w hh).state
    unfold App.insertImgWithCache
    split
    · exact grow_addImg _ _ _ _ _ _ _ _
    · split
      · rename_i a' i hm
        exact (grow_makeImg hm).trans (.trans (b := { a' with imgs := a'.imgs ++ [i], imgMap := _ }) (.of_eq rfl rfl) (grow_addImg _ _ _ _ _ _ _ _))
      all_goals exact .refl a
  | addFont name file => exact absurd rfl (h1 _ _)
  | setFont name style size =>
    show FontsGrow a (a.setFont env name style size).state
    unfold App.setFont
    split
    · exact .of_eq rfl rfl
    · exact .refl a
  | textrise name fn =>
    show FontsGrow a (a.textriseOverride name fn).state
    unfold App.textriseOverride
    split
    · exact .refl a
    · rename_i hf
      exact grow_set hf _ rfl (fun _ hr => hr) id
  | kern name fn =>
    show FontsGrow a (a.kernOverride name fn).state
    unfold App.kernOverride
    split
    · exact .refl a
    · rename_i hf
      exact grow_set hf _ rfl (fun _ hr => hr) id
  | border s =>
    show FontsGrow a (a.showCellBorder s)
    unfold App.showCellBorder
    split <;> exact .of_eq rfl rfl
  | protect r q u o =>
    show FontsGrow a (a.setProtection env r q u o).state
    unfold App.setProtection
    split
    · exact .of_eq rfl rfl
    all_goals exact .refl a
  | duplicate t q => exact .of_eq rfl rfl
  | remove k => exact .of_eq rfl rfl
  | removeOthers k => exact .of_eq rfl rfl
  | save => exact absurd rfl h2

/-! ### the fonts of a program -/

/-- The fonts have their names and their characters have their glyphs. -/
structure FontsHeld (a : App) : Prop where
  chars : ∀ f ∈ a.fonts, FontOK f.state.ttf f.state.chars
  names : ∀ p ∈ a.fontMap, ∃ f, a.fonts[p.2]? = some f ∧ f.name = p.1

theorem rel_get {α β : Type} {R : α → β → Prop} {l : List α} {m : List β} (h : List.Forall₂ R l m) {i : Nat} {x : α} (hx : l[i]? = some x) : ∃ y, m[i]? = some y ∧ R x y := by
  induction h generalizing i with
  | nil => simp at hx
  | cons hr _ ih =>
    cases i with
    | zero => simp only [List.getElem?_cons_zero, Option.some.injEq] at hx ⊢; subst hx; exact ⟨_, rfl, hr⟩
    | succ i => simp only [List.getElem?_cons_succ] at hx ⊢; exact ih hx

theorem forall₂_mem {α β : Type} {R : α → β → Prop} {l : List α} {m : List β} (h : List.Forall₂ R l m) {y : β} (hy : y ∈ m) : ∃ x ∈ l, R x y := by
  induction h with
  | nil => simp at hy
  | cons hr _ ih =>
    rcases List.mem_cons.1 hy with rfl | hy
    · exact ⟨_, by simp, hr⟩
    · obtain ⟨x, hx, h⟩ := ih hy
      exact ⟨x, by simp [hx], h⟩

theorem FontsHeld.grow {a b : App} (h : FontsHeld a) (g : FontsGrow a b) : FontsHeld b := by
  constructor
  · intro f hf
    obtain ⟨f0, h0, hg⟩ := forall₂_mem g.fonts hf
    exact hg.ok (h.chars f0 h0)
  · intro p hp
    rw [g.map] at hp
    obtain ⟨f, hf, hn⟩ := h.names p hp
    obtain ⟨f', hf', hg⟩ := rel_get g.fonts hf
    exact ⟨f', hf', by rw [hg.same]; exact hn⟩

theorem FontsHeld.addFont {a : App} (h : FontsHeld a) (name file : Bytes) : FontsHeld (a.addFont name file).state := by
  unfold App.addFont
  split
  · exact h
  · split
    · refine ⟨fun f hf => ?_, fun p hp => ?_⟩
      · rcases List.mem_append.1 hf with hf | hf
        · exact h.chars f hf
        · simp only [List.mem_singleton] at hf
          subst hf
          exact FontOK.empty _
      · rcases List.mem_append.1 hp with hp | hp
        · obtain ⟨f, hf, hn⟩ := h.names p hp
          exact ⟨f, by simp only; rw [List.getElem?_append_left (lt_length_of_getElem? hf)]; exact hf, hn⟩
        · simp only [List.mem_singleton] at hp
          subst hp
          exact ⟨⟨name, _, 0, 0, [], [], [], [], []⟩, by simp only; rw [List.getElem?_append_right (le_refl _), Nat.sub_self]; rfl, rfl⟩
    all_goals exact h

theorem build_state {env : Env} {f f' : FontData} {s : Int} (h : f.build env s = .ok f') : f'.state = f.state ∧ f'.name = f.name := by
  unfold FontData.build at h
  rw [Res.bind_eq_ok] at h
  obtain ⟨cid, _, h⟩ := h
  rw [Res.bind_eq_ok] at h
  obtain ⟨dict, _, h⟩ := h
  simp only [Res.ok.injEq] at h
  subst h
  exact ⟨rfl, rfl⟩

/-- saving keeps names and states -/
def SameFont (f g : FontData) : Prop := g.state = f.state ∧ g.name = f.name

theorem buildFonts_same {env : Env} : ∀ (is : List Nat) (id : Int) (fs fs' : List FontData) (last : Int), buildFonts env is id fs = .ok (fs', last) → List.Forall₂ SameFont fs fs'
  | [], id, fs, fs', last, h => by
    simp only [buildFonts, Res.ok.injEq, Prod.mk.injEq] at h
    rw [← h.1]
    exact forall₂_refl_of (fun _ => ⟨rfl, rfl⟩) _
  | i :: t, id, fs, fs', last, h => by
    rw [buildFonts, Res.bind_eq_ok] at h
    obtain ⟨f, hf, h⟩ := h
    rw [Res.bind_eq_ok] at h
    obtain ⟨f', hb, h⟩ := h
    refine forall₂_trans_of (R := SameFont) (fun _ _ _ u v => ⟨v.1.trans u.1, v.2.trans u.2⟩) (m := fs.set i f') ?_ (buildFonts_same t _ _ _ _ h)
    have hs : fs.set i f' = fs.modify i (fun _ => f') := List.set_eq_modify _ _ _
    rw [hs]
    refine forall₂_modify (fun _ => ⟨rfl, rfl⟩) _ _ _ fun x hx => ?_
    rw [hx] at hf
    simp only [Res.ofOption, Res.ok.injEq] at hf
    subst hf
    exact build_state hb

theorem setIndexes_same : ∀ (is : List Nat) (cs : List CrFont) (fs : List FontData), List.Forall₂ SameFont fs (setIndexes is cs fs)
  | [], _, fs => by simpa [setIndexes] using forall₂_refl_of (fun _ => ⟨rfl, rfl⟩) _
  | _ :: _, [], fs => by simpa [setIndexes] using forall₂_refl_of (fun _ => ⟨rfl, rfl⟩) _
  | k :: is, c :: cs, fs => by
    rw [setIndexes]
    exact forall₂_trans_of (R := SameFont) (fun _ _ _ u v => ⟨v.1.trans u.1, v.2.trans u.2⟩) (forall₂_modify (fun _ => ⟨rfl, rfl⟩) (fun f => { f with fontIndex := c.idx }) fs k (fun x _ => ⟨rfl, rfl⟩)) (setIndexes_same is cs _)

theorem build_same {env : Env} {a : App} {b : Built} (h : a.build env = .ok b) : b.app.fontMap = a.fontMap ∧ List.Forall₂ SameFont a.fonts b.app.fonts := by
  unfold App.build at h
  rw [Res.bind_eq_ok] at h
  obtain ⟨⟨fonts, nextID⟩, hbf, h⟩ := h
  simp only at h
  rw [Res.bind_eq_ok] at h
  obtain ⟨⟨d, new⟩, hif, h⟩ := h
  simp only at h
  rw [Res.bind_eq_ok] at h
  obtain ⟨⟨pdf2, xs⟩, hii, h⟩ := h
  simp only at h
  rw [Res.bind_eq_ok] at h
  obtain ⟨streams, hst, h⟩ := h
  rw [Res.bind_eq_ok] at h
  obtain ⟨pdf3, hic, h⟩ := h
  rw [Res.bind_eq_ok] at h
  obtain ⟨objs, hen, h⟩ := h
  simp only [Res.ok.injEq] at h
  subst h
  exact ⟨rfl, forall₂_trans_of (R := SameFont) (fun _ _ _ u v => ⟨v.1.trans u.1, v.2.trans u.2⟩) (buildFonts_same _ _ _ _ _ hbf) (setIndexes_same _ _ _)⟩

theorem FontsHeld.build {env : Env} {a : App} {b : Built} (h : FontsHeld a) (hb : a.build env = .ok b) : FontsHeld b.app := by
  obtain ⟨h1, h2⟩ := build_same hb
  constructor
  · intro f hf
    obtain ⟨f0, h0, hg⟩ := forall₂_mem h2 hf
    rw [hg.1]
    exact h.chars f0 h0
  · intro p hp
    rw [h1] at hp
    obtain ⟨f, hf, hn⟩ := h.names p hp
    obtain ⟨f', hf', hg⟩ := rel_get h2 hf
    exact ⟨f', hf', hg.2.trans hn⟩

theorem FontsHeld.after {a : App} (h : FontsHeld a) (env : Env) (c : Call) : FontsHeld (a.after env c) := by
  by_cases h1 : ∃ n f, c = .addFont n f
  · obtain ⟨n, f, rfl⟩ := h1
    exact h.addFont n f
  · by_cases h2 : c = .save
    · subst h2
      show FontsHeld (a.saveTo env).1
      unfold App.saveTo
      split
      · rename_i b hb
        exact h.build hb
      all_goals exact h
    · exact h.grow (grow_after env a c (fun n f e => h1 ⟨n, f, e⟩) h2)

theorem FontsHeld.run : ∀ (calls : List (Env × Call)) {a : App}, FontsHeld a → FontsHeld (Run a calls)
  | [], _, h => h
  | c :: t, _, h => FontsHeld.run t (h.after c.1 c.2)

theorem FontsHeld.opened {env : Env} {raw : Bytes} {a : App} (h : Opened env raw a) : FontsHeld a ∧ ∀ f ∈ a.fonts, f.Unbuilt := by
  have h1 := h.1
  unfold App.openFrom at h1
  simp only at h1
  split at h1
  · simp only [Step.mk.injEq, and_true] at h1
    rw [← h1]
    exact ⟨⟨by simp [App.showCellBorder], by simp [App.showCellBorder]⟩, by simp [App.showCellBorder]⟩
  all_goals simp at h1

/-- nothing is written for the fonts before the document is saved -/
theorem unbuilt_run : ∀ (calls : List (Env × Call)) {a : App}, (∀ f ∈ a.fonts, f.Unbuilt) → (∀ c ∈ calls, c.2 ≠ .save) → ∀ f ∈ (Run a calls).fonts, f.Unbuilt
  | [], _, h, _ => h
  | c :: t, a, h, hc => by
    refine unbuilt_run t (a := a.after c.1 c.2) ?_ (fun c' hc' => hc c' (by simp [hc']))
    by_cases h1 : ∃ n f, c.2 = .addFont n f
    · obtain ⟨n, f, e⟩ := h1
      rw [e]
      show ∀ g ∈ (a.addFont n f).state.fonts, g.Unbuilt
      unfold App.addFont
      split
      · exact h
      · split
        · intro g hg
          rcases List.mem_append.1 hg with hg | hg
          · exact h g hg
          · simp only [List.mem_singleton] at hg
            subst hg
            exact ⟨rfl, rfl, rfl, rfl, rfl⟩
        all_goals exact h
    · intro g hg
      obtain ⟨g0, h0, hgr⟩ := forall₂_mem (grow_after c.1 a c.2 (fun n f e => h1 ⟨n, f, e⟩) (hc c (by simp))).fonts hg
      rw [hgr.same]
      exact h g0 h0

/-- after any calls, the font in use can be used -/
theorem using_of_run {env : Env} {raw : Bytes} {a : App} (ho : Opened env raw a) (calls : List (Env × Call)) {i : Nat} {f : FontData}
    (hf : (Run a calls).font? (Run a calls).fontName = some (i, f)) : Using (Run a calls) i f.state.ttf f.state.kernOverride := by
  refine ⟨f, hf, rfl, rfl, ((FontsHeld.opened ho).1.run calls).chars f ?_⟩
  unfold App.font? at hf
  split at hf
  · simp at hf
  · simp only [Option.map_eq_some_iff, Prod.mk.injEq] at hf
    obtain ⟨g, hg, _, rfl⟩ := hf
    exact List.mem_of_getElem? hg

/-- a value in which a font is in use -/
def inUse : App := ((withFont {} b!"A").setFont plainEnv b!"A" [] 10).state

/-- The hypotheses of `C23_call` and `C25_call` hold: four tokens become two lines. -/
example : Using inUse 0 drawFont none ∧ (∃ b, inUse.measureTextWidth plainEnv b!"AB" = (b, .ok (25 / 2))) ∧
    ∃ b, inUse.insertWrapText plainEnv b!"AB A C" 1 10 20 15 40 0 none (some (fun _ => some [b!"A", b!"B", b!" C", b!"A"])) = ⟨b, .ok ()⟩ ∧ b.contents.length = 3 := by
  refine ⟨⟨_, rfl, rfl, rfl, FontOK.empty _⟩, ⟨_, Prod.ext rfl ?_⟩, ?_⟩
  · decide +kernel
  · obtain ⟨s, hs⟩ : ∃ s, s = inUse.insertWrapText plainEnv b!"AB A C" 1 10 20 15 40 0 none (some (fun _ => some [b!"A", b!"B", b!" C", b!"A"])) := ⟨_, rfl⟩
    have h1 : s.res = .ok () ∧ s.state.contents.length = 3 := by rw [hs]; decide +kernel
    exact ⟨s.state, by rw [← hs, ← h1.1], h1.2⟩

/-- **C75** for programs: a file is opened, any calls but `Save` follow, then `Save` succeeds. -/
theorem C75_run_partial {env env' : Env} {raw : Bytes} {a : App} {calls : List (Env × Call)} {b : Built} {tree : Int} {ct node : Props} {pages : List FlatPage} {L : List PageC}
    (ho : Opened env raw a) (hcalls : ∀ c ∈ calls, c.2 ≠ .save) (hp : (Run a calls).protection = none) (hb : (Run a calls).build env' = .ok b)
    (h : SaveDoc env'.unzip (Run a calls).doc.objs (Run a calls).doc.rootObjID tree ct node pages L) (h64 : b.lastID < 2 ^ 63) {name : Bytes} {k : Nat}
    (hpm : (name, k) ∈ (Run a calls).fontMap) (hn : GoodName name) :
    ∃ f f' cid uni desc file w fontFile, (Run a calls).fonts[k]? = some f ∧ b.app.fonts[k]? = some f' ∧
      (∀ g ∈ pages, ∀ fs, resourcesOf (Run a calls).doc.objs g.id b!"Font" = some fs → named b.doc.objs g.id b!"Font" (b!"F" ++ itoa f'.fontIndex) = some f'.fontID) ∧
      FontGraph b.doc.objs f'.fontID (subsetName name) cid uni desc file w (unicodeStream f.state.chars) (env'.zip fontFile) fontFile.length f.state.ttf ∧
      makeFont f.state.ttf f.state.chars = .ok fontFile ∧
      ∀ r ∈ f.state.chars.keys, ∃ g x, charToGlyph f.state.ttf r = .ok g ∧ runeWidth f.state.ttf r = .ok x ∧ widthIn w g = some (x : ℚ) := by
  have hh := (FontsHeld.opened ho).1.run calls
  obtain ⟨f, hf, hfn⟩ := hh.names _ hpm
  have hmem := List.mem_of_getElem? hf
  simp only at hfn
  subst hfn
  obtain ⟨f', cid, uni, desc, file, w, ff, r⟩ := C75_saved_partial (ho.inv.run calls) hp hb h h64 hpm hf (unbuilt_run calls (FontsHeld.opened ho).2 hcalls f hmem) hn (hh.chars f hmem)
  exact ⟨f, f', cid, uni, desc, file, w, ff, hf, r⟩

set_option maxRecDepth 20000 in
/-- The other hypotheses of `C75_saved_partial` hold for the second sample of `SavedExample`. -/
example : ∃ f, (workOn freeSample).fonts[0]? = some f ∧ f.Unbuilt ∧ GoodName f.name ∧ FontOK f.state.ttf f.state.chars := by
  have h : (match (workOn freeSample).fonts with
      | [f] => decide (f.fontBuf = [] ∧ f.cidBuf = [] ∧ f.unicodeBuf = [] ∧ f.descBuf = [] ∧ f.dictBuf = []) && decide (∀ c ∈ subsetName f.name, regular c = true) &&
        decide (f.state.chars.keys.Nodup ∧ f.state.chars.keys.length = f.state.chars.vals.length ∧
          ∀ p ∈ f.state.chars.keys.zip f.state.chars.vals, charToGlyph f.state.ttf p.1 = .ok p.2)
      | _ => false) = true := by decide +kernel
  generalize (workOn freeSample).fonts = l at h ⊢
  split at h
  · simp only [Bool.and_eq_true, decide_eq_true_eq] at h
    exact ⟨_, rfl, h.1.1, h.1.2, ⟨h.2.1, h.2.2.1, h.2.2.2⟩⟩
  · simp at h

end Verif
