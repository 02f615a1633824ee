import Verif.Theorems.Fresh
import Verif.Theorems.App
/-
C82: what a session of calls amounts to: the fonts known and their overrides, the current font, and what later calls leave alone.  C44: what opening another
document keeps.
-/
namespace Verif
open Spec

/-- a font as the caller knows it: the parsed file and the overrides -/
structure Spec.FontAsked where
  ttf : Ttf
  kern : Option (Nat → Nat → Nat → Nat → Int → Int)
  rise : Option (Nat → Nat → Int → Bytes → Nat → Bytes)

/-- what the caller has asked for so far: the fonts by name, and the current font with its size -/
structure Spec.Session where
  font : Bytes → Option FontAsked := fun _ => none
  current : Bytes := []
  size : Int := 0

/-- with this font under this name -/
def Spec.Session.put (s : Session) (name : Bytes) (f : FontAsked) : Session :=
  { s with font := fun n => if n = name then some f else s.font n }

/-- What a call asks for.  A name in use cannot be given to another font, an unknown font cannot be chosen or overridden; everything else is of no concern to fonts. -/
def Spec.Session.after (s : Session) : Call → Session
  | .addFont name file =>
    match s.font name with
    | some _ => s
    | none =>
      match parseTtf file with
      | .ok t => s.put name ⟨t, none, none⟩
      | _ => s
  | .textrise name fn =>
    match s.font name with
    | some f => s.put name { f with rise := some fn }
    | none => s
  | .kern name fn =>
    match s.font name with
    | some f => s.put name { f with kern := some fn }
    | none => s
  | .setFont name _ size =>
    match s.font name with
    | some _ => { s with current := name, size := size }
    | none => s
  | _ => s

/-- what is asked for of a stored font -/
def askedOf (f : FontData) : FontAsked := ⟨f.state.ttf, f.state.kernOverride, f.state.textrise⟩

/-- the session a value stands for -/
def sessionOf (a : App) : Session := { font := fun n => (a.font? n).map (fun p => askedOf p.2), current := a.fontName, size := a.fontSize }

theorem font?_asked (a : App) (n : Bytes) : (a.font? n).map (fun p => askedOf p.2) = (a.fontMap.lookup n).bind (fun i => (a.fonts.map askedOf)[i]?) := by
  unfold App.font?
  cases a.fontMap.lookup n with
  | none => rfl
  | some i => cases h : a.fonts[i]? <;> simp [h]

theorem sessionOf_eq {a b : App} (h1 : b.fontMap = a.fontMap) (h2 : b.fonts.map askedOf = a.fonts.map askedOf) (h3 : b.fontName = a.fontName) (h4 : b.fontSize = a.fontSize) :
    sessionOf b = sessionOf a := by
  unfold sessionOf
  rw [h3, h4]
  congr 1
  funext n
  rw [font?_asked, font?_asked, h1, h2]

/-- two values that stand for the same session, for the calls that only use fonts -/
structure SameFonts (a b : App) : Prop where
  map : b.fontMap = a.fontMap
  fonts : b.fonts.map askedOf = a.fonts.map askedOf
  name : b.fontName = a.fontName
  size : b.fontSize = a.fontSize
  contents : a.contents <+: b.contents

theorem SameFonts.refl (a : App) : SameFonts a a := ⟨rfl, rfl, rfl, rfl, List.prefix_refl _⟩

theorem SameFonts.trans {a b c : App} (h : SameFonts a b) (k : SameFonts b c) : SameFonts a c :=
  ⟨k.map.trans h.map, k.fonts.trans h.fonts, k.name.trans h.name, k.size.trans h.size, h.contents.trans k.contents⟩

theorem font?_at {a : App} {n : Bytes} {i : Nat} {f : FontData} (h : a.font? n = some (i, f)) : a.fontMap.lookup n = some i ∧ a.fonts[i]? = some f := by
  unfold App.font? at h
  cases hl : a.fontMap.lookup n with
  | none => rw [hl] at h; simp at h
  | some j =>
    rw [hl] at h
    simp only [Option.map_eq_some_iff] at h
    obtain ⟨g, hg, e⟩ := h
    simp only [Prod.mk.injEq] at e
    obtain ⟨rfl, rfl⟩ := e
    exact ⟨rfl, hg⟩

theorem modify_map {α β : Type} (g : α → β) (l : List α) (i : Nat) (k : α → α) (h : ∀ x, l[i]? = some x → g (k x) = g x) : (l.modify i k).map g = l.map g := by
  apply List.ext_getElem?
  intro j
  rw [List.getElem?_map, List.getElem?_map, List.getElem?_modify]
  by_cases e : i = j
  · subst e
    cases hx : l[i]? with
    | none => rfl
    | some x => simp [h x hx]
  · cases l[j]? <;> simp [e]

/-- storing the characters used leaves the session as it is -/
theorem SameFonts.chars {a : App} {n : Bytes} {i : Nat} {f : FontData} (h : a.font? n = some (i, f)) (s : FontState) (hs : s.ttf = f.state.ttf ∧ s.kernOverride = f.state.kernOverride ∧ s.textrise = f.state.textrise) :
    SameFonts a (a.setFontState i s) := by
  refine ⟨rfl, ?_, rfl, rfl, List.prefix_refl _⟩
  refine modify_map askedOf a.fonts i _ ?_
  intro x hx
  obtain ⟨_, hf⟩ := font?_at h
  rw [hf] at hx
  cases hx
  simp [askedOf, hs.1, hs.2.1, hs.2.2]

theorem measureText_asked (f : FontState) (text : Bytes) (size : Int) :
    (measureText f text size).1.ttf = f.ttf ∧ (measureText f text size).1.kernOverride = f.kernOverride ∧ (measureText f text size).1.textrise = f.textrise := by
  unfold measureText
  generalize addChars f.ttf f.chars text = r
  obtain ⟨c, r⟩ := r
  cases r <;> exact ⟨rfl, rfl, rfl⟩

theorem SameFonts.insert (env : Env) (a : App) (text : Bytes) (page : Int) (x y w h : ℚ) (align : Nat) (color : Option (Int × Int × Int)) :
    SameFonts a (a.insert env text page x y w h align color).state := by
  unfold App.insert
  split
  · split
    · exact .refl a
    · rename_i i f hf
      simp only
      obtain ⟨e1, e2, e3, e4, e5⟩ := SameFonts.chars hf { f.state with chars := (addChars f.state.ttf f.state.chars text).1 } ⟨rfl, rfl, rfl⟩
      exact ⟨e1, e2, e3, e4, List.prefix_append _ _⟩
  all_goals exact .refl a

theorem SameFonts.measure (env : Env) (a : App) (text : Bytes) : SameFonts a (a.measureTextWidth env text).1 := by
  unfold App.measureTextWidth
  split
  · exact .refl a
  · rename_i i f hf
    have key : SameFonts a (a.setFontState i (measureText f.state text a.fontSize).1) := SameFonts.chars hf _ (measureText_asked _ _ _)
    simp only
    split
    · exact key
    · exact key
    · split <;> exact key

theorem SameFonts.wrapLoop (env : Env) (w step : ℚ) : ∀ (ts : List Bytes) (a : App) (st : WrapState), SameFonts a (App.wrapLoop env w step a st ts).1
  | [], a, st => by rw [App.wrapLoop]; exact .refl a
  | t :: ts, a, st => by
    rw [App.wrapLoop]
    split
    · exact SameFonts.wrapLoop env w step ts a st
    · have hm := SameFonts.measure env a (st.curr ++ t)
      generalize hr : a.measureTextWidth env (st.curr ++ t) = r at hm ⊢
      obtain ⟨a', r⟩ := r
      cases r with
      | ok q =>
        simp only at hm ⊢
        split
        · exact hm.trans (SameFonts.wrapLoop env w step ts a' _)
        · exact hm.trans (SameFonts.wrapLoop env w step ts a' _)
      | err e => exact hm
      | panic => exact hm
      | hang => exact hm

theorem SameFonts.insertAll (env : Env) (page : Int) (x w h : ℚ) (align : Nat) (color : Option (Int × Int × Int)) (yo : ℚ) : ∀ (ls : List (Bytes × ℚ)) (a : App),
    SameFonts a (App.insertAll env page x w h align color yo a ls).state
  | [], a => .refl a
  | l :: ls, a => by
    rw [App.insertAll]
    have hm := SameFonts.insert env a l.1 page x (l.2 - yo) w h align color
    generalize hr : a.insert env l.1 page x (l.2 - yo) w h align color = r at hm ⊢
    obtain ⟨a', r⟩ := r
    cases r with
    | ok q => exact hm.trans (SameFonts.insertAll env page x w h align color yo ls a')
    | err e => exact hm
    | panic => exact hm
    | hang => exact hm

theorem SameFonts.insertWrap (env : Env) (a : App) (text : Bytes) (page : Int) (x y w h : ℚ) (align : Nat) (color : Option (Int × Int × Int)) (br : Option (Bytes → Option (List Bytes))) :
    SameFonts a (a.insertWrapText env text page x y w h align color br).state := by
  unfold App.insertWrapText
  split
  · exact .insert ..
  · split
    · exact .refl a
    · rename_i tokens _
      simp only
      have hm := SameFonts.wrapLoop env w (a.fontSize + a.fontSize * (2 / 10)) tokens a { lines := [], y := y, prev := [], curr := [] }
      generalize App.wrapLoop env w (a.fontSize + a.fontSize * (2 / 10)) a { lines := [], y := y, prev := [], curr := [] } tokens = r at hm ⊢
      obtain ⟨a', r⟩ := r
      cases r with
      | ok q => exact hm.trans (.insertAll ..)
      | err e => exact hm
      | panic => exact hm
      | hang => exact hm

theorem SameFonts.addImgContent (env : Env) (a : App) (i : Nat) (page : Int) (x y w h : ℚ) : SameFonts a (a.addImgContent env i page x y w h).state := by
  unfold App.addImgContent
  split
  · exact ⟨rfl, rfl, rfl, rfl, List.prefix_append _ _⟩
  all_goals exact .refl a

theorem SameFonts.makeImg {env : Env} {a b : App} {file : Bytes} {i : ImageData} (h : a.makeImg env file = .ok (b, i)) : SameFonts a b := by
  unfold App.makeImg at h
  rw [Res.bind_eq_ok] at h
  obtain ⟨info, hi, h⟩ := h
  split at h
  · simp only [Res.ok.injEq, Prod.mk.injEq] at h
    obtain ⟨rfl, _⟩ := h
    exact .refl a
  · simp only [Res.ok.injEq, Prod.mk.injEq] at h
    obtain ⟨rfl, _⟩ := h
    exact ⟨rfl, rfl, rfl, rfl, List.prefix_refl _⟩

theorem SameFonts.img (env : Env) (a : App) (file : Bytes) (page : Int) (x y w h : ℚ) : SameFonts a (a.insertImg env file page x y w h).state := by
  unfold App.insertImg
  split
  · rename_i b i hm
    refine (SameFonts.makeImg hm).trans ?_
    exact SameFonts.trans (b := { b with imgs := b.imgs ++ [i] }) ⟨rfl, rfl, rfl, rfl, List.prefix_refl _⟩ (.addImgContent ..)
  all_goals exact .refl a

theorem SameFonts.imgCached (env : Env) (a : App) (file : Bytes) (page : Int) (x y w h : ℚ) : SameFonts a (a.insertImgWithCache env file page x y w h).state := by
  unfold App.insertImgWithCache
  split
  · exact .addImgContent ..
  · split
    · rename_i b i hm
      refine (SameFonts.makeImg hm).trans ?_
      exact SameFonts.trans (b := { b with imgs := b.imgs ++ [i], imgMap := b.imgMap ++ [(env.md5 file, b.imgs.length)] }) ⟨rfl, rfl, rfl, rfl, List.prefix_refl _⟩ (.addImgContent ..)
    all_goals exact .refl a

theorem build_asked {env : Env} {f f' : FontData} {n : Int} (h : f.build env n = .ok f') : askedOf f' = askedOf f := by
  unfold FontData.build at h
  rw [Res.bind_eq_ok] at h
  obtain ⟨_, _, h⟩ := h
  rw [Res.bind_eq_ok] at h
  obtain ⟨_, _, h⟩ := h
  simp only [Res.ok.injEq] at h
  subst h
  rfl

theorem buildFonts_asked {env : Env} : ∀ {is : List Nat} {id id' : Int} {fs fs' : List FontData}, buildFonts env is id fs = .ok (fs', id') → fs'.map askedOf = fs.map askedOf
  | [], id, id', fs, fs', h => by
    simp only [buildFonts, Res.ok.injEq, Prod.mk.injEq] at h
    rw [h.1]
  | i :: t, id, id', fs, fs', h => by
    rw [buildFonts, Res.bind_eq_ok] at h
    obtain ⟨f, hf, h⟩ := h
    rw [Res.bind_eq_ok] at h
    obtain ⟨f', hb, h⟩ := h
    rw [buildFonts_asked h]
    have hf : fs[i]? = some f := by
      cases hx : fs[i]? with
      | none => rw [hx] at hf; simp [Res.ofOption] at hf
      | some g => rw [hx] at hf; simpa [Res.ofOption] using hf
    apply List.ext_getElem?
    intro j
    rw [List.getElem?_map, List.getElem?_map, List.getElem?_set]
    split
    · rename_i e
      subst e
      split
      · rw [hf]; simp [build_asked hb]
      · rename_i hl
        rw [List.getElem?_eq_none (by omega)]
    · rfl

theorem setIndexes_asked : ∀ (is : List Nat) (cs : List CrFont) (fs : List FontData), (setIndexes is cs fs).map askedOf = fs.map askedOf
  | [], _, fs => by rw [setIndexes]; intro _ _ _ _ h; cases h
  | i :: is, [], fs => by rw [setIndexes]; intro _ _ _ _ _ h; cases h
  | i :: is, c :: cs, fs => by
    rw [setIndexes, setIndexes_asked is cs]
    exact modify_map askedOf fs i _ (fun _ _ => rfl)

theorem SameFonts.save (env : Env) (a : App) : SameFonts a (a.saveTo env).1 := by
  unfold App.saveTo
  split
  · rename_i b hb
    unfold App.build at hb
    rw [Res.bind_eq_ok] at hb
    obtain ⟨⟨fonts, id⟩, h1, hb⟩ := hb
    rw [Res.bind_eq_ok] at hb
    obtain ⟨⟨d, new⟩, _, hb⟩ := hb
    simp only at hb
    rw [Res.bind_eq_ok] at hb
    obtain ⟨⟨d2, xs⟩, _, hb⟩ := hb
    rw [Res.bind_eq_ok] at hb
    obtain ⟨st, _, hb⟩ := hb
    rw [Res.bind_eq_ok] at hb
    obtain ⟨d3, _, hb⟩ := hb
    rw [Res.bind_eq_ok] at hb
    obtain ⟨os, _, hb⟩ := hb
    simp only [Res.ok.injEq] at hb
    subst hb
    refine ⟨rfl, ?_, rfl, rfl, List.prefix_refl _⟩
    simp only
    rw [setIndexes_asked, buildFonts_asked h1]
  all_goals exact .refl a

theorem SameFonts.session {a b : App} (h : SameFonts a b) : sessionOf b = sessionOf a := sessionOf_eq h.map h.fonts h.name h.size

/-- all names known belong to a stored font -/
theorem known_iff {a : App} (h : FontsOk a) (n : Bytes) : (∃ i f, a.font? n = some (i, f)) ↔ ∃ i, a.fontMap.lookup n = some i := by
  constructor
  · rintro ⟨i, f, hf⟩
    exact ⟨i, (font?_at hf).1⟩
  · rintro ⟨i, hi⟩
    obtain ⟨l₁, l₂, he, _⟩ := List.lookup_eq_some_iff.1 hi
    have := h.range (n, i) (by rw [he]; exact List.mem_append_right _ List.mem_cons_self)
    simp only at this
    refine ⟨i, a.fonts[i], ?_⟩
    unfold App.font?
    rw [hi]
    simp [List.getElem?_eq_getElem this]

theorem nodup_lookup {l : List (Bytes × Nat)} (h : (l.map (·.2)).Nodup) {m n : Bytes} {i : Nat} (h1 : l.lookup m = some i) (h2 : l.lookup n = some i) : m = n := by
  obtain ⟨p, q, he, _⟩ := List.lookup_eq_some_iff.1 h1
  obtain ⟨p', q', he', _⟩ := List.lookup_eq_some_iff.1 h2
  have m1 : (m, i) ∈ l := by rw [he]; exact List.mem_append_right _ List.mem_cons_self
  have m2 : (n, i) ∈ l := by rw [he']; exact List.mem_append_right _ List.mem_cons_self
  have := List.inj_on_of_nodup_map h m1 m2 rfl
  exact congrArg Prod.fst this

theorem lookup_append_new {l : List (Bytes × Nat)} {n : Bytes} (h : l.lookup n = none) (i : Nat) (m : Bytes) :
    (l ++ [(n, i)]).lookup m = if m = n then some i else l.lookup m := by
  rw [List.lookup_append]
  by_cases e : m = n
  · subst e
    rw [h, if_pos rfl]
    simp
  · rw [if_neg e]
    cases l.lookup m with
    | some j => rfl
    | none =>
      simp only [Option.none_or]
      rw [List.lookup_cons, beq_false_of_ne e]
      rfl

/-- changing the overrides of one font changes the session at its name only -/
theorem override_session {a : App} (h : FontsOk a) {n : Bytes} {i : Nat} {f : FontData} (hf : a.font? n = some (i, f)) (s : FontState) :
    sessionOf (a.setFontState i s) = (sessionOf a).put n ⟨s.ttf, s.kernOverride, s.textrise⟩ := by
  obtain ⟨hl, hg⟩ := font?_at hf
  unfold sessionOf Session.put
  congr 1
  funext m
  simp only
  rw [font?_asked, font?_asked]
  simp only [App.setFontState]
  split
  · rename_i e
    subst e
    rw [hl]
    simp [List.getElem?_modify, hg, askedOf]
  · rename_i e
    cases hm : a.fontMap.lookup m with
    | none => rfl
    | some j =>
      have hij : i ≠ j := by
        rintro rfl
        exact e (nodup_lookup h.nodup hm hl)
      simp only [Option.bind_some, List.getElem?_map, List.getElem?_modify, if_neg hij]
      cases a.fonts[j]? <;> rfl

theorem addFont_session {a : App} (h : FontsOk a) {n : Bytes} (hl : a.fontMap.lookup n = none) (t : Ttf) :
    sessionOf { a with fonts := a.fonts ++ [{ name := n, state := { ttf := t } }], fontMap := a.fontMap ++ [(n, a.fonts.length)] } = (sessionOf a).put n ⟨t, none, none⟩ := by
  unfold sessionOf Session.put
  congr 1
  funext m
  simp only
  rw [font?_asked, font?_asked]
  simp only
  rw [lookup_append_new hl]
  split
  · simp [askedOf]
  · cases hm : a.fontMap.lookup m with
    | none => rfl
    | some j =>
      obtain ⟨l₁, l₂, he, _⟩ := List.lookup_eq_some_iff.1 hm
      have := h.range (m, j) (by rw [he]; exact List.mem_append_right _ List.mem_cons_self)
      simp only at this
      simp [List.getElem?_append_left, this]

theorem session_none {a : App} (h : FontsOk a) (n : Bytes) : (sessionOf a).font n = none ↔ a.fontMap.lookup n = none := by
  have := known_iff h n
  unfold sessionOf
  simp only [Option.map_eq_none_iff]
  cases h1 : a.font? n with
  | none =>
    cases h2 : a.fontMap.lookup n with
    | none => simp
    | some i =>
      obtain ⟨j, f, hj⟩ := this.2 ⟨i, h2⟩
      rw [h1] at hj; cases hj
  | some p =>
    obtain ⟨i, f⟩ := p
    rw [(font?_at h1).1]
    simp

/-- **C82** (one call).  A call changes the session as the specification says: only `AddFont`, `TextriseOverride`, `KernOverride` and `SetFont` matter, and they change the named font only. -/
theorem C82_call (env : Env) {a : App} (h : FontsOk a) (c : Call) : sessionOf (a.after env c) = (sessionOf a).after c := by
  cases c with
  | insert text page x y w h align color => exact (SameFonts.insert ..).session
  | insertWrap text page x y w h align color br => exact (SameFonts.insertWrap ..).session
  | measure text => exact (SameFonts.measure ..).session
  | img file page x y w h => exact (SameFonts.img ..).session
  | imgBase64 text page x y w h =>
    show sessionOf (a.insertImgBase64 env text page x y w h).state = _
    unfold App.insertImgBase64
    split
    · rfl
    · exact (SameFonts.img ..).session
  | imgCached file page x y w h => exact (SameFonts.imgCached ..).session
  | addFont name file =>
    show sessionOf (a.addFont name file).state = _
    unfold App.addFont Session.after
    simp only
    cases hs : (sessionOf a).font name with
    | some f =>
      have : a.fontMap.lookup name ≠ none := fun e => by rw [(session_none h name).2 e] at hs; cases hs
      rw [if_pos (by rw [Option.isSome_iff_ne_none]; exact this)]
    | none =>
      have hl := (session_none h name).1 hs
      rw [if_neg (by rw [hl]; simp)]
      simp only
      cases parseTtf file with
      | ok t => exact addFont_session h hl t
      | err e => rfl
      | panic => rfl
      | hang => rfl
  | setFont name style size =>
    show sessionOf (a.setFont env name style size).state = _
    unfold App.setFont Session.after
    simp only
    cases hs : (sessionOf a).font name with
    | some f =>
      have : a.fontMap.lookup name ≠ none := fun e => by rw [(session_none h name).2 e] at hs; cases hs
      rw [if_pos (by rw [Option.isSome_iff_ne_none]; exact this)]
      rfl
    | none => rw [if_neg (by rw [(session_none h name).1 hs]; simp)]
  | textrise name fn =>
    show sessionOf (a.textriseOverride name fn).state = _
    unfold App.textriseOverride Session.after
    simp only
    cases hf : a.font? name with
    | none =>
      have : (sessionOf a).font name = none := by simp [sessionOf, hf]
      rw [this]
    | some p =>
      obtain ⟨i, f⟩ := p
      have : (sessionOf a).font name = some (askedOf f) := by simp [sessionOf, hf]
      rw [this]
      exact override_session h hf _
  | kern name fn =>
    show sessionOf (a.kernOverride name fn).state = _
    unfold App.kernOverride Session.after
    simp only
    cases hf : a.font? name with
    | none =>
      have : (sessionOf a).font name = none := by simp [sessionOf, hf]
      rw [this]
    | some p =>
      obtain ⟨i, f⟩ := p
      have : (sessionOf a).font name = some (askedOf f) := by simp [sessionOf, hf]
      rw [this]
      exact override_session h hf _
  | border s =>
    show sessionOf (a.showCellBorder s) = sessionOf a
    unfold App.showCellBorder
    split <;> rfl
  | protect random perm user owner =>
    show sessionOf (a.setProtection env random perm user owner).state = sessionOf a
    unfold App.setProtection
    split <;> rfl
  | duplicate t p => rfl
  | remove k => rfl
  | removeOthers k => rfl
  | save => exact (SameFonts.save ..).session

theorem FontsOk.same {a b : App} (h : FontsOk a) (k : SameFonts a b) : FontsOk b := by
  have hl : b.fonts.length = a.fonts.length := by simpa using congrArg List.length k.fonts
  exact ⟨by rw [k.map]; exact h.nodup, by rw [k.map, hl]; exact h.range⟩

theorem FontsOk.setFontState {a : App} (h : FontsOk a) (i : Nat) (s : FontState) : FontsOk (a.setFontState i s) :=
  ⟨h.nodup, fun p hp => by simpa [App.setFontState] using h.range p hp⟩

/-- calls keep the list of fonts in order -/
theorem FontsOk.after (env : Env) {a : App} (h : FontsOk a) (c : Call) : FontsOk (a.after env c) := by
  cases c with
  | insert text page x y w h' align color => exact h.same (.insert ..)
  | insertWrap text page x y w h' align color br => exact h.same (.insertWrap ..)
  | measure text => exact h.same (.measure ..)
  | img file page x y w h' => exact h.same (.img ..)
  | imgBase64 text page x y w h' =>
    show FontsOk (a.insertImgBase64 env text page x y w h').state
    unfold App.insertImgBase64
    split
    · exact h
    · exact h.same (.img ..)
  | imgCached file page x y w h' => exact h.same (.imgCached ..)
  | addFont name file =>
    show FontsOk (a.addFont name file).state
    unfold App.addFont
    split
    · exact h
    · split
      · constructor
        · simp only [List.map_append, List.map_cons, List.map_nil]
          rw [List.nodup_append]
          refine ⟨h.nodup, List.nodup_singleton _, ?_⟩
          intro x hx y hy
          rw [List.mem_singleton] at hy
          obtain ⟨p, hp, rfl⟩ := List.mem_map.1 hx
          have := h.range p hp
          omega
        · intro p hp
          simp only [List.length_append, List.length_cons, List.length_nil] at hp ⊢
          rcases List.mem_append.1 hp with hp | hp
          · have := h.range p hp
            omega
          · rw [List.mem_singleton] at hp
            subst hp
            simp
      all_goals exact h
  | setFont name style size =>
    show FontsOk (a.setFont env name style size).state
    unfold App.setFont
    split
    · exact ⟨h.nodup, h.range⟩
    · exact h
  | textrise name fn =>
    show FontsOk (a.textriseOverride name fn).state
    unfold App.textriseOverride
    split
    · exact h
    · exact h.setFontState _ _
  | kern name fn =>
    show FontsOk (a.kernOverride name fn).state
    unfold App.kernOverride
    split
    · exact h
    · exact h.setFontState _ _
  | border s =>
    show FontsOk (a.showCellBorder s)
    unfold App.showCellBorder
    split <;> exact ⟨h.nodup, h.range⟩
  | protect random perm user owner =>
    show FontsOk (a.setProtection env random perm user owner).state
    unfold App.setProtection
    split <;> exact ⟨h.nodup, h.range⟩
  | duplicate t p => exact ⟨h.nodup, h.range⟩
  | remove k => exact ⟨h.nodup, h.range⟩
  | removeOthers k => exact ⟨h.nodup, h.range⟩
  | save => exact h.same (.save ..)

/-- **C82**.  After any sequence of calls, whatever their outcomes, the fonts known by name, their overrides and the current font are those asked for. -/
theorem C82_session (env : Env) : ∀ (cs : List Call) {a : App}, FontsOk a → sessionOf (cs.foldl (App.after env) a) = cs.foldl Session.after (sessionOf a)
  | [], _, _ => rfl
  | c :: cs, a, h => by
    rw [List.foldl_cons, List.foldl_cons, C82_session env cs (h.after env c), C82_call env h c]

/-- **C82**.  The outcome of a call on fonts is the one the specification says. -/
theorem C82_outcome (env : Env) {a : App} (h : FontsOk a) (name : Bytes) :
    (∀ file, (a.addFont name file).res = .ok () ↔ (sessionOf a).font name = none ∧ ∃ t, parseTtf file = .ok t) ∧
    (∀ style size, (a.setFont env name style size).res = .ok () ↔ (sessionOf a).font name ≠ none) ∧
    (∀ fn, (a.textriseOverride name fn).res = .ok () ↔ (sessionOf a).font name ≠ none) ∧
    (∀ fn, (a.kernOverride name fn).res = .ok () ↔ (sessionOf a).font name ≠ none) := by
  rw [ne_eq, session_none h name]
  refine ⟨?_, ?_, ?_, ?_⟩
  · intro file
    unfold App.addFont
    cases hl : a.fontMap.lookup name with
    | some i => simp
    | none => cases hp : parseTtf file <;> simp
  · intro style size
    unfold App.setFont
    cases hl : a.fontMap.lookup name <;> simp
  all_goals
    intro fn
    first | unfold App.textriseOverride | unfold App.kernOverride
    have := known_iff h name
    cases hl : a.font? name with
    | none =>
      cases hm : a.fontMap.lookup name with
      | none => simp
      | some i =>
        obtain ⟨j, f, hj⟩ := this.2 ⟨i, hm⟩
        rw [hl] at hj; cases hj
    | some p =>
      obtain ⟨i, f⟩ := p
      rw [(font?_at hl).1]
      simp

/-- **C82**.  Contents are never taken back or changed: later calls only add to them. -/
theorem C82_contents (env : Env) : ∀ (cs : List Call) (a : App), a.contents <+: (cs.foldl (App.after env) a).contents
  | [], _ => List.prefix_refl _
  | c :: cs, a => by
    rw [List.foldl_cons]
    refine List.IsPrefix.trans ?_ (C82_contents env cs _)
    cases c with
    | insert text page x y w h' align color => exact (SameFonts.insert ..).contents
    | insertWrap text page x y w h' align color br => exact (SameFonts.insertWrap ..).contents
    | measure text => exact (SameFonts.measure ..).contents
    | img file page x y w h' => exact (SameFonts.img ..).contents
    | imgBase64 text page x y w h' =>
      show _ <+: (a.insertImgBase64 env text page x y w h').state.contents
      unfold App.insertImgBase64
      split
      · exact List.prefix_refl _
      · exact (SameFonts.img ..).contents
    | imgCached file page x y w h' => exact (SameFonts.imgCached ..).contents
    | addFont name file =>
      show _ <+: (a.addFont name file).state.contents
      unfold App.addFont
      split
      · exact List.prefix_refl _
      · split <;> exact List.prefix_refl _
    | setFont name style size =>
      show _ <+: (a.setFont env name style size).state.contents
      unfold App.setFont
      split <;> exact List.prefix_refl _
    | textrise name fn =>
      show _ <+: (a.textriseOverride name fn).state.contents
      unfold App.textriseOverride
      split <;> exact List.prefix_refl _
    | kern name fn =>
      show _ <+: (a.kernOverride name fn).state.contents
      unfold App.kernOverride
      split <;> exact List.prefix_refl _
    | border s =>
      show _ <+: (a.showCellBorder s).contents
      unfold App.showCellBorder
      split <;> exact List.prefix_append _ _
    | protect random perm user owner =>
      show _ <+: (a.setProtection env random perm user owner).state.contents
      unfold App.setProtection
      split <;> exact List.prefix_refl _
    | duplicate t p => exact List.prefix_refl _
    | remove k => exact List.prefix_refl _
    | removeOthers k => exact List.prefix_refl _
    | save => exact (SameFonts.save ..).contents

/-! ### opening -/

/-- **C82**, **C44**.  Opening a document forgets all fonts: none is known by any name afterwards, so none can be chosen. -/
theorem C82_open (env : Env) (a : App) (raw : Bytes) : FontsOk (a.openFrom env raw).state ∧ ∀ name, (sessionOf (a.openFrom env raw).state).font name = none := by
  have h : (a.openFrom env raw).state.fontMap = [] := by
    unfold App.openFrom
    simp only
    split <;> rfl
  have hk : FontsOk (a.openFrom env raw).state := ⟨by rw [h]; exact List.nodup_nil, by rw [h]; intro p hp; cases hp⟩
  exact ⟨hk, fun name => (session_none hk name).2 (by rw [h]; rfl)⟩

/-- **C44** (the general refutation).  Whatever the value held before: after opening another document successfully all objects read before are still there, before the new ones, and so
are all contents and images and the protection.  Of the first document and its session only the names of fonts and the cache of images are forgotten. -/
theorem C44_refuted_kept {env : Env} {a : App} {raw : Bytes} (h : (a.openFrom env raw).res = .ok ()) :
    ∃ b, a.openFrom env raw = ⟨b, .ok ()⟩ ∧ a.doc.objs <+: b.doc.objs ∧ a.doc.xrefs <+: b.doc.xrefs ∧ b.contents = a.contents ++ [.line 0 []] ∧ b.imgs = a.imgs ∧ b.fonts = a.fonts ∧
      b.protection = a.protection ∧ b.fontName = a.fontName ∧ b.fontSize = a.fontSize ∧ b.fontMap = [] ∧ b.imgMap = [] := by
  unfold App.openFrom at h ⊢
  simp only at h ⊢
  cases hp : pdfParse (fun s => (env.parseFloat s).isSome) a.doc raw with
  | ok d =>
    refine ⟨_, rfl, ?_, ?_, rfl, rfl, rfl, rfl, rfl, rfl, rfl, rfl⟩
    all_goals
      unfold pdfParse at hp
      rw [Res.bind_eq_ok] at hp
      obtain ⟨rows, _, hp⟩ := hp
      rw [Res.bind_eq_ok] at hp
      obtain ⟨root, _, hp⟩ := hp
      rw [Res.bind_eq_ok] at hp
      obtain ⟨os, _, hp⟩ := hp
      rw [Res.bind_eq_ok] at hp
      obtain ⟨_, _, hp⟩ := hp
      rw [Res.bind_eq_ok] at hp
      obtain ⟨_, _, hp⟩ := hp
      simp only [Res.ok.injEq] at hp
      subst hp
      exact List.prefix_append _ _
  | err e => rw [hp] at h; cases h
  | panic => rw [hp] at h; cases h
  | hang => rw [hp] at h; cases h

/-- the hypotheses of `C44_refuted_kept` are met for the file opened twice of `C44_refuted_same`; those of `C82_session` by the empty value -/
example : FontsOk ({} : App) := ⟨List.nodup_nil, fun p hp => by cases hp⟩

/-- a session: a name in use, an override, an unknown name -/
example (t : Ttf) (fn : Nat → Nat → Int → Bytes → Nat → Bytes) :
    let s := [Call.textrise b!"A" fn, .textrise b!"B" fn, .setFont b!"A" [] 12, .setFont b!"C" [] 14, .save].foldl Session.after (({} : Session).put b!"A" ⟨t, none, none⟩)
    s.font b!"A" = some ⟨t, none, some fn⟩ ∧ s.font b!"B" = none ∧ s.current = b!"A" ∧ s.size = 12 := by
  refine ⟨rfl, rfl, rfl, rfl⟩

end Verif
