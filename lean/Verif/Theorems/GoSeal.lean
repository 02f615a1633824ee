import Verif.Theorems.GoFonts
import Verif.Theorems.Crypto
import Verif.Spec.GoSeal
namespace Verif
open Spec

/-! ### the calls do not depend on the protection -/

/-- the same session with another protection -/
def Gp.shield (p : Option Protection) (g : Gp) : Gp := { g with protection := p }

theorem getContent_shield (p : Option Protection) (g : Gp) : (g.shield p).getContent = (g.getContent.1.shield p, g.getContent.2) := by
  unfold Gp.getContent
  rw [show (g.shield p).contentIdx = g.contentIdx from rfl]
  cases g.contentIdx <;> rfl

theorem put_shield (p : Option Protection) (g : Gp) (f : List GCache → List GCache) : (g.shield p).put f = (g.put f).shield p := by
  unfold Gp.put
  rw [getContent_shield]
  rfl

theorem draw_shield (p : Option Protection) (g : Gp) (c : GCache) : (g.shield p).draw c = (g.draw c).shield p := put_shield p g _

theorem addImage_shield (p : Option Protection) (g : Gp) (id : Bytes) (x y : ℚ) (r : GRect) (i : ImgInfo) : (g.shield p).addImage id x y r i = (g.addImage id x y r i).shield p := by
  unfold Gp.addImage
  have : ((g.shield p).addObj (.image i)).draw (.image (g.shield p).countImg x y (g.shield p).curSize.h r) = ((g.addObj (.image i)).draw (.image g.countImg x y g.curSize.h r)).shield p :=
    draw_shield p (g.addObj (.image i)) _
  simp only [this]
  rfl

theorem addMask_shield (p : Option Protection) (g : Gp) (n : Nat) (m : Option ImgInfo) : (g.shield p).addMask n m = (g.addMask n m).shield p := by
  cases m <;> rfl

theorem addPalette_shield (p : Option Protection) (g : Gp) (n : Nat) (i : ImgInfo) : (g.shield p).addPalette n i = (g.addPalette n i).shield p := by
  unfold Gp.addPalette
  split <;> rfl

theorem image_shield (p : Option Protection) (env : GEnv) (g : Gp) (id file : Bytes) (x y : ℚ) (r : Option GRect) :
    (g.shield p).image env id file x y r = ⟨(g.image env id file x y r).state.shield p, (g.image env id file x y r).res⟩ := by
  unfold Gp.image
  rw [show (g.shield p).imgCaches = g.imgCaches from rfl]
  cases g.imgCaches.find? (fun c => c.1 = id) with
  | some c =>
    simp only
    cases r.orElse (fun _ => (g.imgCaches[c.2.1]?).map (fun d => d.2.2)) with
    | some r => simp only [draw_shield]; rfl
    | none => rfl
  | none =>
    simp only
    generalize (do
      let r ← (match r with
        | some r => Res.ok r
        | none => do
          let b ← Res.orErr .other (env.bounds file)
          imgRect b.1 b.2)
      let i ← parseImg env.toImgEnv file
      Res.ok (r, i) : Res (GRect × ImgInfo)) = q
    cases q with
    | ok q => simp only [addImage_shield, addMask_shield, addPalette_shield]; rfl
    | _ => rfl

/-- what is left to do when the characters of a text are in the font -/
def Gp.finish (g : Gp) (i : Nat) (t : Bytes) (cell : Option (Option GRect × GCellOpt)) : Step Gp :=
  match (appendText g.fonts g.caches (g.newText i cell) t).2 with
  | .ok p => ⟨{ g.put (fun cs => (appendText g.fonts cs (g.newText i cell) t).1) with x := p.1, y := p.2 }, .ok ()⟩
  | .err e => ⟨g.put (fun cs => (appendText g.fonts cs (g.newText i cell) t).1), .err e⟩
  | .panic => ⟨g.put (fun cs => (appendText g.fonts cs (g.newText i cell) t).1), .panic⟩
  | .hang => ⟨g.put (fun cs => (appendText g.fonts cs (g.newText i cell) t).1), .hang⟩

theorem finish_shield (p : Option Protection) (g : Gp) (i : Nat) (t : Bytes) (cell : Option (Option GRect × GCellOpt)) :
    (g.shield p).finish i t cell = ⟨(g.finish i t cell).state.shield p, (g.finish i t cell).res⟩ := by
  unfold Gp.finish
  simp only [put_shield, show (g.shield p).newText i cell = g.newText i cell from rfl, show (g.shield p).caches = g.caches from rfl, show (g.shield p).fonts = g.fonts from rfl]
  cases (appendText g.fonts g.caches (g.newText i cell) t).2 <;> rfl

/-- the characters of a text are added to the font -/
def Gp.lettered (g : Gp) (i : Nat) (f : GFont) (t : Bytes) : Gp := { g with fonts := g.fonts.modify i (fun _ => { f with chars := (addChars f.ttf f.chars t).1 }) }

theorem write_eq (g : Gp) (t : Bytes) (cell : Option (Option GRect × GCellOpt)) : g.write t cell =
    match g.font with
    | none => ⟨g, .panic⟩
    | some i =>
      match g.fonts[i]? with
      | none => ⟨g, .panic⟩
      | some f =>
        match (addChars f.ttf f.chars t).2 with
        | .ok _ => (g.lettered i f t).finish i t cell
        | .err e => ⟨g.lettered i f t, .err e⟩
        | .panic => ⟨g.lettered i f t, .panic⟩
        | .hang => ⟨g.lettered i f t, .hang⟩ := rfl

theorem write_shield (p : Option Protection) (g : Gp) (t : Bytes) (cell : Option (Option GRect × GCellOpt)) :
    (g.shield p).write t cell = ⟨(g.write t cell).state.shield p, (g.write t cell).res⟩ := by
  rw [write_eq, write_eq, show (g.shield p).font = g.font from rfl]
  cases g.font with
  | none => rfl
  | some i =>
    simp only [show (g.shield p).fonts = g.fonts from rfl]
    cases g.fonts[i]? with
    | none => rfl
    | some f =>
      simp only [show (g.shield p).lettered i f t = (g.lettered i f t).shield p from rfl, finish_shield]
      cases (addChars f.ttf f.chars t).2 <;> rfl

theorem call_shield (p : Option Protection) (env : GEnv) (g : Gp) (c : GCall) : (g.shield p).call env c = ⟨(g.call env c).state.shield p, (g.call env c).res⟩ := by
  cases c with
  | text t => exact write_shield p g t none
  | cell r t o => exact write_shield p g t (some (r, o))
  | image id file x y r => exact image_shield p env g id file x y r
  | addFont f file k s =>
    simp only [Gp.call, Gp.addFont]
    cases parseTtfKern k file with
    | ok t =>
      simp only [show (g.shield p).relates = g.relates from rfl]
      split <;> rfl
    | _ => rfl
  | setFont f s n =>
    simp only [Gp.call, Gp.setFont, show (g.shield p).fonts = g.fonts from rfl]
    cases g.fonts.findIdx? (fun x => x.family = f ∧ x.style = plainStyle s) <;> rfl
  | kernOverride f fn =>
    simp only [Gp.call, Gp.kernOverride, show (g.shield p).fonts = g.fonts from rfl]
    cases g.fonts.findIdx? (fun x => x.family = f) <;> rfl
  | setCompressLevel l =>
    simp only [Gp.call, Gp.setCompressLevel]
    split
    · rfl
    · split <;> rfl
  | setLineWidth w => exact congrArg (fun s => (⟨s, .ok ()⟩ : Step Gp)) (draw_shield p { g with lineWidth := w } _)
  | setGrayFill v => exact congrArg (fun s => (⟨s, .ok ()⟩ : Step Gp)) (draw_shield p { g with grayFill := v } _)
  | setGrayStroke v => exact congrArg (fun s => (⟨s, .ok ()⟩ : Step Gp)) (draw_shield p g _)
  | setLineType t => exact congrArg (fun s => (⟨s, .ok ()⟩ : Step Gp)) (draw_shield p g _)
  | line x1 y1 x2 y2 => exact congrArg (fun s => (⟨s, .ok ()⟩ : Step Gp)) (draw_shield p g _)
  | rectFromLowerLeft x y w h s => exact congrArg (fun s => (⟨s, .ok ()⟩ : Step Gp)) (draw_shield p g _)
  | rectFromUpperLeft x y w h s => exact congrArg (fun s => (⟨s, .ok ()⟩ : Step Gp)) (draw_shield p g _)
  | oval x1 y1 x2 y2 => exact congrArg (fun s => (⟨s, .ok ()⟩ : Step Gp)) (draw_shield p g _)
  | curve x0 y0 x1 y1 x2 y2 x3 y3 s => exact congrArg (fun s => (⟨s, .ok ()⟩ : Step Gp)) (draw_shield p g _)
  | setStrokeColor r v b => exact congrArg (fun s => (⟨s, .ok ()⟩ : Step Gp)) (draw_shield p g _)
  | setFillColor r v b => exact congrArg (fun s => (⟨s, .ok ()⟩ : Step Gp)) (draw_shield p g _)
  | _ => rfl

theorem done_shield (p : Option Protection) {env : GEnv} {g g' : Gp} {cs : List GCall} (h : GDone env g cs g') : GDone env (g.shield p) cs (g'.shield p) := by
  induction h with
  | nil => exact .nil
  | cons h1 _ ih =>
    refine .cons ?_ ?_
    · rw [call_shield]; exact h1
    · rw [call_shield]; exact ih

theorem done_protection {env : GEnv} {g g' : Gp} {cs : List GCall} (h : GDone env g cs g') : g'.protection = g.protection := by
  induction h with
  | nil => rfl
  | cons h1 _ ih =>
    rename_i g _ c _ _
    rw [ih]
    have := call_shield g.protection env g c
    rw [show g.shield g.protection = g from rfl] at this
    have := congrArg (fun s => s.state.protection) this
    exact this

theorem no_end (s : Bytes) : ¬ b!"endstream\n" <:+ s ++ b!">>\n" := by
  rintro ⟨a, ha⟩
  have : a ++ b!"endstre" ++ b!"am\n" = s ++ b!">>\n" := by rw [← ha]; simp
  exact absurd (List.append_inj' this rfl).2 (by decide)

/-- an object, protected or not -/
theorem build_seal {env : GEnv} (hmd5 : ∀ x, (env.md5 x).length = 16) {p : Protection} (hk : p.key.length = 5) {g : Gp} (hp : g.protection = some p) {o : GObj} (ho : ∀ q, o ≠ .enc q) {n : Nat} {b : Bytes}
    (h : o.build env g n = .ok b) : ∃ b0, o.build env (g.shield none) n = .ok b0 ∧ ∀ buf : Bytes, SealedAs rc4Cip env.md5 p.key n (buf ++ b0) (buf ++ b) := by
  have hkl : (objKey env.md5 p.key n 0).length = 10 := by unfold objKey; rw [List.length_take, hmd5, hk]; rfl
  have hrc : ∀ (data tail : Bytes), ∃ c, sealed env (some p) n data tail = .ok (c ++ tail) ∧ c.length = data.length ∧ rc4Cip (objKey env.md5 p.key n 0) c = .ok data := by
    intro data tail
    obtain ⟨c, e1, e2, e3⟩ := rc4Cip_spec (key := objKey env.md5 p.key n 0) (by omega) (by omega) data
    exact ⟨c, by simp only [sealed, objectKey_spec env.md5 hk, e1, Res.ok_bind], e2, e3⟩
  have same : b!">>\n" <:+ b → ∀ buf : Bytes, SealedAs rc4Cip env.md5 p.key n (buf ++ b) (buf ++ b) := by
    rintro ⟨s, rfl⟩ buf
    exact Or.inl ⟨rfl, by rw [← List.append_assoc]; exact no_end _⟩
  have line : b!">>\n" <:+ b!"\n>>\n" := ⟨b!"\n", rfl⟩
  cases o with
  | catalog => simp only [GObj.build, Res.ok.injEq] at h; exact ⟨b, by simp only [GObj.build, h], same ⟨b!"<<\n  /Type /Catalog\n  /Pages 2 0 R\n", by rw [← h]; rfl⟩⟩
  | pages count kids =>
    refine ⟨b, h, same ?_⟩
    simp only [GObj.build, Res.ok.injEq] at h
    rw [← h]
    exact List.IsSuffix.trans ⟨b!" ]\n", rfl⟩ (List.suffix_append _ _)
  | procset fs xs =>
    refine ⟨b, h, same ?_⟩
    simp only [GObj.build, Res.ok.injEq] at h
    rw [← h]
    exact List.IsSuffix.trans ⟨b!">>\n", rfl⟩ (List.suffix_append _ _)
  | page c r z =>
    refine ⟨b, h, same ?_⟩
    simp only [GObj.build, Res.ok.injEq] at h
    rw [← h]
    exact List.suffix_append _ _
  | content stream caches =>
    simp only [GObj.build, Res.bind_eq_ok] at h
    obtain ⟨s, h1, body, h2, h3⟩ := h
    simp only [hp, Option.isNone_some, Bool.and_false, Bool.false_eq_true, if_false, Res.ok.injEq, List.append_nil] at h2 h3
    obtain ⟨c, c1, c2, c3⟩ := hrc (if decide (g.level ≠ 0) = true then env.zipLevel g.level (stream ++ s) else stream ++ s) b!"\n"
    rw [c1, Res.ok.injEq] at h2
    refine ⟨_, by simp only [GObj.build, Gp.shield, h1, Res.ok_bind, sealed]; rfl, fun buf => Or.inr ?_⟩
    by_cases hl : g.level = 0
    · simp only [hl, ne_eq, not_true_eq_false, decide_false, Bool.false_eq_true, if_false, Option.isNone_none, Bool.false_and, List.append_nil] at *
      refine ⟨buf ++ b!"<<\n", [], stream ++ s, c, [], b!"\n", ?_, ?_, by simp, c2, c3⟩
      · simp
      · rw [← h3, ← h2]; simp
    · simp only [hl, ne_eq, not_false_eq_true, decide_true, if_true, Option.isNone_none, Bool.and_self] at *
      refine ⟨buf ++ b!"<<\n/Filter/FlateDecode", [], env.zipLevel g.level (stream ++ s), c, b!"\n", b!"\n", ?_, ?_, by simp, c2, c3⟩
      · simp
      · rw [← h3, ← h2]; simp
  | unicode f =>
    simp only [GObj.build] at h ⊢
    rw [show (g.shield none).fonts = g.fonts from rfl]
    cases hf : g.fonts[f]? with
    | none => simp [hf] at h
    | some F =>
      simp only [hf, Res.bind_eq_ok] at h
      obtain ⟨body, h2, h3⟩ := h
      obtain ⟨c, c1, c2, c3⟩ := hrc (unicodeStream F.chars) []
      rw [hp, c1, Res.ok.injEq] at h2
      simp only [Res.ok.injEq] at h3
      refine ⟨_, by simp only [Gp.shield, sealed, Res.ok_bind]; rfl, fun buf => Or.inr ⟨buf ++ b!"<<\n", [], unicodeStream F.chars, c, [], [], by simp, ?_, by simp, c2, c3⟩⟩
      rw [← h3, ← h2]; simp
  | dict f =>
    simp only [GObj.build] at h ⊢
    rw [show (g.shield none).fonts = g.fonts from rfl]
    cases hf : g.fonts[f]? with
    | none => simp [hf] at h
    | some F =>
      simp only [hf, Res.bind_eq_ok] at h
      obtain ⟨m, h1, body, h2, h3⟩ := h
      obtain ⟨c, c1, c2, c3⟩ := hrc (env.zip m) []
      rw [hp, c1, Res.ok.injEq] at h2
      simp only [Res.ok.injEq] at h3
      refine ⟨_, by simp only [Gp.shield, h1, sealed, Res.ok_bind]; rfl, fun buf => Or.inr ⟨buf ++ b!"<<", b!"/Filter /FlateDecode\n/Length1 " ++ itoa m.length ++ b!"\n", env.zip m, c, b!"\n", b!"\n", by simp, ?_, by simp, c2, c3⟩⟩
      rw [← h3, ← h2]; simp
  | desc f d =>
    refine ⟨b, h, same ?_⟩
    simp only [GObj.build] at h
    cases hf : g.fonts[f]? with
    | none => simp [hf] at h
    | some F =>
      simp only [hf, Res.ok.injEq] at h
      rw [← h]
      exact List.IsSuffix.trans line (List.suffix_append _ _)
  | cid f d =>
    refine ⟨b, h, same ?_⟩
    simp only [GObj.build] at h
    cases hf : g.fonts[f]? with
    | none => simp [hf] at h
    | some F =>
      simp only [hf, cidBuild, Res.bind_eq_ok, Res.ok.injEq] at h
      obtain ⟨w, _, h⟩ := h
      rw [← h]
      exact List.IsSuffix.trans ⟨b!"]\n", rfl⟩ (List.suffix_append _ _)
  | font f =>
    refine ⟨b, h, same ?_⟩
    simp only [GObj.build] at h
    cases hf : g.fonts[f]? with
    | none => simp [hf] at h
    | some F =>
      simp only [hf, Res.ok.injEq] at h
      rw [← h]
      exact List.IsSuffix.trans ⟨b!" 0 R\n/Type /Font\n", rfl⟩ (List.suffix_append _ _)
  | image i =>
    simp only [GObj.build, Res.bind_eq_ok] at h ⊢
    obtain ⟨body, h2, h3⟩ := h
    obtain ⟨c, c1, c2, c3⟩ := hrc i.data b!"\n"
    rw [hp, c1, Res.ok.injEq] at h2
    simp only [Res.ok.injEq] at h3
    refine ⟨_, ⟨_, by simp only [Gp.shield, sealed]; rfl, rfl⟩, fun buf => Or.inr ⟨buf ++ buildImgProp i, [], i.data, c, b!"\n", b!"\n\n", by simp, ?_, by simp, c2, c3⟩⟩
    rw [← h3, ← h2]; simp
  | smask i =>
    simp only [GObj.build, Res.bind_eq_ok] at h ⊢
    obtain ⟨body, h2, h3⟩ := h
    obtain ⟨c, c1, c2, c3⟩ := hrc i.data b!"\n"
    rw [hp, c1, Res.ok.injEq] at h2
    simp only [Res.ok.injEq] at h3
    refine ⟨_, ⟨_, by simp only [Gp.shield, sealed]; rfl, rfl⟩, fun buf => Or.inr ⟨buf ++ buildImgProp i, [], i.data, c, b!"\n", b!"\n\n", by simp, ?_, by simp, c2, c3⟩⟩
    rw [← h3, ← h2]; simp
  | rgb q => simp [GObj.build] at h
  | enc q => exact absurd rfl (ho q)


/-- the objects of a session that is not over -/
theorem no_guard {slots : List GSlot} (h : Laid slots) {k : Nat} {s : GSlot} (hs : slots[k]? = some s) (vs : List PageView) : ∀ q, updObj vs k s.obj ≠ .enc q := by
  intro q e
  have he : s.obj = .enc q := by
    revert e
    cases s.obj <;> simp [updObj] <;> (try split) <;> simp_all
  obtain ⟨fs, xs, rest, rfl, hr⟩ := h
  match k, hs with
  | 0, hs => simp at hs; subst hs; simp at he
  | 1, hs => simp at hs; subst hs; simp at he
  | 2, hs => simp at hs; subst hs; simp at he
  | k + 3, hs =>
    simp only [List.getElem?_cons_succ] at hs
    have := (hr s (List.mem_of_getElem? hs)).2
    rw [he] at this
    exact this

theorem builds_unseal {env : GEnv} (hmd5 : ∀ x, (env.md5 x).length = 16) {p : Protection} (hk : p.key.length = 5) {g : Gp} (hp : g.protection = some p) (hw : Laid g.slots) {bs : List Bytes}
    (hb : GoBuilds env g.prepare 0 g.prepare.slots bs) : ∃ bs0, GoBuilds env (g.shield none).prepare 0 (g.shield none).prepare.slots bs0 ∧ bs0.length = g.slots.length ∧
      bs[g.slots.length]? = some (encBuild p) ∧ ∀ k b0, bs0[k]? = some b0 → ∃ b, bs[k]? = some b ∧ SealedAs rc4Cip env.md5 p.key (k + 1) b0 b := by
  have e1 : g.prepare.slots = updSlots (viewOf g.kinds) (g.slots ++ [⟨.enc p, []⟩]) := by rw [prepare_eq]; simp [Gp.encSlots, hp]
  have e2 : (g.shield none).prepare.slots = updSlots (viewOf g.kinds) g.slots := by rw [prepare_eq]; simp [Gp.encSlots, Gp.shield, Gp.kinds]
  have each : ∀ k ∈ List.range g.slots.length, ∃ b0 : Bytes, ∀ s, g.slots[k]? = some s → (∃ h b, (g.shield none).prepare.Same h ∧
      ((∀ (j : Nat) (r : GSlot), j < k → (updSlots (viewOf g.kinds) g.slots)[j]? = some r → r.obj.isProcset = false) → h.countL = (g.shield none).prepare.countL) ∧
      (updObj (viewOf g.kinds) k s.obj).build env h (0 + k + 1) = .ok b ∧ b0 = s.buf ++ b) ∧ ∃ b, bs[k]? = some b ∧ SealedAs rc4Cip env.md5 p.key (k + 1) b0 b := by
    intro k hk'
    rw [List.mem_range] at hk'
    obtain ⟨h, b, h1, h2, h3, h4⟩ := hb.2 k { g.slots[k] with obj := updObj (viewOf g.kinds) k g.slots[k].obj } (by
      rw [e1, updSlots_get, List.getElem?_append_left hk', List.getElem?_eq_getElem hk']; rfl)
    have hg : g.slots[k]? = some g.slots[k] := List.getElem?_eq_getElem hk'
    obtain ⟨b0, k1, k2⟩ := build_seal hmd5 hk (g := h) (by rw [h1.protection, prepare_eq]; exact hp) (no_guard hw hg _) h3
    refine ⟨g.slots[k].buf ++ b0, fun s hs => ?_⟩
    rw [hg, Option.some.injEq] at hs
    subst hs
    refine ⟨⟨{ (h.shield none) with encID := g.encID }, b0, ?_, ?_, ?_, rfl⟩, _, h4, by simpa using k2 g.slots[k].buf⟩
    · have q1 := h1.fonts; have q2 := h1.pageSize; have q3 := h1.level; have q4 := h1.info
      rw [prepare_eq] at q1 q2 q3 q4
      rw [prepare_eq]
      exact ⟨q1, q2, q3, rfl, q4, rfl⟩
    · intro hq
      have := h2 (by
        intro j r hj hr
        rw [e1, updSlots_get, List.getElem?_append_left (by omega), ← updSlots_get] at hr
        exact hq j r hj hr)
      rw [prepare_eq] at this
      rw [prepare_eq]
      exact this
    · rw [← k1]
      cases updObj (viewOf g.kinds) k g.slots[k].obj <;> rfl
  obtain ⟨bs0, h0⟩ := exists_forall₂ each
  have hl : bs0.length = g.slots.length := by rw [← h0.length_eq, List.length_range]
  have hlen : bs.length = g.slots.length + 1 := by rw [hb.1, e1, updSlots_length]; simp
  refine ⟨bs0, ⟨by rw [hl, e2, updSlots_length], fun k s hs => ?_⟩, hl, ?_, fun k b0 hb0 => ?_⟩
  · rw [e2, updSlots_get] at hs
    obtain ⟨s', hs', rfl⟩ := Option.map_eq_some_iff.1 hs
    have hlt : k < bs0.length := by rw [hl]; exact (List.getElem?_eq_some_iff.1 hs').1
    obtain ⟨c, c1, c2⟩ := fonts_fwd h0 (k := k) (a := k) (by simp [← hl, hlt])
    rw [List.getElem?_eq_getElem hlt, Option.some.injEq] at c1
    subst c1
    obtain ⟨⟨h, b, q1, q2, q3, q4⟩, _⟩ := c2 _ hs'
    refine ⟨h, b, q1, ?_, q3, by rw [List.getElem?_eq_getElem hlt, q4]⟩
    rw [e2]
    exact q2
  · obtain ⟨h, b, _, _, h3, h4⟩ := hb.2 g.slots.length ⟨.enc p, []⟩ (by rw [e1, updSlots_get]; simp [updObj])
    simp only [GObj.build, Res.ok.injEq] at h3
    rw [h4, ← h3]
    rfl
  · have hlt : k < g.slots.length := by rw [← hl]; exact (List.getElem?_eq_some_iff.1 hb0).1
    obtain ⟨c, c1, c2⟩ := fonts_fwd h0 (k := k) (a := k) (by simp [hlt])
    rw [hb0, Option.some.injEq] at c1
    subst c1
    exact (c2 _ (List.getElem?_eq_getElem hlt)).2

/-- **C92**: A protected document.  Calls of `GoPdf` are made after `Start` with a protection, all of which succeed, and then the document is written.  Whoever knows the user password computes the key
from the dictionary of the protection, which the trailer names, and finds, having deciphered the streams, the document that the same calls make without protection: its pages show what was asked for,
and what is on them finds its resources.

Missing: permissions with bits above the lowest eight (`C35_refuted_high_bits`), and what is missing in `C88_session_partial`. -/
theorem C92_session_partial {env : GEnv} (hmd5 : ∀ x, (env.md5 x).length = 16) {random user owner : Bytes} {perm : BitVec 64} (hperm : perm.toNat < 256) {p : Protection}
    (hp : setProtection env.md5 random perm user owner = .ok p) {z : GRect} {cs : List GCall} {g g' : Gp} {out : Bytes} (hr : GDone env (Gp.start z (some p)) cs g)
    (h : g.compile env = (g', .ok out)) (hl : out.length < 10 ^ 10) (hz : ∀ l b, env.unzip (env.zipLevel l b) = some b)
    (hs : ∀ s ∈ thingsOf env (Gp.start z none) cs [], s.2 ≠ [] ∧ ∀ w, .text w ∈ s.2 → Legible w) (hu : ∀ a ∈ addedFonts cs, a.style &&& 4 ≠ 4 ∧ GoodName a.family) :
    ∃ bodies plain trailer pages fonts images, FileHolds out bodies trailer ∧ Unlocks rc4Cip env.md5 user bodies plain ∧
      ((∀ i, g.info = some i → i.date = none) → ∃ d, DictObject trailer d ∧ d.lookup b!"Encrypt" = some (.ref bodies.length)) ∧
      TreeIs env.unzip plain z pages ∧ ResourcesAre plain fonts images ∧
      List.Forall₂ (fun s p => p.1 = s.1 ∧ ∀ adv, ∃ ms q, AllShown env.upper (s.1.getD z).h s.2 {} ms q.g ∧ Paints adv {} p.2 ms q) (thingsOf env (Gp.start z none) cs []) pages ∧
      ∀ s ∈ thingsOf env (Gp.start z none) cs [], ∀ t ∈ s.2, ThingFound env plain fonts images cs t := by
  obtain ⟨p', hp', _, c2, c3, c4, _, _, _⟩ := C35_password_entries_partial hmd5 random user owner hperm
  rw [hp, Res.ok.injEq] at hp'
  subst hp'
  have hprot : g.protection = some p := done_protection hr
  have hr0 : GDone env (Gp.start z none) cs (g.shield none) := done_shield none hr
  have hk := held_run hr0 (start_held env z)
  have hlaid : Laid g.slots := hk.whole.laid
  have hne : g.slots ≠ [] := by
    intro e
    rw [e] at hlaid
    simp [Laid] at hlaid
  obtain ⟨bs, h1, h2, h3⟩ := compile_holds h hne hl
  obtain ⟨bs0, b1, b2, b3, b4⟩ := builds_unseal hmd5 c3 hprot hlaid h1
  obtain ⟨pages, fonts, images, h4⟩ := session_holds hr0 b1 hz hs hu
  have hlen : bs.length = g.slots.length + 1 := by rw [h2, hprot]; rfl
  refine ⟨_, _, _, pages, fonts, images, h3, ?_, ?_, h4⟩
  · obtain ⟨fuel, r1, r2, d1, ⟨r, d2, rfl⟩, d3⟩ := C36_dictionary p
    refine ⟨encBuild p, p.oValue, p.uValue, p.pValue, by simp [hlen, b2], ?_, ⟨fuel, r1, r2, d1, d2, d3⟩, ?_, ?_⟩
    · rw [List.length_map, hlen]
      exact objAt_succ _ _ _ b3
    · rw [← c2]
      obtain ⟨c, e1, _, e3⟩ := rc4Cip_spec (key := p.key) (by omega) (by omega) (padPassword [])
      rw [c4, Res.ok.injEq] at e1
      rw [e1]
      exact e3
    · rw [← c2]
      intro n b hn hb
      obtain ⟨k, rfl⟩ : ∃ k, n = k + 1 := ⟨n - 1, by omega⟩
      have : (bs0.map (b!"\n" ++ ·))[k]? = some b := by simpa [objAt] using hb
      rw [List.getElem?_map] at this
      obtain ⟨b0, q1, rfl⟩ := Option.map_eq_some_iff.1 this
      obtain ⟨b', q2, q3⟩ := b4 k b0 q1
      refine ⟨b!"\n" ++ b', objAt_succ _ _ _ q2, ?_⟩
      rcases q3 with ⟨rfl, q4⟩ | ⟨x, y, data, c, e, e', q4, q5, q6⟩
      · refine Or.inl ⟨rfl, fun hq => ?_⟩
        obtain ⟨a, ha⟩ := hq
        cases a with
        | nil => simp at ha
        | cons x a =>
          simp only [List.cons_append, List.nil_append, List.cons.injEq] at ha
          exact q4 ⟨a, ha.2⟩
      · exact Or.inr ⟨b!"\n" ++ x, y, data, c, e, e', by rw [q4]; simp, by rw [q5]; simp, by simpa using q6⟩
  · intro hd
    have e2 : g.prepare.info = g.info := by rw [prepare_eq]
    have e3 : g.prepare.protection = some p := by rw [prepare_eq]; exact hprot
    have e4 : g.prepare.encID = bs.length := by rw [prepare_eq, hlen]; simp [hprot]
    refine ⟨_, trailer_reads _ _ (by rw [e2]; exact hd), ?_⟩
    rw [List.length_map, ← e4]
    unfold Gp.trailerVals
    rw [e3]
    rfl

end Verif
