import Verif.AppSamples
import Verif.Spec.Save
import Verif.Lemmas.Store
/-
C38, C39, C40, C45: fonts by name, page heights after opening, template fields.
-/
namespace Verif
open Spec

/-! ### C40 -/

/-- no font of this name was added -/
def Spec.Unknown (a : App) (name : Bytes) : Prop := ∀ f, (name, f) ∉ a.fontMap

theorem lookup_eq_none' {β : Type} {l : List (Bytes × β)} {k : Bytes} (h : ∀ v, (k, v) ∉ l) : l.lookup k = none := by
  induction l with
  | nil => rfl
  | cons p t ih =>
    obtain ⟨k', v'⟩ := p
    have hne : k ≠ k' := by
      intro e; subst e
      exact h v' List.mem_cons_self
    rw [List.lookup_cons, beq_false_of_ne hne]
    exact ih (fun v hv => h v (List.mem_cons_of_mem _ hv))

theorem lookup_isSome' {β : Type} {l : List (Bytes × β)} {k : Bytes} {v : β} (h : (k, v) ∈ l) : (l.lookup k).isSome = true := by
  induction l with
  | nil => simp at h
  | cons p t ih =>
    obtain ⟨k', v'⟩ := p
    rw [List.lookup_cons]
    by_cases hk : k = k'
    · subst hk; simp
    · rw [beq_false_of_ne hk]
      rcases List.mem_cons.1 h with h | h
      · exact absurd (congrArg Prod.fst h) hk
      · exact ih h

/-- `SetFont` with an unknown name is an error and changes nothing. -/
theorem C40_setFont (env : Env) (a : App) (name style : Bytes) (size : Int) (h : Unknown a name) :
    a.setFont env name style size = ⟨a, .err .fontNameNotFound⟩ := by
  unfold App.setFont
  rw [lookup_eq_none' h]
  simp

/-- `TextriseOverride` with an unknown name is an error and changes nothing. -/
theorem C40_textrise (a : App) (name : Bytes) (fn : Nat → Nat → Int → Bytes → Nat → Bytes) (h : Unknown a name) :
    a.textriseOverride name fn = ⟨a, .err .fontNameNotFound⟩ := by
  unfold App.textriseOverride App.font?
  rw [lookup_eq_none' h]

/-- `KernOverride` with an unknown name is an error and changes nothing. -/
theorem C40_kern (a : App) (name : Bytes) (fn : Nat → Nat → Nat → Nat → Int → Int) (h : Unknown a name) :
    a.kernOverride name fn = ⟨a, .err .fontNameNotFound⟩ := by
  unfold App.kernOverride App.font?
  rw [lookup_eq_none' h]

/-- the media boxes read on opening have four numbers at least -/
def Spec.FullBoxes (d : Doc) : Prop := ∀ p ∈ d.pageSizes, 4 ≤ p.2.length

theorem pageHeight_ok (env : Env) {d : Doc} (h : FullBoxes d) (k : Int) : ∃ q, pageHeight env d k = .ok q := by
  unfold pageHeight
  split
  · rename_i l hl
    have hm : ∃ n, (n, l) ∈ d.pageSizes := by
      split at hl
      · obtain ⟨l₁, l₂, he, _⟩ := List.lookup_eq_some_iff.1 hl
        exact ⟨(k - 1).toNat, by rw [he]; exact List.mem_append_right _ List.mem_cons_self⟩
      · cases hl
    obtain ⟨n, hm⟩ := hm
    have := h _ hm
    simp only at this
    cases hg : l[3]? with
    | none => rw [List.getElem?_eq_none_iff] at hg; omega
    | some t => exact ⟨_, rfl⟩
  · exact ⟨_, rfl⟩

/-- `Insert` while the current font was never added is an error and changes nothing. -/
theorem C40_insert (env : Env) (a : App) (text : Bytes) (page : Int) (x y w h : ℚ) (align : Nat) (color : Option (Int × Int × Int))
    (hf : Unknown a a.fontName) (hb : FullBoxes a.doc) : a.insert env text page x y w h align color = ⟨a, .err .fontNameNotFound⟩ := by
  obtain ⟨q, hq⟩ := pageHeight_ok env hb page
  unfold App.insert App.font?
  rw [hq, lookup_eq_none' hf]

/-- `AddFont` with a name in use is an error and changes nothing. -/
theorem C40_addFont (a : App) (name file : Bytes) (i : Nat) (h : (name, i) ∈ a.fontMap) : a.addFont name file = ⟨a, .err .addSameFontName⟩ := by
  unfold App.addFont
  rw [lookup_isSome' h]
  simp

example : Unknown ({} : App) b!"A" ∧ FullBoxes ({} : App).doc := ⟨fun _ h => by simp at h, fun p hp => by simp [emptyDoc] at hp⟩

/-! ### C38 -/

theorem pageSizesLoop_lookup (isFloat : Bytes → Bool) (objs : List Obj) : ∀ (ids : List Int) (n : Nat) (sizes : List (Nat × List Bytes)),
    pageSizesLoop isFloat objs n ids = .ok sizes → (∀ m, m < n → sizes.lookup m = none) ∧
      ∀ (k : Nat) id ps v, ids[k]? = some id → Entries objs id ps → valueOf ps b!"MediaBox" = some v →
        (propertyType v = .array → ∃ l, parseFloatSlice isFloat v = .ok l ∧ sizes.lookup (n + k) = some l) := by
  intro ids
  induction ids with
  | nil =>
    intro n sizes h
    simp only [pageSizesLoop, Res.ok.injEq] at h
    subst h
    refine ⟨fun _ _ => rfl, ?_⟩
    intro k id ps v hk; simp at hk
  | cons i t ih =>
    intro n sizes h
    rw [pageSizesLoop, Res.bind_eq_ok] at h
    obtain ⟨o, ho, h⟩ := h
    rw [Res.bind_eq_ok] at h
    obtain ⟨mb, hmb, h⟩ := h
    rw [Res.bind_eq_ok] at h
    obtain ⟨p, hp, h⟩ := h
    have hmb' : mb = some p := by
      cases mb with
      | none => simp at hp
      | some q => simp at hp; rw [hp]
    subst hmb'
    have head : ∀ id ps v, (i :: t)[0]? = some id → Entries objs id ps → valueOf ps b!"MediaBox" = some v → v = p.rawVal := by
      intro id ps v hid he hv
      simp at hid; subst hid
      obtain ⟨o', ho', hr⟩ := he
      rw [getObj_only ho'] at ho
      simp at ho; subst ho
      rw [readProperty, hr] at hmb
      simp only [Res.ok_bind, Res.ok.injEq] at hmb
      obtain ⟨q, hq, hqv⟩ := valueOf_some hv
      rw [hq] at hmb
      simp at hmb
      rw [← hqv, hmb]
    by_cases hty : propertyType p.rawVal = .array
    · rw [if_pos hty, Res.bind_eq_ok] at h
      obtain ⟨l, hl, h⟩ := h
      rw [Res.bind_eq_ok] at h
      obtain ⟨r, hr, h⟩ := h
      simp only [Res.ok.injEq] at h
      subst h
      obtain ⟨h1, h2⟩ := ih (n + 1) r hr
      refine ⟨?_, ?_⟩
      · intro m hm
        rw [List.lookup_cons, beq_false_of_ne (by omega)]
        exact h1 m (by omega)
      · intro k id ps v hk he hv hva
        cases k with
        | zero =>
          have := head id ps v hk he hv
          subst this
          exact ⟨l, hl, by simp⟩
        | succ k =>
          obtain ⟨l', hl', hl2⟩ := h2 k id ps v (by simpa using hk) he hv hva
          refine ⟨l', hl', ?_⟩
          rw [List.lookup_cons, beq_false_of_ne (show n + (k + 1) ≠ n by omega), ← hl2, show n + 1 + k = n + (k + 1) by omega]
    · rw [if_neg hty] at h
      obtain ⟨h1, h2⟩ := ih (n + 1) sizes h
      refine ⟨fun m hm => h1 m (by omega), ?_⟩
      intro k id ps v hk he hv hva
      cases k with
      | zero =>
        have := head id ps v hk he hv
        subst this
        exact absurd hva hty
      | succ k =>
        obtain ⟨l', hl', hl2⟩ := h2 k id ps v (by simpa using hk) he hv hva
        exact ⟨l', hl', by rw [← hl2, show n + 1 + k = n + (k + 1) by omega]⟩

/-- `v` is the array of these number texts -/
def Spec.BoxTexts (v : Bytes) (l : List Bytes) : Prop := ∃ body, trimSpace v = b!"[" ++ body ++ b!"]" ∧ fields body = l

theorem propertyType_array {v body : Bytes} (h : trimSpace v = b!"[" ++ body ++ b!"]") : propertyType v = .array := by
  unfold propertyType
  simp only [h]
  rw [if_neg, if_pos]
  · simp
  · rintro ⟨_, h2⟩
    simp at h2

theorem trimBrackets_box (body : Bytes) : trimBrackets (b!"[" ++ body ++ b!"]") = body := by
  unfold trimBrackets
  rw [if_pos (by simp)]
  simp only [List.cons_append, List.nil_append, List.drop_one, List.tail_cons]
  rw [if_pos (by simp [List.isSuffixOf])]
  simp

/-- Right after opening, the height used for page `k` is the fourth number of the media box written in that page. -/
theorem C38_after_open_partial (env : Env) (a : App) (raw : Bytes) (hok : (a.openFrom env raw).res = .ok ()) {ids : List Int}
    (hids : getPageObjIDs (a.openFrom env raw).state.doc = .ok ids) {k : Nat} {id : Int} (hk : ids[k]? = some id) {ps : Props}
    (he : Entries (a.openFrom env raw).state.doc.objs id ps) {v : Bytes} (hv : valueOf ps b!"MediaBox" = some v) {l : List Bytes}
    (hl : BoxTexts v l) {t : Bytes} (ht : l[3]? = some t) :
    ∃ q, env.parseFloat t = some q ∧ pageHeight env (a.openFrom env raw).state.doc (k + 1) = .ok q := by
  unfold App.openFrom at hok hids he ⊢
  simp only at hok hids he ⊢
  cases hp : pdfParse (fun s => (env.parseFloat s).isSome) a.doc raw with
  | err e => rw [hp] at hok; simp at hok
  | panic => rw [hp] at hok; simp at hok
  | hang => rw [hp] at hok; simp at hok
  | ok d =>
    rw [hp] at hok hids he
    simp only [App.showCellBorder, Bool.false_eq_true, if_false] at hids he ⊢
    unfold pdfParse at hp
    rw [Res.bind_eq_ok] at hp
    obtain ⟨rows, _, hp⟩ := hp
    rw [Res.bind_eq_ok] at hp
    obtain ⟨root, _, hp⟩ := hp
    simp only at hp
    rw [Res.bind_eq_ok] at hp
    obtain ⟨os, _, hp⟩ := hp
    rw [Res.bind_eq_ok] at hp
    obtain ⟨_, _, hp⟩ := hp
    rw [Res.bind_eq_ok] at hp
    obtain ⟨sizes, hs, hp⟩ := hp
    simp only [Res.ok.injEq] at hp
    subst hp
    unfold parsePageSize at hs
    rw [Res.bind_eq_ok] at hs
    obtain ⟨ids', hids', hs⟩ := hs
    have : ids' = ids := by
      have h1 : getPageObjIDs (⟨root, a.doc.xrefs ++ rows, a.doc.objs ++ os, sizes⟩ : Doc) = .ok ids' := hids'
      rw [hids] at h1
      simpa using h1.symm
    subst this
    obtain ⟨body, hb, hf⟩ := hl
    obtain ⟨_, h2⟩ := pageSizesLoop_lookup _ _ _ _ _ hs
    obtain ⟨l', hl', hlk⟩ := h2 k id ps v hk he hv (propertyType_array hb)
    unfold parseFloatSlice at hl'
    simp only [hb, trimBrackets_box, hf] at hl'
    split at hl'
    · rename_i hall
      simp only [Res.ok.injEq] at hl'
      subst hl'
      have htf := List.all_eq_true.1 hall t (List.mem_of_getElem? ht)
      obtain ⟨q, hq⟩ := Option.isSome_iff_exists.1 htf
      refine ⟨q, hq, ?_⟩
      unfold pageHeight
      rw [if_pos (by omega)]
      have : ((k : Int) + 1 - 1).toNat = 0 + k := by omega
      rw [this]
      simp only
      rw [hlk]
      simp only [ht, hq]
      rfl
    · cases hl'

-- the hypotheses hold for the file of one page
example : (App.openFrom plainEnv {} (fileOf onePage)).res = .ok () ∧ getPageObjIDs (openedApp (fileOf onePage)).doc = .ok [3] ∧
    ((entriesOf (openedApp (fileOf onePage)).doc.objs 3).bind (valueOf · b!"MediaBox")) = some b!"[0 0 595 842]" := by decide +kernel
example : BoxTexts b!"[0 0 595 842]" [b!"0", b!"0", b!"595", b!"842"] := ⟨b!"0 0 595 842", by decide, by decide⟩

/-! ### C45 -/

/-- the last field with this key -/
def Spec.fieldFor (l : List FieldInfo) (key : Bytes) : Option FieldInfo := l.reverse.find? (fun f => f.key = key)

theorem lookup_map_put (m : List (Bytes × FieldInfo)) (i : FieldInfo) (key : Bytes) (h : (m.lookup i.key).isSome = true) :
    (m.map (fun p => if p.1 = i.key then (i.key, i) else p)).lookup key = if key = i.key then some i else m.lookup key := by
  induction m with
  | nil => simp at h
  | cons p t ih =>
    obtain ⟨k, v⟩ := p
    rw [List.map_cons]
    by_cases hk : k = i.key
    · subst hk
      rw [if_pos rfl, List.lookup_cons, List.lookup_cons]
      by_cases hkey : key = i.key
      · subst hkey; simp
      · rw [beq_false_of_ne hkey, if_neg hkey]
        by_cases ht : (t.lookup i.key).isSome = true
        · rw [ih ht, if_neg hkey]
        · simp only [Option.not_isSome_iff_eq_none] at ht
          have : t.map (fun p => if p.1 = i.key then (i.key, i) else p) = t := by
            conv_rhs => rw [← List.map_id t]
            apply List.map_congr_left
            intro p hp
            rw [if_neg, id]
            intro e
            have := lookup_isSome' (k := i.key) (v := p.2) (l := t) (by rw [← e]; exact hp)
            rw [ht] at this; simp at this
          rw [this]
    · rw [if_neg hk, List.lookup_cons, List.lookup_cons]
      rw [List.lookup_cons, beq_false_of_ne (Ne.symm hk)] at h
      by_cases hkey : key = k
      · subst hkey
        rw [if_neg hk]; simp
      · rw [beq_false_of_ne hkey]
        exact ih h

theorem lookup_fieldPut (m : List (Bytes × FieldInfo)) (i : FieldInfo) (key : Bytes) :
    (fieldPut m i).lookup key = if key = i.key then some i else m.lookup key := by
  unfold fieldPut
  split
  · rename_i h; exact lookup_map_put m i key h
  · rename_i h
    simp only [Option.not_isSome_iff_eq_none] at h
    rw [List.lookup_append]
    by_cases hk : key = i.key
    · subst hk; rw [h]; simp
    · rw [if_neg hk]
      cases hm : m.lookup key with
      | none => simp [List.lookup_cons, beq_false_of_ne hk]
      | some v => rfl

theorem toFieldMap_lookup (l : List FieldInfo) (key : Bytes) : (toFieldMap l).lookup key = fieldFor l key := by
  unfold toFieldMap fieldFor
  rw [← List.foldr_reverse]
  induction l.reverse with
  | nil => rfl
  | cons f t ih =>
    rw [List.foldr_cons, lookup_fieldPut, ih, List.find?_cons]
    by_cases h : f.key = key
    · simp [h]
    · simp [h, Ne.symm h]

/-- a template with these fields -/
def Spec.Template (r : Render) (l : List FieldInfo) : Prop := r.fields = toFieldMap l

/-- `NewRender` makes a template with the given fields. -/
theorem C45_new (env : Env) (raw : Bytes) (l : List FieldInfo) : Template (newRender env raw l).state l := rfl

/-- A key that no field has: nothing changes and there is no error. -/
theorem C45_unknown (env : Env) {r : Render} {l : List FieldInfo} (h : Template r l) (key v : Bytes) (hk : ∀ f ∈ l, f.key ≠ key) :
    r.text env key v = ⟨r, .ok ()⟩ ∧ r.imgBase64 env key v = ⟨r, .ok ()⟩ := by
  have hn : r.fields.lookup key = none := by
    rw [h, toFieldMap_lookup, fieldFor, List.find?_eq_none]
    intro f hf
    simpa using hk f (by simpa using hf)
  unfold Render.text Render.imgBase64
  rw [hn]
  exact ⟨rfl, rfl⟩

/-- The text for a key is inserted with page, position, size, alignment and font of the last field with that key, black, whatever was current before;
wrapped if the field says so. -/
theorem C45_text (env : Env) {r : Render} {l : List FieldInfo} (h : Template r l) {key : Bytes} {f : FieldInfo} (hf : fieldFor l key = some f)
    (v : Bytes) {i : Nat} (hfont : (f.font, i) ∈ r.app.fontMap) :
    let a := { r.app with fontName := f.font, fontStyle := 0, fontSize := f.size }
    (r.text env key v).res = (if f.isWrapText then (a.insertWrapText env v f.pageNum f.x f.y f.w f.h f.align none r.breaker).res
      else (a.insert env v f.pageNum f.x f.y f.w f.h f.align none).res) ∧
    (r.text env key v).state.app = (if f.isWrapText then (a.insertWrapText env v f.pageNum f.x f.y f.w f.h f.align none r.breaker).state
      else (a.insert env v f.pageNum f.x f.y f.w f.h f.align none).state) ∧
    Template (r.text env key v).state l := by
  have hl : r.fields.lookup key = some f := by rw [h, toFieldMap_lookup, hf]
  have hs : r.app.setFont env f.font [] f.size = ⟨{ r.app with fontName := f.font, fontStyle := 0, fontSize := f.size }, .ok ()⟩ := by
    unfold App.setFont
    rw [if_pos (lookup_isSome' hfont)]
    rfl
  unfold Render.text
  rw [hl]
  simp only [hs]
  split
  · exact ⟨rfl, rfl, h⟩
  · exact ⟨rfl, rfl, h⟩

/-- An image for a key is inserted with page, position and size of the last field with that key. -/
theorem C45_img (env : Env) {r : Render} {l : List FieldInfo} (h : Template r l) {key : Bytes} {f : FieldInfo} (hf : fieldFor l key = some f) (v : Bytes) :
    (r.imgBase64 env key v).res = (r.app.insertImgBase64 env v f.pageNum f.x f.y f.w f.h).res ∧
    (r.imgBase64 env key v).state.app = (r.app.insertImgBase64 env v f.pageNum f.x f.y f.w f.h).state ∧
    Template (r.imgBase64 env key v).state l := by
  have hl : r.fields.lookup key = some f := by rw [h, toFieldMap_lookup, hf]
  unfold Render.imgBase64
  rw [hl]
  exact ⟨rfl, rfl, h⟩

/-- fields with a repeated key -/
def sampleFields : List FieldInfo :=
  [⟨b!"name", 1, 10, 20, 30, 40, 0, b!"A", 12, false⟩, ⟨b!"place", 1, 10, 60, 30, 40, 0, b!"A", 12, false⟩, ⟨b!"name", 2, 11, 21, 31, 41, 2, b!"B", 9, true⟩]

example : (fieldFor sampleFields b!"name").map (·.pageNum) = some 2 ∧ fieldFor sampleFields b!"age" = none := by decide

end Verif
