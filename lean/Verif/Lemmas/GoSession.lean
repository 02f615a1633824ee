import Verif.Lemmas.GoPdf
/-!
# Sessions of calls on GoPdf: pages and their contents
-/
namespace Verif
open Spec

/-! ### pages and contents -/

/-- what matters of an object for the pages -/
inductive Kind where
  | page (size : Option GRect)
  | content (cs : List GCache)
  | other

def GObj.kind : GObj → Kind
  | .page _ _ z => .page z
  | .content _ cs => .content cs
  | _ => .other

def Gp.kinds (g : Gp) : List Kind := g.slots.map (fun s => s.obj.kind)

/-- a page: its position, its size and its contents with their positions -/
structure PageView where
  idx : Nat
  size : Option GRect
  contents : List (Nat × List GCache)

/-- changing the last element -/
def onLast {α : Type} (f : α → α) : List α → List α
  | [] => []
  | [a] => [f a]
  | a :: b :: l => a :: onLast f (b :: l)

def viewStep (vs : List PageView) (k : Nat × Kind) : List PageView :=
  match k.2 with
  | .page z => vs ++ [⟨k.1, z, []⟩]
  | .content cs => onLast (fun v => { v with contents := v.contents ++ [(k.1, cs)] }) vs
  | .other => vs

/-- the pages and their contents -/
def viewOf (ks : List Kind) : List PageView := (ks.zipIdx.map (fun p => (p.2, p.1))).foldl viewStep []

theorem viewOf_append (ks : List Kind) (k : Kind) : viewOf (ks ++ [k]) = viewStep (viewOf ks) (ks.length, k) := by
  simp [viewOf, List.zipIdx_append]

theorem viewOf_others (ks : List Kind) : ∀ (l : List Kind), (∀ k ∈ l, k = .other) → viewOf (ks ++ l) = viewOf ks := by
  intro l
  induction l using List.reverseRecOn with
  | nil => simp
  | append_singleton l k ih =>
    intro h
    rw [← List.append_assoc, viewOf_append, ih (fun x hx => h x (by simp [hx])), h k (by simp)]
    rfl

theorem viewOf_content (ks l : List Kind) (cs : List GCache) (hl : ∀ k ∈ l, k = .other) :
    viewOf (ks ++ .content cs :: l) = onLast (fun v => { v with contents := v.contents ++ [(ks.length, cs)] }) (viewOf ks) := by
  rw [show ks ++ Kind.content cs :: l = (ks ++ [.content cs]) ++ l by simp, viewOf_others _ _ hl, viewOf_append]
  rfl

theorem viewOf_page (ks l : List Kind) (z : Option GRect) (hl : ∀ k ∈ l, k = .other) : viewOf (ks ++ .page z :: l) = viewOf ks ++ [⟨ks.length, z, []⟩] := by
  rw [show ks ++ Kind.page z :: l = (ks ++ [.page z]) ++ l by simp, viewOf_others _ _ hl, viewOf_append]
  rfl

theorem onLast_append {α : Type} (f : α → α) (l : List α) (a : α) : onLast f (l ++ [a]) = l ++ [f a] := by
  induction l with
  | nil => rfl
  | cons b l ih => cases l with
    | nil => simp [onLast]
    | cons c l => simp only [List.cons_append, onLast] at ih ⊢; rw [ih]

/-- where the next drawing goes -/
inductive Drawable : List Kind → Option Nat → Prop
  | start {ks : List Kind} : (∀ k ∈ ks, k = .other) → Drawable ks none
  | page {ks l : List Kind} {z : Option GRect} : (∀ k ∈ l, k = .other) → Drawable (ks ++ .page z :: l) none
  | content {ks l : List Kind} {cs : List GCache} : cs ≠ [] → (∀ k ∈ l, k = .other) → (viewOf ks = [] ∨ ∃ vs i z, viewOf ks = vs ++ [⟨i, z, []⟩]) → Drawable (ks ++ .content cs :: l) (some ks.length)

/-- the pages with what is drawn on them -/
def sheetsOf (ks : List Kind) : List (Option GRect × List GCache) := (viewOf ks).map (fun v => (v.size, v.contents.flatMap (·.2)))

theorem Drawable.others {ks : List Kind} {o : Option Nat} (h : Drawable ks o) {l : List Kind} (hl : ∀ k ∈ l, k = .other) : Drawable (ks ++ l) o := by
  cases h with
  | start h => exact .start (by simpa [or_imp, forall_and] using ⟨h, hl⟩)
  | page h => simpa using Drawable.page (l := _ ++ l) (by simpa [or_imp, forall_and] using ⟨h, hl⟩)
  | content hc h hv => simpa using Drawable.content (l := _ ++ l) hc (by simpa [or_imp, forall_and] using ⟨h, hl⟩) hv

/-- every page has at most one content, and that is not empty -/
def OneEach (vs : List PageView) : Prop := ∀ v ∈ vs, v.contents = [] ∨ ∃ i cs, v.contents = [(i, cs)] ∧ cs ≠ []

def Kind.map (f : List GCache → List GCache) : Kind → Kind
  | .content cs => .content (f cs)
  | k => k

theorem kinds_modify (slots : List GSlot) (i : Nat) (f : List GCache → List GCache) :
    (slots.modify i (GSlot.mapCaches f)).map (fun s => s.obj.kind) = (slots.map (fun s => s.obj.kind)).modify i (Kind.map f) := by
  apply List.ext_getElem?
  intro k
  simp only [List.getElem?_map, List.getElem?_modify]
  cases slots[k]? with
  | none => rfl
  | some s =>
    by_cases e : i = k
    · simp only [e, if_true, Option.map_some, Option.map_eq_map, GSlot.mapCaches]
      cases h : s.obj <;> simp [Kind.map, GObj.kind, h]
    · simp [e]

theorem kinds_modify_same (slots : List GSlot) (i : Nat) (f : GSlot → GSlot) (hf : ∀ s, (f s).obj.kind = s.obj.kind) :
    (slots.modify i f).map (fun s => s.obj.kind) = slots.map (fun s => s.obj.kind) := by
  apply List.ext_getElem?
  intro k
  simp only [List.getElem?_map, List.getElem?_modify]
  cases slots[k]? with
  | none => rfl
  | some s => by_cases e : i = k <;> simp [e, hf]

theorem modify_mid {α : Type} (ks l : List α) (a : α) (f : α → α) : (ks ++ a :: l).modify ks.length f = ks ++ f a :: l := by
  induction ks with
  | nil => rfl
  | cons k ks ih => simp [ih]

/-- drawing changes what is on the last page -/
theorem put_spec {g : Gp} (h : Drawable g.kinds g.contentIdx) (f : List GCache → List GCache) (hf : ∀ cs, f cs ≠ []) (ho : OneEach (viewOf g.kinds)) :
    Drawable (g.put f).kinds (g.put f).contentIdx ∧ OneEach (viewOf (g.put f).kinds) ∧ sheetsOf (g.put f).kinds = onLast (fun p => (p.1, f p.2)) (sheetsOf g.kinds) := by
  -- a content object that is made now
  have new : ∀ (hn : g.contentIdx = none) (hv : viewOf g.kinds = [] ∨ ∃ vs i z, viewOf g.kinds = vs ++ [⟨i, z, []⟩]),
      Drawable (g.put f).kinds (g.put f).contentIdx ∧ OneEach (viewOf (g.put f).kinds) ∧ sheetsOf (g.put f).kinds = onLast (fun p => (p.1, f p.2)) (sheetsOf g.kinds) := by
    intro hn hv
    have hk : (g.put f).kinds = g.kinds ++ [.content (f [])] := by
      unfold Gp.put Gp.getContent Gp.kinds
      simp only [hn, Gp.addObj, modify_mid]
      simp [GSlot.mapCaches, GObj.kind]
    have hi : (g.put f).contentIdx = some g.kinds.length := by
      unfold Gp.put Gp.getContent Gp.kinds
      simp [hn]
    rw [hk, hi]
    refine ⟨.content (hf []) (by simp) hv, ?_⟩
    unfold sheetsOf
    rw [viewOf_content _ [] _ (by simp)]
    rcases hv with hv | ⟨vs, i, z, hv⟩
    · rw [hv]
      exact ⟨by simp [onLast, OneEach], rfl⟩
    · rw [hv, onLast_append]
      refine ⟨?_, ?_⟩
      · intro v hvm
        rcases List.mem_append.1 hvm with hvm | hvm
        · exact ho v (by rw [hv]; simp [hvm])
        · simp only [List.mem_singleton] at hvm
          subst hvm
          exact Or.inr ⟨g.kinds.length, f [], by simp, hf []⟩
      · simp only [List.map_append, List.map_cons, List.map_nil]
        rw [onLast_append]
        simp
  generalize hkk : g.kinds = kk at h
  generalize hcc : g.contentIdx = o at h
  cases h with
  | start h =>
    rw [← hkk]
    refine new hcc (Or.inl ?_)
    rw [hkk]
    have := viewOf_others [] kk h
    simpa [viewOf] using this
  | page h =>
    rw [← hkk]
    refine new hcc (Or.inr ?_)
    rw [hkk, viewOf_page _ _ _ h]
    exact ⟨_, _, _, rfl⟩
  | @content ks l cs hcs hl hv =>
    have hk : (g.put f).kinds = ks ++ .content (f cs) :: l := by
      have e : (g.put f).slots = g.slots.modify ks.length (GSlot.mapCaches f) := by
        unfold Gp.put Gp.getContent
        simp only [hcc]
      unfold Gp.kinds at hkk ⊢
      rw [e, kinds_modify, hkk, modify_mid]
      rfl
    have hi : (g.put f).contentIdx = some ks.length := by
      unfold Gp.put Gp.getContent
      simp [hcc]
    rw [hk, hi]
    refine ⟨.content (hf cs) hl hv, ?_⟩
    unfold sheetsOf
    rw [viewOf_content _ l _ hl, viewOf_content _ l _ hl]
    rcases hv with hv | ⟨vs, i, z, hv⟩
    · rw [hv]
      exact ⟨by simp [onLast, OneEach], rfl⟩
    · rw [hv, onLast_append, onLast_append]
      refine ⟨?_, ?_⟩
      · intro v hvm
        rcases List.mem_append.1 hvm with hvm | hvm
        · exact ho v (by rw [hkk, viewOf_content _ l _ hl, hv, onLast_append]; simp [hvm])
        · simp only [List.mem_singleton] at hvm
          subst hvm
          exact Or.inr ⟨ks.length, f cs, by simp, hf cs⟩
      · simp only [List.map_append, List.map_cons, List.map_nil]
        rw [onLast_append]
        simp

/-! ### what always holds -/

/-- an object after the first three, before anything is written -/
def GObj.Later : GObj → Prop
  | .catalog => False
  | .pages _ _ => False
  | .procset _ _ => False
  | .enc _ => False
  | .page c r _ => c = [] ∧ r = b!"3 0 R"
  | .content st _ => st = []
  | _ => True

def GSlot.Later (s : GSlot) : Prop := s.buf = [] ∧ s.obj.Later

/-- the first objects are the catalog, the page tree and the resources; nothing has been written -/
def Laid (slots : List GSlot) : Prop := ∃ fs xs rest, slots = ⟨.catalog, []⟩ :: ⟨.pages 0 [], []⟩ :: ⟨.procset fs xs, []⟩ :: rest ∧ ∀ s ∈ rest, s.Later

theorem Laid.append {slots l : List GSlot} (h : Laid slots) (hl : ∀ s ∈ l, s.Later) : Laid (slots ++ l) := by
  obtain ⟨fs, xs, rest, rfl, hr⟩ := h
  exact ⟨fs, xs, rest ++ l, by simp, by simpa [or_imp, forall_and] using ⟨hr, hl⟩⟩

theorem Laid.modify {slots : List GSlot} (h : Laid slots) (i : Nat) (f : GSlot → GSlot) (h0 : f ⟨.catalog, []⟩ = ⟨.catalog, []⟩) (h1 : f ⟨.pages 0 [], []⟩ = ⟨.pages 0 [], []⟩)
    (h2 : ∀ fs xs, ∃ gs ys, f ⟨.procset fs xs, []⟩ = ⟨.procset gs ys, []⟩) (h3 : ∀ s, s.Later → (f s).Later) : Laid (slots.modify i f) := by
  obtain ⟨fs, xs, rest, rfl, hr⟩ := h
  match i with
  | 0 => exact ⟨fs, xs, rest, by simp [h0], hr⟩
  | 1 => exact ⟨fs, xs, rest, by simp [h1], hr⟩
  | 2 =>
    obtain ⟨gs, ys, e⟩ := h2 fs xs
    exact ⟨gs, ys, rest, by simp [e], hr⟩
  | i + 3 =>
    refine ⟨fs, xs, rest.modify i f, by simp, ?_⟩
    intro s hs
    obtain ⟨k, hk⟩ := List.mem_iff_getElem?.1 hs
    rw [List.getElem?_modify] at hk
    cases hq : rest[k]? with
    | none => rw [hq] at hk; simp at hk
    | some t =>
      have ht := hr t (List.mem_of_getElem? hq)
      rw [hq] at hk
      by_cases e : i = k
      · simp [e] at hk; subst hk; exact h3 t ht
      · simp [e] at hk; subst hk; exact ht

theorem Laid.caches {slots : List GSlot} (h : Laid slots) (i : Nat) (f : List GCache → List GCache) : Laid (slots.modify i (GSlot.mapCaches f)) :=
  h.modify i _ rfl rfl (fun fs xs => ⟨fs, xs, rfl⟩) (fun s hs => by
    obtain ⟨h1, h2⟩ := hs
    unfold GSlot.mapCaches
    cases ho : s.obj <;> simp only [GSlot.Later, ho] at h2 ⊢ <;> exact ⟨h1, h2⟩)

theorem Laid.procset {slots : List GSlot} (h : Laid slots) (i : Nat) (f : List GRelate → List Nat → List GRelate × List Nat) : Laid (slots.modify i (GSlot.mapProcset f)) :=
  h.modify i _ rfl rfl (fun fs xs => ⟨_, _, rfl⟩) (fun s hs => by
    obtain ⟨h1, h2⟩ := hs
    unfold GSlot.mapProcset
    cases ho : s.obj <;> simp only [GSlot.Later, ho] at h2 ⊢ <;> exact ⟨h1, h2⟩)

theorem procset_kind (f : List GRelate → List Nat → List GRelate × List Nat) (s : GSlot) : (GSlot.mapProcset f s).obj.kind = s.obj.kind := by
  unfold GSlot.mapProcset
  cases ho : s.obj <;> simp [GObj.kind, ho]

structure Gp.Whole (g : Gp) : Prop where
  laid : Laid g.slots
  drawable : Drawable g.kinds g.contentIdx
  oneEach : OneEach (viewOf g.kinds)
  countL : g.countL = 0

theorem Gp.Whole.of_eq {g h : Gp} (hw : g.Whole) (h1 : h.slots = g.slots) (h2 : h.contentIdx = g.contentIdx) (h3 : h.countL = g.countL) : h.Whole ∧ h.kinds = g.kinds := by
  have hk : h.kinds = g.kinds := by unfold Gp.kinds; rw [h1]
  exact ⟨⟨h1 ▸ hw.laid, by rw [hk, h2]; exact hw.drawable, by rw [hk]; exact hw.oneEach, h3.trans hw.countL⟩, hk⟩

theorem put_laid {g : Gp} (h : Laid g.slots) (f : List GCache → List GCache) : Laid (g.put f).slots := by
  unfold Gp.put Gp.getContent
  cases g.contentIdx with
  | none => exact (h.append (l := [⟨.content [] [], []⟩]) (by simp [GSlot.Later, GObj.Later])).caches _ _
  | some i => exact h.caches _ _

theorem put_countL (g : Gp) (f : List GCache → List GCache) : (g.put f).countL = g.countL := by
  unfold Gp.put Gp.getContent
  cases g.contentIdx <;> rfl

theorem Gp.Whole.put {g : Gp} (h : g.Whole) (f : List GCache → List GCache) (hf : ∀ cs, f cs ≠ []) :
    (g.put f).Whole ∧ sheetsOf (g.put f).kinds = onLast (fun p => (p.1, f p.2)) (sheetsOf g.kinds) := by
  obtain ⟨h1, h2, h3⟩ := put_spec h.drawable f hf h.oneEach
  exact ⟨⟨put_laid h.laid f, h1, h2, (put_countL g f).trans h.countL⟩, h3⟩

theorem Gp.Whole.draw {g : Gp} (h : g.Whole) (c : GCache) : (g.draw c).Whole ∧ sheetsOf (g.draw c).kinds = onLast (fun p => (p.1, p.2 ++ [c])) (sheetsOf g.kinds) :=
  h.put (· ++ [c]) (by simp)

/-- objects that are neither pages nor contents -/
theorem Gp.Whole.others {g h : Gp} (hw : g.Whole) {l : List GSlot} (h1 : h.slots = g.slots ++ l) (hl : ∀ s ∈ l, s.Later ∧ s.obj.kind = .other) (h2 : h.contentIdx = g.contentIdx)
    (h3 : h.countL = g.countL) : h.Whole ∧ sheetsOf h.kinds = sheetsOf g.kinds := by
  have hk : h.kinds = g.kinds ++ l.map (fun s => s.obj.kind) := by unfold Gp.kinds; rw [h1, List.map_append]
  have ho : ∀ k ∈ l.map (fun s => s.obj.kind), k = .other := by
    intro k hk
    obtain ⟨s, hs, rfl⟩ := List.mem_map.1 hk
    exact (hl s hs).2
  refine ⟨⟨h1 ▸ hw.laid.append (fun s hs => (hl s hs).1), ?_, ?_, h3.trans hw.countL⟩, ?_⟩
  · rw [hk, h2]; exact hw.drawable.others ho
  · rw [hk, viewOf_others _ _ ho]; exact hw.oneEach
  · rw [hk]; unfold sheetsOf; rw [viewOf_others _ _ ho]

/-- changes of objects that do not matter for the pages -/
theorem Gp.Whole.modify {g h : Gp} (hw : g.Whole) {i : Nat} {f : GSlot → GSlot} (h1 : h.slots = g.slots.modify i f) (hl : Laid (g.slots.modify i f)) (hf : ∀ s, (f s).obj.kind = s.obj.kind)
    (h2 : h.contentIdx = g.contentIdx) (h3 : h.countL = g.countL) : h.Whole ∧ h.kinds = g.kinds := by
  have hk : h.kinds = g.kinds := by unfold Gp.kinds; rw [h1, kinds_modify_same _ _ _ hf]
  exact ⟨⟨h1 ▸ hl, by rw [hk, h2]; exact hw.drawable, by rw [hk]; exact hw.oneEach, h3.trans hw.countL⟩, hk⟩

theorem start_whole (z : GRect) (prot : Option Protection) : (Gp.start z prot).Whole ∧ sheetsOf (Gp.start z prot).kinds = [] := by
  refine ⟨⟨⟨[], [], [], rfl, by simp⟩, .start (by simp [Gp.kinds, Gp.start, GObj.kind]), ?_, rfl⟩, rfl⟩
  intro v hv
  simp [viewOf, Gp.kinds, Gp.start, GObj.kind, viewStep] at hv

/-- the size given to a page -/
def pageOpt (size : GRect) : Option GRect := if size.h = 0 ∧ size.w = 0 then none else some size

theorem addPage_whole {g : Gp} (h : g.Whole) (size : GRect) : (g.addPage size).Whole ∧ sheetsOf (g.addPage size).kinds = sheetsOf g.kinds ++ [(pageOpt size, [])] := by
  have hk : (g.addPage size).kinds = g.kinds ++ [.page (pageOpt size)] := by
    simp [Gp.kinds, Gp.addPage, Gp.addObj, GObj.kind, pageOpt]
  have hv : viewOf (g.kinds ++ [.page (pageOpt size)]) = viewOf g.kinds ++ [⟨g.kinds.length, pageOpt size, []⟩] := viewOf_page _ [] _ (by simp)
  refine ⟨⟨?_, ?_, ?_, h.countL⟩, ?_⟩
  · exact h.laid.append (l := [⟨.page [] b!"3 0 R" (pageOpt size), []⟩]) (by simp [GSlot.Later, GObj.Later])
  · rw [hk]; exact .page (l := []) (by simp)
  · rw [hk, hv]
    intro v hvm
    rcases List.mem_append.1 hvm with hvm | hvm
    · exact h.oneEach v hvm
    · simp only [List.mem_singleton] at hvm
      subst hvm
      exact Or.inl rfl
  · rw [hk]; unfold sheetsOf; rw [hv]; simp

theorem addFont_whole {g : Gp} (h : g.Whole) (family file : Bytes) (kerning : Bool) (style : Nat) :
    (g.addFont family file kerning style).state.Whole ∧ sheetsOf (g.addFont family file kerning style).state.kinds = sheetsOf g.kinds := by
  unfold Gp.addFont
  cases parseTtfKern kerning file with
  | ok t =>
    simp only
    generalize hb : (!g.relates.any fun r => decide (r.family = family ∧ r.style = plainStyle style)) = isNew
    have key : ∀ h' : Gp, h'.slots = g.slots ++ [⟨.unicode g.fonts.length, []⟩, ⟨.dict g.fonts.length, []⟩, ⟨.desc g.fonts.length (g.slots.length + 1), []⟩,
        ⟨.cid g.fonts.length (g.slots.length + 2), []⟩, ⟨.font g.fonts.length, []⟩] → h'.contentIdx = g.contentIdx → h'.countL = g.countL →
        h'.Whole ∧ sheetsOf h'.kinds = sheetsOf g.kinds := fun h' e1 e2 e3 => h.others e1 (by simp [GSlot.Later, GObj.Later, GObj.kind]) e2 e3
    cases isNew with
    | true =>
      simp only [if_true]
      obtain ⟨k1, k2⟩ := key { g with slots := g.slots ++ [⟨.unicode g.fonts.length, []⟩, ⟨.dict g.fonts.length, []⟩, ⟨.desc g.fonts.length (g.slots.length + 1), []⟩,
        ⟨.cid g.fonts.length (g.slots.length + 2), []⟩, ⟨.font g.fonts.length, []⟩] } rfl rfl rfl
      have m : ∀ (h' : Gp) (f : List GRelate → List Nat → List GRelate × List Nat), h'.slots = List.modify _ 2 (GSlot.mapProcset f) → h'.contentIdx = _ → h'.countL = _ →
          h'.Whole ∧ sheetsOf h'.kinds = sheetsOf g.kinds := fun h' f e1 e2 e3 => by
        obtain ⟨m1, m2⟩ := k1.modify (h := h') e1 (k1.laid.procset 2 f) (procset_kind _) e2 e3
        exact ⟨m1, by rw [m2]; exact k2⟩
      exact m _ _ rfl rfl rfl
    | false => exact key _ rfl rfl rfl
  | err e => exact ⟨h, rfl⟩
  | panic => exact ⟨h, rfl⟩
  | hang => exact ⟨h, rfl⟩

/-! ### texts and images -/

theorem appendText_ne (fonts : List GFont) (cs : List GCache) (new : GText) (text : Bytes) : (appendText fonts cs new text).1 ≠ [] := by
  unfold appendText
  simp

/-- A text that is written: the font has the characters, the text is put on the page. -/
theorem write_state (g : Gp) (text : Bytes) (cell : Option (Option GRect × GCellOpt)) :
    (∃ fonts, (g.write text cell).state = { g with fonts := fonts } ∧ (g.write text cell).res ≠ .ok ()) ∨
    ∃ i f, g.font = some i ∧ g.fonts[i]? = some f ∧ (addChars f.ttf f.chars text).2 = .ok () ∧
      ∃ x y, (g.write text cell).state = { Gp.put { g with fonts := g.fonts.modify i (fun _ => { f with chars := (addChars f.ttf f.chars text).1 }) }
        (fun cs => (appendText (g.fonts.modify i (fun _ => { f with chars := (addChars f.ttf f.chars text).1 })) cs (g.newText i cell) text).1) with x := x, y := y } := by
  unfold Gp.write
  split
  · exact Or.inl ⟨g.fonts, rfl, by simp⟩
  · rename_i i hf
    split
    · exact Or.inl ⟨g.fonts, rfl, by simp⟩
    · rename_i f hi
      simp only
      cases hr : (addChars f.ttf f.chars text).2 with
      | ok u =>
        right
        refine ⟨i, f, hf, hi, hr, ?_⟩
        have hn : ({ g with fonts := g.fonts.modify i (fun _ => { f with chars := (addChars f.ttf f.chars text).1 }) } : Gp).newText i cell = g.newText i cell := rfl
        simp only [hn]
        generalize (appendText _ (Gp.caches _) (g.newText i cell) text).2 = r
        have same : ∀ q : Gp, ∃ x y, q = { q with x := x, y := y } := fun q => ⟨q.x, q.y, rfl⟩
        cases r with
        | ok p => exact ⟨p.1, p.2, rfl⟩
        | err e => exact same _
        | panic => exact same _
        | hang => exact same _
      | err e => exact Or.inl ⟨_, rfl, by simp⟩
      | panic => exact Or.inl ⟨_, rfl, by simp⟩
      | hang => exact Or.inl ⟨_, rfl, by simp⟩

theorem write_whole {g : Gp} (h : g.Whole) (text : Bytes) (cell : Option (Option GRect × GCellOpt)) :
    (g.write text cell).state.Whole ∧ ∃ fn : List GCache → List GCache, sheetsOf (g.write text cell).state.kinds = onLast (fun p => (p.1, fn p.2)) (sheetsOf g.kinds) := by
  rcases write_state g text cell with ⟨fonts, e, _⟩ | ⟨i, f, _, _, _, x, y, e⟩
  · rw [e]
    obtain ⟨h1, h2⟩ := h.of_eq (h := { g with fonts := fonts }) rfl rfl rfl
    refine ⟨h1, id, ?_⟩
    rw [h2]
    have : ∀ l : List (Option GRect × List GCache), onLast (fun p => (p.1, id p.2)) l = l := by
      intro l
      induction l with
      | nil => rfl
      | cons a l ih => cases l with
        | nil => rfl
        | cons b l => simp only [onLast] at ih ⊢; rw [ih]
    rw [this]
  · rw [e]
    obtain ⟨h1, h2⟩ := h.of_eq (h := { g with fonts := g.fonts.modify i (fun _ => { f with chars := (addChars f.ttf f.chars text).1 }) }) rfl rfl rfl
    obtain ⟨p1, p2⟩ := h1.put _ (fun cs => appendText_ne (g.fonts.modify i (fun _ => { f with chars := (addChars f.ttf f.chars text).1 })) cs (g.newText i cell) text)
    obtain ⟨r1, r2⟩ := p1.of_eq (h := { Gp.put { g with fonts := g.fonts.modify i (fun _ => { f with chars := (addChars f.ttf f.chars text).1 }) }
        (fun cs => (appendText (g.fonts.modify i (fun _ => { f with chars := (addChars f.ttf f.chars text).1 })) cs (g.newText i cell) text).1) with x := x, y := y }) rfl rfl rfl
    exact ⟨r1, fun cs => (appendText (g.fonts.modify i (fun _ => { f with chars := (addChars f.ttf f.chars text).1 })) cs (g.newText i cell) text).1, by rw [r2, p2, h2]⟩

theorem Laid.img {slots : List GSlot} (h : Laid slots) (i : Nat) (fn : ImgInfo → ImgInfo) : Laid (slots.modify i (GSlot.setImg fn)) :=
  h.modify i _ rfl rfl (fun fs xs => ⟨fs, xs, rfl⟩) (fun s hs => by
    obtain ⟨h1, h2⟩ := hs
    unfold GSlot.setImg
    cases ho : s.obj <;> simp only [GSlot.Later, ho] at h2 ⊢ <;> exact ⟨h1, h2⟩)

theorem img_kind (fn : ImgInfo → ImgInfo) (s : GSlot) : (GSlot.setImg fn s).obj.kind = s.obj.kind := by
  unfold GSlot.setImg
  cases ho : s.obj <;> simp [GObj.kind, ho]

theorem addImage_whole {g : Gp} (h : g.Whole) (id : Bytes) (x y : ℚ) (r : GRect) (i : ImgInfo) :
    (g.addImage id x y r i).Whole ∧ sheetsOf (g.addImage id x y r i).kinds = onLast (fun p => (p.1, p.2 ++ [.image g.countImg x y g.curSize.h r])) (sheetsOf g.kinds) := by
  obtain ⟨a1, a2⟩ := h.others (h := g.addObj (.image i)) (l := [⟨.image i, []⟩]) rfl (by simp [GSlot.Later, GObj.Later, GObj.kind]) rfl rfl
  obtain ⟨b1, b2⟩ := a1.draw (.image g.countImg x y g.curSize.h r)
  have c := b1.modify (h := g.addImage id x y r i) (i := 2) (f := GSlot.mapProcset (fun fs xs => (fs, xs ++ [g.slots.length]))) rfl (b1.laid.procset 2 _) (procset_kind _) rfl rfl
  exact ⟨c.1, by rw [c.2, b2, a2]⟩

theorem addExtra_whole {q : Gp} (n : Nat) (o : GObj) (fn : ImgInfo → ImgInfo) (hq : q.Whole) (ho : o.Later) (hk : o.kind = .other) :
    ({ q with slots := (q.addObj o).slots.modify n (GSlot.setImg fn) } : Gp).Whole ∧
      sheetsOf ({ q with slots := (q.addObj o).slots.modify n (GSlot.setImg fn) } : Gp).kinds = sheetsOf q.kinds := by
  obtain ⟨d1, d2⟩ := hq.others (h := q.addObj o) (l := [⟨o, []⟩]) rfl (by simpa [GSlot.Later] using ⟨ho, hk⟩) rfl rfl
  have d := d1.modify (h := { q with slots := (q.addObj o).slots.modify n (GSlot.setImg fn) }) rfl (d1.laid.img _ fn) (img_kind fn) rfl rfl
  exact ⟨d.1, by rw [d.2, d2]⟩

theorem addMask_whole {g : Gp} (h : g.Whole) (n : Nat) (m : Option ImgInfo) : (g.addMask n m).Whole ∧ sheetsOf (g.addMask n m).kinds = sheetsOf g.kinds := by
  cases m with
  | none => exact ⟨h, rfl⟩
  | some m => exact addExtra_whole n _ _ h trivial rfl

theorem addPalette_whole {g : Gp} (h : g.Whole) (n : Nat) (i : ImgInfo) : (g.addPalette n i).Whole ∧ sheetsOf (g.addPalette n i).kinds = sheetsOf g.kinds := by
  unfold Gp.addPalette
  split
  · exact addExtra_whole n _ _ h trivial rfl
  · exact ⟨h, rfl⟩

theorem image_whole {env : GEnv} {g : Gp} (h : g.Whole) (id file : Bytes) (x y : ℚ) (rect : Option GRect) :
    (g.image env id file x y rect).state.Whole ∧
      (((g.image env id file x y rect).res ≠ .ok () ∧ (g.image env id file x y rect).state = g) ∨
        ∃ k r, sheetsOf (g.image env id file x y rect).state.kinds = onLast (fun p => (p.1, p.2 ++ [.image k x y g.curSize.h r])) (sheetsOf g.kinds)) := by
  unfold Gp.image
  split
  · rename_i c hc
    split
    · rename_i r hr
      exact ⟨(h.draw _).1, Or.inr ⟨_, _, (h.draw _).2⟩⟩
    · exact ⟨h, Or.inl ⟨by simp, rfl⟩⟩
  · split
    · rename_i r i _
      obtain ⟨a1, a2⟩ := addImage_whole h id x y r i
      obtain ⟨b1, b2⟩ := addMask_whole a1 g.slots.length (createSMask i)
      obtain ⟨c1, c2⟩ := addPalette_whole b1 g.slots.length i
      exact ⟨c1, Or.inr ⟨g.countImg, r, by rw [c2, b2, a2]⟩⟩
    · exact ⟨h, Or.inl ⟨by simp, rfl⟩⟩
    · exact ⟨h, Or.inl ⟨by simp, rfl⟩⟩
    · exact ⟨h, Or.inl ⟨by simp, rfl⟩⟩

theorem setFont_fields (g : Gp) (family : Bytes) (style : Nat) (size : Int) :
    ∃ a b c d, (g.setFont family style size).state = { g with fontSize := a, fontStyle := b, font := c, fontCount := d } := by
  unfold Gp.setFont
  split
  · exact ⟨_, _, _, _, rfl⟩
  · exact ⟨g.fontSize, g.fontStyle, g.font, g.fontCount, rfl⟩

theorem kernOverride_fields (g : Gp) (family : Bytes) (fn : Nat → Nat → Nat → Nat → Int → Int) : ∃ fonts, (g.kernOverride family fn).state = { g with fonts := fonts } := by
  unfold Gp.kernOverride
  split
  · exact ⟨_, rfl⟩
  · exact ⟨g.fonts, rfl⟩

/-- what a call puts on a page -/
def GCall.draws (env : GEnv) (H : ℚ) : GCall → Option GCache
  | .setLineWidth w => some (.lineWidth w)
  | .setLineType t => some (.lineType t)
  | .line x1 y1 x2 y2 => some (.line H x1 y1 x2 y2)
  | .rectFromLowerLeft x y w h st => some (.rect H x y w h st)
  | .rectFromUpperLeft x y w h st => some (.rect H x (y + h) w h st)
  | .oval x1 y1 x2 y2 => some (.oval H x1 y1 x2 y2)
  | .curve x0 y0 x1 y1 x2 y2 x3 y3 st => some (.curve H x0 y0 x1 y1 x2 y2 x3 y3 (toUpper env.upper (trimSpace st)))
  | .setGrayFill v => some (.gray false (fixRange10 v))
  | .setGrayStroke v => some (.gray true (fixRange10 v))
  | .setStrokeColor r gr b => some (.color true r gr b)
  | .setFillColor r gr b => some (.color false r gr b)
  | _ => none

/-- calls that do not put anything on a page -/
def GCall.quiet : GCall → Bool
  | .setCompressLevel _ | .setNoCompression | .br _ | .setLeftMargin _ | .setTopMargin _ | .setX _ | .setY _ | .setTextColor _ _ _ | .setInfo _ | .addFont _ _ _ _ | .setFont _ _ _ |
    .kernOverride _ _ => true
  | _ => false

theorem call_whole {env : GEnv} {g : Gp} (h : g.Whole) (c : GCall) : (g.call env c).state.Whole := by
  have same : ∀ q : Gp, q.slots = g.slots → q.contentIdx = g.contentIdx → q.countL = g.countL → q.Whole := fun q e1 e2 e3 => (h.of_eq e1 e2 e3).1
  have dr : ∀ (q : Gp) (k : GCache), q.slots = g.slots → q.contentIdx = g.contentIdx → q.countL = g.countL → (q.draw k).Whole := fun q k e1 e2 e3 => ((same q e1 e2 e3).draw k).1
  cases c with
  | addPage z => exact (addPage_whole h z).1
  | addFont a b c d => exact (addFont_whole h a b c d).1
  | setFont a b c => obtain ⟨x, y, z, w, e⟩ := setFont_fields g a b c; exact same _ (by simp [Gp.call, e]) (by simp [Gp.call, e]) (by simp [Gp.call, e])
  | kernOverride a b => obtain ⟨x, e⟩ := kernOverride_fields g a b; exact same _ (by simp [Gp.call, e]) (by simp [Gp.call, e]) (by simp [Gp.call, e])
  | text t => exact (write_whole h t none).1
  | cell r t o => exact (write_whole h t _).1
  | image a b x y r => exact (image_whole h a b x y r).1
  | setCompressLevel l =>
    refine same _ ?_ ?_ ?_ <;> · simp only [Gp.call, Gp.setCompressLevel]; split <;> [rfl; split <;> rfl]
  | setNoCompression => exact same _ rfl rfl rfl
  | br _ => exact same _ rfl rfl rfl
  | setLeftMargin _ => exact same _ rfl rfl rfl
  | setTopMargin _ => exact same _ rfl rfl rfl
  | setX _ => exact same _ rfl rfl rfl
  | setY _ => exact same _ rfl rfl rfl
  | setTextColor _ _ _ => exact same _ rfl rfl rfl
  | setInfo _ => exact same _ rfl rfl rfl
  | setLineWidth w => exact dr { g with lineWidth := w } _ rfl rfl rfl
  | setGrayFill v => exact dr { g with grayFill := v } _ rfl rfl rfl
  | _ => exact dr g _ rfl rfl rfl

theorem quiet_sheets {env : GEnv} {g : Gp} (h : g.Whole) {c : GCall} (hc : c.quiet = true) : sheetsOf (g.call env c).state.kinds = sheetsOf g.kinds := by
  have same : ∀ q : Gp, q.slots = g.slots → sheetsOf q.kinds = sheetsOf g.kinds := fun q e1 => by unfold Gp.kinds; rw [e1]
  cases c with
  | addFont a b c d => exact (addFont_whole h a b c d).2
  | setFont a b c => obtain ⟨x, y, z, w, e⟩ := setFont_fields g a b c; exact same _ (by simp [Gp.call, e])
  | kernOverride a b => obtain ⟨x, e⟩ := kernOverride_fields g a b; exact same _ (by simp [Gp.call, e])
  | setCompressLevel l => refine same _ ?_; simp only [Gp.call, Gp.setCompressLevel]; split <;> [rfl; split <;> rfl]
  | setNoCompression => rfl
  | br _ => rfl
  | setLeftMargin _ => rfl
  | setTopMargin _ => rfl
  | setX _ => rfl
  | setY _ => rfl
  | setTextColor _ _ _ => rfl
  | setInfo _ => rfl
  | _ => simp [GCall.quiet] at hc

theorem draws_sheets {env : GEnv} {g : Gp} (h : g.Whole) {c : GCall} {k : GCache} (hc : c.draws env g.curSize.h = some k) :
    sheetsOf (g.call env c).state.kinds = onLast (fun p => (p.1, p.2 ++ [k])) (sheetsOf g.kinds) := by
  have dr : ∀ (q : Gp) (k : GCache), q.Whole → q.kinds = g.kinds → sheetsOf (q.draw k).kinds = onLast (fun p => (p.1, p.2 ++ [k])) (sheetsOf g.kinds) := fun q k e1 e2 => by
    rw [(e1.draw k).2, e2]
  cases c with
  | setLineWidth w => cases hc; exact dr { g with lineWidth := w } _ (h.of_eq (h := { g with lineWidth := w }) rfl rfl rfl).1 rfl
  | setGrayFill v => cases hc; exact dr { g with grayFill := v } _ (h.of_eq (h := { g with grayFill := v }) rfl rfl rfl).1 rfl
  | _ => first | (cases hc; exact dr g _ h rfl) | cases hc

/-! ### before writing -/

/-- references to the objects at these positions -/
def refsText (l : List Nat) : Bytes := l.flatMap (fun i => b!" " ++ natDigits (i + 1) ++ b!" 0 R ")

theorem refsText_append (l m : List Nat) : refsText (l ++ m) = refsText l ++ refsText m := by simp [refsText]

/-- what the object at position `k` becomes -/
def updObj (vs : List PageView) (k : Nat) : GObj → GObj
  | .pages n kids => if k = 1 then .pages (n + vs.length) (kids ++ refsText (vs.map PageView.idx)) else .pages n kids
  | .page c r z => .page (c ++ refsText ((vs.filter (fun v => v.idx = k)).flatMap (fun v => v.contents.map Prod.fst))) r z
  | o => o

def updSlots (vs : List PageView) (slots : List GSlot) : List GSlot := slots.mapIdx (fun k s => { s with obj := updObj vs k s.obj })

theorem updSlots_nil (slots : List GSlot) : updSlots [] slots = slots := by
  unfold updSlots
  apply List.ext_getElem?
  intro k
  rw [List.getElem?_mapIdx]
  cases slots[k]? with
  | none => rfl
  | some s =>
    simp only [Option.map_some, Option.some.injEq]
    obtain ⟨o, b⟩ := s
    cases o <;> simp [updObj, refsText]

theorem prepareLoop_eq : ∀ (rest done slots : List GSlot), slots = done ++ rest →
    prepareLoop rest done.length ((viewOf (done.map (fun s => s.obj.kind))).getLast?.map PageView.idx) (updSlots (viewOf (done.map (fun s => s.obj.kind))) slots) =
      updSlots (viewOf (slots.map (fun s => s.obj.kind))) slots
  | [], done, slots, h => by
    rw [List.append_nil] at h
    subst h
    rfl
  | s :: rest, done, slots, h => by
    have ih := prepareLoop_eq rest (done ++ [s]) slots (by simp [h])
    rw [List.map_append, List.map_cons, List.map_nil, viewOf_append, List.length_append, List.length_map] at ih
    generalize hv : viewOf (done.map (fun s => s.obj.kind)) = vs at ih ⊢
    unfold prepareLoop
    cases ho : s.obj with
    | page c r z =>
      simp only
      simp only [ho, GObj.kind, viewStep, List.getLast?_append, List.getLast?_singleton, Option.some_or, Option.map_some, List.length_singleton] at ih
      refine Eq.trans ?_ ih
      congr 1
      unfold updSlots
      apply List.ext_getElem?
      intro k
      rw [List.getElem?_modify, List.getElem?_mapIdx, List.getElem?_mapIdx]
      cases slots[k]? with
      | none => simp
      | some t =>
        obtain ⟨o, b⟩ := t
        by_cases e : 1 = k
        · subst e
          cases o <;> simp [updObj, refsText]
          exact ⟨by omega, itoa_succ _⟩
        · cases o <;> simp [updObj, e, Ne.symm e]
          by_cases e2 : done.length = k <;> simp [e2]
    | content st cs =>
      simp only
      simp only [ho, GObj.kind, viewStep, List.length_singleton] at ih
      rcases List.eq_nil_or_concat vs with rfl | ⟨ws, w, rfl⟩
      · simp only [onLast] at ih
        exact ih
      · simp only [List.concat_eq_append] at ih ⊢
        rw [onLast_append] at ih
        simp only [List.getLast?_append, List.getLast?_singleton, Option.some_or, Option.map_some] at ih ⊢
        refine Eq.trans ?_ ih
        congr 1
        unfold updSlots
        apply List.ext_getElem?
        intro k
        rw [List.getElem?_modify, List.getElem?_mapIdx, List.getElem?_mapIdx]
        cases slots[k]? with
        | none => simp
        | some t =>
          obtain ⟨o, b⟩ := t
          by_cases e : w.idx = k
          · cases o with
            | pages n kids => by_cases e2 : k = 1 <;> simp [updObj, refsText, e, e2]
            | page c r z =>
              simp [updObj, refsText, e]
              exact itoa_succ _
            | _ => simp [updObj]
          · cases o <;> simp [updObj, e]
    | _ => simp only [ho, GObj.kind, viewStep, List.length_singleton] at ih; exact ih

/-- the dictionary of the protection, if there is one -/
def Gp.encSlots (g : Gp) : List GSlot := g.protection.elim [] (fun p => [⟨.enc p, []⟩])

theorem prepare_eq (g : Gp) : g.prepare = { g with
    slots := updSlots (viewOf g.kinds) (g.slots ++ g.encSlots)
    encID := g.protection.elim g.encID (fun _ => g.slots.length + 1) } := by
  unfold Gp.prepare Gp.encSlots
  cases hp : g.protection with
  | none =>
    have := prepareLoop_eq g.slots [] g.slots rfl
    simp only [List.map_nil, List.length_nil] at this
    rw [show viewOf [] = [] from rfl, updSlots_nil] at this
    simp only [List.getLast?_nil, Option.map_none] at this
    simp only [Option.elim, List.append_nil]
    rw [this, hp]
    rfl
  | some p =>
    have := prepareLoop_eq (g.slots ++ [⟨.enc p, []⟩]) [] (g.slots ++ [⟨.enc p, []⟩]) rfl
    simp only [List.map_nil, List.length_nil] at this
    rw [show viewOf [] = [] from rfl, updSlots_nil] at this
    simp only [List.getLast?_nil, Option.map_none] at this
    simp only [Option.elim, Gp.addObj]
    rw [this, List.map_append, viewOf_others _ (List.map (fun s : GSlot => s.obj.kind) [(⟨.enc p, []⟩ : GSlot)]) (by simp [GObj.kind]), hp]
    rfl

theorem updSlots_length (vs : List PageView) (l : List GSlot) : (updSlots vs l).length = l.length := by simp [updSlots]

theorem updSlots_get (vs : List PageView) (l : List GSlot) (k : Nat) : (updSlots vs l)[k]? = (l[k]?).map (fun s => { s with obj := updObj vs k s.obj }) := by
  simp [updSlots, List.getElem?_mapIdx]

end Verif
