import Verif.Spec.Protected
import Verif.Theorems.Crypto
import Verif.Theorems.Fresh
import Verif.Theorems.Reopen
import Verif.Lemmas.Rc4
/-
C68: what protection does to a document.
-/
namespace Verif
open Spec

theorem lastIndex_le_none {pat : Bytes} : ∀ {t : Bytes}, lastIndex pat t = none → ∀ j, j ≤ t.length → ¬ pat <+: t.drop j
  | [], h, j, _, hp => by
    simp at hp
    subst hp
    simp [lastIndex] at h
  | d :: t, h, j, hj, hp => by
    simp only [lastIndex] at h
    split at h
    · simp at h
    · rename_i hn
      split at h
      · simp at h
      · rename_i hd
        cases j with
        | zero => exact hd (List.isPrefixOf_iff_prefix.2 (by simpa using hp))
        | succ j => exact lastIndex_le_none hn j (by simpa using hj) (by simpa using hp)

theorem lastIndex_none_iff {pat s : Bytes} : lastIndex pat s = none ↔ ¬ pat <:+: s := by
  constructor
  · rintro h ⟨a, b, rfl⟩
    have := lastIndex_le_none h a.length (by simp only [List.length_append]; omega)
    rw [List.append_assoc, List.drop_left] at this
    exact this (List.prefix_append _ _)
  · intro h
    cases hl : lastIndex pat s with
    | none => rfl
    | some j =>
      obtain ⟨_, ⟨t, ht⟩, _⟩ := lastIndex_some hl
      exact absurd ⟨s.take j, t, by rw [List.append_assoc, ht, List.take_append_drop]⟩ h

theorem dropWhile_split (p : UInt8 → Bool) : ∀ s : Bytes, ∃ a, s = a ++ s.dropWhile p ∧ (∀ c ∈ a, p c = true) ∧ ∀ c ∈ (s.dropWhile p).head?, p c = false
  | [] => ⟨[], by simp⟩
  | x :: s => by
    by_cases hx : p x = true
    · obtain ⟨a, h1, h2, h3⟩ := dropWhile_split p s
      refine ⟨x :: a, ?_, ?_, ?_⟩
      · rw [List.dropWhile_cons_of_pos hx, List.cons_append, ← h1]
      · intro c hc
        rcases List.mem_cons.1 hc with rfl | hc
        · exact hx
        · exact h2 c hc
      · rw [List.dropWhile_cons_of_pos hx]; exact h3
    · refine ⟨[], ?_, by simp, ?_⟩
      · rw [List.dropWhile_cons_of_neg hx]; rfl
      · rw [List.dropWhile_cons_of_neg hx]
        intro c hc
        simp at hc
        subst hc
        simpa using hx

theorem trimCRLF_split (b : Bytes) : ∃ lead trail, b = lead ++ trimCRLF b ++ trail ∧ (∀ c ∈ lead, Eol c) ∧ (∀ c ∈ trail, Eol c) ∧ (∀ c ∈ (trimCRLF b).head?, ¬ Eol c) ∧
    (∀ c ∈ (trimCRLF b).getLast?, ¬ Eol c) := by
  obtain ⟨lead, h1, h2, h3⟩ := dropWhile_split (fun c => c = 13 || c = 10) b
  obtain ⟨tr, h4, h5, h6⟩ := dropWhile_split (fun c => c = 13 || c = 10) (b.dropWhile (fun c => c = 13 || c = 10)).reverse
  have e : b.dropWhile (fun c => c = 13 || c = 10) = trimCRLF b ++ tr.reverse := by
    unfold trimCRLF
    rw [← List.reverse_append, ← h4, List.reverse_reverse]
  refine ⟨lead, tr.reverse, ?_, ?_, ?_, ?_, ?_⟩
  · rw [List.append_assoc, ← e]; exact h1
  · intro c hc; simpa [Eol] using h2 c hc
  · intro c hc; simpa [Eol] using h5 c (List.mem_reverse.1 hc)
  · intro c hc
    have : c ∈ (b.dropWhile (fun c => c = 13 || c = 10)).head? := by
      rw [e]
      cases ht : trimCRLF b with
      | nil => rw [ht] at hc; simp at hc
      | cons x t => rw [ht] at hc; simpa using hc
    simpa [Eol] using h3 c this
  · intro c hc
    have : c ∈ ((b.dropWhile (fun c => c = 13 || c = 10)).reverse.dropWhile (fun c => c = 13 || c = 10)).head? := by
      unfold trimCRLF at hc
      rwa [List.getLast?_reverse] at hc
    simpa [Eol] using h6 c this

/-- the object key is neither empty nor too long -/
theorem objKey_length {md5 : Bytes → Bytes} (hmd5 : ∀ x, (md5 x).length = 16) {key : Bytes} (hk : key.length = 5) (id : Int) : (objKey md5 key id 0).length = 10 := by
  unfold objKey; rw [List.length_take, hmd5, hk]; rfl

/-- protecting an object, seen from the object -/
theorem encrypt_inv {md5 : Bytes → Bytes} (hmd5 : ∀ x, (md5 x).length = 16) {key : Bytes} (hk : key.length = 5) (o : Obj) :
    (Protectable o.data → ∃ data, encrypt md5 key o.objID o.data = .ok data ∧ Protected rc4Cip md5 key o ⟨o.objID, data⟩) ∧
    (¬ Protectable o.data → encrypt md5 key o.objID o.data = .panic) := by
  by_cases hs : b!"stream" <:+: o.data
  · have hsome : ∃ i, index b!"stream" o.data = some i := by
      cases hi : index b!"stream" o.data with
      | none => exact absurd hs ((index_none_iff (by decide)).1 hi)
      | some i => exact ⟨i, rfl⟩
    obtain ⟨i, hi⟩ := hsome
    obtain ⟨hil, ⟨rest, hrest⟩, hmin⟩ := index_some hi
    have hhead : ¬ b!"stream" <:+: o.data.take i := by
      rintro ⟨x, y, hxy⟩
      have e : o.data = x ++ (b!"stream" ++ (y ++ o.data.drop i)) := by
        conv_lhs => rw [← List.take_append_drop i o.data, ← hxy]
        simp only [List.append_assoc]
      have hl := congrArg List.length hxy
      simp only [List.length_append, List.length_take] at hl
      have h6 : (b!"stream" : Bytes).length = 6 := rfl
      refine hmin x.length (by omega) ?_
      have := congrArg (List.drop x.length) e
      rw [List.drop_left] at this
      exact ⟨y ++ o.data.drop i, this.symm⟩
    constructor
    · intro hp
      obtain ⟨head, body, tail, hd⟩ := hp hs
      have hie : i ≤ head.length := by
        by_contra hlt
        refine hmin head.length (by omega) ?_
        rw [hd]
        refine ⟨body ++ b!"endstream" ++ tail, ?_⟩
        simp only [List.append_assoc, List.drop_left]
      have hend : ∃ j, lastIndex b!"endstream" o.data = some j ∧ head.length + 6 ≤ j := by
        cases hj : lastIndex b!"endstream" o.data with
        | none =>
          exact absurd (show b!"endstream" <:+: o.data from ⟨head ++ b!"stream" ++ body, tail, hd.symm⟩) (lastIndex_none_iff.1 hj)
        | some j =>
          refine ⟨j, rfl, ?_⟩
          obtain ⟨_, _, hmax⟩ := lastIndex_some hj
          by_contra hlt
          refine hmax (head ++ b!"stream" ++ body).length (by simp only [List.length_append]; have : (b!"stream" : Bytes).length = 6 := rfl; omega) ?_ ?_
          · rw [hd]; simp only [List.length_append]; omega
          · rw [hd, List.append_assoc _ b!"endstream" tail, List.drop_left]
            exact List.prefix_append _ _
      obtain ⟨j, hj, hij⟩ := hend
      obtain ⟨hjl, ⟨tl, htl⟩, hmax⟩ := lastIndex_some hj
      have htail : ¬ b!"endstream" <:+: tl := by
        rintro ⟨x, y, hxy⟩
        have e : o.data = (o.data.take j ++ b!"endstream" ++ x) ++ (b!"endstream" ++ y) := by
          conv_lhs => rw [← List.take_append_drop j o.data, ← htl, ← hxy]
          simp only [List.append_assoc]
        have hl : (o.data.take j ++ b!"endstream" ++ x).length = j + 9 + x.length := by
          simp only [List.length_append, List.length_take]
          have : (b!"endstream" : Bytes).length = 9 := rfl
          omega
        have hlen := congrArg List.length e
        rw [List.length_append, hl] at hlen
        refine hmax (j + 9 + x.length) (by omega) (by omega) ?_
        have := congrArg (List.drop (j + 9 + x.length)) e
        rw [← hl, List.drop_left, hl] at this
        exact ⟨y, this.symm⟩
      have hbody : o.data = o.data.take i ++ b!"stream" ++ ((o.data.take j).drop (i + 6)) ++ b!"endstream" ++ tl := by
        have e1 : o.data.take j = o.data.take i ++ b!"stream" ++ (o.data.take j).drop (i + 6) := by
          have h1 : (o.data.take j).take (i + 6) = o.data.take i ++ b!"stream" := by
            rw [List.take_take, Nat.min_eq_left (by omega), List.take_add, ← hrest]
            congr 1
          rw [← h1, List.take_append_drop]
        rw [← e1]
        rw [List.append_assoc, htl, List.take_append_drop]
      obtain ⟨lead, trail, hb, h1, h2, h3, h4⟩ := trimCRLF_split ((o.data.take j).drop (i + 6))
      obtain ⟨c, e1, e2, e3⟩ := rc4Cip_spec (key := objKey md5 key o.objID 0) (by rw [objKey_length hmd5 hk]; omega) (by rw [objKey_length hmd5 hk]; omega) (trimCRLF ((o.data.take j).drop (i + 6)))
      refine ⟨o.data.take i ++ b!"stream\n" ++ c ++ b!"\nendstream", ?_, rfl, fun h => absurd hs h, fun _ =>
        ⟨o.data.take i, lead, trimCRLF ((o.data.take j).drop (i + 6)), trail, tl, c, ?_, hhead, htail, h1, h2, h3, h4, rfl, e2, e3⟩⟩
      · unfold encrypt
        simp only [hi, hj]
        rw [if_neg (by omega), objectKey_spec md5 hk, e1]
        simp [List.append_assoc]
      · rw [← hb]; exact hbody
    · intro hp
      unfold encrypt
      simp only [hi]
      cases hj : lastIndex b!"endstream" o.data with
      | none => rfl
      | some j =>
        obtain ⟨hjl, ⟨tl, htl⟩, hmax⟩ := lastIndex_some hj
        simp only
        rw [if_pos]
        by_contra hlt
        apply hp
        intro _
        refine ⟨o.data.take i, (o.data.take j).drop (i + 6), tl, ?_⟩
        have e1 : o.data.take j = o.data.take i ++ b!"stream" ++ (o.data.take j).drop (i + 6) := by
          have h1 : (o.data.take j).take (i + 6) = o.data.take i ++ b!"stream" := by
            rw [List.take_take, Nat.min_eq_left (by omega), List.take_add, ← hrest]
            congr 1
          rw [← h1, List.take_append_drop]
        rw [← e1, List.append_assoc, htl, List.take_append_drop]
  · refine ⟨fun _ => ⟨o.data, C33_no_stream_partial md5 key o.objID hs, rfl, fun _ => rfl, fun h => absurd h hs⟩, fun h => absurd (fun h' => absurd h' hs) h⟩

theorem encryptObjs_inv {env : Env} (hmd5 : ∀ x, (env.md5 x).length = 16) {key : Bytes} (hk : key.length = 5) : ∀ (objs : List Obj),
    ((∀ o ∈ objs, Protectable o.data) → ∃ objs', encryptObjs env key objs = .ok objs' ∧ List.Forall₂ (Protected rc4Cip env.md5 key) objs objs') ∧
    ((∃ o ∈ objs, ¬ Protectable o.data) → encryptObjs env key objs = .panic)
  | [] => ⟨fun _ => ⟨[], rfl, .nil⟩, by simp⟩
  | o :: t => by
    obtain ⟨h1, h2⟩ := encryptObjs_inv hmd5 hk t
    obtain ⟨h3, h4⟩ := encrypt_inv hmd5 hk o
    constructor
    · intro h
      obtain ⟨data, e1, e2⟩ := h3 (h o (by simp))
      obtain ⟨r, e3, e4⟩ := h1 (fun q hq => h q (by simp [hq]))
      refine ⟨{ o with data := data } :: r, ?_, .cons e2 e4⟩
      rw [encryptObjs, e1, e3]
      rfl
    · intro h
      by_cases ho : Protectable o.data
      · obtain ⟨data, e1, _⟩ := h3 ho
        obtain ⟨q, hq, hqp⟩ := h
        have hqt : q ∈ t := by
          rcases List.mem_cons.1 hq with rfl | hq
          · exact absurd ho hqp
          · exact hq
        rw [encryptObjs, e1, h2 ⟨q, hqt, hqp⟩]
        rfl
      · rw [encryptObjs, h4 ho]
        rfl

/-- the value without protection -/
def App.unprotected (a : App) : App := { a with protection := none }

/-- the value with this protection -/
def App.protectedBy (a : App) (q : Option Protection) : App := { a with protection := q }

theorem Res.bind_assoc' {α β γ : Type} (r : Res α) (f : α → Res β) (g : β → Res γ) : ((r >>= f) >>= g) = (r >>= fun x => f x >>= g) := by cases r <;> rfl

/-- Everything `build` does before encrypting: the fonts, the images, the document of the receiver and the new document; whether the objects were moved,
how many there were, the last number. -/
def App.preBuild (env : Env) (a : App) : Res ((List FontData × List ImageData × Doc × Doc) × (Bool × Nat × Int)) := do
  let (fonts, nextID) ← buildFonts env (((env.order 0).fn a.fontMap).map (·.2)) (maxID a.doc.objs) a.fonts
  let order1 := ((env.order 1).fn a.fontMap).map (·.2)
  let (d, new) ← injectFonts env.order a.doc (order1.map (fun i => ((fonts[i]?).map (·.fontID)).getD 0))
  let fonts := setIndexes order1 new fonts
  let fontObjs := (((env.order 2).fn a.fontMap).map (·.2)).flatMap (fun i => ((fonts[i]?).map FontData.objs).getD [])
  let imgs := numberImgs nextID a.imgs
  let lastID := nextID + imgs.length
  let base := d.objs.length
  let moved := env.realloc && !(fontObjs.isEmpty && imgs.isEmpty)
  let newpdf := { d with objs := d.objs ++ fontObjs ++ imgs.map (fun i => ⟨i.objID, i.buf⟩) }
  let (newpdf, xs) ← injectImgs env.order newpdf (imgs.map (·.objID))
  let imgs := nameImgs imgs xs
  let streams ← streamsOf fonts imgs a.contents
  let newpdf ← injectContent env.unzip newpdf streams
  .ok ((fonts, imgs, d, newpdf), (moved, base, lastID))

/-- It does not look at the protection. -/
theorem build_split (env : Env) (a : App) (q : Option Protection) :
    (a.protectedBy q).build env = (a.preBuild env >>= fun t => do
      let objs ← (match q with
        | some p => encryptObjs env p.key t.1.2.2.2.objs
        | none => .ok t.1.2.2.2.objs)
      .ok { app := { a with protection := q, doc := if t.2.1 then t.1.2.2.1 else { t.1.2.2.1 with objs := objs.take t.2.2.1 }, fonts := t.1.1, imgs := t.1.2.1 },
            doc := { t.1.2.2.2 with objs := objs }, lastID := t.2.2.2 }) := by
  unfold App.build App.protectedBy App.preBuild
  simp only [Res.bind_assoc', Res.ok_bind]
  cases q <;> rfl

/-- C68: saving with protection is saving without, followed by protecting every object.  The objects have the same numbers, the fonts and images the same
names.  Saving crashes if and only if saving without protection does, or some object has the word `stream` without `endstream` after it. -/
theorem C68_protection {env : Env} (hmd5 : ∀ x, (env.md5 x).length = 16) (a : App) {p : Protection} (hp : a.protection = some p) (hk : p.key.length = 5) :
    (∀ b, a.build env = .ok b → ∃ b0, a.unprotected.build env = .ok b0 ∧ (∀ o ∈ b0.doc.objs, Protectable o.data) ∧
      List.Forall₂ (Protected rc4Cip env.md5 p.key) b0.doc.objs b.doc.objs ∧ b.doc.rootObjID = b0.doc.rootObjID ∧ b.lastID = b0.lastID ∧
      b.app.fonts = b0.app.fonts ∧ b.app.imgs = b0.app.imgs) ∧
    (∀ b0, a.unprotected.build env = .ok b0 → (∀ o ∈ b0.doc.objs, Protectable o.data) → ∃ b, a.build env = .ok b) ∧
    (∀ b0, a.unprotected.build env = .ok b0 → (∃ o ∈ b0.doc.objs, ¬ Protectable o.data) → a.build env = .panic) ∧
    ((∀ b0, a.unprotected.build env ≠ .ok b0) → a.build env = a.unprotected.build env) := by
  have hr := build_split env a
  generalize a.preBuild env = r at hr
  have ha : a = a.protectedBy (some p) := by unfold App.protectedBy; rw [← hp]
  have h1 := hr (some p)
  have h0 : a.unprotected.build env = _ := hr none
  rw [← ha] at h1
  cases hrr : r with
  | err e =>
    rw [hrr] at h0 h1
    refine ⟨fun b hb => ?_, fun b hb => ?_, fun b hb => ?_, fun _ => h1.trans h0.symm⟩
    · rw [h1] at hb; cases hb
    · rw [h0] at hb; cases hb
    · rw [h0] at hb; cases hb
  | panic =>
    rw [hrr] at h0 h1
    refine ⟨fun b hb => ?_, fun b hb => ?_, fun b hb => ?_, fun _ => h1.trans h0.symm⟩
    · rw [h1] at hb; cases hb
    · rw [h0] at hb; cases hb
    · rw [h0] at hb; cases hb
  | hang =>
    rw [hrr] at h0 h1
    refine ⟨fun b hb => ?_, fun b hb => ?_, fun b hb => ?_, fun _ => h1.trans h0.symm⟩
    · rw [h1] at hb; cases hb
    · rw [h0] at hb; cases hb
    · rw [h0] at hb; cases hb
  | ok t =>
    rw [hrr] at h0 h1
    simp only [Res.ok_bind] at h0 h1
    obtain ⟨g1, g2⟩ := encryptObjs_inv hmd5 hk t.1.2.2.2.objs
    by_cases hall : ∀ o ∈ t.1.2.2.2.objs, Protectable o.data
    · obtain ⟨objs, e1, e2⟩ := g1 hall
      rw [e1, Res.ok_bind] at h1
      refine ⟨fun b hb => ?_, fun b0 _ _ => ⟨_, h1⟩, fun b0 hb0 hex => ?_, fun hno => absurd h0 (hno _)⟩
      · rw [h1] at hb
        simp only [Res.ok.injEq] at hb
        subst hb
        exact ⟨_, h0, hall, e2, rfl, rfl, rfl, rfl⟩
      · rw [h0] at hb0
        simp only [Res.ok.injEq] at hb0
        subst hb0
        obtain ⟨o, ho, hn⟩ := hex
        exact absurd (hall o ho) hn
    · have hex : ∃ o ∈ t.1.2.2.2.objs, ¬ Protectable o.data := by push Not at hall; exact hall
      have hpan : a.build env = .panic := by rw [h1, g2 hex]; rfl
      refine ⟨fun b hb => ?_, fun b0 hb0 hal => ?_, fun b0 _ _ => hpan, fun hno => absurd h0 (hno _)⟩
      · rw [hpan] at hb; cases hb
      · rw [h0] at hb0
        simp only [Res.ok.injEq] at hb0
        subst hb0
        exact absurd hal hall

/-! ### the key -/

/-- the key of a protection has five bytes -/
def KeyFive (a : App) : Prop := ∀ p, a.protection = some p → p.key.length = 5

theorem KeyFive.of_eq {a a' : App} (h : KeyFive a) (e : a'.protection = a.protection) : KeyFive a' := by
  intro p hp; rw [e] at hp; exact h p hp

theorem KeyFive.setFontState {a : App} (h : KeyFive a) (i : Nat) (s : FontState) : KeyFive (a.setFontState i s) := h.of_eq rfl

theorem KeyFive.insert {a : App} (h : KeyFive a) (env : Env) (text : Bytes) (page : Int) (x y w hh : ℚ) (align : Nat) (color : Option (Int × Int × Int)) :
    KeyFive (a.insert env text page x y w hh align color).state := by
  unfold App.insert
  split
  · split
    · exact h
    · exact h.of_eq rfl
  all_goals exact h

theorem KeyFive.measure {a : App} (h : KeyFive a) (env : Env) (text : Bytes) : KeyFive (a.measureTextWidth env text).1 := by
  unfold App.measureTextWidth
  split
  · exact h
  · simp only
    split
    · exact h.setFontState _ _
    · exact h.setFontState _ _
    · split <;> exact h.setFontState _ _

theorem KeyFive.wrapLoop (env : Env) (w step : ℚ) : ∀ (ts : List Bytes) {a : App} (_ : KeyFive a) (st : WrapState), KeyFive (App.wrapLoop env w step a st ts).1
  | [], a, h, st => by simpa [App.wrapLoop] using h
  | t :: ts, a, h, st => by
    rw [App.wrapLoop]
    split
    · exact KeyFive.wrapLoop env w step ts h st
    · have hm := h.measure env (st.curr ++ t)
      generalize hr : a.measureTextWidth env (st.curr ++ t) = r at hm ⊢
      obtain ⟨a', r⟩ := r
      cases r with
      | ok q =>
        simp only at hm ⊢
        split
        · exact KeyFive.wrapLoop env w step ts hm _
        · exact KeyFive.wrapLoop env w step ts hm _
      | err e => exact hm
      | panic => exact hm
      | hang => exact hm

theorem KeyFive.insertAll (env : Env) (page : Int) (x w hh : ℚ) (align : Nat) (color : Option (Int × Int × Int)) (yo : ℚ) :
    ∀ (ls : List (Bytes × ℚ)) {a : App}, KeyFive a → KeyFive (App.insertAll env page x w hh align color yo a ls).state
  | [], a, h => by simpa [App.insertAll] using h
  | l :: ls, a, h => by
    rw [App.insertAll]
    have hi := h.insert env l.1 page x (l.2 - yo) w hh align color
    generalize a.insert env l.1 page x (l.2 - yo) w hh align color = s at hi ⊢
    obtain ⟨a', r⟩ := s
    cases r with
    | ok u => exact KeyFive.insertAll env page x w hh align color yo ls hi
    | err e => exact hi
    | panic => exact hi
    | hang => exact hi

theorem KeyFive.insertWrap {a : App} (h : KeyFive a) (env : Env) (text : Bytes) (page : Int) (x y w hh : ℚ) (align : Nat) (color : Option (Int × Int × Int))
    (br : Option (Bytes → Option (List Bytes))) : KeyFive (a.insertWrapText env text page x y w hh align color br).state := by
  unfold App.insertWrapText
  split
  · exact h.insert env _ _ _ _ _ _ _ _
  · split
    · exact h
    · rename_i tokens _
      simp only
      have hl := KeyFive.wrapLoop env w (a.fontSize + a.fontSize * (2 / 10)) tokens h { lines := [], y := y, prev := [], curr := [] }
      generalize App.wrapLoop env w (a.fontSize + a.fontSize * (2 / 10)) a { lines := [], y := y, prev := [], curr := [] } tokens = r at hl ⊢
      obtain ⟨a', r⟩ := r
      cases r with
      | ok st => exact KeyFive.insertAll env page x w hh align color _ _ hl
      | err e => exact hl
      | panic => exact hl
      | hang => exact hl

theorem KeyFive.makeImg {a a' : App} (h : KeyFive a) {env : Env} {file : Bytes} {i : ImageData} (hm : a.makeImg env file = .ok (a', i)) : KeyFive a' := by
  unfold App.makeImg at hm
  rw [Res.bind_eq_ok] at hm
  obtain ⟨info, _, hm⟩ := hm
  split at hm
  · simp only [Res.ok.injEq, Prod.mk.injEq] at hm
    rw [← hm.1]; exact h
  · simp only [Res.ok.injEq, Prod.mk.injEq] at hm
    rw [← hm.1]; exact h.of_eq rfl

theorem KeyFive.addImg {a : App} (h : KeyFive a) (env : Env) (img : Nat) (page : Int) (x y w hh : ℚ) : KeyFive (a.addImgContent env img page x y w hh).state := by
  unfold App.addImgContent
  split
  · exact h.of_eq rfl
  all_goals exact h

theorem KeyFive.insertImg {a : App} (h : KeyFive a) (env : Env) (file : Bytes) (page : Int) (x y w hh : ℚ) : KeyFive (a.insertImg env file page x y w hh).state := by
  unfold App.insertImg
  split
  · rename_i a' i hm
    apply KeyFive.addImg
    exact (h.makeImg hm).of_eq rfl
  all_goals exact h

theorem KeyFive.build {a : App} (h : KeyFive a) {env : Env} {b : Built} (hb : a.build env = .ok b) : KeyFive b.app := by
  have hr := build_split env a
  generalize a.preBuild env = r at hr
  have := hr a.protection
  have ha : a.protectedBy a.protection = a := rfl
  rw [ha, hb] at this
  obtain ⟨t, _, h2⟩ := Res.bind_eq_ok.1 this.symm
  obtain ⟨objs, _, h3⟩ := Res.bind_eq_ok.1 h2
  simp only [Res.ok.injEq] at h3
  rw [← h3]
  exact h.of_eq rfl

theorem setProtection_key {md5 : Bytes → Bytes} (hmd5 : ∀ x, (md5 x).length = 16) {r : Bytes} {q : BitVec 64} {u o : Bytes} {p : Protection}
    (h : setProtection md5 r q u o = .ok p) : p.key.length = 5 := by
  unfold setProtection generateKey at h
  rw [Res.bind_eq_ok] at h
  obtain ⟨ov, _, h⟩ := h
  rw [Res.bind_eq_ok] at h
  obtain ⟨⟨key, uv⟩, hu, h⟩ := h
  simp only [Res.ok.injEq] at h
  subst h
  unfold createU at hu
  simp only at hu
  rw [Res.bind_eq_ok] at hu
  obtain ⟨uv', _, hu⟩ := hu
  simp only [Res.ok.injEq, Prod.mk.injEq] at hu
  simp only
  rw [← hu.1, List.length_take, hmd5]
  rfl

theorem KeyFive.after {a : App} (h : KeyFive a) {env : Env} (hmd5 : ∀ x, (env.md5 x).length = 16) (c : Call) : KeyFive (a.after env c) := by
  cases c with
  | insert => exact h.insert env _ _ _ _ _ _ _ _
  | insertWrap => exact h.insertWrap env _ _ _ _ _ _ _ _ _
  | measure => exact h.measure env _
  | img => exact h.insertImg env _ _ _ _ _ _
  | imgBase64 text page x y w hh =>
    show KeyFive (a.insertImgBase64 env text page x y w hh).state
    unfold App.insertImgBase64
    split
    · exact h
    · exact h.insertImg env _ _ _ _ _ _
  | imgCached file page x y w hh =>
    show KeyFive (a.insertImgWithCache env file page x y w hh).state
    unfold App.insertImgWithCache
    split
    · exact h.addImg _ _ _ _ _ _ _
    · split
      · rename_i a' i hm
        apply KeyFive.addImg
        exact (h.makeImg hm).of_eq rfl
      all_goals exact h
  | addFont name file =>
    show KeyFive (a.addFont name file).state
    unfold App.addFont
    split
    · exact h
    · split
      · exact h.of_eq rfl
      all_goals exact h
  | setFont name style size =>
    show KeyFive (a.setFont env name style size).state
    unfold App.setFont
    split
    · exact h.of_eq rfl
    · exact h
  | textrise name fn =>
    show KeyFive (a.textriseOverride name fn).state
    unfold App.textriseOverride
    split
    · exact h
    · exact h.setFontState _ _
  | kern name fn =>
    show KeyFive (a.kernOverride name fn).state
    unfold App.kernOverride
    split
    · exact h
    · exact h.setFontState _ _
  | border s =>
    show KeyFive (a.showCellBorder s)
    unfold App.showCellBorder
    split <;> exact h.of_eq rfl
  | protect r q u o =>
    show KeyFive (a.setProtection env r q u o).state
    unfold App.setProtection
    split
    · rename_i p hp
      intro p' hp'
      simp only [Option.some.injEq] at hp'
      subst hp'
      exact setProtection_key hmd5 hp
    all_goals exact h
  | duplicate t q => exact h.of_eq rfl
  | remove k => exact h.of_eq rfl
  | removeOthers k => exact h.of_eq rfl
  | save =>
    show KeyFive (a.saveTo env).1
    unfold App.saveTo
    split
    · rename_i b hb
      exact h.build hb
    all_goals exact h

theorem KeyFive.run : ∀ (calls : List (Env × Call)) {a : App}, KeyFive a → (∀ c ∈ calls, ∀ x, (c.1.md5 x).length = 16) → KeyFive (Run a calls)
  | [], _, h, _ => h
  | c :: t, _, h, hm => KeyFive.run t (h.after (hm c (by simp)) c.2) (fun c' hc' => hm c' (by simp [hc']))

/-- **C68** for whole runs.  After any calls: if `Save` succeeds with protection, then it would have succeeded without, and the objects written are those it
would have written, protected, followed by the encryption dictionary.  (That MD5 sums have 16 bytes is assumed.) -/
theorem C68_saved {env env' : Env} {raw : Bytes} {a0 : App} (ho : Opened env raw a0) (calls : List (Env × Call)) (hmd5 : ∀ c ∈ calls, ∀ x, (c.1.md5 x).length = 16)
    (hmd5' : ∀ x, (env'.md5 x).length = 16) {p : Protection} (hp : (Run a0 calls).protection = some p) {objs : List Obj} {last : Nat} {out : Bytes}
    (hs : Saves env' (Run a0 calls) objs last out) :
    ∃ objs0 out0, Saves env' (Run a0 calls).unprotected objs0 (last - 1) out0 ∧
      ∃ objs1, objs = objs1 ++ [⟨last, encBuild p⟩] ∧ List.Forall₂ (Protected rc4Cip env'.md5 p.key) objs0 objs1 := by
  have h0 : KeyFive a0 := by
    have h1 := ho.1
    unfold App.openFrom at h1
    simp only at h1
    split at h1
    · simp only [Step.mk.injEq] at h1
      rw [← h1.1]
      unfold App.showCellBorder
      intro p hp
      simp at hp
    all_goals simp at h1
  have hk := KeyFive.run calls h0 hmd5 p hp
  obtain ⟨b, hb, rfl, rfl, hout⟩ := hs
  generalize Run a0 calls = a at hb hp hout ⊢
  obtain ⟨b0, e1, _, e2, e3, e4, _, _⟩ := (C68_protection hmd5' a hp hk).1 b hb
  refine ⟨b0.doc.objs, _, ⟨b0, e1, rfl, ?_, saveTo_eq e1⟩, b.doc.objs, ?_, e2⟩
  · rw [hp, ← e4]; rfl
  · rw [hp]; rfl

/-! ### reading a protected document -/

/-- no object with this number has the word `stream` -/
def Spec.Wordless (objs : List Obj) (id : Int) : Prop := ∀ o ∈ objs, o.objID = id → ¬ b!"stream" <:+: o.data

theorem protected_filter {md5 : Bytes → Bytes} {key : Bytes} {id : Int} : ∀ {l l' : List Obj}, List.Forall₂ (Protected rc4Cip md5 key) l l' → Wordless l id →
    l'.filter (fun x => decide (x.objID = id)) = l.filter (fun x => decide (x.objID = id))
  | _, _, .nil, _ => rfl
  | o :: l, o' :: l', .cons h t, hn => by
    have ih := protected_filter t (fun q hq => hn q (by simp [hq]))
    have hid := h.number
    by_cases he : o.objID = id
    · rw [List.filter_cons_of_pos (by simpa using hid.trans he), List.filter_cons_of_pos (by simpa using he), ih]
      have hd := h.plain (hn o (by simp) he)
      have : o' = o := by
        cases o; cases o'; simp_all
      rw [this]
    · rw [List.filter_cons_of_neg (by simpa [hid] using he), List.filter_cons_of_neg (by simpa using he), ih]

/-- C68: the entries of an object without the word `stream` are the same. -/
theorem C68_entries {md5 : Bytes → Bytes} {key : Bytes} {l l' : List Obj} (h : List.Forall₂ (Protected rc4Cip md5 key) l l') {id : Int} (hn : Wordless l id) :
    entriesOf l' id = entriesOf l id := by
  unfold entriesOf
  rw [protected_filter h hn]

/-- the dictionary a value stands for is not one with the word `stream` -/
def Spec.WordlessAt (objs : List Obj) (v : Bytes) : Prop := Inline v ∨ ∀ id, refOf v = some id → Wordless objs id

theorem protected_dictOf {md5 : Bytes → Bytes} {key : Bytes} {l l' : List Obj} (h : List.Forall₂ (Protected rc4Cip md5 key) l l') {v : Bytes} (hn : WordlessAt l v) :
    dictOf l' v = dictOf l v := by
  unfold dictOf
  split
  · rfl
  · rename_i hi
    rcases hn with hn | hn
    · exact absurd hn hi
    · cases hr : refOf v with
      | none => rfl
      | some id => exact C68_entries h (hn id hr)

/-- C68: the names of the fonts and images of a page are the same, if the dictionaries of the page and its resources do not have the word `stream`. -/
theorem C68_named {md5 : Bytes → Bytes} {key : Bytes} {l l' : List Obj} (h : List.Forall₂ (Protected rc4Cip md5 key) l l') {page : Int} {kind : Bytes}
    (h1 : Wordless l page) (h2 : ∀ ps v, entriesOf l page = some ps → valueOf ps b!"Resources" = some v → WordlessAt l v ∧
      ∀ rs w, dictOf l v = some rs → valueOf rs kind = some w → WordlessAt l w) (name : Bytes) :
    resourcesOf l' page kind = resourcesOf l page kind ∧ named l' page kind name = named l page kind name := by
  have key : resourcesOf l' page kind = resourcesOf l page kind := by
    unfold resourcesOf
    rw [C68_entries h h1]
    cases he : entriesOf l page with
    | none => rfl
    | some ps =>
      simp only [Option.bind_eq_bind, Option.bind_some]
      cases hv : valueOf ps b!"Resources" with
      | none => rfl
      | some v =>
        obtain ⟨h3, h4⟩ := h2 ps v he hv
        simp only [Option.bind_some]
        rw [protected_dictOf h h3]
        cases hd : dictOf l v with
        | none => rfl
        | some rs =>
          simp only [Option.bind_some]
          cases hw : valueOf rs kind with
          | none => rfl
          | some w =>
            simp only [Option.bind_some]
            exact protected_dictOf h (h4 rs w hd hw)
  refine ⟨key, ?_⟩
  unfold named
  rw [key]

theorem forall₂_get {α β : Type} {R : α → β → Prop} : ∀ {l : List α} {l' : List β}, List.Forall₂ R l l' → ∀ o ∈ l, ∃ o' ∈ l', R o o'
  | _, _, .nil, o, ho => by simp at ho
  | _, _, .cons (a := a) (b := b) h t, o, ho => by
    rcases List.mem_cons.1 ho with rfl | ho
    · exact ⟨b, by simp, h⟩
    · obtain ⟨o', h1, h2⟩ := forall₂_get t o ho
      exact ⟨o', by simp [h1], h2⟩

/-- C68: a rewritten content stream is deciphered to the content without the line ends around it; its dictionary still gives the length of the content with
these line ends (C34 is violated for it). -/
theorem C68_contents {md5 : Bytes → Bytes} {key : Bytes} {l l' : List Obj} (h : List.Forall₂ (Protected rc4Cip md5 key) l l') {o : Obj} (ho : o ∈ l) {body : Bytes}
    (hb : StreamObject o.data body) :
    ∃ o' ∈ l', o'.objID = o.objID ∧ ∃ ds c lead s trail, parseNat ds = some body.length ∧ o'.data = b!"<<\n/Length " ++ ds ++ b!"\n>>\nstream\n" ++ c ++ b!"\nendstream" ∧
      rc4Cip (objKey md5 key o.objID 0) c = .ok s ∧ body = lead ++ s ++ trail ∧ (∀ x ∈ lead, Eol x) ∧ ∀ x ∈ trail, Eol x := by
  obtain ⟨o', ho', hp⟩ := forall₂_get h o ho
  obtain ⟨ds, hd1, hd2⟩ := hb
  have hs : b!"stream" <:+: o.data := by
    rw [hd2]
    exact ⟨b!"<<\n/Length " ++ ds ++ b!"\n>>\n", b!"\n" ++ body ++ b!"endstream", by simp⟩
  obtain ⟨head, lead, s, trail, tail, c, e1, e2, e3, e4, e5, e6, e7, e8, e9, e10⟩ := hp.stream hs
  generalize hh1 : b!"<<\n/Length " ++ ds ++ b!"\n>>\n" = head1 at *
  have hno : ¬ b!"stream" <:+: head1 := by
    refine not_infix_of_mem (c := 115) (by decide) ?_
    have hds : (115 : UInt8) ∉ ds := fun hm => by
      have := (parseNat_bytes hd1).2 _ hm
      revert this; decide
    rw [← hh1]
    simp [hds]
  have hd3 : o.data = head1 ++ (b!"stream" ++ (10 :: body ++ b!"endstream")) := by rw [hd2, ← hh1]; simp
  have i1 := index_first borderless_stream e2 ((lead ++ s ++ trail) ++ b!"endstream" ++ tail)
  have i2 := index_first borderless_stream hno (10 :: body ++ b!"endstream")
  have e1' : o.data = head ++ (b!"stream" ++ ((lead ++ s ++ trail) ++ b!"endstream" ++ tail)) := by rw [e1]; simp only [List.append_assoc]
  rw [← e1'] at i1
  rw [← hd3, i1] at i2
  simp only [Option.some.injEq] at i2
  have hcat := e1'.symm.trans hd3
  obtain ⟨rfl, hrest⟩ := List.append_inj hcat i2
  have hrest := List.append_cancel_left hrest
  have j1 := lastIndex_last (by decide) borderless_endstream e3 (lead ++ s ++ trail)
  have j2 := lastIndex_last (by decide) borderless_endstream (t := []) (by decide) (10 :: body)
  rw [← List.append_assoc, hrest] at j1
  rw [List.append_nil, j1] at j2
  simp only [Option.some.injEq] at j2
  rw [List.append_assoc] at hrest
  obtain ⟨hbody, _⟩ := List.append_inj hrest j2
  refine ⟨o', ho', hp.number, ds, c, ?_⟩
  have hdat : o'.data = b!"<<\n/Length " ++ ds ++ b!"\n>>\nstream\n" ++ c ++ b!"\nendstream" := by rw [e8, ← hh1]; simp
  cases lead with
  | cons x lead' =>
    simp only [List.cons_append, List.cons.injEq] at hbody
    exact ⟨lead', s, trail, hd1, hdat, e10, hbody.2.symm, fun y hy => e4 y (by simp [hy]), e5⟩
  | nil =>
    cases s with
    | cons x s' =>
      simp only [List.nil_append, List.cons_append, List.cons.injEq] at hbody
      exact absurd (Or.inr hbody.1) (e6 x (by simp))
    | nil =>
      simp only [List.nil_append] at hbody
      refine ⟨[], [], body, hd1, hdat, e10, by simp, by simp, fun y hy => e5 y (by rw [hbody]; simp [hy])⟩

/-! ### C69: protecting twice -/

/-- C69: protecting a protected stream gives back the stream, in the clear (unless its enciphered form begins or ends with a line end byte, which gets lost). -/
theorem C69_refuted_clear {md5 : Bytes → Bytes} (hmd5 : ∀ x, (md5 x).length = 16) {key : Bytes} (hk : key.length = 5) {o o' : Obj} (h : Protected rc4Cip md5 key o o')
    (hs : b!"stream" <:+: o.data) : ∃ head lead s trail tail c, o.data = head ++ b!"stream" ++ (lead ++ s ++ trail) ++ b!"endstream" ++ tail ∧
      (∀ c ∈ lead, Eol c) ∧ (∀ c ∈ trail, Eol c) ∧ o'.data = head ++ b!"stream\n" ++ c ++ b!"\nendstream" ∧
      ((∀ x ∈ c.head?, ¬ Eol x) → (∀ x ∈ c.getLast?, ¬ Eol x) → encrypt md5 key o.objID o'.data = .ok (head ++ b!"stream\n" ++ s ++ b!"\nendstream")) := by
  obtain ⟨head, lead, s, trail, tail, c, e1, e2, e3, e4, e5, _, _, e8, e9, e10⟩ := h.stream hs
  refine ⟨head, lead, s, trail, tail, c, e1, e4, e5, e8, fun h1 h2 => ?_⟩
  have heol : ∀ x : UInt8, isEol x ↔ Eol x := fun x => Iff.rfl
  obtain ⟨c', f1, _, f3⟩ := C33_stream_decrypts hmd5 hk o.objID (head := head) (lead := [10]) (s := c) (trail := [10]) (tail := []) e2 (by decide)
    (by intro x hx; simp only [List.mem_cons, List.not_mem_nil, or_false] at hx; subst hx; exact Or.inr rfl)
    (by intro x hx; simp only [List.mem_cons, List.not_mem_nil, or_false] at hx; subst hx; exact Or.inr rfl) h1 h2
  obtain ⟨d, g1, _, g2⟩ := rc4Cip_spec (key := objKey md5 key o.objID 0) (by rw [objKey_length hmd5 hk]; omega) (by rw [objKey_length hmd5 hk]; omega) c'
  rw [f3] at g1
  injection g1 with g1
  rw [← g1, e10] at g2
  injection g2 with g2
  rw [← g2] at f1
  rw [e8, ← f1]
  simp

/-! ### a protected document -/

/-- `encrypt` with the quick cipher -/
def quickEncrypt (md5 : Bytes → Bytes) (key : Bytes) (objID : Int) (data : Bytes) : Res Bytes :=
  match index b!"stream" data with
  | none => .ok data
  | some start =>
    match lastIndex b!"endstream" data with
    | none => .panic
    | some stop =>
      if stop < start + 6 then .panic
      else do
        let body := trimCRLF ((data.take stop).drop (start + 6))
        let c ← packCip (objectKey md5 key objID) body
        .ok (data.take start ++ b!"stream" ++ [10] ++ c ++ [10] ++ b!"endstream")

def quickEncryptObjs (env : Env) (key : Bytes) : List Obj → Res (List Obj)
  | [] => .ok []
  | o :: t => do
    let data ← (match quickEncrypt env.md5 key o.objID o.data with
      | .ok d => Res.ok d
      | .err _ => .ok o.data
      | .panic => .panic
      | .hang => .hang)
    let r ← quickEncryptObjs env key t
    .ok ({ o with data := data } :: r)

theorem encryptObjs_quick (env : Env) (key : Bytes) : ∀ objs, encryptObjs env key objs = quickEncryptObjs env key objs
  | [] => rfl
  | o :: t => by
    rw [encryptObjs, quickEncryptObjs, encryptObjs_quick env key t]
    have : encrypt env.md5 key o.objID o.data = quickEncrypt env.md5 key o.objID o.data := by
      unfold encrypt quickEncrypt
      simp only [rc4Cip_pack]
      cases index b!"stream" o.data with
      | none => rfl
      | some i => cases lastIndex b!"endstream" o.data <;> rfl
    rw [this]
    cases quickEncrypt env.md5 key o.objID o.data <;> rfl

/-- `build` with the quick cipher -/
def App.quickBuild (env : Env) (a : App) : Res Built :=
  a.preBuild env >>= fun t => do
    let objs ← (match a.protection with
      | some p => quickEncryptObjs env p.key t.1.2.2.2.objs
      | none => .ok t.1.2.2.2.objs)
    .ok { app := { a with doc := if t.2.1 then t.1.2.2.1 else { t.1.2.2.1 with objs := objs.take t.2.2.1 }, fonts := t.1.1, imgs := t.1.2.1 },
          doc := { t.1.2.2.2 with objs := objs }, lastID := t.2.2.2 }

theorem build_quick (env : Env) (a : App) : a.build env = a.quickBuild env := by
  have h := build_split env a a.protection
  have ha : a.protectedBy a.protection = a := rfl
  rw [ha] at h
  rw [h]
  unfold App.quickBuild
  cases hp : a.protection <;> simp only [encryptObjs_quick]

/-- sums of 16 bytes -/
def sumEnv : Env := { plainEnv with md5 := fun b => UInt8.ofNat b.length :: List.replicate 15 7 }

theorem sumEnv_md5 (x : Bytes) : (sumEnv.md5 x).length = 16 := by
  simp [sumEnv]

/-- one page and an image stream -/
def picture : List Obj := [
  ⟨1, b!"<< /Type /Catalog /Pages 2 0 R >>"⟩,
  ⟨2, b!"<< /Type /Pages /Count 1 /Kids [ 3 0 R ] >>"⟩,
  ⟨3, b!"<< /Type /Page /Parent 2 0 R /MediaBox [0 0 595 842] /Resources << /Font << /F1 5 0 R >> /XObject << /Im1 6 0 R >> >> /Contents 4 0 R >>"⟩,
  ⟨4, b!"<< /Length 5 >>\nstream\nq 7 Q\nendstream"⟩,
  ⟨5, b!"<< /Type /Font >>"⟩,
  ⟨6, b!"<< /Type /XObject /Length 3 >>\nstream\nabc\nendstream"⟩]

/-- opened and protected -/
def guarded : App := Run (openedApp (fileOf picture)) [(sumEnv, .protect [1] 4#64 b!"user" b!"owner")]

/-- the objects written by the first and by the second call of `Save` -/
def twiceSaved : List Obj × List Obj :=
  match guarded.build sumEnv with
  | .ok b => (b.doc.objs, savedObjs sumEnv b.app)
  | _ => ([], [])

def quickTwice : List Obj × List Obj :=
  match guarded.quickBuild sumEnv with
  | .ok b => (b.doc.objs, match b.app.quickBuild sumEnv with
    | .ok b' => b'.doc.objs
    | _ => [])
  | _ => ([], [])

theorem twice_quick : twiceSaved = quickTwice := by
  unfold twiceSaved quickTwice savedObjs
  simp only [build_quick]
  cases App.quickBuild sumEnv guarded with
  | ok b => simp only; cases App.quickBuild sumEnv b.app <;> rfl
  | _ => rfl

set_option maxRecDepth 20000 in
theorem guarded_facts : (App.openFrom sumEnv {} (fileOf picture)).res = .ok () ∧ guarded.protection.map (fun p => p.key.length) = some 5 ∧
    twiceSaved.1.map Obj.objID = [1, 2, 3, 4, 5, 6] ∧
    (⟨6, b!"\n<< /Type /XObject /Length 3 >>\nstream\n" ++ [222, 211, 249] ++ b!"\nendstream"⟩ : Obj) ∈ twiceSaved.1 ∧
    (⟨6, b!"\n<< /Type /XObject /Length 3 >>\nstream\nabc\nendstream"⟩ : Obj) ∈ twiceSaved.2 := by
  rw [twice_quick]
  decide +kernel

-- the hypotheses of C68 and C69 hold: the document is protected with a key of five bytes, and saving succeeds
example : guarded.protection.map (fun p => p.key.length) = some 5 ∧ twiceSaved.1.map Obj.objID = [1, 2, 3, 4, 5, 6] := ⟨guarded_facts.2.1, guarded_facts.2.2.1⟩

/-- **C69 is violated.**  The image is enciphered in the first file saved; in the second one it is there in the clear. -/
theorem C69_refuted_twice : (App.openFrom sumEnv {} (fileOf picture)).res = .ok () ∧ guarded.protection.isSome = true ∧
    (⟨6, b!"\n<< /Type /XObject /Length 3 >>\nstream\n" ++ [222, 211, 249] ++ b!"\nendstream"⟩ : Obj) ∈ twiceSaved.1 ∧
    (⟨6, b!"\n<< /Type /XObject /Length 3 >>\nstream\nabc\nendstream"⟩ : Obj) ∈ twiceSaved.2 := by
  obtain ⟨h1, h2, _, h3, h4⟩ := guarded_facts
  refine ⟨h1, ?_, h3, h4⟩
  cases hp : guarded.protection with
  | none => rw [hp] at h2; simp at h2
  | some p => rfl

end Verif
