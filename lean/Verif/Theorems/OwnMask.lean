import Verif.Theorems.GoFontSample
/-
C88: every image with alpha that is put into a document made with `GoPdf` refers to another object than its mask.
-/
namespace Verif
open Spec

theorem modify_fixed {α : Type} {l : List α} {k j : Nat} {f : α → α} {s : α} (h : l[k]? = some s) (hf : f s = s) : (l.modify j f)[k]? = some s := by
  rw [List.getElem?_modify, h]
  by_cases e : j = k <;> simp [e, hf]

theorem modify_here {α : Type} {l : List α} {k : Nat} {f : α → α} {s : α} (h : l[k]? = some s) : (l.modify k f)[k]? = some (f s) := by
  rw [List.getElem?_modify, h]
  simp

theorem get_append {α : Type} {l m : List α} {k : Nat} {s : α} (h : l[k]? = some s) : (l ++ m)[k]? = some s := by
  rw [List.getElem?_append_left (by rw [List.getElem?_eq_some_iff] at h; exact h.1), h]

theorem draw_keeps {g : Gp} {k : Nat} {i : ImgInfo} (h : g.slots[k]? = some ⟨.image i, []⟩) (c : GCache) : (g.draw c).slots[k]? = some ⟨.image i, []⟩ := by
  unfold Gp.draw Gp.put Gp.getContent
  cases g.contentIdx with
  | some j => exact modify_fixed h rfl
  | none => exact modify_fixed (get_append h) rfl

theorem addImage_at (g : Gp) (id : Bytes) (x y : ℚ) (r : GRect) (i : ImgInfo) : (g.addImage id x y r i).slots[g.slots.length]? = some ⟨.image i, []⟩ := by
  unfold Gp.addImage
  exact modify_fixed (draw_keeps (by simp [Gp.addObj]) _) rfl

/-- **C88** (refuted for every image with alpha): whatever the document holds when such an image is first put on a page, its mask is added as the object at some position `n`, that is with the
number `n + 1`; but the image refers to the object with the number `n`. -/
theorem C88_refuted_mask_all {env : GEnv} {g g1 : Gp} {id file : Bytes} {x y : ℚ} {rect : Option GRect} {i m : ImgInfo} (hnew : ∀ c ∈ g.imgCaches, c.1 ≠ id)
    (hi : parseImg env.toImgEnv file = .ok i) (hm : createSMask i = some m) (h : g.image env id file x y rect = ⟨g1, .ok ()⟩) :
    ∃ n j pre, g1.slots[n]? = some ⟨.smask m, []⟩ ∧ g1.slots[g.slots.length]? = some ⟨.image j, []⟩ ∧ j.data = i.data ∧ buildImgProp j = pre ++ b!"/SMask " ++ natDigits n ++ b!" 0 R\n" := by
  have hs : i.smask ≠ [] := by
    intro e
    simp [createSMask, e] at hm
  have hf : g.imgCaches.find? (fun c => c.1 = id) = none := by
    rw [List.find?_eq_none]
    intro c hc
    simpa using hnew c hc
  have prop : ∀ (j : ImgInfo) (n : Nat), j.smask = i.smask → j.smaskObjID = n → ∃ pre, buildImgProp j = pre ++ b!"/SMask " ++ natDigits n ++ b!" 0 R\n" := by
    intro j n e1 e2
    unfold buildImgProp
    rw [e1, if_pos hs, e2, itoa_natCast]
    exact ⟨_, (List.append_assoc _ _ _).symm.trans (congrArg (· ++ _) (List.append_assoc _ _ _).symm)⟩
  unfold Gp.image at h
  rw [hf] at h
  simp only [hi] at h
  split at h
  · rename_i r j hr
    have hj : j = i := by
      cases rect with
      | some q => cases hr; rfl
      | none =>
        simp only [bind, Res.bind] at hr
        split at hr
        · cases hr; rfl
        all_goals cases hr
    subst hj
    cases h
    rw [hm]
    have a1 := addImage_at g id x y r j
    generalize g.addImage id x y r j = q at a1
    have b1 : (q.addMask g.slots.length (some m)).slots[q.slots.length]? = some ⟨.smask m, []⟩ := by
      unfold Gp.addMask
      exact modify_fixed (by simp [Gp.addObj]) rfl
    have b2 : (q.addMask g.slots.length (some m)).slots[g.slots.length]? = some ⟨.image { j with smaskObjID := q.slots.length }, []⟩ := by
      unfold Gp.addMask
      exact modify_here (get_append a1)
    generalize q.addMask g.slots.length (some m) = p at b1 b2
    unfold Gp.addPalette
    split
    · obtain ⟨pre, e⟩ := prop { j with smaskObjID := q.slots.length, deviceRGBObjID := p.slots.length } q.slots.length rfl rfl
      exact ⟨q.slots.length, _, pre, modify_fixed (get_append b1) rfl, modify_here (get_append b2), rfl, e⟩
    · obtain ⟨pre, e⟩ := prop { j with smaskObjID := q.slots.length } q.slots.length rfl rfl
      exact ⟨q.slots.length, _, pre, b1, b2, rfl, e⟩
  all_goals cases h

set_option maxRecDepth 20000 in
/-- the image of `maskCalls` on a new page -/
example : ∃ i m g1, parseImg picEnv.toImgEnv markPng.bytes = .ok i ∧ createSMask i = some m ∧ (∀ c ∈ (goRun picEnv (Gp.start ⟨595, 842⟩ none) [.addPage ⟨0, 0⟩]).imgCaches, c.1 ≠ b!"m") ∧
    (goRun picEnv (Gp.start ⟨595, 842⟩ none) [.addPage ⟨0, 0⟩]).image picEnv b!"m" markPng.bytes 100 100 (some ⟨20, 10⟩) = ⟨g1, .ok ()⟩ := by
  have h1 : (match parseImg picEnv.toImgEnv markPng.bytes with | .ok i => (createSMask i).isSome | _ => false) = true := by decide +kernel
  have h2 : (match ((goRun picEnv (Gp.start ⟨595, 842⟩ none) [.addPage ⟨0, 0⟩]).image picEnv b!"m" markPng.bytes 100 100 (some ⟨20, 10⟩)).res with | .ok _ => true | _ => false) = true := by
    decide +kernel
  rcases h3 : (goRun picEnv (Gp.start ⟨595, 842⟩ none) [.addPage ⟨0, 0⟩]).image picEnv b!"m" markPng.bytes 100 100 (some ⟨20, 10⟩) with ⟨g1, r⟩
  rw [h3] at h2
  split at h1
  · rename_i i hi
    obtain ⟨m, hm⟩ := Option.isSome_iff_exists.1 h1
    cases r <;> simp at h2
    exact ⟨i, m, g1, hi, hm, by decide +kernel, rfl⟩
  · simp at h1

end Verif
