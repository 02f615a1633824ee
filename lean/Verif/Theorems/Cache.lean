import Verif.Theorems.Contents
import Mathlib.Data.List.Dedup
/-!
# The image cache (C21)
-/
namespace Verif
open Spec

/-- a call of `InsertImgWithCache` -/
structure Spec.CacheCall where
  file : Bytes
  page : Int
  x : ℚ
  y : ℚ
  w : ℚ
  h : ℚ

/-- the calls are made one after the other and all succeed -/
inductive Spec.CacheRun (env : Env) : App → List CacheCall → App → Prop
  | nil (a : App) : CacheRun env a [] a
  | cons {a b a' : App} {c : CacheCall} {cs : List CacheCall} : a.insertImgWithCache env c.file c.page c.x c.y c.w c.h = ⟨b, .ok ()⟩ → CacheRun env b cs a' →
      CacheRun env a (c :: cs) a'

/-- the image data holds this image: its object was built from the parsed file (`s` is the number of the object with its mask, if it has one) -/
def Spec.Holds (env : Env) (file : Bytes) (i : ImageData) : Prop := ∃ info s, parseImg env.toImgEnv file = .ok info ∧ i.buf = imgBuild { info with smaskObjID := s }

/-- the drawing operation has the values of the call and refers to the stored data at `pos` of its image, which holds the image -/
def Spec.Draws (env : Env) (imgs : List ImageData) (pos : Bytes → Nat) (call : CacheCall) (c : Content) : Prop :=
  ∃ g : ImgContent, c = .img g ∧ g.page = call.page ∧ g.x = call.x ∧ g.y = call.y ∧ g.w = call.w ∧ g.h = call.h ∧ g.img = pos call.file ∧ ∃ i, imgs[g.img]? = some i ∧ Holds env call.file i

theorem imgBuild_smask0 (info : ImgInfo) : ∃ s, imgBuild info = imgBuild { info with smaskObjID := s } := ⟨info.smaskObjID, rfl⟩

theorem makeImg_holds {env : Env} {a a' : App} {file : Bytes} {i : ImageData} (h : a.makeImg env file = .ok (a', i)) : Holds env file i := by
  unfold App.makeImg at h
  rw [Res.bind_eq_ok] at h
  obtain ⟨info, hi, h⟩ := h
  split at h
  · simp only [Res.ok.injEq, Prod.mk.injEq] at h
    exact ⟨info, info.smaskObjID, hi, by rw [← h.2]⟩
  · simp only [Res.ok.injEq, Prod.mk.injEq] at h
    exact ⟨info, _, hi, by rw [← h.2]⟩

/-- what holds between the calls: the map has one entry for every file seen, with the position of its data -/
structure CacheInv (env : Env) (base : Nat) (seen : List Bytes) (a : App) : Prop where
  keys : a.imgMap.map (·.1) = seen.map env.md5
  vals : a.imgMap.map (·.2) = (List.range seen.length).map (base + ·)
  len : a.imgs.length = base + seen.length
  holds : ∀ (j : Nat) f, seen[j]? = some f → ∃ i, a.imgs[base + j]? = some i ∧ Holds env f i

theorem lookup_of_keys {β : Type} : ∀ (m : List (Bytes × β)) {k : Bytes}, (m.lookup k = none ↔ k ∉ m.map (·.1)) ∧
    (∀ v, m.lookup k = some v → ∃ j : Nat, (m.map (·.1))[j]? = some k ∧ (m.map (·.2))[j]? = some v)
  | [], k => by simp
  | p :: t, k => by
    obtain ⟨h1, h2⟩ := lookup_of_keys t (k := k)
    rw [List.lookup_cons]
    by_cases hp : k = p.1
    · subst hp
      simp only [beq_self_eq_true]
      refine ⟨by simp, fun v hv => ⟨0, by simp, ?_⟩⟩
      simpa using hv
    · rw [show (k == p.1) = false by simpa using hp]
      refine ⟨by simp [h1, hp], fun v hv => ?_⟩
      obtain ⟨j, hj1, hj2⟩ := h2 v hv
      exact ⟨j + 1, by simpa using hj1, by simpa using hj2⟩

theorem idxOf_at {l : List Bytes} {j : Nat} {f : Bytes} (hn : l.Nodup) (h : l[j]? = some f) : l.idxOf f = j := by
  obtain ⟨hj, he⟩ := List.getElem?_eq_some_iff.1 h
  subst he
  exact hn.idxOf_getElem j hj

theorem cache_run {env : Env} {base : Nat} : ∀ {cs : List CacheCall} {a a' : App} {seen : List Bytes}, CacheRun env a cs a' → CacheInv env base seen a → seen.Nodup →
    (∀ f ∈ seen ++ cs.map (·.file), ∀ g ∈ seen ++ cs.map (·.file), env.md5 f = env.md5 g → f = g) →
    ∃ new ops extra, CacheInv env base (seen ++ new) a' ∧ (seen ++ new).Nodup ∧ (∀ f, f ∈ seen ++ new ↔ f ∈ seen ++ cs.map (·.file)) ∧
      a'.contents = a.contents ++ ops ∧ a'.imgs = a.imgs ++ extra ∧ List.Forall₂ (Draws env a'.imgs (fun f => base + (seen ++ new).idxOf f)) cs ops
  | [], a, a', seen, h, hinv, hn, _ => by
    cases h
    exact ⟨[], [], [], by simpa using hinv, by simpa using hn, by simp, by simp, by simp, .nil⟩
  | c :: cs, a, a', seen, h, hinv, hn, hinj => by
    cases h with
    | cons hb hr =>
      rename_i b
      unfold App.insertImgWithCache at hb
      obtain ⟨hl1, hl2⟩ := lookup_of_keys a.imgMap (k := env.md5 c.file)
      cases hl : a.imgMap.lookup (env.md5 c.file) with
      | some n =>
        rw [hl] at hb
        obtain ⟨ph, rfl⟩ := addImgContent_ok hb
        obtain ⟨j, hj1, hj2⟩ := hl2 n hl
        rw [hinv.keys, List.getElem?_map] at hj1
        rw [hinv.vals, List.getElem?_map] at hj2
        obtain ⟨f, hf, hfe⟩ := Option.map_eq_some_iff.1 hj1
        obtain ⟨j', hj', rfl⟩ := Option.map_eq_some_iff.1 hj2
        have hjj : j' = j := by
          rw [List.getElem?_range (by
            have := (List.getElem?_eq_some_iff.1 hf).1
            exact this)] at hj'
          simpa using hj'.symm
        subst hjj
        have hmem := List.mem_of_getElem? hf
        have hff : f = c.file := hinj f (by simp [hmem]) c.file (by simp) hfe
        subst hff
        obtain ⟨i, hi1, hi2⟩ := hinv.holds _ _ hf
        obtain ⟨new, ops, extra, h1, h2, h3, h4, h5, h6⟩ := cache_run (base := base) (seen := seen) hr ⟨hinv.keys, hinv.vals, hinv.len, hinv.holds⟩ hn
          (fun f hf g hg => hinj f (by simp at hf ⊢; tauto) g (by simp at hg ⊢; tauto))
        refine ⟨new, _ :: ops, extra, h1, h2, ?_, by rw [h4]; simp; rfl, h5, .cons ?_ h6⟩
        · intro g
          rw [h3 g]
          simp only [List.map_cons, List.mem_append, List.mem_cons]
          constructor
          · tauto
          · rintro (h | rfl | h)
            · exact Or.inl h
            · exact Or.inl hmem
            · exact Or.inr h
        · refine ⟨_, rfl, rfl, rfl, rfl, rfl, rfl, ?_, i, ?_, hi2⟩
          · show base + _ = base + (seen ++ new).idxOf c.file
            rw [idxOf_at h2 (List.getElem?_append_left (List.getElem?_eq_some_iff.1 hf).1 ▸ hf)]
          rw [h5]
          exact List.getElem?_append_left (by rw [List.getElem?_eq_some_iff] at hi1; exact hi1.1) ▸ hi1
      | none =>
        rw [hl] at hb
        have hnew : c.file ∉ seen := by
          intro hm
          have := hl1.1 hl
          rw [hinv.keys] at this
          exact this (List.mem_map_of_mem hm)
        cases hm : a.makeImg env c.file with
        | ok r =>
          obtain ⟨a1, i⟩ := r
          rw [hm] at hb
          have hi2 := makeImg_holds hm
          obtain ⟨d, rfl⟩ := makeImg_rest hm
          obtain ⟨ph, rfl⟩ := addImgContent_ok hb
          have hlen := hinv.len
          obtain ⟨new, ops, extra, h1, h2, h3, h4, h5, h6⟩ := cache_run (base := base) (seen := seen ++ [c.file]) hr ⟨by simp [hinv.keys], by
            simp only [List.map_append, hinv.vals, hlen, List.map_cons, List.map_nil, List.length_append, List.length_cons, List.length_nil]
            rw [List.range_succ, List.map_append]
            rfl, by simp only [List.length_append, hlen, List.length_cons, List.length_nil]; omega, by
            intro j f hj
            by_cases hjl : j < seen.length
            · rw [List.getElem?_append_left hjl] at hj
              obtain ⟨i', hi1, hi3⟩ := hinv.holds j f hj
              exact ⟨i', by rw [List.getElem?_append_left (show base + j < a.imgs.length by omega)]; exact hi1, hi3⟩
            · rw [List.getElem?_append_right (by omega)] at hj
              have hj0 : j = seen.length := by
                have := (List.getElem?_eq_some_iff.1 hj).1
                simp at this
                omega
              subst hj0
              simp only [Nat.sub_self, List.getElem?_cons_zero, Option.some.injEq] at hj
              subst hj
              exact ⟨i, by rw [← hlen]; simp, hi2⟩⟩ (by
              rw [List.nodup_append]
              refine ⟨hn, by simp, ?_⟩
              intro x hx y hy e
              simp only [List.mem_singleton] at hy
              exact hnew (by rw [← hy, ← e]; exact hx))
            (fun f hf g hg => hinj f (by simp at hf ⊢; tauto) g (by simp at hg ⊢; tauto))
          rw [List.append_assoc] at h1 h2 h3 h6
          refine ⟨[c.file] ++ new, _ :: ops, i :: extra, h1, h2, ?_, by rw [h4]; simp; rfl, by rw [h5]; simp, .cons ?_ h6⟩
          · intro g
            rw [h3 g]
            simp
          · refine ⟨_, rfl, rfl, rfl, rfl, rfl, rfl, ?_, i, ?_, hi2⟩
            · show a.imgs.length = base + (seen ++ ([c.file] ++ new)).idxOf c.file
              rw [idxOf_at (j := seen.length) h2 (by simp), hlen]
            rw [h5]
            simp
        | err e => rw [hm] at hb; simp at hb
        | panic => rw [hm] at hb; simp at hb
        | hang => rw [hm] at hb; simp at hb

/-- C21: calls of `InsertImgWithCache` after opening a document, with a digest that has no collision among the images: as many images are stored as
there are different ones, every call adds one drawing operation, with the values of the call, and it refers to stored data that holds its image; two calls
refer to the same data exactly if they have the same image. -/
theorem C21_cache {env : Env} {a a' : App} {cs : List CacheCall} (hempty : a.imgMap = []) (hr : CacheRun env a cs a')
    (hinj : ∀ f ∈ cs.map (·.file), ∀ g ∈ cs.map (·.file), env.md5 f = env.md5 g → f = g) :
    a'.imgs.length = a.imgs.length + (cs.map (·.file)).dedup.length ∧
    ∃ ops pos, a'.contents = a.contents ++ ops ∧ List.Forall₂ (Draws env a'.imgs pos) cs ops ∧
      ∀ f ∈ cs.map (·.file), ∀ g ∈ cs.map (·.file), pos f = pos g → f = g := by
  obtain ⟨new, ops, extra, h1, h2, h3, h4, h5, h6⟩ := cache_run (base := a.imgs.length) (seen := []) hr ⟨by simp [hempty], by simp [hempty], by simp, by simp⟩ (by simp)
    (by simpa using hinj)
  refine ⟨?_, ops, _, h4, h6, ?_⟩
  · rw [h1.len]
    congr 1
    apply List.Perm.length_eq
    rw [List.perm_ext_iff_of_nodup h2 (List.nodup_dedup _)]
    intro f
    rw [h3 f, List.mem_dedup]
    simp
  · intro f hf g hg e
    have e : ([] ++ new).idxOf f = ([] ++ new).idxOf g := by simpa using e
    exact (List.idxOf_inj ((h3 f).2 (by simpa using hf))).1 e

/-- opening a document empties the cache -/
theorem C21_opened (env : Env) (a : App) (raw : Bytes) : (App.openFrom env a raw).state.imgMap = [] := by
  unfold App.openFrom
  simp only
  split <;> rfl

/-- three calls with two images -/
example : ∃ a', CacheRun plainEnv { doc := { emptyDoc with objs := onePage, rootObjID := 1 } } [⟨b!"x", 1, 0, 0, 1, 1⟩, ⟨b!"y", 1, 5, 0, 1, 1⟩, ⟨b!"x", 1, 9, 0, 1, 1⟩] a' ∧ a'.imgs.length = 2 := by
  refine ⟨_, .cons rfl (.cons rfl (.cons rfl (.nil _))), by rfl⟩

end Verif
