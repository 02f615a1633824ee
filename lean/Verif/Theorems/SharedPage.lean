import Verif.Theorems.Lost
import Verif.Theorems.SavedExample
/-
C97: insertions on pages that share their content, for every document.
-/
namespace Verif
open Spec

theorem mapPut_self {α : Type} (m : List (Int × α)) (k : Int) (v : α) : (k, v) ∈ mapPut m k v := by
  have h : k ∈ (mapPut m k v).map (·.1) := mapPut_keys_mem.2 (Or.inl rfl)
  unfold mapPut at h ⊢
  split
  · rename_i hs
    rw [if_pos hs] at h
    obtain ⟨p, hp, hk⟩ := List.mem_map.1 h
    obtain ⟨q, hq, rfl⟩ := List.mem_map.1 hp
    refine List.mem_map.2 ⟨q, hq, ?_⟩
    by_cases e : q.1 = k
    · rw [if_pos e]
    · simp only [e, if_false] at hk
  · simp

theorem mapPut_keeps {α : Type} {m : List (Int × α)} {k : Int} {v : α} {p : Int × α} (h : p ∈ m) (hk : p.1 ≠ k) : p ∈ mapPut m k v := by
  unfold mapPut
  split
  · exact List.mem_map.2 ⟨p, h, by rw [if_neg hk]⟩
  · simp [h]

/-- of the replacements of an object the last one remains -/
theorem contentReplaces_last {unzip : Bytes → Option Bytes} {objs : List Obj} {buffs : Nat → Option Bytes} : ∀ (L : List PageC) {k : Nat} {m r : List (Int × Bytes)},
    (∀ x ∈ L, x.Ok unzip objs) → (m.map (·.1)).Nodup → contentReplaces unzip objs buffs k (L.map (·.page)) m = .ok r →
    (r.map (·.1)).Nodup ∧ (∀ p ∈ r, p.1 ∈ m.map (·.1) ∨ p.1 ∈ L.map (·.obj)) ∧
    (∀ p ∈ m, (∀ i y, L[i]? = some y → y.obj = p.1 → buffs (k + i + 1) = none) → p ∈ r) ∧
    ∀ j x b, L[j]? = some x → buffs (k + j + 1) = some b → (∀ i y, L[i]? = some y → j < i → y.obj = x.obj → buffs (k + i + 1) = none) →
      (x.obj, contentObject (x.body ++ b!"\n" ++ b)) ∈ r
  | [], k, m, r, _, hn, h => by
    simp only [List.map_nil, contentReplaces, Res.ok.injEq] at h
    subst h
    exact ⟨hn, fun p hp => Or.inl (List.mem_map_of_mem hp), fun p hp _ => hp, by simp⟩
  | z :: t, k, m, r, hok, hn, h => by
    rw [List.map_cons, contentReplaces] at h
    simp only at h
    rw [Res.bind_eq_ok] at h
    obtain ⟨u, hu, h⟩ := h
    obtain ⟨⟨ps, v, he, hv, hr⟩, o, ho, hh⟩ := hok z (by simp)
    have hc := crawl_contents he hv hr (rs := (crawlRun objs z.page [b!"Contents"]).1) (by rw [← hu])
    rw [hc] at h
    simp only [Res.ok_bind, readContent_holds ho hh] at h
    have hok' : ∀ y ∈ t, y.Ok unzip objs := fun y hy => hok y (by simp [hy])
    have sh : ∀ i, k + (i + 1) + 1 = k + 1 + i + 1 := fun i => by omega
    cases hb : buffs (k + 1) with
    | none =>
      rw [hb] at h
      obtain ⟨h1, h2, h3, h4⟩ := contentReplaces_last t hok' hn h
      refine ⟨h1, fun p hp => (h2 p hp).imp id (fun q => by rw [List.map_cons]; exact List.mem_cons_of_mem _ q), fun p hp q => h3 p hp (fun i y hy e => ?_), ?_⟩
      · rw [← sh]; exact q (i + 1) y (by simpa using hy) e
      · rintro (_ | j) x b hx hbx hl
        · rw [show k + 0 + 1 = k + 1 from rfl, hb] at hbx; cases hbx
        · refine h4 j x b (by simpa using hx) (by rw [← sh]; exact hbx) (fun i y hy hi e => ?_)
          rw [← sh]; exact hl (i + 1) y (by simpa using hy) (by omega) e
    | some c =>
      rw [hb] at h
      obtain ⟨h1, h2, h3, h4⟩ := contentReplaces_last t hok' (mapPut_nodup hn _ _) h
      refine ⟨h1, fun p hp => ?_, fun p hp q => ?_, ?_⟩
      · rcases h2 p hp with q | q
        · rcases mapPut_keys_mem.1 q with e | e
          · exact Or.inr (by simp [e])
          · exact Or.inl e
        · exact Or.inr (by rw [List.map_cons]; exact List.mem_cons_of_mem _ q)
      · refine h3 p (mapPut_keeps hp fun e => ?_) (fun i y hy e => ?_)
        · have := q 0 z (by simp) e.symm
          rw [show k + 0 + 1 = k + 1 from rfl, hb] at this
          cases this
        · rw [← sh]; exact q (i + 1) y (by simpa using hy) e
      · rintro (_ | j) x b hx hbx hl
        · rw [show k + 0 + 1 = k + 1 from rfl, hb] at hbx
          cases hbx
          simp only [List.getElem?_cons_zero, Option.some.injEq] at hx
          subst hx
          refine h3 _ (mapPut_self _ _ _) (fun i y hy e => ?_)
          rw [← sh]; exact hl (i + 1) y (by simpa using hy) (by omega) e
        · refine h4 j x b (by simpa using hx) (by rw [← sh]; exact hbx) (fun i y hy hi e => ?_)
          rw [← sh]; exact hl (i + 1) y (by simpa using hy) (by omega) e

/-- **C97** (violated for all pages with the same content object, in every document): let page `j + 1` be the last one of them that is drawn on.  Then the object is the old content and what is drawn on
page `j + 1`: this is on all these pages, and what is drawn on the others before is on none. -/
theorem C97_refuted_shared_all {unzip : Bytes → Option Bytes} {d d' : Doc} {streams : List (Int × Bytes)} {L : List PageC} (hids : getPageObjIDs d = .ok (L.map (·.page)))
    (hok : ∀ x ∈ L, x.Ok unzip d.objs) (h : injectContent unzip d streams = .ok d') {j : Nat} {x : PageC} (hx : L[j]? = some x) (hd : drawnOn streams (j + 1) ≠ [])
    (hl : ∀ i y, L[i]? = some y → j < i → y.obj = x.obj → drawnOn streams (i + 1) = []) :
    ∀ y ∈ L, y.obj = x.obj → ∃ o, OnlyObj d'.objs y.obj o ∧ StreamObject o.data (x.body ++ b!"\n" ++ (drawnOn streams (j + 1)).flatten) := by
  intro y _ e
  rw [e]
  unfold injectContent at h
  simp only [hids, Res.ok_bind] at h
  rw [Res.bind_eq_ok] at h
  obtain ⟨reps, hr, h⟩ := h
  rw [Res.bind_eq_ok] at h
  obtain ⟨objs, ho, h⟩ := h
  cases h
  obtain ⟨h1, h2, _, h4⟩ := contentReplaces_last L hok (by simp) hr
  have hm := h4 j x (drawnOn streams (j + 1)).flatten hx (by rw [Nat.zero_add, pageBuff_eq, if_neg hd])
    (fun i y hy hi e => by rw [Nat.zero_add, pageBuff_eq, if_pos (hl i y hy hi e)])
  obtain ⟨_, h5⟩ := applyReplaces_only reps ho (fun p hp => by
    rcases h2 p hp with q | q
    · simp at q
    · obtain ⟨z, hz, e⟩ := List.mem_map.1 q
      obtain ⟨_, o, ho, _⟩ := hok z hz
      exact ⟨o, e ▸ ho⟩) h1
  obtain ⟨o, _, q⟩ := h5 _ hm
  exact ⟨_, q, contentObject_stream _⟩

theorem bodyG : HoldsStream some b!"\n<< /Length 3 >>\nstream\n0 g\nendstream\n" b!"0 g" :=
  ⟨⟨_, b!"\n<< /Length 3 >>\n", b!"\n", b!"0 g", b!"\n", b!"\n", _, 48, by rfl, by rfl, by decide +kernel, by decide, by decide +kernel, by decide +kernel, by decide, by decide,
    by rfl, by decide, by decide, Or.inl ⟨by rfl, rfl⟩⟩⟩

set_option maxRecDepth 20000 in
/-- the pages of the sample: both are drawn on, only what is drawn on the second one remains -/
example : ∃ d', injectContent some (openedApp (fileOf sameContent)).doc [(1, b!"q"), (2, b!"Q")] = .ok d' ∧
    ∀ y ∈ ([⟨3, 4, b!"0 g"⟩, ⟨5, 4, b!"0 g"⟩] : List PageC), y.obj = 4 → ∃ o, OnlyObj d'.objs y.obj o ∧ StreamObject o.data b!"0 g\nQ" := by
  have hs : ∃ d', injectContent some (openedApp (fileOf sameContent)).doc [(1, b!"q"), (2, b!"Q")] = .ok d' := ⟨_, by rfl⟩
  obtain ⟨d', h⟩ := hs
  have h3 : ((entriesOf (openedApp (fileOf sameContent)).doc.objs 3).bind (valueOf · b!"Contents")) = some b!"4 0 R" ∧
      ((entriesOf (openedApp (fileOf sameContent)).doc.objs 5).bind (valueOf · b!"Contents")) = some b!"4 0 R" ∧
      OnlyObj (openedApp (fileOf sameContent)).doc.objs 4 ⟨4, b!"\n<< /Length 3 >>\nstream\n0 g\nendstream\n"⟩ ∧
      getPageObjIDs (openedApp (fileOf sameContent)).doc = .ok [3, 5] := by decide +kernel
  obtain ⟨e1, e2, e3, e4⟩ := h3
  obtain ⟨ps, p1, p2⟩ := Option.bind_eq_some_iff.1 e1
  obtain ⟨qs, q1, q2⟩ := Option.bind_eq_some_iff.1 e2
  refine ⟨d', h, ?_⟩
  refine C97_refuted_shared_all (L := [⟨3, 4, b!"0 g"⟩, ⟨5, 4, b!"0 g"⟩]) e4 ?_ h (j := 1) (x := ⟨5, 4, b!"0 g"⟩) rfl (by decide) ?_
  · intro x hx
    simp only [List.mem_cons, List.not_mem_nil, or_false] at hx
    rcases hx with rfl | rfl
    · exact holds_of p1 p2 (by decide +kernel) e3 bodyG
    · exact holds_of q1 q2 (by decide +kernel) e3 bodyG
  · rintro (_ | _ | i) y hy hi _
    · omega
    · omega
    · simp at hy

end Verif
