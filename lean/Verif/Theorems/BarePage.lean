import Verif.Theorems.Lost
/-
C97: insertions on pages without content, for every document.
-/
namespace Verif
open Spec

theorem crawlLoop_without {objs : List Obj} {key : Bytes} {i : Int} {rec : Bytes → Option Int → Results → CrawlOut} : ∀ (ps : Props) {rs : Results} {own it : Items}, (∀ p ∈ ps, p.key ≠ key) →
    rs.lookup i = some it → it.Flat → it.valOf key = none →
    ∃ rs' it', crawlLoop objs key true rec (some i) ps rs own = (rs', own, .ok ()) ∧ rs'.lookup i = some it' ∧ it'.valOf key = none
  | [], rs, own, it, _, h, _, hv => ⟨rs, it, rfl, h, hv⟩
  | p :: ps, rs, own, it, hk, h, hf, hv => by
    have hp : p.key ≠ key := hk p (by simp)
    rw [crawlLoop, crawlItem, if_pos hp]
    exact crawlLoop_without ps (fun q hq => hk q (by simp [hq])) (lookup_add h) (hf.append (by simp [Items.Flat])) (by rw [Items.valOf_append hf, hv]; simp [Items.valOf, hp])

theorem crawl_bare {objs : List Obj} {page : Int} {ps : Props} (he : Entries objs page ps) (hv : valueOf ps b!"Contents" = none) :
    ∃ rs, crawlRun objs page [b!"Contents"] = (rs, .ok ()) ∧ contentsID ((rs.lookup page).getD .nil) = .ok none := by
  obtain ⟨o, ho, hp⟩ := he
  have hk : ∀ p ∈ ps, p.key ≠ b!"Contents" := by
    intro p hm e
    unfold valueOf at hv
    rw [Option.map_eq_none_iff, List.find?_eq_none] at hv
    exact hv p hm (by simpa using e)
  obtain ⟨rs', it', h1, h2, h3⟩ := crawlLoop_without (objs := objs) (key := b!"Contents") (rec := crawlNext objs []) (i := page) (own := .nil) ps hk
    (by simp : ([(page, Items.nil)] : Results).lookup page = some .nil) (by simp [Items.Flat]) rfl
  refine ⟨rs', ?_, ?_⟩
  · unfold crawlRun
    rw [getObj_only ho]
    simp only [crawlNext, hp, List.isEmpty_nil]
    rw [show crawlLoop objs b!"Contents" true (fun _ _ x => (x, Items.nil, Res.ok ())) (some page) ps [(page, .nil)] .nil = (rs', .nil, .ok ()) from h1]
  · rw [h2]
    unfold contentsID
    rw [show ((some it').getD Items.nil) = it' from rfl, h3]

theorem contentReplaces_bare {unzip : Bytes → Option Bytes} {objs : List Obj} {f g : Nat → Option Bytes} : ∀ {ids : List Int} {k : Nat} {m : List (Int × Bytes)},
    (∀ j id, ids[j]? = some id → f (k + j + 1) = g (k + j + 1) ∨ ∃ ps, Entries objs id ps ∧ valueOf ps b!"Contents" = none) →
    contentReplaces unzip objs f k ids m = contentReplaces unzip objs g k ids m
  | [], _, _, _ => rfl
  | id :: ids, k, m, h => by
    have h2 : ∀ m, contentReplaces unzip objs f (k + 1) ids m = contentReplaces unzip objs g (k + 1) ids m := fun m =>
      contentReplaces_bare (fun j i hj => by
        have := h (j + 1) i (by simpa using hj)
        rwa [show k + (j + 1) + 1 = k + 1 + j + 1 by omega] at this)
    rw [contentReplaces, contentReplaces]
    rcases h 0 id (by simp) with h1 | ⟨ps, he, hv⟩
    · rw [show k + 0 + 1 = k + 1 from rfl] at h1
      simp only [h1, h2]
    · obtain ⟨rs, e1, e2⟩ := crawl_bare he hv
      simp only [e1, Res.ok_bind, e2, h2]

/-- **C97** (violated for every page without content of every document): what is drawn on such a page is lost; saving is the same as without it, and does not fail because of it. -/
theorem C97_refuted_bare_all {unzip : Bytes → Option Bytes} {d : Doc} {ids : List Int} (hids : getPageObjIDs d = .ok ids) (pre post : List (Int × Bytes)) {k : Nat} {page : Int} (hk : ids[k]? = some page)
    {ps : Props} (he : Entries d.objs page ps) (hv : valueOf ps b!"Contents" = none) (s : Bytes) :
    injectContent unzip d (pre ++ (((k + 1 : Nat) : Int), s) :: post) = injectContent unzip d (pre ++ post) := by
  unfold injectContent
  simp only [hids, Res.ok_bind]
  rw [contentReplaces_bare (fun j id hj => ?_)]
  by_cases hjk : j = k
  · subst hjk
    rw [hk] at hj
    cases hj
    exact Or.inr ⟨ps, he, hv⟩
  · left
    unfold pageBuff
    have hj : ¬ ((k + 1 : Nat) : Int) = ((0 + j + 1 : Nat) : Int) := by omega
    simp only [List.filter_append, List.filter_cons, decide_eq_true_eq, hj, if_false]

set_option maxRecDepth 20000 in
/-- the second page of the sample -/
example : getPageObjIDs (openedApp (fileOf bareSecond)).doc = .ok [3, 5] ∧
    (entriesOf (openedApp (fileOf bareSecond)).doc.objs 5).map (fun ps => valueOf ps b!"Contents") = some none := by
  decide +kernel

end Verif
