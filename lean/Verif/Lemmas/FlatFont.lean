import Verif.Lemmas.Flat
import Verif.Inject
import Verif.Theorems.Contents
/-
Injecting fonts into a flat document.
-/
namespace Verif
open Spec

/-! ### words that do not occur in written items -/

/-- the word is neither in a key nor in a value -/
def Items.Lack (w : Bytes) : Items → Prop
  | .nil => True
  | .str k v r => ¬ w <:+: (47 :: k) ∧ ¬ w <:+: v ∧ r.Lack w
  | .sub k s r => ¬ w <:+: (47 :: k) ∧ s.Lack w ∧ r.Lack w
  | .void k r => ¬ w <:+: (47 :: k) ∧ r.Lack w

/-- a word without blanks and angle brackets -/
def Word (w : Bytes) : Prop := w ≠ [] ∧ ∀ d ∈ ([32, 10, 9, 60, 62] : Bytes), d ∉ w

theorem Items.Lack.string {w : Bytes} (hw : Word w) : ∀ {it : Items}, it.Lack w → ¬ w <:+: it.string
  | .nil, _, h => hw.1 (List.eq_nil_of_infix_nil h)
  | .str k v r, ⟨h1, h2, h3⟩, h => by
    have e : (Items.str k v r).string = (47 :: k) ++ 32 :: ((if trimSpace v ≠ [] then v ++ b!"\n" else []) ++ r.string) := by simp [Items.string]
    rw [e] at h
    rcases infix_split (hw.2 32 (by simp)) h with h | h
    · exact h1 h
    · split at h
      · rw [List.append_assoc] at h
        rcases infix_split (hw.2 10 (by simp)) h with h | h
        · exact h2 h
        · exact Items.Lack.string hw h3 h
      · exact Items.Lack.string hw h3 h
  | .sub k s r, ⟨h1, h2, h3⟩, h => by
    have e : (Items.sub k s r).string = (47 :: k) ++ 32 :: (10 :: 9 :: 60 :: 60 :: (s.string ++ 62 :: (62 :: 10 :: r.string))) := by simp [Items.string]
    rw [e] at h
    rcases infix_split (hw.2 32 (by simp)) h with h | h
    · exact h1 h
    · have h := infix_cons_of_not_mem (hw.2 60 (by simp)) (infix_cons_of_not_mem (hw.2 60 (by simp)) (infix_cons_of_not_mem (hw.2 9 (by simp))
        (infix_cons_of_not_mem (hw.2 10 (by simp)) h)))
      rcases infix_split (hw.2 62 (by simp)) h with h | h
      · exact Items.Lack.string hw h2 h
      · exact Items.Lack.string hw h3 (infix_cons_of_not_mem (hw.2 10 (by simp)) (infix_cons_of_not_mem (hw.2 62 (by simp)) h))
  | .void k r, ⟨h1, h2⟩, h => by
    have e : (Items.void k r).string = (47 :: k) ++ 32 :: r.string := by simp [Items.string]
    rw [e] at h
    rcases infix_split (hw.2 32 (by simp)) h with h | h
    · exact h1 h
    · exact Items.Lack.string hw h2 h

theorem Items.Lack.append {w : Bytes} : ∀ {a b : Items}, a.Lack w → b.Lack w → (a.append b).Lack w
  | .nil, _, _, h => h
  | .str _ _ _, _, ⟨h1, h2, h3⟩, h => ⟨h1, h2, Items.Lack.append h3 h⟩
  | .sub _ _ _, _, ⟨h1, h2, h3⟩, h => ⟨h1, h2, Items.Lack.append h3 h⟩
  | .void _ _, _, ⟨h1, h2⟩, h => ⟨h1, Items.Lack.append h2 h⟩

theorem Items.Lack.setValOf {w k v : Bytes} (hv : ¬ w <:+: v) : ∀ {a : Items}, a.Lack w → (a.setValOf k v).Lack w
  | .nil, _ => trivial
  | .str k' v' r, ⟨h1, h2, h3⟩ => by
    simp only [Items.setValOf]
    split
    · exact ⟨h1, hv, h3⟩
    · exact ⟨h1, h2, Items.Lack.setValOf hv h3⟩
  | .sub _ _ _, ⟨h1, h2, h3⟩ => ⟨h1, Items.Lack.setValOf hv h2, h3⟩
  | .void _ _, ⟨h1, h2⟩ => ⟨h1, Items.Lack.setValOf hv h2⟩

theorem lack_cat {w : Bytes} : ∀ {l : List Items}, (∀ x ∈ l, x.Lack w) → (cat l).Lack w
  | [], _ => trivial
  | x :: t, h => (h x (by simp)).append (lack_cat (fun y hy => h y (by simp [hy])))

theorem lack_strs {w : Bytes} : ∀ {ps : Props}, (∀ p ∈ ps, ¬ w <:+: (47 :: p.key) ∧ ¬ w <:+: p.rawVal) → (strs ps).Lack w
  | [], _ => trivial
  | p :: t, h => ⟨(h p (by simp)).1, (h p (by simp)).2, lack_strs (fun q hq => h q (by simp [hq]))⟩

theorem regular_not {k : Bytes} (h : ∀ c ∈ k, Regular c) : (47 : UInt8) ∉ k := fun hc => (h 47 hc).2.2.1 rfl

/-- a name does not begin a key -/
theorem lack_key {nm k : Bytes} (hk : (47 : UInt8) ∉ k) (h : k.take nm.length ≠ nm) : ¬ (47 :: nm) <:+: (47 :: k) := by
  intro hi
  obtain ⟨a, b, e⟩ := hi
  cases a with
  | nil =>
    simp only [List.nil_append, List.cons_append, List.cons.injEq, true_and] at e
    exact h (by rw [← e]; simp)
  | cons c a =>
    simp only [List.cons_append, List.cons.injEq] at e
    exact hk (by rw [← e.2]; simp)

theorem lacksName_strs {nm : Bytes} {ps : Props} (ht : Tidy ps) (h : LacksName nm ps) : (strs ps).Lack (47 :: nm) :=
  lack_strs (fun p hp => ⟨lack_key (regular_not (ht p hp).1) (h p hp).1, lacks_iff.1 (h p hp).2⟩)

theorem streamWord : Word streamKw := by
  constructor
  · decide
  · decide

theorem lacksStream_strs {ps : Props} (ht : Tidy ps) : (strs ps).Lack streamKw :=
  lack_strs (fun p hp => ⟨fun h => lacks_iff.1 (ht p hp).2.2.1 (infix_cons_of_not_mem (by decide) h), lacks_iff.1 (ht p hp).2.2.2⟩)

/-! ### the page crawl -/

variable {k : Bytes} {objs : List Obj} {root tree : Int} {ct node : Props} {pages : List FlatPage}

theorem pageG_eq {g : FlatPage} (p : PropD) : pageG g p = .str p.key p.rawVal .nil ∨ ∃ r, g.res = some r ∧ r.place = none ∧ p.key = b!"Resources" ∧ pageG g p = .sub p.key (strs r.entries) .nil := by
  unfold pageG
  split
  · split
    · exact Or.inl rfl
    · split
      · exact Or.inl rfl
      · rename_i hk _ r hr _ hp
        exact Or.inr ⟨r, hr, hp, hk, rfl⟩
  · exact Or.inl rfl

theorem resEntries {g : FlatPage} (hg : g.Ok objs k) {r : ResInfo} (hr : g.res = some r) :
    Tidy r.entries ∧ Sound objs k r.entries ∧ LacksName b!"Pages" r.entries ∧ ∃ v, OnlyKey g.entries b!"Resources" v ∧ DictAt objs v r.place r.entries := by
  have h := hg.res
  rw [hr] at h
  obtain ⟨v, h1, h2, h3, h4⟩ := h
  exact ⟨h2.1, h3, h4, v, h1, h2⟩

theorem pageItems_lack {g : FlatPage} (hg : g.Ok objs k) {w : Bytes} (h1 : (strs g.entries).Lack w) (h2 : ∀ r, g.res = some r → (strs r.entries).Lack w) : (pageItems g).Lack w := by
  refine lack_cat (fun x hx => ?_)
  obtain ⟨p, hp, rfl⟩ := List.mem_map.1 hx
  have hkv : ∀ {ps : Props}, (strs ps).Lack w → ∀ p ∈ ps, ¬ w <:+: (47 :: p.key) ∧ ¬ w <:+: p.rawVal := by
    intro ps
    induction ps with
    | nil => simp
    | cons q t ih =>
      rintro ⟨a, b, c⟩ p hp
      rcases List.mem_cons.1 hp with rfl | hp
      · exact ⟨a, b⟩
      · exact ih c p hp
  obtain ⟨a, b⟩ := hkv h1 p hp
  rcases pageG_eq (g := g) p with e | ⟨r, hr, _, _, e⟩
  · rw [e]; exact ⟨a, b, trivial⟩
  · rw [e]; exact ⟨a, h2 r hr, trivial⟩

theorem copies_mem {n : Nat} {qs : Props} {p : PropD} (h : p ∈ copies n qs) : p ∈ qs := by
  obtain ⟨l, hl, hp⟩ := List.mem_flatten.1 h
  rw [List.eq_of_mem_replicate hl] at hp
  exact hp

theorem copies_tidy {n : Nat} {qs : Props} (h : Tidy qs) : Tidy (copies n qs) := fun p hp => h p (copies_mem hp)

theorem parentWord : Word b!"/Parent" := by constructor <;> decide
theorem pagesWord : Word b!"/Pages" := by constructor <;> decide

theorem contains_false {w s : Bytes} (hw : w ≠ []) (h : ¬ w <:+: s) : contains w s = false := by
  unfold contains
  rw [(index_none_iff hw).2 h]; rfl

/-- no result makes the crawl start again -/
theorem flatResults_once (h : FlatDoc k objs root tree ct node pages) {rs : Results} (hr : FlatResults k root tree ct node pages rs) : ∀ p ∈ rs,
    ¬ (contains b!"/Pages" p.2.string ∧ contains b!"/Parent" p.2.string) := by
  intro p hp
  rcases hr.only p hp with rfl | rfl | ⟨g, hg, rfl⟩ | ⟨g, hg, r, h1, h2, h3⟩ | ⟨_, h1⟩
  · rw [contains_false (w := b!"/Parent") (by simp) (Items.Lack.string parentWord (lacksName_strs h.catTidy h.catPlain.2))]
    simp
  · rw [contains_false (w := b!"/Parent") (by simp) (Items.Lack.string parentWord (lacksName_strs h.nodeTidy h.nodePlain.2))]
    simp
  · have hok := h.pagesOk g hg
    rw [contains_false (w := b!"/Pages") (by simp) (Items.Lack.string pagesWord (pageItems_lack hok (lacksName_strs hok.tidy hok.noPages) (fun r hr => by
      obtain ⟨a, _, b, _⟩ := resEntries hok hr
      exact lacksName_strs a b)))]
    simp
  · have hok := h.pagesOk g hg
    obtain ⟨a, _, b, _⟩ := resEntries hok h1
    rw [h3, contains_false (w := b!"/Pages") (by simp) (Items.Lack.string pagesWord (lacksName_strs (copies_tidy a) (fun q hq => b q (copies_mem hq))))]
    simp
  · rw [h1]
    simp [Items.string, contains, index]

theorem pageCrawlLoop_none {path : List Bytes} {rs : Results} (h : ∀ p ∈ rs, ¬ (contains b!"/Pages" p.2.string ∧ contains b!"/Parent" p.2.string)) :
    ∀ (ks : List Int), pageCrawlLoop objs path ks rs = .ok rs
  | [] => rfl
  | i :: t => by
    rw [pageCrawlLoop]
    rw [if_neg, pageCrawlLoop_none h t]
    cases hl : rs.lookup i with
    | none => simp [Items.string, contains, index]
    | some x =>
      have hm : (i, x) ∈ rs := by
        clear h
        induction rs with
        | nil => simp at hl
        | cons p t ih =>
          obtain ⟨j, y⟩ := p
          rw [List.lookup_cons] at hl
          by_cases e : i = j
          · subst e
            simp at hl
            simp [hl]
          · rw [beq_false_of_ne e] at hl
            exact List.mem_cons_of_mem _ (ih hl)
      exact h _ hm

theorem pageCrawl_flat (h : FlatDoc k objs root tree ct node pages) (σ : Shuffle) :
    ∃ rs, getPageCrawl σ objs root [b!"Kids", b!"Resources", k] = .ok rs ∧ FlatResults k root tree ct node pages rs := by
  obtain ⟨rs, h1, h2⟩ := crawl_flat h
  refine ⟨rs, ?_, h2⟩
  rw [getPageCrawl, h1]
  exact pageCrawlLoop_none (flatResults_once h h2) _

/-! ### values of the results -/

theorem Items.valOf_strs_append {key : Bytes} : ∀ {ps : Props}, (∀ p ∈ ps, p.key ≠ key) → ∀ (b : Items), ((strs ps).append b).valOf key = b.valOf key
  | [], _, _ => rfl
  | p :: t, h, b => by
    simp only [strs, Items.append, Items.valOf]
    rw [if_neg (h p (by simp)), Items.valOf_strs_append (fun q hq => h q (by simp [hq]))]

theorem Items.setValOf_strs_append {key v : Bytes} : ∀ {ps : Props}, (∀ p ∈ ps, p.key ≠ key) → ∀ (b : Items), ((strs ps).append b).setValOf key v = (strs ps).append (b.setValOf key v)
  | [], _, _ => rfl
  | p :: t, h, b => by
    simp only [strs, Items.append, Items.setValOf]
    rw [if_neg (h p (by simp)), Items.setValOf_strs_append (fun q hq => h q (by simp [hq]))]

theorem cat_pageG_plain {g : FlatPage} {ps : Props} (h : ∀ p ∈ ps, p.key ≠ b!"Resources") : cat (ps.map (pageG g)) = strs ps := by
  rw [← cat_strs]
  congr 1
  apply List.map_congr_left
  intro p hp
  rw [pageG, if_neg (h p hp)]

/-- the items of a page whose resources are in place -/
theorem pageItems_inline {g : FlatPage} {r : ResInfo} (hr : g.res = some r) (hp : r.place = none) {a b : Props} {v : Bytes} (he : g.entries = a ++ ⟨b!"Resources", v⟩ :: b)
    (ha : ∀ p ∈ a, p.key ≠ b!"Resources") (hb : ∀ p ∈ b, p.key ≠ b!"Resources") : pageItems g = (strs a).append (.sub b!"Resources" (strs r.entries) (strs b)) := by
  rw [pageItems, he, List.map_append, List.map_cons, cat_append, cat, cat_pageG_plain ha, cat_pageG_plain hb]
  rw [pageG, if_pos rfl, hr]
  simp only [hp]
  rfl

/-- the items of another page -/
theorem pageItems_other {g : FlatPage} (h : ∀ r, g.res = some r → r.place ≠ none) : pageItems g = strs g.entries := by
  rw [pageItems, ← cat_strs]
  congr 1
  apply List.map_congr_left
  intro p _
  rcases pageG_eq (g := g) p with e | ⟨r, hr, hp, _⟩
  · exact e
  · exact absurd hp (h r hr)

theorem plain_append {a b : Props} {key : Bytes} {p : PropD} (h : valueOf (a ++ p :: b) key = none) : (∀ q ∈ a, q.key ≠ key) ∧ p.key ≠ key ∧ ∀ q ∈ b, q.key ≠ key := by
  have := valueOf_none_iff.1 h
  exact ⟨fun q hq => this q (by simp [hq]), this p (by simp), fun q hq => this q (by simp [hq])⟩

theorem pageItems_valOf {g : FlatPage} (hg : g.Ok objs k) : (pageItems g).valOf k = (match g.res with
    | none => none
    | some r => if r.place = none then valueOf r.entries k else none) := by
  cases hr : g.res with
  | none => rw [pageItems_other (by simp [hr]), strs_valOf, hg.plain]
  | some r =>
    simp only
    by_cases hp : r.place = none
    · rw [if_pos hp]
      obtain ⟨_, _, _, v, hv, _⟩ := resEntries hg hr
      obtain ⟨a, b, he, ha, hb⟩ := onlyKey_split hv
      have hpl := hg.plain
      rw [he] at hpl
      rw [pageItems_inline hr hp he ha hb, Items.valOf_strs_append (plain_append hpl).1, Items.valOf, strs_valOf]
    · rw [if_neg hp, pageItems_other (by rw [hr]; rintro r' h; cases h; exact hp), strs_valOf, hg.plain]

theorem valueOf_append (a b : Props) (key : Bytes) : valueOf (a ++ b) key = (valueOf a key).or (valueOf b key) := by
  unfold valueOf
  rw [List.find?_append]
  cases a.find? (fun p => decide (p.key = key)) <;> rfl

theorem copies_valueOf {n : Nat} (hn : 1 ≤ n) (qs : Props) (key : Bytes) : valueOf (copies n qs) key = valueOf qs key := by
  obtain ⟨m, rfl⟩ : ∃ m, n = m + 1 := ⟨n - 1, by omega⟩
  rw [copies_succ, valueOf_append]
  cases h : valueOf qs key with
  | some v => rfl
  | none =>
    simp only [Option.none_or]
    rw [valueOf_none_iff] at h ⊢
    exact fun p hp => h p (copies_mem hp)

/-! ### the lists of fonts -/

/-- the result has these fonts, in place or in an object -/
def HasFonts (objs : List Obj) (it : Items) (place : Option Int) (fs : Props) : Prop := ∃ w, it.valOf b!"Font" = some w ∧ TidyVal w ∧ DictAt objs w place fs

theorem fontsOfResult_none {α : Type} {it : Items} (h : it.valOf b!"Font" = none) (arr : Res α) (use : PType → Int → List CrFont → Res α) :
    fontsOfResult objs it arr use = .ok none := by rw [fontsOfResult, h]

theorem fontsOfResult_inline {α : Type} {it : Items} {fs : Props} (h : HasFonts objs it none fs) (arr : Res α) (use : PType → Int → List CrFont → Res α) :
    fontsOfResult objs it arr use = (do
      let l ← crFontsOf fs
      let r ← use .object 0 l
      .ok (some r)) := by
  obtain ⟨w, h1, h2, _, h3, h4⟩ := h
  rw [fontsOfResult, h1]
  simp only
  rw [(inline_type h2 h3).1]
  simp only [parseCrFonts, h4, Res.ok_bind]

theorem fontsOfResult_ref {α : Type} {it : Items} {fs : Props} {i : Int} (h : HasFonts objs it (some i) fs) (arr : Res α) (use : PType → Int → List CrFont → Res α) :
    fontsOfResult objs it arr use = (do
      let l ← crFontsOf fs
      let r ← use .dictionary i l
      .ok (some r)) := by
  obtain ⟨w, h1, h2, _, h3, o, h4, h5⟩ := h
  rw [fontsOfResult, h1]
  simp only
  rw [(ref_type h2 h3).1]
  simp only [parseCrFonts, refOf_some h3, getObj_only h4, h5, Res.ok_bind, Res.ofOption]

theorem hasFonts_unique {it : Items} {place place' : Option Int} {fs fs' : Props} (h : HasFonts objs it place fs) (h' : HasFonts objs it place' fs') : place = place' ∧ fs = fs' := by
  obtain ⟨w, a1, a2, a3, a4⟩ := h
  obtain ⟨w', b1, b2, b3, b4⟩ := h'
  rw [a1] at b1
  cases b1
  cases place with
  | none =>
    cases place' with
    | none => have := a4.2.symm.trans b4.2; exact ⟨rfl, by simpa using this⟩
    | some j => exact absurd a4.1 (ref_type a2 b4.1).2.1
  | some i =>
    cases place' with
    | none => exact absurd b4.1 (ref_type a2 a4.1).2.1
    | some j =>
      have : i = j := by have := a4.1.symm.trans b4.1; simpa using this
      subst this
      exact ⟨rfl, a4.2.unique b4.2⟩

theorem maxFontIdx_ge (l : List CrFont) : ∀ x ∈ l, x.idx ≤ maxFontIdx l := by
  have key : ∀ (l : List CrFont) (m : Int), m ≤ l.foldl (fun m f => if f.idx > m then f.idx else m) m ∧
      ∀ x ∈ l, x.idx ≤ l.foldl (fun m f => if f.idx > m then f.idx else m) m := by
    intro l
    induction l with
    | nil => simp
    | cons f t ih =>
      intro m
      simp only [List.foldl_cons, List.mem_cons]
      obtain ⟨h1, h2⟩ := ih (if f.idx > m then f.idx else m)
      have h3 : m ≤ (if f.idx > m then f.idx else m) ∧ f.idx ≤ (if f.idx > m then f.idx else m) := by split <;> omega
      refine ⟨by omega, ?_⟩
      rintro x (rfl | hx)
      · omega
      · exact h2 x hx
  exact (key l 0).2

theorem findMax_spec : ∀ (l : List (Int × Items)) {m0 m : Int}, findMaxFontIndex objs l m0 = .ok m →
    (∀ p ∈ l, p.2.valOf b!"Font" = none ∨ ∃ place fs, HasFonts objs p.2 place fs) →
      m0 ≤ m ∧ ∀ p ∈ l, ∀ place fs, HasFonts objs p.2 place fs → ∃ lf, crFontsOf fs = .ok lf ∧ ∀ x ∈ lf, x.idx ≤ m
  | [], m0, m, h, _ => by
    simp only [findMaxFontIndex, Res.ok.injEq] at h
    subst h
    simp
  | (i, it) :: t, m0, m, h, hk => by
    rw [findMaxFontIndex] at h
    have hk' := fun p hp => hk p (List.mem_cons_of_mem _ hp)
    rcases hk (i, it) (by simp) with hn | ⟨place, fs, hf⟩
    · rw [fontsOfResult_none hn, Res.ok_bind] at h
      obtain ⟨h1, h2⟩ := findMax_spec t h hk'
      refine ⟨h1, ?_⟩
      intro p hp place fs hf
      rcases List.mem_cons.1 hp with rfl | hp
      · obtain ⟨w, hw, _⟩ := hf
        rw [hn] at hw
        simp at hw
      · exact h2 p hp place fs hf
    · have main : ∃ lf, crFontsOf fs = .ok lf ∧ m0 ≤ m ∧ maxFontIdx lf ≤ m ∧ ∀ p ∈ t, ∀ place fs, HasFonts objs p.2 place fs → ∃ lf, crFontsOf fs = .ok lf ∧ ∀ x ∈ lf, x.idx ≤ m := by
        have h' : ((do
            let l ← crFontsOf fs
            let r ← Res.ok (maxFontIdx l)
            Res.ok (some r)) : Res (Option Int)) >>= (fun r => match r with
              | some n => findMaxFontIndex objs t (if n > m0 then n else m0)
              | none => findMaxFontIndex objs t m0) = .ok m := by
          cases place with
          | none => rw [fontsOfResult_inline hf] at h; exact h
          | some i => rw [fontsOfResult_ref hf] at h; exact h
        rw [Res.bind_eq_ok] at h'
        obtain ⟨r, h1, h2⟩ := h'
        rw [Res.bind_eq_ok] at h1
        obtain ⟨lf, h3, h4⟩ := h1
        simp only [Res.ok_bind, Res.ok.injEq] at h4
        subst h4
        obtain ⟨h5, h6⟩ := findMax_spec t h2 hk'
        refine ⟨lf, h3, ?_, ?_, h6⟩
        · split at h5 <;> omega
        · split at h5 <;> omega
      obtain ⟨lf, h1, h2, h3, h4⟩ := main
      refine ⟨h2, ?_⟩
      intro p hp place' fs' hf'
      rcases List.mem_cons.1 hp with rfl | hp
      · obtain ⟨rfl, rfl⟩ := hasFonts_unique hf hf'
        exact ⟨lf, h1, fun x hx => le_trans (maxFontIdx_ge lf x hx) h3⟩
      · exact h4 p hp place' fs' hf'

theorem mapPut_keys {α : Type} (m : List (Int × α)) (i : Int) (v : α) : (mapPut m i v).map (·.1) = if i ∈ m.map (·.1) then m.map (·.1) else m.map (·.1) ++ [i] := by
  have hl : (m.lookup i).isSome ↔ i ∈ m.map (·.1) := by
    induction m with
    | nil => simp
    | cons p t ih =>
      obtain ⟨j, y⟩ := p
      rw [List.lookup_cons]
      by_cases h : i = j
      · subst h; simp
      · rw [beq_false_of_ne h]
        simp [ih, h]
  unfold mapPut
  by_cases h : i ∈ m.map (·.1)
  · rw [if_pos (hl.2 h), if_pos h, List.map_map]
    apply List.map_congr_left
    intro p _
    simp only [Function.comp]
    split
    · rename_i e; exact e.symm
    · rfl
  · rw [if_neg (fun e => h (hl.1 e)), if_neg h]; simp

theorem mapPut_nodup {α : Type} {m : List (Int × α)} (h : (m.map (·.1)).Nodup) (i : Int) (v : α) : ((mapPut m i v).map (·.1)).Nodup := by
  rw [mapPut_keys]
  split
  · exact h
  · rename_i hi
    rw [List.nodup_append]
    refine ⟨h, by simp, ?_⟩
    intro a ha b hb
    simp at hb
    rintro rfl
    exact hi (hb ▸ ha)

theorem mapPut_keys_mem {α : Type} {m : List (Int × α)} {i j : Int} {v : α} : j ∈ (mapPut m i v).map (·.1) ↔ j = i ∨ j ∈ m.map (·.1) := by
  rw [mapPut_keys]
  split
  · rename_i h
    constructor
    · exact Or.inr
    · rintro (rfl | h')
      · exact h
      · exact h'
  · simp only [List.mem_append, List.mem_singleton]
    tauto

/-- what is written for a result: object and text -/
def fontTarget (new : List CrFont) (p : Int × Items) (place : Option Int) (lf : List CrFont) : Int × Bytes :=
  match place with
  | none => (p.1, (p.2.setValOf b!"Font" (wrapDict (crFontsString (lf ++ new)))).string)
  | some i => (i, crFontsString (lf ++ new))

theorem fontReplaces_spec {new : List CrFont} {W : Int → Bytes → Prop} : ∀ (l : List (Int × Items)) {m reps : List (Int × Bytes)}, fontReplaces objs new l m = .ok reps →
    (∀ p ∈ l, p.2.valOf b!"Font" = none ∨ ∃ place fs, HasFonts objs p.2 place fs) →
    (∀ p ∈ l, ∀ place fs lf, HasFonts objs p.2 place fs → crFontsOf fs = .ok lf → W (fontTarget new p place lf).1 (fontTarget new p place lf).2) →
    (∀ q ∈ m, W q.1 q.2) → (m.map (·.1)).Nodup →
      (reps.map (·.1)).Nodup ∧ (∀ q ∈ reps, W q.1 q.2) ∧ (∀ i ∈ m.map (·.1), i ∈ reps.map (·.1)) ∧
      ∀ p ∈ l, ∀ place fs, HasFonts objs p.2 place fs → ∃ lf, crFontsOf fs = .ok lf ∧ (fontTarget new p place lf).1 ∈ reps.map (·.1)
  | [], m, reps, h, _, _, hm, hn => by
    simp only [fontReplaces, Res.ok.injEq] at h
    subst h
    exact ⟨hn, hm, fun _ h => h, by simp⟩
  | (i, it) :: t, m, reps, h, hk, hW, hm, hn => by
    rw [fontReplaces] at h
    have hk' := fun p hp => hk p (List.mem_cons_of_mem _ hp)
    have hW' := fun p hp => hW p (List.mem_cons_of_mem _ hp)
    rcases hk (i, it) (by simp) with h0 | ⟨place, fs, hf⟩
    · rw [fontsOfResult_none h0, Res.ok_bind] at h
      obtain ⟨h1, h2, h3, h4⟩ := fontReplaces_spec t h hk' hW' hm hn
      refine ⟨h1, h2, h3, ?_⟩
      intro p hp place fs hf
      rcases List.mem_cons.1 hp with rfl | hp
      · obtain ⟨w, hw, _⟩ := hf
        rw [h0] at hw
        simp at hw
      · exact h4 p hp place fs hf
    · have main : ∃ lf, crFontsOf fs = .ok lf ∧ fontReplaces objs new t (mapPut m (fontTarget new (i, it) place lf).1 (fontTarget new (i, it) place lf).2) = .ok reps := by
        cases place with
        | none =>
          rw [fontsOfResult_inline hf, Res.bind_eq_ok] at h
          obtain ⟨r, h1, h2⟩ := h
          rw [Res.bind_eq_ok] at h1
          obtain ⟨lf, h3, h4⟩ := h1
          simp only [if_true, Res.ok_bind, Res.ok.injEq] at h4
          subst h4
          exact ⟨lf, h3, h2⟩
        | some j =>
          rw [fontsOfResult_ref hf, Res.bind_eq_ok] at h
          obtain ⟨r, h1, h2⟩ := h
          rw [Res.bind_eq_ok] at h1
          obtain ⟨lf, h3, h4⟩ := h1
          simp only [reduceCtorEq, if_false, Res.ok_bind, Res.ok.injEq] at h4
          subst h4
          exact ⟨lf, h3, h2⟩
      obtain ⟨lf, h1, h2⟩ := main
      obtain ⟨a1, a2, a3, a4⟩ := fontReplaces_spec t h2 hk' hW' (fun q hq => by
        rcases mapPut_mem hq with rfl | hq
        · exact hW _ (by simp) place fs lf hf h1
        · exact hm q hq) (mapPut_nodup hn _ _)
      refine ⟨a1, a2, fun j hj => a3 j (mapPut_keys_mem.2 (Or.inr hj)), ?_⟩
      intro p hp place' fs' hf'
      rcases List.mem_cons.1 hp with rfl | hp
      · obtain ⟨rfl, rfl⟩ := hasFonts_unique hf hf'
        exact ⟨lf, h1, a3 _ (mapPut_keys_mem.2 (Or.inl rfl))⟩
      · exact a4 p hp place' fs' hf'

/-! ### the entries of a list of fonts -/

/-- entries of a font list -/
def fontProps (l : List CrFont) : Props := l.map (fun f => ⟨f.pfx ++ itoa f.idx, itoa f.objID ++ b!" 0 R"⟩)

theorem fontProps_append (a b : List CrFont) : fontProps (a ++ b) = fontProps a ++ fontProps b := by simp [fontProps]

/-- a name that can be written -/
def CrFontOk (f : CrFont) : Prop := (∀ c ∈ f.pfx, Regular c) ∧ ¬ streamKw <:+: f.pfx

theorem itoa_regular (n : Int) : ∀ c ∈ itoa n, Regular c := by
  intro c hc
  rcases itoa_bytes n c hc with h | rfl
  · rw [isDigit_iff] at h
    have h1 : 48 ≤ c.toNat := by have := h.1; exact this
    have h2 : c.toNat ≤ 57 := by have := h.2; exact this
    have hne : ∀ d : UInt8, (57 < d.toNat ∨ d.toNat < 48) → c ≠ d := by
      rintro d hd rfl
      omega
    exact ⟨show 32 < c.toNat by omega, show c.toNat < 127 by omega, hne _ (by decide), hne _ (by decide), hne _ (by decide), hne _ (by decide), hne _ (by decide)⟩
  · decide

theorem regular_printable {c : UInt8} (h : Regular c) : 32 ≤ c ∧ c < 127 := ⟨UInt8.le_of_lt h.1, h.2.1⟩

theorem not_infix_of_head {w b : Bytes} {d : UInt8} (hd : d ∈ w) (hb : d ∉ b) : ¬ w <:+: b := fun h => hb (h.subset hd)

/-- a value that refers to an object -/
theorem tidy_ref (n : Int) : TidyVal (itoa n ++ b!" 0 R") where
  printable := by
    intro c hc
    rcases List.mem_append.1 hc with h | h
    · exact regular_printable (itoa_regular n c h)
    · exact (by decide : ∀ c ∈ b!" 0 R", 32 ≤ c ∧ c < 127) c h
  first := by
    intro e
    obtain ⟨c, t, ht⟩ := List.exists_cons_of_ne_nil (itoa_ne_nil n)
    rw [ht] at e
    simp only [List.cons_append, List.head?_cons, Option.some.injEq] at e
    exact itoa_no_space n (by rw [ht, e]; simp)
  blanks := by
    intro t ht h32
    obtain ⟨u, hu⟩ := (List.mem_tails _ _).1 ht
    rcases List.append_eq_append_iff.1 hu with ⟨a, h1, h2⟩ | ⟨a, h1, h2⟩
    · cases a with
      | nil =>
        simp only [List.nil_append] at h2
        subst h2
        decide
      | cons c a =>
        rw [h2] at h32
        simp only [List.cons_append, List.head?_cons, Option.some.injEq] at h32
        exact absurd (by rw [h1, h32]; simp) (itoa_no_space n)
    · have ht' : t ∈ b!" 0 R".tails := (List.mem_tails _ _).2 ⟨a, h2.symm⟩
      exact (by decide : ∀ t ∈ b!" 0 R".tails, t.head? = some 32 → AfterBlank t.tail) t ht' h32
  shape := by
    left
    intro c hc
    rcases List.mem_append.1 hc with h | h
    · obtain ⟨_, _, a⟩ := itoa_regular n c h
      exact a
    · exact (by decide : ∀ c ∈ b!" 0 R", c ≠ 47 ∧ c ≠ 91 ∧ c ≠ 93 ∧ c ≠ 60 ∧ c ≠ 62) c h

theorem itoa_not {n : Int} {d : UInt8} (h : isDigit d = false) (h' : d ≠ 45) : d ∉ itoa n := by
  intro hm
  rcases itoa_bytes n d hm with e | e
  · rw [h] at e; simp at e
  · exact h' e

theorem infix_append_number {w a : Bytes} {n : Int} (hw : w ≠ []) (h1 : ∀ c ∈ w, isDigit c = false ∧ c ≠ 45) (h : w <:+: a ++ itoa n) : w <:+: a := by
  obtain ⟨c, t, ht⟩ := List.exists_cons_of_ne_nil (itoa_ne_nil n)
  have hc : c ∉ w := by
    intro hm
    exact itoa_not (n := n) (h1 c hm).1 (h1 c hm).2 (by rw [ht]; simp)
  rw [ht] at h
  rcases infix_split hc h with h | h
  · exact h
  · obtain ⟨d, u, rfl⟩ := List.exists_cons_of_ne_nil hw
    have : d ∈ t := h.subset (by simp)
    exact absurd (by rw [ht]; simp [this]) (itoa_not (n := n) (h1 d (by simp)).1 (h1 d (by simp)).2)

theorem fontProps_tidy {l : List CrFont} (h : ∀ f ∈ l, CrFontOk f) : Tidy (fontProps l) := by
  intro p hp
  obtain ⟨f, hf, rfl⟩ := List.mem_map.1 hp
  obtain ⟨h1, h2⟩ := h f hf
  refine ⟨?_, tidy_ref _, lacks_iff.2 ?_, lacks_iff.2 ?_⟩
  · intro c hc
    rcases List.mem_append.1 hc with hc | hc
    · exact h1 c hc
    · exact itoa_regular _ c hc
  · exact fun hi => h2 (infix_append_number (by decide) (by decide) hi)
  · apply not_infix_of_head (d := 115) (by decide)
    intro hm
    rcases List.mem_append.1 hm with hm | hm
    · exact itoa_not (by decide) (by decide) hm
    · exact absurd hm (by decide)

theorem crFontsString_eq (l : List CrFont) : crFontsString l = (strs (fontProps l)).string := by
  induction l with
  | nil => rfl
  | cons f t ih =>
    have e : crFontsString (f :: t) = b!"/" ++ f.pfx ++ itoa f.idx ++ b!" " ++ itoa f.objID ++ b!" 0 R\n" ++ crFontsString t := rfl
    rw [e, ih]
    simp only [fontProps, List.map_cons, strs, Items.string]
    rw [if_pos]
    · simp
    · rw [tidy_trim (tidy_ref _)]
      simp

theorem crFontsOf_ok {fs : Props} (ht : Tidy fs) : ∀ {lf : List CrFont}, crFontsOf fs = .ok lf → ∀ f ∈ lf, CrFontOk f := by
  induction fs with
  | nil =>
    intro lf h
    simp only [crFontsOf, Res.ok.injEq] at h
    subst h
    simp
  | cons p t ih =>
    intro lf h
    rw [crFontsOf, Res.bind_eq_ok] at h
    obtain ⟨⟨a, n⟩, h1, h⟩ := h
    rw [Res.bind_eq_ok] at h
    obtain ⟨id, _, h⟩ := h
    rw [Res.bind_eq_ok] at h
    obtain ⟨r, h2, h⟩ := h
    simp only [Res.ok.injEq] at h
    subst h
    intro f hf
    rcases List.mem_cons.1 hf with rfl | hf
    · obtain ⟨k1, _, k3, _⟩ := ht p (by simp)
      have htr : trimSpace p.key = p.key := trimSpace_plain (fun c hc => by
        have := printable_byte (regular_printable (k1 c hc))
        exact ⟨this.1, this.2.2.2.2 (fun e => absurd (k1 c hc).1 (by rw [e]; decide))⟩)
      rw [htr] at h1
      have hpre : a <+: p.key := by
        unfold splitFont at h1
        split at h1
        · simp at h1
        · simp only at h1
          split at h1
          · simp at h1
          · split at h1
            · simp only [Res.ok.injEq, Prod.mk.injEq] at h1
              rw [← h1.1]
              exact List.take_prefix _ _
            · simp at h1
      exact ⟨fun c hc => k1 c (hpre.subset hc), fun hi => lacks_iff.1 k3 (hi.trans hpre.isInfix)⟩
    · exact ih (Spec.Tidy.tail ht) h2 f hf

theorem newCrFonts_ok : ∀ (ids : List Int) (m : Int), ∀ f ∈ newCrFonts m ids, CrFontOk f
  | [], _, f, h => by simp [newCrFonts] at h
  | id :: t, m, f, h => by
    rcases List.mem_cons.1 h with rfl | h
    · exact ⟨(by decide : ∀ c ∈ b!"F", Regular c), (by decide : ¬ streamKw <:+: b!"F")⟩
    · exact newCrFonts_ok t (m + 1) f h

/-! ### reading written results back -/

theorem Reads.append {a b : Items} {ps qs : Props} (h : Reads a ps) (h' : Reads b qs) : Reads (a.append b) (ps ++ qs) := by
  induction h with
  | nil => exact h'
  | empty h1 h2 _ ih => exact .empty h1 h2 ih
  | str h1 h2 h3 _ ih => exact .str h1 h2 h3 ih
  | sub h1 h2 _ _ ih => exact .sub h1 h2 ih
  | void h1 _ ih => exact .void h1 ih

theorem setFirst_append {key n v : Bytes} {a b : Props} (ha : ∀ p ∈ a, p.key ≠ key) : setFirst key n (a ++ ⟨key, v⟩ :: b) = a ++ ⟨key, n⟩ :: b := by
  induction a with
  | nil => simp [setFirst]
  | cons p t ih =>
    simp only [List.cons_append, setFirst]
    rw [if_neg (ha p (by simp)), ih (fun q hq => ha q (by simp [hq]))]

theorem valueOf_split {ps : Props} {key v : Bytes} (h : valueOf ps key = some v) : ∃ a b, ps = a ++ ⟨key, v⟩ :: b ∧ ∀ p ∈ a, p.key ≠ key := by
  induction ps with
  | nil => simp [valueOf] at h
  | cons p t ih =>
    by_cases e : p.key = key
    · simp only [valueOf, List.find?_cons, e, decide_true, Option.map_some, Option.some.injEq] at h
      refine ⟨[], t, ?_, by simp⟩
      cases p
      simp only at e h
      subst e h
      rfl
    · have : valueOf t key = some v := by
        simpa [valueOf, List.find?_cons, e] using h
      obtain ⟨a, b, h1, h2⟩ := ih this
      refine ⟨p :: a, b, by rw [h1]; rfl, ?_⟩
      intro q hq
      rcases List.mem_cons.1 hq with rfl | hq
      · exact e
      · exact h2 q hq

theorem valueOf_mem {ps : Props} {key v : Bytes} (h : valueOf ps key = some v) : (⟨key, v⟩ : PropD) ∈ ps := by
  obtain ⟨a, b, rfl, _⟩ := valueOf_split h
  simp

theorem setFirst_valueOf {ps : Props} {key v n : Bytes} (h : valueOf ps key = some v) (key' : Bytes) :
    valueOf (setFirst key n ps) key' = if key' = key then some n else valueOf ps key' := by
  obtain ⟨a, b, rfl, ha⟩ := valueOf_split h
  rw [setFirst_append ha, valueOf_append, valueOf_append]
  split
  · rename_i e
    subst e
    rw [valueOf_none_iff.2 ha]
    simp [valueOf]
  · rename_i e
    have : ∀ x : Bytes, valueOf (⟨key, x⟩ :: b) key' = valueOf b key' := by
      intro x
      simp [valueOf, List.find?_cons, Ne.symm e]
    rw [this, this]

theorem setFirst_tidy {ps : Props} {key v n : Bytes} (ht : Tidy ps) (h : valueOf ps key = some v) (hn : TidyVal n) (hs : ¬ streamKw <:+: n) : Tidy (setFirst key n ps) := by
  obtain ⟨a, b, rfl, ha⟩ := valueOf_split h
  rw [setFirst_append ha]
  intro p hp
  simp only [List.mem_append, List.mem_cons] at hp
  rcases hp with hp | rfl | hp
  · exact ht p (by simp [hp])
  · obtain ⟨h1, _, h3, _⟩ := ht ⟨key, v⟩ (by simp)
    exact ⟨h1, hn, h3, lacks_iff.2 hs⟩
  · exact ht p (by simp [hp])

/-- a list of entries in which one value is written anew -/
theorem reads_set {ps : Props} {key v x n : Bytes} (ht : Tidy ps) (h : valueOf ps key = some v) (hx : trimSpace x ≠ []) (hw : WritesVal x n) :
    Reads ((strs ps).setValOf key x) (setFirst key n ps) := by
  obtain ⟨a, b, rfl, ha⟩ := valueOf_split h
  rw [setFirst_append ha, strs_append, Items.setValOf_strs_append ha]
  refine (reads_strs (fun p hp => ht p (by simp [hp]))).append ?_
  simp only [strs, Items.setValOf, if_true]
  exact .str (regular_keyOk (ht ⟨key, v⟩ (by simp)).1) hx hw (reads_strs (fun p hp => ht p (by simp [hp])))

/-- a page in whose resources one value is written anew -/
theorem reads_page {g : FlatPage} (hg : g.Ok objs k) {r : ResInfo} (hr : g.res = some r) (hp : r.place = none) {v x n : Bytes} (h : valueOf r.entries k = some v)
    (hx : trimSpace x ≠ []) (hw : WritesVal x n) : Reads ((pageItems g).setValOf k x) (setFirst b!"Resources" (dictVal (setFirst k n r.entries)) g.entries) := by
  obtain ⟨t1, _, _, u, hu, _⟩ := resEntries hg hr
  obtain ⟨a, b, he, ha, hb⟩ := onlyKey_split hu
  have hpl := hg.plain
  have ht := hg.tidy
  rw [he] at hpl ht
  rw [pageItems_inline hr hp he ha hb, he, setFirst_append ha, Items.setValOf_strs_append (plain_append hpl).1]
  refine (reads_strs (fun p hp => ht p (by simp [hp]))).append ?_
  simp only [Items.setValOf]
  exact .sub (regular_keyOk (ht ⟨_, u⟩ (by simp)).1) (reads_set t1 h hx hw) (reads_strs (fun p hp => ht p (by simp [hp])))

theorem wrapDict_writes {it : Items} {ps : Props} (h : Reads it ps) : WritesVal (wrapDict it.string) (dictVal ps) := by
  have := writesVal_dict h (a := [10]) (b := [10]) (by decide) (by decide)
  have e : wrapDict it.string = b!"<<" ++ [10] ++ it.string ++ b!">>" ++ [10] := by simp [wrapDict]
  rw [e]
  exact this

theorem wrapDict_trim (s : Bytes) : trimSpace (wrapDict s) ≠ [] := by
  have e : wrapDict s = [] ++ ((b!"<<\n" ++ s ++ b!">") ++ [62]) ++ [10] := by simp [wrapDict]
  rw [e, trimSpace_ends (c := 60) (e := 62) (by simp) (by decide) (by simp) List.getLast?_concat (by decide) (by decide) (by decide) (by decide)]
  simp

theorem wrapDict_lack {w s : Bytes} (hw : Word w) (h : ¬ w <:+: s) : ¬ w <:+: wrapDict s := by
  intro hi
  have e : wrapDict s = 60 :: 60 :: 10 :: (s ++ 62 :: (62 :: [10])) := by simp [wrapDict]
  rw [e] at hi
  have hi := infix_cons_of_not_mem (hw.2 10 (by simp)) (infix_cons_of_not_mem (hw.2 60 (by simp)) (infix_cons_of_not_mem (hw.2 60 (by simp)) hi))
  rcases infix_split (hw.2 62 (by simp)) hi with hi | hi
  · exact h hi
  · have := infix_cons_of_not_mem (hw.2 10 (by simp)) (infix_cons_of_not_mem (hw.2 62 (by simp)) hi)
    exact hw.1 (List.eq_nil_of_infix_nil this)

/-! ### the document with the fonts -/

/-- the fonts of a resource dictionary, in place or in an object -/
def Spec.FontAt (objs : List Obj) (r : ResInfo) (place : Option Int) (fs : Props) : Prop := ∃ w, valueOf r.entries b!"Font" = some w ∧ DictAt objs w place fs

/-- the fonts of the pages can be read -/
def Spec.FontsReadable (objs : List Obj) (pages : List FlatPage) : Prop :=
  ∀ g ∈ pages, ∀ r, g.res = some r → valueOf r.entries b!"Font" = none ∨ ∃ place fs, FontAt objs r place fs

theorem fontAt_unique {r : ResInfo} (ht : Tidy r.entries) {place place' : Option Int} {fs fs' : Props} (h : FontAt objs r place fs) (h' : FontAt objs r place' fs') :
    place = place' ∧ fs = fs' := by
  have conv : ∀ {place : Option Int} {fs : Props}, FontAt objs r place fs → HasFonts objs (strs r.entries) place fs := by
    rintro place fs ⟨w, h1, h2⟩
    exact ⟨w, by rw [strs_valOf, h1], mem_tidy ht (valueOf_mem h1), h2⟩
  exact hasFonts_unique (conv h) (conv h')

/-- objects that are written anew: pages with fonts in place, resource objects with fonts in place, and font lists -/
def Rewritten (objs : List Obj) (pages : List FlatPage) (i : Int) : Prop :=
  (∃ g ∈ pages, i = g.id ∧ ∃ r fs, g.res = some r ∧ r.place = none ∧ FontAt objs r none fs) ∨
  (∃ g ∈ pages, ∃ r fs, g.res = some r ∧ r.place = some i ∧ FontAt objs r none fs) ∨
  (∃ g ∈ pages, ∃ r fs, g.res = some r ∧ FontAt objs r (some i) fs)

/-- the new objects of a document with fonts -/
structure FontsInjected (objs objs' : List Obj) (pages : List FlatPage) (new : List CrFont) (m : Int) : Prop where
  low : 0 ≤ m ∧ ∀ g ∈ pages, ∀ r place fs, g.res = some r → FontAt objs r place fs → ∃ lf, crFontsOf fs = .ok lf ∧ ∀ x ∈ lf, x.idx ≤ m
  page : ∀ g ∈ pages, ∀ r fs lf, g.res = some r → r.place = none → FontAt objs r none fs → crFontsOf fs = .ok lf →
    Entries objs' g.id (setFirst b!"Resources" (dictVal (setFirst b!"Font" (dictVal (fontProps (lf ++ new))) r.entries)) g.entries)
  res : ∀ g ∈ pages, ∀ r fs lf i, g.res = some r → r.place = some i → FontAt objs r none fs → crFontsOf fs = .ok lf →
    Entries objs' i (setFirst b!"Font" (dictVal (fontProps (lf ++ new))) (copies (sharers pages i) r.entries))
  obj : ∀ g ∈ pages, ∀ r fs lf i, g.res = some r → FontAt objs r (some i) fs → crFontsOf fs = .ok lf → Entries objs' i (fontProps (lf ++ new))
  frame : ∀ i, ¬ Rewritten objs pages i → objs'.filter (fun x => decide (x.objID = i)) = objs.filter (fun x => decide (x.objID = i))

/-- the fonts of a result of the crawl -/
theorem flatFonts (h : FlatDoc b!"Font" objs root tree ct node pages) (hr : FontsReadable objs pages) {rs : Results} (hrs : FlatResults b!"Font" root tree ct node pages rs) :
    (∀ p ∈ rs, p.2.valOf b!"Font" = none ∨ ∃ place fs, HasFonts objs p.2 place fs) ∧
    (∀ p ∈ rs, ∀ place fs, HasFonts objs p.2 place fs →
      (∃ g ∈ pages, ∃ r, p = (g.id, pageItems g) ∧ g.res = some r ∧ r.place = none ∧ FontAt objs r place fs) ∨
      (∃ g ∈ pages, ∃ r, p.2 = strs (copies (sharers pages p.1) r.entries) ∧ g.res = some r ∧ r.place = some p.1 ∧ FontAt objs r place fs)) := by
  constructor
  · intro p hp
    rcases hrs.only p hp with rfl | rfl | ⟨g, hg, rfl⟩ | ⟨g, hg, r, h1, h2, h3⟩ | ⟨_, h1⟩
    · exact Or.inl (by rw [strs_valOf]; exact h.catPlain.1)
    · exact Or.inl (by rw [strs_valOf]; exact h.nodePlain.1)
    · have hok := h.pagesOk g hg
      simp only
      rw [pageItems_valOf hok]
      cases hres : g.res with
      | none => exact Or.inl rfl
      | some r =>
        simp only
        by_cases hpl : r.place = none
        · rw [if_pos hpl]
          rcases hr g hg r hres with e | ⟨place, fs, w, h1, h2⟩
          · exact Or.inl e
          · right
            refine ⟨place, fs, w, ?_, mem_tidy (resEntries hok hres).1 (valueOf_mem h1), h2⟩
            rw [pageItems_valOf hok, hres]
            simp only [hpl, if_true]
            exact h1
        · rw [if_neg hpl]; exact Or.inl rfl
    · have hok := h.pagesOk g hg
      have hn := sharers_pos hg h1 h2
      rw [h3, strs_valOf, copies_valueOf hn]
      rcases hr g hg r h1 with e | ⟨place, fs, w, h4, h5⟩
      · exact Or.inl e
      · right
        exact ⟨place, fs, w, by rw [strs_valOf, copies_valueOf hn, h4], mem_tidy (resEntries hok h1).1 (valueOf_mem h4), h5⟩
    · rw [h1]; exact Or.inl rfl
  · rintro p hp place fs ⟨w, hw, _, hd⟩
    rcases hrs.only p hp with rfl | rfl | ⟨g, hg, rfl⟩ | ⟨g, hg, r, h1, h2, h3⟩ | ⟨_, h1⟩
    · rw [strs_valOf, h.catPlain.1] at hw; simp at hw
    · rw [strs_valOf, h.nodePlain.1] at hw; simp at hw
    · have hok := h.pagesOk g hg
      simp only at hw
      rw [pageItems_valOf hok] at hw
      cases hres : g.res with
      | none => rw [hres] at hw; simp at hw
      | some r =>
        rw [hres] at hw
        simp only at hw
        by_cases hpl : r.place = none
        · rw [if_pos hpl] at hw
          exact Or.inl ⟨g, hg, r, rfl, hres, hpl, w, hw, hd⟩
        · rw [if_neg hpl] at hw; simp at hw
    · rw [h3, strs_valOf, copies_valueOf (sharers_pos hg h1 h2)] at hw
      exact Or.inr ⟨g, hg, r, h3, h1, h2, w, hw, hd⟩
    · rw [h1] at hw; simp [Items.valOf] at hw

theorem fontAt_ref {g : FlatPage} {r : ResInfo} (hr : g.res = some r) {i : Int} {fs : Props} (h : FontAt objs r (some i) fs) : i ∈ g.refs b!"Font" := by
  obtain ⟨w, h1, _, h2, _⟩ := h
  exact mem_refs hr (valueOf_mem h1) rfl h2

theorem entries_of_only {objs : List Obj} {i : Int} {o : Obj} {data : Bytes} {ps : Props} (h : OnlyObj objs i { o with data := data }) (hd : readProperties data = .ok ps) :
    Entries objs i ps := ⟨_, h, hd⟩

theorem entries_frame {objs' : List Obj} {i : Int} (h : objs'.filter (fun x => decide (x.objID = i)) = objs.filter (fun x => decide (x.objID = i))) {ps : Props} (he : Entries objs i ps) :
    Entries objs' i ps := by
  obtain ⟨o, h1, h2⟩ := he
  exact ⟨o, by unfold OnlyObj at h1 ⊢; rw [h, h1], h2⟩

theorem injectFonts_flat {σ : Nat → Shuffle} {d d' : Doc} {ids : List Int} {new : List CrFont} (h : FlatDoc b!"Font" d.objs d.rootObjID tree ct node pages)
    (hr : FontsReadable d.objs pages) (hok : injectFonts σ d ids = .ok (d', new)) :
    ∃ m, new = newCrFonts m ids ∧ FontsInjected d.objs d'.objs pages new m ∧ d' = { d with objs := d'.objs } := by
  unfold injectFonts at hok
  obtain ⟨rs, hc, hrs⟩ := pageCrawl_flat h (σ 10)
  rw [hc, Res.ok_bind, Res.bind_eq_ok] at hok
  obtain ⟨m, hm, hok⟩ := hok
  simp only at hok
  rw [Res.bind_eq_ok] at hok
  obtain ⟨reps, hreps, hok⟩ := hok
  rw [Res.bind_eq_ok] at hok
  obtain ⟨objs', hap, hok⟩ := hok
  simp only [Res.ok.injEq, Prod.mk.injEq] at hok
  obtain ⟨rfl, rfl⟩ := hok
  refine ⟨m, rfl, ?_, rfl⟩
  obtain ⟨hkind, hsrc⟩ := flatFonts h hr hrs
  have hmem : ∀ (j : Nat) p, p ∈ (σ j).fn rs ↔ p ∈ rs := fun j p => ((σ j).perm rs).mem_iff
  obtain ⟨hm0, hlow⟩ := findMax_spec _ hm (fun p hp => hkind p ((hmem 11 p).1 hp))
  -- what is written where
  obtain ⟨W, hW⟩ : ∃ W : Int → Bytes → Prop, W = fun i s => ∃ p ∈ rs, ∃ place fs lf, HasFonts d.objs p.2 place fs ∧ crFontsOf fs = .ok lf ∧
      fontTarget (newCrFonts m ids) p place lf = (i, s) := ⟨_, rfl⟩
  obtain ⟨hn, hall, _, hcov⟩ := fontReplaces_spec (W := W) _ hreps (fun p hp => hkind p ((hmem 12 p).1 hp))
    (fun p hp place fs lf a b => by rw [hW]; exact ⟨p, (hmem 12 p).1 hp, place, fs, lf, a, b, rfl⟩) (by simp) (by simp)
  have happ : ∀ p ∈ rs, ∀ place fs, HasFonts d.objs p.2 place fs → ∀ g' ∈ pages, ∀ i ∈ g'.refs b!"Font", p.1 ≠ i := by
    intro p hp place fs hf g' hg' i hi e
    obtain ⟨ha, hb⟩ := h.refsApart g' hg' i hi
    rcases hsrc p hp place fs hf with ⟨g, hg, r, rfl, h1, h2, h3⟩ | ⟨g, hg, r, _, h1, h2, h3⟩
    · exact ha (by simp only [List.mem_cons]; exact Or.inr (Or.inr (e ▸ List.mem_map_of_mem hg)))
    · exact hb g hg (by rw [FlatPage.resPlace, h1, ← e]; exact h2)
  have hrefs : ∀ p ∈ rs, ∀ i fs, HasFonts d.objs p.2 (some i) fs → ∃ g ∈ pages, i ∈ g.refs b!"Font" := by
    intro p hp i fs hf
    rcases hsrc p hp (some i) fs hf with ⟨g, hg, r, _, h1, _, h3⟩ | ⟨g, hg, r, _, h1, _, h3⟩
    · exact ⟨g, hg, fontAt_ref h1 h3⟩
    · exact ⟨g, hg, fontAt_ref h1 h3⟩
  have hfun : ∀ i s s', W i s → W i s' → s = s' := by
    intro i s s' h1 h2
    rw [hW] at h1 h2
    obtain ⟨p, hp, place, fs, lf, a1, a2, a3⟩ := h1
    obtain ⟨q, hq, place', fs', lf', b1, b2, b3⟩ := h2
    cases place with
    | none =>
      cases place' with
      | none =>
        simp only [fontTarget, Prod.mk.injEq] at a3 b3
        have : p = q := by
          obtain ⟨p1, p2⟩ := p
          obtain ⟨q1, q2⟩ := q
          simp only at a3 b3
          obtain ⟨rfl, _⟩ := a3
          obtain ⟨rfl, _⟩ := b3
          have e1 := (lookup_of_mem hrs.nodup).2 hp
          have e2 := (lookup_of_mem hrs.nodup).2 hq
          rw [e1] at e2
          rw [Option.some.inj e2]
        subst this
        obtain ⟨_, rfl⟩ := hasFonts_unique a1 b1
        rw [a2] at b2
        cases b2
        rw [← a3.2, ← b3.2]
      | some j =>
        simp only [fontTarget, Prod.mk.injEq] at a3 b3
        obtain ⟨g, hg, hi⟩ := hrefs q hq j fs' b1
        exact absurd (a3.1.trans b3.1.symm) (happ p hp none fs a1 g hg j hi)
    | some j =>
      cases place' with
      | none =>
        simp only [fontTarget, Prod.mk.injEq] at a3 b3
        obtain ⟨g, hg, hi⟩ := hrefs p hp j fs a1
        exact absurd (b3.1.trans a3.1.symm) (happ q hq none fs' b1 g hg j hi)
      | some j' =>
        simp only [fontTarget, Prod.mk.injEq] at a3 b3
        obtain ⟨rfl, rfl⟩ := a3
        obtain ⟨rfl, rfl⟩ := b3
        obtain ⟨_, _, _, c1⟩ := a1
        obtain ⟨_, _, _, c2⟩ := b1
        obtain rfl := dictAt_unique c1 c2
        rw [a2] at b2
        cases b2
        rfl
  have hin : ∀ p ∈ rs, ∀ place fs lf, HasFonts d.objs p.2 place fs → crFontsOf fs = .ok lf → fontTarget (newCrFonts m ids) p place lf ∈ reps := by
    intro p hp place fs lf a1 a2
    obtain ⟨lf', b1, b2⟩ := hcov p ((hmem 12 p).2 hp) place fs a1
    rw [a2] at b1
    cases b1
    obtain ⟨q, hq, e⟩ := List.mem_map.1 b2
    have hw1 := hall q hq
    have hw2 : W (fontTarget (newCrFonts m ids) p place lf).1 (fontTarget (newCrFonts m ids) p place lf).2 := by
      rw [hW]; exact ⟨p, hp, place, fs, lf, a1, a2, rfl⟩
    rw [← e] at hw2
    have := hfun _ _ _ hw1 hw2
    have : q = fontTarget (newCrFonts m ids) p place lf := Prod.ext e this
    rw [← this]; exact hq
  -- the objects written
  have hkey : ∀ i ∈ reps.map (·.1), Rewritten d.objs pages i := by
    intro i hi
    obtain ⟨q, hq, rfl⟩ := List.mem_map.1 hi
    have := hall q hq
    rw [hW] at this
    obtain ⟨p, hp, place, fs, lf, a1, a2, a3⟩ := this
    rcases hsrc p hp place fs a1 with ⟨g, hg, r, rfl, h1, h2, h3⟩ | ⟨g, hg, r, _, h1, h2, h3⟩
    · cases place with
      | none =>
        simp only [fontTarget, Prod.mk.injEq] at a3
        exact Or.inl ⟨g, hg, a3.1.symm, r, fs, h1, h2, h3⟩
      | some j =>
        simp only [fontTarget, Prod.mk.injEq] at a3
        exact Or.inr (Or.inr ⟨g, hg, r, fs, h1, a3.1 ▸ h3⟩)
    · cases place with
      | none =>
        simp only [fontTarget, Prod.mk.injEq] at a3
        exact Or.inr (Or.inl ⟨g, hg, r, fs, h1, by rw [h2, a3.1], h3⟩)
      | some j =>
        simp only [fontTarget, Prod.mk.injEq] at a3
        exact Or.inr (Or.inr ⟨g, hg, r, fs, h1, a3.1 ▸ h3⟩)
  have hexists : ∀ i, Rewritten d.objs pages i → ∃ o, OnlyObj d.objs i o := by
    rintro i (⟨g, hg, rfl, _⟩ | ⟨g, hg, r, fs, h1, h2, _⟩ | ⟨g, hg, r, fs, h1, w, _, _, h2⟩)
    · obtain ⟨o, ho, _⟩ := (h.pagesOk g hg).entries
      exact ⟨o, ho⟩
    · obtain ⟨_, _, _, v, _, _, h3⟩ := resEntries (h.pagesOk g hg) h1
      rw [h2] at h3
      obtain ⟨_, o, ho, _⟩ := h3
      exact ⟨o, ho⟩
    · obtain ⟨_, o, ho, _⟩ := h2
      exact ⟨o, ho⟩
  have hk2 : ((reps.map (fun p => (p.1, wrapDict p.2))).map (·.1)) = reps.map (·.1) := by simp
  obtain ⟨hframe, hwritten⟩ := applyReplaces_only _ hap (by
    intro p hp
    obtain ⟨q, hq, rfl⟩ := List.mem_map.1 hp
    exact hexists q.1 (hkey _ (List.mem_map_of_mem (f := fun (x : Int × Bytes) => x.1) hq))) (by rw [hk2]; exact hn)
  rw [hk2] at hframe
  have hget : ∀ p ∈ rs, ∀ place fs lf, HasFonts d.objs p.2 place fs → crFontsOf fs = .ok lf →
      ∃ o : Obj, OnlyObj objs' (fontTarget (newCrFonts m ids) p place lf).1 { o with data := wrapDict (fontTarget (newCrFonts m ids) p place lf).2 } := by
    intro p hp place fs lf a1 a2
    obtain ⟨o, _, ho⟩ := hwritten (_, wrapDict _) (List.mem_map.2 ⟨_, hin p hp place fs lf a1 a2, rfl⟩)
    exact ⟨o, ho⟩
  -- the texts written
  have hfp : ∀ {fs lf}, Tidy fs → crFontsOf fs = .ok lf → Tidy (fontProps (lf ++ newCrFonts m ids)) := by
    intro fs lf ht hl
    refine fontProps_tidy (fun f hf => ?_)
    rcases List.mem_append.1 hf with hf | hf
    · exact crFontsOf_ok ht hl f hf
    · exact newCrFonts_ok ids m f hf
  have hpage : ∀ g ∈ pages, ∀ r place fs, g.res = some r → r.place = none → FontAt d.objs r place fs → HasFonts d.objs (pageItems g) place fs := by
    rintro g hg r place fs h1 h2 ⟨w, h3, h4⟩
    have hok := h.pagesOk g hg
    refine ⟨w, ?_, mem_tidy (resEntries hok h1).1 (valueOf_mem h3), h4⟩
    rw [pageItems_valOf hok, h1]
    simp only [h2, if_true]
    exact h3
  have hres : ∀ g ∈ pages, ∀ r place fs (n : Nat), g.res = some r → 1 ≤ n → FontAt d.objs r place fs → HasFonts d.objs (strs (copies n r.entries)) place fs := by
    rintro g hg r place fs n h1 h2 ⟨w, h3, h4⟩
    have hok := h.pagesOk g hg
    exact ⟨w, by rw [strs_valOf, copies_valueOf h2, h3], mem_tidy (resEntries hok h1).1 (valueOf_mem h3), h4⟩
  refine ⟨⟨hm0, ?_⟩, ?_, ?_, ?_, ?_⟩
  · intro g hg r place fs h1 h2
    by_cases hpl : r.place = none
    · exact hlow _ ((hmem 11 _).2 (hrs.page g hg)) place fs (hpage g hg r place fs h1 hpl h2)
    · obtain ⟨i, hi⟩ := Option.ne_none_iff_exists'.1 hpl
      have hn1 := sharers_pos hg h1 hi
      have hn2 := hrs.res g hg r i h1 hi
      exact hlow _ ((hmem 11 _).2 hn2) place fs (hres g hg r place fs _ h1 hn1 h2)
  · intro g hg r fs lf h1 h2 h3 h4
    have hok := h.pagesOk g hg
    obtain ⟨o, ho⟩ := hget _ (hrs.page g hg) none fs lf (hpage g hg r none fs h1 h2 h3) h4
    obtain ⟨w, hw, hd⟩ := h3
    have ht := hfp hd.1 h4
    obtain ⟨t1, _, _, v, hv, _⟩ := resEntries hok h1
    have hlf : ¬ streamKw <:+: wrapDict (crFontsString (lf ++ newCrFonts m ids)) := by
      rw [crFontsString_eq]
      exact wrapDict_lack streamWord (Items.Lack.string streamWord (lacksStream_strs ht))
    have ht2 : Tidy (setFirst b!"Font" (dictVal (fontProps (lf ++ newCrFonts m ids))) r.entries) :=
      setFirst_tidy t1 hw (tidy_dictVal ht) (lacks_dictVal ht)
    refine entries_of_only ho (readProperties_items (reads_page hok h1 h2 hw (wrapDict_trim _) ?_) ?_ ?_)
    · rw [crFontsString_eq]; exact wrapDict_writes (reads_strs ht)
    · exact Spec.Tidy.canon (setFirst_tidy hok.tidy (onlyKey_valueOf hv) (tidy_dictVal ht2) (lacks_dictVal ht2))
    · exact Items.Lack.string streamWord (Items.Lack.setValOf hlf (pageItems_lack hok (lacksStream_strs hok.tidy) (fun r' hr' => by
        obtain ⟨t', _⟩ := resEntries hok hr'
        exact lacksStream_strs t')))
  · intro g hg r fs lf i h1 h2 h3 h4
    have hok := h.pagesOk g hg
    have hn1 := sharers_pos hg h1 h2
    have hn2 := hrs.res g hg r i h1 h2
    obtain ⟨o, ho⟩ := hget _ hn2 none fs lf (hres g hg r none fs _ h1 hn1 h3) h4
    obtain ⟨w, hw, hd⟩ := h3
    have ht := hfp hd.1 h4
    obtain ⟨t1, _, _, v, hv, _⟩ := resEntries hok h1
    have hlf : ¬ streamKw <:+: wrapDict (crFontsString (lf ++ newCrFonts m ids)) := by
      rw [crFontsString_eq]
      exact wrapDict_lack streamWord (Items.Lack.string streamWord (lacksStream_strs ht))
    have hw' : valueOf (copies (sharers pages i) r.entries) b!"Font" = some w := by rw [copies_valueOf hn1, hw]
    refine entries_of_only ho (readProperties_items (reads_set (copies_tidy t1) hw' (wrapDict_trim _) ?_) ?_ ?_)
    · rw [crFontsString_eq]; exact wrapDict_writes (reads_strs ht)
    · exact Spec.Tidy.canon (setFirst_tidy (copies_tidy t1) hw' (tidy_dictVal ht) (lacks_dictVal ht))
    · exact Items.Lack.string streamWord (Items.Lack.setValOf hlf (lacksStream_strs (copies_tidy t1)))
  · intro g hg r fs lf i h1 h3 h4
    have hfin : ∃ o : Obj, OnlyObj objs' i { o with data := wrapDict (crFontsString (lf ++ newCrFonts m ids)) } := by
      by_cases hpl : r.place = none
      · exact hget _ (hrs.page g hg) (some i) fs lf (hpage g hg r (some i) fs h1 hpl h3) h4
      · obtain ⟨j, hj⟩ := Option.ne_none_iff_exists'.1 hpl
        have hn1 := sharers_pos hg h1 hj
        exact hget _ (hrs.res g hg r j h1 hj) (some i) fs lf (hres g hg r (some i) fs _ h1 hn1 h3) h4
    obtain ⟨o, ho⟩ := hfin
    obtain ⟨w, hw, hd⟩ := h3
    have ht := hfp hd.1 h4
    rw [crFontsString_eq] at ho
    exact entries_of_only ho (readProperties_items (reads_strs ht) (Spec.Tidy.canon ht) (Items.Lack.string streamWord (lacksStream_strs ht)))
  · intro i hi
    exact hframe i (fun hm => hi (hkey i hm))

end Verif
