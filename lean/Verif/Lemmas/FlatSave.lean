import Verif.Lemmas.FlatImg
import Verif.Theorems.Fonts
/-
A flat document with added fonts is a flat document again.
-/
namespace Verif
open Spec

variable {objs objs' : List Obj} {root tree : Int} {ct node : Props} {pages : List FlatPage} {new : List CrFont} {m : Int}

/-! ### names that do not occur -/

theorem infix_slash {k a b : Bytes} (hk : (47 : UInt8) ∉ k) (h : (47 :: k) <:+: a ++ 47 :: b) : (47 :: k) <:+: a ∨ (47 :: k) <:+: 47 :: b := by
  obtain ⟨s, t, e⟩ := h
  rw [List.append_assoc] at e
  rcases List.append_eq_append_iff.1 e with ⟨a', h1, h2⟩ | ⟨c', h1, h2⟩
  · cases a' with
    | nil => exact Or.inr ⟨[], t, by simpa using h2⟩
    | cons x a'' =>
      simp only [List.cons_append, List.cons.injEq] at h2
      obtain ⟨rfl, h2⟩ := h2
      rcases List.append_eq_append_iff.1 h2 with ⟨c, h3, h4⟩ | ⟨c, h3, h4⟩
      · exact Or.inl ⟨s, c, by rw [h1, h3]; simp⟩
      · cases c with
        | nil => exact Or.inl ⟨s, [], by rw [h1, h3]; simp⟩
        | cons y c =>
          simp only [List.cons_append, List.cons.injEq] at h4
          exact absurd (h3 ▸ by simp [← h4.1]) hk
  · exact Or.inr ⟨c', t, by rw [h2]; simp⟩

theorem lack_compact {k : Bytes} (hk : ∀ c ∈ k, Regular c) : ∀ {ps : Props}, Tidy ps → LacksName k ps → ¬ (47 :: k) <:+: compact ps
  | [], _, _, h => by simpa [compact] using List.eq_nil_of_infix_nil h
  | p :: t, ht, hl, h => by
    have h47 : (47 : UInt8) ∉ k := regular_not hk
    have h32 : (32 : UInt8) ∉ 47 :: k := by
      simp only [List.mem_cons, not_or]
      exact ⟨by decide, fun hc => absurd (hk 32 hc).1 (by decide)⟩
    obtain ⟨l1, l2⟩ := hl p (by simp)
    obtain ⟨k1, k2, _, _⟩ := ht p (by simp)
    have hrest : ¬ (47 :: k) <:+: compact t := lack_compact hk (Spec.Tidy.tail ht) (fun q hq => hl q (by simp [hq]))
    have hkey := lack_key (regular_not k1) l1
    have e : compact (p :: t) = compact1 p ++ compact t := rfl
    have h1 : (47 :: k) <:+: compact1 p ∨ (47 :: k) <:+: compact t := by
      rw [e] at h
      cases t with
      | nil => left; simpa [compact] using h
      | cons q u =>
        have e2 : compact (q :: u) = 47 :: (compact (q :: u)).tail := by simp [compact, compact1]
        rw [e2] at h ⊢
        exact infix_slash h47 h
    rcases h1 with h1 | h1
    · by_cases hn : noSep p.rawVal = true
      · have e3 : compact1 p = (47 :: p.key) ++ p.rawVal := by simp [compact1, hn]
        rw [e3] at h1
        by_cases hv0 : p.rawVal = []
        · rw [hv0, List.append_nil] at h1
          exact hkey h1
        have hc : ∃ c v, p.rawVal = c :: v ∧ (c = 60 ∨ c = 91) := by
          cases hv : p.rawVal with
          | nil => exact absurd hv hv0
          | cons c v =>
            rw [hv] at hn
            simp only [noSep, Bool.or_eq_true, List.isPrefixOf, beq_iff_eq, Bool.and_eq_true] at hn
            refine ⟨c, v, rfl, ?_⟩
            simp at hn
            tauto
        obtain ⟨c, v, hv, hc⟩ := hc
        rw [hv] at h1
        have hcn : c ∉ 47 :: k := by
          simp only [List.mem_cons, not_or]
          rcases hc with rfl | rfl
          · exact ⟨by decide, fun hc => (hk _ hc).2.2.2.2.2.1 rfl⟩
          · exact ⟨by decide, fun hc => (hk _ hc).2.2.2.1 rfl⟩
        rcases infix_split hcn h1 with h1 | h1
        · exact hkey h1
        · refine lacks_iff.1 l2 ?_
          rw [hv]
          exact h1.trans (List.suffix_cons _ _).isInfix
      · have e3 : compact1 p = (47 :: p.key) ++ 32 :: p.rawVal := by simp [compact1, hn]
        rw [e3] at h1
        rcases infix_split h32 h1 with h1 | h1
        · exact hkey h1
        · exact lacks_iff.1 l2 h1
    · exact hrest h1

theorem lack_dictVal {k : Bytes} (hk : ∀ c ∈ k, Regular c) {ps : Props} (ht : Tidy ps) (hl : LacksName k ps) : Lacks (47 :: k) (dictVal ps) := by
  rw [lacks_iff]
  intro h
  have h60 : (60 : UInt8) ∉ 47 :: k := by
    simp only [List.mem_cons, not_or]
    exact ⟨by decide, fun hc => (hk _ hc).2.2.2.2.2.1 rfl⟩
  have h62 : (62 : UInt8) ∉ 47 :: k := by
    simp only [List.mem_cons, not_or]
    exact ⟨by decide, fun hc => (hk _ hc).2.2.2.2.2.2 rfl⟩
  have e : dictVal ps = 60 :: 60 :: (compact ps ++ 62 :: [62]) := by simp [dictVal]
  rw [e] at h
  have h := infix_cons_of_not_mem h60 (infix_cons_of_not_mem h60 h)
  rcases infix_split h62 h with h | h
  · exact lack_compact hk ht hl h
  · have := infix_cons_of_not_mem h62 h
    exact absurd (List.eq_nil_of_infix_nil this) (by simp)


theorem lacksName_fonts {l : List CrFont} (h : ∀ f ∈ l, f.pfx.take 5 ≠ b!"Pages") : LacksName b!"Pages" (fontProps l) := by
  intro p hp
  obtain ⟨f, hf, rfl⟩ := List.mem_map.1 hp
  refine ⟨?_, lacks_iff.2 (fun hi => ?_)⟩
  · intro e
    simp only at e
    rw [show b!"Pages".length = 5 from rfl] at e
    apply h f hf
    by_cases hlen : 5 ≤ f.pfx.length
    · rw [List.take_append_of_le_length hlen] at e
      exact e
    · exfalso
      have hl : (f.pfx ++ itoa f.idx).take 5 = f.pfx ++ (itoa f.idx).take (5 - f.pfx.length) := by
        rw [List.take_append, List.take_of_length_le (by omega)]
      rw [hl] at e
      have : ∃ c ∈ (itoa f.idx).take (5 - f.pfx.length), c ∈ b!"Pages" := by
        cases hi : (itoa f.idx).take (5 - f.pfx.length) with
        | nil =>
          rw [hi, List.append_nil] at e
          exact absurd (by rw [e]; decide) hlen
        | cons c t =>
          refine ⟨c, by simp, ?_⟩
          rw [← e, hi]
          simp
      obtain ⟨c, hc, hm⟩ := this
      rcases itoa_bytes _ c (List.mem_of_mem_take hc) with hd | rfl
      · revert hd
        simp only [List.mem_cons, List.not_mem_nil, or_false] at hm
        rcases hm with rfl | rfl | rfl | rfl | rfl <;> decide
      · exact absurd hm (by decide)
  · have : (47 : UInt8) ∈ itoa f.objID ++ b!" 0 R" := hi.subset (by simp)
    rcases List.mem_append.1 this with h' | h'
    · exact (itoa_regular _ 47 h').2.2.1 rfl
    · exact absurd h' (by decide)

theorem splitFont_prefix {s a : Bytes} {n : Int} (h : splitFont s = .ok (a, n)) : a <+: s := by
  unfold splitFont at h
  cases hf : firstDigit s with
  | none => rw [hf] at h; simp at h
  | some i =>
    rw [hf] at h
    simp only at h
    split at h
    · simp at h
    · split at h
      · simp only [Res.ok.injEq, Prod.mk.injEq] at h
        rw [← h.1]
        exact List.take_prefix _ _
      · simp at h

theorem crFontsOf_lack {fs : Props} (ht : Tidy fs) (hl : LacksName b!"Pages" fs) {lf : List CrFont} (h : crFontsOf fs = .ok lf) : ∀ f ∈ lf, f.pfx.take 5 ≠ b!"Pages" := by
  intro f hf e
  obtain ⟨p, hp, hs⟩ := (crFontsOf_mem h).2 f hf
  rw [key_trim (ht p hp).1] at hs
  have hpre := splitFont_prefix hs
  refine (hl p hp).1 ?_
  have hlen : 5 ≤ f.pfx.length := by
    have := congrArg List.length e
    simp only [List.length_take, List.length_cons, List.length_nil] at this
    omega
  obtain ⟨t, rfl_⟩ := hpre
  rw [← rfl_, show b!"Pages".length = 5 from rfl, List.take_append_of_le_length hlen, e]

/-! ### resources and pages with the new fonts -/

/-- the resources with the new fonts -/
def fontEntries (new : List CrFont) (n : Nat) (ps : Props) : Props :=
  match valueOf ps b!"Font" with
  | none => ps
  | some w =>
    if Inline w then
      match readProperties w with
      | .ok fs =>
        match crFontsOf fs with
        | .ok lf => setFirst b!"Font" (dictVal (fontProps (lf ++ new))) (copies n ps)
        | _ => ps
      | _ => ps
    else ps

theorem fontEntries_at {r : ResInfo} {fs : Props} (h : FontAt objs r none fs) {lf : List CrFont} (hl : crFontsOf fs = .ok lf) (n : Nat) :
    fontEntries new n r.entries = setFirst b!"Font" (dictVal (fontProps (lf ++ new))) (copies n r.entries) := by
  obtain ⟨w, hw, _, h1, h2⟩ := h
  unfold fontEntries
  rw [hw]
  simp only [h1, if_true, h2, hl]

theorem fontEntries_off {g : FlatPage} (hg : g ∈ pages) (hr : FontsReadable objs pages) {r : ResInfo} (hgr : g.res = some r) (ht : Tidy r.entries) (h : ¬ ∃ fs, FontAt objs r none fs) (n : Nat) :
    fontEntries new n r.entries = r.entries := by
  unfold fontEntries
  rcases hr g hg r hgr with e | ⟨place, fs, hf⟩
  · rw [e]
  · cases place with
    | none => exact absurd ⟨fs, hf⟩ h
    | some i =>
      obtain ⟨w, hw, _, hd⟩ := hf
      rw [hw]
      simp only
      rw [if_neg (ref_type (mem_tidy ht (valueOf_mem hw)) hd.1).2.1]

/-- number of times the entries are written -/
def timesOf (pages : List FlatPage) (r : ResInfo) : Nat :=
  match r.place with
  | none => 1
  | some i => sharers pages i

/-- the page with the new fonts -/
def fontPage (pages : List FlatPage) (new : List CrFont) (g : FlatPage) : FlatPage :=
  match g.res with
  | none => g
  | some r =>
    let e := fontEntries new (timesOf pages r) r.entries
    { id := g.id, entries := (if r.place = none then setFirst b!"Resources" (dictVal e) g.entries else g.entries), res := some ⟨r.place, e⟩ }

theorem fontPage_id (g : FlatPage) : (fontPage pages new g).id = g.id := by
  unfold fontPage
  split <;> rfl

theorem fontPage_none {g : FlatPage} (h : g.res = none) : fontPage pages new g = g := by
  unfold fontPage
  rw [h]

theorem fontPage_some {g : FlatPage} {r : ResInfo} (h : g.res = some r) :
    (fontPage pages new g).res = some ⟨r.place, fontEntries new (timesOf pages r) r.entries⟩ ∧
    (fontPage pages new g).entries = (if r.place = none then setFirst b!"Resources" (dictVal (fontEntries new (timesOf pages r) r.entries)) g.entries else g.entries) := by
  unfold fontPage
  rw [h]
  exact ⟨rfl, rfl⟩

theorem fontPage_resPlace (g : FlatPage) : (fontPage pages new g).resPlace = g.resPlace := by
  unfold FlatPage.resPlace
  cases h : g.res with
  | none => rw [fontPage_none h, h]
  | some r => rw [(fontPage_some h).1]; rfl

theorem copies_one (ps : Props) : copies 1 ps = ps := by simp [copies]

theorem timesOf_pos {g : FlatPage} (hg : g ∈ pages) {r : ResInfo} (hr : g.res = some r) : 1 ≤ timesOf pages r := by
  unfold timesOf
  split
  · exact Nat.le_refl _
  · rename_i i hi
    exact sharers_pos hg hr hi

theorem setFirst_mem {k v : Bytes} : ∀ {ps : Props} {p : PropD}, p ∈ setFirst k v ps → p ∈ ps ∨ p = ⟨k, v⟩
  | [], p, h => by simp [setFirst] at h
  | q :: t, p, h => by
    rw [setFirst] at h
    split at h
    · rename_i e
      rcases List.mem_cons.1 h with rfl | h
      · right; rw [e]
      · left; simp [h]
    · rcases List.mem_cons.1 h with rfl | h
      · left; simp
      · rcases setFirst_mem h with h | h
        · left; simp [h]
        · exact Or.inr h

/-- font names of the lists in place do not begin with `Pages` -/
def Spec.FontNamesPlain (objs : List Obj) (pages : List FlatPage) : Prop := ∀ g ∈ pages, ∀ r, g.res = some r → ∀ fs, FontAt objs r none fs → LacksName b!"Pages" fs

/-- What is known about the resources with the new fonts. -/
structure FontEntriesOk (ps e : Props) : Prop where
  tidy : Tidy e
  lacks : LacksName b!"Pages" e
  other : ∀ k, k ≠ b!"Font" → valueOf e k = valueOf ps k
  mem : ∀ p ∈ e, p.key ≠ b!"Font" → p ∈ ps

theorem fontEntries_ok (h : FlatDoc b!"Font" objs root tree ct node pages) (hr : FontsReadable objs pages) (hnm : FontNamesPlain objs pages)
    (hi : FontsInjected objs objs' pages new m) (hnew : ∀ f ∈ new, CrFontOk f ∧ f.pfx.take 5 ≠ b!"Pages") {g : FlatPage} (hg : g ∈ pages) {r : ResInfo} (hgr : g.res = some r) :
    FontEntriesOk r.entries (fontEntries new (timesOf pages r) r.entries) := by
  obtain ⟨t1, _, l1, _⟩ := resEntries (h.pagesOk g hg) hgr
  by_cases hin : ∃ fs, FontAt objs r none fs
  · obtain ⟨fs, hf⟩ := hin
    obtain ⟨lf, hl, _⟩ := hi.low.2 g hg r none fs hgr hf
    rw [fontEntries_at hf hl]
    have hf0 := hf
    obtain ⟨w, hw, ht, _⟩ := hf
    have hpos := timesOf_pos hg hgr
    have hp := fontProps_ok hi (fun f hf => (hnew f hf).1) ht hl
    have hw2 : valueOf (copies (timesOf pages r) r.entries) b!"Font" = some w := by rw [copies_valueOf hpos, hw]
    refine ⟨setFirst_tidy (copies_tidy t1) hw2 (tidy_dictVal hp) (lacks_dictVal hp), ?_, ?_, ?_⟩
    · intro p hp'
      rcases setFirst_mem hp' with hp' | rfl
      · exact l1 p (copies_mem hp')
      · refine ⟨(by decide : b!"Font".take 5 ≠ b!"Pages"), lack_dictVal (by decide) hp (lacksName_fonts (fun f hf' => ?_))⟩
        rcases List.mem_append.1 hf' with hf' | hf'
        · exact crFontsOf_lack ht (hnm g hg r hgr fs hf0) hl f hf'
        · exact (hnew f hf').2
    · intro k hk
      rw [setFirst_valueOf hw2, if_neg hk, copies_valueOf hpos]
    · intro p hp' hk
      rcases setFirst_mem hp' with hp' | rfl
      · exact copies_mem hp'
      · exact absurd rfl hk
  · rw [fontEntries_off hg hr hgr t1 hin]
    exact ⟨t1, l1, fun _ _ => rfl, fun _ hp _ => hp⟩


theorem off_kept (h : FlatDoc b!"Font" objs root tree ct node pages) {i : Int} (h1 : ∀ g ∈ pages, i ≠ g.id ∧ g.resPlace ≠ some i ∧ i ∉ g.refs b!"Font") : ¬ Rewritten objs pages i := by
  rintro (⟨g, hg, e, _⟩ | ⟨g, hg, r, fs, a, b, _⟩ | ⟨g, hg, r, fs, a, b⟩)
  · exact (h1 g hg).1 e
  · exact (h1 g hg).2.1 (by rw [FlatPage.resPlace, a]; exact b)
  · exact (h1 g hg).2.2 (fontAt_ref a b)

theorem tops_kept (h : FlatDoc b!"Font" objs root tree ct node pages) {i : Int} (hi : i = root ∨ i = tree) : ¬ Rewritten objs pages i := by
  have hd := h.distinct
  rw [List.nodup_cons, List.nodup_cons] at hd
  have hin : i ∈ root :: tree :: pages.map (·.id) := by rcases hi with rfl | rfl <;> simp
  refine off_kept h (fun g hg => ⟨?_, ?_, ?_⟩)
  · rintro rfl
    rcases hi with e | e
    · exact hd.1 (by rw [← e]; simp only [List.mem_cons]; exact Or.inr (List.mem_map_of_mem hg))
    · exact hd.2.1 (by rw [← e]; exact List.mem_map_of_mem hg)
  · intro e
    exact h.resApart g hg i e hin
  · intro e
    exact (h.refsApart g hg i e).1 hin

/-- an object does not vanish -/
theorem exists_after (hi : FontsInjected objs objs' pages new m) {i : Int} {o : Obj} (ho : OnlyObj objs i o) : ∃ o', OnlyObj objs' i o' := by
  by_cases hk : Rewritten objs pages i
  · have ex : ∀ {ps}, Entries objs' i ps → ∃ o', OnlyObj objs' i o' := fun ⟨o', h1, _⟩ => ⟨o', h1⟩
    rcases hk with ⟨g, hg, rfl, r, fs, a, b, c⟩ | ⟨g, hg, r, fs, a, b, c⟩ | ⟨g, hg, r, fs, a, b⟩
    · obtain ⟨lf, hl, _⟩ := hi.low.2 g hg r _ fs a c
      exact ex (hi.page g hg r fs lf a b c hl)
    · obtain ⟨lf, hl, _⟩ := hi.low.2 g hg r _ fs a c
      exact ex (hi.res g hg r fs lf i a b c hl)
    · obtain ⟨lf, hl, _⟩ := hi.low.2 g hg r _ fs a b
      exact ex (hi.obj g hg r fs lf i a b hl)
  · exact ⟨o, by unfold OnlyObj at ho ⊢; rw [hi.frame i hk, ho]⟩

theorem entries_sub {objs2 : List Obj} (hsub : ∀ i o, OnlyObj objs i o → OnlyObj objs2 i o) {i : Int} {ps : Props} (h : Entries objs i ps) : Entries objs2 i ps := by
  obtain ⟨o, h1, h2⟩ := h
  exact ⟨o, hsub i o h1, h2⟩

theorem setFirst_same {k v : Bytes} : ∀ {ps : Props}, valueOf ps k = some v → setFirst k v ps = ps := by
  intro ps h
  obtain ⟨a, b, rfl, ha⟩ := valueOf_split h
  rw [setFirst_append ha]

theorem setFirst_onlyKey {ps : Props} {k v n : Bytes} (h : OnlyKey ps k v) : OnlyKey (setFirst k n ps) k n := by
  obtain ⟨a, b, rfl, ha, hb⟩ := onlyKey_split h
  rw [setFirst_append ha]
  unfold OnlyKey
  rw [List.filter_append, List.filter_cons]
  have e1 : a.filter (fun p => decide (p.key = k)) = [] := List.filter_eq_nil_iff.2 (fun p hp => by simpa using ha p hp)
  have e2 : b.filter (fun p => decide (p.key = k)) = [] := List.filter_eq_nil_iff.2 (fun p hp => by simpa using hb p hp)
  rw [e1, e2]
  simp

/-- A flat document with new fonts, and new objects, is a flat document. -/
theorem flat_fonts (h : FlatDoc b!"Font" objs root tree ct node pages) (hx : FlatDoc b!"XObject" objs root tree ct node pages) (hr : FontsReadable objs pages)
    (hnm : FontNamesPlain objs pages) (hw : Written pages) (hi : FontsInjected objs objs' pages new m) (hnew : ∀ f ∈ new, CrFontOk f ∧ f.pfx.take 5 ≠ b!"Pages") {objs2 : List Obj}
    (hsub : ∀ i o, OnlyObj objs' i o → OnlyObj objs2 i o) :
    FlatDoc b!"XObject" objs2 root tree ct node (pages.map (fontPage pages new)) ∧ Written (pages.map (fontPage pages new)) := by
  have hids : (pages.map (fontPage pages new)).map (·.id) = pages.map (·.id) := by
    rw [List.map_map]
    exact List.map_congr_left (fun g _ => fontPage_id g)
  have hupd : ∀ {i : Int} {ps : Props}, ¬ Rewritten objs pages i → Entries objs i ps → Entries objs2 i ps := fun hk he => entries_sub hsub (entries_frame (hi.frame _ hk) he)
  have hpage : ∀ g ∈ pages, (fontPage pages new g).Ok objs2 b!"XObject" := by
    intro g hg
    have ok1 := h.pagesOk g hg
    have ok2 := hx.pagesOk g hg
    cases hgr : g.res with
    | none =>
      rw [fontPage_none hgr]
      refine ⟨hupd (page_kept h hg (fun r fs e => by rw [hgr] at e; simp at e)) ok1.entries, ok2.tidy, ok2.plain, ok2.noPages, ?_⟩
      rw [hgr]
      have := ok2.res
      rw [hgr] at this
      exact this
    | some r =>
      obtain ⟨f1, f2⟩ := fontPage_some (pages := pages) (new := new) hgr
      have hok := fontEntries_ok h hr hnm hi hnew hg hgr
      obtain ⟨t1, s1, _, v, hv, hd⟩ := resEntries ok2 hgr
      have huv := onlyKey_valueOf hv
      have hsound : Sound objs2 b!"XObject" (fontEntries new (timesOf pages r) r.entries) := by
        intro p hp hk
        rcases s1 p (hok.mem p hp (by rw [hk]; decide)) hk with e | ⟨i, o, e1, e2⟩
        · exact Or.inl e
        · obtain ⟨o', ho'⟩ := exists_after hi e2
          exact Or.inr ⟨i, o', e1, hsub i o' ho'⟩
      cases hp : r.place with
      | none =>
        rw [if_pos hp] at f2
        refine ⟨?_, ?_, ?_, ?_, ?_⟩
        · rw [fontPage_id, f2]
          by_cases hin : ∃ fs, FontAt objs r none fs
          · obtain ⟨fs, hf⟩ := hin
            obtain ⟨lf, hl, _⟩ := hi.low.2 g hg r none fs hgr hf
            rw [fontEntries_at hf hl, timesOf, hp]
            simp only [copies_one]
            exact entries_sub hsub (hi.page g hg r fs lf hgr hp hf hl)
          · rw [fontEntries_off hg hr hgr t1 hin, setFirst_same (hw g hg r hgr hp)]
            exact hupd (page_kept h hg (fun r' fs' e _ hf => by
              rw [hgr] at e
              cases e
              exact hin ⟨fs', hf⟩)) ok1.entries
        · rw [f2]
          exact setFirst_tidy ok2.tidy huv (tidy_dictVal hok.tidy) (lacks_dictVal hok.tidy)
        · rw [f2, setFirst_valueOf huv, if_neg (by decide)]
          exact ok2.plain
        · rw [f2]
          intro p hp'
          rcases setFirst_mem hp' with hp' | rfl
          · exact ok2.noPages p hp'
          · exact ⟨(by decide : b!"Resources".take 5 ≠ b!"Pages"), lack_dictVal (by decide) hok.tidy hok.lacks⟩
        · rw [f1, f2]
          exact ⟨_, setFirst_onlyKey hv, ⟨hok.tidy, by rw [hp]; exact ⟨inline_dictVal hok.tidy, readProperties_dictVal hok.tidy⟩⟩, hsound, hok.lacks⟩
      | some i =>
        rw [if_neg (by rw [hp]; simp)] at f2
        refine ⟨?_, by rw [f2]; exact ok2.tidy, by rw [f2]; exact ok2.plain, by rw [f2]; exact ok2.noPages, ?_⟩
        · rw [fontPage_id, f2]
          exact hupd (page_kept h hg (fun r' fs' e e2 _ => by
            rw [hgr] at e
            cases e
            rw [hp] at e2
            simp at e2)) ok1.entries
        · rw [f1, f2]
          obtain ⟨_, hd⟩ := hd
          rw [hp] at hd
          have hent : Entries objs2 i (fontEntries new (timesOf pages r) r.entries) := by
            by_cases hin : ∃ fs, FontAt objs r none fs
            · obtain ⟨fs, hf⟩ := hin
              obtain ⟨lf, hl, _⟩ := hi.low.2 g hg r none fs hgr hf
              rw [fontEntries_at hf hl, timesOf, hp]
              exact entries_sub hsub (hi.res g hg r fs lf i hgr hp hf hl)
            · rw [fontEntries_off hg hr hgr t1 hin]
              exact hupd (res_kept h hg hgr hp (fun fs hf => hin ⟨fs, hf⟩)) hd.2
          exact ⟨v, hv, ⟨hok.tidy, by rw [hp]; exact ⟨hd.1, hent⟩⟩, hsound, hok.lacks⟩
  have hrefs : ∀ g ∈ pages, ∀ i ∈ (fontPage pages new g).refs b!"XObject", i ∈ g.refs b!"XObject" := by
    intro g hg i hm
    cases hgr : g.res with
    | none => rw [fontPage_none hgr] at hm; exact hm
    | some r =>
      have hok := fontEntries_ok h hr hnm hi hnew hg hgr
      rw [FlatPage.refs, (fontPage_some hgr).1] at hm
      obtain ⟨p, hp, e⟩ := List.mem_filterMap.1 hm
      obtain ⟨hp, hk⟩ := List.mem_filter.1 hp
      simp only [decide_eq_true_eq] at hk
      exact mem_refs hgr (hok.mem p hp (by rw [hk]; decide)) hk e
  refine ⟨⟨hupd (tops_kept h (Or.inl rfl)) h.catEntries, hupd (tops_kept h (Or.inr rfl)) h.nodeEntries, h.catTidy, h.nodeTidy, h.pagesRef, by rw [hids]; exact h.kids,
    hx.catPlain, hx.nodePlain, ?_, by rw [hids]; exact h.distinct, ?_, ?_⟩, ?_⟩
  · intro g' hg'
    obtain ⟨g, hg, rfl⟩ := List.mem_map.1 hg'
    exact hpage g hg
  · intro g' hg' i hip
    obtain ⟨g, hg, rfl⟩ := List.mem_map.1 hg'
    rw [fontPage_resPlace] at hip
    rw [hids]
    exact h.resApart g hg i hip
  · intro g' hg' i hm
    obtain ⟨g, hg, rfl⟩ := List.mem_map.1 hg'
    obtain ⟨a, b⟩ := hx.refsApart g hg i (hrefs g hg i hm)
    rw [hids]
    refine ⟨a, fun g'' hg'' => ?_⟩
    obtain ⟨g2, hg2, rfl⟩ := List.mem_map.1 hg''
    rw [fontPage_resPlace]
    exact b g2 hg2
  · intro g' hg' r' hr' hp
    obtain ⟨g, hg, rfl⟩ := List.mem_map.1 hg'
    cases hgr : g.res with
    | none => rw [fontPage_none hgr, hgr] at hr'; simp at hr'
    | some r =>
      obtain ⟨f1, f2⟩ := fontPage_some (pages := pages) (new := new) hgr
      rw [f1] at hr'
      cases hr'
      simp only at hp
      obtain ⟨_, _, _, v, hv, _⟩ := resEntries (hx.pagesOk g hg) hgr
      rw [f2, if_pos hp, setFirst_valueOf (onlyKey_valueOf hv), if_pos rfl]

end Verif
