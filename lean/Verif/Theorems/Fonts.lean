import Verif.Lemmas.FlatCheck
/-!
# Fonts of flat documents (C17, C18, C49, C51)
-/
namespace Verif
open Spec

/-- the resource name of a font -/
def Spec.fontName (f : CrFont) : Bytes := f.pfx ++ itoa f.idx

/-- names in which a number follows a text without digits and underscores -/
def Spec.NumberedName (s : Bytes) : Prop := ∃ (a : Bytes) (n : Nat), s = a ++ natDigits n ∧ n < 2 ^ 63 ∧ ∀ c ∈ a, isDigit c = false ∧ c ≠ 95

variable {objs objs' : List Obj} {root tree : Int} {ct node : Props} {pages : List FlatPage} {new : List CrFont} {m : Int}

theorem entriesOf_of {i : Int} {ps : Props} (h : Entries objs i ps) : entriesOf objs i = some ps := by
  obtain ⟨o, h1, h2⟩ := h
  unfold OnlyObj at h1
  rw [entriesOf, h1]
  simp only [h2]

theorem inline_dictVal {ps : Props} (h : Tidy ps) : Inline (dictVal ps) := by
  unfold Inline
  rw [tidy_trim (tidy_dictVal h)]
  simp [dictVal]

theorem dictOf_dictVal {ps : Props} (h : Tidy ps) : dictOf objs (dictVal ps) = some ps := by
  rw [dictOf, if_pos (inline_dictVal h), readProperties_dictVal h]

theorem dictOf_at {v : Bytes} {place : Option Int} {ps : Props} (ht : TidyVal v) (h : DictAt objs v place ps) : dictOf objs v = some ps := by
  obtain ⟨_, h⟩ := h
  cases place with
  | none => rw [dictOf, if_pos h.1, h.2]
  | some i => rw [dictOf, if_neg (ref_type ht h.1).2.1, h.1]; exact entriesOf_of h.2

theorem dictOf_ref {v : Bytes} {i : Int} {ps : Props} (ht : TidyVal v) (hr : refOf v = some i) (he : Entries objs i ps) : dictOf objs v = some ps := by
  rw [dictOf, if_neg (ref_type ht hr).2.1, hr]; exact entriesOf_of he

theorem resourcesOf_eq {page : Int} {kind : Bytes} {ps rs qs : Props} {v w : Bytes} (h1 : Entries objs page ps) (h2 : valueOf ps b!"Resources" = some v) (h3 : dictOf objs v = some rs)
    (h4 : valueOf rs kind = some w) (h5 : dictOf objs w = some qs) : resourcesOf objs page kind = some qs := by
  unfold resourcesOf
  rw [entriesOf_of h1]
  simp only [Option.bind_eq_bind, Option.bind_some, h2, h3, h4, h5]

/-- the fonts of a page before -/
theorem fonts_before {k : Bytes} (h : FlatDoc k objs root tree ct node pages) {g : FlatPage} (hg : g ∈ pages) {r : ResInfo} (hr : g.res = some r)
    {place : Option Int} {fs : Props} (hf : FontAt objs r place fs) : resourcesOf objs g.id b!"Font" = some fs := by
  have hok := h.pagesOk g hg
  obtain ⟨t1, _, _, v, hv, hd⟩ := resEntries hok hr
  obtain ⟨w, hw, hfd⟩ := hf
  exact resourcesOf_eq hok.entries (onlyKey_valueOf hv) (dictOf_at (mem_tidy hok.tidy (onlyKey_mem hv)) hd) hw (dictOf_at (mem_tidy t1 (valueOf_mem hw)) hfd)

theorem page_unique (h : (pages.map (·.id)).Nodup) {g g' : FlatPage} (hg : g ∈ pages) (hg' : g' ∈ pages) (e : g.id = g'.id) : g = g' :=
  List.inj_on_of_nodup_map h hg hg' e

/-- when a page is not written anew -/
theorem page_kept (h : FlatDoc b!"Font" objs root tree ct node pages) {g : FlatPage} (hg : g ∈ pages)
    (hn : ∀ r fs, g.res = some r → r.place = none → ¬ FontAt objs r none fs) : ¬ Rewritten objs pages g.id := by
  have hd := h.distinct
  rw [List.nodup_cons, List.nodup_cons] at hd
  rintro (⟨g', hg', e, r, fs, h1, h2, h3⟩ | ⟨g', hg', r, fs, h1, h2, _⟩ | ⟨g', hg', r, fs, h1, h2⟩)
  · obtain rfl := page_unique hd.2.2 hg hg' e
    exact hn r fs h1 h2 h3
  · exact h.resApart g' hg' g.id (by rw [FlatPage.resPlace, h1]; exact h2) (by simp only [List.mem_cons]; exact Or.inr (Or.inr (List.mem_map_of_mem hg)))
  · exact (h.refsApart g' hg' g.id (fontAt_ref h1 h2)).1 (by simp only [List.mem_cons]; exact Or.inr (Or.inr (List.mem_map_of_mem hg)))

/-- when a resource object is not written anew -/
theorem res_kept (h : FlatDoc b!"Font" objs root tree ct node pages) {g : FlatPage} (hg : g ∈ pages) {r : ResInfo} {i : Int} (hr : g.res = some r) (hi : r.place = some i)
    (hn : ∀ fs, ¬ FontAt objs r none fs) : ¬ Rewritten objs pages i := by
  have hpl : g.resPlace = some i := by rw [FlatPage.resPlace, hr]; exact hi
  rintro (⟨g', hg', e, _⟩ | ⟨g', hg', r', fs, h1, h2, h3⟩ | ⟨g', hg', r', fs, h1, h2⟩)
  · exact h.resApart g hg i hpl (by simp only [List.mem_cons]; exact Or.inr (Or.inr (e ▸ List.mem_map_of_mem hg')))
  · obtain rfl := resAgree (h.pagesOk g hg) (h.pagesOk g' hg') hr h1 hi h2
    exact hn fs h3
  · exact (h.refsApart g' hg' i (fontAt_ref h1 h2)).2 g hg hpl

theorem fontProps_ok (hi : FontsInjected objs objs' pages new m) (hnew : ∀ f ∈ new, CrFontOk f) {fs : Props} {lf : List CrFont} (ht : Tidy fs) (hl : crFontsOf fs = .ok lf) :
    Tidy (fontProps (lf ++ new)) := by
  refine fontProps_tidy (fun f hf => ?_)
  rcases List.mem_append.1 hf with hf | hf
  · exact crFontsOf_ok ht hl f hf
  · exact hnew f hf

/-- the fonts of a page afterwards -/
theorem fonts_after (h : FlatDoc b!"Font" objs root tree ct node pages) (hi : FontsInjected objs objs' pages new m) (hnew : ∀ f ∈ new, CrFontOk f)
    {g : FlatPage} (hg : g ∈ pages) {r : ResInfo} (hr : g.res = some r) {place : Option Int} {fs : Props} (hf : FontAt objs r place fs) {lf : List CrFont} (hl : crFontsOf fs = .ok lf) :
    resourcesOf objs' g.id b!"Font" = some (fontProps (lf ++ new)) := by
  have hok := h.pagesOk g hg
  obtain ⟨t1, _, _, v, hv, hd⟩ := resEntries hok hr
  have hw' := hf
  obtain ⟨w, hw, hfd⟩ := hw'
  have ht := fontProps_ok hi hnew hfd.1 hl
  have htv := mem_tidy hok.tidy (onlyKey_mem hv)
  have htw := mem_tidy t1 (valueOf_mem hw)
  cases hpl : r.place with
  | none =>
    rw [hpl] at hd
    cases place with
    | none =>
      have ht2 : Tidy (setFirst b!"Font" (dictVal (fontProps (lf ++ new))) r.entries) := setFirst_tidy t1 hw (tidy_dictVal ht) (lacks_dictVal ht)
      refine resourcesOf_eq (hi.page g hg r fs lf hr hpl hf hl) (v := dictVal (setFirst b!"Font" (dictVal (fontProps (lf ++ new))) r.entries)) ?_ (dictOf_dictVal ht2)
        (w := dictVal (fontProps (lf ++ new))) ?_ (dictOf_dictVal ht)
      · rw [setFirst_valueOf (onlyKey_valueOf hv), if_pos rfl]
      · rw [setFirst_valueOf hw, if_pos rfl]
    | some i =>
      have hk := page_kept h hg (fun r' fs' h1 h2 h3 => by
        rw [hr] at h1
        cases h1
        have := (fontAt_unique t1 hf h3).1
        simp at this)
      exact resourcesOf_eq (entries_frame (hi.frame _ hk) hok.entries) (onlyKey_valueOf hv) (by rw [dictOf, if_pos hd.2.1, hd.2.2]) hw
        (dictOf_ref htw hfd.2.1 (hi.obj g hg r fs lf i hr hf hl))
  | some j =>
    rw [hpl] at hd
    have hk := page_kept h hg (fun r' fs' h1 h2 h3 => by
      rw [hr] at h1
      cases h1
      rw [hpl] at h2
      simp at h2)
    have he := entries_frame (hi.frame _ hk) hok.entries
    cases place with
    | none =>
      have hw2 : valueOf (copies (sharers pages j) r.entries) b!"Font" = some w := by rw [copies_valueOf (sharers_pos hg hr hpl), hw]
      refine resourcesOf_eq he (onlyKey_valueOf hv) (dictOf_ref htv hd.2.1 (hi.res g hg r fs lf j hr hpl hf hl)) (w := dictVal (fontProps (lf ++ new))) ?_ (dictOf_dictVal ht)
      rw [setFirst_valueOf hw2, if_pos rfl]
    | some i =>
      have hk2 := res_kept h hg hr hpl (fun fs' h3 => by
        have := (fontAt_unique t1 hf h3).1
        simp at this)
      exact resourcesOf_eq he (onlyKey_valueOf hv) (dictOf_ref htv hd.2.1 (entries_frame (hi.frame _ hk2) hd.2.2)) hw
        (dictOf_ref htw hfd.2.1 (hi.obj g hg r fs lf i hr hf hl))

/-! ### names -/

theorem firstDigit_none {s : Bytes} : firstDigit s = none ↔ ∀ c ∈ s, isDigit c = false := by
  induction s with
  | nil => simp [firstDigit]
  | cons c t ih =>
    simp only [firstDigit]
    cases hc : isDigit c with
    | true => simp [hc]
    | false => simp [hc, ih]

theorem firstDigit_append {a b : Bytes} (ha : ∀ c ∈ a, isDigit c = false) : firstDigit (a ++ b) = (firstDigit b).map (· + a.length) := by
  induction a with
  | nil => simp
  | cons c t ih =>
    rw [List.cons_append, firstDigit, ha c (by simp), ih (fun d hd => ha d (by simp [hd]))]
    simp only [Bool.false_eq_true, if_false, Option.map_map]
    congr 1

theorem firstDigit_take {s : Bytes} : ∀ {i : Nat}, firstDigit s = some i → ∀ c ∈ s.take i, isDigit c = false := by
  induction s with
  | nil => intro i h; simp [firstDigit] at h
  | cons d t ih =>
    intro i h c hc
    simp only [firstDigit] at h
    cases hd : isDigit d with
    | true => rw [hd] at h; simp at h; subst h; simp at hc
    | false =>
      rw [hd] at h
      simp only [Bool.false_eq_true, if_false, Option.map_eq_some_iff] at h
      obtain ⟨j, hj, rfl⟩ := h
      rw [List.take_succ_cons] at hc
      rcases List.mem_cons.1 hc with rfl | hc
      · exact hd
      · exact ih hj c hc

/-- the part before the number has no digits -/
theorem splitFont_pfx {s a : Bytes} {n : Int} (h : splitFont s = .ok (a, n)) : ∀ c ∈ a, isDigit c = false := by
  unfold splitFont at h
  cases hf : firstDigit s with
  | none => rw [hf] at h; simp at h
  | some i =>
    rw [hf] at h
    simp only at h
    split at h
    · simp at h
    · split at h
      · simp only [Res.ok.injEq, Prod.mk.injEq] at h
        rw [← h.1]
        exact firstDigit_take hf
      · simp at h

theorem splitFont_numbered {a : Bytes} {n : Nat} (ha : ∀ c ∈ a, isDigit c = false ∧ c ≠ 95) (hn : n < 2 ^ 63) : splitFont (a ++ natDigits n) = .ok (a, (n : Int)) := by
  have hdig : ∀ c ∈ natDigits n, isDigit c = true := natDigits_isDigit n
  have hfd : firstDigit (natDigits n) = some 0 := by
    obtain ⟨c, t, ht⟩ := List.exists_cons_of_ne_nil (natDigits_ne_nil n)
    rw [ht, firstDigit, hdig c (by rw [ht]; simp)]
    rfl
  have hrm : removeByte 95 (a ++ natDigits n) = a ++ natDigits n := by
    apply removeByte_none
    rintro _ hm rfl
    rcases List.mem_append.1 hm with hm | hm
    · exact (ha 95 hm).2 rfl
    · exact absurd (hdig 95 hm) (by decide)
  unfold splitFont
  rw [firstDigit_append (fun c hc => (ha c hc).1), hfd]
  simp only [Option.map_some, zero_add, hrm]
  rw [if_neg (by simp), List.drop_left, List.take_left]
  have := atoi_itoa_64 (v := (n : Int)) ⟨by omega, by omega⟩
  rw [itoa_natCast] at this
  rw [this]

theorem fontName_inj {a b : Bytes} {i j : Int} (ha : ∀ c ∈ a, isDigit c = false) (hb : ∀ c ∈ b, isDigit c = false ∧ c ≠ 45) (hj : 0 ≤ j) (h : a ++ itoa i = b ++ itoa j) : a = b ∧ i = j := by
  obtain ⟨n, rfl⟩ := Int.eq_ofNat_of_zero_le hj
  have hd := natDigits_isDigit n
  have h45 : (45 : UInt8) ∉ b ++ itoa (n : Int) := by
    intro hm
    rcases List.mem_append.1 hm with hm | hm
    · exact (hb 45 hm).2 rfl
    · exact absurd (hd 45 hm) (by decide)
  cases i with
  | negSucc k =>
    exfalso
    rw [← h] at h45
    exact h45 (by simp [itoa])
  | ofNat k =>
    have hdk := natDigits_isDigit k
    have hlen : a.length = b.length := by
      have e1 : firstDigit (a ++ itoa (Int.ofNat k)) = some a.length := by
        obtain ⟨c, t, ht⟩ := List.exists_cons_of_ne_nil (natDigits_ne_nil k)
        rw [firstDigit_append ha, itoa_ofNat, ht, firstDigit, hdk c (by rw [ht]; simp)]
        simp
      have e2 : firstDigit (b ++ itoa (n : Int)) = some b.length := by
        obtain ⟨c, t, ht⟩ := List.exists_cons_of_ne_nil (natDigits_ne_nil n)
        rw [firstDigit_append (fun c hc => (hb c hc).1), itoa_natCast, ht, firstDigit, hd c (by rw [ht]; simp)]
        simp
      rw [h, e2] at e1
      simpa using e1.symm
    obtain ⟨h1, h2⟩ := List.append_inj h hlen
    refine ⟨h1, ?_⟩
    rw [itoa_ofNat, itoa_natCast] at h2
    rw [natDigits_injective h2]
    rfl

theorem newCrFonts_mem : ∀ {ids : List Int} {m : Int} {f : CrFont}, f ∈ newCrFonts m ids → f.pfx = b!"F" ∧ m < f.idx
  | id :: t, m, f, h => by
    rcases List.mem_cons.1 h with rfl | h
    · exact ⟨rfl, by simp⟩
    · obtain ⟨h1, h2⟩ := newCrFonts_mem h
      exact ⟨h1, by omega⟩

theorem newCrFonts_ids : ∀ (ids : List Int) (m : Int), (newCrFonts m ids).map (·.objID) = ids
  | [], _ => rfl
  | id :: t, m => by simp [newCrFonts, newCrFonts_ids t]

theorem newCrFonts_nodup : ∀ (ids : List Int) {m : Int}, 0 ≤ m → ((newCrFonts m ids).map fontName).Nodup
  | [], _, _ => by simp [newCrFonts]
  | id :: t, m, hm => by
    rw [newCrFonts, List.map_cons, List.nodup_cons]
    refine ⟨?_, newCrFonts_nodup t (by omega)⟩
    intro h
    obtain ⟨f, hf, e⟩ := List.mem_map.1 h
    obtain ⟨h1, h2⟩ := newCrFonts_mem hf
    have e : b!"F" ++ itoa f.idx = b!"F" ++ itoa (m + 1) := by unfold fontName at e; rw [h1] at e; exact e
    have := (fontName_inj (by decide) (by decide) (by omega) e).2
    omega

/-- where the names of a list come from -/
theorem crFontsOf_mem {fs : Props} : ∀ {lf : List CrFont}, crFontsOf fs = .ok lf → (∀ p ∈ fs, ∃ f ∈ lf, splitFont (trimSpace p.key) = .ok (f.pfx, f.idx)) ∧
    ∀ f ∈ lf, ∃ p ∈ fs, splitFont (trimSpace p.key) = .ok (f.pfx, f.idx) := by
  induction fs with
  | nil =>
    intro lf h
    simp only [crFontsOf, Res.ok.injEq] at h
    subst h
    simp
  | cons p t ih =>
    intro lf h
    rw [crFontsOf, Res.bind_eq_ok] at h
    obtain ⟨⟨a, n⟩, h1, h⟩ := h
    rw [Res.bind_eq_ok] at h
    obtain ⟨id, _, h⟩ := h
    rw [Res.bind_eq_ok] at h
    obtain ⟨r, h2, h⟩ := h
    simp only [Res.ok.injEq] at h
    subst h
    obtain ⟨i1, i2⟩ := ih h2
    constructor
    · intro q hq
      rcases List.mem_cons.1 hq with rfl | hq
      · exact ⟨_, List.mem_cons_self .., h1⟩
      · obtain ⟨f, hf, e⟩ := i1 q hq
        exact ⟨f, by simp [hf], e⟩
    · intro f hf
      rcases List.mem_cons.1 hf with rfl | hf
      · exact ⟨p, by simp, h1⟩
      · obtain ⟨q, hq, e⟩ := i2 f hf
        exact ⟨q, by simp [hq], e⟩

theorem key_trim {k : Bytes} (h : ∀ c ∈ k, Regular c) : trimSpace k = k :=
  trimSpace_plain (fun c hc => by
    have := printable_byte (regular_printable (h c hc))
    exact ⟨this.1, this.2.2.2.2 (fun e => absurd (h c hc).1 (by rw [e]; decide))⟩)

/-- no new name is the name of an old font, as it was or as it is written -/
theorem new_fresh {ids : List Int} (hm0 : 0 ≤ m) {fs : Props} (ht : Tidy fs) {lf : List CrFont} (hl : crFontsOf fs = .ok lf) (hlow : ∀ x ∈ lf, x.idx ≤ m) :
    ∀ f ∈ newCrFonts m ids, (∀ p ∈ fs, p.key ≠ fontName f) ∧ ∀ x ∈ lf, fontName x ≠ fontName f := by
  intro f hf
  obtain ⟨h1, h2⟩ := newCrFonts_mem hf
  constructor
  · intro p hp e
    obtain ⟨x, hx, hs⟩ := (crFontsOf_mem hl).1 p hp
    rw [key_trim (ht p hp).1, e] at hs
    have hge : 0 ≤ f.idx := by omega
    obtain ⟨n, hn⟩ := Int.eq_ofNat_of_zero_le hge
    have := hlow x hx
    unfold fontName at hs
    rw [h1, hn, itoa_natCast] at hs
    by_cases hb : n < 2 ^ 63
    · rw [splitFont_numbered (a := b!"F") (by decide) hb] at hs
      simp only [Res.ok.injEq, Prod.mk.injEq] at hs
      omega
    · -- such a number cannot be read
      have hdig := natDigits_isDigit n
      unfold splitFont at hs
      have hfd : firstDigit (natDigits n) = some 0 := by
        obtain ⟨c, t, ht⟩ := List.exists_cons_of_ne_nil (natDigits_ne_nil n)
        rw [ht, firstDigit, hdig c (by rw [ht]; simp)]
        rfl
      rw [firstDigit_append (by decide), hfd, removeByte_none] at hs
      · simp only [Option.map_some, zero_add] at hs
        rw [if_neg (by simp)] at hs
        rw [List.drop_left] at hs
        split at hs
        · rename_i v hv
          have hr := atoi_range hv
          have hv2 : (n : Int) = v := by
            obtain ⟨c, t, hct⟩ := List.exists_cons_of_ne_nil (natDigits_ne_nil n)
            have hc := hdig c (by rw [hct]; simp)
            have hnp := parseNat_natDigits n
            unfold atoi at hv
            rw [hct] at hv hnp
            split at hv
            · rename_i e; simp only [List.cons.injEq] at e; rw [e.1] at hc; exact absurd hc (by decide)
            · rename_i e; simp only [List.cons.injEq] at e; rw [e.1] at hc; exact absurd hc (by decide)
            · rw [hnp] at hv
              simp only [Option.map_some] at hv
              split at hv
              · simpa using hv
              · simp at hv
          omega
        · simp at hs
      · rintro _ hm rfl
        rcases List.mem_append.1 hm with hm | hm
        · exact absurd hm (by decide)
        · exact absurd (hdig 95 hm) (by decide)
  · intro x hx e
    obtain ⟨p, _, hs⟩ := (crFontsOf_mem hl).2 x hx
    unfold fontName at e
    rw [h1] at e
    have := (fontName_inj (splitFont_pfx hs) (by decide) (by omega) e).2
    have := hlow x hx
    omega

theorem valueOf_none_of {ps : Props} {k : Bytes} (h : ∀ p ∈ ps, p.key ≠ k) : valueOf ps k = none := by
  unfold valueOf
  rw [Option.map_eq_none_iff, List.find?_eq_none]
  intro p hp
  simpa using h p hp

theorem refOf_ref {v : Int} (h : Int64 v) : refOf (itoa v ++ b!" 0 R") = some v := by
  have := readObjID_refString h
  have e : refString v 0 = itoa v ++ b!" 0 R" := by simp [refString, show itoa 0 = b!"0" from rfl]
  rw [e] at this
  simp only [refOf, this]

theorem valueOf_fontProps {a b : List CrFont} {f : CrFont} (h : ∀ x ∈ a, fontName x ≠ fontName f) : valueOf (fontProps (a ++ f :: b)) (fontName f) = some (itoa f.objID ++ b!" 0 R") := by
  rw [fontProps_append, valueOf_append, valueOf_none_of]
  · simp [fontProps, valueOf, fontName]
  · intro p hp
    obtain ⟨x, hx, rfl⟩ := List.mem_map.1 hp
    exact h x hx

theorem named_eq {page : Int} {kind name : Bytes} {qs : Props} {v : Bytes} (h1 : resourcesOf objs page kind = some qs) (h2 : valueOf qs name = some v) :
    named objs page kind name = refOf v := by
  unfold named
  rw [h1]
  simp only [Option.bind_eq_bind, Option.bind_some, h2]

/-- an added font is found under its name -/
theorem named_new (h : FlatDoc b!"Font" objs root tree ct node pages) {ids : List Int} (hi : FontsInjected objs objs' pages (newCrFonts m ids) m) (hids : ∀ i ∈ ids, Int64 i)
    {g : FlatPage} (hg : g ∈ pages) {r : ResInfo} (hr : g.res = some r) {place : Option Int} {fs : Props} (hf : FontAt objs r place fs) :
    ∀ f ∈ newCrFonts m ids, named objs' g.id b!"Font" (fontName f) = some f.objID := by
  intro f hmem
  obtain ⟨lf, hl, hlow⟩ := hi.low.2 g hg r place fs hr hf
  have hfs := hf
  obtain ⟨w, _, ht, _⟩ := hfs
  obtain ⟨a, b, hab⟩ := List.append_of_mem hmem
  have hnd := newCrFonts_nodup ids hi.low.1
  have hfr := (new_fresh (ids := ids) hi.low.1 ht hl hlow f hmem).2
  rw [named_eq (fonts_after h hi (newCrFonts_ok ids m) hg hr hf hl) (v := itoa f.objID ++ b!" 0 R")]
  · exact refOf_ref (hids _ (by rw [← newCrFonts_ids ids m]; exact List.mem_map_of_mem hmem))
  · rw [hab, ← List.append_assoc]
    apply valueOf_fontProps
    intro x hx
    rcases List.mem_append.1 hx with hx | hx
    · exact hfr x hx
    · intro e
      rw [hab, List.map_append, List.nodup_append] at hnd
      exact hnd.2.2 _ (List.mem_map_of_mem hx) _ (List.mem_map_of_mem (List.mem_cons_self ..)) e

/-- the fonts of a page are read from its resources -/
theorem fontAt_of_resources (h : FlatDoc b!"Font" objs root tree ct node pages) (hr : FontsReadable objs pages) {g : FlatPage} (hg : g ∈ pages) {fs : Props}
    (hfs : resourcesOf objs g.id b!"Font" = some fs) : ∃ r place, g.res = some r ∧ FontAt objs r place fs := by
  have hok := h.pagesOk g hg
  cases hgr : g.res with
  | none =>
    have := hok.res
    rw [hgr] at this
    unfold resourcesOf at hfs
    rw [entriesOf_of hok.entries] at hfs
    simp only [Option.bind_eq_bind, Option.bind_some, show valueOf g.entries b!"Resources" = none from this, Option.bind_none] at hfs
    simp at hfs
  | some r =>
    obtain ⟨t1, _, _, v, hv, hd⟩ := resEntries hok hgr
    rcases hr g hg r hgr with h0 | ⟨place, fs', hfs'⟩
    · unfold resourcesOf at hfs
      rw [entriesOf_of hok.entries] at hfs
      simp only [Option.bind_eq_bind, Option.bind_some, onlyKey_valueOf hv, dictOf_at (mem_tidy hok.tidy (onlyKey_mem hv)) hd, h0, Option.bind_none] at hfs
      simp at hfs
    · have e := fonts_before h hg hgr hfs'
      rw [hfs] at e
      simp only [Option.some.injEq] at e
      subst e
      exact ⟨r, place, rfl, hfs'⟩

/-- **C51** (for the step that adds the fonts).  In a document with a flat page tree every page whose resources have a list of fonts knows every added
font under its name, wherever resources and list are written and however they are shared.  Missing: the steps of `Save` after it. -/
theorem C51_fonts_seen_partial {σ : Nat → Shuffle} {d d' : Doc} {ids : List Int} (h : FlatDoc b!"Font" d.objs d.rootObjID tree ct node pages)
    (hr : FontsReadable d.objs pages) (hids : ∀ i ∈ ids, Int64 i) (hok : injectFonts σ d ids = .ok (d', new)) :
    new.map (·.objID) = ids ∧
      ∀ g ∈ pages, ∀ r, g.res = some r → valueOf r.entries b!"Font" ≠ none → ∀ f ∈ new, named d'.objs g.id b!"Font" (fontName f) = some f.objID := by
  obtain ⟨m, rfl, hi, _⟩ := injectFonts_flat h hr hok
  refine ⟨newCrFonts_ids ids m, fun g hg r hgr hne f hf => ?_⟩
  rcases hr g hg r hgr with h0 | ⟨place, fs, hfs⟩
  · exact absurd h0 hne
  · exact named_new h hi hids hg hgr hfs f hf

/-- **C17** (first half, for the step that adds the fonts).  In a document with a flat page tree the names of the added fonts are pairwise different and
differ from every font name in the resources of any page, for every iteration order of the maps.  Missing: deeper page trees, for which it is false
(`C17_refuted_deep`). -/
theorem C17_fresh_partial {σ : Nat → Shuffle} {d d' : Doc} {ids : List Int} (h : FlatDoc b!"Font" d.objs d.rootObjID tree ct node pages)
    (hr : FontsReadable d.objs pages) (hok : injectFonts σ d ids = .ok (d', new)) :
    new.map (·.objID) = ids ∧ (new.map fontName).Nodup ∧
      ∀ g ∈ pages, ∀ fs, resourcesOf d.objs g.id b!"Font" = some fs → ∀ p ∈ fs, ∀ f ∈ new, p.key ≠ fontName f := by
  obtain ⟨m, rfl, hi, _⟩ := injectFonts_flat h hr hok
  refine ⟨newCrFonts_ids ids m, newCrFonts_nodup ids hi.low.1, fun g hg fs hfs p hp f hf => ?_⟩
  obtain ⟨r, place, hgr, hfs'⟩ := fontAt_of_resources h hr hg hfs
  obtain ⟨lf, hl, hlow⟩ := hi.low.2 g hg r place fs hgr hfs'
  have ht := hfs'
  obtain ⟨w, _, ht, _⟩ := ht
  exact (new_fresh (ids := ids) hi.low.1 ht hl hlow f hf).1 p hp

theorem readObjID_range {v : Bytes} {i : Int} (h : readObjIDFromDictionary v = .ok i) : Int64 i := by
  unfold readObjIDFromDictionary at h
  simp only at h
  split at h
  · simp at h
  · split at h
    · split at h
      · rename_i n hn
        simp only [Res.ok.injEq] at h
        subst h
        have := atoi_range hn
        constructor <;> omega
      · simp at h
    · simp at h

/-- numbered names are written as they were -/
theorem crFontsOf_numbered {fs : Props} (ht : Tidy fs) (hn : ∀ p ∈ fs, NumberedName p.key) : ∀ {lf : List CrFont}, crFontsOf fs = .ok lf →
    lf.map fontName = fs.map (·.key) ∧ ∀ name v i, valueOf fs name = some v → refOf v = some i → Int64 i ∧ valueOf (fontProps lf) name = some (itoa i ++ b!" 0 R") := by
  induction fs with
  | nil =>
    intro lf h
    simp only [crFontsOf, Res.ok.injEq] at h
    subst h
    simp [valueOf]
  | cons p t ih =>
    intro lf h
    rw [crFontsOf, Res.bind_eq_ok] at h
    obtain ⟨⟨a, n⟩, h1, h⟩ := h
    rw [Res.bind_eq_ok] at h
    obtain ⟨id, h3, h⟩ := h
    rw [Res.bind_eq_ok] at h
    obtain ⟨r, h2, h⟩ := h
    simp only [Res.ok.injEq] at h
    subst h
    obtain ⟨i1, i2⟩ := ih (Spec.Tidy.tail ht) (fun q hq => hn q (by simp [hq])) h2
    obtain ⟨b, k, hk, hb, hc⟩ := hn p (by simp)
    rw [key_trim (ht p (by simp)).1, hk, splitFont_numbered hc hb] at h1
    simp only [Res.ok.injEq, Prod.mk.injEq] at h1
    obtain ⟨rfl, rfl⟩ := h1
    have hname : b ++ itoa (k : Int) = p.key := by rw [itoa_natCast, hk]
    constructor
    · simp only [List.map_cons, i1, List.cons.injEq, and_true]
      exact hname
    · intro name v i hv hi
      simp only [fontProps, List.map_cons]
      unfold valueOf at hv ⊢
      rw [List.find?_cons] at hv ⊢
      simp only [hname]
      by_cases hp : p.key = name
      · simp only [hp, decide_true, Option.map_some, Option.some.injEq] at hv ⊢
        subst hv
        have hi' := refOf_some hi
        rw [h3] at hi'
        simp only [Res.ok.injEq] at hi'
        subst hi'
        exact ⟨readObjID_range h3, rfl⟩
      · simp only [hp, decide_false] at hv ⊢
        exact i2 name v i hv hi

/-- **C18** (for the step that adds the fonts).  In a document with a flat page tree a page whose font names are all of the usual form (text without
digits and underscores, then a number without leading zeros) finds each of its fonts under the same name afterwards.  Missing: other names, for which it
is false (`C18_refuted`), and the steps of `Save` after it. -/
theorem C18_kept_partial {σ : Nat → Shuffle} {d d' : Doc} {ids : List Int} (h : FlatDoc b!"Font" d.objs d.rootObjID tree ct node pages)
    (hr : FontsReadable d.objs pages) (hok : injectFonts σ d ids = .ok (d', new)) :
    ∀ g ∈ pages, ∀ fs, resourcesOf d.objs g.id b!"Font" = some fs → (∀ p ∈ fs, NumberedName p.key) →
      ∀ name i, named d.objs g.id b!"Font" name = some i → named d'.objs g.id b!"Font" name = some i := by
  obtain ⟨m, rfl, hi, _⟩ := injectFonts_flat h hr hok
  intro g hg fs hfs hnum name i hname
  obtain ⟨r, place, hgr, hfa⟩ := fontAt_of_resources h hr hg hfs
  obtain ⟨lf, hl, _⟩ := hi.low.2 g hg r place fs hgr hfa
  have ht := hfa
  obtain ⟨w, _, ht, _⟩ := ht
  have hav := fonts_after h hi (newCrFonts_ok ids m) hg hgr hfa hl
  cases hv : valueOf fs name with
  | none =>
    unfold named at hname
    rw [hfs] at hname
    simp [hv] at hname
  | some v =>
    rw [named_eq hfs hv] at hname
    obtain ⟨h1, h2⟩ := (crFontsOf_numbered ht hnum hl).2 name v i hv hname
    rw [named_eq hav (v := itoa i ++ b!" 0 R") (by rw [fontProps_append, valueOf_append, h2]; rfl)]
    exact refOf_ref h1

/-- the dictionary of the resources of a page -/
def Spec.resDict (objs : List Obj) (page : Int) : Option Props := do
  let ps ← entriesOf objs page
  let v ← valueOf ps b!"Resources"
  dictOf objs v

theorem resDict_eq {page : Int} {ps rs : Props} {v : Bytes} (h1 : Entries objs page ps) (h2 : valueOf ps b!"Resources" = some v) (h3 : dictOf objs v = some rs) :
    resDict objs page = some rs := by
  unfold resDict
  rw [entriesOf_of h1]
  simp only [Option.bind_eq_bind, Option.bind_some, h2, h3]

theorem resDict_before {k : Bytes} (h : FlatDoc k objs root tree ct node pages) {g : FlatPage} (hg : g ∈ pages) {r : ResInfo} (hr : g.res = some r) :
    resDict objs g.id = some r.entries := by
  have hok := h.pagesOk g hg
  obtain ⟨t1, _, _, v, hv, hd⟩ := resEntries hok hr
  exact resDict_eq hok.entries (onlyKey_valueOf hv) (dictOf_at (mem_tidy hok.tidy (onlyKey_mem hv)) hd)

theorem setFirst_keys (k v : Bytes) : ∀ ps : Props, (setFirst k v ps).map (·.key) = ps.map (·.key)
  | [] => rfl
  | p :: t => by
    rw [setFirst]
    split
    · rfl
    · rw [List.map_cons, setFirst_keys k v t, List.map_cons]

/-- the resources of a page afterwards -/
theorem resDict_after (h : FlatDoc b!"Font" objs root tree ct node pages) (hrd : FontsReadable objs pages) (hi : FontsInjected objs objs' pages new m) (hnew : ∀ f ∈ new, CrFontOk f)
    {g : FlatPage} (hg : g ∈ pages) {r : ResInfo} (hr : g.res = some r) :
    ∃ rs, resDict objs' g.id = some rs ∧ (∀ k, k ≠ b!"Font" → valueOf rs k = valueOf r.entries k) ∧
      ((∀ i, r.place = some i → sharers pages i = 1) → rs.map (·.key) = r.entries.map (·.key)) := by
  have hok := h.pagesOk g hg
  obtain ⟨t1, _, _, v, hv, hd⟩ := resEntries hok hr
  have htv := mem_tidy hok.tidy (onlyKey_mem hv)
  by_cases hin : ∃ fs, FontAt objs r none fs
  · obtain ⟨fs, hf⟩ := hin
    obtain ⟨lf, hl, _⟩ := hi.low.2 g hg r none fs hr hf
    have hw' := hf
    obtain ⟨w, hw, hfd⟩ := hw'
    have ht := fontProps_ok hi hnew hfd.1 hl
    cases hpl : r.place with
    | none =>
      have ht2 : Tidy (setFirst b!"Font" (dictVal (fontProps (lf ++ new))) r.entries) := setFirst_tidy t1 hw (tidy_dictVal ht) (lacks_dictVal ht)
      refine ⟨_, resDict_eq (hi.page g hg r fs lf hr hpl hf hl) (v := dictVal (setFirst b!"Font" (dictVal (fontProps (lf ++ new))) r.entries)) ?_ (dictOf_dictVal ht2), ?_, ?_⟩
      · rw [setFirst_valueOf (onlyKey_valueOf hv), if_pos rfl]
      · intro k hk
        rw [setFirst_valueOf hw, if_neg hk]
      · intro _
        exact setFirst_keys _ _ _
    | some j =>
      rw [hpl] at hd
      have hk := page_kept h hg (fun r' fs' h1 h2 h3 => by
        rw [hr] at h1
        cases h1
        rw [hpl] at h2
        simp at h2)
      have hw2 : valueOf (copies (sharers pages j) r.entries) b!"Font" = some w := by rw [copies_valueOf (sharers_pos hg hr hpl), hw]
      refine ⟨_, resDict_eq (entries_frame (hi.frame _ hk) hok.entries) (onlyKey_valueOf hv) (dictOf_ref htv hd.2.1 (hi.res g hg r fs lf j hr hpl hf hl)), ?_, ?_⟩
      · intro k hk
        rw [setFirst_valueOf hw2, if_neg hk, copies_valueOf (sharers_pos hg hr hpl)]
      · intro hs
        rw [setFirst_keys, hs j rfl]
        simp [copies]
  · have hk := page_kept h hg (fun r' fs' h1 h2 h3 => by
      rw [hr] at h1
      cases h1
      exact hin ⟨fs', h3⟩)
    have he := entries_frame (hi.frame _ hk) hok.entries
    refine ⟨r.entries, resDict_eq he (onlyKey_valueOf hv) ?_, fun _ _ => rfl, fun _ => rfl⟩
    cases hpl : r.place with
    | none =>
      rw [hpl] at hd
      rw [dictOf, if_pos hd.2.1, hd.2.2]
    | some j =>
      rw [hpl] at hd
      exact dictOf_ref htv hd.2.1 (entries_frame (hi.frame _ (res_kept h hg hr hpl (fun fs' h3 => hin ⟨fs', h3⟩))) hd.2.2)

/-- **C64** (for the step that adds the fonts).  In a document with a flat page tree every entry of the resources of a page other than the list of fonts
keeps its value, wherever the resources are written and however they are shared.  Missing: the step that adds images, for which it is false
(`C64_refuted`). -/
theorem C64_fonts_step_partial {σ : Nat → Shuffle} {d d' : Doc} {ids : List Int} (h : FlatDoc b!"Font" d.objs d.rootObjID tree ct node pages)
    (hr : FontsReadable d.objs pages) (hok : injectFonts σ d ids = .ok (d', new)) :
    ∀ g ∈ pages, ∀ rs, resDict d.objs g.id = some rs → ∃ rs', resDict d'.objs g.id = some rs' ∧ ∀ k, k ≠ b!"Font" → valueOf rs' k = valueOf rs k := by
  obtain ⟨m, rfl, hi, _⟩ := injectFonts_flat h hr hok
  intro g hg rs hrs
  have hok := h.pagesOk g hg
  cases hgr : g.res with
  | none =>
    have := hok.res
    rw [hgr] at this
    unfold resDict at hrs
    rw [entriesOf_of hok.entries] at hrs
    simp only [Option.bind_eq_bind, Option.bind_some, show valueOf g.entries b!"Resources" = none from this, Option.bind_none] at hrs
    simp at hrs
  | some r =>
    rw [resDict_before h hg hgr] at hrs
    simp only [Option.some.injEq] at hrs
    subst hrs
    obtain ⟨rs', h1, h2, _⟩ := resDict_after h hr hi (newCrFonts_ok ids m) hg hgr
    exact ⟨rs', h1, h2⟩

/-- **C49** (for the step that adds the fonts).  In a document with a flat page tree in which no two pages share a resource object, and in which the font
names have the usual form, resource dictionaries and font lists without repeated keys stay so.  Missing: shared resource objects, for which it is false
(`C49_refuted`), and the steps of `Save` after it. -/
theorem C49_unshared_partial {σ : Nat → Shuffle} {d d' : Doc} {ids : List Int} (h : FlatDoc b!"Font" d.objs d.rootObjID tree ct node pages)
    (hr : FontsReadable d.objs pages) (hok : injectFonts σ d ids = .ok (d', new))
    (hs : ∀ g ∈ pages, ∀ i, g.resPlace = some i → sharers pages i = 1) :
    ∀ g ∈ pages, (∀ rs, resDict d.objs g.id = some rs → (rs.map (·.key)).Nodup → ∃ rs', resDict d'.objs g.id = some rs' ∧ (rs'.map (·.key)).Nodup) ∧
      (∀ fs, resourcesOf d.objs g.id b!"Font" = some fs → (∀ p ∈ fs, NumberedName p.key) → (fs.map (·.key)).Nodup →
        ∃ fs', resourcesOf d'.objs g.id b!"Font" = some fs' ∧ (fs'.map (·.key)).Nodup) := by
  obtain ⟨m, rfl, hi, _⟩ := injectFonts_flat h hr hok
  intro g hg
  constructor
  · intro rs hrs hnd
    have hok := h.pagesOk g hg
    cases hgr : g.res with
    | none =>
      have := hok.res
      rw [hgr] at this
      unfold resDict at hrs
      rw [entriesOf_of hok.entries] at hrs
      simp only [Option.bind_eq_bind, Option.bind_some, show valueOf g.entries b!"Resources" = none from this, Option.bind_none] at hrs
      simp at hrs
    | some r =>
      rw [resDict_before h hg hgr] at hrs
      simp only [Option.some.injEq] at hrs
      subst hrs
      obtain ⟨rs', h1, _, h3⟩ := resDict_after h hr hi (newCrFonts_ok ids m) hg hgr
      exact ⟨rs', h1, by rw [h3 (fun i hi => hs g hg i (by rw [FlatPage.resPlace, hgr]; exact hi))]; exact hnd⟩
  · intro fs hfs hnum hnd
    obtain ⟨r, place, hgr, hfa⟩ := fontAt_of_resources h hr hg hfs
    obtain ⟨lf, hl, hlow⟩ := hi.low.2 g hg r place fs hgr hfa
    have ht := hfa
    obtain ⟨w, _, ht, _⟩ := ht
    refine ⟨_, fonts_after h hi (newCrFonts_ok ids m) hg hgr hfa hl, ?_⟩
    have e : (fontProps (lf ++ newCrFonts m ids)).map (·.key) = fs.map (·.key) ++ (newCrFonts m ids).map fontName := by
      rw [← (crFontsOf_numbered ht hnum hl).1, ← List.map_append, fontProps, List.map_map]
      rfl
    rw [e, List.nodup_append]
    refine ⟨hnd, newCrFonts_nodup ids hi.low.1, ?_⟩
    intro x hx y hy
    obtain ⟨p, hp, rfl⟩ := List.mem_map.1 hx
    obtain ⟨f, hf, rfl⟩ := List.mem_map.1 hy
    exact (new_fresh (ids := ids) hi.low.1 ht hl hlow f hf).1 p hp

/-! ### a document with every placement -/

/-- page 3 has resources and fonts in place, pages 4 and 5 share resources in an object, page 6 has the fonts in an object, page 7 shares these fonts but
has resources in place, page 8 has no resources -/
def flatSample : List Obj := [
  ⟨1, b!"<</Type /Catalog /Pages 2 0 R>>"⟩,
  ⟨2, b!"<</Type /Pages /Count 6 /Kids [3 0 R 4 0 R 5 0 R 6 0 R 7 0 R 8 0 R]>>"⟩,
  ⟨3, b!"<</Type /Page /Parent 2 0 R /Resources <</ProcSet [/PDF] /Font <</F1 12 0 R /G7 12 0 R>>>> /Contents 20 0 R>>"⟩,
  ⟨4, b!"<</Type /Page /Parent 2 0 R /Resources 9 0 R>>"⟩,
  ⟨5, b!"<</Type /Page /Parent 2 0 R /Resources 9 0 R>>"⟩,
  ⟨6, b!"<</Type /Page /Parent 2 0 R /Resources 10 0 R>>"⟩,
  ⟨7, b!"<</Type /Page /Parent 2 0 R /Resources <</Font 11 0 R>>>>"⟩,
  ⟨8, b!"<</Type /Page /Parent 2 0 R>>"⟩,
  ⟨9, b!"<</ProcSet [/PDF] /Font <</F2 12 0 R>>>>"⟩,
  ⟨10, b!"<</Font 11 0 R /ProcSet [/Text]>>"⟩,
  ⟨11, b!"<</F4 12 0 R>>"⟩,
  ⟨12, b!"<</Type /Font>>"⟩]

/-- the entries as they are read -/
def flatEntries (i : Int) : Props := (entriesOf flatSample i).getD []

def flatRes3 : Props := [⟨b!"ProcSet", b!"[/PDF]"⟩, ⟨b!"Font", b!"<</F1 12 0 R/G7 12 0 R>>"⟩]
def flatRes7 : Props := [⟨b!"Font", b!"11 0 R"⟩]

def flatPages : List FlatPage := [
  ⟨3, flatEntries 3, some ⟨none, flatRes3⟩⟩,
  ⟨4, flatEntries 4, some ⟨some 9, flatEntries 9⟩⟩,
  ⟨5, flatEntries 5, some ⟨some 9, flatEntries 9⟩⟩,
  ⟨6, flatEntries 6, some ⟨some 10, flatEntries 10⟩⟩,
  ⟨7, flatEntries 7, some ⟨none, flatRes7⟩⟩,
  ⟨8, flatEntries 8, none⟩]

set_option maxRecDepth 20000 in
theorem flatSample_flat : FlatDoc b!"Font" flatSample 1 2 (flatEntries 1) (flatEntries 2) flatPages := checkFlat_ok (by decide +kernel)

theorem flatSample_fonts : FontsReadable flatSample flatPages := checkFonts_ok (by decide +kernel)

def flatDocument : Doc := { rootObjID := 1, xrefs := [], objs := flatSample, pageSizes := [] }

/-- all hypotheses hold for the sample: two fonts are added as F8 and F9 -/
example : FlatDoc b!"Font" flatDocument.objs flatDocument.rootObjID 2 (flatEntries 1) (flatEntries 2) flatPages ∧ FontsReadable flatDocument.objs flatPages ∧
    (match injectFonts (fun _ => .id) flatDocument [30, 31] with
      | .ok (d', new) => some (new, flatPages.map (fun g => named d'.objs g.id b!"Font" b!"F9"), named d'.objs 3 b!"Font" b!"G7")
      | _ => none) = some ([⟨b!"F", 8, 30⟩, ⟨b!"F", 9, 31⟩], [some 31, some 31, some 31, some 31, some 31, none], some 12) ∧
    (∀ p ∈ [b!"F1", b!"G7"], NumberedName p) := by
  refine ⟨flatSample_flat, flatSample_fonts, ?_, ?_⟩
  · decide +kernel
  · intro p hp
    simp only [List.mem_cons, List.not_mem_nil, or_false] at hp
    rcases hp with rfl | rfl
    · exact ⟨b!"F", 1, by decide, by decide, by decide⟩
    · exact ⟨b!"G", 7, by decide, by decide, by decide⟩

end Verif
