import Verif.Theorems.SavedExample
/-
C18: which fonts lose their names, for every flat document.
-/
namespace Verif
open Spec

theorem digitsVal_lt : ∀ (s : Bytes) {acc n k : Nat}, digitsVal acc s = some n → acc < 10 ^ k → n < 10 ^ (k + s.length)
  | [], acc, n, k, h, hk => by
    simp only [digitsVal, Option.some.injEq] at h
    subst h
    simpa using hk
  | c :: t, acc, n, k, h, hk => by
    unfold digitsVal at h
    split at h
    · rename_i hd
      have h1 : acc * 10 + (c.toNat - 48) < 10 ^ (k + 1) := by
        have : c.toNat ≤ 57 := by
          simp only [isDigit, Bool.and_eq_true, decide_eq_true_eq] at hd
          exact hd.2
        rw [Nat.pow_succ]
        omega
      have := digitsVal_lt t h h1
      simp only [List.length_cons]
      rw [show k + (t.length + 1) = k + 1 + t.length by omega]
      exact this
    · cases h

theorem parseNat_length {s : Bytes} {n : Nat} (h : parseNat s = some n) : (natDigits n).length ≤ s.length := by
  unfold parseNat at h
  split at h
  · cases h
  · rename_i hne
    have h1 := digitsVal_lt s (k := 0) h (by simp)
    refine natDigits_length (by simpa using h1) ?_
    cases s with
    | nil => simp at hne
    | cons _ _ => simp

/-- a number printed again is not longer -/
theorem atoi_length {s : Bytes} {v : Int} (h : atoi s = some v) : (itoa v).length ≤ s.length := by
  have pos : ∀ {t : Bytes} {v : Int}, (parseNat t).map (fun (n : Nat) => (n : Int)) = some v → (itoa v).length ≤ t.length := by
    intro t v h
    obtain ⟨n, h1, rfl⟩ := Option.map_eq_some_iff.1 h
    rw [itoa_natCast]
    exact parseNat_length h1
  unfold atoi at h
  simp only at h
  split at h
  · rename_i r hr
    split at h
    · simp only [Option.some.injEq] at h
      subst h
      split at hr
      · rename_i t
        obtain ⟨n, h1, rfl⟩ := Option.map_eq_some_iff.1 hr
        have := parseNat_length h1
        cases n with
        | zero =>
          simp only [Nat.cast_zero, neg_zero]
          have e : itoa (0 : Int) = natDigits 0 := rfl
          rw [e]
          simp only [List.length_cons]
          omega
        | succ n =>
          have e : itoa (-((n + 1 : Nat) : Int)) = 45 :: natDigits (n + 1) := rfl
          rw [e]
          simp only [List.length_cons]
          omega
      · have := pos hr
        simp only [List.length_cons]
        omega
      · exact pos hr
    · cases h
  · cases h

/-- What is written for a name with an underscore is shorter than the name. -/
theorem splitFont_shorter {s p : Bytes} {v : Int} (h : splitFont s = .ok (p, v)) (hu : (95 : UInt8) ∈ s) : (p ++ itoa v).length < s.length := by
  unfold splitFont at h
  split at h
  · cases h
  · rename_i i _
    simp only at h
    split at h
    · cases h
    · rename_i hi
      split at h
      · rename_i w hw
        simp only [Res.ok.injEq, Prod.mk.injEq] at h
        obtain ⟨rfl, rfl⟩ := h
        have h1 := atoi_length hw
        have h2 : (removeByte 95 s).length < s.length := by
          unfold removeByte
          exact List.length_filter_lt_length_iff_exists.2 ⟨95, hu, by simp⟩
        simp only [List.length_drop, List.length_append, List.length_take] at h1 ⊢
        omega
      · cases h

/-- What is written for a name without underscores has none. -/
theorem splitFont_plain {s p : Bytes} {v : Int} (h : splitFont s = .ok (p, v)) (hu : (95 : UInt8) ∉ s) : (95 : UInt8) ∉ p ++ itoa v := by
  unfold splitFont at h
  split at h
  · cases h
  · simp only at h
    split at h
    · cases h
    · split at h
      · simp only [Res.ok.injEq, Prod.mk.injEq] at h
        obtain ⟨rfl, rfl⟩ := h
        rw [List.mem_append, not_or]
        exact ⟨fun hm => hu (List.mem_of_mem_take hm), itoa_not (by decide) (by decide)⟩
      · cases h

theorem crFontsOf_names {fs : Props} (ht : Tidy fs) : ∀ {lf : List CrFont}, crFontsOf fs = .ok lf → ∀ x ∈ lf, ∃ p ∈ fs,
    ((95 : UInt8) ∈ p.key → (x.pfx ++ itoa x.idx).length < p.key.length) ∧ ((95 : UInt8) ∉ p.key → (95 : UInt8) ∉ x.pfx ++ itoa x.idx) := by
  induction fs with
  | nil =>
    intro lf h
    simp only [crFontsOf, Res.ok.injEq] at h
    subst h
    simp
  | cons p t ih =>
    intro lf h x hx
    rw [crFontsOf, Res.bind_eq_ok] at h
    obtain ⟨⟨a, n⟩, h1, h⟩ := h
    rw [Res.bind_eq_ok] at h
    obtain ⟨id, h3, h⟩ := h
    rw [Res.bind_eq_ok] at h
    obtain ⟨r, h2, h⟩ := h
    simp only [Res.ok.injEq] at h
    subst h
    rcases List.mem_cons.1 hx with rfl | hx
    · rw [key_trim (ht p (by simp)).1] at h1
      exact ⟨p, by simp, splitFont_shorter h1, splitFont_plain h1⟩
    · obtain ⟨q, hq, h4⟩ := ih (Spec.Tidy.tail ht) h2 x hx
      exact ⟨q, by simp [hq], h4⟩

theorem newCrFonts_letter : ∀ (ids : List Int) (m : Int), ∀ c ∈ newCrFonts m ids, c.pfx = b!"F"
  | [], _, c, h => by simp [newCrFonts] at h
  | _ :: ids, m, c, h => by
    rw [newCrFonts] at h
    rcases List.mem_cons.1 h with rfl | h
    · rfl
    · exact newCrFonts_letter ids _ c h

variable {env : Env} {a : App} {b : Built} {tree : Int} {ct node : Props} {pages : List FlatPage} {L : List PageC}

/-- **C18 is violated by every flat document with an underscore in the name of a font.**  However it was edited: if a page has such a font, then after `Save` there is a font of the page
that is no longer found under its name (the one with the longest such name). -/
theorem C18_refuted_all (hinv : NumInv a) (hp : a.protection = none) (hb : a.build env = .ok b) (h : SaveDoc env.unzip a.doc.objs a.doc.rootObjID tree ct node pages L) :
    ∀ g ∈ pages, ∀ fs, resourcesOf a.doc.objs g.id b!"Font" = some fs → (∃ p ∈ fs, (95 : UInt8) ∈ p.key) →
      ∃ p ∈ fs, (95 : UInt8) ∈ p.key ∧ named b.doc.objs g.id b!"Font" p.key = none := by
  obtain ⟨fids, d1, m, added, iids, d3, xs, c, n, streams, hs, hm, _, _, _, _, _, hsd⟩ := build_flat hinv hp hb h
  intro g hg fs hfs hex
  obtain ⟨r, place, hgr, hfa⟩ := fontAt_of_resources h.fonts h.readable hg hfs
  obtain ⟨lf, hl, _, hres⟩ := hsd.font g hg r hgr place fs hfa
  obtain ⟨w, _, ht, _⟩ := hfa
  -- the longest of the names
  obtain ⟨p, hpm, hmax⟩ : ∃ p ∈ fs.filter (fun p : PropD => decide ((95 : UInt8) ∈ p.key)), ∀ q ∈ fs.filter (fun p : PropD => decide ((95 : UInt8) ∈ p.key)), q.key.length ≤ p.key.length := by
    obtain ⟨p0, hp0, hu0⟩ := hex
    have hne : fs.filter (fun p : PropD => decide ((95 : UInt8) ∈ p.key)) ≠ [] := by
      intro e
      have : p0 ∈ fs.filter (fun p : PropD => decide ((95 : UInt8) ∈ p.key)) := List.mem_filter.2 ⟨hp0, by simpa using hu0⟩
      rw [e] at this
      cases this
    generalize fs.filter (fun p : PropD => decide ((95 : UInt8) ∈ p.key)) = l at hne
    clear hl ht hfs hp0
    induction l with
    | nil => exact absurd rfl hne
    | cons x t ih =>
      by_cases ht : t = []
      · subst ht
        exact ⟨x, by simp, by simp⟩
      · obtain ⟨y, hy, hm⟩ := ih ht
        by_cases hxy : y.key.length ≤ x.key.length
        · refine ⟨x, by simp, fun q hq => ?_⟩
          rcases List.mem_cons.1 hq with rfl | hq
          · exact le_refl _
          · exact (hm q hq).trans hxy
        · refine ⟨y, by simp [hy], fun q hq => ?_⟩
          rcases List.mem_cons.1 hq with rfl | hq
          · omega
          · exact hm q hq
  obtain ⟨hpf, hpu⟩ := List.mem_filter.1 hpm
  have hpu : (95 : UInt8) ∈ p.key := by simpa using hpu
  refine ⟨p, hpf, hpu, ?_⟩
  have hnone : valueOf (fontProps (lf ++ newCrFonts m fids)) p.key = none := by
    unfold valueOf
    rw [Option.map_eq_none_iff, List.find?_eq_none]
    intro x hx
    simp only [fontProps, List.mem_map, List.mem_append] at hx
    obtain ⟨f, hf, rfl⟩ := hx
    simp only [decide_eq_true_eq]
    intro e
    rcases hf with hf | hf
    · obtain ⟨q, hq, h1, h2⟩ := crFontsOf_names ht hl f hf
      by_cases hu : (95 : UInt8) ∈ q.key
      · have := h1 hu
        have := hmax q (List.mem_filter.2 ⟨hq, by simpa using hu⟩)
        rw [e] at *
        omega
      · exact h2 hu (e ▸ hpu)
    · have : (95 : UInt8) ∉ f.pfx ++ itoa f.idx := by
        rw [newCrFonts_letter _ _ f hf, List.mem_append, not_or]
        exact ⟨by decide, itoa_not (by decide) (by decide)⟩
      exact this (e ▸ hpu)
  unfold named
  rw [hres]
  simp only [Option.bind_eq_bind, Option.bind_some]
  rw [hnone]
  rfl

/-- two pages that share their resources, with fonts /C2_0 and /C2_10 -/
def underSample : List Obj := [
  ⟨1, b!"<</Type /Catalog /Pages 2 0 R>>"⟩,
  ⟨2, b!"<</Type /Pages /Count 2 /Kids [3 0 R 5 0 R]>>"⟩,
  ⟨3, b!"<</Type /Page /Parent 2 0 R /MediaBox [0 0 595 842] /Resources 7 0 R /Contents 4 0 R>>"⟩,
  ⟨4, b!"<</Length 5>>\nstream\nq 7 Q\nendstream"⟩,
  ⟨5, b!"<</Type /Page /Parent 2 0 R /MediaBox [0 0 200 300] /Resources 7 0 R /Contents 6 0 R>>"⟩,
  ⟨6, b!"<</Length 5>>\nstream\nq 8 Q\nendstream"⟩,
  ⟨7, b!"<</ProcSet [/PDF] /Font <</C2_0 8 0 R /C2_10 8 0 R>>>>"⟩,
  ⟨8, b!"<</Type /Font>>"⟩]

def underPages : List FlatPage := [
  ⟨3, openEntries underSample 3, some ⟨some 7, openEntries underSample 7⟩⟩,
  ⟨5, openEntries underSample 5, some ⟨some 7, openEntries underSample 7⟩⟩]

set_option maxRecDepth 20000 in
theorem underSample_ok : SaveDoc some (opened underSample) 1 2 (openEntries underSample 1) (openEntries underSample 2) underPages twoBodies :=
  checkSave_ok (by decide +kernel) (bodies_ok (ps := openEntries underSample 3) (qs := openEntries underSample 5) (by decide +kernel))

set_option maxRecDepth 20000 in
theorem underSample_ready : Ready (workOn underSample) underSample ∧ saveResult (workOn underSample) [b!"C2_0", b!"C2_10", b!"C20", b!"C210"] [] =
    some (15, [none, none, none, none, some 8, some 8, some 8, some 8], []) := by decide +kernel

set_option maxRecDepth 20000 in
/-- page 1 of the sample has such fonts before, and one of them is not found afterwards -/
example : ∃ b fs, (workOn underSample).build plainEnv = .ok b ∧ resourcesOf (workOn underSample).doc.objs 3 b!"Font" = some fs ∧ (∃ p ∈ fs, (95 : UInt8) ∈ p.key) ∧
    ∃ p ∈ fs, (95 : UInt8) ∈ p.key ∧ named b.doc.objs 3 b!"Font" p.key = none := by
  obtain ⟨h1, h2⟩ := underSample_ready
  obtain ⟨b, hb, hl⟩ := build_of h2
  have hd : SaveDoc plainEnv.unzip (workOn underSample).doc.objs (workOn underSample).doc.rootObjID 2 (openEntries underSample 1) (openEntries underSample 2) underPages twoBodies := by
    rw [h1.1, h1.2.1]
    exact underSample_ok
  have hf : resourcesOf (workOn underSample).doc.objs 3 b!"Font" = some [⟨b!"C2_0", b!"8 0 R"⟩, ⟨b!"C2_10", b!"8 0 R"⟩] := by
    rw [h1.1]
    decide +kernel
  have hu : ∃ p ∈ ([⟨b!"C2_0", b!"8 0 R"⟩, ⟨b!"C2_10", b!"8 0 R"⟩] : Props), (95 : UInt8) ∈ p.key := ⟨_, List.mem_cons_self .., by decide⟩
  exact ⟨b, _, hb, hf, hu, C18_refuted_all h1.inv h1.2.2.1 hb hd _ (List.mem_cons_self ..) _ hf hu⟩

end Verif
