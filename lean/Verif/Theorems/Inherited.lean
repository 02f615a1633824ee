import Verif.Lemmas.DictVal
import Verif.Theorems.File
/-!
C46 and C38 in general: pages that inherit their rectangle, and pages whose rectangle is an object of its own.
-/
namespace Verif
open Spec

/-- the page has no rectangle of its own (it may inherit one: PDF 32000-1, 7.7.3.4) -/
def Spec.Boxless (objs : List Obj) (id : Int) : Prop := ∃ d, StdDict objs id d ∧ ∀ k v, (k, v) ∈ d → k ≠ b!"MediaBox" ∧ v ≠ .name b!"MediaBox"

/-- keys that are neither keys nor names of the dictionary are not found -/
theorem ReadAs.absent {d : List (Bytes × Val)} {ps : Props} {k : Bytes} (h : ReadAs d ps) (hk : ∀ k' v, (k', v) ∈ d → k' ≠ k ∧ v ≠ .name k) : getPropByKey ps k = none := by
  have key : ∀ p ∈ ps, p.key ≠ k := by
    induction h with
    | nil => simp
    | @name k1 n1 r r' d ps _ _ _ ih =>
      intro p hp
      have h1 := hk k1 (.name n1) (by simp)
      rcases List.mem_cons.1 hp with rfl | hp
      · exact h1.1
      rcases List.mem_cons.1 hp with rfl | hp
      · exact fun e => h1.2 (by rw [← e])
      · exact ih (fun k' v hm => hk k' v (by simp [hm])) p hp
    | @value k1 r v1 d ps _ _ _ ih =>
      intro p hp
      have h1 := hk k1 v1 (by simp)
      rcases List.mem_cons.1 hp with rfl | hp
      · exact h1.1
      · exact ih (fun k' v hm => hk k' v (by simp [hm])) p hp
  unfold getPropByKey
  rw [List.find?_eq_none]
  intro p hp
  simpa using key p hp

/-- the sizes of pages of which one has no rectangle -/
theorem sizes_boxless {isFloat : Bytes → Bool} (hf : ReadsNums isFloat) {objs : List Obj} {p : Int} (hp : Boxless objs p) (qs : List Int) : ∀ (ids : List Int) (boxes : List (List ℚ)),
    List.Forall₂ (BoxIs objs) ids boxes → ∀ n : Nat, pageSizesLoop isFloat objs n (ids ++ p :: qs) = .panic := by
  intro ids boxes h
  induction h with
  | nil =>
    intro n
    obtain ⟨d, hd, hno⟩ := hp
    obtain ⟨ps, vss, ⟨o, ho, hps⟩, _, _, hr, hg⟩ := StdDict.entries hd
    rw [List.nil_append]
    unfold pageSizesLoop readProperty
    simp only [getObj_only ho, Res.ofOption, hps, Res.ok_bind, ReadAs.absent hr hno]
    rfl
  | @cons id box ids boxes hb _ ih =>
    intro n
    obtain ⟨d, hd, he⟩ := hb
    obtain ⟨ps, vss, ⟨o, ho, hps⟩, _, _, hr, hg⟩ := StdDict.entries hd
    obtain ⟨r, v1, v2⟩ := ReadAs.value_at hr he (by intro n h; cases h)
    obtain ⟨p', hp', rfl⟩ := valueOf_some v1
    have hpm : p' ∈ ps := List.mem_of_find?_eq_some hp'
    obtain ⟨t1, ws, t2, t3⟩ := value_nums hf v2 (hg p' hpm).1 (hg p' hpm).2.1
    rw [List.cons_append]
    unfold pageSizesLoop readProperty
    simp only [getObj_only ho, Res.ofOption, hps, hp', Res.ok_bind, t1, if_true, t2, ih (n + 1)]
    rfl

/-- **C46 is violated by every well-formed file with a page that inherits its rectangle**: opening it crashes.  (The pages before it have rectangles of numbers; the rest of the
file is as in C81.) -/
theorem C46_refuted_all {env : Env} (hf : ReadsNums (fun s => (env.parseFloat s).isSome)) {raw : Bytes} {t : List (Bytes × Val)} {l : List (Nat × Entry)} {os : List Obj}
    (h : StdFile raw t l os) {root : Int} (hr : EntryIs t b!"Root" (.ref root)) {tree : Tree} (ht : StdDoc ⟨root, tableOf l, os, []⟩ tree) {ids qs : List Int} {p : Int}
    {boxes : List (List ℚ)} (hpages : tree.pages = ids ++ p :: qs) (hb : List.Forall₂ (BoxIs os) ids boxes) (hp : Boxless os p) :
    (App.openFrom env {} raw).res = .panic := by
  have hrange : InRange root := by
    obtain ⟨⟨c, hc, _⟩, _⟩ := ht
    exact StdDict.range hc
  obtain ⟨h1, h2, h3⟩ := file_parts h hr hrange
  have hroot := (StdDoc.hasTree ht).1
  have hpg := (C79_pages_partial ht).1
  have hc : checkPagesObj ⟨root, tableOf l, os, []⟩ = .ok () := by
    obtain ⟨ps, v, ⟨o, ho, hp⟩, hv, hi⟩ := hroot
    obtain ⟨p, hpp, rfl⟩ := valueOf_some hv
    unfold checkPagesObj readObjProps
    simp only at ho
    simp only [getObj_only ho, Res.ofOption, Res.ok_bind, hp, hpp, hi]
  have hz : parsePageSize (fun s => (env.parseFloat s).isSome) ⟨root, tableOf l, os, []⟩ = .panic := by
    unfold parsePageSize
    simp only [hpg, Res.ok_bind, hpages]
    exact sizes_boxless hf hp qs _ _ hb 0
  have hparse : pdfParse (fun s => (env.parseFloat s).isSome) ({} : App).doc raw = .panic := by
    show pdfParse _ emptyDoc raw = .panic
    unfold pdfParse
    simp only [h1, h2, Res.ok_bind, emptyDoc, List.nil_append, h3, hc, hz]
    rfl
  unfold App.openFrom
  simp only [hparse]

/-! ### rectangles that are objects of their own -/

/-- the rectangle of the page is an object of its own (PDF 32000-1, 7.3.10) -/
def Spec.BoxRef (objs : List Obj) (id : Int) : Prop := ∃ d j, StdDict objs id d ∧ EntryIs d b!"MediaBox" (.ref j) ∧ InRange j

/-- the sizes of pages of which some have such rectangles -/
theorem sizes_refs {isFloat : Bytes → Bool} (hf : ReadsNums isFloat) {objs : List Obj} : ∀ (ids : List Int), (∀ p ∈ ids, (∃ box, BoxIs objs p box) ∨ BoxRef objs p) → ∀ n : Nat,
    ∃ sizes, pageSizesLoop isFloat objs n ids = .ok sizes ∧ (∀ x ∈ sizes, n ≤ x.1) ∧ ∀ (i : Nat) p, ids[i]? = some p → BoxRef objs p → sizes.lookup (n + i) = none
  | [], _, n => ⟨[], rfl, by simp, by simp⟩
  | p :: ids, h, n => by
    obtain ⟨sizes, i1, i2, i3⟩ := sizes_refs hf ids (fun q hq => h q (by simp [hq])) (n + 1)
    have none_of : ∀ m : Nat, m < n + 1 → sizes.lookup m = none := by
      intro m hm
      rw [List.lookup_eq_none_iff]
      intro x hx
      have := i2 x hx
      simp only [bne_iff_ne, ne_eq]
      omega
    by_cases hr : BoxRef objs p
    · refine ⟨sizes, ?_, fun x hx => by have := i2 x hx; omega, ?_⟩
      · obtain ⟨d, j, hd, he, hj⟩ := hr
        obtain ⟨ps, vss, ⟨o, ho, hps⟩, _, _, hra, hg⟩ := StdDict.entries hd
        obtain ⟨r, v1, v2⟩ := ReadAs.value_at hra he (by intro n h; cases h)
        obtain ⟨q, hq, rfl⟩ := valueOf_some v1
        have hqm : q ∈ ps := List.mem_of_find?_eq_some hq
        have ht : propertyType q.rawVal = .dictionary := ref_type' ⟨v2, (by intro n h; cases h), (hg q hqm).1, (hg q hqm).2.2.refs, (hg q hqm).2.2.valStream⟩ (hg q hqm).2.1 hj
        unfold pageSizesLoop readProperty
        simp only [getObj_only ho, Res.ofOption, hps, hq, Res.ok_bind, ht, i1]
        rfl
      · intro i q hq hqr
        cases i with
        | zero => exact none_of _ (by omega)
        | succ i =>
          rw [List.getElem?_cons_succ] at hq
          have := i3 i q hq hqr
          rwa [show n + 1 + i = n + (i + 1) by omega] at this
    · obtain ⟨box, d, hd, he⟩ := (h p (by simp)).resolve_right hr
      obtain ⟨ps, vss, ⟨o, ho, hps⟩, _, _, hra, hg⟩ := StdDict.entries hd
      obtain ⟨r, v1, v2⟩ := ReadAs.value_at hra he (by intro n h; cases h)
      obtain ⟨q, hq, rfl⟩ := valueOf_some v1
      have hqm : q ∈ ps := List.mem_of_find?_eq_some hq
      obtain ⟨t1, ws, t2, t3⟩ := value_nums hf v2 (hg q hqm).1 (hg q hqm).2.1
      refine ⟨(n, ws) :: sizes, ?_, ?_, ?_⟩
      · unfold pageSizesLoop readProperty
        simp only [getObj_only ho, Res.ofOption, hps, hq, Res.ok_bind, t1, if_true, t2, i1]
      · intro x hx
        rcases List.mem_cons.1 hx with rfl | hx
        · exact le_refl _
        · have := i2 x hx; omega
      · intro i q' hq' hqr
        cases i with
        | zero =>
          rw [List.getElem?_cons_zero, Option.some.injEq] at hq'
          exact absurd (hq' ▸ hqr) hr
        | succ i =>
          rw [List.getElem?_cons_succ] at hq'
          have := i3 i q' hq' hqr
          rw [List.lookup_cons, beq_eq_false_iff_ne.2 (by omega)]
          rwa [show n + 1 + i = n + (i + 1) by omega] at this

/-- **C38 is violated by every page whose rectangle is an object of its own**: the file is opened, and the page is taken to be 841.89 high, whatever the rectangle is.  (The
other pages have rectangles of numbers; the rest of the file is as in C81.) -/
theorem C38_refuted_all {env : Env} (hf : ReadsNums (fun s => (env.parseFloat s).isSome)) {raw : Bytes} {t : List (Bytes × Val)} {l : List (Nat × Entry)} {os : List Obj}
    (h : StdFile raw t l os) {root : Int} (hr : EntryIs t b!"Root" (.ref root)) {tree : Tree} (ht : StdDoc ⟨root, tableOf l, os, []⟩ tree)
    (hb : ∀ p ∈ tree.pages, (∃ box, BoxIs os p box) ∨ BoxRef os p) :
    (App.openFrom env {} raw).res = .ok () ∧ getPageObjIDs (App.openFrom env {} raw).state.doc = .ok tree.pages ∧
    ∀ (i : Nat) p, tree.pages[i]? = some p → BoxRef os p → pageHeight env (App.openFrom env {} raw).state.doc (i + 1) = .ok (84189 / 100) := by
  have hrange : InRange root := by
    obtain ⟨⟨c, hc, _⟩, _⟩ := ht
    exact StdDict.range hc
  obtain ⟨h1, h2, h3⟩ := file_parts h hr hrange
  have hroot := (StdDoc.hasTree ht).1
  have hpg := (C79_pages_partial ht).1
  have hc : checkPagesObj ⟨root, tableOf l, os, []⟩ = .ok () := by
    obtain ⟨ps, v, ⟨o, ho, hp⟩, hv, hi⟩ := hroot
    obtain ⟨p, hpp, rfl⟩ := valueOf_some hv
    unfold checkPagesObj readObjProps
    simp only at ho
    simp only [getObj_only ho, Res.ofOption, Res.ok_bind, hp, hpp, hi]
  obtain ⟨sizes, z1, _, z3⟩ := sizes_refs hf tree.pages hb 0
  have hz : parsePageSize (fun s => (env.parseFloat s).isSome) ⟨root, tableOf l, os, []⟩ = .ok sizes := by
    unfold parsePageSize
    simp only [hpg, Res.ok_bind, z1]
  have hparse : pdfParse (fun s => (env.parseFloat s).isSome) ({} : App).doc raw = .ok ⟨root, tableOf l, os, sizes⟩ := by
    show pdfParse _ emptyDoc raw = _
    unfold pdfParse
    simp only [h1, h2, Res.ok_bind, emptyDoc, List.nil_append, h3, hc, hz]
  have e : App.openFrom env {} raw = ⟨App.showCellBorder { ({} : App) with fontMap := [], lineWidth := 1, imgMap := [], doc := ⟨root, tableOf l, os, sizes⟩ } false, .ok ()⟩ := by
    unfold App.openFrom
    simp only [hparse]
  have e' : (App.openFrom env {} raw).state.doc = ⟨root, tableOf l, os, sizes⟩ := by
    rw [e]
    unfold App.showCellBorder
    simp
  refine ⟨by rw [e], ?_, ?_⟩
  · rw [e']
    exact (C79_pages_partial (d := ⟨root, tableOf l, os, sizes⟩) (t := tree) ht).1
  · intro i p hp hpr
    have := z3 i p hp hpr
    rw [e']
    unfold pageHeight
    rw [if_pos (by omega), show ((i : Int) + 1 - 1).toNat = 0 + i by omega, this]

/-! ### examples -/

/-- the bytes before the table: the page tree has the rectangle -/
def heirPre : Bytes := b!"%PDF-1.4\n1 0 obj\n<< /Type /Catalog /Pages 2 0 R >>\nendobj\n2 0 obj\n<< /Type /Pages /Count 1 /Kids [ 5 0 R ] /MediaBox [0 0 595 842] >>\nendobj\n5\r0\tobj << /Type /Page /Parent 2 0 R >> endobj"

def heirTable : Bytes := b!"0 3\n0000000000 65535 f \n0000000009 00000 n \n0000000058 00000 n\r\n5 1\r\n0000000141 00000 n \r"

def heirRaw : Bytes := heirPre ++ b!"\nxref\n" ++ heirTable ++ b!"trailer\n<< /Size 6 /Root 1 0 R >>\nstartxref\n188\n%%EOF\n"

def heirRows : List (Nat × Entry) := [(0, ⟨0, 65535, false⟩), (1, ⟨9, 0, true⟩), (2, ⟨58, 0, true⟩), (5, ⟨141, 0, true⟩)]

def heirObjs : List Obj := [⟨1, b!"\n<< /Type /Catalog /Pages 2 0 R >>\n"⟩, ⟨2, b!"\n<< /Type /Pages /Count 1 /Kids [ 5 0 R ] /MediaBox [0 0 595 842] >>\n"⟩,
  ⟨5, b!" << /Type /Page /Parent 2 0 R >> "⟩]

theorem heirTable_is : SectionIs heirTable heirRows := by
  have r0 : RowIs b!"0000000000 65535 f \n" ⟨0, 65535, false⟩ := rowIs_of b!"0000000000" b!"65535" b!" \n" rfl (by decide) (by decide)
  have r1 : RowIs b!"0000000009 00000 n \n" ⟨9, 0, true⟩ := rowIs_of b!"0000000009" b!"00000" b!" \n" rfl (by decide) (by decide)
  have r2 : RowIs b!"0000000058 00000 n\r\n" ⟨58, 0, true⟩ := rowIs_of b!"0000000058" b!"00000" b!"\r\n" rfl (by decide) (by decide)
  have r5 : RowIs b!"0000000141 00000 n \r" ⟨141, 0, true⟩ := rowIs_of b!"0000000141" b!"00000" b!" \r" rfl (by decide) (by decide)
  have num : ∀ (s : Bytes), s ≠ [] → s.all isDec = true → Numeral s (decVal s) := fun s h1 h2 => ⟨h1, h2, rfl⟩
  exact SectionIs.sub (w := b!"\n") (num b!"0" (by decide) rfl) (num b!"3" (by decide) rfl) ⟨[], 10, rfl, by decide, Or.inl rfl⟩ (.cons r0 (.cons r1 (.cons r2 .nil)))
    (SectionIs.sub (w := b!"\r\n") (s := []) (m := []) (num b!"5" (by decide) rfl) (num b!"1" (by decide) rfl) ⟨[13], 10, rfl, by decide, Or.inl rfl⟩ (.cons r5 .nil) .nil)

set_option maxRecDepth 20000 in
theorem heirRaw_is : StdFile heirRaw [(b!"Size", .num 6), (b!"Root", .ref 1)] heirRows heirObjs := by
  refine ⟨heirPre, 10, b!"\n", heirTable, b!"\n", b!" /Size 6 /Root 1 0 R ", b!"\n", b!"\n", b!"188", b!"\n", b!"\n", by decide +kernel, Or.inl rfl,
    ⟨[], 10, rfl, by decide, Or.inl rfl⟩, heirTable_is, by decide, by decide, stdText_of (by decide +kernel) ⟨_, rfl, rfl⟩, by decide, by decide, ⟨[], 10, rfl, by decide, Or.inl rfl⟩,
    ⟨by decide, by decide, by decide +kernel⟩, ⟨[], 10, rfl, by decide, Or.inl rfl⟩, by decide, ?_, by decide +kernel, by decide +kernel,
    noRow_of_tails (by decide +kernel), by decide +kernel, noRow_of_tails (by decide +kernel)⟩
  refine .free rfl (.used rfl rfl (by decide) ⟨b!"1", 32, 32, heirRaw.drop 57, ⟨by decide, by decide, by decide⟩, by decide, by decide, by decide +kernel, by decide +kernel⟩
    (.used rfl rfl (by decide) ⟨b!"2", 32, 32, heirRaw.drop 140, ⟨by decide, by decide, by decide⟩, by decide, by decide, by decide +kernel, by decide +kernel⟩
    (.used rfl rfl (by decide) ⟨b!"5", 13, 9, heirRaw.drop 187, ⟨by decide, by decide, by decide⟩, by decide, by decide, by decide +kernel, by decide +kernel⟩ .nil)))

set_option maxRecDepth 20000 in
theorem heirObjs_std : StdDoc ⟨1, tableOf heirRows, heirObjs, []⟩ (.node 2 [.leaf 5]) ∧ Boxless heirObjs 5 := by
  have c : StdDict heirObjs 1 [(b!"Type", .name b!"Catalog"), (b!"Pages", .ref 2)] :=
    stdDict_of (x := b!" /Type /Catalog /Pages 2 0 R ") (by decide) (by decide) rfl (stdText_of (by decide +kernel) ⟨_, rfl, rfl⟩)
  have o2 : StdDict heirObjs 2 [(b!"Type", .name b!"Pages"), (b!"Count", .num 1), (b!"Kids", .arr [.ref 5]), (b!"MediaBox", .arr [.num 0, .num 0, .num 595, .num 842])] :=
    stdDict_of (x := b!" /Type /Pages /Count 1 /Kids [ 5 0 R ] /MediaBox [0 0 595 842] ") (by decide) (by decide) rfl (stdText_of (by decide +kernel) ⟨_, rfl, rfl⟩)
  have o5 : StdDict heirObjs 5 [(b!"Type", .name b!"Page"), (b!"Parent", .ref 2)] :=
    ⟨by decide, by decide, _, b!" ", b!" /Type /Page /Parent 2 0 R ", b!" ", [], rfl, rfl, by decide, by decide, Or.inl rfl,
      stdText_of (by decide +kernel) ⟨_, rfl, by rfl⟩⟩
  refine ⟨⟨⟨_, c, rfl, by simp⟩, ⟨_, o2, rfl, ⟨rfl, by simp⟩, by simp [Tree.id]⟩, ⟨_, o5, rfl, rfl, by simp⟩, trivial⟩, ⟨_, o5, ?_⟩⟩
  intro k v hm
  simp at hm
  rcases hm with ⟨rfl, rfl⟩ | ⟨rfl, rfl⟩ <;> simp

/-- the hypotheses hold for this file -/
example {env : Env} (hf : ReadsNums (fun s => (env.parseFloat s).isSome)) : (App.openFrom env {} heirRaw).res = .panic :=
  C46_refuted_all hf heirRaw_is (root := 1) ⟨rfl, by simp⟩ heirObjs_std.1 (ids := []) (qs := []) rfl .nil heirObjs_std.2

/-- the bytes before the table: the rectangle of the page is object 6 -/
def apartPre : Bytes := b!"%PDF-1.4\n1 0 obj\n<< /Type /Catalog /Pages 2 0 R >>\nendobj\n2 0 obj\n<< /Type /Pages /Count 1 /Kids [ 5 0 R ] >>\nendobj\n5 0 obj\n<< /Type /Page /Parent 2 0 R /MediaBox 6 0 R >>\nendobj\n6 0 obj\n[ 0 0 200 100 ]\nendobj"

def apartTable : Bytes := b!"0 3\n0000000000 65535 f \n0000000009 00000 n \n0000000058 00000 n \n5 2\n0000000117 00000 n \n0000000180 00000 n \n"

def apartRaw : Bytes := apartPre ++ b!"\nxref\n" ++ apartTable ++ b!"trailer\n<< /Size 7 /Root 1 0 R >>\nstartxref\n211\n%%EOF\n"

def apartRows : List (Nat × Entry) := [(0, ⟨0, 65535, false⟩), (1, ⟨9, 0, true⟩), (2, ⟨58, 0, true⟩), (5, ⟨117, 0, true⟩), (6, ⟨180, 0, true⟩)]

def apartObjs : List Obj := [⟨1, b!"\n<< /Type /Catalog /Pages 2 0 R >>\n"⟩, ⟨2, b!"\n<< /Type /Pages /Count 1 /Kids [ 5 0 R ] >>\n"⟩,
  ⟨5, b!"\n<< /Type /Page /Parent 2 0 R /MediaBox 6 0 R >>\n"⟩, ⟨6, b!"\n[ 0 0 200 100 ]\n"⟩]

theorem apartTable_is : SectionIs apartTable apartRows := by
  have r0 : RowIs b!"0000000000 65535 f \n" ⟨0, 65535, false⟩ := rowIs_of b!"0000000000" b!"65535" b!" \n" rfl (by decide) (by decide)
  have r1 : RowIs b!"0000000009 00000 n \n" ⟨9, 0, true⟩ := rowIs_of b!"0000000009" b!"00000" b!" \n" rfl (by decide) (by decide)
  have r2 : RowIs b!"0000000058 00000 n \n" ⟨58, 0, true⟩ := rowIs_of b!"0000000058" b!"00000" b!" \n" rfl (by decide) (by decide)
  have r5 : RowIs b!"0000000117 00000 n \n" ⟨117, 0, true⟩ := rowIs_of b!"0000000117" b!"00000" b!" \n" rfl (by decide) (by decide)
  have r6 : RowIs b!"0000000180 00000 n \n" ⟨180, 0, true⟩ := rowIs_of b!"0000000180" b!"00000" b!" \n" rfl (by decide) (by decide)
  have num : ∀ (s : Bytes), s ≠ [] → s.all isDec = true → Numeral s (decVal s) := fun s h1 h2 => ⟨h1, h2, rfl⟩
  exact SectionIs.sub (w := b!"\n") (num b!"0" (by decide) rfl) (num b!"3" (by decide) rfl) ⟨[], 10, rfl, by decide, Or.inl rfl⟩ (.cons r0 (.cons r1 (.cons r2 .nil)))
    (SectionIs.sub (w := b!"\n") (s := []) (m := []) (num b!"5" (by decide) rfl) (num b!"2" (by decide) rfl) ⟨[], 10, rfl, by decide, Or.inl rfl⟩ (.cons r5 (.cons r6 .nil)) .nil)

set_option maxRecDepth 20000 in
theorem apartRaw_is : StdFile apartRaw [(b!"Size", .num 7), (b!"Root", .ref 1)] apartRows apartObjs := by
  refine ⟨apartPre, 10, b!"\n", apartTable, b!"\n", b!" /Size 7 /Root 1 0 R ", b!"\n", b!"\n", b!"211", b!"\n", b!"\n", by decide +kernel, Or.inl rfl,
    ⟨[], 10, rfl, by decide, Or.inl rfl⟩, apartTable_is, by decide, by decide, stdText_of (by decide +kernel) ⟨_, rfl, rfl⟩, by decide, by decide, ⟨[], 10, rfl, by decide, Or.inl rfl⟩,
    ⟨by decide, by decide, by decide +kernel⟩, ⟨[], 10, rfl, by decide, Or.inl rfl⟩, by decide, ?_, by decide +kernel, by decide +kernel,
    noRow_of_tails (by decide +kernel), by decide +kernel, noRow_of_tails (by decide +kernel)⟩
  refine .free rfl (.used rfl rfl (by decide) ⟨b!"1", 32, 32, apartRaw.drop 57, ⟨by decide, by decide, by decide⟩, by decide, by decide, by decide +kernel, by decide +kernel⟩
    (.used rfl rfl (by decide) ⟨b!"2", 32, 32, apartRaw.drop 116, ⟨by decide, by decide, by decide⟩, by decide, by decide, by decide +kernel, by decide +kernel⟩
    (.used rfl rfl (by decide) ⟨b!"5", 32, 32, apartRaw.drop 179, ⟨by decide, by decide, by decide⟩, by decide, by decide, by decide +kernel, by decide +kernel⟩
    (.used rfl rfl (by decide) ⟨b!"6", 32, 32, apartRaw.drop 210, ⟨by decide, by decide, by decide⟩, by decide, by decide, by decide +kernel, by decide +kernel⟩ .nil))))

set_option maxRecDepth 20000 in
theorem apartObjs_std : StdDoc ⟨1, tableOf apartRows, apartObjs, []⟩ (.node 2 [.leaf 5]) ∧ BoxRef apartObjs 5 := by
  have c : StdDict apartObjs 1 [(b!"Type", .name b!"Catalog"), (b!"Pages", .ref 2)] :=
    stdDict_of (x := b!" /Type /Catalog /Pages 2 0 R ") (by decide) (by decide) rfl (stdText_of (by decide +kernel) ⟨_, rfl, rfl⟩)
  have o2 : StdDict apartObjs 2 [(b!"Type", .name b!"Pages"), (b!"Count", .num 1), (b!"Kids", .arr [.ref 5])] :=
    stdDict_of (x := b!" /Type /Pages /Count 1 /Kids [ 5 0 R ] ") (by decide) (by decide) rfl (stdText_of (by decide +kernel) ⟨_, rfl, rfl⟩)
  have o5 : StdDict apartObjs 5 [(b!"Type", .name b!"Page"), (b!"Parent", .ref 2), (b!"MediaBox", .ref 6)] :=
    stdDict_of (x := b!" /Type /Page /Parent 2 0 R /MediaBox 6 0 R ") (by decide) (by decide) rfl (stdText_of (by decide +kernel) ⟨_, rfl, rfl⟩)
  exact ⟨⟨⟨_, c, rfl, by simp⟩, ⟨_, o2, rfl, ⟨rfl, by simp⟩, by simp [Tree.id]⟩, ⟨_, o5, rfl, rfl, by simp⟩, trivial⟩, ⟨_, 6, o5, ⟨rfl, by simp⟩, by norm_num [InRange]⟩⟩

/-- the hypotheses hold for this file: the page is 100 high -/
example {env : Env} (hf : ReadsNums (fun s => (env.parseFloat s).isSome)) : pageHeight env (App.openFrom env {} apartRaw).state.doc 1 = .ok (84189 / 100) :=
  (C38_refuted_all hf apartRaw_is (root := 1) ⟨rfl, by simp⟩ apartObjs_std.1 (by
    intro p hp
    have e : p = 5 := by simpa [Tree.pages, pagesL] using hp
    subst e
    exact Or.inr apartObjs_std.2)).2.2 0 5 rfl apartObjs_std.2

end Verif
