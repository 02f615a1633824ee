import Verif.Lemmas.File
/-
C81: opening a file reads the objects that its cross-reference table says.
-/
namespace Verif
open Spec

/-! ### no rows elsewhere -/

theorem NoRow.after {a b : Bytes} (ha : ∀ c ∈ a, isDigit c = false) (hb : NoRow b) : NoRow (a ++ b) := by
  intro w hw hi
  obtain ⟨c, t, rfl, hc⟩ := rowLike_head hw
  refine hb _ hw (infix_head (fun hm => ?_) hi)
  rw [ha c hm] at hc
  simp at hc

theorem white_digit {w : Bytes} (h : White w) : ∀ c ∈ w, isDigit c = false := by
  intro c hc
  rcases h c hc with rfl | rfl | rfl | rfl <;> rfl

theorem endsLine_white {w : Bytes} (h : EndsLine w) : White w := by
  obtain ⟨g, e, rfl, hg, he⟩ := h
  intro c hc
  rcases List.mem_append.1 hc with h | h
  · exact hg c h
  · simp at h
    rcases he with rfl | rfl <;> simp [h]

theorem noRow_rest {a x b w1 n w2 w3 : Bytes} {m : Nat} (ha : White a) (hb : White b) (hx : NoRow x) (h1 : EndsLine w1) (hn : Numeral n m) (h2 : EndsLine w2) (h3 : White w3) :
    NoRow (b!"trailer" ++ (a ++ (b!"<<" ++ x ++ b!">>") ++ b) ++ b!"startxref" ++ (w1 ++ n ++ w2 ++ b!"%%EOF" ++ w3)) := by
  have e : b!"trailer" ++ (a ++ (b!"<<" ++ x ++ b!">>") ++ b) ++ b!"startxref" ++ (w1 ++ n ++ w2 ++ b!"%%EOF" ++ w3) =
      (b!"trailer" ++ a ++ b!"<<") ++ (x ++ 62 :: (([62] ++ b ++ b!"startxref" ++ w1) ++ (n ++ w2 ++ b!"%%EOF" ++ w3))) := by simp
  rw [e]
  have d : ∀ l : Bytes, l.all (fun c => !isDigit c) = true → ∀ c ∈ l, isDigit c = false := fun l hl c hc => by simpa using List.all_eq_true.1 hl c hc
  have j : ∀ {l m : Bytes}, (∀ c ∈ l, isDigit c = false) → (∀ c ∈ m, isDigit c = false) → ∀ c ∈ l ++ m, isDigit c = false :=
    fun hl hm c hc => (List.mem_append.1 hc).elim (hl c) (hm c)
  refine NoRow.after (j (j (d _ rfl) (white_digit ha)) (d _ rfl)) (NoRow.append_at (fun w hw => rowLike_not (by decide) hw) hx
    (NoRow.after (j (j (j (d _ rfl) (white_digit hb)) (d _ rfl)) (white_digit (endsLine_white h1))) ?_))
  refine free_noK ?_ ?_ ?_ <;>
  · simp only [List.mem_append, not_or]
    exact ⟨⟨⟨numeral_not hn (by decide), white_ne (endsLine_white h2) (by decide)⟩, by decide⟩, white_ne h3 (by decide)⟩

/-! ### the parts of the file -/

theorem file_parts {raw : Bytes} {t : List (Bytes × Val)} {l : List (Nat × Entry)} {os : List Obj} (h : StdFile raw t l os) {root : Int} (hr : EntryIs t b!"Root" (.ref root))
    (hrange : InRange root) : parseXref raw = .ok (tableOf l) ∧ parseTrailer raw = .ok root ∧ parseObjs raw (tableOf l) = .ok os := by
  obtain ⟨pre, nl, w, sect, a, x, b, w1, n, w2, w3, hraw, hnl, hw, hsect, ha, hb, hx, _, _, h1, hn, h2, h3, hobjs, k1, k2, k3, k4, k5⟩ := h
  refine ⟨?_, ?_, parseObjs_std hobjs⟩
  · -- the table
    obtain ⟨Y, hY⟩ : ∃ Y, Y = b!"trailer" ++ (a ++ (b!"<<" ++ x ++ b!">>") ++ b) ++ b!"startxref" ++ (w1 ++ n ++ w2 ++ b!"%%EOF" ++ w3) := ⟨_, rfl⟩
    have hYn : NoRow Y := by rw [hY]; exact noRow_rest ha hb k5 h1 hn h2 h3
    obtain ⟨g, e, rfl, hg, he⟩ := hw
    have e1 : raw = (pre ++ [nl]) ++ (b!"xref" ++ (g ++ e :: (sect ++ Y))) := by rw [hraw, hY]; simp
    obtain ⟨i, hi, hle⟩ := index_le (pat := b!"xref") (x := pre ++ [nl]) (y := g ++ e :: (sect ++ Y)) (by decide)
    rw [← e1] at hi
    have e2 : raw = pre ++ nl :: ((b!"xref" ++ g) ++ e :: (sect ++ Y)) := by rw [e1]; simp
    have hxg : NoRow (b!"xref" ++ g) := by
      have := NoRow.after (a := b!"xref" ++ g) (b := []) (by
        intro c hc
        rcases List.mem_append.1 hc with hx | hx
        · clear hc; revert c; decide
        · exact white_digit hg c hx) (noRow_short (by simp))
      simpa using this
    unfold parseXref
    rw [hi]
    simp only
    rw [e2, findAll_past (fun w hw => rowLike_nl hnl hw) k3, findAll_past (fun w hw => rowLike_nl he hw) hxg]
    simp only [List.length_append, List.length_cons, List.length_nil] at hle ⊢
    have := rows_section (start := i + 4) (y := Y) (tl := []) hsect (0 + pre.length + 1 + (4 + g.length) + 1) (by omega) (fun pos _ => by rw [findAll_none hYn]; rfl)
    rw [List.append_nil] at this
    exact this
  · -- the trailer
    obtain ⟨P, hP⟩ : ∃ P, P = pre ++ nl :: (b!"xref" ++ w ++ sect) := ⟨_, rfl⟩
    obtain ⟨T, hT⟩ : ∃ T, T = a ++ (b!"<<" ++ x ++ b!">>") ++ b := ⟨_, rfl⟩
    obtain ⟨Z, hZ⟩ : ∃ Z, Z = w1 ++ n ++ w2 ++ b!"%%EOF" ++ w3 := ⟨_, rfl⟩
    have e1 : raw = P ++ (b!"trailer" ++ (T ++ b!"startxref" ++ Z)) := by rw [hraw, hP, hT, hZ]; simp
    have e2 : raw = (P ++ b!"trailer" ++ T) ++ (b!"startxref" ++ Z) := by rw [e1]; simp
    have hww := endsLine_white hw
    have nlt : nl ∉ b!"trailer" ∧ nl ∉ b!"startxref" := by rcases hnl with rfl | rfl <;> decide
    have hP1 : ¬ b!"trailer" <:+: P := by
      intro hi
      rw [hP] at hi
      rcases infix_split nlt.1 hi with hi | hi
      · exact k1 hi
      · refine not_infix_of_mem (c := 116) (by decide) ?_ hi
        simp only [List.mem_append, not_or]
        exact ⟨⟨by decide, white_ne hww (by decide)⟩, section_bytes hsect (by decide) (by decide) (by decide)⟩
    have hP2 : ¬ b!"startxref" <:+: P ++ b!"trailer" ++ T := by
      intro hi
      have e3 : P ++ b!"trailer" ++ T = pre ++ nl :: ((b!"xref" ++ w ++ sect ++ b!"trailer" ++ a ++ b!"<<") ++ (x ++ 62 :: (62 :: b))) := by rw [hP, hT]; simp
      rw [e3] at hi
      rcases infix_split nlt.2 hi with hi | hi
      · exact k2 hi
      · have hi := infix_head (h := 115) (p := b!"tartxref") (by
          simp only [List.mem_append, not_or]
          exact ⟨⟨⟨⟨⟨by decide, white_ne hww (by decide)⟩, section_bytes hsect (by decide) (by decide) (by decide)⟩, by decide⟩, white_ne ha (by decide)⟩, by decide⟩) hi
        rcases infix_split (by decide) hi with hi | hi
        · exact k4 hi
        · refine not_infix_of_mem (c := 115) (by decide) ?_ hi
          simp only [List.mem_cons, not_or]
          exact ⟨by decide, white_ne hb (by decide)⟩
    have i1 : index b!"trailer" raw = some P.length := by rw [e1]; exact index_head (by decide) hP1 _
    have i2 : index b!"startxref" raw = some (P ++ b!"trailer" ++ T).length := by rw [e2]; exact index_head (by decide) hP2 _
    have hsl : (raw.take (P ++ b!"trailer" ++ T).length).drop (P.length + 7) = T := by
      rw [e2, List.take_left, show P.length + 7 = (P ++ b!"trailer").length by simp, List.drop_left]
    have hrp : readProperties T = .ok (parseProps (normalizeProps x)) := by
      have := readProperties_frame (tail := []) ha hb hx.noStream (Or.inl rfl)
      rw [List.append_nil] at this
      rw [hT]; exact this
    obtain ⟨vss, f1, f2, f3⟩ := StdText.props hx
    obtain ⟨v, v1, v2⟩ := std_ref (readAs_of _ vss t f1 f2) (by
      intro p hp
      obtain ⟨vs, hv⟩ := forall₂_left f1 p hp
      exact ⟨hv.2.2.2, f3 p hp⟩) hr hrange
    obtain ⟨p, hp, rfl⟩ := valueOf_some v1
    unfold parseTrailer
    rw [i1]
    simp only [i2]
    rw [if_neg (by simp), hsl, hrp]
    simp only [Res.ok_bind, hp, v2]

/-! ### page sizes -/

theorem fields_words : ∀ (s cur : Bytes), PlainChars s → (∀ c ∈ s, c < 127 ∧ c ≠ 11) → fieldsAux 0 cur s = wordsFrom cur.reverse s := by
  intro s
  induction s with
  | nil => intro cur _ _; cases cur <;> simp [fieldsAux, wordsFrom]
  | cons c s ih =>
    intro cur hp ha
    have hc := ha c (by simp)
    have hc128 : c < 128 := UInt8.lt_trans hc.1 (by decide)
    have hp' : PlainChars s := fun d hd => hp d (by simp [hd])
    have ha' : ∀ c ∈ s, c < 127 ∧ c ≠ 11 := fun d hd => ha d (by simp [hd])
    rw [fieldsAux, leadingSpace_ascii hc128]
    rcases hp c (by simp) with hr | rfl
    · have hsp : isSp c = false := by
        simp only [regular, white, Bool.and_eq_true, Bool.not_eq_true', Bool.or_eq_false_iff, decide_eq_false_iff_not] at hr
        simp [isSp, hr, hc.2]
      rw [hsp]
      simp only [Bool.false_eq_true, if_false]
      rw [ih (c :: cur) hp' ha', wordsFrom_reg hr]
      simp
    · rw [show isSp 32 = true from rfl]
      simp only [if_true]
      rw [ih [] hp' ha']
      cases cur <;> simp [wordsFrom, show regular 32 = false from rfl, show delim 32 = false from rfl]

theorem nums_wordy : ∀ (qs : List ℚ), toksL (qs.map Val.num) = qs.map Lexeme.num ∧ ∀ t ∈ qs.map Lexeme.num, Wordy t := by
  intro qs
  constructor
  · induction qs with
    | nil => simp [toksL]
    | cons q qs ih => simp [toksL, toks, ih]
  · intro t ht
    obtain ⟨q, _, rfl⟩ := List.mem_map.1 ht
    exact Or.inl ⟨q, rfl⟩

/-- `isFloat` accepts the numbers of the standard -/
def ReadsNums (isFloat : Bytes → Bool) : Prop := ∀ w q, wordTok w = .num q → isFloat w = true

theorem value_nums {isFloat : Bytes → Bool} (hf : ReadsNums isFloat) {r : Bytes} {qs : List ℚ} (h : Values r [.arr (qs.map .num)]) (hs : SimpleText r) (hss : SS r) :
    propertyType r = .array ∧ ∃ ws, parseFloatSlice isFloat r = .ok ws ∧ ws.map wordTok = qs.map .num := by
  have ht := Values.toks h
  simp only [toksL, toks, List.append_nil, (nums_wordy qs).1] at ht
  obtain ⟨pre, body, post, rfl, h1, h2, hp, hw⟩ := array_body ht (nums_wordy qs).2 hs hss
  have ha : ∀ c ∈ body, c < 127 ∧ c ≠ 11 := fun c hc => by
    have := simple_ascii _ _ hs c (by simp [hc])
    exact ⟨this.1, this.2.2.1⟩
  have sp : ∀ {l : Bytes}, (∀ c ∈ l, c = 32) → ∀ c ∈ l, isSp c = true := fun hl c hc => by rw [hl c hc]; rfl
  have htr : trimSpace (pre ++ 91 :: (body ++ 93 :: post)) = 91 :: (body ++ [93]) := by
    have := trimSpace_ends (a := pre) (b := post) (x := 91 :: (body ++ [93])) (c := 91) (e := 93) (sp h1) (sp h2) rfl
      (by rw [← List.cons_append]; exact List.getLast?_concat) (by decide) (by decide) (by decide) (by decide)
    simpa using this
  constructor
  · unfold propertyType
    simp only [htr]
    rw [if_neg (by
      rintro ⟨_, h⟩
      cases body <;> simp at h), if_pos (by simp)]
  · refine ⟨words body, ?_, hw⟩
    have hb : trimBrackets (91 :: (body ++ [93])) = body := by
      unfold trimBrackets
      have s1 : ([93] : Bytes).isSuffixOf (body ++ [93]) = true := by
        rw [List.isSuffixOf_iff_suffix]; exact ⟨body, rfl⟩
      simp [List.isPrefixOf, s1]
    unfold parseFloatSlice
    simp only [htr, hb]
    have hfw : fields body = words body := fields_words body [] hp ha
    rw [hfw, if_pos]
    rw [List.all_eq_true]
    intro w hw'
    have : wordTok w ∈ qs.map Lexeme.num := by rw [← hw]; exact List.mem_map.2 ⟨w, hw', rfl⟩
    obtain ⟨q, _, hq⟩ := List.mem_map.1 this
    exact hf w q hq.symm

/-- the sizes of pages with rectangles of their own -/
theorem sizes_of {isFloat : Bytes → Bool} (hf : ReadsNums isFloat) {objs : List Obj} : ∀ (ids : List Int) (boxes : List (List ℚ)), List.Forall₂ (BoxIs objs) ids boxes → ∀ n : Nat,
    ∃ wss : List (List Bytes), pageSizesLoop isFloat objs n ids = .ok ((List.range' n ids.length).zip wss) ∧ List.Forall₂ (fun ws box => ws.map wordTok = box.map Lexeme.num) wss boxes := by
  intro ids boxes h
  induction h with
  | nil => intro n; exact ⟨[], rfl, .nil⟩
  | @cons id box ids boxes hb _ ih =>
    intro n
    obtain ⟨wss, i1, i2⟩ := ih (n + 1)
    obtain ⟨d, hd, he⟩ := hb
    obtain ⟨ps, vss, ⟨o, ho, hps⟩, _, _, hr, hg⟩ := StdDict.entries hd
    obtain ⟨r, v1, v2⟩ := ReadAs.value_at hr he (by intro n h; cases h)
    obtain ⟨p, hp, rfl⟩ := valueOf_some v1
    have hpm : p ∈ ps := List.mem_of_find?_eq_some hp
    obtain ⟨t1, ws, t2, t3⟩ := value_nums hf v2 (hg p hpm).1 (hg p hpm).2.1
    refine ⟨ws :: wss, ?_, .cons t3 i2⟩
    unfold pageSizesLoop readProperty
    simp only [getObj_only ho, Res.ofOption, hps, hp, Res.ok_bind, t1, if_true, t2, i1]
    rfl

/-! ### opening -/

/-- **C81.**  Opening a file with one cross-reference table: the document has exactly the rows of the table and the objects that stand where the rows in use say, in
the order of the table, and the catalog the trailer names.

Missing: files with more than one table or with cross-reference streams, objects of other generations, objects whose first line has other white space than single
bytes, objects with the word `endobj` inside, and keywords of the file structure or texts like rows inside objects. -/
theorem C81_objects_partial {isFloat : Bytes → Bool} {raw : Bytes} {t : List (Bytes × Val)} {l : List (Nat × Entry)} {os : List Obj} (h : StdFile raw t l os) {root : Int}
    (hr : EntryIs t b!"Root" (.ref root)) (hrange : InRange root) {d : Doc} (hd : pdfParse isFloat emptyDoc raw = .ok d) :
    d.objs = os ∧ d.rootObjID = root ∧ d.xrefs = tableOf l := by
  obtain ⟨h1, h2, h3⟩ := file_parts h hr hrange
  unfold pdfParse at hd
  simp only [h1, h2, Res.ok_bind, emptyDoc, List.nil_append, h3] at hd
  cases hc : checkPagesObj ⟨root, tableOf l, os, []⟩ <;> rw [hc] at hd <;> simp at hd
  cases hz : parsePageSize isFloat ⟨root, tableOf l, os, []⟩ <;> rw [hz] at hd <;> simp at hd
  subst hd
  exact ⟨rfl, rfl, rfl⟩

/-- **C81.**  If moreover the objects form a page tree, and every page has a rectangle of numbers of its own, the file is opened, and its pages are those of
the tree, with these rectangles as sizes. -/
theorem C81_open_partial {isFloat : Bytes → Bool} (hf : ReadsNums isFloat) {raw : Bytes} {t : List (Bytes × Val)} {l : List (Nat × Entry)} {os : List Obj} (h : StdFile raw t l os)
    {root : Int} (hr : EntryIs t b!"Root" (.ref root)) {tree : Tree} (ht : StdDoc ⟨root, tableOf l, os, []⟩ tree) {boxes : List (List ℚ)}
    (hb : List.Forall₂ (BoxIs os) tree.pages boxes) :
    ∃ d, pdfParse isFloat emptyDoc raw = .ok d ∧ d.objs = os ∧ d.rootObjID = root ∧ d.xrefs = tableOf l ∧ StdDoc d tree ∧ getPageObjIDs d = .ok tree.pages ∧
      ∃ wss : List (List Bytes), d.pageSizes = (List.range' 0 tree.pages.length).zip wss ∧ List.Forall₂ (fun ws box => ws.map wordTok = box.map Lexeme.num) wss boxes := by
  have hrange : InRange root := by
    obtain ⟨⟨c, hc, _⟩, _⟩ := ht
    exact StdDict.range hc
  obtain ⟨h1, h2, h3⟩ := file_parts h hr hrange
  have hroot := (StdDoc.hasTree ht).1
  have hpg := (C79_pages_partial ht).1
  obtain ⟨wss, z1, z2⟩ := sizes_of hf _ _ hb 0
  have hc : checkPagesObj ⟨root, tableOf l, os, []⟩ = .ok () := by
    obtain ⟨ps, v, ⟨o, ho, hp⟩, hv, hi⟩ := hroot
    obtain ⟨p, hpp, rfl⟩ := valueOf_some hv
    unfold checkPagesObj readObjProps
    simp only at ho
    simp only [getObj_only ho, Res.ofOption, Res.ok_bind, hp, hpp, hi]
  have hz : parsePageSize isFloat ⟨root, tableOf l, os, []⟩ = .ok ((List.range' 0 tree.pages.length).zip wss) := by
    unfold parsePageSize
    simp only [hpg, Res.ok_bind, z1]
  refine ⟨⟨root, tableOf l, os, (List.range' 0 tree.pages.length).zip wss⟩, ?_, rfl, rfl, rfl, ht, ?_, wss, rfl, z2⟩
  · unfold pdfParse
    simp only [h1, h2, Res.ok_bind, emptyDoc, List.nil_append, h3, hc, hz]
  · exact (C79_pages_partial (d := ⟨root, tableOf l, os, (List.range' 0 tree.pages.length).zip wss⟩) (t := tree) ht).1

/-- **C81** for `OpenFrom` of a new `PDFt`. -/
theorem C81_openFrom_partial {env : Env} (hf : ReadsNums (fun s => (env.parseFloat s).isSome)) {raw : Bytes} {t : List (Bytes × Val)} {l : List (Nat × Entry)} {os : List Obj}
    (h : StdFile raw t l os) {root : Int} (hr : EntryIs t b!"Root" (.ref root)) {tree : Tree} (ht : StdDoc ⟨root, tableOf l, os, []⟩ tree) {boxes : List (List ℚ)}
    (hb : List.Forall₂ (BoxIs os) tree.pages boxes) :
    ∃ a, App.openFrom env {} raw = ⟨a, .ok ()⟩ ∧ a.doc.objs = os ∧ a.doc.rootObjID = root ∧ StdDoc a.doc tree ∧ numberOfPages a.doc = .ok tree.pages.length := by
  obtain ⟨d, h1, h2, h3, _, h4, _⟩ := C81_open_partial hf h hr ht hb
  refine ⟨App.showCellBorder { ({} : App) with fontMap := [], lineWidth := 1, imgMap := [], doc := d } false, ?_, ?_⟩
  · unfold App.openFrom
    simp only [h1]
  · have e : (App.showCellBorder { ({} : App) with fontMap := [], lineWidth := 1, imgMap := [], doc := d } false).doc = d := by
      unfold App.showCellBorder; simp
    rw [e]
    exact ⟨h2, h3, h4, (C79_pages_partial h4).2⟩

/-! ### an example -/

/-- the bytes before the table: three objects -/
def filePre : Bytes := b!"%PDF-1.4\n1 0 obj\n<< /Type /Catalog /Pages 2 0 R >>\nendobj\n2 0 obj\n<< /Type /Pages /Count 1 /Kids [ 5 0 R ] >>\nendobj\n5\r0\tobj << /Type /Page /Parent 2 0 R /MediaBox [0 0 595 842] >> endobj"

/-- a table with two subsections and all three ends of line -/
def fileTable : Bytes := b!"0 3\n0000000000 65535 f \n0000000009 00000 n \n0000000058 00000 n\r\n5 1\r\n0000000117 00000 n \r"

def fileRaw : Bytes := filePre ++ b!"\nxref\n" ++ fileTable ++ b!"trailer\n<< /Size 6 /Root 1 0 R >>\nstartxref\n188\n%%EOF\n"

def fileRows : List (Nat × Entry) := [(0, ⟨0, 65535, false⟩), (1, ⟨9, 0, true⟩), (2, ⟨58, 0, true⟩), (5, ⟨117, 0, true⟩)]

def fileObjs : List Obj := [⟨1, b!"\n<< /Type /Catalog /Pages 2 0 R >>\n"⟩, ⟨2, b!"\n<< /Type /Pages /Count 1 /Kids [ 5 0 R ] >>\n"⟩,
  ⟨5, b!" << /Type /Page /Parent 2 0 R /MediaBox [0 0 595 842] >> "⟩]

theorem rowIs_of {s : Bytes} {e : Entry} (a b eol : Bytes) (hs : s = a ++ b!" " ++ b ++ b!" " ++ (if e.inUse then b!"n" else b!"f") ++ eol)
    (h : a.length = 10 ∧ a.all isDec = true ∧ decVal a = e.offset ∧ b.length = 5 ∧ b.all isDec = true ∧ decVal b = e.gen)
    (heol : eol = b!" \n" ∨ eol = b!" \r" ∨ eol = b!"\r\n") : RowIs s e := by
  obtain ⟨h1, h2, h3, h4, h5, h6⟩ := h
  exact ⟨a, b, eol, hs, h1, ⟨by rintro rfl; simp at h1, h2, h3⟩, h4, ⟨by rintro rfl; simp at h4, h5, h6⟩, heol⟩

theorem fileTable_is : SectionIs fileTable fileRows := by
  have r0 : RowIs b!"0000000000 65535 f \n" ⟨0, 65535, false⟩ := rowIs_of b!"0000000000" b!"65535" b!" \n" rfl (by decide) (by decide)
  have r1 : RowIs b!"0000000009 00000 n \n" ⟨9, 0, true⟩ := rowIs_of b!"0000000009" b!"00000" b!" \n" rfl (by decide) (by decide)
  have r2 : RowIs b!"0000000058 00000 n\r\n" ⟨58, 0, true⟩ := rowIs_of b!"0000000058" b!"00000" b!"\r\n" rfl (by decide) (by decide)
  have r5 : RowIs b!"0000000117 00000 n \r" ⟨117, 0, true⟩ := rowIs_of b!"0000000117" b!"00000" b!" \r" rfl (by decide) (by decide)
  have num : ∀ (s : Bytes), s ≠ [] → s.all isDec = true → Numeral s (decVal s) := fun s h1 h2 => ⟨h1, h2, rfl⟩
  exact SectionIs.sub (w := b!"\n") (num b!"0" (by decide) rfl) (num b!"3" (by decide) rfl) ⟨[], 10, rfl, by decide, Or.inl rfl⟩ (.cons r0 (.cons r1 (.cons r2 .nil)))
    (SectionIs.sub (w := b!"\r\n") (s := []) (m := []) (num b!"5" (by decide) rfl) (num b!"1" (by decide) rfl) ⟨[13], 10, rfl, by decide, Or.inl rfl⟩ (.cons r5 .nil) .nil)

set_option maxRecDepth 20000 in
theorem fileRaw_is : StdFile fileRaw [(b!"Size", .num 6), (b!"Root", .ref 1)] fileRows fileObjs := by
  refine ⟨filePre, 10, b!"\n", fileTable, b!"\n", b!" /Size 6 /Root 1 0 R ", b!"\n", b!"\n", b!"188", b!"\n", b!"\n", by decide +kernel, Or.inl rfl,
    ⟨[], 10, rfl, by decide, Or.inl rfl⟩, fileTable_is, by decide, by decide, stdText_of (by decide +kernel) ⟨_, rfl, rfl⟩, by decide, by decide, ⟨[], 10, rfl, by decide, Or.inl rfl⟩,
    ⟨by decide, by decide, by decide +kernel⟩, ⟨[], 10, rfl, by decide, Or.inl rfl⟩, by decide, ?_, by decide +kernel, by decide +kernel,
    noRow_of_tails (by decide +kernel), by decide +kernel, noRow_of_tails (by decide +kernel)⟩
  refine .free rfl (.used rfl rfl (by decide) ⟨b!"1", 32, 32, fileRaw.drop 57, ⟨by decide, by decide, by decide⟩, by decide, by decide, by decide +kernel, by decide +kernel⟩
    (.used rfl rfl (by decide) ⟨b!"2", 32, 32, fileRaw.drop 116, ⟨by decide, by decide, by decide⟩, by decide, by decide, by decide +kernel, by decide +kernel⟩
    (.used rfl rfl (by decide) ⟨b!"5", 13, 9, fileRaw.drop 187, ⟨by decide, by decide, by decide⟩, by decide, by decide, by decide +kernel, by decide +kernel⟩ .nil)))

set_option maxRecDepth 20000 in
theorem fileObjs_std : StdDoc ⟨1, tableOf fileRows, fileObjs, []⟩ (.node 2 [.leaf 5]) ∧ BoxIs fileObjs 5 [0, 0, 595, 842] := by
  have c : StdDict fileObjs 1 [(b!"Type", .name b!"Catalog"), (b!"Pages", .ref 2)] :=
    stdDict_of (x := b!" /Type /Catalog /Pages 2 0 R ") (by decide) (by decide) rfl (stdText_of (by decide +kernel) ⟨_, rfl, rfl⟩)
  have o2 : StdDict fileObjs 2 [(b!"Type", .name b!"Pages"), (b!"Count", .num 1), (b!"Kids", .arr [.ref 5])] :=
    stdDict_of (x := b!" /Type /Pages /Count 1 /Kids [ 5 0 R ] ") (by decide) (by decide) rfl (stdText_of (by decide +kernel) ⟨_, rfl, rfl⟩)
  have o5 : StdDict fileObjs 5 [(b!"Type", .name b!"Page"), (b!"Parent", .ref 2), (b!"MediaBox", .arr [.num 0, .num 0, .num 595, .num 842])] :=
    ⟨by decide, by decide, _, b!" ", b!" /Type /Page /Parent 2 0 R /MediaBox [0 0 595 842] ", b!" ", [], rfl, rfl, by decide, by decide, Or.inl rfl,
      stdText_of (by decide +kernel) ⟨_, rfl, by rfl⟩⟩
  refine ⟨⟨⟨_, c, rfl, by simp⟩, ⟨_, o2, rfl, ⟨rfl, by simp⟩, by simp [Tree.id]⟩, ⟨_, o5, rfl, rfl, by simp⟩, trivial⟩, ⟨_, o5, rfl, by simp⟩⟩

/-- the hypotheses of C81 hold for this file -/
example : ∃ d, pdfParse (fun _ => true) emptyDoc fileRaw = .ok d ∧ d.objs = fileObjs ∧ getPageObjIDs d = .ok [5] := by
  obtain ⟨d, h1, h2, _, _, _, h3, _⟩ := C81_open_partial (isFloat := fun _ => true) (fun _ _ _ => rfl) fileRaw_is (root := 1) ⟨rfl, by simp⟩ fileObjs_std.1
    (boxes := [[0, 0, 595, 842]]) (.cons fileObjs_std.2 .nil)
  exact ⟨d, h1, h2, h3⟩

/-! ### where it fails -/

/-- a file with one page -/
def oldFile : Bytes := b!"%PDF-1.4\n1 0 obj\n<< /Type /Catalog /Pages 2 0 R >>\nendobj\n2 0 obj\n<< /Type /Pages /Count 1 /Kids [ 3 0 R ] >>\nendobj\n3 0 obj\n<< /Type /Page /Parent 2 0 R /MediaBox [0 0 595 842] >>\nendobj\nxref\n0 4\n0000000000 65535 f \n0000000009 00000 n \n0000000058 00000 n \n0000000117 00000 n \ntrailer\n<< /Size 4 /Root 1 0 R >>\nstartxref\n188\n%%EOF\n"

/-- the same file with an update: the root of the page tree is replaced, and there is a second page -/
def newFile : Bytes := oldFile ++ b!"2 0 obj\n<< /Type /Pages /Count 2 /Kids [ 3 0 R 4 0 R ] >>\nendobj\n4 0 obj\n<< /Type /Page /Parent 2 0 R /MediaBox [0 0 200 100] >>\nendobj\nxref\n2 1\n0000000331 00000 n \n4 1\n0000000396 00000 n \ntrailer\n<< /Size 5 /Root 1 0 R /Prev 188 >>\nstartxref\n467\n%%EOF\n"

/-- the number of pages after opening -/
def openedPages (raw : Bytes) : Res Nat := do
  let d ← pdfParse (fun _ => true) emptyDoc raw
  numberOfPages d

set_option maxRecDepth 20000 in
/-- **C81 is violated by files with updates.**  The table at the end of the file, where `startxref` points, says that object 2 is a page tree root with two pages, both there
(object 3 is unchanged).  The program keeps both versions of object 2, uses the old one, and sees one page. -/
theorem C81_refuted_update : openedPages newFile = .ok 1 ∧
    (b!"startxref\n467\n%%EOF\n" <:+ newFile) ∧
    (∃ sect rest, newFile.drop 467 = b!"xref\n" ++ sect ++ b!"trailer\n<< /Size 5 /Root 1 0 R /Prev 188 >>\n" ++ rest ∧ SectionIs sect [(2, ⟨331, 0, true⟩), (4, ⟨396, 0, true⟩)]) ∧
    ObjIs newFile 331 2 b!"\n<< /Type /Pages /Count 2 /Kids [ 3 0 R 4 0 R ] >>\n" ∧
    ObjIs newFile 396 4 b!"\n<< /Type /Page /Parent 2 0 R /MediaBox [0 0 200 100] >>\n" ∧
    ObjIs newFile 117 3 b!"\n<< /Type /Page /Parent 2 0 R /MediaBox [0 0 595 842] >>\n" := by
  have num : ∀ (s : Bytes), s ≠ [] → s.all isDec = true → Numeral s (decVal s) := fun s h1 h2 => ⟨h1, h2, rfl⟩
  have r2 : RowIs b!"0000000331 00000 n \n" ⟨331, 0, true⟩ := rowIs_of b!"0000000331" b!"00000" b!" \n" rfl (by decide) (by decide)
  have r4 : RowIs b!"0000000396 00000 n \n" ⟨396, 0, true⟩ := rowIs_of b!"0000000396" b!"00000" b!" \n" rfl (by decide) (by decide)
  refine ⟨by decide +kernel, by decide +kernel, ⟨b!"2 1\n0000000331 00000 n \n4 1\n0000000396 00000 n \n", b!"startxref\n467\n%%EOF\n", by decide +kernel, ?_⟩, ?_, ?_, ?_⟩
  · exact SectionIs.sub (w := b!"\n") (num b!"2" (by decide) rfl) (num b!"1" (by decide) rfl) ⟨[], 10, rfl, by decide, Or.inl rfl⟩ (.cons r2 .nil)
      (SectionIs.sub (w := b!"\n") (s := []) (m := []) (num b!"4" (by decide) rfl) (num b!"1" (by decide) rfl) ⟨[], 10, rfl, by decide, Or.inl rfl⟩ (.cons r4 .nil) .nil)
  · exact ⟨b!"2", 32, 32, newFile.drop 395, ⟨by decide, by decide, by decide⟩, by decide, by decide, by decide +kernel, by decide +kernel⟩
  · exact ⟨b!"4", 32, 32, newFile.drop 466, ⟨by decide, by decide, by decide⟩, by decide, by decide, by decide +kernel, by decide +kernel⟩
  · exact ⟨b!"3", 32, 32, newFile.drop 187, ⟨by decide, by decide, by decide⟩, by decide, by decide, by decide +kernel, by decide +kernel⟩

/-- a file whose page is object 5, written with this first line, and this generation in its row -/
def pageFile (line gen : Bytes) : Bytes :=
  let pre := b!"%PDF-1.4\n1 0 obj\n<< /Type /Catalog /Pages 2 0 R >>\nendobj\n2 0 obj\n<< /Type /Pages /Count 1 /Kids [ 5 0 R ] >>\nendobj\n" ++ line ++ b!"\n<< /Type /Page /Parent 2 0 R /MediaBox [0 0 595 842] >>\nendobj"
  pre ++ b!"\nxref\n0 3\n0000000000 65535 f \n0000000009 00000 n \n0000000058 00000 n \n5 1\n0000000117 " ++ gen ++
    b!" n \ntrailer\n<< /Size 6 /Root 1 0 R >>\nstartxref\n" ++ natDigits (pre.length + 1) ++ b!"\n%%EOF\n"

set_option maxRecDepth 20000 in
/-- **C81 is violated by other ways to write an object.**  An object of generation 1, and one with two blanks in its first line, cannot be read; with one blank and generation 0
the file is opened. -/
theorem C81_refuted_forms : openedPages (pageFile b!"5 0 obj" b!"00000") = .ok 1 ∧ openedPages (pageFile b!"5  0 obj" b!"00000") = .err .other ∧
    openedPages (pageFile b!"5 1 obj" b!"00001") = .err .other := by
  decide +kernel

end Verif
