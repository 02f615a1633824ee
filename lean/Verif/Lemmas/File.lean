import Verif.Spec.File
import Verif.Theorems.Reopen
import Verif.Theorems.StdTree
/-
Opening a file with one cross-reference table: lemmas.
-/
namespace Verif
open Spec

/-! ### searching for words whose first character occurs once -/

/-- the first character of a word that overlaps the end of a text -/
theorem infix_head {h : UInt8} {p a b : Bytes} (ha : h ∉ a) (hi : h :: p <:+: a ++ b) : h :: p <:+: b := by
  induction a with
  | nil => exact hi
  | cons c a ih =>
    rw [List.cons_append] at hi
    rcases List.infix_cons_iff.1 hi with hp | hi
    · obtain ⟨z, hz⟩ := hp
      simp at hz
      exact absurd hz.1 (by rintro rfl; simp at ha)
    · exact ih (fun hm => ha (by simp [hm])) hi

theorem index_head {h : UInt8} {p x : Bytes} (hp : h ∉ p) (hx : ¬ h :: p <:+: x) (y : Bytes) : index (h :: p) (x ++ (h :: p ++ y)) = some x.length := by
  refine index_eq (by simp) (by rw [List.drop_left]; exact List.prefix_append _ _) ?_
  intro j hj hpre
  rw [List.drop_append_of_le_length (by omega)] at hpre
  obtain ⟨z, hz⟩ := hpre
  by_cases hl : (h :: p).length ≤ (x.drop j).length
  · have h1 : h :: p = (x.drop j).take (h :: p).length := by
      have := congrArg (List.take (h :: p).length) hz
      rw [List.take_left, List.take_append_of_le_length hl] at this
      exact this
    exact hx (h1 ▸ ((List.take_prefix _ _).isInfix.trans (List.drop_suffix _ _).isInfix))
  · -- the word starts in `x` and goes on after it
    obtain ⟨c, u, hu⟩ := List.exists_cons_of_ne_nil (l := x.drop j) (by
      intro e
      have := congrArg List.length e
      simp at this; omega)
    rw [hu] at hz hl
    simp only [List.cons_append, List.cons.injEq] at hz
    obtain ⟨_, hz⟩ := hz
    simp only [List.length_cons] at hl
    rcases List.append_eq_append_iff.1 hz with ⟨q, e1, _⟩ | ⟨q, e1, e2⟩
    · have := congrArg List.length e1
      simp at this; omega
    · cases q with
      | nil => simp at e1; rw [e1] at hl; omega
      | cons d q =>
        simp at e2
        exact hp (by rw [e1, e2.1]; simp)

/-! ### ends of lines -/

theorem rowLike_nl {e : UInt8} (he : e = 10 ∨ e = 13) {w : Bytes} (h : RowLike w) : e ∉ w := by
  rcases he with rfl | rfl
  · exact rowLike_not (by decide) h
  · exact rowLike_not (by decide) h

theorem NoRow.append_at {e : UInt8} (he : ∀ w, RowLike w → e ∉ w) {a b : Bytes} (ha : NoRow a) (hb : NoRow b) : NoRow (a ++ e :: b) := by
  intro w hw hi
  rcases infix_split (he w hw) hi with h | h
  · exact ha w hw h
  · exact hb w hw h

theorem rowLike_head {w : Bytes} (h : RowLike w) : ∃ c t, w = c :: t ∧ isDigit c = true := by
  obtain ⟨a, g, b, s, k, rfl, la, ha, _⟩ := h
  cases a with
  | nil => simp at la
  | cons c a => exact ⟨c, _, rfl, dec_iff.1 (ha c (by simp))⟩

/-- a text without rows, ended by a character that is in no row, is skipped -/
theorem findAll_past {e : UInt8} (he : ∀ w, RowLike w → e ∉ w) : ∀ {s : Bytes} {pos : Nat} {y : Bytes}, NoRow s →
    findAll matchXrefLine pos 0 (s ++ e :: y) = findAll matchXrefLine (pos + s.length + 1) 0 y := by
  have none_of : ∀ (s y : Bytes), NoRow s → matchXrefLine (s ++ e :: y) = none := by
    intro s y hs
    cases hm : matchXrefLine (s ++ e :: y) with
    | none => rfl
    | some n =>
      exfalso
      obtain ⟨_, hr⟩ := matchXrefLine_some hm
      have hl : n ≤ s.length := by
        by_contra hc
        apply he _ hr
        rw [List.take_append, List.mem_append]
        right
        obtain ⟨m, hm⟩ : ∃ m, n - s.length = m + 1 := ⟨n - s.length - 1, by omega⟩
        rw [hm]; simp
      rw [List.take_append_of_le_length hl] at hr
      exact hs _ hr (List.take_prefix _ _).isInfix
  intro s
  induction s with
  | nil =>
    intro pos y h
    have := none_of [] y h
    rw [List.nil_append] at this ⊢
    simp [findAll, this]
  | cons c s ih =>
    intro pos y h
    have := none_of (c :: s) y h
    rw [List.cons_append] at this ⊢
    rw [findAll, this]
    simp only
    rw [ih h.tail]
    congr 1
    simp; omega

/-! ### numbers -/

theorem isDec_digit {c : UInt8} (h : isDec c = true) : isDigit c = true := by
  rw [isDigit_iff]
  simpa [isDec] using h

theorem Numeral.digits {s : Bytes} {n : Nat} (h : Numeral s n) : ∀ c ∈ s, isDigit c = true :=
  fun c hc => isDec_digit (List.all_eq_true.1 h.2.1 c hc)

theorem Numeral.atoi {s : Bytes} {n : Nat} (h : Numeral s n) (hn : n < 2 ^ 63) : atoi s = some (n : Int) := by
  refine atoi_digits h.1 (Numeral.digits h) ?_ (by omega)
  rw [foldl_dec_append s 0 (Numeral.digits h)]
  exact congrArg some h.2.2

theorem foldl_dec_lt : ∀ (s : Bytes) (acc : Nat), (∀ c ∈ s, isDec c = true) → s.foldl (fun a c => 10 * a + (c.toNat - 48)) acc < (acc + 1) * 10 ^ s.length
  | [], acc, _ => by simp
  | c :: s, acc, h => by
    have ih := foldl_dec_lt s (10 * acc + (c.toNat - 48)) (fun d hd => h d (by simp [hd]))
    have hc := h c (by simp)
    simp [isDec] at hc
    rw [List.foldl_cons, List.length_cons, pow_succ]
    refine lt_of_lt_of_le ih ?_
    rw [Nat.mul_comm (10 ^ s.length) 10, ← Nat.mul_assoc]
    exact Nat.mul_le_mul_right _ (by omega)

theorem Numeral.lt {s : Bytes} {n : Nat} (h : Numeral s n) : n < 10 ^ s.length := by
  have := foldl_dec_lt s 0 (List.all_eq_true.1 h.2.1)
  simp only [Nat.zero_add, Nat.one_mul] at this
  rw [← h.2.2]
  exact this

/-! ### rows -/

/-- a row without its end of line -/
def entryText (a b : Bytes) (u : Bool) : Bytes := a ++ b!" " ++ b ++ b!" " ++ (if u then b!"n" else b!"f")

theorem entryText_rowLike {a b : Bytes} {m n : Nat} (u : Bool) (la : a.length = 10) (ha : Numeral a m) (lb : b.length = 5) (hb : Numeral b n) : RowLike (entryText a b u) := by
  refine ⟨a, [32], b, 32, if u then 110 else 102, by cases u <;> simp [entryText], la, fun c hc => dec_iff.2 (Numeral.digits ha c hc), by simp, by simp [Gap], lb,
    fun c hc => dec_iff.2 (Numeral.digits hb c hc), Or.inr rfl, by cases u <;> simp⟩

theorem parseXrefLine_entry {a b : Bytes} {m n : Nat} (u : Bool) (la : a.length = 10) (ha : Numeral a m) (lb : b.length = 5) (hb : Numeral b n) :
    parseXrefLine (entryText a b u) = .ok ⟨m, n, u⟩ := by
  have hma := Numeral.lt ha
  have hmb := Numeral.lt hb
  rw [la] at hma
  rw [lb] at hmb
  have da := Numeral.digits ha
  have db := Numeral.digits hb
  have pa : trimSpace a = a := trimSpace_plain (fun c hc => digit_plain (da c hc))
  have pb : trimSpace b = b := trimSpace_plain (fun c hc => digit_plain (db c hc))
  have a32 : (32 : UInt8) ∉ a := fun hm => absurd (da _ hm) (by decide)
  have b32 : (32 : UInt8) ∉ b := fun hm => absurd (db _ hm) (by decide)
  have ht : trimSpace (entryText a b u) = entryText a b u := by
    obtain ⟨c, t, hc⟩ := List.exists_cons_of_ne_nil ha.1
    have hcd := digit_plain (da c (by rw [hc]; simp))
    have := trimSpace_ends (a := []) (b := []) (x := entryText a b u) (c := c) (e := if u then 110 else 102) (by simp) (by simp) (by simp [entryText, hc])
      (by cases u <;> exact List.getLast?_concat) hcd.1 hcd.2 (by cases u <;> decide) (by cases u <;> decide)
    simpa using this
  have hsp : splitSpace (entryText a b u) = [a, b, if u then b!"n" else b!"f"] := by
    have e : entryText a b u = a ++ 32 :: (b ++ 32 :: (if u then b!"n" else b!"f")) := by simp [entryText]
    rw [e, splitSpace_cons a32, splitSpace_cons b32]
    cases u <;> rfl
  unfold parseXrefLine
  rw [ht, hsp]
  simp only [pa, pb, Numeral.atoi ha (by omega), Numeral.atoi hb (by omega), Res.orErr_some, Res.ok_bind]
  cases u <;> rfl

/-- the matches in a row and what follows -/
theorem rows_row {start pos : Nat} (hp : start ≤ pos) {s y : Bytes} {e : Entry} (h : RowIs s e) :
    parseXrefRows start (findAll matchXrefLine pos 0 (s ++ y)) =
      (parseXrefRows start (findAll matchXrefLine (pos + 20) 0 y)).bind (fun l => .ok (⟨e.offset, e.gen, e.inUse⟩ :: l)) := by
  obtain ⟨a, b, eol, rfl, la, ha, lb, hb, heol⟩ := h
  obtain ⟨g, nl, rfl, hnl⟩ : ∃ g nl, eol = [g, nl] ∧ (nl = 10 ∨ nl = 13) := by
    rcases heol with rfl | rfl | rfl
    · exact ⟨32, 10, rfl, Or.inl rfl⟩
    · exact ⟨32, 13, rfl, Or.inr rfl⟩
    · exact ⟨13, 10, rfl, Or.inl rfl⟩
  have e1 : a ++ b!" " ++ b ++ b!" " ++ (if e.inUse then b!"n" else b!"f") ++ [g, nl] ++ y = entryText a b e.inUse ++ ([g] ++ nl :: y) := by simp [entryText]
  have hr := entryText_rowLike e.inUse la ha lb hb
  have hm := matchXrefLine_row hr ([g] ++ nl :: y)
  have hlen : (entryText a b e.inUse).length = 18 := by cases e.inUse <;> simp [entryText, la, lb]
  have hpl := parseXrefLine_entry e.inUse la ha lb hb
  rw [e1]
  obtain ⟨c, t, hc, _⟩ := rowLike_head hr
  rw [hc] at hm hlen hpl ⊢
  rw [List.cons_append] at hm ⊢
  rw [findAll, hm]
  simp only
  rw [List.length_cons, Nat.add_sub_cancel, findAll_jump, findAll_past (fun w hw => rowLike_nl hnl hw) (noRow_short (by simp))]
  rw [← List.cons_append, show t.length + 1 = (c :: t).length from rfl, List.take_left, parseXrefRows, if_neg (by omega), hpl]
  simp only [List.length_cons] at hlen
  simp only [Res.ok_bind, List.length_cons, List.length_nil]
  rw [show pos + 1 + t.length + (0 + 1) + 1 = pos + 20 by omega]
  rfl

theorem rows_rows {start : Nat} {y : Bytes} {tl : List XrefRow} : ∀ {first : Nat} {s : Bytes} {l : List (Nat × Entry)}, RowsAre first s l → ∀ (pos : Nat), start ≤ pos →
    (∀ pos, start ≤ pos → parseXrefRows start (findAll matchXrefLine pos 0 y) = .ok tl) →
    parseXrefRows start (findAll matchXrefLine pos 0 (s ++ y)) = .ok (tableOf l ++ tl) := by
  intro first s l h
  induction h with
  | nil => intro pos hp hy; simpa [tableOf] using hy pos hp
  | cons hr _ ih =>
    intro pos hp hy
    rw [List.append_assoc, rows_row hp hr, ih (pos + 20) (by omega) hy]
    rfl

theorem white_ne {w : Bytes} (h : White w) {c : UInt8} (hc : c ≠ 32 ∧ c ≠ 9 ∧ c ≠ 10 ∧ c ≠ 13) : c ∉ w := by
  intro hm
  rcases h c hm with e | e | e | e <;> simp [e] at hc

theorem numeral_not {s : Bytes} {n : Nat} (h : Numeral s n) {c : UInt8} (hc : isDigit c = false) : c ∉ s := by
  intro hm
  rw [Numeral.digits h c hm] at hc
  simp at hc

theorem rows_section {start : Nat} {y : Bytes} {tl : List XrefRow} : ∀ {s : Bytes} {l : List (Nat × Entry)}, SectionIs s l → ∀ (pos : Nat), start ≤ pos →
    (∀ pos, start ≤ pos → parseXrefRows start (findAll matchXrefLine pos 0 y) = .ok tl) →
    parseXrefRows start (findAll matchXrefLine pos 0 (s ++ y)) = .ok (tableOf l ++ tl) := by
  intro s l h
  induction h with
  | nil => intro pos hp hy; simpa [tableOf] using hy pos hp
  | @sub f c w r s first l m hf hc hw hr _ ih =>
    intro pos hp hy
    obtain ⟨g, e, rfl, hg, he⟩ := hw
    have e1 : f ++ b!" " ++ c ++ (g ++ [e]) ++ r ++ s ++ y = (f ++ b!" " ++ c ++ g) ++ e :: (r ++ (s ++ y)) := by simp
    have hn : NoRow (f ++ b!" " ++ c ++ g) := by
      refine free_noK ?_ ?_ ?_ <;>
      · simp only [List.mem_append, not_or]
        exact ⟨⟨⟨numeral_not hf (by decide), by decide⟩, numeral_not hc (by decide)⟩, white_ne hg (by decide)⟩
    rw [e1, findAll_past (fun w hw => rowLike_nl he hw) hn, rows_rows hr _ (by omega) (fun pos hp => ih pos hp hy)]
    simp [tableOf]

/-- bytes of a table -/
theorem rows_bytes {first : Nat} {s : Bytes} {l : List (Nat × Entry)} (h : RowsAre first s l) {c : UInt8} (hd : isDigit c = false) (hc : c ≠ 32 ∧ c ≠ 9 ∧ c ≠ 10 ∧ c ≠ 13)
    (hk : c ≠ 110 ∧ c ≠ 102) : c ∉ s := by
  induction h with
  | nil => simp
  | @cons first s t e l hr _ ih =>
    obtain ⟨a, b, eol, rfl, _, ha, _, hb, heol⟩ := hr
    have h1 : c ∉ (if e.inUse then b!"n" else b!"f") := by cases e.inUse <;> simp [hk]
    have h2 : c ∉ eol := by rcases heol with rfl | rfl | rfl <;> simp [hc]
    simp only [List.mem_append, not_or]
    exact ⟨⟨⟨⟨⟨⟨numeral_not ha hd, by simp [hc]⟩, numeral_not hb hd⟩, by simp [hc]⟩, h1⟩, h2⟩, ih⟩

theorem section_bytes {s : Bytes} {l : List (Nat × Entry)} (h : SectionIs s l) {c : UInt8} (hd : isDigit c = false) (hc : c ≠ 32 ∧ c ≠ 9 ∧ c ≠ 10 ∧ c ≠ 13)
    (hk : c ≠ 110 ∧ c ≠ 102) : c ∉ s := by
  induction h with
  | nil => simp
  | @sub f n w r s first l m hf hn hw hr _ ih =>
    obtain ⟨g, e, rfl, hg, he⟩ := hw
    have h1 : c ≠ e := by rcases he with rfl | rfl <;> simp [hc]
    simp only [List.mem_append, not_or]
    exact ⟨⟨⟨⟨⟨numeral_not hf hd, by simp [hc]⟩, numeral_not hn hd⟩, white_ne hg hc, by simpa using h1⟩, rows_bytes hr hd hc hk⟩, ih⟩

/-! ### objects -/

theorem fieldsAux_until {d : UInt8} (hd : d < 128 ∧ isSp d = true) {a : Bytes} (ha : ∀ c ∈ a, c < 128 ∧ isSp c = false) : ∀ (cur : Bytes), (cur ≠ [] ∨ a ≠ []) → ∀ y,
    fieldsAux 0 cur (a ++ d :: y) = (cur.reverse ++ a) :: fieldsAux 0 [] y := by
  induction a with
  | nil =>
    intro cur h y
    have h : cur ≠ [] := by simpa using h
    rw [List.nil_append, fieldsAux, leadingSpace_ascii hd.1, hd.2]
    cases cur with
    | nil => exact absurd rfl h
    | cons c t => simp
  | cons c t ih =>
    intro cur _ y
    have hc := ha c (by simp)
    rw [List.cons_append, fieldsAux, leadingSpace_ascii hc.1, hc.2]
    simp only [Bool.false_eq_true, if_false]
    rw [ih (fun d hd => ha d (by simp [hd])) (c :: cur) (by simp)]
    simp

theorem white_byte {w : UInt8} (h : White [w]) : (w < 128 ∧ isSp w = true) ∧ isWs1 w = true ∧ isDigit w = false ∧ w ≠ 101 := by
  rcases h w (by simp) with rfl | rfl | rfl | rfl <;> decide

theorem objID_line {num : Bytes} {id : Nat} {w1 w2 : UInt8} (hn : Numeral num id) (hid : id < 2 ^ 63) (h1 : White [w1]) (h2 : White [w2]) :
    objIDFromStartObjLine (num ++ w1 :: 48 :: w2 :: b!"obj") = .ok (id : Int) := by
  have hp : ∀ c ∈ num, c < 128 ∧ isSp c = false := fun c hc => digit_plain (Numeral.digits hn c hc)
  have e : fields (num ++ w1 :: 48 :: w2 :: b!"obj") = [num, b!"0", b!"obj"] := by
    unfold fields
    rw [fieldsAux_until (white_byte h1).1 hp [] (Or.inr hn.1)]
    have := fieldsAux_until (white_byte h2).1 (a := b!"0") (by decide) [] (Or.inr (by decide)) b!"obj"
    rw [show (48 :: w2 :: b!"obj" : Bytes) = b!"0" ++ w2 :: b!"obj" from rfl, this]
    rfl
  unfold objIDFromStartObjLine
  rw [e]
  simp only
  rw [trimSpace_plain hp, Numeral.atoi hn hid]
  rfl

theorem parseObj_std {raw body : Bytes} {off id : Nat} (h : ObjIs raw off id body) (hid : id < 2 ^ 63) : parseObj raw off = .ok ⟨id, body⟩ := by
  obtain ⟨num, w1, w2, rest, hn, h1, h2, hd, hb⟩ := h
  obtain ⟨H, hH⟩ : ∃ H, H = num ++ w1 :: 48 :: w2 :: b!"obj" := ⟨_, rfl⟩
  have e : raw.drop off = (H ++ body) ++ (b!"endobj" ++ rest) := by rw [hd, hH]; simp
  have hoff : off ≤ raw.length := by
    by_contra hc
    have hl := congrArg List.length e
    simp at hl
    omega
  have hH1 : (101 : UInt8) ∉ H := by
    rw [hH]
    simp only [List.mem_append, List.mem_cons, not_or]
    exact ⟨numeral_not hn (by decide), fun e => (white_byte h1).2.2.2 e.symm, by decide, fun e => (white_byte h2).2.2.2 e.symm, by decide⟩
  have hX : ¬ b!"endobj" <:+: H ++ body := fun hi => hb (infix_head hH1 hi)
  have hi : index b!"endobj" (raw.drop off) = some (H ++ body).length := by rw [e]; exact index_head (by decide) hX rest
  have ht : (raw.drop off).take (H ++ body).length = H ++ body := by rw [e, List.take_left]
  have hms : matchStartObj (H ++ body) = some H.length := by
    have e2 : H ++ body = num ++ w1 :: 48 :: w2 :: 111 :: 98 :: 106 :: body := by rw [hH]; simp
    have hs : spanLen isDigit (num ++ w1 :: 48 :: w2 :: 111 :: 98 :: 106 :: body) = num.length := spanLen_append (Numeral.digits hn) (white_byte h1).2.2.1
    unfold matchStartObj
    rw [e2, hs]
    simp only [List.drop_left]
    rw [if_neg (by simpa using hn.1), if_pos ⟨(white_byte h1).2.1, (white_byte h2).2.1⟩, hH]
    simp
  have hf : findFirst matchStartObj 0 (H ++ body) = some (0, H.length) := by
    obtain ⟨c, t, hc⟩ := List.exists_cons_of_ne_nil (l := H) (by rw [hH]; simp)
    rw [hc, List.cons_append] at hms ⊢
    rw [findFirst, hms]
    simp
  unfold parseObj
  rw [if_neg (by omega)]
  simp only [Int.toNat_natCast, hi, ht, hf]
  rw [List.take_left, List.drop_left, List.drop_zero, hH, objID_line hn hid h1 h2]
  rfl

theorem parseObjs_std {raw : Bytes} {l : List (Nat × Entry)} {os : List Obj} (h : ObjsAre raw l os) : parseObjs raw (tableOf l) = .ok os := by
  induction h with
  | nil => rfl
  | free hu _ ih => simpa [tableOf, parseObjs, hu] using ih
  | @used id e body l os hu hg hid ho _ ih =>
    have : tableOf ((id, e) :: l) = ⟨e.offset, e.gen, e.inUse⟩ :: tableOf l := rfl
    rw [this, parseObjs, if_pos hu]
    simp only [parseObj_std ho hid, ih, Res.ok_bind]

end Verif
