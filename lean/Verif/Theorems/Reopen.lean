import Verif.Lemmas.Reopen
import Verif.Lemmas.FlatFont
import Verif.Theorems.Fresh
import Verif.Theorems.Layout
/-
C04: opening what `SaveTo` wrote.
-/
namespace Verif
open Spec

/-! ### the rows -/

/-- a row without its line end -/
def rowText (r : Row) : Bytes :=
  formatXrefline r.offset ++ b!" " ++ (if r.free then b!"65535" else b!"00000") ++ b!" " ++ (if r.free then b!"f" else b!"n")

theorem rowBytes_eq (r : Row) : rowBytes r = rowText r ++ b!" \n" := by simp [rowBytes, rowText]

theorem rowText_rowLike {r : Row} (h : r.offset < 10 ^ 10) : RowLike (rowText r) := by
  refine ⟨formatXrefline r.offset, b!" ", if r.free then b!"65535" else b!"00000", 32, if r.free then 102 else 110, ?_, formatXrefline_length h,
    fun c hc => dec_iff.2 (formatXrefline_isDigit _ c hc), by simp, by simp [Gap], ?_, ?_, Or.inr rfl, ?_⟩
  · cases hf : r.free <;> simp [rowText, hf]
  · cases r.free <;> rfl
  · cases r.free <;> simp [Dec]
  · cases r.free <;> simp

/-- the row as the reader keeps it -/
def readRow (r : Row) : XrefRow := ⟨r.offset, if r.free then 65535 else 0, !r.free⟩

theorem atoi_digits {s : Bytes} {n : Nat} (hne : s ≠ []) (hd : ∀ c ∈ s, isDigit c = true) (hv : digitsVal 0 s = some n) (hn : n ≤ 9223372036854775807) :
    atoi s = some (n : Int) := by
  cases s with
  | nil => exact absurd rfl hne
  | cons c t =>
    have hc := hd c (by simp)
    have h1 : c ≠ 45 := isDigit_ne hc 45 (by decide)
    have h2 : c ≠ 43 := isDigit_ne hc 43 (by decide)
    have hr : (match c :: t with
      | 45 :: t => (parseNat t).map (fun (n : Nat) => - (n : Int))
      | 43 :: t => (parseNat t).map (fun (n : Nat) => (n : Int))
      | t => (parseNat t).map (fun (n : Nat) => (n : Int))) = some (n : Int) := by
      split
      · rename_i heq; simp at heq; exact absurd heq.1 h1
      · rename_i heq; simp at heq; exact absurd heq.1 h2
      · simp [parseNat, hv]
    have key : ∀ r : Option Int, r = some (n : Int) →
        (match r with
          | some v => if - 9223372036854775808 ≤ v ∧ v ≤ 9223372036854775807 then some v else none
          | none => none) = some (n : Int) := by
      rintro r rfl
      simp only
      rw [if_pos ⟨by omega, by omega⟩]
    exact key _ hr

theorem digit_plain {c : UInt8} (h : isDigit c = true) : c < 128 ∧ isSp c = false := by
  have h := (isDigit_iff c).1 h
  refine ⟨by show c.toNat < 128; omega, ?_⟩
  have hne : ∀ d : UInt8, d.toNat ≤ 32 → c ≠ d := by
    rintro d hd rfl
    omega
  simp [isSp, hne 9 (by decide), hne 10 (by decide), hne 11 (by decide), hne 12 (by decide), hne 13 (by decide), hne 32 (by decide)]

theorem parseXrefLine_row {r : Row} (h : r.offset < 10 ^ 10) : parseXrefLine (rowText r) = .ok (readRow r) := by
  have hd := formatXrefline_isDigit r.offset
  have hl := formatXrefline_length h
  have hne : formatXrefline r.offset ≠ [] := by intro e; rw [e] at hl; simp at hl
  have h32 : (32 : UInt8) ∉ formatXrefline r.offset := fun hm => absurd (hd _ hm) (by decide)
  have hv : digitsVal 0 (formatXrefline r.offset) = some r.offset := by
    rw [formatXrefline, digitsVal_replicate_zero _ _ _ rfl, digitsVal_natDigits]
  have ha : atoi (trimSpace (formatXrefline r.offset)) = some (r.offset : Int) := by
    rw [trimSpace_plain (fun c hc => digit_plain (hd c hc))]
    exact atoi_digits hne hd hv (by omega)
  have ht : trimSpace (rowText r) = rowText r := by
    obtain ⟨c, t, hc⟩ := List.exists_cons_of_ne_nil hne
    have hcd := digit_plain (hd c (by rw [hc]; simp))
    have := trimSpace_ends (a := []) (b := []) (x := rowText r) (c := c) (e := if r.free then 102 else 110) (by simp) (by simp) (by simp [rowText, hc])
      (by cases hf : r.free <;> simp [rowText, hf]) hcd.1 hcd.2 (by cases r.free <;> decide) (by cases r.free <;> decide)
    simpa using this
  have hsp : splitSpace (rowText r) = [formatXrefline r.offset, if r.free then b!"65535" else b!"00000", if r.free then b!"f" else b!"n"] := by
    have e : rowText r = formatXrefline r.offset ++ 32 :: ((if r.free then b!"65535" else b!"00000") ++ 32 :: (if r.free then b!"f" else b!"n")) := by simp [rowText]
    rw [e, splitSpace_cons h32]
    cases r.free <;> rfl
  unfold parseXrefLine
  rw [ht, hsp]
  simp only [ha, Res.orErr_some, Res.ok_bind]
  cases hf : r.free
  · rw [show (readRow r) = ⟨r.offset, 0, true⟩ by simp [readRow, hf]]; rfl
  · rw [show (readRow r) = ⟨r.offset, 65535, false⟩ by simp [readRow, hf]]; rfl

theorem findAll_jump (m : Bytes → Option Nat) : ∀ (a : Bytes) (pos : Nat) (y : Bytes), findAll m pos a.length (a ++ y) = findAll m (pos + a.length) 0 y
  | [], pos, y => rfl
  | c :: a, pos, y => by
    rw [List.cons_append, List.length_cons, findAll, findAll_jump m a]
    congr 1; omega

theorem noRow_short {s : Bytes} (h : s.length < 18) : NoRow s := by
  intro w hw hi
  have h1 := hi.length_le
  obtain ⟨a, g, b, k, l, rfl, ha, _, hg, _, hb, _⟩ := hw
  have h2 : g.length ≠ 0 := by simpa using hg
  simp only [List.length_append, List.length_cons, List.length_nil] at h1
  omega

theorem parseXrefRows_rows {start : Nat} {y : Bytes} (hy : NoRow y) : ∀ (rows : List Row) (pos : Nat), start ≤ pos → (∀ r ∈ rows, r.offset < 10 ^ 10) →
    parseXrefRows start (findAll matchXrefLine pos 0 (rows.flatMap rowBytes ++ y)) = .ok (rows.map readRow)
  | [], pos, _, _ => by simp [findAll_none hy, parseXrefRows]
  | r :: rows, pos, hp, h => by
    have hr := rowText_rowLike (h r (by simp))
    have e : (r :: rows).flatMap rowBytes ++ y = rowText r ++ ([32] ++ 10 :: (rows.flatMap rowBytes ++ y)) := by
      simp [rowBytes_eq]
    have hm := matchXrefLine_row hr ([32] ++ 10 :: (rows.flatMap rowBytes ++ y))
    rw [e]
    obtain ⟨c, t, hc⟩ : ∃ c t, rowText r = c :: t := List.exists_cons_of_ne_nil (by
      have hl := formatXrefline_length (h r (by simp))
      intro e
      have := congrArg List.length e
      simp [rowText] at this)
    rw [hc] at hm ⊢
    rw [List.cons_append] at hm ⊢
    rw [findAll, hm]
    simp only
    rw [List.length_cons, Nat.add_sub_cancel, findAll_jump, findAll_skip (noRow_short (by simp))]
    rw [← List.cons_append, show t.length + 1 = (c :: t).length from rfl, List.take_left, parseXrefRows, if_neg (by omega), ← hc, parseXrefLine_row (h r (by simp))]
    simp only [Res.ok_bind]
    rw [parseXrefRows_rows hy rows _ (by omega) (fun q hq => h q (by simp [hq]))]
    rfl

/-! ### the trailer -/

/-- the entries of the trailer -/
def trailerProps (size : Nat) (root : Int) : Option Int → Props
  | none => [⟨b!"Size", natDigits size⟩, ⟨b!"Root", refString root 0⟩]
  | some e => [⟨b!"Size", natDigits size⟩, ⟨b!"Root", refString root 0⟩, ⟨b!"Encrypt", refString e 0⟩, ⟨b!"ID", b!"[()()]"⟩]

/-- the text of the trailer between the keywords -/
def trailerDict (size : Nat) (root : Int) (enc : Option Int) : Bytes :=
  b!"\n<<\n/Size " ++ natDigits size ++ b!"\n/Root " ++ itoa root ++ b!" 0 R\n" ++ encPart enc ++ b!">>\n"

theorem strPair_ok : ValOk false b!"[()()]" ∧ b!"[()()]" ≠ [] ∧ EndOk b!"[()()]" := by
  refine ⟨⟨by unfold Ascii; decide, by decide, ⟨by decide, by decide, by decide, by decide⟩, ?_, Or.inl (by decide)⟩, by decide, ?_⟩
  · intro t ht
    exact absurd (ht.subset (a := 32) (by simp)) (by decide)
  · intro c hc; simp at hc; subst hc; rfl

theorem endOk_key {k v : Bytes} (hv : v ≠ []) (he : EndOk v) : LastOk ⟨k, v⟩ := by
  intro c hc
  apply he
  rw [← hc]
  simp only
  rw [show 47 :: (k ++ v) = (47 :: k) ++ v from rfl, List.getLast?_append]
  cases h : v.getLast? with
  | none => exact absurd (List.getLast?_eq_none_iff.1 h) hv
  | some d => rfl

theorem trailerProps_canon (size : Nat) (root : Int) (enc : Option Int) : Canon (trailerProps size root enc) ∧ NoStream (trailerProps size root enc) := by
  have hn := itoa_valOk (size : Int)
  rw [itoa_natCast] at hn
  have hns := itoa_noStream (size : Int)
  rw [itoa_natCast] at hns
  have hr : ∀ v, ValOk false (refString v 0) ∧ refString v 0 ≠ [] ∧ EndOk (refString v 0) := fun v => by
    rw [refString_eq]; exact refsT_valOk (by simp)
  have k1 : KeyOk b!"Size" := by unfold KeyOk; decide
  have k2 : KeyOk b!"Root" := by unfold KeyOk; decide
  have k3 : KeyOk b!"Encrypt" := by unfold KeyOk; decide
  have k4 : KeyOk b!"ID" := by unfold KeyOk; decide
  cases enc with
  | none =>
    refine ⟨Canon.cons k1 hn.1 (by simp) (Canon.cons k2 (hr root).1 (fun _ => endOk_key (hr root).2.1 (hr root).2.2) trivial), ?_⟩
    intro p hp
    simp only [trailerProps, List.mem_cons, List.not_mem_nil, or_false] at hp
    rcases hp with rfl | rfl
    · exact ⟨not_infix_short (by show _ < 6; simp), hns⟩
    · exact ⟨not_infix_short (by show _ < 6; simp), refString_noStream root⟩
  | some e =>
    refine ⟨Canon.cons k1 hn.1 (by simp) (Canon.cons k2 (hr root).1 (by simp) (Canon.cons k3 (hr e).1 (by simp)
      (Canon.cons k4 strPair_ok.1 (fun _ => endOk_key strPair_ok.2.1 strPair_ok.2.2) trivial))), ?_⟩
    intro p hp
    simp only [trailerProps, List.mem_cons, List.not_mem_nil, or_false] at hp
    rcases hp with rfl | rfl | rfl | rfl
    · exact ⟨not_infix_short (by show _ < 6; simp), hns⟩
    · exact ⟨not_infix_short (by show _ < 6; simp), refString_noStream root⟩
    · exact ⟨noStream_of_head (by simp), refString_noStream e⟩
    · exact ⟨not_infix_short (by show _ < 6; simp), noStream_of_head (by decide)⟩

/-- the layouts of the trailer: as written there, and as `setProperties` writes it -/
def trailerToks (nl : Bytes) (size : Nat) (root : Int) : Option Int → List (Bytes × Tok)
  | none => [(b!"\n", .name b!"Size"), (b!" ", .word (natDigits size)), (nl, .name b!"Root"), (b!" ", .word (itoa root)), (b!" ", .word b!"0"), (b!" ", .word b!"R")]
  | some e => [(b!"\n", .name b!"Size"), (b!" ", .word (natDigits size)), (nl, .name b!"Root"), (b!" ", .word (itoa root)), (b!" ", .word b!"0"), (b!" ", .word b!"R"),
      (nl, .name b!"Encrypt"), (b!" ", .word (itoa e)), (b!" ", .word b!"0"), (b!" ", .word b!"R"),
      (nl, .name b!"ID"), (b!" ", .openArr), (b!"", .word b!"()()"), (b!"", .closeArr)]

theorem trailerToks_same (size : Nat) (root : Int) (enc : Option Int) : SameTokens (trailerToks b!"\n" size root enc) (trailerToks [] size root enc) := by
  have hw : ∀ n, (Tok.word (itoa n)).Ok := fun n => ⟨itoa_ne_nil n, itoa_regular n⟩
  have hs : (Tok.word (natDigits size)).Ok := by have := hw (size : Int); rwa [itoa_natCast] at this
  cases enc with
  | none =>
    refine .cons (by decide) (by decide) (by decide) (by simp [Tok.IsWord]) (.cons (by decide) (by decide) hs (by simp) (.cons (by decide) (by decide) (by decide) (by simp [Tok.IsWord])
      (.cons (by decide) (by decide) (hw root) (by simp) (.cons (by decide) (by decide) (by decide) (by simp) (.cons (by decide) (by decide) (by decide) (by simp) .nil)))))
  | some e =>
    refine .cons (by decide) (by decide) (by decide) (by simp [Tok.IsWord]) (.cons (by decide) (by decide) hs (by simp) (.cons (by decide) (by decide) (by decide) (by simp [Tok.IsWord])
      (.cons (by decide) (by decide) (hw root) (by simp) (.cons (by decide) (by decide) (by decide) (by simp) (.cons (by decide) (by decide) (by decide) (by simp)
      (.cons (by decide) (by decide) (by decide) (by simp [Tok.IsWord]) (.cons (by decide) (by decide) (hw e) (by simp) (.cons (by decide) (by decide) (by decide) (by simp)
      (.cons (by decide) (by decide) (by decide) (by simp) (.cons (by decide) (by decide) (by decide) (by simp [Tok.IsWord]) (.cons (by decide) (by decide) (by decide) (by simp)
      (.cons (by decide) (by decide) (by decide) (by simp) (.cons (by decide) (by decide) (by decide) (by simp) .nil)))))))))))))

theorem trailer_no_s {nl : Bytes} (hnl : nl = [] ∨ nl = b!"\n") (size : Nat) (root : Int) (enc : Option Int) : (115 : UInt8) ∉ render (trailerToks nl size root enc) := by
  have hi : ∀ n, (115 : UInt8) ∉ itoa n := by
    intro n h
    rcases itoa_bytes n 115 h with e | e <;> exact absurd e (by decide)
  have hs := hi (size : Int)
  rw [itoa_natCast] at hs
  rcases hnl with rfl | rfl <;> cases enc <;> simp [trailerToks, render, Tok.bytes, hi, hs]

theorem readProperties_trailer (size : Nat) (root : Int) (enc : Option Int) : readProperties (trailerDict size root enc) = .ok (trailerProps size root enc) := by
  obtain ⟨hc, hn⟩ := trailerProps_canon size root enc
  rw [← readProperties_setProperties hc hn]
  have h := C48_layout_partial (trailerToks_same size root enc) (a1 := b!"\n") (a2 := []) (b1 := b!"\n") (b2 := b!"\n") ⟨by decide, by decide⟩ ⟨by decide, by decide⟩
    (noStream_of_head (trailer_no_s (Or.inr rfl) size root enc)) (noStream_of_head (trailer_no_s (Or.inl rfl) size root enc))
  have e1 : trailerDict size root enc = b!"\n" ++ (b!"<<" ++ (render (trailerToks b!"\n" size root enc) ++ b!"\n") ++ b!">>" ++ b!"\n") ++ [] := by
    cases enc <;> simp [trailerDict, trailerToks, render, Tok.bytes, encPart]
  have i0 : itoa 0 = [48] := by decide
  have e2 : setProperties (trailerProps size root enc) = b!"<<" ++ (render (trailerToks [] size root enc) ++ []) ++ b!">>" ++ b!"\n" := by
    cases enc <;> simp [setProperties, trailerProps, trailerToks, render, Tok.bytes, refString, i0]
  rw [e1, e2, readProperties_around (by decide) (by simp), h]

theorem trailerProps_root (size : Nat) {root : Int} (enc : Option Int) (h : Int64 root) :
    ∃ p, getPropByKey (trailerProps size root enc) b!"Root" = some p ∧ readObjIDFromDictionary p.rawVal = .ok root := by
  refine ⟨⟨b!"Root", refString root 0⟩, ?_, ?_⟩
  · cases enc <;> simp [trailerProps, getPropByKey]
  · exact readObjID_refString h

/-! ### the objects -/

theorem fieldsAux_word {a : Bytes} (ha : ∀ c ∈ a, c < 128 ∧ isSp c = false) : ∀ (cur : Bytes), (cur ≠ [] ∨ a ≠ []) → ∀ y, fieldsAux 0 cur (a ++ 32 :: y) = (cur.reverse ++ a) :: fieldsAux 0 [] y := by
  induction a with
  | nil =>
    intro cur h y
    have h : cur ≠ [] := by simpa using h
    rw [List.nil_append, fieldsAux, leadingSpace_ascii (by decide)]
    cases cur with
    | nil => exact absurd rfl h
    | cons c t => simp [isSp]
  | cons c t ih =>
    intro cur _ y
    have hc := ha c (by simp)
    rw [List.cons_append, fieldsAux, leadingSpace_ascii hc.1, hc.2]
    simp only [Bool.false_eq_true, if_false]
    rw [ih (fun d hd => ha d (by simp [hd])) (c :: cur) (by simp)]
    simp

theorem objIDFromStartObjLine_eq {k : Nat} (hk : k < 2 ^ 63) : objIDFromStartObjLine (natDigits k ++ b!" 0 obj") = .ok (k : Int) := by
  have hp : ∀ c ∈ natDigits k, c < 128 ∧ isSp c = false := fun c hc => digit_plain (natDigits_isDigit k c hc)
  have e : fields (natDigits k ++ b!" 0 obj") = [natDigits k, b!"0", b!"obj"] := by
    unfold fields
    rw [show (b!" 0 obj" : Bytes) = 32 :: b!"0 obj" from rfl, fieldsAux_word hp [] (Or.inr (natDigits_ne_nil k))]
    simp only [List.reverse_nil, List.nil_append]
    congr 1
  unfold objIDFromStartObjLine
  rw [e]
  simp only
  rw [trimSpace_plain hp, atoi_digits (natDigits_ne_nil k) (natDigits_isDigit k) (digitsVal_natDigits k) (by omega)]
  rfl

theorem not_infix_of_mem {w s : Bytes} {c : UInt8} (hw : c ∈ w) (hs : c ∉ s) : ¬ w <:+: s := fun h => hs (h.subset hw)

theorem natDigits_not {n : Nat} {c : UInt8} (h : isDigit c = false) : c ∉ natDigits n := fun hm => by
  have := natDigits_isDigit n c hm
  rw [h] at this; simp at this

/-- reading an object where it was written -/
theorem parseObj_at {raw rest : Bytes} {off k : Nat} {o : Obj} (hd : raw.drop off = objBytes o ++ rest) (hoff : off ≤ raw.length) (hk : o.objID = k) (hmax : k < 2 ^ 63)
    (hT : ¬ b!"endobj" <:+: trimSpace o.data) : parseObj raw off = .ok ⟨o.objID, between (trimSpace o.data)⟩ := by
  have e : raw.drop off = (10 :: (natDigits k ++ b!" 0 obj") ++ 10 :: trimSpace o.data) ++ 10 :: (b!"endobj" ++ (10 :: rest)) := by
    rw [hd, objBytes, hk, itoa_natCast]; simp
  have hX : ¬ b!"endobj" <:+: 10 :: (natDigits k ++ b!" 0 obj") ++ 10 :: trimSpace o.data := by
    intro h
    rcases infix_split (by decide) h with h | h
    · refine not_infix_of_mem (c := 101) (by decide) ?_ h
      simp [natDigits_not (n := k) (c := 101) (by decide)]
    · exact hT h
  have hi := index_at (pat := b!"endobj") (y := 10 :: rest) (by decide) hX
  rw [← e] at hi
  have ht : (raw.drop off).take ((10 :: (natDigits k ++ b!" 0 obj") ++ 10 :: trimSpace o.data).length + 1) = 10 :: (natDigits k ++ (b!" 0 obj" ++ between (trimSpace o.data))) := by
    rw [e, List.take_length_add_append]
    simp [between]
  have hms : matchStartObj (natDigits k ++ (b!" 0 obj" ++ between (trimSpace o.data))) = some ((natDigits k).length + 6) := by
    have hs : spanLen isDigit (natDigits k ++ (b!" 0 obj" ++ between (trimSpace o.data))) = (natDigits k).length :=
      spanLen_append (natDigits_isDigit k) (by decide)
    unfold matchStartObj
    rw [hs]
    simp only [List.drop_left]
    rw [if_neg (by simpa using natDigits_ne_nil k)]
    simp [isWs1]
  have hf : findFirst matchStartObj 0 (10 :: (natDigits k ++ (b!" 0 obj" ++ between (trimSpace o.data)))) = some (1, 1 + ((natDigits k).length + 6)) := by
    have h0 : matchStartObj (10 :: (natDigits k ++ (b!" 0 obj" ++ between (trimSpace o.data)))) = none := by
      simp [matchStartObj, spanLen, show isDigit 10 = false by decide]
    rw [findFirst, h0]
    obtain ⟨c, t, hc⟩ := List.exists_cons_of_ne_nil (natDigits_ne_nil k)
    rw [hc, List.cons_append] at hms ⊢
    simp only
    rw [findFirst, hms]
  have e2 : 10 :: (natDigits k ++ (b!" 0 obj" ++ between (trimSpace o.data))) = (10 :: (natDigits k ++ b!" 0 obj")) ++ between (trimSpace o.data) := by simp
  have hl : 1 + ((natDigits k).length + 6) = (10 :: (natDigits k ++ b!" 0 obj")).length := by simp; omega
  unfold parseObj
  rw [if_neg (by omega)]
  simp only [Int.toNat_natCast, hi, ht, hf]
  rw [e2, hl, List.take_left, List.drop_left]
  simp only [List.drop_succ_cons, List.drop_zero]
  rw [objIDFromStartObjLine_eq hmax]
  simp [hk]

/-- an object as it is read back -/
def back (o : Obj) : Obj := ⟨o.objID, between (trimSpace o.data)⟩

/-- the objects in the order of their numbers -/
def inOrder (objs : List Obj) (j n : Nat) : List Obj := (List.range' j n).filterMap (fun k : Nat => (objs.find? (fun o => o.objID = (k : Int))).map back)

theorem parseObjs_rows {raw : Bytes} {objs : List Obj} : ∀ (rows : List Row) (j : Nat), (∀ i r, rows[i]? = some r →
      (r.free = true ∧ objs.find? (fun o => o.objID = ((j + i : Nat) : Int)) = none) ∨
      (r.free = false ∧ ∃ o, objs.find? (fun o => o.objID = ((j + i : Nat) : Int)) = some o ∧ parseObj raw r.offset = .ok (back o))) →
    parseObjs raw (rows.map readRow) = .ok (inOrder objs j rows.length)
  | [], j, _ => rfl
  | r :: rows, j, h => by
    have ih := parseObjs_rows rows (j + 1) (fun i q hi => by
      have := h (i + 1) q (by simpa using hi)
      rw [show j + (i + 1) = j + 1 + i by omega] at this
      exact this)
    have e : inOrder objs j (r :: rows).length = ((objs.find? (fun o => o.objID = (j : Int))).map back).toList ++ inOrder objs (j + 1) rows.length := by
      unfold inOrder
      rw [List.length_cons, List.range'_succ, List.filterMap_cons]
      cases objs.find? (fun o => o.objID = (j : Int)) <;> rfl
    rw [List.map_cons, parseObjs, e]
    rcases h 0 r rfl with ⟨hf, hn⟩ | ⟨hf, o, ho, hp⟩
    · rw [Nat.add_zero] at hn
      rw [hn, if_neg (by simp [readRow, hf]), ih]
      rfl
    · rw [Nat.add_zero] at ho
      rw [ho, if_pos (by simp [readRow, hf]), show (readRow r).n10 = (r.offset : Int) from rfl, hp]
      simp only [Res.ok_bind, ih]
      rfl

theorem inOrder_sorted (objs : List Obj) (j n : Nat) : (inOrder objs j n).Pairwise (fun a b => a.objID < b.objID) := by
  unfold inOrder
  refine List.Pairwise.filterMap _ ?_ (List.pairwise_lt_range' (s := j) (n := n))
  intro a b hab x hx y hy
  obtain ⟨o, ho, rfl⟩ := Option.map_eq_some_iff.1 hx
  obtain ⟨q, hq, rfl⟩ := Option.map_eq_some_iff.1 hy
  have h1 := List.find?_some ho
  have h2 := List.find?_some hq
  simp at h1 h2
  simp only [back, h1, h2]
  omega

theorem mem_inOrder {objs : List Obj} (hnd : (objs.map Obj.objID).Nodup) {n : Nat} (hids : ∀ o ∈ objs, 1 ≤ o.objID ∧ o.objID < n) (x : Obj) :
    x ∈ inOrder objs 0 n ↔ x ∈ objs.map back := by
  unfold inOrder
  rw [List.mem_filterMap, List.mem_map]
  constructor
  · rintro ⟨k, _, h⟩
    obtain ⟨o, ho, rfl⟩ := Option.map_eq_some_iff.1 h
    exact ⟨o, List.mem_of_find?_eq_some ho, rfl⟩
  · rintro ⟨o, ho, rfl⟩
    have := hids o ho
    refine ⟨o.objID.toNat, by rw [List.mem_range'_1]; omega, ?_⟩
    have hk : ((o.objID.toNat : Nat) : Int) = o.objID := by omega
    rw [hk]
    cases hf : objs.find? (fun q => q.objID = o.objID) with
    | none => exact absurd (List.find?_eq_none.1 hf o ho) (by simp)
    | some q =>
      have h1 := List.find?_some hf
      simp at h1
      rw [eq_of_nodup_map hnd (List.mem_of_find?_eq_some hf) ho h1]
      rfl

/-- the objects read back are those written -/
theorem inOrder_perm {objs : List Obj} (hnd : (objs.map Obj.objID).Nodup) {n : Nat} (hids : ∀ o ∈ objs, 1 ≤ o.objID ∧ o.objID < n) :
    (inOrder objs 0 n).Perm (objs.map back) := by
  refine (List.perm_ext_iff_of_nodup ?_ ?_).2 (mem_inOrder hnd hids)
  · refine (inOrder_sorted objs 0 n).imp ?_
    rintro a b h rfl
    omega
  · have : ((objs.map back).map Obj.objID).Nodup := by rw [List.map_map]; exact hnd
    exact this.of_map _

/-! ### reading pages of alike objects -/

theorem onlyObj_nodup {objs : List Obj} (hnd : (objs.map Obj.objID).Nodup) {id : Int} {q : Obj} (hq : q ∈ objs) (hqi : q.objID = id) : OnlyObj objs id q := by
  unfold OnlyObj
  obtain ⟨a, b, rfl⟩ := List.append_of_mem hq
  have hn : ∀ x ∈ a ++ b, x.objID ≠ id := by
    intro x hx
    rw [List.map_append, List.map_cons] at hnd
    have := List.nodup_middle.1 hnd
    rw [List.nodup_cons] at this
    intro e
    apply this.1
    rw [← List.map_append, hqi, ← e]
    exact List.mem_map_of_mem hx
  rw [List.filter_append, List.filter_cons]
  simp only [hqi, decide_true, if_true]
  rw [List.filter_eq_nil_iff.2 (fun x hx => by simpa using hn x (by simp [hx])), List.filter_eq_nil_iff.2 (fun x hx => by simpa using hn x (by simp [hx]))]
  rfl

theorem getObj_nodup {objs : List Obj} (hnd : (objs.map Obj.objID).Nodup) {id : Int} {o : Obj} : getObj objs id = some o ↔ o ∈ objs ∧ o.objID = id := by
  have key : ∀ q ∈ objs, q.objID = id → getObj objs id = some q := fun q hq hqi => getObj_only (onlyObj_nodup hnd hq hqi)
  constructor
  · intro h
    by_cases hex : ∃ q ∈ objs, q.objID = id
    · obtain ⟨q, hq, hqi⟩ := hex
      rw [key q hq hqi] at h
      simp at h; subst h
      exact ⟨hq, hqi⟩
    · exfalso
      have : idxsOf id 0 objs = [] := (idxsOf_nil_iff 0).2 (List.filter_eq_nil_iff.2 (fun x hx => by simpa using fun e => hex ⟨x, hx, e⟩))
      simp [getObj, getObjIdx, this] at h
  · rintro ⟨h1, h2⟩
    exact key o h1 h2

/-- the same entries under the same numbers -/
def Alike (a b : List Obj) : Prop := a.length = b.length ∧ ∀ id, (getObj a id).map (fun o => readProperties o.data) = (getObj b id).map (fun o => readProperties o.data)

theorem alike_back {a b : List Obj} (hnd : (b.map Obj.objID).Nodup) (hp : a.Perm (b.map back)) : Alike a b := by
  have hida : (a.map Obj.objID).Nodup := by
    have := hp.map Obj.objID
    rw [this.nodup_iff, List.map_map]
    exact hnd
  refine ⟨by simpa using hp.length_eq, fun id => ?_⟩
  cases hb : getObj b id with
  | some o =>
    obtain ⟨h1, h2⟩ := (getObj_nodup hnd).1 hb
    have : getObj a id = some (back o) := (getObj_nodup hida).2 ⟨hp.mem_iff.2 (List.mem_map_of_mem h1), h2⟩
    rw [this]
    simp [back, readProperties_between]
  | none =>
    cases ha : getObj a id with
    | none => rfl
    | some x =>
      exfalso
      obtain ⟨h1, h2⟩ := (getObj_nodup hida).1 ha
      obtain ⟨o, ho, rfl⟩ := List.mem_map.1 (hp.mem_iff.1 h1)
      rw [(getObj_nodup hnd).2 ⟨ho, h2⟩] at hb
      simp at hb

theorem Alike.read {a b : List Obj} (h : Alike a b) {β : Type} (f : Res Props → Res β) (id : Int) :
    (Res.ofOption (getObj a id) >>= fun o => f (readProperties o.data)) = (Res.ofOption (getObj b id) >>= fun o => f (readProperties o.data)) := by
  have := h.2 id
  cases ha : getObj a id with
  | none =>
    cases hb : getObj b id with
    | none => rfl
    | some y => rw [ha, hb] at this; simp at this
  | some x =>
    cases hb : getObj b id with
    | none => rw [ha, hb] at this; simp at this
    | some y =>
      rw [ha, hb] at this
      simp only [Option.map_some, Option.some.injEq] at this
      simp [this]

theorem Alike.readObjProps {a b : List Obj} (h : Alike a b) (id : Int) : readObjProps a id = readObjProps b id := h.read (fun r => r) id

theorem visitKids_congr {f g : Int → Res (List Int)} (h : ∀ i, f i = g i) : ∀ ks, visitKids f ks = visitKids g ks
  | [] => rfl
  | k :: ks => by rw [visitKids, visitKids, h, visitKids_congr h ks]

theorem Alike.visit {a b : List Obj} (h : Alike a b) : ∀ fuel id, visit a fuel id = visit b fuel id
  | 0, _ => rfl
  | fuel + 1, id => by
    rw [Verif.visit, Verif.visit]
    have ih := h.visit fuel
    have hk : ∀ ks, visitKids (Verif.visit a fuel) ks = visitKids (Verif.visit b fuel) ks := visitKids_congr ih
    simp only [hk]
    exact h.read (fun r => match r with
      | .ok ps => do
        match ← kidsOf ps with
        | some kids => visitKids (Verif.visit b fuel) kids
        | none => if hasKey ps b!"Page" then .ok [id] else .ok []
      | .err _ => .ok []
      | .panic => .panic
      | .hang => .hang) id

theorem Alike.rootPages {a b : Doc} (h : Alike a.objs b.objs) (hr : a.rootObjID = b.rootObjID) : rootPagesID a = rootPagesID b := by
  unfold rootPagesID
  rw [hr]
  exact h.read (fun r => match r with
    | .ok ps =>
      match getPropByKey ps b!"Pages" with
      | none => .panic
      | some p =>
        match readObjIDFromDictionary p.rawVal with
        | .ok v => .ok v
        | .err _ => .ok 0
        | .panic => .panic
        | .hang => .hang
    | _ => .panic) b.rootObjID

theorem Alike.pages {a b : Doc} (h : Alike a.objs b.objs) (hr : a.rootObjID = b.rootObjID) : getPageObjIDs a = getPageObjIDs b := by
  unfold getPageObjIDs
  rw [h.rootPages hr, h.1]
  simp only [h.visit]

theorem Alike.sizes {isFloat : Bytes → Bool} {a b : List Obj} (h : Alike a b) : ∀ (ids : List Int) (n : Nat), pageSizesLoop isFloat a n ids = pageSizesLoop isFloat b n ids
  | [], _ => rfl
  | id :: t, n => by
    rw [pageSizesLoop, pageSizesLoop]
    simp only [h.sizes t]
    exact h.read (fun r => do
      let mb ← (do let ps ← r; .ok (getPropByKey ps b!"MediaBox"))
      let p ← Res.ofOption mb
      if propertyType p.rawVal = .array then do
        let v ← parseFloatSlice isFloat p.rawVal
        let r ← pageSizesLoop isFloat b (n + 1) t
        .ok ((n, v) :: r)
      else pageSizesLoop isFloat b (n + 1) t) id

/-! ### texts without certain words -/

/-- none of the words occurs -/
def Free (W : Bytes → Prop) (s : Bytes) : Prop := ∀ w, W w → ¬ w <:+: s

theorem Free.append {W : Bytes → Prop} {d : UInt8} (hd : ∀ w, W w → d ∉ w) {a b : Bytes} (ha : Free W a) (hb : Free W b) : Free W (a ++ d :: b) := by
  intro w hw hi
  rcases infix_split (hd w hw) hi with h | h
  · exact ha w hw h
  · exact hb w hw h

theorem Free.of_infix {W : Bytes → Prop} {a b : Bytes} (h : Free W b) (hi : a <:+: b) : Free W a := fun w hw hwi => h w hw (hwi.trans hi)

theorem free_nil {W : Bytes → Prop} (h : ∀ w, W w → w ≠ []) : Free W [] := fun w hw hi => h w hw (List.eq_nil_of_infix_nil hi)

theorem free_flatObjs {W : Bytes → Prop} (h10 : ∀ w, W w → (10 : UInt8) ∉ w) (hne : ∀ w, W w → w ≠ []) (hline : ∀ n : Nat, Free W (natDigits n ++ b!" 0 obj")) (hend : Free W b!"endobj") :
    ∀ {objs : List Obj}, (∀ o ∈ objs, 1 ≤ o.objID ∧ Free W (trimSpace o.data)) → ∀ {y}, Free W y → Free W (flatObjs objs ++ y)
  | [], _, y, hy => by simpa [flatObjs] using hy
  | o :: objs, h, y, hy => by
    obtain ⟨ho, hT⟩ := h o (by simp)
    obtain ⟨k, hk⟩ : ∃ k : Nat, o.objID = k := ⟨o.objID.toNat, by omega⟩
    have e : flatObjs (o :: objs) ++ y = [] ++ 10 :: ((natDigits k ++ b!" 0 obj") ++ 10 :: (trimSpace o.data ++ 10 :: (b!"endobj" ++ 10 :: (flatObjs objs ++ y)))) := by
      simp [flatObjs, objBytes, hk]
    rw [e]
    exact Free.append h10 (free_nil hne) (Free.append h10 (hline k) (Free.append h10 hT (Free.append h10 hend
      (free_flatObjs h10 hne hline hend (fun q hq => h q (by simp [hq])) hy))))

theorem free_noK {s : Bytes} (h1 : (102 : UInt8) ∉ s) (h2 : (44 : UInt8) ∉ s) (h3 : (110 : UInt8) ∉ s) : Free RowLike s := by
  intro w hw hi
  obtain ⟨a, g, b, x, k, rfl, _, _, _, _, _, _, _, hk⟩ := hw
  have hm : k ∈ s := hi.subset (by simp)
  rcases hk with rfl | rfl | rfl
  · exact h1 hm
  · exact h2 hm
  · exact h3 hm

theorem rowLike_ne {w : Bytes} (h : RowLike w) : w ≠ [] := by
  obtain ⟨a, g, b, x, k, rfl, _⟩ := h
  simp

theorem free_word {w s : Bytes} {c : UInt8} (hw : c ∈ w) (hs : c ∉ s) : Free (· = w) s := by
  rintro _ rfl
  exact not_infix_of_mem hw hs

/-- A byte that is in no row. -/
theorem rowLike_not {d : UInt8} (h : isDigit d = false ∧ d ≠ 9 ∧ d ≠ 32 ∧ d ≠ 102 ∧ d ≠ 44 ∧ d ≠ 110) {w : Bytes} (hw : RowLike w) : d ∉ w := by
  obtain ⟨a, g, b, x, k, rfl, _, ha, _, hg, _, hb, hx, hk⟩ := hw
  obtain ⟨h0, h1, h2, h3, h4, h5⟩ := h
  have hd : ¬ Dec d := by rw [dec_iff, h0]; simp
  have hgp : ¬ Gap d := by rintro (e | e); exacts [h1 e, h2 e]
  simp only [List.mem_append, List.mem_cons, List.not_mem_nil, or_false, not_or]
  refine ⟨⟨⟨fun hm => hd (ha _ hm), fun hm => hgp (hg _ hm)⟩, fun hm => hd (hb _ hm)⟩, fun e => hgp (e ▸ hx), fun e => ?_⟩
  rcases hk with h | h | h
  · exact h3 (e.trans h)
  · exact h4 (e.trans h)
  · exact h5 (e.trans h)

theorem formatXrefline_not {n : Nat} {c : UInt8} (h : isDigit c = false) : c ∉ formatXrefline n := fun hm => by
  have := formatXrefline_isDigit n c hm
  rw [h] at this; simp at this

/-- the bytes of rows -/
theorem rows_not {c : UInt8} (h : isDigit c = false ∧ c ≠ 32 ∧ c ≠ 10 ∧ c ≠ 102 ∧ c ≠ 110) (rows : List Row) : c ∉ rows.flatMap rowBytes := by
  intro hm
  obtain ⟨r, _, hr⟩ := List.mem_flatMap.1 hm
  obtain ⟨h0, h1, h2, h3, h4⟩ := h
  have hd : ∀ d : UInt8, isDigit d = true → c ≠ d := by rintro d hd rfl; rw [h0] at hd; simp at hd
  cases hf : r.free <;>
    simp [rowBytes, hf, formatXrefline_not h0, h1, h2, h3, h4, hd 48 (by decide), hd 53 (by decide), hd 54 (by decide), hd 51 (by decide)] at hr

/-! ### opening -/

/-- what is written before the rows, without the line end -/
def beforeRows (objs : List Obj) (size : Nat) : Bytes := header ++ flatObjs objs ++ b!"\nxref\n0 " ++ natDigits (size + 1) ++ b!"\r"

theorem toStream_parts (objs : List Obj) (rootID : Int) (lastID : Nat) (enc : Option Bytes) :
    toStream objs rootID lastID enc = beforeRows (writtenObjs objs lastID enc) (tableTop lastID enc) ++ 10 ::
      ((xrefRows (fun j => (objsLoop (writtenObjs objs lastID enc) header []).2.lookup j) (tableTop lastID enc)).flatMap rowBytes ++
        (b!"trailer" ++ (trailerDict (tableTop lastID enc + 1) rootID (enc.map (fun _ => ((lastID + 1 : Nat) : Int))) ++
          (b!"startxref" ++ 10 :: (natDigits (header ++ flatObjs (writtenObjs objs lastID enc)).length ++ b!"\n%%EOF\n"))))) := by
  rw [toStream_eq, xrefBytes_eq]
  simp [beforeRows, trailerText, trailerDict]

theorem free_beforeRows {W : Bytes → Prop} (h10 : ∀ w, W w → (10 : UInt8) ∉ w) (hne : ∀ w, W w → w ≠ []) (hline : ∀ n : Nat, Free W (natDigits n ++ b!" 0 obj")) (hend : Free W b!"endobj")
    (hhead : Free W b!"%PDF-1.7") (hxref : Free W b!"xref") (hnum : ∀ n : Nat, Free W (b!"0 " ++ natDigits n ++ b!"\r"))
    {objs : List Obj} (h : ∀ o ∈ objs, 1 ≤ o.objID ∧ Free W (trimSpace o.data)) (size : Nat) : Free W (beforeRows objs size) := by
  have e : beforeRows objs size = b!"%PDF-1.7" ++ 10 :: ([] ++ 10 :: (flatObjs objs ++ ([] ++ 10 :: (b!"xref" ++ 10 :: (b!"0 " ++ natDigits (size + 1) ++ b!"\r"))))) := by
    simp [beforeRows, header]
  rw [e]
  exact Free.append h10 hhead (Free.append h10 (free_nil hne) (free_flatObjs h10 hne hline hend h (Free.append h10 (free_nil hne) (Free.append h10 hxref (hnum _)))))

theorem noRow_trailer (size : Nat) (root : Int) (enc : Option Int) (n : Nat) :
    NoRow (b!"trailer" ++ (trailerDict size root enc ++ (b!"startxref" ++ 10 :: (natDigits n ++ b!"\n%%EOF\n")))) := by
  have h10 : ∀ w, RowLike w → (10 : UInt8) ∉ w := fun w => rowLike_no10
  have sh : ∀ {s : Bytes}, s.length < 18 → Free RowLike s := fun h => noRow_short h
  have hi : ∀ (m : Int) (c : UInt8), isDigit c = false → c ≠ 45 → c ∉ itoa m := fun m c h h' => itoa_not h h'
  have hs : Free RowLike (b!"/Size " ++ natDigits size) :=
    free_noK (by simp [natDigits_not (show isDigit 102 = false by decide)]) (by simp [natDigits_not (show isDigit 44 = false by decide)]) (by simp [natDigits_not (show isDigit 110 = false by decide)])
  have hr : Free RowLike (b!"/Root " ++ itoa root ++ b!" 0 R") :=
    free_noK (by simp [hi root 102 (by decide) (by decide)]) (by simp [hi root 44 (by decide) (by decide)]) (by simp [hi root 110 (by decide) (by decide)])
  have hx : Free RowLike (b!"startxref" ++ 10 :: (natDigits n ++ 10 :: (b!"%%EOF" ++ 10 :: []))) :=
    Free.append h10 (sh (by decide)) (Free.append h10
      (free_noK (natDigits_not (by decide)) (natDigits_not (by decide)) (natDigits_not (by decide))) (Free.append h10 (sh (by decide)) (free_nil (fun w => rowLike_ne))))
  cases enc with
  | none =>
    have e : b!"trailer" ++ (trailerDict size root none ++ (b!"startxref" ++ 10 :: (natDigits n ++ b!"\n%%EOF\n"))) =
        b!"trailer" ++ 10 :: (b!"<<" ++ 10 :: ((b!"/Size " ++ natDigits size) ++ 10 :: ((b!"/Root " ++ itoa root ++ b!" 0 R") ++ 10 :: (b!">>" ++ 10 ::
          (b!"startxref" ++ 10 :: (natDigits n ++ 10 :: (b!"%%EOF" ++ 10 :: []))))))) := by
      simp [trailerDict, encPart]
    rw [e]
    exact Free.append h10 (sh (by decide)) (Free.append h10 (sh (by decide)) (Free.append h10 hs (Free.append h10 hr (Free.append h10 (sh (by decide)) hx))))
  | some i =>
    have he : Free RowLike (b!"/Encrypt " ++ itoa i ++ b!" 0 R") := by
      have e : b!"/Encrypt " ++ itoa i ++ b!" 0 R" = b!"/En" ++ 99 :: (b!"rypt " ++ itoa i ++ b!" 0 R") := by simp
      rw [e]
      exact Free.append (fun w hw => rowLike_not (by decide) hw) (sh (by decide))
        (free_noK (by simp [hi i 102 (by decide) (by decide)]) (by simp [hi i 44 (by decide) (by decide)]) (by simp [hi i 110 (by decide) (by decide)]))
    have e : b!"trailer" ++ (trailerDict size root (some i) ++ (b!"startxref" ++ 10 :: (natDigits n ++ b!"\n%%EOF\n"))) =
        b!"trailer" ++ 10 :: (b!"<<" ++ 10 :: ((b!"/Size " ++ natDigits size) ++ 10 :: ((b!"/Root " ++ itoa root ++ b!" 0 R") ++ 10 ::
          ((b!"/Encrypt " ++ itoa i ++ b!" 0 R") ++ 10 :: (b!"/ID [()()]" ++ 10 :: (b!">>" ++ 10 ::
          (b!"startxref" ++ 10 :: (natDigits n ++ 10 :: (b!"%%EOF" ++ 10 :: []))))))))) := by
      simp [trailerDict, encPart]
    rw [e]
    exact Free.append h10 (sh (by decide)) (Free.append h10 (sh (by decide)) (Free.append h10 hs (Free.append h10 hr (Free.append h10 he (Free.append h10 (sh (by decide))
      (Free.append h10 (sh (by decide)) hx))))))

theorem written_ids {objs : List Obj} {lastID : Nat} {enc : Option Bytes} (hids : ∀ o ∈ objs, 1 ≤ o.objID ∧ o.objID ≤ lastID) (hnd : (objs.map Obj.objID).Nodup) :
    (∀ o ∈ writtenObjs objs lastID enc, 1 ≤ o.objID ∧ o.objID ≤ tableTop lastID enc) ∧ ((writtenObjs objs lastID enc).map Obj.objID).Nodup := by
  cases enc with
  | none => exact ⟨hids, hnd⟩
  | some e =>
    refine ⟨?_, ?_⟩
    · intro o ho
      simp only [writtenObjs, List.mem_append, List.mem_cons, List.not_mem_nil, or_false] at ho
      simp only [tableTop]
      rcases ho with ho | ho
      · have := hids o ho; omega
      · subst ho; simp only; omega
    · simp only [writtenObjs, List.map_append, List.map_cons, List.map_nil]
      rw [List.nodup_append]
      refine ⟨hnd, by simp, ?_⟩
      intro a ha b hb
      simp only [List.mem_map] at ha
      obtain ⟨o, ho, rfl⟩ := ha
      simp only [List.mem_cons, List.not_mem_nil, or_false] at hb
      subst hb
      have := (hids o ho).2
      omega

theorem plainBody_sub {a b : Bytes} (h : PlainBody b) (hi : a <:+: b) : PlainBody a :=
  ⟨fun h' => h.endobj (h'.trans hi), fun h' => h.trailer (h'.trans hi), fun h' => h.startxref (h'.trans hi), fun w hw h' => h.row w hw (h'.trans hi)⟩

theorem trimSpace_infix (s : Bytes) : trimSpace s <:+: s := by
  obtain ⟨a, b, h, _⟩ := trimSpace_split s
  exact ⟨a, b, h.symm⟩

theorem hline_word {w : Bytes} {c : UInt8} (hc : c ∈ w) (h : isDigit c = false) (h2 : c ∉ b!" 0 obj") : ∀ n : Nat, Free (· = w) (natDigits n ++ b!" 0 obj") := by
  intro n
  refine free_word hc ?_
  rw [List.mem_append, not_or]
  exact ⟨natDigits_not h, h2⟩

/-- The three readings of a file that was written. -/
theorem reopen_parts {objs : List Obj} {rootID : Int} {lastID : Nat} {enc : Option Bytes} (hids : ∀ o ∈ objs, 1 ≤ o.objID ∧ o.objID ≤ lastID) (hnd : (objs.map Obj.objID).Nodup)
    (hlen : (toStream objs rootID lastID enc).length < 10 ^ 10) (hroot : Int64 rootID) (hplain : ∀ o ∈ writtenObjs objs lastID enc, PlainBody o.data) :
    ∃ rows, parseXref (toStream objs rootID lastID enc) = .ok rows ∧ parseTrailer (toStream objs rootID lastID enc) = .ok rootID ∧
      parseObjs (toStream objs rootID lastID enc) rows = .ok (inOrder (writtenObjs objs lastID enc) 0 (tableTop lastID enc + 1)) := by
  have hoffs := rows_offset_lt objs rootID lastID enc hlen
  have hparts := toStream_parts objs rootID lastID enc
  have heq := toStream_eq objs rootID lastID enc
  obtain ⟨hwi, hwn⟩ := written_ids (enc := enc) hids hnd
  have hlook := objsLoop_lookup (writtenObjs objs lastID enc) header []
  generalize hraw : toStream objs rootID lastID enc = raw at hparts heq hlen ⊢
  generalize hws : writtenObjs objs lastID enc = ws at hparts heq hoffs hwi hwn hplain hlook ⊢
  generalize htop : tableTop lastID enc = top at hparts heq hoffs hwi ⊢
  generalize hencID : enc.map (fun _ => ((lastID + 1 : Nat) : Int)) = encID at hparts heq ⊢
  generalize hoff : (fun j => (objsLoop ws header []).2.lookup j) = off at hparts heq hoffs
  obtain ⟨⟨l, inv⟩, hrl⟩ := xrefRows_inv off top
  generalize hrows : xrefRows off top = rows at hparts hoffs inv hrl
  have hpl : ∀ o ∈ ws, PlainBody (trimSpace o.data) := fun o ho => plainBody_sub (hplain o ho) (trimSpace_infix _)
  have hmax : top < 10 ^ 10 := by
    have h1 := flatMap_rowBytes_length rows
    have h2 := congrArg List.length hparts
    simp only [List.length_append, List.length_cons] at h2
    omega
  refine ⟨rows.map readRow, ?_, ?_, ?_⟩
  · -- the table
    have hx : ∃ i, index b!"xref" raw = some i ∧ i + 4 ≤ (beforeRows ws top).length + 1 := by
      have e : raw = (header ++ flatObjs ws ++ [10]) ++ (b!"xref" ++ (b!"\n0 " ++ natDigits (top + 1) ++ b!"\r" ++ 10 :: (rows.flatMap rowBytes ++
        (b!"trailer" ++ (trailerDict (top + 1) rootID encID ++ (b!"startxref" ++ 10 :: (natDigits (header ++ flatObjs ws).length ++ b!"\n%%EOF\n"))))))) := by
        rw [hparts]; simp [beforeRows]
      obtain ⟨i, h1, h2⟩ := index_le (pat := b!"xref") (x := header ++ flatObjs ws ++ [10]) (y := b!"\n0 " ++ natDigits (top + 1) ++ b!"\r" ++ 10 :: (rows.flatMap rowBytes ++
        (b!"trailer" ++ (trailerDict (top + 1) rootID encID ++ (b!"startxref" ++ 10 :: (natDigits (header ++ flatObjs ws).length ++ b!"\n%%EOF\n")))))) (by decide)
      rw [← e] at h1
      refine ⟨i, h1, ?_⟩
      simp only [beforeRows, List.length_append, List.length_cons, List.length_nil] at h2 ⊢
      omega
    obtain ⟨i, h1, h2⟩ := hx
    have hfree : NoRow (beforeRows ws top) := by
      refine free_beforeRows (fun w => rowLike_no10) (fun w => rowLike_ne) (fun n => ?_) (noRow_short (by decide)) (noRow_short (by decide)) (noRow_short (by decide)) (fun n => ?_)
        (fun o ho => ⟨(hwi o ho).1, (hpl o ho).row⟩) top
      · exact free_noK (by simp [natDigits_not (show isDigit 102 = false by decide)]) (by simp [natDigits_not (show isDigit 44 = false by decide)]) (by simp [natDigits_not (show isDigit 110 = false by decide)])
      · exact free_noK (by simp [natDigits_not (show isDigit 102 = false by decide)]) (by simp [natDigits_not (show isDigit 44 = false by decide)]) (by simp [natDigits_not (show isDigit 110 = false by decide)])
    unfold parseXref
    rw [h1]
    simp only
    rw [hparts, findAll_skip hfree]
    exact parseXrefRows_rows (noRow_trailer _ _ _ _) rows _ (by omega) hoffs
  · -- the trailer
    obtain ⟨rs, rl, hrs⟩ : ∃ rs rl, rows = rs ++ [rl] := by
      have hne : rows ≠ [] := by intro e; rw [e] at hrl; simp at hrl
      exact ⟨rows.dropLast, rows.getLast hne, (List.dropLast_concat_getLast hne).symm⟩
    have hrb : rows.flatMap rowBytes = (rs.flatMap rowBytes ++ rowText rl ++ [32]) ++ [10] := by
      rw [hrs]; simp [rowBytes_eq]
    -- all before the keyword `trailer`, without the line end
    have hrn : ∀ c : UInt8, isDigit c = false ∧ c ≠ 32 ∧ c ≠ 10 ∧ c ≠ 102 ∧ c ≠ 110 → c ∉ rs.flatMap rowBytes ++ rowText rl ++ [32] := by
      intro c hc hm
      exact rows_not hc rows (by rw [hrb]; exact List.mem_append_left _ hm)
    generalize hR : rs.flatMap rowBytes ++ rowText rl ++ [32] = R at hrb hrn
    have hb : ∀ {w : Bytes} {c : UInt8}, c ∈ w → (10 : UInt8) ∉ w → isDigit c = false → c ∉ b!" 0 obj" → c ∉ b!"endobj" → c ∉ b!"%PDF-1.7" → Free (· = w) b!"xref" → c ∉ b!"0 \r" →
        (c ≠ 32 ∧ c ≠ 10 ∧ c ≠ 102 ∧ c ≠ 110) → (∀ o ∈ ws, ¬ w <:+: trimSpace o.data) → ¬ w <:+: beforeRows ws top ++ 10 :: R := by
      intro w c h1 h2 h3 h4 h5 h6 h7 h8 h9 h10
      have h := free_beforeRows (W := (· = w)) (by rintro _ rfl; exact h2) (by rintro _ rfl; rintro rfl; simp at h1) (hline_word h1 h3 h4) (free_word h1 h5) (free_word h1 h6) h7
        (fun n => free_word h1 (by
          simp only [List.mem_append, not_or]
          simp only [List.mem_cons, List.not_mem_nil, or_false, not_or] at h8 ⊢
          exact ⟨⟨⟨h8.1, h8.2.1⟩, natDigits_not h3⟩, h8.2.2⟩))
        (fun o ho => ⟨(hwi o ho).1, by rintro _ rfl; exact h10 o ho⟩) top
      exact Free.append (W := (· = w)) (by rintro _ rfl; exact h2) h (free_word h1 (hrn c ⟨h3, h9⟩)) w rfl
    have ht : ¬ b!"trailer" <:+: beforeRows ws top ++ 10 :: R :=
      hb (c := 116) (by decide) (by decide) (by decide) (by decide) (by decide) (by decide) (free_word (c := 116) (by decide) (by decide)) (by decide) (by decide) (fun o ho => (hpl o ho).trailer)
    have hsx : ¬ b!"startxref" <:+: beforeRows ws top ++ 10 :: R :=
      hb (c := 115) (by decide) (by decide) (by decide) (by decide) (by decide) (by decide) (free_word (c := 115) (by decide) (by decide)) (by decide) (by decide) (fun o ho => (hpl o ho).startxref)
    -- the dictionary, without the line end
    obtain ⟨D, hD⟩ : ∃ D, trailerDict (top + 1) rootID encID = D ++ [10] := by
      refine ⟨b!"\n<<\n/Size " ++ natDigits (top + 1) ++ b!"\n/Root " ++ itoa rootID ++ b!" 0 R\n" ++ encPart encID ++ b!">>", ?_⟩
      simp [trailerDict]
    have hDx : (120 : UInt8) ∉ D := by
      have : (120 : UInt8) ∉ trailerDict (top + 1) rootID encID := by
        have hi : ∀ m : Int, (120 : UInt8) ∉ itoa m := fun m => itoa_not (by decide) (by decide)
        cases encID <;> simp [trailerDict, encPart, hi, natDigits_not (show isDigit 120 = false by decide)]
      intro hm
      exact this (by rw [hD]; simp [hm])
    have e1 : raw = (beforeRows ws top ++ 10 :: R) ++ 10 :: (b!"trailer" ++ (D ++ 10 :: (b!"startxref" ++ 10 :: (natDigits (header ++ flatObjs ws).length ++ b!"\n%%EOF\n")))) := by
      rw [hparts, hrb, hD]; simp
    have e2 : raw = ((beforeRows ws top ++ 10 :: R) ++ 10 :: (b!"trailer" ++ D)) ++ 10 :: (b!"startxref" ++ 10 :: (natDigits (header ++ flatObjs ws).length ++ b!"\n%%EOF\n")) := by
      rw [e1]; simp
    have hsx2 : ¬ b!"startxref" <:+: (beforeRows ws top ++ 10 :: R) ++ 10 :: (b!"trailer" ++ D) := by
      intro h
      rcases infix_split (by decide) h with h | h
      · exact hsx h
      · refine not_infix_of_mem (c := 120) (by decide) ?_ h
        rw [List.mem_append, not_or]
        exact ⟨by decide, hDx⟩
    have i1 := index_at (pat := b!"trailer") (y := D ++ 10 :: (b!"startxref" ++ 10 :: (natDigits (header ++ flatObjs ws).length ++ b!"\n%%EOF\n"))) (by decide) ht
    have i2 := index_at (pat := b!"startxref") (y := 10 :: (natDigits (header ++ flatObjs ws).length ++ b!"\n%%EOF\n")) (by decide) hsx2
    rw [← e1] at i1
    rw [← e2] at i2
    have hslice : (raw.take (((beforeRows ws top ++ 10 :: R) ++ 10 :: (b!"trailer" ++ D)).length + 1)).drop ((beforeRows ws top ++ 10 :: R).length + 1 + 7) = trailerDict (top + 1) rootID encID := by
      rw [e2, List.take_length_add_append]
      have : (((beforeRows ws top ++ 10 :: R) ++ 10 :: (b!"trailer" ++ D)) ++ List.take 1 (10 :: (b!"startxref" ++ 10 :: (natDigits (header ++ flatObjs ws).length ++ b!"\n%%EOF\n")))) =
          ((beforeRows ws top ++ 10 :: R) ++ 10 :: b!"trailer") ++ (D ++ [10]) := by simp
      rw [this, ← hD]
      have hl : (beforeRows ws top ++ 10 :: R).length + 1 + 7 = ((beforeRows ws top ++ 10 :: R) ++ 10 :: b!"trailer").length := by
        simp only [List.length_append, List.length_cons, List.length_nil]
      rw [hl, List.drop_left]
    unfold parseTrailer
    rw [i1, i2]
    simp only
    rw [if_neg (by simp only [List.length_append, List.length_cons, List.length_nil]; omega), hslice, readProperties_trailer]
    obtain ⟨p, hp1, hp2⟩ := trailerProps_root (top + 1) encID hroot
    simp only [Res.ok_bind, hp1]
    exact hp2
  · -- the objects
    rw [← hrl]
    refine parseObjs_rows rows 0 (fun i r hi => ?_)
    rw [Nat.zero_add]
    have hfind : ∀ {o : Obj}, o ∈ ws → o.objID = (i : Int) → ws.find? (fun o => o.objID = (i : Int)) = some o := by
      intro o ho hoi
      cases hf : ws.find? (fun o => o.objID = (i : Int)) with
      | none => exact absurd (List.find?_eq_none.1 hf o ho) (by simp [hoi])
      | some q =>
        have h1 := List.find?_some hf
        simp at h1
        rw [eq_of_nodup_map hwn (List.mem_of_find?_eq_some hf) ho (by rw [h1, hoi])]
    cases hf : r.free with
    | true =>
      left
      refine ⟨rfl, List.find?_eq_none.2 (fun o ho => ?_)⟩
      have := (hwi o ho).1
      rcases inv.free i r hi hf with h | h
      · simp only [decide_eq_true_eq]; omega
      · rw [← hoff] at h
        simpa using ((hlook i).2.1 h).2 o ho
    | false =>
      right
      refine ⟨rfl, ?_⟩
      have h := inv.used i r hi hf
      rw [← hoff] at h
      rcases (hlook i).1 _ h with ⟨a, o, b, h1, h2, h3, _⟩ | ⟨h1, _⟩
      · have ho : o ∈ ws := by rw [h1]; simp
        refine ⟨o, hfind ho h2, ?_⟩
        have e : raw = (header ++ flatObjs a) ++ (objBytes o ++ (flatObjs b ++ xrefBytes off (header ++ flatObjs ws).length top rootID encID)) := by
          rw [heq, h1, flatObjs_append]
          have : flatObjs (o :: b) = objBytes o ++ flatObjs b := rfl
          rw [this]
          simp only [List.append_assoc]
        have hil : i < top + 1 := by
          rcases Nat.lt_or_ge i rows.length with h | h
          · omega
          · rw [List.getElem?_eq_none h] at hi; simp at hi
        exact parseObj_at (o := o) (k := i) (by rw [h3, e, List.drop_left]) (by rw [h3, e]; simp) h2 (by omega) (hpl o ho).endobj
      · simp at h1

theorem checkPagesObj_congr {a b : Doc} (h : Alike a.objs b.objs) (hr : a.rootObjID = b.rootObjID) : checkPagesObj a = checkPagesObj b := by
  unfold checkPagesObj
  rw [h.readObjProps, hr]

theorem parsePageSize_congr {isFloat : Bytes → Bool} {a b : Doc} (h : Alike a.objs b.objs) (hr : a.rootObjID = b.rootObjID) : parsePageSize isFloat a = parsePageSize isFloat b := by
  unfold parsePageSize
  rw [h.pages hr]
  simp only [h.sizes]

/-- The root of a document that can be opened is the number of an object. -/
theorem root_mem {d : Doc} (hnd : (d.objs.map Obj.objID).Nodup) (h : checkPagesObj d = .ok ()) : ∃ o ∈ d.objs, o.objID = d.rootObjID := by
  unfold checkPagesObj readObjProps at h
  cases hg : getObj d.objs d.rootObjID with
  | none => rw [hg] at h; simp [Res.ofOption] at h
  | some o => exact ⟨o, (getObj_nodup hnd).1 hg⟩

/-- **C04.**  Opening what `SaveTo` wrote gives the objects that were written, under the same numbers and in the order of the numbers, with their data between
line ends instead of other white space around it; the same root; the same pages and page sizes.  `w` is the document written (with the object of the encryption
dictionary, if any); that it is a document which can be opened (there is a catalog, every page has a readable /MediaBox) is assumed. -/
theorem C04_save_open (isFloat : Bytes → Bool) (d : Doc) (lastID : Nat) (enc : Option Bytes) (sizes : List (Nat × List Bytes))
    (hids : ∀ o ∈ d.objs, 1 ≤ o.objID ∧ o.objID ≤ lastID) (hnd : (d.objs.map Obj.objID).Nodup)
    (hlen : (toStream d.objs d.rootObjID lastID enc).length < 10 ^ 10) {w : Doc} (hw : w = { d with objs := writtenObjs d.objs lastID enc })
    (hplain : ∀ o ∈ w.objs, PlainBody o.data) (hcat : checkPagesObj w = .ok ()) (hsizes : parsePageSize isFloat w = .ok sizes) :
    ∃ d', pdfParse isFloat emptyDoc (toStream d.objs d.rootObjID lastID enc) = .ok d' ∧
      d'.objs.Perm (w.objs.map (fun o => ⟨o.objID, between (trimSpace o.data)⟩)) ∧
      d'.objs.Pairwise (fun a b => a.objID < b.objID) ∧
      d'.rootObjID = d.rootObjID ∧ getPageObjIDs d' = getPageObjIDs w ∧ d'.pageSizes = sizes := by
  have hwo : w.objs = writtenObjs d.objs lastID enc := by rw [hw]
  have hwr : w.rootObjID = d.rootObjID := by rw [hw]
  rw [hwo] at hplain
  obtain ⟨hwi, hwn⟩ := written_ids (enc := enc) hids hnd
  have hroot : Int64 d.rootObjID := by
    obtain ⟨o, ho, he⟩ := root_mem (by rw [hwo]; exact hwn) hcat
    rw [hwo] at ho
    have h1 := hwi o ho
    have h2 : tableTop lastID enc < 10 ^ 10 := by
      have h1 := flatMap_rowBytes_length (xrefRows (fun j => (objsLoop (writtenObjs d.objs lastID enc) header []).2.lookup j) (tableTop lastID enc))
      have h2 := congrArg List.length (toStream_parts d.objs d.rootObjID lastID enc)
      have h3 := (xrefRows_inv (fun j => (objsLoop (writtenObjs d.objs lastID enc) header []).2.lookup j) (tableTop lastID enc)).2
      simp only [List.length_append, List.length_cons] at h2
      omega
    unfold Int64
    rw [hwr] at he
    omega
  obtain ⟨rows, h1, h2, h3⟩ := reopen_parts hids hnd hlen hroot hplain
  have hperm : (inOrder (writtenObjs d.objs lastID enc) 0 (tableTop lastID enc + 1)).Perm ((writtenObjs d.objs lastID enc).map back) :=
    inOrder_perm hwn (fun o ho => by have := hwi o ho; omega)
  have hal : Alike (inOrder (writtenObjs d.objs lastID enc) 0 (tableTop lastID enc + 1)) w.objs := by
    rw [hwo]; exact alike_back hwn hperm
  refine ⟨⟨d.rootObjID, rows, inOrder (writtenObjs d.objs lastID enc) 0 (tableTop lastID enc + 1), sizes⟩, ?_, ?_, ?_, rfl, ?_, rfl⟩
  · unfold pdfParse
    simp only [h1, h2, Res.ok_bind, emptyDoc, List.nil_append, h3]
    have hc := (checkPagesObj_congr (a := ⟨d.rootObjID, rows, inOrder (writtenObjs d.objs lastID enc) 0 (tableTop lastID enc + 1), []⟩) (b := w) hal hwr.symm).trans hcat
    have hs := (parsePageSize_congr (isFloat := isFloat) (a := ⟨d.rootObjID, rows, inOrder (writtenObjs d.objs lastID enc) 0 (tableTop lastID enc + 1), []⟩) (b := w) hal hwr.symm).trans hsizes
    simp only [hc, hs, Res.ok_bind]
  · rw [hwo]; exact hperm
  · exact inOrder_sorted _ _ _
  · exact Alike.pages (a := ⟨d.rootObjID, rows, _, sizes⟩) (b := w) hal hwr.symm

/-- **C04** for whole runs: the file written by `Save` after any calls can be opened again and has the written objects, the catalog, the pages and the page
sizes of the document written. -/
theorem C04_saved {env env' env'' : Env} {raw : Bytes} {a0 : App} (ho : Opened env raw a0) (calls : List (Env × Call)) {objs : List Obj} {last : Nat}
    {out : Bytes} (hs : Saves env' (Run a0 calls) objs last out) (hlen : out.length < 10 ^ 10) (hplain : ∀ o ∈ objs, PlainBody o.data)
    {w : Doc} (hw : w.objs = objs ∧ w.rootObjID = (Run a0 calls).doc.rootObjID) (hcat : checkPagesObj w = .ok ()) {sizes : List (Nat × List Bytes)}
    (hsizes : parsePageSize (fun s => (env''.parseFloat s).isSome) w = .ok sizes) :
    ∃ a', App.openFrom env'' {} out = ⟨a', .ok ()⟩ ∧ a'.doc.objs.Perm (objs.map (fun o => ⟨o.objID, between (trimSpace o.data)⟩)) ∧
      a'.doc.objs.Pairwise (fun a b => a.objID < b.objID) ∧ a'.doc.rootObjID = w.rootObjID ∧ getPageObjIDs a'.doc = getPageObjIDs w ∧ a'.doc.pageSizes = sizes := by
  obtain ⟨b, hb, rfl, rfl, hout⟩ := hs
  have hinv := NumInv.run calls ho.inv
  generalize Run a0 calls = a at hb hinv hout hplain hw ⊢
  obtain ⟨hdoc, hrange⟩ := build_range hinv hb
  obtain ⟨_, _, hr, _⟩ := build_numbers hinv hb
  rw [saveTo_eq hb] at hout
  simp only [Res.ok.injEq] at hout
  subst hout
  obtain ⟨hw1, hw2⟩ := hw
  have hal : Alike w.objs (writtenObjs b.doc.objs b.lastID.toNat (a.protection.map encBuild)) := by rw [hw1]; exact ⟨rfl, fun _ => rfl⟩
  have hc := (checkPagesObj_congr (b := ⟨b.doc.rootObjID, b.doc.xrefs, _, b.doc.pageSizes⟩) hal (by rw [hw2, hr])).symm.trans hcat
  have hz := (parsePageSize_congr (isFloat := fun s => (env''.parseFloat s).isSome) (b := ⟨b.doc.rootObjID, b.doc.xrefs, _, b.doc.pageSizes⟩) hal (by rw [hw2, hr])).symm.trans hsizes
  have hg := Alike.pages (b := ⟨b.doc.rootObjID, b.doc.xrefs, _, b.doc.pageSizes⟩) hal (by rw [hw2, hr])
  obtain ⟨d', h1, h2, h3, h4, h5, h6⟩ := C04_save_open (fun s => (env''.parseFloat s).isSome) b.doc b.lastID.toNat (a.protection.map encBuild) sizes hrange hdoc hlen rfl hplain hc hz
  refine ⟨App.showCellBorder { ({} : App) with fontMap := [], lineWidth := 1, imgMap := [], doc := d' } false, ?_, ?_⟩
  · unfold App.openFrom
    have e : ({} : App).doc = emptyDoc := rfl
    simp only [e, h1]
  · have e : (App.showCellBorder { ({} : App) with fontMap := [], lineWidth := 1, imgMap := [], doc := d' } false).doc = d' := by
      unfold App.showCellBorder; simp
    rw [e]
    exact ⟨h2, h3, (h4.trans hr).trans hw2.symm, h5.trans hg.symm, h6⟩

theorem noRow_of_tails : ∀ {s : Bytes}, s.tails.all (fun t => matchXrefLine t == none) = true → NoRow s := by
  intro s h w hw hi
  obtain ⟨a, b, rfl⟩ := hi
  rw [List.all_eq_true] at h
  have := h (w ++ b) (by rw [List.mem_tails]; exact ⟨a, by simp⟩)
  rw [matchXrefLine_row hw] at this
  simp at this

theorem plainBody_of {s : Bytes} (h : (index b!"endobj" s == none && index b!"trailer" s == none && index b!"startxref" s == none && s.tails.all (fun t => matchXrefLine t == none)) = true) :
    PlainBody s := by
  simp only [Bool.and_eq_true, beq_iff_eq] at h
  obtain ⟨⟨⟨h1, h2⟩, h3⟩, h4⟩ := h
  exact ⟨(index_none_iff (by decide)).1 h1, (index_none_iff (by decide)).1 h2, (index_none_iff (by decide)).1 h3, noRow_of_tails h4⟩

/-- The entries of every object are the ones written, so the catalog, the page tree and the resources are the same. -/
theorem C04_entries {w : List Obj} (hnd : (w.map Obj.objID).Nodup) {objs : List Obj} (h : objs.Perm (w.map (fun o => ⟨o.objID, between (trimSpace o.data)⟩)))
    (id : Int) (ps : Props) : Entries objs id ps ↔ Entries w id ps := by
  have hnd' : (objs.map Obj.objID).Nodup := by
    rw [(h.map Obj.objID).nodup_iff, List.map_map]; exact hnd
  have key : ∀ {l : List Obj}, (l.map Obj.objID).Nodup → (Entries l id ps ↔ ∃ o ∈ l, o.objID = id ∧ readProperties o.data = .ok ps) := by
    intro l hl
    constructor
    · rintro ⟨o, h1, h2⟩
      have := (getObj_nodup hl).1 (getObj_only h1)
      exact ⟨o, this.1, this.2, h2⟩
    · rintro ⟨o, h1, h2, h3⟩
      exact ⟨o, onlyObj_nodup hl h1 h2, h3⟩
  rw [key hnd, key hnd']
  constructor
  · rintro ⟨o, h1, h2, h3⟩
    obtain ⟨q, hq, rfl⟩ := List.mem_map.1 (h.mem_iff.1 h1)
    exact ⟨q, hq, h2, by rw [← h3]; exact (readProperties_between _).symm⟩
  · rintro ⟨o, h1, h2, h3⟩
    exact ⟨⟨o.objID, between (trimSpace o.data)⟩, h.mem_iff.2 (List.mem_map.2 ⟨o, h1, rfl⟩), h2, by rw [← h3]; exact readProperties_between _⟩

-- the hypotheses hold for the file of one page with an inserted image
set_option maxRecDepth 20000 in
example : (∀ o ∈ savedObjs plainEnv oneImg, PlainBody o.data) ∧ (∀ o ∈ savedObjs plainEnv oneImg, 1 ≤ o.objID ∧ o.objID ≤ (8 : Nat)) ∧
    ((savedObjs plainEnv oneImg).map Obj.objID).Nodup ∧ checkPagesObj ⟨1, [], savedObjs plainEnv oneImg, []⟩ = .ok () ∧
    parsePageSize (fun s => (plainEnv.parseFloat s).isSome) ⟨1, [], savedObjs plainEnv oneImg, []⟩ = .ok [(0, [b!"0", b!"0", b!"595", b!"842"])] := by
  refine ⟨?_, by decide +kernel, by decide +kernel, by decide +kernel, by decide +kernel⟩
  have : ∀ o ∈ savedObjs plainEnv oneImg, (index b!"endobj" o.data == none && index b!"trailer" o.data == none && index b!"startxref" o.data == none && o.data.tails.all (fun t => matchXrefLine t == none)) = true := by
    decide +kernel
  exact fun o ho => plainBody_of (this o ho)

/-- one page whose content stream has these bytes -/
def withStream (s : Bytes) : List Obj := [
  ⟨1, b!"<< /Type /Catalog /Pages 2 0 R >>"⟩,
  ⟨2, b!"<< /Type /Pages /Count 1 /Kids [ 3 0 R ] >>"⟩,
  ⟨3, b!"<< /Type /Page /Parent 2 0 R /MediaBox [0 0 595 842] /Contents 4 0 R >>"⟩,
  ⟨4, b!"<< /Length " ++ natDigits s.length ++ b!" >>\nstream\n" ++ s ++ b!"\nendstream"⟩]

/-- the objects after saving and opening -/
def reopened (s : Bytes) : Res (List Obj) := do
  let d ← pdfParse (fun t => (plainEnv.parseFloat t).isSome) emptyDoc (fileOf (withStream s))
  .ok d.objs

/-- **C67 is violated.**  The bytes of a stream are searched for keywords: with `endobj` in it the object is cut off there; with `trailer` the file cannot be
opened; with `startxref` opening crashes; with a text like a row of the table after `xref` the object at that position is read a second time.  Other bytes are read back. -/
theorem C67_refuted_streams_matter :
    reopened b!"(a) Tj" = .ok ((withStream b!"(a) Tj").map (fun o => ⟨o.objID, between o.data⟩)) ∧
    (reopened b!"(endobj) Tj" = .ok ((withStream b!"(endobj) Tj").map (fun o => ⟨o.objID, if o.objID = 4 then b!"\n<< /Length 11 >>\nstream\n(" else between o.data⟩))) ∧
    reopened b!"(trailer) Tj" = .err .other ∧ reopened b!"(startxref) Tj" = .panic ∧
    (∃ objs, reopened b!"xref 0000000010 00000 n" = .ok objs ∧ objs.map Obj.objID = [1, 1, 2, 3, 4]) := by
  refine ⟨by decide +kernel, by decide +kernel, by decide +kernel, by decide +kernel, ?_⟩
  cases h : reopened b!"xref 0000000010 00000 n" with
  | ok objs => exact ⟨objs, rfl, by
      have : (match reopened b!"xref 0000000010 00000 n" with | .ok l => decide (l.map Obj.objID = [1, 1, 2, 3, 4]) | _ => false) = true := by decide +kernel
      rw [h] at this
      simpa using this⟩
  | err e => exact absurd h (by
      have : (match reopened b!"xref 0000000010 00000 n" with | .ok _ => true | _ => false) = true := by decide +kernel
      intro h; rw [h] at this; simp at this)
  | panic => exact absurd h (by
      have : (match reopened b!"xref 0000000010 00000 n" with | .ok _ => true | _ => false) = true := by decide +kernel
      intro h; rw [h] at this; simp at this)
  | hang => exact absurd h (by
      have : (match reopened b!"xref 0000000010 00000 n" with | .ok _ => true | _ => false) = true := by decide +kernel
      intro h; rw [h] at this; simp at this)

end Verif
