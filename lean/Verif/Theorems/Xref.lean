import Verif.Lemmas.Writer
/-
C01, C02, C03: the cross-reference table, the trailer and the objects of a saved file, judged only from the
bytes of the file with the reader of `Verif.Spec.Xref`.
-/
namespace Verif

/-- The objects `toStream` writes: the document's and, with protection, the encryption dictionary. -/
def writtenObjs (objs : List Obj) (lastID : Nat) : Option Bytes → List Obj
  | some e => objs ++ [⟨(lastID + 1 : Nat), e⟩]
  | none => objs

/-- Highest object number of the table. -/
def tableTop (lastID : Nat) : Option Bytes → Nat
  | some _ => lastID + 1
  | none => lastID

theorem natDigits_numeral (n : Nat) : Spec.Numeral (natDigits n) n :=
  ⟨natDigits_ne_nil n, by
    rw [List.all_eq_true]; intro c hc; rw [isDec_eq]; exact natDigits_isDigit n c hc, decVal_natDigits n⟩

/-- `toStream` split into the part before the table, and the table. -/
theorem toStream_eq (objs : List Obj) (rootID : Int) (lastID : Nat) (enc : Option Bytes) :
    toStream objs rootID lastID enc =
      (header ++ flatObjs (writtenObjs objs lastID enc)) ++
      xrefBytes (fun j => (objsLoop (writtenObjs objs lastID enc) header []).2.lookup j)
        (header ++ flatObjs (writtenObjs objs lastID enc)).length (tableTop lastID enc) rootID
        (enc.map (fun _ => ((lastID + 1 : Nat) : Int))) := by
  cases enc with
  | none =>
    have := objsLoop_buf objs header []
    simp only [toStream, writtenObjs, tableTop, Option.map_none, this]
  | some e =>
    have := objsLoop_buf (objs ++ [⟨(lastID + 1 : Nat), e⟩]) header []
    simp only [toStream, writtenObjs, tableTop, Option.map_some, this]

/-- The text after the rows. -/
def trailerText (at_ size : Nat) (rootID : Int) (enc : Option Int) : Bytes :=
  b!"trailer\n" ++ b!"<<\n" ++ b!"/Size " ++ natDigits (size + 1) ++ b!"\n" ++
  b!"/Root " ++ itoa rootID ++ b!" 0 R\n" ++
  encPart enc ++
  b!">>\n" ++ b!"startxref\n" ++ natDigits at_ ++ b!"\n%%EOF\n"

theorem xrefBytes_eq (off : Int → Option Nat) (at_ size : Nat) (rootID : Int) (enc : Option Int) :
    xrefBytes off at_ size rootID enc = b!"\nxref\n0 " ++ (natDigits (size + 1) ++ (b!"\r\n" ++
      ((xrefRows off size).flatMap rowBytes ++ trailerText at_ size rootID enc))) := by
  have e : (b!"\nxref\n0 " : Bytes) = b!"\nxref\n" ++ b!"0 " := rfl
  rw [e]
  simp only [xrefBytes, trailerText, List.append_assoc]

theorem flatMap_rowBytes_length (rows : List Row) : rows.length ≤ (rows.flatMap rowBytes).length := by
  induction rows with
  | nil => simp
  | cons r t ih =>
    have : 1 ≤ (rowBytes r).length := by simp [rowBytes]; omega
    simp only [List.flatMap_cons, List.length_append, List.length_cons]
    omega

theorem flatObjs_append (a b : List Obj) : flatObjs (a ++ b) = flatObjs a ++ flatObjs b := by
  simp [flatObjs]

/-- The offsets in the rows have at most ten digits. -/
theorem rows_offset_lt (objs : List Obj) (rootID : Int) (lastID : Nat) (enc : Option Bytes)
    (hlen : (toStream objs rootID lastID enc).length < 10 ^ 10) :
    ∀ r ∈ xrefRows (fun j => (objsLoop (writtenObjs objs lastID enc) header []).2.lookup j) (tableTop lastID enc), r.offset < 10 ^ 10 := by
  have heq := toStream_eq objs rootID lastID enc
  rw [xrefBytes_eq] at heq
  generalize hoff : (fun j => (objsLoop (writtenObjs objs lastID enc) header []).2.lookup j) = off at heq ⊢
  generalize hbuf : header ++ flatObjs (writtenObjs objs lastID enc) = buf at heq
  generalize tableTop lastID enc = top at heq ⊢
  generalize enc.map (fun _ => ((lastID + 1 : Nat) : Int)) = encID at heq
  obtain ⟨⟨l, inv⟩, hrl⟩ := xrefRows_inv off top
  intro r hr
  rw [List.mem_iff_getElem?] at hr
  obtain ⟨i, hi⟩ := hr
  have hil : i < (xrefRows off top).length := by
    rcases Nat.lt_or_ge i (xrefRows off top).length with h | h
    · exact h
    · rw [List.getElem?_eq_none h] at hi; simp at hi
  have hout : buf.length + (xrefRows off top).length < 10 ^ 10 := by
    have := flatMap_rowBytes_length (xrefRows off top)
    rw [heq] at hlen
    simp only [List.length_append] at hlen
    omega
  cases hf : r.free with
  | false =>
    have h1 := inv.used i r hi hf
    rw [← hoff] at h1
    have h2 := (objsLoop_lookup (writtenObjs objs lastID enc) header [] i).1 r.offset h1
    rcases h2 with ⟨a, o, b, h3, _, h5, _⟩ | ⟨h3, _⟩
    · have : r.offset ≤ buf.length := by
        rw [h5, ← hbuf, h3, flatObjs_append]; simp
      omega
    · simp at h3
  | true =>
    rcases Nat.lt_trichotomy i l with hc | hc | hc
    · have := inv.link i r hc hi hf
      obtain ⟨_, h2, ⟨f, h3, _⟩, _⟩ := this
      have : r.offset < (xrefRows off top).length := by
        rcases Nat.lt_or_ge r.offset (xrefRows off top).length with h | h
        · exact h
        · rw [List.getElem?_eq_none h] at h3; simp at h3
      omega
    · obtain ⟨r0, h1, _, h3⟩ := inv.last
      rw [← hc, hi] at h1; simp at h1; subst h1; rw [h3]; simp
    · have := inv.after i r hc hi
      rw [hf] at this; simp at this

/-- The table read back from the bytes of the file. -/
theorem readTable_toStream (objs : List Obj) (rootID : Int) (lastID : Nat) (enc : Option Bytes)
    (hlen : (toStream objs rootID lastID enc).length < 10 ^ 10) :
    Spec.readTable (toStream objs rootID lastID enc) =
      some ((xrefRows (fun j => (objsLoop (writtenObjs objs lastID enc) header []).2.lookup j) (tableTop lastID enc)).map entryOf,
        trailerText (header ++ flatObjs (writtenObjs objs lastID enc)).length (tableTop lastID enc) rootID
          (enc.map (fun _ => ((lastID + 1 : Nat) : Int)))) := by
  have hoffs := rows_offset_lt objs rootID lastID enc hlen
  have heq := toStream_eq objs rootID lastID enc
  rw [xrefBytes_eq] at heq
  generalize hoff : (fun j => (objsLoop (writtenObjs objs lastID enc) header []).2.lookup j) = off at heq hoffs ⊢
  generalize hbuf : header ++ flatObjs (writtenObjs objs lastID enc) = buf at heq ⊢
  generalize tableTop lastID enc = top at heq hoffs ⊢
  generalize enc.map (fun _ => ((lastID + 1 : Nat) : Int)) = encID at heq ⊢
  obtain ⟨⟨l, inv⟩, hrl⟩ := xrefRows_inv off top
  unfold Spec.readTable
  have hsx : Spec.startxref (toStream objs rootID lastID enc) = some buf.length := by
    rw [heq]
    have : ∀ (x y z : Bytes), buf ++ (x ++ (natDigits (top + 1) ++ (y ++ (z ++ trailerText buf.length top rootID encID)))) =
        (buf ++ (x ++ (natDigits (top + 1) ++ (y ++ (z ++ (
          b!"trailer\n" ++ b!"<<\n" ++ b!"/Size " ++ natDigits (top + 1) ++ b!"\n" ++
          b!"/Root " ++ itoa rootID ++ b!" 0 R\n" ++
          encPart encID ++ b!">>\n")))))) ++ b!"startxref\n" ++ natDigits buf.length ++ b!"\n%%EOF\n" := by
      intro x y z; simp only [trailerText, List.append_assoc]
    rw [this]
    exact startxref_spec _ _
  rw [hsx]
  have hle : buf.length ≤ (toStream objs rootID lastID enc).length := by rw [heq]; simp
  have hdrop : (toStream objs rootID lastID enc).drop buf.length = b!"\nxref\n0 " ++ (natDigits (top + 1) ++ (b!"\r\n" ++
      ((xrefRows off top).flatMap rowBytes ++ trailerText buf.length top rootID encID))) := by
    rw [heq]; exact List.drop_left
  simp only [Option.bind_eq_bind, Option.bind_some, hle, if_true, hdrop]
  exact readSection_spec (top + 1) (xrefRows off top) _ hrl hoffs

theorem drop_prefix_of_append {a b c : Bytes} : b <+: (a ++ (b ++ c)).drop a.length := by
  rw [List.drop_left]; exact List.prefix_append _ _

/-- **C01.**  Reading the saved file from its end: every row in use for number `k` holds the offset of an object
`k 0 obj ... endobj` with the data of a document object numbered `k`, and every object has such a row. -/
theorem C01_xref_points_at_objects (objs : List Obj) (rootID : Int) (lastID : Nat) (enc : Option Bytes)
    (hids : ∀ o ∈ objs, 1 ≤ o.objID ∧ o.objID ≤ lastID) (hnd : (objs.map Obj.objID).Nodup)
    (hlen : (toStream objs rootID lastID enc).length < 10 ^ 10) :
    ∃ es rest, Spec.readTable (toStream objs rootID lastID enc) = some (es, rest) ∧
      (∀ (k : Nat) e, es[k]? = some e → e.inUse = true →
        ∃ o ∈ writtenObjs objs lastID enc, o.objID = k ∧ e.gen = 0 ∧
          Spec.ObjectAt (toStream objs rootID lastID enc) e.offset k (trimSpace o.data)) ∧
      (∀ o ∈ writtenObjs objs lastID enc, ∃ (k : Nat) (e : Spec.Entry), o.objID = k ∧ es[k]? = some e ∧ e.inUse = true ∧
          e.gen = 0 ∧ Spec.ObjectAt (toStream objs rootID lastID enc) e.offset k (trimSpace o.data)) := by
  refine ⟨_, _, readTable_toStream objs rootID lastID enc hlen, ?_⟩
  have heq := toStream_eq objs rootID lastID enc
  generalize hoff : (fun j => (objsLoop (writtenObjs objs lastID enc) header []).2.lookup j) = off at heq ⊢
  obtain ⟨⟨l, inv⟩, hrl⟩ := xrefRows_inv off (tableTop lastID enc)
  have hnd' : ((writtenObjs objs lastID enc).map Obj.objID).Nodup := by
    cases enc with
    | none => exact hnd
    | some e =>
      simp only [writtenObjs, List.map_append, List.map_cons, List.map_nil]
      rw [List.nodup_append]
      refine ⟨hnd, by simp, ?_⟩
      intro a ha b hb
      simp only [List.mem_map] at ha
      obtain ⟨o, ho, rfl⟩ := ha
      simp only [List.mem_cons, List.not_mem_nil, or_false] at hb
      subst hb
      have := (hids o ho).2
      omega
  have hids' : ∀ o ∈ writtenObjs objs lastID enc, 1 ≤ o.objID ∧ o.objID ≤ tableTop lastID enc := by
    intro o ho
    cases enc with
    | none => exact hids o ho
    | some e =>
      simp only [writtenObjs, List.mem_append, List.mem_cons, List.not_mem_nil, or_false] at ho
      simp only [tableTop]
      rcases ho with ho | ho
      · have := hids o ho; omega
      · subst ho; simp only; omega
  have place : ∀ (k n : Nat), off k = some n → ∃ o ∈ writtenObjs objs lastID enc, o.objID = k ∧
      Spec.ObjectAt (toStream objs rootID lastID enc) n k (trimSpace o.data) := by
    intro k n hk
    rw [← hoff] at hk
    rcases (objsLoop_lookup (writtenObjs objs lastID enc) header [] k).1 n hk with ⟨a, o, b, h1, h2, h3, _⟩ | ⟨h1, _⟩
    · refine ⟨o, by rw [h1]; simp, h2, natDigits k, natDigits_numeral k, ?_⟩
      have e1 : itoa o.objID = natDigits k := by rw [h2]; rfl
      have : b!"\n" ++ natDigits k ++ b!" 0 obj\n" ++ trimSpace o.data ++ b!"\nendobj\n" = objBytes o := by
        rw [objBytes, e1]
      rw [this, heq, h1, flatObjs_append, h3]
      have : flatObjs (o :: b) = objBytes o ++ flatObjs b := rfl
      rw [this]
      simp only [← List.append_assoc]
      rw [List.append_assoc (header ++ flatObjs a ++ objBytes o), List.append_assoc (header ++ flatObjs a)]
      exact drop_prefix_of_append
    · simp at h1
  constructor
  · intro k e hk hin
    rw [List.getElem?_map, Option.map_eq_some_iff] at hk
    obtain ⟨r, hr, he⟩ := hk
    subst he
    have hf : r.free = false := by simpa [entryOf] using hin
    obtain ⟨o, ho, h2, h3⟩ := place k r.offset (inv.used k r hr hf)
    exact ⟨o, ho, h2, by simp [entryOf, hf], h3⟩
  · intro o ho
    obtain ⟨h1, h2⟩ := hids' o ho
    obtain ⟨k, hk⟩ : ∃ k : Nat, o.objID = k := ⟨o.objID.toNat, by omega⟩
    refine ⟨k, ?_⟩
    have hlt : k < (xrefRows off (tableTop lastID enc)).length := by rw [hrl]; omega
    have hr : (xrefRows off (tableTop lastID enc))[k]? = some ((xrefRows off (tableTop lastID enc))[k]) :=
      List.getElem?_eq_getElem hlt
    generalize (xrefRows off (tableTop lastID enc))[k] = r at hr
    refine ⟨entryOf r, hk, by rw [List.getElem?_map, hr]; rfl, ?_⟩
    cases hf : r.free with
    | true =>
      exfalso
      rcases inv.free k r hr hf with h | h
      · omega
      · rw [← hoff] at h
        have := ((objsLoop_lookup (writtenObjs objs lastID enc) header [] k).2.1 h).2 o ho
        exact this hk
    | false =>
      have hk' := inv.used k r hr hf
      obtain ⟨o', ho', h3, h4⟩ := place k r.offset hk'
      have : o' = o := by
        have := eq_of_nodup_map hnd' ho' ho (by rw [h3, hk])
        exact this
      subst this
      exact ⟨by simp [entryOf, hf], by simp [entryOf, hf], h4⟩

/-- **C02.**  The table has one subsection `0 N` with `N` rows of 20 bytes (this is what `readTable` accepts),
where `N - 1` is the highest number, and the free rows are linked in increasing order from row 0. -/
theorem C02_xref_table_well_formed (objs : List Obj) (rootID : Int) (lastID : Nat) (enc : Option Bytes)
    (hlen : (toStream objs rootID lastID enc).length < 10 ^ 10) :
    ∃ es rest, Spec.readTable (toStream objs rootID lastID enc) = some (es, rest) ∧
      es.length = tableTop lastID enc + 1 ∧ Spec.FreeListOk es := by
  refine ⟨_, _, readTable_toStream objs rootID lastID enc hlen, ?_⟩
  generalize hoff : (fun j => (objsLoop (writtenObjs objs lastID enc) header []).2.lookup j) = off
  obtain ⟨⟨l, inv⟩, hrl⟩ := xrefRows_inv off (tableTop lastID enc)
  generalize xrefRows off (tableTop lastID enc) = rows at inv hrl ⊢
  have get : ∀ (k : Nat) f, (rows.map entryOf)[k]? = some f → ∃ r, rows[k]? = some r ∧ f = entryOf r := by
    intro k f h
    rw [List.getElem?_map, Option.map_eq_some_iff] at h
    obtain ⟨r, h1, h2⟩ := h
    exact ⟨r, h1, h2.symm⟩
  refine ⟨by simp [hrl], ?_, ?_⟩
  · obtain ⟨r, h1, h2⟩ := inv.zero
    exact ⟨entryOf r, by rw [List.getElem?_map, h1]; rfl, by simp [entryOf, h2], by simp [entryOf, h2]⟩
  · intro i e hi hin
    obtain ⟨r, hr, he⟩ := get i e hi
    subst he
    have hf : r.free = true := by simpa [entryOf] using hin
    rcases Nat.lt_trichotomy i l with hc | hc | hc
    · right
      obtain ⟨h1, _, ⟨f, h3, h4⟩, h5⟩ := inv.link i r hc hr hf
      refine ⟨h1, ⟨entryOf f, ?_, by simp [entryOf, h4]⟩, ?_⟩
      · show (rows.map entryOf)[r.offset]? = _
        rw [List.getElem?_map, h3]; rfl
      · intro k g hk1 hk2 hk
        obtain ⟨r', hr', he'⟩ := get k g hk
        subst he'
        simp [entryOf, h5 k r' hk1 hk2 hr']
    · left
      obtain ⟨r0, h1, _, h3⟩ := inv.last
      subst hc
      rw [hr] at h1; simp at h1; subst h1
      refine ⟨h3, ?_⟩
      intro k g hk1 hk
      obtain ⟨r', hr', he'⟩ := get k g hk
      subst he'
      simp [entryOf, inv.after k r' hk1 hr']
    · have := inv.after i r hc hr
      rw [hf] at this; simp at this

/-- **C03.**  `startxref` is the offset of the cross-reference section; the trailer that follows the rows has
`/Size` = number of rows, `/Root` = the root object, and `/Encrypt` exactly when the document is protected,
naming the object that holds the encryption dictionary. -/
theorem C03_trailer_agrees (objs : List Obj) (rootID : Nat) (lastID : Nat) (enc : Option Bytes)
    (hlen : (toStream objs rootID lastID enc).length < 10 ^ 10) :
    ∃ x es rest, Spec.startxref (toStream objs rootID lastID enc) = some x ∧
      b!"\nxref\n" <+: (toStream objs rootID lastID enc).drop x ∧
      Spec.readTable (toStream objs rootID lastID enc) = some (es, rest) ∧
      Spec.TrailerAt rest es.length rootID (enc.map (fun _ => lastID + 1)) ∧
      (∀ e, enc = some e → ⟨((lastID + 1 : Nat) : Int), e⟩ ∈ writtenObjs objs lastID enc) := by
  have hrt := readTable_toStream objs rootID lastID enc hlen
  have hx : ∃ x, Spec.startxref (toStream objs rootID lastID enc) = some x ∧
      b!"\nxref\n" <+: (toStream objs rootID lastID enc).drop x := by
    have := hrt
    unfold Spec.readTable at this
    cases hs : Spec.startxref (toStream objs rootID lastID enc) with
    | none => rw [hs] at this; simp at this
    | some x =>
      refine ⟨x, rfl, ?_⟩
      rw [hs] at this
      simp only [Option.bind_eq_bind, Option.bind_some] at this
      split at this
      · unfold Spec.readSection at this
        split at this
        · rename_i h
          have h6 : ((toStream objs rootID lastID enc).drop x).take 6 = b!"\nxref\n" := by
            have := congrArg (List.take 6) h
            rw [List.take_take] at this
            simpa using this
          rw [← h6]
          exact List.take_prefix _ _
        · simp at this
      · simp at this
  obtain ⟨x, hx1, hx2⟩ := hx
  refine ⟨x, _, _, hx1, hx2, hrt, ?_, ?_⟩
  · generalize hoff : (fun j => (objsLoop (writtenObjs objs lastID enc) header []).2.lookup j) = off
    obtain ⟨_, hrl⟩ := xrefRows_inv off (tableTop lastID enc)
    rw [List.length_map, hrl]
    refine ⟨natDigits (tableTop lastID enc + 1), natDigits rootID, natDigits_numeral _, natDigits_numeral _, ?_⟩
    cases enc with
    | none =>
      simp only [Option.map_none, trailerText, itoa_natCast, encPart]
      refine ⟨natDigits (header ++ flatObjs (writtenObjs objs lastID none)).length ++ b!"\n%%EOF\n", ?_⟩
      simp only [List.append_assoc, List.cons_append, List.nil_append]
    | some e =>
      simp only [Option.map_some, trailerText, itoa_natCast, encPart]
      refine ⟨natDigits (lastID + 1), natDigits_numeral _, natDigits (header ++ flatObjs (writtenObjs objs lastID (some e))).length ++ b!"\n%%EOF\n", ?_⟩
      simp only [List.append_assoc, List.cons_append, List.nil_append]
  · intro e he
    subst he
    simp [writtenObjs]

/-! A concrete document with a gap in its numbers and with protection meets the hypotheses. -/
def exObjs : List Obj := [⟨1, b!"<</Type/Catalog/Pages 4 0 R>>"⟩, ⟨4, b!" <</Type/Pages/Kids []/Count 0>>\n"⟩]

example : ∀ o ∈ exObjs, 1 ≤ o.objID ∧ o.objID ≤ (4 : Nat) := by decide
example : (exObjs.map Obj.objID).Nodup := by decide
set_option maxRecDepth 20000 in
example : (toStream exObjs 1 4 (some b!"<</Filter/Standard>>")).length < 10 ^ 10 := by decide

end Verif
