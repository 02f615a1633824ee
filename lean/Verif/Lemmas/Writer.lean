import Verif.Writer
import Verif.Spec.Xref
import Verif.Lemmas.Num
import Verif.Lemmas.ListAux
/-
Helper lemmas for the serialisation theorems.
-/
namespace Verif

/-! ### spec readers on printed numbers -/

theorem isDec_eq (c : UInt8) : Spec.isDec c = isDigit c := by
  have := isDigit_iff c
  rw [Bool.eq_iff_iff, this]
  simp [Spec.isDec]

theorem foldl_dec_append (a : Bytes) (acc : Nat) (h : ∀ c ∈ a, isDigit c = true) :
    digitsVal acc a = some (a.foldl (fun a c => 10 * a + (c.toNat - 48)) acc) := by
  induction a generalizing acc with
  | nil => rfl
  | cons c t ih =>
    simp only [digitsVal, h c (by simp), if_true, List.foldl_cons]
    rw [ih _ (fun c hc => h c (by simp [hc]))]
    congr 2
    omega

theorem decVal_eq {a : Bytes} {n : Nat} (h : ∀ c ∈ a, isDigit c = true) (hv : digitsVal 0 a = some n) :
    Spec.decVal a = n := by
  rw [foldl_dec_append a 0 h] at hv
  exact Option.some.inj hv

theorem decVal_natDigits (n : Nat) : Spec.decVal (natDigits n) = n :=
  decVal_eq (natDigits_isDigit n) (digitsVal_natDigits n)

theorem formatXrefline_isDigit (n : Nat) : ∀ c ∈ formatXrefline n, isDigit c = true := by
  intro c hc
  simp only [formatXrefline, List.mem_append, List.mem_replicate] at hc
  rcases hc with hc | hc
  · rw [hc.2]; decide
  · exact natDigits_isDigit n c hc

theorem formatXrefline_length {n : Nat} (h : n < 10 ^ 10) : (formatXrefline n).length = 10 := by
  have := natDigits_length h (by omega)
  simp [formatXrefline]; omega

theorem decVal_formatXrefline (n : Nat) : Spec.decVal (formatXrefline n) = n := by
  refine decVal_eq (formatXrefline_isDigit n) ?_
  rw [formatXrefline, digitsVal_replicate_zero _ _ _ rfl, digitsVal_natDigits]

/-- The entry a row stands for. -/
def entryOf (r : Row) : Spec.Entry := ⟨r.offset, if r.free then 65535 else 0, !r.free⟩

theorem rowBytes_length {r : Row} (h : r.offset < 10 ^ 10) : (rowBytes r).length = 20 := by
  have := formatXrefline_length h
  cases hf : r.free <;> simp [rowBytes, this, hf]

theorem readEntry_rowBytes {r : Row} (h : r.offset < 10 ^ 10) : Spec.readEntry (rowBytes r) = some (entryOf r) := by
  have hl := formatXrefline_length h
  have hd := formatXrefline_isDigit r.offset
  have hv := decVal_formatXrefline r.offset
  have h20 := rowBytes_length h
  have hr : ∃ rest : Bytes, rowBytes r = formatXrefline r.offset ++ rest ∧
      rest = b!" " ++ (if r.free then b!"65535" else b!"00000") ++ b!" " ++ (if r.free then b!"f" else b!"n") ++ b!" \n" := by
    refine ⟨_, ?_, rfl⟩
    simp [rowBytes]
  obtain ⟨rest, hr, hrest⟩ := hr
  have t10 : (rowBytes r).take 10 = formatXrefline r.offset := by rw [hr, ← hl]; simp
  have d10 : ∀ k, (rowBytes r).drop (10 + k) = rest.drop k := by
    intro k; rw [hr, ← hl, ← List.drop_drop]; simp
  have hall : ((rowBytes r).take 10).all Spec.isDec = true := by
    rw [t10, List.all_eq_true]; intro c hc; rw [isDec_eq]; exact hd c hc
  have a1 := d10 0
  have a2 := d10 1
  have a3 := d10 6
  have a4 := d10 7
  have a5 := d10 8
  simp only [Nat.add_zero, Nat.reduceAdd] at a1 a2 a3 a4 a5
  unfold Spec.readEntry
  rw [h20, hall, a1, a2, a3, a4, a5, t10, hv, hrest]
  cases hf : r.free <;> simp [entryOf, hf] <;> decide

theorem readEntries_rows (rows : List Row) (rest : Bytes) (h : ∀ r ∈ rows, r.offset < 10 ^ 10) :
    Spec.readEntries rows.length (rows.flatMap rowBytes ++ rest) = some (rows.map entryOf, rest) := by
  induction rows with
  | nil => simp [Spec.readEntries]
  | cons r t ih =>
    have hr := h r (by simp)
    have hl := rowBytes_length hr
    have ht : (rowBytes r ++ (t.flatMap rowBytes ++ rest)).take 20 = rowBytes r := by rw [← hl]; simp
    have hd : (rowBytes r ++ (t.flatMap rowBytes ++ rest)).drop 20 = t.flatMap rowBytes ++ rest := by rw [← hl]; simp
    simp only [List.length_cons, Spec.readEntries, List.flatMap_cons, List.append_assoc]
    rw [ht, hd, readEntry_rowBytes hr]
    simp [ih (fun r hr => h r (by simp [hr]))]

theorem takeWhile_dec_append {a b : Bytes} (h : ∀ c ∈ a, isDigit c = true) (hb : ∀ c, b.head? = some c → isDigit c = false) :
    (a ++ b).takeWhile Spec.isDec = a := by
  have : Spec.isDec = isDigit := funext isDec_eq
  rw [this]
  induction a with
  | nil =>
    cases b with
    | nil => rfl
    | cons c t => simp [hb c rfl]
  | cons c t ih =>
    simp [h c (by simp), ih (fun c hc => h c (by simp [hc]))]

theorem startxref_spec (pre : Bytes) (n : Nat) :
    Spec.startxref (pre ++ b!"startxref\n" ++ natDigits n ++ b!"\n%%EOF\n") = some n := by
  unfold Spec.startxref
  have hrev : (pre ++ b!"startxref\n" ++ natDigits n ++ b!"\n%%EOF\n").reverse =
      (b!"\n%%EOF\n").reverse ++ ((natDigits n).reverse ++ ((b!"startxref\n").reverse ++ pre.reverse)) := by simp
  simp only [hrev]
  have tw : ((natDigits n).reverse ++ ((b!"startxref\n").reverse ++ pre.reverse)).takeWhile Spec.isDec = (natDigits n).reverse := by
    apply takeWhile_dec_append
    · intro c hc; exact natDigits_isDigit n c (by simpa using hc)
    · intro c hc; simp at hc; subst hc; decide
  have t7 : ((b!"\n%%EOF\n").reverse ++ ((natDigits n).reverse ++ ((b!"startxref\n").reverse ++ pre.reverse))).take 7
      = (b!"\n%%EOF\n").reverse := by simp
  have d7 : ((b!"\n%%EOF\n").reverse ++ ((natDigits n).reverse ++ ((b!"startxref\n").reverse ++ pre.reverse))).drop 7
      = ((natDigits n).reverse ++ ((b!"startxref\n").reverse ++ pre.reverse)) := by simp
  rw [t7, d7]
  simp only [if_true, tw]
  have : ((natDigits n).reverse ++ ((b!"startxref\n").reverse ++ pre.reverse)).drop (natDigits n).reverse.length
      = (b!"startxref\n").reverse ++ pre.reverse := List.drop_left
  rw [this]
  have hne := natDigits_ne_nil n
  have t10 : ((b!"startxref\n").reverse ++ pre.reverse).take 10 = (b!"startxref\n").reverse := by simp
  rw [t10]
  simp [hne, decVal_natDigits]

theorem readSection_spec (n : Nat) (rows : List Row) (rest : Bytes) (hn : rows.length = n)
    (h : ∀ r ∈ rows, r.offset < 10 ^ 10) :
    Spec.readSection (b!"\nxref\n0 " ++ (natDigits n ++ (b!"\r\n" ++ (rows.flatMap rowBytes ++ rest)))) =
      some (rows.map entryOf, rest) := by
  unfold Spec.readSection
  have d8 : ∀ (s : Bytes), (b!"\nxref\n0 " ++ s).drop 8 = s := by intro s; simp
  have t8 : ∀ (s : Bytes), (b!"\nxref\n0 " ++ s).take 8 = b!"\nxref\n0 " := by intro s; simp
  simp only [d8, t8, if_true]
  have tw : (natDigits n ++ (b!"\r\n" ++ (rows.flatMap rowBytes ++ rest))).takeWhile Spec.isDec = natDigits n := by
    apply takeWhile_dec_append (natDigits_isDigit n)
    intro c hc; simp at hc; subst hc; decide
  rw [tw]
  have hd : (natDigits n ++ (b!"\r\n" ++ (rows.flatMap rowBytes ++ rest))).drop (natDigits n).length =
      b!"\r\n" ++ (rows.flatMap rowBytes ++ rest) := List.drop_left
  rw [hd]
  have t2 : (b!"\r\n" ++ (rows.flatMap rowBytes ++ rest)).take 2 = b!"\r\n" := by simp
  have d2 : (b!"\r\n" ++ (rows.flatMap rowBytes ++ rest)).drop 2 = rows.flatMap rowBytes ++ rest := by simp
  rw [t2, d2, decVal_natDigits, ← hn, readEntries_rows rows rest h]
  simp [natDigits_ne_nil]

/-! ### the row loop -/

/-- Invariant of the row loop: `rows` are the rows for `0 .. rows.length-1`; `lastF` is the last free one. -/
structure RowsInv (off : Int → Option Nat) (rows : List Row) (lastF : Nat) : Prop where
  zero : ∃ r, rows[0]? = some r ∧ r.free = true
  used : ∀ (i : Nat) (r : Row), rows[i]? = some r → r.free = false → off i = some r.offset
  free : ∀ (i : Nat) (r : Row), rows[i]? = some r → r.free = true → i = 0 ∨ off i = none
  last : ∃ r, rows[lastF]? = some r ∧ r.free = true ∧ r.offset = 0
  after : ∀ k r, lastF < k → rows[k]? = some r → r.free = false
  link : ∀ i r, i < lastF → rows[i]? = some r → r.free = true →
    i < r.offset ∧ r.offset ≤ lastF ∧ (∃ f, rows[r.offset]? = some f ∧ f.free = true) ∧
    ∀ k f, i < k → k < r.offset → rows[k]? = some f → f.free = false

theorem rowsInv_init (off : Int → Option Nat) : RowsInv off [⟨0, true⟩] 0 where
  zero := ⟨⟨0, true⟩, rfl, rfl⟩
  used := by
    intro i r h hf
    match i with
    | 0 => simp at h; subst h; simp at hf
    | i + 1 => simp at h
  free := by
    intro i r h hf
    match i with
    | 0 => simp
    | i + 1 => simp at h
  last := ⟨⟨0, true⟩, rfl, rfl, rfl⟩
  after := by
    intro k r hk h
    match k with
    | 0 => omega
    | k + 1 => simp at h
  link := by intro i r h; omega

theorem getElem?_snoc {α : Type} (l : List α) (x : α) (i : Nat) :
    (l ++ [x])[i]? = if i < l.length then l[i]? else if i = l.length then some x else none := by
  split
  · rename_i h; exact List.getElem?_append_left h
  · rename_i h
    rw [List.getElem?_append_right (by omega)]
    split
    · rename_i h2; simp [h2]
    · have : i - l.length ≠ 0 := by omega
      obtain ⟨k, hk⟩ := Nat.exists_eq_succ_of_ne_zero this
      simp [hk]

theorem rowsInv_used {off : Int → Option Nat} {rows : List Row} {lastF n : Nat} (inv : RowsInv off rows lastF)
    (h : off (rows.length : Nat) = some n) : RowsInv off (rows ++ [⟨n, false⟩]) lastF where
  zero := by
    obtain ⟨r, hr, hf⟩ := inv.zero
    refine ⟨r, ?_, hf⟩
    rw [getElem?_snoc]
    have : 0 < rows.length := by
      rcases Nat.lt_or_ge 0 rows.length with h | h
      · exact h
      · rw [List.getElem?_eq_none h] at hr; simp at hr
    rw [if_pos this]; exact hr
  used := by
    intro i r hi hf
    rw [getElem?_snoc] at hi
    split at hi
    · exact inv.used i r hi hf
    · split at hi
      · rename_i h2; simp at hi; subst hi; subst h2; exact h
      · simp at hi
  free := by
    intro i r hi hf
    rw [getElem?_snoc] at hi
    split at hi
    · exact inv.free i r hi hf
    · split at hi
      · simp at hi; subst hi; simp at hf
      · simp at hi
  last := by
    obtain ⟨r, hr, hf⟩ := inv.last
    refine ⟨r, ?_, hf⟩
    rw [getElem?_snoc]
    have : lastF < rows.length := by
      rcases Nat.lt_or_ge lastF rows.length with h | h
      · exact h
      · rw [List.getElem?_eq_none h] at hr; simp at hr
    rw [if_pos this]; exact hr
  after := by
    intro k r hk hi
    rw [getElem?_snoc] at hi
    split at hi
    · exact inv.after k r hk hi
    · split at hi
      · simp at hi; subst hi; rfl
      · simp at hi
  link := by
    intro i r hlt hi hf
    obtain ⟨r0, hr0, _⟩ := inv.last
    have hl : lastF < rows.length := by
      rcases Nat.lt_or_ge lastF rows.length with h | h
      · exact h
      · rw [List.getElem?_eq_none h] at hr0; simp at hr0
    rw [getElem?_snoc, if_pos (by omega)] at hi
    obtain ⟨h1, h2, ⟨f, hf1, hf2⟩, h4⟩ := inv.link i r hlt hi hf
    refine ⟨h1, h2, ⟨f, ?_, hf2⟩, ?_⟩
    · rw [getElem?_snoc, if_pos (by omega)]; exact hf1
    · intro k f hk1 hk2 hk
      rw [getElem?_snoc, if_pos (by omega)] at hk
      exact h4 k f hk1 hk2 hk

theorem getElem?_modify_row (rows : List Row) (j n i : Nat) :
    (rows.modify j (fun r => { r with offset := n }))[i]? =
      (rows[i]?).map (fun r => if i = j then { r with offset := n } else r) := by
  rw [List.getElem?_modify]
  congr 1
  funext r
  by_cases h : i = j
  · simp [h]
  · simp [h, Ne.symm h]

theorem rowsInv_free {off : Int → Option Nat} {rows : List Row} {lastF : Nat} (inv : RowsInv off rows lastF)
    (h : off (rows.length : Nat) = none) :
    RowsInv off ((rows ++ [Row.mk 0 true]).modify lastF (fun r => { r with offset := rows.length })) rows.length := by
  obtain ⟨r0, hr0, hr0f, hr0o⟩ := inv.last
  have hl : lastF < rows.length := by
    rcases Nat.lt_or_ge lastF rows.length with h | h
    · exact h
    · rw [List.getElem?_eq_none h] at hr0; simp at hr0
  have key : ∀ i r, ((rows ++ [Row.mk 0 true]).modify lastF (fun r => { r with offset := rows.length }))[i]? = some r →
      (i < rows.length ∧ ∃ r1, rows[i]? = some r1 ∧ r.free = r1.free ∧ (i ≠ lastF → r = r1) ∧ (i = lastF → r.offset = rows.length)) ∨
      (i = rows.length ∧ r = ⟨0, true⟩) := by
    intro i r hi
    rw [getElem?_modify_row, getElem?_snoc] at hi
    by_cases h1 : i < rows.length
    · left
      rw [if_pos h1] at hi
      rw [Option.map_eq_some_iff] at hi
      obtain ⟨r1, h2, h3⟩ := hi
      refine ⟨h1, r1, h2, ?_, ?_, ?_⟩
      · split at h3 <;> subst h3 <;> rfl
      · intro hne; rw [if_neg hne] at h3; exact h3.symm
      · intro he; rw [if_pos he] at h3; subst h3; rfl
    · rw [if_neg h1] at hi
      have hne : i ≠ lastF := by omega
      simp [hne] at hi
      right
      exact ⟨hi.1, hi.2.symm⟩
  have back : ∀ (i : Nat) (r1 : Row), rows[i]? = some r1 → ∃ r : Row, ((rows ++ [Row.mk 0 true]).modify lastF (fun r => { r with offset := rows.length }))[i]? = some r ∧ r.free = r1.free := by
    intro i r1 hi
    have h1 : i < rows.length := by
      rcases Nat.lt_or_ge i rows.length with h | h
      · exact h
      · rw [List.getElem?_eq_none h] at hi; simp at hi
    rw [getElem?_modify_row, getElem?_snoc, if_pos h1, hi]
    refine ⟨_, rfl, ?_⟩
    split <;> rfl
  have newAt : ((rows ++ [Row.mk 0 true]).modify lastF (fun r => { r with offset := rows.length }))[rows.length]? = some ⟨0, true⟩ := by
    rw [getElem?_modify_row, getElem?_snoc, if_neg (by omega), if_pos rfl]
    have : rows.length ≠ lastF := by omega
    simp [this]
  constructor
  · obtain ⟨r, hr, hf⟩ := inv.zero
    obtain ⟨r', h1, h2⟩ := back 0 r hr
    exact ⟨r', h1, by rw [h2, hf]⟩
  · intro i r hi hf
    rcases key i r hi with ⟨_, r1, h1, h2, h3, _⟩ | ⟨_, h1⟩
    · by_cases he : i = lastF
      · subst he
        rw [h1] at hr0; simp at hr0; subst hr0
        rw [h2, hr0f] at hf; simp at hf
      · rw [h3 he] at hf ⊢; exact inv.used i r1 h1 hf
    · subst h1; simp at hf
  · intro i r hi hf
    rcases key i r hi with ⟨_, r1, h1, h2, _, _⟩ | ⟨h1, _⟩
    · exact inv.free i r1 h1 (by rw [← h2, hf])
    · right; subst h1; exact h
  · exact ⟨_, newAt, rfl, rfl⟩
  · intro k r hk hi
    rcases key k r hi with ⟨h1, _⟩ | ⟨h1, _⟩ <;> omega
  · intro i r hlt hi hf
    rcases key i r hi with ⟨_, r1, h1, h2, h3, h4⟩ | ⟨h1, _⟩
    · rcases Nat.lt_trichotomy i lastF with hc | hc | hc
      · have hne : i ≠ lastF := by omega
        have := h3 hne; subst this
        obtain ⟨g1, g2, ⟨f, g3, g4⟩, g5⟩ := inv.link i r hc h1 hf
        obtain ⟨f', g6, g7⟩ := back _ f g3
        refine ⟨g1, by omega, ⟨f', g6, by rw [g7, g4]⟩, ?_⟩
        intro k f hk1 hk2 hk
        rcases key k f hk with ⟨_, r2, e1, e2, _, _⟩ | ⟨e1, _⟩
        · rw [e2]; exact g5 k r2 hk1 hk2 e1
        · omega
      · have ho := h4 hc
        rw [ho]
        refine ⟨hlt, Nat.le_refl _, ⟨_, newAt, rfl⟩, ?_⟩
        intro k f hk1 hk2 hk
        rcases key k f hk with ⟨_, r2, e1, e2, _, _⟩ | ⟨e1, _⟩
        · rw [e2]; exact inv.after k r2 (by omega) e1
        · omega
      · have := inv.after i r1 hc h1
        rw [h2, this] at hf; simp at hf
    · omega

theorem rowsLoop_inv (off : Int → Option Nat) (fuel : Nat) (j : Int) (rows : List Row) (lastF : Nat)
    (hj : j = rows.length) (inv : RowsInv off rows lastF) :
    (∃ l, RowsInv off (rowsLoop off fuel j rows lastF) l) ∧ (rowsLoop off fuel j rows lastF).length = rows.length + fuel := by
  induction fuel generalizing j rows lastF with
  | zero => exact ⟨⟨lastF, inv⟩, rfl⟩
  | succ f ih =>
    simp only [rowsLoop]
    subst hj
    cases ho : off (rows.length : Int) with
    | some n =>
      simp only
      have := ih (rows.length + 1) (rows ++ [⟨n, false⟩]) lastF (by simp) (rowsInv_used inv ho)
      refine ⟨this.1, ?_⟩
      rw [this.2]; simp; omega
    | none =>
      simp only
      have e : (rows ++ [(⟨0, true⟩ : Row)]).length - 1 = rows.length := by simp
      rw [e]
      have := ih (rows.length + 1) ((rows ++ [Row.mk 0 true]).modify lastF (fun r => { r with offset := rows.length })) rows.length
        (by simp) (rowsInv_free inv ho)
      refine ⟨this.1, ?_⟩
      rw [this.2]; simp; omega

theorem xrefRows_inv (off : Int → Option Nat) (size : Nat) :
    (∃ l, RowsInv off (xrefRows off size) l) ∧ (xrefRows off size).length = size + 1 := by
  have := rowsLoop_inv off size 1 [⟨0, true⟩] 0 (by simp) (rowsInv_init off)
  refine ⟨this.1, ?_⟩
  have h := this.2
  simp at h
  unfold xrefRows
  omega

/-! ### the object loop -/

def flatObjs (objs : List Obj) : Bytes := objs.flatMap objBytes

theorem objsLoop_buf (objs : List Obj) (buf : Bytes) (m : List (Int × Nat)) :
    (objsLoop objs buf m).1 = buf ++ flatObjs objs := by
  induction objs generalizing buf m with
  | nil => simp [objsLoop, flatObjs]
  | cons o t ih => rw [objsLoop, ih]; simp [flatObjs]

/-- The offset recorded for a number: position of the last object with that number. -/
theorem objsLoop_lookup (objs : List Obj) (buf : Bytes) (m : List (Int × Nat)) (k : Int) :
    (∀ n, (objsLoop objs buf m).2.lookup k = some n →
      (∃ a o b, objs = a ++ o :: b ∧ o.objID = k ∧ n = (buf ++ flatObjs a).length ∧ ∀ x ∈ b, x.objID ≠ k) ∨
      (m.lookup k = some n ∧ ∀ x ∈ objs, x.objID ≠ k)) ∧
    ((objsLoop objs buf m).2.lookup k = none ↔ m.lookup k = none ∧ ∀ x ∈ objs, x.objID ≠ k) := by
  induction objs generalizing buf m with
  | nil => simp [objsLoop]
  | cons o t ih =>
    simp only [objsLoop]
    obtain ⟨ih1, ih2⟩ := ih (buf ++ objBytes o) ((o.objID, buf.length) :: m)
    constructor
    · intro n hn
      rcases ih1 n hn with ⟨a, o', b, h1, h2, h3, h4⟩ | ⟨h1, h2⟩
      · left
        refine ⟨o :: a, o', b, by simp [h1], h2, ?_, h4⟩
        rw [h3]; simp [flatObjs]
      · rw [List.lookup_cons] at h1
        split at h1
        · rename_i he
          simp at he
          left
          refine ⟨[], o, t, rfl, he.symm, ?_, h2⟩
          simp at h1; simp [flatObjs, h1]
        · rename_i he
          simp at he
          right
          refine ⟨h1, ?_⟩
          intro x hx
          simp only [List.mem_cons] at hx
          rcases hx with hx | hx
          · subst hx; exact Ne.symm he
          · exact h2 x hx
    · rw [ih2, List.lookup_cons]
      constructor
      · rintro ⟨h1, h2⟩
        split at h1
        · simp at h1
        · rename_i he
          simp at he
          refine ⟨h1, ?_⟩
          intro x hx
          simp only [List.mem_cons] at hx
          rcases hx with hx | hx
          · subst hx; exact Ne.symm he
          · exact h2 x hx
      · rintro ⟨h1, h2⟩
        have : (k == o.objID) = false := by
          have := h2 o (by simp)
          simpa using Ne.symm this
        rw [this]
        exact ⟨h1, fun x hx => h2 x (by simp [hx])⟩

end Verif
