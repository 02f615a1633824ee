import Verif.Lemmas.FontFile
import Verif.Spec.TtfFile
/-
Reading numbers and tables of a font file.
-/
namespace Verif
open Verif.Spec

theorem readUShort_iff {d : Bytes} {p u q : Nat} : readUShort d p = .ok (u, q) ↔ u16At d p = some u ∧ q = p + 2 := by
  unfold readUShort rd
  constructor
  · intro h
    split at h
    · exact absurd h (by simp)
    · split at h
      · exact absurd h (by simp)
      · rename_i h1 h2
        simp only [Res.ok_bind, Res.ok.injEq, Prod.mk.injEq] at h
        rw [u16At_eq (by omega), h.1]
        exact ⟨rfl, h.2.symm⟩
  · rintro ⟨h, rfl⟩
    have hl := u16At_some h
    rw [if_neg (by omega), if_neg (by omega)]
    rw [u16At_eq hl] at h
    simp only [Res.ok_bind, Option.some.inj h]

theorem u32At_eq {b : Bytes} {i : Nat} (h : i + 4 ≤ b.length) : u32At b i = some (beVal ((b.drop i).take 4)) := by
  unfold u32At
  rw [u16At_eq (by omega), u16At_eq (by omega)]
  have e : (b.drop i).take 4 = (b.drop i).take 2 ++ (b.drop (i + 2)).take 2 := by
    rw [show (4 : Nat) = 2 + 2 from rfl, List.take_add, List.drop_drop]
  have hl : ((b.drop (i + 2)).take 2).length = 2 := by simp; omega
  rw [e]
  generalize (b.drop (i + 2)).take 2 = y at hl ⊢
  match y, hl with
  | [c, e], _ => simp [beVal, List.foldl_append]; omega

theorem u32At_some {b : Bytes} {i v : Nat} (h : u32At b i = some v) : i + 4 ≤ b.length := by
  unfold u32At at h
  cases h1 : u16At b (i + 2) with
  | none => rw [h1] at h; cases u16At b i <;> simp at h
  | some w => have := u16At_some h1; omega

theorem readULong_iff {d : Bytes} {p u q : Nat} : readULong d p = .ok (u, q) ↔ u32At d p = some u ∧ q = p + 4 := by
  unfold readULong rd
  constructor
  · intro h
    split at h
    · exact absurd h (by simp)
    · split at h
      · exact absurd h (by simp)
      · rename_i h1 h2
        simp only [Res.ok_bind, Res.ok.injEq, Prod.mk.injEq] at h
        rw [u32At_eq (by omega), h.1]
        exact ⟨rfl, h.2.symm⟩
  · rintro ⟨h, rfl⟩
    have hl := u32At_some h
    rw [if_neg (by omega), if_neg (by omega)]
    rw [u32At_eq hl] at h
    simp only [Res.ok_bind, Option.some.inj h]

theorem readShort_iff {d : Bytes} {p q : Nat} {v : Int} : readShort d p = .ok (v, q) ↔ i16At d p = some v ∧ q = p + 2 := by
  unfold readShort i16At
  rw [Res.bind_eq_ok]
  constructor
  · rintro ⟨⟨u, q'⟩, h, h'⟩
    obtain ⟨h1, h2⟩ := readUShort_iff.1 h
    simp only [Res.ok.injEq, Prod.mk.injEq] at h'
    refine ⟨?_, by omega⟩
    rw [h1, Option.map_some, ← h'.1]
    congr 1
    by_cases hu : u < 32768
    · rw [if_pos hu, if_neg (by omega)]
    · rw [if_neg hu, if_pos (by omega)]
  · rintro ⟨h, rfl⟩
    cases h1 : u16At d p with
    | none => rw [h1] at h; simp at h
    | some u =>
      rw [h1, Option.map_some, Option.some.injEq] at h
      refine ⟨(u, p + 2), readUShort_iff.2 ⟨h1, rfl⟩, ?_⟩
      simp only [Res.ok.injEq, Prod.mk.injEq, and_true]
      rw [← h]
      by_cases hu : u < 32768
      · rw [if_pos hu, if_neg (by omega)]
      · rw [if_neg hu, if_pos (by omega)]

theorem readUShorts_iff {d : Bytes} : ∀ {n p : Nat} {l : List Nat} {q : Nat},
    readUShorts d n p = .ok (l, q) ↔ l.length = n ∧ Shorts d p l ∧ q = p + 2 * n
  | 0, p, l, q => by
    simp only [readUShorts, Res.ok.injEq, Prod.mk.injEq]
    constructor
    · rintro ⟨rfl, rfl⟩; exact ⟨rfl, fun i h => absurd h (by simp), by omega⟩
    · rintro ⟨h, -, h'⟩; exact ⟨(List.length_eq_zero_iff.1 h).symm, by omega⟩
  | n + 1, p, l, q => by
    simp only [readUShorts, Res.bind_eq_ok]
    constructor
    · rintro ⟨⟨u, q1⟩, h1, ⟨us, q2⟩, h2, h3⟩
      obtain ⟨h1', rfl⟩ := readUShort_iff.1 h1
      obtain ⟨h4, h5, h6⟩ := readUShorts_iff.1 h2
      simp only [Res.ok.injEq, Prod.mk.injEq] at h3
      obtain ⟨rfl, rfl⟩ := h3
      refine ⟨by simp [h4], ?_, by omega⟩
      intro i hi
      cases i with
      | zero => simpa using h1'
      | succ i =>
        have := h5 i (by simpa using hi)
        rw [List.getElem?_cons_succ, ← this]
        congr 1; omega
    · rintro ⟨h1, h2, h3⟩
      cases l with
      | nil => simp at h1
      | cons u us =>
        refine ⟨(u, p + 2), readUShort_iff.2 ⟨by simpa using h2 0 (by simp), rfl⟩, (us, q), readUShorts_iff.2 ⟨by simpa using h1, ?_, by omega⟩, rfl⟩
        intro i hi
        have := h2 (i + 1) (by simpa using hi)
        rw [List.getElem?_cons_succ] at this
        rw [← this]
        congr 1; omega

theorem readULongs_iff {d : Bytes} : ∀ {n p : Nat} {l : List Nat} {q : Nat},
    readULongs d n p = .ok (l, q) ↔ l.length = n ∧ Longs d p l ∧ q = p + 4 * n
  | 0, p, l, q => by
    simp only [readULongs, Res.ok.injEq, Prod.mk.injEq]
    constructor
    · rintro ⟨rfl, rfl⟩; exact ⟨rfl, fun i h => absurd h (by simp), by omega⟩
    · rintro ⟨h, -, h'⟩; exact ⟨(List.length_eq_zero_iff.1 h).symm, by omega⟩
  | n + 1, p, l, q => by
    simp only [readULongs, Res.bind_eq_ok]
    constructor
    · rintro ⟨⟨u, q1⟩, h1, ⟨us, q2⟩, h2, h3⟩
      obtain ⟨h1', rfl⟩ := readULong_iff.1 h1
      obtain ⟨h4, h5, h6⟩ := readULongs_iff.1 h2
      simp only [Res.ok.injEq, Prod.mk.injEq] at h3
      obtain ⟨rfl, rfl⟩ := h3
      refine ⟨by simp [h4], ?_, by omega⟩
      intro i hi
      cases i with
      | zero => simpa using h1'
      | succ i =>
        have := h5 i (by simpa using hi)
        rw [List.getElem?_cons_succ, ← this]
        congr 1; omega
    · rintro ⟨h1, h2, h3⟩
      cases l with
      | nil => simp at h1
      | cons u us =>
        refine ⟨(u, p + 4), readULong_iff.2 ⟨by simpa using h2 0 (by simp), rfl⟩, (us, q), readULongs_iff.2 ⟨by simpa using h1, ?_, by omega⟩, rfl⟩
        intro i hi
        have := h2 (i + 1) (by simpa using hi)
        rw [List.getElem?_cons_succ] at this
        rw [← this]
        congr 1; omega

/-- the advance widths -/
theorem readMetrics_iff {d : Bytes} : ∀ {n p : Nat} {l : List Nat} {q : Nat},
    readMetrics d n p = .ok (l, q) ↔ l.length = n ∧ (∀ i < n, u16At d (p + 4 * i) = l[i]?) ∧ q = p + 4 * n
  | 0, p, l, q => by
    simp only [readMetrics, Res.ok.injEq, Prod.mk.injEq]
    constructor
    · rintro ⟨rfl, rfl⟩; exact ⟨rfl, fun i h => absurd h (by simp), by omega⟩
    · rintro ⟨h, -, h'⟩; exact ⟨(List.length_eq_zero_iff.1 h).symm, by omega⟩
  | n + 1, p, l, q => by
    simp only [readMetrics, Res.bind_eq_ok]
    constructor
    · rintro ⟨⟨u, q1⟩, h1, ⟨us, q2⟩, h2, h3⟩
      obtain ⟨h1', rfl⟩ := readUShort_iff.1 h1
      obtain ⟨h4, h5, h6⟩ := readMetrics_iff.1 h2
      simp only [Res.ok.injEq, Prod.mk.injEq] at h3
      obtain ⟨rfl, rfl⟩ := h3
      refine ⟨by simp [h4], ?_, by omega⟩
      intro i hi
      cases i with
      | zero => simpa using h1'
      | succ i =>
        have := h5 i (by omega)
        rw [List.getElem?_cons_succ, ← this]
        congr 1; omega
    · rintro ⟨h1, h2, h3⟩
      cases l with
      | nil => simp at h1
      | cons u us =>
        refine ⟨(u, p + 2), readUShort_iff.2 ⟨by simpa using h2 0 (by omega), rfl⟩, (us, q), readMetrics_iff.2 ⟨by simpa using h1, ?_, by omega⟩, rfl⟩
        intro i hi
        have := h2 (i + 1) (by omega)
        rw [List.getElem?_cons_succ] at this
        rw [← this]
        congr 1; omega

theorem rd_iff {d : Bytes} {n p : Nat} {s : Bytes} {q : Nat} :
    rd d n p = .ok (s, q) ↔ p < d.length ∧ p + n ≤ d.length ∧ s = bytesAt d p n ∧ q = p + n := by
  unfold rd bytesAt
  constructor
  · intro h
    split at h
    · exact absurd h (by simp)
    · split at h
      · exact absurd h (by simp)
      · simp only [Res.ok.injEq, Prod.mk.injEq] at h
        exact ⟨by omega, by omega, h.1.symm, h.2.symm⟩
  · rintro ⟨h1, h2, rfl, rfl⟩
    rw [if_neg (by omega), if_neg (by omega)]

/-! ### the directory -/

/-- the entry made from a record -/
def tableEntry (r : Record) : TableEntry := { checkSum := r.sum, offset := r.off, length := r.len }

theorem record_some {d : Bytes} {i : Nat} {r : Record} : record d i = some r ↔
    u32At d (12 + 16 * i + 4) = some r.sum ∧ u32At d (12 + 16 * i + 8) = some r.off ∧ u32At d (12 + 16 * i + 12) = some r.len ∧ r.tag = bytesAt d (12 + 16 * i) 4 := by
  unfold record
  constructor
  · intro h
    split at h
    · rename_i s o l h1 h2 h3
      cases Option.some.inj h
      exact ⟨h1, h2, h3, rfl⟩
    · exact absurd h (by simp)
  · rintro ⟨h1, h2, h3, h4⟩
    rw [h1, h2, h3]
    cases r
    simp only at h4
    rw [h4]

theorem readDirectory_one {d : Bytes} {n k : Nat} {acc : List (Bytes × TableEntry)} {r : Record} (h : record d k = some r) :
    readDirectory d (n + 1) (12 + 16 * k) acc = readDirectory d n (12 + 16 * (k + 1)) ((r.tag, tableEntry r) :: acc) := by
  obtain ⟨h1, h2, h3, h4⟩ := record_some.1 h
  have hl := u32At_some h3
  rw [readDirectory, rd_iff.2 ⟨by omega, by omega, rfl, rfl⟩, Res.ok_bind]
  simp only []
  rw [readULong_iff.2 ⟨h1, rfl⟩, Res.ok_bind]
  simp only []
  rw [readULong_iff.2 ⟨by rw [← h2], rfl⟩, Res.ok_bind]
  simp only []
  rw [readULong_iff.2 ⟨by rw [← h3], rfl⟩, Res.ok_bind]
  simp only []
  rw [h4]
  congr 1

theorem readDirectory_inv {d : Bytes} {n k : Nat} {acc : List (Bytes × TableEntry)} {x : List (Bytes × TableEntry) × Nat}
    (h : readDirectory d (n + 1) (12 + 16 * k) acc = .ok x) : ∃ r, record d k = some r := by
  simp only [readDirectory, Res.bind_eq_ok] at h
  obtain ⟨⟨tag, q0⟩, h0, ⟨s, q1⟩, h1, ⟨o, q2⟩, h2, ⟨l, q3⟩, h3, -⟩ := h
  obtain ⟨-, -, rfl, rfl⟩ := rd_iff.1 h0
  obtain ⟨k1, rfl⟩ := readULong_iff.1 h1
  obtain ⟨k2, rfl⟩ := readULong_iff.1 h2
  obtain ⟨k3, rfl⟩ := readULong_iff.1 h3
  exact ⟨⟨_, s, o, l⟩, record_some.2 ⟨k1, k2, k3, rfl⟩⟩

theorem readDirectory_spec {d : Bytes} : ∀ {n k : Nat} {acc ts : List (Bytes × TableEntry)} {q : Nat},
    readDirectory d n (12 + 16 * k) acc = .ok (ts, q) →
    (∀ tag r i, k ≤ i → i < k + n → record d i = some r → r.tag = tag → (∀ j, i < j → j < k + n → ∀ r', record d j = some r' → r'.tag ≠ tag) →
      ts.lookup tag = some (tableEntry r)) ∧
    (∀ tag, (∀ i, k ≤ i → i < k + n → ∀ r, record d i = some r → r.tag ≠ tag) → ts.lookup tag = acc.lookup tag) ∧
    (∀ i, k ≤ i → i < k + n → ∃ r, record d i = some r)
  | 0, k, acc, ts, q, h => by
    simp only [readDirectory, Res.ok.injEq, Prod.mk.injEq] at h
    obtain ⟨rfl, rfl⟩ := h
    exact ⟨fun _ _ i h1 h2 => absurd h2 (by omega), fun _ _ => rfl, fun i h1 h2 => absurd h2 (by omega)⟩
  | n + 1, k, acc, ts, q, h => by
    obtain ⟨r, hr⟩ := readDirectory_inv h
    rw [readDirectory_one hr] at h
    obtain ⟨h1, h2, h3⟩ := readDirectory_spec h
    refine ⟨?_, ?_, ?_⟩
    · intro tag r' i hi1 hi2 hr' ht hlast
      by_cases hik : i = k
      · subst hik
        have e : r' = r := by rw [hr] at hr'; exact (Option.some.inj hr').symm
        subst e
        rw [h2 tag (fun j hj1 hj2 r'' hr'' => hlast j (by omega) (by omega) r'' hr''), List.lookup_cons, ht]
        simp
      · exact h1 tag r' i (by omega) (by omega) hr' ht (fun j hj1 hj2 => hlast j hj1 (by omega))
    · intro tag hno
      rw [h2 tag (fun i hi1 hi2 => hno i (by omega) (by omega)), List.lookup_cons]
      have := hno k (by omega) (by omega) r hr
      rw [show (tag == r.tag) = false from beq_eq_false_iff_ne.2 (fun e => this e.symm)]
    · intro i hi1 hi2
      by_cases hik : i = k
      · subst hik; exact ⟨r, hr⟩
      · exact h3 i (by omega) (by omega)

theorem readDirectory_ok {d : Bytes} : ∀ {n k : Nat} {acc : List (Bytes × TableEntry)}, (∀ i, k ≤ i → i < k + n → ∃ r, record d i = some r) →
    ∃ ts q, readDirectory d n (12 + 16 * k) acc = .ok (ts, q)
  | 0, _, acc, _ => ⟨acc, _, rfl⟩
  | n + 1, k, acc, h => by
    obtain ⟨r, hr⟩ := h k (by omega) (by omega)
    rw [readDirectory_one hr]
    exact readDirectory_ok (fun i h1 h2 => h i (by omega) (by omega))

/-- a table is in the directory or not -/
theorem table_or {d : Bytes} {n : Nat} (hn : u16At d 4 = some n) (hall : ∀ i < n, ∃ r, record d i = some r) (tag : Bytes) :
    (∃ r, TableIs d tag r) ∨ NoTable d tag := by
  have key : ∀ m ≤ n, (∃ i r, n - m ≤ i ∧ i < n ∧ record d i = some r ∧ r.tag = tag ∧ ∀ j, i < j → j < n → ∀ r', record d j = some r' → r'.tag ≠ tag) ∨
      ∀ i, n - m ≤ i → i < n → ∀ r, record d i = some r → r.tag ≠ tag := by
    intro m
    induction m with
    | zero => intro _; exact Or.inr (fun i h1 h2 => absurd h2 (by omega))
    | succ m ih =>
      intro hm
      rcases ih (by omega) with ⟨i, r, h1, h2⟩ | h
      · exact Or.inl ⟨i, r, by omega, h2⟩
      · obtain ⟨r, hr⟩ := hall (n - (m + 1)) (by omega)
        by_cases ht : r.tag = tag
        · exact Or.inl ⟨n - (m + 1), r, by omega, by omega, hr, ht, fun j h1 h2 => h j (by omega) h2⟩
        · refine Or.inr (fun i h1 h2 r' hr' => ?_)
          by_cases hi : i = n - (m + 1)
          · subst hi
            rw [hr] at hr'
            cases Option.some.inj hr'
            exact ht
          · exact h i (by omega) h2 r' hr'
  rcases key n (le_refl n) with ⟨i, r, -, h2, h3, h4, h5⟩ | h
  · exact Or.inl ⟨r, n, i, hn, h2, h3, h4, h5⟩
  · exact Or.inr ⟨n, hn, fun i hi r hr => h i (by omega) hi r hr⟩

/-- The tables of a parsed font are those of the directory. -/
structure TablesOf (d : Bytes) (t : Ttf) : Prop where
  table : ∀ tag r, TableIs d tag r → t.tables.lookup tag = some (tableEntry r)
  none : ∀ tag, NoTable d tag → t.tables.lookup tag = none
  either : ∀ tag, (∃ r, TableIs d tag r) ∨ NoTable d tag

theorem tables_of_directory {d : Bytes} {n : Nat} (hn : u16At d 4 = some n) {ts : List (Bytes × TableEntry)} {q : Nat}
    (h : readDirectory d n 12 [] = .ok (ts, q)) {t : Ttf} (ht : t.tables = ts) : TablesOf d t := by
  obtain ⟨h1, h2, h3⟩ := readDirectory_spec (k := 0) h
  refine ⟨?_, ?_, table_or hn (fun i hi => h3 i (by omega) (by omega))⟩
  · rintro tag r ⟨m, i, hm, hi, hr, htag, hl⟩
    rw [hn] at hm
    cases Option.some.inj hm
    rw [ht]
    exact h1 tag r i (by omega) (by omega) hr htag (fun j hj1 hj2 => hl j hj1 (by omega))
  · rintro tag ⟨m, hm, hno⟩
    rw [hn] at hm
    cases Option.some.inj hm
    rw [ht, h2 tag (fun i _ hi => hno i (by omega))]
    rfl

theorem TablesOf.seek {d : Bytes} {t : Ttf} (h : TablesOf d t) {tag : Bytes} {p : Nat} : seekTable t tag = .ok p ↔ ∃ r, TableIs d tag r ∧ p = r.off := by
  unfold seekTable
  constructor
  · intro hs
    rcases h.either tag with ⟨r, hr⟩ | hno
    · rw [h.table tag r hr] at hs
      exact ⟨r, hr, by simpa [tableEntry] using hs.symm⟩
    · rw [h.none tag hno] at hs
      exact absurd hs (by simp)
  · rintro ⟨r, hr, rfl⟩
    rw [h.table tag r hr]
    rfl

theorem TablesOf.get {d : Bytes} {t : Ttf} (h : TablesOf d t) {tag : Bytes} {r : Record} (hr : TableIs d tag r) : t.table tag = tableEntry r := by
  unfold Ttf.table
  rw [h.table tag r hr]
  rfl

theorem TablesOf.congr {d : Bytes} {t t' : Ttf} (h : TablesOf d t) (e : t'.tables = t.tables) : TablesOf d t' :=
  ⟨fun tag r hr => by rw [e]; exact h.table tag r hr, fun tag hn => by rw [e]; exact h.none tag hn, h.either⟩

/-- there is one record of a table -/
theorem TableIs.unique {d tag : Bytes} {r r' : Record} (h : TableIs d tag r) (h' : TableIs d tag r') : r = r' := by
  obtain ⟨n, i, hn, hi, hr, ht, hl⟩ := h
  obtain ⟨n', i', hn', hi', hr', ht', hl'⟩ := h'
  rw [hn] at hn'
  cases Option.some.inj hn'
  rcases Nat.lt_trichotomy i i' with h | h | h
  · exact absurd ht' (hl i' h hi' r' hr')
  · subst h; rw [hr] at hr'; exact Option.some.inj hr'
  · exact absurd ht (hl' i h hi r hr)

end Verif
