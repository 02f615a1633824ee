import Verif.Lemmas.TtfRead
import Verif.Theorems.Subset
import Verif.Theorems.Font
/-
C77: a font is read as its file says.
-/
namespace Verif
open Verif.Spec

/-! ### the parts of the parser -/

theorem parseHead_spec {d : Bytes} {t t' : Ttf} (hT : TablesOf d t) (h : parseHead d t = .ok t') :
    ∃ r u a b c e f, TableIs d b!"head" r ∧ u32At d (r.off + 12) = some 0x5F0F3CF5 ∧ u16At d (r.off + 18) = some u ∧ i16At d (r.off + 36) = some a ∧
      i16At d (r.off + 38) = some b ∧ i16At d (r.off + 40) = some c ∧ i16At d (r.off + 42) = some e ∧ i16At d (r.off + 50) = some f ∧
      t' = { t with unitsPerEm := u, xMin := a, yMin := b, xMax := c, yMax := e, indexToLocFormat := f } := by
  unfold parseHead at h
  rw [Res.bind_eq_ok] at h
  obtain ⟨p, h0, h⟩ := h
  obtain ⟨r, hr, rfl⟩ := hT.seek.1 h0
  rw [Res.bind_eq_ok] at h
  obtain ⟨⟨magic, p⟩, h1, h⟩ := h
  obtain ⟨k1, rfl⟩ := readULong_iff.1 h1
  simp only [] at h
  split at h
  · exact absurd h (by simp)
  · rename_i hm
    have hm : magic = 0x5F0F3CF5 := by simpa using hm
    subst hm
    simp only [Res.bind_eq_ok] at h
    obtain ⟨⟨u, p⟩, h2, ⟨a, p⟩, h3, ⟨b, p⟩, h4, ⟨c, p⟩, h5, ⟨e, p⟩, h6, ⟨f, p⟩, h7, h8⟩ := h
    obtain ⟨k2, rfl⟩ := readUShort_iff.1 h2
    obtain ⟨k3, rfl⟩ := readShort_iff.1 h3
    obtain ⟨k4, rfl⟩ := readShort_iff.1 h4
    obtain ⟨k5, rfl⟩ := readShort_iff.1 h5
    obtain ⟨k6, rfl⟩ := readShort_iff.1 h6
    obtain ⟨k7, rfl⟩ := readShort_iff.1 h7
    exact ⟨r, u, a, b, c, e, f, hr, k1, k2, k3, k4, k5, k6, k7, (Res.ok.inj h8).symm⟩

theorem parseHead_ok {d : Bytes} {t : Ttf} (hT : TablesOf d t) {r : Record} {u : Nat} {a b c e f : Int} (hr : TableIs d b!"head" r)
    (h1 : u32At d (r.off + 12) = some 0x5F0F3CF5) (h2 : u16At d (r.off + 18) = some u) (h3 : i16At d (r.off + 36) = some a)
    (h4 : i16At d (r.off + 38) = some b) (h5 : i16At d (r.off + 40) = some c) (h6 : i16At d (r.off + 42) = some e) (h7 : i16At d (r.off + 50) = some f) :
    parseHead d t = .ok { t with unitsPerEm := u, xMin := a, yMin := b, xMax := c, yMax := e, indexToLocFormat := f } := by
  unfold parseHead
  rw [hT.seek.2 ⟨r, hr, rfl⟩, Res.ok_bind, readULong_iff.2 ⟨h1, rfl⟩, Res.ok_bind]
  simp only [ne_eq, not_true, if_false]
  rw [readUShort_iff.2 ⟨h2, rfl⟩, Res.ok_bind]
  simp only []
  rw [readShort_iff.2 ⟨h3, rfl⟩, Res.ok_bind]
  simp only []
  rw [readShort_iff.2 ⟨h4, rfl⟩, Res.ok_bind]
  simp only []
  rw [readShort_iff.2 ⟨h5, rfl⟩, Res.ok_bind]
  simp only []
  rw [readShort_iff.2 ⟨h6, rfl⟩, Res.ok_bind]
  simp only []
  rw [readShort_iff.2 ⟨h7, rfl⟩, Res.ok_bind]

theorem parseHhea_spec {d : Bytes} {t t' : Ttf} (hT : TablesOf d t) (h : parseHhea d t = .ok t') :
    ∃ r a b n, TableIs d b!"hhea" r ∧ i16At d (r.off + 4) = some a ∧ i16At d (r.off + 6) = some b ∧ u16At d (r.off + 34) = some n ∧
      t' = { t with ascender := a, descender := b, numberOfHMetrics := n } := by
  unfold parseHhea at h
  simp only [Res.bind_eq_ok] at h
  obtain ⟨p, h0, ⟨a, p⟩, h1, ⟨b, p⟩, h2, ⟨n, p⟩, h3, h4⟩ := h
  obtain ⟨r, hr, rfl⟩ := hT.seek.1 h0
  obtain ⟨k1, rfl⟩ := readShort_iff.1 h1
  obtain ⟨k2, rfl⟩ := readShort_iff.1 h2
  obtain ⟨k3, rfl⟩ := readUShort_iff.1 h3
  exact ⟨r, a, b, n, hr, k1, k2, k3, (Res.ok.inj h4).symm⟩

theorem parseHhea_ok {d : Bytes} {t : Ttf} (hT : TablesOf d t) {r : Record} {a b : Int} {n : Nat} (hr : TableIs d b!"hhea" r)
    (h1 : i16At d (r.off + 4) = some a) (h2 : i16At d (r.off + 6) = some b) (h3 : u16At d (r.off + 34) = some n) :
    parseHhea d t = .ok { t with ascender := a, descender := b, numberOfHMetrics := n } := by
  unfold parseHhea
  rw [hT.seek.2 ⟨r, hr, rfl⟩, Res.ok_bind, readShort_iff.2 ⟨h1, rfl⟩, Res.ok_bind]
  simp only []
  rw [readShort_iff.2 ⟨h2, rfl⟩, Res.ok_bind]
  simp only []
  rw [readUShort_iff.2 ⟨h3, rfl⟩, Res.ok_bind]

theorem parseMaxp_spec {d : Bytes} {t t' : Ttf} {p : Nat} (hT : TablesOf d t) (h : parseMaxp d t = .ok (t', p)) :
    ∃ r n, TableIs d b!"maxp" r ∧ u16At d (r.off + 4) = some n ∧ t' = { t with numGlyphs := n } := by
  unfold parseMaxp at h
  simp only [Res.bind_eq_ok] at h
  obtain ⟨p, h0, ⟨n, p⟩, h1, h2⟩ := h
  obtain ⟨r, hr, rfl⟩ := hT.seek.1 h0
  obtain ⟨k1, rfl⟩ := readUShort_iff.1 h1
  exact ⟨r, n, hr, k1, (Prod.mk.inj (Res.ok.inj h2)).1.symm⟩

theorem parseMaxp_ok {d : Bytes} {t : Ttf} (hT : TablesOf d t) {r : Record} {n : Nat} (hr : TableIs d b!"maxp" r) (h1 : u16At d (r.off + 4) = some n) :
    parseMaxp d t = .ok ({ t with numGlyphs := n }, r.off + 4 + 2) := by
  unfold parseMaxp
  rw [hT.seek.2 ⟨r, hr, rfl⟩, Res.ok_bind, readUShort_iff.2 ⟨h1, rfl⟩, Res.ok_bind]

theorem parseHmtx_spec {d : Bytes} {t t' : Ttf} {p q : Nat} (hT : TablesOf d t) (h : parseHmtx d t p = .ok (t', q)) :
    ∃ ws, t' = { t with widths := ws } ∧ (0 < t.numGlyphs → 0 < t.numberOfHMetrics) ∧
      ∀ r, TableIs d b!"hmtx" r → ws.length = max t.numGlyphs t.numberOfHMetrics ∧
        ∀ g < ws.length, ws[g]? = u16At d (r.off + 4 * min g (t.numberOfHMetrics - 1)) := by
  unfold parseHmtx at h
  simp only [Res.bind_eq_ok] at h
  obtain ⟨⟨ws, p1⟩, h1, h2⟩ := h
  obtain ⟨k1, k2, -⟩ := readMetrics_iff.1 h1
  simp only [] at h2
  have hoff : ∀ r, TableIs d b!"hmtx" r → (t.tables.lookup b!"hmtx").elim p (·.offset) = r.off := by
    intro r hr; rw [hT.table _ r hr]; rfl
  split at h2
  · rename_i hlt
    split at h2
    · exact absurd h2 (by simp)
    · rename_i w hw
      have hpos : 0 < ws.length := by
        cases ws with
        | nil => simp at hw
        | cons => simp
      refine ⟨_, (Prod.mk.inj (Res.ok.inj h2)).1.symm, fun _ => by omega, fun r hr => ⟨by simp; omega, ?_⟩⟩
      rw [hoff r hr] at k2
      intro g hg
      by_cases hgl : g < t.numberOfHMetrics
      · rw [List.getElem?_append_left (by omega), ← k2 g hgl, Nat.min_eq_left (by omega)]
      · rw [List.getElem?_append_right (by omega), Nat.min_eq_right (by omega), k2 _ (by omega)]
        rw [List.getElem?_replicate, if_pos (by simp at hg; omega)]
        rw [List.getLast?_eq_getElem?, k1] at hw
        exact hw.symm
  · rename_i hlt
    refine ⟨_, (Prod.mk.inj (Res.ok.inj h2)).1.symm, fun _ => by omega, fun r hr => ⟨by omega, ?_⟩⟩
    rw [hoff r hr] at k2
    intro g hg
    rw [← k2 g (by omega), Nat.min_eq_left (by omega)]

theorem readEncodings_iff {d : Bytes} : ∀ {n p : Nat} {l : List (Nat × Nat × Nat)} {q : Nat}, readEncodings d n p = .ok (l, q) ↔
    l.length = n ∧ (∀ i e, l[i]? = some e → u16At d (p + 8 * i) = some e.1 ∧ u16At d (p + 8 * i + 2) = some e.2.1 ∧ u32At d (p + 8 * i + 4) = some e.2.2) ∧
      q = p + 8 * n
  | 0, p, l, q => by
    simp only [readEncodings, Res.ok.injEq, Prod.mk.injEq]
    constructor
    · rintro ⟨rfl, rfl⟩; exact ⟨rfl, fun i e h => absurd h (by simp), by omega⟩
    · rintro ⟨h, -, h'⟩; exact ⟨(List.length_eq_zero_iff.1 h).symm, by omega⟩
  | n + 1, p, l, q => by
    simp only [readEncodings, Res.bind_eq_ok]
    constructor
    · rintro ⟨⟨a, q1⟩, h1, ⟨b, q2⟩, h2, ⟨o, q3⟩, h3, ⟨us, q4⟩, h4, h5⟩
      obtain ⟨k1, rfl⟩ := readUShort_iff.1 h1
      obtain ⟨k2, rfl⟩ := readUShort_iff.1 h2
      obtain ⟨k3, rfl⟩ := readULong_iff.1 h3
      obtain ⟨k4, k5, k6⟩ := readEncodings_iff.1 h4
      simp only [Res.ok.injEq, Prod.mk.injEq] at h5
      obtain ⟨rfl, rfl⟩ := h5
      refine ⟨by simp [k4], ?_, by omega⟩
      intro i e he
      cases i with
      | zero =>
        simp only [List.getElem?_cons_zero, Option.some.injEq] at he
        subst he
        exact ⟨k1, k2, k3⟩
      | succ i =>
        rw [List.getElem?_cons_succ] at he
        have := k5 i e he
        rw [show p + 8 * (i + 1) = p + 2 + 2 + 4 + 8 * i from by omega]
        exact this
    · rintro ⟨h1, h2, h3⟩
      cases l with
      | nil => simp at h1
      | cons e us =>
        obtain ⟨k1, k2, k3⟩ := h2 0 e rfl
        refine ⟨(e.1, p + 2), readUShort_iff.2 ⟨k1, rfl⟩, (e.2.1, p + 2 + 2), readUShort_iff.2 ⟨k2, rfl⟩, (e.2.2, p + 2 + 2 + 4),
          readULong_iff.2 ⟨k3, rfl⟩, (us, q), readEncodings_iff.2 ⟨by simpa using h1, ?_, by omega⟩, rfl⟩
        intro i e' he
        have := h2 (i + 1) e' (by simpa using he)
        rw [show p + 8 * (i + 1) = p + 2 + 2 + 4 + 8 * i from by omega] at this
        exact this

theorem readGroups_iff {d : Bytes} : ∀ {n p : Nat} {l : List CmapGroup}, readGroups d n p = .ok l ↔
    l.length = n ∧ (∀ i g, l[i]? = some g → u32At d (p + 12 * i) = some g.startCode ∧ u32At d (p + 12 * i + 4) = some g.endCode ∧
      u32At d (p + 12 * i + 8) = some g.glyph)
  | 0, p, l => by
    simp only [readGroups, Res.ok.injEq]
    constructor
    · rintro rfl; exact ⟨rfl, fun i e h => absurd h (by simp)⟩
    · rintro ⟨h, -⟩; exact (List.length_eq_zero_iff.1 h).symm
  | n + 1, p, l => by
    simp only [readGroups, Res.bind_eq_ok]
    constructor
    · rintro ⟨⟨a, q1⟩, h1, ⟨b, q2⟩, h2, ⟨o, q3⟩, h3, us, h4, h5⟩
      obtain ⟨k1, rfl⟩ := readULong_iff.1 h1
      obtain ⟨k2, rfl⟩ := readULong_iff.1 h2
      obtain ⟨k3, rfl⟩ := readULong_iff.1 h3
      obtain ⟨k4, k5⟩ := readGroups_iff.1 h4
      cases Res.ok.inj h5
      refine ⟨by simp [k4], ?_⟩
      intro i e he
      cases i with
      | zero =>
        simp only [List.getElem?_cons_zero, Option.some.injEq] at he
        subst he
        exact ⟨k1, k2, k3⟩
      | succ i =>
        rw [List.getElem?_cons_succ] at he
        have := k5 i e he
        rw [show p + 12 * (i + 1) = p + 4 + 4 + 4 + 12 * i from by omega]
        exact this
    · rintro ⟨h1, h2⟩
      cases l with
      | nil => simp at h1
      | cons e us =>
        obtain ⟨k1, k2, k3⟩ := h2 0 e rfl
        refine ⟨(e.startCode, p + 4), readULong_iff.2 ⟨k1, rfl⟩, (e.endCode, p + 4 + 4), readULong_iff.2 ⟨k2, rfl⟩, (e.glyph, p + 4 + 4 + 4),
          readULong_iff.2 ⟨k3, rfl⟩, us, readGroups_iff.2 ⟨by simpa using h1, ?_⟩, rfl⟩
        intro i e' he
        have := h2 (i + 1) e' (by simpa using he)
        rw [show p + 12 * (i + 1) = p + 4 + 4 + 4 + 12 * i from by omega] at this
        exact this

/-- the first encoding record of a kind -/
theorem encoding_first {d : Bytes} {cmap n a b : Nat} {l : List (Nat × Nat × Nat)} {q : Nat} (hn : u16At d (cmap + 2) = some n)
    (hl : readEncodings d n (cmap + 4) = .ok (l, q)) :
    (∀ e, l.find? (fun e => e.1 = a ∧ e.2.1 = b) = some e → EncodingIs d cmap a b (cmap + e.2.2) false) ∧
    (l.find? (fun e => e.1 = a ∧ e.2.1 = b) = none → NoEncoding d cmap a b) := by
  obtain ⟨h1, h2, -⟩ := readEncodings_iff.1 hl
  refine ⟨fun e he => ?_, fun he => ⟨n, hn, fun i hi hab => ?_⟩⟩
  · obtain ⟨he1, i, hi, he2, he3⟩ := List.find?_eq_some_iff_getElem.1 he
    simp only [decide_eq_true_eq] at he1
    obtain ⟨k1, k2, k3⟩ := h2 i e (by rw [List.getElem?_eq_getElem hi, he2])
    refine ⟨n, i, e.2.2, hn, by omega, by rw [k1, he1.1], by rw [k2, he1.2], k3, rfl, ?_⟩
    intro j hj hlt hab
    simp only [Bool.false_eq_true, if_false] at hlt
    have hb := he3 j hlt
    obtain ⟨m1, m2, -⟩ := h2 j l[j] (List.getElem?_eq_getElem (by omega))
    rw [hab.1] at m1
    rw [hab.2] at m2
    simp [← Option.some.inj m1, ← Option.some.inj m2] at hb
  · have hlt : i < l.length := by omega
    obtain ⟨m1, m2, -⟩ := h2 i l[i] (List.getElem?_eq_getElem hlt)
    have := List.find?_eq_none.1 he l[i] (List.getElem_mem hlt)
    rw [hab.1] at m1
    rw [hab.2] at m2
    simp [← Option.some.inj m1, ← Option.some.inj m2] at this

/-- the last encoding record of a kind -/
theorem encoding_last {d : Bytes} {cmap n a b : Nat} {l : List (Nat × Nat × Nat)} {q : Nat} (hn : u16At d (cmap + 2) = some n)
    (hl : readEncodings d n (cmap + 4) = .ok (l, q)) {e : Nat × Nat × Nat} (he : l.reverse.find? (fun e => e.1 = a ∧ e.2.1 = b) = some e) :
    EncodingIs d cmap a b (cmap + e.2.2) true := by
  obtain ⟨h1, h2, -⟩ := readEncodings_iff.1 hl
  obtain ⟨he1, i, hi, he2, he3⟩ := List.find?_eq_some_iff_getElem.1 he
  simp only [decide_eq_true_eq] at he1
  rw [List.getElem_reverse] at he2
  have hi' : i < l.length := by simpa using hi
  obtain ⟨k1, k2, k3⟩ := h2 (l.length - 1 - i) e (by rw [List.getElem?_eq_getElem (by omega), he2])
  refine ⟨n, l.length - 1 - i, e.2.2, hn, by omega, by rw [k1, he1.1], by rw [k2, he1.2], k3, rfl, ?_⟩
  intro j hj hlt hab
  simp only [if_true] at hlt
  have hb := he3 (l.length - 1 - j) (by omega)
  rw [List.getElem_reverse] at hb
  have ej : l.length - 1 - (l.length - 1 - j) = j := by omega
  obtain ⟨m1, m2, -⟩ := h2 j l[j] (List.getElem?_eq_getElem (by omega))
  rw [hab.1] at m1
  rw [hab.2] at m2
  simp only [ej] at hb
  simp [← Option.some.inj m1, ← Option.some.inj m2] at hb

theorem parseCmap12_spec {d : Bytes} {t t' : Ttf} {p : Nat} (hT : TablesOf d t) (hg : t.groups = []) (h : parseCmap12 d t p = .ok t') :
    ∃ gs, t' = { t with groups := gs } ∧ ∀ r, TableIs d b!"cmap" r → NoEncoding d r.off 3 10 ∧ gs = [] ∨
      ∃ sub, EncodingIs d r.off 3 10 sub false ∧ u16At d sub = some 12 ∧ u32At d (sub + 12) = some gs.length ∧
        ∀ i g, gs[i]? = some g → u32At d (sub + 16 + 12 * i) = some g.startCode ∧ u32At d (sub + 16 + 12 * i + 4) = some g.endCode ∧
          u32At d (sub + 16 + 12 * i + 8) = some g.glyph := by
  unfold parseCmap12 at h
  simp only [Res.bind_eq_ok] at h
  obtain ⟨⟨n, p1⟩, h1, ⟨encs, p2⟩, h2, h3⟩ := h
  obtain ⟨k1, rfl⟩ := readUShort_iff.1 h1
  simp only [] at h2 h3
  split at h3
  · rename_i hf
    refine ⟨[], by rw [← Res.ok.inj h3, ← hg], fun r hr => Or.inl ⟨?_, rfl⟩⟩
    rw [hT.table _ r hr] at k1 h2
    exact (encoding_first k1 h2).2 hf
  · rename_i e hf
    simp only [Res.bind_eq_ok] at h3
    obtain ⟨⟨f, p3⟩, h4, h5⟩ := h3
    obtain ⟨k4, rfl⟩ := readUShort_iff.1 h4
    simp only [] at h5
    split at h5
    · exact absurd h5 (by simp)
    · rename_i h12
      have h12 : f = 12 := by simpa using h12
      subst h12
      simp only [Res.bind_eq_ok] at h5
      obtain ⟨⟨rr, p4⟩, h6, h7⟩ := h5
      obtain ⟨k6, rfl⟩ := readUShort_iff.1 h6
      simp only [] at h7
      split at h7
      · exact absurd h7 (by simp)
      · simp only [Res.bind_eq_ok] at h7
        obtain ⟨⟨m, p5⟩, h8, gs, h9, h10⟩ := h7
        obtain ⟨k8, rfl⟩ := readULong_iff.1 h8
        obtain ⟨k9, k10⟩ := readGroups_iff.1 h9
        refine ⟨gs, (Res.ok.inj h10).symm, fun r hr => Or.inr ⟨r.off + e.2.2, ?_, ?_, ?_, ?_⟩⟩
        · rw [hT.table _ r hr] at k1 h2
          exact (encoding_first k1 h2).1 e hf
        · rw [hT.get hr] at k4; exact k4
        · rw [hT.get hr] at k8; rw [k9]; exact k8
        · intro i g hg'
          have := k10 i g hg'
          rw [hT.get hr] at this
          exact this

theorem parseCmap_spec {d : Bytes} {t t' : Ttf} {p : Nat} (hT : TablesOf d t) (hg : t.groups = []) (h : parseCmap d t p = .ok t') :
    ∃ sc ends starts deltas ros ids gs, t' = { t with segCount := sc, endCount := ends, startCount := starts, idDelta := deltas, idRangeOffset := ros, glyphIdArray := ids, groups := gs } ∧
      ∀ r, TableIs d b!"cmap" r →
      (∃ sub len sc2, EncodingIs d r.off 3 1 sub true ∧ u16At d sub = some 4 ∧ u16At d (sub + 2) = some len ∧
        u16At d (sub + 6) = some sc2 ∧ sc = sc2 / 2 ∧
        ends.length = sc ∧ Shorts d (sub + 14) ends ∧ starts.length = sc ∧ Shorts d (sub + 16 + 2 * sc) starts ∧
        deltas.length = sc ∧ Shorts d (sub + 16 + 4 * sc) deltas ∧ ros.length = sc ∧ Shorts d (sub + 16 + 6 * sc) ros ∧
        16 + 8 * sc ≤ len ∧ ids.length = (len - (16 + 8 * sc)) / 2 ∧ Shorts d (sub + 16 + 8 * sc) ids) ∧
      (NoEncoding d r.off 3 10 ∧ gs = [] ∨
        ∃ sub, EncodingIs d r.off 3 10 sub false ∧ u16At d sub = some 12 ∧ u32At d (sub + 12) = some gs.length ∧
          ∀ i g, gs[i]? = some g → u32At d (sub + 16 + 12 * i) = some g.startCode ∧ u32At d (sub + 16 + 12 * i + 4) = some g.endCode ∧
            u32At d (sub + 16 + 12 * i + 8) = some g.glyph) := by
  unfold parseCmap at h
  simp only [Res.bind_eq_ok] at h
  obtain ⟨⟨n, p1⟩, h1, ⟨encs, p2⟩, h2, h3⟩ := h
  obtain ⟨k1, rfl⟩ := readUShort_iff.1 h1
  simp only [] at h2 h3
  split at h3
  · exact absurd h3 (by simp)
  · rename_i e hf
    split at h3
    · exact absurd h3 (by simp)
    · simp only [Res.bind_eq_ok] at h3
      obtain ⟨⟨f, p3⟩, h4, h5⟩ := h3
      obtain ⟨k4, rfl⟩ := readUShort_iff.1 h4
      simp only [] at h5
      split at h5
      · exact absurd h5 (by simp)
      · rename_i hf4
        have hf4 : f = 4 := by simpa using hf4
        subst hf4
        simp only [Res.bind_eq_ok] at h5
        obtain ⟨⟨len, p4⟩, h6, ⟨sc2, p5⟩, h7, ⟨ends, p6⟩, h8, ⟨starts, p7⟩, h9, ⟨deltas, p8⟩, h10, ⟨ros, p9⟩, h11, h12⟩ := h5
        obtain ⟨k6, rfl⟩ := readUShort_iff.1 h6
        obtain ⟨k7, rfl⟩ := readUShort_iff.1 h7
        obtain ⟨l8, k8, rfl⟩ := readUShorts_iff.1 h8
        obtain ⟨l9, k9, rfl⟩ := readUShorts_iff.1 h9
        obtain ⟨l10, k10, rfl⟩ := readUShorts_iff.1 h10
        obtain ⟨l11, k11, rfl⟩ := readUShorts_iff.1 h11
        simp only [] at h12 l8 l9 l10 l11 k8 k9 k10 k11 k6 k7 k4
        split at h12
        · exact absurd h12 (by simp)
        · rename_i hlen
          simp only [Res.bind_eq_ok] at h12
          obtain ⟨⟨ids, p10⟩, h13, -, -, h14⟩ := h12
          obtain ⟨l13, k13, rfl⟩ := readUShorts_iff.1 h13
          have hT' : TablesOf d { t with segCount := sc2 / 2, endCount := ends, startCount := starts, idDelta := deltas, idRangeOffset := ros, glyphIdArray := ids } := hT.congr rfl
          obtain ⟨gs, rfl, h15⟩ := parseCmap12_spec hT' hg h14
          refine ⟨sc2 / 2, ends, starts, deltas, ros, ids, gs, rfl, fun r hr => ⟨⟨r.off + e.2.2, len, sc2, ?_, ?_, ?_, ?_, rfl, l8, ?_, l9, ?_, l10, ?_, l11, ?_, by omega, l13, ?_⟩, h15 r hr⟩⟩
          · rw [hT.table _ r hr] at k1 h2
            exact encoding_last k1 h2 hf
          all_goals simp only [hT.get hr, tableEntry] at k4 k6 k7 k8 k9 k10 k11 k13
          · exact k4
          · exact k6
          · exact k7
          · exact k8
          · rw [show r.off + e.2.2 + 16 + 2 * (sc2 / 2) = r.off + e.2.2 + 2 + 2 + 2 + 2 + 6 + 2 * (sc2 / 2) + 2 from by omega]; exact k9
          · rw [show r.off + e.2.2 + 16 + 4 * (sc2 / 2) = r.off + e.2.2 + 2 + 2 + 2 + 2 + 6 + 2 * (sc2 / 2) + 2 + 2 * (sc2 / 2) from by omega]; exact k10
          · rw [show r.off + e.2.2 + 16 + 6 * (sc2 / 2) = r.off + e.2.2 + 2 + 2 + 2 + 2 + 6 + 2 * (sc2 / 2) + 2 + 2 * (sc2 / 2) + 2 * (sc2 / 2) from by omega]; exact k11
          · rw [show r.off + e.2.2 + 16 + 8 * (sc2 / 2) = r.off + e.2.2 + 2 + 2 + 2 + 2 + 6 + 2 * (sc2 / 2) + 2 + 2 * (sc2 / 2) + 2 * (sc2 / 2) + 2 * (sc2 / 2) from by omega]; exact k13

theorem parseOS2_spec {d : Bytes} {t t' : Ttf} (hT : TablesOf d t) (hs : t.sxHeight = 0) (h : parseOS2 d t = .ok t') :
    ∃ r v ta td wa wd sx ch, TableIs d b!"OS/2" r ∧ u16At d r.off = some v ∧ i16At d (r.off + 68) = some ta ∧ i16At d (r.off + 70) = some td ∧
      u16At d (r.off + 74) = some wa ∧ u16At d (r.off + 76) = some wd ∧ (2 ≤ v → i16At d (r.off + 86) = some sx ∧ i16At d (r.off + 88) = some ch) ∧
      (v < 2 → sx = 0 ∧ ch = t.ascender) ∧
      t' = { t with os2Version := v, typoAscender := ta, typoDescender := td, usWinAscent := wa, usWinDescent := wd, sxHeight := sx, capHeight := ch } := by
  unfold parseOS2 at h
  simp only [Res.bind_eq_ok] at h
  obtain ⟨p, h0, ⟨v, p1⟩, h1, ⟨x2, p2⟩, h2, ⟨x3, p3⟩, h3, ⟨ta, p4⟩, h4, ⟨td, p5⟩, h5, ⟨x6, p6⟩, h6, ⟨wa, p7⟩, h7, ⟨wd, p8⟩, h8, h9⟩ := h
  obtain ⟨r, hr, rfl⟩ := hT.seek.1 h0
  obtain ⟨k1, rfl⟩ := readUShort_iff.1 h1
  obtain ⟨k2, rfl⟩ := readUShort_iff.1 h2
  obtain ⟨k3, rfl⟩ := readUShort_iff.1 h3
  obtain ⟨k4, rfl⟩ := readShort_iff.1 h4
  obtain ⟨k5, rfl⟩ := readShort_iff.1 h5
  obtain ⟨k6, rfl⟩ := readShort_iff.1 h6
  obtain ⟨k7, rfl⟩ := readUShort_iff.1 h7
  obtain ⟨k8, rfl⟩ := readUShort_iff.1 h8
  simp only [] at h9
  split at h9
  · rename_i hv
    simp only [Res.bind_eq_ok] at h9
    obtain ⟨⟨sx, p9⟩, h10, ⟨ch, p10⟩, h11, h12⟩ := h9
    obtain ⟨k10, rfl⟩ := readShort_iff.1 h10
    obtain ⟨k11, rfl⟩ := readShort_iff.1 h11
    exact ⟨r, v, ta, td, wa, wd, sx, ch, hr, k1, k4, k5, k7, k8, fun _ => ⟨k10, k11⟩, fun hlt => absurd hv (by omega), (Res.ok.inj h12).symm⟩
  · rename_i hv
    refine ⟨r, v, ta, td, wa, wd, 0, t.ascender, hr, k1, k4, k5, k7, k8, fun hge => absurd hge hv, fun _ => ⟨rfl, rfl⟩, ?_⟩
    rw [← Res.ok.inj h9]
    cases t
    simp only at hs
    subst hs
    rfl

theorem parsePost_spec {d : Bytes} {t t' : Ttf} (hT : TablesOf d t) (h : parsePost d t = .ok t') :
    ∃ r a b c, TableIs d b!"post" r ∧ i16At d (r.off + 4) = some a ∧ i16At d (r.off + 8) = some b ∧ i16At d (r.off + 10) = some c ∧
      t' = { t with italicAngle := a, underlinePosition := b, underlineThickness := c } := by
  unfold parsePost at h
  simp only [Res.bind_eq_ok] at h
  obtain ⟨p, h0, ⟨a, p1⟩, h1, ⟨b, p2⟩, h2, ⟨c, p3⟩, h3, ⟨x, p4⟩, h4, h5⟩ := h
  obtain ⟨r, hr, rfl⟩ := hT.seek.1 h0
  obtain ⟨k1, rfl⟩ := readShort_iff.1 h1
  obtain ⟨k2, rfl⟩ := readShort_iff.1 h2
  obtain ⟨k3, rfl⟩ := readShort_iff.1 h3
  exact ⟨r, a, b, c, hr, k1, k2, k3, (Res.ok.inj h5).symm⟩

theorem parseLoca_spec {d : Bytes} {t t' : Ttf} (hT : TablesOf d t) (h : parseLoca d t = .ok t') :
    ∃ r l, TableIs d b!"loca" r ∧ t' = { t with locaTable := l } ∧ l.length = (if t.indexToLocFormat = 0 then r.len / 2 else r.len / 4) ∧
      ∀ g < l.length, l[g]? = locAt d t.isShort r.off g := by
  unfold parseLoca at h
  rw [Res.bind_eq_ok] at h
  obtain ⟨p, h0, h⟩ := h
  obtain ⟨r, hr, rfl⟩ := hT.seek.1 h0
  rw [hT.get hr] at h
  simp only [tableEntry] at h
  split at h
  · rename_i hs
    simp only [Res.bind_eq_ok] at h
    obtain ⟨⟨l, p1⟩, h1, h2⟩ := h
    obtain ⟨k1, k2, -⟩ := readUShorts_iff.1 h1
    have hz : t.indexToLocFormat = 0 := by simpa [Ttf.isShort] using hs
    refine ⟨r, l.map (· * 2), hr, (Res.ok.inj h2).symm, by rw [if_pos hz, List.length_map, k1], ?_⟩
    intro g hg
    rw [List.length_map] at hg
    unfold locAt
    rw [if_pos hs, k2 g hg, List.getElem?_map]
  · rename_i hs
    simp only [Res.bind_eq_ok] at h
    obtain ⟨⟨l, p1⟩, h1, h2⟩ := h
    obtain ⟨k1, k2, -⟩ := readULongs_iff.1 h1
    have hz : ¬ t.indexToLocFormat = 0 := by simpa [Ttf.isShort] using hs
    refine ⟨r, l, hr, (Res.ok.inj h2).symm, by rw [if_neg hz, k1], ?_⟩
    intro g hg
    unfold locAt
    rw [if_neg hs, k2 g hg]

/-! ### the whole file -/

/-- **C77** (what is read).  Every number of the parsed font is the one at its place in the file. -/
theorem C77_read {d : Bytes} {t : Ttf} (h : parseTtf d = .ok t) : ReadFrom d t := by
  unfold parseTtf at h
  rw [Res.bind_eq_ok] at h
  obtain ⟨⟨v, p⟩, h0, h⟩ := h
  obtain ⟨-, -, rfl, rfl⟩ := rd_iff.1 h0
  simp only [] at h
  split at h
  · exact absurd h (by simp)
  · simp only [Res.bind_eq_ok] at h
    obtain ⟨⟨n, p1⟩, h1, ⟨ts, p2⟩, h2, t1, h3, t2, h4, ⟨t3, p3⟩, h5, ⟨t4, p4⟩, h6, t5, h7, -, -, t6, h8, t7, h9, t8, h10, h11⟩ := h
    obtain ⟨k1, rfl⟩ := readUShort_iff.1 h1
    have k1 : u16At d 4 = some n := k1
    have hT : TablesOf d { tables := ts, unitsPerEm := 0 } := tables_of_directory k1 h2 rfl
    obtain ⟨rh, u, a, b, c, e, f, hd1, hd2, hd3, hd4, hd5, hd6, hd7, hd8, rfl⟩ := parseHead_spec hT h3
    have hT := hT.congr (t' := { tables := ts, unitsPerEm := u, xMin := a, yMin := b, xMax := c, yMax := e, indexToLocFormat := f }) rfl
    obtain ⟨rhh, asc, desc, nm, he1, he2, he3, he4, rfl⟩ := parseHhea_spec hT h4
    have hT := hT.congr (t' := { tables := ts, unitsPerEm := u, xMin := a, yMin := b, xMax := c, yMax := e, indexToLocFormat := f, ascender := asc, descender := desc, numberOfHMetrics := nm }) rfl
    obtain ⟨rm, ng, hm1, hm2, rfl⟩ := parseMaxp_spec hT h5
    have hT := hT.congr (t' := { tables := ts, unitsPerEm := u, xMin := a, yMin := b, xMax := c, yMax := e, indexToLocFormat := f, ascender := asc, descender := desc, numberOfHMetrics := nm, numGlyphs := ng }) rfl
    obtain ⟨ws, rfl, -, hw⟩ := parseHmtx_spec hT h6
    have hT := hT.congr (t' := { tables := ts, unitsPerEm := u, xMin := a, yMin := b, xMax := c, yMax := e, indexToLocFormat := f, ascender := asc, descender := desc, numberOfHMetrics := nm, numGlyphs := ng, widths := ws }) rfl
    obtain ⟨sc, ends, starts, deltas, ros, ids, gs, rfl, hc⟩ := parseCmap_spec hT rfl h7
    have hT := hT.congr (t' := { tables := ts, unitsPerEm := u, xMin := a, yMin := b, xMax := c, yMax := e, indexToLocFormat := f, ascender := asc, descender := desc, numberOfHMetrics := nm, numGlyphs := ng, widths := ws, segCount := sc, endCount := ends, startCount := starts, idDelta := deltas, idRangeOffset := ros, glyphIdArray := ids, groups := gs }) rfl
    obtain ⟨ro, v, ta, td, wa, wd, sx, ch, ho1, ho2, ho3, ho4, ho5, ho6, ho7, ho8, rfl⟩ := parseOS2_spec hT rfl h8
    have hT := hT.congr (t' := { tables := ts, unitsPerEm := u, xMin := a, yMin := b, xMax := c, yMax := e, indexToLocFormat := f, ascender := asc, descender := desc, numberOfHMetrics := nm, numGlyphs := ng, widths := ws, segCount := sc, endCount := ends, startCount := starts, idDelta := deltas, idRangeOffset := ros, glyphIdArray := ids, groups := gs, os2Version := v, typoAscender := ta, typoDescender := td, usWinAscent := wa, usWinDescent := wd, sxHeight := sx, capHeight := ch }) rfl
    obtain ⟨rp, ia, up, ut, hp1, hp2, hp3, hp4, rfl⟩ := parsePost_spec hT h9
    have hT := hT.congr (t' := { tables := ts, unitsPerEm := u, xMin := a, yMin := b, xMax := c, yMax := e, indexToLocFormat := f, ascender := asc, descender := desc, numberOfHMetrics := nm, numGlyphs := ng, widths := ws, segCount := sc, endCount := ends, startCount := starts, idDelta := deltas, idRangeOffset := ros, glyphIdArray := ids, groups := gs, os2Version := v, typoAscender := ta, typoDescender := td, usWinAscent := wa, usWinDescent := wd, sxHeight := sx, capHeight := ch, italicAngle := ia, underlinePosition := up, underlineThickness := ut }) rfl
    obtain ⟨rl, l, hl1, rfl, hl2, hl3⟩ := parseLoca_spec hT h10
    cases Res.ok.inj h11
    exact { data := rfl, table := hT.table, none := hT.none, head := ⟨rh, hd1, hd2, hd3, hd4, hd5, hd6, hd7, hd8⟩, hhea := ⟨rhh, he1, he2, he3, he4⟩
            maxp := ⟨rm, hm1, hm2⟩, hmtx := hw, cmap4 := fun r hr => (hc r hr).1, cmap12 := fun r hr => (hc r hr).2
            os2 := ⟨ro, ho1, ho2, ho3, ho4, ho5, ho6, ho7, ho8⟩, post := ⟨rp, hp1, hp2, hp3, hp4⟩, loca := ⟨rl, hl1, hl2, hl3⟩, kern := rfl }

/-! ### characters -/

/-- A sound format 4 subtable at `sub`: the declared length covers the arrays and the file covers the declared length, the last segment ends at 0xFFFF, range
offsets are even and lead behind the array of range offsets and not out of the subtable. -/
structure Spec.FileCmap4OK (d : Bytes) (sub : Nat) : Prop where
  last : ∀ sc2, u16At d (sub + 6) = some sc2 → 2 ≤ sc2 ∧ u16At d (sub + 14 + 2 * (sc2 / 2 - 1)) = some 0xFFFF
  inside : ∀ len sc2 i s e o, u16At d (sub + 2) = some len → u16At d (sub + 6) = some sc2 → i < sc2 / 2 →
    u16At d (sub + 16 + 2 * (sc2 / 2) + 2 * i) = some s → u16At d (sub + 14 + 2 * i) = some e → u16At d (sub + 16 + 6 * (sc2 / 2) + 2 * i) = some o → o ≠ 0 →
    o % 2 = 0 ∧ 2 * (sc2 / 2) ≤ 2 * i + o ∧ (s ≤ e → 16 + 6 * (sc2 / 2) + 2 * i + o + 2 * (e - s) + 2 ≤ len)

theorem shorts_get {d : Bytes} {p : Nat} {l : List Nat} (h : Shorts d p l) {i v : Nat} : i < l.length → (u16At d (p + 2 * i) = some v ↔ l[i]? = some v) := by
  intro hi
  rw [h i hi]

theorem EncodingIs.unique {d : Bytes} {cmap a b s s' : Nat} {last : Bool} (h : EncodingIs d cmap a b s last) (h' : EncodingIs d cmap a b s' last) : s = s' := by
  obtain ⟨n, i, o, hn, hi, h1, h2, h3, rfl, hl⟩ := h
  obtain ⟨n', i', o', hn', hi', h1', h2', h3', rfl, hl'⟩ := h'
  rw [hn] at hn'
  cases Option.some.inj hn'
  have e : i = i' := by
    rcases Nat.lt_trichotomy i i' with hlt | h | hlt
    · cases last
      · exact absurd ⟨h1, h2⟩ (hl' i hi hlt)
      · exact absurd ⟨h1', h2'⟩ (hl i' hi' hlt)
    · exact h
    · cases last
      · exact absurd ⟨h1', h2'⟩ (hl i' hi' hlt)
      · exact absurd ⟨h1, h2⟩ (hl' i hi hlt)
  subst e
  rw [h3] at h3'
  rw [Option.some.inj h3']

/-- **C77** (characters up to U+FFFF).  The glyph of a character is the one the format 4 subtable of the file assigns to it; there is always one. -/
theorem C77_glyph {d : Bytes} {t : Ttf} (h : parseTtf d = .ok t) {r : Record} (hr : TableIs d b!"cmap" r) {sub : Nat} (hs : EncodingIs d r.off 3 1 sub true)
    (hok : FileCmap4OK d sub) {c : Nat} (hc : c ≤ 0xFFFF) :
    (∃ g, charToGlyph t c = .ok g) ∧ ∀ g, charToGlyph t c = .ok g ↔ FileCmap4 d sub c g := by
  obtain ⟨sub', len, sc2, he, h4, hlen, hsc, esc, l1, k1, l2, k2, l3, k3, l4, k4, hle, l5, k5⟩ := (C77_read h).cmap4 r hr
  cases EncodingIs.unique hs he
  obtain ⟨hpos, hlast⟩ := hok.last sc2 hsc
  have hfour : Cmap4OK t := by
    refine ⟨l1, l2, l3, l4, ?_, ?_⟩
    · rw [List.getLast?_eq_getElem?, ← k1 _ (by omega), l1, esc]
      exact hlast
    · intro i s e o hs1 he1 ho1 ho0
      have hi : i < t.segCount := by rw [← l2]; exact (List.getElem?_eq_some_iff.1 hs1).1
      obtain ⟨m1, m2, m3⟩ := hok.inside len sc2 i s e o hlen hsc (by omega) (by rw [← esc]; exact (shorts_get k2 (by omega)).2 hs1) ((shorts_get k1 (by omega)).2 he1)
        (by rw [← esc]; exact (shorts_get k4 (by omega)).2 ho1) ho0
      rw [← esc] at m2 m3
      refine ⟨by omega, fun c hc1 hc2 => ?_⟩
      have := m3 (by omega)
      omega
  obtain ⟨c1, c2⟩ := C30_format4 hfour hc
  refine ⟨c1, fun g => (c2 g).trans ?_⟩
  constructor
  · rintro ⟨i, s, e, dl, o, he1, hce, hbefore, hs1, hd1, ho1, hcase⟩
    have hi : i < t.segCount := by rw [← l1]; exact (List.getElem?_eq_some_iff.1 he1).1
    refine ⟨sc2, i, e, s, dl, o, hsc, by omega, (shorts_get k1 (by omega)).2 he1, hce, fun j hj e' he' => ?_, by rw [← esc]; exact (shorts_get k2 (by omega)).2 hs1,
      by rw [← esc]; exact (shorts_get k3 (by omega)).2 hd1, by rw [← esc]; exact (shorts_get k4 (by omega)).2 ho1, ?_⟩
    · exact hbefore j hj e' ((shorts_get k1 (by omega)).1 he')
    · rcases hcase with h | h | ⟨h1, h2, w, hw, hg⟩
      · exact Or.inl h
      · exact Or.inr (Or.inl h)
      · refine Or.inr (Or.inr ⟨h1, h2, w, ?_, hg⟩)
        obtain ⟨m1, m2, m3⟩ := hok.inside len sc2 i s e o hlen hsc (by omega) (by rw [← esc]; exact (shorts_get k2 (by omega)).2 hs1) ((shorts_get k1 (by omega)).2 he1)
          (by rw [← esc]; exact (shorts_get k4 (by omega)).2 ho1) h2
        rw [← esc] at m2 ⊢
        rw [List.getElem?_append_right (by omega)] at hw
        have hlt := (List.getElem?_eq_some_iff.1 hw).1
        rw [← k5 _ hlt] at hw
        rw [← hw]
        congr 1
        omega
  · rintro ⟨sc2', i, e, s, dl, o, hsc', hi, he1, hce, hbefore, hs1, hd1, ho1, hcase⟩
    rw [hsc] at hsc'
    cases Option.some.inj hsc'
    rw [← esc] at hi hs1 hd1 ho1 hcase
    refine ⟨i, s, e, dl, o, (shorts_get k1 (by omega)).1 he1, hce, fun j hj e' he' => ?_, (shorts_get k2 (by omega)).1 hs1, (shorts_get k3 (by omega)).1 hd1, (shorts_get k4 (by omega)).1 ho1, ?_⟩
    · exact hbefore j hj e' ((shorts_get k1 (by omega)).2 he')
    · rcases hcase with h | h | ⟨h1, h2, w, hw, hg⟩
      · exact Or.inl h
      · exact Or.inr (Or.inl h)
      · refine Or.inr (Or.inr ⟨h1, h2, w, ?_, hg⟩)
        obtain ⟨m1, m2, m3⟩ := hok.inside len sc2 i s e o hlen hsc (by omega) (by rw [← esc]; exact hs1) he1 (by rw [← esc]; exact ho1) h2
        rw [← esc] at m2 m3
        have m3 := m3 (by omega)
        rw [List.getElem?_append_right (by omega), ← k5 _ (by omega), ← hw]
        congr 1
        omega

/-- **C77** (characters above U+FFFF), as far as true.  A glyph found for a character is the one the format 12 subtable assigns to it, and it is found unless the
character is the last of its group (groups not overlapping). -/
theorem C77_glyph12_partial {d : Bytes} {t : Ttf} (h : parseTtf d = .ok t) {r : Record} (hr : TableIs d b!"cmap" r) {sub : Nat} (hs : EncodingIs d r.off 3 10 sub false)
    (hok : ∀ n i j s e s' e', u32At d (sub + 12) = some n → i < j → j < n → u32At d (sub + 16 + 12 * i) = some s → u32At d (sub + 16 + 12 * i + 4) = some e →
      u32At d (sub + 16 + 12 * j) = some s' → u32At d (sub + 16 + 12 * j + 4) = some e' → e < s' ∨ e' < s) {c : Nat} (hc : 0xFFFF < c) :
    (∀ g, charToGlyph t c = .ok g → FileCmap12 d sub c g) ∧
    (∀ g, FileCmap12 d sub c g → (∀ n i, u32At d (sub + 12) = some n → i < n → u32At d (sub + 16 + 12 * i + 4) ≠ some c) → charToGlyph t c = .ok g) := by
  rcases (C77_read h).cmap12 r hr with ⟨⟨n, hn, hno⟩, -⟩ | ⟨sub', he, h12, hlen, hget⟩
  · obtain ⟨n', i, o, hn', hi, h1, h2, -⟩ := hs
    rw [hn] at hn'
    cases Option.some.inj hn'
    exact absurd ⟨h1, h2⟩ (hno i hi)
  · cases EncodingIs.unique hs he
    have hg12 : Cmap12OK t := by
      unfold Cmap12OK
      rw [List.pairwise_iff_getElem]
      intro i j hi hj hij
      obtain ⟨a1, a2, -⟩ := hget i _ (List.getElem?_eq_getElem hi)
      obtain ⟨b1, b2, -⟩ := hget j _ (List.getElem?_eq_getElem hj)
      exact hok _ i j _ _ _ _ hlen hij hj a1 a2 b1 b2
    obtain ⟨c1, c2⟩ := C30_format12_partial hg12 hc
    refine ⟨fun g hg => ?_, fun g hg hne => c2 g ?_ ?_⟩
    · obtain ⟨grp, hm, h1, h2, h3⟩ := c1 g hg
      obtain ⟨i, hi⟩ := List.mem_iff_getElem?.1 hm
      obtain ⟨a1, a2, a3⟩ := hget i grp hi
      exact ⟨_, i, _, _, _, hlen, (List.getElem?_eq_some_iff.1 hi).1, a1, a2, a3, h1, h2, h3⟩
    · obtain ⟨n, i, s, e, g0, hn, hi, h1, h2, h3, h4, h5, h6⟩ := hg
      rw [hlen] at hn
      cases Option.some.inj hn
      obtain ⟨a1, a2, a3⟩ := hget i _ (List.getElem?_eq_getElem hi)
      rw [h1] at a1; rw [h2] at a2; rw [h3] at a3
      refine ⟨t.groups[i], List.getElem_mem hi, ?_, ?_, ?_⟩
      · rw [← Option.some.inj a1]; exact h4
      · rw [← Option.some.inj a2]; exact h5
      · rw [← Option.some.inj a1, ← Option.some.inj a3]; exact h6
    · intro grp hm hce
      obtain ⟨i, hi⟩ := List.mem_iff_getElem?.1 hm
      obtain ⟨a1, a2, a3⟩ := hget i grp hi
      exact hne _ i hlen (List.getElem?_eq_some_iff.1 hi).1 (by rw [a2, hce])

/-! ### outlines -/

/-- **C77** (outlines).  The outline the parsed font has for a glyph is the one a reader of the file finds. -/
theorem C77_outline {d : Bytes} {t : Ttf} (h : parseTtf d = .ok t) (hl : LocaOK t) {rg : Record} (hrg : TableIs d b!"glyf" rg)
    (hin : ∀ o ∈ t.locaTable, o ≤ rg.len) {g : Nat} (hg : g < t.numGlyphs) : OutlineIs d t.isShort g (srcOutline t g) := by
  have hR := C77_read h
  obtain ⟨rl, hrl, -, hget⟩ := hR.loca
  have htab : t.table b!"glyf" = tableEntry rg := by unfold Ttf.table; rw [hR.table _ rg hrg]; rfl
  have hl1 : g < t.locaTable.length := by rw [hl.len]; omega
  have hl2 : g + 1 < t.locaTable.length := by rw [hl.len]; omega
  have e1 := hget g hl1
  have e2 := hget (g + 1) hl2
  rw [List.getElem?_eq_getElem hl1] at e1
  rw [List.getElem?_eq_getElem hl2] at e2
  obtain ⟨_, i, _, _, hri, hti, _⟩ := hrg
  obtain ⟨_, j, _, _, hrj, htj, _⟩ := hrl
  have hm : t.locaTable[g] ≤ t.locaTable[g + 1] := (List.pairwise_iff_getElem.1 hl.mono) g (g + 1) hl1 hl2 (by omega)
  refine ⟨i, j, rg, rl, _, _, hri, hti, hrj, htj, e1.symm, e2.symm, hm, hin _ (List.getElem_mem hl2), ?_, ?_⟩
  · have := hl.inside _ (List.getElem_mem hl2)
    rw [htab, hR.data] at this
    exact this
  · unfold srcOutline
    rw [htab, hR.data, List.getD_eq_getElem?_getD, List.getD_eq_getElem?_getD, List.getElem?_eq_getElem hl1, List.getElem?_eq_getElem hl2]
    rfl

/-! ### crashes -/

/-- an error or a result -/
def Res.Calm {α : Type} (x : Res α) : Prop := (∃ a, x = .ok a) ∨ ∃ e, x = .err e

theorem Res.Calm.bind {α β : Type} {x : Res α} {f : α → Res β} (hx : x.Calm) (hf : ∀ a, x = .ok a → (f a).Calm) : (x >>= f).Calm := by
  rcases hx with ⟨a, rfl⟩ | ⟨e, rfl⟩
  · exact hf a rfl
  · exact Or.inr ⟨e, rfl⟩

theorem Res.Calm.ok {α : Type} (a : α) : (Res.ok a).Calm := Or.inl ⟨a, rfl⟩
theorem Res.Calm.err {α : Type} (e : Err) : (Res.err e : Res α).Calm := Or.inr ⟨e, rfl⟩

theorem rd_calm (d : Bytes) (n p : Nat) : (rd d n p).Calm := by
  unfold rd
  split
  · exact .err _
  · split
    · exact .err _
    · exact .ok _

theorem readUShort_calm (d : Bytes) (p : Nat) : (readUShort d p).Calm := (rd_calm d 2 p).bind (fun _ _ => .ok _)
theorem readULong_calm (d : Bytes) (p : Nat) : (readULong d p).Calm := (rd_calm d 4 p).bind (fun _ _ => .ok _)
theorem readShort_calm (d : Bytes) (p : Nat) : (readShort d p).Calm := (readUShort_calm d p).bind (fun _ _ => .ok _)

theorem readUShorts_calm (d : Bytes) : ∀ n p, (readUShorts d n p).Calm
  | 0, _ => .ok _
  | n + 1, _ => (readUShort_calm d _).bind (fun _ _ => (readUShorts_calm d n _).bind (fun _ _ => .ok _))

theorem readULongs_calm (d : Bytes) : ∀ n p, (readULongs d n p).Calm
  | 0, _ => .ok _
  | n + 1, _ => (readULong_calm d _).bind (fun _ _ => (readULongs_calm d n _).bind (fun _ _ => .ok _))

theorem readMetrics_calm (d : Bytes) : ∀ n p, (readMetrics d n p).Calm
  | 0, _ => .ok _
  | n + 1, _ => (readUShort_calm d _).bind (fun _ _ => (readMetrics_calm d n _).bind (fun _ _ => .ok _))

theorem readEncodings_calm (d : Bytes) : ∀ n p, (readEncodings d n p).Calm
  | 0, _ => .ok _
  | n + 1, _ => (readUShort_calm d _).bind (fun _ _ => (readUShort_calm d _).bind (fun _ _ => (readULong_calm d _).bind (fun _ _ =>
      (readEncodings_calm d n _).bind (fun _ _ => .ok _))))

theorem readGroups_calm (d : Bytes) : ∀ n p, (readGroups d n p).Calm
  | 0, _ => .ok _
  | n + 1, _ => (readULong_calm d _).bind (fun _ _ => (readULong_calm d _).bind (fun _ _ => (readULong_calm d _).bind (fun _ _ =>
      (readGroups_calm d n _).bind (fun _ _ => .ok _))))

theorem readDirectory_calm (d : Bytes) : ∀ n p acc, (readDirectory d n p acc).Calm
  | 0, _, _ => .ok _
  | n + 1, _, _ => (rd_calm d 4 _).bind (fun _ _ => (readULong_calm d _).bind (fun _ _ => (readULong_calm d _).bind (fun _ _ =>
      (readULong_calm d _).bind (fun _ _ => readDirectory_calm d n _ _))))

theorem seekTable_calm (t : Ttf) (tag : Bytes) : (seekTable t tag).Calm := by
  unfold seekTable
  split
  · exact .ok _
  · exact .err _

theorem parseHead_calm (d : Bytes) (t : Ttf) : (parseHead d t).Calm := by
  unfold parseHead
  refine (seekTable_calm t _).bind (fun _ _ => (readULong_calm d _).bind (fun _ _ => ?_))
  simp only []
  split
  · exact .err _
  · exact (readUShort_calm d _).bind (fun _ _ => (readShort_calm d _).bind (fun _ _ => (readShort_calm d _).bind (fun _ _ => (readShort_calm d _).bind (fun _ _ =>
      (readShort_calm d _).bind (fun _ _ => (readShort_calm d _).bind (fun _ _ => .ok _))))))

theorem parseHhea_calm (d : Bytes) (t : Ttf) : (parseHhea d t).Calm :=
  (seekTable_calm t _).bind (fun _ _ => (readShort_calm d _).bind (fun _ _ => (readShort_calm d _).bind (fun _ _ => (readUShort_calm d _).bind (fun _ _ => .ok _))))

theorem parseMaxp_calm (d : Bytes) (t : Ttf) : (parseMaxp d t).Calm :=
  (seekTable_calm t _).bind (fun _ _ => (readUShort_calm d _).bind (fun _ _ => .ok _))

theorem parseHmtx_calm (d : Bytes) (t : Ttf) (p : Nat) : (parseHmtx d t p).Calm ∨ parseHmtx d t p = .panic ∧ t.numberOfHMetrics = 0 ∧ 0 < t.numGlyphs := by
  unfold parseHmtx
  rcases readMetrics_calm d t.numberOfHMetrics ((t.tables.lookup b!"hmtx").elim p (·.offset)) with ⟨⟨ws, q⟩, h⟩ | ⟨e, h⟩
  · simp only [h, Res.ok_bind]
    obtain ⟨k1, -, -⟩ := readMetrics_iff.1 h
    by_cases hlt : t.numberOfHMetrics < t.numGlyphs
    · rw [if_pos hlt]
      cases hw : ws.getLast? with
      | none =>
        rw [List.getLast?_eq_none_iff] at hw
        subst hw
        simp only [List.length_nil] at k1
        exact Or.inr ⟨rfl, by omega, by omega⟩
      | some w => exact Or.inl (.ok _)
    · rw [if_neg hlt]; exact Or.inl (.ok _)
  · simp only [h, Res.err_bind]
    exact Or.inl (.err _)

theorem checkSegments_calm (d : Bytes) (offset : Nat) : ∀ l i, (checkSegments d offset i l).Calm
  | [], _ => .ok _
  | (c1, c2, ro) :: rest, i => by
    rw [checkSegments]
    split
    · exact (readUShorts_calm d _ _).bind (fun _ _ => checkSegments_calm d offset rest (i + 1))
    · exact checkSegments_calm d offset rest (i + 1)

theorem parseCmap12_calm (d : Bytes) (t : Ttf) (p : Nat) : (parseCmap12 d t p).Calm := by
  unfold parseCmap12
  refine (readUShort_calm d _).bind (fun _ _ => (readEncodings_calm d _ _).bind (fun _ _ => ?_))
  simp only []
  split
  · exact .ok _
  · refine (readUShort_calm d _).bind (fun _ _ => ?_)
    split
    · exact .err _
    · refine (readUShort_calm d _).bind (fun _ _ => ?_)
      split
      · exact .err _
      · exact (readULong_calm d _).bind (fun _ _ => (readGroups_calm d _ _).bind (fun _ _ => .ok _))

theorem parseCmap_calm (d : Bytes) (t : Ttf) (p : Nat) : (parseCmap d t p).Calm := by
  unfold parseCmap
  refine (readUShort_calm d _).bind (fun _ _ => (readEncodings_calm d _ _).bind (fun _ _ => ?_))
  simp only []
  split
  · exact .err _
  · split
    · exact .err _
    · refine (readUShort_calm d _).bind (fun _ _ => ?_)
      split
      · exact .err _
      · refine (readUShort_calm d _).bind (fun _ _ => (readUShort_calm d _).bind (fun _ _ => (readUShorts_calm d _ _).bind (fun _ _ => (readUShorts_calm d _ _).bind (fun _ _ =>
          (readUShorts_calm d _ _).bind (fun _ _ => (readUShorts_calm d _ _).bind (fun _ _ => ?_))))))
        split
        · exact .err _
        · exact (readUShorts_calm d _ _).bind (fun _ _ => (checkSegments_calm d _ _ _).bind (fun _ _ => parseCmap12_calm d _ _))

theorem nameLoop_calm (d : Bytes) (base so : Nat) : ∀ n p, (nameLoop d base so n p).Calm
  | 0, _ => .ok _
  | n + 1, p => by
    rw [nameLoop]
    refine (readUShort_calm d _).bind (fun _ _ => (readUShort_calm d _).bind (fun _ _ => (readUShort_calm d _).bind (fun _ _ => ?_)))
    simp only []
    split
    · exact (rd_calm d _ _).bind (fun _ _ => .ok _)
    · exact nameLoop_calm d base so n _

theorem parseName_calm (d : Bytes) (t : Ttf) : (parseName d t).Calm := by
  unfold parseName
  refine (seekTable_calm t _).bind (fun _ _ => (readUShort_calm d _).bind (fun _ _ => (readUShort_calm d _).bind (fun _ _ => (nameLoop_calm d _ _ _ _).bind (fun _ _ => ?_))))
  split
  · exact .err _
  · exact .ok _

theorem parseOS2_calm (d : Bytes) (t : Ttf) : (parseOS2 d t).Calm := by
  unfold parseOS2
  refine (seekTable_calm t _).bind (fun _ _ => (readUShort_calm d _).bind (fun _ _ => (readUShort_calm d _).bind (fun _ _ => (readUShort_calm d _).bind (fun _ _ =>
    (readShort_calm d _).bind (fun _ _ => (readShort_calm d _).bind (fun _ _ => (readShort_calm d _).bind (fun _ _ => (readUShort_calm d _).bind (fun _ _ =>
    (readUShort_calm d _).bind (fun _ _ => ?_)))))))))
  simp only []
  split
  · exact (readShort_calm d _).bind (fun _ _ => (readShort_calm d _).bind (fun _ _ => .ok _))
  · exact .ok _

theorem parsePost_calm (d : Bytes) (t : Ttf) : (parsePost d t).Calm :=
  (seekTable_calm t _).bind (fun _ _ => (readShort_calm d _).bind (fun _ _ => (readShort_calm d _).bind (fun _ _ => (readShort_calm d _).bind (fun _ _ =>
    (readULong_calm d _).bind (fun _ _ => .ok _)))))

theorem parseLoca_calm (d : Bytes) (t : Ttf) : (parseLoca d t).Calm := by
  unfold parseLoca
  refine (seekTable_calm t _).bind (fun _ _ => ?_)
  simp only []
  split
  · exact (readUShorts_calm d _ _).bind (fun _ _ => .ok _)
  · exact (readULongs_calm d _ _).bind (fun _ _ => .ok _)

/-- **C77** (bad files), as far as true.  Reading any bytes as a font gives a font or an error, except that it crashes on some files which have glyphs but declare
no horizontal metrics.  It never hangs. -/
theorem C77_crash_partial (d : Bytes) : (∃ t, parseTtf d = .ok t) ∨ (∃ e, parseTtf d = .err e) ∨
    parseTtf d = .panic ∧ ∃ r r' n, TableIs d b!"hhea" r ∧ u16At d (r.off + 34) = some 0 ∧ TableIs d b!"maxp" r' ∧ u16At d (r'.off + 4) = some n ∧ 0 < n := by
  rw [← or_assoc]
  change (parseTtf d).Calm ∨ _
  unfold parseTtf
  rcases rd_calm d 4 0 with ⟨⟨v, p⟩, h0⟩ | ⟨e, h0⟩
  swap
  · exact Or.inl (Or.inr ⟨e, by rw [h0]; rfl⟩)
  rw [h0, Res.ok_bind]
  obtain ⟨-, -, -, rfl⟩ := rd_iff.1 h0
  simp only []
  by_cases hv : v = [0, 1, 0, 0]
  swap
  · rw [if_pos hv]; exact Or.inl (.err _)
  rw [if_neg (not_not.2 hv)]
  rcases readUShort_calm d (0 + 4) with ⟨⟨n, p1⟩, h1⟩ | ⟨e, h1⟩
  swap
  · exact Or.inl (Or.inr ⟨e, by rw [h1]; rfl⟩)
  rw [h1, Res.ok_bind]
  obtain ⟨k1, rfl⟩ := readUShort_iff.1 h1
  have k1 : u16At d 4 = some n := k1
  simp only []
  rcases readDirectory_calm d n 12 [] with ⟨⟨ts, p2⟩, h2⟩ | ⟨e, h2⟩
  swap
  · exact Or.inl (Or.inr ⟨e, by rw [h2]; rfl⟩)
  rw [h2, Res.ok_bind]
  have hT : TablesOf d { tables := ts, unitsPerEm := 0 } := tables_of_directory k1 h2 rfl
  simp only []
  rcases parseHead_calm d { tables := ts, unitsPerEm := 0 } with ⟨t1, h3⟩ | ⟨e, h3⟩
  swap
  · exact Or.inl (Or.inr ⟨e, by rw [h3]; rfl⟩)
  rw [h3, Res.ok_bind]
  obtain ⟨rh, u, a, b, c, e, f, -, -, -, -, -, -, -, -, rfl⟩ := parseHead_spec hT h3
  have hT := hT.congr (t' := { tables := ts, unitsPerEm := u, xMin := a, yMin := b, xMax := c, yMax := e, indexToLocFormat := f }) rfl
  generalize Ttf.mk .. = t1 at hT ⊢
  rcases parseHhea_calm d t1 with ⟨t2, h4⟩ | ⟨e, h4⟩
  swap
  · exact Or.inl (Or.inr ⟨e, by rw [h4]; rfl⟩)
  rw [h4, Res.ok_bind]
  obtain ⟨rhh, asc, desc, nm, he1, he2, he3, he4, e2⟩ := parseHhea_spec hT h4
  have hT : TablesOf d t2 := hT.congr (by rw [e2])
  have hnm : t2.numberOfHMetrics = nm := by rw [e2]
  rcases parseMaxp_calm d t2 with ⟨⟨t3, p3⟩, h5⟩ | ⟨e, h5⟩
  swap
  · exact Or.inl (Or.inr ⟨e, by rw [h5]; rfl⟩)
  rw [h5, Res.ok_bind]
  obtain ⟨rm, ng, hm1, hm2, e3⟩ := parseMaxp_spec hT h5
  have hnm3 : t3.numberOfHMetrics = nm := by rw [e3]; exact hnm
  have hng3 : t3.numGlyphs = ng := by rw [e3]
  simp only []
  rcases parseHmtx_calm d t3 p3 with hc | ⟨h6, hz, hp⟩
  · left
    exact hc.bind (fun _ _ => (parseCmap_calm d _ _).bind (fun _ _ => (parseName_calm d _).bind (fun _ _ => (parseOS2_calm d _).bind (fun _ _ =>
      (parsePost_calm d _).bind (fun _ _ => (parseLoca_calm d _).bind (fun _ _ => .ok _))))))
  · right
    rw [h6]
    refine ⟨rfl, rhh, rm, ng, he1, ?_, hm1, hm2, by omega⟩
    rw [he4]; congr 1; omega

/-- **C77** (embedding), as far as true.  Every used glyph, every part of one and glyph 0 has the same outline in the file written by pdft as in the file the font was
added from.  Missing: parts of parts, and characters sharing a glyph (C28, C29). -/
theorem C77_embedded_partial {d : Bytes} {t : Ttf} (h : parseTtf d = .ok t) (hl : LocaOK t) {rg : Record} (hrg : TableIs d b!"glyf" rg)
    (hin : ∀ o ∈ t.locaTable, o ≤ rg.len) {m : CharMap} {parts : Nat → List Nat} (h1 : ∀ g ∈ m.vals, g < t.numGlyphs) (h2 : ∀ g ∈ m.vals, Parts t g (parts g))
    (hn : m.vals.Nodup) {b : Bytes} (hb : makeFont t m = .ok b) (hlt : b.length < 4294967296) :
    ∀ g < t.numGlyphs, g ∈ m.vals ∨ g = 0 ∨ (∃ u ∈ m.vals, g ∈ parts u) → ∃ o, OutlineIs d t.isShort g o ∧ OutlineIs b t.isShort g o :=
  fun g hg hu => ⟨_, C77_outline h hl hrg hin hg, (C28_subset_partial hl h1 h2 hn hb hlt g hg).1 hu⟩

/-! ### sound files are accepted -/

/-- A font file pdft can use: the directory and the tables head, hhea, maxp, hmtx, cmap, name, OS/2, post and loca are there and complete, there is a horizontal
metric, a format 4 character map for Windows/Unicode BMP, and a PostScript name. -/
structure Spec.FontFileOK (d : Bytes) : Prop where
  version : bytesAt d 0 4 = [0, 1, 0, 0]
  directory : ∃ n, u16At d 4 = some n ∧ ∀ i < n, ∃ r, record d i = some r
  head : ∃ r, TableIs d b!"head" r ∧ u32At d (r.off + 12) = some 0x5F0F3CF5 ∧ r.off + 52 ≤ d.length
  hmtx : ∃ rh r n, TableIs d b!"hhea" rh ∧ u16At d (rh.off + 34) = some n ∧ 0 < n ∧ TableIs d b!"hmtx" r ∧ r.off + 4 * n ≤ d.length
  maxp : ∃ r, TableIs d b!"maxp" r ∧ r.off + 6 ≤ d.length
  cmap : ∃ r n sub len sc2, TableIs d b!"cmap" r ∧ u16At d (r.off + 2) = some n ∧ r.off + 4 + 8 * n ≤ d.length ∧ EncodingIs d r.off 3 1 sub true ∧ sub ≠ r.off ∧
    u16At d sub = some 4 ∧ u16At d (sub + 2) = some len ∧ u16At d (sub + 6) = some sc2 ∧ 16 + 8 * (sc2 / 2) ≤ len ∧ sub + len ≤ d.length ∧ FileCmap4OK d sub
  cmap12 : ∀ r sub, TableIs d b!"cmap" r → EncodingIs d r.off 3 10 sub false → u16At d sub = some 12 ∧ u16At d (sub + 2) = some 0 ∧
    ∃ n, u32At d (sub + 12) = some n ∧ sub + 16 + 12 * n ≤ d.length
  /-- the first name record with number 6 is the PostScript name -/
  name : ∃ r n so i len off, TableIs d b!"name" r ∧ u16At d (r.off + 2) = some n ∧ u16At d (r.off + 4) = some so ∧ i < n ∧
    (∀ j < i, ∃ id, u16At d (r.off + 6 + 12 * j + 6) = some id ∧ id ≠ 6) ∧ u16At d (r.off + 6 + 12 * i + 6) = some 6 ∧ u16At d (r.off + 6 + 12 * i + 8) = some len ∧
    u16At d (r.off + 6 + 12 * i + 10) = some off ∧ r.off + so + off + len ≤ d.length ∧ ∃ c ∈ bytesAt d (r.off + so + off) len, c ≠ 0 ∧ c ≠ 48
  os2 : ∃ r v, TableIs d b!"OS/2" r ∧ u16At d r.off = some v ∧ r.off + 78 ≤ d.length ∧ (2 ≤ v → r.off + 90 ≤ d.length)
  post : ∃ r, TableIs d b!"post" r ∧ r.off + 16 ≤ d.length
  loca : ∃ r, TableIs d b!"loca" r ∧ r.off + r.len ≤ d.length

theorem u16At_in {d : Bytes} {p : Nat} (h : p + 2 ≤ d.length) : ∃ v, u16At d p = some v := ⟨_, u16At_eq h⟩
theorem u32At_in {d : Bytes} {p : Nat} (h : p + 4 ≤ d.length) : ∃ v, u32At d p = some v := ⟨_, u32At_eq h⟩
theorem i16At_in {d : Bytes} {p : Nat} (h : p + 2 ≤ d.length) : ∃ v, i16At d p = some v := by
  obtain ⟨v, hv⟩ := u16At_in h
  exact ⟨_, by unfold i16At; rw [hv]; rfl⟩

theorem readUShorts_in {d : Bytes} : ∀ {n p : Nat}, p + 2 * n ≤ d.length → ∃ l, readUShorts d n p = .ok (l, p + 2 * n)
  | 0, p, _ => ⟨[], rfl⟩
  | n + 1, p, h => by
    obtain ⟨v, hv⟩ := u16At_in (d := d) (p := p) (by omega)
    obtain ⟨l, hl⟩ := readUShorts_in (d := d) (n := n) (p := p + 2) (by omega)
    refine ⟨v :: l, ?_⟩
    rw [readUShorts, readUShort_iff.2 ⟨hv, rfl⟩, Res.ok_bind]
    simp only []
    rw [hl, Res.ok_bind]
    simp only [Res.ok.injEq, Prod.mk.injEq, true_and]
    omega

theorem readULongs_in {d : Bytes} : ∀ {n p : Nat}, p + 4 * n ≤ d.length → ∃ l, readULongs d n p = .ok (l, p + 4 * n)
  | 0, p, _ => ⟨[], rfl⟩
  | n + 1, p, h => by
    obtain ⟨v, hv⟩ := u32At_in (d := d) (p := p) (by omega)
    obtain ⟨l, hl⟩ := readULongs_in (d := d) (n := n) (p := p + 4) (by omega)
    refine ⟨v :: l, ?_⟩
    rw [readULongs, readULong_iff.2 ⟨hv, rfl⟩, Res.ok_bind]
    simp only []
    rw [hl, Res.ok_bind]
    simp only [Res.ok.injEq, Prod.mk.injEq, true_and]
    omega

theorem readMetrics_in {d : Bytes} : ∀ {n p : Nat}, p + 4 * n ≤ d.length → ∃ l, readMetrics d n p = .ok (l, p + 4 * n)
  | 0, p, _ => ⟨[], rfl⟩
  | n + 1, p, h => by
    obtain ⟨v, hv⟩ := u16At_in (d := d) (p := p) (by omega)
    obtain ⟨l, hl⟩ := readMetrics_in (d := d) (n := n) (p := p + 2 + 2) (by omega)
    refine ⟨v :: l, ?_⟩
    rw [readMetrics, readUShort_iff.2 ⟨hv, rfl⟩, Res.ok_bind]
    simp only []
    rw [hl, Res.ok_bind]
    simp only [Res.ok.injEq, Prod.mk.injEq, true_and]
    omega

theorem readEncodings_in {d : Bytes} : ∀ {n p : Nat}, p + 8 * n ≤ d.length → ∃ l, readEncodings d n p = .ok (l, p + 8 * n)
  | 0, p, _ => ⟨[], rfl⟩
  | n + 1, p, h => by
    obtain ⟨a, ha⟩ := u16At_in (d := d) (p := p) (by omega)
    obtain ⟨b, hb⟩ := u16At_in (d := d) (p := p + 2) (by omega)
    obtain ⟨o, ho⟩ := u32At_in (d := d) (p := p + 2 + 2) (by omega)
    obtain ⟨l, hl⟩ := readEncodings_in (d := d) (n := n) (p := p + 2 + 2 + 4) (by omega)
    refine ⟨(a, b, o) :: l, ?_⟩
    rw [readEncodings, readUShort_iff.2 ⟨ha, rfl⟩, Res.ok_bind]
    simp only []
    rw [readUShort_iff.2 ⟨hb, rfl⟩, Res.ok_bind]
    simp only []
    rw [readULong_iff.2 ⟨ho, rfl⟩, Res.ok_bind]
    simp only []
    rw [hl, Res.ok_bind]
    simp only [Res.ok.injEq, Prod.mk.injEq, true_and]
    omega

theorem readGroups_in {d : Bytes} : ∀ {n p : Nat}, p + 12 * n ≤ d.length → ∃ l, readGroups d n p = .ok l
  | 0, p, _ => ⟨[], rfl⟩
  | n + 1, p, h => by
    obtain ⟨a, ha⟩ := u32At_in (d := d) (p := p) (by omega)
    obtain ⟨b, hb⟩ := u32At_in (d := d) (p := p + 4) (by omega)
    obtain ⟨o, ho⟩ := u32At_in (d := d) (p := p + 4 + 4) (by omega)
    obtain ⟨l, hl⟩ := readGroups_in (d := d) (n := n) (p := p + 4 + 4 + 4) (by omega)
    refine ⟨⟨a, b, o⟩ :: l, ?_⟩
    rw [readGroups, readULong_iff.2 ⟨ha, rfl⟩, Res.ok_bind]
    simp only []
    rw [readULong_iff.2 ⟨hb, rfl⟩, Res.ok_bind]
    simp only []
    rw [readULong_iff.2 ⟨ho, rfl⟩, Res.ok_bind]
    simp only []
    rw [hl, Res.ok_bind]

theorem checkSegments_in {d : Bytes} {offset : Nat} : ∀ {l : List (Nat × Nat × Nat)} {i : Nat},
    (∀ j c1 c2 ro, l[j]? = some (c1, c2, ro) → ro ≠ 0 → c1 ≤ c2 → offset + 2 * (i + j) + ro + 2 * (c2 - c1) + 2 ≤ d.length) →
    checkSegments d offset i l = .ok ()
  | [], _, _ => rfl
  | (c1, c2, ro) :: rest, i, h => by
    have ih := checkSegments_in (d := d) (offset := offset) (l := rest) (i := i + 1) (fun j a b r hj h0 hle => by
      have := h (j + 1) a b r (by simpa using hj) h0 hle
      omega)
    rw [checkSegments]
    split
    · rename_i hro
      have hread : ∃ x, readUShorts d (min (c2 + 1) 0xFFFF - c1) (offset + 2 * i + ro) = .ok x := by
        by_cases hle : c1 ≤ c2
        · have := h 0 c1 c2 ro rfl (by omega) hle
          obtain ⟨l, hl⟩ := readUShorts_in (d := d) (n := min (c2 + 1) 0xFFFF - c1) (p := offset + 2 * i + ro) (by omega)
          exact ⟨_, hl⟩
        · have : min (c2 + 1) 0xFFFF - c1 = 0 := by omega
          rw [this]
          exact ⟨_, rfl⟩
      obtain ⟨x, hx⟩ := hread
      rw [hx, Res.ok_bind]
      exact ih
    · exact ih

theorem parseCmap12_in {d : Bytes} {t : Ttf} {p n : Nat} (hT : TablesOf d t) {r : Record} (hr : TableIs d b!"cmap" r) (hn : u16At d (r.off + 2) = some n)
    (hl : r.off + 4 + 8 * n ≤ d.length) (h12 : ∀ sub, EncodingIs d r.off 3 10 sub false → u16At d sub = some 12 ∧ u16At d (sub + 2) = some 0 ∧
      ∃ n, u32At d (sub + 12) = some n ∧ sub + 16 + 12 * n ≤ d.length) : ∃ t', parseCmap12 d t p = .ok t' := by
  unfold parseCmap12
  rw [hT.get hr, hT.table _ r hr]
  simp only [Option.elim_some, tableEntry]
  rw [readUShort_iff.2 ⟨hn, rfl⟩, Res.ok_bind]
  obtain ⟨encs, he⟩ := readEncodings_in (d := d) (n := n) (p := r.off + 4) (by omega)
  simp only []
  rw [show r.off + 2 + 2 = r.off + 4 from rfl, he, Res.ok_bind]
  simp only []
  cases hf : encs.find? (fun e => decide (e.1 = 3 ∧ e.2.1 = 10)) with
  | none => exact ⟨_, rfl⟩
  | some e =>
    obtain ⟨k1, k2, m, k3, k4⟩ := h12 _ ((encoding_first hn he).1 e hf)
    simp only []
    rw [readUShort_iff.2 ⟨k1, rfl⟩, Res.ok_bind]
    simp only [ne_eq, not_true, if_false]
    rw [readUShort_iff.2 ⟨k2, rfl⟩, Res.ok_bind]
    simp only [not_true, if_false]
    rw [readULong_iff.2 ⟨k3, rfl⟩, Res.ok_bind]
    simp only []
    obtain ⟨gs, hgs⟩ := readGroups_in (d := d) (n := m) (p := r.off + e.2.2 + 2 + 2 + 8 + 4) (by omega)
    rw [hgs, Res.ok_bind]
    exact ⟨_, rfl⟩

theorem encoding_found {d : Bytes} {cmap n a b sub : Nat} {l : List (Nat × Nat × Nat)} {q : Nat} (hn : u16At d (cmap + 2) = some n)
    (hl : readEncodings d n (cmap + 4) = .ok (l, q)) (h : EncodingIs d cmap a b sub true) :
    ∃ e, l.reverse.find? (fun e => e.1 = a ∧ e.2.1 = b) = some e ∧ sub = cmap + e.2.2 := by
  cases hf : l.reverse.find? (fun e => decide (e.1 = a ∧ e.2.1 = b)) with
  | none =>
    obtain ⟨n', i, o, hn', hi, h1, h2, -⟩ := h
    rw [hn] at hn'
    cases Option.some.inj hn'
    obtain ⟨k1, k2, -⟩ := readEncodings_iff.1 hl
    have hlt : i < l.length := by omega
    have := List.find?_eq_none.1 hf l[i] (List.mem_reverse.2 (List.getElem_mem hlt))
    obtain ⟨m1, m2, -⟩ := k2 i l[i] (List.getElem?_eq_getElem hlt)
    rw [h1] at m1
    rw [h2] at m2
    simp [← Option.some.inj m1, ← Option.some.inj m2] at this
  | some e => exact ⟨e, rfl, EncodingIs.unique h (encoding_last hn hl hf)⟩

theorem parseCmap_in {d : Bytes} {t : Ttf} {p : Nat} (hT : TablesOf d t) (h : FontFileOK d) : ∃ t', parseCmap d t p = .ok t' ∧ t'.tables = t.tables := by
  obtain ⟨r, n, sub, len, sc2, hr, hn, hl, hs, hne, h4, hlen, hsc, hle, hin, hok⟩ := h.cmap
  unfold parseCmap
  rw [hT.get hr, hT.table _ r hr]
  simp only [Option.elim_some, tableEntry]
  rw [readUShort_iff.2 ⟨hn, rfl⟩, Res.ok_bind]
  obtain ⟨encs, he⟩ := readEncodings_in (d := d) (n := n) (p := r.off + 4) (by omega)
  simp only []
  rw [show r.off + 2 + 2 = r.off + 4 from rfl, he, Res.ok_bind]
  obtain ⟨e, hf, rfl⟩ := encoding_found hn he hs
  simp only [hf]
  rw [if_neg (by omega), readUShort_iff.2 ⟨h4, rfl⟩, Res.ok_bind]
  simp only [ne_eq, not_true, if_false]
  rw [readUShort_iff.2 ⟨hlen, rfl⟩, Res.ok_bind]
  simp only []
  rw [readUShort_iff.2 ⟨hsc, rfl⟩, Res.ok_bind]
  simp only []
  obtain ⟨ends, he1⟩ := readUShorts_in (d := d) (n := sc2 / 2) (p := r.off + e.2.2 + 2 + 2 + 2 + 2 + 6) (by omega)
  rw [he1, Res.ok_bind]
  simp only []
  obtain ⟨starts, he2⟩ := readUShorts_in (d := d) (n := sc2 / 2) (p := r.off + e.2.2 + 2 + 2 + 2 + 2 + 6 + 2 * (sc2 / 2) + 2) (by omega)
  rw [he2, Res.ok_bind]
  simp only []
  obtain ⟨deltas, he3⟩ := readUShorts_in (d := d) (n := sc2 / 2) (p := r.off + e.2.2 + 2 + 2 + 2 + 2 + 6 + 2 * (sc2 / 2) + 2 + 2 * (sc2 / 2)) (by omega)
  rw [he3, Res.ok_bind]
  simp only []
  obtain ⟨ros, he4⟩ := readUShorts_in (d := d) (n := sc2 / 2) (p := r.off + e.2.2 + 2 + 2 + 2 + 2 + 6 + 2 * (sc2 / 2) + 2 + 2 * (sc2 / 2) + 2 * (sc2 / 2)) (by omega)
  rw [he4, Res.ok_bind]
  simp only []
  rw [if_neg (by omega)]
  obtain ⟨ids, he5⟩ := readUShorts_in (d := d) (n := (len - (16 + 8 * (sc2 / 2))) / 2) (p := r.off + e.2.2 + 2 + 2 + 2 + 2 + 6 + 2 * (sc2 / 2) + 2 + 2 * (sc2 / 2) + 2 * (sc2 / 2) + 2 * (sc2 / 2)) (by omega)
  rw [he5, Res.ok_bind]
  simp only []
  obtain ⟨l1, k1, -⟩ := readUShorts_iff.1 he1
  obtain ⟨l2, k2, -⟩ := readUShorts_iff.1 he2
  obtain ⟨l4, k4, -⟩ := readUShorts_iff.1 he4
  rw [checkSegments_in (fun j c1 c2 ro hj h0 hc => ?_), Res.ok_bind]
  · have hT' : TablesOf d { t with segCount := sc2 / 2, endCount := ends, startCount := starts, idDelta := deltas, idRangeOffset := ros, glyphIdArray := ids } := hT.congr rfl
    obtain ⟨t', ht'⟩ := parseCmap12_in (p := r.off + e.2.2 + 2 + 2 + 2 + 2 + 6 + 2 * (sc2 / 2) + 2 + 2 * (sc2 / 2) + 2 * (sc2 / 2) + 2 * (sc2 / 2) + 2 * ((len - (16 + 8 * (sc2 / 2))) / 2)) hT' hr hn hl (fun sub hsub => h.cmap12 r sub hr hsub)
    refine ⟨t', ht', ?_⟩
    unfold parseCmap12 at ht'
    simp only [Res.bind_eq_ok] at ht'
    obtain ⟨⟨_, _⟩, _, ⟨encs', _⟩, _, h3⟩ := ht'
    simp only [] at h3
    split at h3
    · cases Res.ok.inj h3; rfl
    · simp only [Res.bind_eq_ok] at h3
      obtain ⟨⟨f, _⟩, _, h5⟩ := h3
      simp only [] at h5
      split at h5
      · exact absurd h5 (by simp)
      · simp only [Res.bind_eq_ok] at h5
        obtain ⟨⟨rr, _⟩, _, h7⟩ := h5
        simp only [] at h7
        split at h7
        · exact absurd h7 (by simp)
        · simp only [Res.bind_eq_ok] at h7
          obtain ⟨⟨_, _⟩, _, gs, _, h10⟩ := h7
          cases Res.ok.inj h10; rfl
  · obtain ⟨g1, g2⟩ := List.getElem?_zip_eq_some.1 hj
    obtain ⟨g2, g3⟩ := List.getElem?_zip_eq_some.1 g2
    have hj1 : j < starts.length := (List.getElem?_eq_some_iff.1 g1).1
    rw [← k2 j hj1] at g1
    rw [← k1 j (by omega)] at g2
    rw [← k4 j (by omega)] at g3
    obtain ⟨-, -, m3⟩ := hok.inside len sc2 j c1 c2 ro hlen hsc (by omega)
      (by rw [← g1]; congr 1; omega) (by rw [← g2]) (by rw [← g3]; congr 1; omega) h0
    have := m3 hc
    omega

theorem nameLoop_in {d : Bytes} {base so len off : Nat} : ∀ {n i p : Nat}, i < n → (∀ j < i, ∃ id, u16At d (p + 12 * j + 6) = some id ∧ id ≠ 6) →
    p + 12 * i + 12 ≤ d.length → u16At d (p + 12 * i + 6) = some 6 → u16At d (p + 12 * i + 8) = some len → u16At d (p + 12 * i + 10) = some off →
    base + so + off + len ≤ d.length → 0 < len →
    nameLoop d base so n p = .ok ((bytesAt d (base + so + off) len).filter (fun c => c ≠ 0 ∧ c ≠ 48))
  | 0, _, _, h, _, _, _, _, _, _, _ => absurd h (by omega)
  | n + 1, 0, p, _, _, _, h1, h2, h3, h4, h5 => by
    rw [nameLoop, readUShort_iff.2 ⟨h1, rfl⟩, Res.ok_bind]
    simp only []
    rw [readUShort_iff.2 ⟨h2, rfl⟩, Res.ok_bind]
    simp only []
    rw [readUShort_iff.2 ⟨h3, rfl⟩, Res.ok_bind]
    simp only [if_true]
    rw [rd_iff.2 ⟨by omega, h4, rfl, rfl⟩, Res.ok_bind]
  | n + 1, i + 1, p, hi, hb, hl, h1, h2, h3, h4, h5 => by
    obtain ⟨id, hid, hne⟩ := hb 0 (by omega)
    obtain ⟨a, ha⟩ := u16At_in (d := d) (p := p + 6 + 2) (by omega)
    obtain ⟨b, hb'⟩ := u16At_in (d := d) (p := p + 6 + 2 + 2) (by omega)
    rw [nameLoop, readUShort_iff.2 ⟨hid, rfl⟩, Res.ok_bind]
    simp only []
    rw [show p + 12 * 0 + 6 + 2 = p + 6 + 2 from rfl, readUShort_iff.2 ⟨ha, rfl⟩, Res.ok_bind]
    simp only []
    rw [readUShort_iff.2 ⟨hb', rfl⟩, Res.ok_bind]
    simp only [hne, if_false]
    refine nameLoop_in (i := i) (p := p + 6 + 2 + 2 + 2) (by omega) (fun j hj => ?_) (by omega) ?_ ?_ ?_ h4 h5
    · obtain ⟨id', h', hn'⟩ := hb (j + 1) (by omega)
      exact ⟨id', by rw [← h']; congr 1; omega, hn'⟩
    · rw [← h1]; congr 1; omega
    · rw [← h2]; congr 1; omega
    · rw [← h3]; congr 1; omega

theorem parseName_in {d : Bytes} {t : Ttf} (hT : TablesOf d t) (h : FontFileOK d) : parseName d t = .ok () := by
  obtain ⟨r, n, so, i, len, off, hr, hn, hso, hi, hb, h6, hlen, hoff, hin, c, hc, hc0⟩ := h.name
  unfold parseName
  rw [hT.seek.2 ⟨r, hr, rfl⟩, Res.ok_bind, readUShort_iff.2 ⟨hn, rfl⟩, Res.ok_bind]
  simp only []
  rw [readUShort_iff.2 ⟨hso, rfl⟩, Res.ok_bind]
  simp only []
  have hpos : 0 < len := by
    rcases Nat.eq_zero_or_pos len with h0 | h0
    · subst h0; simp [bytesAt] at hc
    · exact h0
  have := u16At_some hoff
  rw [nameLoop_in (i := i) hi hb (by omega) h6 hlen hoff hin hpos, Res.ok_bind]
  rw [if_neg]
  intro he
  have : c ∈ (bytesAt d (r.off + so + off) len).filter (fun c => decide (c ≠ 0 ∧ c ≠ 48)) := List.mem_filter.2 ⟨hc, by simpa using hc0⟩
  rw [he] at this
  simp at this

/-- **C77** (good files).  Every sound font file is accepted. -/
theorem C77_accepted {d : Bytes} (h : FontFileOK d) : ∃ t, parseTtf d = .ok t := by
  obtain ⟨n, hn, hdir⟩ := h.directory
  have hlen4 : 6 ≤ d.length := u16At_some hn
  unfold parseTtf
  rw [rd_iff.2 ⟨by omega, by omega, rfl, rfl⟩, Res.ok_bind]
  simp only [h.version, ne_eq, not_true, if_false]
  rw [readUShort_iff.2 ⟨hn, rfl⟩, Res.ok_bind]
  simp only []
  obtain ⟨ts, q, hts⟩ := readDirectory_ok (d := d) (n := n) (k := 0) (acc := []) (fun i _ hi => hdir i (by omega))
  have hts : readDirectory d n 12 [] = .ok (ts, q) := hts
  rw [hts, Res.ok_bind]
  simp only []
  have hT : TablesOf d { tables := ts, unitsPerEm := 0 } := tables_of_directory hn hts rfl
  obtain ⟨rh, hrh, hmagic, hrl⟩ := h.head
  obtain ⟨u, hu⟩ := u16At_in (d := d) (p := rh.off + 18) (by omega)
  obtain ⟨x1, hx1⟩ := i16At_in (d := d) (p := rh.off + 36) (by omega)
  obtain ⟨x2, hx2⟩ := i16At_in (d := d) (p := rh.off + 38) (by omega)
  obtain ⟨x3, hx3⟩ := i16At_in (d := d) (p := rh.off + 40) (by omega)
  obtain ⟨x4, hx4⟩ := i16At_in (d := d) (p := rh.off + 42) (by omega)
  obtain ⟨x5, hx5⟩ := i16At_in (d := d) (p := rh.off + 50) (by omega)
  rw [parseHead_ok hT hrh hmagic hu hx1 hx2 hx3 hx4 hx5, Res.ok_bind]
  have hT := hT.congr (t' := { tables := ts, unitsPerEm := u, xMin := x1, yMin := x2, xMax := x3, yMax := x4, indexToLocFormat := x5 }) rfl
  obtain ⟨rhh, rm, nm, hrhh, hnm, hpos, hrm, hrml⟩ := h.hmtx
  have := u16At_some hnm
  obtain ⟨y1, hy1⟩ := i16At_in (d := d) (p := rhh.off + 4) (by omega)
  obtain ⟨y2, hy2⟩ := i16At_in (d := d) (p := rhh.off + 6) (by omega)
  rw [parseHhea_ok hT hrhh hy1 hy2 hnm, Res.ok_bind]
  have hT := hT.congr (t' := { tables := ts, unitsPerEm := u, xMin := x1, yMin := x2, xMax := x3, yMax := x4, indexToLocFormat := x5, ascender := y1, descender := y2, numberOfHMetrics := nm }) rfl
  obtain ⟨rx, hrx, hrxl⟩ := h.maxp
  obtain ⟨ng, hng⟩ := u16At_in (d := d) (p := rx.off + 4) (by omega)
  rw [parseMaxp_ok hT hrx hng, Res.ok_bind]
  simp only []
  have hT := hT.congr (t' := { tables := ts, unitsPerEm := u, xMin := x1, yMin := x2, xMax := x3, yMax := x4, indexToLocFormat := x5, ascender := y1, descender := y2, numberOfHMetrics := nm, numGlyphs := ng }) rfl
  have hHmtx : ∃ t q, parseHmtx d { tables := ts, unitsPerEm := u, xMin := x1, yMin := x2, xMax := x3, yMax := x4, indexToLocFormat := x5, ascender := y1, descender := y2, numberOfHMetrics := nm, numGlyphs := ng } (rx.off + 4 + 2) = .ok (t, q) ∧ TablesOf d t := by
    rcases parseHmtx_calm d { tables := ts, unitsPerEm := u, xMin := x1, yMin := x2, xMax := x3, yMax := x4, indexToLocFormat := x5, ascender := y1, descender := y2, numberOfHMetrics := nm, numGlyphs := ng } (rx.off + 4 + 2) with (⟨⟨t, q⟩, ht⟩ | ⟨e, he⟩) | ⟨-, hz, -⟩
    · obtain ⟨ws, rfl, -⟩ := parseHmtx_spec hT ht
      exact ⟨_, q, ht, hT.congr rfl⟩
    · exfalso
      unfold parseHmtx at he
      obtain ⟨ws, hws⟩ := readMetrics_in (d := d) (n := nm) (p := rm.off) hrml
      simp only [hT.table _ rm hrm] at he
      have hws : readMetrics d nm (tableEntry rm).offset = .ok (ws, rm.off + 4 * nm) := hws
      simp only [Option.elim_some, hws, Res.ok_bind] at he
      split at he
      · split at he
        · exact absurd he (by simp)
        · exact absurd he (by simp)
      · exact absurd he (by simp)
    · exact absurd hz (by show ¬ nm = 0; omega)
  obtain ⟨t4, p4, ht4, hT4⟩ := hHmtx
  rw [ht4, Res.ok_bind]
  simp only []
  obtain ⟨t5, ht5, htab⟩ := parseCmap_in (p := p4) hT4 h
  have hT5 := hT4.congr htab
  rw [ht5, Res.ok_bind, parseName_in hT5 h, Res.ok_bind]
  obtain ⟨ro, v, hro, hv, hrol, hrol2⟩ := h.os2
  have hOS2 : ∃ t6, parseOS2 d t5 = .ok t6 ∧ TablesOf d t6 := by
    unfold parseOS2
    obtain ⟨z1, hz1⟩ := u16At_in (d := d) (p := ro.off + 2 + 6) (by omega)
    obtain ⟨z2, hz2⟩ := u16At_in (d := d) (p := ro.off + 2 + 6 + 2 + 52) (by omega)
    obtain ⟨z3, hz3⟩ := i16At_in (d := d) (p := ro.off + 2 + 6 + 2 + 52 + 2 + 4) (by omega)
    obtain ⟨z4, hz4⟩ := i16At_in (d := d) (p := ro.off + 2 + 6 + 2 + 52 + 2 + 4 + 2) (by omega)
    obtain ⟨z5, hz5⟩ := i16At_in (d := d) (p := ro.off + 2 + 6 + 2 + 52 + 2 + 4 + 2 + 2) (by omega)
    obtain ⟨z6, hz6⟩ := u16At_in (d := d) (p := ro.off + 2 + 6 + 2 + 52 + 2 + 4 + 2 + 2 + 2) (by omega)
    obtain ⟨z7, hz7⟩ := u16At_in (d := d) (p := ro.off + 2 + 6 + 2 + 52 + 2 + 4 + 2 + 2 + 2 + 2) (by omega)
    rw [hT5.seek.2 ⟨ro, hro, rfl⟩, Res.ok_bind, readUShort_iff.2 ⟨hv, rfl⟩, Res.ok_bind]
    simp only []
    rw [readUShort_iff.2 ⟨hz1, rfl⟩, Res.ok_bind]
    simp only []
    rw [readUShort_iff.2 ⟨hz2, rfl⟩, Res.ok_bind]
    simp only []
    rw [readShort_iff.2 ⟨hz3, rfl⟩, Res.ok_bind]
    simp only []
    rw [readShort_iff.2 ⟨hz4, rfl⟩, Res.ok_bind]
    simp only []
    rw [readShort_iff.2 ⟨hz5, rfl⟩, Res.ok_bind]
    simp only []
    rw [readUShort_iff.2 ⟨hz6, rfl⟩, Res.ok_bind]
    simp only []
    rw [readUShort_iff.2 ⟨hz7, rfl⟩, Res.ok_bind]
    simp only []
    by_cases hv2 : v ≥ 2
    · rw [if_pos hv2]
      have := hrol2 hv2
      obtain ⟨z8, hz8⟩ := i16At_in (d := d) (p := ro.off + 2 + 6 + 2 + 52 + 2 + 4 + 2 + 2 + 2 + 2 + 2 + 8) (by omega)
      obtain ⟨z9, hz9⟩ := i16At_in (d := d) (p := ro.off + 2 + 6 + 2 + 52 + 2 + 4 + 2 + 2 + 2 + 2 + 2 + 8 + 2) (by omega)
      rw [readShort_iff.2 ⟨hz8, rfl⟩, Res.ok_bind]
      simp only []
      rw [readShort_iff.2 ⟨hz9, rfl⟩, Res.ok_bind]
      exact ⟨_, rfl, hT5.congr rfl⟩
    · rw [if_neg hv2]
      exact ⟨_, rfl, hT5.congr rfl⟩
  obtain ⟨t6, ht6, hT6⟩ := hOS2
  rw [ht6, Res.ok_bind]
  obtain ⟨rp, hrp, hrpl⟩ := h.post
  have hPost : ∃ t7, parsePost d t6 = .ok t7 ∧ TablesOf d t7 := by
    unfold parsePost
    obtain ⟨z1, hz1⟩ := i16At_in (d := d) (p := rp.off + 4) (by omega)
    obtain ⟨z2, hz2⟩ := i16At_in (d := d) (p := rp.off + 4 + 2 + 2) (by omega)
    obtain ⟨z3, hz3⟩ := i16At_in (d := d) (p := rp.off + 4 + 2 + 2 + 2) (by omega)
    obtain ⟨z4, hz4⟩ := u32At_in (d := d) (p := rp.off + 4 + 2 + 2 + 2 + 2) (by omega)
    rw [hT6.seek.2 ⟨rp, hrp, rfl⟩, Res.ok_bind, readShort_iff.2 ⟨hz1, rfl⟩, Res.ok_bind]
    simp only []
    rw [readShort_iff.2 ⟨hz2, rfl⟩, Res.ok_bind]
    simp only []
    rw [readShort_iff.2 ⟨hz3, rfl⟩, Res.ok_bind]
    simp only []
    rw [readULong_iff.2 ⟨hz4, rfl⟩, Res.ok_bind]
    exact ⟨_, rfl, hT6.congr rfl⟩
  obtain ⟨t7, ht7, hT7⟩ := hPost
  rw [ht7, Res.ok_bind]
  obtain ⟨rl, hrl, hrll⟩ := h.loca
  have hLoca : ∃ t8, parseLoca d t7 = .ok t8 := by
    unfold parseLoca
    rw [hT7.seek.2 ⟨rl, hrl, rfl⟩, Res.ok_bind, hT7.get hrl]
    simp only [tableEntry]
    split
    · obtain ⟨l, hl⟩ := readUShorts_in (d := d) (n := rl.len / 2) (p := rl.off) (by omega)
      rw [hl, Res.ok_bind]
      exact ⟨_, rfl⟩
    · obtain ⟨l, hl⟩ := readULongs_in (d := d) (n := rl.len / 4) (p := rl.off) (by omega)
      rw [hl, Res.ok_bind]
      exact ⟨_, rfl⟩
  obtain ⟨t8, ht8⟩ := hLoca
  rw [ht8, Res.ok_bind]
  exact ⟨_, rfl⟩

end Verif
