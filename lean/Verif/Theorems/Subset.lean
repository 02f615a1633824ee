import Verif.Theorems.FontFile
/-
C28, C29: which outlines the embedded font contains.
-/
namespace Verif
open Spec

/-! ### sorting -/

theorem mem_insertNat {a b : Nat} {l : List Nat} : a ∈ insertNat b l ↔ a = b ∨ a ∈ l := by
  induction l with
  | nil => simp [insertNat]
  | cons c l ih =>
    rw [insertNat]
    split
    · simp
    · simp only [List.mem_cons, ih]
      constructor
      · rintro (h | h | h) <;> simp [h]
      · rintro (h | h | h) <;> simp [h]

theorem mem_sortNat {a : Nat} {l : List Nat} : a ∈ sortNat l ↔ a ∈ l := by
  induction l with
  | nil => simp [sortNat]
  | cons b l ih => rw [sortNat, mem_insertNat, ih, List.mem_cons]

theorem insertNat_sorted {a : Nat} {l : List Nat} (h : l.Pairwise (· < ·)) (ha : a ∉ l) : (insertNat a l).Pairwise (· < ·) := by
  induction l with
  | nil => simp [insertNat]
  | cons b l ih =>
    rw [List.pairwise_cons] at h
    rw [List.mem_cons, not_or] at ha
    rw [insertNat]
    split
    · rename_i hle
      rw [List.pairwise_cons]
      refine ⟨?_, by rw [List.pairwise_cons]; exact h⟩
      intro x hx
      rw [List.mem_cons] at hx
      rcases hx with rfl | hx
      · omega
      · have := h.1 x hx; omega
    · rw [List.pairwise_cons]
      refine ⟨?_, ih h.2 ha.2⟩
      intro x hx
      rw [mem_insertNat] at hx
      rcases hx with rfl | hx
      · omega
      · exact h.1 x hx

theorem sortNat_sorted {l : List Nat} (h : l.Nodup) : (sortNat l).Pairwise (· < ·) := by
  induction l with
  | nil => simp [sortNat]
  | cons a l ih =>
    rw [List.nodup_cons] at h
    exact insertNat_sorted (ih h.2) (by rw [mem_sortNat]; exact h.1)

/-! ### the glyph loop -/

/-- start positions of consecutive pieces -/
def starts : Nat → List Bytes → List Nat
  | _, [] => []
  | o, d :: ds => o :: starts (o + d.length) ds

theorem starts_get (ds : List Bytes) : ∀ (o j : Nat), j ≤ ds.length →
    (starts o ds ++ [o + ds.flatten.length])[j]? = some (o + (ds.take j).flatten.length) := by
  induction ds with
  | nil => intro o j h; simp at h; subst h; simp [starts]
  | cons d ds ih =>
    intro o j h
    cases j with
    | zero => simp [starts]
    | succ j =>
      have := ih (o + d.length) j (by simpa using h)
      simp only [starts, List.cons_append, List.getElem?_cons_succ, List.flatten_cons, List.length_append, List.take_succ_cons]
      rw [← Nat.add_assoc, this, Nat.add_assoc]

theorem starts_length (ds : List Bytes) : ∀ o, (starts o ds).length = ds.length := by
  induction ds with
  | nil => intro o; rfl
  | cons d ds ih => intro o; simp [starts, ih]

theorem glyfLoop_spec {t : Ttf} {cap : Nat} : ∀ (n k : Nat) (todo : List Nat) (out : Bytes) (loca : List Nat) (r : Bytes × List Nat),
    todo.Pairwise (· < ·) → (∀ g ∈ todo, k ≤ g) → glyfLoop t cap (List.range' k n) todo out loca = .ok r →
    ∃ ds : List Bytes, ds.length = n ∧ (∀ (j : Nat) (d : Bytes), ds[j]? = some d → (k + j ∈ todo → glyphData t (k + j) = .ok d) ∧ (k + j ∉ todo → d = [])) ∧
      r = (out ++ ds.flatten, loca ++ starts out.length ds) := by
  intro n
  induction n with
  | zero =>
    intro k todo out loca r _ _ h
    simp [glyfLoop] at h
    exact ⟨[], rfl, by simp, by simp [starts, ← h]⟩
  | succ n ih =>
    intro k todo out loca r hs hge h
    rw [List.range'_succ, glyfLoop] at h
    split at h
    · rename_i hh
      rw [Res.bind_eq_ok] at h
      obtain ⟨d, hd, h⟩ := h
      split at h
      · simp at h
      · cases todo with
        | nil => simp at hh
        | cons g rest =>
          simp only [List.head?_cons, Option.some.injEq] at hh
          subst hh
          rw [List.pairwise_cons] at hs
          simp only [List.tail_cons] at h
          obtain ⟨ds, h1, h2, h3⟩ := ih (g + 1) rest (out ++ d) _ r hs.2 (fun x hx => hs.1 x hx) h
          refine ⟨d :: ds, by simp [h1], ?_, ?_⟩
          · intro j d' hj
            cases j with
            | zero =>
              simp only [List.getElem?_cons_zero, Option.some.injEq] at hj
              subst hj
              refine ⟨fun _ => hd, fun hn => ?_⟩
              simp at hn
            | succ j =>
              rw [List.getElem?_cons_succ] at hj
              have := h2 j d' hj
              have e : g + (j + 1) = g + 1 + j := by omega
              rw [e]
              refine ⟨fun hm => this.1 ?_, fun hm => this.2 ?_⟩
              · rw [List.mem_cons] at hm
                rcases hm with hm | hm
                · omega
                · exact hm
              · intro hm'
                exact hm (by simp [hm'])
          · rw [h3]
            simp [starts, List.append_assoc]
    · rename_i hh
      have hk : k ∉ todo := by
        intro hm
        cases todo with
        | nil => simp at hm
        | cons g rest =>
          rw [List.pairwise_cons] at hs
          simp only [List.head?_cons, Option.some.injEq] at hh
          rw [List.mem_cons] at hm
          rcases hm with rfl | hm
          · exact hh rfl
          · have := hs.1 k hm
            have := hge g (by simp)
            omega
      obtain ⟨ds, h1, h2, h3⟩ := ih (k + 1) todo out _ r hs (fun x hx => by
        have := hge x hx
        have : x ≠ k := fun e => hk (e ▸ hx)
        omega) h
      refine ⟨[] :: ds, by simp [h1], ?_, ?_⟩
      · intro j d' hj
        cases j with
        | zero =>
          simp only [List.getElem?_cons_zero, Option.some.injEq] at hj
          subst hj
          exact ⟨fun hm => absurd hm hk, fun _ => rfl⟩
        | succ j =>
          rw [List.getElem?_cons_succ] at hj
          have := h2 j d' hj
          have e : k + (j + 1) = k + 1 + j := by omega
          rw [e]
          exact this
      · rw [h3]
        simp [starts, List.append_assoc]

/-! ### outlines of the source font -/

theorem LocaOK_get {t : Ttf} (h : LocaOK t) {g : Nat} (hg : g < t.numGlyphs) :
    ∃ a b, t.locaTable[g]? = some a ∧ t.locaTable[g + 1]? = some b ∧ a ≤ b ∧ a ∈ t.locaTable ∧ b ∈ t.locaTable := by
  have h1 : g < t.locaTable.length := by rw [h.len]; omega
  have h2 : g + 1 < t.locaTable.length := by rw [h.len]; omega
  refine ⟨t.locaTable[g], t.locaTable[g + 1], List.getElem?_eq_getElem h1, List.getElem?_eq_getElem h2, ?_, List.getElem_mem h1, List.getElem_mem h2⟩
  exact List.pairwise_iff_getElem.1 h.mono g (g + 1) h1 h2 (by omega)

theorem glyphData_src {t : Ttf} (h : LocaOK t) {g : Nat} (hg : g < t.numGlyphs) :
    glyphData t g = .ok (srcOutline t g) ∧ ∃ a b, t.locaTable[g]? = some a ∧ t.locaTable[g + 1]? = some b ∧ a ≤ b ∧ (srcOutline t g).length = b - a := by
  obtain ⟨a, b, ha, hb, hab, hma, hmb⟩ := LocaOK_get h hg
  have hin := h.inside b hmb
  have hsrc : srcOutline t g = ((t.fontData.drop ((t.table b!"glyf").offset + a)).take (b - a)) := by
    unfold srcOutline bytesAt
    simp [List.getD, ha, hb]
  refine ⟨?_, a, b, ha, hb, hab, ?_⟩
  · unfold glyphData glyphOffset
    rw [ha, hb]
    simp only [Res.ofOption_some, Res.ok_bind]
    split
    · rename_i hle
      have : a = b := by omega
      subst this
      rw [hsrc]
      simp
    · unfold slice
      rw [if_pos (by omega), hsrc]
      congr 2
      omega
  · rw [hsrc, List.length_take, List.length_drop]
    omega

/-! ### reading numbers from a table of numbers -/

theorem u16At_flat (f : Nat → Nat) (l : List Nat) (rest : Bytes) : ∀ (j v : Nat), l[j]? = some v →
    u16At (l.flatMap (fun v => be16 (f v)) ++ rest) (2 * j) = some (f v % 65536) := by
  induction l with
  | nil => intro j v h; simp at h
  | cons a l ih =>
    intro j v h
    rw [List.flatMap_cons, List.append_assoc]
    cases j with
    | zero =>
      simp only [List.getElem?_cons_zero, Option.some.injEq] at h
      subst h
      exact u16At_be16 _ _
    | succ j =>
      rw [List.getElem?_cons_succ] at h
      have := u16At_right (be16 (f a)) (l.flatMap (fun v => be16 (f v)) ++ rest) (2 * j)
      rw [be16_length] at this
      rw [show 2 * (j + 1) = 2 + 2 * j by omega, this]
      exact ih j v h

theorem u32At_flat (l : List Nat) (rest : Bytes) : ∀ (j v : Nat), l[j]? = some v →
    u32At (l.flatMap be32 ++ rest) (4 * j) = some (v % 4294967296) := by
  induction l with
  | nil => intro j v h; simp at h
  | cons a l ih =>
    intro j v h
    rw [List.flatMap_cons, List.append_assoc]
    cases j with
    | zero =>
      simp only [List.getElem?_cons_zero, Option.some.injEq] at h
      subst h
      exact u32At_be32 _ _
    | succ j =>
      rw [List.getElem?_cons_succ] at h
      have := u32At_right (be32 a) (l.flatMap be32 ++ rest) (4 * j)
      rw [be32_length] at this
      rw [show 4 * (j + 1) = 4 + 4 * j by omega, this]
      exact ih j v h

/-- locations read back -/
theorem locAt_locaBytes {short : Bool} {l : List Nat} {j v : Nat} (h : l[j]? = some v) (hs : short = true → v % 2 = 0 ∧ v < 131072)
    (hv : v < 4294967296) (A rest : Bytes) : locAt (A ++ locaBytes short l ++ rest) short A.length j = some v := by
  unfold locAt locaBytes
  cases short
  · simp only [Bool.false_eq_true, if_false, List.append_assoc]
    rw [u32At_right, u32At_flat _ _ _ _ h, Nat.mod_eq_of_lt hv]
  · obtain ⟨h1, h2⟩ := hs rfl
    simp only [if_true, List.append_assoc]
    rw [u16At_right, u16At_flat (fun v => v / 2) _ _ _ _ h]
    simp only [Option.map_some, Option.some.injEq]
    omega

/-- a piece of a concatenation -/
theorem bytesAt_flatten (ds : List Bytes) (rest : Bytes) : ∀ (j : Nat) (d : Bytes), ds[j]? = some d →
    bytesAt (ds.flatten ++ rest) (ds.take j).flatten.length d.length = d ∧ (ds.take (j + 1)).flatten.length = (ds.take j).flatten.length + d.length := by
  induction ds with
  | nil => intro j d h; simp at h
  | cons a ds ih =>
    intro j d h
    cases j with
    | zero =>
      simp only [List.getElem?_cons_zero, Option.some.injEq] at h
      subst h
      simp [bytesAt]
    | succ j =>
      rw [List.getElem?_cons_succ] at h
      obtain ⟨h1, h2⟩ := ih j d h
      refine ⟨?_, ?_⟩
      · simp only [List.flatten_cons, List.take_succ_cons, List.length_append, List.append_assoc]
        rw [bytesAt_right, h1]
      · simp only [List.take_succ_cons, List.flatten_cons, List.length_append] at h2 ⊢
        omega

theorem flatten_take_le (ds : List Bytes) (j : Nat) : (ds.take j).flatten.length ≤ ds.flatten.length := by
  conv_rhs => rw [← List.take_append_drop j ds]
  rw [List.flatten_append, List.length_append]
  omega

theorem bytesAt_left {a b : Bytes} {i n : Nat} (h : i + n ≤ a.length) : bytesAt (a ++ b) i n = bytesAt a i n := by
  unfold bytesAt
  rw [List.drop_append_of_le_length (by omega), List.take_append_of_le_length (by rw [List.length_drop]; omega)]

/-! ### C28 -/

/-- The glyphs of `arr` and only these have their outline in the file: each used glyph the source font's bytes, every other glyph
an empty outline. -/
def Spec.Embeds (t : Ttf) (b : Bytes) (arr : List Nat) : Prop :=
  ∀ g < t.numGlyphs, OutlineIs b t.isShort g (if g ∈ arr then srcOutline t g else [])

theorem embeds_of_nodup {t : Ttf} {m : CharMap} {b : Bytes} {arr : List Nat} (hb : makeFont t m = .ok b) (hlt : b.length < 4294967296)
    (hl : LocaOK t) (harr : glyphClosure t m = .ok arr) (hn : arr.Nodup) : Embeds t b arr := by
  obtain ⟨glyf, loca, rows, hg, hr⟩ := makeFont_rows hb
  have hmod := makeGlyfLoca_mod hg
  obtain ⟨hhl, h9⟩ := hr.head_length
  -- the glyph table and the locations
  unfold makeGlyfLoca at hg
  rw [harr] at hg
  simp only [Res.ok_bind] at hg
  rw [Res.bind_eq_ok] at hg
  obtain ⟨size, _, hg⟩ := hg
  split at hg
  · simp at hg
  rw [Res.bind_eq_ok] at hg
  obtain ⟨r, hloop, hg⟩ := hg
  rw [List.range_eq_range'] at hloop
  obtain ⟨ds, hdl, hds, rfl⟩ := glyfLoop_spec _ 0 _ _ _ _ (sortNat_sorted hn) (fun _ _ => Nat.zero_le _) hloop
  simp only [List.nil_append, List.length_nil, Res.ok.injEq, Prod.mk.injEq] at hg
  obtain ⟨hglyf, hloca⟩ := hg
  -- each piece
  have hpiece : ∀ (j : Nat) (d : Bytes), ds[j]? = some d → d = if j ∈ arr then srcOutline t j else [] := by
    intro j d hj
    have hjn : j < t.numGlyphs := by rw [← hdl]; exact (List.getElem?_eq_some_iff.1 hj).1
    have := hds j d hj
    rw [Nat.zero_add, mem_sortNat] at this
    split
    · rename_i hm
      have h1 := this.1 hm
      rw [(glyphData_src hl hjn).1] at h1
      simp only [Res.ok.injEq] at h1
      exact h1.symm
    · rename_i hm
      exact this.2 hm
  -- prefix sums are bounded by the source locations
  have hbound : ∀ (j a : Nat), t.locaTable[j]? = some a → (ds.take j).flatten.length ≤ a ∧ (t.isShort = true → (ds.take j).flatten.length % 2 = 0) := by
    intro j
    induction j with
    | zero => intro a _; simp
    | succ j ih =>
      intro a ha
      have hjl : j + 1 < t.locaTable.length := (List.getElem?_eq_some_iff.1 ha).1
      have hjn : j < t.numGlyphs := by rw [hl.len] at hjl; omega
      obtain ⟨_, a0, b0, ha0, hb0, hab, hlen⟩ := glyphData_src hl hjn
      rw [ha] at hb0
      simp only [Option.some.injEq] at hb0
      subst hb0
      obtain ⟨ih1, ih2⟩ := ih a0 ha0
      have hdj : ds[j]? = some ds[j] := List.getElem?_eq_getElem (by omega)
      rw [(bytesAt_flatten ds [] j _ hdj).2]
      have hd := hpiece j _ hdj
      have hdlen : ds[j].length ≤ a - a0 ∧ (t.isShort = true → ds[j].length % 2 = 0) := by
        rw [hd]
        split
        · rw [hlen]
          refine ⟨le_refl _, fun hs => ?_⟩
          have e1 := (hl.even hs a (List.mem_of_getElem? ha)).1
          have e2 := (hl.even hs a0 (List.mem_of_getElem? ha0)).1
          omega
        · simp
      refine ⟨by omega, fun hs => ?_⟩
      have := ih2 hs
      have := hdlen.2 hs
      omega
  have hloc : ∀ (j : Nat), j ≤ t.numGlyphs → loca[j]? = some ((ds.take j).flatten.length) ∧ (ds.take j).flatten.length < 4294967296 ∧
      (t.isShort = true → (ds.take j).flatten.length % 2 = 0 ∧ (ds.take j).flatten.length < 131072) := by
    intro j hj
    have h1 := starts_get ds 0 j (by omega)
    rw [Nat.zero_add, Nat.zero_add] at h1
    have hjl : j < t.locaTable.length := by rw [hl.len]; omega
    obtain ⟨h2, h3⟩ := hbound j _ (List.getElem?_eq_getElem hjl)
    have h4 := hl.small _ (List.getElem_mem hjl)
    refine ⟨by rw [← hloca]; exact h1, by omega, fun hs => ⟨h3 hs, ?_⟩⟩
    have := (hl.even hs _ (List.getElem_mem hjl)).2
    omega
  -- the rows of the two tables
  have hrow : ∀ (i : Nat) (tag : Bytes), fontTags[i]? = some tag → ∃ e d, rows[i]? = some (tag, e, d) ∧ tableRow t glyf loca tag = .ok (e, d) := by
    intro i tag hi
    rw [← hr.tags, List.getElem?_map, Option.map_eq_some_iff] at hi
    obtain ⟨⟨tag', e, d⟩, h1, h2⟩ := hi
    simp only at h2
    subst h2
    exact ⟨e, d, h1, hr.row _ (List.mem_of_getElem? h1)⟩
  obtain ⟨eg, dg, hg1, hg2⟩ := hrow 2 b!"glyf" (by decide)
  obtain ⟨el, dl, hl1, hl2⟩ := hrow 6 b!"loca" (by decide)
  have fg := tableRow_facts hmod hg2
  have fl := tableRow_facts hmod hl2
  obtain ⟨rfl, hegl⟩ := fg.2.1 rfl
  have hdl' := fl.2.2.1 rfl
  have tg := table_at rows (fontHeader ++ recBytes rows 156) 2 hg1
  have tl := table_at rows (fontHeader ++ recBytes rows 156) 6 hl1
  rw [hhl, ← hr.file] at tg tl
  have rg := record_at rows (rows.flatMap (·.2.2)) 156 fontHeader 2 0 hr.len4 rfl _ _ _ hg1
  have rl := record_at rows (rows.flatMap (·.2.2)) 156 fontHeader 6 0 hr.len4 rfl _ _ _ hl1
  rw [Nat.zero_add, ← hr.file] at rg rl
  simp only at tg tl
  have ofg : rowOff rows 156 2 % 4294967296 = rowOff rows 156 2 := Nat.mod_eq_of_lt (by omega)
  have ofl : rowOff rows 156 6 % 4294967296 = rowOff rows 156 6 := Nat.mod_eq_of_lt (by omega)
  have lng : eg.length % 4294967296 = dg.length := by rw [hegl]; exact Nat.mod_eq_of_lt (by omega)
  rw [ofg, lng] at rg
  rw [ofl] at rl
  intro g hgn
  have hdj : ds[g]? = some ds[g] := List.getElem?_eq_getElem (by omega)
  obtain ⟨hx1, hx2, hx3⟩ := hloc g (by omega)
  obtain ⟨hy1, hy2, hy3⟩ := hloc (g + 1) (by omega)
  obtain ⟨hpc1, hpc2⟩ := bytesAt_flatten ds (List.replicate (pad4 size.toNat - ds.flatten.length) 0) g _ hdj
  rw [hglyf] at hpc1
  -- reading the locations
  obtain ⟨restl, hfl⟩ := tl.2.2
  have hAl : (fontHeader ++ recBytes rows 156 ++ (rows.take 6).flatMap (·.2.2)).length = rowOff rows 156 6 := by
    rw [List.length_append, hhl]; rfl
  have hread : ∀ (j v : Nat), loca[j]? = some v → (t.isShort = true → v % 2 = 0 ∧ v < 131072) → v < 4294967296 → locAt b t.isShort (rowOff rows 156 6) j = some v := by
    intro j v h1 h2 h3
    have := locAt_locaBytes h1 h2 h3 (fontHeader ++ recBytes rows 156 ++ (rows.take 6).flatMap (·.2.2)) restl
    rw [hAl, ← hdl', ← hfl] at this
    exact this
  have hle : (ds.take (g + 1)).flatten.length ≤ dg.length := by
    have := flatten_take_le ds (g + 1)
    rw [← hglyf, List.length_append]
    omega
  refine ⟨2, 6, _, _, _, _, rg, rfl, rl, rfl, hread g _ hx1 hx3 hx2, hread (g + 1) _ hy1 hy3 hy2, by omega, hle, ?_, ?_⟩
  · simp only; omega
  · simp only
    rw [← hpiece g _ hdj]
    have e1 : bytesAt b (rowOff rows 156 2 + (ds.take g).flatten.length) ds[g].length = bytesAt dg (ds.take g).flatten.length ds[g].length := by
      obtain ⟨restg, hfg⟩ := tg.2.2
      have hAg : (fontHeader ++ recBytes rows 156 ++ (rows.take 2).flatMap (·.2.2)).length = rowOff rows 156 2 := by
        rw [List.length_append, hhl]; rfl
      rw [hfg, List.append_assoc, ← hAg, bytesAt_right]
      exact bytesAt_left (by omega)
    rw [hpc2, Nat.add_sub_cancel_left, e1, hpc1]

/-! ### the closure over components -/

theorem Components_length {o : Bytes} {cs : List Nat} (h : Components o cs) : cs.length ≤ o.length ∧ cs ≠ [] := by
  induction h with
  | last h1 h2 h3 => have := u16At_some h2; exact ⟨by simp; omega, by simp⟩
  | more h1 h2 h3 h4 h5 _ ih =>
    have := u16At_some h2
    obtain ⟨ih1, ih2⟩ := ih
    rw [List.length_drop] at ih1
    have := List.length_pos_iff.2 ih2
    exact ⟨by simp; omega, by simp⟩

theorem read_prefix {data o rest : Bytes} {off i v : Nat} (h : data.drop off = o ++ rest) (hv : u16At o i = some v) :
    readUShortAt data (off + i) = .ok v := by
  rw [readUShortAt_iff]
  have hl := u16At_some hv
  have ho : off ≤ data.length := by
    by_contra hc
    rw [List.drop_eq_nil_of_le (by omega)] at h
    have := congrArg List.length h
    simp at this
    omega
  have e : data = data.take off ++ (o ++ rest) := by rw [← h, List.take_append_drop]
  have hlen : (data.take off).length = off := by rw [List.length_take]; omega
  rw [e]
  have := u16At_right (data.take off) (o ++ rest) i
  rw [hlen] at this
  rw [this, u16At_left (by omega), hv]

/-- what a loop over glyphs may add to the array -/
structure Grown (arr arr' cs : List Nat) : Prop where
  mem : ∀ x, x ∈ arr' ↔ x ∈ arr ∨ x ∈ cs
  nodup : arr.Nodup → arr'.Nodup

theorem Grown.refl (arr : List Nat) : Grown arr arr [] := ⟨by simp, id⟩

theorem Grown.trans {a b c x y : List Nat} (h : Grown a b x) (h' : Grown b c y) : Grown a c (x ++ y) :=
  ⟨fun z => by rw [h'.mem, h.mem, List.mem_append, or_assoc], fun hn => h'.nodup (h.nodup hn)⟩

theorem Grown.one (arr : List Nat) (c : Nat) : Grown arr (if c ∈ arr then arr else arr ++ [c]) [c] := by
  by_cases hc : c ∈ arr
  · rw [if_pos hc]
    refine ⟨fun x => ?_, id⟩
    simp only [List.mem_singleton]
    constructor
    · exact Or.inl
    · rintro (h | rfl)
      · exact h
      · exact hc
  · rw [if_neg hc]
    refine ⟨fun x => by simp, fun hn => ?_⟩
    rw [List.nodup_append]
    refine ⟨hn, by simp, ?_⟩
    intro a ha b hb
    simp only [List.mem_singleton] at hb
    subst hb
    exact fun e => hc (e ▸ ha)

theorem componentLoop_spec {t : Ttf} {o : Bytes} {cs : List Nat} (h : Components o cs) : ∀ (fuel off : Nat) (rest : Bytes) (arr : List Nat),
    cs.length ≤ fuel → t.fontData.drop off = o ++ rest → ∃ arr', componentLoop t fuel off arr = .ok arr' ∧ Grown arr arr' cs := by
  induction h with
  | @last o flags c h1 h2 h3 =>
    intro fuel off rest arr hf hd
    cases fuel with
    | zero => simp at hf
    | succ fuel =>
      have r1 := read_prefix hd h1
      have r2 := read_prefix hd h2
      rw [Nat.add_zero] at r1
      rw [componentLoop, r1, r2]
      simp only [Res.ok_bind, h3, if_true]
      exact ⟨_, rfl, Grown.one arr c⟩
  | @more o flags c cs args scale h1 h2 h3 h4 h5 hcs ih =>
    intro fuel off rest arr hf hd
    cases fuel with
    | zero => simp at hf
    | succ fuel =>
      have r1 := read_prefix hd h1
      have r2 := read_prefix hd h2
      rw [Nat.add_zero] at r1
      rw [componentLoop, r1, r2]
      simp only [Res.ok_bind, h3, if_false]
      have hn : (if flags &&& 1 = 0 then 2 else 4) + (if flags &&& 8 ≠ 0 then 2 else if flags &&& 64 ≠ 0 then 4 else 0) +
          (if flags &&& 128 ≠ 0 then 8 else 0) = args + scale := by
        rw [h4]
        rcases h5 with ⟨a, b, c, d⟩ | ⟨a, b, c, d⟩ | ⟨a, b, c, d⟩ | ⟨a, b, c, d⟩ <;> simp only [a, b, c, d, ne_eq, not_true, not_false_iff, if_true, if_false] <;>
          by_cases h : flags &&& 1 = 0 <;> simp only [h, not_true, not_false_iff, if_true, if_false]
      rw [hn]
      have hcl := Components_length hcs
      rw [List.length_drop] at hcl
      have := List.length_pos_iff.2 hcl.2
      have hd' : t.fontData.drop (off + 4 + (args + scale)) = o.drop (4 + args + scale) ++ rest := by
        rw [show off + 4 + (args + scale) = off + (4 + args + scale) by omega, ← List.drop_drop, hd, List.drop_append_of_le_length (by omega)]
      obtain ⟨arr', e1, e2⟩ := ih fuel _ rest (if c ∈ arr then arr else arr ++ [c]) (by simp at hf; omega) hd'
      exact ⟨arr', e1, (Grown.one arr c).trans e2⟩

theorem addComposite_spec {t : Ttf} (hl : LocaOK t) {g : Nat} (hg : g < t.numGlyphs) {cs : List Nat} (hp : Parts t g cs) (arr : List Nat) :
    ∃ arr', addComposite t arr g = .ok arr' ∧ Grown arr arr' cs := by
  obtain ⟨_, a, b, ha, hb, hab, hlen⟩ := glyphData_src hl hg
  have hmb := List.mem_of_getElem? hb
  have hin := hl.inside b hmb
  unfold addComposite glyphOffset
  rw [ha, hb]
  simp only [Res.ofOption_some, Res.ok_bind]
  by_cases hab' : a = b
  · subst hab'
    rw [if_pos rfl]
    rcases hp with ⟨_, rfl⟩ | ⟨n, h1, _⟩
    · exact ⟨arr, rfl, Grown.refl arr⟩
    · have := u16At_some h1; omega
  · rw [if_neg (by omega)]
    rcases hp with ⟨h0, _⟩ | ⟨n, h1, h2⟩
    · rw [h0] at hlen; simp at hlen; omega
    · have hd : t.fontData.drop ((t.table b!"glyf").offset + a) = srcOutline t g ++ t.fontData.drop ((t.table b!"glyf").offset + b) := by
        have e : srcOutline t g = (t.fontData.drop ((t.table b!"glyf").offset + a)).take (b - a) := by
          unfold srcOutline bytesAt
          simp [List.getD, ha, hb]
        have e2 : t.fontData.drop ((t.table b!"glyf").offset + b) = (t.fontData.drop ((t.table b!"glyf").offset + a)).drop (b - a) := by
          rw [List.drop_drop]; congr 1; omega
        rw [e, e2, List.take_append_drop]
      have r1 := read_prefix hd h1
      rw [Nat.add_zero] at r1
      unfold readShortAt
      rw [r1]
      simp only [Res.ok_bind]
      rcases h2 with ⟨h2, rfl⟩ | ⟨h2, h3⟩
      · rw [if_neg (by omega : ¬ n ≥ 0x8000), if_pos (by omega)]
        exact ⟨arr, rfl, Grown.refl arr⟩
      · have hn : n < 65536 := by
          unfold u16At at h1
          split at h1
          · rename_i x y _ _
            simp only [Option.some.injEq] at h1
            have := x.toNat_lt
            have := y.toNat_lt
            omega
          · simp at h1
        rw [if_pos (by omega : n ≥ 0x8000), if_neg (by omega)]
        have hcl := Components_length h3
        rw [List.length_drop] at hcl
        have := List.length_pos_iff.2 hcl.2
        refine componentLoop_spec h3 _ _ (t.fontData.drop ((t.table b!"glyf").offset + b)) arr (by omega) ?_
        rw [show (t.table b!"glyf").offset + a + 2 + 8 = (t.table b!"glyf").offset + a + 10 by omega, ← List.drop_drop, hd,
          List.drop_append_of_le_length (by omega)]

theorem closureLoop_spec {t : Ttf} (hl : LocaOK t) {parts : Nat → List Nat} : ∀ (gs arr : List Nat), (∀ g ∈ gs, g < t.numGlyphs) →
    (∀ g ∈ gs, Parts t g (parts g)) → ∃ arr', closureLoop t gs arr = .ok arr' ∧ Grown arr arr' (gs.flatMap parts) := by
  intro gs
  induction gs with
  | nil => intro arr _ _; exact ⟨arr, rfl, Grown.refl arr⟩
  | cons g gs ih =>
    intro arr h1 h2
    obtain ⟨a1, e1, g1⟩ := addComposite_spec hl (h1 g (by simp)) (h2 g (by simp)) arr
    obtain ⟨a2, e2, g2⟩ := ih a1 (fun x hx => h1 x (by simp [hx])) (fun x hx => h2 x (by simp [hx]))
    refine ⟨a2, ?_, ?_⟩
    · rw [closureLoop, e1]; exact e2
    · rw [List.flatMap_cons]; exact g1.trans g2

/-- The glyphs the code embeds: the used ones, glyph 0 and the direct parts of the used ones. -/
theorem glyphClosure_spec {t : Ttf} (hl : LocaOK t) {m : CharMap} {parts : Nat → List Nat} (h1 : ∀ g ∈ m.vals, g < t.numGlyphs)
    (h2 : ∀ g ∈ m.vals, Parts t g (parts g)) :
    ∃ arr, glyphClosure t m = .ok arr ∧ (∀ x, x ∈ arr ↔ x ∈ m.vals ∨ x = 0 ∨ ∃ g ∈ m.vals, x ∈ parts g) ∧ (m.vals.Nodup → arr.Nodup) := by
  obtain ⟨arr, e, g⟩ := closureLoop_spec hl m.vals (if 0 ∈ m.vals then m.vals else m.vals ++ [0]) h1 h2
  have g0 := Grown.one m.vals 0
  have g' := g0.trans g
  refine ⟨arr, e, fun x => ?_, g'.nodup⟩
  rw [g'.mem]
  simp

/-! ### the font file is made -/

theorem sizeSum_spec {t : Ttf} (hl : LocaOK t) : ∀ gs : List Nat, (∀ g ∈ gs, g < t.numGlyphs) →
    sizeSum t gs = .ok (((gs.map (fun g => (srcOutline t g).length)).sum : Nat) : Int) := by
  intro gs
  induction gs with
  | nil => intro _; rfl
  | cons g gs ih =>
    intro h
    obtain ⟨_, a, b, ha, hb, hab, hlen⟩ := glyphData_src hl (h g (by simp))
    rw [sizeSum, glyphSize, glyphOffset, glyphOffset, ha, hb, ih (fun x hx => h x (by simp [hx]))]
    simp only [Res.ofOption_some, Res.ok_bind, List.map_cons, List.sum_cons, hlen]
    congr 1
    push_cast
    omega

theorem glyfLoop_ok {t : Ttf} (hl : LocaOK t) {cap : Nat} : ∀ (is todo : List Nat) (out : Bytes) (loca : List Nat), (∀ g ∈ is, g < t.numGlyphs) →
    out.length + (todo.map (fun g => (srcOutline t g).length)).sum ≤ cap → ∃ r, glyfLoop t cap is todo out loca = .ok r ∧ r.2.length = loca.length + is.length := by
  intro is
  induction is with
  | nil => intro todo out loca _ _; exact ⟨_, rfl, by simp⟩
  | cons i is ih =>
    intro todo out loca h hc
    rw [glyfLoop]
    split
    · rename_i hh
      rw [(glyphData_src hl (h i (by simp))).1]
      simp only [Res.ok_bind]
      cases todo with
      | nil => simp at hh
      | cons g todo =>
        simp only [List.head?_cons, Option.some.injEq] at hh
        subst hh
        simp only [List.map_cons, List.sum_cons] at hc
        rw [if_neg (by omega)]
        obtain ⟨r, h1, h2⟩ := ih todo (out ++ srcOutline t g) (loca ++ [out.length]) (fun x hx => h x (by simp [hx])) (by rw [List.length_append]; omega)
        exact ⟨r, h1, by rw [h2]; simp; omega⟩
    · obtain ⟨r, h1, h2⟩ := ih todo out (loca ++ [out.length]) (fun x hx => h x (by simp [hx])) hc
      exact ⟨r, h1, by rw [h2]; simp; omega⟩

theorem fontLoop_ok {t : Ttf} {glyf : Bytes} {loca : List Nat} : ∀ (tags : List Bytes) (idx : Nat) (b : Buff) (p : Nat),
    (∀ tag ∈ tags, ∃ r, tableRow t glyf loca tag = .ok r) → ∃ b', fontLoop t glyf loca tags idx b p = .ok b' := by
  intro tags
  induction tags with
  | nil => intro idx b p _; exact ⟨b, rfl⟩
  | cons tag tags ih =>
    intro idx b p h
    obtain ⟨⟨e, d⟩, hr⟩ := h tag (by simp)
    rw [fontLoop, hr]
    simp only [Res.ok_bind]
    exact ih _ _ _ (fun x hx => h x (by simp [hx]))

/-- The font file is made for every set of used glyphs, if the source font's tables lie inside the file. -/
theorem C28_made {t : Ttf} (hl : LocaOK t) {m : CharMap} {parts : Nat → List Nat} (h1 : ∀ g ∈ m.vals, g < t.numGlyphs)
    (h2 : ∀ g ∈ m.vals, Parts t g (parts g)) (h3 : ∀ g ∈ m.vals, ∀ c ∈ parts g, c < t.numGlyphs) (h0 : 0 < t.numGlyphs)
    (htab : ∀ tag ∈ fontTags, tag ≠ b!"glyf" → tag ≠ b!"loca" → (t.table tag).offset + ((t.table tag).length + 3) / 4 * 4 ≤ t.fontData.length) :
    ∃ b, makeFont t m = .ok b := by
  obtain ⟨arr, e, hm, _⟩ := glyphClosure_spec hl h1 h2
  have harr : ∀ g ∈ sortNat arr, g < t.numGlyphs := by
    intro g hg
    rw [mem_sortNat, hm] at hg
    rcases hg with hg | rfl | ⟨h, hh, hg⟩
    · exact h1 g hg
    · exact h0
    · exact h3 h hh g hg
  have hge : ∀ n, n ≤ pad4 n := fun n => pad4_ge n
  obtain ⟨r, hr, _⟩ := glyfLoop_ok hl (cap := pad4 ((sortNat arr).map (fun g => (srcOutline t g).length)).sum) (List.range t.numGlyphs) (sortNat arr) [] []
    (fun g hg => by simpa using hg) (by simpa using hge _)
  have hgl : ∃ q, makeGlyfLoca t m = .ok q := by
    unfold makeGlyfLoca
    rw [e]
    simp only [Res.ok_bind]
    rw [sizeSum_spec hl _ harr]
    simp only [Res.ok_bind, Int.toNat_natCast]
    rw [if_neg (by omega), hr]
    exact ⟨_, rfl⟩
  obtain ⟨⟨glyf, loca⟩, hgl⟩ := hgl
  have hmod := makeGlyfLoca_mod hgl
  unfold makeFont
  rw [hgl]
  simp only [Res.ok_bind]
  obtain ⟨b', hb'⟩ := fontLoop_ok (t := t) (glyf := glyf) (loca := loca) fontTags 0
    (((((({} : Buff).write (be32 0x00010000)).write (be16 fontTags.length)).write (be16 (2 ^ 3 * 16))).write (be16 3)).write
      (be16 ((fontTags.length - 2 ^ 3) * 16))) (12 + 16 * fontTags.length) (by
    intro tag ht
    unfold tableRow
    simp only
    by_cases c1 : tag = b!"glyf"
    · rw [if_pos c1, checkSum_spec hmod]
      simp only [Res.ok_bind, padded_eq, pad4_eq hmod]
      unfold slice
      rw [if_pos (by omega)]
      exact ⟨_, rfl⟩
    · rw [if_neg c1]
      by_cases c2 : tag = b!"loca"
      · rw [if_pos c2, checkSum_spec (by
          unfold locaBytes
          simp only [List.length_append, List.length_replicate]
          generalize (if t.isShort = true then loca.flatMap (fun v => be16 (v / 2)) else loca.flatMap be32).length = n
          have := pad4_ge n
          have := pad4_mod n
          omega)]
        exact ⟨_, rfl⟩
      · rw [if_neg c2]
        have := htab tag ht c1 c2
        unfold slice
        rw [padded_eq]
        rw [if_pos (by unfold pad4; exact this)]
        exact ⟨_, rfl⟩)
  rw [hb']
  exact ⟨_, rfl⟩

/-- C28 (for used glyphs without repetition): in the embedded font file the used glyphs, glyph 0 and the direct parts of the used
glyphs have the outlines of the source font, every other glyph has an empty outline.  Missing: two characters with the same glyph
(see `C28_refuted_shared_glyph`). -/
theorem C28_subset_partial {t : Ttf} (hl : LocaOK t) {m : CharMap} {parts : Nat → List Nat} (h1 : ∀ g ∈ m.vals, g < t.numGlyphs)
    (h2 : ∀ g ∈ m.vals, Parts t g (parts g)) (hn : m.vals.Nodup) {b : Bytes} (hb : makeFont t m = .ok b) (hlt : b.length < 4294967296) :
    ∀ g < t.numGlyphs,
      (g ∈ m.vals ∨ g = 0 ∨ (∃ u ∈ m.vals, g ∈ parts u) → OutlineIs b t.isShort g (srcOutline t g)) ∧
      (¬ (g ∈ m.vals ∨ g = 0 ∨ ∃ u ∈ m.vals, g ∈ parts u) → OutlineIs b t.isShort g []) := by
  obtain ⟨arr, e, hm, hnd⟩ := glyphClosure_spec hl h1 h2
  have := embeds_of_nodup hb hlt hl e (hnd hn)
  intro g hg
  have h := this g hg
  rw [← hm]
  constructor
  · intro hu; rw [if_pos hu] at h; exact h
  · intro hu; rw [if_neg hu] at h; exact h

/-! ### C29 -/

/-- `c` is a part of `g`, directly or through other composites -/
inductive Spec.PartOf (parts : Nat → List Nat) : Nat → Nat → Prop
  | direct {g c : Nat} : c ∈ parts g → Spec.PartOf parts g c
  | through {g c d : Nat} : c ∈ parts g → Spec.PartOf parts c d → Spec.PartOf parts g d

/-- C29 (for composites whose composite parts are themselves used): every part of a used glyph is embedded with its outline.
Missing: nested composites in general (see `C29_refuted_nested`), and repeated glyphs (C28). -/
theorem C29_parts_partial {t : Ttf} (hl : LocaOK t) {m : CharMap} {parts : Nat → List Nat} (h1 : ∀ g ∈ m.vals, g < t.numGlyphs)
    (h2 : ∀ g ∈ m.vals, Parts t g (parts g)) (h3 : ∀ g ∈ m.vals, ∀ c ∈ parts g, c < t.numGlyphs)
    (hnest : ∀ g ∈ m.vals, ∀ c ∈ parts g, parts c = [] ∨ c ∈ m.vals) (hn : m.vals.Nodup) {b : Bytes} (hb : makeFont t m = .ok b)
    (hlt : b.length < 4294967296) : ∀ g ∈ m.vals, ∀ c, PartOf parts g c → OutlineIs b t.isShort c (srcOutline t c) := by
  intro g hg c hp
  induction hp with
  | @direct g c hc => exact (C28_subset_partial hl h1 h2 hn hb hlt c (h3 g hg c hc)).1 (.inr (.inr ⟨g, hg, hc⟩))
  | @through g c d hc hcd ih =>
    rcases hnest g hg c hc with h | h
    · cases hcd with
      | direct h' => rw [h] at h'; simp at h'
      | through h' _ => rw [h] at h'; simp at h'
    · exact ih h

/-! ### concrete fonts -/

/-- a font with four simple glyphs of four bytes each (long locations), the glyph table at position 2; glyph 4 is empty -/
def simpleFont : Ttf :=
  { tables := [(b!"glyf", ⟨0, 2, 16⟩), (b!"cvt ", ⟨7, 18, 2⟩)], indexToLocFormat := 1, numGlyphs := 5, locaTable := [0, 4, 8, 12, 16, 16],
    fontData := [9, 9, 0, 1, 10, 11, 0, 1, 12, 13, 0, 1, 14, 15, 0, 1, 16, 17, 5, 6, 7, 8] }

/-- glyph 1 is built from glyph 2, glyph 2 from glyph 3 -/
def nestedFont : Ttf :=
  { tables := [(b!"glyf", ⟨0, 0, 40⟩)], indexToLocFormat := 1, numGlyphs := 4, locaTable := [0, 4, 20, 36, 40],
    fontData := [0, 1, 10, 11] ++ [255, 255, 0, 0, 0, 0, 0, 0, 0, 0, 0, 0, 0, 2, 1, 1] ++ [255, 255, 0, 0, 0, 0, 0, 0, 0, 0, 0, 0, 0, 3, 1, 1] ++ [0, 1, 16, 17] }

theorem simpleFont_loca : LocaOK simpleFont := ⟨by decide, by decide, by decide, by decide, by decide⟩
theorem nestedFont_loca : LocaOK nestedFont := ⟨by decide, by decide, by decide, by decide, by decide⟩

/-- the file made for glyphs 1 and 3 -/
def simpleFile : Bytes := match makeFont simpleFont { keys := [32, 65], vals := [1, 3] } with | .ok b => b | _ => []
/-- the file made for three characters, two of which share glyph 1 -/
def sharedFile : Bytes := match makeFont simpleFont { keys := [32, 160, 65], vals := [1, 1, 2] } with | .ok b => b | _ => []
/-- the file made for the nested composite -/
def nestedFile : Bytes := match makeFont nestedFont { keys := [65], vals := [1] } with | .ok b => b | _ => []

theorem simpleFile_made : makeFont simpleFont { keys := [32, 65], vals := [1, 3] } = .ok simpleFile := by rfl
theorem sharedFile_made : makeFont simpleFont { keys := [32, 160, 65], vals := [1, 1, 2] } = .ok sharedFile := by rfl
theorem nestedFile_made : makeFont nestedFont { keys := [65], vals := [1] } = .ok nestedFile := by rfl

-- the hypotheses of C32, C28_made and C28_subset_partial hold for the simple font
example : makeFont simpleFont { keys := [32, 65], vals := [1, 3] } = .ok simpleFile ∧ simpleFile.length < 4294967296 ∧
    simpleFile.length = 196 := ⟨simpleFile_made, by decide +kernel, by decide +kernel⟩
example (tag : Bytes) : (simpleFont.table tag).checkSum < 4294967296 ∧ (simpleFont.table tag).length < 4294967296 := by
  unfold Ttf.table simpleFont
  simp only [List.lookup]
  split
  · decide
  · split <;> decide
example : LocaOK simpleFont ∧ (∀ g ∈ [1, 3], Parts simpleFont g []) ∧ [1, 3].Nodup ∧ srcOutline simpleFont 3 = [0, 1, 16, 17] :=
  ⟨simpleFont_loca, by
    intro g hg
    simp only [List.mem_cons, List.not_mem_nil, or_false] at hg
    rcases hg with rfl | rfl
    · exact .inr ⟨1, by decide, .inl ⟨by decide, rfl⟩⟩
    · exact .inr ⟨1, by decide, .inl ⟨by decide, rfl⟩⟩, by decide, by decide⟩

theorem record_length {b : Bytes} {i : Nat} {r : Record} (h : record b i = some r) : 12 + 16 * i + 16 ≤ b.length := by
  unfold record at h
  split at h
  · rename_i h3
    unfold u32At at h3
    split at h3
    · rename_i h4
      have := u16At_some h4
      omega
    · simp at h3
  · simp at h

/-- an outline of a file with at most `n` records is found through the records of the two tables -/
theorem OutlineIs_of {b o : Bytes} {short : Bool} {g n : Nat} {rg rl : Record} (hn : b.length ≤ 12 + 16 * n)
    (hg : ∀ i < n, ∀ r, record b i = some r → r.tag = b!"glyf" → r = rg) (hl : ∀ i < n, ∀ r, record b i = some r → r.tag = b!"loca" → r = rl)
    (h : OutlineIs b short g o) : ∃ x y, locAt b short rl.off g = some x ∧ locAt b short rl.off (g + 1) = some y ∧ o = bytesAt b (rg.off + x) (y - x) := by
  obtain ⟨i, j, rg', rl', x, y, h1, h2, h3, h4, h5, h6, _, _, _, h10⟩ := h
  have hi := record_length h1
  have hj := record_length h3
  have e1 := hg i (by omega) rg' h1 h2
  have e2 := hl j (by omega) rl' h3 h4
  subst e1 e2
  exact ⟨x, y, h5, h6, h10⟩

theorem all_records {b : Bytes} {n : Nat} {tag : Bytes} {rg : Record}
    (h : ∀ i < n, ∀ r ∈ (record b i).toList, r.tag = tag → r = rg) : ∀ i < n, ∀ r, record b i = some r → r.tag = tag → r = rg := by
  intro i hi r hr
  exact h i hi r (by rw [hr]; simp)

/-- C28 is violated when two used characters share a glyph: the sorted array of glyphs has the glyph twice, the loop over the glyph
numbers stays at its second copy, and every used glyph after it gets an empty outline.  Here space and no-break space (glyph 1) and
`A` (glyph 2) are used; the outline of `A` is not in the file. -/
theorem C28_refuted_shared_glyph : ∃ (t : Ttf) (m : CharMap) (b : Bytes) (g : Nat), LocaOK t ∧ makeFont t m = .ok b ∧ g ∈ m.vals ∧ g < t.numGlyphs ∧
    srcOutline t g ≠ [] ∧ OutlineIs b t.isShort g [] ∧ ¬ OutlineIs b t.isShort g (srcOutline t g) := by
  refine ⟨simpleFont, _, sharedFile, 2, simpleFont_loca, sharedFile_made, by decide, by decide, by decide, ?_, ?_⟩
  · exact ⟨2, 6, ⟨b!"glyf", 136728, 160, 16⟩, ⟨b!"loca", 36, 176, 24⟩, 8, 8, by decide +kernel, by decide +kernel, by decide +kernel,
      by decide +kernel, by decide +kernel, by decide +kernel, by decide +kernel, by decide +kernel, by decide +kernel, by decide +kernel⟩
  · intro h
    obtain ⟨x, y, h1, h2, h3⟩ := OutlineIs_of (n := 12) (rg := ⟨b!"glyf", 136728, 160, 16⟩) (rl := ⟨b!"loca", 36, 176, 24⟩) (by decide +kernel)
      (all_records (by decide +kernel)) (all_records (by decide +kernel)) h
    have e1 : locAt sharedFile simpleFont.isShort 176 2 = some 8 := by decide +kernel
    have e2 : locAt sharedFile simpleFont.isShort 176 (2 + 1) = some 8 := by decide +kernel
    rw [e1] at h1
    rw [e2] at h2
    simp only [Option.some.injEq] at h1 h2
    subst h1 h2
    exact absurd h3 (by decide +kernel)

theorem nested_parts1 : Parts nestedFont 1 [2] := by
  refine .inr ⟨65535, by decide, .inr ⟨by decide, ?_⟩⟩
  exact .last (flags := 0) (by decide) (by decide) (by decide)

theorem nested_parts2 : Parts nestedFont 2 [3] := by
  refine .inr ⟨65535, by decide, .inr ⟨by decide, ?_⟩⟩
  exact .last (flags := 0) (by decide) (by decide) (by decide)

-- the hypotheses of C29_parts_partial hold if the inner composite is used too
example : ∀ g ∈ [1, 2], Parts nestedFont g (if g = 1 then [2] else if g = 2 then [3] else []) := by
  intro g hg
  simp only [List.mem_cons, List.not_mem_nil, or_false] at hg
  rcases hg with rfl | rfl
  · exact nested_parts1
  · exact nested_parts2

/-- C29 is violated for nested composites: only the used glyphs are searched for parts, not the glyphs found on the way.  Here glyph 1
is built from glyph 2 and glyph 2 from glyph 3, only glyph 1 is used, and the file has no outline for glyph 3. -/
theorem C29_refuted_nested : ∃ (t : Ttf) (m : CharMap) (b : Bytes) (parts : Nat → List Nat) (g c : Nat), LocaOK t ∧ m.vals.Nodup ∧ makeFont t m = .ok b ∧
    (∀ u, parts u ≠ [] → Parts t u (parts u)) ∧ g ∈ m.vals ∧ PartOf parts g c ∧ c < t.numGlyphs ∧
    OutlineIs b t.isShort c [] ∧ ¬ OutlineIs b t.isShort c (srcOutline t c) := by
  refine ⟨nestedFont, _, nestedFile, fun g => if g = 1 then [2] else if g = 2 then [3] else [], 1, 3, nestedFont_loca, by decide, nestedFile_made,
    ?_, by decide, .through (c := 2) (by decide) (.direct (by decide)), by decide, ?_, ?_⟩
  · intro u hu
    by_cases h1 : u = 1
    · subst h1; exact nested_parts1
    · by_cases h2 : u = 2
      · subst h2; exact nested_parts2
      · simp [h1, h2] at hu
  · exact ⟨2, 6, ⟨b!"glyf", 265229, 156, 36⟩, ⟨b!"loca", 96, 192, 20⟩, 36, 36, by decide +kernel, by decide +kernel, by decide +kernel,
      by decide +kernel, by decide +kernel, by decide +kernel, by decide +kernel, by decide +kernel, by decide +kernel, by decide +kernel⟩
  · intro h
    obtain ⟨x, y, h1, h2, h3⟩ := OutlineIs_of (n := 13) (rg := ⟨b!"glyf", 265229, 156, 36⟩) (rl := ⟨b!"loca", 96, 192, 20⟩) (by decide +kernel)
      (all_records (by decide +kernel)) (all_records (by decide +kernel)) h
    have e1 : locAt nestedFile nestedFont.isShort 192 3 = some 36 := by decide +kernel
    have e2 : locAt nestedFile nestedFont.isShort 192 (3 + 1) = some 36 := by decide +kernel
    rw [e1] at h1
    rw [e2] at h2
    simp only [Option.some.injEq] at h1 h2
    subst h1 h2
    exact absurd h3 (by decide +kernel)

end Verif
