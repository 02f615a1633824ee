import Verif.Theorems.Subset
/-
C28: what the embedded font file holds if two characters share a glyph, for every font and every set of characters.
-/
namespace Verif
open Spec

/-- the elements of a sorted list up to the first that is repeated -/
def runUp : List Nat → List Nat
  | [] => []
  | [a] => [a]
  | a :: b :: l => if a = b then [a] else a :: runUp (b :: l)

theorem insertNat_le {a : Nat} {l : List Nat} (h : l.Pairwise (· ≤ ·)) : (insertNat a l).Pairwise (· ≤ ·) := by
  induction l with
  | nil => simp [insertNat]
  | cons b l ih =>
    rw [List.pairwise_cons] at h
    rw [insertNat]
    split
    · rename_i hle
      rw [List.pairwise_cons]
      refine ⟨?_, by rw [List.pairwise_cons]; exact h⟩
      intro x hx
      rw [List.mem_cons] at hx
      rcases hx with rfl | hx
      · exact hle
      · have := h.1 x hx; omega
    · rw [List.pairwise_cons]
      refine ⟨?_, ih h.2⟩
      intro x hx
      rw [mem_insertNat] at hx
      rcases hx with rfl | hx
      · omega
      · exact h.1 x hx

theorem sortNat_le (l : List Nat) : (sortNat l).Pairwise (· ≤ ·) := by
  induction l with
  | nil => simp [sortNat]
  | cons a l ih => exact insertNat_le ih

theorem insertNat_perm (a : Nat) (l : List Nat) : (insertNat a l).Perm (a :: l) := by
  induction l with
  | nil => exact .refl _
  | cons b l ih =>
    rw [insertNat]
    split
    · exact .refl _
    · exact (ih.cons b).trans (.swap a b l)

theorem sortNat_perm (l : List Nat) : (sortNat l).Perm l := by
  induction l with
  | nil => exact .refl _
  | cons a l ih => exact (insertNat_perm a _).trans (ih.cons a)

theorem runUp_head (a : Nat) (l : List Nat) : ∃ r, runUp (a :: l) = a :: r := by
  cases l with
  | nil => exact ⟨[], rfl⟩
  | cons b l =>
    rw [runUp]
    split
    · exact ⟨[], rfl⟩
    · exact ⟨_, rfl⟩

theorem runUp_sub : ∀ (l : List Nat), ∀ x ∈ runUp l, x ∈ l
  | [], x, h => by simp [runUp] at h
  | [a], x, h => h
  | a :: b :: l, x, h => by
    rw [runUp] at h
    split at h
    · simp only [List.mem_singleton] at h; simp [h]
    · rcases List.mem_cons.1 h with rfl | h
      · simp
      · exact List.mem_cons_of_mem _ (runUp_sub (b :: l) x h)

theorem runUp_strict : ∀ {l : List Nat}, l.Pairwise (· ≤ ·) → (runUp l).Pairwise (· < ·)
  | [], _ => by simp [runUp]
  | [a], _ => by simp [runUp]
  | a :: b :: l, h => by
    rw [runUp]
    split
    · simp
    · rename_i hab
      rw [List.pairwise_cons] at h ⊢
      refine ⟨fun x hx => ?_, runUp_strict h.2⟩
      have h1 := h.1 b (by simp)
      have h2 := List.pairwise_cons.1 h.2
      rcases List.mem_cons.1 (runUp_sub _ x hx) with rfl | hx
      · omega
      · have := h2.1 x hx; omega

/-- nothing after a repeated element -/
theorem runUp_stops : ∀ {l : List Nat}, l.Pairwise (· ≤ ·) → ∀ {u : Nat}, 2 ≤ l.count u → ∀ x ∈ runUp l, x ≤ u
  | [], _, u, h, x, hx => by simp [runUp] at hx
  | [a], _, u, h, x, hx => by
    have := List.count_le_length (a := u) (l := [a])
    simp at this
    omega
  | a :: b :: l, hs, u, h, x, hx => by
    have h2 := List.pairwise_cons.1 hs
    have hau : a ≤ u := by
      have : u ∈ a :: b :: l := List.count_pos_iff.1 (by omega)
      rcases List.mem_cons.1 this with rfl | hm
      · exact le_refl _
      · exact h2.1 u hm
    rw [runUp] at hx
    split at hx
    · simp only [List.mem_singleton] at hx; omega
    · rename_i hab
      rcases List.mem_cons.1 hx with rfl | hx
      · exact hau
      · by_cases e : u = a
        · subst e
          have hb := h2.1 b (by simp)
          have h3 := List.pairwise_cons.1 h2.2
          have : (b :: l).count u = 0 := by
            rw [List.count_eq_zero]
            intro hm
            rcases List.mem_cons.1 hm with rfl | hm
            · exact hab rfl
            · have := h3.1 u hm; omega
          rw [List.count_cons_self] at h
          omega
        · rw [List.count_cons_of_ne (Ne.symm e)] at h
          exact runUp_stops h2.2 h x hx

/-- everything up to the first repeated element -/
theorem runUp_all : ∀ {l : List Nat}, l.Pairwise (· ≤ ·) → ∀ {x : Nat}, x ∈ l → (∀ u < x, l.count u < 2) → x ∈ runUp l
  | [], _, x, hx, _ => by simp at hx
  | [a], _, x, hx, _ => hx
  | a :: b :: l, hs, x, hx, hc => by
    have h2 := List.pairwise_cons.1 hs
    have h3 := List.pairwise_cons.1 h2.2
    rw [runUp]
    split
    · rename_i hab
      subst hab
      have : a ≤ x := by
        rcases List.mem_cons.1 hx with rfl | hm
        · exact le_refl _
        · exact h2.1 x hm
      rcases Nat.eq_or_lt_of_le this with rfl | hlt
      · simp
      · have := hc a hlt
        simp at this
        omega
    · rcases List.mem_cons.1 hx with rfl | hx
      · simp
      · refine List.mem_cons_of_mem _ (runUp_all h2.2 hx (fun u hu => ?_))
        have := hc u hu
        have := List.count_le_count_cons (a := u) (b := a) (l := b :: l)
        omega

/-- the loop stays at an element it has passed -/
theorem glyfLoop_stuck {t : Ttf} {cap a : Nat} {rest : List Nat} : ∀ (n k : Nat) (out : Bytes) (loca : List Nat), a < k →
    glyfLoop t cap (List.range' k n) (a :: rest) out loca = glyfLoop t cap (List.range' k n) [] out loca
  | 0, k, out, loca, _ => rfl
  | n + 1, k, out, loca, h => by
    rw [List.range'_succ, glyfLoop, glyfLoop, if_neg (by simp; omega), if_neg (by simp)]
    exact glyfLoop_stuck n (k + 1) out _ (by omega)

theorem glyfLoop_runUp {t : Ttf} {cap : Nat} : ∀ (n k : Nat) (todo : List Nat) (out : Bytes) (loca : List Nat), todo.Pairwise (· ≤ ·) → (∀ g ∈ todo, k ≤ g) →
    glyfLoop t cap (List.range' k n) todo out loca = glyfLoop t cap (List.range' k n) (runUp todo) out loca
  | 0, k, todo, out, loca, _, _ => rfl
  | n + 1, k, [], out, loca, _, _ => rfl
  | n + 1, k, a :: rest, out, loca, hs, hk => by
    have h2 := List.pairwise_cons.1 hs
    rw [List.range'_succ, glyfLoop, glyfLoop]
    by_cases e : a = k
    · subst e
      obtain ⟨r, hr⟩ := runUp_head a rest
      rw [hr]
      simp only [List.head?_cons, if_true, List.tail_cons]
      have tail : ∀ out loca, glyfLoop t cap (List.range' (a + 1) n) rest out loca = glyfLoop t cap (List.range' (a + 1) n) r out loca := by
        intro out loca
        cases rest with
        | nil => cases hr; rfl
        | cons b l =>
          rw [runUp] at hr
          split at hr
          · rename_i hab
            cases hr
            exact glyfLoop_stuck n (a + 1) out loca (by omega)
          · rename_i hab
            cases hr
            refine glyfLoop_runUp n (a + 1) (b :: l) out loca h2.2 (fun g hg => ?_)
            have h3 := List.pairwise_cons.1 h2.2
            have := h2.1 b (by simp)
            rcases List.mem_cons.1 hg with rfl | hg
            · omega
            · have := h3.1 g hg; omega
      simp only [tail]
    · have hak := hk a (by simp)
      obtain ⟨r, hr⟩ := runUp_head a rest
      rw [if_neg (by simp [e]), if_neg (by rw [hr]; simp [e])]
      refine glyfLoop_runUp n (k + 1) (a :: rest) out _ hs (fun g hg => ?_)
      rcases List.mem_cons.1 hg with rfl | hg
      · omega
      · have := h2.1 g hg; omega

theorem componentLoop_prefix {t : Ttf} : ∀ (fuel off : Nat) (arr arr' : List Nat), componentLoop t fuel off arr = .ok arr' → arr <+: arr'
  | 0, off, arr, arr', h => by simp [componentLoop] at h
  | fuel + 1, off, arr, arr', h => by
    rw [componentLoop, Res.bind_eq_ok] at h
    obtain ⟨flags, _, h⟩ := h
    rw [Res.bind_eq_ok] at h
    obtain ⟨c, _, h⟩ := h
    have hp : arr <+: (if c ∈ arr then arr else arr ++ [c]) := by
      split
      · exact List.prefix_refl _
      · exact List.prefix_append _ _
    simp only at h
    split at h
    · cases h; exact hp
    · exact hp.trans (componentLoop_prefix fuel _ _ _ h)

theorem addComposite_prefix {t : Ttf} {arr arr' : List Nat} {g : Nat} (h : addComposite t arr g = .ok arr') : arr <+: arr' := by
  unfold addComposite at h
  rw [Res.bind_eq_ok] at h
  obtain ⟨a, _, h⟩ := h
  rw [Res.bind_eq_ok] at h
  obtain ⟨b, _, h⟩ := h
  split at h
  · cases h; exact List.prefix_refl _
  · rw [Res.bind_eq_ok] at h
    obtain ⟨n, _, h⟩ := h
    split at h
    · cases h; exact List.prefix_refl _
    · exact componentLoop_prefix _ _ _ _ h

theorem closureLoop_prefix {t : Ttf} : ∀ (gs arr arr' : List Nat), closureLoop t gs arr = .ok arr' → arr <+: arr'
  | [], arr, arr', h => by cases h; exact List.prefix_refl _
  | g :: gs, arr, arr', h => by
    rw [closureLoop, Res.bind_eq_ok] at h
    obtain ⟨a, h1, h⟩ := h
    exact (addComposite_prefix h1).trans (closureLoop_prefix gs a arr' h)

/-- what the file holds, whether or not characters share glyphs (the proof follows `embeds_of_nodup`) -/
theorem embeds_runUp {t : Ttf} {m : CharMap} {b : Bytes} {arr : List Nat} (hb : makeFont t m = .ok b) (hlt : b.length < 4294967296)
    (hl : LocaOK t) (harr : glyphClosure t m = .ok arr) : Embeds t b (runUp (sortNat arr)) := by
  obtain ⟨glyf, loca, rows, hg, hr⟩ := makeFont_rows hb
  have hmod := makeGlyfLoca_mod hg
  obtain ⟨hhl, h9⟩ := hr.head_length
  -- the glyph table and the locations
  unfold makeGlyfLoca at hg
  rw [harr] at hg
  simp only [Res.ok_bind] at hg
  rw [Res.bind_eq_ok] at hg
  obtain ⟨size, _, hg⟩ := hg
  split at hg
  · simp at hg
  rw [Res.bind_eq_ok] at hg
  obtain ⟨r, hloop, hg⟩ := hg
  rw [List.range_eq_range'] at hloop
  rw [glyfLoop_runUp _ 0 _ _ _ (sortNat_le arr) (fun _ _ => Nat.zero_le _)] at hloop
  obtain ⟨ds, hdl, hds, rfl⟩ := glyfLoop_spec _ 0 _ _ _ _ (runUp_strict (sortNat_le arr)) (fun _ _ => Nat.zero_le _) hloop
  simp only [List.nil_append, List.length_nil, Res.ok.injEq, Prod.mk.injEq] at hg
  obtain ⟨hglyf, hloca⟩ := hg
  -- each piece
  have hpiece : ∀ (j : Nat) (d : Bytes), ds[j]? = some d → d = if j ∈ runUp (sortNat arr) then srcOutline t j else [] := by
    intro j d hj
    have hjn : j < t.numGlyphs := by rw [← hdl]; exact (List.getElem?_eq_some_iff.1 hj).1
    have := hds j d hj
    rw [Nat.zero_add] at this
    split
    · rename_i hm
      have h1 := this.1 hm
      rw [(glyphData_src hl hjn).1] at h1
      simp only [Res.ok.injEq] at h1
      exact h1.symm
    · rename_i hm
      exact this.2 hm
  -- prefix sums are bounded by the source locations
  have hbound : ∀ (j a : Nat), t.locaTable[j]? = some a → (ds.take j).flatten.length ≤ a ∧ (t.isShort = true → (ds.take j).flatten.length % 2 = 0) := by
    intro j
    induction j with
    | zero => intro a _; simp
    | succ j ih =>
      intro a ha
      have hjl : j + 1 < t.locaTable.length := (List.getElem?_eq_some_iff.1 ha).1
      have hjn : j < t.numGlyphs := by rw [hl.len] at hjl; omega
      obtain ⟨_, a0, b0, ha0, hb0, hab, hlen⟩ := glyphData_src hl hjn
      rw [ha] at hb0
      simp only [Option.some.injEq] at hb0
      subst hb0
      obtain ⟨ih1, ih2⟩ := ih a0 ha0
      have hdj : ds[j]? = some ds[j] := List.getElem?_eq_getElem (by omega)
      rw [(bytesAt_flatten ds [] j _ hdj).2]
      have hd := hpiece j _ hdj
      have hdlen : ds[j].length ≤ a - a0 ∧ (t.isShort = true → ds[j].length % 2 = 0) := by
        rw [hd]
        split
        · rw [hlen]
          refine ⟨le_refl _, fun hs => ?_⟩
          have e1 := (hl.even hs a (List.mem_of_getElem? ha)).1
          have e2 := (hl.even hs a0 (List.mem_of_getElem? ha0)).1
          omega
        · simp
      refine ⟨by omega, fun hs => ?_⟩
      have := ih2 hs
      have := hdlen.2 hs
      omega
  have hloc : ∀ (j : Nat), j ≤ t.numGlyphs → loca[j]? = some ((ds.take j).flatten.length) ∧ (ds.take j).flatten.length < 4294967296 ∧
      (t.isShort = true → (ds.take j).flatten.length % 2 = 0 ∧ (ds.take j).flatten.length < 131072) := by
    intro j hj
    have h1 := starts_get ds 0 j (by omega)
    rw [Nat.zero_add, Nat.zero_add] at h1
    have hjl : j < t.locaTable.length := by rw [hl.len]; omega
    obtain ⟨h2, h3⟩ := hbound j _ (List.getElem?_eq_getElem hjl)
    have h4 := hl.small _ (List.getElem_mem hjl)
    refine ⟨by rw [← hloca]; exact h1, by omega, fun hs => ⟨h3 hs, ?_⟩⟩
    have := (hl.even hs _ (List.getElem_mem hjl)).2
    omega
  -- the rows of the two tables
  have hrow : ∀ (i : Nat) (tag : Bytes), fontTags[i]? = some tag → ∃ e d, rows[i]? = some (tag, e, d) ∧ tableRow t glyf loca tag = .ok (e, d) := by
    intro i tag hi
    rw [← hr.tags, List.getElem?_map, Option.map_eq_some_iff] at hi
    obtain ⟨⟨tag', e, d⟩, h1, h2⟩ := hi
    simp only at h2
    subst h2
    exact ⟨e, d, h1, hr.row _ (List.mem_of_getElem? h1)⟩
  obtain ⟨eg, dg, hg1, hg2⟩ := hrow 2 b!"glyf" (by decide)
  obtain ⟨el, dl, hl1, hl2⟩ := hrow 6 b!"loca" (by decide)
  have fg := tableRow_facts hmod hg2
  have fl := tableRow_facts hmod hl2
  obtain ⟨rfl, hegl⟩ := fg.2.1 rfl
  have hdl' := fl.2.2.1 rfl
  have tg := table_at rows (fontHeader ++ recBytes rows 156) 2 hg1
  have tl := table_at rows (fontHeader ++ recBytes rows 156) 6 hl1
  rw [hhl, ← hr.file] at tg tl
  have rg := record_at rows (rows.flatMap (·.2.2)) 156 fontHeader 2 0 hr.len4 rfl _ _ _ hg1
  have rl := record_at rows (rows.flatMap (·.2.2)) 156 fontHeader 6 0 hr.len4 rfl _ _ _ hl1
  rw [Nat.zero_add, ← hr.file] at rg rl
  simp only at tg tl
  have ofg : rowOff rows 156 2 % 4294967296 = rowOff rows 156 2 := Nat.mod_eq_of_lt (by omega)
  have ofl : rowOff rows 156 6 % 4294967296 = rowOff rows 156 6 := Nat.mod_eq_of_lt (by omega)
  have lng : eg.length % 4294967296 = dg.length := by rw [hegl]; exact Nat.mod_eq_of_lt (by omega)
  rw [ofg, lng] at rg
  rw [ofl] at rl
  intro g hgn
  have hdj : ds[g]? = some ds[g] := List.getElem?_eq_getElem (by omega)
  obtain ⟨hx1, hx2, hx3⟩ := hloc g (by omega)
  obtain ⟨hy1, hy2, hy3⟩ := hloc (g + 1) (by omega)
  obtain ⟨hpc1, hpc2⟩ := bytesAt_flatten ds (List.replicate (pad4 size.toNat - ds.flatten.length) 0) g _ hdj
  rw [hglyf] at hpc1
  -- reading the locations
  obtain ⟨restl, hfl⟩ := tl.2.2
  have hAl : (fontHeader ++ recBytes rows 156 ++ (rows.take 6).flatMap (·.2.2)).length = rowOff rows 156 6 := by
    rw [List.length_append, hhl]; rfl
  have hread : ∀ (j v : Nat), loca[j]? = some v → (t.isShort = true → v % 2 = 0 ∧ v < 131072) → v < 4294967296 → locAt b t.isShort (rowOff rows 156 6) j = some v := by
    intro j v h1 h2 h3
    have := locAt_locaBytes h1 h2 h3 (fontHeader ++ recBytes rows 156 ++ (rows.take 6).flatMap (·.2.2)) restl
    rw [hAl, ← hdl', ← hfl] at this
    exact this
  have hle : (ds.take (g + 1)).flatten.length ≤ dg.length := by
    have := flatten_take_le ds (g + 1)
    rw [← hglyf, List.length_append]
    omega
  refine ⟨2, 6, _, _, _, _, rg, rfl, rl, rfl, hread g _ hx1 hx3 hx2, hread (g + 1) _ hy1 hy3 hy2, by omega, hle, ?_, ?_⟩
  · simp only; omega
  · simp only
    rw [← hpiece g _ hdj]
    have e1 : bytesAt b (rowOff rows 156 2 + (ds.take g).flatten.length) ds[g].length = bytesAt dg (ds.take g).flatten.length ds[g].length := by
      obtain ⟨restg, hfg⟩ := tg.2.2
      have hAg : (fontHeader ++ recBytes rows 156 ++ (rows.take 2).flatMap (·.2.2)).length = rowOff rows 156 2 := by
        rw [List.length_append, hhl]; rfl
      rw [hfg, List.append_assoc, ← hAg, bytesAt_right]
      exact bytesAt_left (by omega)
    rw [hpc2, Nat.add_sub_cancel_left, e1, hpc1]

/-- **C28 is violated by every font file in which two characters share a glyph** `u`: every glyph with a greater number has an empty outline, whether or not it is used.  (Nothing is assumed
of the composite glyphs.) -/
theorem C28_refuted_all {t : Ttf} (hl : LocaOK t) {m : CharMap} {b : Bytes} (hb : makeFont t m = .ok b) (hlt : b.length < 4294967296) {u : Nat} (hu : 2 ≤ m.vals.count u) :
    ∀ g < t.numGlyphs, u < g → OutlineIs b t.isShort g [] := by
  intro g hg hug
  have : ∃ arr, glyphClosure t m = .ok arr := by
    have h := hb
    unfold makeFont makeGlyfLoca at h
    rw [Res.bind_eq_ok] at h
    obtain ⟨p, h, -⟩ := h
    rw [Res.bind_eq_ok] at h
    obtain ⟨arr, h, -⟩ := h
    exact ⟨arr, h⟩
  obtain ⟨arr, harr⟩ := this
  have he := embeds_runUp hb hlt hl harr g hg
  have hp : m.vals <+: arr := by
    unfold glyphClosure at harr
    refine List.IsPrefix.trans ?_ (closureLoop_prefix _ _ _ harr)
    split
    · exact List.prefix_refl _
    · exact List.prefix_append _ _
  have hc : 2 ≤ (sortNat arr).count u := by
    rw [(sortNat_perm arr).count_eq]
    exact hu.trans (hp.sublist.count_le u)
  rw [if_neg (fun hm => by have := runUp_stops (sortNat_le arr) hc g hm; omega)] at he
  exact he

example : LocaOK simpleFont ∧ makeFont simpleFont { keys := [32, 160, 65], vals := [1, 1, 2] } = .ok sharedFile ∧ sharedFile.length < 4294967296 ∧
    2 ≤ [1, 1, 2].count 1 ∧ 2 < simpleFont.numGlyphs ∧ srcOutline simpleFont 2 ≠ [] :=
  ⟨simpleFont_loca, sharedFile_made, by decide +kernel, by decide, by decide, by decide⟩

/-- **C28** (characters that share glyphs): a used glyph has its outline in the file if no glyph with a smaller number is shared. -/
theorem C28_shared_partial {t : Ttf} (hl : LocaOK t) {m : CharMap} {b : Bytes} {arr : List Nat} (hb : makeFont t m = .ok b) (hlt : b.length < 4294967296) (ha : glyphClosure t m = .ok arr) :
    ∀ g < t.numGlyphs, g ∈ m.vals → (∀ u < g, arr.count u < 2) → OutlineIs b t.isShort g (srcOutline t g) := by
  intro g hg hm hc
  have he := embeds_runUp hb hlt hl ha g hg
  have hp : m.vals <+: arr := by
    unfold glyphClosure at ha
    refine List.IsPrefix.trans ?_ (closureLoop_prefix _ _ _ ha)
    split
    · exact List.prefix_refl _
    · exact List.prefix_append _ _
  rw [if_pos (runUp_all (sortNat_le arr) ((mem_sortNat).2 (hp.subset hm)) (fun u hu => by rw [(sortNat_perm arr).count_eq]; exact hc u hu))] at he
  exact he

example : glyphClosure simpleFont { keys := [32, 160, 65], vals := [1, 1, 2] } = .ok [1, 1, 2, 0] ∧ 1 ∈ [1, 1, 2] ∧ 1 < simpleFont.numGlyphs ∧
    (∀ u < 1, [1, 1, 2, 0].count u < 2) ∧ srcOutline simpleFont 1 ≠ [] :=
  ⟨by rfl, by decide, by decide, by decide, by decide⟩

end Verif
