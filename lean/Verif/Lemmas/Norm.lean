import Verif.Lemmas.Normal
/-
Normal texts: what `readProperties` hands to the entry parser.
-/
namespace Verif

theorem dropSp_iff (t : Bytes) : dropSp t = true ↔
    ∃ u, t = 47 :: u ∨ t = 91 :: u ∨ t = 93 :: u ∨ t = 60 :: 60 :: u ∨ t = 62 :: 62 :: u := by
  constructor
  · intro h
    unfold dropSp at h
    split at h
    · exact ⟨_, Or.inl rfl⟩
    · exact ⟨_, Or.inr (Or.inl rfl)⟩
    · exact ⟨_, Or.inr (Or.inr (Or.inl rfl))⟩
    · exact ⟨_, Or.inr (Or.inr (Or.inr (Or.inl rfl)))⟩
    · exact ⟨_, Or.inr (Or.inr (Or.inr (Or.inr rfl)))⟩
    · simp at h
  · rintro ⟨u, h | h | h | h | h⟩ <;> subst h <;> rfl

theorem dropSp_append {t : Bytes} (y : Bytes) (h : dropSp t = true) : dropSp (t ++ y) = true := by
  rw [dropSp_iff] at h ⊢
  obtain ⟨u, h | h | h | h | h⟩ := h <;> subst h
  · exact ⟨u ++ y, by simp⟩
  · exact ⟨u ++ y, by simp⟩
  · exact ⟨u ++ y, by simp⟩
  · exact ⟨u ++ y, by simp⟩
  · exact ⟨u ++ y, by simp⟩

theorem dropSp_false_of_append {t y : Bytes} (h : dropSp (t ++ y) = false) : dropSp t = false := by
  cases h' : dropSp t with
  | false => rfl
  | true => rw [dropSp_append y h'] at h; exact h

/-- the last byte is not white space -/
def EndOk (s : Bytes) : Prop := ∀ c, s.getLast? = some c → isSp c = false

/-- the texts the entry parser sees -/
structure Norm (s : Bytes) : Prop where
  noTab : ∀ c ∈ s, c ≠ 9 ∧ c ≠ 10 ∧ c ≠ 13
  space : ∀ t, (32 :: t) <:+ s → t ≠ [] ∧ t.head? ≠ some 32 ∧ dropSp t = false
  endOk : EndOk s
  ascii : Ascii s

/-- No lone `<` (or `>`) between white space directly before `<<` (or `>>`). -/
def NoSplit (u : Bytes) : Prop := ¬ [32, 60, 32, 60, 60] <:+: u ∧ ¬ [32, 62, 32, 62, 62] <:+: u

theorem stripQ_suffix {q : Bytes → Bool} {u t' : Bytes} (h : (32 :: t') <:+ stripQ q u) :
    ∃ t, (32 :: t) <:+ u ∧ q t = false ∧ t' = stripQ q t := by
  induction u with
  | nil => simp [stripQ] at h
  | cons c w ih =>
    simp only [stripQ] at h
    split at h
    · obtain ⟨t, h1, h2⟩ := ih h
      exact ⟨t, h1.trans (List.suffix_cons c w), h2⟩
    · rename_i hk
      rw [List.suffix_cons_iff] at h
      rcases h with h | h
      · simp at h
        obtain ⟨h1, h2⟩ := h
        refine ⟨w, by rw [← h1]; exact List.suffix_refl _, ?_, h2⟩
        cases hq : q w with
        | false => rfl
        | true => exact absurd ⟨h1.symm, hq⟩ hk
      · obtain ⟨t, h1, h2⟩ := ih h
        exact ⟨t, h1.trans (List.suffix_cons c w), h2⟩

theorem stripQ_getLast? {q : Bytes → Bool} {u : Bytes} {c : UInt8} (h : u.getLast? = some c) (hc : c ≠ 32) :
    (stripQ q u).getLast? = some c := by
  induction u with
  | nil => simp at h
  | cons d t ih =>
    cases t with
    | nil =>
      simp at h; subst h
      simp [stripQ, hc]
    | cons e w =>
      have h' : (e :: w).getLast? = some c := by
        rw [List.getLast?_cons_cons] at h; exact h
      have := ih h'
      rw [stripQ]
      split
      · exact this
      · rw [List.getLast?_cons, this]; rfl

theorem stripQ_mem {q : Bytes → Bool} {s : Bytes} {c : UInt8} (hc : c ∈ stripQ q s) : c ∈ s := by
  induction s with
  | nil => simp [stripQ] at hc
  | cons d t ih =>
    simp only [stripQ] at hc
    split at hc
    · exact List.mem_cons_of_mem _ (ih hc)
    · simp only [List.mem_cons] at hc ⊢
      rcases hc with hc | hc
      · exact Or.inl hc
      · exact Or.inr (ih hc)

theorem stripQ_head_eq {q : Bytes → Bool} {w r : Bytes} {d : UInt8} (hq : ∀ x, q (d :: x) = true → ∃ y, x = d :: y)
    (hd : d ≠ 32) (hss : SS w) (hn : ¬ [32, d, d] <+: w) (h : stripQ q w = d :: r) : ∃ x, w = d :: x := by
  cases w with
  | nil => simp [stripQ] at h
  | cons e x =>
    rw [stripQ] at h
    split at h
    · rename_i hk
      obtain ⟨h1, h2⟩ := hk
      subst h1
      cases x with
      | nil => simp [stripQ] at h
      | cons f y =>
        have hf : f ≠ 32 := hss.head_ne rfl
        rw [stripQ_cons_ne q y hf] at h
        simp at h
        obtain ⟨h3, _⟩ := h
        subst h3
        obtain ⟨z, hz⟩ := hq y h2
        subst hz
        exact absurd ⟨z, rfl⟩ hn
    · simp at h
      exact ⟨x, by rw [h.1]⟩

theorem norm_stripQ {u : Bytes} (hss : SS u) (hend : EndOk u) (hasc : Ascii u) (hns : NoSplit u) :
    Norm (stripQ dropSp u) where
  noTab := fun c hc => hss.1 c (stripQ_mem hc)
  ascii := fun c hc => hasc c (stripQ_mem hc)
  endOk := by
    cases hl : u.getLast? with
    | none =>
      rw [List.getLast?_eq_none_iff] at hl
      subst hl
      intro c hc
      simp [stripQ] at hc
    | some c =>
      have hsp := hend c hl
      have hc : c ≠ 32 := by intro e; subst e; simp [isSp] at hsp
      intro d hd
      rw [stripQ_getLast? hl hc] at hd
      simp at hd; subst hd; exact hsp
  space := by
    intro t' ht'
    obtain ⟨t, h1, h2, h3⟩ := stripQ_suffix ht'
    have hss1 : SS (32 :: t) := hss.suffix h1
    cases t with
    | nil =>
      exfalso
      obtain ⟨p, hp⟩ := h1
      have := hend 32 (by rw [← hp]; simp)
      simp [isSp] at this
    | cons d w =>
      have hd : d ≠ 32 := hss1.head_ne rfl
      rw [stripQ_cons_ne dropSp w hd] at h3
      subst h3
      refine ⟨by simp, by simpa using hd, ?_⟩
      cases hdr : dropSp (d :: stripQ dropSp w) with
      | false => rfl
      | true =>
        exfalso
        rw [dropSp_iff] at hdr
        obtain ⟨x, hx⟩ := hdr
        have fal : ∀ y, dropSp y = true → d :: w = y → False := by
          intro y hy e; subst e; rw [h2] at hy; simp at hy
        have hw : SS w := hss1.tail.tail
        rcases hx with hx | hx | hx | hx | hx
        · simp at hx; exact fal (47 :: w) rfl (by rw [hx.1])
        · simp at hx; exact fal (91 :: w) rfl (by rw [hx.1])
        · simp at hx; exact fal (93 :: w) rfl (by rw [hx.1])
        · simp at hx
          obtain ⟨hx1, hx2⟩ := hx
          subst hx1
          have hn : ¬ [32, 60, 60] <+: w := by
            rintro ⟨y, hy⟩
            apply hns.1
            obtain ⟨p, hp⟩ := h1
            exact ⟨p, y, by rw [← hp, ← hy]; simp⟩
          obtain ⟨y, hy⟩ := stripQ_head_eq (q := dropSp) (d := 60) (by
            intro x hx
            rw [dropSp_iff] at hx
            obtain ⟨u, h | h | h | h | h⟩ := hx <;> simp at h
            exact ⟨u, h⟩) (by decide) hw hn hx2
          subst hy
          exact fal (60 :: 60 :: y) rfl rfl
        · simp at hx
          obtain ⟨hx1, hx2⟩ := hx
          subst hx1
          have hn : ¬ [32, 62, 62] <+: w := by
            rintro ⟨y, hy⟩
            apply hns.2
            obtain ⟨p, hp⟩ := h1
            exact ⟨p, y, by rw [← hp, ← hy]; simp⟩
          obtain ⟨y, hy⟩ := stripQ_head_eq (q := dropSp) (d := 62) (by
            intro x hx
            rw [dropSp_iff] at hx
            obtain ⟨u, h | h | h | h | h⟩ := hx <;> simp at h
            exact ⟨u, h⟩) (by decide) hw hn hx2
          subst hy
          exact fal (62 :: 62 :: y) rfl rfl

theorem Norm.suffix {s t : Bytes} (h : Norm s) (ht : t <:+ s) : Norm t where
  noTab := fun c hc => h.noTab c (ht.subset hc)
  space := fun u hu => h.space u (hu.trans ht)
  ascii := fun c hc => h.ascii c (ht.subset hc)
  endOk := by
    intro c hc
    obtain ⟨p, hp⟩ := ht
    apply h.endOk c
    rw [← hp, List.getLast?_append, hc]; rfl

theorem Norm.tail {c : UInt8} {t : Bytes} (h : Norm (c :: t)) : Norm t := h.suffix (List.suffix_cons c t)

end Verif
