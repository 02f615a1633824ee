import Verif.Wrap
import Verif.Lemmas.Utf8
import Verif.Lemmas.Find
import Mathlib.Tactic.Ring
/-
C23 wrapping, C24 text breaker, C50 style letters.
-/
namespace Verif

/-! ### C24 -/

theorem breakAux_flatten (rs : List Nat) : ∀ tmp, (breakAux tmp rs).flatten = tmp ++ rs.flatMap encodeRune := by
  induction rs with
  | nil => intro tmp; rw [breakAux]; split <;> simp_all
  | cons r rs ih =>
    intro tmp
    rw [breakAux]
    split
    · simp [ih]
    · simp [ih]

theorem breakAux_tokens (rs : List Nat) (h : ∀ r ∈ rs, Scalar r) : ∀ tmp, (32 : UInt8) ∉ tmp →
    ∀ t ∈ breakAux tmp rs, t = [] ∨ t = [32] ∨ (32 : UInt8) ∉ t := by
  induction rs with
  | nil => intro tmp ht t hm; rw [breakAux] at hm; split at hm <;> simp_all
  | cons r rs ih =>
    have ih := ih (fun x hx => h x (by simp [hx]))
    intro tmp ht t hm
    rw [breakAux] at hm
    split at hm
    · rename_i hr
      rw [List.mem_cons, List.mem_cons] at hm
      rcases hm with rfl | rfl | hm
      · exact Or.inr (Or.inr ht)
      · subst hr; exact Or.inr (Or.inl rfl)
      · exact ih [] (by simp) t hm
    · rename_i hr
      refine ih _ ?_ t hm
      rw [List.mem_append, not_or]
      exact ⟨ht, fun hx => hr ((space_mem_encode (h r (by simp))).1 hx)⟩

/-- **C24** (partial): for every text that is valid UTF-8 the tokens concatenate to the text, and every token (of any text) is
empty, one space, or free of spaces.  Missing: byte strings that are not valid UTF-8 (false, see below). -/
theorem C24_breaker_lossless_partial (text : Bytes) :
    (ValidText text → (breakTextToToken text).flatten = text) ∧
    ∀ t ∈ breakTextToToken text, t = [] ∨ t = [32] ∨ (32 : UInt8) ∉ t := by
  constructor
  · intro h
    rw [breakTextToToken, breakAux_flatten, List.nil_append, h.runes]
  · exact breakAux_tokens _ (runes_scalar text) [] (by simp)

/-- **C24 refuted** for texts that are not valid UTF-8: the byte FF becomes the three bytes of U+FFFD. -/
theorem C24_refuted_invalid_utf8 : (breakTextToToken [0xFF]).flatten ≠ [0xFF] := by decide

example : ValidText b!"a b" := ⟨[97, 32, 98], by decide, by decide⟩
example : breakTextToToken b!"a b " = [b!"a", b!" ", b!"b", b!" "] := by decide

/-! ### C23 -/

/-- The groups of tokens that make up the lines, and the group being collected. -/
structure WrapInv (measure : Bytes → Res ℚ) (w step y : ℚ) (st : WrapState) (gs : List (List Bytes)) (g done : List Bytes) : Prop where
  curr : st.curr = g.flatten
  prev : st.prev = g.flatten
  lines : st.lines.map (·.1) = gs.map (fun g => trimSpace g.flatten)
  ys : ∀ (i : Nat) (l : Bytes × ℚ), st.lines[i]? = some l → l.2 = y + i * step
  y : st.y = y + gs.length * step
  done : gs.flatten ++ g = done
  fits : ∀ h ∈ g :: gs, 2 ≤ h.length → ∃ x, measure h.flatten = .ok x ∧ x ≤ w
  ne : ∀ h ∈ gs.tail, h ≠ []
  cur : gs ≠ [] → g ≠ []
  full : ∀ (i : Nat) k t h, (gs ++ [g])[i]? = some k → (gs ++ [g])[i + 1]? = some (t :: h) → ∃ x, measure (k.flatten ++ t) = .ok x ∧ w < x

theorem wrapStep_inv {measure : Bytes → Res ℚ} {w step y : ℚ} {st st' : WrapState} {gs : List (List Bytes)} {g done : List Bytes} {t : Bytes}
    (hi : WrapInv measure w step y st gs g done) (ht : t ≠ []) (hs : wrapStep measure w step st t = .ok st') :
    ∃ gs' g', WrapInv measure w step y st' gs' g' (done ++ [t]) := by
  rw [wrapStep, if_neg ht, Res.bind_eq_ok] at hs
  obtain ⟨x, hx, hs⟩ := hs
  have hlen : st.lines.length = gs.length := by have := congrArg List.length hi.lines; simpa using this
  split at hs
  · injection hs with hs
    subst hs
    refine ⟨gs ++ [g], [t], ?_⟩
    constructor
    · simp
    · simp
    · simp [hi.lines, hi.prev]
    · intro i l hl
      rw [List.getElem?_append] at hl
      split at hl
      · exact hi.ys i l hl
      · have h0 : i = st.lines.length := by
          by_contra hne
          rw [List.getElem?_eq_none (by simp; omega)] at hl
          simp at hl
        subst h0
        simp at hl
        subst hl
        rw [hi.y, hlen]
    · simp only [hi.y, List.length_append, List.length_singleton]
      push_cast
      ring
    · simp [← hi.done]
    · intro h hh h2
      simp only [List.mem_cons, List.mem_append, List.not_mem_nil, or_false] at hh
      rcases hh with rfl | hh | rfl
      · simp at h2
      · exact hi.fits h (by simp [hh]) h2
      · exact hi.fits h (by simp) h2
    · intro h hh
      cases gs with
      | nil => simp at hh
      | cons a gs =>
        simp only [List.cons_append, List.tail_cons, List.mem_append, List.mem_singleton] at hh
        rcases hh with hh | rfl
        · exact hi.ne h (by simpa using hh)
        · exact hi.cur (by simp)
    · simp
    · rename_i hw
      intro i k t' h hk hn
      have hlt : i + 1 < (gs ++ [g] ++ [[t]]).length := (List.getElem?_eq_some_iff.1 hn).1
      by_cases h0 : i + 1 < (gs ++ [g]).length
      · rw [List.getElem?_append_left h0] at hn
        rw [List.getElem?_append_left (by omega)] at hk
        exact hi.full i k t' h hk hn
      · simp only [List.length_append, List.length_singleton] at h0 hlt
        have h1 : i = gs.length := by omega
        subst h1
        simp only [List.append_assoc, List.cons_append, List.nil_append, List.getElem?_append_right (Nat.le_refl _), Nat.sub_self, List.getElem?_cons_zero,
          Option.some.injEq] at hk
        rw [List.getElem?_append_right (by simp)] at hn
        simp only [List.length_append, List.length_singleton, Nat.sub_self, List.getElem?_cons_zero, Option.some.injEq, List.cons.injEq] at hn
        obtain ⟨rfl, -⟩ := hn
        subst hk
        exact ⟨x, by rw [← hx, hi.curr], hw⟩
  · rename_i hw
    injection hs with hs
    subst hs
    refine ⟨gs, g ++ [t], ?_⟩
    constructor
    · simp [hi.curr]
    · simp [hi.curr]
    · exact hi.lines
    · exact hi.ys
    · exact hi.y
    · simp [← hi.done]
    · intro h hh h2
      rw [List.mem_cons] at hh
      rcases hh with rfl | hh
      · refine ⟨x, ?_, not_lt.1 hw⟩
        rw [← hx, hi.curr]
        simp
      · exact hi.fits h (by simp [hh]) h2
    · exact hi.ne
    · simp
    · intro i k t' h hk hn
      have hlt : i + 1 < (gs ++ [g ++ [t]]).length := (List.getElem?_eq_some_iff.1 hn).1
      simp only [List.length_append, List.length_singleton] at hlt
      rw [List.getElem?_append_left (by omega)] at hk
      have hk' : (gs ++ [g])[i]? = some k := by rw [List.getElem?_append_left (by omega)]; exact hk
      by_cases h0 : i + 1 < gs.length
      · rw [List.getElem?_append_left h0] at hn
        exact hi.full i k t' h hk' (by rw [List.getElem?_append_left h0]; exact hn)
      · have h1 : i + 1 = gs.length := by omega
        have hg : g ≠ [] := hi.cur (by intro e; subst e; simp at h1)
        rw [h1, List.getElem?_append_right (Nat.le_refl _)] at hn
        simp only [Nat.sub_self, List.getElem?_cons_zero, Option.some.injEq] at hn
        cases g with
        | nil => exact absurd rfl hg
        | cons t0 g0 =>
          simp only [List.cons_append, List.cons.injEq] at hn
          obtain ⟨rfl, -⟩ := hn
          exact hi.full i k t0 g0 hk' (by rw [h1]; simp)

theorem wrapLoop_inv {measure : Bytes → Res ℚ} {w step y : ℚ} (tokens : List Bytes) : ∀ {st st' : WrapState} {gs : List (List Bytes)} {g done : List Bytes},
    WrapInv measure w step y st gs g done → wrapLoop measure w step st tokens = .ok st' →
    ∃ gs' g', WrapInv measure w step y st' gs' g' (done ++ tokens.filter (· ≠ [])) := by
  induction tokens with
  | nil =>
    intro st st' gs g done hi hs
    rw [wrapLoop] at hs
    injection hs with hs
    subst hs
    exact ⟨gs, g, by simpa using hi⟩
  | cons t ts ih =>
    intro st st' gs g done hi hs
    rw [wrapLoop, Res.bind_eq_ok] at hs
    obtain ⟨s1, h1, h2⟩ := hs
    by_cases ht : t = []
    · rw [wrapStep, if_pos ht] at h1
      injection h1 with h1
      subst h1
      obtain ⟨gs', g', h⟩ := ih hi h2
      exact ⟨gs', g', by simpa [ht] using h⟩
    · obtain ⟨gs1, g1, hi1⟩ := wrapStep_inv hi ht h1
      obtain ⟨gs', g', h⟩ := ih hi1 h2
      exact ⟨gs', g', by simpa [ht] using h⟩

/-- **C23**.  Whenever the wrapping succeeds, there is a division of the (non-empty) tokens into consecutive groups, one for each `Insert` call in
order, such that call i draws the concatenation of group i (trimmed), every group of two or more tokens fits into the box,
only the first group can be empty, a group is followed by another only if the next token does not fit with it, and line i is drawn i times 1.2 font sizes below the first line; without vertical centring the
first line is at the requested y, with centring the lines are shifted up by half of their total height less half a font size. -/
theorem C23_wrap (measure : Bytes → Res ℚ) (w y : ℚ) (fontSize : Int) (middle : Bool) (tokens : List Bytes) (calls : List (Bytes × ℚ))
    (h : wrapCalls measure w y fontSize middle tokens = .ok calls) :
    ∃ groups : List (List Bytes),
      groups.flatten = tokens.filter (· ≠ []) ∧
      calls.map (·.1) = groups.map (fun g => trimSpace g.flatten) ∧
      (∀ g ∈ groups, 2 ≤ g.length → ∃ x, measure g.flatten = .ok x ∧ x ≤ w) ∧
      (∀ g ∈ groups.tail, g ≠ []) ∧
      (∀ (i : Nat) g t h, groups[i]? = some g → groups[i + 1]? = some (t :: h) → ∃ x, measure (g.flatten ++ t) = .ok x ∧ w < x) ∧
      (∀ (i : Nat) (c : Bytes × ℚ), calls[i]? = some c →
        c.2 = y - (if middle then ((calls.length : ℚ) * (6 / 5 * (fontSize : ℚ))) / 2 - (fontSize : ℚ) / 2 else 0) + i * (6 / 5 * (fontSize : ℚ))) := by
  rw [wrapCalls] at h
  simp only [Res.bind_eq_ok] at h
  obtain ⟨st, hst, h⟩ := h
  injection h with h
  have hi0 : WrapInv measure w ((fontSize : ℚ) + fontSize * (2 / 10)) y { lines := [], y := y, prev := [], curr := [] } [] [] [] := by
    constructor <;> simp
  obtain ⟨gs, g, hi⟩ := wrapLoop_inv tokens hi0 hst
  have hstep : (fontSize : ℚ) + fontSize * (2 / 10) = 6 / 5 * fontSize := by ring
  have hne : ∀ t ∈ g, t ≠ [] := by
    intro t ht
    have : t ∈ gs.flatten ++ g := by simp [ht]
    rw [hi.done] at this
    simp at this
    exact this.2
  have hlen : st.lines.length = gs.length := by have := congrArg List.length hi.lines; simpa using this
  by_cases hc : st.curr = []
  · have hg : g = [] := by
      cases g with
      | nil => rfl
      | cons t g =>
        rw [hi.curr] at hc
        simp at hc
        exact absurd hc.1 (hne t (by simp))
    have hgs : gs = [] := by
      by_contra hgs
      exact hi.cur hgs hg
    subst hg; subst hgs
    have hl : st.lines = [] := by simpa using hlen
    have hd := hi.done
    refine ⟨[], by simpa using hd, ?_, by simp, by simp, by simp, ?_⟩
    · subst h; simp [hc, hl]
    · subst h; simp [hc, hl]
  · refine ⟨gs ++ [g], ?_, ?_, ?_, ?_, hi.full, ?_⟩
    · simpa using hi.done
    · subst h
      rw [if_pos hc]
      simp only [List.map_map, Function.comp_def, List.map_append, List.map_cons, List.map_nil]
      rw [hi.lines, hi.prev]
    · intro k hk h2
      simp only [List.mem_append, List.mem_singleton] at hk
      exact hi.fits k (by simp; tauto) h2
    · intro k hk
      cases gs with
      | nil => simp at hk
      | cons a gs =>
        simp only [List.cons_append, List.tail_cons, List.mem_append, List.mem_singleton] at hk
        rcases hk with hk | rfl
        · exact hi.ne k (by simpa using hk)
        · exact hi.cur (by simp)
    · intro i c hic
      have hlc : calls.length = gs.length + 1 := by subst h; simp [hc, hlen]
      subst h
      rw [if_pos hc] at hic ⊢
      simp only [List.getElem?_map, Option.map_eq_some_iff] at hic
      obtain ⟨l, hl, rfl⟩ := hic
      have hy : l.2 = y + i * (6 / 5 * (fontSize : ℚ)) := by
        rw [List.getElem?_append] at hl
        split at hl
        · rw [hi.ys i l hl, hstep]
        · have h0 : i = st.lines.length := by
            by_contra hne
            rw [List.getElem?_eq_none (by simp; omega)] at hl
            simp at hl
          subst h0
          simp at hl
          subst hl
          simp only
          rw [hi.y, hlen, hstep]
      simp only [List.length_map, List.length_append, List.length_singleton] at *
      rw [hy, hi.y, hlen, hstep]
      push_cast
      split <;> ring

/-- two words that do not fit together, with one width unit per byte -/
example : wrapCalls (fun s => .ok s.length) 4 100 10 false [b!"abc", b!" ", b!"de"] = .ok [(b!"abc", 100), (b!"de", 112)] := by
  decide +kernel

/-! ### C50 -/

theorem contains_single (c : UInt8) (s : Bytes) : contains [c] s = true ↔ c ∈ s := by
  induction s with
  | nil => simp [contains, index]
  | cons b s ih =>
    rw [contains, index]
    by_cases h : b = c
    · subst h; simp [List.isPrefixOf]
    · have : ([c] : Bytes).isPrefixOf (b :: s) = false := by simp [List.isPrefixOf, Ne.symm h]
      rw [this]
      simp only [Bool.false_eq_true, if_false, Option.isSome_map]
      rw [List.mem_cons]
      have : ¬ c = b := fun e => h e.symm
      simp only [this, false_or]
      exact ih

theorem ascii_mem_encode {r : Nat} (h : Scalar r) {c : UInt8} (hc : c < 128) : c ∈ encodeRune r ↔ r = c.toNat := by
  have hc' : c.toNat < 128 := hc
  constructor
  · intro hm
    rw [encodeRune, if_pos h, encodeScalar] at hm
    have key : ∀ n, n < 256 → c = UInt8.ofNat n → n = c.toNat := by
      intro n hn e
      rw [e, toNat_ofNat8 hn]
    unfold Scalar at h
    repeat' split at hm
    · simp only [List.mem_cons, List.not_mem_nil, or_false] at hm
      exact key r (by omega) hm
    · simp only [List.mem_cons, List.not_mem_nil, or_false] at hm
      rcases hm with hm | hm <;> · have := key _ (by omega) hm; omega
    · simp only [List.mem_cons, List.not_mem_nil, or_false] at hm
      rcases hm with hm | hm | hm <;> · have := key _ (by omega) hm; omega
    · simp only [List.mem_cons, List.not_mem_nil, or_false] at hm
      rcases hm with hm | hm | hm | hm <;> · have := key _ (by omega) hm; omega
  · rintro rfl
    rw [encodeRune, if_pos h, encodeScalar, if_pos hc']
    simp

theorem contains_upper (up : Upper) (s : Bytes) (c : UInt8) (hc : c < 128) :
    contains [c] (toUpper up s) = true ↔ ∃ r ∈ runes s, up.fn r = c.toNat := by
  rw [contains_single, toUpper, List.mem_flatMap]
  constructor
  · rintro ⟨r, hr, hm⟩
    exact ⟨r, hr, (ascii_mem_encode (up.scalar r (runes_scalar s r hr)) hc).1 hm⟩
  · rintro ⟨r, hr, hm⟩
    exact ⟨r, hr, (ascii_mem_encode (up.scalar r (runes_scalar s r hr)) hc).2 hm⟩

/-- the text contains one of these characters -/
def Spec.Has (s : Bytes) (cs : List Nat) : Prop := ∃ r ∈ runes s, r ∈ cs

open Classical in
/-- **C50**: the style number has the bold bit (2) exactly when B or b occurs, the italic bit (1) exactly when I, i or the dotless i (whose capital is I) occurs,
the underline bit (4) exactly when U or u occurs, and no other bit. -/
theorem C50_style_letters (up : Upper) (s : Bytes) :
    getConvertedStyle up s = (if Spec.Has s [66, 98] then 2 else 0) + (if Spec.Has s [73, 105, 0x131] then 1 else 0) +
      (if Spec.Has s [85, 117] then 4 else 0) := by
  have hB : contains b!"B" (toUpper up s) = true ↔ Spec.Has s [66, 98] := by
    rw [contains_upper up s 66 (by decide)]
    constructor
    · rintro ⟨r, hr, h⟩
      refine ⟨r, hr, ?_⟩
      by_cases hl : r < 128
      · rw [up.ascii r hl] at h
        have : (66 : UInt8).toNat = 66 := rfl
        rw [this] at h
        simp only [List.mem_cons, List.not_mem_nil, or_false]
        split at h <;> omega
      · exact absurd h (up.noB r (by omega))
    · rintro ⟨r, hr, h⟩
      refine ⟨r, hr, ?_⟩
      simp only [List.mem_cons, List.not_mem_nil, or_false] at h
      rcases h with rfl | rfl <;> rw [up.ascii _ (by omega)] <;> rfl
  have hU : contains b!"U" (toUpper up s) = true ↔ Spec.Has s [85, 117] := by
    rw [contains_upper up s 85 (by decide)]
    constructor
    · rintro ⟨r, hr, h⟩
      refine ⟨r, hr, ?_⟩
      by_cases hl : r < 128
      · rw [up.ascii r hl] at h
        have : (85 : UInt8).toNat = 85 := rfl
        rw [this] at h
        simp only [List.mem_cons, List.not_mem_nil, or_false]
        split at h <;> omega
      · exact absurd h (up.noU r (by omega))
    · rintro ⟨r, hr, h⟩
      refine ⟨r, hr, ?_⟩
      simp only [List.mem_cons, List.not_mem_nil, or_false] at h
      rcases h with rfl | rfl <;> rw [up.ascii _ (by omega)] <;> rfl
  have hI : contains b!"I" (toUpper up s) = true ↔ Spec.Has s [73, 105, 0x131] := by
    rw [contains_upper up s 73 (by decide)]
    constructor
    · rintro ⟨r, hr, h⟩
      refine ⟨r, hr, ?_⟩
      simp only [List.mem_cons, List.not_mem_nil, or_false]
      by_cases hl : r < 128
      · rw [up.ascii r hl] at h
        have : (73 : UInt8).toNat = 73 := rfl
        rw [this] at h
        split at h <;> omega
      · exact Or.inr (Or.inr ((up.onlyI r (by omega)).1 h))
    · rintro ⟨r, hr, h⟩
      refine ⟨r, hr, ?_⟩
      simp only [List.mem_cons, List.not_mem_nil, or_false] at h
      rcases h with rfl | rfl | rfl
      · rw [up.ascii _ (by omega)]; rfl
      · rw [up.ascii _ (by omega)]; rfl
      · exact (up.onlyI _ (by omega)).2 rfl
  rw [getConvertedStyle]
  simp only [hB, hI, hU]
  split <;> split <;> split <;> rfl

/-- there is such a table -/
def sampleUpper : Upper where
  fn r := if r < 128 then (if 97 ≤ r ∧ r ≤ 122 then r - 32 else r) else if r = 0x131 then 73 else r
  ascii := by intro r hr; rw [if_pos hr]
  scalar := by intro r hr; unfold Scalar at *; (repeat' split) <;> omega
  noB := by intro r hr; (repeat' split) <;> omega
  noU := by intro r hr; (repeat' split) <;> omega
  onlyI := by intro r hr; (repeat' split) <;> omega

example : getConvertedStyle sampleUpper b!"bU" = 6 := by decide

end Verif
