import Verif.Spec.Font
import Verif.Lemmas.Utf8
import Verif.Lemmas.Refs
/-
Lemmas about the character map, the drawing loop and hexadecimal numbers.
-/
namespace Verif
open Spec

/-! ### the character map -/

theorem cmIndex_some {m : CharMap} {k i : Nat} (h : m.index k = some i) : m.keys[i]? = some k := by
  unfold CharMap.index at h
  rw [Option.map_eq_some_iff] at h
  obtain ⟨j, hj, rfl⟩ := h
  rw [List.idxOf?_eq_some_iff] at hj
  obtain ⟨hlt, he, _⟩ := hj
  rw [List.length_reverse] at hlt
  rw [List.getElem_reverse] at he
  rw [List.getElem?_eq_getElem (by omega), he]

theorem cmIndex_none {m : CharMap} {k : Nat} : m.index k = none ↔ k ∉ m.keys := by
  unfold CharMap.index
  rw [Option.map_eq_none_iff, List.idxOf?_eq_none_iff, List.mem_reverse]

theorem exists_iff {m : CharMap} {k : Nat} : m.exists k = true ↔ k ∈ m.keys := by
  unfold CharMap.exists
  cases h : m.index k with
  | none => simp [cmIndex_none.1 h]
  | some i => simp [List.mem_of_getElem? (cmIndex_some h)]

theorem nodup_index {l : List Nat} (h : l.Nodup) {i j : Nat} {a : Nat} (hi : l[i]? = some a) (hj : l[j]? = some a) : i = j := by
  induction l generalizing i j with
  | nil => simp at hi
  | cons b l ih =>
    rw [List.nodup_cons] at h
    cases i with
    | zero =>
      cases j with
      | zero => rfl
      | succ j => simp at hi hj; subst hi; exact absurd (List.mem_of_getElem? hj) h.1
    | succ i =>
      cases j with
      | zero => simp at hi hj; subst hj; exact absurd (List.mem_of_getElem? hi) h.1
      | succ j => simp at hi hj; rw [ih h.2 hi hj]

theorem val_iff {t : Ttf} {m : CharMap} (h : FontOK t m) {k v : Nat} : m.val k = some v ↔ (k, v) ∈ m.keys.zip m.vals := by
  rw [List.mem_iff_getElem?]
  constructor
  · intro hv
    unfold CharMap.val at hv
    split at hv
    · simp at hv
    · rename_i i hi
      exact ⟨i, by rw [List.getElem?_zip_eq_some]; exact ⟨cmIndex_some hi, hv⟩⟩
  · rintro ⟨i, hi⟩
    rw [List.getElem?_zip_eq_some] at hi
    unfold CharMap.val
    cases hx : m.index k with
    | none => exact absurd (List.mem_of_getElem? hi.1) (cmIndex_none.1 hx)
    | some j =>
      have := nodup_index h.nodup (cmIndex_some hx) hi.1
      subst this
      exact hi.2

theorem val_glyph {t : Ttf} {m : CharMap} (h : FontOK t m) {k v : Nat} (hv : m.val k = some v) : charToGlyph t k = .ok v :=
  h.glyph _ ((val_iff h).1 hv)

theorem val_of_mem {t : Ttf} {m : CharMap} (h : FontOK t m) {k : Nat} (hk : k ∈ m.keys) : ∃ v, m.val k = some v := by
  rw [List.mem_iff_getElem?] at hk
  obtain ⟨i, hi⟩ := hk
  have hlt : i < m.keys.length := (List.getElem?_eq_some_iff.1 hi).1
  have hlt' : i < m.vals.length := by rw [← h.len]; exact hlt
  refine ⟨m.vals[i], (val_iff h).2 (List.mem_iff_getElem?.2 ⟨i, ?_⟩)⟩
  rw [List.getElem?_zip_eq_some]
  exact ⟨hi, List.getElem?_eq_getElem hlt'⟩

theorem Spec.FontOK.empty (t : Ttf) : FontOK t {} := ⟨by simp, rfl, by simp⟩

theorem Spec.FontOK.set {t : Ttf} {m : CharMap} (h : FontOK t m) {k v : Nat} (hk : k ∉ m.keys) (hv : charToGlyph t k = .ok v) :
    FontOK t (m.set k v) := by
  refine ⟨?_, by simp [CharMap.set, h.len], ?_⟩
  · simp only [CharMap.set]
    rw [List.nodup_append]
    refine ⟨h.nodup, by simp, ?_⟩
    intro a ha b hb e
    simp at hb
    subst hb; subst e
    exact hk ha
  · intro p hp
    simp only [CharMap.set] at hp
    rw [List.zip_append h.len, List.mem_append] at hp
    rcases hp with hp | hp
    · exact h.glyph p hp
    · simp at hp; subst hp; exact hv

/-- the map only grows -/
def Grows (m m' : CharMap) : Prop := ∃ ks vs, m'.keys = m.keys ++ ks ∧ m'.vals = m.vals ++ vs ∧ ks.length = vs.length

theorem addRunes_ok {t : Ttf} (rs : List Nat) : ∀ {m : CharMap}, FontOK t m → FontOK t (addRunes t m rs).1 := by
  induction rs with
  | nil => intro m h; exact h
  | cons r rs ih =>
    intro m h
    rw [addRunes]
    split
    · exact ih h
    · rename_i he
      have hk : r ∉ m.keys := fun hm => he (exists_iff.2 hm)
      split
      · rename_i g hg
        exact ih (h.set hk hg)
      all_goals exact h

theorem addRunes_keys {t : Ttf} (rs : List Nat) : ∀ {m : CharMap}, ∀ k ∈ m.keys, k ∈ (addRunes t m rs).1.keys := by
  induction rs with
  | nil => intro m k hk; exact hk
  | cons r rs ih =>
    intro m k hk
    rw [addRunes]
    split
    · exact ih k hk
    · split
      · exact ih k (by simp [CharMap.set, hk])
      all_goals exact hk

theorem addRunes_mem {t : Ttf} (rs : List Nat) : ∀ {m : CharMap} (k : Nat), k ∈ (addRunes t m rs).1.keys → k ∈ m.keys ∨ k ∈ rs := by
  induction rs with
  | nil => intro m k hk; exact Or.inl hk
  | cons r rs ih =>
    intro m k hk
    rw [addRunes] at hk
    split at hk
    · rcases ih k hk with h | h
      · exact Or.inl h
      · exact Or.inr (by simp [h])
    · split at hk
      · rcases ih k hk with h | h
        · simp [CharMap.set] at h
          rcases h with h | h
          · exact Or.inl h
          · exact Or.inr (by simp [h])
        · exact Or.inr (by simp [h])
      all_goals exact Or.inl hk

/-- if all characters have a glyph, all are added -/
theorem addRunes_all {t : Ttf} (rs : List Nat) : ∀ {m : CharMap}, (∀ r ∈ rs, ∃ g, charToGlyph t r = .ok g) →
    (addRunes t m rs).2 = .ok () ∧ ∀ r ∈ rs, r ∈ (addRunes t m rs).1.keys := by
  induction rs with
  | nil => intro m _; exact ⟨rfl, by simp⟩
  | cons r rs ih =>
    intro m h
    rw [addRunes]
    split
    · rename_i he
      obtain ⟨h1, h2⟩ := ih (m := m) (fun x hx => h x (by simp [hx]))
      refine ⟨h1, ?_⟩
      intro x hx
      rw [List.mem_cons] at hx
      rcases hx with rfl | hx
      · exact addRunes_keys rs _ (exists_iff.1 he)
      · exact h2 x hx
    · obtain ⟨g, hg⟩ := h r (by simp)
      rw [hg]
      obtain ⟨h1, h2⟩ := ih (m := m.set r g) (fun x hx => h x (by simp [hx]))
      refine ⟨h1, ?_⟩
      intro x hx
      rw [List.mem_cons] at hx
      rcases hx with rfl | hx
      · exact addRunes_keys rs _ (by simp [CharMap.set])
      · exact h2 x hx

/-! ### the drawing loop without kerning -/

theorem ccLoop_sum {f : FontState} (hk : f.kernOverride = none) (text : Bytes) (fs : Int) (rs : List Nat) : ∀ st : CCState,
    (∀ st', ccLoop f text fs st rs = (st', .ok ()) →
      ∃ ws : List Nat, List.Forall₂ (fun r w => charWidth f.ttf f.chars r = .ok w) rs ws ∧ st'.sum = st.sum + ws.sum) ∧
    (∀ ws : List Nat, List.Forall₂ (fun r w => charWidth f.ttf f.chars r = .ok w) rs ws →
      ∃ st', ccLoop f text fs st rs = (st', .ok ())) := by
  induction rs with
  | nil =>
    intro st
    refine ⟨fun st' h => ⟨[], .nil, ?_⟩, fun ws _ => ⟨st, rfl⟩⟩
    rw [ccLoop] at h
    simp at h
    subst h
    simp
  | cons r rs ih =>
    intro st
    have hkk : ¬ (st.pos > 0 ∧ f.kernOverride.isSome = true) := by simp [hk]
    constructor
    · intro st' h
      rw [ccLoop] at h
      split at h
      · rename_i g hg
        rw [if_neg hkk] at h
        simp only at h
        split at h
        · rename_i w hw
          obtain ⟨ws, h1, h2⟩ := (ih _).1 st' h
          refine ⟨w :: ws, .cons hw h1, ?_⟩
          rw [h2]
          simp only [List.sum_cons]
          push_cast
          omega
        all_goals simp at h
      all_goals simp at h
    · intro ws hws
      cases hws with
      | cons hw hws =>
        rename_i w ws
        rw [ccLoop]
        have hg : ∃ g, charIndex f.chars r = .ok g := by
          unfold charWidth at hw
          cases hv : f.chars.val r with
          | none => rw [hv] at hw; simp at hw
          | some g => exact ⟨g, by simp [charIndex, hv]⟩
        obtain ⟨g, hg⟩ := hg
        rw [hg]
        simp only
        rw [if_neg hkk]
        simp only [hw]
        exact (ih _).2 ws hws

theorem charWidth_iff {t : Ttf} {m : CharMap} (h : FontOK t m) {r w : Nat} :
    charWidth t m r = .ok w ↔ r ∈ m.keys ∧ runeWidth t r = .ok w := by
  unfold charWidth runeWidth
  constructor
  · intro hw
    cases hv : m.val r with
    | none => rw [hv] at hw; simp at hw
    | some g =>
      rw [hv] at hw
      have := (List.of_mem_zip ((val_iff h).1 hv)).1
      refine ⟨this, ?_⟩
      rw [val_glyph h hv]
      exact hw
  · rintro ⟨hk, hw⟩
    obtain ⟨g, hg⟩ := val_of_mem h hk
    rw [val_glyph h hg] at hw
    rw [hg]
    exact hw

/-! ### runes of a concatenation -/

theorem runes_append {a : Bytes} (h : ValidText a) (b : Bytes) : runes (a ++ b) = runes a ++ runes b := by
  obtain ⟨rs, h1, rfl⟩ := h
  rw [runes_encode h1]
  induction rs with
  | nil => rfl
  | cons r rs ih =>
    rw [List.flatMap_cons, List.append_assoc, runes_encode_cons (h1 r (by simp)), ih (fun x hx => h1 x (by simp [hx]))]
    rfl

/-! ### hexadecimal numbers -/

theorem hexVal_append (a b : Bytes) : ∀ acc, hexVal acc (a ++ b) = (hexVal acc a).bind (fun x => hexVal x b) := by
  induction a with
  | nil => intro acc; rfl
  | cons c a ih =>
    intro acc
    rw [List.cons_append, hexVal, hexVal]
    split
    · exact ih _
    · rfl

theorem hexDigitVal_hexDigit {n : Nat} (h : n < 16) : hexDigitVal (hexDigit n) = some n := by
  have : ∀ n : Fin 16, hexDigitVal (hexDigit n.val) = some n.val := by decide
  exact this ⟨n, h⟩

theorem hexAux_val (fuel : Nat) : ∀ n, n < fuel → hexVal 0 (hexAux fuel n) = some n := by
  induction fuel with
  | zero => intro n h; omega
  | succ fuel ih =>
    intro n h
    rw [hexAux]
    split
    · rename_i h16
      simp [hexVal, hexDigitVal_hexDigit h16]
    · rw [hexVal_append, ih (n / 16) (by omega)]
      simp only [Option.bind_some, hexVal, hexDigitVal_hexDigit (show n % 16 < 16 by omega)]
      congr 1
      omega

theorem hexAux_length (k : Nat) : ∀ fuel n, n < fuel → n < 16 ^ (k + 1) → (hexAux fuel n).length ≤ k + 1 := by
  induction k with
  | zero =>
    intro fuel n h hn
    cases fuel with
    | zero => omega
    | succ fuel => rw [hexAux, if_pos (by omega)]; simp
  | succ k ih =>
    intro fuel n h hn
    cases fuel with
    | zero => omega
    | succ fuel =>
      rw [hexAux]
      split
      · simp
      · have := ih fuel (n / 16) (by omega) (by rw [Nat.pow_succ] at hn; omega)
        simp only [List.length_append, List.length_singleton]
        omega

theorem hexVal_zeros (k : Nat) (b : Bytes) : hexVal 0 (List.replicate k 48 ++ b) = hexVal 0 b := by
  induction k with
  | zero => rfl
  | succ k ih =>
    rw [List.replicate_succ, List.cons_append, hexVal]
    have : hexDigitVal 48 = some 0 := by decide
    rw [this]
    exact ih

theorem hex4_val (n : Nat) : hexVal 0 (hex4 n) = some n := by
  rw [hex4, hexVal_zeros, hexDigits, hexAux_val _ _ (by omega)]

theorem hex4_length {n : Nat} (h : n < 65536) : (hex4 n).length = 4 := by
  have := hexAux_length 3 (n + 1) n (by omega) (by omega)
  rw [hex4, List.length_append, List.length_replicate, hexDigits]
  omega

theorem hexDigit_range {n : Nat} (h : n < 16) : hexDigit n ≠ 60 ∧ hexDigit n ≠ 62 := by
  have : ∀ n : Fin 16, hexDigit n.val ≠ 60 ∧ hexDigit n.val ≠ 62 := by decide
  exact this ⟨n, h⟩

theorem hexAux_range (fuel : Nat) : ∀ n, ∀ c ∈ hexAux fuel n, c ≠ 60 ∧ c ≠ 62 := by
  induction fuel with
  | zero => intro n c hc; simp [hexAux] at hc
  | succ fuel ih =>
    intro n c hc
    rw [hexAux] at hc
    split at hc
    · simp at hc; subst hc; exact hexDigit_range (by omega)
    · rw [List.mem_append] at hc
      rcases hc with hc | hc
      · exact ih _ c hc
      · simp at hc; subst hc; exact hexDigit_range (by omega)

theorem hex4_range (n : Nat) : ∀ c ∈ hex4 n, c ≠ 60 ∧ c ≠ 62 := by
  intro c hc
  rw [hex4, List.mem_append] at hc
  rcases hc with hc | hc
  · rw [List.mem_replicate] at hc; obtain ⟨_, rfl⟩ := hc; decide
  · exact hexAux_range _ _ c hc

theorem codes_hex4 {n : Nat} (h : n < 65536) (t : Bytes) : codes (hex4 n ++ t) = (codes t).map (n :: ·) := by
  have hl := hex4_length h
  have hv := hex4_val n
  match hx : hex4 n, hl with
  | [a, b, c, d], _ =>
    rw [hx] at hv
    rw [show [a, b, c, d] ++ t = a :: b :: c :: d :: t from rfl, codes, hv]
    cases codes t <;> rfl

/-! ### reading between angle brackets -/

/-- no angle brackets -/
def NoAngle (s : Bytes) : Prop := ∀ c ∈ s, c ≠ 60 ∧ c ≠ 62

theorem inner_in {s : Bytes} (h : NoAngle s) (t : Bytes) : inner true (s ++ t) = s ++ inner true t := by
  induction s with
  | nil => rfl
  | cons c s ih =>
    obtain ⟨h1, h2⟩ := h c (by simp)
    rw [List.cons_append, inner, if_neg h1, if_neg h2, if_pos rfl, ih (fun x hx => h x (by simp [hx]))]
    rfl

theorem inner_out {s : Bytes} (h : NoAngle s) (t : Bytes) : inner false (s ++ t) = inner false t := by
  induction s with
  | nil => rfl
  | cons c s ih =>
    obtain ⟨h1, h2⟩ := h c (by simp)
    rw [List.cons_append, inner, if_neg h1, if_neg h2, if_neg (by simp), ih (fun x hx => h x (by simp [hx]))]

theorem noAngle_itoa (n : Int) : NoAngle (itoa n) := by
  intro c hc
  have := (itoa_plain n c hc).2.2
  constructor <;> (rintro rfl; revert this; decide)

end Verif
