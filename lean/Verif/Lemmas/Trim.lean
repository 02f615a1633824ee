import Verif.GoLib
/-
Lemmas about `strings.TrimSpace`, `strings.Index`, `strings.LastIndex`, `strings.Split`.
-/
namespace Verif

/-- ASCII white space as seen by `unicode.IsSpace` -/
def isSp (c : UInt8) : Bool := c = 32 || c = 9 || c = 10 || c = 11 || c = 12 || c = 13

/-- all bytes below 0x80 -/
def Ascii (s : Bytes) : Prop := ∀ c ∈ s, c < 128

theorem Ascii.cons {c : UInt8} {s : Bytes} : Ascii (c :: s) ↔ c < 128 ∧ Ascii s := by
  simp [Ascii]

theorem Ascii.append {a b : Bytes} : Ascii (a ++ b) ↔ Ascii a ∧ Ascii b := by
  simp only [Ascii, List.mem_append]
  constructor
  · intro h; exact ⟨fun c hc => h c (Or.inl hc), fun c hc => h c (Or.inr hc)⟩
  · rintro ⟨h1, h2⟩ c (hc | hc)
    · exact h1 c hc
    · exact h2 c hc

theorem Ascii.sublist {a b : Bytes} (h : a.Sublist b) (hb : Ascii b) : Ascii a := fun c hc => hb c (h.subset hc)

theorem Ascii.reverse {a : Bytes} (h : Ascii a) : Ascii a.reverse := fun c hc => h c (by simpa using hc)

theorem ne_of_ascii {c d : UInt8} (h : c < 128) (hd : ¬ d < 128) : d ≠ c := by
  intro e; subst e; contradiction

theorem leadingSpace_ascii {c : UInt8} (h : c < 128) (t : Bytes) :
    leadingSpace spaceSeqs (c :: t) = if isSp c then 1 else 0 := by
  have e1 : ((0xC2 : UInt8) == c) = false := by simpa using ne_of_ascii h (by decide)
  have e2 : ((0xE1 : UInt8) == c) = false := by simpa using ne_of_ascii h (by decide)
  have e3 : ((0xE2 : UInt8) == c) = false := by simpa using ne_of_ascii h (by decide)
  have e4 : ((0xE3 : UInt8) == c) = false := by simpa using ne_of_ascii h (by decide)
  simp only [leadingSpace, spaceSeqs, List.find?, List.isPrefixOf, e1, e2, e3, e4, Bool.false_and, Bool.and_true]
  by_cases h1 : c = 32
  · subst h1; rfl
  by_cases h2 : c = 9
  · subst h2; rfl
  by_cases h3 : c = 10
  · subst h3; rfl
  by_cases h4 : c = 11
  · subst h4; rfl
  by_cases h5 : c = 12
  · subst h5; rfl
  by_cases h6 : c = 13
  · subst h6; rfl
  have b1 : ((32 : UInt8) == c) = false := by simpa using Ne.symm h1
  have b2 : ((9 : UInt8) == c) = false := by simpa using Ne.symm h2
  have b3 : ((10 : UInt8) == c) = false := by simpa using Ne.symm h3
  have b4 : ((11 : UInt8) == c) = false := by simpa using Ne.symm h4
  have b5 : ((12 : UInt8) == c) = false := by simpa using Ne.symm h5
  have b6 : ((13 : UInt8) == c) = false := by simpa using Ne.symm h6
  simp [isSp, h1, h2, h3, h4, h5, h6, b1, b2, b3, b4, b5, b6]

theorem leadingSpaceR_ascii {c : UInt8} (h : c < 128) (t : Bytes) :
    leadingSpace (spaceSeqs.map List.reverse) (c :: t) = if isSp c then 1 else 0 := by
  have aux : ∀ d : UInt8, ¬ d < 128 → (d == c) = false := fun d hd => by simpa using ne_of_ascii h hd
  simp only [leadingSpace, spaceSeqs, List.map, List.reverse_cons, List.reverse_nil, List.nil_append, List.cons_append,
    List.find?, List.isPrefixOf, aux 0x85 (by decide), aux 0xA0 (by decide), aux 0x80 (by decide), aux 0x81 (by decide),
    aux 0x82 (by decide), aux 0x83 (by decide), aux 0x84 (by decide), aux 0x86 (by decide), aux 0x87 (by decide),
    aux 0x88 (by decide), aux 0x89 (by decide), aux 0x8A (by decide), aux 0xA8 (by decide), aux 0xA9 (by decide),
    aux 0xAF (by decide), aux 0x9F (by decide), Bool.false_and, Bool.and_true]
  by_cases h1 : c = 32
  · subst h1; rfl
  by_cases h2 : c = 9
  · subst h2; rfl
  by_cases h3 : c = 10
  · subst h3; rfl
  by_cases h4 : c = 11
  · subst h4; rfl
  by_cases h5 : c = 12
  · subst h5; rfl
  by_cases h6 : c = 13
  · subst h6; rfl
  have b1 : ((32 : UInt8) == c) = false := by simpa using Ne.symm h1
  have b2 : ((9 : UInt8) == c) = false := by simpa using Ne.symm h2
  have b3 : ((10 : UInt8) == c) = false := by simpa using Ne.symm h3
  have b4 : ((11 : UInt8) == c) = false := by simpa using Ne.symm h4
  have b5 : ((12 : UInt8) == c) = false := by simpa using Ne.symm h5
  have b6 : ((13 : UInt8) == c) = false := by simpa using Ne.symm h6
  simp [isSp, h1, h2, h3, h4, h5, h6, b1, b2, b3, b4, b5, b6]

theorem trimLeftAux_ascii (seqs : List Bytes)
    (hs : ∀ c t, c < 128 → leadingSpace seqs (c :: t) = if isSp c then 1 else 0) {s : Bytes} (h : Ascii s) :
    trimLeftAux seqs 0 s = s.dropWhile isSp := by
  induction s with
  | nil => rfl
  | cons c t ih =>
    obtain ⟨h1, h2⟩ := Ascii.cons.1 h
    have := hs c t h1
    simp only [trimLeftAux]
    cases hsp : isSp c with
    | true =>
      rw [hsp] at this
      simp only [if_true] at this
      rw [this]
      simp only [List.dropWhile_cons, hsp, if_true]
      exact ih h2
    | false =>
      rw [hsp] at this
      simp at this
      rw [this]
      simp [List.dropWhile_cons, hsp]

theorem trimLeftSpace_ascii {s : Bytes} (h : Ascii s) : trimLeftSpace s = s.dropWhile isSp :=
  trimLeftAux_ascii _ (fun _ t hc => leadingSpace_ascii hc t) h

theorem trimRightSpace_ascii {s : Bytes} (h : Ascii s) :
    trimRightSpace s = (s.reverse.dropWhile isSp).reverse := by
  unfold trimRightSpace
  rw [trimLeftAux_ascii _ (fun _ t hc => leadingSpaceR_ascii hc t) h.reverse]

end Verif
