import Verif.Lemmas.Refs
/-
C13 (rewriting a dictionary) and C14 (references).
-/
namespace Verif

/-! ### C13 -/

/-- **C13** (partial).  For an object body of ASCII bytes without a free-standing `<` before `<<` or `>` before `>>`,
reading the entries and writing them back gives an object whose entries read back identically.
Missing: bytes ≥ 0x80 and free-standing angle brackets, where the property is false (below). -/
theorem C13_rewrite_lossless_partial (raw : Bytes) (ps : Props) (hascii : ∀ c ∈ raw, c < 128)
    (hangle : NoLoneAngle raw) (hread : readProperties raw = .ok ps) :
    readProperties (setProperties ps) = .ok ps := by
  obtain ⟨h1, h2⟩ := readProperties_canon hascii hangle hread
  exact readProperties_setProperties h1 h2

/-- The hypotheses hold for texts without free-standing angle brackets: here one with nested dictionary and array. -/
example : ∃ ps, readProperties b!"<< /Type /Page /Kids [ 3 0 R 4 0 R ]\r\n /R << /F 1 >> /N 5>>" = .ok ps ∧ ps.length = 5 :=
  ⟨_, by rfl, by decide +kernel⟩

/-- a computable form of the hypothesis `NoLoneAngle` -/
theorem noLoneAngle_of_pairs {raw : Bytes} (h : ∀ x a y, (a = 60 ∨ a = 62) → isWs x = true → isWs y = true → ¬ [x, a, y] <:+: raw) :
    NoLoneAngle raw := by
  intro a x b ha hx hb hb2 hi
  cases b with
  | nil => exact hb rfl
  | cons y b =>
    refine h x a y ha hx (hb2 y (by simp)) (List.IsInfix.trans ?_ hi)
    exact ⟨[], b ++ [a, a], by simp⟩

example : NoLoneAngle b!"<< /K [ 1 0 R ]>>" := by
  apply noLoneAngle_of_pairs
  rintro x a y ha hx hy ⟨p, q, hpq⟩
  have h : ∀ i < 17, ((b!"<< /K [ 1 0 R ]>>").drop i).take 3 ≠ [x, a, y] := by
    intro i hi e
    have : ∀ i < 17, (match ((b!"<< /K [ 1 0 R ]>>").drop i).take 3 with
        | [x, a, y] => !((a == 60 || a == 62) && isWs x && isWs y) | _ => true) = true := by decide
    have := this i hi
    rw [e] at this
    rcases ha with ha | ha <;> simp [ha, hx, hy] at this
  have hl := congrArg List.length hpq
  simp at hl
  apply h p.length (by omega)
  rw [← hpq]
  simp

/-- **C13 refuted for bytes ≥ 0x80**: a name with the byte E9 is written back as two bytes C3 A9. -/
theorem C13_refuted_high_bytes : ∃ raw ps qs, readProperties raw = .ok ps ∧ readProperties (setProperties ps) = .ok qs ∧ ps ≠ qs :=
  ⟨[60, 60, 47, 75, 32, 40, 233, 41, 62, 62], [⟨b!"K", [40, 195, 169, 41]⟩], [⟨b!"K", [40, 195, 131, 194, 169, 41]⟩], by
    decide +kernel⟩

/-- **C13 refuted for a free-standing `>`**: the hexadecimal string `<AB >` before the end of a nested dictionary. -/
theorem C13_refuted_lone_angle : ∃ raw ps qs, (∀ c ∈ raw, c < 128) ∧ readProperties raw = .ok ps ∧
    readProperties (setProperties ps) = .ok qs ∧ ps ≠ qs :=
  ⟨b!"<< /D << /K <AB > >> >>", [⟨b!"D", b!"<</K <AB >>>"⟩], [⟨b!"D", b!"<</K <AB>>>"⟩], by decide +kernel⟩

/-! ### C14 -/

/-- **C14** (partial).  References and non-empty reference arrays written by `setAsDictionary`, `setAsDictionaryArr`
are read back.  Missing: the empty array, where the property is false (below). -/
theorem C14_refs_round_trip_partial :
    (∀ v : Int, -(2 ^ 63) ≤ v → v < 2 ^ 63 → readObjIDFromDictionary (refString v 0) = .ok v) ∧
    (∀ vs : List Int, vs ≠ [] → (∀ v ∈ vs, -(2 ^ 63) ≤ v ∧ v < 2 ^ 63) → readObjIDFromDictionaryArr (refArrString vs) = .ok vs) :=
  ⟨fun _ h1 h2 => readObjID_refString ⟨h1, h2⟩, fun _ h hr => readArr_refArrString h hr⟩

/-- **C14 refuted for the empty array**: it is read as an error. -/
theorem C14_refuted_empty_array : readObjIDFromDictionaryArr (refArrString []) = .err .atoi := by decide

/-- **C14 through the object** (partial, non-empty arrays; bodies as in C13).  Writing a reference array into an
existing entry of an object and reading the object again yields the same object numbers under that key,
and every other entry is as before. -/
theorem C14_written_array_partial (raw key : Bytes) (ps : Props) (vs : List Int) (hascii : ∀ c ∈ raw, c < 128)
    (hangle : NoLoneAngle raw) (hread : readProperties raw = .ok ps) (hkey : ∃ p ∈ ps, p.key = key)
    (hne : vs ≠ []) (hr : ∀ v ∈ vs, -(2 ^ 63) ≤ v ∧ v < 2 ^ 63) :
    ∃ qs p, readProperties (setProperties (setPropByKey key (refArrString vs) ps)) = .ok qs ∧
      qs.find? (fun q => q.key = key) = some p ∧ readObjIDFromDictionaryArr p.rawVal = .ok vs ∧
      qs.map (·.key) = ps.map (·.key) ∧
      (∀ (i : Nat) (a b : PropD), ps[i]? = some a → qs[i]? = some b → a.key ≠ key → b = a) := by
  obtain ⟨h1, h2⟩ := readProperties_canon hascii hangle hread
  obtain ⟨hp, hpn, hpe⟩ := refArrString_preOk hne
  obtain ⟨hv, hvn, hve⟩ := refArrNorm_valOk vs hne
  have hs := strip1_setPropByKey (k := key) (v := refArrString vs) h1.strip
  rw [refArr_strip hne] at hs
  have hread2 := readProperties_setProperties' (setPropByKey_pre (k := key) h1 hp hpn hpe)
    (by rw [hs]; exact setPropByKey_canon h1 hv hvn hve)
    (setPropByKey_noStream h2 (refArrString_noStream vs))
  rw [hs] at hread2
  refine ⟨_, ⟨key, refArrNorm vs⟩, hread2, ?_, refArrNorm_read hne hr, ?_, ?_⟩
  · clear hread h1 h2 hread2 hs
    induction ps with
    | nil => simp at hkey
    | cons p t ih =>
      rw [setPropByKey]
      split
      · rename_i hk; simp [hk]
      · rename_i hk
        have : ∃ p ∈ t, p.key = key := by
          obtain ⟨q, hq, e⟩ := hkey
          rcases List.mem_cons.1 hq with hq | hq
          · subst hq; exact absurd e hk
          · exact ⟨q, hq, e⟩
        rw [List.find?_cons_of_neg (by simpa using hk)]
        exact ih this
  · clear hread h1 h2 hread2 hs hkey
    induction ps with
    | nil => rfl
    | cons p t ih => rw [setPropByKey]; split <;> simp [ih]
  · clear hread h1 h2 hread2 hs hkey
    induction ps with
    | nil => simp
    | cons p t ih =>
      intro i a b ha hb hk
      rw [setPropByKey] at hb
      cases i with
      | zero =>
        simp at ha; subst ha
        rw [if_neg hk] at hb
        simpa using hb.symm
      | succ i =>
        split at hb
        · simp at ha hb; rw [ha] at hb; simpa using hb.symm
        · simp at ha hb; exact ih i a b ha hb hk

/-- a concrete instance of the hypotheses -/
example : ∃ ps, readProperties b!"<</Type/Pages/Count 2/Kids[3 0 R 4 0 R]>>" = .ok ps ∧ (∃ p ∈ ps, p.key = b!"Kids") ∧
    (∀ v ∈ ([4, 3, 9] : List Int), -(2 ^ 63) ≤ v ∧ v < 2 ^ 63) := by
  refine ⟨_, by rfl, by decide +kernel, by decide⟩

end Verif
