import Verif.Inject
import Verif.Lemmas.Refs
import Verif.Lemmas.Crypto
import Verif.Lemmas.Store
/-
Reading back the content objects written by `Save`.
-/
namespace Verif
open Spec

theorem trimLeftAux_stop (seqs : List Bytes) (hs : ∀ c t, c < 128 → leadingSpace seqs (c :: t) = if isSp c then 1 else 0) :
    ∀ (a : Bytes), (∀ c ∈ a, isSp c = true) → ∀ {c : UInt8} (t : Bytes), c < 128 → isSp c = false → trimLeftAux seqs 0 (a ++ c :: t) = c :: t
  | [], _, c, t, hc, hn => by
    have := hs c t hc
    rw [hn] at this
    simp only [List.nil_append, trimLeftAux]
    simp at this
    rw [this]
  | d :: a, ha, c, t, hc, hn => by
    have hd := ha d (by simp)
    have h128 : d < 128 := by
      unfold isSp at hd
      simp only [Bool.or_eq_true, decide_eq_true_eq] at hd
      rcases hd with ((((h | h) | h) | h) | h) | h <;> subst h <;> decide
    have := hs d (a ++ c :: t) h128
    rw [hd] at this
    simp only [if_true] at this
    simp only [List.cons_append, trimLeftAux]
    rw [this]
    exact trimLeftAux_stop seqs hs a (fun x hx => ha x (by simp [hx])) t hc hn

/-- Trimming only looks at the ends. -/
theorem trimSpace_ends {a b x : Bytes} {c e : UInt8} (ha : ∀ c ∈ a, isSp c = true) (hb : ∀ c ∈ b, isSp c = true) (hc : x.head? = some c) (he : x.getLast? = some e)
    (hc1 : c < 128) (hc2 : isSp c = false) (he1 : e < 128) (he2 : isSp e = false) : trimSpace (a ++ x ++ b) = x := by
  obtain ⟨t, rfl⟩ : ∃ t, x = c :: t := by
    cases x with
    | nil => simp at hc
    | cons d t => simp at hc; subst hc; exact ⟨t, rfl⟩
  unfold trimSpace
  have h1 : trimLeftSpace (a ++ (c :: t) ++ b) = (c :: t) ++ b := by
    unfold trimLeftSpace
    rw [List.append_assoc, List.cons_append]
    exact trimLeftAux_stop _ (fun _ t hc => leadingSpace_ascii hc t) a ha _ hc1 hc2
  rw [h1]
  obtain ⟨u, hu⟩ := List.getLast?_eq_some_iff.1 he
  unfold trimRightSpace
  rw [hu]
  have h2 : (u ++ [e] ++ b).reverse = b.reverse ++ e :: u.reverse := by simp
  rw [h2, trimLeftAux_stop _ (fun _ t hc => leadingSpaceR_ascii hc t) b.reverse (by simpa using hb) _ he1 he2]
  simp

theorem index_stream {pre rest : Bytes} (hp : ¬ streamKw <:+: pre ++ [10]) : index streamKw (pre ++ 10 :: (streamKw ++ rest)) = some (pre.length + 1) := by
  have e : pre ++ 10 :: (streamKw ++ rest) = (pre ++ [10]) ++ (streamKw ++ rest) := by simp
  rw [e, show pre.length + 1 = (pre ++ [10]).length by simp]
  exact index_first borderless_stream hp rest

/-- the dictionary part of a content object -/
def lengthDict (n : Nat) : Bytes := b!"<<\n/Length " ++ itoa n ++ b!"\n>>"

theorem contentObject_eq (stm : Bytes) : contentObject stm = lengthDict stm.length ++ 10 :: (streamKw ++ (10 :: stm ++ b!"endstream")) := by
  simp [contentObject, lengthDict, streamKw]

theorem lengthDict_noStream (w : Bytes) (hw : ∀ c ∈ w, isSp c = true) (n : Nat) : ¬ streamKw <:+: w ++ lengthDict n ++ [10] := by
  apply noStream_of_head
  intro h
  simp only [List.mem_append, lengthDict] at h
  rcases h with (h | ((h | h) | h)) | h
  · exact absurd (hw _ h) (by decide)
  · exact absurd h (by decide)
  · rcases itoa_bytes n _ h with h | h <;> exact absurd h (by decide)
  · exact absurd h (by decide)
  · exact absurd h (by decide)

theorem readProperties_content (w : Bytes) (hw : ∀ c ∈ w, isSp c = true) (stm w2 : Bytes) :
    readProperties (w ++ contentObject stm ++ w2) = .ok [⟨b!"Length", itoa stm.length⟩] := by
  have e : w ++ contentObject stm ++ w2 = (w ++ lengthDict stm.length) ++ 10 :: (streamKw ++ (10 :: stm ++ b!"endstream" ++ w2)) := by
    rw [contentObject_eq]; simp
  rw [e]
  generalize 10 :: stm ++ b!"endstream" ++ w2 = rest
  generalize stm.length = n
  have hb : beforeStream ((w ++ lengthDict n) ++ 10 :: (streamKw ++ rest)) = w ++ lengthDict n ++ [10] := by
    unfold beforeStream
    rw [index_stream (lengthDict_noStream w hw n)]
    simp only
    rw [show (w ++ lengthDict n) ++ 10 :: (streamKw ++ rest) = (w ++ lengthDict n ++ [10]) ++ (streamKw ++ rest) by simp,
      show (w ++ lengthDict n).length + 1 = (w ++ lengthDict n ++ [10]).length by rw [List.length_append (bs := [10])]; rfl, List.take_left]
  have h60 : ∀ c ∈ w, c ≠ 60 := by
    intro c hc e
    have := hw c hc
    rw [e] at this
    exact absurd this (by decide)
  have h1 : index b!"<<" (w ++ lengthDict n ++ [10]) = some w.length := by
    apply index_eq
    · simp
    · rw [List.append_assoc, List.drop_left]
      exact ⟨b!"\n/Length " ++ itoa n ++ b!"\n>>" ++ [10], by simp [lengthDict]⟩
    · intro j hj hp
      have hd : (w ++ lengthDict n ++ [10]).drop j = w[j] :: (w ++ lengthDict n ++ [10]).drop (j + 1) := by
        rw [List.drop_eq_getElem_cons (by simp; omega)]
        congr 1
        rw [List.getElem_append_left (by simp; omega), List.getElem_append_left hj]
      rw [hd] at hp
      obtain ⟨t, ht⟩ := hp
      injection ht with ht _
      exact h60 _ (List.getElem_mem hj) ht.symm
  have h2 : lastIndex b!">>" (w ++ lengthDict n ++ [10]) = some (w ++ b!"<<\n/Length " ++ itoa n ++ [10]).length := by
    have := lastIndex_append_exact (pat := [62, 62]) (t := [10]) (s := w ++ b!"<<\n/Length " ++ itoa n ++ [10]) (by simp) (by
      intro j hj hj2
      simp at hj2
      have : j = 1 ∨ j = 2 ∨ j = 3 := by omega
      rcases this with e | e | e <;> subst e <;> simp)
    rw [← this]
    congr 1
    simp [lengthDict]
  have h3 : (((w ++ lengthDict n) ++ 10 :: (streamKw ++ rest)).take (w ++ b!"<<\n/Length " ++ itoa n ++ [10]).length).drop (w.length + 2) =
      b!"\n/Length " ++ itoa n ++ [10] := by
    rw [show (w ++ lengthDict n) ++ 10 :: (streamKw ++ rest) = (w ++ b!"<<\n/Length " ++ itoa n ++ [10]) ++ (b!">>\n" ++ (streamKw ++ rest)) by simp [lengthDict],
      List.take_left,
      show w ++ b!"<<\n/Length " ++ itoa n ++ [10] = (w ++ b!"<<") ++ (b!"\n/Length " ++ itoa n ++ [10]) by simp,
      show w.length + 2 = (w ++ b!"<<").length by simp, List.drop_left]
  have ht : ∀ b : Bytes, (∀ c ∈ b, isSp c = true) → trimSpace (b!"\n" ++ (b!"/Length " ++ itoa n) ++ b) = b!"/Length " ++ itoa n := by
    intro b hb
    obtain ⟨u, e, hu⟩ : ∃ u e, itoa (n : Int) = u ++ [e] := by
      rcases List.eq_nil_or_concat (itoa (n : Int)) with h | ⟨u, e, h⟩
      · exact absurd h (itoa_ne_nil _)
      · exact ⟨u, e, by simpa using h⟩
    have hp := itoa_plain n e (by rw [hu]; simp)
    exact trimSpace_ends (c := 47) (e := e) (by decide) hb rfl (by rw [hu, ← List.append_assoc, List.getLast?_concat]) (by decide) (by decide) hp.1 hp.2.1
  have hn : normalizeProps (b!"\n/Length " ++ itoa n ++ [10]) = normalizeProps (10 :: [(⟨b!"Length", itoa n⟩ : PropD)].flatMap flat1) := by
    unfold normalizeProps
    have a1 := ht [10] (by decide)
    have a2 := ht [] (by simp)
    have e1 : b!"\n/Length " ++ itoa n ++ [10] = b!"\n" ++ (b!"/Length " ++ itoa n) ++ [10] := by simp
    have e2 : (10 :: [(⟨b!"Length", itoa n⟩ : PropD)].flatMap flat1) = b!"\n" ++ (b!"/Length " ++ itoa n) ++ [] := by simp [flat1]
    rw [e1, e2, a1, a2]
  have hc : Canon [(⟨b!"Length", itoa n⟩ : PropD)] := by
    obtain ⟨a, b, c⟩ := itoa_valOk (n : Int)
    refine Canon.cons (show KeyOk b!"Length" by unfold KeyOk; decide) a ?_ trivial
    intro _
    unfold LastOk EndOk
    intro d hd
    apply c
    have : (47 : UInt8) :: ((b!"Length" : Bytes) ++ itoa n) = (47 :: b!"Length") ++ itoa n := rfl
    simp only at hd
    rw [this, List.getLast?_append] at hd
    cases hl : (itoa (n : Int)).getLast? with
    | none => exact absurd (List.getLast?_eq_none_iff.1 hl) b
    | some x => rw [hl] at hd; simpa using hd
  unfold readProperties
  rw [hb, h1, h2]
  simp only
  rw [if_neg (by simp), h3, hn, normalize_written hc.pre, parseProps_eq_run, run_compact (by rw [hc.strip]; exact hc), hc.strip]

end Verif
