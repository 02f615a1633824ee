import Verif.Lemmas.AgreeRun
/-
The tokens of a value: what a reader finds determines the tokens it has read.
-/
namespace Verif
open Spec

mutual
/-- the tokens of a value -/
def toks : Val → List Lexeme
  | .num q => [.num q]
  | .name n => [.name n]
  | .lit s => [.lit s]
  | .hex s => [.hex s]
  | .word w => [.op w]
  | .ref n => [.num n, .num 0, .op b!"R"]
  | .arr l => .open :: toksL l ++ [.close]
  | .dict l => .dictOpen :: toksD l ++ [.dictClose]
def toksL : List Val → List Lexeme
  | [] => []
  | v :: l => toks v ++ toksL l
def toksP : Bytes × Val → List Lexeme
  | (k, v) => .name k :: toks v
def toksD : List (Bytes × Val) → List Lexeme
  | [] => []
  | p :: l => toksP p ++ toksD l
end

theorem toksL_append (l m : List Val) : toksL (l ++ m) = toksL l ++ toksL m := by
  induction l with
  | nil => simp [toksL]
  | cons v l ih => simp [toksL, ih]

theorem toksL_reverse_cons (v : Val) (l : List Val) : toksL (v :: l).reverse = toksL l.reverse ++ toks v := by
  rw [List.reverse_cons, toksL_append]
  simp [toksL]

theorem toksD_pairUp : ∀ (n : Nat) (l : List Val) (d : List (Bytes × Val)), l.length ≤ n → pairUp l = some d → toksD d = toksL l := by
  intro n
  induction n with
  | zero =>
    intro l d hl h
    have : l = [] := by simpa using hl
    subst this
    simp [pairUp] at h
    subst h
    rfl
  | succ n ih =>
    intro l d hl h
    match l, h with
    | [], h => simp [pairUp] at h; subst h; rfl
    | .name k :: v :: t, h =>
      simp only [pairUp, Option.map_eq_some_iff] at h
      obtain ⟨d', h', rfl⟩ := h
      simp only [toksD, toksP, toksL, toks, ih t d' (by simp at hl; omega) h']
      simp
    | [.name k], h => simp [pairUp] at h
    | .num _ :: _, h => simp [pairUp] at h
    | .lit _ :: _, h => simp [pairUp] at h
    | .hex _ :: _, h => simp [pairUp] at h
    | .word _ :: _, h => simp [pairUp] at h
    | .ref _ :: _, h => simp [pairUp] at h
    | .arr _ :: _, h => simp [pairUp] at h
    | .dict _ :: _, h => simp [pairUp] at h

def opener : Bool → Lexeme
  | true => .dictOpen
  | false => .open

/-- the tokens read when this is open; the outermost bracket has none -/
def toksS : RStack → List Lexeme
  | [] => []
  | [(_, l)] => toksL l.reverse
  | (b, l) :: r => toksS r ++ opener b :: toksL l.reverse

theorem toksS_cons (b : Bool) (v : Val) (l : List Val) (r : RStack) : toksS ((b, v :: l) :: r) = toksS ((b, l) :: r) ++ toks v := by
  cases r with
  | nil => simp only [toksS, toksL_reverse_cons]
  | cons f r => simp only [toksS, toksL_reverse_cons]; simp

theorem toks_step {S T : RStack} {t : Lexeme} (hS : S ≠ []) (h : readStep (some S) t = some T) : toksS T = toksS S ++ [t] ∧ T ≠ [] := by
  cases S with
  | nil => exact absurd rfl hS
  | cons f r =>
    obtain ⟨b, l⟩ := f
    cases t with
    | num q => simp only [readStep, Option.some.injEq] at h; rw [← h, toksS_cons]; simp [toks]
    | name n => simp only [readStep, Option.some.injEq] at h; rw [← h, toksS_cons]; simp [toks]
    | hex s => simp only [readStep, Option.some.injEq] at h; rw [← h, toksS_cons]; simp [toks]
    | lit s => simp only [readStep, Option.some.injEq] at h; rw [← h, toksS_cons]; simp [toks]
    | «open» => simp only [readStep, Option.some.injEq] at h; rw [← h]; simp [toksS, toksL, opener]
    | dictOpen => simp only [readStep, Option.some.injEq] at h; rw [← h]; simp [toksS, toksL, opener]
    | op x =>
      simp only [readStep] at h
      split at h
      · rename_i hx
        split at h
        · rename_i g n l' 
          split at h
          · rename_i hg
            simp only [Option.some.injEq] at h
            have e : ((n.num : ℚ)) = n := by
              have := Rat.num_div_den n
              rw [hg.2] at this
              simpa using this
            rw [← h, toksS_cons, toksS_cons, toksS_cons, hx, hg.1]
            simp [toks, e]
          · simp at h
        · simp at h
      · simp only [Option.some.injEq] at h; rw [← h, toksS_cons]; simp [toks]
    | close =>
      cases b with
      | true => cases r <;> simp [readStep] at h
      | false =>
        cases r with
        | nil => simp [readStep] at h
        | cons f r =>
          obtain ⟨b, m⟩ := f
          simp only [readStep, Option.some.injEq] at h
          rw [← h, toksS_cons]
          simp [toksS, toks, opener]
    | dictClose =>
      cases b with
      | false => cases r <;> simp [readStep] at h
      | true =>
        cases r with
        | nil => simp [readStep] at h
        | cons f r =>
          obtain ⟨b, m⟩ := f
          simp only [readStep, Option.map_eq_some_iff] at h
          obtain ⟨d, hd, h⟩ := h
          rw [← h, toksS_cons]
          simp [toksS, toks, opener, toksD_pairUp _ _ _ (Nat.le_refl _) hd]

theorem toks_fold : ∀ (ts : List Lexeme) {S T : RStack}, S ≠ [] → ts.foldl readStep (some S) = some T → toksS T = toksS S ++ ts := by
  intro ts
  induction ts with
  | nil => intro S T _ h; simp only [List.foldl_nil, Option.some.injEq] at h; rw [h]; simp
  | cons t ts ih =>
    intro S T hS h
    rw [List.foldl_cons] at h
    cases hm : readStep (some S) t with
    | none => rw [hm, fold_none] at h; simp at h
    | some M =>
      rw [hm] at h
      obtain ⟨e1, e2⟩ := toks_step hS hm
      rw [ih e2 h, e1]
      simp

/-- The values in a text determine its tokens. -/
theorem Values.toks {s : Bytes} {vs : List Val} (h : Values s vs) : lexer .ground (s ++ b!" ") = (toksL vs, .ground) := by
  obtain ⟨ts, h1, _, h2⟩ := h
  have := toks_fold ts (S := [(true, [])]) (by simp) h2
  simp only [toksS, List.reverse_reverse, List.reverse_nil, toksL, List.nil_append] at this
  rw [h1, this]

end Verif
