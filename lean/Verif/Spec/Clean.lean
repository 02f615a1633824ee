import Verif.GoLib
/-
Object bodies for which dictionary rewriting is lossless.
-/
namespace Verif

/-- No single `<` standing between white space before `<<`, no single `>` between white space before `>>`. -/
def NoLoneAngle (raw : Bytes) : Prop :=
  ∀ a x b, (a = 60 ∨ a = 62) → isWs x = true → b ≠ [] → (∀ c ∈ b, isWs c = true) → ¬ (x :: a :: (b ++ [a, a])) <:+: raw

/-- ASCII bytes only, and no free-standing angle bracket. -/
def CleanBody (raw : Bytes) : Prop := (∀ c ∈ raw, c < 128) ∧ NoLoneAngle raw

end Verif
