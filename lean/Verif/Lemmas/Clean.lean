import Verif.Spec.Clean
/-
Computable check for `CleanBody`.
-/
namespace Verif

/-- no white space, single angle bracket, white space in a row -/
def noLoneB : Bytes → Bool
  | x :: a :: y :: t => !((a == 60 || a == 62) && isWs x && isWs y) && noLoneB (a :: y :: t)
  | _ => true

theorem noLoneB_sound (raw : Bytes) (h : noLoneB raw = true) : NoLoneAngle raw := by
  rintro a x b ha hx hb hws ⟨p, q, rfl⟩
  cases b with
  | nil => exact hb rfl
  | cons y b =>
    have hy := hws y (by simp)
    clear hws hb
    induction p with
    | nil =>
      simp only [List.nil_append, List.cons_append, noLoneB, Bool.and_eq_true] at h
      rcases ha with ha | ha <;> simp [ha, hx, hy] at h
    | cons c p ih =>
      apply ih
      cases p with
      | nil => simp only [List.cons_append, List.nil_append, noLoneB, Bool.and_eq_true] at h ⊢; exact h.2
      | cons c2 p =>
        cases p with
        | nil => simp only [List.cons_append, List.nil_append] at h ⊢; rw [noLoneB, Bool.and_eq_true] at h; exact h.2
        | cons c3 p => simp only [List.cons_append] at h ⊢; rw [noLoneB, Bool.and_eq_true] at h; exact h.2

def cleanB (raw : Bytes) : Bool := raw.all (fun c => decide (c < 128)) && noLoneB raw

theorem cleanB_sound {raw : Bytes} (h : cleanB raw = true) : CleanBody raw := by
  rw [cleanB, Bool.and_eq_true] at h
  exact ⟨by simpa using h.1, noLoneB_sound _ h.2⟩

end Verif
