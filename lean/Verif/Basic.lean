/-
Basic vocabulary of the model: bytes, outcomes of Go functions, byte-string literals.
-/
namespace Verif

/-- Go `string` and `[]byte`. -/
abbrev Bytes := List UInt8

open Lean in
/-- `b!"abc"` is the explicit list of the (ASCII) bytes of a string literal. -/
macro:max "b!" s:str : term => do
  let bs := s.getString.toUTF8.toList.map (fun b => Syntax.mkNumLit (toString b.toNat))
  let nil ← `(([] : List UInt8))
  bs.foldrM (fun n acc => let t : TSyntax `term := ⟨n.raw⟩; `(List.cons ($t : UInt8) $acc)) nil

/-- The errors the code distinguishes (sentinels), all others being `other`. -/
inductive Err where
  | crawlResultValOfNotFound      -- crawl_result.go:21
  | wrongTypeOfVal                -- crawl_result.go:106
  | objectIDNotFound              -- pdf_obj_property_data.go:203
  | noFontIndex                   -- crawl_result_font.go:13
  | addSameFontName               -- pdft.go:18
  | fontNameNotFound              -- pdft.go:21
  | noDesiredPageToKeep           -- pdft.go:24
  | noDesiredPageToRemove         -- pdft.go:27
  | noDesiredPageToCopy           -- pdft.go:30
  | noContentsProperty            -- pdft.go:33
  | charNotFound                  -- minigopdf/subset_font_obj.go:14
  | notFoundGlyph                 -- minigopdf/subset_font_obj.go:195
  | atoi                          -- strconv.Atoi
  | other                         -- any other error value
deriving DecidableEq, Repr

/-- Outcome of a Go call.  `panic` is a run-time panic (nil dereference, index out of range);
`hang` is non-termination (in Go: unbounded recursion until the stack is exhausted). -/
inductive Res (α : Type) where
  | ok (a : α)
  | err (e : Err)
  | panic
  | hang
deriving DecidableEq, Repr

namespace Res

@[inline] def bind {α β : Type} (x : Res α) (f : α → Res β) : Res β :=
  match x with
  | ok a => f a
  | err e => err e
  | panic => panic
  | hang => hang

instance : Monad Res where
  pure := ok
  bind := bind

@[simp] theorem ok_bind {α β : Type} (a : α) (f : α → Res β) : (ok a >>= f) = f a := rfl
@[simp] theorem err_bind {α β : Type} (e : Err) (f : α → Res β) : ((err e : Res α) >>= f) = err e := rfl
@[simp] theorem panic_bind {α β : Type} (f : α → Res β) : ((panic : Res α) >>= f) = panic := rfl
@[simp] theorem hang_bind {α β : Type} (f : α → Res β) : ((hang : Res α) >>= f) = hang := rfl
@[simp] theorem pure_eq {α : Type} (a : α) : (pure a : Res α) = ok a := rfl

theorem bind_eq_ok {α β : Type} {x : Res α} {f : α → Res β} {b : β} :
    (x >>= f) = ok b ↔ ∃ a, x = ok a ∧ f a = ok b := by
  cases x <;> simp [Bind.bind, bind]

/-- a nil check / bounds check: `none` is a panic -/
def ofOption {α : Type} : Option α → Res α
  | some a => ok a
  | none => panic

@[simp] theorem ofOption_some {α : Type} (a : α) : ofOption (some a) = ok a := rfl
@[simp] theorem ofOption_none {α : Type} : ofOption (none : Option α) = panic := rfl

/-- an error check: `none` is the error `e` -/
def orErr {α : Type} (e : Err) : Option α → Res α
  | some a => ok a
  | none => err e

@[simp] theorem orErr_some {α : Type} (e : Err) (a : α) : orErr e (some a) = ok a := rfl
@[simp] theorem orErr_none {α : Type} (e : Err) : orErr e (none : Option α) = err e := rfl

end Res

/-- Every statement about all bytes that holds for the 256 values holds. -/
theorem forall_byte {p : UInt8 → Prop} (h : ∀ i : Fin 256, p (UInt8.ofNat i.val)) : ∀ b, p b := by
  intro b
  have := h ⟨b.toNat, b.toNat_lt⟩
  simpa using this

end Verif
