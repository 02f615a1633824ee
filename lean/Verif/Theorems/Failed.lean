import Verif.Theorems.App
import Verif.Theorems.Save
/-!
C39 in general: an insertion that fails because a letter is not in the font stays in the document.
-/
namespace Verif
open Spec

/-- C39 for the failures that have no effect: unless the font does have the name that is set, the state is as it was. -/
theorem C39_unknown_partial {env : Env} {a : App} {text : Bytes} {page : Int} {x y w h : ℚ} {align : Nat} {color : Option (Int × Int × Int)}
    (hf : a.font? a.fontName = none) : (a.insert env text page x y w h align color).state = a := by
  unfold App.insert
  rw [hf]
  cases pageHeight env a.doc page <;> rfl

/-- C39 is violated by every insertion in a font that was added which fails because of its letters: the text is among the contents to be drawn, after all others, on
the page and at the place that were asked for, although the call returned an error. -/
theorem C39_refuted_all {env : Env} {a : App} {text : Bytes} {page : Int} {x y w h : ℚ} {align : Nat} {color : Option (Int × Int × Int)} {e : Err} {i : Nat} {f : FontData}
    (hf : a.font? a.fontName = some (i, f)) (hb : FullBoxes a.doc) (he : (addChars f.state.ttf f.state.chars text).2 = .err e) :
    (a.insert env text page x y w h align color).res = .err e ∧
    ∃ c : TextContent, (a.insert env text page x y w h align color).state.contents = a.contents ++ [.text c] ∧ c.text = text ∧ c.page = page ∧ c.x = x ∧ c.y = y := by
  obtain ⟨q, hq⟩ := pageHeight_ok env hb page
  unfold App.insert
  rw [hq, hf]
  exact ⟨he, _, rfl, rfl, rfl, rfl, rfl⟩

/-- a check that can be evaluated: the font with this name is there, and adding the text to it fails -/
def failsIn (a : App) (name text : Bytes) : Bool :=
  match a.font? name with
  | some (_, f) => match (addChars f.state.ttf f.state.chars text).2 with
    | .err _ => true
    | _ => false
  | none => false

-- a text with a letter that the font does not have
example : failsIn ((withFont (openedApp (fileOf onePage)) b!"A").setFont plainEnv b!"A" [] 10).state b!"A" (b!"A" ++ [0xF0, 0x9F, 0x98, 0x80]) = true ∧
    ((withFont (openedApp (fileOf onePage)) b!"A").setFont plainEnv b!"A" [] 10).state.fontName = b!"A" :=
  ⟨by decide +kernel, by decide +kernel⟩

end Verif
