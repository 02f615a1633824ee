import Verif.Utf8
import Mathlib.Algebra.Order.Field.Rat
/-
textbreak/basic_textbreak.go, pdft.go:217-294 `InsertWrapText`, pdft.go:793-805 `getConvertedStyle`.
-/
namespace Verif

/-! ### the basic text breaker -/

/-- textbreak/basic_textbreak.go:9-21: the loop over the runes; `tmp` is the token being built. -/
def breakAux : Bytes → List Nat → List Bytes
  | tmp, [] => if tmp = [] then [] else [tmp]
  | tmp, r :: rs => if r = 32 then tmp :: encodeRune r :: breakAux [] rs else breakAux (tmp ++ encodeRune r) rs

/-- textbreak/basic_textbreak.go:6-23 `BreakTextToToken` (never an error) -/
def breakTextToToken (text : Bytes) : List Bytes := breakAux [] (runes text)

/-! ### wrapping

Simplifications: `float64` is exact (ℚ); `MeasureTextWidth` is a parameter `measure` (its only effect besides the result, adding
characters to the font, does not influence later results, see `Verif/Font.lean`); of a `cacheWrapTextRender` only text and y are kept, the other
fields are copied unchanged from the arguments. -/

structure WrapState where
  lines : List (Bytes × ℚ)
  y : ℚ
  prev : Bytes
  curr : Bytes

/-- pdft.go:244-269: one iteration of the token loop; `step` is `fontSize + newLine`. -/
def wrapStep (measure : Bytes → Res ℚ) (w step : ℚ) (st : WrapState) (token : Bytes) : Res WrapState :=
  if token = [] then .ok st
  else do
    let curr := st.curr ++ token
    let width ← measure curr
    if width > w then
      .ok { lines := st.lines ++ [(trimSpace st.prev, st.y)], y := st.y + step, curr := token, prev := token }
    else .ok { lines := st.lines, y := st.y, curr := curr, prev := curr }

def wrapLoop (measure : Bytes → Res ℚ) (w step : ℚ) : WrapState → List Bytes → Res WrapState
  | st, [] => .ok st
  | st, t :: ts => do
    let st ← wrapStep measure w step st t
    wrapLoop measure w step st ts

/-- pdft.go:231-293: the texts and vertical positions of the `Insert` calls made by `InsertWrapText`, in order; `middle` is
`gopdf.Middle&align == gopdf.Middle`. -/
def wrapCalls (measure : Bytes → Res ℚ) (w y : ℚ) (fontSize : Int) (middle : Bool) (tokens : List Bytes) : Res (List (Bytes × ℚ)) := do
  let newLine : ℚ := fontSize * (2 / 10)
  let step := fontSize + newLine
  let st ← wrapLoop measure w step { lines := [], y := y, prev := [], curr := [] } tokens
  let st := if st.curr ≠ [] then { st with lines := st.lines ++ [(trimSpace st.prev, st.y)], y := st.y + step } else st
  let yoffset : ℚ := if middle then (st.y - y) / 2 - fontSize / 2 else 0
  .ok (st.lines.map (fun l => (l.1, l.2 - yoffset)))

/-! ### font style -/

/-- What is used of `unicode.ToUpper`: ASCII letters are mapped to capitals, and of the other characters only U+0131 (dotless i) is
mapped to one of the letters B, I, U, namely I. -/
structure Upper where
  fn : Nat → Nat
  ascii : ∀ r < 128, fn r = if 97 ≤ r ∧ r ≤ 122 then r - 32 else r
  scalar : ∀ r, Scalar r → Scalar (fn r)
  noB : ∀ r, 128 ≤ r → fn r ≠ 66
  noU : ∀ r, 128 ≤ r → fn r ≠ 85
  onlyI : ∀ r, 128 ≤ r → (fn r = 73 ↔ r = 0x131)

/-- `strings.ToUpper` -/
def toUpper (up : Upper) (s : Bytes) : Bytes := (runes s).flatMap (fun r => encodeRune (up.fn r))

/-- pdft.go:793-805 `getConvertedStyle` with the constants of pdft.go:784-791 -/
def getConvertedStyle (up : Upper) (fontStyle : Bytes) : Nat :=
  let s := toUpper up fontStyle
  let style := 0
  let style := if contains b!"B" s then style ||| 2 else style
  let style := if contains b!"I" s then style ||| 1 else style
  if contains b!"U" s then style ||| 4 else style

end Verif
