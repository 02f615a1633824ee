import Verif.Content
import Verif.Spec.Content
import Verif.Lemmas.Num
import Mathlib.Tactic.Linarith
import Mathlib.Tactic.FieldSimp
import Mathlib.Tactic.Ring
import Mathlib.Tactic.NormNum
import Mathlib.Data.Rat.Cast.Order
import Mathlib.Algebra.Order.Field.Basic
import Mathlib.Tactic.Positivity
/-
C43, C54, C58-C60: colours, alignment, numbers and borders in the drawing operators.
-/
namespace Verif
open Spec

/-! ### C59: printed numbers -/

theorem roundCents_near (q : ℚ) : abs (((roundCents q : Nat) : ℚ) / 100 - abs q) ≤ 1 / 200 := by
  have hd : 0 < q.den := q.den_pos
  have hdq : (0 : ℚ) < (q.den : ℚ) := by exact_mod_cast hd
  have habs : |q| = (q.num.natAbs : ℚ) / q.den := by
    conv_lhs => rw [← Rat.num_div_den q]
    rw [abs_div, abs_of_pos hdq]
    congr 1
    rw [Nat.cast_natAbs, Int.cast_abs]
  have hdiv : q.num.natAbs * 100 = q.den * (q.num.natAbs * 100 / q.den) + q.num.natAbs * 100 % q.den := (Nat.div_add_mod _ _).symm
  unfold roundCents
  simp only
  generalize q.num.natAbs * 100 / q.den = k at *
  generalize hr : q.num.natAbs * 100 % q.den = r at *
  have hrlt : r < q.den := by rw [← hr]; exact Nat.mod_lt _ hd
  have hq : |q| = ((k : ℚ) + (r : ℚ) / q.den) / 100 := by
    rw [habs]
    have : ((q.num.natAbs * 100 : Nat) : ℚ) = ((q.den * k + r : Nat) : ℚ) := by rw [hdiv]
    push_cast at this
    field_simp
    linarith
  have hr0 : (0 : ℚ) ≤ (r : ℚ) / q.den := div_nonneg (Nat.cast_nonneg _) hdq.le
  rw [hq, abs_le]
  by_cases h1 : 2 * r < q.den
  · rw [if_pos h1]
    have : (r : ℚ) / q.den < 1 / 2 := by
      rw [div_lt_iff₀ hdq]
      have : ((2 * r : Nat) : ℚ) < q.den := by exact_mod_cast h1
      push_cast at this; linarith
    constructor <;> linarith
  rw [if_neg h1]
  have h1' : 1 / 2 ≤ (r : ℚ) / q.den := by
    rw [le_div_iff₀ hdq]
    have : ((q.den : Nat) : ℚ) ≤ ((2 * r : Nat) : ℚ) := by exact_mod_cast (by omega)
    push_cast at this; linarith
  have h1'' : (r : ℚ) / q.den ≤ 1 := by
    rw [div_le_iff₀ hdq]
    have : ((r : Nat) : ℚ) ≤ ((q.den : Nat) : ℚ) := by exact_mod_cast (by omega)
    linarith
  by_cases h2 : q.den < 2 * r
  · rw [if_pos h2]; push_cast; constructor <;> linarith
  rw [if_neg h2]
  have h3 : (r : ℚ) / q.den ≤ 1 / 2 := by
    rw [div_le_iff₀ hdq]
    have : ((2 * r : Nat) : ℚ) ≤ ((q.den : Nat) : ℚ) := by exact_mod_cast (by omega)
    push_cast at this; linarith
  by_cases h4 : k % 2 = 0
  · rw [if_pos h4]; constructor <;> linarith
  · rw [if_neg h4]; push_cast; constructor <;> linarith

theorem takeWhile_digits {l rest : Bytes} (h : ∀ c ∈ l, isDigit c = true) : (l ++ 46 :: rest).takeWhile (· ≠ 46) = l ∧ (l ++ 46 :: rest).dropWhile (· ≠ 46) = 46 :: rest := by
  induction l with
  | nil => simp
  | cons c l ih =>
    have hc : c ≠ 46 := isDigit_ne (h c (List.mem_cons_self ..)) 46 (by decide)
    have := ih (fun x hx => h x (List.mem_cons_of_mem _ hx))
    simpa [hc] using this

theorem readUDec_cents (k : Nat) : readUDec (natDigits (k / 100) ++ b!"." ++ [digit (k % 100 / 10), digit (k % 10)]) = some ((k : ℚ) / 100) := by
  unfold readUDec
  have e : natDigits (k / 100) ++ b!"." ++ [digit (k % 100 / 10), digit (k % 10)] = natDigits (k / 100) ++ 46 :: [digit (k % 100 / 10), digit (k % 10)] := by simp
  rw [e]
  obtain ⟨h1, h2⟩ := takeWhile_digits (rest := [digit (k % 100 / 10), digit (k % 10)]) (natDigits_isDigit (k / 100))
  simp only [h1, h2, parseNat_natDigits]
  have a : k % 100 / 10 < 10 := by omega
  have b : k % 10 < 10 := by omega
  have : parseNat [digit (k % 100 / 10), digit (k % 10)] = some (k % 100) := by
    simp only [parseNat, digitsVal, isDigit_digit a, isDigit_digit b, if_true, digit_toNat a, digit_toNat b]
    congr 1; omega
  rw [this]
  simp only [List.length_cons, List.length_nil, Option.some.injEq]
  have hk : ((k : Nat) : ℚ) = ((100 * (k / 100) + k % 100 : Nat) : ℚ) := by rw [Nat.div_add_mod]
  rw [hk]; push_cast
  norm_num
  ring

/-- C59: every number printed is a decimal number within 0.005 of the value. -/
theorem C59_numbers_accurate (q : ℚ) : ∃ v, readDec (fmt2 q) = some v ∧ |v - q| ≤ 1 / 200 := by
  have hn := roundCents_near q
  unfold fmt2
  simp only
  by_cases h : q < 0
  · refine ⟨-((roundCents q : ℚ) / 100), ?_, ?_⟩
    · rw [if_pos h]
      simp only [List.cons_append, List.nil_append, readDec]
      have := readUDec_cents (roundCents q)
      simp only [List.append_assoc, List.cons_append, List.nil_append] at this
      simp only [List.append_assoc, List.cons_append, List.nil_append, this, Option.map_some]
    · rw [abs_of_neg h] at hn
      rw [show -((roundCents q : ℚ) / 100) - q = -((roundCents q : ℚ) / 100 - -q) by ring, abs_neg]
      exact hn
  · refine ⟨(roundCents q : ℚ) / 100, ?_, ?_⟩
    · rw [if_neg h, List.nil_append]
      have := readUDec_cents (roundCents q)
      have hne : ∀ s, natDigits (roundCents q / 100) ++ b!"." ++ [digit (roundCents q % 100 / 10), digit (roundCents q % 10)] ≠ 45 :: s := by
        intro s hs
        have hd := natDigits_isDigit (roundCents q / 100)
        have hnn := natDigits_ne_nil (roundCents q / 100)
        cases hl : natDigits (roundCents q / 100) with
        | nil => exact hnn hl
        | cons c t =>
          rw [hl] at hs hd
          simp only [List.cons_append, List.cons.injEq] at hs
          have := hd c (List.mem_cons_self ..)
          rw [hs.1] at this
          exact absurd this (by decide)
      unfold readDec
      split
      · rename_i s hs; exact absurd hs (hne _)
      · exact this
    · rw [abs_of_nonneg (not_lt.1 h)] at hn
      exact hn

example : fmt2 (841.89 - 100) = b!"741.89" ∧ fmt2 (-1 / 3) = b!"-0.33" ∧ readDec b!"-0.33" = some (-33 / 100) := by
  refine ⟨by decide +kernel, by decide +kernel, by decide +kernel⟩

/-! ### C43 -/

/-- the text as drawn begins with an array -/
theorem createContent_begin (f : FontState) (text : Bytes) (fs : Int) : ∃ t, (createContent f text fs).1 = b!"[<" ++ t := by
  have key : ∀ (rs : List Nat) (st : CCState), ∃ t, (ccLoop f text fs st rs).1.out = st.out ++ t := by
    intro rs
    induction rs with
    | nil => intro st; exact ⟨[], by simp [ccLoop]⟩
    | cons r rs ih =>
      intro st
      have hA : ∀ x y : Bytes, (∃ t, x = st.out ++ t) → ∃ t, x ++ y = st.out ++ t := by
        rintro x y ⟨t, rfl⟩; exact ⟨t ++ y, by simp⟩
      rw [ccLoop]
      cases charIndex f.chars r with
      | ok g =>
        simp only
        generalize (if st.pos > 0 ∧ f.kernOverride.isSome = true then convertUnit (kernPair f st.left r st.leftIdx g) ↑f.ttf.unitsPerEm else Res.ok 0) = kr
        cases kr with
        | ok pv =>
          simp only
          have h1 : ∃ t, (if pv ≠ 0 then st.out ++ b!">" ++ itoa (-1 * pv) ++ b!"<" else st.out) = st.out ++ t := by
            by_cases hp : pv ≠ 0
            · rw [if_pos hp]; exact ⟨b!">" ++ itoa (-1 * pv) ++ b!"<", by simp [List.append_assoc]⟩
            · rw [if_neg hp]; exact ⟨[], by simp⟩
          generalize (if pv ≠ 0 then st.out ++ b!">" ++ itoa (-1 * pv) ++ b!"<" else st.out) = o1 at h1
          cases htr : f.textrise with
          | none =>
            cases charWidth f.ttf f.chars r with
            | ok w =>
              simp only
              obtain ⟨t1, ht1⟩ := h1
              obtain ⟨t2, ht2⟩ := ih { out := o1 ++ hex4 g, sum := st.sum + (w + pv), left := r, leftIdx := g, pos := st.pos + 1 }
              exact ⟨t1 ++ hex4 g ++ t2, by rw [ht2, ht1]; simp [List.append_assoc]⟩
            | _ => exact hA _ _ h1
          | some fn =>
            have h2 := hA _ (b!">] TJ\n" ++ fn st.left r fs text st.pos ++ b!" Ts\n" ++ b!"[<") h1
            rw [show o1 ++ (b!">] TJ\n" ++ fn st.left r fs text st.pos ++ b!" Ts\n" ++ b!"[<") =
              o1 ++ b!">] TJ\n" ++ fn st.left r fs text st.pos ++ b!" Ts\n" ++ b!"[<" by simp [List.append_assoc]] at h2
            cases charWidth f.ttf f.chars r with
            | ok w =>
              simp only
              obtain ⟨t1, ht1⟩ := h2
              obtain ⟨t2, ht2⟩ := ih { out := o1 ++ b!">] TJ\n" ++ fn st.left r fs text st.pos ++ b!" Ts\n" ++ b!"[<" ++ hex4 g, sum := st.sum + (w + pv), left := r, leftIdx := g, pos := st.pos + 1 }
              exact ⟨t1 ++ hex4 g ++ t2, by rw [ht2, ht1]; simp [List.append_assoc]⟩
            | _ => exact hA _ _ h2
        | _ => exact ⟨[], by simp⟩
      | _ => exact ⟨[], by simp⟩
  obtain ⟨t, ht⟩ := key (runes text) { out := b!"[<" }
  unfold createContent
  split <;> rename_i st h <;> rw [h] at ht <;> simp only at ht ⊢
  · exact ⟨t ++ b!">] TJ\n", by rw [ht]; simp⟩
  · exact ⟨t, ht⟩
  · exact ⟨t, ht⟩
  · exact ⟨t, ht⟩

/-- the parts of the operators of a text -/
theorem stream_parts {c : TextContent} {f : FontState} {idx : Int} {s : Bytes} (h : c.stream f idx = .ok s) :
    ∃ pos t rest, s = b!"BT\n" ++ pos ++ b!" TD\n/F" ++ itoa idx ++ b!" " ++ itoa c.fontSize ++ b!" Tf\n" ++ colorOp c.rgb ++ b!"[<" ++ t ++ b!"ET\n" ++ rest ∧
      (createContent f c.text c.fontSize).1 = b!"[<" ++ t := by
  unfold TextContent.stream at h
  rw [Res.bind_eq_ok] at h
  obtain ⟨⟨cw, ch, tw⟩, _, h⟩ := h
  injection h with h
  obtain ⟨t, ht⟩ := createContent_begin f c.text c.fontSize
  rw [ht] at h
  refine ⟨fmt2 (calX c.align c.x cw tw) ++ b!" " ++ fmt2 (calY c.align c.pageHeight c.y ch (convertTypoUnit f.ttf.typoAscender f.ttf.unitsPerEm c.fontSize)
      (convertTypoUnit f.ttf.typoDescender f.ttf.unitsPerEm c.fontSize)), t,
    (if c.fontStyle &&& 4 = 4 then underlineOp f.ttf c.fontSize c.x c.y (c.x + cw) c.pageHeight else []) ++
      drawBorder (if c.lineWidth > 0 then 15 else 0) c.x c.y cw ch c.lineWidth c.pageHeight ++ b!"\r\n", ?_, ht⟩
  rw [← h]
  simp only [List.append_assoc]

/-- the value of a component of a colour as written -/
theorem component_near {v : Nat} (hv : v ≤ 255) {q : ℚ} (hq : readDec (fmt2 (((UInt8.ofNat v).toNat : ℚ) * (392156862745 / 100000000000000))) = some q) :
    |q - (v : ℚ) / 255| ≤ 501 / 100000 := by
  obtain ⟨q', h1, h2⟩ := C59_numbers_accurate (((UInt8.ofNat v).toNat : ℚ) * (392156862745 / 100000000000000))
  rw [h1] at hq
  injection hq with hq
  subst hq
  have hm : (UInt8.ofNat v).toNat = v := by
    rw [UInt8.toNat_ofNat', Nat.mod_eq_of_lt (by omega)]
  rw [hm] at h2
  have hv' : (v : ℚ) ≤ 255 := by exact_mod_cast hv
  have hv0 : (0 : ℚ) ≤ v := Nat.cast_nonneg _
  rw [abs_le] at h2 ⊢
  constructor <;> linarith

/-- C43 (for colours whose components do not add up to a multiple of 256): directly before the text there is an operator setting the fill
colour to the requested one (to the precision of two decimals). -/
theorem C43_colour_set_partial {c : TextContent} {f : FontState} {idx : Int} {s : Bytes} {r g b : Nat} (hr : r ≤ 255) (hg : g ≤ 255) (hb : b ≤ 255)
    (hc : c.color = some ((r : Int), (g : Int), (b : Int))) (hsum : (r + g + b) % 256 ≠ 0) (h : c.stream f idx = .ok s) :
    ∃ pre x y z post vx vy vz, s = pre ++ b!" Tf\n" ++ x ++ b!" " ++ y ++ b!" " ++ z ++ b!" rg\n" ++ b!"[<" ++ post ∧ readDec x = some vx ∧ readDec y = some vy ∧
      readDec z = some vz ∧ |vx - (r : ℚ) / 255| ≤ 501 / 100000 ∧ |vy - (g : ℚ) / 255| ≤ 501 / 100000 ∧ |vz - (b : ℚ) / 255| ≤ 501 / 100000 := by
  obtain ⟨pos, t, rest, hs, _⟩ := stream_parts h
  have hcol : c.rgb = (UInt8.ofNat r, UInt8.ofNat g, UInt8.ofNat b) := by
    unfold TextContent.rgb
    rw [hc]
    simp only
    rw [show ((r : Int) % 256).toNat = r by omega, show ((g : Int) % 256).toNat = g by omega, show ((b : Int) % 256).toNat = b by omega]
  have hne : UInt8.ofNat r + UInt8.ofNat g + UInt8.ofNat b ≠ 0 := by
    intro h0
    have := congrArg UInt8.toNat h0
    simp only [UInt8.toNat_add, UInt8.toNat_ofNat', UInt8.toNat_zero] at this
    omega
  obtain ⟨vx, hx, _⟩ := C59_numbers_accurate (((UInt8.ofNat r).toNat : ℚ) * (392156862745 / 100000000000000))
  obtain ⟨vy, hy, _⟩ := C59_numbers_accurate (((UInt8.ofNat g).toNat : ℚ) * (392156862745 / 100000000000000))
  obtain ⟨vz, hz, _⟩ := C59_numbers_accurate (((UInt8.ofNat b).toNat : ℚ) * (392156862745 / 100000000000000))
  refine ⟨b!"BT\n" ++ pos ++ b!" TD\n/F" ++ itoa idx ++ b!" " ++ itoa c.fontSize, _, _, _, t ++ b!"ET\n" ++ rest, vx, vy, vz, ?_, hx, hy, hz,
    component_near hr hx, component_near hg hy, component_near hb hz⟩
  rw [hs, hcol]
  unfold colorOp
  simp only
  rw [if_pos hne]
  simp only [List.append_assoc]

/-- a font with one character -/
def contentFont : FontState :=
  { ttf := { unitsPerEm := 1000, numberOfHMetrics := 2, widths := [0, 500], typoAscender := 750, typoDescender := -250 }, chars := ⟨[65], [1]⟩ }

def contentText (color : Option (Int × Int × Int)) : TextContent :=
  { text := b!"A", color := color, font := 0, fontStyle := 0, fontSize := 10, page := 1, x := 20, y := 30, w := 100, h := 40, align := 2, lineWidth := 0,
    pageHeight := 200 }

-- a text in orange, aligned to the right
example : (contentText (some (255, 128, 0))).stream contentFont 3 = .ok b!"BT\n115.00 162.50 TD\n/F3 10 Tf\n1.00 0.50 0.00 rg\n[<0001>] TJ\nET\n\r\n" := by
  decide +kernel

/-- C43 is violated for colours whose components add up to 256 or 512: no colour is set (here half red, half green). -/
theorem C43_refuted_sum : (contentText (some (128, 128, 0))).stream contentFont 3 = .ok b!"BT\n115.00 162.50 TD\n/F3 10 Tf\n[<0001>] TJ\nET\n\r\n" := by
  decide +kernel

/-! ### C58 -/

/-- C58 is violated: for explicit black no colour is set, so that a black text after a red one is drawn in red (there is no operator
between the red text and the black text that sets the colour). -/
theorem C58_refuted_black : ∃ s1 s2 : Bytes, (contentText (some (255, 0, 0))).stream contentFont 3 = .ok s1 ∧ (contentText (some (0, 0, 0))).stream contentFont 3 = .ok s2 ∧
    b!"1.00 0.00 0.00 rg\n[<0001>] TJ\n" <:+: s1 ∧ ¬ b!"rg" <:+: s2 ∧ b!"[<0001>] TJ\n" <:+: s2 ∧ ¬ b!"Q" <:+: s1 ++ s2 :=
  ⟨b!"BT\n115.00 162.50 TD\n/F3 10 Tf\n1.00 0.00 0.00 rg\n[<0001>] TJ\nET\n\r\n", b!"BT\n115.00 162.50 TD\n/F3 10 Tf\n[<0001>] TJ\nET\n\r\n",
    by decide +kernel, by decide +kernel, by decide +kernel, by decide +kernel, by decide +kernel, by decide +kernel⟩

/-! ### C54 -/

/-- C54, horizontal: the text begins at the left edge of the cell, ends at its right edge, or is centred, according to the flags Right (2)
and Center (16). -/
theorem C54_horizontal (align : Nat) (x y w h pageHeight textW asc desc yt : ℚ) :
    let t := textBox (calX align x w textW) yt textW asc desc
    let c := cell pageHeight x y w h
    if align &&& 2 = 2 then t.right = c.right else if align &&& 16 = 16 then t.left - c.left = c.right - t.right else t.left = c.left := by
  simp only [textBox, cell, calX]
  by_cases h1 : align &&& 2 = 2
  · simp only [h1, if_true]; ring
  simp only [h1, if_false]
  by_cases h2 : align &&& 16 = 16
  · simp only [h2, if_true]; ring
  · simp only [h2, if_false]

/-- C54, vertical: the descender is at the bottom of the cell, the text is centred, or its ascender is at the top, according to the flags
Bottom (1) and Middle (32). -/
theorem C54_vertical (align : Nat) (x y w h pageHeight textW asc desc xt : ℚ) :
    let t := textBox xt (calY align pageHeight y h asc desc) textW asc desc
    let c := cell pageHeight x y w h
    if align &&& 1 = 1 then t.bottom = c.bottom else if align &&& 32 = 32 then t.bottom - c.bottom = c.top - t.top else t.top = c.top := by
  simp only [textBox, cell, calY]
  by_cases h1 : align &&& 1 = 1
  · simp only [h1, if_true]; ring
  simp only [h1, if_false]
  by_cases h2 : align &&& 32 = 32
  · simp only [h2, if_true]; ring
  · simp only [h2, if_false]; ring

/-- C54: these are the positions written, for every text whose characters are all in the font. -/
theorem C54_written {c : TextContent} {f : FontState} {idx sum : Int} (h : (createContent f c.text c.fontSize).2 = .ok sum) : ∃ s rest, c.stream f idx = .ok s ∧
    s = b!"BT\n" ++ fmt2 (calX c.align c.x c.w (textWidth sum c.fontSize)) ++ b!" " ++
      fmt2 (calY c.align c.pageHeight c.y c.h ((f.ttf.typoAscender : ℚ) * c.fontSize / f.ttf.unitsPerEm) ((f.ttf.typoDescender : ℚ) * c.fontSize / f.ttf.unitsPerEm)) ++
      b!" TD\n/F" ++ itoa idx ++ b!" " ++ itoa c.fontSize ++ b!" Tf\n" ++ rest := by
  have e : ∀ v : Int, convertTypoUnit v f.ttf.unitsPerEm c.fontSize = (v : ℚ) * c.fontSize / f.ttf.unitsPerEm := by
    intro v; unfold convertTypoUnit; ring
  unfold TextContent.stream
  simp only [h, Res.ok_bind, e]
  refine ⟨_, colorOp c.rgb ++ (createContent f c.text c.fontSize).1 ++ b!"ET\n" ++
    (if c.fontStyle &&& 4 = 4 then underlineOp f.ttf c.fontSize c.x c.y (c.x + c.w) c.pageHeight else []) ++
    drawBorder (if c.lineWidth > 0 then 15 else 0) c.x c.y c.w c.h c.lineWidth c.pageHeight ++ b!"\r\n", rfl, ?_⟩
  simp only [List.append_assoc]

example : (createContent contentFont (contentText none).text (contentText none).fontSize).2 = .ok 500 := by decide +kernel

/-! ### C60 -/

/-- C60: with borders on, the lines drawn are the four edges of the cell, the horizontal ones longer by half the line width at both ends. -/
theorem C60_borders (x y w h lw pageHeight : ℚ) :
    let c := cell pageHeight x y w h
    drawBorder 15 x y w h lw pageHeight =
      lineOp (c.left - lw / 2) c.top (c.right + lw / 2) c.top ++ lineOp c.left c.top c.left c.bottom ++ lineOp c.right c.top c.right c.bottom ++
        lineOp (c.left - lw / 2) c.bottom (c.right + lw / 2) c.bottom := by
  simp only [drawBorder, cell]
  have : lw * (1 / 2) = lw / 2 := by ring
  rw [this]
  simp

/-- C60: they are drawn exactly if the line width is positive. -/
theorem C60_drawn {c : TextContent} {f : FontState} {idx sum : Int} (h : (createContent f c.text c.fontSize).2 = .ok sum) (hs : c.fontStyle &&& 4 ≠ 4) :
    ∃ s pre, c.stream f idx = .ok s ∧ s = pre ++ b!"ET\n" ++ (if c.lineWidth > 0 then drawBorder 15 c.x c.y c.w c.h c.lineWidth c.pageHeight else []) ++ b!"\r\n" := by
  unfold TextContent.stream
  simp only [h, Res.ok_bind, if_neg hs]
  refine ⟨_, b!"BT\n" ++ fmt2 (calX c.align c.x c.w (textWidth sum c.fontSize)) ++ b!" " ++
      fmt2 (calY c.align c.pageHeight c.y c.h (convertTypoUnit f.ttf.typoAscender f.ttf.unitsPerEm c.fontSize) (convertTypoUnit f.ttf.typoDescender f.ttf.unitsPerEm c.fontSize)) ++
      b!" TD\n/F" ++ itoa idx ++ b!" " ++ itoa c.fontSize ++ b!" Tf\n" ++ colorOp c.rgb ++ (createContent f c.text c.fontSize).1, rfl, ?_⟩
  by_cases hl : c.lineWidth > 0
  · simp only [if_pos hl, List.append_assoc, List.nil_append]
  · simp only [if_neg hl, List.append_assoc, List.nil_append]
    rfl

example : drawBorder 15 20 30 100 40 (1 / 10) 200 = b!"19.95 170.00 m 120.05 170.00 l s\n20.00 170.00 m 20.00 130.00 l s\n120.00 170.00 m 120.00 130.00 l s\n19.95 130.00 m 120.05 130.00 l s\n" := by
  decide +kernel

end Verif
