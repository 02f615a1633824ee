import Verif.Theorems.GoText
import Verif.Theorems.FontSample
/-!
# Examples and refutations for texts of GoPdf (C87)
-/
namespace Verif
open Spec

/-! ### examples -/

def goDone (env : GEnv) : Gp → List GCall → Bool
  | _, [] => true
  | g, c :: cs => (match (g.call env c).res with | .ok _ => true | _ => false) && goDone env (g.call env c).state cs

theorem goDone_of {env : GEnv} : ∀ {cs : List GCall} {g : Gp}, goDone env g cs = true → GDone env g cs (goRun env g cs)
  | [], _, _ => .nil
  | c :: cs, g, h => by
    rw [goDone, Bool.and_eq_true] at h
    refine .cons ?_ (goDone_of h.2)
    have := h.1
    split at this <;> simp_all

def Spec.Thing.fine : Thing → Bool
  | .text w => decide (0 < w.state.ttf.unitsPerEm) && (decide (0 ≤ w.state.ttf.underlineThickness ∧ 0 ≤ w.size))
  | _ => true

def thingsFine (l : List (Option GRect × List Thing)) : Bool := l.all (fun s => !s.2.isEmpty && s.2.all Thing.fine)

theorem thingsFine_of {l : List (Option GRect × List Thing)} (h : thingsFine l = true) : ∀ s ∈ l, s.2 ≠ [] ∧ ∀ w, .text w ∈ s.2 → Legible w := by
  intro s hs
  have h1 := List.all_eq_true.1 h s hs
  rw [Bool.and_eq_true] at h1
  refine ⟨by intro e; simp [e] at h1, fun w hw => ?_⟩
  have h2 := List.all_eq_true.1 h1.2 _ hw
  simp only [Thing.fine, Bool.and_eq_true, decide_eq_true_eq] at h2
  obtain ⟨a, b, c⟩ := h2
  refine ⟨a, fun _ => ?_⟩
  have : (0 : ℚ) < w.state.ttf.unitsPerEm := by exact_mod_cast a
  have : (0 : ℚ) ≤ w.state.ttf.underlineThickness := by exact_mod_cast b
  have : (0 : ℚ) ≤ w.size := by exact_mod_cast c
  positivity

/-- a text, underlined, and a cell with its edges, in the small font -/
def textCalls : List GCall := [.addFont b!"A" tinyFile false 0, .addPage ⟨0, 0⟩, .setFont b!"A" 4 10, .setX 20, .setY 30, .text b!"AB", .setX 20, .setY 50, .setTextColor 255 0 0,
  .cell (some ⟨100, 20⟩) b!"A" { align := 0, border := 15, float := 1 }]

set_option maxRecDepth 20000 in
example : ∃ g g' out, GDone goEnv (Gp.start ⟨595, 842⟩ none) textCalls g ∧ g.compile goEnv = (g', .ok out) ∧ out.length < 10 ^ 10 ∧ (∀ l b, goEnv.unzip (goEnv.zipLevel l b) = some b) ∧
    ∀ s ∈ thingsOf goEnv (Gp.start ⟨595, 842⟩ none) textCalls [], s.2 ≠ [] ∧ ∀ w, .text w ∈ s.2 → Legible w := by
  have h1 : goDone goEnv (Gp.start ⟨595, 842⟩ none) textCalls = true := by decide +kernel
  have h2 : goShort ((goRun goEnv (Gp.start ⟨595, 842⟩ none) textCalls).compile goEnv).2 = true := by decide +kernel
  have h3 : thingsFine (thingsOf goEnv (Gp.start ⟨595, 842⟩ none) textCalls []) = true := by decide +kernel
  rcases hc : (goRun goEnv (Gp.start ⟨595, 842⟩ none) textCalls).compile goEnv with ⟨g', r⟩
  rw [hc] at h2
  cases r with
  | ok out => exact ⟨_, g', out, goDone_of h1, hc, by simpa [goShort] using h2, fun _ _ => rfl, thingsFine_of h3⟩
  | _ => simp [goShort] at h2

theorem goDone_eq {env : GEnv} {cs : List GCall} {g g' : Gp} (h : GDone env g cs g') : g' = goRun env g cs := by
  induction h with
  | nil => rfl
  | cons _ _ ih => exact ih

/-! ### refutations -/

/-- a page, and the font and the position for texts -/
def textBase : List GCall := [.addFont b!"A" tinyFile false 0, .addPage ⟨0, 0⟩, .setNoCompression, .setFont b!"A" 0 10, .setX 20, .setY 30]

def sameFile (a b : Res Bytes) : Bool := match a, b with
  | .ok a, .ok b => decide (a = b)
  | _, _ => false

/-- two sessions that write the same file -/
def SameFile (env : GEnv) (z : GRect) (cs ds : List GCall) : Prop :=
  ∃ g h g' h' out, GDone env (Gp.start z none) cs g ∧ GDone env (Gp.start z none) ds h ∧ g.compile env = (g', .ok out) ∧ h.compile env = (h', .ok out)

theorem sameFile_of {env : GEnv} {z : GRect} {cs ds : List GCall} (h1 : goDone env (Gp.start z none) cs = true) (h2 : goDone env (Gp.start z none) ds = true)
    (h : sameFile ((goRun env (Gp.start z none) cs).compile env).2 ((goRun env (Gp.start z none) ds).compile env).2 = true) : SameFile env z cs ds := by
  rcases hc : (goRun env (Gp.start z none) cs).compile env with ⟨g', r⟩
  rcases hd : (goRun env (Gp.start z none) ds).compile env with ⟨h', s⟩
  rw [hc, hd] at h
  cases r <;> cases s <;> simp [sameFile] at h
  subst h
  exact ⟨_, _, g', h', _, goDone_of h1, goDone_of h2, hc, hd⟩

set_option maxRecDepth 20000 in
/-- **C87** (refuted: the position after texts): `Text("A")` two times and `Text("AA")` write the same file, but leave the position at 38 and at 32 (each letter is 6 wide, and the texts begin at 20):
what is written next after the former is too far to the right. -/
theorem C87_refuted_advance : SameFile goEnv ⟨595, 842⟩ (textBase ++ [.text b!"A", .text b!"A"]) (textBase ++ [.text b!"AA"]) ∧
    (∀ g, GDone goEnv (Gp.start ⟨595, 842⟩ none) (textBase ++ [.text b!"A", .text b!"A"]) g → g.x = 38) ∧
    (∀ g, GDone goEnv (Gp.start ⟨595, 842⟩ none) (textBase ++ [.text b!"AA"]) g → g.x = 32) := by
  refine ⟨sameFile_of (by decide +kernel) (by decide +kernel) (by decide +kernel), ?_, ?_⟩ <;> intro g hg <;> rw [goDone_eq hg] <;> decide +kernel

set_option maxRecDepth 20000 in
/-- **C87** (refuted: a cell after a text): a cell with a rectangle and edges on all sides, written after a text with nothing set in between, writes the same file as the text alone. -/
theorem C87_refuted_cell : SameFile goEnv ⟨595, 842⟩ (textBase ++ [.text b!"A", .cell (some ⟨100, 20⟩) b!"B" { border := 15 }]) (textBase ++ [.text b!"A", .text b!"B"]) :=
  sameFile_of (by decide +kernel) (by decide +kernel) (by decide +kernel)

/-- **C87** (refuted: kerning): `KernOverride` of fonts that were added without kerning succeeds, but has no effect on what is written with them. -/
theorem C87_refuted_kern {g : Gp} {family : Bytes} (hf : ∃ F ∈ g.fonts, F.family = family) (hk : ∀ F ∈ g.fonts, F.family = family → F.kerning = false) (fn : Nat → Nat → Nat → Nat → Int → Int) :
    (g.kernOverride family fn).res = .ok () ∧ (g.kernOverride family fn).state.fonts.map GFont.state = g.fonts.map GFont.state := by
  unfold Gp.kernOverride
  split
  · rename_i i hi
    refine ⟨rfl, ?_⟩
    obtain ⟨hlt, hp, _⟩ := List.findIdx?_eq_some_iff_getElem.1 hi
    refine List.ext_getElem? (fun j => ?_)
    simp only [List.getElem?_map, List.getElem?_modify]
    cases hj : g.fonts[j]? with
    | none => rfl
    | some F =>
      by_cases he : i = j
      · subst he
        have hF : F = g.fonts[i] := by rw [List.getElem?_eq_getElem hlt] at hj; exact (Option.some.inj hj).symm
        have := hk F (List.mem_of_getElem? hj) (by subst hF; simpa using hp)
        simp [GFont.state, this]
      · simp [he]
  · rename_i hn
    obtain ⟨F, hF, e⟩ := hf
    have := List.findIdx?_eq_none_iff.1 hn F hF
    simp [e] at this

/-- **C87** (refuted: measuring): `MeasureTextWidth` never gives a width. -/
theorem C87_refuted_measure (g : Gp) (text : Bytes) (w : ℚ) : (g.measureTextWidth text).2 ≠ .ok w := by
  unfold Gp.measureTextWidth
  split
  · simp
  · split
    · simp
    · dsimp only
      split <;> simp

set_option maxRecDepth 20000 in
/-- The hypotheses of `C87_position` hold for the first text of a page, and those of `C87_refuted_kern` for its font. -/
example : ∃ g, GDone goEnv (Gp.start ⟨595, 842⟩ none) textBase g ∧ thingsOf goEnv (Gp.start ⟨595, 842⟩ none) textBase [] ≠ [] ∧ (g.call goEnv (.text b!"AB")).res = .ok () ∧
    (∃ F ∈ g.fonts, F.family = b!"A") ∧ ∀ F ∈ g.fonts, F.family = b!"A" → F.kerning = false := by
  refine ⟨_, goDone_of (by decide +kernel), ?_, ?_, ?_⟩
  · have : (thingsOf goEnv (Gp.start ⟨595, 842⟩ none) textBase []).isEmpty = false := by decide +kernel
    intro e
    rw [e] at this
    simp at this
  · have : goDone goEnv (goRun goEnv (Gp.start ⟨595, 842⟩ none) textBase) [.text b!"AB"] = true := by decide +kernel
    cases goDone_of this with
    | cons h _ => exact h
  · have : (match (goRun goEnv (Gp.start ⟨595, 842⟩ none) textBase).fonts with | [F] => decide (F.family = b!"A") && !F.kerning | _ => false) = true := by decide +kernel
    split at this
    · rename_i F e
      rw [e]
      simp only [Bool.and_eq_true, decide_eq_true_eq, Bool.not_eq_true'] at this
      exact ⟨⟨F, by simp, this.1⟩, by simpa using fun _ => this.2⟩
    · simp at this

end Verif
