import Verif.Theorems.SharedGlyph
/-
C29: the parts of parts, for every font and every set of characters.
-/
namespace Verif
open Spec

/-- **C29** (violated for every glyph that is only a part of a part): a glyph that is needed for a used glyph, but only through another glyph, has an empty outline in the file, if it is neither
used nor a direct part of a used glyph. -/
theorem C29_refuted_all {t : Ttf} (hl : LocaOK t) {m : CharMap} {parts : Nat → List Nat} (h1 : ∀ g ∈ m.vals, g < t.numGlyphs) (h2 : ∀ g ∈ m.vals, Parts t g (parts g)) {b : Bytes}
    (hb : makeFont t m = .ok b) (hlt : b.length < 4294967296) {g c d : Nat} (_hg : g ∈ m.vals) (_hc : c ∈ parts g) (_hd : d ∈ parts c) (hn : d < t.numGlyphs) (h0 : d ≠ 0) (hu : d ∉ m.vals)
    (hp : ∀ u ∈ m.vals, d ∉ parts u) : OutlineIs b t.isShort d [] := by
  obtain ⟨arr, e, hm, _⟩ := glyphClosure_spec hl h1 h2
  have h := embeds_runUp hb hlt hl e d hn
  rw [if_neg] at h
  · exact h
  · intro hx
    rcases (hm d).1 (mem_sortNat.1 (runUp_sub _ _ hx)) with h | h | ⟨u, h, h'⟩
    · exact hu h
    · exact h0 h
    · exact hp u h h'

example : LocaOK nestedFont ∧ makeFont nestedFont { keys := [65], vals := [1] } = .ok nestedFile ∧ nestedFile.length < 4294967296 ∧ Parts nestedFont 1 [2] ∧ Parts nestedFont 2 [3] ∧
    3 < nestedFont.numGlyphs ∧ srcOutline nestedFont 3 ≠ [] :=
  ⟨nestedFont_loca, nestedFile_made, by decide +kernel, nested_parts1, nested_parts2, by decide, by decide +kernel⟩

end Verif
