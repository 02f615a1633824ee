import Verif.Theorems.FontSample
/-
C77: the last characters of the groups of every font file.
-/
namespace Verif
open Spec

/-- **C77** (violated for every group above U+FFFF of every font file): the file assigns a glyph to the last character of the group, but no glyph is found. -/
theorem C77_refuted_glyph12_all {d : Bytes} {t : Ttf} (h : parseTtf d = .ok t) {r : Record} (hr : TableIs d b!"cmap" r) {sub : Nat} (hs : EncodingIs d r.off 3 10 sub false)
    (hok : ∀ n i j s e s' e', u32At d (sub + 12) = some n → i < j → j < n → u32At d (sub + 16 + 12 * i) = some s → u32At d (sub + 16 + 12 * i + 4) = some e →
      u32At d (sub + 16 + 12 * j) = some s' → u32At d (sub + 16 + 12 * j + 4) = some e' → e < s' ∨ e' < s) {n i s c g : Nat} (hn : u32At d (sub + 12) = some n) (hi : i < n)
    (h1 : u32At d (sub + 16 + 12 * i) = some s) (h2 : u32At d (sub + 16 + 12 * i + 4) = some c) (h3 : u32At d (sub + 16 + 12 * i + 8) = some g) (hsc : s ≤ c) (hc : 0xFFFF < c) :
    FileCmap12 d sub c (c - s + g) ∧ charToGlyph t c = .err .notFoundGlyph := by
  refine ⟨⟨n, i, s, c, g, hn, hi, h1, h2, h3, hsc, le_refl _, rfl⟩, ?_⟩
  rcases (C77_read h).cmap12 r hr with ⟨⟨m, hm, hno⟩, -⟩ | ⟨sub', he, h12, hlen, hget⟩
  · obtain ⟨n', k, o, hn', hk, e1, e2, -⟩ := hs
    rw [hm] at hn'
    cases Option.some.inj hn'
    exact absurd ⟨e1, e2⟩ (hno k hk)
  · cases EncodingIs.unique hs he
    have hg12 : Cmap12OK t := by
      unfold Cmap12OK
      rw [List.pairwise_iff_getElem]
      intro i j hi hj hij
      obtain ⟨a1, a2, -⟩ := hget i _ (List.getElem?_eq_getElem hi)
      obtain ⟨b1, b2, -⟩ := hget j _ (List.getElem?_eq_getElem hj)
      exact hok _ i j _ _ _ _ hlen hij hj a1 a2 b1 b2
    rw [hlen] at hn
    cases Option.some.inj hn
    obtain ⟨a1, a2, -⟩ := hget i _ (List.getElem?_eq_getElem hi)
    rw [h1] at a1
    rw [h2] at a2
    have e1 := Option.some.inj a1
    have e2 := Option.some.inj a2
    have := (C30_refuted_last_of_group hg12 (List.getElem_mem hi) (by rw [← e1, ← e2]; exact hsc) (by rw [← e2]; exact hc)).2
    rw [← e2] at this
    exact this

/-- the group of the small file -/
example : parseTtf tinyFile = .ok tinyFont ∧ TableIs tinyFile b!"cmap" ⟨b!"cmap", 2026715, 252, 80⟩ ∧ EncodingIs tinyFile 252 3 10 304 false ∧ u32At tinyFile (304 + 12) = some 1 ∧
    u32At tinyFile (304 + 16) = some 0x1F600 ∧ u32At tinyFile (304 + 16 + 4) = some 0x1F601 ∧ u32At tinyFile (304 + 16 + 8) = some 1 := by
  obtain ⟨e1, -, -, e4, e5, e6, e7⟩ := tiny_cmap12
  exact ⟨tiny_parsed, tiny_tables.2.2.1, e1, e4, e5, e6, e7⟩

end Verif
