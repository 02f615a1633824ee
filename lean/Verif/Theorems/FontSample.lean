import Verif.Theorems.FontRead
import Verif.Theorems.Succeed
/-
C77: concrete font files.
-/
namespace Verif
open Verif.Spec

/-- the directory of a small font file -/
def tinyDirectory : Bytes :=
  [0, 1, 0, 0, 0, 10, 0, 0, 0, 0, 0, 0] ++
  [79, 83, 47, 50, 4, 78, 2, 188, 0, 0, 0, 172, 0, 0, 0, 80] ++
  [99, 109, 97, 112, 0, 30, 236, 219, 0, 0, 0, 252, 0, 0, 0, 80] ++
  [103, 108, 121, 102, 6, 65, 5, 180, 0, 0, 1, 76, 0, 0, 0, 28] ++
  [104, 101, 97, 100, 97, 108, 67, 61, 0, 0, 1, 104, 0, 0, 0, 54] ++
  [104, 104, 101, 97, 5, 122, 1, 147, 0, 0, 1, 160, 0, 0, 0, 36] ++
  [104, 109, 116, 120, 4, 76, 0, 0, 0, 0, 1, 196, 0, 0, 0, 10] ++
  [108, 111, 99, 97, 0, 6, 0, 14, 0, 0, 1, 208, 0, 0, 0, 8] ++
  [109, 97, 120, 112, 0, 4, 0, 0, 0, 0, 1, 216, 0, 0, 0, 6] ++
  [110, 97, 109, 101, 0, 25, 4, 99, 0, 0, 1, 224, 0, 0, 0, 20] ++
  [112, 111, 115, 116, 255, 159, 0, 50, 0, 0, 1, 244, 0, 0, 0, 32]

/-- table OS/2: ascender 800, descender -200, Windows ascent 900, descent 300 -/
def tinyOS2 : Bytes :=
  [0, 1, 0, 0, 0, 0, 0, 0, 0, 0, 0, 0, 0, 0, 0, 0, 0, 0, 0, 0, 0, 0, 0, 0, 0, 0, 0, 0, 0, 0, 0, 0, 0, 0, 0, 0, 0, 0, 0, 0, 0, 0, 0, 0, 0, 0, 0, 0, 0, 0, 0, 0, 0, 0, 0, 0, 0, 0, 0, 0, 0, 0, 0, 0, 0, 0, 0, 0, 3, 32, 255, 56, 0, 0, 3, 132, 1, 44, 0, 0]

/-- table cmap: characters 65 and 66 have the glyphs 1 and 2 (format 4), characters 0x1F600 and 0x1F601 too (format 12) -/
def tinyCmap : Bytes :=
  [0, 0, 0, 2, 0, 3, 0, 1, 0, 0, 0, 20, 0, 3, 0, 10, 0, 0, 0, 52, 0, 4, 0, 32, 0, 0, 0, 4, 0, 4, 0, 1, 0, 0, 0, 66, 255, 255, 0, 0, 0, 65, 255, 255, 255, 192, 0, 1, 0, 0, 0, 0, 0, 12, 0, 0, 0, 0, 0, 28, 0, 0, 0, 0, 0, 0, 0, 1, 0, 1, 246, 0, 0, 1, 246, 1, 0, 0, 0, 1]

/-- table glyf: glyph 1 is simple, glyph 2 is made of glyph 1 -/
def tinyGlyf : Bytes :=
  [0, 1, 0, 0, 0, 0, 2, 88, 3, 32, 1, 2, 255, 255, 0, 0, 0, 0, 2, 88, 3, 32, 0, 2, 0, 1, 0, 0]

/-- table head: 1000 units, short locations -/
def tinyHead : Bytes :=
  [0, 1, 0, 0, 0, 1, 0, 0, 0, 0, 0, 0, 95, 15, 60, 245, 0, 0, 3, 232, 0, 0, 0, 0, 0, 0, 0, 0, 0, 0, 0, 0, 0, 0, 0, 0, 0, 0, 255, 56, 2, 88, 3, 32, 0, 0, 0, 8, 0, 2, 0, 0, 0, 0, 0, 0]

/-- table hhea: two metrics (the number is the last word) -/
def tinyHhea : Bytes :=
  [0, 1, 0, 0, 3, 32, 255, 56, 0, 0, 2, 88, 0, 0, 0, 0, 2, 88, 0, 1, 0, 0, 0, 0, 0, 0, 0, 0, 0, 0, 0, 0, 0, 0, 0, 2]

/-- table hmtx: widths 500 and 600 -/
def tinyHmtx : Bytes :=
  [1, 244, 0, 0, 2, 88, 0, 0, 0, 0, 0, 0]

/-- table loca: glyph 0 is empty -/
def tinyLoca : Bytes :=
  [0, 0, 0, 0, 0, 6, 0, 14]

/-- table maxp: three glyphs -/
def tinyMaxp : Bytes :=
  [0, 1, 0, 0, 0, 3, 0, 0]

/-- table name: the PostScript name T -/
def tinyName : Bytes :=
  [0, 0, 0, 1, 0, 18, 0, 3, 0, 1, 4, 9, 0, 6, 0, 2, 0, 0, 0, 84]

/-- table post: underline position -100, thickness 50 -/
def tinyPost : Bytes :=
  [0, 3, 0, 0, 0, 0, 0, 0, 255, 156, 0, 50, 0, 0, 0, 0, 0, 0, 0, 0, 0, 0, 0, 0, 0, 0, 0, 0, 0, 0, 0, 0]

/-- a small font file -/
def tinyFile : Bytes := tinyDirectory ++ tinyOS2 ++ tinyCmap ++ tinyGlyf ++ tinyHead ++ tinyHhea ++ tinyHmtx ++ tinyLoca ++ tinyMaxp ++ tinyName ++ tinyPost

/-- the font pdft reads from it -/
def tinyFont : Ttf := match parseTtf tinyFile with | .ok t => t | _ => {}

set_option maxRecDepth 20000 in
theorem tiny_parsed : parseTtf tinyFile = .ok tinyFont := by rfl

theorem tableIs_of {d tag : Bytes} {r : Record} {n i : Nat} (hn : u16At d 4 = some n) (h : record d i = some r ∧ r.tag = tag ∧ i < n)
    (hall : ∀ j < n, i < j → (record d j).all (fun r => r.tag ≠ tag) = true) : TableIs d tag r :=
  ⟨n, i, hn, h.2.2, h.1, h.2.1, fun j hj hjn r' hr' => by have := hall j hjn hj; rw [hr'] at this; simpa using this⟩


/-- the glyph table of the file -/
def tinyGlyfRecord : Record := ⟨b!"glyf", 104924596, 332, 28⟩

set_option maxRecDepth 20000 in
theorem tiny_tables : u16At tinyFile 4 = some 10 ∧ TableIs tinyFile b!"OS/2" ⟨b!"OS/2", 72221372, 172, 80⟩ ∧ TableIs tinyFile b!"cmap" ⟨b!"cmap", 2026715, 252, 80⟩ ∧
    TableIs tinyFile b!"glyf" tinyGlyfRecord ∧ TableIs tinyFile b!"head" ⟨b!"head", 1634485053, 360, 54⟩ ∧ TableIs tinyFile b!"hhea" ⟨b!"hhea", 91881875, 416, 36⟩ ∧
    TableIs tinyFile b!"hmtx" ⟨b!"hmtx", 72089600, 452, 10⟩ ∧ TableIs tinyFile b!"loca" ⟨b!"loca", 393230, 464, 8⟩ ∧ TableIs tinyFile b!"maxp" ⟨b!"maxp", 262144, 472, 6⟩ ∧
    TableIs tinyFile b!"name" ⟨b!"name", 1639523, 480, 20⟩ ∧ TableIs tinyFile b!"post" ⟨b!"post", 4288610354, 500, 32⟩ := by
  have hn : u16At tinyFile 4 = some 10 := by decide +kernel
  refine ⟨hn, tableIs_of (i := 0) hn ?_ ?_, tableIs_of (i := 1) hn ?_ ?_, tableIs_of (i := 2) hn ?_ ?_, tableIs_of (i := 3) hn ?_ ?_, tableIs_of (i := 4) hn ?_ ?_,
    tableIs_of (i := 5) hn ?_ ?_, tableIs_of (i := 6) hn ?_ ?_, tableIs_of (i := 7) hn ?_ ?_, tableIs_of (i := 8) hn ?_ ?_, tableIs_of (i := 9) hn ?_ ?_⟩ <;> decide +kernel

set_option maxRecDepth 20000 in
theorem tiny_cmap4 : EncodingIs tinyFile 252 3 1 272 true ∧ FileCmap4OK tinyFile 272 := by
  have hn : u16At tinyFile 254 = some 2 ∧ u16At tinyFile 256 = some 3 ∧ u16At tinyFile 258 = some 1 ∧ u32At tinyFile 260 = some 20 ∧
    u16At tinyFile 266 = some 10 ∧ u16At tinyFile 278 = some 4 ∧ u16At tinyFile 288 = some 65535 ∧ u16At tinyFile 300 = some 0 ∧ u16At tinyFile 302 = some 0 := by decide +kernel
  obtain ⟨h1, h2, h3, h4, h5, h6, h7, h8, h9⟩ := hn
  refine ⟨⟨2, 0, 20, h1, by omega, h2, h3, h4, rfl, fun j hj hlt => ?_⟩, fun sc2 h => ?_, fun len sc2 i s e o k1 k2 hi k3 k4 k5 k6 => ?_⟩
  · simp only [if_true] at hlt
    have : j = 1 := by omega
    subst this
    rw [show 252 + 4 + 8 * 1 + 2 = 266 from rfl, h5]
    simp
  · rw [h6] at h
    cases Option.some.inj h
    exact ⟨by omega, h7⟩
  · rw [h6] at k2
    cases Option.some.inj k2
    rcases (by omega : i = 0 ∨ i = 1) with rfl | rfl
    · rw [show 272 + 16 + 6 * (4 / 2) + 2 * 0 = 300 from rfl, h8] at k5
      exact absurd (Option.some.inj k5).symm k6
    · rw [show 272 + 16 + 6 * (4 / 2) + 2 * 1 = 302 from rfl, h9] at k5
      exact absurd (Option.some.inj k5).symm k6

set_option maxRecDepth 20000 in
theorem tiny_cmap12 : EncodingIs tinyFile 252 3 10 304 false ∧ u16At tinyFile 304 = some 12 ∧ u16At tinyFile 306 = some 0 ∧ u32At tinyFile 316 = some 1 ∧
    u32At tinyFile 320 = some 0x1F600 ∧ u32At tinyFile 324 = some 0x1F601 ∧ u32At tinyFile 328 = some 1 := by
  have hn : u16At tinyFile 254 = some 2 ∧ u16At tinyFile 264 = some 3 ∧ u16At tinyFile 266 = some 10 ∧ u32At tinyFile 268 = some 52 ∧ u16At tinyFile 258 = some 1 := by decide +kernel
  obtain ⟨h1, h2, h3, h4, h5⟩ := hn
  refine ⟨⟨2, 1, 52, h1, by omega, h2, h3, h4, rfl, fun j hj hlt => ?_⟩, by decide +kernel⟩
  have : j = 0 := by simp at hlt; omega
  subst this
  rw [show 252 + 4 + 8 * 0 + 2 = 258 from rfl, h5]
  simp

/-- The hypothesis of `C77_accepted` holds for the small file. -/
theorem tiny_ok : FontFileOK tinyFile := by
  obtain ⟨hn, t1, t2, t3, t4, t5, t6, t7, t8, t9, t10⟩ := tiny_tables
  have hl : tinyFile.length = 532 := by decide +kernel
  have hv : bytesAt tinyFile 0 4 = [0, 1, 0, 0] ∧ (∀ i < 10, (record tinyFile i).isSome = true) ∧ u32At tinyFile 372 = some 0x5F0F3CF5 ∧ u16At tinyFile 450 = some 2 ∧
    u16At tinyFile 254 = some 2 ∧ u16At tinyFile 272 = some 4 ∧ u16At tinyFile 274 = some 32 ∧ u16At tinyFile 278 = some 4 ∧ u16At tinyFile 482 = some 1 ∧ u16At tinyFile 484 = some 18 ∧
    u16At tinyFile 492 = some 6 ∧ u16At tinyFile 494 = some 2 ∧ u16At tinyFile 496 = some 0 ∧ bytesAt tinyFile 498 2 = [0, 84] ∧ u16At tinyFile 172 = some 1 := by decide +kernel
  obtain ⟨v1, v2, v3, v4, v5, v6, v7, v8, v9, v10, v11, v12, v13, v14, v15⟩ := hv
  obtain ⟨c1, c2⟩ := tiny_cmap4
  obtain ⟨e1, e2, e3, e4, -⟩ := tiny_cmap12
  refine ⟨v1, ⟨10, hn, fun i hi => Option.isSome_iff_exists.1 (v2 i hi)⟩, ⟨_, t4, v3, by rw [hl]; decide⟩, ⟨_, _, 2, t5, v4, by omega, t6, by rw [hl]; decide⟩,
    ⟨_, t8, by rw [hl]; decide⟩, ⟨_, 2, 272, 32, 4, t2, v5, by rw [hl]; decide, c1, by decide, v6, v7, v8, by omega, by rw [hl]; decide, c2⟩, ?_,
    ⟨_, 1, 18, 0, 2, 0, t9, v9, v10, by omega, fun j hj => absurd hj (by omega), v11, v12, v13, by rw [hl]; decide, 84, ?_, by decide, by decide⟩,
    ⟨_, 1, t1, v15, by rw [hl]; decide, fun h => absurd h (by omega)⟩, ⟨_, t10, by rw [hl]; decide⟩, ⟨_, t7, by rw [hl]; decide⟩⟩
  · intro r sub hr hs
    cases TableIs.unique t2 hr
    cases EncodingIs.unique e1 hs
    exact ⟨e2, e3, 1, e4, by rw [hl]; decide⟩
  · show (84 : UInt8) ∈ bytesAt tinyFile 498 2
    rw [v14]
    decide

set_option maxRecDepth 20000 in
theorem tiny_values : tinyFont.numGlyphs = 3 ∧ tinyFont.segCount = 2 ∧ tinyFont.endCount = [66, 65535] ∧ tinyFont.startCount = [65, 65535] ∧ tinyFont.idDelta = [65472, 1] ∧
    tinyFont.idRangeOffset = [0, 0] ∧ tinyFont.groups = [⟨0x1F600, 0x1F601, 1⟩] ∧ tinyFont.locaTable = [0, 0, 12, 28] ∧ tinyFont.widths = [500, 600, 600] ∧
    tinyFont.isShort = true ∧ tinyFont.fontData = tinyFile := by decide +kernel

set_option maxRecDepth 20000 in
theorem tiny_good : GoodFont tinyFont := by
  refine ⟨⟨by decide +kernel, by decide +kernel, by decide +kernel, by decide +kernel, by decide +kernel⟩, by decide +kernel, ?_, ?_, by decide +kernel, by decide +kernel, by decide +kernel⟩
  · intro g hg
    rw [tiny_values.1] at hg
    rcases (by omega : g = 0 ∨ g = 1 ∨ g = 2) with rfl | rfl | rfl
    · exact ⟨[], .inl ⟨by decide +kernel, rfl⟩, by simp⟩
    · exact ⟨[], .inr ⟨1, by decide +kernel, .inl ⟨by decide +kernel, rfl⟩⟩, by simp⟩
    · refine ⟨[1], .inr ⟨65535, by decide +kernel, .inr ⟨by decide +kernel, ?_⟩⟩, ?_⟩
      · exact Components.last (flags := 2) (by decide +kernel) (by decide +kernel) (by decide)
      · rw [tiny_values.1]; decide
  · intro r g h
    obtain ⟨v1, v2, v3, v4, v5, v6, v7, -⟩ := tiny_values
    rw [v1]
    unfold charToGlyph at h
    by_cases h1 : r ≤ 0xFFFF
    · rw [if_pos h1] at h
      simp only [format4, v2, v3, v4, v5, v6, findSeg] at h
      by_cases h2 : r ≤ 66
      · simp [h2, Res.ofOption] at h
        split at h <;> simp at h <;> omega
      · simp [h1, h2, Res.ofOption] at h
        split at h <;> simp at h <;> omega
    · rw [if_neg h1] at h
      simp only [format12, v7] at h
      split at h
      · rename_i hf
        have := List.mem_of_find?_eq_some hf
        have hp := List.find?_some hf
        simp only [List.mem_singleton] at this
        subst this
        simp at hp h
        omega
      · simp at h

/-- The hypotheses of `C77_outline` and `C77_embedded_partial` hold for the small file and a text of both characters; glyph 2 is made of glyph 1. -/
example : LocaOK tinyFont ∧ TableIs tinyFile b!"glyf" tinyGlyfRecord ∧ (∀ o ∈ tinyFont.locaTable, o ≤ tinyGlyfRecord.len) ∧ ([1, 2].Nodup) ∧ (∀ g ∈ [1, 2], g < tinyFont.numGlyphs) ∧
    ∃ b, makeFont tinyFont { keys := [65, 66], vals := [1, 2] } = .ok b := by
  refine ⟨tiny_good.loca, tiny_tables.2.2.2.1, by rw [tiny_values.2.2.2.2.2.2.2.1]; decide, by decide, by rw [tiny_values.1]; decide, ?_⟩
  have hp : ∀ g, ∃ cs, g < tinyFont.numGlyphs → Parts tinyFont g cs ∧ ∀ c ∈ cs, c < tinyFont.numGlyphs := by
    intro g
    by_cases hg : g < tinyFont.numGlyphs
    · obtain ⟨cs, h⟩ := tiny_good.parts g hg
      exact ⟨cs, fun _ => h⟩
    · exact ⟨[], fun h => absurd h hg⟩
  choose parts hparts using hp
  have hlt : ∀ g ∈ [1, 2], g < tinyFont.numGlyphs := by rw [tiny_values.1]; decide
  refine C28_made (parts := parts) tiny_good.loca hlt (fun g hg => (hparts g (hlt g hg)).1) (fun g hg => (hparts g (hlt g hg)).2) tiny_good.some (fun tag ht h1 h2 => ?_)
  exact tiny_good.tables tag ((by decide : ∀ tag ∈ fontTags, tag ≠ b!"glyf" → tag ≠ b!"loca" →
    tag ∈ [b!"cvt ", b!"fpgm", b!"head", b!"hhea", b!"hmtx", b!"maxp", b!"prep"]) tag ht h1 h2)

/-- The hypotheses of `C77_glyph` and `C77_glyph12_partial` hold for the small file, and what they say is seen there. -/
example : FileCmap4 tinyFile 272 66 2 ∧ charToGlyph tinyFont 66 = .ok 2 ∧ FileCmap12 tinyFile 304 0x1F600 1 ∧ charToGlyph tinyFont 0x1F600 = .ok 1 := by
  have h := C77_glyph tiny_parsed tiny_tables.2.2.1 tiny_cmap4.1 tiny_cmap4.2 (c := 66) (by omega)
  have e : charToGlyph tinyFont 66 = .ok 2 := by decide +kernel
  obtain ⟨-, -, -, e4, e5, e6, e7⟩ := tiny_cmap12
  exact ⟨(h.2 2).1 e, e, ⟨1, 0, _, _, _, e4, by omega, e5, e6, e7, by omega, by omega, rfl⟩, by decide +kernel⟩

/-! ### refutations -/

/-- **C77** refuted for characters above U+FFFF: the file assigns glyph 2 to U+1F601, but pdft finds no glyph. -/
theorem C77_refuted_glyph12 : FontFileOK tinyFile ∧ parseTtf tinyFile = .ok tinyFont ∧ TableIs tinyFile b!"cmap" ⟨b!"cmap", 2026715, 252, 80⟩ ∧ EncodingIs tinyFile 252 3 10 304 false ∧
    FileCmap12 tinyFile 304 0x1F601 2 ∧ charToGlyph tinyFont 0x1F601 = .err .notFoundGlyph := by
  obtain ⟨e1, -, -, e4, e5, e6, e7⟩ := tiny_cmap12
  exact ⟨tiny_ok, tiny_parsed, tiny_tables.2.2.1, e1, ⟨1, 0, _, _, _, e4, by omega, e5, e6, e7, by omega, by omega, rfl⟩, by decide +kernel⟩

/-- **C77** refuted for bad files: the small file with a zero number of horizontal metrics makes `AddFont` crash. -/
theorem C77_refuted_crash : ((App.addFont {} b!"f" (tinyFile.set 451 0)).res = .panic) := by decide +kernel

/-- **C77** refuted for missing tables: without a table of horizontal metrics (here its tag is another one) the file is accepted all the same; the widths
are read from the bytes after the number of glyphs in the `maxp` table, here the padding and the name table. -/
theorem C77_refuted_missing : NoTable (tinyFile.set 92 120) b!"hmtx" ∧
    ∃ t, parseTtf (tinyFile.set 92 120) = .ok t ∧ t.numGlyphs = 3 ∧ t.widths = [0, 1, 1] := by
  have h : (∀ i < 10, (record (tinyFile.set 92 120) i).all (fun r => r.tag ≠ b!"hmtx") = true) ∧ u16At (tinyFile.set 92 120) 4 = some 10 ∧
      (match parseTtf (tinyFile.set 92 120) with | .ok t => decide (t.numGlyphs = 3 ∧ t.widths = [0, 1, 1]) | _ => false) = true := by decide +kernel
  obtain ⟨h1, h2, h3⟩ := h
  refine ⟨⟨10, h2, fun i hi r hr => ?_⟩, ?_⟩
  · have := h1 i hi
    rw [hr] at this
    simpa using this
  · split at h3
    · rename_i t ht
      exact ⟨t, ht, of_decide_eq_true h3⟩
    · simp at h3

/-! ### from the font file to the saved document -/

/-- the small font is added and a text is inserted on page 1 -/
def fontCalls : List (Env × Call) := [(plainEnv, .addFont b!"f" tinyFile), (plainEnv, .setFont b!"f" [] 12), (plainEnv, .insert b!"AB" 1 10 20 100 20 8 none)]

set_option maxRecDepth 20000 in
theorem fontCalls_facts : (App.openFrom plainEnv {} (fileOf imgSample)).res = .ok () ∧
    (Run (openedApp (fileOf imgSample)) fontCalls).doc.objs = opened imgSample ∧ (Run (openedApp (fileOf imgSample)) fontCalls).doc.rootObjID = 1 ∧
    (Run (openedApp (fileOf imgSample)) fontCalls).protection = none ∧ (Run (openedApp (fileOf imgSample)) fontCalls).fonts.map (fun f => f.state.ttf) = [tinyFont] ∧
    (Run (openedApp (fileOf imgSample)) fontCalls).fonts.map (fun f => f.state.chars.vals) = [[1, 2]] := by decide +kernel

/-- The hypotheses of `C76_saved_partial` hold with a font from a file. -/
example : (∀ f ∈ (Run (openedApp (fileOf imgSample)) fontCalls).fonts, GoodFont f.state.ttf) ∧
    SaveDoc plainEnv.unzip (Run (openedApp (fileOf imgSample)) fontCalls).doc.objs (Run (openedApp (fileOf imgSample)) fontCalls).doc.rootObjID 2 (openEntries imgSample 1) (openEntries imgSample 2)
      imgPages twoBodies ∧
    CanSave (Run (openedApp (fileOf imgSample)) fontCalls).doc.objs imgPages ∧ (Run (openedApp (fileOf imgSample)) fontCalls).protection = none := by
  obtain ⟨h1, h5, h6, h7, h8, h9⟩ := fontCalls_facts
  refine ⟨fun f hf => ?_, ?_, ?_, h7⟩
  · have : f.state.ttf ∈ [tinyFont] := h8 ▸ List.mem_map_of_mem (f := fun f : FontData => f.state.ttf) hf
    rw [List.mem_singleton.1 this]
    exact tiny_good
  · rw [h5, h6]
    exact imgSample_ok
  · rw [h5]
    exact imgSample_canSave

end Verif
