import Verif.Spec.Object
import Verif.Theorems.Paint
import Verif.Theorems.Font
import Verif.FontFile
/-
Reading the objects the program writes.
-/
namespace Verif
open Spec

/-- the bytes are these tokens, and end outside of words and strings -/
def Lx (s : Bytes) (ts : List Lexeme) : Prop := lexer .ground s = (ts, .ground)

/-- what ends a word -/
def ends : Bytes → Bool
  | [] => false
  | e :: _ => !regular e

theorem Lx.const {s : Bytes} {ts us : List Lexeme} (c : Bytes) (h : lexer .ground c = (ts, .ground)) (h' : Lx s us) : Lx (c ++ s) (ts ++ us) := lexes_append h h'

theorem Lx.word {c : UInt8} {w s : Bytes} {us : List Lexeme} (hc : regular c = true ∨ c = 47) (hw : ∀ c ∈ w, regular c = true) (hs : ends s = true) (h : Lx s us) :
    Lx (c :: w ++ s) (wordTok (c :: w) :: us) := by
  obtain ⟨e, r, rfl, he⟩ : ∃ e r, s = e :: r ∧ regular e = false := by
    cases s with
    | nil => simp [ends] at hs
    | cons e r => exact ⟨e, r, rfl, by simpa [ends] using hs⟩
  have h1 : lexStart c = ([], .word [c]) := by
    rcases hc with hc | rfl
    · simp only [regular, white, delim, Bool.and_eq_true, Bool.not_eq_true', Bool.or_eq_false_iff, decide_eq_false_iff_not] at hc
      unfold lexStart
      simp only [white]
      simp [hc]
    · rfl
  unfold Lx at h ⊢
  rw [lexer_append]
  simp only [lexer, lexStep, h1, List.nil_append, lexer_word _ _ hw, he] at h ⊢
  simp only [Bool.false_eq_true, if_false, List.cons_append, List.nil_append, Prod.mk.injEq, List.cons.injEq] at h ⊢
  exact ⟨⟨trivial, h.1⟩, h.2⟩

theorem Lx.num {s : Bytes} {us : List Lexeme} (n : Int) (hs : ends s = true) (h : Lx s us) : Lx (itoa n ++ s) (.num n :: us) := by
  have h1 := itoa_lexed n
  have h2 := itoa_ne_nil n
  have h3 := readNum_itoa n
  generalize itoa n = w at *
  cases w with
  | nil => exact absurd rfl h2
  | cons c w =>
    have ht : wordTok (c :: w) = .num n := wordTok_of (by
      intro h
      have := h1 47 (List.mem_of_mem_head? h)
      exact absurd this (by decide)) h3
    rw [← ht]
    exact Lx.word (Or.inl (h1 c (by simp))) (fun x hx => h1 x (by simp [hx])) hs h

theorem Lx.name {s : Bytes} {us : List Lexeme} {n : Bytes} (hn : ∀ c ∈ n, regular c = true) (hs : ends s = true) (h : Lx s us) : Lx (47 :: n ++ s) (.name n :: us) :=
  Lx.word (Or.inr rfl) hn hs h

theorem Lx.last (c : Bytes) {ts : List Lexeme} (h : lexer .ground c = (ts, .ground)) : Lx c ts := h

theorem Lx.reads {s : Bytes} {ts : List Lexeme} {v : Val} (h : Lx s ts) (hv : valueOfToks ts = some v) : ReadsVal s v := ⟨ts, h, hv⟩

theorem Lx.of_eq {s s' : Bytes} {ts : List Lexeme} (h : Lx s ts) (e : s' = s) : Lx s' ts := e ▸ h

/-! ### fonts -/

/-- the font is named with bytes that can stand in a name -/
def Spec.GoodName (family : Bytes) : Prop := ∀ c ∈ subsetName family, regular c = true

/-- the composite font -/
theorem fontBuild_reads {family : Bytes} (hf : GoodName family) (cid uni : Int) : DictObject (fontBuild family cid uni)
    [(b!"BaseFont", .name (subsetName family)), (b!"DescendantFonts", .arr [.ref cid]), (b!"Encoding", .name b!"Identity-H"), (b!"Subtype", .name b!"Type0"),
      (b!"ToUnicode", .ref uni), (b!"Type", .name b!"Font")] := by
  have h := Lx.const (ts := [.dictOpen, .name b!"BaseFont"]) b!"<<\n/BaseFont " rfl <| Lx.name hf (by rfl) <|
    Lx.const (ts := [.name b!"DescendantFonts", .open]) b!"\n/DescendantFonts [" rfl <| Lx.num cid (by rfl) <|
    Lx.const (ts := [.num 0, .op b!"R", .close, .name b!"Encoding", .name b!"Identity-H", .name b!"Subtype", .name b!"Type0", .name b!"ToUnicode"])
      b!" 0 R]\n/Encoding /Identity-H\n/Subtype /Type0\n/ToUnicode " rfl <| Lx.num uni (by rfl) <|
    Lx.last (ts := [.num 0, .op b!"R", .name b!"Type", .name b!"Font", .dictClose]) b!" 0 R\n/Type /Font\n>>\n" rfl
  refine ⟨Lx.reads (by simpa [fontBuild] using h) ?_, by simp only [List.map_cons, List.map_nil]; decide⟩
  simp [valueOfToks, readStep, pairUp]

/-- the tokens of the entries of a width array -/
def wToks (es : List (Nat × Nat)) : List Lexeme := es.flatMap (fun p => [.num (p.1 : Int), .open, .num (p.2 : Int), .close])

/-- the values of a width array -/
def wVals (es : List (Nat × Nat)) : List Val := es.flatMap (fun p => [.num (p.1 : Int), .arr [.num (p.2 : Int)]])

theorem Lx.widths {s : Bytes} {us : List Lexeme} (h : Lx s us) : ∀ es : List (Nat × Nat),
    Lx (es.flatMap (fun p => itoa p.1 ++ b!"[" ++ itoa p.2 ++ b!"]") ++ s) (wToks es ++ us)
  | [] => by simpa [wToks] using h
  | p :: es => by
    have h' := Lx.num (p.1 : Int) (by rfl) <| Lx.const (ts := [.open]) b!"[" rfl <| Lx.num (p.2 : Int) (by rfl) <| Lx.const (ts := [.close]) b!"]" rfl (Lx.widths h es)
    simpa [wToks] using h'

theorem read_widths (b : Bool) (r : List (Bool × List Val)) : ∀ (es : List (Nat × Nat)) (l : List Val),
    (wToks es).foldl readStep (some ((b, l) :: r)) = some ((b, (wVals es).reverse ++ l) :: r)
  | [], l => by simp [wToks, wVals]
  | p :: es, l => by
    have ih := read_widths b r es
    simp only [wToks, wVals] at ih
    simp only [wToks, wVals, List.flatMap_cons, List.foldl_append, List.foldl_cons, List.foldl_nil, readStep, List.reverse_cons, List.reverse_nil, List.nil_append, ih]
    simp

set_option maxRecDepth 4000 in
/-- the font with its widths -/
theorem cidBuild_reads {family : Bytes} (hf : GoodName family) {t : Ttf} {m : CharMap} {desc : Int} {data : Bytes} (hb : cidBuild family t m desc = .ok data) :
    ∃ es : List (Nat × Nat), es.map (·.1) = m.vals ∧ (∀ p ∈ es, glyphWidth t p.1 = .ok p.2) ∧ DictObject data
      [(b!"BaseFont", .name (subsetName family)), (b!"CIDSystemInfo", .dict [(b!"Ordering", .lit b!"Identity"), (b!"Registry", .lit b!"Adobe"), (b!"Supplement", .num 0)]),
        (b!"FontDescriptor", .ref desc), (b!"Subtype", .name b!"CIDFontType2"), (b!"Type", .name b!"Font"), (b!"W", .arr (wVals es))] := by
  unfold cidBuild at hb
  rw [Res.bind_eq_ok] at hb
  obtain ⟨w, hw, hb⟩ := hb
  simp only [Res.ok.injEq] at hb
  obtain ⟨es, rfl, h2, h3⟩ := wEntries_ok t m.vals w hw
  refine ⟨es, h2, h3, ?_⟩
  have h := Lx.const (ts := [.dictOpen, .name b!"BaseFont"]) b!"<<\n/BaseFont " rfl <| Lx.name hf (by rfl) <|
    Lx.const (ts := [.name b!"CIDSystemInfo", .dictOpen, .name b!"Ordering", .lit b!"Identity", .name b!"Registry", .lit b!"Adobe", .name b!"Supplement", .num 0, .dictClose,
        .name b!"FontDescriptor"]) b!"\n/CIDSystemInfo\n<<\n  /Ordering (Identity)\n  /Registry (Adobe)\n  /Supplement 0\n>>\n/FontDescriptor " rfl <|
    Lx.num desc (by rfl) <|
    Lx.const (ts := [.num 0, .op b!"R", .name b!"Subtype", .name b!"CIDFontType2", .name b!"Type", .name b!"Font", .name b!"W", .open])
      b!" 0 R\n/Subtype /CIDFontType2\n/Type /Font\n/W [" rfl <| Lx.widths (Lx.last (ts := [.close, .dictClose]) b!"]\n>>\n" rfl) es
  subst hb
  refine ⟨Lx.reads (h.of_eq (by simp only [List.append_assoc, List.cons_append, List.nil_append])) ?_, by simp only [List.map_cons, List.map_nil]; decide⟩
  simp [valueOfToks, readStep, pairUp, read_widths]

/-- the character map -/
theorem unicodeBuild_reads (m : CharMap) : StreamIs (unicodeBuild m) [(b!"Length", .num (unicodeStream m).length)] (unicodeStream m) := by
  have h := Lx.const (ts := [.dictOpen, .name b!"Length"]) b!"<<\n/Length " rfl <| Lx.num (unicodeStream m).length (by rfl) <|
    Lx.last (ts := [.dictClose]) b!"\n>>\n" rfl
  refine ⟨b!"<<\n/Length " ++ itoa (unicodeStream m).length ++ b!"\n>>\n", [], ⟨Lx.reads (by simpa using h) ?_, by simp⟩, ?_, Or.inl rfl, by simp⟩
  · simp [valueOfToks, readStep, pairUp]
  · simp [unicodeBuild]

/-- the embedded font file -/
theorem dictBuild_reads {zip : Bytes → Bytes} {t : Ttf} {m : CharMap} {data : Bytes} (hb : dictBuild zip t m = .ok data) :
    ∃ file, makeFont t m = .ok file ∧
      StreamIs data [(b!"Length", .num (zip file).length), (b!"Filter", .name b!"FlateDecode"), (b!"Length1", .num file.length)] (zip file) := by
  unfold dictBuild at hb
  rw [Res.bind_eq_ok] at hb
  obtain ⟨file, hfile, hb⟩ := hb
  simp only [Res.ok.injEq] at hb
  refine ⟨file, hfile, ?_⟩
  have h := Lx.const (ts := [.dictOpen, .name b!"Length"]) b!"<</Length " rfl <| Lx.num (zip file).length (by rfl) <|
    Lx.const (ts := [.name b!"Filter", .name b!"FlateDecode", .name b!"Length1"]) b!"\n/Filter /FlateDecode\n/Length1 " rfl <| Lx.num file.length (by rfl) <|
    Lx.last (ts := [.dictClose]) b!"\n>>\n" rfl
  refine ⟨b!"<</Length " ++ itoa (zip file).length ++ b!"\n/Filter /FlateDecode\n/Length1 " ++ itoa file.length ++ b!"\n>>\n", b!"\n", ⟨Lx.reads (by simpa using h) ?_, ?_⟩, ?_,
    Or.inr rfl, ?_⟩
  · simp [valueOfToks, readStep, pairUp]
  · simp only [List.map_cons, List.map_nil]; decide
  · subst hb; simp
  · simp

theorem desc_reads {family : Bytes} (hf : GoodName family) (a c d x y x' y' file it xh : Int) : DictObject
    (b!"<<\n/Type /FontDescriptor\n/Ascent " ++ itoa a ++ b!"\n/CapHeight " ++ itoa c ++ b!"\n/Descent " ++ itoa d ++
      b!"\n/Flags 32\n/FontBBox [" ++ itoa x ++ b!" " ++ itoa y ++ b!" " ++ itoa x' ++ b!" " ++ itoa y' ++ b!"]\n/FontFile2 " ++
      itoa file ++ b!" 0 R\n/FontName /" ++ subsetName family ++ b!"\n/ItalicAngle " ++ itoa it ++ b!"\n/StemV 0\n/XHeight " ++ itoa xh ++ b!"\n>>\n")
    [(b!"Type", .name b!"FontDescriptor"), (b!"Ascent", .num a), (b!"CapHeight", .num c), (b!"Descent", .num d), (b!"Flags", .num 32),
      (b!"FontBBox", .arr [.num x, .num y, .num x', .num y']), (b!"FontFile2", .ref file), (b!"FontName", .name (subsetName family)), (b!"ItalicAngle", .num it),
      (b!"StemV", .num 0), (b!"XHeight", .num xh)] := by
  have h := Lx.const (ts := [.dictOpen, .name b!"Type", .name b!"FontDescriptor", .name b!"Ascent"]) b!"<<\n/Type /FontDescriptor\n/Ascent " rfl <|
    Lx.num a (by rfl) <|
    Lx.const (ts := [.name b!"CapHeight"]) b!"\n/CapHeight " rfl <| Lx.num c (by rfl) <|
    Lx.const (ts := [.name b!"Descent"]) b!"\n/Descent " rfl <| Lx.num d (by rfl) <|
    Lx.const (ts := [.name b!"Flags", .num 32, .name b!"FontBBox", .open]) b!"\n/Flags 32\n/FontBBox [" rfl <| Lx.num x (by rfl) <|
    Lx.const (ts := []) b!" " rfl <| Lx.num y (by rfl) <|
    Lx.const (ts := []) b!" " rfl <| Lx.num x' (by rfl) <|
    Lx.const (ts := []) b!" " rfl <| Lx.num y' (by rfl) <|
    Lx.const (ts := [.close, .name b!"FontFile2"]) b!"]\n/FontFile2 " rfl <| Lx.num file (by rfl) <|
    Lx.const (ts := [.num 0, .op b!"R", .name b!"FontName"]) b!" 0 R\n/FontName " rfl <| Lx.name hf (by rfl) <|
    Lx.const (ts := [.name b!"ItalicAngle"]) b!"\n/ItalicAngle " rfl <| Lx.num it (by rfl) <|
    Lx.const (ts := [.name b!"StemV", .num 0, .name b!"XHeight"]) b!"\n/StemV 0\n/XHeight " rfl <| Lx.num xh (by rfl) <|
    Lx.last (ts := [.dictClose]) b!"\n>>\n" rfl
  refine ⟨Lx.reads (h.of_eq ?_) ?_, by simp only [List.map_cons, List.map_nil]; decide⟩
  · simp only [List.append_assoc, List.cons_append, List.nil_append]
  · simp [valueOfToks, readStep, pairUp]

/-- the descriptor -/
theorem descBuild_reads {family : Bytes} (hf : GoodName family) (t : Ttf) (file : Int) : DictObject (descBuild family t file)
    [(b!"Type", .name b!"FontDescriptor"), (b!"Ascent", .num (designUnits t.ascent t.unitsPerEm)), (b!"CapHeight", .num (designUnits t.capHeight t.unitsPerEm)),
      (b!"Descent", .num (designUnits t.descent t.unitsPerEm)), (b!"Flags", .num 32),
      (b!"FontBBox", .arr [.num (designUnits t.xMin t.unitsPerEm), .num (designUnits t.yMin t.unitsPerEm), .num (designUnits t.xMax t.unitsPerEm),
        .num (designUnits t.yMax t.unitsPerEm)]),
      (b!"FontFile2", .ref file), (b!"FontName", .name (subsetName family)), (b!"ItalicAngle", .num t.italicAngle), (b!"StemV", .num 0),
      (b!"XHeight", .num (designUnits t.xHeight t.unitsPerEm))] :=
  desc_reads hf _ _ _ _ _ _ _ _ _ _

end Verif
