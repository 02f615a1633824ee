import Verif.Theorems.GoTextSample
import Verif.Theorems.File
import Verif.Theorems.StdEdit
namespace Verif
open Spec

/-! ### texts -/

/-- characters that change the mode of the reader at most between words and what is between them -/
def tame (c : UInt8) : Bool := simpleChar c && c ≠ 40 && c ≠ 60 && c ≠ 62

theorem simple_tame : ∀ (s : Bytes) (m : Mode), (m = .ground ∨ ∃ cur, m = .word cur) → (∀ c ∈ s, tame c = true) → simpleFrom m s = true := by
  intro s
  induction s with
  | nil =>
    intro m hm _
    rcases hm with rfl | ⟨cur, rfl⟩ <;> rfl
  | cons c s ih =>
    intro m hm h
    rw [simple_cons]
    have hc := h c (by simp)
    simp only [tame, Bool.and_eq_true, decide_eq_true_eq, ne_eq] at hc
    obtain ⟨⟨⟨h1, h2⟩, h3⟩, h4⟩ := hc
    have h5 : c ≠ 37 ∧ c ≠ 41 := by
      constructor <;> (rintro rfl; simp [simpleChar, blankChar] at h1)
    have hst : ∀ c : UInt8, c ≠ 40 → c ≠ 60 → c ≠ 62 → c ≠ 37 → (lexStart c).2 = .ground ∨ ∃ cur, (lexStart c).2 = .word cur := by
      intro c a1 a2 a3 a4
      unfold lexStart
      repeat' split
      all_goals first | exact Or.inl rfl | exact Or.inr ⟨_, rfl⟩
    have hr := fun m' (hm' : m' = Mode.ground ∨ ∃ cur, m' = .word cur) => ih m' hm' (fun d hd => h d (by simp [hd]))
    rcases hm with rfl | ⟨cur, rfl⟩
    · exact ⟨h1, hr _ (hst c h2 h3 h4 h5.1)⟩
    · refine ⟨by simp [simpleByte, h1, h2], hr _ ?_⟩
      simp only [lexStep]
      split
      · exact Or.inr ⟨_, rfl⟩
      · exact hst c h2 h3 h4 h5.1

theorem tame_text {x : Bytes} (h : ∀ c ∈ x, tame c = true) : SimpleText x := simple_tame x _ (Or.inl rfl) h

theorem tame_digit (c : UInt8) (h : isDigit c = true) : tame c = true := by
  have key : ∀ n : Fin 256, isDigit (UInt8.ofNat n) = true → tame (UInt8.ofNat n) = true := by decide +kernel
  have := key ⟨c.toNat, c.toNat_lt⟩
  simp only [UInt8.ofNat_toNat] at this
  exact this h

theorem tame_itoa (n : Int) : ∀ c ∈ itoa n, tame c = true := by
  intro c hc
  rcases itoa_bytes n c hc with h | rfl
  · have := tame_digit c h
    exact this
  · rfl

theorem reads_trim {x : Bytes} {v : Val} (hx : SimpleText x) (h : ReadsVal (b!"<<" ++ x ++ b!">>\n") v) : ReadsVal (b!"<<" ++ x ++ b!">>") v := by
  obtain ⟨ts, h1, h2⟩ := h
  refine ⟨ts, ?_, h2⟩
  rw [List.append_assoc, lexer_append] at h1 ⊢
  have e : (lexer .ground b!"<<").2 = .ground := rfl
  rw [e, lexer_append] at h1 ⊢
  rcases simple_mode x .ground hx with e | ⟨cur, e⟩
  · rw [e] at h1 ⊢
    exact h1
  · rw [e] at h1 ⊢
    have e2 : lexer (.word cur) b!">>\n" = lexer (.word cur) b!">>" := by
      simp [lexer, lexStep, lexStart, regular, delim, white]
    rw [e2] at h1
    exact h1


theorem sub_infix {α : Type} {w a b : List α} {c : α} (h : w ++ [c] <:+: a ++ b) (hc : c ∉ b) : w ++ [c] <:+: a := by
  obtain ⟨p, q, e⟩ := h
  rcases List.append_eq_append_iff.1 e with ⟨r, h1, h2⟩ | ⟨r, h1, h2⟩
  · exact ⟨p, r, h1.symm⟩
  · rcases List.eq_nil_or_concat r with rfl | ⟨r', d, rfl⟩
    · exact ⟨p, [], by simpa using h1⟩
    · exfalso
      rw [← List.append_assoc, List.concat_eq_append, ← List.append_assoc] at h1
      have := List.append_inj_right' h1 rfl
      simp only [List.cons.injEq, and_true] at this
      subst this
      exact hc (by rw [h2]; simp)

/-- the numbers with a point come after the references -/
theorem intRefs_ahead {a b : Bytes} (h : Sep a b) (ha : 46 ∉ a) (hb : 82 ∉ b) : IntRefs (a ++ b) := by
  intro w g n hi _ _
  rw [words_append h] at hi
  have hR : b!"R" ∉ words b := by
    intro hm
    rcases words_mem b [] _ hm 82 (by decide) with h' | ⟨h', _⟩
    · simp at h'
    · exact hb h'
  have hi' : [w, g] ++ [b!"R"] <:+: words a := sub_infix hi hR
  have key : ∀ w ∈ words a, (46 : UInt8) ∉ w := by
    intro w hw hc
    rcases words_mem a [] w hw 46 hc with h' | ⟨h', _⟩
    · simp at h'
    · exact ha h'
  exact ⟨key w (hi'.subset (by simp)), key g (hi'.subset (by simp))⟩

/-- the numbers with a point come before the references, and something else between them -/
theorem intRefs_behind {a b k : Bytes} {ws : List Bytes} (h : Sep a b) (ha : 82 ∉ a) (hb : 46 ∉ b) (hw : words b = k :: ws) (hk : ∀ n, wordTok k ≠ .num n) (hkR : k ≠ b!"R") : IntRefs (a ++ b) := by
  intro w g n hi hn hg
  rw [words_append h] at hi
  have hR : b!"R" ∉ words a := by
    intro hm
    rcases words_mem a [] _ hm 82 (by decide) with h' | ⟨h', _⟩
    · simp at h'
    · exact ha h'
  have key : ∀ w ∈ words b, (46 : UInt8) ∉ w := by
    intro w hw hc
    rcases words_mem b [] w hw 46 hc with h' | ⟨h', _⟩
    · simp at h'
    · exact hb h'
  obtain ⟨p, q, e⟩ := hi
  rcases List.append_eq_append_iff.1 e with ⟨r, h1, h2⟩ | ⟨r, h1, h2⟩
  · exact absurd (by rw [h1]; simp) hR
  · rcases List.append_eq_append_iff.1 h1 with ⟨r', e1, e2⟩ | ⟨r', e1, e2⟩
    · -- some of the three words are in `a`
      rw [hw] at h2
      match r', e2 with
      | [], e2 =>
        simp only [List.nil_append] at e2
        rw [← e2] at h2
        have m1 : w ∈ words b := by rw [hw, h2]; simp
        have m2 : g ∈ words b := by rw [hw, h2]; simp
        exact ⟨key _ m1, key _ m2⟩
      | [x], e2 =>
        simp only [List.cons_append, List.nil_append, List.cons.injEq] at e2
        obtain ⟨rfl, rfl⟩ := e2
        simp only [List.cons_append, List.cons.injEq] at h2
        exact absurd hg (h2.1 ▸ hk 0)
      | [x, y], e2 =>
        simp only [List.cons_append, List.nil_append, List.cons.injEq] at e2
        obtain ⟨rfl, rfl, rfl⟩ := e2
        simp only [List.cons_append, List.cons.injEq] at h2
        exact absurd h2.1 hkR
      | x :: y :: z :: r', e2 =>
        simp only [List.cons_append, List.cons.injEq] at e2
        obtain ⟨rfl, rfl, rfl, _⟩ := e2
        exact absurd (by rw [e1]; simp) hR
    · have m1 : w ∈ words b := by rw [h2, e2]; simp
      have m2 : g ∈ words b := by rw [h2, e2]; simp
      exact ⟨key _ m1, key _ m2⟩

theorem fmt2_chars (q : ℚ) : ∀ c ∈ fmt2 q, isDigit c = true ∨ c = 45 ∨ c = 46 := by
  intro c hc
  unfold fmt2 at hc
  simp only [List.mem_append, List.mem_cons, List.not_mem_nil, or_false] at hc
  rcases hc with ((hc | hc) | hc) | hc | hc
  · split at hc
    · simp only [List.mem_cons, List.not_mem_nil, or_false] at hc
      exact Or.inr (Or.inl hc)
    · simp at hc
  · exact Or.inl (natDigits_isDigit _ c hc)
  · exact Or.inr (Or.inr hc)
  · subst hc; exact Or.inl (isDigit_digit (by omega))
  · subst hc; exact Or.inl (isDigit_digit (by omega))

theorem tame_fmt2 (q : ℚ) : ∀ c ∈ fmt2 q, tame c = true := by
  intro c hc
  rcases fmt2_chars q c hc with h | rfl | rfl
  · exact tame_digit c h
  · rfl
  · rfl

theorem fmt2_not {q : ℚ} {c : UInt8} (h : isDigit c = false) (h1 : c ≠ 45) (h2 : c ≠ 46) : c ∉ fmt2 q := by
  intro hm
  rcases fmt2_chars q c hm with h' | h' | h'
  · rw [h] at h'; simp at h'
  · exact h1 h'
  · exact h2 h'

theorem refsText_chars (l : List Nat) : ∀ c ∈ refsText l, isDigit c = true ∨ c = 32 ∨ c = 82 := by
  intro c hc
  obtain ⟨i, _, hc⟩ := List.mem_flatMap.1 hc
  simp only [List.mem_append, List.mem_cons, List.not_mem_nil, or_false] at hc
  rcases hc with (rfl | hc) | hc
  · exact Or.inr (Or.inl rfl)
  · exact Or.inl (natDigits_isDigit _ c hc)
  · rcases hc with rfl | rfl | rfl | rfl | rfl <;> decide

theorem tame_refsText (l : List Nat) : ∀ c ∈ refsText l, tame c = true := by
  intro c hc
  rcases refsText_chars l c hc with h | rfl | rfl
  · exact tame_digit c h
  · rfl
  · rfl

theorem refsText_not {l : List Nat} {c : UInt8} (h : isDigit c = false) (h1 : c ≠ 32) (h2 : c ≠ 82) : c ∉ refsText l := by
  intro hm
  rcases refsText_chars l c hm with h' | h' | h'
  · rw [h] at h'; simp at h'
  · exact h1 h'
  · exact h2 h'

theorem noStream_of {x : Bytes} (h : 109 ∉ x) : ¬ b!"stream" <:+: x := fun hi => h (hi.subset (by decide))

theorem tame_all {x : Bytes} (h : x.all tame = true) : ∀ c ∈ x, tame c = true := List.all_eq_true.1 h

theorem tame_append {x y : Bytes} (hx : ∀ c ∈ x, tame c = true) (hy : ∀ c ∈ y, tame c = true) : ∀ c ∈ x ++ y, tame c = true :=
  fun c hc => (List.mem_append.1 hc).elim (hx c) (hy c)

/-! ### the dictionaries -/

theorem catalog_std : StdText b!"\n  /Type /Catalog\n  /Pages 2 0 R\n" [(b!"Type", .name b!"Catalog"), (b!"Pages", .ref 2)] :=
  stdText_of (by decide +kernel) ⟨_, rfl, rfl⟩

theorem trailer_std (n : Nat) : StdText (b!"\n/Size " ++ natDigits n ++ b!"\n/Root 1 0 R\n") [(b!"Size", .num n), (b!"Root", .ref 1)] := by
  have hd : ∀ c : UInt8, isDigit c = false → c ∉ natDigits n := fun c h => natDigits_not h
  have ht : SimpleText (b!"\n/Size " ++ natDigits n ++ b!"\n/Root 1 0 R\n") :=
    tame_text (tame_append (tame_append (tame_all rfl) (fun c hc => tame_digit c (natDigits_isDigit _ c hc))) (tame_all rfl))
  refine ⟨ht, noStream_of ?_, intRefs_noDot ?_, reads_trim ht ?_⟩
  · simp [hd 109 (by decide)]
  · simp [hd 46 (by decide)]
  · have h1 := Lx.num (n : Int) (by simp [ends]; decide) (Lx.last (ts := [.name b!"Root", .num 1, .num 0, .op b!"R", .dictClose]) b!"\n/Root 1 0 R\n>>\n" (by decide +kernel))
    have h2 := Lx.const (ts := [.dictOpen, .name b!"Size"]) b!"<<\n/Size " (by decide +kernel) h1
    refine Lx.reads (Lx.of_eq h2 ?_) ?_
    · simp [itoa_natCast]
    · simp [valueOfToks, readStep, pairUp]

/-- the text of the page tree -/
def pagesInner (z : GRect) (n : Nat) (l : List Nat) : Bytes :=
  (b!"\n  /Type /Pages\n  /MediaBox [ 0 0 " ++ fmt2 z.w ++ b!" " ++ fmt2 z.h ++ b!" ]") ++ (b!"\n  /Count " ++ itoa n ++ b!"\n  /Kids [ " ++ refsText l ++ b!" ]\n")

theorem pages_std (z : GRect) (n : Nat) (l : List Nat) : ∃ w h, StdText (pagesInner z n l)
      [(b!"Type", .name b!"Pages"), (b!"MediaBox", .arr [.num 0, .num 0, .num w, .num h]), (b!"Count", .num n), (b!"Kids", .arr (l.map (fun i => Val.ref ((i + 1 : ℕ) : Int))))] := by
  obtain ⟨w, h, _, _, h1, _⟩ := pages_reads z n l
  have ht : SimpleText (pagesInner z n l) :=
    tame_text (tame_append (tame_append (tame_append (tame_append (tame_append (tame_all rfl) (tame_fmt2 _)) (tame_all rfl)) (tame_fmt2 _)) (tame_all rfl))
      (tame_append (tame_append (tame_append (tame_append (tame_all rfl) (tame_itoa _)) (tame_all rfl)) (tame_refsText _)) (tame_all rfl)))
  refine ⟨w, h, ht, noStream_of ?_, ?_, reads_trim ht ?_⟩
  · simp [pagesInner, fmt2_not (show isDigit 109 = false by decide), natDigits_not (show isDigit 109 = false by decide), refsText_not (show isDigit 109 = false by decide)]
  · have hw : words (b!"\n  /Count " ++ itoa n ++ b!"\n  /Kids [ " ++ refsText l ++ b!" ]\n") = b!"/Count" :: words (b!" " ++ itoa n ++ b!"\n  /Kids [ " ++ refsText l ++ b!" ]\n") := by
      have e : b!"\n  /Count " ++ itoa n ++ b!"\n  /Kids [ " ++ refsText l ++ b!" ]\n" = b!"\n  /Count" ++ 32 :: (itoa n ++ b!"\n  /Kids [ " ++ refsText l ++ b!" ]\n") := by simp
      rw [e, words_split (by decide)]
      have : words b!"\n  /Count" = [b!"/Count"] := by decide +kernel
      rw [this]
      simp
    refine intRefs_behind (Or.inr (Or.inr (Or.inr ⟨10, _, rfl, by decide⟩))) ?_ ?_ hw (fun n => by simp [wordTok]) (by decide)
    · simp [fmt2_not (show isDigit 82 = false by decide)]
    · simp [natDigits_not (show isDigit 46 = false by decide), refsText_not (show isDigit 46 = false by decide)]
  · have e : b!"\n<<\n  /Type /Pages\n  /MediaBox [ 0 0 " ++ fmt2 z.w ++ b!" " ++ fmt2 z.h ++ b!" ]\n  /Count " ++ itoa n ++ b!"\n  /Kids [ " ++ refsText l ++ b!" ]\n>>\n" =
        b!"\n" ++ (b!"<<" ++ pagesInner z n l ++ b!">>\n") := by simp [pagesInner]
    rw [e] at h1
    exact h1

/-- the text of a page without a size of its own -/
def barePage (m : Nat) : Bytes := b!"\n  /Type /Page\n  /Parent 2 0 R\n  /Resources " ++ b!"3 0 R" ++ b!"\n  /Contents " ++ refsText [m] ++ b!"\n"

theorem barePage_std (m : Nat) : StdText (barePage m) [(b!"Type", .name b!"Page"), (b!"Parent", .ref 2), (b!"Resources", .ref 3), (b!"Contents", .ref ((m + 1 : ℕ) : Int))] := by
  have ht : SimpleText (barePage m) := tame_text (tame_append (tame_append (tame_append (tame_append (tame_all rfl) (tame_all rfl)) (tame_all rfl)) (tame_refsText _)) (tame_all rfl))
  have h4 := Lx.refList (Lx.last (ts := [.dictClose]) b!"\n>>\n" (by decide +kernel)) [m]
  have h5 := Lx.const (ts := [.dictOpen, .name b!"Type", .name b!"Page", .name b!"Parent", .num 2, .num 0, .op b!"R", .name b!"Resources", .num 3, .num 0, .op b!"R", .name b!"Contents"])
    b!"<<\n  /Type /Page\n  /Parent 2 0 R\n  /Resources 3 0 R\n  /Contents " (by decide +kernel) h4
  refine ⟨ht, noStream_of ?_, intRefs_noDot ?_, reads_trim ht (Lx.reads (Lx.of_eq h5 ?_) ?_)⟩
  · simp [barePage, refsText_not (show isDigit 109 = false by decide)]
  · simp [barePage, refsText_not (show isDigit 46 = false by decide)]
  · simp [barePage]
  · unfold valueOfToks
    rw [List.foldl_append, page_toks, List.foldl_append, read_refList]
    simp [readStep, pairUp]

/-- the text of a page with a size of its own -/
def pageInner (m : Nat) (s : GRect) : Bytes :=
  (b!"\n  /Type /Page\n  /Parent 2 0 R\n  /Resources " ++ b!"3 0 R" ++ b!"\n  /Contents " ++ refsText [m] ++ b!"\n") ++ (b!" /MediaBox [ 0 0 " ++ fmt2 s.w ++ b!" " ++ fmt2 s.h ++ b!" ]\n")

theorem page_std (m : Nat) (z : GRect) : ∃ w h, Near w z.w ∧ Near h z.h ∧ StdText (pageInner m z)
    [(b!"Type", .name b!"Page"), (b!"Parent", .ref 2), (b!"Resources", .ref 3), (b!"Contents", .ref ((m + 1 : ℕ) : Int)), (b!"MediaBox", .arr [.num 0, .num 0, .num w, .num h])] := by
  have ht : SimpleText (pageInner m z) :=
    tame_text (tame_append (tame_append (tame_append (tame_append (tame_append (tame_all rfl) (tame_all rfl)) (tame_all rfl)) (tame_refsText _)) (tame_all rfl))
      (tame_append (tame_append (tame_append (tame_append (tame_all rfl) (tame_fmt2 _)) (tame_all rfl)) (tame_fmt2 _)) (tame_all rfl)))
  have h1 := Lx.last (ts := [.close, .dictClose]) b!"]\n>>\n" (by decide +kernel)
  obtain ⟨h, hh, h2⟩ := Lx.dec z.h h1
  obtain ⟨w, hw, h3⟩ := Lx.dec z.w h2
  have h4 := Lx.refList (Lx.const (ts := [.name b!"MediaBox", .open, .num 0, .num 0]) b!"\n /MediaBox [ 0 0 " (by decide +kernel) h3) [m]
  have h5 := Lx.const (ts := [.dictOpen, .name b!"Type", .name b!"Page", .name b!"Parent", .num 2, .num 0, .op b!"R", .name b!"Resources", .num 3, .num 0, .op b!"R", .name b!"Contents"])
    b!"<<\n  /Type /Page\n  /Parent 2 0 R\n  /Resources 3 0 R\n  /Contents " (by decide +kernel) h4
  refine ⟨w, h, hw, hh, ht, noStream_of ?_, ?_, reads_trim ht (Lx.reads (Lx.of_eq h5 ?_) ?_)⟩
  · simp [pageInner, fmt2_not (show isDigit 109 = false by decide), refsText_not (show isDigit 109 = false by decide)]
  · refine intRefs_ahead (Or.inr (Or.inr (Or.inr ⟨32, _, rfl, by decide⟩))) ?_ ?_
    · simp [refsText_not (show isDigit 46 = false by decide)]
    · simp [fmt2_not (show isDigit 82 = false by decide)]
  · simp [pageInner]
  · unfold valueOfToks
    rw [List.foldl_append, page_toks, List.foldl_append, read_refList]
    simp [readStep, pairUp]


/-! ### the file -/

theorem free_goFlat {W : Bytes → Prop} (h10 : ∀ w, W w → (10 : UInt8) ∉ w) (hne : ∀ w, W w → w ≠ []) (hline : ∀ n : Nat, Free W (natDigits n ++ b!" 0 obj")) :
    ∀ (bs : List Bytes) (i : Nat), (∀ b ∈ bs, Free W (b ++ b!"endobj")) → Free W (goFlat i bs)
  | [], _, _ => free_nil hne
  | b :: bs, i, h => by
    have e : goFlat i (b :: bs) = (natDigits (i + 1) ++ b!" 0 obj") ++ 10 :: ((b ++ b!"endobj") ++ 10 :: ([] ++ 10 :: goFlat (i + 1) bs)) := by
      simp [goFlat, goEntry]
    rw [e]
    exact Free.append h10 (hline _) (Free.append h10 (h b (by simp)) (Free.append h10 (free_nil hne) (free_goFlat h10 hne hline bs (i + 1) (fun c hc => h c (by simp [hc])))))

theorem free_end_word {w b : Bytes} {c : UInt8} (hc : c ∉ b!"endobj") (hb : ¬ w ++ [c] <:+: b) : Free (· = w ++ [c]) (b ++ b!"endobj") := by
  rintro _ rfl hi
  exact hb (sub_infix hi hc)

theorem free_end_row {b : Bytes} (hb : Free RowLike b) : Free RowLike (b ++ b!"endobj") := by
  have e : b ++ b!"endobj" = b ++ 101 :: b!"ndobj" := rfl
  rw [e]
  exact Free.append (fun w hw => rowLike_not (by decide) hw) hb (noRow_short (by decide))

theorem free_file {W : Bytes → Prop} (h10 : ∀ w, W w → (10 : UInt8) ∉ w) (hne : ∀ w, W w → w ≠ []) (hline : ∀ n : Nat, Free W (natDigits n ++ b!" 0 obj")) (hhead : Free W b!"%PDF-1.7")
    {bs : List Bytes} (h : ∀ b ∈ bs, Free W (b ++ b!"endobj")) {s : Bytes} (hs : goFlat 0 bs = s ++ b!"\n") : Free W (b!"%PDF-1.7\n\n" ++ s) := by
  have e : b!"%PDF-1.7\n\n" ++ goFlat 0 bs = b!"%PDF-1.7" ++ 10 :: ([] ++ 10 :: goFlat 0 bs) := rfl
  have h1 : Free W (b!"%PDF-1.7\n\n" ++ goFlat 0 bs) := by
    rw [e]
    exact Free.append h10 hhead (Free.append h10 (free_nil hne) (free_goFlat h10 hne hline bs 0 h))
  refine h1.of_infix ⟨[], b!"\n", ?_⟩
  rw [hs]
  simp

theorem objsAre_go {raw : Bytes} : ∀ (offs : List Nat) (bs : List Bytes) (i : Nat), offs.length = bs.length → i + bs.length < 2 ^ 63 →
    (∀ (k : Nat) (b : Bytes) (off : Nat), bs[k]? = some b → offs[k]? = some off → ObjIs raw off (i + k + 1) (b!"\n" ++ b)) →
    ObjsAre raw ((offs.zipIdx i).map (fun p => (1 + p.2, (⟨p.1, 0, true⟩ : Entry)))) (((bs.map (b!"\n" ++ ·)).zipIdx i).map (fun p => (⟨(p.2 : Int) + 1, p.1⟩ : Obj)))
  | [], [], _, _, _, _ => .nil
  | [], _ :: _, _, h, _, _ => by simp at h
  | _ :: _, [], _, h, _, _ => by simp at h
  | o :: offs, b :: bs, i, h, hi, hk => by
    simp only [List.zipIdx_cons, List.map_cons]
    simp only [List.length_cons] at h hi
    have e : (⟨(i : Int) + 1, b!"\n" ++ b⟩ : Obj) = ⟨((1 + i : ℕ) : Int), b!"\n" ++ b⟩ := by
      congr 1
      push_cast
      ring
    rw [e]
    refine .used rfl rfl (by omega) ?_ (objsAre_go offs bs (i + 1) (by omega) (by omega) ?_)
    · have := hk 0 b o rfl rfl
      rwa [show i + 0 + 1 = 1 + i by omega] at this
    · intro k c off h1 h2
      have := hk (k + 1) c off h1 h2
      rwa [show i + (k + 1) + 1 = i + 1 + k + 1 by omega] at this

/-- the rows for the objects -/
def goTable (bs : List Bytes) : List (Nat × Entry) := (0, ⟨0, 65535, false⟩) :: (goOffs 10 0 bs).zipIdx.map (fun p => (1 + p.2, ⟨p.1, 0, true⟩))

theorem goFile_std {g : Gp} {bs : List Bytes} (hb : bs ≠ []) (hp : g.protection = none) (hi : g.info = none)
    (hl : (b!"%PDF-1.7\n\n" ++ goFlat 0 bs ++ g.xref (goOffs 10 0 bs) (10 + (goFlat 0 bs).length)).length < 10 ^ 10) (hplain : ∀ b ∈ bs, PlainBody (b!"\n" ++ b)) :
    StdFile (b!"%PDF-1.7\n\n" ++ goFlat 0 bs ++ g.xref (goOffs 10 0 bs) (10 + (goFlat 0 bs).length)) [(b!"Size", .num ((bs.length + 1 : ℕ) : ℚ)), (b!"Root", .ref 1)] (goTable bs)
      (objsOf (bs.map (b!"\n" ++ ·))) := by
  obtain ⟨s, hs⟩ := goFlat_last bs 0 hb
  have hsl : (goFlat 0 bs).length = s.length + 1 := by rw [hs]; simp
  have h10 : (b!"%PDF-1.7\n\n" : Bytes).length = 10 := rfl
  have hoff : ∀ n ∈ goOffs 10 0 bs, n < 10 ^ 10 := by
    intro n hn
    obtain ⟨k, hk⟩ := List.mem_iff_getElem?.1 hn
    have := (goOffs_drop bs 0 b!"%PDF-1.7\n\n" (g.xref (goOffs 10 0 bs) (10 + (goFlat 0 bs).length)) k n (by rw [h10]; exact hk)).1
    simp only [List.length_append] at hl
    omega
  have hpl : ∀ b ∈ bs, PlainBody b := fun b hm => plainBody_sub (hplain b hm) ⟨b!"\n", [], by simp⟩
  have hlen : bs.length < 10 ^ 10 := by
    have key : ∀ (bs : List Bytes) (i : Nat), bs.length ≤ (goFlat i bs).length := by
      intro bs
      induction bs with
      | nil => simp
      | cons b bs ih =>
        intro i
        have := ih (i + 1)
        simp only [goFlat, goEntry, List.length_append, List.length_cons, List.length_nil]
        omega
    have := key bs 0
    simp only [List.length_append] at hl
    omega
  refine ⟨b!"%PDF-1.7\n\n" ++ s, 10, b!"\n", b!"0 " ++ natDigits (bs.length + 1) ++ b!"\n" ++ (b!"0000000000 65535 f \n" ++ (goOffs 10 0 bs).flatMap (fun n => formatXrefline n ++ b!" 00000 n \n")),
    b!"\n", b!"\n/Size " ++ natDigits (bs.length + 1) ++ b!"\n/Root 1 0 R\n", b!"\n", b!"\n", natDigits (10 + (goFlat 0 bs).length), b!"\n", b!"\n", ?_, Or.inl rfl,
    ⟨[], 10, rfl, by decide, Or.inl rfl⟩, ?_, by decide, by decide, trailer_std _, rfl, rfl, ⟨[], 10, rfl, by decide, Or.inl rfl⟩, ?_, ⟨[], 10, rfl, by decide, Or.inl rfl⟩, by decide, ?_, ?_, ?_, ?_,
    ?_, ?_⟩
  · unfold Gp.xref
    rw [goOffs_length, hp, hi]
    nth_rewrite 1 [hs]
    simp
  · have := SectionIs.sub (f := b!"0") (c := natDigits (bs.length + 1)) (w := b!"\n") (s := []) (first := 0) (m := [])
      (r := b!"0000000000 65535 f \n" ++ (goOffs 10 0 bs).flatMap (fun n => formatXrefline n ++ b!" 00000 n \n")) (l := goTable bs)
      ⟨by decide, by decide, by decide⟩ (by
        rw [goTable, List.length_cons, List.length_map, List.length_zipIdx, goOffs_length]
        exact natDigits_numeral _) ⟨[], 10, rfl, by decide, Or.inl rfl⟩
      (.cons (rowIs_of b!"0000000000" b!"65535" b!" \n" rfl (by decide) (by decide)) (goRows _ 1 hoff)) .nil
    simpa only [List.append_nil, List.append_assoc, List.cons_append, List.nil_append] using this
  · have : (b!"%PDF-1.7\n\n" ++ s).length + 1 = 10 + (goFlat 0 bs).length := by rw [hsl]; simp; omega
    rw [this]
    exact natDigits_numeral _
  · refine .free rfl (objsAre_go _ _ 0 (goOffs_length _ _ _) (by omega) ?_)
    intro k b off hk ho
    obtain ⟨_, c, r, h2, h3⟩ := goOffs_drop bs 0 b!"%PDF-1.7\n\n" (g.xref (goOffs 10 0 bs) (10 + (goFlat 0 bs).length)) k _ (by rw [h10]; exact ho)
    rw [hk, Option.some.injEq] at h2
    subst h2
    refine ⟨natDigits (k + 1), 32, 32, b!"\n\n" ++ r, ?_, by decide, by decide, ?_, (hplain b (List.mem_of_getElem? hk)).endobj⟩
    · rw [Nat.zero_add]
      exact natDigits_numeral _
    · rw [h3]
      simp [goEntry]
  · exact free_file (W := (· = b!"trailer")) (by rintro _ rfl; decide) (by rintro _ rfl; decide) (hline_word (c := 116) (by decide) (by decide) (by decide)) (free_word (c := 116) (by decide) (by decide))
      (fun b hm => free_end_word (w := b!"traile") (by decide) (hpl b hm).trailer) hs _ rfl
  · exact free_file (W := (· = b!"startxref")) (by rintro _ rfl; decide) (by rintro _ rfl; decide) (hline_word (c := 116) (by decide) (by decide) (by decide)) (free_word (c := 116) (by decide) (by decide))
      (fun b hm => free_end_word (w := b!"startxre") (by decide) (hpl b hm).startxref) hs _ rfl
  · exact free_file (W := RowLike) (fun w => rowLike_no10) (fun w => rowLike_ne)
      (fun n => free_noK (by simp [natDigits_not (show isDigit 102 = false by decide)]) (by simp [natDigits_not (show isDigit 44 = false by decide)]) (by simp [natDigits_not (show isDigit 110 = false by decide)]))
      (noRow_short (by decide)) (fun b hm => free_end_row (hpl b hm).row) hs
  · intro h
    have := h.subset (show (102 : UInt8) ∈ b!"startxref" by decide)
    simp [natDigits_not (show isDigit 102 = false by decide)] at this
  · exact free_noK (by simp [natDigits_not (show isDigit 102 = false by decide)]) (by simp [natDigits_not (show isDigit 44 = false by decide)]) (by simp [natDigits_not (show isDigit 110 = false by decide)])


/-! ### the page tree -/

theorem objsOf_only {bodies : List Bytes} {k : Nat} {b : Bytes} (h : bodies[k]? = some b) : OnlyObj (objsOf bodies) ((k + 1 : ℕ) : Int) ⟨((k + 1 : ℕ) : Int), b⟩ := by
  have key : ∀ (bodies : List Bytes) (i k : Nat) (b : Bytes), bodies[k]? = some b →
      ((bodies.zipIdx i).map (fun p => (⟨(p.2 : Int) + 1, p.1⟩ : Obj))).filter (fun x => decide (x.objID = ((i + k + 1 : ℕ) : Int))) = [⟨((i + k + 1 : ℕ) : Int), b⟩] := by
    intro bodies
    induction bodies with
    | nil => intro i k b h; simp at h
    | cons c cs ih =>
      intro i k b h
      have hrest : ∀ (cs : List Bytes) (j m : Nat), m < j → ((cs.zipIdx j).map (fun p => (⟨(p.2 : Int) + 1, p.1⟩ : Obj))).filter (fun x => decide (x.objID = ((m + 1 : ℕ) : Int))) = [] := by
        intro cs
        induction cs with
        | nil => intros; rfl
        | cons c cs ih =>
          intro j m hj
          rw [List.zipIdx_cons, List.map_cons, List.filter_cons_of_neg (by simp; omega)]
          exact ih (j + 1) m (by omega)
      cases k with
      | zero =>
        simp only [List.getElem?_cons_zero, Option.some.injEq] at h
        subst h
        rw [List.zipIdx_cons, List.map_cons, List.filter_cons_of_pos (by simp), hrest cs (i + 1) (i + 0) (by omega)]
        simp
      | succ k =>
        rw [List.zipIdx_cons, List.map_cons, List.filter_cons_of_neg (by simp; omega)]
        have := ih (i + 1) k b h
        rwa [show i + 1 + k + 1 = i + (k + 1) + 1 by omega] at this
  have := key bodies 0 k b h
  rw [Nat.zero_add] at this
  exact this

theorem stdDict_go {bs : List Bytes} {k : Nat} {x : Bytes} {d : List (Bytes × Val)} (h : bs[k]? = some (b!"<<" ++ x ++ b!">>\n")) (hk : k + 1 < 2 ^ 63) (hx : StdText x d) :
    StdDict (objsOf (bs.map (b!"\n" ++ ·))) ((k + 1 : ℕ) : Int) d := by
  refine stdDict_of (by omega) (by omega) ?_ hx
  have := objsOf_only (bodies := bs.map (b!"\n" ++ ·)) (k := k) (b := b!"\n" ++ (b!"<<" ++ x ++ b!">>\n")) (by rw [List.getElem?_map, h]; rfl)
  simpa using this

theorem readsVal_unique {s : Bytes} {v w : Val} (h : ReadsVal s v) (h' : ReadsVal s w) : v = w := by
  obtain ⟨ts, h1, h2⟩ := h
  obtain ⟨us, h3, h4⟩ := h'
  rw [h1] at h3
  cases h3
  rw [h2] at h4
  exact Option.some.inj h4


/-- the numbers of the pages -/
def pageNums (g : Gp) : List Int := (viewOf g.kinds).map (fun v => ((v.idx + 1 : ℕ) : Int))

theorem tree_std {env : GEnv} {g : Gp} {bs : List Bytes} (hw : g.Whole) (hp : g.protection = none) (hb : GoBuilds env g.prepare 0 g.prepare.slots bs) (hl : bs.length < 2 ^ 62)
    (hs : ∀ p ∈ sheetsOf g.kinds, p.2 ≠ []) :
    (∃ c, StdDict (objsOf (bs.map (b!"\n" ++ ·))) 1 c ∧ EntryIs c b!"Pages" (.ref 2)) ∧
    (∃ d, StdDict (objsOf (bs.map (b!"\n" ++ ·))) 2 d ∧ StdNode d (pageNums g)) ∧
    (∃ body d, objAt (bs.map (b!"\n" ++ ·)) 2 = some body ∧ DictObject body d ∧ d.lookup b!"Kids" = some (.arr ((pageNums g).map .ref))) ∧
    List.Forall₂ (fun n p => ∃ d, StdDict (objsOf (bs.map (b!"\n" ++ ·))) n d ∧ StdPage d ∧
      (∀ z, p.1 = some z → ∃ w h, Near w z.w ∧ Near h z.h ∧ EntryIs d b!"MediaBox" (.arr [.num 0, .num 0, .num w, .num h])) ∧ (p.1 = none → Unused d b!"MediaBox")) (pageNums g) (sheetsOf g.kinds) := by
  obtain ⟨vok, vsort, _⟩ := viewOf_sound g.kinds
  have lt : ∀ {k : Nat} {b : Bytes}, bs[k]? = some b → k + 1 < 2 ^ 63 := fun h => by
    have := (List.getElem?_eq_some_iff.1 h).1
    omega
  -- what is built
  have built : ∀ (k : Nat) (s : GSlot), g.slots[k]? = some s → ∃ h b, g.Same h ∧ (updObj (viewOf g.kinds) k s.obj).build env h (k + 1) = .ok b ∧ bs[k]? = some (s.buf ++ b) := by
    intro k s hk
    rw [prepare_eq] at hb
    have he : g.encSlots = [] := by simp [Gp.encSlots, hp]
    simp only [he, List.append_nil] at hb
    obtain ⟨h, b, h1, _, h3, h4⟩ := hb.2 k { s with obj := updObj (viewOf g.kinds) k s.obj } (by rw [updSlots_get, hk]; rfl)
    refine ⟨h, b, ⟨h1.fonts, h1.pageSize, h1.level, h1.protection, h1.info, ?_⟩, by simpa using h3, h4⟩
    rw [h1.encID]
    simp [hp]
  refine ⟨?_, ?_, ?_, ?_⟩
  · obtain ⟨fs, xs, rest, hl, _⟩ := hw.laid
    obtain ⟨h, b, a1, a2, a3⟩ := built 0 ⟨.catalog, []⟩ (by rw [hl]; rfl)
    simp only [updObj, GObj.build, Res.ok.injEq] at a2
    refine ⟨_, stdDict_go (k := 0) (x := b!"\n  /Type /Catalog\n  /Pages 2 0 R\n") ?_ (by omega) catalog_std, rfl, ?_⟩
    · rw [a3, ← a2]; rfl
    · intro k' hm
      simp at hm
  · obtain ⟨fs, xs, rest, hl, _⟩ := hw.laid
    obtain ⟨h, b, a1, a2, a3⟩ := built 1 ⟨.pages 0 [], []⟩ (by rw [hl]; rfl)
    simp only [updObj, if_true, GObj.build, Res.ok.injEq, Nat.zero_add, List.nil_append] at a2
    obtain ⟨w, ht, hr⟩ := pages_std g.pageSize (viewOf g.kinds).length ((viewOf g.kinds).map PageView.idx)
    refine ⟨_, stdDict_go (k := 1) ?_ (by omega) hr, rfl, ⟨?_, ?_⟩, fun _ => ⟨rfl, ?_⟩⟩
    · rw [a3, ← a2, a1.pageSize]
      simp [pagesInner]
    · simp only [pageNums, List.map_map]
      rfl
    · intro k' hm
      simp at hm
    · intro k' hm
      simp at hm
  · obtain ⟨fs, xs, rest, hl, _⟩ := hw.laid
    obtain ⟨h, b, a1, a2, a3⟩ := built 1 ⟨.pages 0 [], []⟩ (by rw [hl]; rfl)
    simp only [updObj, if_true, GObj.build, Res.ok.injEq, Nat.zero_add, List.nil_append] at a2
    obtain ⟨w, ht, _, _, hr⟩ := pages_reads g.pageSize (viewOf g.kinds).length ((viewOf g.kinds).map PageView.idx)
    refine ⟨b!"\n" ++ b, [(b!"Type", .name b!"Pages"), (b!"MediaBox", .arr [.num 0, .num 0, .num w, .num ht]), (b!"Count", .num (viewOf g.kinds).length),
        (b!"Kids", .arr (((viewOf g.kinds).map PageView.idx).map (fun i => Val.ref ((i + 1 : ℕ) : Int))))], by rw [objAt_succ _ _ _ a3]; rfl, ?_, ?_⟩
    · rw [← a2, a1.pageSize]
      simpa using hr
    · simp only [pageNums, List.map_map]
      rfl
  · unfold pageNums sheetsOf
    rw [List.forall₂_map_left_iff, List.forall₂_map_right_iff, List.forall₂_same]
    intro v hv
    have hmem : (v.size, v.contents.flatMap (·.2)) ∈ sheetsOf g.kinds := List.mem_map.2 ⟨v, hv, rfl⟩
    have hne := hs _ hmem
    simp only at hne
    rcases hw.oneEach v hv with he | ⟨i, cs, he, hcs⟩
    · exact absurd (by rw [he]; rfl) hne
    have k1 := (vok v hv).1
    unfold Gp.kinds at k1
    rw [List.getElem?_map] at k1
    obtain ⟨s1, e1, o1⟩ := Option.map_eq_some_iff.1 k1
    have l1 := later_of hw.laid e1 (by rw [o1]; simp)
    have p1 := kind_page l1.2 o1
    obtain ⟨h, b, a1, a2, a3⟩ := built _ _ e1
    rw [p1] at a2
    simp only [updObj, filter_idx vsort hv, he, List.flatMap_cons, List.flatMap_nil, List.append_nil, List.map_cons, List.map_nil, List.nil_append, GObj.build, Res.ok.injEq] at a2
    cases hz : v.size with
    | none =>
      rw [hz] at a2
      refine ⟨_, stdDict_go (k := v.idx) ?_ (lt a3) (barePage_std i), ⟨rfl, rfl, ?_⟩, by simp, fun _ => ⟨rfl, ?_⟩⟩
      · rw [a3, ← a2, l1.1]
        simp [barePage]
      · intro k' hm
        simp at hm
      · intro k' hm
        simp at hm
    | some z =>
      rw [hz] at a2
      obtain ⟨w, ht, q1, q2, q3⟩ := page_std i z
      refine ⟨_, stdDict_go (k := v.idx) ?_ (lt a3) q3, ⟨rfl, rfl, ?_⟩, ?_, by simp⟩
      · rw [a3, ← a2, l1.1]
        simp [pageInner]
      · intro k' hm
        simp at hm
      · rintro _ ⟨⟩
        refine ⟨w, ht, q1, q2, rfl, ?_⟩
        intro k' hm
        simp at hm


/-! ### opening -/

/-- without a rectangle of its own a page is a nil pointer for the program -/
theorem sizes_bare {isFloat : Bytes → Bool} (hf : ReadsNums isFloat) {objs : List Obj} {α : Type} {own : α → Prop} : ∀ (ids : List Int) (l : List α),
    List.Forall₂ (fun id p => ∃ d, StdDict objs id d ∧ (own p → ∃ box : List ℚ, EntryIs d b!"MediaBox" (.arr (box.map .num))) ∧ (¬ own p → Unused d b!"MediaBox")) ids l → (∃ p ∈ l, ¬ own p) →
    ∀ n : Nat, pageSizesLoop isFloat objs n ids = .panic := by
  intro ids l h
  induction h with
  | nil => rintro ⟨p, hp, _⟩; simp at hp
  | @cons id p ids l hb _ ih =>
    intro hex n
    obtain ⟨d, hd, he, hu⟩ := hb
    obtain ⟨ps, vss, ⟨o, ho, hps⟩, _, _, hr, hg⟩ := StdDict.entries hd
    by_cases hp : own p
    · obtain ⟨box, he⟩ := he hp
      obtain ⟨r, v1, v2⟩ := ReadAs.value_at hr he (by intro n h; cases h)
      obtain ⟨q, hq, rfl⟩ := valueOf_some v1
      have hpm : q ∈ ps := List.mem_of_find?_eq_some hq
      obtain ⟨t1, ws, t2, t3⟩ := value_nums hf v2 (hg q hpm).1 (hg q hpm).2.1
      have i1 := ih (by
        obtain ⟨p', hm, hn⟩ := hex
        rcases List.mem_cons.1 hm with rfl | hm
        · exact absurd hp hn
        · exact ⟨p', hm, hn⟩) (n + 1)
      unfold pageSizesLoop readProperty
      simp only [getObj_only ho, Res.ofOption, hps, hq, Res.ok_bind, t1, if_true, t2, i1]
      rfl
    · have hu := hu hp
      have := C78_no_entry hr hu.1 (no_name_ne hu.2)
      unfold valueOf at this
      rw [Option.map_eq_none_iff] at this
      have hq : getPropByKey ps b!"MediaBox" = none := this
      unfold pageSizesLoop readProperty
      simp only [getObj_only ho, Res.ofOption, hps, hq, Res.ok_bind]
      rfl

theorem flat_pages (ids : List ℕ) : (Spec.Tree.node 2 (ids.map (fun n : ℕ => Spec.Tree.leaf n))).pages = ids.map (fun n : ℕ => (n : Int)) := by
  have e : ids.map (fun n : ℕ => Spec.Tree.leaf n) = (ids.map (fun n : ℕ => (n : Int))).map Spec.Tree.leaf := by
    rw [List.map_map]; rfl
  rw [Spec.Tree.pages, e, pagesL_leaves]

/-- a document whose information was not set -/
theorem go_std {env : GEnv} {z : GRect} {cs : List GCall} {g g' : Gp} {out : Bytes} (hr : GDone env (Gp.start z none) cs g) (hi : g.info = none) (h : g.compile env = (g', .ok out))
    (hl : out.length < 10 ^ 10) (hz : ∀ l b, env.unzip (env.zipLevel l b) = some b) (hs : ∀ s ∈ thingsOf env (Gp.start z none) cs [], s.2 ≠ []) :
    ∃ bodies trailer pages, (∃ bs, GoBuilds env g.prepare 0 g.prepare.slots bs ∧ bodies = bs.map (b!"\n" ++ ·)) ∧
      FileHolds out bodies trailer ∧ TreeIs env.unzip bodies z pages ∧ pages.map (·.1) = (thingsOf env (Gp.start z none) cs []).map (·.1) ∧
      ((∀ b ∈ bodies, PlainBody b) → ∃ t l, ∃ ids : List ℕ, StdFile out t l (objsOf bodies) ∧ EntryIs t b!"Root" (.ref 1) ∧
        StdDoc ⟨1, tableOf l, objsOf bodies, []⟩ (.node 2 (ids.map (fun n : ℕ => .leaf n))) ∧ List.Forall₂ (fun k p => PageIs env.unzip bodies k p.1 p.2) ids pages ∧
        List.Forall₂ (fun (n : ℕ) p => ∃ d, StdDict (objsOf bodies) n d ∧ (∀ z, p.1 = some z → ∃ w h, Near w z.w ∧ Near h z.h ∧ EntryIs d b!"MediaBox" (.arr [.num 0, .num 0, .num w, .num h])) ∧
          (p.1 = none → Unused d b!"MediaBox")) ids pages) := by
  have hk := held_run hr (start_held env z)
  have hsl : g.slots ≠ [] := by
    intro e
    have := hk.whole.laid
    rw [e] at this
    simp [Laid] at this
  have hne : ∀ p ∈ sheetsOf g.kinds, p.2 ≠ [] := by
    intro p hp e
    obtain ⟨s, hs', q1, q2⟩ := forall2_right hk.pages hp
    rw [e, List.forall₂_nil_right_iff] at q2
    exact hs s hs' q2
  obtain ⟨bs, h1, h2⟩ := compile_ok h
  have hpp : g.prepare.protection = none := by rw [prepare_eq]; exact hk.prot
  have hpi : g.prepare.info = none := by rw [prepare_eq]; exact hi
  have hlen : bs.length = g.slots.length := by
    rw [h1.1, prepare_eq]
    simp [updSlots_length, Gp.encSlots, hk.prot]
  have hb : bs ≠ [] := by
    intro e
    rw [e] at hlen
    exact hsl (List.length_eq_zero_iff.1 hlen.symm)
  obtain ⟨pages, p1, p2⟩ := tree_of hk.whole hk.prot hz h1 hne
  rw [hk.size] at p2
  have hl' := hl
  rw [h2] at hl'
  have hf := file_holds hb hl'
  rw [← h2] at hf
  have hblen : bs.length < 2 ^ 62 := by
    obtain ⟨_, _, _, rows, e, _, hsec, hrow, _⟩ := hf
    have key : ∀ (bs : List Bytes) (i : Nat), bs.length ≤ (goFlat i bs).length := by
      intro bs
      induction bs with
      | nil => simp
      | cons b bs ih =>
        intro i
        have := ih (i + 1)
        simp only [goFlat, goEntry, List.length_append, List.length_cons, List.length_nil]
        omega
    have := key bs 0
    simp only [List.length_append] at hl'
    omega
  refine ⟨_, _, pages, ⟨bs, h1, rfl⟩, hf, p2, ?_, ?_⟩
  · have e1 : List.Forall₂ (fun a b => a = b) (pages.map (·.1)) ((sheetsOf g.kinds).map (·.1)) := by
      rw [List.forall₂_map_left_iff, List.forall₂_map_right_iff]
      exact (List.Forall₂.flip p1).imp (fun a b h => h.1)
    have e2 : List.Forall₂ (fun a b => a = b) ((sheetsOf g.kinds).map (·.1)) ((thingsOf env (Gp.start z none) cs []).map (·.1)) := by
      rw [List.forall₂_map_left_iff, List.forall₂_map_right_iff]
      exact hk.pages.imp (fun a b h => h.1)
    rw [List.forall₂_eq_eq_eq] at e1 e2
    exact e1.trans e2
  · intro hplain
    obtain ⟨t1, t2, t2', t3⟩ := tree_std hk.whole hk.prot h1 hblen hne
    have hfile := goFile_std hb hpp hpi hl' (fun b hm => hplain _ (List.mem_map.2 ⟨b, hm, rfl⟩))
    rw [← h2] at hfile
    refine ⟨_, _, (viewOf g.kinds).map (fun v => v.idx + 1), hfile, ⟨rfl, by intro k' hm; simp at hm⟩, ⟨t1, ?_⟩, ?_, ?_⟩
    · obtain ⟨d, d1, d2⟩ := t2
      have e : (((viewOf g.kinds).map (fun v => v.idx + 1)).map (fun n : ℕ => Tree.leaf n)).map Tree.id = pageNums g := by
        simp only [pageNums, List.map_map]
        rfl
      refine ⟨⟨d, d1, by rw [e]; exact d2⟩, ?_⟩
      have e' : ((viewOf g.kinds).map (fun v => v.idx + 1)).map (fun n : ℕ => Tree.leaf n) = (pageNums g).map Tree.leaf := by
        simp only [pageNums, List.map_map]
        rfl
      rw [e']
      refine stdTreeL_leaves _ ?_
      intro i hi'
      obtain ⟨p, _, d, q1, q2, _⟩ := forall2_right t3 hi'
      exact ⟨d, q1, q2⟩
    · obtain ⟨_, body, d, kids, k1, k2, _, _, _, k3, _, k4⟩ := p2
      obtain ⟨body', d', j1, j2, j3⟩ := t2'
      rw [k1, Option.some.injEq] at j1
      subst j1
      have e := readsVal_unique k2.1 j2.1
      cases e
      rw [k3, Option.some.injEq, Val.arr.injEq] at j3
      have e : kids = (viewOf g.kinds).map (fun v => v.idx + 1) := by
        have inj : Function.Injective (fun k : ℕ => Val.ref k) := fun a b h => by simpa using h
        refine inj.list_map ?_
        rw [j3]
        simp only [pageNums, List.map_map]
        rfl
      rw [← e]
      exact k4
    · rw [List.forall₂_map_left_iff]
      have : List.Forall₂ (fun n p => ∃ d, StdDict (objsOf (bs.map (b!"\n" ++ ·))) n d ∧ (∀ z, p.1 = some z → ∃ w h, Near w z.w ∧ Near h z.h ∧
          EntryIs d b!"MediaBox" (.arr [.num 0, .num 0, .num w, .num h])) ∧ (p.1 = none → Unused d b!"MediaBox")) (pageNums g) pages := by
        refine forall2_comp ?_ (List.Forall₂.flip t3) p1
        rintro s n p ⟨d, a1, _, a2, a3⟩ ⟨b1, _⟩
        exact ⟨d, a1, by rw [b1]; exact a2, by rw [b1]; exact a3⟩
      unfold pageNums at this
      rwa [List.forall₂_map_left_iff] at this


theorem go_opens {env : GEnv} {penv : Env} (hf : ReadsNums (fun s => (penv.parseFloat s).isSome)) {z : GRect} {cs : List GCall} {g g' : Gp} {out : Bytes}
    (hr : GDone env (Gp.start z none) cs g) (hi : g.info = none) (h : g.compile env = (g', .ok out)) (hl : out.length < 10 ^ 10) (hz : ∀ l b, env.unzip (env.zipLevel l b) = some b)
    (hs : ∀ s ∈ thingsOf env (Gp.start z none) cs [], s.1 ≠ none ∧ s.2 ≠ []) :
    ∃ bodies trailer pages, (∃ bs, GoBuilds env g.prepare 0 g.prepare.slots bs ∧ bodies = bs.map (b!"\n" ++ ·)) ∧ FileHolds out bodies trailer ∧ TreeIs env.unzip bodies z pages ∧ pages.map (·.1) = (thingsOf env (Gp.start z none) cs []).map (·.1) ∧
      ((∀ b ∈ bodies, PlainBody b) → ∃ a, ∃ ids : List ℕ, App.openFrom penv {} out = ⟨a, .ok ()⟩ ∧ a.doc.objs = objsOf bodies ∧ numberOfPages a.doc = .ok pages.length ∧
        getPageObjIDs a.doc = .ok (ids.map (fun n : ℕ => (n : Int))) ∧ List.Forall₂ (fun k p => PageIs env.unzip bodies k p.1 p.2) ids pages ∧
        ∃ wss : List (List Bytes), a.doc.pageSizes = (List.range' 0 pages.length).zip wss ∧
          List.Forall₂ (fun ws p => ∃ z w h, p.1 = some z ∧ Near w z.w ∧ Near h z.h ∧ ws.map wordTok = [.num 0, .num 0, .num w, .num h]) wss pages) := by
  obtain ⟨bodies, trailer, pages, h0, h1, h2, h3, h4⟩ := go_std hr hi h hl hz (fun s hm => (hs s hm).2)
  refine ⟨bodies, trailer, pages, h0, h1, h2, h3, fun hp => ?_⟩
  obtain ⟨t, l, ids, k1, k2, k3, k4, k5⟩ := h4 hp
  have hown : ∀ p ∈ pages, ∃ z, p.1 = some z := by
    intro p hm
    have : p.1 ∈ (thingsOf env (Gp.start z none) cs []).map (·.1) := by rw [← h3]; exact List.mem_map.2 ⟨p, hm, rfl⟩
    obtain ⟨s, hs', e⟩ := List.mem_map.1 this
    have := (hs s hs').1
    rw [e] at this
    exact Option.ne_none_iff_exists'.1 this
  have hbox : List.Forall₂ (fun (n : ℕ) p => ∃ z w h, p.1 = some z ∧ Near w z.w ∧ Near h z.h ∧ BoxIs (objsOf bodies) n [0, 0, w, h]) ids pages := by
    refine (forall2_mem k5).imp ?_
    rintro n p ⟨hm, d, d1, d2, _⟩
    obtain ⟨z, hz⟩ := hown p hm
    obtain ⟨w, h, w1, w2, w3⟩ := d2 z hz
    exact ⟨z, w, h, hz, w1, w2, d, d1, w3⟩
  obtain ⟨boxes, b1, b2⟩ : ∃ boxes : List (List ℚ), List.Forall₂ (BoxIs (objsOf bodies)) (ids.map (fun n : ℕ => (n : Int))) boxes ∧
      List.Forall₂ (fun box (p : Option GRect × Bytes) => ∃ z w h, p.1 = some z ∧ Near w z.w ∧ Near h z.h ∧ box = [0, 0, w, h]) boxes pages := by
    clear k3 k4 k5 h0 h1 h2 h3 h4 hs hown
    induction hbox with
    | nil => exact ⟨[], .nil, .nil⟩
    | cons a _ ih =>
      obtain ⟨z, w, h, w1, w2, w3, w4⟩ := a
      obtain ⟨boxes, i1, i2⟩ := ih
      exact ⟨_ :: boxes, .cons w4 i1, .cons ⟨z, w, h, w1, w2, w3, rfl⟩ i2⟩
  have hpages := flat_pages ids
  have hlen : ids.length = pages.length := k4.length_eq
  obtain ⟨d, e1, e2, e3, _, e4, e5, wss, e6, e7⟩ := C81_open_partial hf k1 k2 k3 (by rw [hpages]; exact b1)
  have hdoc : (App.showCellBorder { ({} : App) with fontMap := [], lineWidth := 1, imgMap := [], doc := d } false).doc = d := by
    unfold App.showCellBorder; simp
  refine ⟨App.showCellBorder { ({} : App) with fontMap := [], lineWidth := 1, imgMap := [], doc := d } false, ids, ?_, ?_, ?_, ?_, k4, wss, ?_, ?_⟩
  · unfold App.openFrom
    simp only [e1]
  · rw [hdoc]; exact e2
  · rw [hdoc, (C79_pages_partial e4).2, hpages, List.length_map, hlen]
  · rw [hdoc, e5, hpages]
  · rw [hdoc, e6, hpages, List.length_map, hlen]
  · refine forall2_comp ?_ (List.Forall₂.flip e7) b2
    rintro box ws p e ⟨z, w, h, w1, w2, w3, rfl⟩
    exact ⟨z, w, h, w1, w2, w3, by rw [e]; rfl⟩

/-- **C91** (partial): What `GoPdf` writes, pdft opens.  If every page of a session has a size of its own (and something on it), the document that is written can be opened: its objects and pages
are those that were written, in this order, with their sizes.

Missing: documents with information or a password, and objects (such as streams) in which keywords of the file structure or texts like rows of the table occur. -/
theorem C91_open_partial {env : GEnv} {penv : Env} (hf : ReadsNums (fun s => (penv.parseFloat s).isSome)) {z : GRect} {cs : List GCall} {g g' : Gp} {out : Bytes}
    (hr : GDone env (Gp.start z none) cs g) (hi : g.info = none) (h : g.compile env = (g', .ok out)) (hl : out.length < 10 ^ 10) (hz : ∀ l b, env.unzip (env.zipLevel l b) = some b)
    (hs : ∀ s ∈ thingsOf env (Gp.start z none) cs [], s.1 ≠ none ∧ s.2 ≠ []) :
    ∃ bodies trailer pages, FileHolds out bodies trailer ∧ TreeIs env.unzip bodies z pages ∧ pages.map (·.1) = (thingsOf env (Gp.start z none) cs []).map (·.1) ∧
      ((∀ b ∈ bodies, PlainBody b) → ∃ a, ∃ ids : List ℕ, App.openFrom penv {} out = ⟨a, .ok ()⟩ ∧ a.doc.objs = objsOf bodies ∧ numberOfPages a.doc = .ok pages.length ∧
        getPageObjIDs a.doc = .ok (ids.map (fun n : ℕ => (n : Int))) ∧ List.Forall₂ (fun k p => PageIs env.unzip bodies k p.1 p.2) ids pages ∧
        ∃ wss : List (List Bytes), a.doc.pageSizes = (List.range' 0 pages.length).zip wss ∧
          List.Forall₂ (fun ws p => ∃ z w h, p.1 = some z ∧ Near w z.w ∧ Near h z.h ∧ ws.map wordTok = [.num 0, .num 0, .num w, .num h]) wss pages) := by
  obtain ⟨bodies, trailer, pages, _, h1⟩ := go_opens hf hr hi h hl hz hs
  exact ⟨bodies, trailer, pages, h1⟩

theorem go_crashes {env : GEnv} {penv : Env} (hf : ReadsNums (fun s => (penv.parseFloat s).isSome)) {z : GRect} {cs : List GCall} {g g' : Gp} {out : Bytes}
    (hr : GDone env (Gp.start z none) cs g) (hi : g.info = none) (h : g.compile env = (g', .ok out)) (hl : out.length < 10 ^ 10) (hz : ∀ l b, env.unzip (env.zipLevel l b) = some b)
    (hs : ∀ s ∈ thingsOf env (Gp.start z none) cs [], s.2 ≠ []) (hn : ∃ s ∈ thingsOf env (Gp.start z none) cs [], s.1 = none) :
    ∃ bodies trailer pages, (∃ bs, GoBuilds env g.prepare 0 g.prepare.slots bs ∧ bodies = bs.map (b!"\n" ++ ·)) ∧ FileHolds out bodies trailer ∧ TreeIs env.unzip bodies z pages ∧ ((∀ b ∈ bodies, PlainBody b) → (App.openFrom penv {} out).res = .panic) := by
  obtain ⟨bodies, trailer, pages, h0, h1, h2, h3, h4⟩ := go_std hr hi h hl hz hs
  refine ⟨bodies, trailer, pages, h0, h1, h2, fun hp => ?_⟩
  obtain ⟨t, l, ids, k1, k2, k3, k4, k5⟩ := h4 hp
  have hrange : InRange (1 : Int) := by unfold InRange; omega
  obtain ⟨f1, f2, f3⟩ := file_parts k1 k2 hrange
  have hpages := flat_pages ids
  have hc : checkPagesObj ⟨1, tableOf l, objsOf bodies, []⟩ = .ok () := by
    obtain ⟨ps, v, ⟨o, ho, hp⟩, hv, hi⟩ := (StdDoc.hasTree k3).1
    obtain ⟨p, hpp, rfl⟩ := valueOf_some hv
    unfold checkPagesObj readObjProps
    simp only at ho
    simp only [getObj_only ho, Res.ofOption, Res.ok_bind, hp, hpp, hi]
  have hpg := (C79_pages_partial k3).1
  rw [hpages] at hpg
  have hz : parsePageSize (fun s => (penv.parseFloat s).isSome) ⟨1, tableOf l, objsOf bodies, []⟩ = .panic := by
    unfold parsePageSize
    simp only [hpg, Res.ok_bind]
    refine sizes_bare hf (own := fun p : Option GRect × Bytes => p.1 ≠ none) _ pages ?_ ?_ 0
    · rw [List.forall₂_map_left_iff]
      refine k5.imp ?_
      rintro n p ⟨d, d1, d2, d3⟩
      refine ⟨d, d1, fun hne => ?_, fun hne => d3 (by simpa using hne)⟩
      obtain ⟨z, hz⟩ := Option.ne_none_iff_exists'.1 hne
      obtain ⟨w, h, _, _, w3⟩ := d2 z hz
      exact ⟨[0, 0, w, h], w3⟩
    · obtain ⟨s, hm, e⟩ := hn
      have : s.1 ∈ pages.map (·.1) := by rw [h3]; exact List.mem_map.2 ⟨s, hm, rfl⟩
      obtain ⟨p, hp', e'⟩ := List.mem_map.1 this
      exact ⟨p, hp', by rw [e', e]; simp⟩
  unfold App.openFrom pdfParse
  simp only [f1, f2, Res.ok_bind, emptyDoc, List.nil_append, f3, hc, hz]
  rfl

/-- **C91** (refuted: pages without a size of their own): `AddPage` gives a page the size of the page tree, which it inherits; pdft dereferences a nil pointer when it opens the document. -/
theorem C91_refuted_inherited {env : GEnv} {penv : Env} (hf : ReadsNums (fun s => (penv.parseFloat s).isSome)) {z : GRect} {cs : List GCall} {g g' : Gp} {out : Bytes}
    (hr : GDone env (Gp.start z none) cs g) (hi : g.info = none) (h : g.compile env = (g', .ok out)) (hl : out.length < 10 ^ 10) (hz : ∀ l b, env.unzip (env.zipLevel l b) = some b)
    (hs : ∀ s ∈ thingsOf env (Gp.start z none) cs [], s.2 ≠ []) (hn : ∃ s ∈ thingsOf env (Gp.start z none) cs [], s.1 = none) :
    ∃ bodies trailer pages, FileHolds out bodies trailer ∧ TreeIs env.unzip bodies z pages ∧ ((∀ b ∈ bodies, PlainBody b) → (App.openFrom penv {} out).res = .panic) := by
  obtain ⟨bodies, trailer, pages, _, h1⟩ := go_crashes hf hr hi h hl hz hs hn
  exact ⟨bodies, trailer, pages, h1⟩

/-! ### examples -/

theorem obj_build_same {env : GEnv} {g h : Gp} (hs : g.Same h) {o : GObj} (hc : o.isProcset = false ∨ h.countL = g.countL) (id : Nat) : o.build env h id = o.build env g id := by
  cases o <;> simp only [GObj.build, hs.fonts, hs.pageSize, hs.level, hs.protection]
  rcases hc with hc | hc
  · simp [GObj.isProcset] at hc
  · rw [hc]

def plainB (s : Bytes) : Bool :=
  index b!"endobj" s == none && index b!"trailer" s == none && index b!"startxref" s == none && s.tails.all (fun t => matchXrefLine t == none)

def resourcesAt (g : Gp) (k : Nat) : Bool := (g.prepare.slots[k]?.map (·.obj.isProcset)).getD false

/-- the objects have no keywords of the file structure -/
def goPlain (env : GEnv) (g : Gp) : Bool :=
  (List.range g.prepare.slots.length).all (fun k => (!resourcesAt g k || (List.range k).all (fun j => !resourcesAt g j)) &&
    ((goBody env g k).map (fun b => plainB (b!"\n" ++ b))).getD false)

theorem goPlain_spec {env : GEnv} {g : Gp} {bs : List Bytes} (h : goPlain env g = true) (hb : GoBuilds env g.prepare 0 g.prepare.slots bs) : ∀ b ∈ bs.map (b!"\n" ++ ·), PlainBody b := by
  intro b hm
  obtain ⟨b, hm', rfl⟩ := List.mem_map.1 hm
  obtain ⟨k, hk⟩ := List.mem_iff_getElem?.1 hm'
  have hlt : k < g.prepare.slots.length := by rw [← hb.1]; exact (List.getElem?_eq_some_iff.1 hk).1
  have hg : g.prepare.slots[k]? = some g.prepare.slots[k] := List.getElem?_eq_getElem hlt
  obtain ⟨q, b', q1, q2, q3, q4⟩ := hb.2 k _ hg
  rw [hk, Option.some.injEq] at q4
  have hc := List.all_eq_true.1 h k (List.mem_range.2 hlt)
  rw [Bool.and_eq_true, Bool.or_eq_true] at hc
  obtain ⟨c1, c2⟩ := hc
  rw [obj_build_same q1 ?_, Nat.zero_add] at q3
  · simp only [goBody, hg, q3, Option.map_some, Option.getD_some] at c2
    rw [q4]
    exact plainBody_of c2
  · rcases c1 with c1 | c1
    · left
      simpa [resourcesAt, hg] using c1
    · right
      refine q2 (fun j r hj hr => ?_)
      have := List.all_eq_true.1 c1 j (List.mem_range.2 hj)
      simpa [resourcesAt, hr] using this

/-- an environment that reads every number -/
def numEnv : Env := { plainEnv with parseFloat := fun _ => some 0 }

/-- two pages with sizes of their own: a line; a text -/
def ownCalls : List GCall := [.addFont b!"A" tinyFile false 0, .addPage ⟨200, 300⟩, .line 10 20 30 40, .setNoCompression, .addPage ⟨100, 50⟩, .setFont b!"A" 0 10, .text b!"AB"]

/-- two pages, the first one with the size of the document -/
def mixedCalls : List GCall := [.addPage ⟨0, 0⟩, .line 10 20 30 40, .setNoCompression, .addPage ⟨100, 50⟩, .line 1 2 3 4]

def ownSizes (l : List (Option GRect × List Thing)) : Bool := l.all (fun s => s.1.isSome && !s.2.isEmpty)

set_option maxRecDepth 20000 in
-- a document of two pages is opened
example : ∃ g g' out a, GDone goEnv (Gp.start ⟨595, 842⟩ none) ownCalls g ∧ g.compile goEnv = (g', .ok out) ∧ App.openFrom numEnv {} out = ⟨a, .ok ()⟩ ∧ numberOfPages a.doc = .ok 2 := by
  have h1 : goDone goEnv (Gp.start ⟨595, 842⟩ none) ownCalls = true := by decide +kernel
  have h2 : goShort ((goRun goEnv (Gp.start ⟨595, 842⟩ none) ownCalls).compile goEnv).2 = true := by decide +kernel
  have h3 : ownSizes (thingsOf goEnv (Gp.start ⟨595, 842⟩ none) ownCalls []) = true := by decide +kernel
  have h4 : (goRun goEnv (Gp.start ⟨595, 842⟩ none) ownCalls).info.isNone = true := by decide +kernel
  have h5 : goPlain goEnv (goRun goEnv (Gp.start ⟨595, 842⟩ none) ownCalls) = true := by decide +kernel
  have h6 : (thingsOf goEnv (Gp.start ⟨595, 842⟩ none) ownCalls []).length = 2 := by decide +kernel
  rcases hc : (goRun goEnv (Gp.start ⟨595, 842⟩ none) ownCalls).compile goEnv with ⟨g', r⟩
  rw [hc] at h2
  cases r with
  | ok out =>
    obtain ⟨bodies, tr, pages, ⟨bs, k1, rfl⟩, _, _, k2, k3⟩ := go_opens (penv := numEnv) (fun _ _ _ => rfl) (goDone_of h1) (Option.isNone_iff_eq_none.1 h4) hc (by simpa [goShort] using h2) (fun _ _ => rfl) (by
      intro s hs
      have := List.all_eq_true.1 h3 s hs
      rw [Bool.and_eq_true] at this
      refine ⟨by intro e; simp [e] at this, by intro e; simp [e] at this⟩)
    obtain ⟨a, ids, a1, _, a2, _⟩ := k3 (goPlain_spec h5 k1)
    have hl : pages.length = 2 := by
      have := congrArg List.length k2
      simpa [h6] using this
    rw [hl] at a2
    exact ⟨_, g', out, a, goDone_of h1, hc, a1, a2⟩
  | _ => simp [goShort] at h2

set_option maxRecDepth 20000 in
-- a document is not
example : ∃ g g' out, GDone goEnv (Gp.start ⟨595, 842⟩ none) mixedCalls g ∧ g.compile goEnv = (g', .ok out) ∧ (App.openFrom numEnv {} out).res = .panic := by
  have h1 : goDone goEnv (Gp.start ⟨595, 842⟩ none) mixedCalls = true := by decide +kernel
  have h2 : goShort ((goRun goEnv (Gp.start ⟨595, 842⟩ none) mixedCalls).compile goEnv).2 = true := by decide +kernel
  have h3 : (thingsOf goEnv (Gp.start ⟨595, 842⟩ none) mixedCalls []).all (fun s => !s.2.isEmpty) = true := by decide +kernel
  have h4 : (goRun goEnv (Gp.start ⟨595, 842⟩ none) mixedCalls).info.isNone = true := by decide +kernel
  have h5 : goPlain goEnv (goRun goEnv (Gp.start ⟨595, 842⟩ none) mixedCalls) = true := by decide +kernel
  have h6 : (thingsOf goEnv (Gp.start ⟨595, 842⟩ none) mixedCalls []).any (fun s => s.1.isNone) = true := by decide +kernel
  rcases hc : (goRun goEnv (Gp.start ⟨595, 842⟩ none) mixedCalls).compile goEnv with ⟨g', r⟩
  rw [hc] at h2
  cases r with
  | ok out =>
    obtain ⟨bodies, tr, pages, ⟨bs, k1, rfl⟩, _, _, k2⟩ := go_crashes (penv := numEnv) (fun _ _ _ => rfl) (goDone_of h1) (Option.isNone_iff_eq_none.1 h4) hc (by simpa [goShort] using h2) (fun _ _ => rfl) (by
      intro s hs e
      have := List.all_eq_true.1 h3 s hs
      simp [e] at this) (by
      obtain ⟨s, hs, e⟩ := List.any_eq_true.1 h6
      exact ⟨s, hs, Option.isNone_iff_eq_none.1 e⟩)
    exact ⟨_, g', out, goDone_of h1, hc, k2 (goPlain_spec h5 k1)⟩
  | _ => simp [goShort] at h2

end Verif
