import Verif.Theorems.FontObj
/-
C75: fonts whose names have brackets, for every such name.
-/
namespace Verif
open Spec

theorem lexer_inLit (w cur : Bytes) (h : ∀ c ∈ w, c ≠ 40 ∧ c ≠ 41 ∧ c ≠ 92) : lexer (.lit 0 false cur) w = ([], .lit 0 false (cur ++ w)) := by
  induction w generalizing cur with
  | nil => simp [lexer]
  | cons c w ih =>
    have hc := h c (by simp)
    rw [lexer]
    simp only [lexStep, hc.1, hc.2.1, hc.2.2, if_false, List.nil_append]
    rw [ih _ (fun x hx => h x (by simp [hx]))]
    simp

theorem Lx.inBrackets {s w : Bytes} {us : List Lexeme} (hw : ∀ c ∈ w, c ≠ 40 ∧ c ≠ 41 ∧ c ≠ 92) (hs : Lx s us) : Lx (40 :: w ++ 41 :: s) (.lit w :: us) := by
  unfold Lx at *
  have h1 : lexer .ground (b!"(" : Bytes) = ([], .lit 0 false []) := by decide +kernel
  have h2 : lexer (.lit 0 false w) (41 :: s) = (.lit w :: (lexer .ground s).1, (lexer .ground s).2) := by
    rw [lexer]
    simp [lexStep]
  rw [show (40 :: w ++ 41 :: s : Bytes) = b!"(" ++ (w ++ 41 :: s) from rfl, lexer_append, h1, lexer_append, lexer_inLit _ _ hw]
  simp [h2, hs]

theorem subsetName_append (a b : Bytes) : subsetName (a ++ b) = subsetName a ++ subsetName b := by simp [subsetName, replaceByte]

theorem brackets_name {m n : Bytes} (hm : GoodName m) (hn : ∀ c ∈ subsetName n, c ≠ 40 ∧ c ≠ 41 ∧ c ≠ 92) (cid uni : Int) : ¬ ∃ v, ReadsVal (fontBuild (m ++ b!"(" ++ n ++ b!")") cid uni) v := by
  rintro ⟨v, ts, h1, h2⟩
  have h := Lx.const (ts := [.dictOpen, .name b!"BaseFont"]) b!"<<\n/BaseFont " rfl <| Lx.name (n := subsetName m) hm (by rfl) <| Lx.inBrackets (w := subsetName n) hn <|
    Lx.const (ts := [.name b!"DescendantFonts", .open]) b!"\n/DescendantFonts [" rfl <| Lx.num cid (by rfl) <|
    Lx.const (ts := [.num 0, .op b!"R", .close, .name b!"Encoding", .name b!"Identity-H", .name b!"Subtype", .name b!"Type0", .name b!"ToUnicode"])
      b!" 0 R]\n/Encoding /Identity-H\n/Subtype /Type0\n/ToUnicode " rfl <| Lx.num uni (by rfl) <|
    Lx.last (ts := [.num 0, .op b!"R", .name b!"Type", .name b!"Font", .dictClose]) b!" 0 R\n/Type /Font\n>>\n" rfl
  have hs : subsetName (m ++ b!"(" ++ n ++ b!")") = subsetName m ++ (40 :: (subsetName n ++ [41])) := by
    simp only [subsetName_append, show subsetName b!"(" = [40] from rfl, show subsetName b!")" = [41] from rfl]
    simp
  have e : fontBuild (m ++ b!"(" ++ n ++ b!")") cid uni = b!"<<\n/BaseFont " ++ (47 :: subsetName m ++ (40 :: subsetName n ++ 41 :: (b!"\n/DescendantFonts [" ++ (itoa cid ++
      (b!" 0 R]\n/Encoding /Identity-H\n/Subtype /Type0\n/ToUnicode " ++ (itoa uni ++ b!" 0 R\n/Type /Font\n>>\n")))))) := by
    rw [fontBuild, hs]
    simp only [List.append_assoc, List.cons_append, List.nil_append]
  rw [e, show lexer .ground _ = _ from h] at h1
  simp only [Prod.mk.injEq, and_true] at h1
  subst h1
  simp [valueOfToks, readStep, pairUp] at h2

/-- **C75** (violated by every name that ends with brackets): whatever the font, the document and what is before and in the brackets, the dictionary of a font with such a name cannot be read. -/
theorem C75_refuted_name_all {env : Env} {f f' : FontData} {start : Int} (h : f.build env start = .ok f') (hu : f.Unbuilt) {m n : Bytes} (hf : f.name = m ++ b!"(" ++ n ++ b!")") (hm : GoodName m)
    (hn : ∀ c ∈ subsetName n, c ≠ 40 ∧ c ≠ 41 ∧ c ≠ 92) : ⟨f'.fontID, f'.fontBuf⟩ ∈ f'.objs ∧ ¬ ∃ v, ReadsVal f'.fontBuf v := by
  refine ⟨by simp [FontData.objs], ?_⟩
  unfold FontData.build at h
  rw [Res.bind_eq_ok] at h
  obtain ⟨_, _, h⟩ := h
  rw [Res.bind_eq_ok] at h
  obtain ⟨_, _, h⟩ := h
  simp only [hu.1, hf, List.nil_append, Res.ok.injEq] at h
  subst h
  exact brackets_name hm hn _ _

example : (∃ f', (namedFont b!"Noto Sans (Bold)").build plainEnv 7 = .ok f') ∧ (namedFont b!"Noto Sans (Bold)").Unbuilt ∧ b!"Noto Sans (Bold)" = b!"Noto Sans " ++ b!"(" ++ b!"Bold" ++ b!")" ∧
    GoodName b!"Noto Sans " ∧ ∀ c ∈ subsetName b!"Bold", c ≠ 40 ∧ c ≠ 41 ∧ c ≠ 92 :=
  ⟨⟨_, by rfl⟩, ⟨rfl, rfl, rfl, rfl, rfl⟩, rfl, by unfold GoodName; decide, by decide⟩

end Verif
