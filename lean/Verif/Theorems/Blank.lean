import Verif.Theorems.GoSession
/-
C86: a page on which nothing is drawn is never an object of PDF.
-/
namespace Verif
open Spec

/-- a page without contents: nothing stands after `/Contents` -/
theorem page_unread (z : Option GRect) : ∀ v, ¬ ReadsVal (b!"\n<<\n  /Type /Page\n  /Parent 2 0 R\n  /Resources " ++ b!"3 0 R" ++ b!"\n  /Contents " ++ b!"\n" ++
      (match z with
        | some s => b!" /MediaBox [ 0 0 " ++ fmt2 s.w ++ b!" " ++ fmt2 s.h ++ b!" ]\n"
        | none => []) ++ b!">>\n") v := by
  rintro v ⟨ts, t1, t2⟩
  cases z with
  | none =>
    have : (valueOfToks (lexer .ground (b!"\n<<\n  /Type /Page\n  /Parent 2 0 R\n  /Resources " ++ b!"3 0 R" ++ b!"\n  /Contents " ++ b!"\n" ++ [] ++ b!">>\n")).1).isNone = true := by
      decide +kernel
    exact not_value this v ⟨ts, t1, t2⟩
  | some z =>
    have h1 := Lx.last (ts := [.close, .dictClose]) b!"]\n>>\n" (by decide +kernel)
    obtain ⟨h, hh, h2⟩ := Lx.dec z.h h1
    obtain ⟨w, hw, h3⟩ := Lx.dec z.w h2
    have h5 := Lx.const (ts := [.dictOpen, .name b!"Type", .name b!"Page", .name b!"Parent", .num 2, .num 0, .op b!"R", .name b!"Resources", .num 3, .num 0, .op b!"R", .name b!"Contents",
      .name b!"MediaBox", .open, .num 0, .num 0]) b!"\n<<\n  /Type /Page\n  /Parent 2 0 R\n  /Resources 3 0 R\n  /Contents \n /MediaBox [ 0 0 " (by decide +kernel) h3
    have h6 := Lx.of_eq (s' := b!"\n<<\n  /Type /Page\n  /Parent 2 0 R\n  /Resources " ++ b!"3 0 R" ++ b!"\n  /Contents " ++ b!"\n" ++
      (b!" /MediaBox [ 0 0 " ++ fmt2 z.w ++ b!" " ++ fmt2 z.h ++ b!" ]\n") ++ b!">>\n") h5 (by simp)
    unfold Lx at h6
    dsimp only at t1
    rw [h6] at t1
    simp only [Prod.mk.injEq, and_true] at t1
    subst t1
    unfold valueOfToks at t2
    simp [readStep, pairUp] at t2

/-- **C86** (refuted for every document with a page on which nothing is drawn): the object of such a page is not an object of PDF.  The document may be protected. -/
theorem C86_refuted_empty_all {env : GEnv} {z : GRect} {prot : Option Protection} {cs : List GCall} {g g' : Gp} {out : Bytes} (hr : GRun env (Gp.start z prot) cs g)
    (hc : ∀ c ∈ cs, plainCall c = true) (h : g.compile env = (g', .ok out)) (hl : out.length < 10 ^ 10) {s : Option GRect × List GCall} (hs : s ∈ sheets cs) (he : s.2 = []) :
    ∃ bodies trailer n body, FileHolds out bodies trailer ∧ objAt bodies n = some body ∧ b!"\n<<\n  /Type /Page\n" <+: body ∧ ∀ v, ¬ ReadsVal body v := by
  have hk := kept_run hr (start_kept env z prot) hc
  obtain ⟨bs, hb, -, h3⟩ := compile_holds h (by
    intro e
    have := hk.whole.laid
    rw [e] at this
    simp [Laid] at this) hl
  obtain ⟨vok, vsort, -⟩ := viewOf_sound g.kinds
  obtain ⟨p, hp, q1, q2⟩ := forall2_right hk.pages.flip hs
  rw [he, List.forall₂_nil_left_iff] at q2
  obtain ⟨v, hv, rfl⟩ := List.mem_map.1 hp
  have hvc : v.contents = [] := by
    rcases hk.whole.oneEach v hv with e | ⟨i, cs, e, hcs⟩
    · exact e
    · rw [e] at q2
      exact absurd (by simpa using q2) hcs
  have k1 := (vok v hv).1
  unfold Gp.kinds at k1
  rw [List.getElem?_map] at k1
  obtain ⟨s1, e1, o1⟩ := Option.map_eq_some_iff.1 k1
  have l1 := later_of hk.whole.laid e1 (by rw [o1]; simp)
  have p1 := kind_page l1.2 o1
  obtain ⟨q, b, -, -, a2, a3⟩ := hb.2 v.idx { s1 with obj := updObj (viewOf g.kinds) v.idx s1.obj } (by
    rw [prepare_eq]
    simp only
    rw [updSlots_get, List.getElem?_append_left (by
      rw [List.getElem?_eq_some_iff] at e1
      exact e1.1), e1]
    rfl)
  rw [p1] at a2
  simp only [updObj, filter_idx vsort hv, hvc, List.flatMap_cons, List.flatMap_nil, List.append_nil, List.map_nil, GObj.build, Res.ok.injEq] at a2
  refine ⟨_, _, v.idx + 1, _, h3, objAt_succ _ _ _ a3, ?_, ?_⟩
  · rw [l1.1, ← a2]
    simp only [List.nil_append, List.append_assoc]
    exact ⟨b!"  /Parent 2 0 R\n  /Resources " ++ _, rfl⟩
  · rw [l1.1, ← a2]
    have := page_unread v.size
    revert this
    cases v.size <;> exact fun this => by simpa [refsText] using this

set_option maxRecDepth 20000 in
/-- a document of two pages, of which only the second has a line -/
example : ∃ g g' out, GRun goEnv (Gp.start ⟨595, 842⟩ none) [.addPage ⟨200, 300⟩, .addPage ⟨0, 0⟩, .line 10 20 30 40] g ∧ g.compile goEnv = (g', .ok out) ∧ out.length < 10 ^ 10 ∧
    (some ⟨200, 300⟩, []) ∈ sheets [.addPage ⟨200, 300⟩, .addPage ⟨0, 0⟩, .line 10 20 30 40] := by
  obtain ⟨g, g', out, h1, h2⟩ := C86_total goEnv ⟨595, 842⟩ (cs := [.addPage ⟨200, 300⟩, .addPage ⟨0, 0⟩, .line 10 20 30 40]) (by simp [plainCall, addsFont])
  have hs : goShort ((goRun goEnv (Gp.start ⟨595, 842⟩ none) [.addPage ⟨200, 300⟩, .addPage ⟨0, 0⟩, .line 10 20 30 40]).compile goEnv).2 = true := by decide +kernel
  rw [← goRun_run h1, h2] at hs
  exact ⟨g, g', out, h1, h2, by simpa [goShort] using hs, by simp [sheets, sheetStep, drawing]⟩

end Verif
