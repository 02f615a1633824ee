import Verif.Theorems.StdSeen
/-
C71: images on pages whose own content leaves other coordinates or a clipping path behind.  C72: borders on pages other than the first.
-/
namespace Verif
open Spec

/-- the image is where it was asked to be: `m` takes the unit square there -/
def Spec.ImgPlaced (c : ImgContent) (m : Mat) : Prop :=
  Near m.a c.w ∧ m.b = 0 ∧ m.c = 0 ∧ Near m.d c.h ∧ Near m.e c.x ∧ Near m.f (c.pageHeight - (c.y + c.h))

/-- coordinates in which the image is elsewhere: turned or slanted ones, or ones whose origin is more than a hundredth of a unit away -/
def Spec.Moves (c : ImgContent) (m : Mat) : Prop :=
  (m.b ≠ 0 ∧ 1 / 200 < c.w) ∨ (m.c ≠ 0 ∧ 1 / 200 < c.h) ∨ ∃ e f, m = .shift e f ∧ (1 / 100 < |e| ∨ 1 / 100 < |f|)

theorem near_pos {w c : ℚ} (h : Near w c) (hc : 1 / 200 < c) : w ≠ 0 := by
  unfold Near at h
  rw [abs_le] at h
  intro e
  subst e
  linarith [h.1]

theorem near_shift {x c e : ℚ} (h : Near x c) (h' : Near (x + e) c) : |e| ≤ 1 / 100 := by
  unfold Near at h h'
  rw [abs_le] at *
  constructor <;> linarith [h.1, h.2, h'.1, h'.2]

theorem moves_placed {c : ImgContent} {m : Mat} {w h x y : ℚ} (hw : Near w c.w) (hh : Near h c.h) (hx : Near x c.x) (hy : Near y (c.pageHeight - (c.y + c.h))) (hm : Moves c m) :
    ¬ ImgPlaced c ((Mat.mk w 0 0 h x y).mul m) := by
  rintro ⟨_, h2, h3, _, h5, h6⟩
  simp only [Mat.mul] at h2 h3 h5 h6
  rcases hm with ⟨hb, hc⟩ | ⟨hb, hc⟩ | ⟨e, f, rfl, hef⟩
  · have := near_pos hw hc
    simp [hb, this] at h2
  · have := near_pos hh hc
    simp [hb, this] at h3
  · simp only [Mat.shift, mul_one, mul_zero, add_zero, zero_add] at h5 h6
    rcases hef with k | k
    · exact absurd (near_shift hx h5) (by linarith)
    · exact absurd (near_shift hy h6) (by linarith)

theorem asked_ctm {fonts : List FontData} {imgs : List ImageData} {c : Content} {g g' : GState} {ms : List Mark} (h : Asked fonts imgs c g g' ms) : g'.ctm = g.ctm ∧ g'.clip = g.clip := by
  cases c with
  | text c =>
    obtain ⟨f, sum, _, _, x, y, gs, _, _, _, hd⟩ := h
    exact ⟨hd.after.1, hd.after.2.1⟩
  | img c =>
    obtain ⟨i, w, h, x, y, _, _, _, _, _, _, rfl⟩ := h
    exact ⟨rfl, rfl⟩
  | line w t =>
    obtain ⟨w, d, _, _, rfl, _⟩ := h
    exact ⟨rfl, rfl⟩

/-- every image asked for is painted in the coordinates and the clipping path the page's own content leaves -/
theorem allAsked_img {fonts : List FontData} {imgs : List ImageData} {cs : List Content} {c : ImgContent} {g g' : GState} {ms : List Mark} (h : AllAsked fonts imgs cs g g' ms) (hc : .img c ∈ cs) :
    ∃ i k w hh x y, imgs[c.img]? = some i ∧ .external (i.xObjChar ++ itoa i.xObjIndex) k ∈ ms ∧ Near w c.w ∧ Near hh c.h ∧ Near x c.x ∧ Near y (c.pageHeight - (c.y + c.h)) ∧
      k.ctm = (Mat.mk w 0 0 hh x y).mul g.ctm ∧ k.clip = g.clip := by
  induction h with
  | nil g => cases hc
  | @cons c' cs g g1 g2 ms ns h1 _ ih =>
    rcases List.mem_cons.1 hc with rfl | hc
    · obtain ⟨i, w, hh, x, y, h2, h3, h4, h5, h6, rfl, rfl⟩ := h1
      exact ⟨i, { g1 with ctm := (Mat.mk w 0 0 hh x y).mul g1.ctm }, w, hh, x, y, h2, by simp, h3, h4, h5, h6, rfl, rfl⟩
    · obtain ⟨i, k, w, hh, x, y, h2, h3, h4, h5, h6, h7, h8, h9⟩ := ih hc
      have := asked_ctm h1
      exact ⟨i, k, w, hh, x, y, h2, List.mem_append_right _ h3, h4, h5, h6, h7, by rw [h8, this.1], by rw [h9, this.2]⟩

theorem page_asked {unzip : Bytes → Option Bytes} {objs : List Obj} {fonts imgs : List (Bytes × Val)} {fs : List FontData} {is : List ImageData} {asked : Nat → List Content}
    {views : List (List (Bytes × Val) × Bytes)} {pages : List Int} (h : List.Forall₂ (fun v p => PageSeen unzip objs fonts imgs fs is (asked (v.2 + 1)) v.1 p) views.zipIdx pages)
    {i : Nat} {v : List (Bytes × Val) × Bytes} (hv : views[i]? = some v) (ha : asked (i + 1) ≠ []) :
    ∃ p d r o body, pages[i]? = some p ∧ StdDict objs p d ∧ d.lookup b!"Contents" = some (.ref r) ∧ OnlyObj objs r o ∧ StreamObject o.data body ∧
      ∀ adv own q, Paints adv {} (v.2 ++ b!"\n") own q → Idle q → ∃ ms q', Paints adv {} body (own ++ ms) q' ∧ Idle q' ∧ q'.saved = q.saved ∧ AllAsked fs is (asked (i + 1)) q.g q'.g ms := by
  obtain ⟨hlen2, h3⟩ := List.forall₂_iff_get.1 h
  have hi1 : i < views.length := (List.getElem?_eq_some_iff.1 hv).1
  have hi2 : i < pages.length := by
    rw [← hlen2]
    simpa using hi1
  have h4 := h3 i (by simpa using hi1) hi2
  have hv' : views[i] = v := (List.getElem?_eq_some_iff.1 hv).2
  simp only [List.get_eq_getElem, List.getElem_zipIdx, zero_add, hv'] at h4
  obtain ⟨d', r, o, k1, _, k2, _, k3, k4⟩ := h4
  rw [if_neg ha] at k4
  obtain ⟨body, k4, k5⟩ := k4
  exact ⟨_, d', r, o, body, List.getElem?_eq_getElem hi2, k1, k2, k3, k4, k5⟩

/-- **C71 is violated** by every file: it is opened and saved after any calls.  If the own content of a page leaves coordinates that are turned, slanted or shifted, every image inserted on the page is
painted elsewhere than asked for; if it leaves a clipping path, every image is clipped by it. -/
theorem C71_refuted_all {env env' : Env} (hf : ReadsNums (fun s => (env.parseFloat s).isSome)) {raw : Bytes} {t : List (Bytes × Val)} {l : List (Nat × Entry)} {os : List Obj}
    (h : StdFile raw t l os) {root : Nat} (hr : EntryIs t b!"Root" (.ref root)) (hnd : (os.map Obj.objID).Nodup) (hpos : ∀ o ∈ os, 1 ≤ o.objID)
    {views : List (List (Bytes × Val) × Bytes)} (hv : Shown env'.unzip ⟨root, tableOf l, os, []⟩ views)
    (hb : ∀ v ∈ views, ∃ box : List ℚ, EntryIs v.1 b!"MediaBox" (.arr (box.map .num))) (calls : List (Env × Call)) (hs : ∀ c ∈ calls, c.2 ≠ .save)
    (hmax : maxID os + 2 * calls.length < 2 ^ 63) (hne : calls.foldl (fun l c => c.2.edit l) views ≠ []) :
    ∃ a0, App.openFrom env {} raw = ⟨a0, .ok ()⟩ ∧ ∀ {objs last out}, (Run a0 calls).protection = none → Saves env' (Run a0 calls) objs last out → out.length < 10 ^ 10 →
      ∀ {b}, (Run a0 calls).build env' = .ok b → (∀ t, .text t ∈ (Run a0 calls).contents → Drawable b.app.fonts t) → (∀ i ∈ b.app.imgs, ∀ d ∈ i.xObjChar, regular d = true) →
      ∃ tree, StdDoc ⟨root, [], objs, []⟩ tree ∧ ∀ (i : Nat) (v : List (Bytes × Val) × Bytes), (calls.foldl (fun l c => c.2.edit l) views)[i]? = some v →
        ∀ c, .img c ∈ (Run a0 calls).contents → c.page = ((i + 1 : Nat) : Int) →
        ∃ p d r o body, tree.pages[i]? = some p ∧ StdDict objs p d ∧ d.lookup b!"Contents" = some (.ref r) ∧ OnlyObj objs r o ∧ StreamObject o.data body ∧
          ∀ adv own q, Paints adv {} (v.2 ++ b!"\n") own q → Idle q → ∃ ms q' x k, Paints adv {} body (own ++ ms) q' ∧ b.app.imgs[c.img]? = some x ∧
            .external (x.xObjChar ++ itoa x.xObjIndex) k ∈ ms ∧ (Moves c q.g.ctm → ¬ ImgPlaced c k.ctm) ∧ k.clip = q.g.clip := by
  obtain ⟨a0, e0, hk⟩ := C94_run_partial hf h hr hnd hpos hv hb calls hs hmax hne
  refine ⟨a0, e0, fun {objs last out} hp hsave hlen b hb ht hi => ?_⟩
  obtain ⟨_, tree, fonts, imgs, h1, _, _, h2⟩ := hk hp hsave hlen hb ht hi
  refine ⟨tree, h1, fun i v hv c hc hcp => ?_⟩
  have hmem : .img c ∈ askedOn (Run a0 calls).contents (i + 1) := List.mem_filter.2 ⟨hc, by simpa [pageOf] using hcp⟩
  obtain ⟨p, d', r, o, body, k0, k1, k2, k3, k4, k5⟩ := page_asked h2 hv (List.ne_nil_of_mem hmem)
  refine ⟨p, d', r, o, body, k0, k1, k2, k3, k4, fun adv own q hq hidle => ?_⟩
  obtain ⟨ms, q', g1, _, _, g2⟩ := k5 adv own q hq hidle
  obtain ⟨x, k, w, hh, px, py, h6, h7, h8, h9, h10, h11, h12, h13⟩ := allAsked_img g2 hmem
  exact ⟨ms, q', x, k, g1, h6, h7, fun hm => by rw [h12]; exact moves_placed h8 h9 h10 h11 hm, h13⟩

/-- **C72 is violated** by every file: it is opened and saved after any calls, `ShowCellBorder` among them or not.  Every text on a page other than the first is drawn, with its border, in the style of
lines that the page's own content leaves. -/
theorem C72_refuted_all {env env' : Env} (hf : ReadsNums (fun s => (env.parseFloat s).isSome)) {raw : Bytes} {t : List (Bytes × Val)} {l : List (Nat × Entry)} {os : List Obj}
    (h : StdFile raw t l os) {root : Nat} (hr : EntryIs t b!"Root" (.ref root)) (hnd : (os.map Obj.objID).Nodup) (hpos : ∀ o ∈ os, 1 ≤ o.objID)
    {views : List (List (Bytes × Val) × Bytes)} (hv : Shown env'.unzip ⟨root, tableOf l, os, []⟩ views)
    (hb : ∀ v ∈ views, ∃ box : List ℚ, EntryIs v.1 b!"MediaBox" (.arr (box.map .num))) (calls : List (Env × Call)) (hs : ∀ c ∈ calls, c.2 ≠ .save)
    (hmax : maxID os + 2 * calls.length < 2 ^ 63) (hne : calls.foldl (fun l c => c.2.edit l) views ≠ []) :
    ∃ a0, App.openFrom env {} raw = ⟨a0, .ok ()⟩ ∧ ∀ {objs last out}, (Run a0 calls).protection = none → Saves env' (Run a0 calls) objs last out → out.length < 10 ^ 10 →
      ∀ {b}, (Run a0 calls).build env' = .ok b → (∀ t, .text t ∈ (Run a0 calls).contents → Drawable b.app.fonts t) → (∀ i ∈ b.app.imgs, ∀ d ∈ i.xObjChar, regular d = true) →
      ∃ tree, StdDoc ⟨root, [], objs, []⟩ tree ∧ ∀ (i : Nat) (v : List (Bytes × Val) × Bytes), 1 ≤ i → (calls.foldl (fun l c => c.2.edit l) views)[i]? = some v →
        ∀ c, .text c ∈ (Run a0 calls).contents → c.page = ((i + 1 : Nat) : Int) →
        ∃ p d r o body, tree.pages[i]? = some p ∧ StdDict objs p d ∧ d.lookup b!"Contents" = some (.ref r) ∧ OnlyObj objs r o ∧ StreamObject o.data body ∧
          ∀ adv own q, Paints adv {} (v.2 ++ b!"\n") own q → Idle q → ∃ before drawn after q' k k', Paints adv {} body (own ++ (before ++ drawn ++ after)) q' ∧
            Asked b.app.fonts b.app.imgs (.text c) k k' drawn ∧ k'.param b!"d" = q.g.param b!"d" ∧ k'.param b!"w" = q.g.param b!"w" := by
  obtain ⟨a0, e0, hk⟩ := C94_run_partial hf h hr hnd hpos hv hb calls hs hmax hne
  refine ⟨a0, e0, fun {objs last out} hp hsave hlen b hb ht hi => ?_⟩
  obtain ⟨_, tree, fonts, imgs, h1, _, _, h2⟩ := hk hp hsave hlen hb ht hi
  refine ⟨tree, h1, fun i v hi0 hv c hc hcp => ?_⟩
  have hmem : .text c ∈ askedOn (Run a0 calls).contents (i + 1) := List.mem_filter.2 ⟨hc, by simpa [pageOf] using hcp⟩
  obtain ⟨p, d', r, o, body, k0, k1, k2, k3, k4, k5⟩ := page_asked h2 hv (List.ne_nil_of_mem hmem)
  refine ⟨p, d', r, o, body, k0, k1, k2, k3, k4, fun adv own q hq hidle => ?_⟩
  obtain ⟨ms, q', g1, _, _, g2⟩ := k5 adv own q hq hidle
  have hline : ∀ w t, .line w t ∉ askedOn (Run a0 calls).contents (i + 1) := by
    intro w t hm
    have := (List.mem_filter.1 hm).2
    simp [pageOf] at this
    omega
  obtain ⟨pre, post, e⟩ := List.append_of_mem hmem
  rw [e] at g2 hline
  obtain ⟨k, m1, m2, rfl, f1, f2⟩ := allAsked_append g2
  cases f2 with
  | @cons _ _ _ k' _ drawn after f3 f4 =>
    obtain ⟨s1, s2⟩ := allAsked_style f1 (fun w t hm => hline w t (by simp [hm]))
    obtain ⟨s3, s4⟩ := asked_style f3 (by simp)
    exact ⟨m1, drawn, after, q', k, k', by simpa using g1, f3, s3.trans s1, s4.trans s2⟩

/-! ### example -/

/-- the bytes before the table: eight objects, two of them pages -/
def movePre : Bytes := b!"%PDF-1.4\n1 0 obj\n<< /Type /Catalog /Pages 2 0 R >>\nendobj\n2 0 obj\n<< /Type /Pages /Count 2 /Kids [ 3 0 R 4 0 R ] >>\nendobj\n3 0 obj\n<< /Type /Page /Parent 2 0 R /MediaBox [ 0 0 595 842 ] /Resources 5 0 R /Contents 6 0 R >>\nendobj" ++
  b!"\n4 0 obj\n<< /Type /Page /Parent 2 0 R /MediaBox [ 0 0 200 100 ] /Resources 5 0 R /Contents 7 0 R >>\nendobj\n5 0 obj\n<< /Font << /F1 8 0 R >> >>\nendobj\n6 0 obj\n<< /Length 1 >>\nstream\nq\nendstream\nendobj\n7 0 obj\n<< /Length 14 >>\nstream\n1 0 0 1 9 0 cm\nendstream\nendobj\n8 0 obj\n<< /Type /Font >>\nendobj"

def moveTable : Bytes := b!"0 9\n0000000000 65535 f \n0000000009 00000 n \n0000000058 00000 n \n0000000123 00000 n \n0000000229 00000 n \n0000000335 00000 n \n0000000378 00000 n \n0000000428 00000 n \n0000000492 00000 n \n"

def moveRaw : Bytes := movePre ++ b!"\nxref\n" ++ moveTable ++ b!"trailer\n<< /Size 9 /Root 1 0 R >>\nstartxref\n525\n%%EOF\n"

def moveRows : List (Nat × Entry) := [(0, ⟨0, 65535, false⟩), (1, ⟨9, 0, true⟩), (2, ⟨58, 0, true⟩), (3, ⟨123, 0, true⟩), (4, ⟨229, 0, true⟩), (5, ⟨335, 0, true⟩), (6, ⟨378, 0, true⟩), (7, ⟨428, 0, true⟩), (8, ⟨492, 0, true⟩)]

def moveObjs : List Obj := [
  ⟨1, b!"\n<< /Type /Catalog /Pages 2 0 R >>\n"⟩,
  ⟨2, b!"\n<< /Type /Pages /Count 2 /Kids [ 3 0 R 4 0 R ] >>\n"⟩,
  ⟨3, b!"\n<< /Type /Page /Parent 2 0 R /MediaBox [ 0 0 595 842 ] /Resources 5 0 R /Contents 6 0 R >>\n"⟩,
  ⟨4, b!"\n<< /Type /Page /Parent 2 0 R /MediaBox [ 0 0 200 100 ] /Resources 5 0 R /Contents 7 0 R >>\n"⟩,
  ⟨5, b!"\n<< /Font << /F1 8 0 R >> >>\n"⟩,
  ⟨6, b!"\n<< /Length 1 >>\nstream\nq\nendstream\n"⟩,
  ⟨7, b!"\n<< /Length 14 >>\nstream\n1 0 0 1 9 0 cm\nendstream\n"⟩,
  ⟨8, b!"\n<< /Type /Font >>\n"⟩]

theorem moveTable_is : SectionIs moveTable moveRows := by
  have num : ∀ (s : Bytes), s ≠ [] → s.all isDec = true → Numeral s (decVal s) := fun s h1 h2 => ⟨h1, h2, rfl⟩
  have r0 : RowIs b!"0000000000 65535 f \n" ⟨0, 65535, false⟩ := rowIs_of b!"0000000000" b!"65535" b!" \n" rfl (by decide) (by decide)
  have r1 : RowIs b!"0000000009 00000 n \n" ⟨9, 0, true⟩ := rowIs_of b!"0000000009" b!"00000" b!" \n" rfl (by decide) (by decide)
  have r2 : RowIs b!"0000000058 00000 n \n" ⟨58, 0, true⟩ := rowIs_of b!"0000000058" b!"00000" b!" \n" rfl (by decide) (by decide)
  have r3 : RowIs b!"0000000123 00000 n \n" ⟨123, 0, true⟩ := rowIs_of b!"0000000123" b!"00000" b!" \n" rfl (by decide) (by decide)
  have r4 : RowIs b!"0000000229 00000 n \n" ⟨229, 0, true⟩ := rowIs_of b!"0000000229" b!"00000" b!" \n" rfl (by decide) (by decide)
  have r5 : RowIs b!"0000000335 00000 n \n" ⟨335, 0, true⟩ := rowIs_of b!"0000000335" b!"00000" b!" \n" rfl (by decide) (by decide)
  have r6 : RowIs b!"0000000378 00000 n \n" ⟨378, 0, true⟩ := rowIs_of b!"0000000378" b!"00000" b!" \n" rfl (by decide) (by decide)
  have r7 : RowIs b!"0000000428 00000 n \n" ⟨428, 0, true⟩ := rowIs_of b!"0000000428" b!"00000" b!" \n" rfl (by decide) (by decide)
  have r8 : RowIs b!"0000000492 00000 n \n" ⟨492, 0, true⟩ := rowIs_of b!"0000000492" b!"00000" b!" \n" rfl (by decide) (by decide)
  exact SectionIs.sub (w := b!"\n") (s := []) (m := []) (num b!"0" (by decide) rfl) (num b!"9" (by decide) rfl) ⟨[], 10, rfl, by decide, Or.inl rfl⟩ (.cons r0 (.cons r1 (.cons r2 (.cons r3 (.cons r4 (.cons r5 (.cons r6 (.cons r7 (.cons r8 .nil))))))))) .nil

set_option maxRecDepth 20000 in
theorem moveRaw_is : StdFile moveRaw [(b!"Size", .num 9), (b!"Root", .ref 1)] moveRows moveObjs := by
  refine ⟨movePre, 10, b!"\n", moveTable, b!"\n", b!" /Size 9 /Root 1 0 R ", b!"\n", b!"\n", b!"525", b!"\n", b!"\n", by decide +kernel, Or.inl rfl,
    ⟨[], 10, rfl, by decide, Or.inl rfl⟩, moveTable_is, by decide, by decide, stdText_of (by decide +kernel) ⟨_, rfl, rfl⟩, by decide, by decide, ⟨[], 10, rfl, by decide, Or.inl rfl⟩,
    ⟨by decide, by decide, by decide +kernel⟩, ⟨[], 10, rfl, by decide, Or.inl rfl⟩, by decide, ?_, by decide +kernel, by decide +kernel,
    noRow_of_tails (by decide +kernel), by decide +kernel, noRow_of_tails (by decide +kernel)⟩
  exact .free rfl (.used rfl rfl (by decide) ⟨b!"1", 32, 32, moveRaw.drop 57, ⟨by decide, by decide, by decide⟩, by decide, by decide, by decide +kernel, by decide +kernel⟩
    (.used rfl rfl (by decide) ⟨b!"2", 32, 32, moveRaw.drop 122, ⟨by decide, by decide, by decide⟩, by decide, by decide, by decide +kernel, by decide +kernel⟩
    (.used rfl rfl (by decide) ⟨b!"3", 32, 32, moveRaw.drop 228, ⟨by decide, by decide, by decide⟩, by decide, by decide, by decide +kernel, by decide +kernel⟩
    (.used rfl rfl (by decide) ⟨b!"4", 32, 32, moveRaw.drop 334, ⟨by decide, by decide, by decide⟩, by decide, by decide, by decide +kernel, by decide +kernel⟩
    (.used rfl rfl (by decide) ⟨b!"5", 32, 32, moveRaw.drop 377, ⟨by decide, by decide, by decide⟩, by decide, by decide, by decide +kernel, by decide +kernel⟩
    (.used rfl rfl (by decide) ⟨b!"6", 32, 32, moveRaw.drop 427, ⟨by decide, by decide, by decide⟩, by decide, by decide, by decide +kernel, by decide +kernel⟩
    (.used rfl rfl (by decide) ⟨b!"7", 32, 32, moveRaw.drop 491, ⟨by decide, by decide, by decide⟩, by decide, by decide, by decide +kernel, by decide +kernel⟩
    (.used rfl rfl (by decide) ⟨b!"8", 32, 32, moveRaw.drop 524, ⟨by decide, by decide, by decide⟩, by decide, by decide, by decide +kernel, by decide +kernel⟩
    .nil))))))))

set_option maxRecDepth 20000 in
theorem moveObjs_dicts : ∀ i : Int, 1 ≤ i ∧ i ≤ 5 → StdDict moveObjs i (runDict i) := by
  have o1 : StdDict moveObjs 1 (runDict 1) := stdDict_of (x := b!" /Type /Catalog /Pages 2 0 R ") (by decide) (by decide) rfl (stdText_of (by decide +kernel) ⟨_, rfl, rfl⟩)
  have o2 : StdDict moveObjs 2 (runDict 2) := stdDict_of (x := b!" /Type /Pages /Count 2 /Kids [ 3 0 R 4 0 R ] ") (by decide) (by decide) rfl (stdText_of (by decide +kernel) ⟨_, rfl, rfl⟩)
  have o3 : StdDict moveObjs 3 (runDict 3) := stdDict_of (x := b!" /Type /Page /Parent 2 0 R /MediaBox [ 0 0 595 842 ] /Resources 5 0 R /Contents 6 0 R ") (by decide) (by decide) rfl (stdText_of (by decide +kernel) ⟨_, rfl, by rfl⟩)
  have o4 : StdDict moveObjs 4 (runDict 4) := stdDict_of (x := b!" /Type /Page /Parent 2 0 R /MediaBox [ 0 0 200 100 ] /Resources 5 0 R /Contents 7 0 R ") (by decide) (by decide) rfl (stdText_of (by decide +kernel) ⟨_, rfl, by rfl⟩)
  have o5 : StdDict moveObjs 5 (runDict 5) := stdDict_of (x := b!" /Font << /F1 8 0 R >> ") (by decide) (by decide) rfl (stdText_of (by decide +kernel) ⟨_, rfl, rfl⟩)
  intro i hi
  have : i = 1 ∨ i = 2 ∨ i = 3 ∨ i = 4 ∨ i = 5 := by omega
  rcases this with rfl | rfl | rfl | rfl | rfl <;> assumption

theorem moveObjs_linked : LinkedDoc moveObjs 1 (fun i => 1 ≤ i ∧ i ≤ 5) (fun _ => False) (fun i => i = 6 ∨ i = 7) runDict := by
  refine ⟨fun i hi => moveObjs_dicts i (hi.elim id False.elim), fun i hi => ⟨id, by omega⟩, fun i hi => hi.elim, by decide, ?_, ?_, ?_, ?_, ?_, ?_, ?_, fun i hi => hi.elim, ?_⟩
  · intro k n h
    simp [runDict] at h
    obtain ⟨rfl, rfl⟩ := h
    exact ⟨by decide, by decide⟩
  · intro v h
    simp [runDict] at h
    exact ⟨2, h, by decide⟩
  · intro i hi v h
    rcases run_cases hi with rfl | rfl | rfl | rfl | rfl <;> simp [runDict] at h
    exact ⟨[3, 4], by simp, h, by simp⟩
  · intro i hi v h
    rcases run_cases hi with rfl | rfl | rfl | rfl | rfl <;> simp [runDict] at h
    · exact Or.inl ⟨5, h, by decide⟩
    · exact Or.inl ⟨5, h, by decide⟩
  · left
    intro i hi v h
    rcases run_cases hi with rfl | rfl | rfl | rfl | rfl <;> simp [runDict] at h
    · exact ⟨5, h⟩
    · exact ⟨5, h⟩
  · intro i hi
    refine ⟨?_, ?_, ?_⟩
    · intro k n h
      rcases run_cases hi with rfl | rfl | rfl | rfl | rfl <;> simp [runDict] at h <;> obtain ⟨rfl, rfl⟩ := h <;> exact ⟨by decide, by decide⟩
    · intro v h
      rcases run_cases hi with rfl | rfl | rfl | rfl | rfl <;> simp [runDict] at h
      refine Or.inr ⟨_, h, ?_⟩
      intro x hx
      simp at hx
      subst hx
      exact ⟨8, rfl, by unfold Readable; omega⟩
    · intro v h
      rcases run_cases hi with rfl | rfl | rfl | rfl | rfl <;> simp [runDict] at h
  · intro i hi v h
    rcases run_cases hi with rfl | rfl | rfl | rfl | rfl <;> simp [runDict] at h
    · exact Or.inl ⟨6, h, by unfold Readable; omega, by simp⟩
    · exact Or.inl ⟨7, h, by unfold Readable; omega, by simp⟩
  · intro i hi
    rcases hi with rfl | rfl
    · exact ⟨_, rfl⟩
    · exact ⟨_, rfl⟩

def movePages : List PageC := [⟨3, 6, b!"q"⟩, ⟨4, 7, b!"1 0 0 1 9 0 cm"⟩]

set_option maxRecDepth 20000 in
theorem moveObjs_held (unzip : Bytes → Option Bytes) : Held unzip ⟨1, tableOf moveRows, moveObjs, []⟩ (fun i => 1 ≤ i ∧ i ≤ 5) (fun _ => False) (fun i => i = 6 ∨ i = 7) runDict 2
    [.leaf 3, .leaf 4] movePages := by
  have h := moveObjs_dicts
  refine ⟨⟨⟨_, h 1 (by decide), rfl, by simp [runDict]⟩, by decide, h 2 (by decide), ⟨rfl, ⟨rfl, by simp [runDict]⟩, by simp⟩, ?_, ?_, ⟨_, h 3 (by decide), rfl, rfl, ?_⟩, ⟨_, h 4 (by decide), rfl, rfl, ?_⟩, trivial⟩,
    moveObjs_linked, rfl, by decide, ?_⟩
  · exact ⟨by decide, by simp [runDict]⟩
  · exact ⟨2, rfl, by simp [runDict]⟩
  · simp [runDict]
  · simp [runDict]
  · intro x hx
    have hp6 : readProperties b!"\n<< /Length 1 >>\nstream\nq\nendstream\n" = .ok [⟨b!"Length", b!"1"⟩] := by decide +kernel
    have hp7 : readProperties b!"\n<< /Length 14 >>\nstream\n1 0 0 1 9 0 cm\nendstream\n" = .ok [⟨b!"Length", b!"14"⟩] := by decide +kernel
    simp [movePages] at hx
    rcases hx with rfl | rfl
    · exact ⟨rfl, by decide, ⟨6, b!"\n<< /Length 1 >>\nstream\nq\nendstream\n"⟩, rfl, ⟨_, b!"\n<< /Length 1 >>\n", b!"\n", b!"q", b!"\n", b!"\n", b!"1", 113, hp6, rfl, by decide +kernel, by decide, rfl, by decide +kernel, by decide, by decide, rfl,
        by decide, by decide, Or.inl ⟨rfl, rfl⟩⟩⟩
    · exact ⟨rfl, by decide, ⟨7, b!"\n<< /Length 14 >>\nstream\n1 0 0 1 9 0 cm\nendstream\n"⟩, rfl, ⟨_, b!"\n<< /Length 14 >>\n", b!"\n", b!"1 0 0 1 9 0 cm", b!"\n", b!"\n", b!"14", 49, hp7, rfl, by decide +kernel, by decide, rfl, by decide +kernel, by decide, by decide, rfl,
        by decide, by decide, Or.inl ⟨rfl, rfl⟩⟩⟩

def moveViews : List (List (Bytes × Val) × Bytes) := viewsOf runDict movePages

/-- a text with a border and an image on page 2 -/
def moveCalls : List (Env × Call) := [(plainEnv, .border true), (plainEnv, .addFont b!"A" tinyFile), (plainEnv, .setFont b!"A" [] 10), (plainEnv, .insert b!"AB" 2 50 60 100 20 0 none),
  (plainEnv, .img b!"x" 2 5 6 7 8)]

/-- there is no protection, the file is short, and the contents are the line style that opening adds, that of borders, the text and the image -/
def moveCheck (r : Step App) : Bool :=
  match (Run r.state moveCalls).build plainEnv with
  | .ok b => (Run r.state moveCalls).protection.isNone && decide ((toStream b.doc.objs b.doc.rootObjID b.lastID.toNat none).length < 10 ^ 10) &&
      plainContents b.app.fonts b.app.imgs (Run r.state moveCalls).contents && match (Run r.state moveCalls).contents with
        | [.line _ _, .line _ _, .text t, .img c] => decide (t.page = 2) && decide (c.page = 2)
        | _ => false
  | _ => false

set_option maxRecDepth 20000 in
theorem moveCheck_eq : moveCheck (App.openFrom runEnv {} moveRaw) = true := by decide +kernel

theorem moveCheck_saves {r : Step App} (h : moveCheck r = true) : (Run r.state moveCalls).protection = none ∧ ∃ b objs last out t c, (Run r.state moveCalls).build plainEnv = .ok b ∧
    Saves plainEnv (Run r.state moveCalls) objs last out ∧ out.length < 10 ^ 10 ∧ plainContents b.app.fonts b.app.imgs (Run r.state moveCalls).contents = true ∧
    .text t ∈ (Run r.state moveCalls).contents ∧ t.page = 2 ∧ .img c ∈ (Run r.state moveCalls).contents ∧ c.page = 2 := by
  unfold moveCheck at h
  split at h
  · rename_i b hb
    simp only [Bool.and_eq_true, decide_eq_true_eq, Option.isNone_iff_eq_none] at h
    obtain ⟨⟨⟨hp, hlen⟩, h3⟩, h4⟩ := h
    split at h4
    · rename_i t c hc
      simp only [Bool.and_eq_true, decide_eq_true_eq] at h4
      exact ⟨hp, b, _, _, _, t, c, hb, ⟨b, hb, rfl, rfl, saveTo_eq hb⟩, by rw [hp]; exact hlen, h3, by rw [hc]; simp, h4.1, by rw [hc]; simp, h4.2⟩
    · exact absurd h4 (by decide)
  · exact absurd h (by decide)

theorem moveRaw_ready : Shown plainEnv.unzip ⟨((1 : Nat) : Int), tableOf moveRows, moveObjs, []⟩ moveViews ∧ (∀ v ∈ moveViews, ∃ box : List ℚ, EntryIs v.1 b!"MediaBox" (.arr (box.map .num))) ∧
    EntryIs [(b!"Size", .num 9), (b!"Root", .ref 1)] b!"Root" (.ref ((1 : Nat) : Int)) ∧ ReadsNums (fun s => (runEnv.parseFloat s).isSome) ∧
    moveCalls.foldl (fun l c => c.2.edit l) moveViews ≠ [] ∧ (∀ c ∈ moveCalls, c.2 ≠ .save) ∧ maxID moveObjs + 2 * moveCalls.length < 2 ^ 63 := by
  refine ⟨⟨_, _, _, _, _, _, _, moveObjs_held _, rfl⟩, ?_, ⟨rfl, by simp⟩, fun _ _ _ => rfl, ?_, by simp [moveCalls], by decide⟩
  · intro v hv
    simp only [moveViews, viewsOf, movePages, List.map_cons, List.map_nil, List.mem_cons, List.not_mem_nil, or_false] at hv
    rcases hv with rfl | rfl
    · exact ⟨[0, 0, 595, 842], rfl, by simp [runDict, setVal]⟩
    · exact ⟨[0, 0, 200, 100], rfl, by simp [runDict, setVal]⟩
  · rw [show moveCalls.foldl (fun l c => c.2.edit l) moveViews = moveViews from rfl]
    simp [moveViews, viewsOf, movePages]

set_option maxRecDepth 20000 in
theorem move_own : ∃ q, Paints (fun _ _ _ => 0) {} (b!"1 0 0 1 9 0 cm" ++ b!"\n") [] q ∧ Idle q ∧ q.g.ctm = .shift 9 0 ∧ q.g.param b!"w" = none :=
  ⟨_, ⟨[.num 1, .num 0, .num 0, .num 1, .num 9, .num 0, .op b!"cm"], by decide +kernel, rfl⟩, ⟨rfl, rfl, rfl⟩, by decide +kernel, rfl⟩

/-- the own content of page 2 moves the origin by nine units, and so the image inserted there is not where it was asked to be -/
example : ∃ a0 objs last out b c p d r o body, App.openFrom runEnv {} moveRaw = ⟨a0, .ok ()⟩ ∧ Saves plainEnv (Run a0 moveCalls) objs last out ∧ (Run a0 moveCalls).build plainEnv = .ok b ∧
    .img c ∈ (Run a0 moveCalls).contents ∧ StdDict objs p d ∧ d.lookup b!"Contents" = some (.ref r) ∧ OnlyObj objs r o ∧ StreamObject o.data body ∧
    ∃ ms q' x k, Paints (fun _ _ _ => 0) {} body ms q' ∧ b.app.imgs[c.img]? = some x ∧ .external (x.xObjChar ++ itoa x.xObjIndex) k ∈ ms ∧ ¬ ImgPlaced c k.ctm := by
  obtain ⟨hv, hbox, hr, hn, hne, hc, hmax⟩ := moveRaw_ready
  obtain ⟨a0, e0, h⟩ := C71_refuted_all hn moveRaw_is hr (by decide) (by decide) hv hbox moveCalls hc hmax hne
  have hf := moveCheck_eq
  rw [e0] at hf
  obtain ⟨hp, b, objs, last, out, _, c, hb, hs, hlen, hpl, _, _, hci, hcp⟩ := moveCheck_saves hf
  obtain ⟨ht, hi⟩ := plainContents_ok hpl
  obtain ⟨tree, _, h2⟩ := h hp hs hlen hb ht hi
  obtain ⟨p, d, r, o, body, _, k1, k2, k3, k4, k5⟩ := h2 1 _ rfl c hci hcp
  obtain ⟨q, q1, q2, q3, _⟩ := move_own
  obtain ⟨ms, q', x, k, g1, g2, g3, g4, _⟩ := k5 _ [] q q1 q2
  exact ⟨a0, objs, last, out, b, c, p, d, r, o, body, e0, hs, hb, hci, k1, k2, k3, k4, ms, q', x, k, g1, g2, g3, g4 (Or.inr (Or.inr ⟨9, 0, q3, Or.inl (by norm_num)⟩))⟩

/-- the text with a border on page 2 is drawn without a width of lines having been set there -/
example : ∃ a0 objs last out b c p d r o body, App.openFrom runEnv {} moveRaw = ⟨a0, .ok ()⟩ ∧ Saves plainEnv (Run a0 moveCalls) objs last out ∧ (Run a0 moveCalls).build plainEnv = .ok b ∧
    .text c ∈ (Run a0 moveCalls).contents ∧ StdDict objs p d ∧ d.lookup b!"Contents" = some (.ref r) ∧ OnlyObj objs r o ∧ StreamObject o.data body ∧
    ∃ before drawn after q' k k', Paints (fun _ _ _ => 0) {} body (before ++ drawn ++ after) q' ∧ Asked b.app.fonts b.app.imgs (.text c) k k' drawn ∧ k'.param b!"w" = none := by
  obtain ⟨hv, hbox, hr, hn, hne, hc, hmax⟩ := moveRaw_ready
  obtain ⟨a0, e0, h⟩ := C72_refuted_all hn moveRaw_is hr (by decide) (by decide) hv hbox moveCalls hc hmax hne
  have hf := moveCheck_eq
  rw [e0] at hf
  obtain ⟨hp, b, objs, last, out, c, _, hb, hs, hlen, hpl, hci, hcp, _, _⟩ := moveCheck_saves hf
  obtain ⟨ht, hi⟩ := plainContents_ok hpl
  obtain ⟨tree, _, h2⟩ := h hp hs hlen hb ht hi
  obtain ⟨p, d, r, o, body, _, k1, k2, k3, k4, k5⟩ := h2 1 _ (by decide) rfl c hci hcp
  obtain ⟨q, q1, q2, _, q4⟩ := move_own
  obtain ⟨before, drawn, after, q', k, k', g1, g2, _, g4⟩ := k5 _ [] q q1 q2
  exact ⟨a0, objs, last, out, b, c, p, d, r, o, body, e0, hs, hb, hci, k1, k2, k3, k4, before, drawn, after, q', k, k', g1, g2, g4.trans q4⟩

end Verif
