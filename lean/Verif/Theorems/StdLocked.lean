import Verif.Theorems.StdSeal
/-
C95: files that are protected already.
-/
namespace Verif
open Spec

/-- **C95** (refuted, for every file).  A file whose trailer names a dictionary of protection is opened like any other; after any calls that do not ask for protection, the trailer of the saved file
names no such dictionary, while the streams of the pages, which are still enciphered, are the same as before (followed by what was drawn, in the clear). -/
theorem C95_refuted_dropped {env env' : Env} (hf : ReadsNums (fun s => (env.parseFloat s).isSome)) {raw : Bytes} {t : List (Bytes × Val)} {l : List (Nat × Entry)} {os : List Obj}
    (h : StdFile raw t l os) {root enc : Nat} (hr : EntryIs t b!"Root" (.ref root)) (_ : EntryIs t b!"Encrypt" (.ref enc)) (hnd : (os.map Obj.objID).Nodup) (hpos : ∀ o ∈ os, 1 ≤ o.objID)
    {views : List (List (Bytes × Val) × Bytes)} (hv : Shown env'.unzip ⟨root, tableOf l, os, []⟩ views)
    (hb : ∀ v ∈ views, ∃ box : List ℚ, EntryIs v.1 b!"MediaBox" (.arr (box.map .num))) (calls : List (Env × Call)) (hs : ∀ c ∈ calls, c.2 ≠ .save ∧ c.2.guard = none)
    (hmax : maxID os + 2 * calls.length < 2 ^ 63) (hne : calls.foldl (fun l c => c.2.edit l) views ≠ []) :
    ∃ a0, App.openFrom env {} raw = ⟨a0, .ok ()⟩ ∧ ∀ {objs last out}, Saves env' (Run a0 calls) objs last out → out.length < 10 ^ 10 →
      (∃ es rest, readTable out = some (es, rest) ∧ TrailerAt rest es.length root none) ∧
      ∃ tree, StdDoc ⟨root, [], objs, []⟩ tree ∧ ∀ (i : Nat) (v : List (Bytes × Val) × Bytes), (calls.foldl (fun l c => c.2.edit l) views)[i]? = some v → ∃ p d' c o, tree.pages[i]? = some p ∧ StdDict objs p d' ∧
        d'.lookup b!"Contents" = some (.ref c) ∧ OnlyObj objs c o ∧ (HoldsStream env'.unzip o.data v.2 ∨ ∃ drawn, StreamObject o.data (v.2 ++ b!"\n" ++ drawn)) := by
  obtain ⟨a0, e0, hk⟩ := C84_run_partial hf h hr hnd hpos hv hb calls (fun c hc => (hs c hc).1) hmax hne
  refine ⟨a0, e0, fun {objs last out} hsave hlen => ?_⟩
  have hnone : a0.protection = none := by
    have := e0
    unfold App.openFrom at this
    simp only at this
    split at this
    · simp only [Step.mk.injEq] at this
      rw [← this.1]
      unfold App.showCellBorder
      simp
    all_goals simp at this
  have hp : ∀ (calls : List (Env × Call)) {a : App}, a.protection = none → (∀ c ∈ calls, c.2 ≠ .save ∧ c.2.guard = none) → (Run a calls).protection = none := by
    intro calls
    induction calls with
    | nil => exact fun h _ => h
    | cons c cs ih =>
      intro a ha hs
      exact ih (a := a.after c.1 c.2) (GuardAs.after (q := none) ha c.1 c.2 (hs c (by simp)).2 (hs c (by simp)).1) (fun x hx => hs x (by simp [hx]))
  obtain ⟨⟨es, rest, h1, h2, _⟩, b, tree, fonts, imgs, streams, _, h3, _, _, _, _, h8⟩ := hk (hp calls hnone hs) hsave hlen
  refine ⟨⟨es, rest, h1, h2⟩, tree, h3, fun i v hv => ?_⟩
  obtain ⟨p, p1, d', c, o, q1, _, q3, _, q5, q6⟩ := h8 i v hv
  refine ⟨p, d', c, o, p1, q1, q3, q5, ?_⟩
  split at q6
  · exact Or.inl q6
  · exact Or.inr ⟨_, q6⟩

/-! ### a file that is protected -/

def encObjs : List Obj := [
  ⟨1, b!"\n<< /Type /Catalog /Pages 2 0 R >>\n"⟩,
  ⟨2, b!"\n<< /Type /Pages /Count 2 /Kids [ 3 0 R 4 0 R ] >>\n"⟩,
  ⟨3, b!"\n<< /Type /Page /Parent 2 0 R /MediaBox [ 0 0 595 842 ] /Resources 5 0 R /Contents 6 0 R >>\n"⟩,
  ⟨4, b!"\n<< /Type /Page /Parent 2 0 R /MediaBox [ 0 0 200 100 ] /Resources 5 0 R /Contents 7 0 R >>\n"⟩,
  ⟨5, b!"\n<< /Font << /F1 8 0 R >> >>\n"⟩,
  ⟨6, b!"\n<< /Length 3 >>\nstream\n4\n" ++ [221] ++ b!"\nendstream\n"⟩,
  ⟨7, b!"\n<< /Length 3 >>\nstream\nI" ++ [233] ++ b!"H\nendstream\n"⟩,
  ⟨8, b!"\n<< /Type /Font >>\n"⟩,
  ⟨9, b!"\n<< /Filter /Standard /V 1 /R 2 /O <08243BD7EBA85CA79E6BB6AD6AE57A68BBD9CAA48F1ECEAC78A45D61E6A54FE6> /U <E6CA7E146A086521EC6F7112F068273EEC40B6981848841CD838C5B9841E6D49> /P -60 >>\n"⟩]

/-- the bytes before the table: nine objects, the last of which is the dictionary of the protection -/
def encPre : Bytes := b!"%PDF-1.4" ++
  b!"\n1 0 obj" ++ (b!"\n<< /Type /Catalog /Pages 2 0 R >>\n") ++ b!"endobj" ++
  b!"\n2 0 obj" ++ (b!"\n<< /Type /Pages /Count 2 /Kids [ 3 0 R 4 0 R ] >>\n") ++ b!"endobj" ++
  b!"\n3 0 obj" ++ (b!"\n<< /Type /Page /Parent 2 0 R /MediaBox [ 0 0 595 842 ] /Resources 5 0 R /Contents 6 0 R >>\n") ++ b!"endobj" ++
  b!"\n4 0 obj" ++ (b!"\n<< /Type /Page /Parent 2 0 R /MediaBox [ 0 0 200 100 ] /Resources 5 0 R /Contents 7 0 R >>\n") ++ b!"endobj" ++
  b!"\n5 0 obj" ++ (b!"\n<< /Font << /F1 8 0 R >> >>\n") ++ b!"endobj" ++
  b!"\n6 0 obj" ++ (b!"\n<< /Length 3 >>\nstream\n4\n" ++ [221] ++ b!"\nendstream\n") ++ b!"endobj" ++
  b!"\n7 0 obj" ++ (b!"\n<< /Length 3 >>\nstream\nI" ++ [233] ++ b!"H\nendstream\n") ++ b!"endobj" ++
  b!"\n8 0 obj" ++ (b!"\n<< /Type /Font >>\n") ++ b!"endobj" ++
  b!"\n9 0 obj" ++ (b!"\n<< /Filter /Standard /V 1 /R 2 /O <08243BD7EBA85CA79E6BB6AD6AE57A68BBD9CAA48F1ECEAC78A45D61E6A54FE6> /U <E6CA7E146A086521EC6F7112F068273EEC40B6981848841CD838C5B9841E6D49> /P -60 >>\n") ++ b!"endobj"

def encTable : Bytes := b!"0 10\n0000000000 65535 f \n0000000009 00000 n \n0000000058 00000 n \n0000000123 00000 n \n0000000229 00000 n \n0000000335 00000 n \n0000000378 00000 n \n0000000430 00000 n \n0000000482 00000 n \n0000000515 00000 n \n"

def encTrailer : Bytes := b!" /Size 10 /Root 1 0 R /Encrypt 9 0 R "

def encRaw : Bytes := encPre ++ b!"\nxref\n" ++ encTable ++ b!"trailer\n<<" ++ encTrailer ++ b!">>\nstartxref\n711\n%%EOF\n"

def encRows : List (Nat × Entry) := [(0, ⟨0, 65535, false⟩), (1, ⟨9, 0, true⟩), (2, ⟨58, 0, true⟩), (3, ⟨123, 0, true⟩), (4, ⟨229, 0, true⟩), (5, ⟨335, 0, true⟩), (6, ⟨378, 0, true⟩), (7, ⟨430, 0, true⟩), (8, ⟨482, 0, true⟩), (9, ⟨515, 0, true⟩)]

theorem encTable_is : SectionIs encTable encRows := by
  have num : ∀ (s : Bytes), s ≠ [] → s.all isDec = true → Numeral s (decVal s) := fun s h1 h2 => ⟨h1, h2, rfl⟩
  have r0 : RowIs b!"0000000000 65535 f \n" ⟨0, 65535, false⟩ := rowIs_of b!"0000000000" b!"65535" b!" \n" rfl (by decide) (by decide)
  have r1 : RowIs b!"0000000009 00000 n \n" ⟨9, 0, true⟩ := rowIs_of b!"0000000009" b!"00000" b!" \n" rfl (by decide) (by decide)
  have r2 : RowIs b!"0000000058 00000 n \n" ⟨58, 0, true⟩ := rowIs_of b!"0000000058" b!"00000" b!" \n" rfl (by decide) (by decide)
  have r3 : RowIs b!"0000000123 00000 n \n" ⟨123, 0, true⟩ := rowIs_of b!"0000000123" b!"00000" b!" \n" rfl (by decide) (by decide)
  have r4 : RowIs b!"0000000229 00000 n \n" ⟨229, 0, true⟩ := rowIs_of b!"0000000229" b!"00000" b!" \n" rfl (by decide) (by decide)
  have r5 : RowIs b!"0000000335 00000 n \n" ⟨335, 0, true⟩ := rowIs_of b!"0000000335" b!"00000" b!" \n" rfl (by decide) (by decide)
  have r6 : RowIs b!"0000000378 00000 n \n" ⟨378, 0, true⟩ := rowIs_of b!"0000000378" b!"00000" b!" \n" rfl (by decide) (by decide)
  have r7 : RowIs b!"0000000430 00000 n \n" ⟨430, 0, true⟩ := rowIs_of b!"0000000430" b!"00000" b!" \n" rfl (by decide) (by decide)
  have r8 : RowIs b!"0000000482 00000 n \n" ⟨482, 0, true⟩ := rowIs_of b!"0000000482" b!"00000" b!" \n" rfl (by decide) (by decide)
  have r9 : RowIs b!"0000000515 00000 n \n" ⟨515, 0, true⟩ := rowIs_of b!"0000000515" b!"00000" b!" \n" rfl (by decide) (by decide)
  exact SectionIs.sub (w := b!"\n") (s := []) (m := []) (num b!"0" (by decide) rfl) (num b!"10" (by decide) rfl) ⟨[], 10, rfl, by decide, Or.inl rfl⟩ (.cons r0 (.cons r1 (.cons r2 (.cons r3 (.cons r4 (.cons r5 (.cons r6 (.cons r7 (.cons r8 (.cons r9 .nil)))))))))) .nil

def encVals : List (Bytes × Val) := [(b!"Size", .num 10), (b!"Root", .ref 1), (b!"Encrypt", .ref 9)]

set_option maxRecDepth 20000 in
theorem encRaw_is : StdFile encRaw encVals encRows encObjs := by
  refine ⟨encPre, 10, b!"\n", encTable, b!"\n", encTrailer, b!"\n", b!"\n", b!"711", b!"\n", b!"\n", by decide +kernel, Or.inl rfl,
    ⟨[], 10, rfl, by decide, Or.inl rfl⟩, encTable_is, by decide, by decide, stdText_of (by decide +kernel) ⟨_, rfl, rfl⟩, by decide, by decide, ⟨[], 10, rfl, by decide, Or.inl rfl⟩,
    ⟨by decide, by decide, by decide +kernel⟩, ⟨[], 10, rfl, by decide, Or.inl rfl⟩, by decide, ?_, by decide +kernel, by decide +kernel,
    noRow_of_tails (by decide +kernel), by decide +kernel, noRow_of_tails (by decide +kernel)⟩
  exact .free rfl (.used rfl rfl (by decide) ⟨b!"1", 32, 32, encRaw.drop 57, ⟨by decide, by decide, by decide⟩, by decide, by decide, by decide +kernel, by decide +kernel⟩
    (.used rfl rfl (by decide) ⟨b!"2", 32, 32, encRaw.drop 122, ⟨by decide, by decide, by decide⟩, by decide, by decide, by decide +kernel, by decide +kernel⟩
    (.used rfl rfl (by decide) ⟨b!"3", 32, 32, encRaw.drop 228, ⟨by decide, by decide, by decide⟩, by decide, by decide, by decide +kernel, by decide +kernel⟩
    (.used rfl rfl (by decide) ⟨b!"4", 32, 32, encRaw.drop 334, ⟨by decide, by decide, by decide⟩, by decide, by decide, by decide +kernel, by decide +kernel⟩
    (.used rfl rfl (by decide) ⟨b!"5", 32, 32, encRaw.drop 377, ⟨by decide, by decide, by decide⟩, by decide, by decide, by decide +kernel, by decide +kernel⟩
    (.used rfl rfl (by decide) ⟨b!"6", 32, 32, encRaw.drop 429, ⟨by decide, by decide, by decide⟩, by decide, by decide, by decide +kernel, by decide +kernel⟩
    (.used rfl rfl (by decide) ⟨b!"7", 32, 32, encRaw.drop 481, ⟨by decide, by decide, by decide⟩, by decide, by decide, by decide +kernel, by decide +kernel⟩
    (.used rfl rfl (by decide) ⟨b!"8", 32, 32, encRaw.drop 514, ⟨by decide, by decide, by decide⟩, by decide, by decide, by decide +kernel, by decide +kernel⟩
    (.used rfl rfl (by decide) ⟨b!"9", 32, 32, encRaw.drop 710, ⟨by decide, by decide, by decide⟩, by decide, by decide, by decide +kernel, by decide +kernel⟩
    .nil)))))))))

set_option maxRecDepth 20000 in
theorem encObjs_dicts : ∀ i : Int, 1 ≤ i ∧ i ≤ 5 → StdDict encObjs i (runDict i) := by
  have o1 : StdDict encObjs 1 (runDict 1) := stdDict_of (x := b!" /Type /Catalog /Pages 2 0 R ") (by decide) (by decide) rfl (stdText_of (by decide +kernel) ⟨_, rfl, rfl⟩)
  have o2 : StdDict encObjs 2 (runDict 2) := stdDict_of (x := b!" /Type /Pages /Count 2 /Kids [ 3 0 R 4 0 R ] ") (by decide) (by decide) rfl (stdText_of (by decide +kernel) ⟨_, rfl, rfl⟩)
  have o3 : StdDict encObjs 3 (runDict 3) := stdDict_of (x := b!" /Type /Page /Parent 2 0 R /MediaBox [ 0 0 595 842 ] /Resources 5 0 R /Contents 6 0 R ") (by decide) (by decide) rfl (stdText_of (by decide +kernel) ⟨_, rfl, by rfl⟩)
  have o4 : StdDict encObjs 4 (runDict 4) := stdDict_of (x := b!" /Type /Page /Parent 2 0 R /MediaBox [ 0 0 200 100 ] /Resources 5 0 R /Contents 7 0 R ") (by decide) (by decide) rfl (stdText_of (by decide +kernel) ⟨_, rfl, by rfl⟩)
  have o5 : StdDict encObjs 5 (runDict 5) := stdDict_of (x := b!" /Font << /F1 8 0 R >> ") (by decide) (by decide) rfl (stdText_of (by decide +kernel) ⟨_, rfl, rfl⟩)
  intro i hi
  have : i = 1 ∨ i = 2 ∨ i = 3 ∨ i = 4 ∨ i = 5 := by omega
  rcases this with rfl | rfl | rfl | rfl | rfl <;> assumption

theorem encObjs_linked : LinkedDoc encObjs 1 (fun i => 1 ≤ i ∧ i ≤ 5) (fun _ => False) (fun i => i = 6 ∨ i = 7) runDict := by
  refine ⟨fun i hi => encObjs_dicts i (hi.elim id False.elim), fun i hi => ⟨id, by omega⟩, fun i hi => hi.elim, by decide, ?_, ?_, ?_, ?_, ?_, ?_, ?_, fun i hi => hi.elim, ?_⟩
  · intro k n h
    simp [runDict] at h
    obtain ⟨rfl, rfl⟩ := h
    exact ⟨by decide, by decide⟩
  · intro v h
    simp [runDict] at h
    exact ⟨2, h, by decide⟩
  · intro i hi v h
    rcases run_cases hi with rfl | rfl | rfl | rfl | rfl <;> simp [runDict] at h
    exact ⟨[3, 4], by simp, h, by simp⟩
  · intro i hi v h
    rcases run_cases hi with rfl | rfl | rfl | rfl | rfl <;> simp [runDict] at h
    · exact Or.inl ⟨5, h, by decide⟩
    · exact Or.inl ⟨5, h, by decide⟩
  · left
    intro i hi v h
    rcases run_cases hi with rfl | rfl | rfl | rfl | rfl <;> simp [runDict] at h
    · exact ⟨5, h⟩
    · exact ⟨5, h⟩
  · intro i hi
    refine ⟨?_, ?_, ?_⟩
    · intro k n h
      rcases run_cases hi with rfl | rfl | rfl | rfl | rfl <;> simp [runDict] at h <;> obtain ⟨rfl, rfl⟩ := h <;> exact ⟨by decide, by decide⟩
    · intro v h
      rcases run_cases hi with rfl | rfl | rfl | rfl | rfl <;> simp [runDict] at h
      refine Or.inr ⟨_, h, ?_⟩
      intro x hx
      simp at hx
      subst hx
      exact ⟨8, rfl, by unfold Readable; omega⟩
    · intro v h
      rcases run_cases hi with rfl | rfl | rfl | rfl | rfl <;> simp [runDict] at h
  · intro i hi v h
    rcases run_cases hi with rfl | rfl | rfl | rfl | rfl <;> simp [runDict] at h
    · exact Or.inl ⟨6, h, by unfold Readable; omega, by simp⟩
    · exact Or.inl ⟨7, h, by unfold Readable; omega, by simp⟩
  · intro i hi
    rcases hi with rfl | rfl
    · exact ⟨_, rfl⟩
    · exact ⟨_, rfl⟩

def encPages : List PageC := [⟨3, 6, [52, 10, 221]⟩, ⟨4, 7, [73, 233, 72]⟩]

set_option maxRecDepth 20000 in
theorem encObjs_held (unzip : Bytes → Option Bytes) : Held unzip ⟨1, tableOf encRows, encObjs, []⟩ (fun i => 1 ≤ i ∧ i ≤ 5) (fun _ => False) (fun i => i = 6 ∨ i = 7) runDict 2
    [.leaf 3, .leaf 4] encPages := by
  have h := encObjs_dicts
  refine ⟨⟨⟨_, h 1 (by decide), rfl, by simp [runDict]⟩, by decide, h 2 (by decide), ⟨rfl, ⟨rfl, by simp [runDict]⟩, by simp⟩, ?_, ?_, ⟨_, h 3 (by decide), rfl, rfl, ?_⟩, ⟨_, h 4 (by decide), rfl, rfl, ?_⟩, trivial⟩,
    encObjs_linked, rfl, by decide, ?_⟩
  · exact ⟨by decide, by simp [runDict]⟩
  · exact ⟨2, rfl, by simp [runDict]⟩
  · simp [runDict]
  · simp [runDict]
  · intro x hx
    have hp6 : readProperties (b!"\n<< /Length 3 >>\nstream\n" ++ [52, 10, 221] ++ b!"\nendstream\n") = .ok [⟨b!"Length", b!"3"⟩] := by decide +kernel
    have hp7 : readProperties (b!"\n<< /Length 3 >>\nstream\n" ++ [73, 233, 72] ++ b!"\nendstream\n") = .ok [⟨b!"Length", b!"3"⟩] := by decide +kernel
    simp [encPages] at hx
    rcases hx with rfl | rfl
    · exact ⟨rfl, by decide, ⟨6, _⟩, rfl, ⟨_, b!"\n<< /Length 3 >>\n", b!"\n", [52, 10, 221], b!"\n", b!"\n", b!"3", 52, hp6, rfl, by decide +kernel, by decide, rfl, by decide +kernel, by decide, by decide, rfl,
        by decide, by decide, Or.inl ⟨rfl, rfl⟩⟩⟩
    · exact ⟨rfl, by decide, ⟨7, _⟩, rfl, ⟨_, b!"\n<< /Length 3 >>\n", b!"\n", [73, 233, 72], b!"\n", b!"\n", b!"3", 73, hp7, rfl, by decide +kernel, by decide, rfl, by decide +kernel, by decide, by decide, rfl,
        by decide, by decide, Or.inl ⟨rfl, rfl⟩⟩⟩

def encViews : List (List (Bytes × Val) × Bytes) := viewsOf runDict encPages

def encMd5 (x : Bytes) : Bytes := (x.reverse ++ List.replicate 16 0).take 16

/-- the values of `/O` and `/U` -/
def encO : Bytes := [8, 36, 59, 215, 235, 168, 92, 167, 158, 107, 182, 173, 106, 229, 122, 104, 187, 217, 202, 164, 143, 30, 206, 172, 120, 164, 93, 97, 230, 165, 79, 230]
def encU : Bytes := [230, 202, 126, 20, 106, 8, 101, 33, 236, 111, 113, 18, 240, 104, 39, 62, 236, 64, 182, 152, 24, 72, 132, 28, 216, 56, 197, 185, 132, 30, 109, 73]

/-- the file is saved, and short -/
def encCheck (r : Step App) : Bool :=
  match r.state.build plainEnv with
  | .ok b => r.state.protection.isNone && decide ((toStream b.doc.objs b.doc.rootObjID b.lastID.toNat none).length < 10 ^ 10)
  | _ => false

set_option maxRecDepth 20000 in
theorem encCheck_eq : encCheck (App.openFrom runEnv {} encRaw) = true := by decide +kernel

theorem encCheck_saves {r : Step App} (h : encCheck r = true) : ∃ objs last out, Saves plainEnv (Run r.state []) objs last out ∧ out.length < 10 ^ 10 := by
  unfold encCheck at h
  split at h
  · rename_i b hb
    simp only [Bool.and_eq_true, decide_eq_true_eq, Option.isNone_iff_eq_none] at h
    exact ⟨_, _, _, ⟨b, hb, rfl, rfl, saveTo_eq hb⟩, by rw [show (Run r.state []).protection = none from h.1]; exact h.2⟩
  · simp at h

set_option maxRecDepth 20000 in
/-- the file is protected with the password `secret`: `/U` confirms the key, and the contents of the pages are `0 g` and `1 g` -/
theorem C95_witness : rc4Cip (docKey encMd5 b!"secret" encO (-60) []) encU = .ok (padPassword []) ∧
    rc4Cip (objKey encMd5 (docKey encMd5 b!"secret" encO (-60) []) 6 0) [52, 10, 221] = .ok b!"0 g" ∧
    rc4Cip (objKey encMd5 (docKey encMd5 b!"secret" encO (-60) []) 7 0) [73, 233, 72] = .ok b!"1 g" := by
  simp only [rc4Cip_pack]
  refine ⟨by decide +kernel, by decide +kernel, by decide +kernel⟩

/-- **C95 is violated.**  Opening this protected file and saving it makes a file without protection whose page 2 has the enciphered content. -/
theorem C95_refuted : ∃ a0 objs last out, EntryIs encVals b!"Encrypt" (.ref 9) ∧ App.openFrom runEnv {} encRaw = ⟨a0, .ok ()⟩ ∧ Saves plainEnv a0 objs last out ∧
    (∃ es rest, readTable out = some (es, rest) ∧ TrailerAt rest es.length 1 none) ∧ ∃ tree p d' c o, StdDoc ⟨1, [], objs, []⟩ tree ∧ tree.pages[1]? = some p ∧ StdDict objs p d' ∧
      d'.lookup b!"Contents" = some (.ref c) ∧ OnlyObj objs c o ∧ (HoldsStream plainEnv.unzip o.data [73, 233, 72] ∨ ∃ drawn, StreamObject o.data ([73, 233, 72] ++ b!"\n" ++ drawn)) := by
  have hv : Shown plainEnv.unzip ⟨((1 : Nat) : Int), tableOf encRows, encObjs, []⟩ encViews := ⟨_, _, _, _, _, _, _, encObjs_held _, rfl⟩
  have hbox : ∀ v ∈ encViews, ∃ box : List ℚ, EntryIs v.1 b!"MediaBox" (.arr (box.map .num)) := by
    intro v hv
    simp only [encViews, viewsOf, encPages, List.map_cons, List.map_nil, List.mem_cons, List.not_mem_nil, or_false] at hv
    rcases hv with rfl | rfl
    · exact ⟨[0, 0, 595, 842], rfl, by simp [runDict, setVal]⟩
    · exact ⟨[0, 0, 200, 100], rfl, by simp [runDict, setVal]⟩
  have hr : EntryIs encVals b!"Root" (.ref ((1 : Nat) : Int)) := ⟨rfl, by simp [encVals]⟩
  have he : EntryIs encVals b!"Encrypt" (.ref ((9 : Nat) : Int)) := ⟨rfl, by simp [encVals]⟩
  have hn : ReadsNums (fun s => (runEnv.parseFloat s).isSome) := fun _ _ _ => rfl
  have hne : ([] : List (Env × Call)).foldl (fun l c => c.2.edit l) encViews ≠ [] := by simp [encViews, viewsOf, encPages]
  have hmax : maxID encObjs + 2 * ([] : List (Env × Call)).length < 2 ^ 63 := by decide
  obtain ⟨a0, e0, h⟩ := C95_refuted_dropped hn encRaw_is hr he (by decide) (by decide) hv hbox [] (by simp) hmax hne
  have hf := encCheck_eq
  rw [e0] at hf
  obtain ⟨objs, last, out, hs, hlen⟩ := encCheck_saves hf
  obtain ⟨h1, tree, h2, h3⟩ := h hs hlen
  obtain ⟨p, d', c, o, q1, q2, q3, q4, q5⟩ := h3 1 _ rfl
  exact ⟨a0, objs, last, out, he, e0, hs, h1, tree, p, d', c, o, h2, q1, q2, q3, q4, q5⟩

end Verif
