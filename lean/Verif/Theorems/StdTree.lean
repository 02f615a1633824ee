import Verif.Lemmas.StdDict
import Verif.Theorems.Pages
/-
C79: pages are found where the standard says.
-/
namespace Verif
open Spec

theorem StdDict.entries {objs : List Obj} {id : Int} {d : List (Bytes × Val)} (h : StdDict objs id d) :
    ∃ ps vss, Entries objs id ps ∧ List.Forall₂ EntryValues ps vss ∧ pairUp (List.zipWith (fun p l => Val.name p.key :: l) ps vss).flatten = some d ∧
      ReadAs d ps ∧ ∀ p ∈ ps, SimpleText p.rawVal ∧ SS p.rawVal ∧ GoodEntry p := by
  obtain ⟨_, _, o, a, x, b, tail, ho, hdata, ha, hb, ht, hx⟩ := h
  obtain ⟨vss, f1, f2, f3⟩ := StdText.props hx
  refine ⟨_, vss, ⟨o, ho, ?_⟩, f1, f2, readAs_of _ vss d f1 f2, ?_⟩
  · rw [hdata]
    exact readProperties_frame ha hb hx.noStream ht
  · intro p hp
    obtain ⟨vs, he⟩ := forall₂_left f1 p hp
    exact ⟨he.2.2.2, f3 p hp⟩

theorem StdDict.range {objs : List Obj} {id : Int} {d : List (Bytes × Val)} (h : StdDict objs id d) : InRange id := by
  obtain ⟨h1, h2, _⟩ := h
  unfold InRange
  omega

theorem no_name_ne {d : List (Bytes × Val)} {k : Bytes} (h : ∀ k', (k', Val.name k) ∉ d) : ∀ k' n, (k', Val.name n) ∈ d → n ≠ k := by
  rintro k' n hn rfl
  exact h k' hn

theorem valueOf_mem_key {ps : Props} {k r : Bytes} (h : valueOf ps k = some r) : ∃ p ∈ ps, p.rawVal = r := by
  unfold valueOf at h
  rw [Option.map_eq_some_iff] at h
  obtain ⟨p, h1, h2⟩ := h
  exact ⟨p, List.mem_of_find?_eq_some h1, h2⟩

/-- a value that is no name -/
theorem ReadAs.value_at {d : List (Bytes × Val)} {ps : Props} {k : Bytes} {v : Val} (h : ReadAs d ps) (hk : EntryIs d k v) (hv : ∀ n, v ≠ .name n) :
    ∃ r, valueOf ps k = some r ∧ Values r [v] := by
  obtain ⟨r, h1, h2⟩ := C78_entry h hk.1 (no_name_ne hk.2)
  refine ⟨r, h1, ?_⟩
  rcases h2 with ⟨⟨n, e⟩, _⟩ | ⟨_, h2⟩
  · exact absurd e (hv n)
  · exact h2

/-- a name that is a value is found as key -/
theorem ReadAs.name_found {d : List (Bytes × Val)} {ps : Props} {k n : Bytes} (h : ReadAs d ps) (hk : (k, Val.name n) ∈ d) : ∃ r, valueOf ps n = some r := by
  have key : ∃ p ∈ ps, p.key = n := by
    induction h with
    | nil => simp at hk
    | @name k1 n1 r r' d ps h1 h2 _ ih =>
      rcases List.mem_cons.1 hk with h | h
      · simp at h
        exact ⟨⟨n1, r'⟩, by simp, h.2.symm⟩
      · obtain ⟨p, hp, e⟩ := ih h
        exact ⟨p, by simp [hp], e⟩
    | @value k1 r v1 d ps h1 h2 _ ih =>
      rcases List.mem_cons.1 hk with h | h
      · simp at h
        exact absurd h.2.symm (h1 n)
      · obtain ⟨p, hp, e⟩ := ih h
        exact ⟨p, by simp [hp], e⟩
  obtain ⟨p, hp, e⟩ := key
  unfold valueOf
  cases hf : ps.find? (fun p => p.key = n) with
  | none => exact absurd e (by simpa using List.find?_eq_none.1 hf p hp)
  | some q => exact ⟨_, rfl⟩

theorem lookup_mem {d : List (Bytes × Val)} {k : Bytes} {v : Val} (h : d.lookup k = some v) : (k, v) ∈ d := by
  induction d with
  | nil => simp at h
  | cons e d ih =>
    obtain ⟨k1, v1⟩ := e
    rw [List.lookup_cons] at h
    cases hk : k == k1 with
    | true =>
      rw [hk] at h
      simp at h hk
      subst h; subst hk; simp
    | false =>
      rw [hk] at h
      simp [ih h]

theorem std_ref {ps : Props} {k : Bytes} {d : List (Bytes × Val)} {n : Int} (h : ReadAs d ps) (hg : ∀ p ∈ ps, SimpleText p.rawVal ∧ SS p.rawVal ∧ GoodEntry p)
    (hk : EntryIs d k (.ref n)) (hn : InRange n) : ∃ v, valueOf ps k = some v ∧ readObjIDFromDictionary v = .ok n := by
  obtain ⟨r, h1, h2⟩ := ReadAs.value_at h hk (by intro n h; cases h)
  obtain ⟨p, hp, rfl⟩ := valueOf_mem_key h1
  obtain ⟨g1, g2⟩ := hg p hp
  exact ⟨_, h1, value_ref h2 g1 g2.1 g2.2.refs hn⟩

mutual
theorem StdTree.isTree {objs : List Obj} : ∀ (t : Tree), StdTree objs t → IsTree objs t ∧ InRange t.id
  | .leaf i, h => by
    obtain ⟨d, hd, ht, hk⟩ := h
    obtain ⟨ps, vss, he, _, _, hr, _⟩ := StdDict.entries hd
    refine ⟨⟨ps, he, ReadAs.name_found hr (lookup_mem ht), Or.inr (C78_no_entry hr hk.1 (no_name_ne hk.2))⟩, StdDict.range hd⟩
  | .node i kids, h => by
    obtain ⟨⟨d, hd, ht, hk, hp⟩, hl⟩ := h
    obtain ⟨ps, vss, he, _, _, hr, hg⟩ := StdDict.entries hd
    obtain ⟨l1, l2⟩ := StdTreeL.isTree kids hl
    refine ⟨⟨⟨ps, he, ReadAs.name_found hr (lookup_mem ht), ?_⟩, l1⟩, StdDict.range hd⟩
    obtain ⟨r, h1, h2⟩ := ReadAs.value_at hr hk (by intro n h; cases h)
    obtain ⟨p, hp', rfl⟩ := valueOf_mem_key h1
    obtain ⟨g1, g2⟩ := hg p hp'
    obtain ⟨v1, v2⟩ := value_refs h2 g1 g2.1 g2.2.refs (by
      intro n hn
      obtain ⟨t, ht, rfl⟩ := List.mem_map.1 hn
      exact l2 t ht)
    refine ⟨_, h1, ?_⟩
    by_cases hn : kids.map Tree.id = []
    · obtain ⟨u1, u2⟩ := hp hn
      exact Or.inr ⟨hn, v2 hn, C78_no_entry hr u1 (no_name_ne u2)⟩
    · exact Or.inl (v1 hn)
theorem StdTreeL.isTree {objs : List Obj} : ∀ (ts : List Tree), StdTreeL objs ts → IsTreeL objs ts ∧ ∀ t ∈ ts, InRange t.id
  | [], _ => ⟨trivial, by simp⟩
  | t :: ts, h => by
    obtain ⟨h1, h2⟩ := StdTree.isTree t h.1
    obtain ⟨h3, h4⟩ := StdTreeL.isTree ts h.2
    refine ⟨⟨h1, h3⟩, ?_⟩
    intro u hu
    rcases List.mem_cons.1 hu with rfl | hu
    · exact h2
    · exact h4 u hu
end

theorem StdDoc.hasTree {d : Doc} {t : Tree} (h : StdDoc d t) : HasTree d t := by
  obtain ⟨⟨c, hc, he⟩, ht⟩ := h
  obtain ⟨h1, h2⟩ := StdTree.isTree t ht
  obtain ⟨ps, vss, hent, _, _, hr, hg⟩ := StdDict.entries hc
  obtain ⟨v, k1, k2⟩ := std_ref hr hg he h2
  exact ⟨⟨ps, v, hent, k1, k2⟩, h1⟩

/-- **C79** (partial) The pages found are the leaves of the page tree that an independent reader of the objects finds.
Missing: dictionaries in other notations (see C78), arrays of kids that are objects of their own (refuted below), the word `stream` in a string (refuted below),
names that are values and have the same letters as the keys looked up. -/
theorem C79_pages_partial {d : Doc} {t : Tree} (h : StdDoc d t) : getPageObjIDs d = .ok t.pages ∧ numberOfPages d = .ok t.pages.length :=
  C47_pages_in_document_order d t (StdDoc.hasTree h)

/-! ### an example, and where it fails -/

theorem intRefs_noDot {x : Bytes} (h : 46 ∉ x) : IntRefs x := by
  intro w g n hi _ _
  have key : ∀ w ∈ words x, (46 : UInt8) ∉ w := by
    intro w hw hc
    rcases words_mem x [] w hw 46 hc with h' | ⟨h', _⟩
    · simp at h'
    · exact h h'
  exact ⟨key w (hi.subset (by simp)), key g (hi.subset (by simp))⟩

/-- objects without stream, with one line end around the dictionary -/
theorem stdDict_of {objs : List Obj} {id : Int} {x : Bytes} {d : List (Bytes × Val)} (h0 : 0 < id) (h1 : id < 2 ^ 63) (ho : OnlyObj objs id ⟨id, b!"\n<<" ++ x ++ b!">>\n"⟩)
    (hx : StdText x d) : StdDict objs id d :=
  ⟨h0, h1, _, b!"\n", x, b!"\n", [], ho, by simp, by decide, by decide, Or.inl rfl, hx⟩

theorem stdText_of {x : Bytes} {d : List (Bytes × Val)} (h : simpleFrom .ground x = true ∧ ¬ b!"stream" <:+: x ∧ 46 ∉ x) (hr : ReadsVal (b!"<<" ++ x ++ b!">>") (.dict d)) : StdText x d :=
  ⟨h.1, h.2.1, intRefs_noDot h.2.2, hr⟩

set_option maxRecDepth 20000 in
theorem sampleDoc_std : StdDoc sampleDoc (.node 2 [.leaf 3, .node 4 [.leaf 5, .leaf 6]]) := by
  have c : StdDict sampleDoc.objs 1 [(b!"Type", .name b!"Catalog"), (b!"Pages", .ref 2)] :=
    stdDict_of (x := b!" /Type /Catalog /Pages 2 0 R ") (by decide) (by decide) rfl (stdText_of (by decide +kernel) ⟨_, rfl, rfl⟩)
  have o2 : StdDict sampleDoc.objs 2 [(b!"Type", .name b!"Pages"), (b!"Count", .num 3), (b!"Kids", .arr [.ref 3, .ref 4]), (b!"MediaBox", .arr [.num 0, .num 0, .num 595, .num 842])] :=
    stdDict_of (x := b!" /Type /Pages /Count 3 /Kids [ 3 0 R 4 0 R ] /MediaBox [0 0 595 842] ") (by decide) (by decide) rfl (stdText_of (by decide +kernel) ⟨_, rfl, by rfl⟩)
  have o3 : StdDict sampleDoc.objs 3 [(b!"Type", .name b!"Page"), (b!"Parent", .ref 2), (b!"Contents", .ref 7)] :=
    stdDict_of (x := b!" /Type /Page /Parent 2 0 R /Contents 7 0 R ") (by decide) (by decide) rfl (stdText_of (by decide +kernel) ⟨_, rfl, rfl⟩)
  have o4 : StdDict sampleDoc.objs 4 [(b!"Type", .name b!"Pages"), (b!"Count", .num 2), (b!"Kids", .arr [.ref 5, .ref 6]), (b!"Parent", .ref 2)] :=
    stdDict_of (x := b!" /Type /Pages /Count 2 /Kids [ 5 0 R 6 0 R ] /Parent 2 0 R ") (by decide) (by decide) rfl (stdText_of (by decide +kernel) ⟨_, rfl, rfl⟩)
  have o5 : StdDict sampleDoc.objs 5 [(b!"Type", .name b!"Page"), (b!"Parent", .ref 4), (b!"Contents", .ref 8)] :=
    stdDict_of (x := b!" /Type /Page /Parent 4 0 R /Contents 8 0 R ") (by decide) (by decide) rfl (stdText_of (by decide +kernel) ⟨_, rfl, rfl⟩)
  have o6 : StdDict sampleDoc.objs 6 [(b!"Type", .name b!"Page"), (b!"Parent", .ref 4), (b!"Contents", .ref 9)] :=
    stdDict_of (x := b!" /Type /Page /Parent 4 0 R /Contents 9 0 R ") (by decide) (by decide) rfl (stdText_of (by decide +kernel) ⟨_, rfl, rfl⟩)
  have page : ∀ {p q : Int}, StdPage [(b!"Type", .name b!"Page"), (b!"Parent", .ref p), (b!"Contents", .ref q)] := fun {p q} => ⟨rfl, rfl, by simp⟩
  refine ⟨⟨_, c, rfl, by simp⟩, ⟨_, o2, rfl, ⟨rfl, by simp⟩, by simp⟩, ⟨_, o3, page⟩, ⟨⟨_, o4, rfl, ⟨rfl, by simp⟩, by simp⟩, ⟨_, o5, page⟩, ⟨_, o6, page⟩, trivial⟩, trivial⟩

example : getPageObjIDs sampleDoc = .ok [3, 5, 6] := (C79_pages_partial sampleDoc_std).1

/-- kids in an object of their own -/
def indirectKids : Doc :=
  { rootObjID := 1, xrefs := [], pageSizes := []
    objs := [
      ⟨1, b!"\n<< /Type /Catalog /Pages 2 0 R >>\n"⟩,
      ⟨2, b!"\n<< /Type /Pages /Count 1 /Kids 4 0 R >>\n"⟩,
      ⟨3, b!"\n<< /Type /Page /Parent 2 0 R >>\n"⟩,
      ⟨4, b!"\n[ 3 0 R ]\n"⟩] }

set_option maxRecDepth 20000 in
/-- **C79** Pages are not found when the array of kids is an object of its own, as the standard allows (7.3.10). -/
theorem C79_refuted_indirect : numberOfPages indirectKids = .ok 0 ∧
    StdDict indirectKids.objs 1 [(b!"Type", .name b!"Catalog"), (b!"Pages", .ref 2)] ∧
    StdDict indirectKids.objs 2 [(b!"Type", .name b!"Pages"), (b!"Count", .num 1), (b!"Kids", .ref 4)] ∧
    StdDict indirectKids.objs 3 [(b!"Type", .name b!"Page"), (b!"Parent", .ref 2)] ∧
    ∃ o, OnlyObj indirectKids.objs 4 o ∧ ReadsVal o.data (.arr [.ref 3]) := by
  refine ⟨by decide +kernel, ?_, ?_, ?_, ⟨_, rfl, ⟨_, rfl, rfl⟩⟩⟩
  · exact stdDict_of (x := b!" /Type /Catalog /Pages 2 0 R ") (by decide) (by decide) rfl (stdText_of (by decide +kernel) ⟨_, rfl, rfl⟩)
  · exact stdDict_of (x := b!" /Type /Pages /Count 1 /Kids 4 0 R ") (by decide) (by decide) rfl (stdText_of (by decide +kernel) ⟨_, rfl, rfl⟩)
  · exact stdDict_of (x := b!" /Type /Page /Parent 2 0 R ") (by decide) (by decide) rfl (stdText_of (by decide +kernel) ⟨_, rfl, rfl⟩)

/-- a string with the word `stream` before the kids -/
def streamString : Doc :=
  { rootObjID := 1, xrefs := [], pageSizes := []
    objs := [
      ⟨1, b!"\n<< /Type /Catalog /Pages 2 0 R >>\n"⟩,
      ⟨2, b!"\n<< /Type /Pages /Note (downstream) /Count 1 /Kids [ 3 0 R ] >>\n"⟩,
      ⟨3, b!"\n<< /Type /Page /Parent 2 0 R >>\n"⟩] }

set_option maxRecDepth 20000 in
/-- **C79** Pages are not found when the word `stream` is in a string before the kids. -/
theorem C79_refuted_stream : numberOfPages streamString = .ok 0 ∧
    StdDict streamString.objs 1 [(b!"Type", .name b!"Catalog"), (b!"Pages", .ref 2)] ∧
    StdDict streamString.objs 3 [(b!"Type", .name b!"Page"), (b!"Parent", .ref 2)] ∧
    ∃ o, OnlyObj streamString.objs 2 o ∧ ReadsVal o.data (.dict [(b!"Type", .name b!"Pages"), (b!"Note", .lit b!"downstream"), (b!"Count", .num 1), (b!"Kids", .arr [.ref 3])]) := by
  refine ⟨by decide +kernel, ?_, ?_, ⟨_, rfl, ⟨_, rfl, rfl⟩⟩⟩
  · exact stdDict_of (x := b!" /Type /Catalog /Pages 2 0 R ") (by decide) (by decide) rfl (stdText_of (by decide +kernel) ⟨_, rfl, rfl⟩)
  · exact stdDict_of (x := b!" /Type /Page /Parent 2 0 R ") (by decide) (by decide) rfl (stdText_of (by decide +kernel) ⟨_, rfl, rfl⟩)

end Verif
