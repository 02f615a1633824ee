import Verif.Theorems.GoFile
/-!
# The pages of the files GoPdf writes (C86)
-/
namespace Verif
open Spec

/-! ### the pages: which objects they are -/

theorem viewOf_sound (ks : List Kind) : (∀ v ∈ viewOf ks, ks[v.idx]? = some (.page v.size) ∧ ∀ p ∈ v.contents, ks[p.1]? = some (.content p.2)) ∧
    (viewOf ks).Pairwise (fun v w => v.idx < w.idx) ∧ ∀ v ∈ viewOf ks, v.idx < ks.length := by
  induction ks using List.reverseRecOn with
  | nil => simp [viewOf]
  | append_singleton ks k ih =>
    obtain ⟨h1, h2, h3⟩ := ih
    have old : ∀ {i : Nat} {x : Kind}, ks[i]? = some x → (ks ++ [k])[i]? = some x := by
      intro i x h
      rw [List.getElem?_append_left (List.getElem?_eq_some_iff.1 h).1, h]
    have new : (ks ++ [k])[ks.length]? = some k := by simp
    rw [viewOf_append]
    cases k with
    | page z =>
      simp only [viewStep]
      refine ⟨?_, ?_, ?_⟩
      · intro v hv
        rcases List.mem_append.1 hv with hv | hv
        · exact ⟨old (h1 v hv).1, fun p hp => old ((h1 v hv).2 p hp)⟩
        · simp only [List.mem_singleton] at hv
          subst hv
          exact ⟨new, by simp⟩
      · rw [List.pairwise_append]
        exact ⟨h2, by simp, fun v hv w hw => by simp only [List.mem_singleton] at hw; subst hw; exact h3 v hv⟩
      · intro v hv
        rcases List.mem_append.1 hv with hv | hv
        · have := h3 v hv; simp; omega
        · simp only [List.mem_singleton] at hv
          subst hv
          simp
    | content cs =>
      simp only [viewStep]
      rcases List.eq_nil_or_concat (viewOf ks) with e | ⟨vs, v, e⟩
      · rw [e]; simp [onLast]
      · rw [List.concat_eq_append] at e
        rw [e] at h1 h2 h3 ⊢
        rw [onLast_append]
        refine ⟨?_, ?_, ?_⟩
        · intro w hw
          rcases List.mem_append.1 hw with hw | hw
          · exact ⟨old (h1 w (by simp [hw])).1, fun p hp => old ((h1 w (by simp [hw])).2 p hp)⟩
          · simp only [List.mem_singleton] at hw
            subst hw
            refine ⟨old (h1 v (by simp)).1, fun p hp => ?_⟩
            rcases List.mem_append.1 hp with hp | hp
            · exact old ((h1 v (by simp)).2 p hp)
            · simp only [List.mem_singleton] at hp
              subst hp
              exact new
        · rw [List.pairwise_append] at h2 ⊢
          refine ⟨h2.1, by simp, fun a ha b hb => ?_⟩
          simp only [List.mem_singleton] at hb
          subst hb
          exact h2.2.2 a ha v (by simp)
        · intro w hw
          rcases List.mem_append.1 hw with hw | hw
          · have := h3 w (by simp [hw]); simp; omega
          · simp only [List.mem_singleton] at hw
            subst hw
            have := h3 v (by simp)
            simp; omega
    | other =>
      simp only [viewStep]
      exact ⟨fun v hv => ⟨old (h1 v hv).1, fun p hp => old ((h1 v hv).2 p hp)⟩, h2, fun v hv => by have := h3 v hv; simp; omega⟩

theorem filter_idx {vs : List PageView} (h : vs.Pairwise (fun v w => v.idx < w.idx)) {v : PageView} (hv : v ∈ vs) : vs.filter (fun w => w.idx = v.idx) = [v] := by
  induction vs with
  | nil => simp at hv
  | cons w vs ih =>
    rw [List.pairwise_cons] at h
    rcases List.mem_cons.1 hv with rfl | hv
    · have : vs.filter (fun w => decide (w.idx = v.idx)) = [] := by
        rw [List.filter_eq_nil_iff]
        intro a ha
        have := h.1 a ha
        simp; omega
      simp [this]
    · have := h.1 v hv
      rw [List.filter_cons_of_neg (by simp; omega)]
      exact ih h.2 hv

/-! ### how they are read -/

theorem Lx.dec {s : Bytes} {us : List Lexeme} (q : ℚ) (h : Lx s us) : ∃ v, Near v q ∧ Lx (fmt2 q ++ b!" " ++ s) (.num v :: us) := by
  obtain ⟨v, hv, hl⟩ := lexes_fmt2 q (e := 32) rfl
  exact ⟨v, hv, Lx.const _ hl h⟩

theorem Lx.refList {s : Bytes} {us : List Lexeme} (h : Lx s us) : ∀ l : List Nat,
    Lx (refsText l ++ s) (l.flatMap (fun i => [Lexeme.num ((i + 1 : ℕ) : Int), .num 0, .op b!"R"]) ++ us)
  | [] => h
  | i :: l => by
    have := Lx.const b!" " (ts := []) (by decide +kernel) (Lx.num ((i + 1 : ℕ) : Int) (by simp [ends]; decide) (Lx.const b!" 0 R " (ts := [.num 0, .op b!"R"]) (by decide +kernel) (Lx.refList h l)))
    rw [itoa_natCast] at this
    refine (Lx.of_eq this ?_ :)
    simp [refsText]

theorem read_refList (b : Bool) (r : List (Bool × List Val)) : ∀ (l : List Nat) (m : List Val),
    (l.flatMap (fun i => [Lexeme.num (((i + 1 : ℕ) : Int) : ℚ), .num 0, .op b!"R"])).foldl readStep (some ((b, m) :: r)) = some ((b, (l.map (fun i => Val.ref ((i + 1 : ℕ) : Int))).reverse ++ m) :: r)
  | [], _ => rfl
  | i :: l, m => by
    rw [List.flatMap_cons, List.foldl_append]
    simp only [List.foldl_cons, List.foldl_nil, readStep, if_true]
    rw [if_pos (by exact ⟨trivial, Rat.den_intCast _⟩), read_refList b r l, Rat.num_intCast]
    simp

theorem catalog_reads : DictObject b!"\n<<\n  /Type /Catalog\n  /Pages 2 0 R\n>>\n" [(b!"Type", .name b!"Catalog"), (b!"Pages", .ref 2)] := by
  refine ⟨⟨[.dictOpen, .name b!"Type", .name b!"Catalog", .name b!"Pages", .num 2, .num 0, .op b!"R", .dictClose], by decide +kernel, ?_⟩, by decide⟩
  simp [valueOfToks, readStep, pairUp]

theorem pages_reads (z : GRect) (n : Nat) (l : List Nat) : ∃ w h, Near w z.w ∧ Near h z.h ∧
    DictObject (b!"\n<<\n  /Type /Pages\n  /MediaBox [ 0 0 " ++ fmt2 z.w ++ b!" " ++ fmt2 z.h ++ b!" ]\n  /Count " ++ itoa n ++ b!"\n  /Kids [ " ++ refsText l ++ b!" ]\n>>\n")
      [(b!"Type", .name b!"Pages"), (b!"MediaBox", .arr [.num 0, .num 0, .num w, .num h]), (b!"Count", .num n), (b!"Kids", .arr (l.map (fun i => Val.ref ((i + 1 : ℕ) : Int))))] := by
  have h1 := Lx.refList (Lx.last (ts := [.close, .dictClose]) b!" ]\n>>\n" (by decide +kernel)) l
  have h2 := Lx.num (n : Int) (by simp [ends]; decide) (Lx.const (ts := [.name b!"Kids", .open]) b!"\n  /Kids [ " (by decide +kernel) h1)
  have h3 := Lx.const (ts := [.close, .name b!"Count"]) b!"]\n  /Count " (by decide +kernel) h2
  obtain ⟨h, hh, h4⟩ := Lx.dec z.h h3
  obtain ⟨w, hw, h5⟩ := Lx.dec z.w h4
  have h6 := Lx.const (ts := [.dictOpen, .name b!"Type", .name b!"Pages", .name b!"MediaBox", .open, .num 0, .num 0]) b!"\n<<\n  /Type /Pages\n  /MediaBox [ 0 0 " (by decide +kernel) h5
  refine ⟨w, h, hw, hh, Lx.reads (Lx.of_eq h6 ?_) ?_, by simp only [List.map_cons, List.map_nil]; decide⟩
  · simp
  · unfold valueOfToks
    simp only [List.cons_append, List.nil_append, List.foldl_append, List.foldl_cons, List.foldl_nil, readStep]
    rw [read_refList]
    simp [readStep, pairUp]

theorem page_toks : List.foldl readStep (some [(false, [])]) [.dictOpen, .name b!"Type", .name b!"Page", .name b!"Parent", .num 2, .num 0, .op b!"R", .name b!"Resources", .num 3, .num 0, .op b!"R", .name b!"Contents"] =
    some [(true, [Val.name b!"Contents", .ref 3, .name b!"Resources", .ref 2, .name b!"Parent", .name b!"Page", .name b!"Type"]), (false, [])] := by simp [readStep]

/-- a page with one content -/
theorem page_reads (m : Nat) (z : Option GRect) : ∃ d, DictObject (b!"\n<<\n  /Type /Page\n  /Parent 2 0 R\n  /Resources " ++ b!"3 0 R" ++ b!"\n  /Contents " ++ refsText [m] ++ b!"\n" ++
      (match z with
        | some s => b!" /MediaBox [ 0 0 " ++ fmt2 s.w ++ b!" " ++ fmt2 s.h ++ b!" ]\n"
        | none => []) ++ b!">>\n") d ∧
    d.lookup b!"Type" = some (.name b!"Page") ∧ d.lookup b!"Parent" = some (.ref 2) ∧ d.lookup b!"Resources" = some (.ref 3) ∧ (match z with
      | some z => MediaIs (d.lookup b!"MediaBox") z
      | none => d.lookup b!"MediaBox" = none) ∧ d.lookup b!"Contents" = some (.ref ((m + 1 : ℕ) : Int)) := by
  cases z with
  | none =>
    have h1 := Lx.refList (Lx.last (ts := [.dictClose]) b!"\n>>\n" (by decide +kernel)) [m]
    have h2 := Lx.const (ts := [.dictOpen, .name b!"Type", .name b!"Page", .name b!"Parent", .num 2, .num 0, .op b!"R", .name b!"Resources", .num 3, .num 0, .op b!"R", .name b!"Contents"])
      b!"\n<<\n  /Type /Page\n  /Parent 2 0 R\n  /Resources 3 0 R\n  /Contents " (by decide +kernel) h1
    refine ⟨[(b!"Type", .name b!"Page"), (b!"Parent", .ref 2), (b!"Resources", .ref 3), (b!"Contents", .ref ((m + 1 : ℕ) : Int))],
      ⟨Lx.reads (Lx.of_eq h2 ?_) ?_, by simp only [List.map_cons, List.map_nil]; decide⟩, rfl, rfl, rfl, rfl, rfl⟩
    · simp
    · unfold valueOfToks
      rw [List.foldl_append, page_toks, List.foldl_append, read_refList]
      simp [readStep, pairUp]
  | some z =>
    have h1 := Lx.last (ts := [.close, .dictClose]) b!"]\n>>\n" (by decide +kernel)
    obtain ⟨h, hh, h2⟩ := Lx.dec z.h h1
    obtain ⟨w, hw, h3⟩ := Lx.dec z.w h2
    have h4 := Lx.refList (Lx.const (ts := [.name b!"MediaBox", .open, .num 0, .num 0]) b!"\n /MediaBox [ 0 0 " (by decide +kernel) h3) [m]
    have h5 := Lx.const (ts := [.dictOpen, .name b!"Type", .name b!"Page", .name b!"Parent", .num 2, .num 0, .op b!"R", .name b!"Resources", .num 3, .num 0, .op b!"R", .name b!"Contents"])
      b!"\n<<\n  /Type /Page\n  /Parent 2 0 R\n  /Resources 3 0 R\n  /Contents " (by decide +kernel) h4
    refine ⟨[(b!"Type", .name b!"Page"), (b!"Parent", .ref 2), (b!"Resources", .ref 3), (b!"Contents", .ref ((m + 1 : ℕ) : Int)), (b!"MediaBox", .arr [.num 0, .num 0, .num w, .num h])],
      ⟨Lx.reads (Lx.of_eq h5 ?_) ?_, by simp only [List.map_cons, List.map_nil]; decide⟩, rfl, rfl, rfl, ⟨w, h, hw, hh, rfl⟩, rfl⟩
    · simp
    · unfold valueOfToks
      rw [List.foldl_append, page_toks, List.foldl_append, read_refList]
      simp [readStep, pairUp]

theorem content_reads {env : GEnv} {g : Gp} {id : Nat} {cs : List GCache} {b : Bytes} (hp : g.protection = none) (hz : ∀ l b, env.unzip (env.zipLevel l b) = some b)
    (h : (GObj.content [] cs).build env g id = .ok b) : ∃ s d data, cachesStream g.fonts cs = .ok s ∧ StreamIs b d data ∧
      (d.lookup b!"Filter" = none ∧ data = s ∨ d.lookup b!"Filter" = some (.name b!"FlateDecode") ∧ env.unzip data = some s) := by
  cases hc : cachesStream g.fonts cs with
  | ok s =>
    simp only [GObj.build, hc, bind, Res.bind, hp, sealed, List.nil_append, Option.isNone_none, Bool.and_true, Res.ok.injEq] at h
    by_cases hl : g.level = 0
    · have hx := Lx.const (ts := [.dictOpen, .name b!"Length"]) b!"<<\n/Length " rfl <| Lx.num s.length (by rfl) <| Lx.last (ts := [.dictClose]) b!"\n>>\n" rfl
      simp only [hl] at h
      refine ⟨s, [(b!"Length", .num s.length)], s, rfl, ⟨b!"<<\n/Length " ++ itoa s.length ++ b!"\n>>\n", [], ⟨Lx.reads (by simpa using hx) ?_, by simp⟩, ?_, Or.inl rfl, by simp⟩,
        Or.inl ⟨rfl, rfl⟩⟩
      · simp [valueOfToks, readStep, pairUp]
      · rw [← h]; simp
    · have hx := Lx.const (ts := [.dictOpen, .name b!"Filter", .name b!"FlateDecode", .name b!"Length"]) b!"<<\n/Filter/FlateDecode/Length " rfl <|
        Lx.num (env.zipLevel g.level s).length (by rfl) <| Lx.last (ts := [.dictClose]) b!"\n>>\n" rfl
      refine ⟨s, [(b!"Filter", .name b!"FlateDecode"), (b!"Length", .num (env.zipLevel g.level s).length)], env.zipLevel g.level s, rfl,
        ⟨b!"<<\n/Filter/FlateDecode/Length " ++ itoa (env.zipLevel g.level s).length ++ b!"\n>>\n", b!"\n", ⟨Lx.reads (by simpa using hx) ?_, by simp⟩, ?_, Or.inr rfl, by rfl⟩,
        Or.inr ⟨rfl, hz _ _⟩⟩
      · simp [valueOfToks, readStep, pairUp]
      · rw [← h]; simp [hl]
  | err e => simp only [GObj.build, hc, bind, Res.bind] at h; simp at h
  | panic => simp only [GObj.build, hc, bind, Res.bind] at h; simp at h
  | hang => simp only [GObj.build, hc, bind, Res.bind] at h; simp at h

theorem exists_forall₂ {α β : Type} {P : α → β → Prop} : ∀ {l : List α}, (∀ a ∈ l, ∃ b, P a b) → ∃ m, List.Forall₂ P l m
  | [], _ => ⟨[], .nil⟩
  | a :: l, h => by
    obtain ⟨b, hb⟩ := h a (by simp)
    obtain ⟨m, hm⟩ := exists_forall₂ (l := l) (fun x hx => h x (by simp [hx]))
    exact ⟨b :: m, .cons hb hm⟩

theorem objAt_succ (bs : List Bytes) (k : Nat) (b : Bytes) (h : bs[k]? = some b) : objAt (bs.map (b!"\n" ++ ·)) (k + 1) = some (b!"\n" ++ b) := by
  unfold objAt
  rw [if_neg (by omega), Nat.add_sub_cancel, List.getElem?_map, h]
  rfl

theorem kind_page {o : GObj} {z : Option GRect} (h : o.Later) (hk : o.kind = .page z) : o = .page [] b!"3 0 R" z := by
  cases o <;> simp_all [GObj.kind, GObj.Later]

theorem kind_content {o : GObj} {cs : List GCache} (h : o.Later) (hk : o.kind = .content cs) : o = .content [] cs := by
  cases o <;> simp_all [GObj.kind, GObj.Later]

/-- an object that is not one of the first three -/
theorem later_of {slots : List GSlot} (h : Laid slots) {k : Nat} {s : GSlot} (hs : slots[k]? = some s) (hk : s.obj.kind ≠ .other) : s.Later := by
  obtain ⟨fs, xs, rest, rfl, hr⟩ := h
  match k, hs with
  | 0, hs => simp at hs; subst hs; simp [GObj.kind] at hk
  | 1, hs => simp at hs; subst hs; simp [GObj.kind] at hk
  | 2, hs => simp at hs; subst hs; simp [GObj.kind] at hk
  | k + 3, hs =>
    simp only [List.getElem?_cons_succ] at hs
    exact hr s (List.mem_of_getElem? hs)

/-- the page tree of the file -/
theorem tree_of {env : GEnv} {g : Gp} {bs : List Bytes} (hw : g.Whole) (hp : g.protection = none) (hz : ∀ l b, env.unzip (env.zipLevel l b) = some b)
    (hb : GoBuilds env g.prepare 0 g.prepare.slots bs) (hs : ∀ p ∈ sheetsOf g.kinds, p.2 ≠ []) :
    ∃ pages : List (Option GRect × Bytes), List.Forall₂ (fun p q => q.1 = p.1 ∧ cachesStream g.fonts p.2 = .ok q.2) (sheetsOf g.kinds) pages ∧
      TreeIs env.unzip (bs.map (b!"\n" ++ ·)) g.pageSize pages := by
  obtain ⟨vok, vsort, _⟩ := viewOf_sound g.kinds
  -- what is built
  have built : ∀ (k : Nat) (s : GSlot), g.slots[k]? = some s → ∃ h b, g.Same h ∧ (updObj (viewOf g.kinds) k s.obj).build env h (k + 1) = .ok b ∧ bs[k]? = some (s.buf ++ b) := by
    intro k s hk
    rw [prepare_eq] at hb
    have he : g.encSlots = [] := by simp [Gp.encSlots, hp]
    simp only [he, List.append_nil] at hb
    obtain ⟨h, b, h1, _, h3, h4⟩ := hb.2 k { s with obj := updObj (viewOf g.kinds) k s.obj } (by rw [updSlots_get, hk]; rfl)
    refine ⟨h, b, ⟨h1.fonts, h1.pageSize, h1.level, h1.protection, h1.info, ?_⟩, by simpa using h3, h4⟩
    rw [h1.encID]
    simp [hp]
  -- a page
  have page : ∀ v ∈ viewOf g.kinds, ∃ q : Option GRect × Bytes, (q.1 = v.size ∧ cachesStream g.fonts (v.contents.flatMap (·.2)) = .ok q.2) ∧
      PageIs env.unzip (bs.map (b!"\n" ++ ·)) (v.idx + 1) q.1 q.2 := by
    intro v hv
    have hne : v.contents.flatMap (·.2) ≠ [] := hs (v.size, v.contents.flatMap (·.2)) (List.mem_map.2 ⟨v, hv, rfl⟩)
    rcases hw.oneEach v hv with he | ⟨i, cs, he, hcs⟩
    · exact absurd (by rw [he]; rfl) hne
    have k1 := (vok v hv).1
    have k2 := (vok v hv).2 (i, cs) (by rw [he]; simp)
    unfold Gp.kinds at k1 k2
    rw [List.getElem?_map] at k1 k2
    obtain ⟨s1, e1, o1⟩ := Option.map_eq_some_iff.1 k1
    obtain ⟨s2, e2, o2⟩ := Option.map_eq_some_iff.1 k2
    have l1 := later_of hw.laid e1 (by rw [o1]; simp)
    have l2 := later_of hw.laid e2 (by rw [o2]; simp)
    have p1 := kind_page l1.2 o1
    have p2 := kind_content l2.2 o2
    obtain ⟨h, b, a1, a2, a3⟩ := built _ _ e1
    obtain ⟨h', b', c1, c2, c3⟩ := built _ _ e2
    rw [p2] at c2
    obtain ⟨s, d, data, d1, d2, d3⟩ := content_reads (by rw [c1.protection]; exact hp) hz c2
    rw [c1.fonts] at d1
    refine ⟨(v.size, s), ⟨rfl, by rw [he]; simpa using d1⟩, ?_⟩
    rw [p1] at a2
    simp only [updObj, filter_idx vsort hv, he, List.flatMap_cons, List.flatMap_nil, List.append_nil, List.map_cons, List.map_nil, List.nil_append, GObj.build, Res.ok.injEq] at a2
    obtain ⟨dp, r1, r2, r3, r4, r5, r6⟩ := page_reads i v.size
    refine ⟨b!"\n" ++ b, dp, i + 1, ?_, ?_, r2, r3, r4, r5, r6, ?_⟩
    · rw [objAt_succ _ _ _ a3, l1.1]; rfl
    · rw [← a2]
      revert r1
      cases v.size <;> exact fun r1 => by simpa using r1
    · exact ⟨b', d, data, by rw [objAt_succ _ _ _ c3, l2.1]; rfl, d2, d3⟩
  obtain ⟨pages, hpg⟩ := exists_forall₂ page
  refine ⟨pages, ?_, ?_, ?_⟩
  · unfold sheetsOf
    rw [List.forall₂_map_left_iff]
    exact hpg.imp (fun v q h => h.1)
  · obtain ⟨fs, xs, rest, hl, _⟩ := hw.laid
    obtain ⟨h, b, a1, a2, a3⟩ := built 0 ⟨.catalog, []⟩ (by rw [hl]; rfl)
    simp only [updObj, GObj.build, Res.ok.injEq] at a2
    refine ⟨_, _, by rw [objAt_succ _ _ _ a3, ← a2]; rfl, catalog_reads, rfl, rfl⟩
  · obtain ⟨fs, xs, rest, hl, _⟩ := hw.laid
    obtain ⟨h, b, a1, a2, a3⟩ := built 1 ⟨.pages 0 [], []⟩ (by rw [hl]; rfl)
    simp only [updObj, if_true, GObj.build, Res.ok.injEq, Nat.zero_add, List.nil_append] at a2
    obtain ⟨w, ht, hw', hh', hr⟩ := pages_reads g.pageSize (viewOf g.kinds).length ((viewOf g.kinds).map PageView.idx)
    have hlen : pages.length = (viewOf g.kinds).length := hpg.length_eq.symm
    refine ⟨b!"\n" ++ b, [(b!"Type", .name b!"Pages"), (b!"MediaBox", .arr [.num 0, .num 0, .num w, .num ht]), (b!"Count", .num (viewOf g.kinds).length),
        (b!"Kids", .arr (((viewOf g.kinds).map PageView.idx).map (fun i => Val.ref ((i + 1 : ℕ) : Int))))], (viewOf g.kinds).map (fun v => v.idx + 1), by rw [objAt_succ _ _ _ a3]; rfl, ?_, rfl, ⟨w, ht, hw', hh', rfl⟩, ?_, ?_, ?_, ?_⟩
    · rw [← a2, a1.pageSize]
      simpa using hr
    · rw [hlen]; rfl
    · rw [List.map_map, List.map_map]; rfl
    · rw [List.pairwise_map]
      exact vsort.imp (fun h => by omega)
    · rw [List.forall₂_map_left_iff]
      exact hpg.imp (fun v q h => h.2)

end Verif
