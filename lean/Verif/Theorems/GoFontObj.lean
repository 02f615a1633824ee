import Verif.Theorems.GoText
import Verif.Spec.GoFonts
import Verif.Lemmas.ImgObj
/-!
# Resources, fonts and images of sessions of GoPdf (C88)
-/
namespace Verif
open Spec

/-! ### reading the resources -/

theorem part_dict {s k : Bytes} {d : List (Bytes × Val)} (hk : ∀ c ∈ k, regular c = true) (h : Part s d) : Part (47 :: k ++ b!" <<\n" ++ s ++ b!">>\n") [(k, .dict d)] := by
  obtain ⟨ts, h1, h2⟩ := h
  have h3 := Lx.name hk (by rfl) <| Lx.const (ts := [.dictOpen]) b!" <<\n" rfl <| lexes_append h1 (Lx.last (ts := [.dictClose]) b!">>\n" rfl)
  refine .read (h3.of_eq (by simp)) (fun l r => ?_)
  simp only [List.foldl_append, List.foldl_cons, List.foldl_nil, readStep, List.cons_append, List.nil_append, h2]
  rw [List.append_nil, List.reverse_reverse, pairUp_flat]
  simp [flat]

theorem part_blank {s : Bytes} {d : List (Bytes × Val)} (h : Part s d) : Part (b!"      " ++ s) d := by
  obtain ⟨ts, h1, h2⟩ := h
  exact ⟨ts, Lx.const (ts := []) b!"      " rfl h1, h2⟩

theorem part_flat {α : Type} {s : α → Bytes} {d : α → Bytes × Val} (h : ∀ a, Part (s a) [d a]) : ∀ l : List α, Part (l.flatMap s) (l.map d)
  | [] => Part.nil
  | a :: l => by
    rw [List.flatMap_cons, List.map_cons]
    exact (h a).append (part_flat h l)

theorem indexed_name {c : UInt8} (hc : regular c = true) (n : Int) : ∀ x ∈ c :: itoa n, regular x = true := by
  intro x hx
  rcases List.mem_cons.1 hx with rfl | hx
  · exact hc
  · exact itoa_lexed n x hx

/-- the entries for fonts -/
def goFonts (fs : List GRelate) : List (Bytes × Val) := fs.map (fun r => (b!"F" ++ itoa (r.count + 1), .ref (r.obj + 1)))

/-- the entries for images -/
def goImgs (xs : List Nat) : List (Bytes × Val) := xs.zipIdx.map (fun x => (b!"I" ++ itoa (x.2 + 1), .ref (x.1 + 1)))

theorem procset_reads (fs : List GRelate) (xs : List Nat) : DictObject (b!"<<\n/ProcSet [/PDF /Text /ImageB /ImageC /ImageI]\n/Font <<\n" ++
      fs.flatMap (fun r => b!"      /F" ++ itoa (r.count + 1) ++ b!" " ++ itoa (r.obj + 1) ++ b!" 0 R\n") ++ b!">>\n/XObject <<\n" ++
      xs.zipIdx.flatMap (fun x => b!"/I" ++ itoa (x.2 + 1) ++ b!" " ++ itoa (x.1 + 1) ++ b!" 0 R\n") ++ b!">>\n>>\n")
    [(b!"ProcSet", .arr [.name b!"PDF", .name b!"Text", .name b!"ImageB", .name b!"ImageC", .name b!"ImageI"]), (b!"Font", .dict (goFonts fs)), (b!"XObject", .dict (goImgs xs))] := by
  have h1 : Part (b!"\n/ProcSet [/PDF /Text /ImageB /ImageC /ImageI]\n") [(b!"ProcSet", .arr [.name b!"PDF", .name b!"Text", .name b!"ImageB", .name b!"ImageC", .name b!"ImageI"])] :=
    .read (ts := [.name b!"ProcSet", .open, .name b!"PDF", .name b!"Text", .name b!"ImageB", .name b!"ImageC", .name b!"ImageI", .close]) (Lx.last _ (by decide +kernel))
      (fun l r => by simp [readStep, flat])
  have h2 := part_dict (k := b!"Font") (by decide) (part_flat (s := fun r : GRelate => b!"      " ++ (47 :: (70 :: itoa (r.count + 1)) ++ b!" " ++ itoa (r.obj + 1) ++ b!" 0 R\n"))
    (d := fun r => (70 :: itoa (r.count + 1), .ref (r.obj + 1))) (fun r => part_blank (part_ref (indexed_name (by decide) _) _)) fs)
  have h3 := part_dict (k := b!"XObject") (by decide) (part_flat (s := fun x : Nat × Nat => 47 :: (73 :: itoa (x.2 + 1)) ++ b!" " ++ itoa (x.1 + 1) ++ b!" 0 R\n")
    (d := fun x => (73 :: itoa (x.2 + 1), .ref (x.1 + 1))) (fun r => part_ref (indexed_name (by decide) _) _) xs.zipIdx)
  have h := ((h1.append h2).append h3).dict (by simp only [List.cons_append, List.nil_append, List.map_cons, List.map_nil]; decide)
  simpa [goFonts, goImgs] using h

theorem itoa_inj {a b : Int} (h : itoa a = itoa b) : a = b := by
  have := readNum_itoa a
  rw [h, readNum_itoa] at this
  simpa using this.symm

theorem lookup_nodup {d : List (Bytes × Val)} (h : (d.map (·.1)).Nodup) {k : Bytes} {v : Val} (hk : (k, v) ∈ d) : d.lookup k = some v := by
  induction d with
  | nil => simp at hk
  | cons p d ih =>
    rw [List.map_cons, List.nodup_cons] at h
    rw [List.lookup_cons]
    rcases List.mem_cons.1 hk with rfl | hk
    · simp
    · have : (k == p.1) = false := by
        rw [beq_eq_false_iff_ne]
        rintro rfl
        exact h.1 (List.mem_map.2 ⟨(p.1, v), hk, rfl⟩)
      rw [this]
      exact ih h.2 hk

theorem goFonts_lookup {fs : List GRelate} (h : ∀ (k : Nat) (r : GRelate), fs[k]? = some r → r.count = k) :
    ((goFonts fs).map (·.1)).Nodup ∧ ∀ (k : Nat) (r : GRelate), fs[k]? = some r → (goFonts fs).lookup (b!"F" ++ itoa ((k : Int) + 1)) = some (.ref (r.obj + 1)) := by
  have hn : ((goFonts fs).map (·.1)).Nodup := by
    unfold goFonts
    rw [List.map_map, List.nodup_iff_injective_get]
    intro a b e
    simp only [List.get_eq_getElem, List.getElem_map, Function.comp] at e
    have e1 := h a _ (List.getElem?_eq_getElem (by simpa using a.2))
    have e2 := h b _ (List.getElem?_eq_getElem (by simpa using b.2))
    rw [e1, e2] at e
    have := itoa_inj (List.append_cancel_left e)
    exact Fin.ext (by omega)
  refine ⟨hn, fun k r hk => lookup_nodup hn ?_⟩
  refine List.mem_map.2 ⟨r, List.mem_of_getElem? hk, ?_⟩
  rw [h k r hk]

theorem goImgs_lookup (xs : List Nat) :
    ((goImgs xs).map (·.1)).Nodup ∧ ∀ (k n : Nat), xs[k]? = some n → (goImgs xs).lookup (b!"I" ++ itoa ((k : Int) + 1)) = some (.ref (n + 1)) := by
  have hn : ((goImgs xs).map (·.1)).Nodup := by
    unfold goImgs
    rw [List.map_map, List.nodup_iff_injective_get]
    intro a b e
    simp only [List.get_eq_getElem, List.getElem_map, Function.comp, List.getElem_zipIdx, Nat.zero_add] at e
    have := itoa_inj (List.append_cancel_left e)
    exact Fin.ext (by omega)
  refine ⟨hn, fun k n hk => lookup_nodup hn ?_⟩
  exact List.mem_map.2 ⟨(n, k), List.mk_mem_zipIdx_iff_getElem?.2 hk, rfl⟩

/-! ### reading what is built -/

theorem only_at {bodies : List Bytes} {k : Nat} {b : Bytes} (h : bodies[k]? = some b) : OnlyObj (objsOf bodies) ((k + 1 : ℕ) : Int) ⟨((k + 1 : ℕ) : Int), b⟩ := by
  have key : ∀ (l : List Bytes) (n k : Nat) (b : Bytes), l[k]? = some b →
      ((l.zipIdx n).map (fun p => (⟨(p.2 : Int) + 1, p.1⟩ : Obj))).filter (fun x => decide (x.objID = ((n + k + 1 : ℕ) : Int))) = [⟨((n + k + 1 : ℕ) : Int), b⟩] := by
    intro l
    induction l with
    | nil => intro n k b h; simp at h
    | cons a l ih =>
      intro n k b h
      have high : ∀ m : Nat, n + 1 ≤ m → ((l.zipIdx m).map (fun p => (⟨(p.2 : Int) + 1, p.1⟩ : Obj))).filter (fun x => decide (x.objID = ((n + 1 : ℕ) : Int))) = [] := by
        intro m hm
        rw [List.filter_eq_nil_iff]
        intro x hx
        obtain ⟨p, hp, rfl⟩ := List.mem_map.1 hx
        have := List.le_snd_of_mem_zipIdx hp
        simp only [decide_eq_true_eq]
        push_cast
        omega
      rw [List.zipIdx_cons, List.map_cons, List.filter_cons]
      cases k with
      | zero =>
        simp only [List.getElem?_cons_zero, Option.some.injEq] at h
        subst h
        have := high (n + 1) (Nat.le_refl _)
        simp only [Nat.add_zero]
        rw [if_pos (by simp), this]
        simp
      | succ k =>
        rw [List.getElem?_cons_succ] at h
        rw [if_neg (by simp only [decide_eq_true_eq]; push_cast; omega)]
        have := ih (n + 1) k b h
        rw [show n + (k + 1) + 1 = n + 1 + k + 1 by omega]
        exact this
  have := key bodies 0 k b h
  rw [Nat.zero_add] at this
  exact this

theorem reads_nl {s : Bytes} {v : Val} (h : ReadsVal s v) : ReadsVal (b!"\n" ++ s) v := by
  obtain ⟨ts, h1, h2⟩ := h
  exact ⟨ts, Lx.const (ts := []) b!"\n" rfl h1, h2⟩

theorem dict_nl {s : Bytes} {d : List (Bytes × Val)} (h : DictObject s d) : DictObject (b!"\n" ++ s) d := ⟨reads_nl h.1, h.2⟩

theorem stream_nl {s body : Bytes} {d : List (Bytes × Val)} (h : StreamIs s d body) : StreamIs (b!"\n" ++ s) d body := by
  obtain ⟨head, eol, h1, h2, h3, h4⟩ := h
  exact ⟨b!"\n" ++ head, eol, dict_nl h1, by rw [h2]; simp, h3, h4⟩

theorem built_at {env : GEnv} {g : Gp} {bs : List Bytes} (hp : g.protection = none) (hb : GoBuilds env g.prepare 0 g.prepare.slots bs) {k : Nat} {s : GSlot} (hk : g.slots[k]? = some s)
    (hs : s.buf = []) : ∃ h b, g.Same h ∧ (updObj (viewOf g.kinds) k s.obj).build env h (k + 1) = .ok b ∧ (bs.map (b!"\n" ++ ·))[k]? = some (b!"\n" ++ b) := by
  rw [prepare_eq] at hb
  have he : g.encSlots = [] := by simp [Gp.encSlots, hp]
  simp only [he, List.append_nil] at hb
  obtain ⟨h, b, h1, _, h3, h4⟩ := hb.2 k { s with obj := updObj (viewOf g.kinds) k s.obj } (by rw [updSlots_get, hk]; rfl)
  refine ⟨h, b, ⟨h1.fonts, h1.pageSize, h1.level, h1.protection, h1.info, ?_⟩, by simpa using h3, by rw [List.getElem?_map, h4, hs]; rfl⟩
  rw [h1.encID]
  simp [hp]

/-- the resources, as they are built -/
theorem procset_at {env : GEnv} {g : Gp} {bs : List Bytes} (hw : g.Whole) (hp : g.protection = none) (hb : GoBuilds env g.prepare 0 g.prepare.slots bs) {fs : List GRelate} {xs : List Nat}
    (hk : g.slots[2]? = some ⟨.procset fs xs, []⟩) (hc : ∀ (k : Nat) (r : GRelate), fs[k]? = some r → r.count = k) : ResourcesAre (bs.map (b!"\n" ++ ·)) (goFonts fs) (goImgs xs) := by
  have hL := hw.countL
  obtain ⟨fs', xs', rest, hl, _⟩ := hw.laid
  have h0 : g.slots[0]? = some ⟨.catalog, []⟩ := by rw [hl]; rfl
  have h1 : g.slots[1]? = some ⟨.pages 0 [], []⟩ := by rw [hl]; rfl
  rw [prepare_eq] at hb
  have he : g.encSlots = [] := by simp [Gp.encSlots, hp]
  simp only [he, List.append_nil] at hb
  obtain ⟨h, b, h1', h2', h3, h4⟩ := hb.2 2 ⟨.procset fs xs, []⟩ (by rw [updSlots_get, hk]; rfl)
  have hcl : h.countL = 0 := by
    rw [h2' ?_]
    · exact hL
    · intro j r hj hr
      rw [updSlots_get] at hr
      match j, hj with
      | 0, _ => rw [h0] at hr; simp [updObj] at hr; subst hr; rfl
      | 1, _ => rw [h1] at hr; simp [updObj] at hr; subst hr; rfl
  simp only [GObj.build, hcl, Res.ok.injEq, Nat.cast_zero, Int.zero_add] at h3
  refine ⟨b!"\n" ++ b, _, ?_, dict_nl (by rw [← h3]; exact procset_reads fs xs), rfl, rfl, (goFonts_lookup hc).1, (goImgs_lookup xs).1⟩
  have := objAt_succ bs 2 _ h4
  exact this

/-- the objects of font `i`, which begin at position `u` -/
def FontSlots (l : List GSlot) (i u : Nat) : Prop := l[u]? = some ⟨.unicode i, []⟩ ∧ l[u + 1]? = some ⟨.dict i, []⟩ ∧ l[u + 2]? = some ⟨.desc i (u + 1), []⟩ ∧
  l[u + 3]? = some ⟨.cid i (u + 2), []⟩ ∧ l[u + 4]? = some ⟨.font i, []⟩

theorem graph_at {env : GEnv} {g : Gp} {bs : List Bytes} (hp : g.protection = none) (hb : GoBuilds env g.prepare 0 g.prepare.slots bs) {i : Nat} {F : GFont} (hF : g.fonts[i]? = some F)
    (hs : FontSlots g.slots i F.unicode) (hcid : F.cid = F.unicode + 3) (hn : GoodName F.family) (hc : FontOK F.ttf F.chars) :
    ∃ cid uni desc file w fontFile, FontGraph (objsOf (bs.map (b!"\n" ++ ·))) ((F.unicode + 4 + 1 : ℕ) : Int) (subsetName F.family) cid uni desc file w (unicodeStream F.chars) (env.zip fontFile)
        fontFile.length F.ttf ∧ makeFont F.ttf F.chars = .ok fontFile ∧
      ∀ r ∈ F.chars.keys, ∃ g x, charToGlyph F.ttf r = .ok g ∧ runeWidth F.ttf r = .ok x ∧ widthIn w g = some (x : ℚ) := by
  obtain ⟨s0, s1, s2, s3, s4⟩ := hs
  obtain ⟨k0, b0, a0, c0, d0⟩ := built_at hp hb s0 rfl
  obtain ⟨k1, b1, a1, c1, d1⟩ := built_at hp hb s1 rfl
  obtain ⟨k2, b2, a2, c2, d2⟩ := built_at hp hb s2 rfl
  obtain ⟨k3, b3, a3, c3, d3⟩ := built_at hp hb s3 rfl
  obtain ⟨k4, b4, a4, c4, d4⟩ := built_at hp hb s4 rfl
  have o0 := only_at d0
  have o1 := only_at d1
  have o2 := only_at d2
  have o3 := only_at d3
  have o4 := only_at d4
  simp only [updObj, GObj.build, a0.fonts, hF, a0.protection, hp, sealed, Res.ok_bind, Res.ok.injEq] at c0
  simp only [updObj, GObj.build, a1.fonts, hF, a1.protection, hp, sealed, Res.ok_bind, Res.ok.injEq] at c1
  simp only [updObj, GObj.build, a2.fonts, hF, Res.ok.injEq] at c2
  simp only [updObj, GObj.build, a3.fonts, hF] at c3
  simp only [updObj, GObj.build, a4.fonts, hF, Res.ok.injEq] at c4
  have c0' : unicodeBuild F.chars = b0 := c0
  have c1' : dictBuild env.zip F.ttf F.chars = .ok b1 := c1
  obtain ⟨es, e1, e2, e3⟩ := cidBuild_reads hn c3
  obtain ⟨file, f1, f2⟩ := dictBuild_reads c1'
  refine ⟨((F.unicode + 3 + 1 : ℕ) : Int), ((F.unicode + 1 : ℕ) : Int), ((F.unicode + 2 + 1 : ℕ) : Int), ((F.unicode + 1 + 1 : ℕ) : Int), wVals es, file, ⟨?_, ?_, ?_, ?_, ?_⟩, f1, ?_⟩
  · refine ⟨_, _, o4, dict_nl (by rw [← c4]; exact fontBuild_reads hn _ _), rfl, rfl, rfl, rfl, ?_, ?_⟩
    · rw [hcid]; rfl
    · rfl
  · exact ⟨_, _, _, o3, dict_nl e3, rfl, rfl, rfl, rfl, rfl, rfl, rfl, rfl, rfl⟩
  · exact ⟨_, _, o0, stream_nl (by rw [← c0']; exact unicodeBuild_reads _), rfl⟩
  · refine ⟨_, _, _, o2, dict_nl (by rw [← c2]; exact descBuild_reads hn _ _), rfl, rfl, rfl, rfl, rfl, rfl, rfl, fun _ => ?_⟩
    exact ⟨nearest_units _ _, nearest_units _ _, nearest_units _ _, nearest_units _ _, nearest_units _ _, nearest_units _ _, nearest_units _ _, nearest_units _ _⟩
  · exact ⟨_, _, o1, stream_nl f2, rfl, rfl⟩
  · intro r hr
    obtain ⟨g, hg⟩ := val_of_mem hc hr
    have hgm : g ∈ es.map (·.1) := by rw [e1]; exact (List.of_mem_zip ((val_iff hc).1 hg)).2
    obtain ⟨p, hp, rfl⟩ := List.mem_map.1 hgm
    refine ⟨p.1, p.2, val_glyph hc hg, ?_, widthIn_wVals es e2 _ _ hgm (e2 p hp)⟩
    unfold runeWidth
    rw [val_glyph hc hg]
    exact e2 p hp

end Verif
