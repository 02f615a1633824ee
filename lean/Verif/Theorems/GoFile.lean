import Verif.Lemmas.GoSession
import Verif.Spec.GoPdf
import Verif.Theorems.FontObj
/-!
# The files GoPdf writes (C85)
-/
namespace Verif
open Spec

theorem goRow (n : Nat) (h : n < 10 ^ 10) : RowIs (formatXrefline n ++ b!" 00000 n \n") ⟨n, 0, true⟩ :=
  ⟨formatXrefline n, b!"00000", b!" \n", by simp, formatXrefline_length h, ⟨by
    intro e
    have := formatXrefline_length h
    rw [e] at this
    simp at this, by
    rw [List.all_eq_true]; intro c hc; rw [isDec_eq]; exact formatXrefline_isDigit n c hc, decVal_formatXrefline n⟩, rfl, ⟨by decide, by decide, (by decide : decVal b!"00000" = 0)⟩, Or.inl rfl⟩

theorem goRows : ∀ (offs : List Nat) (i : Nat), (∀ n ∈ offs, n < 10 ^ 10) →
    RowsAre i (offs.flatMap (fun n => formatXrefline n ++ b!" 00000 n \n")) (offs.zipIdx.map (fun p => (i + p.2, ⟨p.1, 0, true⟩)))
  | [], _, _ => .nil
  | n :: offs, i, h => by
    rw [List.flatMap_cons, List.zipIdx_cons, List.map_cons]
    have := goRows offs (i + 1) (fun m hm => h m (by simp [hm]))
    refine .cons (goRow n (h n (by simp))) ?_
    rw [List.zipIdx_succ, List.map_map]
    have e : ((fun p : Nat × Nat => (i + p.2, (⟨p.1, 0, true⟩ : Entry))) ∘ fun (x : Nat × Nat) => match x with | (a, i) => (a, i + 1)) = fun p => (i + 1 + p.2, ⟨p.1, 0, true⟩) := by
      funext p; simp only [Function.comp]; congr 1; omega
    exact (e ▸ this :)

/-- what stands between `trailer` and `startxref` -/
def Gp.trailerText (g : Gp) (n : Nat) : Bytes :=
  b!"<<\n/Size " ++ natDigits n ++ b!"\n/Root 1 0 R\n" ++ (if g.protection.isSome then b!"/Encrypt " ++ natDigits g.encID ++ b!" 0 R\n/ID [()()]\n" else []) ++
    g.info.elim [] infoBytes ++ b!">>\n"

theorem goFlat_last : ∀ (bs : List Bytes) (i : Nat), bs ≠ [] → ∃ s, goFlat i bs = s ++ b!"\n"
  | [b], i, _ => ⟨natDigits (i + 1) ++ b!" 0 obj\n" ++ b ++ b!"endobj\n", by simp [goFlat, goEntry]⟩
  | b :: c :: bs, i, _ => by
    obtain ⟨s, hs⟩ := goFlat_last (c :: bs) (i + 1) (by simp)
    exact ⟨goEntry i b ++ s, by rw [goFlat, hs, List.append_assoc]⟩

theorem file_holds {g : Gp} {bs : List Bytes} (hb : bs ≠ [])
    (hl : (b!"%PDF-1.7\n\n" ++ goFlat 0 bs ++ g.xref (goOffs 10 0 bs) (10 + (goFlat 0 bs).length)).length < 10 ^ 10) :
    FileHolds (b!"%PDF-1.7\n\n" ++ goFlat 0 bs ++ g.xref (goOffs 10 0 bs) (10 + (goFlat 0 bs).length)) (bs.map (b!"\n" ++ ·)) (g.trailerText (bs.length + 1)) := by
  obtain ⟨s, hs⟩ := goFlat_last bs 0 hb
  have hsl : (goFlat 0 bs).length = s.length + 1 := by rw [hs]; simp
  have h10 : (b!"%PDF-1.7\n\n" : Bytes).length = 10 := rfl
  have hoff : ∀ n ∈ goOffs 10 0 bs, n < 10 ^ 10 := by
    intro n hn
    obtain ⟨k, hk⟩ := List.mem_iff_getElem?.1 hn
    have := (goOffs_drop bs 0 b!"%PDF-1.7\n\n" (g.xref (goOffs 10 0 bs) (10 + (goFlat 0 bs).length)) k n (by rw [h10]; exact hk)).1
    simp only [List.length_append] at hl
    omega
  refine ⟨b!"\n" ++ s, b!"0 " ++ natDigits (bs.length + 1) ++ b!"\n" ++ (b!"0000000000 65535 f \n" ++ (goOffs 10 0 bs).flatMap (fun n => formatXrefline n ++ b!" 00000 n \n")),
    natDigits (10 + (goFlat 0 bs).length), (goOffs 10 0 bs).zipIdx.map (fun p => (1 + p.2, ⟨p.1, 0, true⟩)), ?_, ?_, ?_, ?_, ?_⟩
  · have ex : g.xref (goOffs 10 0 bs) (10 + (goFlat 0 bs).length) = b!"xref\n" ++ (b!"0 " ++ natDigits (bs.length + 1) ++ b!"\n" ++ (b!"0000000000 65535 f \n" ++ (goOffs 10 0 bs).flatMap (fun n => formatXrefline n ++ b!" 00000 n \n"))) ++
        b!"trailer\n" ++ g.trailerText (bs.length + 1) ++ b!"startxref\n" ++ natDigits (10 + (goFlat 0 bs).length) ++ b!"\n%%EOF\n" := by
      unfold Gp.xref Gp.trailerText
      rw [goOffs_length]
      have e : (b!">>\nstartxref\n" : Bytes) = b!">>\n" ++ b!"startxref\n" := rfl
      have e2 : (b!"trailer\n<<\n/Size " : Bytes) = b!"trailer\n" ++ b!"<<\n/Size " := rfl
      have e3 : (b!"xref\n0 " : Bytes) = b!"xref\n" ++ b!"0 " := rfl
      have e4 : (b!"\n0000000000 65535 f \n" : Bytes) = b!"\n" ++ b!"0000000000 65535 f \n" := rfl
      rw [e, e2, e3, e4]
      simp only [List.append_assoc]
    rw [ex]
    nth_rewrite 1 [hs]
    have e5 : (b!"%PDF-1.7\n\n" : Bytes) = b!"%PDF-1.7\n" ++ b!"\n" := rfl
    have e6 : (b!"\nxref\n" : Bytes) = b!"\n" ++ b!"xref\n" := rfl
    rw [e5, e6]
    simp only [List.append_assoc]
  · have : (b!"\n" ++ s).length + 10 = 10 + (goFlat 0 bs).length := by rw [hsl]; simp; omega
    rw [this]
    exact natDigits_numeral _
  · have := SectionIs.sub (f := b!"0") (c := natDigits (bs.length + 1)) (w := b!"\n") (s := []) (first := 0) (m := [])
      (r := b!"0000000000 65535 f \n" ++ (goOffs 10 0 bs).flatMap (fun n => formatXrefline n ++ b!" 00000 n \n"))
      (l := (0, ⟨0, 65535, false⟩) :: (goOffs 10 0 bs).zipIdx.map (fun p => (1 + p.2, ⟨p.1, 0, true⟩)))
      ⟨by decide, by decide, by decide⟩ (by
        rw [List.length_cons, List.length_map, List.length_zipIdx, goOffs_length]
        exact natDigits_numeral _) ⟨[], 10, rfl, by decide, Or.inl rfl⟩
      (.cons (rowIs_of b!"0000000000" b!"65535" b!" \n" rfl (by decide) (by decide)) (goRows _ 1 hoff)) .nil
    simpa only [List.append_nil, List.append_assoc, List.cons_append, List.nil_append] using this
  · simp [goOffs_length]
  · intro k b hk
    rw [List.getElem?_map] at hk
    obtain ⟨b0, hb0, rfl⟩ := Option.map_eq_some_iff.1 hk
    have hlt : k < (goOffs 10 0 bs).length := by
      rw [goOffs_length]
      exact (List.getElem?_eq_some_iff.1 hb0).1
    have ho : (goOffs 10 0 bs)[k]? = some (goOffs 10 0 bs)[k] := List.getElem?_eq_getElem hlt
    obtain ⟨_, c, r, h2, h3⟩ := goOffs_drop bs 0 b!"%PDF-1.7\n\n" (g.xref (goOffs 10 0 bs) (10 + (goFlat 0 bs).length)) k _ (by rw [h10]; exact ho)
    rw [hb0, Option.some.injEq] at h2
    subst h2
    refine ⟨(goOffs 10 0 bs)[k], natDigits (k + 1), b!"\n\n" ++ r, ?_, natDigits_numeral _, ?_⟩
    · rw [List.getElem?_map, List.getElem?_zipIdx, ho]
      simp [Nat.add_comm]
    · rw [h3]
      simp [goEntry]

theorem lexer_inHex (s cur : Bytes) (h : ∀ c ∈ s, regular c = true) : lexer (.hex cur) s = ([], .hex (cur ++ s)) := by
  induction s generalizing cur with
  | nil => simp [lexer]
  | cons c s ih =>
    have hc := regular_plain (h c (by simp))
    rw [lexer]
    simp only [lexStep, hc.2.2, hc.1, if_false, Bool.false_eq_true, List.nil_append]
    rw [ih _ (fun x hx => h x (by simp [hx]))]
    simp

theorem Lx.utf16 {s h : Bytes} {us : List Lexeme} (hh : ∀ c ∈ h, regular c = true) (hs : Lx s us) : Lx (b!" <FEFF" ++ h ++ b!">\n" ++ s) (.hex (b!"FEFF" ++ h) :: us) := by
  unfold Lx at *
  have h1 : lexer .ground (b!" <F" : Bytes) = ([], .hex b!"F") := by decide +kernel
  have e : (b!" <FEFF" ++ h ++ b!">\n" ++ s : Bytes) = b!" <F" ++ ((b!"EFF" ++ h) ++ (62 :: (10 :: s))) := by simp
  rw [e, lexer_append, h1, lexer_append, lexer_inHex _ _ (by
    intro c hc
    rcases List.mem_append.1 hc with hc | hc
    · exact (by decide : ∀ c ∈ (b!"EFF" : Bytes), regular c = true) c hc
    · exact hh c hc)]
  have h2 : lexer (.hex (b!"F" ++ (b!"EFF" ++ h))) (62 :: (10 :: s)) = (.hex (b!"F" ++ (b!"EFF" ++ h)) :: (lexer .ground s).1, (lexer .ground s).2) := by
    rw [lexer]
    simp only [lexStep, if_true]
    rw [lexer]
    simp [lexStep, lexStart, white]
  simp only [h2, hs]
  simp

/-- the fields that are not empty, with their texts in hexadecimal -/
def infoFields (i : GInfo) : List (Bytes × Bytes) :=
  [(b!"Author", i.author), (b!"Title", i.title), (b!"Subject", i.subject), (b!"Creator", i.creator), (b!"Producer", i.producer)]

def fieldToks (p : Bytes × Bytes) : List Lexeme := if p.2 = [] then [] else [.name p.1, .hex (b!"FEFF" ++ infoText p.2)]

def fieldVals (p : Bytes × Bytes) : List (Bytes × Val) := if p.2 = [] then [] else [(p.1, .hex (b!"FEFF" ++ infoText p.2))]

theorem infoText_regular (s : Bytes) : ∀ c ∈ infoText s, regular c = true := by
  intro c hc
  obtain ⟨n, _, hn⟩ := List.mem_flatMap.1 hc
  exact hex4_regular n c hn

theorem Lx.infos {s : Bytes} {us : List Lexeme} (hs : Lx s us) : ∀ (l : List (Bytes × Bytes)), (∀ p ∈ l, ∀ c ∈ p.1, regular c = true) →
    Lx (l.flatMap (fun p => infoEntry p.1 p.2) ++ s) (l.flatMap fieldToks ++ us)
  | [], _ => hs
  | p :: l, h => by
    have ih := Lx.infos hs l (fun q hq => h q (by simp [hq]))
    simp only [List.flatMap_cons, List.append_assoc]
    by_cases e : p.2 = []
    · rw [show infoEntry p.1 p.2 = [] by simp [infoEntry, e], show fieldToks p = [] by simp [fieldToks, e]]
      exact ih
    · have := Lx.name (h p (by simp)) (by simp [ends]; decide) (Lx.utf16 (infoText_regular p.2) ih)
      rw [show infoEntry p.1 p.2 = b!"/" ++ p.1 ++ b!" <FEFF" ++ infoText p.2 ++ b!">\n" by simp [infoEntry, e],
        show fieldToks p = [.name p.1, .hex (b!"FEFF" ++ infoText p.2)] by simp [fieldToks, e]]
      refine Lx.of_eq this ?_
      simp

theorem read_fields (b : Bool) (r : List (Bool × List Val)) : ∀ (l : List (Bytes × Bytes)) (m : List Val),
    (l.flatMap fieldToks).foldl readStep (some ((b, m) :: r)) = some ((b, ((l.flatMap fieldVals).flatMap (fun q => [Val.name q.1, q.2])).reverse ++ m) :: r)
  | [], _ => rfl
  | p :: l, m => by
    rw [List.flatMap_cons, List.foldl_append]
    by_cases e : p.2 = []
    · rw [show fieldToks p = [] by simp [fieldToks, e], List.foldl_nil, read_fields b r l m]
      simp [fieldVals, e]
    · rw [show fieldToks p = [.name p.1, .hex (b!"FEFF" ++ infoText p.2)] by simp [fieldToks, e]]
      simp only [List.foldl_cons, List.foldl_nil, readStep]
      rw [read_fields b r l]
      simp [fieldVals, e]

theorem pairUp_pairs : ∀ (d : List (Bytes × Val)), pairUp (d.flatMap (fun q => [Val.name q.1, q.2])) = some d
  | [] => rfl
  | (k, v) :: d => by simp [pairUp, pairUp_pairs d]

theorem infoBytes_eq {i : GInfo} (h : i.date = none) : infoBytes i = b!"/Info <<\n" ++ (infoFields i).flatMap (fun p => infoEntry p.1 p.2) ++ b!" >>\n" := by
  simp only [infoBytes, infoFields, h, List.flatMap_cons, List.flatMap_nil, List.append_assoc, List.append_nil, List.nil_append]

/-- the entries of the trailer -/
def Gp.trailerVals (g : Gp) (n : Nat) : List (Bytes × Val) :=
  [(b!"Size", .num n), (b!"Root", .ref 1)] ++ (if g.protection.isSome then [(b!"Encrypt", .ref g.encID), (b!"ID", .arr [.lit [], .lit []])] else []) ++
    g.info.elim [] (fun i => [(b!"Info", .dict ((infoFields i).flatMap fieldVals))])

theorem trailer_reads (g : Gp) (n : Nat) (hd : ∀ i, g.info = some i → i.date = none) : DictObject (g.trailerText n) (g.trailerVals n) := by
  have hend : Lx b!">>\n" [.dictClose] := Lx.last _ (by decide +kernel)
  -- the information
  have h1 : ∃ ts, Lx (g.info.elim [] infoBytes ++ b!">>\n") (ts ++ [.dictClose]) ∧ ∀ m r, ts.foldl readStep (some ((true, m) :: r)) =
      some ((true, ((g.info.elim [] (fun i => [(b!"Info", Val.dict ((infoFields i).flatMap fieldVals))])).flatMap (fun q => [Val.name q.1, q.2])).reverse ++ m) :: r) := by
    cases hi : g.info with
    | none => exact ⟨[], by simpa using hend, fun m r => by simp⟩
    | some i =>
      have hc : Lx (b!" >>\n" ++ b!">>\n") [.dictClose, .dictClose] := Lx.last _ (by decide +kernel)
      have h2 := Lx.infos hc (infoFields i) (by simp only [infoFields, List.forall_mem_cons]; decide)
      have h3 := Lx.const b!"/Info <<\n" (ts := [.name b!"Info", .dictOpen]) (by decide +kernel) h2
      refine ⟨[.name b!"Info", .dictOpen] ++ (infoFields i).flatMap fieldToks ++ [.dictClose], ?_, ?_⟩
      · simp only [Option.elim]
        rw [infoBytes_eq (hd i hi)]
        simpa only [List.append_assoc, List.cons_append, List.nil_append] using h3
      · intro m r
        rw [List.foldl_append, List.foldl_append]
        simp only [List.foldl_cons, List.foldl_nil, readStep]
        rw [read_fields]
        simp only [readStep, List.append_nil, List.reverse_reverse, pairUp_pairs, Option.map_some]
        simp
  obtain ⟨ts, t1, t2⟩ := h1
  -- the encryption dictionary
  have h2 : ∃ us, Lx ((if g.protection.isSome then b!"/Encrypt " ++ natDigits g.encID ++ b!" 0 R\n/ID [()()]\n" else []) ++ (g.info.elim [] infoBytes ++ b!">>\n")) (us ++ (ts ++ [.dictClose])) ∧
      ∀ m r, us.foldl readStep (some ((true, m) :: r)) =
        some ((true, ((if g.protection.isSome then [(b!"Encrypt", Val.ref g.encID), (b!"ID", .arr [.lit [], .lit []])] else []).flatMap (fun q => [Val.name q.1, q.2])).reverse ++ m) :: r) := by
    cases hp : g.protection.isSome with
    | false => exact ⟨[], by simpa using t1, fun m r => by simp⟩
    | true =>
      have a1 := Lx.const b!" 0 R\n/ID [()()]\n" (ts := [.num 0, .op b!"R", .name b!"ID", .open, .lit [], .lit [], .close]) (by decide +kernel) t1
      have a2 := Lx.num (g.encID : Int) (by simp [ends]; decide) a1
      have a3 := Lx.const b!"/Encrypt " (ts := [.name b!"Encrypt"]) (by decide +kernel) a2
      rw [itoa_natCast] at a3
      refine ⟨[.name b!"Encrypt", .num (g.encID : Int), .num 0, .op b!"R", .name b!"ID", .open, .lit [], .lit [], .close], Lx.of_eq a3 ?_, fun m r => ?_⟩
      · simp only [if_true, List.append_assoc]
      · simp [readStep]
  obtain ⟨us, u1, u2⟩ := h2
  have a1 := Lx.const b!"\n/Root 1 0 R\n" (ts := [.name b!"Root", .num 1, .num 0, .op b!"R"]) (by decide +kernel) u1
  have a2 := Lx.num (n : Int) (by simp [ends]; decide) a1
  have a3 := Lx.const b!"<<\n/Size " (ts := [.dictOpen, .name b!"Size"]) (by decide +kernel) a2
  rw [itoa_natCast] at a3
  refine ⟨(Lx.of_eq a3 ?_).reads ?_, ?_⟩
  · simp only [Gp.trailerText, List.append_assoc]
  · unfold valueOfToks
    simp only [List.foldl_append, List.foldl_cons, List.foldl_nil, List.cons_append, List.nil_append, readStep]
    simp only [if_true, Int.cast_natCast]
    rw [if_pos (by decide), u2, t2]
    simp only [readStep]
    have : ((g.info.elim [] (fun i => [(b!"Info", Val.dict ((infoFields i).flatMap fieldVals))])).flatMap (fun q => [Val.name q.1, q.2])).reverse ++
        (((if g.protection.isSome then [(b!"Encrypt", Val.ref g.encID), (b!"ID", .arr [.lit [], .lit []])] else []).flatMap (fun q => [Val.name q.1, q.2])).reverse ++
          [Val.ref (1 : ℚ).num, Val.name b!"Root", Val.num n, Val.name b!"Size"]) = ((g.trailerVals n).flatMap (fun q => [Val.name q.1, q.2])).reverse := by
      simp [Gp.trailerVals]
    rw [this, List.reverse_reverse, pairUp_pairs]
    rfl
  · unfold Gp.trailerVals
    cases g.protection.isSome <;> cases g.info <;> simp <;> decide

theorem textString_of {s : Bytes} (h : ∀ r ∈ runes s, r < 65536) : TextString (.hex (b!"FEFF" ++ infoText s)) (runes s) := by
  refine ⟨infoText s, rfl, ?_⟩
  unfold infoText
  rw [codes_flatMap h]
  congr 1
  generalize runes s = rs at h
  induction rs with
  | nil => rfl
  | cons r l ih =>
    rw [List.flatMap_cons, ← ih (fun x hx => h x (by simp [hx]))]
    simp [utf16, h r (by simp)]

theorem fieldVals_keys (l : List (Bytes × Bytes)) : (l.flatMap fieldVals).map (·.1) = (l.filter (fun p => p.2 ≠ [])).map (·.1) := by
  induction l with
  | nil => rfl
  | cons p l ih =>
    rw [List.flatMap_cons, List.map_append, ih]
    by_cases e : p.2 = [] <;> simp [fieldVals, e]

theorem fieldVals_lookup : ∀ (l : List (Bytes × Bytes)), (l.map (·.1)).Nodup → ∀ p ∈ l, p.2 ≠ [] → (l.flatMap fieldVals).lookup p.1 = some (.hex (b!"FEFF" ++ infoText p.2))
  | [], _, p, hp, _ => by simp at hp
  | q :: l, hn, p, hp, he => by
    rw [List.map_cons, List.nodup_cons] at hn
    rw [List.flatMap_cons, List.lookup_append]
    rcases List.mem_cons.1 hp with rfl | hp
    · simp [fieldVals, he]
    · have hne : p.1 ≠ q.1 := fun e => hn.1 (e ▸ List.mem_map_of_mem hp)
      have : (fieldVals q).lookup p.1 = none := by
        unfold fieldVals
        split
        · rfl
        · rw [List.lookup_cons]
          simp [beq_false_of_ne hne]
      rw [this, Option.none_or]
      exact fieldVals_lookup l hn.2 p hp he

theorem trailerIs_of {g : Gp} {n : Nat} (he : g.protection.isSome = true → g.encID = n) (hr : ∀ i, g.info = some i → ∀ p ∈ infoKeys i, ∀ r ∈ runes p.2, r < 65536) :
    TrailerIs n g.protection.isSome g.info (g.trailerVals (n + 1)) := by
  have hi : ∀ (hd : Option GInfo), ∀ i, hd = some i → (∀ p ∈ infoKeys i, ∀ r ∈ runes p.2, r < 65536) → ∃ f, Val.dict ((infoFields i).flatMap fieldVals) = .dict f ∧
      f.map (·.1) = ((infoKeys i).filter (fun p => p.2 ≠ [])).map (·.1) ∧ ∀ p ∈ infoKeys i, p.2 ≠ [] → ∃ v, f.lookup p.1 = some v ∧ TextString v (runes p.2) := by
    intro _ i _ h
    refine ⟨_, rfl, fieldVals_keys _, fun p hp he => ⟨_, fieldVals_lookup _ ?_ p hp he, textString_of (h p hp)⟩⟩
    simp only [infoFields, List.map_cons, List.map_nil]
    decide
  unfold Gp.trailerVals
  cases hp : g.protection.isSome with
  | false =>
    cases hf : g.info with
    | none => exact ⟨rfl, rfl, rfl, fun _ => rfl, fun i hi => by simp at hi⟩
    | some i =>
      refine ⟨rfl, rfl, rfl, fun h => by simp at h, fun j hj => ?_⟩
      cases hj
      obtain ⟨f, h1, h2⟩ := hi _ i hf (hr i hf)
      exact ⟨f, by rw [← h1]; rfl, h2⟩
  | true =>
    rw [he hp]
    cases hf : g.info with
    | none => exact ⟨rfl, rfl, rfl, fun _ => rfl, fun i hi => by simp at hi⟩
    | some i =>
      refine ⟨rfl, rfl, rfl, fun h => by simp at h, fun j hj => ?_⟩
      cases hj
      obtain ⟨f, h1, h2⟩ := hi _ i hf (hr i hf)
      exact ⟨f, by rw [← h1]; rfl, h2⟩

/-- the file for the objects before writing -/
theorem compile_holds {env : GEnv} {g g' : Gp} {out : Bytes} (h : g.compile env = (g', .ok out)) (hs : g.slots ≠ []) (hl : out.length < 10 ^ 10) :
    ∃ bs, GoBuilds env g.prepare 0 g.prepare.slots bs ∧ bs.length = g.slots.length + (if g.protection.isSome then 1 else 0) ∧
      FileHolds out (bs.map (b!"\n" ++ ·)) (g.prepare.trailerText (bs.length + 1)) := by
  obtain ⟨bs, h1, h2⟩ := compile_ok h
  have hlen : bs.length = g.slots.length + (if g.protection.isSome then 1 else 0) := by
    rw [h1.1, prepare_eq]
    simp only [updSlots_length, List.length_append, Gp.encSlots]
    cases g.protection <;> simp
  have hb : bs ≠ [] := by
    intro e
    rw [e] at hlen
    have := List.length_pos_iff.2 hs
    simp at hlen
    omega
  rw [h2] at hl
  have := file_holds hb hl
  rw [← h2] at this
  exact ⟨bs, h1, hlen, this⟩

/-- **C85** (the file): what `GetBytesPdfReturnErr` returns is a file whose table leads to the objects, numbered from 1, and whose trailer names the catalog, the number of
entries, the dictionary of the protection and the information given. -/
theorem C85_file_partial {env : GEnv} {g g' : Gp} {out : Bytes} (h : g.compile env = (g', .ok out)) (hs : g.slots ≠ []) (hl : out.length < 10 ^ 10)
    (hd : ∀ i, g.info = some i → i.date = none) (hr : ∀ i, g.info = some i → ∀ p ∈ infoKeys i, ∀ r ∈ runes p.2, r < 65536) :
    ∃ bodies trailer d, FileHolds out bodies trailer ∧ bodies.length = g.slots.length + (if g.protection.isSome then 1 else 0) ∧ DictObject trailer d ∧
      TrailerIs bodies.length g.protection.isSome g.info d := by
  obtain ⟨bs, h1, h2, h3⟩ := compile_holds h hs hl
  have e1 : g.prepare.protection = g.protection := by rw [prepare_eq]
  have e2 : g.prepare.info = g.info := by rw [prepare_eq]
  refine ⟨_, _, _, h3, by simpa using h2, trailer_reads _ _ (by rw [e2]; exact hd), ?_⟩
  have := trailerIs_of (g := g.prepare) (n := bs.length) (by
    intro hp
    rw [e1] at hp
    rw [h2, if_pos hp, prepare_eq]
    obtain ⟨p, hp⟩ := Option.isSome_iff_exists.1 hp
    simp [hp]) (by rw [e2]; exact hr)
  rw [e1, e2] at this
  simpa using this

/-! ### a document -/

/-- functions for examples -/
def goEnv : GEnv := { plainEnv with bounds := fun _ => none, zipLevel := fun _ b => b }

/-- a page with a line, and the information `i` -/
def goDoc (i : GInfo) : Gp := ((((Gp.start ⟨595, 842⟩ none).addPage ⟨0, 0⟩).line 10 20 30 40).setNoCompression).setInfo i

def goDocOk (i : GInfo) : Bool := match ((goDoc i).compile goEnv).2 with
  | .ok out => decide (out.length < 10 ^ 10)
  | _ => false

theorem goDoc_compiles {i : GInfo} (h : goDocOk i = true) : ∃ g' out, (goDoc i).compile goEnv = (g', .ok out) ∧ out.length < 10 ^ 10 := by
  unfold goDocOk at h
  rcases hc : (goDoc i).compile goEnv with ⟨g', r⟩
  rw [hc] at h
  cases r with
  | ok out => exact ⟨g', out, rfl, by simpa using h⟩
  | err e => simp at h
  | panic => simp at h
  | hang => simp at h

set_option maxRecDepth 20000 in
example : ∃ g' out, (goDoc { title := b!"T", author := b!"A" }).compile goEnv = (g', .ok out) ∧ out.length < 10 ^ 10 ∧
    ∃ bodies trailer d, FileHolds out bodies trailer ∧ bodies.length = 5 ∧ DictObject trailer d ∧ TrailerIs 5 false (some { title := b!"T", author := b!"A" }) d := by
  obtain ⟨g', out, h1, h2⟩ := goDoc_compiles (i := { title := b!"T", author := b!"A" }) (by decide +kernel)
  obtain ⟨bodies, tr, d, h3, h4, h5, h6⟩ := C85_file_partial h1 (by decide +kernel) h2 (by intro i hi; cases hi; rfl) (by intro i hi; cases hi; decide +kernel)
  have hn : bodies.length = 5 := h4.trans (by decide +kernel)
  rw [hn] at h6
  exact ⟨g', out, h1, h2, bodies, tr, d, h3, hn, h5, h6⟩

set_option maxRecDepth 20000 in
/-- **C85** (refuted: a date): with a creation date what stands between `trailer` and `startxref` is not an object. -/
theorem C85_refuted_date : ∃ g' out bodies trailer, (goDoc { date := some b!"20240101000000Z" }).compile goEnv = (g', .ok out) ∧ FileHolds out bodies trailer ∧ ∀ v, ¬ ReadsVal trailer v := by
  obtain ⟨g', out, h1, h2⟩ := goDoc_compiles (i := { date := some b!"20240101000000Z" }) (by decide +kernel)
  obtain ⟨bs, _, h3, h4⟩ := compile_holds h1 (by decide +kernel) h2
  have hn : bs.length = 5 := h3.trans (by decide +kernel)
  refine ⟨g', out, _, _, h1, h4, ?_⟩
  rintro v ⟨ts, t1, t2⟩
  rw [hn] at t1
  have : (valueOfToks (lexer .ground ((goDoc { date := some b!"20240101000000Z" }).prepare.trailerText 6)).1).isNone = true := by decide +kernel
  rw [t1, t2] at this
  simp at this

set_option maxRecDepth 20000 in
/-- **C85** (refuted: characters beyond the first plane): they are written with more than four digits, which is not UTF-16 (the title is U+1F600). -/
theorem C85_refuted_utf16 : ∃ g' out bodies trailer f v, (goDoc { title := [0xF0, 0x9F, 0x98, 0x80] }).compile goEnv = (g', .ok out) ∧ FileHolds out bodies trailer ∧
    runes [0xF0, 0x9F, 0x98, 0x80] = [0x1F600] ∧ (∃ d, DictObject trailer d ∧ d.lookup b!"Info" = some (.dict f)) ∧ f.lookup b!"Title" = some v ∧ ¬ TextString v [0x1F600] := by
  obtain ⟨g', out, h1, h2⟩ := goDoc_compiles (i := { title := [0xF0, 0x9F, 0x98, 0x80] }) (by decide +kernel)
  obtain ⟨bs, _, h3, h4⟩ := compile_holds h1 (by decide +kernel) h2
  refine ⟨g', out, _, _, [(b!"Title", .hex b!"FEFF1F600")], _, h1, h4, by decide +kernel, ⟨_, trailer_reads _ _ (by rw [prepare_eq]; intro i hi; cases hi; rfl), ?_⟩, rfl, ?_⟩
  · rw [prepare_eq]; rfl
  · rintro ⟨h, e, hc⟩
    have e' : h = b!"1F600" := by
      have := congrArg (List.drop 4) (Val.hex.inj e)
      simpa using this.symm
    rw [e'] at hc
    have : codes b!"1F600" = none := by decide +kernel
    rw [this] at hc
    simp at hc

end Verif
