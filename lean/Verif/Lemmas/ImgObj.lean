import Verif.Lemmas.Object
import Verif.Theorems.Image
/-
Reading the objects of images.
-/
namespace Verif
open Spec

/-- keys and values one after the other -/
def flat (d : List (Bytes × Val)) : List Val := d.flatMap (fun e => [.name e.1, e.2])

theorem pairUp_flat : ∀ d : List (Bytes × Val), pairUp (flat d) = some d
  | [] => rfl
  | e :: d => by
    have := pairUp_flat d
    simp only [flat] at this
    simp [flat, pairUp, this]

/-- these bytes are these entries of a dictionary -/
def Part (s : Bytes) (d : List (Bytes × Val)) : Prop :=
  ∃ ts, Lx s ts ∧ ∀ l r, ts.foldl readStep (some ((true, l) :: r)) = some ((true, (flat d).reverse ++ l) :: r)

theorem Part.nil : Part [] [] := ⟨[], rfl, fun _ _ => rfl⟩

theorem Part.append {s s' : Bytes} {d d' : List (Bytes × Val)} (h : Part s d) (h' : Part s' d') : Part (s ++ s') (d ++ d') := by
  obtain ⟨ts, h1, h2⟩ := h
  obtain ⟨ts', h1', h2'⟩ := h'
  refine ⟨ts ++ ts', lexes_append h1 h1', fun l r => ?_⟩
  rw [List.foldl_append, h2, h2']
  simp [flat]

theorem Part.ite {s : Bytes} {d : List (Bytes × Val)} {c : Prop} [Decidable c] (h : c → Part s d) : Part (if c then s else []) (if c then d else []) := by
  split
  · exact h ‹_›
  · exact .nil

theorem Part.read {s : Bytes} {d : List (Bytes × Val)} {ts : List Lexeme} (h : Lx s ts) (hr : ∀ l r, ts.foldl readStep (some ((true, l) :: r)) = some ((true, (flat d).reverse ++ l) :: r)) : Part s d :=
  ⟨ts, h, hr⟩

/-- a whole dictionary -/
theorem Part.dict {s : Bytes} {d : List (Bytes × Val)} (h : Part s d) (hn : (d.map (·.1)).Nodup) : DictObject (b!"<<" ++ s ++ b!">>\n") d := by
  obtain ⟨ts, h1, h2⟩ := h
  have h3 := Lx.const (ts := [.dictOpen]) b!"<<" rfl (lexes_append h1 (Lx.last (ts := [.dictClose]) b!">>\n" rfl))
  refine ⟨Lx.reads (h3.of_eq (by simp)) ?_, hn⟩
  simp only [valueOfToks, List.foldl_append, List.foldl_cons, List.foldl_nil, readStep, h2, List.append_nil, List.reverse_reverse, pairUp_flat, Option.map_some]

theorem part_num {k : Bytes} (hk : ∀ c ∈ k, regular c = true) (n : Int) : Part (47 :: k ++ b!" " ++ itoa n ++ b!"\n") [(k, .num n)] := by
  have h := Lx.name hk (by rfl) <| Lx.const (ts := []) b!" " rfl <| Lx.num n (by rfl) <| Lx.last (ts := []) b!"\n" rfl
  exact .read (h.of_eq (by simp)) (fun l r => by simp [readStep, flat])

theorem part_name {k v : Bytes} (hk : ∀ c ∈ k, regular c = true) (hv : ∀ c ∈ v, regular c = true) : Part (47 :: k ++ b!" /" ++ v ++ b!"\n") [(k, .name v)] := by
  have h := Lx.name hk (by rfl) <| Lx.const (ts := []) b!" " rfl <| Lx.name hv (by rfl) <| Lx.last (ts := []) b!"\n" rfl
  exact .read (h.of_eq (by simp)) (fun l r => by simp [readStep, flat])

theorem part_ref {k : Bytes} (hk : ∀ c ∈ k, regular c = true) (n : Int) : Part (47 :: k ++ b!" " ++ itoa n ++ b!" 0 R\n") [(k, .ref n)] := by
  have h := Lx.name hk (by rfl) <| Lx.const (ts := []) b!" " rfl <| Lx.num n (by rfl) <| Lx.last (ts := [.num 0, .op b!"R"]) b!" 0 R\n" rfl
  exact .read (h.of_eq (by simp)) (fun l r => by simp [readStep, flat])

/-- the limits of a transparent colour, each value as the least and the greatest -/
theorem part_mask (t : Bytes) : Part (b!"/Mask [" ++ t.flatMap (fun t => itoa t.toNat ++ b!" " ++ itoa t.toNat ++ b!" ") ++ b!"]\n")
    [(b!"Mask", .arr (t.flatMap (fun t => [.num t.toNat, .num t.toNat])))] := by
  have hl : ∀ (t : Bytes) {s : Bytes} {us : List Lexeme}, Lx s us →
      Lx (t.flatMap (fun t => itoa t.toNat ++ b!" " ++ itoa t.toNat ++ b!" ") ++ s) (t.flatMap (fun t => [.num ((t.toNat : Int) : ℚ), .num ((t.toNat : Int) : ℚ)]) ++ us) := by
    intro t
    induction t with
    | nil => intro s us h; simpa using h
    | cons x t ih =>
      intro s us h
      have h' := Lx.num (x.toNat : Int) (by rfl) <| Lx.const (ts := []) b!" " rfl <| Lx.num (x.toNat : Int) (by rfl) <| Lx.const (ts := []) b!" " rfl (ih h)
      simpa using h'
  have hr : ∀ (t : Bytes) (b : Bool) (l : List Val) (r : List (Bool × List Val)),
      (t.flatMap (fun t => [Lexeme.num ((t.toNat : Int) : ℚ), .num ((t.toNat : Int) : ℚ)])).foldl readStep (some ((b, l) :: r)) =
        some ((b, (t.flatMap (fun t => [Val.num t.toNat, .num t.toNat])).reverse ++ l) :: r) := by
    intro t
    induction t with
    | nil => intro b l r; simp
    | cons x t ih =>
      intro b l r
      simp only [List.flatMap_cons, List.foldl_append, List.foldl_cons, List.foldl_nil, readStep, ih]
      simp
  have h := Lx.const (ts := [.name b!"Mask", .open]) b!"/Mask [" rfl (hl t (Lx.last (ts := [.close]) b!"]\n" rfl))
  refine .read (h.of_eq (by simp)) (fun l r => ?_)
  simp only [List.foldl_append, List.foldl_cons, List.foldl_nil, readStep, hr]
  simp [flat]

/-- the parameters of the predictor -/
theorem part_parms (c b w : Int) : Part (b!"/DecodeParms <<" ++ (b!"/Predictor 15 /Colors  " ++ itoa c ++ b!" /BitsPerComponent " ++ itoa b ++ b!" /Columns " ++ itoa w) ++ b!">>\n")
    [(b!"DecodeParms", .dict [(b!"Predictor", .num 15), (b!"Colors", .num c), (b!"BitsPerComponent", .num b), (b!"Columns", .num w)])] := by
  have h := Lx.const (ts := [.name b!"DecodeParms", .dictOpen, .name b!"Predictor", .num 15, .name b!"Colors"]) b!"/DecodeParms <</Predictor 15 /Colors  " rfl <| Lx.num c (by rfl) <|
    Lx.const (ts := [.name b!"BitsPerComponent"]) b!" /BitsPerComponent " rfl <| Lx.num b (by rfl) <|
    Lx.const (ts := [.name b!"Columns"]) b!" /Columns " rfl <| Lx.num w (by rfl) <| Lx.last (ts := [.dictClose]) b!">>\n" rfl
  refine .read (h.of_eq (by simp only [List.append_assoc, List.cons_append, List.nil_append])) (fun l r => ?_)
  simp [readStep, flat, pairUp]

set_option maxRecDepth 4000 in
theorem part_parms_mask (w : Int) : Part (b!"/DecodeParms <<" ++ (b!"/Predictor 15 /Colors 1 /BitsPerComponent 8 /Columns " ++ itoa w) ++ b!">>\n")
    [(b!"DecodeParms", .dict [(b!"Predictor", .num 15), (b!"Colors", .num 1), (b!"BitsPerComponent", .num 8), (b!"Columns", .num w)])] := by
  have h := Lx.const (ts := [.name b!"DecodeParms", .dictOpen, .name b!"Predictor", .num 15, .name b!"Colors", .num 1, .name b!"BitsPerComponent", .num 8, .name b!"Columns"])
    b!"/DecodeParms <</Predictor 15 /Colors 1 /BitsPerComponent 8 /Columns " rfl <| Lx.num w (by rfl) <| Lx.last (ts := [.dictClose]) b!">>\n" rfl
  refine .read (h.of_eq (by simp only [List.append_assoc, List.cons_append, List.nil_append])) (fun l r => ?_)
  simp [readStep, flat, pairUp]

/-- the entries of an image; `parms` are the parameters of the filter -/
def imgDict (i : ImgInfo) (bits : Int) (parms : List (Bytes × Val)) : List (Bytes × Val) :=
  [(b!"Type", .name b!"XObject"), (b!"Subtype", .name b!"Image"), (b!"Width", .num i.w), (b!"Height", .num i.h), (b!"ColorSpace", .name i.colspace)] ++
  (if i.colspace = b!"DeviceCMYK" then [(b!"Decode", .arr [.num 1, .num 0, .num 1, .num 0, .num 1, .num 0, .num 1, .num 0])] else []) ++
  [(b!"BitsPerComponent", .num bits), (b!"Filter", .name i.filter)] ++
  (if trimSpace i.decodeParms ≠ [] then parms else []) ++
  (if i.trns ≠ [] then [(b!"Mask", .arr (i.trns.flatMap (fun t => [.num t.toNat, .num t.toNat])))] else []) ++
  (if i.smask ≠ [] then [(b!"SMask", .ref i.smaskObjID)] else []) ++ [(b!"Length", .num i.data.length)]

theorem imgBuild_reads {i : ImgInfo} {bits : Int} {parms : List (Bytes × Val)} (hc : ∀ c ∈ i.colspace, regular c = true) (hi : i.colspace ≠ b!"Indexed") (hb : i.bitsPerComponent = itoa bits)
    (hf : ∀ c ∈ i.filter, regular c = true) (hf' : trimSpace i.filter ≠ []) (hp : trimSpace i.decodeParms ≠ [] → Part (b!"/DecodeParms <<" ++ i.decodeParms ++ b!">>\n") parms)
    (hn : ((imgDict i bits parms).map (·.1)).Nodup) (hlen : (imgDict i bits parms).lookup b!"Length" = some (.num i.data.length)) : StreamIs (imgBuild i) (imgDict i bits parms) i.data := by
  have h := (((((((((Part.read (d := [(b!"Type", .name b!"XObject"), (b!"Subtype", .name b!"Image")])
        (Lx.last (ts := [.name b!"Type", .name b!"XObject", .name b!"Subtype", .name b!"Image"]) b!"/Type /XObject\n/Subtype /Image\n" rfl) (fun l r => by simp [readStep, flat])).append
      (part_num (k := b!"Width") (by decide) i.w)).append (part_num (k := b!"Height") (by decide) i.h)).append (part_name (k := b!"ColorSpace") (by decide) hc)).append
    (Part.ite (c := i.colspace = b!"DeviceCMYK") (fun _ => Part.read (d := [(b!"Decode", .arr [.num 1, .num 0, .num 1, .num 0, .num 1, .num 0, .num 1, .num 0])])
        (Lx.last (ts := [.name b!"Decode", .open, .num 1, .num 0, .num 1, .num 0, .num 1, .num 0, .num 1, .num 0, .close]) b!"/Decode [1 0 1 0 1 0 1 0]\n" rfl)
        (fun l r => by simp [readStep, flat])))).append (part_num (k := b!"BitsPerComponent") (by decide) bits)).append (part_name (k := b!"Filter") (by decide) hf)).append
    (Part.ite hp)).append (Part.ite (c := i.trns ≠ []) (fun _ => part_mask i.trns))).append
    (Part.ite (c := i.smask ≠ []) (fun _ => part_ref (k := b!"SMask") (by decide) i.smaskObjID)) |>.append (part_num (k := b!"Length") (by decide) i.data.length)
  have h' := h.dict (by simpa [imgDict] using hn)
  refine ⟨_, b!"\n", (by simpa only [imgDict, List.append_assoc, List.cons_append, List.nil_append, Int.cast_natCast] using h'), ?_, Or.inr rfl, hlen⟩
  simp only [imgBuild, buildImgProp, hb, if_neg hi, if_pos hf', List.append_assoc, List.cons_append, List.nil_append]

end Verif
