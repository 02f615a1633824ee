import Verif.Lemmas.Events
import Verif.Lemmas.Stream
import Verif.Lemmas.App
import Verif.Lemmas.PageOps
import Verif.AppSamples
import Verif.Spec.Save
/-!
# What is drawn on a page (C15, C16)
-/
namespace Verif
open Spec

/-! ### C16: the length of a rewritten stream -/

/-- a stream object without filters whose dictionary gives the length of the data -/
def Spec.StreamObject (data body : Bytes) : Prop :=
  ∃ ds, parseNat ds = some body.length ∧ data = b!"<<\n/Length " ++ ds ++ b!"\n>>\nstream\n" ++ body ++ b!"endstream"

theorem contentObject_stream (stm : Bytes) : StreamObject (contentObject stm) stm :=
  ⟨natDigits stm.length, parseNat_natDigits _, rfl⟩

theorem mapPut_mem {α : Type} {m : List (Int × α)} {k : Int} {v : α} {p : Int × α} (h : p ∈ mapPut m k v) : p = (k, v) ∨ p ∈ m := by
  unfold mapPut at h
  split at h
  · obtain ⟨q, hq, rfl⟩ := List.mem_map.1 h
    split
    · exact Or.inl rfl
    · exact Or.inr hq
  · rcases List.mem_append.1 h with h | h
    · exact Or.inr h
    · exact Or.inl (by simpa using h)

theorem contentReplaces_streams {unzip : Bytes → Option Bytes} {objs : List Obj} {buffs : Nat → Option Bytes} :
    ∀ (ids : List Int) {k : Nat} {m r : List (Int × Bytes)}, contentReplaces unzip objs buffs k ids m = .ok r →
      (∀ p ∈ m, ∃ s, StreamObject p.2 s) → ∀ p ∈ r, ∃ s, StreamObject p.2 s
  | [], k, m, r, h, hm => by
    simp only [contentReplaces, Res.ok.injEq] at h
    subst h
    exact hm
  | id :: ids, k, m, r, h, hm => by
    rw [contentReplaces] at h
    simp only at h
    rw [Res.bind_eq_ok] at h
    obtain ⟨_, _, h⟩ := h
    rw [Res.bind_eq_ok] at h
    obtain ⟨o, _, h⟩ := h
    cases o with
    | none => exact contentReplaces_streams ids h hm
    | some c =>
      simp only at h
      rw [Res.bind_eq_ok] at h
      obtain ⟨stm, _, h⟩ := h
      cases hb : buffs (k + 1) with
      | none => rw [hb] at h; exact contentReplaces_streams ids h hm
      | some b =>
        rw [hb] at h
        refine contentReplaces_streams ids h ?_
        intro p hp
        rcases mapPut_mem hp with rfl | hp
        · exact ⟨_, contentObject_stream _⟩
        · exact hm p hp

theorem setObjData_mem {objs objs' : List Obj} {id : Int} {data : Bytes} (h : setObjData objs id data = .ok objs') :
    ∀ o ∈ objs', o ∈ objs ∨ o.data = data := by
  unfold setObjData at h
  split at h
  · simp only [Res.ok.injEq] at h
    subst h
    intro o ho
    obtain ⟨j, hj⟩ := List.mem_iff_getElem?.1 ho
    rw [List.getElem?_modify] at hj
    obtain ⟨q, hq, e⟩ := Option.map_eq_some_iff.1 hj
    split at e
    · exact Or.inr (by rw [← e])
    · rw [← e]
      exact Or.inl (List.mem_of_getElem? hq)
  · simp at h

theorem applyReplaces_mem : ∀ {reps : List (Int × Bytes)} {objs objs' : List Obj}, applyReplaces reps objs = .ok objs' →
    ∀ o ∈ objs', o ∈ objs ∨ ∃ p ∈ reps, o.data = p.2
  | [], objs, objs', h => by
    simp only [applyReplaces, Res.ok.injEq] at h
    subst h
    exact fun o ho => Or.inl ho
  | (id, s) :: t, objs, objs', h => by
    rw [applyReplaces, Res.bind_eq_ok] at h
    obtain ⟨objs1, h1, h2⟩ := h
    intro o ho
    rcases applyReplaces_mem h2 o ho with ho | ⟨p, hp, e⟩
    · rcases setObjData_mem h1 o ho with ho | e
      · exact Or.inl ho
      · exact Or.inr ⟨(id, s), by simp, e⟩
    · exact Or.inr ⟨p, by simp [hp], e⟩

/-- C16: every object is as before, or a stream object that declares its true length. -/
theorem C16_true_length {unzip : Bytes → Option Bytes} {d d' : Doc} {streams : List (Int × Bytes)} (h : injectContent unzip d streams = .ok d') :
    ∀ o ∈ d'.objs, o ∈ d.objs ∨ ∃ body, StreamObject o.data body := by
  unfold injectContent at h
  rw [Res.bind_eq_ok] at h
  obtain ⟨ids, _, h⟩ := h
  rw [Res.bind_eq_ok] at h
  obtain ⟨reps, hr, h⟩ := h
  rw [Res.bind_eq_ok] at h
  obtain ⟨objs, ho, h⟩ := h
  simp only [Res.ok.injEq] at h
  subst h
  intro o hmem
  rcases applyReplaces_mem ho o hmem with hm | ⟨p, hp, e⟩
  · exact Or.inl hm
  · obtain ⟨s, hs⟩ := contentReplaces_streams ids hr (by simp) p hp
    exact Or.inr ⟨s, by rw [e]; exact hs⟩

theorem propertyType_itoa {n : Nat} (h : Int64 n) : propertyType (itoa (n : Int)) = .number := by
  have hd : ∀ c ∈ itoa (n : Int), c ≠ 60 ∧ c ≠ 91 := by
    intro c hc
    have := (itoa_plain n c hc).2.2
    constructor <;> (rintro rfl; exact absurd this (by decide))
  unfold propertyType
  simp only [trimSpace_itoa]
  rw [if_neg, if_neg, if_pos]
  · rw [atoi_itoa_64 h]; rfl
  · rintro ⟨_, h2⟩
    have : (91 : UInt8) ∈ (itoa (n : Int)).take 1 := by rw [h2]; simp
    exact (hd _ (List.mem_of_mem_take this)).2 rfl
  · rintro ⟨_, h2⟩
    have : (60 : UInt8) ∈ (itoa (n : Int)).take 2 := by rw [h2]; simp
    exact (hd _ (List.mem_of_mem_take this)).1 rfl

/-- what is read back from a content object: the text is trimmed first -/
theorem readContent_eq {unzip : Bytes → Option Bytes} {objs : List Obj} {id : Int} {o : Obj} {w stm w2 : Bytes} (ho : getObj objs id = some o)
    (hd : o.data = w ++ contentObject stm ++ w2) (hw : ∀ c ∈ w, isSp c = true) (hl : stm.length < 2 ^ 63) :
    readContent unzip objs id = extractStream unzip o.data stm.length false := by
  have hi : Int64 (stm.length : Int) := ⟨by omega, by exact_mod_cast hl⟩
  have hp := readProperties_content w hw stm w2
  rw [← hd] at hp
  unfold readContent
  rw [ho]
  simp only [Res.ofOption, Res.ok_bind, readProperty, hp]
  have h1 : getPropByKey [(⟨b!"Length", itoa stm.length⟩ : PropD)] b!"FlateDecode" = none := by simp [getPropByKey]
  have h2 : streamLength objs o.data = .ok stm.length := by
    unfold streamLength
    simp only [readProperty, hp, Res.ok_bind]
    have h3 : getPropByKey [(⟨b!"Length", itoa stm.length⟩ : PropD)] b!"Length" = some ⟨b!"Length", itoa stm.length⟩ := by simp [getPropByKey]
    rw [h3]
    simp only [Res.ok_bind, propertyType_itoa hi, trimSpace_itoa, atoi_itoa_64 hi]
    rfl
  rw [h1, h2]
  rfl

theorem extract_eq {unzip : Bytes → Option Bytes} {w stm w2 : Bytes} (hw : ∀ c ∈ w, isSp c = true) (n : Int) :
    extractStream unzip (w ++ contentObject stm ++ w2) n false =
      (if n < 0 ∨ ((trimSpace (10 :: stm ++ b!"endstream" ++ w2)).length : Int) < n then .panic
      else .ok ((trimSpace (10 :: stm ++ b!"endstream" ++ w2)).take n.toNat)) := by
  have e : w ++ contentObject stm ++ w2 = (w ++ lengthDict stm.length) ++ 10 :: (streamKw ++ (10 :: stm ++ b!"endstream" ++ w2)) := by
    rw [contentObject_eq]; simp
  have e2 : (w ++ lengthDict stm.length) ++ 10 :: (streamKw ++ (10 :: stm ++ b!"endstream" ++ w2)) =
      (w ++ lengthDict stm.length ++ [10] ++ streamKw) ++ (10 :: stm ++ b!"endstream" ++ w2) := by simp
  have hl : (w ++ lengthDict stm.length).length + 1 + 6 = (w ++ lengthDict stm.length ++ [10] ++ streamKw).length := by
    simp only [List.length_append]; rfl
  unfold extractStream
  rw [e, index_stream (lengthDict_noStream w hw stm.length)]
  simp only
  rw [hl, e2, List.drop_left, if_neg (by simp)]
  rfl

/-- C16, partial: a written content that begins with a visible character is read back as it is (white space around the object does not matter). -/
theorem C16_read_back_partial {unzip : Bytes → Option Bytes} {objs : List Obj} {id : Int} {o : Obj} {w stm w2 : Bytes} {c : UInt8} (ho : getObj objs id = some o)
    (hd : o.data = w ++ contentObject stm ++ w2) (hw : ∀ c ∈ w, isSp c = true) (hw2 : ∀ c ∈ w2, isSp c = true) (hl : stm.length < 2 ^ 63)
    (hc : stm.head? = some c) (hc1 : c < 128) (hc2 : isSp c = false) : readContent unzip objs id = .ok stm := by
  rw [readContent_eq ho hd hw hl, hd, extract_eq hw]
  have ht : trimSpace (10 :: stm ++ b!"endstream" ++ w2) = stm ++ b!"endstream" := by
    have := trimSpace_ends (a := [10]) (b := w2) (x := stm ++ b!"endstream") (c := c) (e := 109) (by decide) hw2 (by
      cases stm with
      | nil => simp at hc
      | cons d t => simpa using hc) (by simp) hc1 hc2 (by decide) (by decide)
    simpa using this
  rw [ht, if_neg (by simp)]
  simp

/-- C16 is violated: white space at the beginning of a written content is lost when it is read back, and as many letters of the word `endstream` are
taken for content; with more than nine such characters reading crashes. -/
theorem C16_refuted_leading_space {unzip : Bytes → Option Bytes} {objs : List Obj} {id : Int} {o : Obj} {w sp b w2 : Bytes} {c : UInt8} (ho : getObj objs id = some o)
    (hd : o.data = w ++ contentObject (sp ++ b) ++ w2) (hw : ∀ c ∈ w, isSp c = true) (hw2 : ∀ c ∈ w2, isSp c = true) (hl : (sp ++ b).length < 2 ^ 63)
    (hsp : ∀ c ∈ sp, isSp c = true) (hc : b.head? = some c) (hc1 : c < 128) (hc2 : isSp c = false) :
    readContent unzip objs id = if sp.length ≤ 9 then .ok (b ++ (b!"endstream").take sp.length) else .panic := by
  rw [readContent_eq ho hd hw hl, hd, extract_eq hw]
  have ht : trimSpace (10 :: (sp ++ b) ++ b!"endstream" ++ w2) = b ++ b!"endstream" := by
    have := trimSpace_ends (a := 10 :: sp) (b := w2) (x := b ++ b!"endstream") (c := c) (e := 109) (by
      intro d hd
      rcases List.mem_cons.1 hd with rfl | hd
      · decide
      · exact hsp d hd) hw2 (by
      cases b with
      | nil => simp at hc
      | cons d t => simpa using hc) (by simp) hc1 hc2 (by decide) (by decide)
    simpa using this
  rw [ht]
  by_cases h9 : sp.length ≤ 9
  · rw [if_neg (by simp; omega), if_pos h9]
    congr 1
    rw [List.take_append]
    congr 1
    · apply List.take_of_length_le; simp only [Int.toNat_natCast, List.length_append]; omega
    · congr 1; simp only [Int.toNat_natCast, List.length_append]; omega
  · rw [if_pos (by right; simp; omega), if_neg h9]

/-- a page with an empty content, as a program that only sets up pages would write it -/
def blankPage : List Obj := [
  ⟨1, b!"<< /Type /Catalog /Pages 2 0 R >>"⟩,
  ⟨2, b!"<< /Type /Pages /Count 1 /Kids [ 3 0 R ] >>"⟩,
  ⟨3, b!"<< /Type /Page /Parent 2 0 R /MediaBox [0 0 595 842] /Resources << /XObject << /Im1 5 0 R >> >> /Contents 4 0 R >>"⟩,
  ⟨4, b!"<< /Length 0 >>\nstream\n\nendstream"⟩,
  ⟨5, b!"<< /Type /XObject >>"⟩]

/-- the value after opening the file and inserting an image on page 1 -/
def withImg (raw : Bytes) : App := ((openedApp raw).insertImg plainEnv b!"x" 1 0 0 1 1).state

/-- the bytes written by `Save` -/
def savedFile (a : App) : Bytes :=
  match (a.saveTo plainEnv).2 with
  | .ok b => b
  | _ => []

/-- C16 is violated by a whole run: an image is put on an empty page and the document saved; the saved file is opened, another image is put on the page
and the document saved again.  The page then has the letter `e` between the two drawings, which is no operator. -/
theorem C16_refuted_reopen :
    (App.openFrom plainEnv {} (fileOf blankPage)).res = .ok () ∧
    (App.openFrom plainEnv {} (savedFile (withImg (fileOf blankPage)))).res = .ok () ∧
    (getObj (savedObjs plainEnv (withImg (savedFile (withImg (fileOf blankPage))))) 4).map (·.data) =
      some b!"<<\n/Length 112\n>>\nstream\n[] 0 d\n0.00 w\nq 1.00 0 0 1.00 0.00 841.00 cm /Im2 Do Q\ne\n[] 0 d\n0.00 w\nq 1.00 0 0 1.00 0.00 841.00 cm /Im3 Do Q\nendstream" := by
  decide +kernel

/-! ### C15: what is drawn on a page is added to its content -/

/-- The object holds the stream `body`: a dictionary that gives the length of the written bytes `raw`, then the word `stream`, white space, the bytes and
`endstream`.  The first of the bytes is a visible ASCII character.  `raw` is `body`, or `body` compressed if the dictionary names /FlateDecode. -/
structure Spec.HoldsStream (unzip : Bytes → Option Bytes) (data body : Bytes) : Prop where
  parts : ∃ ps head sp raw mid sp2 v c, readProperties data = .ok ps ∧ valueOf ps b!"Length" = some v ∧ trimSpace v = itoa raw.length ∧ raw.length < 2 ^ 63 ∧
    data = head ++ (b!"stream" ++ (sp ++ (raw ++ mid ++ b!"endstream") ++ sp2)) ∧ ¬ b!"stream" <:+: head ∧ (∀ x ∈ sp, isSp x = true) ∧ (∀ x ∈ sp2, isSp x = true) ∧
    raw.head? = some c ∧ c < 128 ∧ isSp c = false ∧
    ((valueOf ps b!"FlateDecode" = none ∧ body = raw) ∨ ((∃ w, valueOf ps b!"FlateDecode" = some w) ∧ unzip raw = some body))

theorem propertyType_number {v : Bytes} {n : Nat} (h : trimSpace v = itoa n) (hn : Int64 n) : propertyType v = .number := by
  have := propertyType_itoa hn
  unfold propertyType at this ⊢
  simp only [h] at this ⊢
  rw [trimSpace_itoa] at this
  exact this

theorem readContent_holds {unzip : Bytes → Option Bytes} {objs : List Obj} {id : Int} {o : Obj} {body : Bytes} (ho : OnlyObj objs id o)
    (h : HoldsStream unzip o.data body) : readContent unzip objs id = .ok body := by
  obtain ⟨ps, head, sp, raw, mid, sp2, v, c, hps, hv, htv, hl, hd, hns, hsp, hsp2, hc, hc1, hc2, hz⟩ := h.parts
  have hi : Int64 (raw.length : Int) := ⟨by omega, by exact_mod_cast hl⟩
  obtain ⟨p, hp1, hp2⟩ := valueOf_some hv
  have hlen : streamLength objs o.data = .ok raw.length := by
    unfold streamLength
    simp only [readProperty, hps, Res.ok_bind, hp1]
    rw [hp2, propertyType_number htv hi, htv]
    simp only [atoi_itoa_64 hi]
    rfl
  have ht : trimSpace (sp ++ (raw ++ mid ++ b!"endstream") ++ sp2) = raw ++ mid ++ b!"endstream" := by
    refine trimSpace_ends (c := c) (e := 109) hsp hsp2 ?_ (by simp) hc1 hc2 (by decide) (by decide)
    cases raw with
    | nil => simp at hc
    | cons d t => simpa using hc
  have hx : ∀ z, extractStream unzip o.data raw.length z = if z then Res.orErr .other (unzip raw) else .ok raw := by
    intro z
    have hidx := index_first borderless_stream (head := head) hns (sp ++ (raw ++ mid ++ b!"endstream") ++ sp2)
    unfold extractStream
    rw [hd, show index streamKw _ = _ from hidx]
    simp only
    have e : head ++ (b!"stream" ++ (sp ++ (raw ++ mid ++ b!"endstream") ++ sp2)) = (head ++ b!"stream") ++ (sp ++ (raw ++ mid ++ b!"endstream") ++ sp2) := by simp
    rw [e, show head.length + 6 = (head ++ b!"stream").length by simp, List.drop_left, ht, if_neg (by simp), if_neg (by simp only [List.length_append]; omega)]
    simp only [Int.toNat_natCast, List.append_assoc, List.take_left]
  unfold readContent
  rw [getObj_only ho]
  simp only [Res.ofOption, Res.ok_bind, readProperty, hps]
  rw [hlen]
  simp only [Res.ok_bind]
  rw [hx]
  rcases hz with ⟨hf, rfl⟩ | ⟨⟨w, hf⟩, hu⟩
  · rw [valueOf_none.1 hf]; rfl
  · obtain ⟨q, hq, _⟩ := valueOf_some hf
    rw [hq, hu]; rfl

/-- no nested result -/
def Items.Flat : Items → Prop
  | .nil => True
  | .str _ _ r => r.Flat
  | .sub _ _ _ => False
  | .void _ r => r.Flat

theorem Items.Flat.append : ∀ {a b : Items}, a.Flat → b.Flat → (a.append b).Flat
  | .nil, _, _, hb => hb
  | .str _ _ r, _, ha, hb => Items.Flat.append (a := r) ha hb
  | .void _ r, _, ha, hb => Items.Flat.append (a := r) ha hb

theorem Items.valOf_append {key : Bytes} : ∀ {a b : Items}, a.Flat → (a.append b).valOf key = (a.valOf key).or (b.valOf key)
  | .nil, b, _ => by simp [Items.append, Items.valOf]
  | .str k v r, b, ha => by
    simp only [Items.append, Items.valOf]
    split
    · rfl
    · exact Items.valOf_append (a := r) ha
  | .void k r, b, ha => by
    simp only [Items.append, Items.valOf]
    exact Items.valOf_append (a := r) ha

theorem lookup_touch {rs : Results} {id i : Int} {it : Items} (h : rs.lookup i = some it) : (rs.touch id).lookup i = some it := by
  unfold Results.touch
  split
  · exact h
  · rw [List.lookup_append, h]; rfl

theorem lookup_add {rs : Results} {id : Int} {it x : Items} (h : rs.lookup id = some it) : (rs.add id x).lookup id = some (it.append x) := by
  unfold Results.add
  induction rs with
  | nil => simp at h
  | cons p t ih =>
    rw [List.lookup_cons] at h
    rw [List.map_cons, List.lookup_cons]
    by_cases hp : p.1 = id
    · simp only [hp, beq_self_eq_true, if_true] at h ⊢
      simp only [Option.some.injEq] at h ⊢
      rw [h]
    · have hb : (id == p.1) = false := by simpa using fun e => hp e.symm
      rw [hb] at h
      rw [if_neg hp, hb]
      exact ih h

theorem crawlKids_last {objs : List Obj} {i : Int} {it : Items} : ∀ (ids : List Int) {rs rs' : Results} {r : Res Unit}, rs.lookup i = some it →
    crawlKids objs (crawlNext objs []) ids rs = (rs', r) → rs'.lookup i = some it
  | [], rs, rs', r, h, he => by
    simp only [crawlKids, Prod.mk.injEq] at he
    rw [← he.1]; exact h
  | id :: ids, rs, rs', r, h, he => by
    rw [crawlKids] at he
    cases hg : getObj objs id with
    | none =>
      rw [hg] at he
      simp only [Prod.mk.injEq] at he
      rw [← he.1]; exact h
    | some o =>
      rw [hg] at he
      exact crawlKids_last ids (lookup_touch h) he

theorem crawlItem_last {objs : List Obj} {key : Bytes} {p : PropD} {i : Int} {it : Items} {rs rs' : Results} {x : Items} (h : rs.lookup i = some it)
    (he : crawlItem objs key true (crawlNext objs []) p rs = (rs', .ok x)) :
    rs'.lookup i = some it ∧ x.Flat ∧ (p.key = key → propertyType p.rawVal ≠ .number → x.valOf key = some p.rawVal) ∧ (p.key ≠ key → x.valOf key = none) := by
  have hs : ∀ {rs'' : Results}, ((rs'', Res.ok (Items.str p.key p.rawVal .nil)) : Results × Res Items) = (rs', .ok x) → rs''.lookup i = some it →
      rs'.lookup i = some it ∧ x.Flat ∧ (p.key = key → propertyType p.rawVal ≠ .number → x.valOf key = some p.rawVal) ∧ (p.key ≠ key → x.valOf key = none) := by
    intro rs'' h1 h2
    simp only [Prod.mk.injEq, Res.ok.injEq] at h1
    obtain ⟨rfl, rfl⟩ := h1
    exact ⟨h2, by simp [Items.Flat], fun hk _ => by simp [Items.valOf, hk], fun hk => by simp [Items.valOf, hk]⟩
  unfold crawlItem at he
  split at he
  · exact hs he h
  · rename_i hk
    have hk : p.key = key := by simpa using hk
    split at he
    · split at he
      · split at he
        · simp at he
        · exact hs he (lookup_touch h)
      all_goals simp at he
    · split at he
      · split at he
        · simp at he
        · simp at he
        · rename_i hck
          exact hs he (crawlKids_last _ h hck)
      all_goals simp at he
    · exact hs he h
    · rename_i hn
      simp only [Prod.mk.injEq, Res.ok.injEq] at he
      obtain ⟨rfl, rfl⟩ := he
      exact ⟨h, by simp [Items.Flat], fun _ hx => absurd hn hx, fun hx => absurd hk hx⟩

theorem crawlLoop_last {objs : List Obj} {key : Bytes} {i : Int} : ∀ (ps : Props) {rs rs' : Results} {own own' it : Items}, rs.lookup i = some it →
    crawlLoop objs key true (crawlNext objs []) (some i) ps rs own = (rs', own', .ok ()) →
    ∃ x, x.Flat ∧ rs'.lookup i = some (it.append x) ∧ ∀ v, valueOf ps key = some v → propertyType v ≠ .number → x.valOf key = some v
  | [], rs, rs', own, own', it, h, he => by
    simp only [crawlLoop, Prod.mk.injEq] at he
    obtain ⟨rfl, _⟩ := he
    exact ⟨.nil, trivial, by rw [h, Items.append_nil], fun v hv => by simp [valueOf] at hv⟩
  | p :: ps, rs, rs', own, own', it, h, he => by
    rw [crawlLoop] at he
    cases hi : crawlItem objs key true (crawlNext objs []) p rs with
    | mk rs1 r1 =>
      rw [hi] at he
      cases r1 with
      | ok x =>
        obtain ⟨h1, h2, h3, h4⟩ := crawlItem_last h hi
        obtain ⟨y, hy1, hy2, hy3⟩ := crawlLoop_last ps (lookup_add (x := x) h1) he
        refine ⟨x.append y, h2.append hy1, by rw [hy2, Items.append_assoc], ?_⟩
        intro v hv hn
        rw [Items.valOf_append h2]
        by_cases hk : p.key = key
        · have : v = p.rawVal := by
            unfold valueOf at hv
            rw [List.find?_cons_of_pos (by simpa using hk)] at hv
            simpa using hv.symm
          rw [h3 hk (this ▸ hn), this]; rfl
        · rw [h4 hk, hy3 v ?_ hn]; rfl
          unfold valueOf at hv ⊢
          rwa [List.find?_cons_of_neg (by simpa using hk)] at hv
      | err e => simp at he
      | panic => simp at he
      | hang => simp at he

/-- the value refers to object `c` -/
def Spec.RefTo (v : Bytes) (c : Int) : Prop := propertyType v = .dictionary ∧ readObjIDFromDictionary v = .ok c

theorem crawl_contents {objs : List Obj} {page c : Int} {ps : Props} {v : Bytes} (he : Entries objs page ps) (hv : valueOf ps b!"Contents" = some v) (hr : RefTo v c)
    {rs : Results} (h : crawlRun objs page [b!"Contents"] = (rs, .ok ())) : contentsID ((rs.lookup page).getD .nil) = .ok (some c) := by
  obtain ⟨o, ho, hp⟩ := he
  unfold crawlRun at h
  rw [getObj_only ho] at h
  simp only [crawlNext, hp, List.isEmpty_nil] at h
  cases hl : crawlLoop objs b!"Contents" true (crawlNext objs []) (some page) ps [(page, .nil)] .nil with
  | mk rs1 t =>
    obtain ⟨own, r⟩ := t
    have hl' : crawlLoop objs b!"Contents" true (fun _ _ x => (x, Items.nil, Res.ok ())) (some page) ps [(page, .nil)] .nil = (rs1, own, r) := hl
    rw [hl'] at h
    simp only [Prod.mk.injEq] at h
    obtain ⟨rfl, rfl⟩ := h
    obtain ⟨x, _, h2, h3⟩ := crawlLoop_last ps (by simp : ([(page, Items.nil)] : Results).lookup page = some .nil) hl
    rw [h2]
    unfold contentsID
    rw [show (((some (Items.nil.append x)).getD .nil) : Items) = x from rfl, h3 v hv (by rw [hr.1]; decide)]
    simp only [hr.1, hr.2]
    rfl

/-- page, number of its content object, content -/
structure Spec.PageC where
  page : Int
  obj : Int
  body : Bytes

/-- the page refers to the object, which holds the content -/
def Spec.PageC.Ok (unzip : Bytes → Option Bytes) (objs : List Obj) (x : PageC) : Prop :=
  (∃ ps v, Entries objs x.page ps ∧ valueOf ps b!"Contents" = some v ∧ RefTo v x.obj) ∧ ∃ o, OnlyObj objs x.obj o ∧ HoldsStream unzip o.data x.body

/-- the replacements for the pages after the `k`-th -/
def replOf (buffs : Nat → Option Bytes) : Nat → List PageC → List (Int × Bytes)
  | _, [] => []
  | k, x :: t => (match buffs (k + 1) with
    | some b => [(x.obj, contentObject (x.body ++ b!"\n" ++ b))]
    | none => []) ++ replOf buffs (k + 1) t

theorem mapPut_new {α : Type} {m : List (Int × α)} {k : Int} {v : α} (h : k ∉ m.map (·.1)) : mapPut m k v = m ++ [(k, v)] := by
  unfold mapPut
  rw [if_neg]
  intro hs
  obtain ⟨x, hx⟩ := Option.isSome_iff_exists.1 hs
  apply h
  clear h hs
  induction m with
  | nil => simp at hx
  | cons p t ih =>
    rw [List.lookup_cons] at hx
    by_cases hp : k = p.1
    · simp [hp]
    · rw [show (k == p.1) = false by simpa using hp] at hx
      simp only [List.map_cons, List.mem_cons]
      exact Or.inr (ih hx)

theorem contentReplaces_eq {unzip : Bytes → Option Bytes} {objs : List Obj} {buffs : Nat → Option Bytes} : ∀ (L : List PageC) {k : Nat} {m r : List (Int × Bytes)},
    (∀ x ∈ L, x.Ok unzip objs) → (L.map (·.obj)).Nodup → (∀ x ∈ L, x.obj ∉ m.map (·.1)) → contentReplaces unzip objs buffs k (L.map (·.page)) m = .ok r →
    r = m ++ replOf buffs k L
  | [], k, m, r, _, _, _, h => by
    simp only [List.map_nil, contentReplaces, Res.ok.injEq] at h
    simp [replOf, h]
  | x :: t, k, m, r, hok, hnd, hm, h => by
    rw [List.map_cons, contentReplaces] at h
    simp only at h
    rw [Res.bind_eq_ok] at h
    obtain ⟨u, hu, h⟩ := h
    obtain ⟨⟨ps, v, he, hv, hr⟩, o, ho, hh⟩ := hok x (by simp)
    have hc := crawl_contents he hv hr (rs := (crawlRun objs x.page [b!"Contents"]).1) (by rw [← hu])
    rw [hc] at h
    simp only [Res.ok_bind, readContent_holds ho hh] at h
    have hok' : ∀ y ∈ t, y.Ok unzip objs := fun y hy => hok y (by simp [hy])
    rw [List.map_cons, List.nodup_cons] at hnd
    have hm' : ∀ y ∈ t, y.obj ∉ m.map (·.1) := fun y hy => hm y (by simp [hy])
    rw [replOf]
    cases hb : buffs (k + 1) with
    | none =>
      rw [hb] at h
      rw [contentReplaces_eq t hok' hnd.2 hm' h]
      rfl
    | some b =>
      rw [hb] at h
      simp only at h
      rw [mapPut_new (hm x (by simp))] at h
      rw [contentReplaces_eq t hok' hnd.2 ?_ h]
      · simp
      · intro y hy hmem
        rw [List.map_append, List.mem_append] at hmem
        rcases hmem with hmem | hmem
        · exact hm' y hy hmem
        · simp only [List.map_cons, List.map_nil, List.mem_singleton] at hmem
          exact hnd.1 (hmem ▸ List.mem_map_of_mem hy)

theorem applyReplaces_only : ∀ (reps : List (Int × Bytes)) {objs objs' : List Obj}, applyReplaces reps objs = .ok objs' → (∀ p ∈ reps, ∃ o, OnlyObj objs p.1 o) →
    (reps.map (·.1)).Nodup → (∀ id, id ∉ reps.map (·.1) → objs'.filter (fun x => decide (x.objID = id)) = objs.filter (fun x => decide (x.objID = id))) ∧
      ∀ p ∈ reps, ∃ o, OnlyObj objs p.1 o ∧ OnlyObj objs' p.1 { o with data := p.2 }
  | [], objs, objs', h, _, _ => by
    simp only [applyReplaces, Res.ok.injEq] at h
    subst h
    simp
  | (id, data) :: t, objs, objs', h, ho, hn => by
    rw [applyReplaces] at h
    obtain ⟨o, ho1⟩ := ho (id, data) (by simp)
    rw [setObjData_only ho1] at h
    simp only [Res.ok_bind] at h
    change applyReplaces t (updData id data objs) = .ok objs' at h
    rw [List.map_cons, List.nodup_cons] at hn
    have hne : ∀ p ∈ t, p.1 ≠ id := fun p hp e => hn.1 (List.mem_map.2 ⟨p, hp, e⟩)
    obtain ⟨h1, h2⟩ := applyReplaces_only t h (fun p hp => by
      obtain ⟨q, hq⟩ := ho p (by simp [hp])
      exact ⟨q, onlyObj_updData_ne (hne p hp) hq⟩) hn.2
    constructor
    · intro i hi
      simp only [List.map_cons, List.mem_cons, not_or] at hi
      rw [h1 i hi.2, filter_updData]
      apply (List.map_congr_left _).trans (List.map_id _)
      intro x hx
      have := (List.mem_filter.1 hx).2
      simp only [decide_eq_true_eq] at this
      rw [if_neg (by rw [this]; exact hi.1)]
      rfl
    · intro p hp
      rcases List.mem_cons.1 hp with rfl | hp
      · refine ⟨o, ho1, ?_⟩
        have := onlyObj_updData_eq (data := data) ho1
        unfold OnlyObj at this ⊢
        rw [h1 id hn.1]
        exact this
      · obtain ⟨q, hq1, hq2⟩ := h2 p hp
        obtain ⟨q', hq'⟩ := ho p (by simp [hp])
        have : q = q' := hq1.unique (onlyObj_updData_ne (hne p hp) hq')
        subst this
        exact ⟨q, hq', hq2⟩

/-- what is drawn on page `k`: the streams made for the page, in order -/
def Spec.drawnOn (streams : List (Int × Bytes)) (k : Nat) : List Bytes := (streams.filter (fun p => decide (p.1 = (k : Int)))).map (·.2)

theorem pageBuff_eq (streams : List (Int × Bytes)) (k : Nat) :
    pageBuff streams k = if drawnOn streams k = [] then none else some (drawnOn streams k).flatten := by
  unfold pageBuff drawnOn
  cases h : streams.filter (fun p => decide (p.1 = (k : Int))) with
  | nil => simp
  | cons a t => simp [List.flatMap_def]

theorem replOf_get {buffs : Nat → Option Bytes} : ∀ (L : List PageC) (k i : Nat) (x : PageC) (b : Bytes), L[i]? = some x → buffs (k + i + 1) = some b →
    (x.obj, contentObject (x.body ++ b!"\n" ++ b)) ∈ replOf buffs k L
  | y :: t, k, 0, x, b, h, hb => by
    simp only [List.getElem?_cons_zero, Option.some.injEq] at h
    subst h
    rw [replOf]
    simp only [Nat.add_zero] at hb
    rw [hb]
    simp
  | y :: t, k, i + 1, x, b, h, hb => by
    rw [replOf]
    refine List.mem_append_right _ (replOf_get t (k + 1) i x b (by simpa using h) ?_)
    rw [← hb]; congr 1; omega

theorem replOf_keys {buffs : Nat → Option Bytes} : ∀ (L : List PageC) (k : Nat) (p : Int × Bytes), p ∈ replOf buffs k L →
    ∃ (i : Nat) (x : PageC) (b : Bytes), L[i]? = some x ∧ buffs (k + i + 1) = some b ∧ p = (x.obj, contentObject (x.body ++ b!"\n" ++ b))
  | y :: t, k, p, h => by
    rw [replOf] at h
    rcases List.mem_append.1 h with h | h
    · cases hb : buffs (k + 1) with
      | none => rw [hb] at h; simp at h
      | some b =>
        rw [hb] at h
        exact ⟨0, y, b, by simp, by simpa using hb, by simpa using h⟩
    · obtain ⟨i, x, b, h1, h2, h3⟩ := replOf_keys t (k + 1) p h
      exact ⟨i + 1, x, b, by simpa using h1, by rw [← h2]; congr 1; omega, h3⟩

theorem replOf_sub (buffs : Nat → Option Bytes) : ∀ (L : List PageC) (k : Nat), ((replOf buffs k L).map (·.1)).Sublist (L.map (·.obj))
  | [], _ => by simp [replOf]
  | y :: t, k => by
    rw [replOf]
    cases buffs (k + 1) with
    | none => exact (replOf_sub buffs t (k + 1)).cons _
    | some b => exact (replOf_sub buffs t (k + 1)).cons₂ _

/-- the written content objects -/
theorem contents_written {unzip : Bytes → Option Bytes} {d d' : Doc} {streams : List (Int × Bytes)} {t : Tree} {L : List PageC} (ht : HasTree d t)
    (hp : t.pages = L.map (·.page)) (hok : ∀ x ∈ L, x.Ok unzip d.objs) (hnd : (L.map (·.obj)).Nodup) (h : injectContent unzip d streams = .ok d') :
    (∀ i x, L[i]? = some x →
      if drawnOn streams (i + 1) = [] then ∀ o, OnlyObj d.objs x.obj o → OnlyObj d'.objs x.obj o
      else ∃ o, OnlyObj d'.objs x.obj o ∧ o.data = contentObject (x.body ++ b!"\n" ++ (drawnOn streams (i + 1)).flatten)) ∧
    ∀ id o, id ∉ L.map (·.obj) → OnlyObj d.objs id o → OnlyObj d'.objs id o := by
  unfold injectContent at h
  rw [getPageObjIDs_tree ht] at h
  simp only [Res.ok_bind, hp] at h
  rw [Res.bind_eq_ok] at h
  obtain ⟨reps, hr, h⟩ := h
  rw [Res.bind_eq_ok] at h
  obtain ⟨objs, ho, h⟩ := h
  simp only [Res.ok.injEq] at h
  subst h
  have hreps := contentReplaces_eq L hok hnd (by simp) hr
  rw [List.nil_append] at hreps
  subst hreps
  have hsub := replOf_sub (pageBuff streams) L 0
  obtain ⟨h1, h2⟩ := applyReplaces_only _ ho (by
    intro p hp
    obtain ⟨i, x, b, hx, _, rfl⟩ := replOf_keys L 0 p hp
    obtain ⟨_, o, ho, _⟩ := hok x (List.mem_of_getElem? hx)
    exact ⟨o, ho⟩) (hsub.nodup hnd)
  have hkeep : ∀ id o, id ∉ (replOf (pageBuff streams) 0 L).map (·.1) → OnlyObj d.objs id o → OnlyObj objs id o := by
    intro id o hid ho
    unfold OnlyObj
    rw [h1 id hid]
    exact ho
  constructor
  · intro i x hx
    split
    · rename_i hnil
      intro o ho
      apply hkeep _ _ _ ho
      intro hmem
      obtain ⟨p, hp, e⟩ := List.mem_map.1 hmem
      obtain ⟨j, y, b, hy, hb, rfl⟩ := replOf_keys L 0 p hp
      have hij : i = j := by
        have hi := List.getElem?_eq_some_iff.1 hx
        have hj := List.getElem?_eq_some_iff.1 hy
        obtain ⟨hi1, hi2⟩ := hi
        obtain ⟨hj1, hj2⟩ := hj
        apply (List.Nodup.getElem_inj_iff hnd (hi := by simpa using hi1) (hj := by simpa using hj1)).1
        simp only [List.getElem_map, hi2, hj2]
        exact e.symm
      subst hij
      rw [pageBuff_eq, if_pos (by rw [Nat.zero_add]; exact hnil)] at hb
      simp at hb
    · rename_i hnil
      obtain ⟨o, _, h4⟩ := h2 _ (replOf_get (buffs := pageBuff streams) L 0 i x _ hx (by rw [pageBuff_eq, if_neg (by rw [Nat.zero_add]; exact hnil), Nat.zero_add]))
      exact ⟨_, h4, rfl⟩
  · intro id o hid ho
    exact hkeep id o (fun hm => hid (hsub.subset hm)) ho

/-- C15, partial: the pages `L` of a document have content objects of their own.  After the contents are injected, the content of page `k` is what it was
followed by what is drawn on it, in order; if nothing is drawn on it its content object is unchanged; all other objects are unchanged.
(The statement is about the step of `Save` that writes contents, for pages with a single content object.) -/
theorem C15_contents_partial {unzip : Bytes → Option Bytes} {d d' : Doc} {streams : List (Int × Bytes)} {t : Tree} {L : List PageC} (ht : HasTree d t)
    (hp : t.pages = L.map (·.page)) (hok : ∀ x ∈ L, x.Ok unzip d.objs) (hnd : (L.map (·.obj)).Nodup) (h : injectContent unzip d streams = .ok d') :
    (∀ i x, L[i]? = some x →
      if drawnOn streams (i + 1) = [] then ∀ o, OnlyObj d.objs x.obj o → OnlyObj d'.objs x.obj o
      else ∃ o, OnlyObj d'.objs x.obj o ∧ StreamObject o.data (x.body ++ b!"\n" ++ (drawnOn streams (i + 1)).flatten)) ∧
    ∀ id o, id ∉ L.map (·.obj) → OnlyObj d.objs id o → OnlyObj d'.objs id o := by
  obtain ⟨h1, h2⟩ := contents_written ht hp hok hnd h
  refine ⟨fun i x hx => ?_, h2⟩
  have h3 := h1 i x hx
  split at h3
  · rename_i hn
    rw [if_pos hn]
    exact h3
  · rename_i hn
    obtain ⟨o, h4, h5⟩ := h3
    rw [if_neg hn]
    exact ⟨o, h4, h5 ▸ contentObject_stream _⟩

theorem streamsOf_forall {fonts : List FontData} {imgs : List ImageData} : ∀ (cs : List Content) {ss : List (Int × Bytes)}, streamsOf fonts imgs cs = .ok ss →
    List.Forall₂ (fun c s => c.stream fonts imgs = .ok s) cs ss
  | [], ss, h => by
    simp only [streamsOf, Res.ok.injEq] at h
    subst h
    exact .nil
  | c :: cs, ss, h => by
    rw [streamsOf, Res.bind_eq_ok] at h
    obtain ⟨s, hs, h⟩ := h
    rw [Res.bind_eq_ok] at h
    obtain ⟨r, hr, h⟩ := h
    simp only [Res.ok.injEq] at h
    subst h
    exact .cons hs (streamsOf_forall cs hr)

/-- the page a content is for -/
def Spec.pageOf : Content → Int
  | .text c => c.page
  | .img c => c.page
  | .line _ _ => 1

theorem stream_page {fonts : List FontData} {imgs : List ImageData} {c : Content} {s : Int × Bytes} (h : c.stream fonts imgs = .ok s) : s.1 = pageOf c := by
  cases c with
  | text c =>
    simp only [Content.stream] at h
    rw [Res.bind_eq_ok] at h
    obtain ⟨f, _, h⟩ := h
    rw [Res.bind_eq_ok] at h
    obtain ⟨x, _, h⟩ := h
    simp only [Res.ok.injEq] at h
    rw [← h]; rfl
  | img c =>
    simp only [Content.stream] at h
    rw [Res.bind_eq_ok] at h
    obtain ⟨f, _, h⟩ := h
    simp only [Res.ok.injEq] at h
    rw [← h]; rfl
  | line w t =>
    simp only [Content.stream, Res.ok.injEq] at h
    rw [← h]; rfl

/-- C15: without encryption, what `Save` writes is a document into which the streams of all contents, in the order of the calls, were injected (each for
the page of its call). -/
theorem C15_build {env : Env} {a : App} {b : Built} (h : a.build env = .ok b) (hp : a.protection = none) :
    ∃ d streams, injectContent env.unzip d streams = .ok b.doc ∧
      List.Forall₂ (fun c s => c.stream b.app.fonts b.app.imgs = .ok s ∧ s.1 = pageOf c) a.contents streams := by
  unfold App.build at h
  rw [Res.bind_eq_ok] at h
  obtain ⟨⟨fonts, nextID⟩, hbf, h⟩ := h
  simp only at h
  rw [Res.bind_eq_ok] at h
  obtain ⟨⟨d, new⟩, hif, h⟩ := h
  simp only at h
  rw [Res.bind_eq_ok] at h
  obtain ⟨⟨pdf2, xs⟩, hii, h⟩ := h
  simp only at h
  rw [Res.bind_eq_ok] at h
  obtain ⟨streams, hst, h⟩ := h
  rw [Res.bind_eq_ok] at h
  obtain ⟨pdf3, hic, h⟩ := h
  rw [Res.bind_eq_ok] at h
  obtain ⟨objs, hen, h⟩ := h
  simp only [hp, Res.ok.injEq] at hen h
  subst h
  refine ⟨pdf2, streams, ?_, ?_⟩
  · rw [hic, ← hen]
  · exact (streamsOf_forall _ hst).imp (fun c s hs => ⟨hs, stream_page hs⟩)

/-- C15: a successful `Insert` adds one text, after all earlier contents, with the values of the call. -/
theorem C15_insert {env : Env} {a a' : App} {text : Bytes} {page : Int} {x y w h : ℚ} {align : Nat} {color : Option (Int × Int × Int)}
    (hi : a.insert env text page x y w h align color = ⟨a', .ok ()⟩) :
    ∃ c : TextContent, a'.contents = a.contents ++ [.text c] ∧ c.text = text ∧ c.page = page ∧ c.x = x ∧ c.y = y ∧ c.w = w ∧ c.h = h ∧ c.align = align ∧ c.color = color ∧
      c.fontSize = a.fontSize ∧ a.fontMap.lookup a.fontName = some c.font := by
  unfold App.insert at hi
  split at hi
  · unfold App.font? at hi
    cases hl : a.fontMap.lookup a.fontName with
    | none => rw [hl] at hi; simp at hi
    | some j =>
      rw [hl] at hi
      simp only at hi
      cases hf : a.fonts[j]? with
      | none => rw [hf] at hi; simp at hi
      | some f =>
        rw [hf] at hi
        simp only [Option.map_some, Step.mk.injEq] at hi
        rw [← hi.1]
        exact ⟨_, rfl, rfl, rfl, rfl, rfl, rfl, rfl, rfl, rfl, rfl, rfl⟩
  all_goals simp at hi

theorem addImgContent_ok {env : Env} {a a' : App} {img : Nat} {page : Int} {x y w h : ℚ} (hi : a.addImgContent env img page x y w h = ⟨a', .ok ()⟩) :
    ∃ ph, a' = { a with contents := a.contents ++ [.img { page := page, x := x, y := y, w := w, h := h, pageHeight := ph, img := img }] } := by
  unfold App.addImgContent at hi
  split at hi
  · simp only [Step.mk.injEq, and_true] at hi
    exact ⟨_, hi.symm⟩
  all_goals simp at hi

theorem makeImg_rest {env : Env} {a a' : App} {file : Bytes} {i : ImageData} (h : a.makeImg env file = .ok (a', i)) : ∃ d, a' = { a with doc := d } := by
  unfold App.makeImg at h
  rw [Res.bind_eq_ok] at h
  obtain ⟨info, _, h⟩ := h
  split at h
  · simp only [Res.ok.injEq, Prod.mk.injEq] at h
    exact ⟨a.doc, h.1.symm⟩
  · simp only [Res.ok.injEq, Prod.mk.injEq] at h
    exact ⟨_, h.1.symm⟩

/-- C15: a successful `InsertImg` adds one image, after all earlier contents, with the values of the call; it shows the image data added by the call. -/
theorem C15_insertImg {env : Env} {a a' : App} {file : Bytes} {page : Int} {x y w h : ℚ} (hi : a.insertImg env file page x y w h = ⟨a', .ok ()⟩) :
    ∃ (c : ImgContent) (i : ImageData), a'.contents = a.contents ++ [.img c] ∧ c.page = page ∧ c.x = x ∧ c.y = y ∧ c.w = w ∧ c.h = h ∧
      a'.imgs = a.imgs ++ [i] ∧ a'.imgs[c.img]? = some i := by
  unfold App.insertImg at hi
  cases hm : a.makeImg env file with
  | ok r =>
    obtain ⟨b, i⟩ := r
    rw [hm] at hi
    obtain ⟨d, rfl⟩ := makeImg_rest hm
    obtain ⟨ph, rfl⟩ := addImgContent_ok hi
    exact ⟨_, i, rfl, rfl, rfl, rfl, rfl, rfl, rfl, by simp⟩
  | err e => rw [hm] at hi; simp at hi
  | panic => rw [hm] at hi; simp at hi
  | hang => rw [hm] at hi; simp at hi

/-- C15 is violated: opening a document adds a line style to the first page, so its content is rewritten although nothing was inserted. -/
theorem C15_refuted_untouched :
    (App.openFrom plainEnv {} (fileOf onePage)).res = .ok () ∧
    (getObj (openedApp (fileOf onePage)).doc.objs 4).map (·.data) = some b!"\n<< /Length 5 >>\nstream\nq 7 Q\nendstream\n" ∧
    (getObj (savedObjs plainEnv (openedApp (fileOf onePage))) 4).map (·.data) = some b!"<<\n/Length 20\n>>\nstream\nq 7 Q\n[] 0 d\n0.00 w\nendstream" := by
  decide +kernel

/-- a page whose content consists of two streams -/
def twoParts : List Obj := [
  ⟨1, b!"<< /Type /Catalog /Pages 2 0 R >>"⟩,
  ⟨2, b!"<< /Type /Pages /Count 1 /Kids [ 3 0 R ] >>"⟩,
  ⟨3, b!"<< /Type /Page /Parent 2 0 R /MediaBox [0 0 595 842] /Resources << /XObject << /Im1 5 0 R >> >> /Contents [4 0 R 6 0 R] >>"⟩,
  ⟨4, b!"<< /Length 5 >>\nstream\nq 7 w\nendstream"⟩,
  ⟨5, b!"<< /Type /XObject >>"⟩,
  ⟨6, b!"<< /Length 5 >>\nstream\n8 w Q\nendstream"⟩]

/-- C15 is violated: if the content of a page consists of several streams, what is drawn is added to the first and comes before the others. -/
theorem C15_refuted_array :
    (App.openFrom plainEnv {} (fileOf twoParts)).res = .ok () ∧
    (getObj (savedObjs plainEnv (withImg (fileOf twoParts))) 4).map (·.data) =
      some b!"<<\n/Length 61\n>>\nstream\nq 7 w\n[] 0 d\n0.00 w\nq 1.00 0 0 1.00 0.00 841.00 cm /Im2 Do Q\nendstream" ∧
    (getObj (savedObjs plainEnv (withImg (fileOf twoParts))) 6).map (·.data) = some b!"\n<< /Length 5 >>\nstream\n8 w Q\nendstream\n" := by
  decide +kernel

/-- two pages with contents of their own; one of the contents is compressed -/
def twoOwn : List Obj := [
  ⟨1, b!"<< /Type /Catalog /Pages 2 0 R >>"⟩,
  ⟨2, b!"<< /Type /Pages /Count 2 /Kids [ 3 0 R 5 0 R ] >>"⟩,
  ⟨3, b!"<< /Type /Page /Parent 2 0 R /Contents 4 0 R >>"⟩,
  ⟨4, b!"<< /Length 5 >>\nstream\nq 7 Q\nendstream"⟩,
  ⟨5, b!"<< /Type /Page /Parent 2 0 R /Contents 6 0 R >>"⟩,
  ⟨6, b!"<< /Length 5 /Filter /FlateDecode >>\nstream\nx 8 Q\nendstream"⟩]

/-- the hypotheses of `C15_contents_partial` hold for it -/
example : ∃ d', HasTree { emptyDoc with objs := twoOwn, rootObjID := 1 } (.node 2 [.leaf 3, .leaf 5]) ∧
    (∀ x ∈ [(⟨3, 4, b!"q 7 Q"⟩ : PageC), ⟨5, 6, b!"x 8 Q"⟩], x.Ok some twoOwn) ∧
    injectContent some { emptyDoc with objs := twoOwn, rootObjID := 1 } [(2, b!"a"), (1, b!"b"), (2, b!"c"), (7, b!"d")] = .ok d' ∧
    (getObj d'.objs 6).map (·.data) = some b!"<<\n/Length 8\n>>\nstream\nx 8 Q\nacendstream" := by
  have e : ∀ (i : Int) (ps : Props), entriesOf twoOwn i = some ps → Entries twoOwn i ps := by
    intro i ps h
    unfold entriesOf at h
    split at h
    · rename_i o ho
      split at h
      · rename_i ps' hp
        simp only [Option.some.injEq] at h
        exact ⟨o, ho, h ▸ hp⟩
      · simp at h
    · simp at h
  refine ⟨_, ⟨⟨_, _, e 1 _ (by rfl), by rfl, by decide +kernel⟩, ⟨_, e 2 _ (by rfl), ⟨_, by rfl⟩, _, by rfl, Or.inl (by unfold ArrayRefs; decide +kernel)⟩,
    ⟨_, e 3 _ (by rfl), ⟨_, by rfl⟩, Or.inl (by rfl)⟩, ⟨_, e 5 _ (by rfl), ⟨_, by rfl⟩, Or.inl (by rfl)⟩, trivial⟩, ?_, by rfl, by rfl⟩
  intro x hx
  simp only [List.mem_cons, List.not_mem_nil, or_false] at hx
  rcases hx with rfl | rfl
  · refine ⟨⟨_, _, e 3 _ (by rfl), by rfl, by decide +kernel, by decide +kernel⟩, _, by rfl, ⟨_, b!"<< /Length 5 >>\n", b!"\n", b!"q 7 Q", b!"\n", [], _, 113, by rfl, by rfl,
      by decide +kernel, by decide, by decide +kernel, by decide +kernel, by decide, by decide, by rfl, by decide, by decide, Or.inl ⟨by rfl, rfl⟩⟩⟩
  · refine ⟨⟨_, _, e 5 _ (by rfl), by rfl, by decide +kernel, by decide +kernel⟩, _, by rfl, ⟨_, b!"<< /Length 5 /Filter /FlateDecode >>\n", b!"\n", b!"x 8 Q", b!"\n", [], _, 120, by rfl, by rfl,
      by decide +kernel, by decide, by decide +kernel, by decide +kernel, by decide, by decide, by rfl, by decide, by decide, Or.inr ⟨⟨_, by rfl⟩, rfl⟩⟩⟩

/-- the hypotheses of `C16_read_back_partial` and `C16_refuted_leading_space` hold for written contents -/
example : readContent some [⟨4, b!"\n" ++ contentObject b!"q 7 Q" ++ b!"\n"⟩] 4 = .ok b!"q 7 Q" :=
  C16_read_back_partial (w := b!"\n") (w2 := b!"\n") (c := 113) (by rfl) rfl (by decide) (by decide) (by decide) (by rfl) (by decide) (by decide)
example : readContent some [⟨4, b!"\n" ++ contentObject b!"\nq 7 Q" ++ b!"\n"⟩] 4 = .ok b!"q 7 Qe" :=
  C16_refuted_leading_space (w := b!"\n") (sp := b!"\n") (b := b!"q 7 Q") (w2 := b!"\n") (c := 113) (by rfl) rfl (by decide) (by decide) (by decide) (by decide) (by rfl) (by decide)
    (by decide)

end Verif
