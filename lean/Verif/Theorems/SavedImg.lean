import Verif.Theorems.Saved
import Mathlib.Data.List.TakeWhile
/-!
# What `Save` does to the images of flat documents (C19, C20)
-/
namespace Verif
open Spec

variable {env : Env} {a : App} {b : Built} {tree : Int} {ct node : Props} {pages : List FlatPage} {L : List PageC}

/-- a letter -/
def Spec.Letter (c : UInt8) : Prop := (65 ≤ c ∧ c ≤ 90) ∨ (97 ≤ c ∧ c ≤ 122)

/-- the names of the images are letters followed by a number, and each names an object -/
def Spec.ImageList (xs : Props) (ks : List (Bytes × Nat)) : Prop :=
  xs.map (·.key) = ks.map (fun k => k.1 ++ natDigits k.2) ∧ (∀ k ∈ ks, (∀ c ∈ k.1, Letter c) ∧ k.2 < 2 ^ 63) ∧ ∀ p ∈ xs, ∃ i, refOf p.rawVal = some i

/-- the last name has the greatest number -/
def Spec.LastGreatest (ks : List (Bytes × Nat)) : Prop := ∀ k ∈ ks, ∀ l, ks.getLast? = some l → k.2 ≤ l.2

/-- the name of an image -/
def Spec.xobjName (x : CrXObj) : Bytes := x.chr ++ itoa x.idx

theorem letter_alpha {c : UInt8} (h : Letter c) : isAlphaSp c = true := by
  unfold isAlphaSp
  rcases h with ⟨h1, h2⟩ | ⟨h1, h2⟩
  · simp [h1, h2]
  · simp [h1, h2]

theorem letter_digit {c : UInt8} (h : Letter c) : isDigit c = false ∧ c ≠ 45 := by
  have h : (65 ≤ c.toNat ∧ c.toNat ≤ 90) ∨ (97 ≤ c.toNat ∧ c.toNat ≤ 122) := h
  constructor
  · unfold isDigit
    simp only [Bool.and_eq_false_iff, decide_eq_false_iff_not, UInt8.le_iff_toNat_le]
    right
    rw [show (57 : UInt8).toNat = 57 from rfl]
    omega
  · rintro rfl
    rw [show (45 : UInt8).toNat = 45 from rfl] at h
    omega

theorem alpha_digit {c : UInt8} (h : isAlphaSp c = true) : isDigit c = false ∧ c ≠ 45 := by
  unfold isAlphaSp at h
  simp only [Bool.or_eq_true, Bool.and_eq_true, decide_eq_true_eq] at h
  rcases h with (h | h) | h
  · exact letter_digit (Or.inr h)
  · rw [h]; decide
  · exact letter_digit (Or.inl h)

theorem digit_alpha {c : UInt8} (h : isDigit c = true) : isAlphaSp c = false := by
  by_contra hc
  rw [Bool.not_eq_false] at hc
  rw [(alpha_digit hc).1] at h
  simp at h

theorem takeWhile_stop {α : Type} {q : α → Bool} {u v : List α} (hu : ∀ c ∈ u, q c = true) (hv : ∀ c ∈ v, q c = false) : (u ++ v).takeWhile q = u := by
  rw [List.takeWhile_append_of_pos hu]
  cases v with
  | nil => simp
  | cons c t => simp [List.takeWhile_cons, hv c (by simp)]

theorem regular_digit {c : UInt8} (h : isDigit c = true) : Regular c := by
  unfold isDigit at h
  simp only [Bool.and_eq_true, decide_eq_true_eq, UInt8.le_iff_toNat_le] at h
  rw [show (48 : UInt8).toNat = 48 from rfl, show (57 : UInt8).toNat = 57 from rfl] at h
  unfold Regular
  refine ⟨UInt8.lt_iff_toNat_lt.2 ?_, UInt8.lt_iff_toNat_lt.2 ?_, ?_, ?_, ?_, ?_, ?_⟩
  · rw [show (32 : UInt8).toNat = 32 from rfl]; omega
  · rw [show (127 : UInt8).toNat = 127 from rfl]; omega
  all_goals (rintro rfl; revert h; decide)

theorem natDigits_regular (n : Nat) : ∀ c ∈ natDigits n, Regular c := fun c hc => regular_digit (natDigits_isDigit n c hc)

theorem splitXObj_name {s : Bytes} {n : Nat} (hs : ∀ c ∈ s, Letter c) (hn : n < 2 ^ 63) : splitXObj (s ++ natDigits n) = some (s, (n : Int)) := by
  have h1 : (s ++ natDigits n).takeWhile isAlphaSp = s := takeWhile_stop (fun c hc => letter_alpha (hs c hc)) (fun c hc => digit_alpha (natDigits_isDigit n c hc))
  have h2 : (natDigits n).takeWhile isDigit = natDigits n := by
    have := takeWhile_stop (q := isDigit) (u := natDigits n) (v := []) (natDigits_isDigit n) (by simp)
    rwa [List.append_nil] at this
  unfold splitXObj
  simp only [h1, List.drop_left, h2]
  rw [key_trim (natDigits_regular n)]
  have := atoi_itoa_64 (v := (n : Int)) ⟨by omega, by omega⟩
  rw [itoa_natCast] at this
  rw [this]

/-- such lists are read in full -/
theorem crXObjsOf_list : ∀ {xs : Props} {ks : List (Bytes × Nat)}, ImageList xs ks →
    (crXObjsOf xs).map (fun x => (x.chr, x.idx)) = ks.map (fun k => (k.1, (k.2 : Int))) ∧
      ∀ name v i, valueOf xs name = some v → refOf v = some i → Int64 i ∧ valueOf (xobjProps (crXObjsOf xs)) name = some (itoa i ++ b!" 0 R")
  | [], [], _ => by simp [crXObjsOf, valueOf]
  | [], _ :: _, h => by simp [ImageList] at h
  | _ :: _, [], h => by simp [ImageList] at h
  | p :: t, k :: ks, h => by
    obtain ⟨h1, h2, h3⟩ := h
    simp only [List.map_cons, List.cons.injEq] at h1
    obtain ⟨i1, i2⟩ := crXObjsOf_list (xs := t) (ks := ks) ⟨h1.2, fun q hq => h2 q (by simp [hq]), fun q hq => h3 q (by simp [hq])⟩
    obtain ⟨id, hid⟩ := h3 p (by simp)
    have hk := h2 k (by simp)
    have hid' := refOf_some hid
    have e : crXObjsOf (p :: t) = ⟨k.1, (k.2 : Int), id⟩ :: crXObjsOf t := by
      rw [crXObjsOf, h1.1, splitXObj_name hk.1 hk.2]
      simp only [hid']
    rw [e]
    refine ⟨by rw [List.map_cons, List.map_cons, i1], fun name v i hv hi => ?_⟩
    simp only [xobjProps, List.map_cons]
    unfold valueOf at hv ⊢
    rw [List.find?_cons] at hv ⊢
    have hname : k.1 ++ itoa (k.2 : Int) = p.key := by rw [itoa_natCast, h1.1]
    simp only [hname]
    by_cases hp : p.key = name
    · simp only [hp, decide_true, Option.map_some, Option.some.injEq] at hv ⊢
      subst hv
      rw [hid] at hi
      simp only [Option.some.injEq] at hi
      subst hi
      exact ⟨readObjID_range hid', rfl⟩
    · simp only [hp, decide_false] at hv ⊢
      exact i2 name v i hv hi

theorem resourcesOf_dict {objs : List Obj} {page : Int} {rs xs : Props} {w kind : Bytes} (h1 : resDict objs page = some rs) (h2 : valueOf rs kind = some w) (h3 : dictOf objs w = some xs) :
    resourcesOf objs page kind = some xs := by
  have : resourcesOf objs page kind = (resDict objs page).bind (fun rs => (valueOf rs kind).bind (dictOf objs)) := by
    unfold resourcesOf resDict
    simp only [Option.bind_eq_bind, Option.bind_assoc]
  rw [this, h1, Option.bind_some, h2, Option.bind_some, h3]

theorem dict_of_resources {objs : List Obj} {page : Int} {xs : Props} {kind : Bytes} (h : resourcesOf objs page kind = some xs) :
    ∃ rs w, resDict objs page = some rs ∧ valueOf rs kind = some w ∧ dictOf objs w = some xs := by
  have : resourcesOf objs page kind = (resDict objs page).bind (fun rs => (valueOf rs kind).bind (dictOf objs)) := by
    unfold resourcesOf resDict
    simp only [Option.bind_eq_bind, Option.bind_assoc]
  rw [this, Option.bind_eq_some_iff] at h
  obtain ⟨rs, h1, h⟩ := h
  rw [Option.bind_eq_some_iff] at h
  obtain ⟨w, h2, h3⟩ := h
  exact ⟨rs, w, h1, h2, h3⟩

theorem named_of {objs : List Obj} {page : Int} {kind name : Bytes} {i : Int} (h : named objs page kind name = some i) :
    ∃ xs v, resourcesOf objs page kind = some xs ∧ valueOf xs name = some v ∧ refOf v = some i := by
  unfold named at h
  simp only [Option.bind_eq_bind, Option.bind_eq_some_iff] at h
  obtain ⟨xs, h1, v, h2, h3⟩ := h
  exact ⟨xs, v, h1, h2, h3⟩

theorem dictOf_inline {objs : List Obj} {w : Bytes} {xs : Props} (hi : Inline w) (hx : readProperties w = .ok xs) : dictOf objs w = some xs := by
  rw [dictOf, if_pos hi, hx]

/-- the resources of a page of the document -/
theorem res_of_dict (h : SaveDoc env.unzip a.doc.objs a.doc.rootObjID tree ct node pages L) {g : FlatPage} (hg : g ∈ pages) {rs : Props} (hrs : resDict a.doc.objs g.id = some rs) :
    ∃ r, g.res = some r ∧ rs = r.entries := by
  cases hgr : g.res with
  | none =>
    have hok := h.fonts.pagesOk g hg
    have hn := hok.res
    rw [hgr] at hn
    rw [resDict_none hok.entries hn] at hrs
    simp at hrs
  | some r =>
    rw [resDict_before h.fonts hg hgr] at hrs
    exact ⟨r, rfl, by simpa using hrs.symm⟩

/-- **C19** (whole `Save`, without encryption).  In a document with a flat page tree, a page whose images are listed in place under names that are letters
followed by a number finds each of them under the same name afterwards.  Missing: lists in objects of their own (`C19_refuted_reference`) and other names
(`C19_refuted_name`), for which it is false, and other documents. -/
theorem C19_saved_partial (hinv : NumInv a) (hp : a.protection = none) (hb : a.build env = .ok b) (h : SaveDoc env.unzip a.doc.objs a.doc.rootObjID tree ct node pages L) :
    ∀ g ∈ pages, ∀ rs w xs ks, resDict a.doc.objs g.id = some rs → valueOf rs b!"XObject" = some w → Inline w → readProperties w = .ok xs → ImageList xs ks →
      ∀ name i, named a.doc.objs g.id b!"XObject" name = some i → named b.doc.objs g.id b!"XObject" name = some i := by
  obtain ⟨fids, d1, m, added, iids, d3, xs, c, n, streams, hs, hm, _, _, hxok, _, _, hsd⟩ := build_flat hinv hp hb h
  intro g hg rs w zs ks hrs hw hin hrd hks name i hname
  obtain ⟨r, hgr, rfl⟩ := res_of_dict h hg hrs
  obtain ⟨zs', v, hz1, hz2, hz3⟩ := named_of hname
  rw [resourcesOf_dict hrs hw (dictOf_inline hin hrd)] at hz1
  simp only [Option.some.injEq] at hz1
  subst hz1
  obtain ⟨rs', h1, _, _, h4, _⟩ := hsd.res g hg r hgr
  rcases h4 with ⟨e, _⟩ | ⟨old, e1, e2⟩ | ⟨e, _⟩
  · rw [hw] at e
    rw [named_eq (resourcesOf_dict h1 e (dictOf_inline hin hrd)) hz2]
    exact hz3
  · rw [hw] at e1
    simp only [Option.some.injEq] at e1
    subst e1
    have hpar : parseCrXObjs w = crXObjsOf zs := by
      rw [parseCrXObjs, hrd]
    have hold := image_ok h.images h.imagesReadable hg hgr hw
    have ht := xobjProps_tidy (mergeXObjs_ok hold hxok)
    obtain ⟨l', hl', _⟩ := mergeXObjs_eq (xs ++ newCrXObjs c n iids) (parseCrXObjs w)
    obtain ⟨k1, k2⟩ := (crXObjsOf_list hks).2 name v i hz2 hz3
    rw [named_eq (resourcesOf_dict h1 e2 (dictOf_dictVal ht)) (v := itoa i ++ b!" 0 R")]
    · exact refOf_ref k1
    · rw [hl', hpar, show xobjProps (crXObjsOf zs ++ l') = xobjProps (crXObjsOf zs) ++ xobjProps l' from List.map_append, valueOf_append, k2]
      rfl
  · rw [hw] at e
    simp at e

theorem mergeXObjs_mem : ∀ (l acc : List CrXObj), ∀ x ∈ l, ∃ e ∈ mergeXObjs acc l, e.chr = x.chr ∧ e.idx = x.idx
  | [], _, x, h => by simp at h
  | y :: t, acc, x, h => by
    rw [mergeXObjs]
    rcases List.mem_cons.1 h with rfl | h
    · split
      · rename_i hy
        rw [List.any_eq_true] at hy
        obtain ⟨e, he, hd⟩ := hy
        obtain ⟨l', hl', _⟩ := mergeXObjs_eq t acc
        exact ⟨e, by rw [hl']; simp [he], by simpa using hd⟩
      · obtain ⟨l', hl', _⟩ := mergeXObjs_eq t (acc ++ [x])
        exact ⟨x, by rw [hl']; simp, rfl, rfl⟩
    · split
      · exact mergeXObjs_mem t acc x h
      · exact mergeXObjs_mem t _ x h

theorem valueOf_xobjProps {l : List CrXObj} {x : CrXObj} (hx : x ∈ l) (hu : ∀ y ∈ l, xobjName y = xobjName x → y = x) :
    valueOf (xobjProps l) (xobjName x) = some (itoa x.objID ++ b!" 0 R") := by
  unfold valueOf xobjProps
  rw [List.find?_map]
  cases hf : l.find? ((fun p : PropD => decide (p.key = xobjName x)) ∘ fun x => ⟨x.chr ++ itoa x.idx, itoa x.objID ++ b!" 0 R"⟩) with
  | none =>
    have := List.find?_eq_none.1 hf x hx
    simp [xobjName] at this
  | some y =>
    have h1 := List.mem_of_find?_eq_some hf
    have h2 := List.find?_some hf
    have := hu y h1 (by
      simp only [Function.comp_apply, decide_eq_true_eq] at h2
      exact h2)
    subst this
    rfl

/-- the names that are read are letters (and spaces) and a number -/
theorem parse_shape {v : Bytes} : ∀ x ∈ parseCrXObjs v, (∀ c ∈ x.chr, isDigit c = false ∧ c ≠ 45) := by
  have key : ∀ (xs : Props), ∀ x ∈ crXObjsOf xs, (∀ c ∈ x.chr, isDigit c = false ∧ c ≠ 45) := by
    intro xs
    induction xs with
    | nil => simp [crXObjsOf]
    | cons p t ih =>
      intro x hx
      rw [crXObjsOf] at hx
      split at hx
      · simp at hx
      · rename_i s k hs
        split at hx
        · rcases List.mem_cons.1 hx with rfl | hx
          · intro c hc
            have : s = p.key.takeWhile isAlphaSp := by
              unfold splitXObj at hs
              simp only at hs
              split at hs
              · simp only [Option.some.injEq, Prod.mk.injEq] at hs
                exact hs.1.symm
              · simp at hs
            subst this
            exact alpha_digit (List.mem_takeWhile_imp hc)
          · exact ih x hx
        · simp at hx
  intro x hx
  unfold parseCrXObjs at hx
  split at hx
  · exact key _ x hx
  · simp at hx

/-- the drawing operators use the names -/
def Spec.DrawsBy (b : Built) (c : Content) (s : Int × Bytes) : Prop :=
  s.1 = pageOf c ∧ ∀ t, c = .img t → ∃ im, b.app.imgs[t.img]? = some im ∧ (b!" cm /" ++ (im.xObjChar ++ itoa im.xObjIndex) ++ b!" Do Q\n") <:+ s.2

theorem drawsBy_of {c : Content} {s : Int × Bytes} (h : c.stream b.app.fonts b.app.imgs = .ok s ∧ s.1 = pageOf c) : DrawsBy b c s := by
  refine ⟨h.2, ?_⟩
  rintro t rfl
  obtain ⟨h, _⟩ := h
  simp only [Content.stream] at h
  rw [Res.bind_eq_ok] at h
  obtain ⟨im, him, h⟩ := h
  simp only [Res.ok.injEq] at h
  refine ⟨im, ?_, ?_⟩
  · cases hg : b.app.imgs[t.img]? with
    | none => rw [hg] at him; simp [Res.ofOption] at him
    | some z => rw [hg] at him; simp only [Res.ofOption, Res.ok.injEq] at him; rw [him]
  · rw [← h]
    exact ⟨b!"q " ++ fmt2 t.w ++ b!" 0 0 " ++ fmt2 t.h ++ b!" " ++ fmt2 t.x ++ b!" " ++ fmt2 (t.pageHeight - (t.y + t.h)), by simp [ImgContent.stream]⟩

/-- **C20** (whole `Save`, without encryption, documents without images).  In a document with a flat page tree and without images the inserted images are
named /I1, /I2, …; every page that has resources knows every image under that name, the object of the image is in the document, and the name is used to
draw it.  Missing: documents in which some pages have their resources in place and others do not. -/
theorem C20_first_partial (hinv : NumInv a) (hp : a.protection = none) (hb : a.build env = .ok b) (h : SaveDoc env.unzip a.doc.objs a.doc.rootObjID tree ct node pages L)
    (h64 : b.lastID < 2 ^ 63) (hf : ∀ g ∈ pages, ∀ rs, resDict a.doc.objs g.id = some rs → valueOf rs b!"XObject" = none) :
    (∀ (j : Nat) im, b.app.imgs[j]? = some im → im.xObjChar ++ itoa im.xObjIndex = b!"I" ++ itoa ((j : Int) + 1) ∧ OnlyObj b.doc.objs im.objID ⟨im.objID, im.buf⟩ ∧
      ∀ g ∈ pages, ∀ rs, resDict a.doc.objs g.id = some rs → named b.doc.objs g.id b!"XObject" (im.xObjChar ++ itoa im.xObjIndex) = some im.objID) ∧
    ∃ streams, List.Forall₂ (DrawsBy b) a.contents streams ∧
      ∀ i x, L[i]? = some x → drawnOn streams (i + 1) ≠ [] → ∃ o, OnlyObj b.doc.objs x.obj o ∧ StreamObject o.data (x.body ++ b!"\n" ++ (drawnOn streams (i + 1)).flatten) := by
  obtain ⟨fids, d1, m, added, iids, d3, xs, c, n, streams, hs, hm, hfree, _, hxok, _, _, hsd⟩ := build_flat hinv hp hb h
  have hf' : ImageFree pages := fun g hg r hgr => hf g hg _ (resDict_before h.fonts hg hgr)
  obtain ⟨rfl, rfl, rfl⟩ := hfree hf'
  refine ⟨?_, streams, hs.streams.imp (fun _ _ hcs => drawsBy_of hcs), ?_⟩
  · intro j im him
    obtain ⟨⟨x, hx, e1, e2, e3⟩, hmem⟩ := hs.img j im him
    obtain ⟨g1, g2, g3⟩ := newCrXObjs_get _ iids 0 hx
    have hname : im.xObjChar ++ itoa im.xObjIndex = xobjName x := by rw [xobjName, e1, e2]
    refine ⟨?_, hsd.added _ hmem, ?_⟩
    · rw [hname, xobjName, g1, g2]
      congr 2
      omega
    · intro g hg rs hrs
      obtain ⟨r, hgr, rfl⟩ := res_of_dict h hg hrs
      obtain ⟨rs', h1, _, _, h4, _⟩ := hsd.res g hg r hgr
      have hx' : x ∈ newCrXObjs b!"I" 0 iids := List.mem_of_getElem? hx
      rcases h4 with ⟨_, e, _⟩ | ⟨old, e, _⟩ | ⟨_, e, _⟩
      · exact absurd hf' e
      · rw [hf' g hg r hgr] at e
        simp at e
      · have ht := xobjProps_tidy (l := newCrXObjs b!"I" 0 iids) (fun y hy => hxok y (by simp [hy]))
        rw [hname, named_eq (resourcesOf_dict h1 e (dictOf_dictVal ht)) (v := itoa x.objID ++ b!" 0 R"), ← e3]
        · exact refOf_ref (saved_int64 h64 hs.range (hs.iidsIn _ g3))
        · refine valueOf_xobjProps hx' (fun y hy e => ?_)
          obtain ⟨k, hk⟩ := List.mem_iff_getElem?.1 hy
          obtain ⟨f1, f2, _⟩ := newCrXObjs_get _ iids 0 hk
          rw [xobjName, xobjName, f1, g1] at e
          have := (fontName_inj (by decide) (by decide) (by omega) e).2
          have hjk : k = j := by omega
          subst hjk
          rw [hk] at hx
          simpa using hx
  · intro i x hx hne
    have := hsd.content i x hx
    rw [if_neg hne] at this
    exact this

/-- **C20** (whole `Save`, without encryption, documents with images).  In a document with a flat page tree whose resources are all in the pages or all in
one object, and whose images are listed in place under names that are letters followed by a number, in each list the greatest number last: the names of
the inserted images are pairwise different and differ from every image name of any page; every page that has an image knows every inserted image under its
name; the object of the image is in the document, and the name is used to draw it.  Missing: lists in another order (`C20_refuted_order`) and pages with
separate resource objects (`C20_refuted_page`), for which it is false; pages without images; other names. -/
theorem C20_more_partial (hinv : NumInv a) (hp : a.protection = none) (hb : a.build env = .ok b) (h : SaveDoc env.unzip a.doc.objs a.doc.rootObjID tree ct node pages L)
    (h64 : b.lastID < 2 ^ 63) (hsp : ¬ Split pages)
    (hlist : ∀ g ∈ pages, ∀ rs w, resDict a.doc.objs g.id = some rs → valueOf rs b!"XObject" = some w →
      Inline w ∧ ∃ xs ks, readProperties w = .ok xs ∧ ImageList xs ks ∧ LastGreatest ks) :
    (∀ (j j' : Nat) im im', b.app.imgs[j]? = some im → b.app.imgs[j']? = some im' → j ≠ j' → im.xObjChar ++ itoa im.xObjIndex ≠ im'.xObjChar ++ itoa im'.xObjIndex) ∧
    (∀ (j : Nat) im, b.app.imgs[j]? = some im → OnlyObj b.doc.objs im.objID ⟨im.objID, im.buf⟩ ∧
      ∀ g ∈ pages, ∀ xs, resourcesOf a.doc.objs g.id b!"XObject" = some xs → (∀ p ∈ xs, p.key ≠ im.xObjChar ++ itoa im.xObjIndex) ∧
        named b.doc.objs g.id b!"XObject" (im.xObjChar ++ itoa im.xObjIndex) = some im.objID) ∧
    ∃ streams, List.Forall₂ (DrawsBy b) a.contents streams ∧
      ∀ i x, L[i]? = some x → drawnOn streams (i + 1) ≠ [] → ∃ o, OnlyObj b.doc.objs x.obj o ∧ StreamObject o.data (x.body ++ b!"\n" ++ (drawnOn streams (i + 1)).flatten) := by
  obtain ⟨fids, d1, m, added, iids, d3, xs, c, n, streams, hs, hm, hfree, ⟨hn0, hchr, hcov⟩, hxok, hsrc, _, hsd⟩ := build_flat hinv hp hb h
  have hcov := hcov hsp
  -- the numbers in use
  have hlow : ∀ g ∈ pages, ∀ r v, g.res = some r → valueOf r.entries b!"XObject" = some v → ∀ x ∈ parseCrXObjs v, 0 ≤ x.idx ∧ x.idx ≤ n := by
    intro g hg r v hgr hv x hx
    obtain ⟨_, zs, ks, hz, hk, hl⟩ := hlist g hg r.entries v (resDict_before h.fonts hg hgr) hv
    have hpar : parseCrXObjs v = crXObjsOf zs := by rw [parseCrXObjs, hz]
    obtain ⟨hk1, _⟩ := crXObjsOf_list hk
    rw [hpar] at hx
    have hxk : (x.chr, x.idx) ∈ ks.map (fun k => (k.1, (k.2 : Int))) := by
      rw [← hk1]
      exact List.mem_map.2 ⟨x, hx, rfl⟩
    obtain ⟨k, hkm, hke⟩ := List.mem_map.1 hxk
    simp only [Prod.mk.injEq] at hke
    refine ⟨by omega, ?_⟩
    cases hlast : (crXObjsOf zs).getLast? with
    | none =>
      rw [List.getLast?_eq_none_iff] at hlast
      rw [hlast] at hx
      simp at hx
    | some y =>
      have h1 := (hcov g hg r v hgr hv).2 y (by rw [hpar]; exact hlast)
      have h2 : ((crXObjsOf zs).map (fun x => (x.chr, x.idx))).getLast? = some (y.chr, y.idx) := by rw [List.getLast?_map, hlast]; rfl
      rw [hk1, List.getLast?_map] at h2
      cases hkl : ks.getLast? with
      | none => rw [hkl] at h2; simp at h2
      | some l =>
        rw [hkl] at h2
        simp only [Option.map_some, Option.some.injEq, Prod.mk.injEq] at h2
        have := hl k hkm l hkl
        omega
  have hcl : ∀ d ∈ c, isDigit d = false ∧ d ≠ 45 := by
    rcases hchr with rfl | ⟨x, hx, rfl⟩
    · decide
    · obtain ⟨g, hg, r, v, hgr, hv, hxv⟩ := hsrc x hx
      exact parse_shape x hxv
  have hnew : ∀ {j k : Nat} {x y : CrXObj}, (newCrXObjs c n iids)[j]? = some x → (newCrXObjs c n iids)[k]? = some y → xobjName x = xobjName y → j = k := by
    intro j k x y hx hy e
    obtain ⟨g1, g2, _⟩ := newCrXObjs_get c iids n hx
    obtain ⟨f1, f2, _⟩ := newCrXObjs_get c iids n hy
    rw [xobjName, xobjName, g1, f1] at e
    have := (fontName_inj (fun d hd => (hcl d hd).1) hcl (by omega) e).2
    omega
  have hold : ∀ g ∈ pages, ∀ r v, g.res = some r → valueOf r.entries b!"XObject" = some v → ∀ y ∈ parseCrXObjs v, ∀ {j : Nat} {x : CrXObj}, (newCrXObjs c n iids)[j]? = some x → xobjName y ≠ xobjName x := by
    intro g hg r v hgr hv y hy j x hx e
    obtain ⟨g1, g2, _⟩ := newCrXObjs_get c iids n hx
    have hl := hlow g hg r v hgr hv y hy
    rw [xobjName, xobjName, g1] at e
    have := (fontName_inj (fun d hd => (parse_shape y hy d hd).1) hcl (by omega) e).2
    omega
  refine ⟨?_, ?_, streams, hs.streams.imp (fun _ _ hcs => drawsBy_of hcs), ?_⟩
  · intro j j' im im' h1 h2 hne e
    obtain ⟨⟨x, hx, e1, e2, _⟩, _⟩ := hs.img j im h1
    obtain ⟨⟨x', hx', e1', e2', _⟩, _⟩ := hs.img j' im' h2
    exact hne (hnew hx hx' (by rw [xobjName, xobjName, e1, e2, e1', e2']; exact e))
  · intro j im him
    obtain ⟨⟨x, hx, e1, e2, e3⟩, hmem⟩ := hs.img j im him
    have hname : im.xObjChar ++ itoa im.xObjIndex = xobjName x := by rw [xobjName, e1, e2]
    refine ⟨hsd.added _ hmem, fun g hg zs hzs => ?_⟩
    obtain ⟨rs, w, hrs, hw, hd⟩ := dict_of_resources hzs
    obtain ⟨r, hgr, rfl⟩ := res_of_dict h hg hrs
    obtain ⟨hin, zs', ks, hz, hk, _⟩ := hlist g hg _ w hrs hw
    rw [dictOf_inline hin hz] at hd
    simp only [Option.some.injEq] at hd
    subst hd
    have hpar : parseCrXObjs w = crXObjsOf zs' := by rw [parseCrXObjs, hz]
    rw [hname]
    constructor
    · intro p hp e
      have hk1 := (crXObjsOf_list hk).1
      have : p.key ∈ zs'.map (·.key) := List.mem_map_of_mem hp
      rw [hk.1] at this
      obtain ⟨k, hkm, hke⟩ := List.mem_map.1 this
      have : (k.1, (k.2 : Int)) ∈ (crXObjsOf zs').map (fun x => (x.chr, x.idx)) := by
        rw [hk1]
        exact List.mem_map.2 ⟨k, hkm, rfl⟩
      obtain ⟨y, hy, hye⟩ := List.mem_map.1 this
      simp only [Prod.mk.injEq] at hye
      refine hold g hg r w hgr hw y (by rw [hpar]; exact hy) hx ?_
      rw [← e, ← hke, xobjName, hye.1, hye.2, itoa_natCast]
    · obtain ⟨rs', h1, _, _, h4, _⟩ := hsd.res g hg r hgr
      rcases h4 with ⟨_, _, e⟩ | ⟨old, f1, f2⟩ | ⟨e, _⟩
      · rcases e with e | e
        · rw [hw] at e; simp at e
        · exact absurd e hsp
      · rw [hw] at f1
        simp only [Option.some.injEq] at f1
        subst f1
        have ht := xobjProps_tidy (mergeXObjs_ok (image_ok h.images h.imagesReadable hg hgr hw) hxok)
        have hx' : x ∈ newCrXObjs c n iids := List.mem_of_getElem? hx
        have huni : ∀ y ∈ mergeXObjs (parseCrXObjs w) (xs ++ newCrXObjs c n iids), xobjName y = xobjName x → y = x := by
          intro y hy e
          obtain ⟨l', hl', hs'⟩ := mergeXObjs_eq (xs ++ newCrXObjs c n iids) (parseCrXObjs w)
          rw [hl'] at hy
          rcases List.mem_append.1 hy with hy | hy
          · exact absurd e (hold g hg r w hgr hw y hy hx)
          · rcases List.mem_append.1 (hs' y hy) with hy | hy
            · obtain ⟨g', hg', r', v', hgr', hv', hy'⟩ := hsrc y hy
              exact absurd e (hold g' hg' r' v' hgr' hv' y hy' hx)
            · obtain ⟨k, hk⟩ := List.mem_iff_getElem?.1 hy
              obtain rfl := hnew hk hx e
              rw [hk] at hx
              simpa using hx
        obtain ⟨y, hy, hy1, hy2⟩ := mergeXObjs_mem (xs ++ newCrXObjs c n iids) (parseCrXObjs w) x (by simp [hx'])
        have hyx := huni y hy (by rw [xobjName, xobjName, hy1, hy2])
        subst hyx
        rw [named_eq (resourcesOf_dict h1 f2 (dictOf_dictVal ht)) (valueOf_xobjProps hy huni), ← e3]
        exact refOf_ref (saved_int64 h64 hs.range (hs.iidsIn _ (newCrXObjs_get c iids n hx).2.2))
      · rw [hw] at e
        simp at e
  · intro i x hx hne
    have := hsd.content i x hx
    rw [if_neg hne] at this
    exact this

end Verif
