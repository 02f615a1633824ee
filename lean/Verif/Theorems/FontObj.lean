import Verif.Lemmas.Object
import Verif.Theorems.Saved
import Verif.Theorems.FontFile
import Verif.AppSamples
import Mathlib.Data.Rat.Floor
/-!
# The objects written for a font (C75)
-/
namespace Verif
open Spec

/-! ### what a viewer needs -/

/-- the width that an array of widths gives for a glyph, the first one counts -/
def Spec.widthIn : List Val → Nat → Option ℚ
  | .num c :: .arr [.num w] :: t, g => if c = g then some w else widthIn t g
  | _, _ => none

/-- the number of thousandths nearest to `v` of `upem` units -/
def Spec.Nearest (v : Int) (upem : Nat) (x : Option Val) : Prop := ∃ n : Int, x = some (.num n) ∧ |(n : ℚ) - v * 1000 / upem| ≤ 1 / 2

/-- The objects of an embedded font (ISO 32000-1, 9.7): `n` is the font, `cid` its descendant with the widths `w`, `uni` the map to characters with the content
`umap`, `desc` the descriptor, `file` the font file: `body`, which is the compressed form of `len` bytes. -/
structure Spec.FontGraph (objs : List Obj) (n : Int) (name : Bytes) (cid uni desc file : Int) (w : List Val) (umap body : Bytes) (len : Nat) (t : Ttf) : Prop where
  font : ∃ o d, OnlyObj objs n o ∧ DictObject o.data d ∧ d.lookup b!"Type" = some (.name b!"Font") ∧ d.lookup b!"Subtype" = some (.name b!"Type0") ∧
    d.lookup b!"BaseFont" = some (.name name) ∧ d.lookup b!"Encoding" = some (.name b!"Identity-H") ∧ d.lookup b!"DescendantFonts" = some (.arr [.ref cid]) ∧
    d.lookup b!"ToUnicode" = some (.ref uni)
  cid : ∃ o d i, OnlyObj objs cid o ∧ DictObject o.data d ∧ d.lookup b!"Type" = some (.name b!"Font") ∧ d.lookup b!"Subtype" = some (.name b!"CIDFontType2") ∧
    d.lookup b!"BaseFont" = some (.name name) ∧ d.lookup b!"FontDescriptor" = some (.ref desc) ∧ d.lookup b!"W" = some (.arr w) ∧ d.lookup b!"CIDSystemInfo" = some (.dict i) ∧
    i.lookup b!"Registry" = some (.lit b!"Adobe") ∧ i.lookup b!"Ordering" = some (.lit b!"Identity") ∧ i.lookup b!"Supplement" = some (.num 0)
  uni : ∃ o d, OnlyObj objs uni o ∧ StreamIs o.data d umap ∧ d.lookup b!"Filter" = none
  desc : ∃ o d box, OnlyObj objs desc o ∧ DictObject o.data d ∧ d.lookup b!"Type" = some (.name b!"FontDescriptor") ∧ d.lookup b!"FontName" = some (.name name) ∧
    d.lookup b!"FontFile2" = some (.ref file) ∧ d.lookup b!"Flags" = some (.num 32) ∧ d.lookup b!"ItalicAngle" = some (.num t.italicAngle) ∧
    d.lookup b!"FontBBox" = some (.arr box) ∧ box.length = 4 ∧
    (t.unitsPerEm ≠ 0 → Nearest t.ascent t.unitsPerEm (d.lookup b!"Ascent") ∧ Nearest t.descent t.unitsPerEm (d.lookup b!"Descent") ∧
      Nearest t.capHeight t.unitsPerEm (d.lookup b!"CapHeight") ∧ Nearest t.xHeight t.unitsPerEm (d.lookup b!"XHeight") ∧
      Nearest t.xMin t.unitsPerEm box[0]? ∧ Nearest t.yMin t.unitsPerEm box[1]? ∧ Nearest t.xMax t.unitsPerEm box[2]? ∧ Nearest t.yMax t.unitsPerEm box[3]?)
  file : ∃ o d, OnlyObj objs file o ∧ StreamIs o.data d body ∧ d.lookup b!"Filter" = some (.name b!"FlateDecode") ∧ d.lookup b!"Length1" = some (.num len)

/-! ### rounding -/

theorem tdiv_near (q : ℚ) (hq : 0 ≤ q) : ((Int.tdiv q.num q.den : Int) : ℚ) ≤ q ∧ q < (Int.tdiv q.num q.den : Int) + 1 := by
  have hn : 0 ≤ q.num := Rat.num_nonneg.2 hq
  rw [Int.tdiv_eq_ediv_of_nonneg hn]
  have : q.num / (q.den : Int) = Int.floor q := (Rat.floor_def q).symm
  rw [this]
  exact ⟨Int.floor_le q, Int.lt_floor_add_one q⟩

theorem roundQ_near (v : ℚ) : |(roundQ v : ℚ) - v| ≤ 1 / 2 := by
  unfold roundQ
  simp only
  split
  · rename_i h
    have h1 := tdiv_near (-(v - 1 / 2)) (by linarith)
    have e : Int.tdiv (v - 1 / 2).num (v - 1 / 2).den = - Int.tdiv (-(v - 1 / 2)).num (-(v - 1 / 2)).den := by
      rw [Rat.num_neg_eq_neg_num, Rat.den_neg_eq_den, Int.neg_tdiv, Int.neg_neg]
    rw [e]
    push_cast
    rw [abs_le]
    constructor <;> linarith [h1.1, h1.2]
  · rename_i h
    have h1 := tdiv_near (v + 1 / 2) (by push Not at h; linarith)
    rw [abs_le]
    constructor <;> linarith [h1.1, h1.2]

theorem nearest_units (v : Int) (u : Nat) : Nearest v u (some (.num (designUnits v u))) := ⟨_, rfl, roundQ_near _⟩

/-! ### the widths -/

theorem widthIn_wVals {f : Nat → Res Nat} : ∀ (es : List (Nat × Nat)), (∀ p ∈ es, f p.1 = .ok p.2) → ∀ g w, g ∈ es.map (·.1) → f g = .ok w → widthIn (wVals es) g = some (w : ℚ)
  | [], _, g, w, hg, _ => by simp at hg
  | p :: es, h, g, w, hg, hw => by
    have e : wVals (p :: es) = .num (p.1 : Int) :: .arr [.num (p.2 : Int)] :: wVals es := by simp [wVals]
    rw [e, widthIn]
    by_cases hp : p.1 = g
    · rw [if_pos (by simp [hp])]
      have := h p (by simp)
      rw [hp, hw] at this
      simp only [Res.ok.injEq] at this
      simp [this]
    · rw [if_neg (by simpa using hp)]
      rw [List.map_cons, List.mem_cons] at hg
      exact widthIn_wVals es (fun q hq => h q (by simp [hq])) g w (hg.resolve_left (fun e => hp e.symm)) hw

/-! ### C75 -/

/-- nothing has been written for the font yet -/
def FontData.Unbuilt (f : FontData) : Prop := f.fontBuf = [] ∧ f.cidBuf = [] ∧ f.unicodeBuf = [] ∧ f.descBuf = [] ∧ f.dictBuf = []

theorem build_graph {env : Env} {f f' : FontData} {start : Int} (h : f.build env start = .ok f') (hu : f.Unbuilt) (hn : GoodName f.name) (hc : FontOK f.state.ttf f.state.chars)
    {objs : List Obj} (ho : ∀ o ∈ f'.objs, OnlyObj objs o.objID o) :
    ∃ cid uni desc file w fontFile, FontGraph objs f'.fontID (subsetName f.name) cid uni desc file w (unicodeStream f.state.chars) (env.zip fontFile) fontFile.length f.state.ttf ∧
      makeFont f.state.ttf f.state.chars = .ok fontFile ∧
      ∀ r ∈ f.state.chars.keys, ∃ g x, charToGlyph f.state.ttf r = .ok g ∧ runeWidth f.state.ttf r = .ok x ∧ widthIn w g = some (x : ℚ) := by
  obtain ⟨u1, u2, u3, u4, u5⟩ := hu
  unfold FontData.build at h
  rw [Res.bind_eq_ok] at h
  obtain ⟨cidB, hcid, h⟩ := h
  rw [Res.bind_eq_ok] at h
  obtain ⟨dictB, hdict, h⟩ := h
  simp only [u1, u2, u3, u4, u5, List.nil_append, Res.ok.injEq] at h
  subst h
  simp only [FontData.objs, List.forall_mem_cons, List.not_mem_nil, false_implies, implies_true, and_true] at ho
  obtain ⟨o1, o2, o3, o4, o5⟩ := ho
  obtain ⟨es, e1, e2, e3⟩ := cidBuild_reads hn hcid
  obtain ⟨file, f1, f2⟩ := dictBuild_reads hdict
  refine ⟨start + 2, start + 3, start + 4, start + 5, wVals es, file, ⟨?_, ?_, ?_, ?_, ?_⟩, f1, ?_⟩
  · exact ⟨_, _, o1, fontBuild_reads hn _ _, rfl, rfl, rfl, rfl, rfl, rfl⟩
  · rw [show start + 1 + 1 = start + 2 by ring] at o2
    exact ⟨_, _, _, o2, e3, rfl, rfl, rfl, rfl, rfl, rfl, rfl, rfl, rfl⟩
  · rw [show start + 1 + 2 = start + 3 by ring] at o3
    exact ⟨_, _, o3, unicodeBuild_reads _, rfl⟩
  · rw [show start + 1 + 3 = start + 4 by ring] at o4
    refine ⟨_, _, _, o4, descBuild_reads hn _ _, rfl, rfl, rfl, rfl, rfl, rfl, rfl, fun _ => ?_⟩
    exact ⟨nearest_units _ _, nearest_units _ _, nearest_units _ _, nearest_units _ _, nearest_units _ _, nearest_units _ _, nearest_units _ _, nearest_units _ _⟩
  · rw [show start + 1 + 4 = start + 5 by ring] at o5
    exact ⟨_, _, o5, f2, rfl, rfl⟩
  · intro r hr
    obtain ⟨g, hg⟩ := val_of_mem hc hr
    have hgm : g ∈ es.map (·.1) := by rw [e1]; exact (List.of_mem_zip ((val_iff hc).1 hg)).2
    obtain ⟨p, hp, rfl⟩ := List.mem_map.1 hgm
    refine ⟨p.1, p.2, val_glyph hc hg, ?_, widthIn_wVals es e2 _ _ hgm (e2 p hp)⟩
    unfold runeWidth
    rw [val_glyph hc hg]
    exact e2 p hp

theorem setIndexes_some : ∀ (is : List Nat) (cs : List CrFont) (fs : List FontData) (i : Nat) (f : FontData), fs[i]? = some f →
    ∃ x, (setIndexes is cs fs)[i]? = some { f with fontIndex := x }
  | [], _, fs, i, f, h => ⟨f.fontIndex, by simpa [setIndexes] using h⟩
  | _ :: _, [], fs, i, f, h => ⟨f.fontIndex, by simpa [setIndexes] using h⟩
  | k :: is, c :: cs, fs, i, f, h => by
    rw [setIndexes]
    by_cases hk : k = i
    · obtain ⟨x, hx⟩ := setIndexes_some is cs (fs.modify k (fun f => { f with fontIndex := c.idx })) i { f with fontIndex := c.idx }
        (by rw [List.getElem?_modify, h]; simp [hk])
      exact ⟨x, hx⟩
    · exact setIndexes_some is cs _ i f (by rw [List.getElem?_modify, h]; simp [hk])

theorem buildFonts_built {env : Env} : ∀ (is : List Nat) (id : Int) (fs fs' : List FontData) (last : Int), buildFonts env is id fs = .ok (fs', last) → is.Nodup →
    ∀ i ∈ is, ∃ f start f', fs[i]? = some f ∧ f.build env start = .ok f' ∧ fs'[i]? = some f'
  | [], _, _, _, _, _, _, i, hi => by simp at hi
  | i0 :: t, id, fs, fs', last, h, hn, i, hi => by
    have hspec := buildFonts_spec (i0 :: t) id fs fs' last h hn
    rw [buildFonts, Res.bind_eq_ok] at h
    obtain ⟨f, hf, h⟩ := h
    rw [Res.bind_eq_ok] at h
    obtain ⟨f', hb, h⟩ := h
    obtain ⟨hni, hnt⟩ := List.nodup_cons.1 hn
    have hf' : fs[i0]? = some f := by
      cases hg : fs[i0]? with
      | none => rw [hg] at hf; simp at hf
      | some x => rw [hg] at hf; simpa using hf
    have hlt := lt_length_of_getElem? hf'
    rcases List.mem_cons.1 hi with rfl | hi
    · refine ⟨f, _, f', hf', hb, ?_⟩
      rw [(buildFonts_spec t _ _ _ _ h hnt).2.2.1 _ hni, List.getElem?_set_self hlt]
    · obtain ⟨g, s, g', h1, h2, h3⟩ := buildFonts_built t _ _ _ _ h hnt i hi
      refine ⟨g, s, g', ?_, h2, h3⟩
      rwa [List.getElem?_set_ne (fun e : i0 = i => hni (e ▸ hi))] at h1

theorem build_fontdata {env : Env} {a : App} {b : Built} (hinv : NumInv a) (h : a.build env = .ok b) {p : Bytes × Nat} (hp : p ∈ a.fontMap) :
    ∃ f start f' x, a.fonts[p.2]? = some f ∧ f.build env start = .ok f' ∧ b.app.fonts[p.2]? = some { f' with fontIndex := x } := by
  unfold App.build at h
  rw [Res.bind_eq_ok] at h
  obtain ⟨⟨fonts, nextID⟩, hbf, h⟩ := h
  simp only at h
  rw [Res.bind_eq_ok] at h
  obtain ⟨⟨d, new⟩, hif, h⟩ := h
  simp only at h
  rw [Res.bind_eq_ok] at h
  obtain ⟨⟨pdf2, xs⟩, hii, h⟩ := h
  simp only at h
  rw [Res.bind_eq_ok] at h
  obtain ⟨streams, hst, h⟩ := h
  rw [Res.bind_eq_ok] at h
  obtain ⟨pdf3, hic, h⟩ := h
  rw [Res.bind_eq_ok] at h
  obtain ⟨objs, hen, h⟩ := h
  simp only [Res.ok.injEq] at h
  subst h
  have hperm0 := ((env.order 0).perm a.fontMap).map (·.2)
  obtain ⟨f, s, f', h1, h2, h3⟩ := buildFonts_built _ _ _ _ _ hbf (hperm0.nodup_iff.2 hinv.fonts.nodup) p.2 (hperm0.mem_iff.2 (List.mem_map_of_mem hp))
  obtain ⟨x, hx⟩ := setIndexes_some (((env.order 1).fn a.fontMap).map (·.2)) new fonts p.2 f' h3
  exact ⟨f, s, f', x, h1, h2, hx⟩

/-- **C75** (whole first `Save` of a flat document, without encryption).  Under the name used in the drawn text, every page that has fonts finds the font: a composite
font with its descendant, its map to characters, its descriptor and its font file, each the only object with its number and each readable, connected by references,
with the width of every inserted character.  Missing: names of fonts with bytes that end a name (`C75_refuted_name`), later saves (`C75_refuted_twice`), deeper page
trees, dictionaries that are not read without loss, object numbers of 2^63 and more. -/
theorem C75_saved_partial {env : Env} {a : App} {b : Built} {tree : Int} {ct node : Props} {pages : List FlatPage} {L : List PageC}
    (hinv : NumInv a) (hp : a.protection = none) (hb : a.build env = .ok b) (h : SaveDoc env.unzip a.doc.objs a.doc.rootObjID tree ct node pages L)
    (h64 : b.lastID < 2 ^ 63) {p : Bytes × Nat} (hpm : p ∈ a.fontMap) {f : FontData} (hf : a.fonts[p.2]? = some f) (hu : f.Unbuilt) (hn : GoodName f.name)
    (hc : FontOK f.state.ttf f.state.chars) :
    ∃ f' cid uni desc file w fontFile, b.app.fonts[p.2]? = some f' ∧
      (∀ g ∈ pages, ∀ fs, resourcesOf a.doc.objs g.id b!"Font" = some fs → named b.doc.objs g.id b!"Font" (b!"F" ++ itoa f'.fontIndex) = some f'.fontID) ∧
      FontGraph b.doc.objs f'.fontID (subsetName f.name) cid uni desc file w (unicodeStream f.state.chars) (env.zip fontFile) fontFile.length f.state.ttf ∧
      makeFont f.state.ttf f.state.chars = .ok fontFile ∧
      ∀ r ∈ f.state.chars.keys, ∃ g x, charToGlyph f.state.ttf r = .ok g ∧ runeWidth f.state.ttf r = .ok x ∧ widthIn w g = some (x : ℚ) := by
  obtain ⟨f1, hf1, o1, o2, o3, o4, o5, hres⟩ := C51_saved_partial hinv hp hb h h64 p hpm
  obtain ⟨f0, s, f', x, h1, h2, h3⟩ := build_fontdata hinv hb hpm
  rw [hf, Option.some.injEq] at h1
  subst h1
  rw [hf1, Option.some.injEq] at h3
  subst h3
  obtain ⟨cid, uni, desc, file, w, ff, h4, h5, h6⟩ := build_graph (objs := b.doc.objs) h2 hu hn hc (by
    simp only [FontData.objs, List.forall_mem_cons, List.not_mem_nil, false_implies, implies_true, and_true]
    exact ⟨o1, o2, o3, o4, o5⟩)
  exact ⟨_, cid, uni, desc, file, w, ff, hf1, hres, h4, h5, h6⟩

/-! ### where it fails -/

theorem valueOfToks_inv {ts : List Lexeme} {v : Val} (h : valueOfToks ts = some v) : ts.foldl readStep (some [(false, [])]) = some [(false, [v])] := by
  unfold valueOfToks at h
  split at h
  · rename_i w hw
    simp only [Option.some.injEq] at h
    rw [hw, h]
  · simp at h

/-- `m` below everything that is open -/
def below (m : List Val) : List (Bool × List Val) → List (Bool × List Val)
  | [] => []
  | [(b, l)] => [(b, l ++ m)]
  | x :: y :: r => x :: below m (y :: r)

theorem readStep_below (m : List Val) (s : List (Bool × List Val)) (t : Lexeme) (s' : List (Bool × List Val)) (hs : s ≠ []) (h : readStep (some s) t = some s') :
    s' ≠ [] ∧ readStep (some (below m s)) t = some (below m s') := by
  rcases s with _ | ⟨⟨b, l⟩, _ | ⟨⟨b', l'⟩, r⟩⟩
  · exact absurd rfl hs
  · cases t with
    | op w =>
      simp only [readStep, below] at h ⊢
      split at h
      · rename_i hw
        rw [if_pos hw]
        split at h
        · simp only [List.cons_append]
          split at h
          · rename_i hc
            rw [if_pos hc]
            simp only [Option.some.injEq] at h ⊢
            subst h
            exact ⟨by simp, rfl⟩
          · simp at h
        · simp at h
      · rename_i hw
        rw [if_neg hw]
        simp only [Option.some.injEq] at h ⊢
        subst h
        exact ⟨by simp, rfl⟩
    | _ => cases b <;> simp [readStep, below] at h ⊢ <;> subst h <;> simp [below]
  · have hr : ∃ k q, below m ((b', l') :: r) = (b', l' ++ k) :: q ∧ ∀ x, below m ((b', x :: l') :: r) = (b', x :: l' ++ k) :: q := by
      cases r with
      | nil => exact ⟨m, [], rfl, fun _ => rfl⟩
      | cons y r => exact ⟨[], below m (y :: r), by simp [below], fun x => by simp [below]⟩
    obtain ⟨k, q, hq1, hq2⟩ := hr
    cases t with
    | op w =>
      simp only [readStep, below] at h ⊢
      split at h
      · rename_i hw
        rw [if_pos hw]
        split at h
        · split at h
          · rename_i hc
            simp only [if_pos hc]
            simp only [Option.some.injEq] at h ⊢
            subst h
            exact ⟨by simp, rfl⟩
          · simp at h
        · simp at h
      · rename_i hw
        rw [if_neg hw]
        simp only [Option.some.injEq] at h ⊢
        subst h
        exact ⟨by simp, rfl⟩
    | close =>
      cases b
      · simp only [readStep, Option.some.injEq, below, hq1] at h ⊢
        subst h
        exact ⟨by simp, by rw [hq2]; simp⟩
      · simp [readStep] at h
    | dictClose =>
      cases b
      · simp [readStep] at h
      · simp only [readStep, Option.map_eq_some_iff, below, hq1] at h ⊢
        obtain ⟨d, hd, rfl⟩ := h
        exact ⟨by simp, d, hd, by rw [hq2]; simp⟩
    | _ => simp [readStep, below] at h ⊢ <;> subst h <;> simp [below]

theorem foldl_none (ts : List Lexeme) : ts.foldl readStep none = none := by
  induction ts with
  | nil => rfl
  | cons t ts ih =>
    rw [List.foldl_cons]
    have : readStep none t = none := by cases t <;> rfl
    rw [this, ih]

theorem foldl_below (m : List Val) : ∀ (ts : List Lexeme) (s s' : List (Bool × List Val)), s ≠ [] → ts.foldl readStep (some s) = some s' →
    ts.foldl readStep (some (below m s)) = some (below m s')
  | [], s, s', _, h => by simp only [List.foldl_nil, Option.some.injEq] at h ⊢; rw [h]
  | t :: ts, s, s', hs0, h => by
    rw [List.foldl_cons] at h ⊢
    cases hs : readStep (some s) t with
    | none => rw [hs, foldl_none] at h; simp at h
    | some s1 =>
      rw [hs] at h
      obtain ⟨h1, h2⟩ := readStep_below m s t s1 hs0 hs
      rw [h2]
      exact foldl_below m ts s1 s' h1 h

/-- a value followed by a value is not a value -/
theorem not_reads_two {s s' : Bytes} {v v' : Val} (h : ReadsVal s v) (h' : ReadsVal s' v') : ¬ ∃ w, ReadsVal (s ++ s') w := by
  rintro ⟨w, ts, h1, h2⟩
  obtain ⟨ts1, a1, a2⟩ := h
  obtain ⟨ts2, b1, b2⟩ := h'
  rw [lexes_append a1 b1] at h1
  simp only [Prod.mk.injEq, and_true] at h1
  subst h1
  unfold valueOfToks at h2
  have := foldl_below [v] ts2 _ _ (by simp) (valueOfToks_inv b2)
  simp only [below, List.nil_append, List.cons_append] at this
  rw [List.foldl_append, valueOfToks_inv a2, this] at h2
  simp at h2

/-- **C75 is violated by every later save**: the objects of the fonts are written twice, one after the other; what then stands in the object of the font is not a value. -/
theorem C75_refuted_twice {env : Env} {f f' f'' : FontData} {start start' : Int} (h : f.build env start = .ok f') (h' : f'.build env start' = .ok f'')
    (hu : f.Unbuilt) (hn : GoodName f.name) : ⟨f''.fontID, f''.fontBuf⟩ ∈ f''.objs ∧ ¬ ∃ v, ReadsVal f''.fontBuf v := by
  refine ⟨by simp [FontData.objs], ?_⟩
  unfold FontData.build at h h'
  rw [Res.bind_eq_ok] at h h'
  obtain ⟨_, _, h⟩ := h
  obtain ⟨_, _, h'⟩ := h'
  rw [Res.bind_eq_ok] at h h'
  obtain ⟨_, _, h⟩ := h
  obtain ⟨_, _, h'⟩ := h'
  simp only [hu.1, List.nil_append, Res.ok.injEq] at h
  subst h
  simp only [Res.ok.injEq] at h'
  subst h'
  exact not_reads_two (fontBuild_reads hn _ _).1 (fontBuild_reads hn _ _).1

set_option maxRecDepth 4000 in
theorem bracket_name (cid uni : Int) : ¬ ∃ v, ReadsVal (fontBuild b!"Noto Sans (Bold)" cid uni) v := by
  rintro ⟨v, ts, h1, h2⟩
  have h := Lx.const (ts := [.dictOpen, .name b!"BaseFont", .name b!"Noto+Sans+", .lit b!"Bold", .name b!"DescendantFonts", .open])
      b!"<<\n/BaseFont /Noto+Sans+(Bold)\n/DescendantFonts [" rfl <| Lx.num cid (by rfl) <|
    Lx.const (ts := [.num 0, .op b!"R", .close, .name b!"Encoding", .name b!"Identity-H", .name b!"Subtype", .name b!"Type0", .name b!"ToUnicode"])
      b!" 0 R]\n/Encoding /Identity-H\n/Subtype /Type0\n/ToUnicode " rfl <| Lx.num uni (by rfl) <|
    Lx.last (ts := [.num 0, .op b!"R", .name b!"Type", .name b!"Font", .dictClose]) b!" 0 R\n/Type /Font\n>>\n" rfl
  have e : fontBuild b!"Noto Sans (Bold)" cid uni = b!"<<\n/BaseFont /Noto+Sans+(Bold)\n/DescendantFonts [" ++ (itoa cid ++
      (b!" 0 R]\n/Encoding /Identity-H\n/Subtype /Type0\n/ToUnicode " ++ (itoa uni ++ b!" 0 R\n/Type /Font\n>>\n"))) := by
    have hs : subsetName b!"Noto Sans (Bold)" = b!"Noto+Sans+(Bold)" := by decide
    simp only [fontBuild, hs, List.append_assoc, List.cons_append, List.nil_append]
  rw [e, show lexer .ground _ = _ from h] at h1
  simp only [Prod.mk.injEq, and_true] at h1
  subst h1
  simp [valueOfToks, readStep, pairUp] at h2

/-- **C75 is violated by names with brackets**: whatever the font and the document, the dictionary of a font that was added as "Noto Sans (Bold)" cannot be read. -/
theorem C75_refuted_name {env : Env} {f f' : FontData} {start : Int} (h : f.build env start = .ok f') (hu : f.Unbuilt) (hn : f.name = b!"Noto Sans (Bold)") :
    ⟨f'.fontID, f'.fontBuf⟩ ∈ f'.objs ∧ ¬ ∃ v, ReadsVal f'.fontBuf v := by
  refine ⟨by simp [FontData.objs], ?_⟩
  unfold FontData.build at h
  rw [Res.bind_eq_ok] at h
  obtain ⟨_, _, h⟩ := h
  rw [Res.bind_eq_ok] at h
  obtain ⟨_, _, h⟩ := h
  simp only [hu.1, hn, List.nil_append, Res.ok.injEq] at h
  subst h
  exact bracket_name _ _

/-- the font of the samples with a name and two characters -/
def namedFont (name : Bytes) : FontData := { name := name, state := { ttf := drawFont, chars := (addChars drawFont {} b!"AB").1 } }

/-- The hypotheses of `C75_refuted_name` and `C75_refuted_twice` hold. -/
example : (∃ f', (namedFont b!"Noto Sans (Bold)").build plainEnv 7 = .ok f') ∧ (∃ f' f'', (namedFont b!"A").build plainEnv 7 = .ok f' ∧ f'.build plainEnv 7 = .ok f'') ∧
    (namedFont b!"A").Unbuilt ∧ GoodName b!"A" :=
  ⟨⟨_, by rfl⟩, ⟨_, _, by rfl, by rfl⟩, ⟨rfl, rfl, rfl, rfl, rfl⟩, by unfold GoodName; decide⟩

end Verif
