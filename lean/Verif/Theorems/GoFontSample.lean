import Verif.Theorems.GoFonts
import Verif.Theorems.GoTextSample
import Verif.Theorems.ImgObj
/-!
# Examples and refutations for the resources of files of GoPdf (C88)
-/
namespace Verif
open Spec

/-! ### examples -/

/-- images are read -/
def picEnv : GEnv := { markEnv with bounds := fun _ => none, zipLevel := fun _ b => 1 :: b }

/-- two fonts, texts in both of them, and an image that is used two times -/
def pictureCalls : List GCall := [.addFont b!"B" tinyFile false 0, .addFont b!"A" tinyFile false 1, .addPage ⟨0, 0⟩, .setFont b!"A" 5 10, .setX 20, .setY 30, .text b!"AB", .text b!"B",
  .setFont b!"B" 0 10, .text b!"A", .image b!"k" keyPng.bytes 100 100 (some ⟨20, 10⟩), .image b!"k" [] 100 200 none]

theorem named_tiny : GoodName b!"A" ∧ GoodName b!"B" := by constructor <;> unfold GoodName <;> decide +kernel

set_option maxRecDepth 20000 in
/-- The hypotheses of `C88_session_partial` hold. -/
example : ∃ g g' out, GDone picEnv (Gp.start ⟨595, 842⟩ none) pictureCalls g ∧ g.compile picEnv = (g', .ok out) ∧ out.length < 10 ^ 10 ∧ (∀ l b, picEnv.unzip (picEnv.zipLevel l b) = some b) ∧
    (∀ s ∈ thingsOf picEnv (Gp.start ⟨595, 842⟩ none) pictureCalls [], s.2 ≠ [] ∧ ∀ w, .text w ∈ s.2 → Legible w) ∧ ∀ a ∈ addedFonts pictureCalls, a.style &&& 4 ≠ 4 ∧ GoodName a.family := by
  have h1 : goDone picEnv (Gp.start ⟨595, 842⟩ none) pictureCalls = true := by decide +kernel
  have h2 : goShort ((goRun picEnv (Gp.start ⟨595, 842⟩ none) pictureCalls).compile picEnv).2 = true := by decide +kernel
  have h3 : thingsFine (thingsOf picEnv (Gp.start ⟨595, 842⟩ none) pictureCalls []) = true := by decide +kernel
  rcases hc : (goRun picEnv (Gp.start ⟨595, 842⟩ none) pictureCalls).compile picEnv with ⟨g', r⟩
  rw [hc] at h2
  cases r with
  | ok out =>
    refine ⟨_, g', out, goDone_of h1, hc, by simpa [goShort] using h2, fun _ _ => rfl, thingsFine_of h3, ?_⟩
    intro a ha
    simp only [addedFonts, pictureCalls, List.filterMap_cons, List.filterMap_nil, List.mem_cons, List.not_mem_nil, or_false] at ha
    rcases ha with rfl | rfl
    · exact ⟨by decide, named_tiny.2⟩
    · exact ⟨by decide, named_tiny.1⟩
  | _ => simp [goShort] at h2

/-- what the calls ask for: the texts are in the second and the first font; there is one image, of the file given first -/
example : (chosenFont (pictureCalls.take 6)).bind (meantFont (addedFonts (pictureCalls.take 6))) = some 1 ∧ (chosenFont pictureCalls).bind (meantFont (addedFonts pictureCalls)) = some 0 ∧
    pictures pictureCalls = [(b!"k", keyPng.bytes)] := by
  refine ⟨by decide +kernel, by decide +kernel, by decide +kernel⟩

set_option maxRecDepth 20000 in
/-- The hypotheses of `C88_text` and `C88_picture` hold. -/
example : ∃ g, GDone picEnv (Gp.start ⟨595, 842⟩ none) (pictureCalls.take 6) g ∧ thingsOf picEnv (Gp.start ⟨595, 842⟩ none) (pictureCalls.take 6) [] ≠ [] ∧
    (∀ a ∈ addedFonts (pictureCalls.take 6), a.style &&& 4 ≠ 4) ∧ (g.call picEnv (.text b!"AB")).res = .ok () ∧ (g.image picEnv b!"k" keyPng.bytes 100 100 (some ⟨20, 10⟩)).res = .ok () := by
  refine ⟨_, goDone_of (by decide +kernel), ?_, ?_, ?_, ?_⟩
  · have : (thingsOf picEnv (Gp.start ⟨595, 842⟩ none) (pictureCalls.take 6) []).isEmpty = false := by decide +kernel
    intro e
    rw [e] at this
    simp at this
  · intro a ha
    simp only [addedFonts, pictureCalls, List.take, List.filterMap_cons, List.filterMap_nil, List.mem_cons, List.not_mem_nil, or_false] at ha
    rcases ha with rfl | rfl <;> decide
  · have : goDone picEnv (goRun picEnv (Gp.start ⟨595, 842⟩ none) (pictureCalls.take 6)) [.text b!"AB"] = true := by decide +kernel
    cases goDone_of this with
    | cons h _ => exact h
  · have : goDone picEnv (goRun picEnv (Gp.start ⟨595, 842⟩ none) (pictureCalls.take 6)) [.image b!"k" keyPng.bytes 100 100 (some ⟨20, 10⟩)] = true := by decide +kernel
    cases goDone_of this with
    | cons h _ => exact h

/-! ### refutations -/

/-- **C88** (refuted: images with a palette): a document with such an image can never be written. -/
theorem C88_refuted_palette {env : GEnv} {z : GRect} {cs : List GCall} {g : Gp} (hr : GDone env (Gp.start z none) cs g) (hu : ∀ a ∈ addedFonts cs, a.style &&& 4 ≠ 4) {p : Bytes × Bytes}
    (hp : p ∈ pictures cs) {i : ImgInfo} (hi : parseImg env.toImgEnv p.2 = .ok i) (hc : i.colspace = b!"Indexed") (out : Bytes) : (g.compile env).2 ≠ .ok out := by
  intro h
  have hk := held_run hr (start_held env z)
  obtain ⟨hkept, _⟩ := furnished_run hr (ds := []) (l := []) (start_whole z none).1 (start_stocked env z) (by intro s hs; simp at hs) hu
  rw [List.nil_append] at hkept
  obtain ⟨bs, hb, _⟩ := compile_ok (g' := (g.compile env).1) (out := out) (by rw [← h])
  obtain ⟨n, _, j, j', h1, h2, h3, h4⟩ := forall2_right hkept.imgs hp
  rw [hi] at h1
  cases h1
  obtain ⟨m, dd, hm⟩ := h4 hc
  obtain ⟨_, _, _, c', _⟩ := built_at hk.prot hb hm rfl
  simp [updObj, GObj.build] at c'

set_option maxRecDepth 20000 in
/-- There are such images, and the calls with them succeed. -/
example : ∃ g, GDone picEnv (Gp.start ⟨595, 842⟩ none) [.addPage ⟨0, 0⟩, .image b!"p" (palettePng 255).bytes 0 0 (some ⟨20, 10⟩)] g ∧
    ∃ i, parseImg picEnv.toImgEnv (palettePng 255).bytes = .ok i ∧ i.colspace = b!"Indexed" := by
  refine ⟨_, goDone_of (by decide +kernel), ?_⟩
  have : (match parseImg picEnv.toImgEnv (palettePng 255).bytes with | .ok i => decide (i.colspace = b!"Indexed") | _ => false) = true := by decide +kernel
  split at this
  · exact ⟨_, rfl, by simpa using this⟩
  · simp at this

/-- a line and an image with alpha -/
def maskCalls : List GCall := [.addPage ⟨0, 0⟩, .line 10 20 30 40, .image b!"m" markPng.bytes 100 100 (some ⟨20, 10⟩)]

/-- the image of `maskCalls` -/
def maskInfo : ImgInfo :=
  { w := 2, h := 1, colspace := b!"DeviceRGB", bitsPerComponent := b!"8", filter := b!"FlateDecode", decodeParms := b!"/Predictor 15 /Colors  3 /BitsPerComponent 8 /Columns 2"
    smask := [1, 1, 255, 129], smaskObjID := 6, data := [1, 1, 10, 20, 30, 1, 1, 1] }

def maskCheck (g : Gp) : Bool :=
  (match (g.slots[5]? : Option GSlot) with | some ⟨.image i, []⟩ => decide (i = maskInfo) | _ => false) && (match (g.slots[2]? : Option GSlot) with | some ⟨.procset [] [5], []⟩ => true | _ => false) &&
  (match g.protection with | none => true | _ => false)

theorem maskCheck_of {g : Gp} (h : maskCheck g = true) : g.slots[5]? = some ⟨.image maskInfo, []⟩ ∧ g.slots[2]? = some ⟨.procset [] [5], []⟩ ∧ g.protection = none := by
  unfold maskCheck at h
  simp only [Bool.and_eq_true] at h
  obtain ⟨⟨h1, h2⟩, h3⟩ := h
  refine ⟨?_, ?_, ?_⟩
  · split at h1
    · rename_i i e
      rw [e, of_decide_eq_true h1]
    · simp at h1
  · split at h2
    · rename_i e; exact e
    · simp at h2
  · split at h3
    · rename_i e; exact e
    · simp at h3

set_option maxRecDepth 20000 in
/-- **C88** (refuted: images with alpha): the mask of such an image has the number one above that in `/SMask`; here the image is given as its own mask. -/
theorem C88_refuted_mask : ∃ g g' out bodies trailer images body d data, GDone picEnv (Gp.start ⟨595, 842⟩ none) maskCalls g ∧ g.compile picEnv = (g', .ok out) ∧ FileHolds out bodies trailer ∧
    ResourcesAre bodies [] images ∧ images.lookup b!"I1" = some (.ref 6) ∧ objAt bodies 6 = some (b!"\n" ++ body) ∧ ImageStream body 2 1 b!"DeviceRGB" 8 b!"FlateDecode" d data ∧
    d.lookup b!"SMask" = some (.ref 6) := by
  have h1 : goDone picEnv (Gp.start ⟨595, 842⟩ none) maskCalls = true := by decide +kernel
  have h2 : goShort ((goRun picEnv (Gp.start ⟨595, 842⟩ none) maskCalls).compile picEnv).2 = true := by decide +kernel
  have h3 : maskCheck (goRun picEnv (Gp.start ⟨595, 842⟩ none) maskCalls) = true := by decide +kernel
  obtain ⟨s5, s2, hp⟩ := maskCheck_of h3
  have hr := goDone_of h1
  have hk := held_run hr (start_held picEnv ⟨595, 842⟩)
  generalize goRun picEnv (Gp.start ⟨595, 842⟩ none) maskCalls = g at *
  rcases hc : g.compile picEnv with ⟨g', r⟩
  rw [hc] at h2
  cases r with
  | ok out =>
    obtain ⟨bs, hb, _, hh⟩ := compile_holds hc (by intro e; rw [e] at s2; simp at s2) (by simpa [goShort] using h2)
    obtain ⟨q, b, q1, q2, q3⟩ := built_at hp hb s5 rfl
    have hq : q.protection = none := q1.protection.trans hp
    simp only [updObj, GObj.build, sealed, hq, bind, Res.bind, Res.ok.injEq] at q2
    obtain ⟨P, hP⟩ : ∃ P, P = b!"/Predictor 15 /Colors  " ++ itoa 3 ++ b!" /BitsPerComponent " ++ itoa 8 ++ b!" /Columns " ++ itoa 2 := ⟨_, rfl⟩
    have hP' := part_parms 3 8 2
    rw [← hP] at hP'
    have hPi : maskInfo.decodeParms = P := by rw [hP]; decide +kernel
    obtain ⟨d, d1, d2, _⟩ := flate_object (i := maskInfo) (w := 2) (h := 1) (n := 3) (bits := 8) (cs := b!"DeviceRGB") (P := P) (trns := []) (smask := maskInfo.smask) (data := maskInfo.data)
      (by simp) rfl rfl rfl (by rfl) rfl hPi rfl rfl rfl (by rw [← hPi]; decide +kernel) (by simpa using hP')
    refine ⟨_, g', out, _, _, goImgs [5], imgBuild maskInfo, d, _, hr, hc, hh, procset_at hk.whole hp hb s2 (by simp), ?_, ?_, d1, ?_⟩
    · exact (goImgs_lookup [5]).2 0 5 rfl
    · rw [show imgBuild maskInfo = b from q2]
      simpa [objAt] using q3
    · rw [d2]
      rfl
  | _ => simp [goShort] at h2

/-- the font `A` is added underlined and then plain -/
def underlineCalls : List GCall := [.addFont b!"B" tinyFile false 0, .addFont b!"A" tinyFile false 4, .addFont b!"A" tinyFile false 0, .addPage ⟨0, 0⟩, .setFont b!"A" 0 10, .text b!"A"]

def slotIs (g : Gp) (k : Nat) (p : GObj → Bool) : Bool := match (g.slots[k]? : Option GSlot) with
  | some ⟨o, []⟩ => p o
  | _ => false

def underlineCheck (g : Gp) (l : List (Option GRect × List Thing)) : Bool :=
  (match (g.slots[2]? : Option GSlot) with | some ⟨.procset [r, s] [], []⟩ => decide (r.count = 0 ∧ r.obj = 7 ∧ s.count = 1) | _ => false) && (match g.protection with | none => true | _ => false) &&
  (match (g.fonts[0]? : Option GFont) with | some F => decide (F.unicode = 3 ∧ F.cid = 6 ∧ F.family = b!"B" ∧ F.chars.keys = [] ∧ F.chars.vals = []) | _ => false) &&
  slotIs g 3 (fun o => match o with | .unicode 0 => true | _ => false) && slotIs g 4 (fun o => match o with | .dict 0 => true | _ => false) &&
  slotIs g 5 (fun o => match o with | .desc 0 4 => true | _ => false) && slotIs g 6 (fun o => match o with | .cid 0 5 => true | _ => false) &&
  slotIs g 7 (fun o => match o with | .font 0 => true | _ => false) && (match l with | [(_, [.text w])] => decide (w.font = 2 ∧ w.idx = 1) | _ => false)

theorem slotIs_of {g : Gp} {k : Nat} {p : GObj → Bool} (h : slotIs g k p = true) {o : GObj} (hp : ∀ x, p x = true → x = o) : g.slots[k]? = some ⟨o, []⟩ := by
  unfold slotIs at h
  split at h
  · rename_i x e
    rw [e, hp x h]
  · simp at h

theorem underlineCheck_of {g : Gp} {l : List (Option GRect × List Thing)} (h : underlineCheck g l = true) :
    ∃ (r s : GRelate) (F : GFont) (z : Option GRect) (w : Inscribed), g.slots[2]? = some ⟨.procset [r, s] [], []⟩ ∧ (r.count = 0 ∧ r.obj = 7 ∧ s.count = 1) ∧ g.protection = none ∧ g.fonts[0]? = some F ∧
      (F.unicode = 3 ∧ F.cid = 6 ∧ F.family = b!"B" ∧ F.chars = {}) ∧ FontSlots g.slots 0 3 ∧ l = [(z, [.text w])] ∧ w.font = 2 ∧ w.idx = 1 := by
  unfold underlineCheck at h
  simp only [Bool.and_eq_true] at h
  obtain ⟨⟨⟨⟨⟨⟨⟨⟨h1, h2⟩, h3⟩, h4⟩, h5⟩, h6⟩, h7⟩, h8⟩, h9⟩ := h
  split at h1
  · rename_i r s e1
    split at h2
    · rename_i e2
      split at h3
      · rename_i F e3
        split at h9
        · rename_i z w
          have := of_decide_eq_true h3
          refine ⟨r, s, F, z, w, e1, of_decide_eq_true h1, e2, e3, ⟨this.1, this.2.1, this.2.2.1, ?_⟩, ⟨?_, ?_, ?_, ?_, ?_⟩, rfl, of_decide_eq_true h9⟩
          · rcases hc : F.chars with ⟨a, b⟩
            rw [hc] at this
            simp only at this
            rw [this.2.2.2.1, this.2.2.2.2]
          · exact slotIs_of h4 (fun x hx => by split at hx <;> simp_all)
          · exact slotIs_of h5 (fun x hx => by split at hx <;> simp_all)
          · exact slotIs_of h6 (fun x hx => by split at hx <;> simp_all)
          · exact slotIs_of h7 (fun x hx => by split at hx <;> simp_all)
          · exact slotIs_of h8 (fun x hx => by split at hx <;> simp_all)
        · simp at h9
      · simp at h3
    · simp at h2
  · simp at h1

set_option maxRecDepth 20000 in
/-- **C88** (refuted: fonts that are added underlined): the text is to be in the third font, of the family `A`, but its name in the resources stands for the first one, of the family `B`. -/
theorem C88_refuted_font : ∃ g g' out bodies trailer fonts z w n cid uni desc file ws u x len t, GDone picEnv (Gp.start ⟨595, 842⟩ none) underlineCalls g ∧ g.compile picEnv = (g', .ok out) ∧
    FileHolds out bodies trailer ∧ ResourcesAre bodies fonts [] ∧ thingsOf picEnv (Gp.start ⟨595, 842⟩ none) underlineCalls [] = [(z, [.text w])] ∧
    (chosenFont underlineCalls).bind (meantFont (addedFonts underlineCalls)) = some w.font ∧ ((addedFonts underlineCalls)[w.font]?).map (·.family) = some b!"A" ∧
    fonts.lookup (b!"F" ++ itoa w.idx) = some (.ref n) ∧ FontGraph (objsOf bodies) n (subsetName b!"B") cid uni desc file ws u x len t ∧ subsetName b!"A" ≠ subsetName b!"B" := by
  have h1 : goDone picEnv (Gp.start ⟨595, 842⟩ none) underlineCalls = true := by decide +kernel
  have h2 : goShort ((goRun picEnv (Gp.start ⟨595, 842⟩ none) underlineCalls).compile picEnv).2 = true := by decide +kernel
  have h3 : underlineCheck (goRun picEnv (Gp.start ⟨595, 842⟩ none) underlineCalls) (thingsOf picEnv (Gp.start ⟨595, 842⟩ none) underlineCalls []) = true := by decide +kernel
  obtain ⟨r, s, F, z, w, s2, ⟨r1, r2, r3⟩, hp, hF, ⟨f1, f2, f3, f4⟩, hs, hl, w1, w2⟩ := underlineCheck_of h3
  have hr := goDone_of h1
  have hk := held_run hr (start_held picEnv ⟨595, 842⟩)
  generalize goRun picEnv (Gp.start ⟨595, 842⟩ none) underlineCalls = g at *
  rcases hc : g.compile picEnv with ⟨g', q⟩
  rw [hc] at h2
  cases q with
  | ok out =>
    obtain ⟨bs, hb, _, hh⟩ := compile_holds hc (by intro e; rw [e] at s2; simp at s2) (by simpa [goShort] using h2)
    obtain ⟨cid, uni, desc, file, ws, ff, g1, _⟩ := graph_at hp hb hF (by rw [f1]; exact hs) (by rw [f1, f2]) (by rw [f3]; exact named_tiny.2) (by rw [f4]; exact FontOK.empty _)
    have hcount : ∀ (k : Nat) (q : GRelate), [r, s][k]? = some q → q.count = k := by
      intro k q hq
      match k, hq with
      | 0, hq => cases hq; exact r1
      | 1, hq => cases hq; exact r3
    have hlook := (goFonts_lookup hcount).2 0 r rfl
    refine ⟨_, g', out, _, _, _, z, w, ((F.unicode + 4 + 1 : ℕ) : Int), cid, uni, desc, file, ws, unicodeStream F.chars, picEnv.zip ff, ff.length, F.ttf, hr, hc, hh, procset_at hk.whole hp hb s2 hcount, hl, ?_, ?_, ?_, ?_, ?_⟩
    · rw [w1]; decide +kernel
    · rw [w1]; decide +kernel
    · rw [w2]
      refine hlook.trans ?_
      rw [r2, f1]
      rfl
    · rw [← f3]; exact g1
    · decide +kernel
  | _ => simp [goShort] at h2

/-- **C88** (refuted: compression): levels above 9 are said to mean 9, the best compression; but they change nothing. -/
theorem C88_refuted_level (g : Gp) {level : Int} (h : 9 < level) : g.setCompressLevel level = g := by
  unfold Gp.setCompressLevel
  rw [if_neg (by omega), if_pos (by omega)]

example : (9 : Int) < 10 := by decide

end Verif
