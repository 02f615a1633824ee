import Verif.Theorems.StdRun
import Verif.Theorems.Protected
import Verif.Theorems.Crypto
import Verif.Spec.GoSeal
import Verif.Lemmas.QuickGuard
/-
C93: what a reader who knows the password finds in a protected file.
-/
namespace Verif
open Spec

/-- what the call asks for, if it asks for protection: the password made up, the permissions, and the passwords of user and owner -/
def Call.guard : Call → Option (Bytes × BitVec 64 × Bytes × Bytes)
  | .protect random perm user owner => some (random, perm, user, owner)
  | _ => none

/-- the protection asked for last -/
def Spec.lastGuard (calls : List (Env × Call)) : Option (Bytes × BitVec 64 × Bytes × Bytes) := calls.foldl (fun g c => c.2.guard.or g) none

/-! ### the protection is the one asked for last -/

/-- the protection is `q` -/
def GuardAs (q : Option Protection) (a : App) : Prop := a.protection = q

theorem GuardAs.of_eq {q : Option Protection} {a a' : App} (h : GuardAs q a) (e : a'.protection = a.protection) : GuardAs q a' := by
  exact e.trans h

theorem GuardAs.setFontState {q : Option Protection} {a : App} (h : GuardAs q a) (i : Nat) (s : FontState) : GuardAs q (a.setFontState i s) := h.of_eq rfl

theorem GuardAs.insert {q : Option Protection} {a : App} (h : GuardAs q a) (env : Env) (text : Bytes) (page : Int) (x y w hh : ℚ) (align : Nat) (color : Option (Int × Int × Int)) :
    GuardAs q (a.insert env text page x y w hh align color).state := by
  unfold App.insert
  split
  · split
    · exact h
    · exact h.of_eq rfl
  all_goals exact h

theorem GuardAs.measure {q : Option Protection} {a : App} (h : GuardAs q a) (env : Env) (text : Bytes) : GuardAs q (a.measureTextWidth env text).1 := by
  unfold App.measureTextWidth
  split
  · exact h
  · simp only
    split
    · exact h.setFontState _ _
    · exact h.setFontState _ _
    · split <;> exact h.setFontState _ _

theorem GuardAs.wrapLoop {q : Option Protection} (env : Env) (w step : ℚ) : ∀ (ts : List Bytes) {a : App} (_ : GuardAs q a) (st : WrapState), GuardAs q (App.wrapLoop env w step a st ts).1
  | [], a, h, st => by simpa [App.wrapLoop] using h
  | t :: ts, a, h, st => by
    rw [App.wrapLoop]
    split
    · exact GuardAs.wrapLoop env w step ts h st
    · have hm := h.measure env (st.curr ++ t)
      generalize hr : a.measureTextWidth env (st.curr ++ t) = r at hm ⊢
      obtain ⟨a', r⟩ := r
      cases r with
      | ok q0 =>
        simp only at hm ⊢
        split
        · exact GuardAs.wrapLoop env w step ts hm _
        · exact GuardAs.wrapLoop env w step ts hm _
      | err e => exact hm
      | panic => exact hm
      | hang => exact hm

theorem GuardAs.insertAll {q : Option Protection} (env : Env) (page : Int) (x w hh : ℚ) (align : Nat) (color : Option (Int × Int × Int)) (yo : ℚ) :
    ∀ (ls : List (Bytes × ℚ)) {a : App}, GuardAs q a → GuardAs q (App.insertAll env page x w hh align color yo a ls).state
  | [], a, h => by simpa [App.insertAll] using h
  | l :: ls, a, h => by
    rw [App.insertAll]
    have hi := h.insert env l.1 page x (l.2 - yo) w hh align color
    generalize a.insert env l.1 page x (l.2 - yo) w hh align color = s at hi ⊢
    obtain ⟨a', r⟩ := s
    cases r with
    | ok u => exact GuardAs.insertAll env page x w hh align color yo ls hi
    | err e => exact hi
    | panic => exact hi
    | hang => exact hi

theorem GuardAs.insertWrap {q : Option Protection} {a : App} (h : GuardAs q a) (env : Env) (text : Bytes) (page : Int) (x y w hh : ℚ) (align : Nat) (color : Option (Int × Int × Int))
    (br : Option (Bytes → Option (List Bytes))) : GuardAs q (a.insertWrapText env text page x y w hh align color br).state := by
  unfold App.insertWrapText
  split
  · exact h.insert env _ _ _ _ _ _ _ _
  · split
    · exact h
    · rename_i tokens _
      simp only
      have hl := GuardAs.wrapLoop env w (a.fontSize + a.fontSize * (2 / 10)) tokens h { lines := [], y := y, prev := [], curr := [] }
      generalize App.wrapLoop env w (a.fontSize + a.fontSize * (2 / 10)) a { lines := [], y := y, prev := [], curr := [] } tokens = r at hl ⊢
      obtain ⟨a', r⟩ := r
      cases r with
      | ok st => exact GuardAs.insertAll env page x w hh align color _ _ hl
      | err e => exact hl
      | panic => exact hl
      | hang => exact hl

theorem GuardAs.makeImg {q : Option Protection} {a a' : App} (h : GuardAs q a) {env : Env} {file : Bytes} {i : ImageData} (hm : a.makeImg env file = .ok (a', i)) : GuardAs q a' := by
  unfold App.makeImg at hm
  rw [Res.bind_eq_ok] at hm
  obtain ⟨info, _, hm⟩ := hm
  split at hm
  · simp only [Res.ok.injEq, Prod.mk.injEq] at hm
    rw [← hm.1]; exact h
  · simp only [Res.ok.injEq, Prod.mk.injEq] at hm
    rw [← hm.1]; exact h.of_eq rfl

theorem GuardAs.addImg {q : Option Protection} {a : App} (h : GuardAs q a) (env : Env) (img : Nat) (page : Int) (x y w hh : ℚ) : GuardAs q (a.addImgContent env img page x y w hh).state := by
  unfold App.addImgContent
  split
  · exact h.of_eq rfl
  all_goals exact h

theorem GuardAs.insertImg {q : Option Protection} {a : App} (h : GuardAs q a) (env : Env) (file : Bytes) (page : Int) (x y w hh : ℚ) : GuardAs q (a.insertImg env file page x y w hh).state := by
  unfold App.insertImg
  split
  · rename_i a' i hm
    apply GuardAs.addImg
    exact (h.makeImg hm).of_eq rfl
  all_goals exact h

theorem GuardAs.after {q : Option Protection} {a : App} (h : GuardAs q a) (env : Env) (c : Call) (hc : c.guard = none) (hs : c ≠ .save) : GuardAs q (a.after env c) := by
  cases c with
  | insert => exact h.insert env _ _ _ _ _ _ _ _
  | insertWrap => exact h.insertWrap env _ _ _ _ _ _ _ _ _
  | measure => exact h.measure env _
  | img => exact h.insertImg env _ _ _ _ _ _
  | imgBase64 text page x y w hh =>
    show GuardAs q (a.insertImgBase64 env text page x y w hh).state
    unfold App.insertImgBase64
    split
    · exact h
    · exact h.insertImg env _ _ _ _ _ _
  | imgCached file page x y w hh =>
    show GuardAs q (a.insertImgWithCache env file page x y w hh).state
    unfold App.insertImgWithCache
    split
    · exact h.addImg _ _ _ _ _ _ _
    · split
      · rename_i a' i hm
        apply GuardAs.addImg
        exact (h.makeImg hm).of_eq rfl
      all_goals exact h
  | addFont name file =>
    show GuardAs q (a.addFont name file).state
    unfold App.addFont
    split
    · exact h
    · split
      · exact h.of_eq rfl
      all_goals exact h
  | setFont name style size =>
    show GuardAs q (a.setFont env name style size).state
    unfold App.setFont
    split
    · exact h.of_eq rfl
    · exact h
  | textrise name fn =>
    show GuardAs q (a.textriseOverride name fn).state
    unfold App.textriseOverride
    split
    · exact h
    · exact h.setFontState _ _
  | kern name fn =>
    show GuardAs q (a.kernOverride name fn).state
    unfold App.kernOverride
    split
    · exact h
    · exact h.setFontState _ _
  | border s =>
    show GuardAs q (a.showCellBorder s)
    unfold App.showCellBorder
    split <;> exact h.of_eq rfl
  | protect r q u o => cases hc
  | duplicate t q => exact h.of_eq rfl
  | remove k => exact h.of_eq rfl
  | removeOthers k => exact h.of_eq rfl
  | save => exact absurd rfl hs

theorem setProtection_ok {md5 : Bytes → Bytes} (hmd5 : ∀ x, (md5 x).length = 16) (random user owner : Bytes) {perm : BitVec 64} (hperm : perm.toNat < 256) :
    ∃ p, setProtection md5 random perm user owner = .ok p := by
  obtain ⟨p, h, _⟩ := C35_password_entries_partial hmd5 random user owner hperm
  exact ⟨p, h⟩

/-- The protection after the calls is made from what was asked for last. -/
theorem guard_run {md5 : Bytes → Bytes} (hmd5 : ∀ x, (md5 x).length = 16) : ∀ (calls : List (Env × Call)) {a : App} {g : Option (Bytes × BitVec 64 × Bytes × Bytes)},
    (∀ x, g = some x → ∃ p, a.protection = some p ∧ setProtection md5 x.1 x.2.1 x.2.2.1 x.2.2.2 = .ok p) → (g = none → a.protection = none) → (∀ c ∈ calls, c.2 ≠ .save) →
    (∀ c ∈ calls, c.1.md5 = md5 ∧ ∀ x, c.2.guard = some x → x.2.1.toNat < 256) →
    (∀ x, calls.foldl (fun g c => c.2.guard.or g) g = some x → ∃ p, (Run a calls).protection = some p ∧ setProtection md5 x.1 x.2.1 x.2.2.1 x.2.2.2 = .ok p) ∧
      (calls.foldl (fun g c => c.2.guard.or g) g = none → (Run a calls).protection = none)
  | [], a, g, h1, h2, _, _ => ⟨h1, h2⟩
  | c :: cs, a, g, h1, h2, hs, hm => by
    obtain ⟨m1, m2⟩ := hm c (by simp)
    rw [List.foldl_cons]
    show (∀ x, _ → ∃ p, (Run (a.after c.1 c.2) cs).protection = some p ∧ _) ∧ (_ → (Run (a.after c.1 c.2) cs).protection = none)
    refine guard_run hmd5 cs ?_ ?_ (fun x hx => hs x (by simp [hx])) (fun x hx => hm x (by simp [hx]))
    · intro x hx
      cases hg : c.2.guard with
      | none =>
        rw [hg, Option.none_or] at hx
        rw [GuardAs.after (q := a.protection) rfl c.1 c.2 hg (hs c (by simp))]
        exact h1 x hx
      | some y =>
        rw [hg, Option.some_or, Option.some.injEq] at hx
        subst hx
        obtain ⟨env, c⟩ := c
        cases c <;> first | cases hg | skip
        rename_i random perm user owner
        obtain ⟨p, hp⟩ := setProtection_ok hmd5 random user owner (m2 _ rfl)
        refine ⟨p, ?_, hp⟩
        show (a.setProtection env random perm user owner).state.protection = some p
        unfold App.setProtection
        rw [show env.md5 = md5 from m1, hp]
    · intro hx
      cases hg : c.2.guard with
      | none =>
        rw [hg, Option.none_or] at hx
        rw [GuardAs.after (q := a.protection) rfl c.1 c.2 hg (hs c (by simp))]
        exact h2 hx
      | some y => rw [hg, Option.some_or] at hx; cases hx


/-! ### from file to protected file -/

theorem lastGuard_mem {x : Bytes × BitVec 64 × Bytes × Bytes} : ∀ (calls : List (Env × Call)) {g : Option (Bytes × BitVec 64 × Bytes × Bytes)},
    calls.foldl (fun g c => c.2.guard.or g) g = some x → g = some x ∨ ∃ c ∈ calls, c.2.guard = some x
  | [], _, h => Or.inl h
  | c :: cs, g, h => by
    rw [List.foldl_cons] at h
    rcases lastGuard_mem cs h with h1 | ⟨c', h1, h2⟩
    · cases hg : c.2.guard with
      | none => rw [hg, Option.none_or] at h1; exact Or.inl h1
      | some y => rw [hg, Option.some_or] at h1; exact Or.inr ⟨c, by simp, hg.trans h1⟩
    · exact Or.inr ⟨c', by simp [h1], h2⟩

/-- The protected file consists of these objects: its cross-reference table has a row for each of them and for nothing else, which points at it, and the trailer names the catalog and the
dictionary of the protection. -/
def Spec.GuardedFile (out : Bytes) (root enc : Nat) (objs : List Obj) : Prop :=
  ∃ es rest, readTable out = some (es, rest) ∧ TrailerAt rest es.length root (some enc) ∧
    (∀ (k : Nat) e, es[k]? = some e → e.inUse = true → ∃ o ∈ objs, o.objID = k ∧ e.gen = 0 ∧ ObjectAt out e.offset k (trimSpace o.data)) ∧
    (∀ o ∈ objs, ∃ (k : Nat) (e : Entry), o.objID = k ∧ es[k]? = some e ∧ e.inUse = true ∧ e.gen = 0 ∧ ObjectAt out e.offset k (trimSpace o.data))

/-- **C93** (partial) From file to protected file.  A file whose objects form a linked document with the pages `views` is opened, and after calls that ask for protection, `Save` writes a file.
A reader who knows the user password asked for last computes the key from the dictionary that the trailer names, and finds, having deciphered the streams, what `C84_run_partial` promises for the
file saved without protection.
Missing: what is missing in `C84_run_partial` besides protection, and permissions with bits above the lowest eight. -/
theorem C93_run_partial {env env' : Env} (hf : ReadsNums (fun s => (env.parseFloat s).isSome)) {raw : Bytes} {t : List (Bytes × Val)} {l : List (Nat × Entry)} {os : List Obj}
    (h : StdFile raw t l os) {root : Nat} (hr : EntryIs t b!"Root" (.ref root)) (hnd : (os.map Obj.objID).Nodup) (hpos : ∀ o ∈ os, 1 ≤ o.objID)
    {views : List (List (Bytes × Val) × Bytes)} (hv : Shown env'.unzip ⟨root, tableOf l, os, []⟩ views)
    (hb : ∀ v ∈ views, ∃ box : List ℚ, EntryIs v.1 b!"MediaBox" (.arr (box.map .num))) (calls : List (Env × Call)) (hs : ∀ c ∈ calls, c.2 ≠ .save)
    (hmax : maxID os + 2 * calls.length < 2 ^ 63) (hne : calls.foldl (fun l c => c.2.edit l) views ≠ []) (hmd5 : ∀ x, (env'.md5 x).length = 16)
    (hm : ∀ c ∈ calls, c.1.md5 = env'.md5 ∧ ∀ x, c.2.guard = some x → x.2.1.toNat < 256) {random user owner : Bytes} {perm : BitVec 64} (hg : lastGuard calls = some (random, perm, user, owner)) :
    ∃ a0, App.openFrom env {} raw = ⟨a0, .ok ()⟩ ∧ ∀ {objs last out}, Saves env' (Run a0 calls) objs last out → out.length < 10 ^ 10 →
      ∃ encd plain body o u p, objs = encd ++ [⟨last, body⟩] ∧ GuardedFile out root last objs ∧ GuardIs body o u p ∧
        rc4Cip (docKey env'.md5 user o p []) u = .ok (padPassword []) ∧ List.Forall₂ (Protected rc4Cip env'.md5 (docKey env'.md5 user o p [])) plain encd ∧
        ∃ b tree fonts imgs streams, (Run a0 calls).unprotected.build env' = .ok b ∧ StdDoc ⟨root, [], plain, []⟩ tree ∧
          tree.pages.length = (calls.foldl (fun l c => c.2.edit l) views).length ∧
          (∀ x ∈ (Run a0 calls).fontMap, ∃ f, b.app.fonts[x.2]? = some f ∧ (b!"F" ++ itoa f.fontIndex, Val.ref f.fontID) ∈ fonts ∧ ∀ o ∈ f.objs, OnlyObj plain o.objID o) ∧
          (∀ i ∈ b.app.imgs, (i.xObjChar ++ itoa i.xObjIndex, Val.ref i.objID) ∈ imgs ∧ OnlyObj plain i.objID ⟨i.objID, i.buf⟩) ∧
          List.Forall₂ (fun c s => c.stream b.app.fonts b.app.imgs = .ok s ∧ s.1 = pageOf c) (Run a0 calls).contents streams ∧
          ∀ i v, (calls.foldl (fun l c => c.2.edit l) views)[i]? = some v → ∃ p, tree.pages[i]? = some p ∧ PageSaved env'.unzip plain fonts imgs (drawnOn streams (i + 1)) v p := by
  obtain ⟨tree, ht, boxes, hboxes⟩ := hv.boxes hb
  obtain ⟨a0, e0, e1, e2, e3, _⟩ := C81_openFrom_partial hf h hr ht hboxes
  refine ⟨a0, e0, fun {objs last out} hsave hlen => ?_⟩
  have hopen : Opened env raw a0 := ⟨e0, by rw [e1]; exact hnd, by rw [e1]; exact hpos⟩
  have hshown : Shown env'.unzip a0.doc views := by
    obtain ⟨R, N, C, D, r, ts, L, hh, e⟩ := hv
    exact ⟨R, N, C, D, r, ts, L, hh.mono e2 (fun i o ho => by rw [e1]; exact ho), e⟩
  have hfin := C84_calls_partial calls hshown hs hne (by rw [e1]; exact hmax)
  have hroot : (Run a0 calls).doc.rootObjID = root := by
    rw [run_root calls a0 hs, e2]
  have hinv := NumInv.run calls hopen.inv
  have hnone : a0.protection = none := by
    have := e0
    unfold App.openFrom at this
    simp only at this
    split at this
    · simp only [Step.mk.injEq] at this
      rw [← this.1]
      unfold App.showCellBorder
      simp
    all_goals simp at this
  obtain ⟨p, hp, hset⟩ := (guard_run hmd5 calls (a := a0) (g := none) (by simp) (fun _ => hnone) hs hm).1 _ hg
  have hperm : perm.toNat < 256 := by
    rcases lastGuard_mem calls hg with h1 | ⟨c, h1, h2⟩
    · cases h1
    · exact (hm c h1).2 _ h2
  obtain ⟨p', hp', _, c2, c3, c4, _⟩ := C35_password_entries_partial hmd5 random user owner hperm
  rw [show setProtection env'.md5 random perm user owner = .ok p from hset, Res.ok.injEq] at hp'
  subst hp'
  obtain ⟨es, rest, x1, x2, x3⟩ := C01_saved hopen calls hsave hlen
  obtain ⟨b1, hb1, rfl, rfl, hout⟩ := hsave
  obtain ⟨b, hb0, _, q2, q3, q4, _⟩ := (C68_protection hmd5 _ hp c3).1 b1 hb1
  have hbr : b.doc.rootObjID = root := by
    obtain ⟨_, _, h, _⟩ := build_numbers (a := (Run a0 calls).unprotected) ⟨hinv.nodup, hinv.pos, ⟨hinv.fonts.nodup, hinv.fonts.range⟩⟩ hb0
    rw [h]
    exact hroot
  rw [saveTo_eq hb1] at hout
  simp only [Res.ok.injEq] at hout
  rw [q3, hbr] at hout
  obtain ⟨_, es', rest', _, _, y3, y4, _⟩ := C03_trailer_agrees b1.doc.objs root b1.lastID.toNat ((Run a0 calls).protection.map encBuild) (by rw [hout]; exact hlen)
  rw [hout, x1] at y3
  cases y3
  rw [hp] at x2 x3 y4 ⊢
  simp only [Option.map_some, writtenObjs, tableTop] at x2 x3 y4 ⊢
  obtain ⟨t', fonts, imgs, streams, z1, z2, z3, z4, z5, z6⟩ := C84_save_partial (a := (Run a0 calls).unprotected) ⟨hinv.nodup, hinv.pos, ⟨hinv.fonts.nodup, hinv.fonts.range⟩⟩ rfl hfin hb0
  obtain ⟨fuel, r1, r2, d1, ⟨r, d2, rfl⟩, d3⟩ := C36_dictionary p
  refine ⟨_, b.doc.objs, encBuild p, p.oValue, p.uValue, p.pValue, rfl, ⟨es, rest, x1, y4, x2, x3⟩, ⟨fuel, r1, r2, d1, d2, d3⟩, ?_, ?_, b, t', fonts, imgs, streams, hb0, ?_, z2, z3, z4, z5, z6⟩
  · rw [← c2]
    obtain ⟨c, e1, _, e3⟩ := rc4Cip_spec (key := p.key) (by omega) (by omega) (padPassword [])
    rw [c4, Res.ok.injEq] at e1
    rw [e1]
    exact e3
  · rw [← c2]
    exact q2
  · obtain ⟨⟨c, c1, c2⟩, c3⟩ := z1
    rw [hbr] at c1
    exact ⟨⟨c, c1, c2⟩, c3⟩


/-! ### example -/

/-- a page is removed, an image drawn and protection asked for; the password is `u` -/
def guardCalls : List (Env × Call) := [(sumEnv, .remove 2), (sumEnv, .img b!"x" 1 5 6 7 8), (sumEnv, .protect [] 4#64 b!"u" b!"o")]

/-- the file is short -/
def guardCheck (r : Step App) : Bool :=
  match quickProtection sumEnv.md5 [] 4#64 b!"u" b!"o" with
  | .ok p =>
    match (({ Run r.state (guardCalls.take 2) with protection := some p } : App)).quickBuild sumEnv with
    | .ok b => decide ((toStream b.doc.objs b.doc.rootObjID b.lastID.toNat (some (encBuild p))).length < 10 ^ 10)
    | _ => false
  | _ => false

set_option maxRecDepth 20000 in
theorem guardCheck_eq : guardCheck (App.openFrom runEnv {} runRaw) = true := by decide +kernel

theorem guardCheck_saves {r : Step App} (h : guardCheck r = true) : ∃ objs last out, Saves sumEnv (Run r.state guardCalls) objs last out ∧ out.length < 10 ^ 10 := by
  unfold guardCheck at h
  split at h
  · rename_i p hp
    rw [← setProtection_quick] at hp
    have e : Run r.state guardCalls = { Run r.state (guardCalls.take 2) with protection := some p } := by
      show ((Run r.state (guardCalls.take 2)).setProtection sumEnv [] 4#64 b!"u" b!"o").state = _
      unfold App.setProtection
      rw [hp]
    rw [← e] at h
    have e' : (Run r.state guardCalls).protection = some p := by rw [e]
    split at h
    · rename_i b hb
      rw [← build_quick] at hb
      exact ⟨_, _, _, ⟨b, hb, rfl, rfl, saveTo_eq hb⟩, by rw [e']; exact of_decide_eq_true h⟩
    · simp at h
  · simp at h

-- `C93_run_partial` applies
example : ∃ objs last out encd plain body o u p, Saves sumEnv (Run (App.openFrom runEnv {} runRaw).state guardCalls) objs last out ∧ objs = encd ++ [⟨last, body⟩] ∧ GuardedFile out 1 last objs ∧
    GuardIs body o u p ∧ List.Forall₂ (Protected rc4Cip sumEnv.md5 (docKey sumEnv.md5 b!"u" o p [])) plain encd ∧ ∃ tree, StdDoc ⟨1, [], plain, []⟩ tree ∧ tree.pages.length = 1 := by
  have hv : Shown sumEnv.unzip ⟨((1 : Nat) : Int), tableOf runRows, runObjs, []⟩ runViews := ⟨_, _, _, _, _, _, _, runObjs_held _, rfl⟩
  have hbox : ∀ v ∈ runViews, ∃ box : List ℚ, EntryIs v.1 b!"MediaBox" (.arr (box.map .num)) := by
    intro v hv
    simp only [runViews, viewsOf, runPages, List.map_cons, List.map_nil, List.mem_cons, List.not_mem_nil, or_false] at hv
    rcases hv with rfl | rfl
    · exact ⟨[0, 0, 595, 842], rfl, by simp [runDict, setVal]⟩
    · exact ⟨[0, 0, 200, 100], rfl, by simp [runDict, setVal]⟩
  have hr : EntryIs [(b!"Size", .num 9), (b!"Root", .ref 1)] b!"Root" (.ref ((1 : Nat) : Int)) := ⟨rfl, by simp⟩
  have hn : ReadsNums (fun s => (runEnv.parseFloat s).isSome) := fun _ _ _ => rfl
  have hne : guardCalls.foldl (fun l c => c.2.edit l) runViews ≠ [] := by simp [guardCalls, Call.edit, runViews, viewsOf, runPages]
  have hl : (guardCalls.foldl (fun l c => c.2.edit l) runViews).length = 1 := by simp [guardCalls, Call.edit, runViews, viewsOf, runPages]
  have hc : ∀ c ∈ guardCalls, c.2 ≠ .save := by simp [guardCalls]
  have hnd : (runObjs.map Obj.objID).Nodup := by decide
  have hpos : ∀ o ∈ runObjs, 1 ≤ o.objID := by decide
  have hmax : maxID runObjs + 2 * guardCalls.length < 2 ^ 63 := by decide
  have hm : ∀ c ∈ guardCalls, c.1.md5 = sumEnv.md5 ∧ ∀ x, c.2.guard = some x → x.2.1.toNat < 256 := by
    intro c hc
    simp only [guardCalls, List.mem_cons, List.not_mem_nil, or_false] at hc
    rcases hc with rfl | rfl | rfl <;> refine ⟨rfl, fun x hx => ?_⟩ <;> cases hx <;> decide
  obtain ⟨a0, e0, h⟩ := C93_run_partial hn runRaw_is hr hnd hpos hv hbox guardCalls hc hmax hne sumEnv_md5 hm (show lastGuard guardCalls = some ([], 4#64, b!"u", b!"o") from rfl)
  obtain ⟨objs, last, out, h1, h2⟩ := guardCheck_saves guardCheck_eq
  rw [e0] at h1 ⊢
  obtain ⟨encd, plain, body, o, u, p, k1, k2, k3, _, k5, b, tree, _, _, _, _, k6, k7, _⟩ := h h1 h2
  exact ⟨objs, last, out, encd, plain, body, o, u, p, h1, k1, k2, k3, k5, tree, k6, k7.trans hl⟩

end Verif
