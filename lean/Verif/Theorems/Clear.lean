import Verif.Theorems.StdSeal
import Verif.Theorems.Twice
import Verif.Theorems.Held
/-
C55: what stays in the clear in a protected file.  C69: what is in the clear when it is saved again.
-/
namespace Verif
open Spec

/-- what stands before the stream of an object is the same after protection -/
theorem protected_prefix {md5 : Bytes → Bytes} {key : Bytes} {o o' : Obj} (h : Protected rc4Cip md5 key o o') {x : Bytes} (hx : x <+: o.data) (hn : ¬ b!"stream" <:+: x) : x <+: o'.data := by
  by_cases hs : b!"stream" <:+: o.data
  · obtain ⟨head, lead, s, trail, tail, c, e1, _, _, _, _, _, _, e8, _, _⟩ := h.stream hs
    have h1 : (head ++ b!"stream") <+: o.data := by
      rw [e1]
      exact ⟨lead ++ s ++ trail ++ b!"endstream" ++ tail, by simp⟩
    have h2 : (head ++ b!"stream") <+: o'.data := by
      rw [e8]
      exact ⟨b!"\n" ++ c ++ b!"\nendstream", by simp⟩
    rcases List.prefix_or_prefix_of_prefix hx h1 with h3 | h3
    · exact h3.trans h2
    · exact absurd ((List.suffix_append head b!"stream").isInfix.trans h3.isInfix) hn
  · rw [h.plain hs]
    exact hx

/-- **C55 is violated** by every file: it is opened, protected and saved, with any other calls.  For every object that is written, all that stands before its stream (for objects without a stream: all of
it) is in the protected file as it is in the unprotected one.  So every string there is in the clear; readers, which decipher strings, find
another one (`C55_refuted_plain_string`). -/
theorem C55_refuted_all {env env' : Env} {raw : Bytes} {a0 : App} (ho : Opened env raw a0) (calls : List (Env × Call)) (hmd5 : ∀ c ∈ calls, ∀ x, (c.1.md5 x).length = 16)
    (hmd5' : ∀ x, (env'.md5 x).length = 16) {p : Protection} (hp : (Run a0 calls).protection = some p) {objs : List Obj} {last : Nat} {out : Bytes}
    (hs : Saves env' (Run a0 calls) objs last out) (hlen : out.length < 10 ^ 10) :
    ∃ objs0 out0 es rest, Saves env' (Run a0 calls).unprotected objs0 (last - 1) out0 ∧ readTable out = some (es, rest) ∧
      ∀ o ∈ objs0, ∃ (k : Nat) (e : Spec.Entry) (data : Bytes), o.objID = k ∧ es[k]? = some e ∧ e.inUse = true ∧ ObjectAt out e.offset k (trimSpace data) ∧
        (∀ x, x <+: o.data → ¬ b!"stream" <:+: x → x <+: data) ∧
        ∀ before s after, o.data = before ++ b!"(" ++ escape s ++ b!")" ++ after → ¬ b!"stream" <:+: before ++ b!"(" ++ escape s ++ b!")" →
          (before ++ b!"(" ++ escape s ++ b!")") <+: data := by
  obtain ⟨objs0, out0, h0, objs1, rfl, h1⟩ := C68_saved ho calls hmd5 hmd5' hp hs
  obtain ⟨es, rest, t1, _, t2⟩ := C01_saved ho calls hs hlen
  refine ⟨objs0, out0, es, rest, h0, t1, fun o hm => ?_⟩
  obtain ⟨i, hi, rfl⟩ := List.mem_iff_getElem.1 hm
  have hi' : i < objs1.length := by rw [← h1.length_eq]; exact hi
  have hpr := (List.forall₂_iff_get.1 h1).2 i hi hi'
  simp only [List.get_eq_getElem] at hpr
  obtain ⟨k, e, f1, f2, f3, _, f5⟩ := t2 objs1[i] (List.mem_append_left _ (List.getElem_mem hi'))
  refine ⟨k, e, _, hpr.number.symm.trans f1, f2, f3, f5, fun x hx hn => protected_prefix hpr hx hn, fun before s after he hn => protected_prefix hpr ⟨after, he.symm⟩ hn⟩

-- a document that is opened, protected and saved
example : ∃ a0 p objs last out, Opened runEnv runRaw a0 ∧ (Run a0 guardCalls).protection = some p ∧ Saves sumEnv (Run a0 guardCalls) objs last out ∧ out.length < 10 ^ 10 := by
  have hv : Shown sumEnv.unzip ⟨((1 : Nat) : Int), tableOf runRows, runObjs, []⟩ runViews := ⟨_, _, _, _, _, _, _, runObjs_held _, rfl⟩
  have hbox : ∀ v ∈ runViews, ∃ box : List ℚ, EntryIs v.1 b!"MediaBox" (.arr (box.map .num)) := by
    intro v hv
    simp only [runViews, viewsOf, runPages, List.map_cons, List.map_nil, List.mem_cons, List.not_mem_nil, or_false] at hv
    rcases hv with rfl | rfl
    · exact ⟨[0, 0, 595, 842], rfl, by simp [runDict, setVal]⟩
    · exact ⟨[0, 0, 200, 100], rfl, by simp [runDict, setVal]⟩
  have hr : EntryIs [(b!"Size", .num 9), (b!"Root", .ref 1)] b!"Root" (.ref ((1 : Nat) : Int)) := ⟨rfl, by simp⟩
  have hn : ReadsNums (fun s => (runEnv.parseFloat s).isSome) := fun _ _ _ => rfl
  obtain ⟨tree, ht, boxes, hboxes⟩ := hv.boxes hbox
  obtain ⟨a0, e0, e1, _⟩ := C81_openFrom_partial hn runRaw_is hr ht hboxes
  have hopen : Opened runEnv runRaw a0 := ⟨e0, by rw [e1]; show (runObjs.map Obj.objID).Nodup; decide, by rw [e1]; show ∀ o ∈ runObjs, 1 ≤ o.objID; decide⟩
  obtain ⟨objs, last, out, h1, h2⟩ := guardCheck_saves guardCheck_eq
  rw [e0] at h1
  obtain ⟨p, hp⟩ := setProtection_ok sumEnv_md5 [] b!"u" b!"o" (perm := 4#64) (by decide)
  refine ⟨a0, p, objs, last, out, hopen, ?_, h1, h2⟩
  show ((Run a0 (guardCalls.take 2)).setProtection sumEnv [] 4#64 b!"u" b!"o").state.protection = _
  unfold App.setProtection
  rw [hp]

theorem encryptObjs_mem {env : Env} {key : Bytes} : ∀ {l l' : List Obj}, encryptObjs env key l = .ok l' → ∀ {o : Obj} {d : Bytes}, o ∈ l → encrypt env.md5 key o.objID o.data = .ok d →
    (⟨o.objID, d⟩ : Obj) ∈ l'
  | [], _, _, _, _, ho, _ => by cases ho
  | q :: t, l', h, o, d, ho, he => by
    unfold encryptObjs at h
    rw [Res.bind_eq_ok] at h
    obtain ⟨data, h1, h⟩ := h
    rw [Res.bind_eq_ok] at h
    obtain ⟨r, h2, h⟩ := h
    injection h with h
    subst h
    rcases List.mem_cons.1 ho with rfl | ho
    · rw [he] at h1
      injection h1 with h1
      simp [h1]
    · exact List.mem_cons_of_mem _ (encryptObjs_mem h2 ho he)

theorem enc_build {env : Env} {a : App} {p : Protection} (hp : a.protection = some p) {b b0 : Built} (hb : a.build env = .ok b) (hb0 : a.unprotected.build env = .ok b0) :
    encryptObjs env p.key b0.doc.objs = .ok b.doc.objs := by
  have ha : a = a.protectedBy (some p) := by unfold App.protectedBy; rw [← hp]
  have h1 := build_split env a (some p)
  have h0 : a.unprotected.build env = _ := build_split env a none
  rw [← ha, hb] at h1
  rw [hb0] at h0
  have h1 := h1.symm
  have h0 := h0.symm
  rw [Res.bind_eq_ok] at h1 h0
  obtain ⟨t, t1, h1⟩ := h1
  obtain ⟨t', t2, h0⟩ := h0
  rw [t1] at t2
  injection t2 with t2
  subst t2
  simp only [Res.ok_bind, Res.ok.injEq] at h0
  rw [Res.bind_eq_ok] at h1
  obtain ⟨objs, h2, h1⟩ := h1
  simp only [Res.ok.injEq] at h1
  rw [← h1, ← h0]
  exact h2

/-- **C69 is violated** by every value that is protected: it is saved twice.  An object with a stream was enciphered by the first `Save`; if the second one, apart from protection, leaves it as it is in
the first file, then it is written with the plain bytes of its stream (unless the enciphered ones begin or end with a line end byte, which gets lost). -/
theorem C69_refuted_all {env : Env} (hmd5 : ∀ x, (env.md5 x).length = 16) {a : App} {p : Protection} (hp : a.protection = some p) (hk : p.key.length = 5)
    {objs objs2 objs0 : List Obj} {last last2 last0 : Nat} {out out2 out0 : Bytes} (h1 : Saves env a objs last out) (h2 : Saves env (a.saveTo env).1 objs2 last2 out2)
    (h0 : Saves env (a.saveTo env).1.unprotected objs0 last0 out0) :
    ∃ plain plainOut, Saves env a.unprotected plain (last - 1) plainOut ∧ ∀ o ∈ plain, b!"stream" <:+: o.data →
      ∃ head lead s trail tail c, o.data = head ++ b!"stream" ++ (lead ++ s ++ trail) ++ b!"endstream" ++ tail ∧ (∀ x ∈ lead, Eol x) ∧ (∀ x ∈ trail, Eol x) ∧
        (⟨o.objID, head ++ b!"stream\n" ++ c ++ b!"\nendstream"⟩ : Obj) ∈ objs ∧ rc4Cip (objKey env.md5 p.key o.objID 0) c = .ok s ∧
        ((⟨o.objID, head ++ b!"stream\n" ++ c ++ b!"\nendstream"⟩ : Obj) ∈ objs0 → (∀ x ∈ c.head?, ¬ Eol x) → (∀ x ∈ c.getLast?, ¬ Eol x) →
          (⟨o.objID, head ++ b!"stream\n" ++ s ++ b!"\nendstream"⟩ : Obj) ∈ objs2) := by
  obtain ⟨b, hb, rfl, rfl, hout⟩ := h1
  have hstate : (a.saveTo env).1 = b.app := by
    unfold App.saveTo
    rw [hb]
  rw [hstate] at h2 h0
  have hp2 : b.app.protection = some p := by
    rw [← hstate]
    exact (saveTo_protection env a).trans hp
  obtain ⟨b2, hb2, rfl, rfl, hout2⟩ := h2
  obtain ⟨b0, hb0, rfl, rfl, hout0⟩ := h0
  obtain ⟨c0, e1, _, e2, _, e4, _, _⟩ := (C68_protection hmd5 a hp hk).1 b hb
  obtain ⟨c2, f1, _, f2, _, _, _, _⟩ := (C68_protection hmd5 b.app hp2 hk).1 b2 hb2
  rw [f1, Res.ok.injEq] at hb0
  subst hb0
  refine ⟨c0.doc.objs, _, ⟨c0, e1, rfl, ?_, saveTo_eq e1⟩, fun o ho hs => ?_⟩
  · rw [hp, ← e4]; rfl
  obtain ⟨o', ho', hpr⟩ := forall₂_mem e2.flip ho
  obtain ⟨head, lead, s, trail, tail, c, g1, g2, g3, g4, g5, g6, g7, g8, g9, g10⟩ := hpr.stream hs
  have eo : o' = ⟨o.objID, head ++ b!"stream\n" ++ c ++ b!"\nendstream"⟩ := by
    rw [← g8, ← hpr.number]
  refine ⟨head, lead, s, trail, tail, c, g1, g4, g5, by rw [← eo, hp]; exact List.mem_append_left _ ho', g10, fun hm x1 x2 => ?_⟩
  obtain ⟨d, k1, _, k3⟩ := C33_stream_decrypts hmd5 hk o.objID (head := head) (lead := [10]) (s := c) (trail := [10]) (tail := []) g2 (by decide)
    (by intro x hx; simp only [List.mem_cons, List.not_mem_nil, or_false] at hx; subst hx; exact Or.inr rfl)
    (by intro x hx; simp only [List.mem_cons, List.not_mem_nil, or_false] at hx; subst hx; exact Or.inr rfl) x1 x2
  obtain ⟨d', r1, _, r2⟩ := rc4Cip_spec (key := objKey env.md5 p.key o.objID 0) (by rw [objKey_length hmd5 hk]; omega) (by rw [objKey_length hmd5 hk]; omega) d
  rw [k3] at r1
  injection r1 with r1
  rw [← r1, g10] at r2
  injection r2 with r2
  rw [← r2] at k1
  have hm' : (⟨o.objID, head ++ b!"stream\n" ++ c ++ b!"\nendstream"⟩ : Obj) ∈ c2.doc.objs := hm
  rw [hp2]
  have he : encrypt env.md5 p.key o.objID (head ++ b!"stream\n" ++ c ++ b!"\nendstream") = .ok (head ++ b!"stream\n" ++ s ++ b!"\nendstream") := by
    rw [← k1]
    simp
  have h9 := encryptObjs_mem (enc_build hp2 hb2 f1) hm' (d := head ++ b!"stream\n" ++ s ++ b!"\nendstream") he
  exact List.mem_append_left _ h9

/-- the image as the first `Save` writes it -/
def sealedImg : Obj := ⟨6, b!"\n<< /Type /XObject /Length 3 >>\nstream\n" ++ [222, 211, 249] ++ b!"\nendstream"⟩

/-- the second `Save` succeeds, and leaves the image as it is apart from protection -/
def againCheck : Bool :=
  match guarded.quickBuild sumEnv with
  | .ok b => (match b.app.quickBuild sumEnv with
      | .ok _ => true
      | _ => false) && (match b.app.unprotected.build sumEnv with
      | .ok b0 => decide (sealedImg ∈ b0.doc.objs)
      | _ => false)
  | _ => false

set_option maxRecDepth 20000 in
theorem againCheck_eq : againCheck = true := by decide +kernel

-- the hypotheses of `C69_refuted_all` hold for a document with an image
example : ∃ p objs last out objs2 last2 out2 objs0 last0 out0, guarded.protection = some p ∧ p.key.length = 5 ∧ Saves sumEnv guarded objs last out ∧
    Saves sumEnv (guarded.saveTo sumEnv).1 objs2 last2 out2 ∧ Saves sumEnv (guarded.saveTo sumEnv).1.unprotected objs0 last0 out0 ∧ sealedImg ∈ objs0 := by
  have h := againCheck_eq
  have hg := guarded_facts.2.1
  rw [Option.map_eq_some_iff] at hg
  obtain ⟨p, hp, hk⟩ := hg
  unfold againCheck at h
  split at h
  · rename_i b hb
    rw [← build_quick] at hb
    have hstate : (guarded.saveTo sumEnv).1 = b.app := by
      unfold App.saveTo
      rw [hb]
    rw [hstate]
    rw [Bool.and_eq_true] at h
    obtain ⟨h2, h0⟩ := h
    split at h2
    · rename_i b2 hb2
      rw [← build_quick] at hb2
      split at h0
      · rename_i b0 hb0
        exact ⟨p, _, _, _, _, _, _, b0.doc.objs, _, _, hp, hk, ⟨b, hb, rfl, rfl, saveTo_eq hb⟩, ⟨b2, hb2, rfl, rfl, saveTo_eq hb2⟩, ⟨b0, hb0, rfl, rfl, saveTo_eq hb0⟩, of_decide_eq_true h0⟩
      · exact absurd h0 (by decide)
    · exact absurd h2 (by decide)
  · exact absurd h (by decide)

end Verif
