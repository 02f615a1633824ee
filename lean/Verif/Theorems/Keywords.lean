import Verif.Theorems.Reopen
/-
Words of the file structure inside objects, for every file: C67.
-/
namespace Verif
open Spec

/-- No object that is read has the word `endobj` in it. -/
theorem parseObj_noEnd {raw : Bytes} {off : Int} {o : Obj} (h : parseObj raw off = .ok o) : ¬ b!"endobj" <:+: o.data := by
  unfold parseObj at h
  split at h
  · cases h
  · simp only at h
    split at h
    · cases h
    · rename_i e he
      split at h
      · cases h
      · rename_i s f _
        cases hid : objIDFromStartObjLine ((((raw.drop off.toNat).take e).take f).drop s) with
        | ok id =>
          rw [hid] at h
          simp only [Res.ok_bind, Res.ok.injEq] at h
          subst h
          simp only
          intro hi
          have h1 : b!"endobj" <:+: (raw.drop off.toNat).take e := hi.trans (List.drop_suffix _ _).isInfix
          obtain ⟨a, b, hab⟩ := h1
          have h2 : raw.drop off.toNat = a ++ (b!"endobj" ++ (b ++ (raw.drop off.toNat).drop e)) := by
            conv_lhs => rw [← List.take_append_drop e (raw.drop off.toNat), ← hab]
            simp
          obtain ⟨i, h3, h4⟩ := index_le (pat := b!"endobj") (x := a) (y := b ++ (raw.drop off.toNat).drop e) (by decide)
          rw [← h2, he] at h3
          simp only [Option.some.injEq] at h3
          have h5 := congrArg List.length hab
          simp only [List.length_append, List.length_take, List.length_cons, List.length_nil] at h5
          omega
        | err e => rw [hid] at h; cases h
        | panic => rw [hid] at h; cases h
        | hang => rw [hid] at h; cases h

theorem parseObjs_noEnd {raw : Bytes} : ∀ {rows : List XrefRow} {os : List Obj}, parseObjs raw rows = .ok os → ∀ o ∈ os, ¬ b!"endobj" <:+: o.data
  | [], os, h => by
    simp only [parseObjs, Res.ok.injEq] at h
    subst h
    simp
  | r :: t, os, h => by
    unfold parseObjs at h
    split at h
    · cases h1 : parseObj raw r.n10 with
      | ok o1 =>
        rw [h1] at h
        simp only [Res.ok_bind] at h
        cases h2 : parseObjs raw t with
        | ok os2 =>
          rw [h2] at h
          simp only [Res.ok_bind, Res.ok.injEq] at h
          subst h
          intro o ho
          rcases List.mem_cons.1 ho with rfl | ho
          · exact parseObj_noEnd h1
          · exact parseObjs_noEnd h2 o ho
        | err e => rw [h2] at h; cases h
        | panic => rw [h2] at h; cases h
        | hang => rw [h2] at h; cases h
      | err e => rw [h1] at h; cases h
      | panic => rw [h1] at h; cases h
      | hang => rw [h1] at h; cases h
    · exact parseObjs_noEnd h

/-- What `Open` reads is what `PDFParse` reads. -/
theorem openFrom_parse {env : Env} {raw : Bytes} {a : App} (ho : App.openFrom env {} raw = ⟨a, .ok ()⟩) :
    pdfParse (fun s => (env.parseFloat s).isSome) emptyDoc raw = .ok a.doc := by
  unfold App.openFrom at ho
  have e : ({} : App).doc = emptyDoc := rfl
  simp only [e] at ho
  cases h1 : pdfParse (fun s => (env.parseFloat s).isSome) emptyDoc raw with
  | ok d =>
    rw [h1] at ho
    simp only [Step.mk.injEq, and_true] at ho
    subst ho
    unfold App.showCellBorder
    simp
  | err e => rw [h1] at ho; simp at ho
  | panic => rw [h1] at ho; simp at ho
  | hang => rw [h1] at ho; simp at ho

theorem pdfParse_steps {isFloat : Bytes → Bool} {raw : Bytes} {d : Doc} (h : pdfParse isFloat emptyDoc raw = .ok d) :
    (∃ r, parseTrailer raw = .ok r) ∧ ∃ rows, parseObjs raw rows = .ok d.objs := by
  unfold pdfParse at h
  cases h1 : parseXref raw with
  | ok rows =>
    rw [h1] at h
    simp only [Res.ok_bind] at h
    cases h2 : parseTrailer raw with
    | ok root =>
      rw [h2] at h
      simp only [Res.ok_bind] at h
      cases h3 : parseObjs raw (emptyDoc.xrefs ++ rows) with
      | ok os =>
        rw [h3] at h
        simp only [Res.ok_bind] at h
        cases h4 : checkPagesObj ⟨root, emptyDoc.xrefs ++ rows, emptyDoc.objs ++ os, []⟩ with
        | ok u =>
          rw [h4] at h
          simp only [Res.ok_bind] at h
          cases h5 : parsePageSize isFloat ⟨root, emptyDoc.xrefs ++ rows, emptyDoc.objs ++ os, []⟩ with
          | ok z =>
            rw [h5] at h
            simp only [Res.ok_bind, Res.ok.injEq] at h
            subst h
            exact ⟨⟨root, rfl⟩, _, by simpa [emptyDoc] using h3⟩
          | err e => rw [h5] at h; cases h
          | panic => rw [h5] at h; cases h
          | hang => rw [h5] at h; cases h
        | err e => rw [h4] at h; cases h
        | panic => rw [h4] at h; cases h
        | hang => rw [h4] at h; cases h
      | err e => rw [h3] at h; cases h
      | panic => rw [h3] at h; cases h
      | hang => rw [h3] at h; cases h
    | err e => rw [h2] at h; cases h
    | panic => rw [h2] at h; cases h
    | hang => rw [h2] at h; cases h
  | err e => rw [h1] at h; cases h
  | panic => rw [h1] at h; cases h
  | hang => rw [h1] at h; cases h

/-- **C67 is violated for every stream with `endobj` in it.**  Whatever file is opened, no object that is read has these bytes. -/
theorem C67_refuted_cut {env : Env} {raw : Bytes} {a : App} (ho : App.openFrom env {} raw = ⟨a, .ok ()⟩) {s : Bytes} (hs : b!"endobj" <:+: s) :
    ∀ o ∈ a.doc.objs, ¬ s <:+: o.data := by
  intro o hm hi
  obtain ⟨_, rows, h⟩ := pdfParse_steps (openFrom_parse ho)
  exact parseObjs_noEnd h o hm (hs.trans hi)

/-- `startxref` before the first `trailer`: the slice between them cannot be taken -/
theorem parseTrailer_panic {a b c : Bytes} (h : ¬ b!"trailer" <:+: a ++ (b!"startxref" ++ b)) :
    parseTrailer (a ++ (b!"startxref" ++ b) ++ 10 :: (b!"trailer" ++ c)) = .panic := by
  unfold parseTrailer
  rw [index_at (by decide) h]
  obtain ⟨j, h1, h2⟩ := index_le (pat := b!"startxref") (x := a) (y := b ++ 10 :: (b!"trailer" ++ c)) (by decide)
  have e : a ++ (b!"startxref" ++ b) ++ 10 :: (b!"trailer" ++ c) = a ++ (b!"startxref" ++ (b ++ 10 :: (b!"trailer" ++ c))) := by simp
  rw [e, h1]
  simp only
  rw [if_pos]
  simp only [List.length_append]
  omega

/-- A word without white space in a body is in the body without the white space around it. -/
theorem infix_trim {w s : Bytes} (hw : ∀ c ∈ spaceBytes, c ∉ w) (hne : w ≠ []) (h : w <:+: s) : w <:+: trimSpace s := by
  obtain ⟨a, b, e, ha, hb⟩ := trimSpace_split s
  by_contra hn
  have h1 := (index_none_iff hne).2 hn
  have h2 : index w s = none := by
    rw [e, List.append_assoc, index_left hne (fun c hc => hw c (ha c hc)), index_right hne (fun c hc => hw c (hb c hc)), h1]
    rfl
  exact (index_none_iff hne).1 h2 h

/-- The file written, cut before its line `trailer`; the part before has the word only if an object has it. -/
theorem toStream_cut (objs : List Obj) (rootID : Int) (lastID : Nat) (enc : Option Bytes) (hids : ∀ o ∈ objs, 1 ≤ o.objID ∧ o.objID ≤ lastID) (hnd : (objs.map Obj.objID).Nodup) :
    ∃ h t c, toStream objs rootID lastID enc = h ++ flatObjs (writtenObjs objs lastID enc) ++ t ++ 10 :: (b!"trailer" ++ c) ∧
      ((∀ o ∈ writtenObjs objs lastID enc, ¬ b!"trailer" <:+: o.data) → ¬ b!"trailer" <:+: h ++ flatObjs (writtenObjs objs lastID enc) ++ t) := by
  have hparts := toStream_parts objs rootID lastID enc
  obtain ⟨hwi, hwn⟩ := written_ids (enc := enc) hids hnd
  generalize hws : writtenObjs objs lastID enc = ws at hparts hwi hwn ⊢
  generalize htop : tableTop lastID enc = top at hparts hwi
  generalize hoff : (fun j => (objsLoop ws header []).2.lookup j) = off at hparts
  have hrl := (xrefRows_inv off top).2
  generalize hrows : xrefRows off top = rows at hparts hrl
  obtain ⟨rs, rl, hrs⟩ : ∃ rs rl, rows = rs ++ [rl] := by
    have hne : rows ≠ [] := by intro e; rw [e] at hrl; simp at hrl
    exact ⟨rows.dropLast, rows.getLast hne, (List.dropLast_concat_getLast hne).symm⟩
  have hrb : rows.flatMap rowBytes = (rs.flatMap rowBytes ++ rowText rl ++ [32]) ++ [10] := by
    rw [hrs]; simp [rowBytes_eq]
  have hrn : (116 : UInt8) ∉ rs.flatMap rowBytes ++ rowText rl ++ [32] := by
    intro hm
    exact rows_not (c := 116) (by decide) rows (by rw [hrb]; exact List.mem_append_left _ hm)
  generalize hR : rs.flatMap rowBytes ++ rowText rl ++ [32] = R at hrb hrn
  refine ⟨header, b!"\nxref\n0 " ++ natDigits (top + 1) ++ b!"\r" ++ 10 :: R, trailerDict (top + 1) rootID (enc.map (fun _ => ((lastID + 1 : Nat) : Int))) ++
          (b!"startxref" ++ 10 :: (natDigits (header ++ flatObjs ws).length ++ b!"\n%%EOF\n")), ?_, ?_⟩
  · rw [hparts, hrb]; simp [beforeRows]
  · intro hp
    have h1 : (116 : UInt8) ∈ b!"trailer" := by decide
    have h3 : isDigit 116 = false := by decide
    have h := free_beforeRows (W := (· = b!"trailer")) (by rintro _ rfl; decide) (by rintro _ rfl; decide) (hline_word h1 h3 (by decide)) (free_word h1 (by decide)) (free_word h1 (by decide))
      (free_word h1 (by decide))
      (fun n => free_word h1 (by
        simp only [List.mem_append, not_or]
        exact ⟨⟨by decide, natDigits_not h3⟩, by decide⟩))
      (objs := ws) (fun o ho => ⟨(hwi o ho).1, by rintro _ rfl; exact fun h' => hp o ho (h'.trans (trimSpace_infix _))⟩) top
    have h2 := Free.append (W := (· = b!"trailer")) (d := 10) (by rintro _ rfl; decide) h (free_word h1 hrn) _ rfl
    have e : header ++ flatObjs ws ++ (b!"\nxref\n0 " ++ natDigits (top + 1) ++ b!"\r" ++ 10 :: R) = beforeRows ws top ++ 10 :: R := by simp [beforeRows]
    rw [e]
    exact h2

/-- **C67 is violated for every file with `startxref` in an object.**  Whatever was opened and whatever calls were made: if an object of the file that `Save` writes has this word
somewhere (in a stream, a text, an image) and none has the word `trailer`, the file cannot be opened. -/
theorem C67_refuted_all {env env' env'' : Env} {raw : Bytes} {a0 : App} (ho : Opened env raw a0) (calls : List (Env × Call)) {objs : List Obj} {last : Nat}
    {out : Bytes} (hs : Saves env' (Run a0 calls) objs last out) {o : Obj} (hm : o ∈ objs) (hw : b!"startxref" <:+: o.data) (ht : ∀ o ∈ objs, ¬ b!"trailer" <:+: o.data) :
    parseTrailer out = .panic ∧ ∀ a', App.openFrom env'' {} out ≠ ⟨a', .ok ()⟩ := by
  have key : parseTrailer out = .panic := by
    obtain ⟨b, hb, rfl, rfl, hout⟩ := hs
    have hinv := NumInv.run calls ho.inv
    generalize Run a0 calls = a at hb hinv hout hm ht
    obtain ⟨hdoc, hrange⟩ := build_range hinv hb
    rw [saveTo_eq hb] at hout
    simp only [Res.ok.injEq] at hout
    subst hout
    obtain ⟨h, t, c, e, hn⟩ := toStream_cut b.doc.objs b.doc.rootObjID b.lastID.toNat (a.protection.map encBuild) hrange hdoc
    have hn := hn ht
    obtain ⟨x, y, hxy⟩ : b!"startxref" <:+: h ++ flatObjs (writtenObjs b.doc.objs b.lastID.toNat (a.protection.map encBuild)) ++ t := by
      have h1 : b!"startxref" <:+: trimSpace o.data := infix_trim (by decide) (by decide) hw
      have h2 : trimSpace o.data <:+: objBytes o := ⟨b!"\n" ++ itoa o.objID ++ b!" 0 obj\n", b!"\nendobj\n", by simp [objBytes]⟩
      obtain ⟨u, v, huv⟩ := List.append_of_mem hm
      have h3 : objBytes o <:+: flatObjs (writtenObjs b.doc.objs b.lastID.toNat (a.protection.map encBuild)) := by
        rw [huv]
        exact ⟨flatObjs u, flatObjs v, by simp [flatObjs]⟩
      exact ((h1.trans h2).trans h3).trans ⟨h, t, rfl⟩
    rw [← hxy, List.append_assoc] at hn
    rw [e, ← hxy, List.append_assoc x]
    exact parseTrailer_panic hn
  refine ⟨key, fun a' h => ?_⟩
  obtain ⟨⟨r, hr⟩, _⟩ := pdfParse_steps (openFrom_parse h)
  rw [key] at hr
  cases hr

/-- the file of one page with an inserted image whose bytes have the word in them -/
def wordImg : App := Run (openedApp (fileOf onePage)) [(plainEnv, .img b!"a startxref b" 1 0 0 1 1)]

/-- it can be saved, an object written has the word, none has `trailer` -/
def wordCheck : Bool :=
  match wordImg.build plainEnv, (wordImg.saveTo plainEnv).2 with
  | .ok b, .ok _ => let objs := writtenObjs b.doc.objs b.lastID.toNat (wordImg.protection.map encBuild)
      objs.any (fun o => (index b!"startxref" o.data).isSome) && objs.all (fun o => index b!"trailer" o.data == none)
  | _, _ => false

set_option maxRecDepth 20000 in
theorem wordCheck_eq : wordCheck = true := by decide +kernel

theorem infix_of_index {pat s : Bytes} (hp : pat ≠ []) (h : (index pat s).isSome = true) : pat <:+: s := by
  by_contra hn
  rw [(index_none_iff hp).2 hn] at h
  cases h

/-- the file with that image is saved and cannot be opened -/
example : ∃ objs last out, Saves plainEnv wordImg objs last out ∧ (∃ o ∈ objs, b!"startxref" <:+: o.data) ∧ (∀ o ∈ objs, ¬ b!"trailer" <:+: o.data) ∧
    ∀ a', App.openFrom plainEnv {} out ≠ ⟨a', .ok ()⟩ := by
  have hc := wordCheck_eq
  unfold wordCheck at hc
  split at hc
  · rename_i b out hb hout
    simp only [Bool.and_eq_true, List.any_eq_true, List.all_eq_true, beq_iff_eq] at hc
    obtain ⟨⟨o, ho, hw⟩, ht⟩ := hc
    have hw' : b!"startxref" <:+: o.data := infix_of_index (by decide) hw
    have ht' := fun x hx => (index_none_iff (by decide)).1 (ht x hx)
    have hs : Saves plainEnv wordImg _ _ out := ⟨b, hb, rfl, rfl, hout⟩
    have hop : Opened plainEnv (fileOf onePage) (openedApp (fileOf onePage)) := by
      refine ⟨?_, by decide +kernel, by decide +kernel⟩
      have : (App.openFrom plainEnv {} (fileOf onePage)).res = .ok () := by decide +kernel
      show App.openFrom plainEnv {} (fileOf onePage) = ⟨(App.openFrom plainEnv {} (fileOf onePage)).state, .ok ()⟩
      rw [← this]
    exact ⟨_, _, out, hs, ⟨o, ho, hw'⟩, ht', (C67_refuted_all (env'' := plainEnv) hop _ hs ho hw' ht').2⟩
  · cases hc

/-- a file that is opened, and a stream of which no object read can have the bytes -/
example : ∃ a, App.openFrom plainEnv {} (fileOf (withStream b!"(endobj) Tj")) = ⟨a, .ok ()⟩ ∧ ∀ o ∈ a.doc.objs, ¬ b!"(endobj) Tj" <:+: o.data := by
  have this : (App.openFrom plainEnv {} (fileOf (withStream b!"(endobj) Tj"))).res = .ok () := by decide +kernel
  have h : App.openFrom plainEnv {} (fileOf (withStream b!"(endobj) Tj")) = ⟨(App.openFrom plainEnv {} (fileOf (withStream b!"(endobj) Tj"))).state, .ok ()⟩ := by
    rw [← this]
  exact ⟨_, h, C67_refuted_cut h ⟨b!"(", b!") Tj", rfl⟩⟩

end Verif
