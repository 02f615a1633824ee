import Verif.Theorems.GoFile
/-
C85: every document with a date of creation has a trailer that cannot be read.
-/
namespace Verif
open Spec

def opensTok (t : Lexeme) : Nat := if t = .open ∨ t = .dictOpen then 1 else 0
def closesTok (t : Lexeme) : Nat := if t = .close ∨ t = .dictClose then 1 else 0

theorem readStep_none (ts : List Lexeme) : ts.foldl readStep none = none := by
  induction ts with
  | nil => rfl
  | cons t ts ih => rw [List.foldl_cons]; simpa [readStep] using ih

/-- brackets are read in pairs -/
theorem readStep_depth : ∀ (ts : List Lexeme) (st st' : List (Bool × List Val)), ts.foldl readStep (some st) = some st' →
    st'.length + (ts.map closesTok).sum = st.length + (ts.map opensTok).sum
  | [], st, st', h => by
    simp only [List.foldl_nil, Option.some.injEq] at h
    subst h
    simp
  | t :: ts, st, st', h => by
    rw [List.foldl_cons] at h
    cases hs : readStep (some st) t with
    | none => rw [hs, readStep_none] at h; cases h
    | some s1 =>
      rw [hs] at h
      have ih := readStep_depth ts s1 st' h
      have : s1.length + closesTok t = st.length + opensTok t := by
        unfold readStep at hs
        split at hs
        all_goals rename_i e1
        all_goals try simp only [Option.some.injEq] at e1
        all_goals try subst e1
        all_goals simp only [opensTok, closesTok, reduceCtorEq, or_self, or_true, true_or, if_true, if_false]
        all_goals try simp only [Option.some.injEq] at hs
        all_goals try subst hs
        all_goals try simp
        all_goals try cases hs
        · split at hs
          · split at hs
            · split at hs
              · simp only [Option.some.injEq] at hs; subst hs; simp
              · cases hs
            · cases hs
          · simp only [Option.some.injEq] at hs; subst hs; simp
        · rw [Option.map_eq_some_iff] at hs
          obtain ⟨d, _, rfl⟩ := hs
          simp
      simp only [List.map_cons, List.sum_cons]
      omega

theorem lexer_plainLit (m : Bytes) : ∀ (d : Bytes), (∀ c ∈ d, c ≠ 40 ∧ c ≠ 41 ∧ c ≠ 92) → ∀ s, lexer (.lit 0 false m) (d ++ s) = lexer (.lit 0 false (m ++ d)) s := by
  intro d
  induction d generalizing m with
  | nil => intro _ s; simp
  | cons c d ih =>
    intro h s
    obtain ⟨h1, h2, h3⟩ := h c (by simp)
    have e : lexStep (.lit 0 false m) c = ([], .lit 0 false (m ++ [c])) := by simp [lexStep, h1, h2, h3]
    rw [List.cons_append, lexer, e]
    simp only [List.nil_append]
    rw [ih _ (fun x hx => h x (by simp [hx]))]
    simp

theorem fieldToks_flat (p : Bytes × Bytes) : (fieldToks p).map opensTok = (fieldToks p).map closesTok := by
  unfold fieldToks
  split <;> simp [opensTok, closesTok]

theorem fields_flat : ∀ l : List (Bytes × Bytes), ((l.flatMap fieldToks).map opensTok).sum = ((l.flatMap fieldToks).map closesTok).sum
  | [] => rfl
  | p :: l => by
    rw [List.flatMap_cons, List.map_append, List.map_append, List.sum_append, List.sum_append, fieldToks_flat, fields_flat l]

/-- **C85 is violated by every document with a date of creation**, whatever it holds: the dictionary of the information is closed twice, so that the trailer is no value. -/
theorem C85_refuted_all {env : GEnv} {g g' : Gp} {out : Bytes} (h : g.compile env = (g', .ok out)) (hs : g.slots ≠ []) (hl : out.length < 10 ^ 10)
    {i : GInfo} (hi : g.info = some i) {d : Bytes} (hd : i.date = some d) (hp : ∀ c ∈ d, c ≠ 40 ∧ c ≠ 41 ∧ c ≠ 92) :
    ∃ bodies trailer, FileHolds out bodies trailer ∧ ∀ v, ¬ ReadsVal trailer v := by
  obtain ⟨bs, _, _, h3⟩ := compile_holds h hs hl
  refine ⟨_, _, h3, ?_⟩
  have e1 : g.prepare.info = some i := by rw [prepare_eq]; exact hi
  generalize g.prepare = k at e1
  generalize bs.length + 1 = n
  -- the information
  have h1 : Lx (k.info.elim [] infoBytes ++ b!">>\n") ([.name b!"Info", .dictOpen] ++ ((infoFields i).flatMap fieldToks ++ [.name b!"CreationDate", .lit (b!"D:" ++ d), .dictClose, .dictClose, .dictClose])) := by
    have hlit : Lx (b!"/CreationDate(D:" ++ d ++ (b!")>>\n" ++ b!" >>\n" ++ b!">>\n")) [.name b!"CreationDate", .lit (b!"D:" ++ d), .dictClose, .dictClose, .dictClose] := by
      unfold Lx
      have a : lexer .ground b!"/CreationDate(D:" = ([.name b!"CreationDate"], .lit 0 false b!"D:") := by decide +kernel
      rw [List.append_assoc, lexer_append, a, lexer_plainLit _ d hp]
      have b : lexer (.lit 0 false (b!"D:" ++ d)) (b!")>>\n" ++ b!" >>\n" ++ b!">>\n") = ([.lit (b!"D:" ++ d), .dictClose, .dictClose, .dictClose], .ground) := by
        rw [show (b!")>>\n" ++ b!" >>\n" ++ b!">>\n" : Bytes) = 41 :: b!">>\n >>\n>>\n" by decide, lexer]
        have : lexStep (.lit 0 false (b!"D:" ++ d)) 41 = ([.lit (b!"D:" ++ d)], .ground) := by simp [lexStep]
        rw [this]
        have : lexer .ground b!">>\n >>\n>>\n" = ([.dictClose, .dictClose, .dictClose], .ground) := by decide +kernel
        simp only [this, List.cons_append, List.nil_append]
      rw [b]
      rfl
    have h2 := Lx.infos hlit (infoFields i) (by simp only [infoFields, List.forall_mem_cons]; decide)
    have h3 := Lx.const b!"/Info <<\n" (ts := [.name b!"Info", .dictOpen]) (by decide +kernel) h2
    refine Lx.of_eq h3 ?_
    rw [e1]
    simp only [Option.elim, infoBytes, infoFields, hd, List.flatMap_cons, List.flatMap_nil, List.append_assoc, List.append_nil]
  -- the encryption dictionary
  have h2 : ∃ us, Lx ((if k.protection.isSome then b!"/Encrypt " ++ natDigits k.encID ++ b!" 0 R\n/ID [()()]\n" else []) ++ (k.info.elim [] infoBytes ++ b!">>\n"))
      (us ++ ([.name b!"Info", .dictOpen] ++ ((infoFields i).flatMap fieldToks ++ [.name b!"CreationDate", .lit (b!"D:" ++ d), .dictClose, .dictClose, .dictClose]))) ∧
      (us.map opensTok).sum = (us.map closesTok).sum := by
    cases hp : k.protection.isSome with
    | false => exact ⟨[], by simpa using h1, rfl⟩
    | true =>
      have a1 := Lx.const b!" 0 R\n/ID [()()]\n" (ts := [.num 0, .op b!"R", .name b!"ID", .open, .lit [], .lit [], .close]) (by decide +kernel) h1
      have a2 := Lx.num (k.encID : Int) (by simp [ends]; decide) a1
      have a3 := Lx.const b!"/Encrypt " (ts := [.name b!"Encrypt"]) (by decide +kernel) a2
      rw [itoa_natCast] at a3
      refine ⟨[.name b!"Encrypt", .num (k.encID : Int), .num 0, .op b!"R", .name b!"ID", .open, .lit [], .lit [], .close], Lx.of_eq a3 ?_, ?_⟩
      · simp only [if_true, List.append_assoc]
      · simp [opensTok, closesTok]
  obtain ⟨us, u1, u2⟩ := h2
  have a1 := Lx.const b!"\n/Root 1 0 R\n" (ts := [.name b!"Root", .num 1, .num 0, .op b!"R"]) (by decide +kernel) u1
  have a2 := Lx.num (n : Int) (by simp [ends]; decide) a1
  have a3 := Lx.const b!"<<\n/Size " (ts := [.dictOpen, .name b!"Size"]) (by decide +kernel) a2
  rw [itoa_natCast] at a3
  have a4 := Lx.of_eq (s' := k.trailerText n) a3 (by simp only [Gp.trailerText, List.append_assoc])
  rintro v ⟨ts, t1, t2⟩
  unfold Lx at a4
  rw [a4] at t1
  simp only [Prod.mk.injEq, and_true] at t1
  subst t1
  unfold valueOfToks at t2
  split at t2
  · rename_i w hw
    have := readStep_depth _ _ _ hw
    have hf := fields_flat (infoFields i)
    simp only [List.map_append, List.map_cons, List.map_nil, List.sum_append, List.sum_cons, List.sum_nil, opensTok, closesTok, reduceCtorEq, or_self, or_true, if_true, if_false,
      List.length_cons, List.length_nil] at this hf u2
    omega
  · cases t2

set_option maxRecDepth 20000 in
/-- a document with a title and a date -/
example : ∃ g' out, (goDoc { title := b!"A", date := some b!"20240101000000-07'00'" }).compile goEnv = (g', .ok out) ∧ out.length < 10 ^ 10 ∧
    (goDoc { title := b!"A", date := some b!"20240101000000-07'00'" }).slots ≠ [] ∧ ∀ c ∈ b!"20240101000000-07'00'", c ≠ 40 ∧ c ≠ 41 ∧ c ≠ 92 := by
  obtain ⟨g', out, h1, h2⟩ := goDoc_compiles (i := { title := b!"A", date := some b!"20240101000000-07'00'" }) (by decide +kernel)
  exact ⟨g', out, h1, h2, by decide +kernel, by decide⟩

end Verif
