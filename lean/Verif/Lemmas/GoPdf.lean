import Verif.GoPdf
import Verif.Theorems.File
/-!
# The files of GoPdf: how they are put together
-/
namespace Verif
open Spec

/-- an object as it stands in the file -/
def goEntry (i : Nat) (b : Bytes) : Bytes := natDigits (i + 1) ++ b!" 0 obj\n" ++ b ++ b!"endobj\n\n"

/-- objects one after the other; the first one is at position `i` of the list -/
def goFlat : Nat → List Bytes → Bytes
  | _, [] => []
  | i, b :: bs => goEntry i b ++ goFlat (i + 1) bs

/-- where they stand, if the first one begins at `n` -/
def goOffs : Nat → Nat → List Bytes → List Nat
  | _, _, [] => []
  | n, i, b :: bs => n :: goOffs (n + (goEntry i b).length) (i + 1) bs

/-- the fields of which `build` and `xref` make use, but for the number of image names given -/
structure Gp.Same (g h : Gp) : Prop where
  fonts : h.fonts = g.fonts
  pageSize : h.pageSize = g.pageSize
  level : h.level = g.level
  protection : h.protection = g.protection
  info : h.info = g.info
  encID : h.encID = g.encID

/-- resources -/
def GObj.isProcset : GObj → Bool
  | .procset _ _ => true
  | _ => false

/-- what stands in the file for the objects -/
def GoBuilds (env : GEnv) (g : Gp) (i : Nat) (ss : List GSlot) (bs : List Bytes) : Prop :=
  bs.length = ss.length ∧ ∀ (k : Nat) (s : GSlot), ss[k]? = some s → ∃ h b, g.Same h ∧ ((∀ (j : Nat) (r : GSlot), j < k → ss[j]? = some r → r.obj.isProcset = false) → h.countL = g.countL) ∧
    s.obj.build env h (i + k + 1) = .ok b ∧ bs[k]? = some (s.buf ++ b)

theorem itoa_succ (i : Nat) : itoa ((i : Int) + 1) = natDigits (i + 1) := by
  have := itoa_natCast (i + 1)
  rwa [Nat.cast_add, Nat.cast_one] at this

theorem compileLoop_ok (env : GEnv) : ∀ (ss : List GSlot) (i : Nat) (g : Gp) (out : Bytes) (offs : List Nat) (g' : Gp) (out' : Bytes) (offs' : List Nat),
    compileLoop env ss i g out offs = (g', .ok (out', offs')) → g.Same g' ∧ ∃ bs, GoBuilds env g i ss bs ∧ out' = out ++ goFlat i bs ∧ offs' = offs ++ goOffs out.length i bs
  | [], i, g, out, offs, g', out', offs', h => by
    simp only [compileLoop, Prod.mk.injEq, Res.ok.injEq] at h
    obtain ⟨rfl, rfl, rfl⟩ := h
    exact ⟨⟨rfl, rfl, rfl, rfl, rfl, rfl⟩, [], ⟨rfl, by simp⟩, by simp [goFlat], by simp [goOffs]⟩
  | s :: ss, i, g, out, offs, g', out', offs', h => by
    rw [compileLoop] at h
    cases hb : s.obj.build env g (i + 1) with
    | ok b =>
      rw [hb] at h
      obtain ⟨h1, bs, ⟨hl, h2⟩, h3, h4⟩ := compileLoop_ok env ss (i + 1) _ _ _ g' out' offs' h
      have e1 : out ++ itoa ((i : Int) + 1) ++ b!" 0 obj\n" ++ (s.buf ++ b) ++ b!"endobj\n\n" = out ++ goEntry i (s.buf ++ b) := by
        rw [itoa_succ]; simp only [goEntry, List.append_assoc]
      rw [e1] at h3 h4
      refine ⟨⟨h1.fonts, h1.pageSize, h1.level, h1.protection, h1.info, h1.encID⟩, (s.buf ++ b) :: bs, ⟨by simp [hl], ?_⟩, ?_, ?_⟩
      · intro k r hk
        cases k with
        | zero =>
          simp only [List.getElem?_cons_zero, Option.some.injEq] at hk
          subst hk
          exact ⟨g, b, ⟨rfl, rfl, rfl, rfl, rfl, rfl⟩, fun _ => rfl, by simpa using hb, rfl⟩
        | succ k =>
          rw [List.getElem?_cons_succ] at hk
          obtain ⟨p, b', q1, q2, q3, q4⟩ := h2 k r hk
          refine ⟨p, b', ⟨q1.fonts, q1.pageSize, q1.level, q1.protection, q1.info, q1.encID⟩, ?_, by rw [← q3]; congr 1; omega, q4⟩
          intro hp
          rw [q2 (fun j r hj hr => hp (j + 1) r (by omega) hr)]
          have := hp 0 s (by omega) rfl
          revert this
          cases s.obj <;> simp [GObj.isProcset]
      · rw [h3]; simp only [goFlat, List.append_assoc]
      · rw [h4]; simp only [goOffs, List.append_assoc, List.length_append, List.cons_append, List.nil_append]
    | err e => rw [hb] at h; simp at h
    | panic => rw [hb] at h; simp at h
    | hang => rw [hb] at h; simp at h

/-- what `compile` returns -/
theorem compile_ok {env : GEnv} {g g' : Gp} {out : Bytes} (h : g.compile env = (g', .ok out)) :
    ∃ bs, GoBuilds env g.prepare 0 g.prepare.slots bs ∧ out = b!"%PDF-1.7\n\n" ++ goFlat 0 bs ++ g.prepare.xref (goOffs 10 0 bs) (10 + (goFlat 0 bs).length) := by
  unfold Gp.compile at h
  simp only at h
  rcases hc : compileLoop env g.prepare.slots 0 g.prepare b!"%PDF-1.7\n\n" [] with ⟨q, r⟩
  rw [hc] at h
  cases r with
  | ok p =>
    obtain ⟨o, offs⟩ := p
    simp only [Prod.mk.injEq, Res.ok.injEq] at h
    obtain ⟨h1, bs, h2, h3, h4⟩ := compileLoop_ok env _ _ _ _ _ _ _ _ hc
    refine ⟨bs, h2, ?_⟩
    rw [← h.2, h3, h4]
    have e : q.xref = g.prepare.xref := by
      funext offs n
      unfold Gp.xref
      rw [h1.protection, h1.encID, h1.info]
    rw [e]
    simp only [List.nil_append, List.length_append]
    rfl
  | err e => simp at h
  | panic => simp at h
  | hang => simp at h

theorem goOffs_length : ∀ (bs : List Bytes) (n i : Nat), (goOffs n i bs).length = bs.length
  | [], _, _ => rfl
  | b :: bs, n, i => by simp [goOffs, goOffs_length bs]

theorem goOffs_drop : ∀ (bs : List Bytes) (i : Nat) (pre rest : Bytes) (k n : Nat), (goOffs pre.length i bs)[k]? = some n →
    n ≤ pre.length + (goFlat i bs).length ∧ ∃ b r, bs[k]? = some b ∧ (pre ++ goFlat i bs ++ rest).drop n = goEntry (i + k) b ++ r
  | [], _, _, _, _, _, h => by simp [goOffs] at h
  | b :: bs, i, pre, rest, 0, n, h => by
    simp only [goOffs, List.getElem?_cons_zero, Option.some.injEq] at h
    subst h
    exact ⟨by omega, b, goFlat (i + 1) bs ++ rest, rfl, by simp only [goFlat, List.append_assoc, Nat.add_zero]; rw [List.drop_left]⟩
  | b :: bs, i, pre, rest, k + 1, n, h => by
    simp only [goOffs, List.getElem?_cons_succ] at h
    have e : pre.length + (goEntry i b).length = (pre ++ goEntry i b).length := by simp
    rw [e] at h
    obtain ⟨h1, c, r, h2, h3⟩ := goOffs_drop bs (i + 1) (pre ++ goEntry i b) rest k n h
    refine ⟨by simp only [goFlat, List.length_append] at *; omega, c, r, h2, ?_⟩
    rw [show i + (k + 1) = i + 1 + k by omega, ← h3]
    simp only [goFlat, List.append_assoc]

end Verif
