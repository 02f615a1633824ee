import Verif.Props
/-
`parseProps.loop` as a one-pass state machine.
-/
namespace Verif

/-- State of the machine: between entries, inside a key, inside a value (with the two bracket counters). -/
inductive PS where
  | top
  | key (k : Bytes)
  | val (k v : Bytes) (c1 c2 : Int)
deriving DecidableEq, Repr

/-- bracket counters after reading a byte of a value -/
def cnt1 (c1 : Int) (c : UInt8) : Int := if c = 60 then c1 + 1 else if c = 62 then c1 - 1 else c1
def cnt2 (c2 : Int) (c : UInt8) : Int := if c = 91 then c2 + 1 else if c = 93 then c2 - 1 else c2

/-- the machine -/
def run : PS → Bytes → Props
  | .top, [] => []
  | .key k, [] => [⟨k, []⟩]
  | .val k v _ _, [] => [⟨k, v⟩]
  | .top, c :: t => if c = 47 then run (.key []) t else run .top t
  | .key k, c :: t =>
    if c = 32 then run (.val k [] 0 0) t
    else if c = 60 ∨ c = 91 then run (.val k [c] (cnt1 0 c) (cnt2 0 c)) t
    else if c = 47 then ⟨k, []⟩ :: run (.key []) t
    else run (.key (k ++ byteAsRune c)) t
  | .val k v c1 c2, c :: t =>
    if (c = 93 ∨ c = 62) ∧ cnt1 c1 c = 0 ∧ cnt2 c2 c = 0 then ⟨k, v ++ [c]⟩ :: run .top t
    else if c = 47 ∧ c1 = 0 ∧ c2 = 0 then ⟨k, v⟩ :: run (.key []) t
    else run (.val k (v ++ byteAsRune c) (cnt1 c1 c) (cnt2 c2 c)) t

/-- the property under construction -/
def PS.cur : PS → Props
  | .top => []
  | .key k => [⟨k, []⟩]
  | .val k v _ _ => [⟨k, v⟩]

def PS.status : PS → Status
  | .top => .none
  | .key _ => .key
  | .val .. => .val

/-- bracket counters of the frame that corresponds to a machine state -/
def PS.counts : PS → Int → Int → Prop
  | .val _ _ c1 c2, a, b => a = c1 ∧ b = c2
  | _, _, _ => True

theorem byteAsRune_eq_iff (c d : UInt8) (hd : d < 128) : byteAsRune c = [d] ↔ c = d := by
  unfold byteAsRune
  split
  · simp
  · rename_i h
    constructor
    · intro h2; simp at h2
    · intro h2; subst h2; contradiction

theorem byteAsRune_ascii {c : UInt8} (h : c < 128) : byteAsRune c = [c] := by
  unfold byteAsRune; rw [if_pos h]

theorem appendKey_snoc (pre : Props) (k : Bytes) (v r : Bytes) :
    appendKey (pre ++ [⟨k, v⟩]) r = pre ++ [⟨k ++ r, v⟩] := by simp [appendKey]

theorem appendVal_snoc (pre : Props) (k : Bytes) (v r : Bytes) :
    appendVal (pre ++ [⟨k, v⟩]) r = pre ++ [⟨k, v ++ r⟩] := by simp [appendVal]

/-- fuel needed by a frame in state `st` at position `i` -/
def need (len i : Nat) : Status → Nat
  | .key => 2 * (len - i) + 2
  | _ => 2 * (len - i) + 1

theorem drop_eq_cons {s : Bytes} {i : Nat} {c : UInt8} (h : s[i]? = some c) : s.drop i = c :: s.drop (i + 1) := by
  rw [List.getElem?_eq_some_iff] at h
  obtain ⟨hi, he⟩ := h
  rw [List.drop_eq_getElem_cons hi, he]

/-- What a frame leaves behind, when continued, is what the machine computes. -/
theorem loopGo_run (str : Bytes) (fuel : Nat) :
    ∀ (i : Nat) (s : PS) (a b : Int) (pre : Props),
      s.counts a b → need str.length i s.status ≤ fuel → (s.status = .none ∨ 1 ≤ i) →
      let r := loopGo str fuel i s.status a b (pre ++ s.cur)
      (r.2.1 = .none ∨ str.length ≤ r.1) ∧
      (i ≤ r.1 + 1) ∧
      r.2.2 ++ run .top (str.drop (r.1 + 1)) = pre ++ run s (str.drop i) := by
  induction fuel with
  | zero =>
    intro i s a b pre _ hneed _
    exfalso
    cases hs : s.status <;> rw [hs] at hneed <;> simp [need] at hneed
  | succ f ih =>
    intro i s a b pre hc hneed hi
    unfold loopGo
    cases hget : str[i]? with
    | none =>
      have hlen : str.length ≤ i := by
        rcases Nat.lt_or_ge i str.length with h | h
        · rw [List.getElem?_eq_getElem h] at hget; simp at hget
        · exact h
      simp only
      refine ⟨Or.inr hlen, by omega, ?_⟩
      rw [List.drop_eq_nil_of_le (by omega), List.drop_eq_nil_of_le hlen]
      cases s <;> simp [run, PS.cur]
    | some c =>
      have hlt : i < str.length := by
        rcases Nat.lt_or_ge i str.length with h | h
        · exact h
        · rw [List.getElem?_eq_none h] at hget; simp at hget
      have hdrop := drop_eq_cons hget
      -- continuing a frame after a call returned
      have cont : ∀ (r : Nat × Status × Props) (a' b' : Int), (r.2.1 = .none ∨ str.length ≤ r.1) → i ≤ r.1 →
          let r2 := loopGo str f (r.1 + 1) r.2.1 a' b' r.2.2
          (r2.2.1 = .none ∨ str.length ≤ r2.1) ∧ (i ≤ r2.1 + 1) ∧
          r2.2.2 ++ run .top (str.drop (r2.1 + 1)) = r.2.2 ++ run .top (str.drop (r.1 + 1)) := by
        intro r a' b' h1 h2
        rcases h1 with h1 | h1
        · rw [h1]
          have hn : need str.length (r.1 + 1) (PS.top).status ≤ f := by
            cases hs : s.status <;> rw [hs] at hneed <;> simp only [need, PS.status] at hneed ⊢ <;> omega
          have := ih (r.1 + 1) .top a' b' r.2.2 trivial hn (Or.inl rfl)
          simp only [PS.status, PS.cur, List.append_nil] at this
          exact ⟨this.1, by omega, this.2.2⟩
        · have : loopGo str f (r.1 + 1) r.2.1 a' b' r.2.2 = (r.1 + 1, r.2.1, r.2.2) := by
            cases f with
            | zero => rfl
            | succ f =>
              unfold loopGo
              rw [List.getElem?_eq_none (by omega)]
          rw [this]
          simp only
          refine ⟨Or.inr (by omega), by omega, ?_⟩
          rw [List.drop_eq_nil_of_le (by omega), List.drop_eq_nil_of_le (by omega)]
      cases s with
      | top =>
        simp only [PS.status, PS.cur, List.append_nil] at *
        have e47 : (byteAsRune c = [47]) ↔ c = 47 := byteAsRune_eq_iff c 47 (by decide)
        by_cases h47 : c = 47
        · rw [if_pos (e47.2 h47)]
          have hn : need str.length (i + 1) (PS.key []).status ≤ f := by
            simp only [need, PS.status] at hneed ⊢; omega
          have hk := ih (i + 1) (.key []) 0 0 pre trivial hn (Or.inr (by omega))
          simp only [PS.status, PS.cur] at hk
          generalize loopGo str f (i + 1) Status.key 0 0 (pre ++ [⟨[], []⟩]) = r at hk
          obtain ⟨k1, k2, k3⟩ := hk
          have hc2 := cont r a b k1 (by omega)
          refine ⟨hc2.1, hc2.2.1, ?_⟩
          rw [hc2.2.2, k3, hdrop]
          simp [run, h47]
        · rw [if_neg (fun h => h47 (e47.1 h))]
          have hn : need str.length (i + 1) (PS.top).status ≤ f := by
            simp only [need, PS.status] at hneed ⊢; omega
          have hk := ih (i + 1) .top a b pre trivial hn (Or.inl rfl)
          simp only [PS.status, PS.cur, List.append_nil] at hk
          refine ⟨hk.1, by omega, ?_⟩
          rw [hk.2.2, hdrop]
          simp [run, h47]
      | key k =>
        simp only [PS.status, PS.cur] at *
        have e32 : (byteAsRune c = [32]) ↔ c = 32 := byteAsRune_eq_iff c 32 (by decide)
        have e60 : (byteAsRune c = [60]) ↔ c = 60 := byteAsRune_eq_iff c 60 (by decide)
        have e91 : (byteAsRune c = [91]) ↔ c = 91 := byteAsRune_eq_iff c 91 (by decide)
        have e47 : (byteAsRune c = [47]) ↔ c = 47 := byteAsRune_eq_iff c 47 (by decide)
        by_cases h32 : c = 32
        · rw [if_pos (e32.2 h32)]
          have hn : need str.length (i + 1) (PS.val k [] 0 0).status ≤ f := by
            simp only [need, PS.status] at hneed ⊢; omega
          have hk := ih (i + 1) (.val k [] 0 0) 0 0 pre ⟨rfl, rfl⟩ hn (Or.inr (by omega))
          simp only [PS.status, PS.cur] at hk
          generalize loopGo str f (i + 1) Status.val 0 0 (pre ++ [⟨k, []⟩]) = r at hk
          obtain ⟨k1, k2, k3⟩ := hk
          have hc2 := cont r a b k1 (by omega)
          refine ⟨hc2.1, hc2.2.1, ?_⟩
          rw [hc2.2.2, k3, hdrop]
          simp [run, h32]
        · rw [if_neg (fun h => h32 (e32.1 h))]
          by_cases hob : c = 60 ∨ c = 91
          · rw [if_pos (by rcases hob with h | h; exact Or.inl (e60.2 h); exact Or.inr (e91.2 h))]
            have hn : need str.length i (PS.val k [] 0 0).status ≤ f := by
              simp only [need, PS.status] at hneed ⊢; omega
            have hk := ih i (.val k [] 0 0) 0 0 pre ⟨rfl, rfl⟩ hn (Or.inr (by rcases hi with h | h; cases h; exact h))
            simp only [PS.status, PS.cur] at hk
            -- the called frame reads the opening bracket, so it returns beyond `i`
            have hpos : i ≤ (loopGo str f i Status.val 0 0 (pre ++ [⟨k, []⟩])).1 := by
              cases f with
              | zero => simp [loopGo]
              | succ f' =>
                unfold loopGo
                rw [hget]
                simp only
                have hn1 : need str.length (i + 1) Status.val ≤ f' := by
                  simp only [need] at hneed ⊢; omega
                have e62 : (byteAsRune c = [62]) ↔ c = 62 := byteAsRune_eq_iff c 62 (by decide)
                have e93 : (byteAsRune c = [93]) ↔ c = 93 := byteAsRune_eq_iff c 93 (by decide)
                have n1 : ¬ ((byteAsRune c = [93] ∨ byteAsRune c = [62])) := by
                  rw [e93, e62]; rcases hob with h | h <;> subst h <;> decide
                have n2 : ¬ (byteAsRune c = [47]) := by
                  rw [e47]; rcases hob with h | h <;> subst h <;> decide
                rw [if_neg (fun h => n1 h.1), if_neg (fun h => n2 h.1)]
                -- any frame started at i+1 returns at or beyond i
                have := loopGo_ge str f' (i + 1)
                have h3 := this .val (if byteAsRune c = [60] then 0 + 1 else if byteAsRune c = [62] then 0 - 1 else 0)
                  (if byteAsRune c = [91] then 0 + 1 else if byteAsRune c = [93] then 0 - 1 else 0)
                  (appendVal (pre ++ [{ key := k, rawVal := [] }]) (byteAsRune c)) (by omega)
                omega
            generalize loopGo str f i Status.val 0 0 (pre ++ [⟨k, []⟩]) = r at hk hpos
            obtain ⟨k1, k2, k3⟩ := hk
            have hc2 := cont r a b k1 hpos
            refine ⟨hc2.1, hc2.2.1, ?_⟩
            rw [hc2.2.2, k3, hdrop]
            have hasc : c < 128 := by rcases hob with h | h <;> subst h <;> decide
            have n1 : ¬ (c = 93 ∨ c = 62) := by rcases hob with h | h <;> subst h <;> decide
            have n2 : c ≠ 47 := by rcases hob with h | h <;> subst h <;> decide
            simp [run, h32, hob, n1, n2, byteAsRune_ascii hasc]
          · rw [if_neg (by rw [e60, e91]; exact hob)]
            by_cases h47 : c = 47
            · rw [if_pos (e47.2 h47)]
              have hi1 : 1 ≤ i := by rcases hi with h | h; cases h; exact h
              refine ⟨Or.inl rfl, by simp only; omega, ?_⟩
              simp only
              have : i - 1 + 1 = i := by omega
              rw [this, hdrop]
              simp [run, h47]
            · rw [if_neg (fun h => h47 (e47.1 h)), appendKey_snoc]
              have hn : need str.length (i + 1) (PS.key (k ++ byteAsRune c)).status ≤ f := by
                simp only [need, PS.status] at hneed ⊢; omega
              have hk := ih (i + 1) (.key (k ++ byteAsRune c)) a b pre trivial hn (Or.inr (by omega))
              simp only [PS.status, PS.cur] at hk
              refine ⟨hk.1, by omega, ?_⟩
              rw [hk.2.2, hdrop]
              simp [run, h32, hob, h47]
      | val k v c1 c2 =>
        simp only [PS.status, PS.cur, PS.counts] at *
        obtain ⟨ha, hb⟩ := hc
        subst ha; subst hb
        have e60 : (byteAsRune c = [60]) ↔ c = 60 := byteAsRune_eq_iff c 60 (by decide)
        have e62 : (byteAsRune c = [62]) ↔ c = 62 := byteAsRune_eq_iff c 62 (by decide)
        have e91 : (byteAsRune c = [91]) ↔ c = 91 := byteAsRune_eq_iff c 91 (by decide)
        have e93 : (byteAsRune c = [93]) ↔ c = 93 := byteAsRune_eq_iff c 93 (by decide)
        have e47 : (byteAsRune c = [47]) ↔ c = 47 := byteAsRune_eq_iff c 47 (by decide)
        simp only [e60, e62, e91, e93, e47]
        have f1 : (if c = 60 then a + 1 else if c = 62 then a - 1 else a) = cnt1 a c := rfl
        have f2 : (if c = 91 then b + 1 else if c = 93 then b - 1 else b) = cnt2 b c := rfl
        simp only [f1, f2]
        by_cases hclose : (c = 93 ∨ c = 62) ∧ cnt1 a c = 0 ∧ cnt2 b c = 0
        · rw [if_pos hclose]
          have hasc : c < 128 := by rcases hclose.1 with h | h <;> subst h <;> decide
          refine ⟨Or.inl rfl, by simp only; omega, ?_⟩
          simp only
          rw [appendVal_snoc, hdrop, byteAsRune_ascii hasc]
          simp [run, hclose]
        · rw [if_neg hclose]
          by_cases hsl : c = 47 ∧ cnt1 a c = 0 ∧ cnt2 b c = 0
          · rw [if_pos hsl]
            have hi1 : 1 ≤ i := by rcases hi with h | h; cases h; exact h
            refine ⟨Or.inl rfl, by simp only; omega, ?_⟩
            simp only
            have : i - 1 + 1 = i := by omega
            rw [this, hdrop]
            obtain ⟨h1, h2, h3⟩ := hsl
            subst h1
            have h2' : a = 0 := by simpa [cnt1] using h2
            have h3' : b = 0 := by simpa [cnt2] using h3
            simp [run, h2', h3']
          · rw [if_neg hsl, appendVal_snoc]
            have hn : need str.length (i + 1) (PS.val k (v ++ byteAsRune c) (cnt1 a c) (cnt2 b c)).status ≤ f := by
              simp only [need, PS.status] at hneed ⊢; omega
            have hk := ih (i + 1) (.val k (v ++ byteAsRune c) (cnt1 a c) (cnt2 b c)) (cnt1 a c) (cnt2 b c) pre ⟨rfl, rfl⟩ hn (Or.inr (by omega))
            simp only [PS.status, PS.cur] at hk
            refine ⟨hk.1, by omega, ?_⟩
            rw [hk.2.2, hdrop]
            have hsl' : ¬ (c = 47 ∧ a = 0 ∧ b = 0) := by
              rintro ⟨h1, h2, h3⟩
              apply hsl
              subst h1; subst h2; subst h3
              decide
            simp [run, hclose, hsl']
where
  /-- a frame never returns before the position it was started at, minus one -/
  loopGo_ge (str : Bytes) (fuel : Nat) : ∀ (i : Nat) (st : Status) (a b : Int) (ps : Props), 1 ≤ i →
      i < (loopGo str fuel i st a b ps).1 + 2 := by
    induction fuel with
    | zero => intro i st a b ps hi; simp [loopGo]
    | succ f ih =>
      intro i st a b ps hi
      unfold loopGo
      split
      · simp
      · cases st with
        | none =>
          simp only
          split
          · have h1 := ih (i + 1) .key 0 0 (ps ++ [⟨[], []⟩]) (by omega)
            have h2 := ih ((loopGo str f (i + 1) Status.key 0 0 (ps ++ [⟨[], []⟩])).1 + 1)
              (loopGo str f (i + 1) Status.key 0 0 (ps ++ [⟨[], []⟩])).2.1 a b (loopGo str f (i + 1) Status.key 0 0 (ps ++ [⟨[], []⟩])).2.2 (by omega)
            omega
          · have h1 := ih (i + 1) .none a b ps (by omega)
            omega
        | key =>
          simp only
          split
          · have h1 := ih (i + 1) .val 0 0 ps (by omega)
            have h2 := ih ((loopGo str f (i + 1) Status.val 0 0 ps).1 + 1)
              (loopGo str f (i + 1) Status.val 0 0 ps).2.1 a b (loopGo str f (i + 1) Status.val 0 0 ps).2.2 (by omega)
            omega
          · split
            · have h1 := ih i .val 0 0 ps (by omega)
              have h2 := ih ((loopGo str f i Status.val 0 0 ps).1 + 1)
                (loopGo str f i Status.val 0 0 ps).2.1 a b (loopGo str f i Status.val 0 0 ps).2.2 (by omega)
              omega
            · split
              · simp only; omega
              · rename_i c _ _ _ _
                have h1 := ih (i + 1) .key a b (appendKey ps (byteAsRune c)) (by omega)
                omega
        | val =>
          rename_i c _
          have h1 := fun a' b' => ih (i + 1) .val a' b' (appendVal ps (byteAsRune c)) (by omega)
          dsimp only
          generalize (if byteAsRune c = [60] then a + 1 else if byteAsRune c = [62] then a - 1 else a) = a'
          generalize (if byteAsRune c = [91] then b + 1 else if byteAsRune c = [93] then b - 1 else b) = b'
          have := h1 a' b'
          split
          · simp
          · split
            · simp only; omega
            · omega

/-- The literal translation computes what the machine computes. -/
theorem parseProps_eq_run (str : Bytes) : parseProps str = run .top str := by
  have h := loopGo_run str (2 * str.length + 2) 0 .top 0 0 [] trivial (by simp [need, PS.status]) (Or.inl rfl)
  simp only [PS.status, PS.cur, List.append_nil, List.drop_zero, List.nil_append] at h
  unfold parseProps
  generalize hr : loopGo str (2 * str.length + 2) 0 Status.none 0 0 [] = r at h
  obtain ⟨h1, _, h3⟩ := h
  -- the outermost frame only returns at the end of the text
  have hend : str.length ≤ r.1 + 1 := by
    rw [← hr]
    exact outer str _ 0 0 0 [] (by omega)
  rw [List.drop_eq_nil_of_le hend] at h3
  simpa [run] using h3
where
  outer (str : Bytes) (fuel : Nat) : ∀ (i : Nat) (a b : Int) (ps : Props), 2 * (str.length - i) + 1 ≤ fuel →
      str.length ≤ (loopGo str fuel i .none a b ps).1 + 1 := by
    induction fuel with
    | zero => intro i a b ps h; omega
    | succ f ih =>
      intro i a b ps hf
      unfold loopGo
      cases hget : str[i]? with
      | none =>
        simp only
        have hlen : str.length ≤ i := by
          rcases Nat.lt_or_ge i str.length with h | h
          · rw [List.getElem?_eq_getElem h] at hget; simp at hget
          · exact h
        omega
      | some c =>
        have hlt : i < str.length := by
          rcases Nat.lt_or_ge i str.length with h | h
          · exact h
          · rw [List.getElem?_eq_none h] at hget; simp at hget
        simp only
        split
        · have hk := loopGo_run str f (i + 1) (.key []) 0 0 ps trivial (by simp only [need, PS.status]; omega) (Or.inr (by omega))
          simp only [PS.status, PS.cur] at hk
          generalize loopGo str f (i + 1) Status.key 0 0 (ps ++ [⟨[], []⟩]) = r at hk
          obtain ⟨k1, k2, _⟩ := hk
          rcases k1 with k1 | k1
          · rw [k1]; exact ih (r.1 + 1) a b r.2.2 (by omega)
          · have := loopGo_run.loopGo_ge str f (r.1 + 1) r.2.1 a b r.2.2 (by omega)
            omega
        · exact ih (i + 1) a b ps (by omega)

end Verif
