import Verif.Crawl
import Verif.Inject
import Verif.Lemmas.Rewrite
import Verif.Lemmas.Stream
/-
White space in dictionaries: the normal form of a text that is put together from pieces, and reading back the text of a crawl result.
-/
namespace Verif

/-- the normal form of a text (after trimming) -/
def nf (s : Bytes) : Bytes := stripQ dropSp (collapseWs false s)

theorem collapseWs_append : ∀ (x y : Bytes) (b : Bool), collapseWs b (x ++ y) = collapseWs b x ++ collapseWs ((x.getLast?.map isWs).getD b) y
  | [], y, b => by simp [collapseWs]
  | c :: t, y, b => by
    have hl : ((c :: t).getLast?.map isWs).getD b = (t.getLast?.map isWs).getD (isWs c) := by
      cases t with
      | nil => simp
      | cons d u => rw [List.getLast?_cons_cons]; cases h : (d :: u).getLast? with
        | none => simp at h
        | some e => rfl
    rw [List.cons_append, collapseWs, collapseWs, hl]
    by_cases hc : isWs c = true
    · simp only [hc, if_true]
      split
      · exact collapseWs_append t y true
      · rw [collapseWs_append t y true]; rfl
    · have hc : isWs c = false := by simpa using hc
      simp only [hc, Bool.false_eq_true, if_false]
      rw [collapseWs_append t y false]; rfl

theorem collapseWs_ws : ∀ (w : Bytes), (∀ c ∈ w, isWs c = true) → collapseWs true w = []
  | [], _ => rfl
  | c :: t, h => by
    rw [collapseWs, if_pos (h c (by simp)), if_pos rfl]
    exact collapseWs_ws t (fun d hd => h d (by simp [hd]))

theorem collapseWs_ws' {w : Bytes} (h : ∀ c ∈ w, isWs c = true) (hne : w ≠ []) : collapseWs false w = [32] := by
  cases w with
  | nil => exact absurd rfl hne
  | cons c t =>
    rw [collapseWs, if_pos (h c (by simp)), if_neg (by simp), collapseWs_ws t (fun d hd => h d (by simp [hd]))]

theorem collapseWs_clean : ∀ (x : Bytes) (b : Bool), (∀ c ∈ x, isWs c = false) → collapseWs b x = x
  | [], _, _ => rfl
  | c :: t, b, h => by
    rw [collapseWs, if_neg (by simp [h c (by simp)]), collapseWs_clean t false (fun d hd => h d (by simp [hd]))]

/-- a text that may follow an entry: nothing, the next entry or the end of the dictionary -/
def Term (y : Bytes) : Prop := y = [] ∨ (∃ u, y = 47 :: u) ∨ ∃ u, y = 62 :: 62 :: u

theorem Term.collapse {y : Bytes} (h : Term y) (b : Bool) : collapseWs b y = collapseWs false y := by
  rcases h with rfl | ⟨u, rfl⟩ | ⟨u, rfl⟩
  · rfl
  · simp [collapseWs, isWs]
  · simp [collapseWs, isWs]

theorem Term.drop {y : Bytes} (h : Term y) (hne : y ≠ []) : dropSp (collapseWs false y) = true := by
  rcases h with rfl | ⟨u, rfl⟩ | ⟨u, rfl⟩
  · exact absurd rfl hne
  · simp [collapseWs, isWs, dropSp]
  · simp [collapseWs, isWs, dropSp]

/-- pieces without white space stay -/
theorem nf_clean {x : Bytes} (h : ∀ c ∈ x, isWs c = false) (y : Bytes) : nf (x ++ y) = x ++ nf y := by
  unfold nf
  rw [collapseWs_append, collapseWs_clean x false h]
  have hb : (x.getLast?.map isWs).getD false = false := by
    cases hl : x.getLast? with
    | none => rfl
    | some c => simp [h c (List.mem_of_getLast? hl)]
  rw [hb]
  apply stripQ_append_clean
  intro t ht
  have := h 32 (ht.subset (by simp))
  simp [isWs] at this

/-- white space before the next entry or the end of the dictionary is dropped -/
theorem nf_ws {w y : Bytes} (hw : ∀ c ∈ w, isWs c = true) (hy : Term y) (hne : y ≠ []) : nf (w ++ y) = nf y := by
  by_cases hw0 : w = []
  · rw [hw0]; rfl
  unfold nf
  rw [collapseWs_append, collapseWs_ws' hw hw0, hy.collapse]
  show stripQ dropSp (32 :: collapseWs false y) = _
  rw [stripQ, if_pos ⟨rfl, hy.drop hne⟩]

theorem dropSp_append_space {t y : Bytes} (ht : t ≠ []) : dropSp (t ++ 32 :: y) = dropSp t := by
  cases hd : dropSp t with
  | true => exact dropSp_append _ hd
  | false =>
    cases he : dropSp (t ++ 32 :: y) with
    | false => rfl
    | true =>
      exfalso
      rw [dropSp_iff] at he
      cases t with
      | nil => exact ht rfl
      | cons c w =>
        have fal : ∀ z, c :: w = z → dropSp z = true → False := by
          intro z e hz; rw [← e, hd] at hz; simp at hz
        obtain ⟨u, h | h | h | h | h⟩ := he
        · simp at h; exact fal (47 :: w) (by rw [h.1]) rfl
        · simp at h; exact fal (91 :: w) (by rw [h.1]) rfl
        · simp at h; exact fal (93 :: w) (by rw [h.1]) rfl
        · simp at h
          obtain ⟨e1, e2⟩ := h
          cases w with
          | nil => simp at e2
          | cons d w => simp at e2; exact fal (60 :: 60 :: w) (by rw [e1, e2.1]) rfl
        · simp at h
          obtain ⟨e1, e2⟩ := h
          cases w with
          | nil => simp at e2
          | cons d w => simp at e2; exact fal (62 :: 62 :: w) (by rw [e1, e2.1]) rfl

theorem stripQ_append_space {v y : Bytes} (hv : v.getLast? ≠ some 32) :
    stripQ dropSp (v ++ 32 :: y) = stripQ dropSp v ++ stripQ dropSp (32 :: y) := by
  induction v with
  | nil => simp [stripQ]
  | cons c t ih =>
    have ht : t.getLast? ≠ some 32 := by
      cases t with
      | nil => simp
      | cons d u => simpa [List.getLast?_cons_cons] using hv
    have e1 : stripQ dropSp (c :: (t ++ 32 :: y)) = if c = 32 ∧ dropSp (t ++ 32 :: y) = true then stripQ dropSp (t ++ 32 :: y) else c :: stripQ dropSp (t ++ 32 :: y) := rfl
    have e2 : stripQ dropSp (c :: t) = if c = 32 ∧ dropSp t = true then stripQ dropSp t else c :: stripQ dropSp t := rfl
    rw [List.cons_append, e1, e2, ih ht]
    by_cases hc : c = 32
    · subst hc
      have hne : t ≠ [] := by intro e; subst e; simp at hv
      rw [dropSp_append_space hne]
      split <;> rfl
    · rw [if_neg (fun h => hc h.1), if_neg (fun h => hc h.1)]; rfl

/-- a piece followed by white space and the next entry -/
theorem nf_before {v w y : Bytes} (hv : ∀ c, v.getLast? = some c → isWs c = false) (hw : ∀ c ∈ w, isWs c = true) (hw0 : w ≠ []) (hy : Term y) (hne : y ≠ []) :
    nf (v ++ (w ++ y)) = nf v ++ nf y := by
  have hl : (collapseWs false v).getLast? ≠ some 32 := by
    intro e
    cases hl : v.getLast? with
    | none =>
      rw [List.getLast?_eq_none_iff.1 hl] at e
      simp [collapseWs] at e
    | some c =>
      obtain ⟨u, rfl⟩ := List.getLast?_eq_some_iff.1 hl
      have hc := hv c hl
      rw [collapseWs_append] at e
      simp only [collapseWs, hc, Bool.false_eq_true, if_false, List.getLast?_concat, Option.some.injEq] at e
      subst e
      simp [isWs] at hc
  have hb : (v.getLast?.map isWs).getD false = false := by
    cases h : v.getLast? with
    | none => rfl
    | some c => simp [hv c h]
  unfold nf
  rw [collapseWs_append, hb, collapseWs_append, collapseWs_ws' hw hw0, hy.collapse]
  show stripQ dropSp (collapseWs false v ++ 32 :: collapseWs false y) = _
  rw [stripQ_append_space hl]
  congr 1
  rw [stripQ, if_pos ⟨rfl, hy.drop hne⟩]

/-- the value written as `v` is read as `n`, whatever white space and entry follow -/
def WritesVal (v n : Bytes) : Prop :=
  n ≠ [] ∧ ∀ w y, (∀ c ∈ w, isWs c = true) → w ≠ [] → Term y → y ≠ [] → nf (32 :: (v ++ (w ++ y))) = (if noSep n then [] else [32]) ++ n ++ nf y

theorem isWs_of_SS {v : Bytes} (h : SS v) (hl : v.getLast? ≠ some 32) : ∀ c, v.getLast? = some c → isWs c = false := by
  intro c hc
  apply isWs_false (h.1 c (List.mem_of_getLast? hc))
  intro e
  subst e
  exact hl hc

theorem SS.cons_space {v : Bytes} (h : SS v) (hh : v.head? ≠ some 32) : SS (32 :: v) := by
  have single : SS [32] := ⟨by simp, by rintro ⟨p, q, h⟩; have := congrArg List.length h; simp at this; omega⟩
  exact SS.append_no_space single h (fun _ => hh)

/-- values in normal form are written as they are -/
theorem writesVal_of_ok {l : Bool} {v : Bytes} (h : ValOk l v) (hne : v ≠ []) : WritesVal v v := by
  refine ⟨hne, fun w y hw hw0 hy hy0 => ?_⟩
  have hb := nf_before (v := 32 :: v) (w := w) (y := y) (by
    intro c hc
    have : v.getLast? = some c := by
      cases v with
      | nil => exact absurd rfl hne
      | cons d u => simpa [List.getLast?_cons_cons] using hc
    exact isWs_of_SS h.SS h.last_ne c this) hw hw0 hy hy0
  rw [List.cons_append] at hb
  rw [hb]
  congr 1
  unfold nf
  rw [(collapseWs_of_SS (h.SS.cons_space h.head.1)).1, stripQ, h.strip]
  have := dropSp_val (y := []) hne h.head (Or.inl rfl)
  rw [List.append_nil] at this
  rw [this]
  cases noSep v <;> simp

/-- how the items of a crawl result are read after writing -/
inductive Reads : Items → Props → Prop
  | nil : Reads .nil []
  | empty {k v : Bytes} {r : Items} {ps : Props} : KeyOk k → trimSpace v = [] → Reads r ps → Reads (.str k v r) (⟨k, []⟩ :: ps)
  | str {k v n : Bytes} {r : Items} {ps : Props} : KeyOk k → trimSpace v ≠ [] → WritesVal v n → Reads r ps → Reads (.str k v r) (⟨k, n⟩ :: ps)
  | sub {k : Bytes} {s r : Items} {qs ps : Props} : KeyOk k → Reads s qs → Reads r ps → Reads (.sub k s r) (⟨k, b!"<<" ++ compact qs ++ b!">>"⟩ :: ps)
  | void {k : Bytes} {r : Items} {ps : Props} : KeyOk k → Reads r ps → Reads (.void k r) (⟨k, []⟩ :: ps)

theorem Items.string_term (it : Items) {y : Bytes} (hy : Term y) : Term (it.string ++ y) := by
  cases it with
  | nil => exact hy
  | str k v r => exact Or.inr (Or.inl ⟨_, rfl⟩)
  | sub k s r => exact Or.inr (Or.inl ⟨_, rfl⟩)
  | void k r => exact Or.inr (Or.inl ⟨_, rfl⟩)

theorem KeyOk.noWs {k : Bytes} (h : KeyOk k) : ∀ c ∈ (47 :: k : Bytes), isWs c = false := by
  intro c hc
  rcases List.mem_cons.1 hc with rfl | hc
  · rfl
  · obtain ⟨_, h1, _, _, _, h2, h3, h4⟩ := h c hc
    exact isWs_false ⟨h2, h3, h4⟩ h1

theorem nf_items {it : Items} {ps : Props} (h : Reads it ps) : ∀ {y : Bytes}, Term y → y ≠ [] → nf (it.string ++ y) = compact ps ++ nf y := by
  induction h with
  | nil => intro y _ _; rfl
  | @empty k v r ps hk hv _ ih =>
    intro y hy hne
    have e : (Items.str k v r).string ++ y = (47 :: k) ++ ([32] ++ (r.string ++ y)) := by
      simp [Items.string, hv]
    rw [e, nf_clean hk.noWs, nf_ws (by simp [isWs]) (r.string_term hy) (by simp [hne]), ih hy hne]
    simp [compact, compact1, noSep]
  | @str k v n r ps hk hv hw _ ih =>
    intro y hy hne
    have e : (Items.str k v r).string ++ y = (47 :: k) ++ (32 :: (v ++ ([10] ++ (r.string ++ y)))) := by
      simp [Items.string, hv]
    rw [e, nf_clean hk.noWs, hw.2 [10] _ (by simp [isWs]) (by simp) (r.string_term hy) (by simp [hne]), ih hy hne]
    simp [compact, compact1]
  | @sub k s r qs ps hk _ _ ih1 ih2 =>
    intro y hy hne
    have e : (Items.sub k s r).string ++ y = (47 :: k) ++ ([32, 10, 9] ++ (b!"<<" ++ (s.string ++ (b!">>" ++ ([10] ++ (r.string ++ y)))))) := by
      simp [Items.string]
    have hlt : nf ([32, 10, 9] ++ (b!"<<" ++ (s.string ++ (b!">>" ++ ([10] ++ (r.string ++ y)))))) = nf (b!"<<" ++ (s.string ++ (b!">>" ++ ([10] ++ (r.string ++ y))))) := by
      unfold nf
      simp only [List.cons_append, List.nil_append, collapseWs, isWs]
      simp [stripQ, dropSp]
    rw [e, nf_clean hk.noWs, hlt, nf_clean (by decide), ih1 (y := b!">>" ++ ([10] ++ (r.string ++ y))) (Or.inr (Or.inr ⟨_, rfl⟩)) (by simp), nf_clean (by decide),
      nf_ws (by simp [isWs]) (r.string_term hy) (by simp [hne]), ih2 hy hne]
    simp [compact, compact1, noSep]
  | @void k r ps hk _ ih =>
    intro y hy hne
    have e : (Items.void k r).string ++ y = (47 :: k) ++ ([32] ++ (r.string ++ y)) := by simp [Items.string]
    rw [e, nf_clean hk.noWs, nf_ws (by simp [isWs]) (r.string_term hy) (by simp [hne]), ih hy hne]
    simp [compact, compact1, noSep]

/-- every non-empty text of items is `core` and white space -/
theorem Items.string_core : ∀ (it : Items), it ≠ .nil → ∃ u w, it.string = 47 :: u ++ w ∧ (∀ c ∈ w, isWs c = true) ∧ w ≠ [] ∧ ∀ c, (47 :: u).getLast? = some c → isWs c = false := by
  have split : ∀ (s : Bytes), ∃ a w, s = a ++ w ∧ (∀ c ∈ w, isWs c = true) ∧ ∀ c, a.getLast? = some c → isWs c = false := by
    intro s
    induction s using List.reverseRecOn with
    | nil => exact ⟨[], [], rfl, by simp, by simp⟩
    | append_singleton t c ih =>
      by_cases hc : isWs c = true
      · obtain ⟨a, w, h1, h2, h3⟩ := ih
        refine ⟨a, w ++ [c], by rw [h1]; simp, ?_, h3⟩
        intro d hd
        rcases List.mem_append.1 hd with hd | hd
        · exact h2 d hd
        · simp at hd; rw [hd]; exact hc
      · refine ⟨t ++ [c], [], by simp, by simp, ?_⟩
        intro d hd
        simp at hd
        rw [← hd]; simpa using hc
  have last : ∀ (it : Items), it ≠ .nil → ∃ c, it.string.getLast? = some c ∧ isWs c = true := by
    intro it
    induction it with
    | nil => intro h; exact absurd rfl h
    | str k v r ih =>
      intro _
      by_cases hr : r = .nil
      · subst hr
        by_cases hv : trimSpace v = []
        · exact ⟨32, List.getLast?_eq_some_iff.2 ⟨47 :: k, by simp [Items.string, hv]⟩, rfl⟩
        · exact ⟨10, List.getLast?_eq_some_iff.2 ⟨47 :: (k ++ 32 :: v), by simp [Items.string, hv]⟩, rfl⟩
      · obtain ⟨c, hc, hw⟩ := ih hr
        exact ⟨c, by rw [Items.string, List.getLast?_append, hc]; rfl, hw⟩
    | sub k s r _ ih =>
      intro _
      by_cases hr : r = .nil
      · subst hr
        exact ⟨10, List.getLast?_eq_some_iff.2 ⟨47 :: (k ++ 32 :: 10 :: 9 :: 60 :: 60 :: (s.string ++ [62, 62])), by simp [Items.string]⟩, rfl⟩
      · obtain ⟨c, hc, hw⟩ := ih hr
        exact ⟨c, by rw [Items.string, List.getLast?_append, hc]; rfl, hw⟩
    | void k r ih =>
      intro _
      by_cases hr : r = .nil
      · subst hr
        exact ⟨32, List.getLast?_eq_some_iff.2 ⟨47 :: k, by simp [Items.string]⟩, rfl⟩
      · obtain ⟨c, hc, hw⟩ := ih hr
        exact ⟨c, by rw [Items.string, List.getLast?_append, hc]; rfl, hw⟩
  intro it hne
  obtain ⟨a, w, h1, h2, h3⟩ := split it.string
  obtain ⟨c, hc, hcw⟩ := last it hne
  have hw : w ≠ [] := by
    rintro rfl
    rw [List.append_nil] at h1
    rw [← h1] at h3
    rw [h3 c hc] at hcw
    simp at hcw
  have h47 : ∃ s, it.string = 47 :: s := by
    cases it with
    | nil => exact absurd rfl hne
    | str k v r => exact ⟨_, rfl⟩
    | sub k s r => exact ⟨_, rfl⟩
    | void k r => exact ⟨_, rfl⟩
  obtain ⟨s, hs⟩ := h47
  cases a with
  | nil =>
    exfalso
    rw [hs] at h1
    have := h2 47 (by rw [← List.nil_append w, ← h1]; simp)
    simp [isWs] at this
  | cons x u =>
    have hx : x = 47 := by
      rw [hs] at h1
      simp at h1
      exact h1.1.symm
    subst hx
    exact ⟨u, w, h1, h2, hw, h3⟩

theorem nf_getLast {v : Bytes} {c : UInt8} (h : v.getLast? = some c) (hc : isWs c = false) : (nf v).getLast? = some c := by
  obtain ⟨u, rfl⟩ := List.getLast?_eq_some_iff.1 h
  unfold nf
  apply stripQ_getLast?
  · rw [collapseWs_append]
    simp [collapseWs, hc]
  · rintro rfl
    simp [isWs] at hc

theorem compact_getLast {p : PropD} : ∀ {ps : Props}, ps.getLast? = some p → (compact ps).getLast? = (compact1 p).getLast?
  | [], h => by simp at h
  | [q], h => by simp at h; subst h; simp [compact]
  | q :: r :: t, h => by
    rw [List.getLast?_cons_cons] at h
    have := compact_getLast h
    have hne : compact (r :: t) ≠ [] := by simp [compact, compact1]
    rw [← this]
    show (compact1 q ++ compact (r :: t)).getLast? = _
    exact getLast?_append_of hne

theorem compact_end {ps : Props} (h : Canon ps) (hne : ps ≠ []) : ∃ c, (compact ps).getLast? = some c ∧ c < 128 ∧ isSp c = false := by
  obtain ⟨p, hp⟩ : ∃ p, ps.getLast? = some p := by
    cases hl : ps.getLast? with
    | none => exact absurd (List.getLast?_eq_none_iff.1 hl) hne
    | some p => exact ⟨p, rfl⟩
  rw [compact_getLast hp]
  have hl := h.last p hp
  obtain ⟨hk, hv⟩ := h.all p (List.mem_of_getLast? hp)
  have e : (compact1 p).getLast? = (47 :: (p.key ++ p.rawVal)).getLast? := by
    by_cases hv0 : p.rawVal = []
    · simp [compact1, hv0, noSep]
    · rw [compact1, show (47 :: (p.key ++ ((if noSep p.rawVal then [] else [32]) ++ p.rawVal)) : Bytes) = (47 :: (p.key ++ (if noSep p.rawVal then [] else [32]))) ++ p.rawVal by simp,
        show (47 :: (p.key ++ p.rawVal) : Bytes) = (47 :: p.key) ++ p.rawVal by simp, getLast?_append_of hv0, getLast?_append_of hv0]
  rw [e]
  cases hx : (47 :: (p.key ++ p.rawVal)).getLast? with
  | none => simp at hx
  | some c =>
    refine ⟨c, rfl, ?_, hl c hx⟩
    rcases List.mem_cons.1 (List.mem_of_getLast? hx) with rfl | hm
    · decide
    · rcases List.mem_append.1 hm with hm | hm
      · exact (hk c hm).1
      · exact hv.ascii c hm

theorem normalize_items {it : Items} {ps : Props} (h : Reads it ps) (hc : Canon ps) : normalizeProps (10 :: it.string) = compact ps := by
  rw [normalizeProps_eq]
  by_cases hne : it = .nil
  · subst hne
    cases h
    rfl
  · have hps : ps ≠ [] := by
      cases h with
      | nil => exact absurd rfl hne
      | empty => simp
      | str => simp
      | sub => simp
      | void => simp
    obtain ⟨u, w, h1, h2, h3, h4⟩ := it.string_core hne
    have hn := nf_items h (y := b!">>") (Or.inr (Or.inr ⟨_, rfl⟩)) (by simp)
    rw [h1, List.append_assoc, nf_before h4 h2 h3 (Or.inr (Or.inr ⟨_, rfl⟩)) (by simp)] at hn
    have hn := List.append_cancel_right hn
    obtain ⟨c, hc1, hc2, hc3⟩ := compact_end hc hps
    obtain ⟨e, he⟩ : ∃ e, (47 :: u).getLast? = some e := by
      cases hl : (47 :: u).getLast? with
      | none => simp at hl
      | some e => exact ⟨e, rfl⟩
    have hl := nf_getLast he (h4 e he)
    rw [hn, hc1] at hl
    have hce : e = c := by simpa using hl.symm
    subst hce
    have ht : trimSpace (10 :: it.string) = 47 :: u := by
      have := trimSpace_ends (a := [10]) (b := w) (x := 47 :: u) (c := 47) (e := e) (by decide) (by
        intro d hd
        have := h2 d hd
        simp only [isWs, Bool.or_eq_true, decide_eq_true_eq] at this
        rcases this with ((h | h) | h) | h <;> subst h <;> rfl) rfl he (by decide) (by decide) hc2 hc3
      rw [h1]
      simpa using this
    rw [ht]
    exact hn

/-- Reading `<<`, a text, `>>` and white space. -/
theorem readProperties_brackets {x w : Bytes} (hs : ¬ streamKw <:+: b!"<<" ++ x ++ b!">>" ++ w) (hw : ∀ c ∈ w, c ≠ 62) :
    readProperties (b!"<<" ++ x ++ b!">>" ++ w) = .ok (parseProps (normalizeProps x)) := by
  have h1 : index streamKw (b!"<<" ++ x ++ b!">>" ++ w) = none := (index_none_iff (by simp [streamKw])).2 hs
  have h2 : index b!"<<" (b!"<<" ++ x ++ b!">>" ++ w) = some 0 := by
    apply index_eq (Nat.zero_le _)
    · exact ⟨x ++ b!">>" ++ w, by simp⟩
    · intro j hj; omega
  have h3 : lastIndex b!">>" (b!"<<" ++ x ++ b!">>" ++ w) = some (b!"<<" ++ x).length := by
    have := lastIndex_append_exact (pat := [62, 62]) (t := w) (s := b!"<<" ++ x) (by simp) (by
      intro j hj hj2 hp
      obtain ⟨t, ht⟩ := hp
      cases j with
      | zero => omega
      | succ j =>
        cases j with
        | zero =>
          simp at ht
          have := hw 62 (by rw [← ht]; simp)
          exact this rfl
        | succ j =>
          simp at ht
          have : (62 : UInt8) ∈ w := List.mem_of_mem_drop (by rw [← ht]; simp)
          exact hw 62 this rfl)
    rw [← this, List.append_assoc]
  unfold readProperties beforeStream
  rw [h1]
  simp only
  rw [h2, h3]
  simp only
  rw [if_neg (by omega)]
  congr 3
  rw [show b!"<<" ++ x ++ b!">>" ++ w = (b!"<<" ++ x) ++ (b!">>" ++ w) by simp, List.take_left, show (0 + 2) = (b!"<<" : Bytes).length from rfl, List.drop_left]

/-- Reading back a rewritten object. -/
theorem readProperties_items {it : Items} {ps : Props} (h : Reads it ps) (hc : Canon ps) (hs : ¬ streamKw <:+: it.string) : readProperties (wrapDict it.string) = .ok ps := by
  have e : wrapDict it.string = b!"<<" ++ (10 :: it.string) ++ b!">>" ++ [10] := by simp [wrapDict]
  rw [e, readProperties_brackets ?_ (by decide), normalize_items h hc, parseProps_eq_run, run_compact hc]
  intro h
  have e2 : b!"<<" ++ (10 :: it.string) ++ b!">>" ++ [10] = 60 :: 60 :: 10 :: (it.string ++ 62 :: 62 :: [10]) := by simp
  rw [e2] at h
  have h := infix_cons_of_not_mem (by decide) (infix_cons_of_not_mem (by decide) (infix_cons_of_not_mem (by decide) h))
  rcases infix_split (by decide) h with h | h
  · exact hs h
  · exact absurd h (by decide)

end Verif
