import Verif.Theorems.WrittenTwice
import Verif.Theorems.GoTextSample
/-
C87: every cell that follows a text with nothing set in between loses its rectangle, its alignment and its edges.
-/
namespace Verif
open Spec

/-- the current content is one -/
def Gp.Current (g : Gp) : Prop := ∀ i, g.contentIdx = some i → ∃ st cs buf, g.slots[i]? = some ⟨.content st cs, buf⟩

theorem whole_current {g : Gp} (h : g.Whole) : g.Current := by
  intro i hi
  have hd := h.drawable
  rw [hi] at hd
  generalize hk : g.kinds = ks at hd
  cases hd with
  | @content ks l cs hc hl hv =>
    have : g.kinds[ks.length]? = some (.content cs) := by rw [hk]; simp
    unfold Gp.kinds at this
    rw [List.getElem?_map] at this
    obtain ⟨⟨o, buf⟩, e1, e2⟩ := Option.map_eq_some_iff.1 this
    cases o <;> simp [GObj.kind] at e2
    exact ⟨_, _, buf, e1⟩

theorem put_caches {g : Gp} (h : g.Current) (f : List GCache → List GCache) : (g.put f).caches = f g.caches := by
  unfold Gp.put Gp.getContent Gp.caches
  cases hc : g.contentIdx with
  | none => simp [Gp.addObj, GSlot.mapCaches]
  | some i =>
    obtain ⟨st, cs, buf, e⟩ := h i hc
    simp [hc, e, GSlot.mapCaches]

theorem put_current {g : Gp} (h : g.Current) (f : List GCache → List GCache) : (g.put f).Current := by
  intro i hi
  unfold Gp.put Gp.getContent at hi ⊢
  cases hc : g.contentIdx with
  | none =>
    simp only [hc, Option.some.injEq] at hi ⊢
    subst hi
    simp [Gp.addObj, GSlot.mapCaches]
  | some j =>
    simp only [hc, Option.some.injEq] at hi ⊢
    subst hi
    obtain ⟨st, cs, buf, e⟩ := h j hc
    simp [e, GSlot.mapCaches]

theorem put_congr {g : Gp} (h : g.Current) {f f' : List GCache → List GCache} (e : f g.caches = f' g.caches) : g.put f = g.put f' := by
  unfold Gp.caches at e
  unfold Gp.put Gp.getContent
  cases hc : g.contentIdx with
  | none =>
    rw [hc] at e
    simp only [Option.bind_none] at e
    simp only [Gp.addObj, Gp.mk.injEq, true_and, and_true]
    apply List.ext_getElem?
    intro k
    simp only [List.getElem?_modify]
    by_cases hk : g.slots.length = k
    · subst hk
      simp [GSlot.mapCaches, e]
    · simp [hk]
  | some i =>
    obtain ⟨st, cs, buf, hs⟩ := h i hc
    rw [hc] at e
    simp only [Option.bind_some, hs, Option.map_some] at e
    simp only [Gp.mk.injEq, true_and, and_true]
    apply List.ext_getElem?
    intro k
    simp only [List.getElem?_modify]
    by_cases hk : i = k
    · subst hk
      simp [hs, GSlot.mapCaches, e]
    · simp [hk]

/-- after a text that is the same, a cell is a text -/
theorem append_cell {fonts : List GFont} {cs : List GCache} {last new new' : GText} {text : Bytes} (hl : cs.getLast? = some (.text last)) (hs : last.same new = true)
    (hs' : last.same new' = true) (hx : new.x = new'.x) (hy : new.y = new'.y) : appendText fonts cs new text = appendText fonts cs new' text := by
  unfold appendText
  simp only [hl, hs, hs', if_true, hx, hy]

theorem write_cell {g : Gp} (h : g.Current) {last : GText} (hl : g.caches.getLast? = some (.text last)) (hs : ∀ i, last.same (g.newText i none) = true) (text : Bytes)
    (cell : Option GRect × GCellOpt) : g.write text (some cell) = g.write text none := by
  unfold Gp.write
  split
  · rfl
  · rename_i i _
    split
    · rfl
    · rename_i f _
      have key : ∀ q : Gp, q.Current → q.caches = g.caches → (∀ c, q.newText i c = g.newText i c) →
          appendText q.fonts q.caches (q.newText i (some cell)) text = appendText q.fonts q.caches (q.newText i none) text ∧
          q.put (fun cs => (appendText q.fonts cs (q.newText i (some cell)) text).1) = q.put (fun cs => (appendText q.fonts cs (q.newText i none) text).1) := by
        intro q hq hc hn
        have e := append_cell (fonts := q.fonts) (text := text) (new := q.newText i (some cell)) (new' := q.newText i none) (hc ▸ hl) (by rw [hn]; exact hs i) (by rw [hn]; exact hs i) rfl rfl
        exact ⟨e, put_congr hq (by simp only [e])⟩
      obtain ⟨e1, e2⟩ := key { g with fonts := g.fonts.modify i (fun _ => { f with chars := (addChars f.ttf f.chars text).1 }) } h rfl (fun _ => rfl)
      simp only at e1 e2 ⊢
      rw [e1, e2]

theorem create_fields (c : GText) (f : GFont) : (c.create f).1.rect = c.rect ∧ (c.create f).1.color = c.color ∧ (c.create f).1.gray = c.gray ∧ (c.create f).1.fontCount = c.fontCount ∧
    (c.create f).1.size = c.size ∧ (c.create f).1.style = c.style ∧ (c.create f).1.setX = c.setX ∧ (c.create f).1.y = c.y := by
  unfold GText.create
  simp only
  split <;> simp

theorem append_last {fonts : List GFont} {cs : List GCache} {new : GText} {text : Bytes} (hr : new.rect = none) : ∃ last, (appendText fonts cs new text).1.getLast? = some (.text last) ∧
    last.rect = none ∧ last.color = new.color ∧ last.gray = new.gray ∧ last.fontCount = new.fontCount ∧ last.size = new.size ∧ last.style = new.style ∧ last.setX = new.setX ∧ last.y = new.y := by
  have key : ∀ c : GText, (c.rect = none ∧ c.color = new.color ∧ c.gray = new.gray ∧ c.fontCount = new.fontCount ∧ c.size = new.size ∧ c.style = new.style ∧ c.setX = new.setX ∧ c.y = new.y) →
      ∀ last, last = (match fonts[c.font]? with
        | some f => { c with text := c.text ++ text }.create f
        | none => (c, Res.panic)).1 → last.rect = none ∧ last.color = new.color ∧ last.gray = new.gray ∧ last.fontCount = new.fontCount ∧ last.size = new.size ∧ last.style = new.style ∧
          last.setX = new.setX ∧ last.y = new.y := by
    rintro c hc last rfl
    split
    · rename_i f _
      obtain ⟨a1, a2, a3, a4, a5, a6, a7, a8⟩ := create_fields { c with text := c.text ++ text } f
      rw [a1, a2, a3, a4, a5, a6, a7, a8]
      exact hc
    · exact hc
  unfold appendText
  simp only [List.getLast?_append, List.getLast?_singleton, Option.some_or]
  refine ⟨_, rfl, ?_⟩
  refine key _ ?_ _ rfl
  split
  · rename_i last hm
    split at hm
    · rename_i l hl
      split at hm
      · rename_i hs
        cases hm
        simp only [GText.same, Bool.and_eq_true, decide_eq_true_eq, Option.isNone_iff_eq_none] at hs
        tauto
      · cases hm
    · cases hm
  · exact ⟨hr, rfl, rfl, rfl, rfl, rfl, rfl, rfl⟩

/-- **C87** (refuted for every cell after a text): in every session, a cell that is written directly after a text is a text: its rectangle, its alignment and its edges have no effect on
anything.  (`hy`: the text before has not moved the position down, which happens only if it was added to a cell that ends its line.) -/
theorem C87_refuted_cell_all {env : GEnv} {z : GRect} {prot : Option Protection} {cs : List GCall} {g g1 : Gp} {t : Bytes} (hr : GRun env (Gp.start z prot) cs g)
    (h : g.text t = ⟨g1, .ok ()⟩) (hy : g1.y = g.y) (rect : Option GRect) (text : Bytes) (opt : GCellOpt) : g1.cell rect text opt = g1.text text := by
  have hw := whole_current (run_whole hr (start_whole z prot).1)
  unfold Gp.text Gp.write at h
  split at h
  · cases h
  · rename_i i _
    split at h
    · cases h
    · rename_i f _
      simp only at h
      generalize (addChars f.ttf f.chars t).1 = m at h
      have hq : ({ g with fonts := g.fonts.modify i (fun _ => { f with chars := m }) } : Gp).Current := hw
      have hqf : ({ g with fonts := g.fonts.modify i (fun _ => { f with chars := m }) } : Gp).y = g.y := rfl
      generalize ({ g with fonts := g.fonts.modify i (fun _ => { f with chars := m }) } : Gp) = q at hq h hqf
      generalize (g.fonts.modify i (fun _ => { f with chars := m })) = F at h
      split at h
      · split at h
        · rename_i p hp
          cases h
          have hy' : p.2 = q.y := hy.trans hqf.symm
          obtain ⟨last, l1, l2, l3, l4, l5, l6, l7, l8, l9⟩ := append_last (fonts := F) (cs := q.caches) (new := q.newText i none) (text := t) rfl
          have e1 : (q.put (fun cs => (appendText F cs (q.newText i none) t).1)).caches = _ := put_caches hq _
          refine write_cell (g := { (q.put (fun cs => (appendText F cs (q.newText i none) t).1)) with x := p.1, y := p.2 }) (last := last) (put_current hq _) (e1.symm ▸ l1) (fun j => ?_) text (rect, opt)
          have hput : ∀ f, (q.put f).color = q.color ∧ (q.put f).grayFill = q.grayFill ∧ (q.put f).fontCount = q.fontCount ∧ (q.put f).fontSize = q.fontSize ∧
              (q.put f).fontStyle = q.fontStyle ∧ (q.put f).setXCount = q.setXCount := by
            intro f
            unfold Gp.put Gp.getContent
            cases q.contentIdx <;> simp [Gp.addObj]
          simp only [forall_and] at hput
          obtain ⟨b1, b2, b3, b4, b5, b6⟩ := hput
          simp only [GText.same, Gp.newText, l2, l3, l4, l5, l6, l7, l8, l9, b1, b2, b3, b4, b5, b6, hy', Option.isNone_none, decide_true, Bool.and_self]
        all_goals cases h
      all_goals cases h

theorem done_run {env : GEnv} {g g' : Gp} {cs : List GCall} (h : GDone env g cs g') : GRun env g cs g' := by
  induction h with
  | nil => exact .nil
  | cons h1 _ ih => exact .cons (by rw [h1]; simp) (by rw [h1]; simp) ih

set_option maxRecDepth 20000 in
/-- the text of `C87_refuted_cell` -/
example : ∃ g g1, GRun goEnv (Gp.start ⟨595, 842⟩ none) textBase g ∧ g.text b!"A" = ⟨g1, .ok ()⟩ ∧ g1.y = g.y := by
  have h1 : goDone goEnv (Gp.start ⟨595, 842⟩ none) textBase = true := by decide +kernel
  have h2 : (match ((goRun goEnv (Gp.start ⟨595, 842⟩ none) textBase).text b!"A").res with | .ok _ => true | _ => false) = true := by decide +kernel
  have h3 : ((goRun goEnv (Gp.start ⟨595, 842⟩ none) textBase).text b!"A").state.y = (goRun goEnv (Gp.start ⟨595, 842⟩ none) textBase).y := by decide +kernel
  rcases h4 : (goRun goEnv (Gp.start ⟨595, 842⟩ none) textBase).text b!"A" with ⟨g1, r⟩
  rw [h4] at h2 h3
  cases r <;> simp at h2
  exact ⟨_, g1, done_run (goDone_of h1), h4, h3⟩

end Verif
