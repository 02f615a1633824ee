import Verif.Spec.Paint
import Verif.Theorems.Content
import Verif.Theorems.Font
/-!
# What a viewer paints for the inserted contents (C70)
-/
namespace Verif
open Spec

theorem lexer_append (m : Mode) (s t : Bytes) : lexer m (s ++ t) = ((lexer m s).1 ++ (lexer (lexer m s).2 t).1, (lexer (lexer m s).2 t).2) := by
  induction s generalizing m with
  | nil => simp [lexer]
  | cons c s ih => simp only [List.cons_append, lexer, ih, List.append_assoc]

theorem run_append (adv : TextMove) (p : Painter) (s t : List Lexeme) :
    p.run adv (s ++ t) = ((p.run adv s).1 ++ ((p.run adv s).2.run adv t).1, ((p.run adv s).2.run adv t).2) := by
  induction s generalizing p with
  | nil => simp [Painter.run]
  | cons k s ih => cases k <;> simp only [List.cons_append, Painter.run, ih, List.append_assoc]

theorem Paints.append {adv : TextMove} {p p' p'' : Painter} {s t : Bytes} {ms ns : List Mark} (h : Paints adv p s ms p') (h' : Paints adv p' t ns p'') :
    Paints adv p (s ++ t) (ms ++ ns) p'' := by
  obtain ⟨ts, h1, h2⟩ := h
  obtain ⟨us, h3, h4⟩ := h'
  exact ⟨ts ++ us, by rw [lexer_append, h1, h3], by rw [run_append, h2, h4]⟩

theorem lexes_append {s t : Bytes} {ts us : List Lexeme} (h : lexer .ground s = (ts, .ground)) (h' : lexer .ground t = (us, .ground)) :
    lexer .ground (s ++ t) = (ts ++ us, .ground) := by
  rw [lexer_append, h, h']

theorem lexer_word (w cur : Bytes) (h : ∀ c ∈ w, regular c = true) : lexer (.word cur) w = ([], .word (cur ++ w)) := by
  induction w generalizing cur with
  | nil => simp [lexer]
  | cons c w ih =>
    simp only [lexer, lexStep, h c (by simp), if_true]
    rw [ih _ (fun x hx => h x (by simp [hx]))]
    simp

/-- a word followed by white space -/
theorem lexes_word {c : UInt8} {w : Bytes} {e : UInt8} (hc : regular c = true ∨ c = 47) (h : ∀ c ∈ w, regular c = true) (he : white e = true) :
    lexer .ground (c :: w ++ [e]) = ([wordTok (c :: w)], .ground) := by
  have h1 : lexStart c = ([], .word [c]) := by
    rcases hc with hc | rfl
    · simp only [regular, white, delim, Bool.and_eq_true, Bool.not_eq_true', Bool.or_eq_false_iff, decide_eq_false_iff_not] at hc
      unfold lexStart
      simp only [white]
      simp [hc]
    · rfl
  have h2 : lexStart e = ([], .ground) := by unfold lexStart; rw [if_pos he]
  have h3 : regular e = false := by simp [regular, he]
  rw [lexer_append]
  simp only [lexer, lexStep, h1, List.nil_append]
  rw [lexer_word _ _ h]
  simp [h3, h2]

theorem digit_lexed {c : UInt8} (h : isDigit c = true) : regular c = true := by
  rw [isDigit_iff] at h
  simp only [regular, white, delim, Bool.and_eq_true, Bool.not_eq_true', Bool.or_eq_false_iff, decide_eq_false_iff_not]
  have key : ∀ d : UInt8, (d.toNat < 48 ∨ 57 < d.toNat) → ¬ c = d := by
    intro d hd e; subst e; omega
  refine ⟨⟨⟨⟨⟨⟨?_, ?_⟩, ?_⟩, ?_⟩, ?_⟩, ?_⟩, ⟨⟨⟨⟨⟨⟨?_, ?_⟩, ?_⟩, ?_⟩, ?_⟩, ?_⟩, ?_⟩, ?_⟩ <;> exact key _ (by decide)

theorem wordTok_of {s : Bytes} {q : ℚ} (h : s.head? ≠ some 47) (hq : readNum s = some q) : wordTok s = .num q := by
  unfold wordTok
  split
  · simp at h
  · rw [hq]

theorem fmt2_bytes (q : ℚ) : (∀ c ∈ fmt2 q, regular c = true) ∧ fmt2 q ≠ [] ∧ (fmt2 q).head? ≠ some 47 := by
  have hd : ∀ n, n < 10 → regular (digit n) = true := fun n hn => digit_lexed (isDigit_digit hn)
  have hn : ∀ c ∈ natDigits (roundCents q / 100), regular c = true := fun c hc => digit_lexed (natDigits_isDigit _ c hc)
  have hall : ∀ c ∈ fmt2 q, regular c = true := by
    intro c hc
    unfold fmt2 at hc
    simp only [List.mem_append, List.mem_cons, List.not_mem_nil, or_false] at hc
    rcases hc with ((hc | hc) | hc) | hc | hc
    · split at hc
      · simp only [List.mem_cons, List.not_mem_nil, or_false] at hc
        subst hc; decide
      · simp at hc
    · exact hn c hc
    · subst hc; decide
    · subst hc; exact hd _ (by omega)
    · subst hc; exact hd _ (by omega)
  refine ⟨hall, by unfold fmt2; simp, ?_⟩
  intro h
  have := hall 47 (List.mem_of_mem_head? h)
  exact absurd this (by decide)

/-- a printed number followed by white space -/
theorem lexes_fmt2' (q : ℚ) {e : UInt8} (he : white e = true) : ∃ v, |v - q| ≤ 1 / 200 ∧ lexer .ground (fmt2 q ++ [e]) = ([.num v], .ground) ∧ readNum (fmt2 q) = some v := by
  obtain ⟨v, hv, hq⟩ := C59_numbers_accurate q
  obtain ⟨h1, h2, h3⟩ := fmt2_bytes q
  have hr : readNum (fmt2 q) = some v := by unfold readNum; rw [hv]
  refine ⟨v, hq, ?_, hr⟩
  have ht : wordTok (fmt2 q) = .num v := wordTok_of h3 hr
  generalize fmt2 q = s at *
  cases s with
  | nil => exact absurd rfl h2
  | cons c w => rw [lexes_word (Or.inl (h1 c (by simp))) (fun x hx => h1 x (by simp [hx])) he, ht]

theorem lexes_fmt2 (q : ℚ) {e : UInt8} (he : white e = true) : ∃ v, |v - q| ≤ 1 / 200 ∧ lexer .ground (fmt2 q ++ [e]) = ([.num v], .ground) := by
  obtain ⟨v, h1, h2, _⟩ := lexes_fmt2' q he
  exact ⟨v, h1, h2⟩

theorem itoa_lexed (n : Int) : ∀ c ∈ itoa n, regular c = true := by
  intro c hc
  rcases itoa_bytes n c hc with h | rfl
  · exact digit_lexed h
  · decide

theorem readUDec_none {s : Bytes} (h : (46 : UInt8) ∉ s) : readUDec s = none := by
  have : s.dropWhile (· ≠ 46) = [] := by
    induction s with
    | nil => rfl
    | cons c s ih =>
      have hc : c ≠ 46 := fun e => h (by simp [e])
      simp only [List.dropWhile_cons, ne_eq, hc, not_false_eq_true, decide_true, if_true]
      exact ih (fun hm => h (by simp [hm]))
  unfold readUDec
  simp only [this]

theorem readNum_itoa (n : Int) : readNum (itoa n) = some (n : ℚ) := by
  have hdot : (46 : UInt8) ∉ itoa n := by
    intro h
    rcases itoa_bytes n _ h with h | h <;> exact absurd h (by decide)
  have h1 : readDec (itoa n) = none := by
    unfold readDec
    split
    · rename_i s hs
      rw [readUDec_none (by intro h; apply hdot; rw [hs]; simp [h])]; rfl
    · exact readUDec_none hdot
  unfold readNum
  rw [h1]
  cases n with
  | ofNat k =>
    have hk : itoa (Int.ofNat k) = natDigits k := rfl
    rw [hk]
    simp only
    split
    · rename_i t ht
      have := natDigits_isDigit k 45 (by rw [ht]; simp)
      exact absurd this (by decide)
    · rw [parseNat_natDigits]; simp
  | negSucc k =>
    have hk : itoa (Int.negSucc k) = 45 :: natDigits (k + 1) := rfl
    rw [hk]
    simp only [parseNat_natDigits, Option.map_some, Int.cast_negSucc]

/-- a whole number followed by white space -/
theorem lexes_itoa (n : Int) {e : UInt8} (he : white e = true) : lexer .ground (itoa n ++ [e]) = ([.num n], .ground) := by
  have h1 := itoa_lexed n
  have h2 := itoa_ne_nil n
  have h3 := readNum_itoa n
  generalize itoa n = s at *
  cases s with
  | nil => exact absurd rfl h2
  | cons c w =>
    rw [lexes_word (Or.inl (h1 c (by simp))) (fun x hx => h1 x (by simp [hx])) he, wordTok_of _ h3]
    intro h
    have := h1 47 (List.mem_of_mem_head? h)
    exact absurd this (by decide)

/-- a name followed by white space -/
theorem lexes_name {n : Bytes} (h : ∀ c ∈ n, regular c = true) {e : UInt8} (he : white e = true) : lexer .ground (b!"/" ++ n ++ [e]) = ([.name n], .ground) :=
  lexes_word (Or.inr rfl) h he

/-- C70, images: the painter draws the image into the rectangle asked for -/
theorem C70_image (adv : TextMove) (p : Painter) (hp : p.args = []) (c : ImgContent) {xObjChar : Bytes} (xObjIndex : Int) (hx : ∀ c ∈ xObjChar, regular c = true) :
    ∃ w h x y, |w - c.w| ≤ 1 / 200 ∧ |h - c.h| ≤ 1 / 200 ∧ |x - c.x| ≤ 1 / 200 ∧ |y - (c.pageHeight - (c.y + c.h))| ≤ 1 / 200 ∧
      Paints adv p (c.stream xObjChar xObjIndex) [.external (xObjChar ++ itoa xObjIndex) { p.g with ctm := (Mat.mk w 0 0 h x y).mul p.g.ctm }] p := by
  obtain ⟨w, hw, l1⟩ := lexes_fmt2 c.w (e := 32) rfl
  obtain ⟨h, hh, l2⟩ := lexes_fmt2 c.h (e := 32) rfl
  obtain ⟨x, hx', l3⟩ := lexes_fmt2 c.x (e := 32) rfl
  obtain ⟨y, hy, l4⟩ := lexes_fmt2 (c.pageHeight - (c.y + c.h)) (e := 32) rfl
  have l5 := lexes_name (n := xObjChar ++ itoa xObjIndex) (by
    intro d hd
    rcases List.mem_append.1 hd with hd | hd
    · exact hx d hd
    · exact itoa_lexed _ d hd) (e := 32) rfl
  refine ⟨w, h, x, y, hw, hh, hx', hy,
    [.op b!"q", .num w, .num 0, .num 0, .num h, .num x, .num y, .op b!"cm", .name (xObjChar ++ itoa xObjIndex), .op b!"Do", .op b!"Q"], ?_, ?_⟩
  · have e : c.stream xObjChar xObjIndex = b!"q " ++ (fmt2 c.w ++ [32]) ++ b!"0 0 " ++ (fmt2 c.h ++ [32]) ++ (fmt2 c.x ++ [32]) ++
        (fmt2 (c.pageHeight - (c.y + c.h)) ++ [32]) ++ b!"cm " ++ (b!"/" ++ (xObjChar ++ itoa xObjIndex) ++ [32]) ++ b!"Do Q\n" := by
      simp [ImgContent.stream]
    rw [e]
    have z1 : lexer .ground b!"q " = ([.op b!"q"], .ground) := by decide +kernel
    have z2 : lexer .ground b!"0 0 " = ([.num 0, .num 0], .ground) := by decide +kernel
    have z3 : lexer .ground b!"cm " = ([.op b!"cm"], .ground) := by decide +kernel
    have z4 : lexer .ground b!"Do Q\n" = ([.op b!"Do", .op b!"Q"], .ground) := by decide +kernel
    exact lexes_append (lexes_append (lexes_append (lexes_append (lexes_append (lexes_append (lexes_append (lexes_append z1 l1) z2) l2) l3) l4) z3) l5) z4
  · obtain ⟨g, saved, args, tm, tlm, path, clipping⟩ := p
    subst hp
    rfl

/-! ### texts -/

theorem hexDigit_regular {n : Nat} (h : n < 16) : regular (hexDigit n) = true := by
  have : ∀ n : Fin 16, regular (hexDigit n.val) = true := by decide
  exact this ⟨n, h⟩

theorem hexAux_regular (fuel n : Nat) : ∀ c ∈ hexAux fuel n, regular c = true := by
  induction fuel generalizing n with
  | zero => simp [hexAux]
  | succ k ih =>
    intro c hc
    rw [hexAux] at hc
    split at hc
    · simp only [List.mem_cons, List.not_mem_nil, or_false] at hc
      subst hc; exact hexDigit_regular (by assumption)
    · rcases List.mem_append.1 hc with hc | hc
      · exact ih _ c hc
      · simp only [List.mem_cons, List.not_mem_nil, or_false] at hc
        subst hc; exact hexDigit_regular (Nat.mod_lt _ (by decide))

theorem hex4_regular (n : Nat) : ∀ c ∈ hex4 n, regular c = true := by
  intro c hc
  rw [hex4, List.mem_append] at hc
  rcases hc with hc | hc
  · rw [List.mem_replicate] at hc; obtain ⟨_, rfl⟩ := hc; decide
  · exact hexAux_regular _ _ c hc

/-- in a hexadecimal string of which `cur` was read -/
def openHex (cur : Bytes) : Mode := if cur = [] then .lt else .hex cur

theorem regular_plain {c : UInt8} (h : regular c = true) : white c = false ∧ c ≠ 60 ∧ c ≠ 62 := by
  simp only [regular, delim, Bool.and_eq_true, Bool.not_eq_true', Bool.or_eq_false_iff, decide_eq_false_iff_not] at h
  simp [h]

theorem lexer_hex (s cur : Bytes) (h : ∀ c ∈ s, regular c = true) : lexer (openHex cur) s = ([], openHex (cur ++ s)) := by
  induction s generalizing cur with
  | nil => simp [lexer]
  | cons c s ih =>
    obtain ⟨h1, h2, h3⟩ := regular_plain (h c (by simp))
    have hs : lexStep (openHex cur) c = ([], openHex (cur ++ [c])) := by
      unfold openHex
      by_cases hc : cur = []
      · subst hc
        simp [lexStep, h1, h2, h3]
      · simp [hc, lexStep, h1, h3]
    rw [lexer, hs, ih _ (fun x hx => h x (by simp [hx]))]
    simp

theorem lexer_close (cur s : Bytes) : lexer (openHex cur) (62 :: s) = (.hex cur :: (lexer .ground s).1, (lexer .ground s).2) := by
  unfold openHex
  by_cases hc : cur = []
  · subst hc; rfl
  · simp only [hc, if_false]; rfl

/-- a text being written: `out` was written, the painter was `p0` before it, `hs` was shown or is going to be, and the text rise is `rise` -/
structure Drawing (adv : TextMove) (p0 : Painter) (x y : ℚ) (rise : Option (Bytes × List Lexeme)) (out : Bytes) (hs : List Item) : Prop where
  ex : ∃ ts ms p1 toks cur, lexer .ground out = (ts, openHex cur) ∧ p0.run adv ts = (ms, p1) ∧ p1.args = .open :: toks ∧
    (items ms ++ itemsOf rise toks ++ cur.map (Item.digit · rise) = hs ∧ p1.g.param b!"Ts" = rise) ∧ p0.g.But [b!"Ts"] p1.g ∧ p1.saved = p0.saved ∧ p1.path = p0.path ∧ p1.clipping = p0.clipping ∧
    (∃ dx, p1.tm = .shift (x + dx) y) ∧ (ms = [] → p1.tm = .shift x y) ∧ (ms ≠ [] → OnLine [b!"Ts"] p0.g x y ms)

theorem itemsOf_append (rise : Option (Bytes × List Lexeme)) (a b : List Lexeme) : itemsOf rise (a ++ b) = itemsOf rise a ++ itemsOf rise b := by simp [itemsOf]
theorem items_append (a b : List Mark) : items (a ++ b) = items a ++ items b := by simp [items]

theorem But.refl (ks : List Bytes) (g : GState) : g.But ks g := ⟨rfl, rfl, fun _ _ => rfl⟩
theorem But.trans {ks : List Bytes} {g h i : GState} (h1 : g.But ks h) (h2 : h.But ks i) : g.But ks i :=
  ⟨h2.1.trans h1.1, h2.2.1.trans h1.2.1, fun k hk => (h2.2.2 k hk).trans (h1.2.2 k hk)⟩
theorem But.set (ks : List Bytes) (g : GState) {p : Bytes} (hp : p ∈ ks) (op : Bytes) (args : List Lexeme) : g.But ks (g.set p op args) :=
  ⟨rfl, rfl, fun k hk => by
    have : k ≠ p := fun e => hk (by rw [e]; exact hp)
    simp only [GState.set, if_neg this]⟩

theorem shift_mul (a b x y : ℚ) : (Mat.shift a b).mul (Mat.shift x y) = Mat.shift (x + a) (y + b) := by
  simp only [Mat.shift, Mat.mul, Mat.mk.injEq]
  refine ⟨by ring, by ring, by ring, by ring, by ring, by ring⟩

theorem Drawing.start (adv : TextMove) (p0 : Painter) (x y : ℚ) (ha : p0.args = []) (ht : p0.tm = .shift x y) : Drawing adv p0 x y (p0.g.param b!"Ts") b!"[<" [] := by
  refine ⟨[.open], [], { p0 with args := [.open] }, [], [], by decide +kernel, ?_, rfl, ⟨rfl, rfl⟩, But.refl _ _, rfl, rfl, rfl, ⟨0, ?_⟩, fun _ => ht, fun h => absurd rfl h⟩
  · simp [Painter.run, ha]
  · rw [ht, add_zero]

theorem Drawing.hex {adv : TextMove} {p0 : Painter} {x y : ℚ} {rise : Option (Bytes × List Lexeme)} {out : Bytes} {hs : List Item} (h : Drawing adv p0 x y rise out hs) (n : Nat) :
    Drawing adv p0 x y rise (out ++ hex4 n) (hs ++ (hex4 n).map (Item.digit · rise)) := by
  obtain ⟨ts, ms, p1, toks, cur, h1, h2, h3, ⟨h4, h4'⟩, h5⟩ := h.ex
  refine ⟨ts, ms, p1, toks, cur ++ hex4 n, ?_, h2, h3, ⟨?_, h4'⟩, h5⟩
  · rw [lexer_append, h1, lexer_hex _ _ (hex4_regular n)]; simp
  · rw [← h4]; simp

theorem lexer_num_lt (n : Int) : lexer .ground (itoa n ++ b!"<") = ([.num n], .lt) := by
  have h1 := itoa_lexed n
  have h2 := itoa_ne_nil n
  have h3 := readNum_itoa n
  generalize itoa n = s at *
  cases s with
  | nil => exact absurd rfl h2
  | cons c w =>
    have hc : lexStart c = ([], .word [c]) := by
      have hc := h1 c (by simp)
      simp only [regular, white, delim, Bool.and_eq_true, Bool.not_eq_true', Bool.or_eq_false_iff, decide_eq_false_iff_not] at hc
      unfold lexStart
      simp only [white]
      simp [hc]
    have ht : wordTok (c :: w) = .num n := wordTok_of (by
      intro h
      have := h1 47 (List.mem_of_mem_head? h)
      exact absurd this (by decide)) h3
    rw [lexer_append]
    simp only [lexer, lexStep, hc, List.nil_append]
    rw [lexer_word _ _ (fun x hx => h1 x (by simp [hx]))]
    have : regular 60 = false := by decide
    simp only [List.cons_append, List.nil_append, this, ht]
    rfl

theorem Drawing.number {adv : TextMove} {p0 : Painter} {x y : ℚ} {rise : Option (Bytes × List Lexeme)} {out : Bytes} {hs : List Item} (h : Drawing adv p0 x y rise out hs) (n : Int) :
    Drawing adv p0 x y rise (out ++ b!">" ++ itoa n ++ b!"<") (hs ++ [.adjust n]) := by
  obtain ⟨ts, ms, p1, toks, cur, h1, h2, h3, ⟨h4, h4'⟩, h5⟩ := h.ex
  refine ⟨ts ++ [.hex cur, .num n], ms, { p1 with args := .open :: (toks ++ [.hex cur, .num n]) }, toks ++ [.hex cur, .num n], [], ?_, ?_, rfl, ⟨?_, h4'⟩, h5⟩
  · rw [List.append_assoc, List.append_assoc, lexer_append, h1]
    simp only [List.singleton_append]
    rw [lexer_close, lexer_num_lt]
    rfl
  · rw [run_append, h2]
    simp [Painter.run, h3]
  · rw [← h4, itemsOf_append]; simp [itemsOf]

theorem Drawing.show {adv : TextMove} {p0 : Painter} {x y : ℚ} {rise : Option (Bytes × List Lexeme)} {out : Bytes} {hs : List Item} (h : Drawing adv p0 x y rise out hs) :
    ∃ ts ms p1, lexer .ground (out ++ b!">] TJ\n") = (ts, .ground) ∧ p0.run adv ts = (ms, p1) ∧ p1.args = [] ∧ (items ms = hs ∧ p1.g.param b!"Ts" = rise) ∧
      p0.g.But [b!"Ts"] p1.g ∧ p1.saved = p0.saved ∧ p1.path = p0.path ∧ p1.clipping = p0.clipping ∧ (∃ dx, p1.tm = .shift (x + dx) y) ∧
      OnLine [b!"Ts"] p0.g x y ms := by
  obtain ⟨ts, ms, p1, toks, cur, h1, h2, h3, ⟨h4, h4'⟩, h5, h6, h7, h8, ⟨dx, h9⟩, h10, h11⟩ := h.ex
  let shown : List Lexeme := .open :: (toks ++ [.hex cur, .close])
  refine ⟨ts ++ [.hex cur, .close, .op b!"TJ"], ms ++ [.text b!"TJ" shown p1.tm p1.g],
    { p1 with args := [], tm := (Mat.shift (adv p1.g b!"TJ" shown) 0).mul p1.tm }, ?_, ?_, rfl, ⟨?_, h4'⟩, h5, h6, h7, h8, ?_, ?_⟩
  · rw [lexer_append, h1]
    have : lexer .ground b!"] TJ\n" = ([.close, .op b!"TJ"], .ground) := by decide +kernel
    have h' := lexer_close cur b!"] TJ\n"
    rw [this] at h'
    rw [show b!">] TJ\n" = 62 :: b!"] TJ\n" from rfl, h']
  · rw [run_append, h2]
    have : p1.run adv [.hex cur, .close, .op b!"TJ"] = { p1 with args := [] }.exec adv b!"TJ" shown := by
      simp [Painter.run, h3, shown]
    simp only
    rw [this]
    rfl
  · rw [items_append, ← h4]
    simp [items, shown, itemsOf, h4']
  · exact ⟨dx + adv p1.g b!"TJ" shown, by simp only [h9, shift_mul]; congr 1 <;> ring⟩
  · by_cases hm : ms = []
    · subst hm
      rw [h10 rfl, List.nil_append]
      refine ⟨⟨shown, p1.g, [], rfl, h5⟩, ?_⟩
      intro m hm
      simp only [List.mem_cons, List.not_mem_nil, or_false] at hm
      exact ⟨shown, 0, p1.g, by rw [hm, add_zero], h5⟩
    · obtain ⟨⟨sh, g', t, e, hb⟩, ha⟩ := h11 hm
      refine ⟨⟨sh, g', t ++ [.text b!"TJ" shown p1.tm p1.g], by rw [e]; rfl, hb⟩, ?_⟩
      intro m hm
      rcases List.mem_append.1 hm with hm | hm
      · exact ha m hm
      · simp only [List.mem_cons, List.not_mem_nil, or_false] at hm
        exact ⟨shown, dx, p1.g, by rw [hm, h9], h5⟩

theorem Drawing.rise {adv : TextMove} {p0 : Painter} {x y : ℚ} {rise : Option (Bytes × List Lexeme)} {out : Bytes} {hs : List Item} (h : Drawing adv p0 x y rise out hs) (q : ℚ) :
    Drawing adv p0 x y ((readNum (fmt2 q)).map (fun v => (b!"Ts", [.num v]))) (out ++ b!">] TJ\n" ++ fmt2 q ++ b!" Ts\n" ++ b!"[<") hs := by
  obtain ⟨ts, ms, p1, h1, h2, h3, ⟨h4, h4'⟩, h5, h6, h7, h8, h9, h10⟩ := h.show
  obtain ⟨v, _, hv, hq⟩ := lexes_fmt2' q (e := 32) rfl
  rw [hq]
  have hne : ms ≠ [] := by
    obtain ⟨⟨_, _, _, e, _⟩, _⟩ := h10
    rw [e]; simp
  refine ⟨ts ++ [.num v, .op b!"Ts", .open], ms, { p1 with args := [.open], g := p1.g.set b!"Ts" b!"Ts" [.num v] }, [], [], ?_, ?_, rfl, ⟨?_, by simp [GState.set]⟩,
    But.trans h5 (But.set _ _ (by simp) _ _), h6, h7, h8, h9, fun e => absurd e hne, fun _ => h10⟩
  · have e : out ++ b!">] TJ\n" ++ fmt2 q ++ b!" Ts\n" ++ b!"[<" = (out ++ b!">] TJ\n") ++ ((fmt2 q ++ [32]) ++ b!"Ts\n[<") := by simp
    have z : lexer .ground b!"Ts\n[<" = ([.op b!"Ts", .open], .lt) := by decide +kernel
    rw [e, lexer_append, h1]
    simp only
    rw [lexer_append, hv]
    simp only
    rw [z]
    rfl
  · rw [run_append, h2]
    simp only
    obtain ⟨g, saved, args, tm, tlm, path, clipping⟩ := p1
    simp only at h3
    subst h3
    simp only [Painter.run, List.nil_append]
    refine Prod.ext ?_ ?_
    · show ms ++ ([] ++ []) = ms
      simp
    · rfl
  · rw [h4]; simp [itemsOf]

/-- the override of the text rise prints numbers -/
def Spec.RiseNumbers (f : FontState) (text : Bytes) (fs : Int) : Prop := ∀ fn, f.textrise = some fn → ∀ l r p, ∃ q, fn l r fs text p = fmt2 q

/-- the text rise a character is shown with: the one the override gives, if there is one -/
def Spec.riseOf (f : FontState) (text : Bytes) (fs : Int) (rise : Option (Bytes × List Lexeme)) (left r pos : Nat) : Option (Bytes × List Lexeme) :=
  match f.textrise with
  | some fn => (readNum (fn left r fs text pos)).map (fun v => (b!"Ts", [.num v]))
  | none => rise

/-- The kerning of two characters in thousandths of the font size: what the override makes of the value of the font's table for the two glyphs (0 without
one).  Without an override there is no kerning. -/
def Spec.kernOf (f : FontState) (left r leftIdx g : Nat) : Int :=
  match f.kernOverride with
  | some fn => Int.tdiv (1000 * fn left r leftIdx g ((f.ttf.kern.lookup (leftIdx, g)).getD 0)) f.ttf.unitsPerEm
  | none => 0

/-- What is shown for characters and their glyphs, after the character `left` with the glyph `leftIdx`: for each character an adjustment by the kerning
with the character before it, and the number of the glyph in four digits, with its text rise. -/
def Spec.textItems (f : FontState) (text : Bytes) (fs : Int) : Option (Bytes × List Lexeme) → Nat → Nat → Nat → List (Nat × Nat) → List Item
  | _, _, _, _, [] => []
  | rise, left, leftIdx, pos, (r, g) :: t =>
    (if pos > 0 ∧ kernOf f left r leftIdx g ≠ 0 then [.adjust (-kernOf f left r leftIdx g : Int)] else []) ++
      (hex4 g).map (Item.digit · (riseOf f text fs rise left r pos)) ++ textItems f text fs (riseOf f text fs rise left r pos) r g (pos + 1) t

/-- the text rise after a text -/
def Spec.riseAfter (f : FontState) (text : Bytes) (fs : Int) : Option (Bytes × List Lexeme) → Nat → Nat → List Nat → Option (Bytes × List Lexeme)
  | rise, _, _, [] => rise
  | rise, left, pos, r :: t => riseAfter f text fs (riseOf f text fs rise left r pos) r (pos + 1) t

theorem ccLoop_drawing {adv : TextMove} {p0 : Painter} {x y : ℚ} {f : FontState} (text : Bytes) (fs : Int) (hr : RiseNumbers f text fs) (hu : 0 < f.ttf.unitsPerEm)
    (rs : List Nat) : ∀ (st st' : CCState) (rise : Option (Bytes × List Lexeme)) (hs : List Item), Drawing adv p0 x y rise st.out hs → ccLoop f text fs st rs = (st', .ok ()) →
      ∃ gs, List.Forall₂ (fun r g => charIndex f.chars r = .ok g) rs gs ∧
        Drawing adv p0 x y (riseAfter f text fs rise st.left st.pos rs) st'.out (hs ++ textItems f text fs rise st.left st.leftIdx st.pos (rs.zip gs)) := by
  induction rs with
  | nil =>
    intro st st' rise hs ho hl
    rw [ccLoop] at hl
    simp at hl
    subst hl
    exact ⟨[], .nil, by simpa [textItems, riseAfter] using ho⟩
  | cons r rs ih =>
    intro st st' rise hs ho hl
    rw [ccLoop] at hl
    split at hl
    · rename_i g hg
      simp only at hl
      split at hl
      · rename_i pv hpv
        have hk : pv = if st.pos > 0 then kernOf f st.left r st.leftIdx g else 0 := by
          unfold kernOf
          unfold kernPair at hpv
          cases hov : f.kernOverride with
          | none => simp [hov] at hpv; simp [hpv]
          | some fn =>
            simp only [hov, Option.isSome_some, and_true, if_true] at hpv
            split at hpv
            · rename_i hpos
              rw [C37_unit_conversion _ _ (by exact_mod_cast hu)] at hpv
              simp only [Res.ok.injEq] at hpv
              rw [if_pos hpos]; exact hpv.symm
            · rename_i hpos
              simp only [Res.ok.injEq] at hpv
              rw [if_neg hpos]; exact hpv.symm
        have ho1 : Drawing adv p0 x y rise (if pv ≠ 0 then st.out ++ b!">" ++ itoa (-1 * pv) ++ b!"<" else st.out)
            (hs ++ if st.pos > 0 ∧ kernOf f st.left r st.leftIdx g ≠ 0 then [.adjust (-kernOf f st.left r st.leftIdx g : Int)] else []) := by
          by_cases hpos : st.pos > 0
          · rw [if_pos hpos] at hk
            rw [← hk]
            by_cases hz : pv = 0
            · simpa [hz] using ho
            · have := ho.number (-1 * pv)
              simpa [hz, hpos] using this
          · rw [if_neg hpos] at hk
            simpa [hk, hpos] using ho
        have ho2 : Drawing adv p0 x y (riseOf f text fs rise st.left r st.pos) (match f.textrise with
          | some fn => (if pv ≠ 0 then st.out ++ b!">" ++ itoa (-1 * pv) ++ b!"<" else st.out) ++ b!">] TJ\n" ++ fn st.left r fs text st.pos ++ b!" Ts\n" ++ b!"[<"
          | none => (if pv ≠ 0 then st.out ++ b!">" ++ itoa (-1 * pv) ++ b!"<" else st.out))
            (hs ++ if st.pos > 0 ∧ kernOf f st.left r st.leftIdx g ≠ 0 then [.adjust (-kernOf f st.left r st.leftIdx g : Int)] else []) := by
          unfold riseOf
          cases htr : f.textrise with
          | none => exact ho1
          | some fn =>
            simp only
            obtain ⟨q, hq⟩ := hr fn htr st.left r st.pos
            rw [hq]
            exact ho1.rise q
        split at hl
        · obtain ⟨gs, h1, h2⟩ := ih _ st' _ _ (ho2.hex g) hl
          refine ⟨g :: gs, .cons hg h1, ?_⟩
          rw [List.zip_cons_cons, textItems, riseAfter]
          simpa only [List.append_assoc] using h2
        all_goals simp at hl
      all_goals simp at hl
    all_goals simp at hl

theorem createContent_paints {adv : TextMove} {p0 : Painter} {x y : ℚ} {f : FontState} {text : Bytes} {fs : Int} (hr : RiseNumbers f text fs) (hu : 0 < f.ttf.unitsPerEm) {sum : Int}
    (hs : (createContent f text fs).2 = .ok sum) (ha : p0.args = []) (ht : p0.tm = .shift x y) :
    ∃ gs ms p1, List.Forall₂ (fun r g => charIndex f.chars r = .ok g) (runes text) gs ∧ Paints adv p0 (createContent f text fs).1 ms p1 ∧ p1.args = [] ∧
      (items ms = textItems f text fs (p0.g.param b!"Ts") 0 0 0 ((runes text).zip gs) ∧ p1.g.param b!"Ts" = riseAfter f text fs (p0.g.param b!"Ts") 0 0 (runes text)) ∧ p0.g.But [b!"Ts"] p1.g ∧ p1.saved = p0.saved ∧ p1.path = p0.path ∧ p1.clipping = p0.clipping ∧ OnLine [b!"Ts"] p0.g x y ms := by
  unfold createContent at hs ⊢
  cases hc : ccLoop f text fs { out := b!"[<" } (runes text) with
  | mk st res =>
    rw [hc] at hs
    cases res with
    | ok u =>
      simp only at hs ⊢
      obtain ⟨gs, h1, h2⟩ := ccLoop_drawing text fs hr hu (runes text) { out := b!"[<" } st _ [] (Drawing.start adv p0 x y ha ht) hc
      obtain ⟨ts, ms, p1, g1, g2, g3, g4, g5, g6, g7, g8, _, g9⟩ := h2.show
      exact ⟨gs, ms, p1, h1, ⟨ts, g1, g2⟩, g3, by simpa using g4, g5, g6, g7, g8, g9⟩
    | _ => simp at hs

/-! ### lines -/

/-- between two operators and outside of paths -/
structure Spec.Idle (p : Painter) : Prop where
  args : p.args = []
  path : p.path = []
  clipping : p.clipping = false

theorem lineOp_paints (adv : TextMove) {p : Painter} (hp : Idle p) (x1 y1 x2 y2 : ℚ) : ∃ m, Stroke p.g x1 y1 x2 y2 m ∧ Paints adv p (lineOp x1 y1 x2 y2) [m] p := by
  obtain ⟨a, ha, l1⟩ := lexes_fmt2 x1 (e := 32) rfl
  obtain ⟨b, hb, l2⟩ := lexes_fmt2 y1 (e := 32) rfl
  obtain ⟨c, hc, l3⟩ := lexes_fmt2 x2 (e := 32) rfl
  obtain ⟨d, hd, l4⟩ := lexes_fmt2 y2 (e := 32) rfl
  refine ⟨_, ⟨a, b, c, d, ha, hb, hc, hd, rfl⟩, [.num a, .num b, .op b!"m", .num c, .num d, .op b!"l", .op b!"s"], ?_, ?_⟩
  · have e : lineOp x1 y1 x2 y2 = (fmt2 x1 ++ [32]) ++ (fmt2 y1 ++ [32]) ++ b!"m " ++ (fmt2 x2 ++ [32]) ++ (fmt2 y2 ++ [32]) ++ b!"l s\n" := by simp [lineOp]
    have z1 : lexer .ground b!"m " = ([.op b!"m"], .ground) := by decide +kernel
    have z2 : lexer .ground b!"l s\n" = ([.op b!"l", .op b!"s"], .ground) := by decide +kernel
    rw [e]
    exact lexes_append (lexes_append (lexes_append (lexes_append (lexes_append l1 l2) z1) l3) l4) z2
  · obtain ⟨g, saved, args, tm, tlm, path, clipping⟩ := p
    obtain ⟨h1, h2, h3⟩ := hp
    simp only at h1 h2 h3
    subst h1 h2 h3
    rfl

theorem Paints.nil (adv : TextMove) (p : Painter) : Paints adv p [] [] p := ⟨[], rfl, rfl⟩

theorem drawBorder_paints (adv : TextMove) {p : Painter} (hp : Idle p) (x y w h lw pageHeight : ℚ) :
    ∃ ms, Edges p.g (cell pageHeight x y w h) (lw / 2) ms ∧ Paints adv p (drawBorder 15 x y w h lw pageHeight) ms p := by
  rw [C60_borders]
  generalize cell pageHeight x y w h = b
  obtain ⟨m1, s1, p1⟩ := lineOp_paints adv hp (b.left - lw / 2) b.top (b.right + lw / 2) b.top
  obtain ⟨m2, s2, p2⟩ := lineOp_paints adv hp b.left b.top b.left b.bottom
  obtain ⟨m3, s3, p3⟩ := lineOp_paints adv hp b.right b.top b.right b.bottom
  obtain ⟨m4, s4, p4⟩ := lineOp_paints adv hp (b.left - lw / 2) b.bottom (b.right + lw / 2) b.bottom
  exact ⟨[m1, m2, m3, m4], ⟨m1, m2, m3, m4, rfl, s1, s2, s3, s4⟩, Paints.append (Paints.append (Paints.append p1 p2) p3) p4⟩

theorem fmt2_nonneg {q : ℚ} (h : 0 ≤ q) : fmt2 q = natDigits (roundCents q / 100) ++ b!"." ++ [digit (roundCents q % 100 / 10), digit (roundCents q % 10)] := by
  unfold fmt2
  rw [if_neg (by linarith)]
  rfl

theorem lexes_minus {q : ℚ} (h : 0 ≤ q) {e : UInt8} (he : white e = true) : ∃ v, Near v (-q) ∧ lexer .ground (45 :: fmt2 q ++ [e]) = ([.num v], .ground) := by
  have hr := fmt2_bytes q
  rw [fmt2_nonneg h] at *
  refine ⟨-((roundCents q : ℚ) / 100), ?_, ?_⟩
  · have := roundCents_near q
    rw [abs_of_nonneg h] at this
    unfold Near
    rw [← abs_neg]
    rw [show -(-((roundCents q : ℚ) / 100) - -q) = (roundCents q : ℚ) / 100 - q by ring]
    exact this
  · rw [lexes_word (Or.inl (by decide)) hr.1 he]
    rw [wordTok_of (q := -((roundCents q : ℚ) / 100)) (by simp)]
    unfold readNum readDec
    simp only [readUDec_cents, Option.map_some]

theorem underlineOp_paints (adv : TextMove) {p : Painter} (hp : Idle p) (t : Ttf) (fontSize : Int) (x y endX pageHeight : ℚ)
    (ht : 0 ≤ ((t.underlineThickness : ℚ) / t.unitsPerEm) * fontSize) :
    ∃ m, Filled p.g x (pageHeight - (y - ((t.underlinePosition : ℚ) / t.unitsPerEm) * fontSize) - 7 / 10 * fontSize) (endX - x)
      (-(((t.underlineThickness : ℚ) / t.unitsPerEm) * fontSize)) m ∧ Paints adv p (underlineOp t fontSize x y endX pageHeight) [m] p := by
  unfold underlineOp
  simp only
  generalize pageHeight - (y - ((t.underlinePosition : ℚ) / t.unitsPerEm) * fontSize) - 7 / 10 * fontSize = y0
  generalize ((t.underlineThickness : ℚ) / t.unitsPerEm) * fontSize = th at *
  obtain ⟨a, ha, l1⟩ := lexes_fmt2 x (e := 32) rfl
  obtain ⟨b, hb, l2⟩ := lexes_fmt2 y0 (e := 32) rfl
  obtain ⟨c, hc, l3⟩ := lexes_fmt2 (endX - x) (e := 32) rfl
  obtain ⟨d, hd, l4⟩ := lexes_minus ht (e := 32) rfl
  refine ⟨_, ⟨a, b, c, d, ha, hb, hc, hd, rfl⟩, [.num a, .num b, .num c, .num d, .op b!"re", .op b!"f"], ?_, ?_⟩
  · have e : fmt2 x ++ b!" " ++ fmt2 y0 ++ b!" " ++ fmt2 (endX - x) ++ b!" -" ++ fmt2 th ++ b!" re f\n" =
        (fmt2 x ++ [32]) ++ (fmt2 y0 ++ [32]) ++ (fmt2 (endX - x) ++ [32]) ++ (45 :: fmt2 th ++ [32]) ++ b!"re f\n" := by simp
    have z : lexer .ground b!"re f\n" = ([.op b!"re", .op b!"f"], .ground) := by decide +kernel
    rw [e]
    exact lexes_append (lexes_append (lexes_append (lexes_append l1 l2) l3) l4) z
  · obtain ⟨g, saved, args, tm, tlm, path, clipping⟩ := p
    obtain ⟨h1, h2, h3⟩ := hp
    simp only at h1 h2 h3
    subst h1 h2 h3
    rfl

/-- the fill colour is the one asked for, or (components adding up to a multiple of 256) the one before -/
def Spec.FillOf (c : UInt8 × UInt8 × UInt8) (g g' : GState) : Prop :=
  if c.1 + c.2.1 + c.2.2 ≠ 0 then
    ∃ r v b, |r - (c.1.toNat : ℚ) / 255| ≤ 501 / 100000 ∧ |v - (c.2.1.toNat : ℚ) / 255| ≤ 501 / 100000 ∧ |b - (c.2.2.toNat : ℚ) / 255| ≤ 501 / 100000 ∧
      g'.param b!"fill" = some (b!"rg", [.num r, .num v, .num b])
  else g'.param b!"fill" = g.param b!"fill"

theorem component_value {v : UInt8} {q : ℚ} (h : |q - (v.toNat : ℚ) * (392156862745 / 100000000000000)| ≤ 1 / 200) : |q - (v.toNat : ℚ) / 255| ≤ 501 / 100000 := by
  have hv' : (v.toNat : ℚ) ≤ 255 := by
    have := v.toNat_lt
    exact_mod_cast (by omega : v.toNat ≤ 255)
  have hv0 : (0 : ℚ) ≤ (v.toNat : ℚ) := Nat.cast_nonneg _
  rw [abs_le] at h ⊢
  constructor <;> linarith

theorem rgb_paints (adv : TextMove) {p : Painter} (hp : Idle p) (x y z : ℚ) :
    ∃ r v b, Near r x ∧ Near v y ∧ Near b z ∧ Paints adv p (fmt2 x ++ b!" " ++ fmt2 y ++ b!" " ++ fmt2 z ++ b!" rg\n") []
      { p with g := p.g.set b!"fill" b!"rg" [.num r, .num v, .num b] } := by
  obtain ⟨r, hr, l1⟩ := lexes_fmt2 x (e := 32) rfl
  obtain ⟨v, hv, l2⟩ := lexes_fmt2 y (e := 32) rfl
  obtain ⟨b, hb, l3⟩ := lexes_fmt2 z (e := 32) rfl
  refine ⟨r, v, b, hr, hv, hb, [.num r, .num v, .num b, .op b!"rg"], ?_, ?_⟩
  · have z : lexer .ground b!"rg\n" = ([.op b!"rg"], .ground) := by decide +kernel
    have := lexes_append (lexes_append (lexes_append l1 l2) l3) z
    simpa [List.append_assoc] using this
  · obtain ⟨g, saved, args, tm, tlm, path, clipping⟩ := p
    obtain ⟨h1, h2, h3⟩ := hp
    simp only at h1 h2 h3
    subst h1 h2 h3
    rfl

theorem colorOp_paints (adv : TextMove) {p : Painter} (hp : Idle p) (c : UInt8 × UInt8 × UInt8) :
    ∃ g, p.g.But [b!"fill"] g ∧ FillOf c p.g g ∧ Paints adv p (colorOp c) [] { p with g := g } := by
  unfold colorOp FillOf
  by_cases hc : c.1 + c.2.1 + c.2.2 ≠ 0
  · simp only [if_pos hc]
    obtain ⟨r, v, b, h1, h2, h3, h4⟩ := rgb_paints adv hp ((c.1.toNat : ℚ) * (392156862745 / 100000000000000)) ((c.2.1.toNat : ℚ) * (392156862745 / 100000000000000))
      ((c.2.2.toNat : ℚ) * (392156862745 / 100000000000000))
    refine ⟨p.g.set b!"fill" b!"rg" [.num r, .num v, .num b], But.set _ _ (by simp) _ _,
      ⟨r, v, b, component_value h1, component_value h2, component_value h3, by simp [GState.set]⟩, h4⟩
  · simp only [if_neg hc]
    exact ⟨p.g, But.refl _ _, rfl, Paints.nil adv p⟩

/-- C70, lines: the style of lines is set -/
theorem C70_style (adv : TextMove) {p : Painter} (hp : Idle p) (width : ℚ) (lineType : Bytes) :
    ∃ w d, Near w width ∧ Paints adv p (lineStyleStream width lineType) [] { p with g := (p.g.set b!"d" b!"d" d).set b!"w" b!"w" [.num w] } ∧
      d = (if lineType = b!"dashed" then [.open, .num 5, .close, .num 2] else if lineType = b!"dotted" then [.open, .num 2, .num 3, .close, .num 11]
        else [.open, .close, .num 0]) := by
  obtain ⟨w, hw, l1⟩ := lexes_fmt2 width (e := 32) rfl
  have z : lexer .ground b!"w\n" = ([.op b!"w"], .ground) := by decide +kernel
  unfold lineStyleStream
  obtain ⟨g, saved, args, tm, tlm, path, clipping⟩ := p
  obtain ⟨h1, h2, h3⟩ := hp
  simp only at h1 h2 h3
  subst h1 h2 h3
  by_cases hd : lineType = b!"dashed"
  · simp only [if_pos hd]
    have z1 : lexer .ground b!"[5] 2 d\n" = ([.open, .num 5, .close, .num 2, .op b!"d"], .ground) := by decide +kernel
    refine ⟨w, _, hw, ⟨[.open, .num 5, .close, .num 2, .op b!"d", .num w, .op b!"w"], ?_, ?_⟩, rfl⟩
    · have := lexes_append (lexes_append z1 l1) z
      simpa [List.append_assoc] using this
    · rfl
  simp only [if_neg hd]
  by_cases hd : lineType = b!"dotted"
  · simp only [if_pos hd]
    have z1 : lexer .ground b!"[2 3] 11 d\n" = ([.open, .num 2, .num 3, .close, .num 11, .op b!"d"], .ground) := by decide +kernel
    refine ⟨w, _, hw, ⟨[.open, .num 2, .num 3, .close, .num 11, .op b!"d", .num w, .op b!"w"], ?_, ?_⟩, rfl⟩
    · have := lexes_append (lexes_append z1 l1) z
      simpa [List.append_assoc] using this
    · rfl
  simp only [if_neg hd]
  have z1 : lexer .ground b!"[] 0 d\n" = ([.open, .close, .num 0, .op b!"d"], .ground) := by decide +kernel
  refine ⟨w, _, hw, ⟨[.open, .close, .num 0, .op b!"d", .num w, .op b!"w"], ?_, ?_⟩, rfl⟩
  · have := lexes_append (lexes_append z1 l1) z
    simpa [List.append_assoc] using this
  · rfl

/-! ### C70: what is drawn -/

theorem begin_paints (adv : TextMove) {p : Painter} (hp : Idle p) (x0 y0 : ℚ) (idx size : Int) :
    ∃ x y, Near x x0 ∧ Near y y0 ∧ Paints adv p (b!"BT\n" ++ fmt2 x0 ++ b!" " ++ fmt2 y0 ++ b!" TD\n/F" ++ itoa idx ++ b!" " ++ itoa size ++ b!" Tf\n") []
      { p with g := (p.g.set b!"TL" b!"TL" [.num (-y)]).set b!"Tf" b!"Tf" [.name (b!"F" ++ itoa idx), .num size], tm := .shift x y, tlm := .shift x y } := by
  obtain ⟨x, hx, l1⟩ := lexes_fmt2 x0 (e := 32) rfl
  obtain ⟨y, hy, l2⟩ := lexes_fmt2 y0 (e := 32) rfl
  have l3 := lexes_name (n := b!"F" ++ itoa idx) (by
    intro d hd
    rcases List.mem_append.1 hd with hd | hd
    · simp only [List.mem_cons, List.not_mem_nil, or_false] at hd
      subst hd; decide
    · exact itoa_lexed _ d hd) (e := 32) rfl
  have l4 := lexes_itoa size (e := 32) rfl
  have z1 : lexer .ground b!"BT\n" = ([.op b!"BT"], .ground) := by decide +kernel
  have z2 : lexer .ground b!"TD\n" = ([.op b!"TD"], .ground) := by decide +kernel
  have z3 : lexer .ground b!"Tf\n" = ([.op b!"Tf"], .ground) := by decide +kernel
  refine ⟨x, y, hx, hy, [.op b!"BT", .num x, .num y, .op b!"TD", .name (b!"F" ++ itoa idx), .num size, .op b!"Tf"], ?_, ?_⟩
  · have := lexes_append (lexes_append (lexes_append (lexes_append (lexes_append (lexes_append z1 l1) l2) z2) l3) l4) z3
    simpa [List.append_assoc] using this
  · obtain ⟨g, saved, args, tm, tlm, path, clipping⟩ := p
    obtain ⟨h1, h2, h3⟩ := hp
    simp only at h1 h2 h3
    subst h1 h2 h3
    have e : (Mat.shift x y).mul Mat.one = Mat.shift x y := by
      have := shift_mul x y 0 0
      simpa [Mat.shift, Mat.one] using this
    conv_rhs => rw [← e]
    rfl

theorem But.mono {ks ls : List Bytes} {g h : GState} (hk : ∀ k ∈ ks, k ∈ ls) (hb : g.But ks h) : g.But ls h :=
  ⟨hb.1, hb.2.1, fun k hl => hb.2.2 k (fun hm => hl (hk k hm))⟩

theorem end_paints (adv : TextMove) {p : Painter} (hp : p.args = []) : Paints adv p b!"ET\n" [] p := by
  refine ⟨[.op b!"ET"], by decide +kernel, ?_⟩
  obtain ⟨g, saved, args, tm, tlm, path, clipping⟩ := p
  simp only at hp
  subst hp
  rfl

theorem blank_paints (adv : TextMove) (p : Painter) : Paints adv p b!"\r\n" [] p := ⟨[], by decide +kernel, rfl⟩

/-- How a text is drawn: its line begins at `x`, `y`, it shows `shown` in the font named `font`, with this size and colour, followed by an underline and the edges
of the cell. `g` is the state before, `g'` the state after. -/
structure Spec.TextDrawn (g g' : GState) (x y : ℚ) (font : Bytes) (size : ℚ) (colour : UInt8 × UInt8 × UInt8) (shown : List Item) (underline : GState → List Mark → Prop)
    (edges : GState → List Mark → Prop) (ms : List Mark) : Prop where
  after : g.But [b!"TL", b!"Tf", b!"fill", b!"Ts"] g'
  parts : ∃ h x' y' ts us es, ms = ts ++ us ++ es ∧ Near x' x ∧ Near y' y ∧ g.But [b!"TL", b!"Tf", b!"fill"] h ∧
    h.param b!"Tf" = some (b!"Tf", [.name font, .num size]) ∧ FillOf colour g h ∧ OnLine [b!"Ts"] h x' y' ts ∧ items ts = shown ∧ h.But [b!"Ts"] g' ∧
    underline g' us ∧ edges g' es

/-- where the flags Right (2), Center (16), Bottom (1) and Middle (32) put a text in its cell -/
def Spec.Placed (align : Nat) (t c : Box) : Prop :=
  (if align &&& 2 = 2 then t.right = c.right else if align &&& 16 = 16 then t.left - c.left = c.right - t.right else t.left = c.left) ∧
  (if align &&& 1 = 1 then t.bottom = c.bottom else if align &&& 32 = 32 then t.bottom - c.bottom = c.top - t.top else t.top = c.top)

/-- What a text asks for, given its font, the number in the name of the font, and the width of the text in thousandths. -/
def Spec.TextAsked (f : FontState) (idx sum : Int) (c : TextContent) (g g' : GState) (ms : List Mark) : Prop :=
  ∃ x y gs, Placed c.align (textBox x y ((sum : ℚ) * c.fontSize / 1000) ((f.ttf.typoAscender : ℚ) * c.fontSize / f.ttf.unitsPerEm)
      ((f.ttf.typoDescender : ℚ) * c.fontSize / f.ttf.unitsPerEm)) (cell c.pageHeight c.x c.y c.w c.h) ∧
    List.Forall₂ (fun r g => charIndex f.chars r = .ok g) (runes c.text) gs ∧
    g'.param b!"Ts" = riseAfter f c.text c.fontSize (g.param b!"Ts") 0 0 (runes c.text) ∧
    TextDrawn g g' x y (b!"F" ++ itoa idx) c.fontSize c.rgb (textItems f c.text c.fontSize (g.param b!"Ts") 0 0 0 ((runes c.text).zip gs))
      (fun g us => if c.fontStyle &&& 4 = 4 then ∃ m, us = [m] ∧ Filled g c.x
          (c.pageHeight - (c.y - ((f.ttf.underlinePosition : ℚ) / f.ttf.unitsPerEm) * c.fontSize) - 7 / 10 * c.fontSize) c.w
          (-(((f.ttf.underlineThickness : ℚ) / f.ttf.unitsPerEm) * c.fontSize)) m else us = [])
      (fun g es => if c.lineWidth > 0 then Edges g (cell c.pageHeight c.x c.y c.w c.h) (c.lineWidth / 2) es else es = []) ms

/-- C70, texts: the painter shows the glyphs of the text, in the font and colour asked for, on a line that begins where the alignment in the cell says, followed by
the underline and the edges of the cell if they are asked for. -/
theorem C70_text (adv : TextMove) {p : Painter} (hp : Idle p) {c : TextContent} {f : FontState} {idx sum : Int} {s : Bytes} (hr : RiseNumbers f c.text c.fontSize)
    (h0 : 0 < f.ttf.unitsPerEm) (hs : (createContent f c.text c.fontSize).2 = .ok sum) (hu : c.fontStyle &&& 4 = 4 → 0 ≤ ((f.ttf.underlineThickness : ℚ) / f.ttf.unitsPerEm) * c.fontSize)
    (h : c.stream f idx = .ok s) :
    ∃ ms p', Paints adv p s ms p' ∧ Idle p' ∧ p'.saved = p.saved ∧ TextAsked f idx sum c p.g p'.g ms := by
  have e : ∀ v : Int, convertTypoUnit v f.ttf.unitsPerEm c.fontSize = (v : ℚ) * c.fontSize / f.ttf.unitsPerEm := by
    intro v; unfold convertTypoUnit; ring
  unfold TextContent.stream at h
  simp only [hs, Res.ok_bind, e, Res.ok.injEq] at h
  have hpl : Placed c.align (textBox (calX c.align c.x c.w (textWidth sum c.fontSize))
      (calY c.align c.pageHeight c.y c.h ((f.ttf.typoAscender : ℚ) * c.fontSize / f.ttf.unitsPerEm) ((f.ttf.typoDescender : ℚ) * c.fontSize / f.ttf.unitsPerEm))
      ((sum : ℚ) * c.fontSize / 1000) ((f.ttf.typoAscender : ℚ) * c.fontSize / f.ttf.unitsPerEm) ((f.ttf.typoDescender : ℚ) * c.fontSize / f.ttf.unitsPerEm))
      (cell c.pageHeight c.x c.y c.w c.h) := by
    have hw : textWidth sum c.fontSize = (sum : ℚ) * c.fontSize / 1000 := by unfold textWidth; ring
    rw [hw]
    exact ⟨C54_horizontal _ _ _ _ _ _ _ _ _ _, C54_vertical _ _ _ _ _ _ _ _ _ _⟩
  generalize hX : calX c.align c.x c.w (textWidth sum c.fontSize) = X at *
  generalize hY : calY c.align c.pageHeight c.y c.h ((f.ttf.typoAscender : ℚ) * c.fontSize / f.ttf.unitsPerEm) ((f.ttf.typoDescender : ℚ) * c.fontSize / f.ttf.unitsPerEm) = Y at *
  obtain ⟨x, y, hx, hy, q1⟩ := begin_paints adv hp X Y idx c.fontSize
  generalize hp1 : ({ p with g := (p.g.set b!"TL" b!"TL" [.num (-y)]).set b!"Tf" b!"Tf" [.name (b!"F" ++ itoa idx), .num c.fontSize], tm := .shift x y, tlm := .shift x y } : Painter) = p1 at q1
  have r1 : Idle p1 := by subst hp1; exact ⟨hp.args, hp.path, hp.clipping⟩
  have b1 : p.g.But [b!"TL", b!"Tf"] p1.g := by
    subst hp1
    exact But.trans (But.set _ _ (by decide) _ _) (But.set _ _ (by decide) _ _)
  obtain ⟨g2, b2, f2, q2⟩ := colorOp_paints adv r1 c.rgb
  obtain ⟨gs, ts, p3, hgs, q3, a3, ⟨v3, w3⟩, b3, s3, t3, c3, o3⟩ := createContent_paints (adv := adv) (p0 := { p1 with g := g2 }) (x := x) (y := y) hr h0 hs r1.args (by subst hp1; rfl)
  have r3 : Idle p3 := ⟨a3, t3.trans r1.path, c3.trans r1.clipping⟩
  have hts : g2.param b!"Ts" = p.g.param b!"Ts" := by rw [b2.2.2 _ (by decide), b1.2.2 _ (by decide)]
  have q4 := end_paints adv (p := p3) a3
  obtain ⟨us, hus, q5⟩ : ∃ us, (if c.fontStyle &&& 4 = 4 then ∃ m, us = [m] ∧ Filled p3.g c.x
      (c.pageHeight - (c.y - ((f.ttf.underlinePosition : ℚ) / f.ttf.unitsPerEm) * c.fontSize) - 7 / 10 * c.fontSize) c.w
      (-(((f.ttf.underlineThickness : ℚ) / f.ttf.unitsPerEm) * c.fontSize)) m else us = []) ∧
      Paints adv p3 (if c.fontStyle &&& 4 = 4 then underlineOp f.ttf c.fontSize c.x c.y (c.x + c.w) c.pageHeight else []) us p3 := by
    by_cases h4 : c.fontStyle &&& 4 = 4
    · simp only [if_pos h4]
      obtain ⟨m, hm, hq⟩ := underlineOp_paints adv r3 f.ttf c.fontSize c.x c.y (c.x + c.w) c.pageHeight (hu h4)
      rw [show c.x + c.w - c.x = c.w by ring] at hm
      exact ⟨[m], ⟨m, rfl, hm⟩, hq⟩
    · simp only [if_neg h4]
      exact ⟨[], rfl, Paints.nil adv p3⟩
  obtain ⟨es, hes, q6⟩ : ∃ es, (if c.lineWidth > 0 then Edges p3.g (cell c.pageHeight c.x c.y c.w c.h) (c.lineWidth / 2) es else es = []) ∧
      Paints adv p3 (drawBorder (if c.lineWidth > 0 then 15 else 0) c.x c.y c.w c.h c.lineWidth c.pageHeight) es p3 := by
    by_cases hl : c.lineWidth > 0
    · simp only [if_pos hl]
      exact drawBorder_paints adv r3 _ _ _ _ _ _
    · simp only [if_neg hl]
      exact ⟨[], rfl, Paints.nil adv p3⟩
  have q7 := blank_paints adv p3
  refine ⟨ts ++ us ++ es, p3, ?_, r3, ?_, X, Y, gs, hpl, hgs, by rw [w3, hts], ⟨?_, g2, x, y, ts, us, es, rfl, hx, hy, ?_, ?_, ?_, o3, by rw [v3, hts], b3, hus, hes⟩⟩
  · have := Paints.append q1 (Paints.append q2 (Paints.append q3 (Paints.append q4 (Paints.append q5 (Paints.append q6 q7)))))
    rw [← h]
    simpa [List.append_assoc] using this
  · rw [s3]; subst hp1; rfl
  · exact But.mono (by decide) (But.trans (But.mono (ls := [b!"TL", b!"Tf", b!"fill", b!"Ts"]) (by decide) b1)
      (But.trans (But.mono (ls := [b!"TL", b!"Tf", b!"fill", b!"Ts"]) (by decide) b2) (But.mono (ls := [b!"TL", b!"Tf", b!"fill", b!"Ts"]) (by decide) b3)))
  · exact But.trans (But.mono (by decide) b1) (But.mono (by decide) b2)
  · rw [b2.2.2 _ (by decide)]
    subst hp1
    simp [GState.set]
  · have e1 : p1.g.param b!"fill" = p.g.param b!"fill" := b1.2.2 _ (by decide)
    unfold FillOf at f2 ⊢
    rw [e1] at f2
    exact f2

/-- The hypotheses of `C70_text` hold at the beginning of a page for the text of the other examples, underlined and with a border. -/
example : ∃ s, Idle {} ∧ RiseNumbers contentFont b!"A" 10 ∧ 0 < contentFont.ttf.unitsPerEm ∧ (createContent contentFont b!"A" 10).2 = .ok 500 ∧
    (0 : ℚ) ≤ ((contentFont.ttf.underlineThickness : ℚ) / contentFont.ttf.unitsPerEm) * 10 ∧
    { contentText (some (255, 128, 0)) with fontStyle := 4, lineWidth := 1 }.stream contentFont 3 = .ok s :=
  ⟨_, ⟨rfl, rfl, rfl⟩, fun fn h => by simp [contentFont] at h, by decide, by decide +kernel, by decide +kernel, rfl⟩

end Verif
