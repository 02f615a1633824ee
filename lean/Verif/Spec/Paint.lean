import Verif.Spec.Content
/-
A reader of content streams (ISO 32000-1, 7.2, 7.8, 8.4, 9.4): tokens, graphics state, and what is painted.

The widths of glyphs are not known here: how far a text-showing operator moves the text position is a parameter (`TextMove`).  Of the marking operators
the interpreter knows the operands and the graphics state in which they are carried out; inline images are not read.
-/
namespace Verif.Spec

/-! ### tokens -/

inductive Lexeme where
  | num (q : ℚ)
  | name (n : Bytes)
  | hex (s : Bytes)
  | lit (s : Bytes)
  | open
  | close
  | dictOpen
  | dictClose
  | op (w : Bytes)
deriving DecidableEq

/-- what is being read: nothing, a word (name, number or operator), a literal string, a hexadecimal string, a comment, one angle bracket -/
inductive Mode where
  | ground
  | word (cur : Bytes)
  | lit (depth : Nat) (esc : Bool) (cur : Bytes)
  | hex (cur : Bytes)
  | comment
  | lt
  | gt
deriving DecidableEq

def white (c : UInt8) : Bool := c = 0 || c = 9 || c = 10 || c = 12 || c = 13 || c = 32

/-- ( ) < > [ ] / % -/
def delim (c : UInt8) : Bool := c = 40 || c = 41 || c = 60 || c = 62 || c = 91 || c = 93 || c = 47 || c = 37

def regular (c : UInt8) : Bool := !white c && !delim c

/-- a number: digits, possibly with a sign and a decimal point -/
def readNum (s : Bytes) : Option ℚ :=
  match readDec s with
  | some q => some q
  | none =>
    match s with
    | 45 :: t => (parseNat t).map (fun n : Nat => -(n : ℚ))
    | s => (parseNat s).map (fun n : Nat => (n : ℚ))

def wordTok : Bytes → Lexeme
  | 47 :: n => .name n
  | w => match readNum w with
    | some q => .num q
    | none => .op w

/-- the byte `c` outside of words and strings -/
def lexStart (c : UInt8) : List Lexeme × Mode :=
  if white c then ([], .ground)
  else if c = 37 then ([], .comment)
  else if c = 40 then ([], .lit 0 false [])
  else if c = 60 then ([], .lt)
  else if c = 62 then ([], .gt)
  else if c = 91 then ([.open], .ground)
  else if c = 93 then ([.close], .ground)
  else ([], .word [c])

def lexStep : Mode → UInt8 → List Lexeme × Mode
  | .ground, c => lexStart c
  | .word cur, c => if regular c then ([], .word (cur ++ [c])) else (wordTok cur :: (lexStart c).1, (lexStart c).2)
  | .lit d true cur, c => ([], .lit d false (cur ++ [c]))
  | .lit d false cur, c =>
    if c = 92 then ([], .lit d true (cur ++ [c]))
    else if c = 40 then ([], .lit (d + 1) false (cur ++ [c]))
    else if c = 41 then (match d with
      | 0 => ([.lit cur], .ground)
      | d + 1 => ([], .lit d false (cur ++ [c])))
    else ([], .lit d false (cur ++ [c]))
  | .hex cur, c => if c = 62 then ([.hex cur], .ground) else if white c then ([], .hex cur) else ([], .hex (cur ++ [c]))
  | .comment, c => if c = 10 || c = 13 then ([], .ground) else ([], .comment)
  | .lt, c => if c = 60 then ([.dictOpen], .ground) else if c = 62 then ([.hex []], .ground) else if white c then ([], .hex []) else ([], .hex [c])
  | .gt, c => if c = 62 then ([.dictClose], .ground) else lexStart c

/-- the tokens of a piece of a stream, and what is being read at its end -/
def lexer : Mode → Bytes → List Lexeme × Mode
  | m, [] => ([], m)
  | m, c :: s => ((lexStep m c).1 ++ (lexer (lexStep m c).2 s).1, (lexer (lexStep m c).2 s).2)

/-! ### the graphics state -/

/-- `[a b 0; c d 0; e f 1]`; points are rows, multiplied from the left -/
structure Mat where
  a : ℚ
  b : ℚ
  c : ℚ
  d : ℚ
  e : ℚ
  f : ℚ
deriving DecidableEq

def Mat.one : Mat := ⟨1, 0, 0, 1, 0, 0⟩

def Mat.shift (x y : ℚ) : Mat := ⟨1, 0, 0, 1, x, y⟩

/-- first `m`, then `n` -/
def Mat.mul (m n : Mat) : Mat :=
  ⟨m.a * n.a + m.b * n.c, m.a * n.b + m.b * n.d, m.c * n.a + m.d * n.c, m.c * n.b + m.d * n.d, m.e * n.a + m.f * n.c + n.e, m.e * n.b + m.f * n.d + n.f⟩

/-- where a point goes -/
def Mat.point (m : Mat) (x y : ℚ) : ℚ × ℚ := (x * m.a + y * m.c + m.e, x * m.b + y * m.d + m.f)

/-- a part of a path: the operator and the points, in the coordinates of the page -/
structure Seg where
  op : Bytes
  points : List (ℚ × ℚ)
deriving DecidableEq

/-- the parameter an operator sets -/
def paramOf (op : Bytes) : Option Bytes :=
  if op = b!"g" ∨ op = b!"rg" ∨ op = b!"k" ∨ op = b!"sc" ∨ op = b!"scn" then some b!"fill"
  else if op = b!"G" ∨ op = b!"RG" ∨ op = b!"K" ∨ op = b!"SC" ∨ op = b!"SCN" then some b!"stroke"
  else if op ∈ [b!"w", b!"J", b!"j", b!"M", b!"d", b!"ri", b!"i", b!"gs", b!"Tc", b!"Tw", b!"Tz", b!"TL", b!"Tf", b!"Tr", b!"Ts", b!"cs", b!"CS"] then some op
  else none

/-- The graphics state: the current matrix, the clipping paths, and for each parameter the operator and the operands that set it. -/
structure GState where
  ctm : Mat := .one
  clip : List (List Seg) := []
  param : Bytes → Option (Bytes × List Lexeme) := fun _ => none

def GState.set (g : GState) (p op : Bytes) (args : List Lexeme) : GState := { g with param := fun k => if k = p then some (op, args) else g.param k }

/-- what is painted -/
inductive Mark where
  /-- `Do`: the unit square through the current matrix (images) or the form -/
  | external (name : Bytes) (g : GState)
  /-- `Tj`, `TJ` and so on at the position given by the text matrix -/
  | text (op : Bytes) (shown : List Lexeme) (tm : Mat) (g : GState)
  /-- a path is stroked or filled -/
  | path (op : Bytes) (segs : List Seg) (g : GState)
  /-- shadings and inline images -/
  | other (op : Bytes) (args : List Lexeme) (g : GState)

/-- how far showing a text moves the text position, given the graphics state -/
abbrev TextMove := GState → Bytes → List Lexeme → ℚ

structure Painter where
  g : GState := {}
  saved : List GState := []
  args : List Lexeme := []
  tm : Mat := .one
  tlm : Mat := .one
  path : List Seg := []
  clipping : Bool := false

/-- numbers only -/
def numbers : List Lexeme → Option (List ℚ)
  | [] => some []
  | .num q :: t => (numbers t).map (q :: ·)
  | _ => none

/-- the path ends -/
def Painter.endPath (p : Painter) : Painter :=
  { p with path := [], clipping := false, g := if p.clipping then { p.g with clip := p.path :: p.g.clip } else p.g }

def Painter.newLine (p : Painter) (x y : ℚ) : Painter := { p with tm := (Mat.shift x y).mul p.tlm, tlm := (Mat.shift x y).mul p.tlm }

/-- pairs of coordinates, on the page -/
def pagePoints (m : Mat) : List ℚ → List (ℚ × ℚ)
  | x :: y :: t => m.point x y :: pagePoints m t
  | _ => []

/-- the distance between lines -/
def GState.leading (g : GState) : ℚ :=
  match g.param b!"TL" with
  | some (_, [.num l]) => l
  | _ => 0

/-- an operator with its operands -/
def Painter.exec (adv : TextMove) (p : Painter) (op : Bytes) (args : List Lexeme) : List Mark × Painter :=
  match paramOf op with
  | some k => ([], { p with g := p.g.set k op args })
  | none =>
    if op = b!"q" then ([], { p with saved := p.g :: p.saved })
    else if op = b!"Q" then (match p.saved with
      | [] => ([], p)
      | g :: r => ([], { p with g := g, saved := r }))
    else if op = b!"cm" then (match numbers args with
      | some [a, b, c, d, e, f] => ([], { p with g := { p.g with ctm := (Mat.mk a b c d e f).mul p.g.ctm } })
      | _ => ([], p))
    else if op = b!"Do" then (match args with
      | [.name n] => ([.external n p.g], p)
      | _ => ([], p))
    else if op = b!"BT" then ([], { p with tm := .one, tlm := .one })
    else if op = b!"Td" then (match numbers args with
      | some [x, y] => ([], p.newLine x y)
      | _ => ([], p))
    else if op = b!"TD" then (match numbers args with
      | some [x, y] => ([], { p with g := p.g.set b!"TL" b!"TL" [.num (-y)] }.newLine x y)
      | _ => ([], p))
    else if op = b!"Tm" then (match numbers args with
      | some [a, b, c, d, e, f] => ([], { p with tm := ⟨a, b, c, d, e, f⟩, tlm := ⟨a, b, c, d, e, f⟩ })
      | _ => ([], p))
    else if op = b!"Tj" ∨ op = b!"TJ" then ([.text op args p.tm p.g], { p with tm := (Mat.shift (adv p.g op args) 0).mul p.tm })
    else if op = b!"T*" then ([], p.newLine 0 (-p.g.leading))
    else if op = b!"'" ∨ op = [34] then
      let p' := p.newLine 0 (-p.g.leading)
      ([.text op args p'.tm p.g], { p' with tm := (Mat.shift (adv p.g op args) 0).mul p'.tm })
    else if op = b!"m" ∨ op = b!"l" ∨ op = b!"c" ∨ op = b!"v" ∨ op = b!"y" ∨ op = b!"h" then (match numbers args with
      | some qs => ([], { p with path := p.path ++ [⟨op, pagePoints p.g.ctm qs⟩] })
      | none => ([], p))
    else if op = b!"re" then (match numbers args with
      | some [x, y, w, h] => ([], { p with path := p.path ++
          [⟨b!"re", [p.g.ctm.point x y, p.g.ctm.point (x + w) y, p.g.ctm.point (x + w) (y + h), p.g.ctm.point x (y + h)]⟩] })
      | _ => ([], p))
    else if op ∈ [b!"S", b!"s", b!"f", b!"F", b!"f*", b!"B", b!"B*", b!"b", b!"b*"] then ([.path op p.path p.g], p.endPath)
    else if op = b!"n" then ([], p.endPath)
    else if op = b!"W" ∨ op = b!"W*" then ([], { p with clipping := true })
    else if op = b!"sh" ∨ op = b!"EI" then ([.other op args p.g], p)
    else ([], p)

/-- reading tokens: operands are collected, an operator uses them up -/
def Painter.run (adv : TextMove) : Painter → List Lexeme → List Mark × Painter
  | p, [] => ([], p)
  | p, .op w :: t =>
    let r := { p with args := [] }.exec adv w p.args
    (r.1 ++ (r.2.run adv t).1, (r.2.run adv t).2)
  | p, k :: t => { p with args := p.args ++ [k] }.run adv t

/-- Reading a piece of a content stream that ends between two operators: what it paints and the state after it. -/
def Paints (adv : TextMove) (p : Painter) (s : Bytes) (marks : List Mark) (p' : Painter) : Prop :=
  ∃ ts, lexer .ground s = (ts, .ground) ∧ p.run adv ts = (marks, p')

/-! ### what is expected of a text -/

/-- what a text shows: a digit of the number of a glyph, with the text rise it is shown with, or an adjustment of the position -/
inductive Item where
  | digit (c : UInt8) (rise : Option (Bytes × List Lexeme))
  | adjust (q : ℚ)

/-- the operands of `TJ`, shown with a text rise -/
def itemsOf (rise : Option (Bytes × List Lexeme)) (ts : List Lexeme) : List Item := ts.flatMap (fun t => match t with
  | .hex s => s.map (Item.digit · rise)
  | .num q => [.adjust q]
  | _ => [])

/-- what texts show -/
def items (ms : List Mark) : List Item := ms.flatMap (fun m => match m with
  | .text _ shown _ g => itemsOf (g.param b!"Ts") shown
  | _ => [])

/-- the state `h` is `g` but for some parameters -/
def GState.But (ks : List Bytes) (g h : GState) : Prop := h.ctm = g.ctm ∧ h.clip = g.clip ∧ ∀ k, k ∉ ks → h.param k = g.param k

/-- A text on the line that begins at `x`, `y`, in the state `g` but for the parameters `ks`: its first mark is there, the others are further along the line. -/
def OnLine (ks : List Bytes) (g : GState) (x y : ℚ) (ms : List Mark) : Prop :=
  (∃ shown h t, ms = .text b!"TJ" shown (.shift x y) h :: t ∧ g.But ks h) ∧
  ∀ m ∈ ms, ∃ shown dx h, m = .text b!"TJ" shown (.shift (x + dx) y) h ∧ g.But ks h

/-- equal to the precision of two decimals -/
def Near (a b : ℚ) : Prop := |a - b| ≤ 1 / 200

/-- a line from `x1`, `y1` to `x2`, `y2` is stroked in the state `g` -/
def Stroke (g : GState) (x1 y1 x2 y2 : ℚ) (m : Mark) : Prop :=
  ∃ a b c d, Near a x1 ∧ Near b y1 ∧ Near c x2 ∧ Near d y2 ∧ m = .path b!"s" [⟨b!"m", [g.ctm.point a b]⟩, ⟨b!"l", [g.ctm.point c d]⟩] g

/-- a rectangle with its lower left corner at `x`, `y` is filled in the state `g` -/
def Filled (g : GState) (x y w h : ℚ) (m : Mark) : Prop :=
  ∃ a b c d, Near a x ∧ Near b y ∧ Near c w ∧ Near d h ∧
    m = .path b!"f" [⟨b!"re", [g.ctm.point a b, g.ctm.point (a + c) b, g.ctm.point (a + c) (b + d), g.ctm.point a (b + d)]⟩] g

/-- the four edges of a box, the horizontal ones longer by `o` at both ends -/
def Edges (g : GState) (b : Box) (o : ℚ) (ms : List Mark) : Prop :=
  ∃ t l r u, ms = [t, l, r, u] ∧ Stroke g (b.left - o) b.top (b.right + o) b.top t ∧ Stroke g b.left b.top b.left b.bottom l ∧
    Stroke g b.right b.top b.right b.bottom r ∧ Stroke g (b.left - o) b.bottom (b.right + o) b.bottom u

end Verif.Spec
