import Verif.App
/-
render/render.go and render/field_info.go: filling the fields of a template.

Simplification: wrapped errors are the error they wrap; logging has no effect.
-/
namespace Verif

/-- render/field_info.go:14-24 `FieldInfo` -/
structure FieldInfo where
  key : Bytes
  pageNum : Int
  x : ℚ
  y : ℚ
  w : ℚ
  h : ℚ
  align : Nat
  font : Bytes
  size : Int
  isWrapText : Bool
deriving DecidableEq

/-- `m[i.Key] = i` -/
def fieldPut (m : List (Bytes × FieldInfo)) (i : FieldInfo) : List (Bytes × FieldInfo) :=
  if (m.lookup i.key).isSome then m.map (fun p => if p.1 = i.key then (i.key, i) else p) else m ++ [(i.key, i)]

/-- render/field_info.go:6-12 `toMap` -/
def toFieldMap (l : List FieldInfo) : List (Bytes × FieldInfo) := l.foldl fieldPut []

/-- render/render.go:27-31 `Render` -/
structure Render where
  app : App
  fields : List (Bytes × FieldInfo)
  breaker : Option (Bytes → Option (List Bytes)) := none

/-- a method of the embedded `PDFt` -/
def Render.lift (r : Render) (s : Step App) : Step Render := ⟨{ r with app := s.state }, s.res⟩

/-- render/render.go:16-24 `NewRender`, given the bytes of the file -/
def newRender (env : Env) (raw : Bytes) (l : List FieldInfo) : Step Render := Render.lift { app := {}, fields := toFieldMap l } (App.openFrom env {} raw)

/-- render/render.go:38-62 `Text` -/
def Render.text (env : Env) (r : Render) (key text : Bytes) : Step Render :=
  match r.fields.lookup key with
  | none => ⟨r, .ok ()⟩
  | some f =>
    match r.app.setFont env f.font [] f.size with
    | ⟨a, .ok _⟩ =>
      if f.isWrapText then r.lift (a.insertWrapText env text f.pageNum f.x f.y f.w f.h f.align none r.breaker)
      else r.lift (a.insert env text f.pageNum f.x f.y f.w f.h f.align none)
    | s => r.lift s

/-- render/render.go:65-76 `ImgBase64` -/
def Render.imgBase64 (env : Env) (r : Render) (key b64 : Bytes) : Step Render :=
  match r.fields.lookup key with
  | some f => r.lift (r.app.insertImgBase64 env b64 f.pageNum f.x f.y f.w f.h)
  | none => ⟨r, .ok ()⟩

/-- render/render.go:81-84: the loop over the fields; errors are ignored, panics are not -/
def designLoop (env : Env) : List (Bytes × FieldInfo) → App → Step App
  | [], a => ⟨a, .ok ()⟩
  | (key, f) :: t, a =>
    match (a.setFont env f.font [] f.size).state.insert env (b!"#" ++ key) f.pageNum f.x f.y f.w f.h f.align none with
    | ⟨a, .panic⟩ => ⟨a, .panic⟩
    | ⟨a, .hang⟩ => ⟨a, .hang⟩
    | ⟨a, _⟩ => designLoop env t a

/-- render/render.go:79-85 `ShowDesignView` -/
def Render.showDesignView (env : Env) (r : Render) : Step Render :=
  r.lift (designLoop env ((env.order 30).fn r.fields) (r.app.showCellBorder true))

end Verif
