import Verif.Spec.GoText
import Verif.Theorems.FontObj
/-!
# The resources of the files GoPdf writes

Which fonts and images are asked for, read off the calls alone.
-/
namespace Verif.Spec
open Verif

/-- a font that is added: family, file, whether its kerning is used, and style -/
structure Added where
  family : Bytes
  file : Bytes
  kerning : Bool
  style : Nat

/-- the fonts that are added -/
def addedFonts (cs : List GCall) : List Added := cs.filterMap (fun c => match c with
  | .addFont f d k s => some ⟨f, d, k, s⟩
  | _ => none)

/-- the family and style that are chosen last -/
def chosenFont (cs : List GCall) : Option (Bytes × Nat) := (cs.filterMap (fun c => match c with
  | .setFont f s _ => some (f, s)
  | _ => none)).getLast?

/-- the styles are the same but for the underline (4), which is not a matter of the font -/
def sameStyle (a s : Nat) : Bool := a = s || (s &&& 4 = 4 && a + 4 = s)

/-- the font that is meant: the first one of that family and style -/
def meantFont (as : List Added) (p : Bytes × Nat) : Option Nat := as.findIdx? (fun a => a.family = p.1 && sameStyle a.style p.2)

/-- the images in the order of their first use, with what they are known by and the file given then -/
def pictures (cs : List GCall) : List (Bytes × Bytes) := cs.foldl (fun l c => match c with
  | .image id f _ _ _ => if l.any (fun p => p.1 = id) then l else l ++ [(id, f)]
  | _ => l) []

/-- the resources of all pages: object 3 (`PageIs`), with the names of fonts and of images -/
def ResourcesAre (bodies : List Bytes) (fonts images : List (Bytes × Val)) : Prop :=
  ∃ body d, objAt bodies 3 = some body ∧ DictObject body d ∧ d.lookup b!"Font" = some (.dict fonts) ∧ d.lookup b!"XObject" = some (.dict images) ∧
    (fonts.map (·.1)).Nodup ∧ (images.map (·.1)).Nodup

/-- Under this name the text finds its font: it is embedded as a font of the family (`FontGraph`, from the font `t`), with all characters of the text, under the numbers that stand in the text, and
with their widths. -/
def FontFound (zip : Bytes → Bytes) (bodies : List Bytes) (fonts : List (Bytes × Val)) (name family : Bytes) (f : FontState) (text : Bytes) : Prop :=
  ∃ (n cid uni desc file : Int) (ws : List Val) (chars : CharMap) (fontFile : Bytes), fonts.lookup name = some (.ref n) ∧
    FontGraph (objsOf bodies) n (subsetName family) cid uni desc file ws (unicodeStream chars) (zip fontFile) fontFile.length f.ttf ∧
    makeFont f.ttf chars = .ok fontFile ∧ FontOK f.ttf chars ∧
    ∀ r ∈ runes text, r ∈ chars.keys ∧ ∃ g x, charIndex f.chars r = .ok g ∧ charIndex chars r = .ok g ∧ charToGlyph f.ttf r = .ok g ∧ runeWidth f.ttf r = .ok x ∧ widthIn ws g = some (x : ℚ)

/-- What is on a page finds its resources: a text the font that was added, used with its kerning as asked for; an image the object that is made of its file (`App.makeImg`, see C74), if that is a
single object. -/
def ThingFound (env : GEnv) (bodies : List Bytes) (fonts images : List (Bytes × Val)) (cs : List GCall) : Thing → Prop
  | .draw _ => True
  | .text w => ∃ a, (addedFonts cs)[w.font]? = some a ∧ parseTtfKern a.kerning a.file = .ok w.state.ttf ∧ w.state.kernOverride.isSome = a.kerning ∧
      FontFound env.zip bodies fonts (b!"F" ++ itoa w.idx) a.family w.state w.text
  | .image k _ _ _ => ∃ (id file body : Bytes) (n : Nat), (pictures cs)[k]? = some (id, file) ∧ images.lookup (b!"I" ++ itoa ((k : Int) + 1)) = some (.ref n) ∧ objAt bodies n = some body ∧
      ∀ (a : App) (im : ImageData), a.makeImg env.toEnv file = .ok (a, im) → body = b!"\n" ++ im.buf

end Verif.Spec
