import Verif.Model.Shape
/-
Raster images: apl/image.go and apl/domain/image.go.
Simplifications: the bounds of an image begin at 0 0, as they do for all images that are made from arrays; the image is an `image.RGBA` of Go's
library, whose `Set` ignores points outside, and whose `At` gives the zero color there.
-/
namespace Iv

/-- Go's `color.RGBA`: four bytes -/
structure RGBA where
  r : Nat
  g : Nat
  b : Nat
  a : Nat
deriving DecidableEq, Repr

/-- apl/image.go:95-98, apl/domain/image.go:117-120 `toColor` -/
def toColor (i : Int) : RGBA :=
  let u := (i % 2 ^ 32).toNat
  ⟨((u &&& 0xFF0000) >>> 16) % 256, ((u &&& 0xFF00) >>> 8) % 256, (u &&& 0xFF) % 256, 255 - (u >>> 24) % 256⟩

/-- Go's `RGBA.RGBA`: each byte twice -/
def wide (c : Nat) : Nat := c ||| c <<< 8

/-- apl/image.go:90-94 `colorValue` -/
def colorValue (c : RGBA) : Nat :=
  ((255 - (wide c.a >>> 8)) <<< 16) ||| ((wide c.r &&& 0xFF00) <<< 8) ||| (wide c.g &&& 0xFF00) ||| (wide c.b >>> 8)

/-- apl/image.go:34-37 `Image`: shape H W, and the pixels of the Go image line by line -/
structure Img where
  h : Nat
  w : Nat
  pix : List RGBA
deriving DecidableEq, Repr

/-- Go's `image.RGBA.At` -/
def Img.goAt (m : Img) (x y : Nat) : RGBA := if x < m.w ∧ y < m.h then m.pix.getD (y * m.w + x) ⟨0, 0, 0, 0⟩ else ⟨0, 0, 0, 0⟩

/-- Go's `image.RGBA.Set` -/
def Img.goSet (m : Img) (x y : Nat) (c : RGBA) : Img := if x < m.w ∧ y < m.h then { m with pix := m.pix.set (y * m.w + x) c } else m

/-- apl/image.go:44-48 `Image.At` -/
def Img.at (m : Img) (k : Nat) : Res Nat := do
  let ic ← newIdxConverter [m.h, m.w]
  let idx := icIndexes ic.1 k
  .ok (colorValue (m.goAt (idx.getD 0 0) (idx.getD 1 0)))

/-- what is given to `Set`: a number with its index, if it has one -/
inductive PixArg
  | int (n : Int)
  | noIndex
  | noNumber

/-- apl/image.go:55-72 `Image.Set` -/
def Img.setAt (m : Img) (k : Nat) (v : PixArg) : Res Img :=
  match v with
  | .noNumber => .error .err
  | .noIndex => .error .err
  | .int c =>
    if m.w = 0 then .error .panic
    else
      let y := k / m.w
      let x := k - y * m.w
      .ok (m.goSet x y (toColor c))

/-- apl/image.go:81-84: one line; `ints[idx]` panics if it does not exist. -/
def readRow (m : Img) (y : Nat) (s : List Int × Nat) : List Int × Nat :=
  (List.range m.w).foldl (fun s x => (s.1.set s.2 (colorValue (m.goAt x y)), s.2 + 1)) s

/-- apl/image.go:74-87 `toIntArray`: the integers line by line; also the text of an image. -/
def Img.toInts (m : Img) : List Int :=
  ((List.range m.h).foldl (fun s y => readRow m y s) (List.replicate (m.h * m.w) 0, 0)).1

/-- apl/domain/image.go:95-105: one line -/
def drawLine (ints : List Int) (w y : Nat) (s : Img × Nat) : Img × Nat :=
  (List.range w).foldl (fun s x => (s.1.goSet x y (toColor (ints.getD s.2 0)), s.2 + 1)) s

/-- what is converted: an array of integers (with at least as many as its shape requires), a list of two arrays (the image and the palette), or other -/
inductive ImgArg
  | ints (shape : List Nat) (ints : List Int)
  | indexed (shape : List Nat) (ints pal : List Int)
  | other

/-- apl/domain/image.go:70-114 `ints2image` without a palette -/
def ints2image (shape : List Nat) (ints : List Int) : Option Img :=
  match shape with
  | [h, w] => some ((List.range h).foldl (fun s y => drawLine ints w y s) (⟨h, w, List.replicate (h * w) ⟨0, 0, 0, 0⟩⟩, 0)).1
  | _ => none

/-- apl/domain/image.go:12-14, 36-68 `ToImage`, apl/primitives/type.go:46-60 (`img⌶R).  Line 60 rejects all lists. -/
def toImage : ImgArg → Res Img
  | .ints shape ints => match ints2image shape ints with
    | some m => .ok m
    | none => .error .err
  | .indexed _ _ _ => .error .err
  | .other => .error .err

end Iv
