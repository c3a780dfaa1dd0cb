import Mathlib.Algebra.Order.Field.Basic
/-!
# Transformations of the plane, include/api/cpp/graphics2d.h

The functions are templates over the element type; the model is over any ordered field, without rounding. The asserts of
`inverse` are compiled out with `NDEBUG` and are not part of the model.
-/
namespace Verif.Api.Graphics2d

variable {K : Type} [Field K]

/-- `Trans2D`, graphics2d.h:61-83: the nine elements by row -/
structure Trans2D (K : Type) where
  d0 : K
  d1 : K
  d2 : K
  d3 : K
  d4 : K
  d5 : K
  d6 : K
  d7 : K
  d8 : K
  deriving DecidableEq

/-- the elements in memory, `Buf::data()`, graphics2d.h:30 -/
def Trans2D.toList (M : Trans2D K) : List K := [M.d0, M.d1, M.d2, M.d3, M.d4, M.d5, M.d6, M.d7, M.d8]

/-- `Buf::data(n)`, graphics2d.h:26; an index of nine or more is outside -/
def Trans2D.at (M : Trans2D K) (n : Nat) : K := M.toList.getD n 0

/-- `Mat::data(m, n)`, graphics2d.h:48 -/
def Trans2D.data (M : Trans2D K) (m n : Nat) : K := M.at (m * 3 + n)

/-- `Vec3D`, graphics2d.h:85-113 -/
structure Vec3D (K : Type) where
  x : K
  y : K
  z : K
  deriving DecidableEq

/-- `Vec2D`, graphics2d.h:115-133 -/
structure Vec2D (K : Type) where
  x : K
  y : K
  deriving DecidableEq

/-- `dot`, graphics2d.h:146-161 -/
def dot (A B : Trans2D K) : Trans2D K :=
  let ip := fun m n => A.data m 0 * B.data 0 n + A.data m 1 * B.data 1 n + A.data m 2 * B.data 2 n
  ⟨ip 0 0, ip 0 1, ip 0 2, ip 1 0, ip 1 1, ip 1 2, ip 2 0, ip 2 1, ip 2 2⟩

/-- `stack`, graphics2d.h:169-171: the new value of `A` -/
def stack (A B : Trans2D K) : Trans2D K := dot B A

/-- `transform` of a 3D vector, graphics2d.h:181-190 -/
def transform3 (M : Trans2D K) (p : Vec3D K) : Vec3D K :=
  let ip := fun n => M.data n 0 * p.x + M.data n 1 * p.y + M.data n 2 * p.z
  ⟨ip 0, ip 1, ip 2⟩

/-- `transform` of a point, graphics2d.h:199-202 -/
def transform (M : Trans2D K) (p : Vec2D K) : Vec2D K :=
  let t := transform3 M ⟨p.x, p.y, 1⟩
  ⟨t.x, t.y⟩

/-- `affine::inverse`, graphics2d.h:212-224; `eps` is `FLT_EPSILON` (for every element type) -/
def inverse [LinearOrder K] (eps : K) (M : Trans2D K) : Trans2D K :=
  let t := M.at 3 * M.at 1 - M.at 0 * M.at 4
  let t := if t < eps ∧ t > -eps then eps * 2 else t
  let r := 1 / t
  ⟨-M.at 4 * r, M.at 1 * r, -(M.at 1 * M.at 5 - M.at 4 * M.at 2) * r,
    M.at 3 * r, -M.at 0 * r, -(M.at 3 * M.at 2 - M.at 0 * M.at 5) * r, 0, 0, 1⟩

/-- `affine::rotate`, graphics2d.h:233-242; `c` and `s` are cosine and sine of the degree times pi / 180 -/
def rotateBy (c s : K) : Trans2D K := ⟨c, -s, 0, s, c, 0, 0, 0, 1⟩

/-- `affine::translate`, graphics2d.h:252-258 -/
def translate (tx ty : K) : Trans2D K := ⟨1, 0, tx, 0, 1, ty, 0, 0, 1⟩

/-- `affine::identity`, graphics2d.h:266-272 -/
def identity : Trans2D K := ⟨1, 0, 0, 0, 1, 0, 0, 0, 1⟩

/-- `affine::scale(sx, sy)`, graphics2d.h:282-288 -/
def scale (sx sy : K) : Trans2D K := ⟨sx, 0, 0, 0, sy, 0, 0, 0, 1⟩

/-- `affine::scale(s)`, graphics2d.h:297-299 -/
def scale1 (s : K) : Trans2D K := scale s s

/-- `affine::shear`, graphics2d.h:309-315 -/
def shear (shx shy : K) : Trans2D K := ⟨1, shx, 0, shy, 1, 0, 0, 0, 1⟩

/-- `affine::shear_x`, graphics2d.h:324-326 -/
def shearX (sh : K) : Trans2D K := shear sh 0

/-- `affine::shear_y`, graphics2d.h:335-337 -/
def shearY (sh : K) : Trans2D K := shear 0 sh

/-- `affine::reflect`, graphics2d.h:347-353 -/
def reflect (fx fy : Bool) : Trans2D K := ⟨if fx then -1 else 1, 0, 0, 0, if fy then -1 else 1, 0, 0, 0, 1⟩

/-- `affine::reflect_about_origin`, graphics2d.h:361-367 -/
def reflectOrigin : Trans2D K := ⟨-1, 0, 0, 0, -1, 0, 0, 0, 1⟩

/-- `affine::reflect_about_x_axis`, graphics2d.h:375-381; the two arguments are not used -/
def reflectX (_fx _fy : Bool) : Trans2D K := ⟨1, 0, 0, 0, -1, 0, 0, 0, 1⟩

/-- `affine::reflect_about_y_axis`, graphics2d.h:389-395; the two arguments are not used -/
def reflectY (_fx _fy : Bool) : Trans2D K := ⟨-1, 0, 0, 0, 1, 0, 0, 0, 1⟩

end Verif.Api.Graphics2d
