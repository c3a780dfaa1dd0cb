import Verif.Core.Res
import Mathlib.Data.Rat.Floor
/-!
# Window geometry (include/backend/common_function.h)

One spatial dimension; the height and width formulas are the same. `pad` is the sum of the padding before and after.
`int` operations are checked for overflow and division by zero; `std::floor` of an `int` is the identity.
-/
namespace Verif.Kernels
open Verif.Core

/-- `dialations * (ksize - 1) + 1`, common_function.h:35 -/
def dilatedKernel (k d : Int) : Res Int := do
  let a ← int32 (k - 1)
  let b ← int32 (d * a)
  int32 (b + 1)

/-- `conv2d_forward`, common_function.h:30-42; the same formula in im2col.cpp:43-47 and inferer/factory.cpp:166-168.
`x + top + bottom` is evaluated from the left. -/
def convForward (x before after k s d : Int) : Res Int := do
  let a ← int32 (x + before)
  let a ← int32 (a + after)
  let e ← dilatedKernel k d
  let n ← int32 (a - e)
  let q ← div32 n s
  int32 (q + 1)

/-- `conv2d_backward`, common_function.h:44-52 -/
def convBackward (y before after k s d : Int) : Res Int := do
  let a ← int32 (y - 1)
  let b ← int32 (a * s)
  let e ← dilatedKernel k d
  let c ← int32 (b + e)
  let c ← int32 (c - before)
  int32 (c - after)

/-- `pooling2d_forward`, common_function.h:14-20. `rnd` is the rounding of `float` arithmetic: the numerator and the
stride are converted to `float`, divided in `float`, and `1` is added in `float`. A stride of zero gives an infinity or
a NaN, whose conversion to `int` is undefined. -/
def poolForward (rnd : Rat → Rat) (x before after k s : Int) : Res Int := do
  let a ← int32 (x + before)
  let a ← int32 (a + after)
  let n ← int32 (a - k)
  if s = 0 then .ub
  else int32 ⌈rnd (rnd (rnd n / rnd s) + 1)⌉

/-- `pooling2d_backward`, common_function.h:22-28 -/
def poolBackward (y before after k s : Int) : Res Int := do
  let a ← int32 (y - 1)
  let b ← int32 (a * s)
  let c ← int32 (b + k)
  let c ← int32 (c - before)
  int32 (c - after)

end Verif.Kernels
