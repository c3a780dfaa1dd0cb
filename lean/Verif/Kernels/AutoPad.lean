import Verif.Kernels.Geometry
/-!
# Operators that compute the padding of a convolution or pooling (src/backend/tf, src/backend/onnx, src/backend/mxnet, src/backend/dragon)

They are run before the convolution or pooling, in models converted from other frameworks, and give its padding: an INT32 tensor of 4 rows of 2. `rnd` is the rounding of `float`.
Parameters are lists of INT32, after `tensor::cast`.
-/
namespace Verif.Kernels
open Verif.Core

/-- `int(std::ceil(n / float(s)))`, tf/conv2d_padding.cpp:97-100, 128-131: infinities and NaN, from a stride of zero, cannot be converted -/
def floatCeil (rnd : Rat → Rat) (n s : Int) : Res Int := if s = 0 then .ub else int32 ⌈rnd (rnd n / rnd s)⌉

/-- `forward_valid`, tf/conv2d_padding.cpp:97-100; the same in tf/pooling2d_padding.cpp:83-86 and onnx/pooling2d_auto_pad.cpp:96-99 -/
def forwardValid (rnd : Rat → Rat) (n k s : Int) : Res Int := do
  let a ← int32 (n - k)
  let a ← int32 (a + 1)
  floatCeil rnd a s

/-- `x.height + padding.top + padding.bottom`, tf/conv2d_padding.cpp:107 -/
def padded (x b a : Int) : Res Int := do
  let n ← int32 (x + b)
  int32 (n + a)

/-- the end of `dynamic_padding_valid`, tf/conv2d_padding.cpp:120-123: padding before and after -/
def endValid (x b a x' : Int) : Res (Int × Int) := do
  let q ← int32 (a + x')
  let q ← int32 (q - x)
  .ok (b, q)

/-- the end of `dynamic_padding_same`, tf/conv2d_padding.cpp:151-159, onnx/pooling2d_auto_pad.cpp:145-153: half of what is missing before, the rest after -/
def endSame (x b a x' : Int) : Res (Int × Int) := do
  let need ← int32 (x' - x)
  let half ← div32 need 2
  let p ← int32 (b + half)
  let rest ← int32 (need - half)
  let q ← int32 (a + rest)
  .ok (p, q)

/-- the end of `dynamic_padding_same_lower`, onnx/pooling2d_auto_pad.cpp:166-174: the rest before -/
def endSameLower (x b a x' : Int) : Res (Int × Int) := do
  let need ← int32 (x' - x)
  let half ← div32 need 2
  let rest ← int32 (need - half)
  let p ← int32 (b + rest)
  let q ← int32 (a + half)
  .ok (p, q)

/-- `dynamic_padding_valid` for a convolution, in one direction, tf/conv2d_padding.cpp:102-126 -/
def tfConvValid (rnd : Rat → Rat) (x b a k s d : Int) : Res (Int × Int) := do
  let e ← dilatedKernel k d
  let n ← padded x b a
  let y ← forwardValid rnd n e s
  let x' ← convBackward y b a k s d
  endValid x b a x'

/-- `dynamic_padding_same` for a convolution, tf/conv2d_padding.cpp:133-162: the extent of the kernel is computed but not used -/
def tfConvSame (rnd : Rat → Rat) (x b a k s d : Int) : Res (Int × Int) := do
  let _ ← dilatedKernel k d
  let n ← padded x b a
  let y ← floatCeil rnd n s
  let x' ← convBackward y b a k s d
  endSame x b a x'

/-- `dynamic_pooling2d_valid`, tf/pooling2d_padding.cpp:88-110, and `dynamic_padding_valid`, onnx/pooling2d_auto_pad.cpp:101-122 -/
def tfPoolValid (rnd : Rat → Rat) (x b a k s : Int) : Res (Int × Int) := do
  let n ← padded x b a
  let y ← forwardValid rnd n k s
  let x' ← poolBackward y b a k s
  endValid x b a x'

/-- `dynamic_padding_same`, tf/pooling2d_padding.cpp:117-144, and `dynamic_padding_same_upper`, onnx/pooling2d_auto_pad.cpp:129-156 -/
def tfPoolSame (rnd : Rat → Rat) (x b a k s : Int) : Res (Int × Int) := do
  let n ← padded x b a
  let y ← floatCeil rnd n s
  let x' ← poolBackward y b a k s
  endSame x b a x'

/-- `dynamic_padding_same_lower`, onnx/pooling2d_auto_pad.cpp:158-177 -/
def onnxSameLower (rnd : Rat → Rat) (x b a k s : Int) : Res (Int × Int) := do
  let n ← padded x b a
  let y ← floatCeil rnd n s
  let x' ← poolBackward y b a k s
  endSameLower x b a x'

/-- `dynamic_padding_notset`, onnx/pooling2d_auto_pad.cpp:68-94, and the light version in mxnet/pooling2d_padding.cpp:114-120 -/
def cutRest (x b a k s : Int) : Res (Int × Int) := do
  let n ← padded x b a
  let n ← int32 (n - k)
  let r ← mod32 n s
  let q ← int32 (a - r)
  .ok (b, q)

/-- the number of windows before the correction, dragon/pooling2d_auto_pad.cpp:70-74: rounded up or down, plus one in `float` or `double` (both exact below 2^24) -/
def dragonCount (rnd : Rat → Rat) (up : Bool) (n s : Int) : Res Int :=
  if s = 0 then .ub else
  if up then int32 (⌈rnd (rnd n / rnd s)⌉ + 1) else int32 (⌊rnd (rnd n / rnd s)⌋ + 1)

/-- `if ((y - 1) * stride >= n) y--`, dragon/pooling2d_auto_pad.cpp:75 -/
def dragonCorrect (y n s : Int) : Res Int := do
  let l ← int32 (y - 1)
  let l ← int32 (l * s)
  if n ≤ l then int32 (y - 1) else .ok y

/-- `dynamic_padding_valid` of the pooling, dragon/pooling2d_auto_pad.cpp:67-99 -/
def dragonPoolValid (rnd : Rat → Rat) (up : Bool) (x b a k s : Int) : Res (Int × Int) := do
  let n ← padded x b a
  let m ← int32 (n - k)
  let y ← dragonCount rnd up m s
  let y ← dragonCorrect y n s
  let x' ← poolBackward y b a k s
  endValid x b a x'

/-- `int((idm + stride - 1) / float(stride))`, dragon/pooling2d_auto_pad.cpp:126, dragon/conv2d_padding.cpp:139: towards zero -/
def dragonOdm (rnd : Rat → Rat) (x s : Int) : Res Int := do
  let n ← int32 (x + s)
  let n ← int32 (n - 1)
  if s = 0 then .ub else int32 (if 0 ≤ rnd (rnd n / rnd s) then ⌊rnd (rnd n / rnd s)⌋ else ⌈rnd (rnd n / rnd s)⌉)

/-- `padding_needed`, dragon/pooling2d_auto_pad.cpp:127, dragon/conv2d_padding.cpp:140: `(odm - 1) * stride + k - idm`, or zero when that is negative -/
def dragonNeed (odm x k s : Int) : Res Int := do
  let l ← int32 (odm - 1)
  let l ← int32 (l * s)
  let l ← int32 (l + k)
  let l ← int32 (l - x)
  .ok (max 0 l)

/-- `pad_l`, dragon/pooling2d_auto_pad.cpp:133-134, dragon/conv2d_padding.cpp:146-147: half of what is needed, or the rest -/
def dragonBefore (half : Bool) (need : Int) : Res Int := do
  let h ← div32 need 2
  if half then .ok h else int32 (need - h)

/-- the end of `dynamic_padding_same`, dragon/pooling2d_auto_pad.cpp:159-165, dragon/conv2d_padding.cpp:177-185: everything that is missing and not before comes after -/
def dragonEnd (p x b a x' : Int) : Res (Int × Int) := do
  let need ← int32 (x' - x)
  let rest ← int32 (need - p)
  let q ← int32 (b + a)
  let q ← int32 (q + rest)
  .ok (p, q)

/-- `dynamic_padding_same` of the pooling, dragon/pooling2d_auto_pad.cpp:122-168: `upper` has half before -/
def dragonPoolSame (rnd : Rat → Rat) (upper : Bool) (x b a k s : Int) : Res (Int × Int) := do
  let odm ← dragonOdm rnd x s
  let need ← dragonNeed odm x k s
  let p ← dragonBefore upper need
  let y ← floatCeil rnd x s
  let x' ← poolBackward y b a k s
  dragonEnd p x b a x'

/-- `dynamic_padding_same` of the convolution, dragon/conv2d_padding.cpp:133-188: `padding != SAME_UPPER` has half before; the expected input is that of a pooling, without dilation -/
def dragonConvSame (rnd : Rat → Rat) (upper : Bool) (x b a k s d : Int) : Res (Int × Int) := do
  let e ← dilatedKernel k d
  let y ← dragonOdm rnd x s
  let need ← dragonNeed y x e s
  let p ← dragonBefore (!upper) need
  let x' ← poolBackward y b a k s
  dragonEnd p x b a x'

/-! ## The operators -/

/-- the two layouts; another `format` is refused, tf/conv2d_padding.cpp:38-44 -/
def padFormat (s : String) : Res Bool := if s = "NCHW" then .ok true else if s = "NHWC" then .ok false else .err

/-- entries of a parameter after `has_shape` -/
def at8 (l : List Int) (i : Nat) : Res Int := match l[i]? with
  | some v => .ok v
  | none => .ub

/-- the numbers of two spatial directions in a list of four, tf/conv2d_padding.cpp:64-69, 81-86 and pooling: unchecked reads -/
def spatial (nchw : Bool) (l : List Int) : Res (Int × Int) := do
  let h ← at8 l (if nchw then 2 else 1)
  let w ← at8 l (if nchw then 3 else 2)
  .ok (h, w)

/-- padding of the two directions in a 4 x 2 parameter, tf/conv2d_padding.cpp:58-61, 75-78 -/
def spatialPad (nchw : Bool) (l : List Int) : Res ((Int × Int) × (Int × Int)) := do
  let t ← at8 l (if nchw then 4 else 2)
  let b ← at8 l (if nchw then 5 else 3)
  let x ← at8 l (if nchw then 6 else 4)
  let y ← at8 l (if nchw then 7 else 5)
  .ok ((t, b), (x, y))

/-- the check of the other directions, tf/conv2d_padding.cpp:54-57, 71-74: one of the four is zero -/
def otherPadOk (nchw : Bool) (l : List Int) : Bool :=
  if nchw then l[0]? == some 0 || l[1]? == some 0 || l[2]? == some 0 || l[3]? == some 0
  else l[0]? == some 0 || l[1]? == some 0 || l[6]? == some 0 || l[7]? == some 0

/-- the check of dilation and stride, tf/conv2d_padding.cpp:62-63, 66-67, 79-80, 83-84: one of the two is one -/
def otherOneOk (nchw : Bool) (l : List Int) : Bool := if nchw then l[0]? == some 1 || l[1]? == some 1 else l[0]? == some 1 || l[3]? == some 1

/-- the result, tf/conv2d_padding.cpp:202-223 -/
def padOut (nchw : Bool) (h w : Int × Int) : List Int := if nchw then [0, 0, 0, 0, h.1, h.2, w.1, w.2] else [0, 0, h.1, h.2, w.1, w.2, 0, 0]

/-- what a convolution's operator does in each direction -/
abbrev PadConv := Int → Int → Int → Int → Int → Int → Res (Int × Int)

/-- what a pooling's operator does in each direction -/
abbrev PadPool := Int → Int → Int → Int → Int → Res (Int × Int)

/-- `padding_method`, tf/conv2d_padding.cpp:28-34 -/
def tfMethod (rnd : Rat → Rat) (m : String) : Res PadConv := if m = "SAME" then .ok (tfConvSame rnd) else if m = "VALID" then .ok (tfConvValid rnd) else .err

/-- dragon/conv2d_padding.cpp:29-41: SAME is SAME_LOWER, NOTSET is VALID; VALID gives the static padding (105-118) -/
def dragonMethod (rnd : Rat → Rat) (m : String) : Res PadConv :=
  if m = "SAME" then .ok (dragonConvSame rnd false)
  else if m = "VALID" ∨ m = "NOTSET" then .ok fun _ b a _ _ _ => .ok (b, a)
  else if m = "SAME_UPPER" then .ok (dragonConvSame rnd true)
  else if m = "SAME_LOWER" then .ok (dragonConvSame rnd false)
  else .err

/-- `Conv2DPadding::init` and `run`, tf/conv2d_padding.cpp:23-226 and dragon/conv2d_padding.cpp:24-253 (with another `method`). The element types of image and kernel are `xt`, `wt`,
their extents `xs`, `ws`; `w.size(1) == x.size(1)` is required in both layouts -/
def convPadding (method : Res PadConv) (format : String) (pad dil str : List Int) (xt wt : Nat) (xs ws : List Int) : Res (List Int) := do
  let f ← method
  let nchw ← padFormat format
  if pad.length = 8 ∧ dil.length = 4 ∧ str.length = 4 ∧ otherPadOk nchw pad ∧ otherOneOk nchw dil ∧ otherOneOk nchw str then do
    let p ← spatialPad nchw pad
    let d ← spatial nchw dil
    let s ← spatial nchw str
    if xs.length = 4 ∧ ws.length = 4 ∧ xt = wt ∧ ws[1]? = xs[1]? then do
      let x ← spatial nchw xs
      let k ← spatial nchw ws
      let h ← f x.1 p.1.1 p.1.2 k.1 s.1 d.1
      let w ← f x.2 p.2.1 p.2.2 k.2 s.2 d.2
      .ok (padOut nchw h w)
    else .err
  else .err

/-- tf/pooling2d_padding.cpp:32-38 -/
def tfPoolMethod (rnd : Rat → Rat) (m : String) : Res PadPool := if m = "SAME" then .ok (tfPoolSame rnd) else if m = "VALID" then .ok (tfPoolValid rnd) else .err

/-- onnx/pooling2d_auto_pad.cpp:31-41, 203-216 -/
def onnxPoolMethod (rnd : Rat → Rat) (m : String) : Res PadPool :=
  if m = "NOTSET" then .ok cutRest
  else if m = "SAME_LOWER" then .ok (onnxSameLower rnd)
  else if m = "SAME_UPPER" then .ok (tfPoolSame rnd)
  else if m = "VALID" then .ok (tfPoolValid rnd)
  else .err

/-- dragon/pooling2d_auto_pad.cpp:36-48, 194-209 -/
def dragonPoolMethod (rnd : Rat → Rat) (up : Bool) (m : String) : Res PadPool :=
  if m = "VALID" ∨ m = "NOTSET" then .ok (dragonPoolValid rnd up)
  else if m = "SAME" ∨ m = "SAME_LOWER" then .ok (dragonPoolSame rnd false)
  else if m = "SAME_UPPER" then .ok (dragonPoolSame rnd true)
  else .err

/-- the operators for poolings: `Pooling2DPadding`, tf/pooling2d_padding.cpp:27-211 (`checked`), and `Pooling2DAutoPad`, onnx/pooling2d_auto_pad.cpp:26-230,
dragon/pooling2d_auto_pad.cpp:29-223 (these with `format` NCHW). Image shape, kernel and stride are not checked -/
def poolPadding (checked : Bool) (method : Res PadPool) (format : String) (pad : List Int) (xs ks ss : List Int) : Res (List Int) := do
  let f ← method
  let nchw ← padFormat format
  if pad.length = 8 ∧ (checked = true → otherPadOk nchw pad = true) then do
    let p ← spatialPad nchw pad
    let k ← spatial nchw ks
    let s ← spatial nchw ss
    let x ← spatial nchw xs
    let h ← f x.1 p.1.1 p.1.2 k.1 s.1
    let w ← f x.2 p.2.1 p.2.2 k.2 s.2
    .ok (padOut nchw h w)
  else .err

/-- `Pooling2dPadding`, mxnet/pooling2d_padding.cpp:30-149: with `valid` the rest is cut off, otherwise the static padding is given -/
def mxPadding (valid : Bool) (format : String) (pad : List Int) (xs ks ss : List Int) : Res (List Int) :=
  if valid then poolPadding false (.ok cutRest) format pad xs ks ss
  else do
    let nchw ← padFormat format
    if pad.length = 8 then do
      let p ← spatialPad nchw pad
      .ok (padOut nchw p.1 p.2)
    else .err

end Verif.Kernels
