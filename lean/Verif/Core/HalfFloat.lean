/-!
# `ieee754_float<W, 1, E, F>` (half, single and double precision codes): include/core/ieee754_float.h

A code is a natural number below `2^W`, `W = 1 + E + F`. The C++ computes with 64-bit integers; for the three formats used
(`W ≤ 64`) no intermediate result exceeds them, so plain natural numbers and integers are used here.
-/
namespace Verif.Core

/-- template parameters `_EXPONENT`, `_FRACTION` (with `_SIGN = 1`), ieee754_float.h:92-99 -/
structure Fmt where
  e : Nat
  f : Nat

namespace Fmt

/-- `W`, ieee754_float.h:95 -/
def W (q : Fmt) : Nat := 1 + q.e + q.f
/-- `bias`, ieee754_float.h:99 -/
def bias (q : Fmt) : Nat := (1 <<< (q.e - 1)) - 1

/-- `float16`, ieee754_float.h:330 -/
def half : Fmt := ⟨5, 10⟩
/-- `float32`, ieee754_float.h:331 -/
def single : Fmt := ⟨8, 23⟩
/-- `float64`, ieee754_float.h:332 -/
def double : Fmt := ⟨11, 52⟩

/-- `mask_fraction`, ieee754_float.h:304-306 -/
def maskFraction (q : Fmt) : Nat := (1 <<< q.f) - 1
/-- `mask_exponent`, ieee754_float.h:308-310 -/
def maskExponent (q : Fmt) : Nat := ((1 <<< q.e) - 1) <<< q.f
/-- `mask_sign`, ieee754_float.h:312-314 -/
def maskSign (q : Fmt) : Nat := 1 <<< (q.W - 1)
/-- the bits of `~mask_sign().code` inside a code: all below the sign -/
def notSign (q : Fmt) : Nat := (1 <<< (q.W - 1)) - 1

/-- `value_sign`, ieee754_float.h:291-293 -/
def valueSign (q : Fmt) (c : Nat) : Nat := (c &&& q.maskSign) >>> (q.W - 1)
/-- `value_exponent`, ieee754_float.h:295-298 -/
def valueExponent (q : Fmt) (c : Nat) : Int := (((c &&& q.maskExponent) >>> q.f : Nat) : Int) - q.bias
/-- `value_fraction`, ieee754_float.h:300-302 -/
def valueFraction (q : Fmt) (c : Nat) : Nat := c &&& q.maskFraction

/-- `iszero`, ieee754_float.h:143-145 -/
def isZero (q : Fmt) (c : Nat) : Bool := c &&& q.notSign = 0

/-- converting constructor, ieee754_float.h:112-141: from format `q` to format `p`; also `operator float/double`
(204-212) and the constructors from `float`/`double` (165-171), which only reinterpret bits around it -/
def convert (q p : Fmt) (c : Nat) : Nat :=
  if c &&& q.notSign = 0 then q.valueSign c <<< (p.W - 1)
  else
    let partSign := q.valueSign c <<< (p.W - 1)
    let partFraction := if p.f > q.f then q.valueFraction c <<< (p.f - q.f) else q.valueFraction c >>> (q.f - p.f)
    let originExponent : Int := q.valueExponent c + p.bias
    let maxExponent : Int := ((1 <<< p.e : Nat) : Int) - 2
    let maxFraction := (1 <<< p.f) - 1
    let ef : Nat × Nat :=
      if originExponent < 0 then (0, 1)
      else if originExponent > maxExponent then (maxExponent.toNat, maxFraction)
      else (originExponent.toNat, partFraction)
    partSign ||| ((ef.1 <<< p.f) &&& p.maskExponent) ||| ef.2

/-- `operator==`, ieee754_float.h:248-255 -/
def eq (q : Fmt) (a b : Nat) : Bool :=
  if q.isZero a then q.isZero b
  else if q.isZero b then false
  else a == b

/-- `operator>=`, ieee754_float.h:261-266 -/
def ge (q : Fmt) (a b : Nat) : Bool :=
  q.eq a b || (if (a ||| b) &&& q.maskSign = 0 then decide (a > b) else decide (a < b))
/-- `operator<=`, ieee754_float.h:268-273 -/
def le (q : Fmt) (a b : Nat) : Bool :=
  q.eq a b || (if (a ||| b) &&& q.maskSign = 0 then decide (a < b) else decide (a > b))
/-- `operator>`, ieee754_float.h:275-277 -/
def gt (q : Fmt) (a b : Nat) : Bool := !q.le a b
/-- `operator<`, ieee754_float.h:279-281 -/
def lt (q : Fmt) (a b : Nat) : Bool := !q.ge a b

end Fmt
end Verif.Core
