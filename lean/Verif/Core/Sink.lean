import Verif.Core.Res
/-!
# `sink<T, Q>`: fixed-point numbers, include/core/sink.h (without `TS_SINK_CHECKING_OVERFLOW`, the default)

`w` is the width of `T` (8, 16, 32 or 64), `q` is `Q`; a number is its `value`, a natural number below `2^w`.
-/
namespace Verif.Core

namespace Sink

/-- the four widths for which the class exists, sink.h:216-226 -/
def Width (w : Nat) : Prop := w = 8 ∨ w = 16 ∨ w = 32 ∨ w = 64

/-- `_T(x)`: conversion to the unsigned type, reduction modulo `2^w` -/
def wrap (w : Nat) (x : Int) : Nat := (x % 2 ^ w).toNat

/-- `S(value)`: conversion to the signed type of the same width (two's complement), sink.h:52-58, 191 -/
def toSigned (w : Nat) (v : Nat) : Int := if v < 2 ^ (w - 1) then v else (v : Int) - 2 ^ w

/-- `_DS(value)`, sink.h:66-78: the *unsigned* value in the signed type of double width; for 64 bits that type (`long long`) is
not wider and the conversion is two's complement -/
def widen (w : Nat) (v : Nat) : Int := if w = 64 then toSigned 64 v else v

/-- bits of the type in which `_DS` operands are computed: `int` after promotion for `int16_t`/`int32_t`, else 64 bits -/
def arith (w : Nat) : Nat := if w ≤ 16 then 32 else 64

/-- signed arithmetic in `b` bits: overflow is undefined -/
def checked (b : Nat) (x : Int) : Res Int := if -2 ^ (b - 1) ≤ x ∧ x < 2 ^ (b - 1) then .ok x else .ub

/-- `operator+`, sink.h:259-271 -/
def add (w : Nat) (a b : Nat) : Res Nat := do
  let x ← checked (arith w) (widen w a + widen w b)
  .ok (wrap w x)

/-- `operator-`, sink.h:245-257 -/
def sub (w : Nat) (a b : Nat) : Res Nat := do
  let x ← checked (arith w) (widen w a - widen w b)
  .ok (wrap w x)

/-- unary `operator-`, sink.h:273-276 -/
def neg (w : Nat) (a : Nat) : Nat := wrap w (-(a : Int))

/-- `operator*`, sink.h:278-290; `>>` of a signed integer is the arithmetic shift -/
def mul (w q : Nat) (a b : Nat) : Res Nat := do
  let x ← checked (arith w) (widen w a * widen w b)
  .ok (wrap w (x / 2 ^ q))

/-- `operator<`, `<=`, `==` (and the mirrored ones), sink.h:306-322: the *unsigned* values are compared -/
def lt (a b : Nat) : Bool := a < b
def le (a b : Nat) : Bool := a ≤ b
def eq (a b : Nat) : Bool := a == b

/-- constructor from an integer, sink.h:100-112 (`ToFixed`), 177-178; a left shift out of 64 bits is undefined, a negative
number is taken to shift arithmetically -/
def ofInt (w q : Nat) (v : Int) : Res Nat := do
  let x ← checked 64 (v * 2 ^ q)
  .ok (wrap w (toSigned w (wrap w x)))

/-- conversion to `int64_t`, sink.h:109-111 (`ToCommon`), 193-194 -/
def toInt (w q : Nat) (a : Nat) : Int := toSigned w a / 2 ^ q

end Sink
end Verif.Core
