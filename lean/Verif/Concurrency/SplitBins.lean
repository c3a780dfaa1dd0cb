import Verif.Core.Res
import Mathlib.Algebra.Order.Floor.Ring
import Mathlib.Data.Rat.Floor
import Mathlib.Tactic.Linarith
import Mathlib.Tactic.FieldSimp
import Mathlib.Tactic.Ring
/-!
# Splitting a range into bins: src/utils/box.cpp:58-105
-/
namespace Verif.Concurrency
open Verif.Core

/-- What IEEE 754 says of the double nearest to the rational `x` (no overflow, no underflow): the relative error is at
most 2⁻⁵³, and an integer of at most 53 bits is exact. All that `split_bins` needs of doubles. -/
structure NearestDouble (x q : ℚ) : Prop where
  rel : |q - x| ≤ |x| / 2 ^ 53
  int : ∀ n : ℤ, |n| ≤ 2 ^ 53 → x = n → q = x

/-- the loop `while (anchor + step < second) …` and the last bin, src/utils/box.cpp:75-83. `anchor + step` and
`anchor += step` are `int` arithmetic. `none`: still running when the fuel is used up. -/
def splitLoop (second step : Int) : Nat → Int → List (Int × Int) → Option (Res (List (Int × Int)))
  | 0, _, _ => none
  | fuel + 1, anchor, acc =>
    match int32 (anchor + step) with
    | .ok next =>
      if next < second then splitLoop second step fuel next (acc ++ [(anchor, next)])
      else if anchor < second then some (.ok (acc ++ [(anchor, second)]))
      else some (.ok acc)
    | .err => some .err
    | .ub => some .ub

/-- `split_bins(first, second, bins)`, src/utils/box.cpp:67-85; `q` is the double `(double(second) - double(first)) /
bins` (the conversions and the subtraction are exact for 32-bit integers), `safe_ceil` (58-65) rounds it up to an
integer and narrows it to `int`. -/
def splitBins (fuel : Nat) (q : ℚ) (first second bins : Int) : Option (Res (List (Int × Int))) :=
  if second ≤ first then some (.ok [])
  else if bins ≤ 1 then some (.ok [(first, second)])
  else
    let step := ⌈q⌉
    let step := if step < 1 then 1 else step
    splitLoop second step fuel first []

/-- the loop of `lsplit_bins`, src/utils/box.cpp:104-111: `anchor + step` is `size_t` arithmetic (it wraps; `step`, a `long`,
is converted). `none`: still running when the fuel is used up. -/
def lsplitLoop (second step : Nat) : Nat → Nat → List (Nat × Nat) → Option (List (Nat × Nat))
  | 0, _, _ => none
  | fuel + 1, anchor, acc =>
    let next := (anchor + step) % 2 ^ 64
    if next < second then lsplitLoop second step fuel next (acc ++ [(anchor, next)])
    else if anchor < second then some (acc ++ [(anchor, second)])
    else some acc

/-- `lsplit_bins(first, second, bins)`, src/utils/box.cpp:96-112, with `safe_lceil` (87-94); `q` is the double
`(double(second) - double(first)) / bins`. The inner `none`: `std::lrint` is not specified beyond the range of `long`. -/
def lsplitBins (fuel : Nat) (q : ℚ) (first second bins : Nat) : Option (Option (List (Nat × Nat))) :=
  if second ≤ first then some (some [])
  else if bins ≤ 1 then some (some [(first, second)])
  else if 2 ^ 63 ≤ ⌈q⌉ then some none
  else
    let step := if ⌈q⌉ < 1 then 1 else ⌈q⌉.toNat
    (lsplitLoop second step fuel first []).map some

end Verif.Concurrency
