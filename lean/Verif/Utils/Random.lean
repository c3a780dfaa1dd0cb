import Verif.Core.Res
import Mathlib.Data.Rat.Floor
import Mathlib.Algebra.Order.Round
/-!
# Random numbers: src/utils/random.cpp, include/utils/random.h

`int` is 32 bits. `strict = true` is the C++11 standard: an overflow of `int` and a left shift of a negative number (or beyond 32 bits) are
undefined. `strict = false` is what compilers that wrap around do. Right shifts of negative numbers keep the sign, and `unsigned` becomes
`int` by its bits (both are left to the implementation; every compiler does this). Not modelled: the time as seed (any seed is allowed),
`exp`, `ray`, `weibull`, `normal`.
-/
namespace Verif.Utils.Random
open Verif.Core

/-- `a * b` -/
def mul (strict : Bool) (a b : BitVec 32) : Res (BitVec 32) := if strict = true ∧ ¬ I32 (a.toInt * b.toInt) then .ub else .ok (a * b)

/-- `a + b` -/
def add (strict : Bool) (a b : BitVec 32) : Res (BitVec 32) := if strict = true ∧ ¬ I32 (a.toInt + b.toInt) then .ub else .ok (a + b)

/-- `a << k` -/
def shl (strict : Bool) (a : BitVec 32) (k : Nat) : Res (BitVec 32) :=
  if strict = true ∧ (a.toInt < 0 ∨ 2 ^ 32 ≤ a.toNat * 2 ^ k) then .ub else .ok (a <<< k)

/-- `MT19937`, random.h:24-27 -/
structure Mt where
  mt : List (BitVec 32)
  i : Nat

/-- the loop of `srand`, random.cpp:23-26: `left` more words, from `MT[i]` on, after `prev` (`&= 0xffffffff` changes nothing) -/
def seedWords (strict : Bool) : Nat → Nat → BitVec 32 → Res (List (BitVec 32))
  | 0, _, _ => .ok []
  | left + 1, i, prev => do
    let m ← mul strict 0x6c078965#32 (prev ^^^ prev.sshiftRight 30)
    let w ← add strict m (BitVec.ofNat 32 i)
    let ws ← seedWords strict left (i + 1) w
    .ok (w :: ws)

/-- `MT19937::srand(seed)`, random.cpp:19-27, on the generator `g` -/
def srand (strict : Bool) (_g : Mt) (seed : BitVec 32) : Res Mt := do
  let ws ← seedWords strict 623 1 seed
  .ok ⟨seed :: ws, 0⟩

/-- `MT[j]`: reading outside the array is undefined -/
def wordAt (l : List (BitVec 32)) (j : Nat) : Res (BitVec 32) :=
  match l[j]? with
  | some w => .ok w
  | none => .ub

/-- `MT19937::rand()`, random.cpp:29-42 -/
def rand (strict : Bool) (g : Mt) : Res (BitVec 32 × Mt) := do
  let a ← wordAt g.mt g.i
  let b ← wordAt g.mt ((g.i + 1) % 624)
  let generate := (a &&& 0x80000000#32) + (b &&& 0x7fffffff#32)
  let c ← wordAt g.mt ((g.i + 397) % 624)
  let v := c ^^^ generate.sshiftRight 1
  let v := if generate &&& 1#32 = 0#32 then v else v ^^^ 0x9908b0df#32
  let y := v ^^^ v.sshiftRight 11
  let t ← shl strict y 7
  let y := y ^^^ (t &&& 0x9d2c5680#32)
  let t ← shl strict y 15
  let y := y ^^^ (t &&& 0xefc60000#32)
  let y := y ^^^ y.sshiftRight 18
  .ok (y, ⟨g.mt.set g.i v, (g.i + 1) % 624⟩)

/-- `n` draws: the last one and the generator afterwards (the first argument is the draw before) -/
def draws (strict : Bool) : Nat → Mt → Res (List (BitVec 32) × Mt)
  | 0, g => .ok ([], g)
  | n + 1, g => do
    let (y, g) ← rand strict g
    let (ys, g) ← draws strict n g
    .ok (y :: ys, g)

/-- a program: seeds (`Random::seed`, random.cpp:52-54) and draws -/
inductive Call where
  | seed (s : BitVec 32)
  | next

/-- the draws of a program -/
def run (strict : Bool) : List Call → Mt → Res (List (BitVec 32) × Mt)
  | [], g => .ok ([], g)
  | .seed s :: cs, g => do
    let g ← srand strict g s
    run strict cs g
  | .next :: cs, g => do
    let (y, g) ← rand strict g
    let (ys, g) ← run strict cs g
    .ok (y :: ys, g)

/-- `Random::u()`, random.cpp:64-66, from the draw `y`; `fl` is the rounding of a `double` -/
def u (fl : ℚ → ℚ) (y : BitVec 32) : ℚ := fl ((y.toInt : ℚ) / 2147483647)

/-- conversion of a `double` to `int`: the fraction is dropped; undefined outside the range -/
def toInt (x : ℚ) : Res Int := int32 (if x < 0 then ⌈x⌉ else ⌊x⌋)

/-- `Random::next(min, max)`, random.cpp:60-62 -/
def next (fl : ℚ → ℚ) (lo hi : Int) (y : BitVec 32) : Res Int := do
  let d ← int32 (hi - lo)
  let t ← toInt (fl (d * u fl y))
  int32 (lo + t)

/-- `Random::binomial(p)`, random.cpp:68-70 -/
def binomial (fl : ℚ → ℚ) (p : ℚ) (y : BitVec 32) : Bool := decide (u fl y < p)

end Verif.Utils.Random
