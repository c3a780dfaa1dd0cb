import Verif.Kernels.Pow
import Verif.Props.Cast
import Verif.Props.Activation
/-!
# C113: powers

Specification: `Raised`.
-/
namespace Verif.Props.Pow
open Verif.Core Verif.Kernels Verif.Kernels.Power

variable {α : Type}

/-- **Specification.** `r` is `x` with every element raised to `y`: the type and the extents of `x`, as many elements, each of them the power (of the type's
own `std::pow`) of the element at its place -/
def Raised (pow : Nat → α → Rat → α) (y : Rat) (x r : Power.Tensor α) : Prop :=
  r.dtype = x.dtype ∧ r.dims = x.dims ∧ r.cells.length = x.cells.length ∧
    ∀ (i : Nat) (v : α), x.cells[i]? = some v → r.cells[i]? = some (pow x.dtype v y)

theorem run_raised (pow : Nat → α → Rat → α) (y : Rat) (raw : Nat → List α) (hraw : ∀ n, (raw n).length = n) (x : Power.Tensor α)
    (hx : x.dtype = 10 ∨ x.dtype = 11) : ∃ r, run pow y raw [x] = .ok r ∧ Raised pow y x r := by
  refine ⟨⟨x.dtype, x.dims, x.cells.map fun v => pow x.dtype v y⟩, ?_, rfl, rfl, by simp, fun i v hv => by simp [hv]⟩
  have h : kernel pow y x.dtype x.cells (raw x.cells.length) = .ok (x.cells.map fun v => pow x.dtype v y) := by
    unfold kernel
    rw [if_pos hx, hraw, mapAll_eq _ _ _ (hraw _), each_ok (fun _ _ => rfl)]
  simp only [run, h, Res.bind_ok]

/-- what `init` makes of the first element of the parameter -/
theorem init_first (rnd : Nat → Rat → Rat) (sd : Nat) (hs : numTy sd ≠ none) (v : Rat) (l : List Rat) (fresh : Nat → List Rat)
    (hf : ∀ n, (fresh n).length = n) : init rnd fresh (some (sd, v :: l)) = .ok (if sd = 10 then v else rnd 10 v) := by
  unfold init
  simp only
  unfold tensorCast
  by_cases e : sd = 10
  · simp only [e, if_true, Res.bind_ok, List.length_cons, Nat.succ_ne_zero, if_false, rd, List.getElem?_cons_zero]
  · obtain ⟨s, hs⟩ := Option.ne_none_iff_exists'.mp hs
    rw [if_neg e, hs]
    show (do let t ← castLoop rnd s .real 10 (v :: l) (v :: l).length (fresh (v :: l).length); _) = _
    rw [castLoop_ok rnd (fun i => rnd 10 (((v :: l)[i]?).getD 0)) rfl (hf _) fun i w hw => by rw [hw]; cases s <;> rfl, Res.bind_ok]
    rw [if_neg (by simp), rd_ok (v := rnd 10 v) (by rw [List.getElem?_map, List.getElem?_range (by simp)]; rfl)]
    simp [e]

/-- **C113.** For every operand of `float`s or `double`s of any shape and any contents, and for every exponent that is given as a number (of any type; further
elements of the parameter do not count) and that a `float` represents, the operator gives the operand with every element raised to the exponent; the
prototype that it announces is that of the result. Missing: exponents that are rounded, see `C113_exponent_false`. -/
theorem C113_power_partial (rnd : Nat → Rat → Rat) (pow : Nat → α → Rat → α) (sd : Nat) (hs : numTy sd ≠ none) (y : Rat) (l : List Rat)
    (hy : rnd 10 y = y) (fresh : Nat → List Rat) (hf : ∀ n, (fresh n).length = n) (raw : Nat → List α) (hraw : ∀ n, (raw n).length = n)
    (x : Power.Tensor α) (hx : x.dtype = 10 ∨ x.dtype = 11) :
    ∃ r, powOp rnd pow (some (sd, y :: l)) fresh raw [x] = .ok r ∧ Raised pow y x r ∧ infer [x] = .ok (r.dtype, r.dims) := by
  obtain ⟨r, h1, h2⟩ := run_raised pow y raw hraw x hx
  refine ⟨r, ?_, h2, ?_⟩
  · unfold powOp
    rw [init_first rnd sd hs y l fresh hf, hy, ite_self, Res.bind_ok, h1]
  · rw [h2.1, h2.2.1]; rfl

/-- **C113** (not so: exponents that a `float` does not represent). Given in any type but `float`, also as a `double` for an operand of `double`s, the exponent
is rounded to a `float` first: every element is raised to the rounded exponent. -/
theorem C113_exponent_false (rnd : Nat → Rat → Rat) (pow : Nat → α → Rat → α) (sd : Nat) (hs : numTy sd ≠ none) (hsd : sd ≠ 10) (y : Rat) (l : List Rat)
    (fresh : Nat → List Rat) (hf : ∀ n, (fresh n).length = n) (raw : Nat → List α) (hraw : ∀ n, (raw n).length = n)
    (x : Power.Tensor α) (hx : x.dtype = 10 ∨ x.dtype = 11) :
    ∃ r, powOp rnd pow (some (sd, y :: l)) fresh raw [x] = .ok r ∧ Raised pow (rnd 10 y) x r := by
  obtain ⟨r, h1, h2⟩ := run_raised pow (rnd 10 y) raw hraw x hx
  refine ⟨r, ?_, h2⟩
  unfold powOp
  rw [init_first rnd sd hs y l fresh hf, if_neg hsd, Res.bind_ok, h1]

/-- **C113** (not so: an exponent given as text). Other parameters may be given as text, which is read as a number (C63); the exponent is converted before it is
read, so that every text, of any length, stands for the code of its first character: `"2"` for 50. -/
theorem C113_text_false (rnd : Nat → Rat → Rat) (hr : ∀ n : Nat, n < 128 → rnd 10 (n : Rat) = n) (pow : Nat → α → Rat → α) (c : Char) (hc : c.toNat < 128)
    (s : List Char) (fresh : Nat → List Rat) (hf : ∀ n, (fresh n).length = n) (raw : Nat → List α) (hraw : ∀ n, (raw n).length = n)
    (x : Power.Tensor α) (hx : x.dtype = 10 ∨ x.dtype = 11) :
    ∃ r, powOp rnd pow (some (13, (c :: s).map fun d => (d.toNat : Rat))) fresh raw [x] = .ok r ∧ Raised pow (c.toNat : Rat) x r := by
  have := C113_exponent_false rnd pow 13 (by simp [numTy]) (by decide) (c.toNat : Rat) (s.map fun d => (d.toNat : Rat)) fresh hf raw hraw x hx
  rwa [hr _ hc] at this

/-- **C113** (refused). Operands of other types than `float` and `double`, another number of operands, a missing or an empty exponent, and an exponent that is
no number are refused. -/
theorem C113_refused (rnd : Nat → Rat → Rat) (pow : Nat → α → Rat → α) (e : Rat) (fresh : Nat → List Rat) (hf : ∀ n, (fresh n).length = n) (raw : Nat → List α)
    (args : List (Power.Tensor α)) (sd : Nat) (l : List Rat) :
    (∀ x, args = [x] → x.dtype ≠ 10 → x.dtype ≠ 11 → run pow e raw args = .err) ∧
    (args.length ≠ 1 → run pow e raw args = .err ∧ infer args = .err) ∧
    init rnd fresh none = .err ∧ init rnd fresh (some (sd, [])) = .err ∧ (numTy sd = none → init rnd fresh (some (sd, l)) = .err) := by
  refine ⟨?_, ?_, rfl, ?_, ?_⟩
  · rintro x rfl h1 h2
    simp only [run, kernel, h1, h2, or_self, if_false]
    rfl
  · intro h
    match args, h with
    | [], _ => exact ⟨rfl, rfl⟩
    | [_], h => exact absurd rfl h
    | _ :: _ :: _, _ => exact ⟨rfl, rfl⟩
  · unfold init
    simp only
    unfold tensorCast
    by_cases e : sd = 10
    · simp [e]
    · rw [if_neg e]
      cases hs : numTy sd with
      | none => rfl
      | some s =>
        show (do let t ← castLoop rnd s .real 10 [] 0 (fresh 0); _) = _
        rw [castLoop_ok (x := []) (n := 0) rnd (fun _ => 0) rfl (hf _) (by simp), Res.bind_ok]
        rfl
  · intro h
    have : sd ≠ 10 := by rintro rfl; simp [numTy] at h
    unfold init
    simp only
    unfold tensorCast
    rw [if_neg this, h]
    rfl

/-! ## Non-vacuity -/

/-- powers of rational numbers with natural exponents -/
def ratPow (_ : Nat) (v : Rat) (y : Rat) : Rat := v ^ y.num.toNat

/-- a rounding: to sixteenths -/
def demoRnd (_ : Nat) (v : Rat) : Rat := (⌊v * 16⌋ : Rat) / 16

def zeros (n : Nat) : List Rat := List.replicate n 0

example : powOp demoRnd ratPow (some (5, [3, 9])) zeros zeros [⟨10, [3, 1], [2, -1, 1 / 2]⟩] = .ok ⟨10, [3, 1], [8, -1, 1 / 8]⟩ ∧ demoRnd 10 3 = 3 ∧ numTy 5 ≠ none ∧
    (∀ n, (zeros n).length = n) := by
  refine ⟨by decide +kernel, by decide +kernel, by decide, fun n => by simp [zeros]⟩

/-- the text "2" makes the fiftieth power of 2 -/
example : powOp demoRnd ratPow (some (13, ("2".toList).map fun d => (d.toNat : Rat))) zeros zeros [⟨11, [1], [2]⟩] = .ok ⟨11, [1], [2 ^ 50]⟩ ∧
    (∀ n : Nat, n < 128 → demoRnd 10 (n : Rat) = n) := by
  refine ⟨by decide +kernel, fun n _ => ?_⟩
  unfold demoRnd
  rw [show (n : Rat) * 16 = ((n * 16 : Nat) : Rat) by push_cast; ring, Int.floor_natCast]
  push_cast
  ring

/-- a tenth is rounded by the demo rounding, as it is by `float`: the exponent is not kept -/
example : init demoRnd zeros (some (11, [1 / 10])) = .ok (1 / 16) := by decide +kernel

example : powOp demoRnd ratPow (some (5, [3])) zeros zeros [⟨5, [1], [2]⟩] = .err ∧ powOp demoRnd ratPow none zeros zeros [⟨10, [1], [2]⟩] = .err ∧
    powOp demoRnd ratPow (some (5, [])) zeros zeros [⟨10, [1], [2]⟩] = .err := by decide +kernel

end Verif.Props.Pow
