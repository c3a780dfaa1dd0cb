/-!
# Outcomes of C++ calls and checked machine integers
-/
namespace Verif.Core

/-- Outcome of a call without interesting state: normal return, exception (`TS_LOG_ERROR … << eject`,
`TS_AUTO_CHECK`, `throw`), or undefined behaviour. -/
inductive Res (α : Type) where
  | ok (a : α)
  | err
  | ub
  deriving Repr, DecidableEq

namespace Res
variable {α β : Type}
/-- sequencing -/
def bind : Res α → (α → Res β) → Res β
  | ok a, f => f a
  | err, _ => err
  | ub, _ => ub
instance : Monad Res where
  pure := ok
  bind := bind
@[simp] theorem bind_ok (a : α) (f : α → Res β) : (Res.ok a >>= f) = f a := rfl
@[simp] theorem bind_err (f : α → Res β) : ((Res.err : Res α) >>= f) = Res.err := rfl
@[simp] theorem bind_ub (f : α → Res β) : ((Res.ub : Res α) >>= f) = Res.ub := rfl
@[simp] theorem pure_eq (a : α) : (pure a : Res α) = Res.ok a := rfl
theorem bind_eq_ok {x : Res α} {f : α → Res β} {b : β} : (x >>= f) = .ok b ↔ ∃ a, x = .ok a ∧ f a = .ok b := by
  cases x <;> simp
/-- `TS_AUTO_CHECK(c)`, include/utils/assert.h: throw unless `c`. -/
def check (c : Bool) : Res Unit := if c then ok () else err
end Res

/-- representable as a C++ `int` (32 bits) -/
def I32 (x : Int) : Prop := -2147483648 ≤ x ∧ x ≤ 2147483647
instance (x : Int) : Decidable (I32 x) := by unfold I32; infer_instance

/-- signed `int` arithmetic: a result outside the range is undefined behaviour -/
def int32 (x : Int) : Res Int := if I32 x then .ok x else .ub

theorem int32_ok {x : Int} (h : I32 x) : int32 x = .ok x := by simp [int32, h]
theorem int32_eq_ok {x y : Int} : int32 x = .ok y ↔ I32 x ∧ y = x := by
  unfold int32; split <;> simp_all [eq_comm]

/-- `int` division: truncation; dividing by zero (or `INT_MIN / -1`) is undefined -/
def div32 (a b : Int) : Res Int := if b = 0 then .ub else int32 (a.tdiv b)
/-- `int` remainder -/
def mod32 (a b : Int) : Res Int := if b = 0 then .ub else if I32 (a.tdiv b) then .ok (a.tmod b) else .ub

end Verif.Core
