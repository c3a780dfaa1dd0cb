import Verif.Core.Res
/-!
# Padding: the specification

Independent of the code.
-/
namespace Verif.Spec
open Verif.Core

/-- padding the shape `s` by `ps` (before, after; negative amounts cut) gives the shape `o`: every extent of `o` is at least one,
and the sums an implementation takes in `int`s are `int`s -/
def PadFits : List Nat → List (Int × Int) → List Nat → Prop
  | s :: ss, p :: ps, o :: os =>
    (o : Int) = s + p.1 + p.2 ∧ 1 ≤ o ∧ I32 (p.1 + p.2) ∧ I32 (-p.1) ∧ I32 (s + p.1 + p.2) ∧ I32 (s + p.2) ∧ PadFits ss ps os
  | [], [], [] => True
  | _, _, _ => False

/-- the padding moves coordinate `d` to coordinate `c` -/
def MovedTo : List (Int × Int) → List Nat → List Nat → Prop
  | p :: ps, d :: ds, c :: cs => (c : Int) = d + p.1 ∧ MovedTo ps ds cs
  | [], [], [] => True
  | _, _, _ => False

end Verif.Spec
