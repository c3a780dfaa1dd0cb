import Verif.Core.Res
/-!
# Type promotion of element-wise operators (src/backend/base/element_wise_reduce.cpp:77-122)

A type is the number of its `DTYPE` enumerator (include/core/dtype.h:11-49).
-/
namespace Verif.Kernels
open Verif.Core

/-- `uncorr_cast_dtype`, element_wise_reduce.cpp:77-80 -/
def uncorrCast (t : Nat) : Bool := t == 0 || t == 12 || (decide (t > 15) && t != 21)

/-- `lookup_table`, element_wise_reduce.cpp:92-115 (generated from the source text) -/
def lookupTable : List (List Nat) := [
   [0, 0, 0, 0, 0, 0, 0, 0, 0, 0, 0, 0, 0, 0, 0, 0, 0, 0, 0, 0, 0, 0],
   [0, 1, 1, 3, 3, 5, 5, 7, 7, 9, 10, 11, 0, 1, 3, 5, 0, 0, 0, 0, 0, 1],
   [0, 1, 2, 3, 3, 5, 6, 7, 7, 9, 10, 11, 0, 1, 3, 5, 0, 0, 0, 0, 0, 2],
   [0, 3, 3, 3, 3, 5, 5, 7, 7, 9, 10, 11, 0, 3, 3, 5, 0, 0, 0, 0, 0, 3],
   [0, 3, 3, 3, 4, 5, 6, 7, 8, 9, 10, 11, 0, 3, 3, 5, 0, 0, 0, 0, 0, 4],
   [0, 5, 5, 5, 5, 5, 5, 7, 7, 10, 10, 11, 0, 5, 5, 5, 0, 0, 0, 0, 0, 5],
   [0, 5, 6, 5, 6, 5, 6, 7, 8, 10, 10, 11, 0, 5, 5, 5, 0, 0, 0, 0, 0, 6],
   [0, 7, 7, 7, 7, 7, 7, 7, 7, 11, 11, 11, 0, 7, 7, 7, 0, 0, 0, 0, 0, 7],
   [0, 7, 7, 7, 8, 7, 8, 7, 8, 11, 11, 11, 0, 7, 7, 7, 0, 0, 0, 0, 0, 8],
   [0, 9, 9, 9, 9, 10, 10, 11, 11, 9, 10, 11, 0, 9, 9, 10, 0, 0, 0, 0, 0, 9],
   [0, 10, 10, 10, 10, 10, 10, 11, 11, 10, 10, 11, 0, 10, 10, 11, 0, 0, 0, 0, 0, 10],
   [0, 11, 11, 11, 11, 11, 11, 11, 11, 11, 11, 11, 0, 11, 11, 11, 0, 0, 0, 0, 0, 11],
   [0, 0, 0, 0, 0, 0, 0, 0, 0, 0, 0, 0, 0, 0, 0, 0, 0, 0, 0, 0, 0, 0],
   [0, 1, 1, 3, 3, 5, 5, 7, 7, 9, 10, 11, 0, 13, 14, 15, 0, 0, 0, 0, 0, 13],
   [0, 3, 3, 3, 3, 5, 5, 7, 7, 9, 10, 11, 0, 14, 14, 15, 0, 0, 0, 0, 0, 14],
   [0, 5, 5, 5, 5, 5, 5, 7, 7, 10, 11, 11, 0, 15, 15, 15, 0, 0, 0, 0, 0, 15],
   [0, 1, 2, 3, 4, 5, 6, 7, 8, 9, 10, 11, 0, 13, 14, 15, 0, 0, 0, 0, 0, 21],
   [0, 0, 0, 0, 0, 0, 0, 0, 0, 0, 0, 0, 0, 0, 0, 0, 0, 0, 0, 0, 0, 0],
   [0, 0, 0, 0, 0, 0, 0, 0, 0, 0, 0, 0, 0, 0, 0, 0, 0, 0, 0, 0, 0, 0],
   [0, 0, 0, 0, 0, 0, 0, 0, 0, 0, 0, 0, 0, 0, 0, 0, 0, 0, 0, 0, 0, 0],
   [0, 0, 0, 0, 0, 0, 0, 0, 0, 0, 0, 0, 0, 0, 0, 0, 0, 0, 0, 0, 0, 0],
   [0, 1, 2, 3, 4, 5, 6, 7, 8, 9, 10, 11, 0, 13, 14, 15, 0, 0, 0, 0, 0, 21]]

/-- `upcast_dtype`, element_wise_reduce.cpp:82-118: equal types are returned as they are, types that cannot be cast are
an error, everything else is looked up. An index outside the table would be undefined. -/
def upcast (l r : Nat) : Res Nat :=
  if l = r then .ok l
  else if uncorrCast l || uncorrCast r then .err
  else match lookupTable[l]? with
    | none => .ub
    | some row =>
      match row[r]? with
      | none => .ub
      | some t => .ok t

end Verif.Kernels
