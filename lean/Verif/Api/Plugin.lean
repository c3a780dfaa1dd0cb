import Verif.Core.Res
/-!
# Registered operators (src/global/operator_factory.cpp) and operators of plugins (src/api/operator.cpp)

Names are C strings: lists of bytes that are not zero. Not modelled: null pointers as names, which `std::string` must not be given.
-/
namespace Verif.Api
open Verif.Core

/-- `DeviceType`, `otl::string<8>(const std::string &)`, otl.h:63-69, 144-147: at most seven bytes, copied into a cleared buffer of eight -/
def deviceType (s : List Nat) : Res (List Nat) := if s.length > 7 then .err else .ok (s ++ List.replicate (8 - s.length) 0)

/-- `CPU`, device.h:23: the buffer of `"cpu"` -/
def cpuType : List Nat := [99, 112, 117, 0, 0, 0, 0, 0]

/-- `std::map<std::pair<DeviceType, std::string>, function>`: keys are compared as the buffer of the device (as one number, otl.h:149-167) and the name -/
abbrev Registry (F : Type) := List ((List Nat × List Nat) × F)

variable {F : Type}

/-- `OperatorCreator::Query(device_type, operator_name)`, operator_factory.cpp:23-32 -/
def Registry.query (m : Registry F) (d n : List Nat) : Option F := (m.find? (fun e => e.1 == (d, n))).map Prod.snd

/-- `OperatorCreator::Register`, operator_factory.cpp:34-40: `map[key] = creator` -/
def Registry.register (m : Registry F) (d n : List Nat) (f : F) : Registry F := ((d, n), f) :: m.filter (fun e => e.1 != (d, n))

/-- `ts_Operator_Register` and `ts_Operator_RegisterEx`, api/operator.cpp:146-162, 192-207; `none`: one of the functions that are needed is null. `TRY_TAIL`,
declaration.h:44-46, drops the exception, and no message is set -/
def registerPlugin (m : Registry F) (device op : List Nat) (fs : Option F) : Registry F :=
  match fs, deviceType device with
  | some f, .ok d => m.register d op f
  | _, _ => m

/-- all registrations of a program, in order -/
def registerAll (rs : List (List Nat × List Nat × Option F)) : Registry F := rs.foldl (fun m r => registerPlugin m r.1 r.2.1 r.2.2) []

/-- what looking for an operator gives; an exception that leaves a function declared `noexcept` ends the process -/
inductive Found (F : Type) where
  | creator (f : F)
  | nothing
  | terminate
  deriving DecidableEq

/-- `std::map<DeviceType, DeviceType>::find`, `ComputingMemory::Query`, memory_device.cpp:16-23 -/
def memoryOf (mem : List (List Nat × List Nat)) (d : List Nat) : Option (List Nat) := (mem.find? (fun e => e.1 == d)).map Prod.snd

/-- step 2.y of `TalentQuery`, operator_factory.cpp:73-78 -/
def tryCpu (m : Registry F) (d n : List Nat) : Found F :=
  if d = cpuType then .nothing
  else match m.query cpuType n with
    | some f => .creator f
    | none => .nothing

/-- step 2.x, operator_factory.cpp:67-71: `ComputingMemory::Query` throws if the device is not known, and all callers are `TS_NOEXCEPT` (operator_factory.cpp:83-93) -/
def tryMemory (mem : List (List Nat × List Nat)) (m : Registry F) (d n : List Nat) : Found F :=
  match memoryOf mem d with
  | none => .terminate
  | some d' =>
    match m.query d' n with
    | some f => .creator f
    | none => tryCpu m d n

/-- `TalentQuery`, operator_factory.cpp:60-81 -/
def talentQuery (mem : List (List Nat × List Nat)) (m : Registry F) (d n : List Nat) (strict : Bool) : Found F :=
  match m.query d n with
  | some f => .creator f
  | none => if strict then .nothing else tryMemory mem m d n

/-- `OperatorCreator::Create`, operator_factory.cpp:83-101, given a name of a device (converted by the caller); `none` ends the process. `make f` is the constructor of
`APIPluginOperator`, api/operator.cpp:21-38: `none` if `f_new` has returned null, which throws inside of `CreateNoException` -/
def createOperator {Obj : Type} (make : F → Option Obj) (mem : List (List Nat × List Nat)) (m : Registry F) (device n : List Nat) (strict : Bool) :
    Option (Res Obj) :=
  match deviceType device with
  | .ok d =>
    match talentQuery mem m d n strict with
    | .creator f => (make f).map .ok
    | .nothing => some .err
    | .terminate => none
  | _ => some .err

/-- one prototype of the answer of `f_infer`, api/operator.cpp:110-120: `data` from `anchor` on; gives the prototype and what remains. `Shape this_shape(this_dims)` does
not check the capacity of seven, otl.h:281-282; a negative number of dimensions makes a shape of that size, which the loop does not fill -/
def inferOne (data : List Int) : Res ((Int × Int × List Int) × List Int) :=
  match data with
  | t :: n :: rest =>
    if (rest.length : Int) < n then .err
    else if 7 < n then .ub
    else .ok ((t, n, rest.take n.toNat), rest.drop n.toNat)
  | _ => .err

/-- the loop, api/operator.cpp:108-121 -/
def inferLoop : Nat → List Int → Res (List (Int × Int × List Int))
  | 0, _ => .ok []
  | k + 1, data => do
    let (p, rest) ← inferOne data
    let ps ← inferLoop k rest
    .ok (p :: ps)

/-- `APIPluginOperator::infer`, api/operator.cpp:97-127, of the integers that `f_infer` has returned (without their shape): the number of prototypes is `size`, the number
of integers, not the first integer -/
def inferPlugin (data : List Int) : Res (List (Int × Int × List Int)) :=
  match data with
  | [] => .err
  | _ :: rest => inferLoop data.length rest

end Verif.Api
