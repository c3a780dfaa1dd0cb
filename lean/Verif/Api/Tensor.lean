import Verif.Core.Reshape
/-!
# Tensors of the C interface (src/api/tensor.cpp): handles, memory and errors

One thread, tensors on the CPU and not packed. A block is the memory that one `HardMemory` has allocated, as a list of elements; it is released with the last tensor
that owns it (`Memory` holds `std::shared_ptr`s). A slice only borrows it (`Memory(device, data, size)`, memory.cpp:88-92, has no allocator).
What remains in the place of released memory is not modelled: accesses to it are undefined. Identifiers of handles and blocks are not used again.
-/
namespace Verif.Api
open Verif.Core

variable {α : Type}

/-- what a `ts_Tensor` holds: the prototype, and `m_memory`: `len` elements from `off` on in the block `block` -/
structure Ref where
  dtype : Nat
  shape : List Int
  block : Nat
  off : Nat
  len : Nat
  owner : Bool
  deriving DecidableEq

/-- all memory, all handles (`none` is deleted), and whether the message of the last error is not empty (errno.h:12-25) -/
structure State (α : Type) where
  blocks : List (List α)
  handles : List (Option Ref)
  failed : Bool

/-- nothing done yet -/
def State.init : State α := ⟨[], [], false⟩

/-- calls of the interface, tensor.cpp; `none` is a null pointer. `read` and `write` are accesses of the caller through `ts_Tensor_data`, tensor.cpp:89-94 -/
inductive Call (α : Type) where
  | new (dtype : Nat) (shape : List Int) (data : Option (List α))
  | free (h : Option Nat)
  | proto (h : Option Nat)
  | read (h : Option Nat)
  | write (h : Option Nat) (k : Nat) (v : α)
  | clone (h : Option Nat)
  | reshape (h : Option Nat) (shape : List Int)
  | slice (h : Option Nat) (i : Int)
  | slice2 (h : Option Nat) (beg fin : Int)
  | cast (h : Option Nat) (dtype : Nat)

/-- what a call returns -/
inductive Out (α : Type) where
  | handle (n : Nat)
  | proto (dtype : Nat) (shape : List Int)
  | value (l : List α)
  | done
  | null

/-- `if (!tensor) throw Exception("NullPointerException: …")`; a pointer that has been deleted must not be used -/
def State.deref (s : State α) : Option Nat → Res Ref
  | none => .err
  | some h =>
    match s.handles[h]? with
    | some (some r) => .ok r
    | _ => .ub

/-- is there a tensor that keeps the block? -/
def State.alive (s : State α) (b : Nat) : Bool :=
  s.handles.any fun o => match o with
    | some r => r.owner && decide (r.block = b)
    | none => false

/-- the elements of a tensor -/
def State.touch (s : State α) (r : Ref) : Res (List α) :=
  if s.alive r.block then
    match s.blocks[r.block]? with
    | some c => if r.off + r.len ≤ c.length then .ok ((c.drop r.off).take r.len) else .ub
    | none => .ub
  else .ub

/-- `new ts_Tensor(…)` of a tensor with memory of its own -/
def State.alloc (s : State α) (dtype : Nat) (shape : List Int) (content : List α) : State α × Out α :=
  (⟨s.blocks ++ [content], s.handles ++ [some ⟨dtype, shape, s.blocks.length, 0, content.length, true⟩], s.failed⟩, .handle s.handles.length)

/-- `new ts_Tensor(…)` of a tensor with the memory of another -/
def State.share (s : State α) (r : Ref) : State α × Out α :=
  (⟨s.blocks, s.handles ++ [some r], s.failed⟩, .handle s.handles.length)

/-- `Shape(shape, shape + shape_len)`: `otl::vector` writes the eighth extent outside its buffer before it checks, otl.h:293-304 -/
def asShape (shape : List Int) : Res (List Int) := if shape.length ≤ 7 then .ok shape else .ub

/-- `proto.count() * proto.type_bytes()` as the size of an allocation: negative is more memory than there is, hard_allocator.h:20, memory_cpu.cpp:30 -/
def allocCount (dtype : Nat) (shape : List Int) : Res Nat := do
  let n ← prod32 1 shape
  let b ← int32 (n * typeBytes dtype)
  if b < 0 then .err else .ok (if typeBytes dtype = 0 then 0 else n.toNat)

/-- the types that `ts_new_Tensor` copies, tensor.cpp:22-52 -/
def builtType (dtype : Nat) : Bool := decide (dtype ∈ [1, 2, 3, 4, 5, 6, 7, 8, 10, 11, 13])

/-- `ts_new_Tensor`, tensor.cpp:13-55; `tensor::build`, tensor_builder.h:140-145; `junk` is in memory that is not initialised -/
def newTensor (junk : α) (s : State α) (dtype : Nat) (shape : List Int) (data : Option (List α)) : Res (State α × Out α) := do
  let shape ← asShape shape
  match data with
  | none => do
    let n ← allocCount dtype shape
    .ok (s.alloc dtype shape (List.replicate n junk))
  | some d =>
    if builtType dtype then do
      let n ← allocCount dtype shape
      if d.length < n then .ub
      else do
        let shape ← reshapeShape [(n : Int)] shape
        .ok (s.alloc dtype shape (d.take n))
    else .err

/-- `ts_free_Tensor`, tensor.cpp:57-61 -/
def freeTensor (s : State α) : Option Nat → Res (State α × Out α)
  | none => .ok (s, .done)
  | some h => do
    let _ ← s.deref (some h)
    .ok (⟨s.blocks, s.handles.set h none, s.failed⟩, .done)

/-- an assignment through the pointer -/
def writeTensor (s : State α) (h : Option Nat) (k : Nat) (v : α) : Res (State α × Out α) := do
  let r ← s.deref h
  let _ ← s.touch r
  if k < r.len then .ok (⟨s.blocks.modify r.block (·.set (r.off + k) v), s.handles, s.failed⟩, .done) else .ub

/-- `ts_Tensor_clone`, tensor.cpp:96-101; `Tensor::clone`, core/tensor.cpp:140-157 -/
def cloneTensor (s : State α) (h : Option Nat) : Res (State α × Out α) := do
  let r ← s.deref h
  let c ← s.touch r
  .ok (s.alloc r.dtype r.shape c)

/-- `ts_Tensor_reshape`, tensor.cpp:117-122; `Tensor::reshape`, core/tensor.cpp:213-238 -/
def reshapeTensor (s : State α) (h : Option Nat) (shape : List Int) : Res (State α × Out α) := do
  let r ← s.deref h
  let shape ← asShape shape
  let fixed ← reshapeShape r.shape shape
  .ok (s.share { r with shape := fixed })

/-- `this->data<char>() + n` is a pointer into the memory -/
def State.point (s : State α) (r : Ref) (n : Int) : Res Nat :=
  if s.alive r.block then
    match s.blocks[r.block]? with
    | some c => if 0 ≤ (r.off : Int) + n ∧ (r.off : Int) + n ≤ c.length then .ok ((r.off : Int) + n).toNat else .ub
    | none => .ub
  else .ub

/-- `std::accumulate(sizes.begin() + 1, sizes.end(), 1, …)`, times the bytes of the type, core/tensor.cpp:628-630, 638-640: without dimensions the range has no end -/
def rowWidth (r : Ref) : Res Int :=
  match r.shape with
  | [] => .ub
  | _ :: rest => do
    let w ← prod32 1 rest
    let _ ← int32 (w * typeBytes r.dtype)
    .ok w

/-- `ts_Tensor_slice`, tensor.cpp:175-182; `Tensor::slice(i)`, core/tensor.cpp:626-633 -/
def sliceTensor (s : State α) (h : Option Nat) (i : Int) : Res (State α × Out α) := do
  let r ← s.deref h
  let w ← rowWidth r
  let _ ← int32 (i * (w * typeBytes r.dtype))
  let off ← s.point r (i * w)
  .ok (s.share ⟨r.dtype, r.shape.tail, r.block, off, w.toNat, false⟩)

/-- `ts_Tensor_slice_v2`, tensor.cpp:184-191; `Tensor::slice(beg, end)`, core/tensor.cpp:635-647 -/
def slice2Tensor (s : State α) (h : Option Nat) (beg fin : Int) : Res (State α × Out α) := do
  let r ← s.deref h
  if fin ≤ beg then .err
  else do
    let w ← rowWidth r
    let n ← int32 (fin - beg)
    let _ ← int32 (beg * (w * typeBytes r.dtype))
    let _ ← int32 (n * (w * typeBytes r.dtype))
    let off ← s.point r (beg * w)
    .ok (s.share ⟨r.dtype, n :: r.shape.tail, r.block, off, (n * w).toNat, false⟩)

/-- `ts_Tensor_cast`, tensor.cpp:110-115; `tensor::cast`, tensor_builder.cpp:123-145: of the same type it is a view of the same memory; `conv` converts the elements -/
def castTensor (conv : Nat → Nat → List α → Res (List α)) (s : State α) (h : Option Nat) (dtype : Nat) : Res (State α × Out α) := do
  let r ← s.deref h
  if r.dtype = dtype then .ok (s.share r)
  else do
    let c ← s.touch r
    let d ← conv r.dtype dtype c
    .ok (s.alloc dtype r.shape d)

/-- the body of a call, between `try {` and `}` -/
def body (junk : α) (conv : Nat → Nat → List α → Res (List α)) (s : State α) : Call α → Res (State α × Out α)
  | .new dtype shape data => newTensor junk s dtype shape data
  | .free h => freeTensor s h
  | .proto h => do
    let r ← s.deref h
    .ok (s, .proto r.dtype r.shape)
  | .read h => do
    let r ← s.deref h
    let c ← s.touch r
    .ok (s, .value c)
  | .write h k v => writeTensor s h k v
  | .clone h => cloneTensor s h
  | .reshape h shape => reshapeTensor s h shape
  | .slice h i => sliceTensor s h i
  | .slice2 h beg fin => slice2Tensor s h beg fin
  | .cast h dtype => castTensor conv s h dtype

/-- `TRY_HEAD` and `RETURN_OR_CATCH`, declaration.h:32-42: the message is cleared first and set if an exception is caught; `none` is undefined behaviour -/
def step (junk : α) (conv : Nat → Nat → List α → Res (List α)) (s : State α) (c : Call α) : Option (State α × Out α) :=
  match body junk conv { s with failed := false } c with
  | .ok r => some r
  | .err => some ({ s with failed := true }, .null)
  | .ub => none

/-- a program that makes these calls -/
def runAll (junk : α) (conv : Nat → Nat → List α → Res (List α)) : State α → List (Call α) → Option (State α)
  | s, [] => some s
  | s, c :: cs =>
    match step junk conv s c with
    | some (s', _) => runAll junk conv s' cs
    | none => none

end Verif.Api
