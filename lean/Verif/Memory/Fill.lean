import Verif.Core.Res
/-!
# Memory copies and pattern fill: src/core/memory.cpp
-/
namespace Verif.Memory
open Verif.Core

variable {α : Type}

/-- The CPU converter, src/kernels/cpu/memory_cpu.cpp:37-44: `std::memcpy(dst, src, size)` from one
buffer into another one. A read or write outside its buffer is undefined. -/
def copyFrom (mem : List α) (dst : Nat) (src : List α) (len : Nat) : Res (List α) :=
  if dst + len ≤ mem.length ∧ len ≤ src.length then
    .ok (mem.take dst ++ src.take len ++ mem.drop (dst + len))
  else .ub

/-- The same converter within one buffer, as `memset` calls it (src/core/memory.cpp:135-143): source at the
start of the buffer; overlapping `memcpy` is undefined. -/
def copyWithin (mem : List α) (dst len : Nat) : Res (List α) :=
  if dst + len ≤ mem.length ∧ (len ≤ dst) then
    .ok (mem.take dst ++ mem.take len ++ mem.drop (dst + len))
  else .ub

/-- The doubling loop `while (copy_anchor <= size_t(dst_size >> 1))`, src/core/memory.cpp:134-138.
`size_t` has 64 bits. `none` when the fuel is used up: the loop is still running. -/
def fillLoop (n : Nat) : Nat → List α → Nat → Option (Res (List α × Nat))
  | 0, _, _ => none
  | fuel + 1, mem, anchor =>
    if anchor ≤ n / 2 then
      match copyWithin mem anchor anchor with
      | .ok mem' => fillLoop n fuel mem' (anchor * 2 % 2 ^ 64)
      | .err => some .err
      | .ub => some .ub
    else some (.ok (mem, anchor))

/-- `memset(dst_ptr, dst_device, dst_size, src_ptr, src_device, src_size)`, src/core/memory.cpp:124-144, with
both converters present. `mem` is the whole allocation the destination pointer points to, `n = dst_size`. -/
def fill (fuel : Nat) (mem : List α) (n : Nat) (pat : List α) : Option (Res (List α)) :=
  match copyFrom mem 0 pat (min n pat.length) with
  | .err => some .err
  | .ub => some .ub
  | .ok mem =>
    match fillLoop n fuel mem pat.length with
    | none => none
    | some .err => some .err
    | some .ub => some .ub
    | some (.ok (mem, anchor)) =>
      if n > anchor then some (copyWithin mem anchor (n - anchor)) else some (.ok mem)

/-- `memcpy(dst_ptr, dst_device, dst_size, src_ptr, src_device, src_size)`, src/core/memory.cpp:114-122: copies
the smaller size and returns it. -/
def copyRaw (mem : List α) (dstSize : Nat) (src : List α) (srcSize : Nat) : Res (List α × Nat) := do
  let n := min srcSize dstSize
  let out ← copyFrom mem 0 src n
  .ok (out, n)

/-- `memcpy(Memory &dst, const Memory &src, size_t size)`, src/core/memory.cpp:98-104 -/
def copySized (dst src : List α) (size : Nat) : Res (List α) :=
  if dst.length ≥ size then if src.length ≥ size then copyFrom dst 0 src size else .err else .err

/-- `memcpy(Memory &dst, const Memory &src)`, src/core/memory.cpp:106-112 -/
def copyWhole (dst src : List α) : Res (List α) :=
  if dst.length ≥ src.length then copyFrom dst 0 src src.length else .err

end Verif.Memory
