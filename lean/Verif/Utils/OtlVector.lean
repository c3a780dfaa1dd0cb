import Verif.Core.Res
/-!
# `otl::vector<T, N, S>`, the vector behind `Shape`: include/utils/otl.h:255-455

`buf` is `m_buf` (N cells), `size` is `m_size` (a signed integer; its range is not modelled). An access outside `m_buf` is
undefined behaviour. Iterators are given by their index.
-/
namespace Verif.Utils
open Verif.Core

variable {α : Type}

structure OVec (α : Type) where
  buf : List α
  size : Int

namespace OVec

/-- `size()`: `size_type(m_size)`, otl.h:340 -/
def len (v : OVec α) : Nat := if 0 ≤ v.size then v.size.toNat else (2 ^ 64 + v.size).toNat

/-- `m_buf[i] = x` -/
def store (b : List α) (i : Nat) (x : α) : Res (List α) := if i < b.length then .ok (b.set i x) else .ub

/-- `std::memmove(m_buf + d, m_buf + s, n)` / `memcpy` into `m_buf`: `xs` are the cells read -/
def blit (b : List α) (d : Nat) (xs : List α) : Res (List α) :=
  if d + xs.length ≤ b.length then .ok (b.take d ++ xs ++ b.drop (d + xs.length)) else .ub

/-- cells `s, …, s+n-1` -/
def cells (b : List α) (s n : Nat) : Res (List α) :=
  if s + n ≤ b.length then .ok ((b.drop s).take n) else .ub

/-- `vector()`, otl.h:276; the initial cells are `raw` -/
def new (raw : List α) : OVec α := ⟨raw, 0⟩

/-- loop of the range constructor, otl.h:300-311: the check is `n > CAPACITY` before writing `m_buf[n]` -/
def fromRangeLoop (cap : Nat) : List α → Nat → List α → Res (OVec α)
  | [], n, b => .ok ⟨b, n⟩
  | x :: t, n, b =>
    if n > cap then .err
    else do
      let b ← store b n x
      fromRangeLoop cap t (n + 1) b

/-- range constructor, otl.h:299-311, and from `std::vector`, 279-280 -/
def fromRange (raw xs : List α) : Res (OVec α) := fromRangeLoop raw.length xs 0 raw

/-- loop `for (auto &slot : *this) slot = val` over `n` slots -/
def fillLoop (x : α) : Nat → Nat → List α → Res (List α)
  | 0, _, b => .ok b
  | k + 1, i, b => do
    let b ← store b i x
    fillLoop x k (i + 1) b

/-- fill constructor, otl.h:286-289 -/
def fill (raw : List α) (n : Nat) (x : α) : Res (OVec α) := do
  let b ← fillLoop x n 0 raw
  .ok ⟨b, n⟩

/-- initializer list constructor, otl.h:317-327 -/
def fromList (raw xs : List α) : Res (OVec α) :=
  if xs.length > raw.length then .err else fromRangeLoop raw.length xs 0 raw

/-- `push_back`, otl.h:399-402, and `emplace_back`, 408-412 -/
def push (v : OVec α) (x : α) : Res (OVec α) :=
  if 0 ≤ v.size then do
    let b ← store v.buf v.size.toNat x
    .ok ⟨b, v.size + 1⟩
  else .ub

/-- `pop_back`, otl.h:404-406 -/
def pop (v : OVec α) : OVec α := { v with size := v.size - 1 }

/-- `clear`, otl.h:414-416 -/
def clear (v : OVec α) : OVec α := { v with size := 0 }

/-- `resize(n, val)`: `*this = self(n, val)`, otl.h:369-371 -/
def resize (v : OVec α) (n : Nat) (x : α) : Res (OVec α) := fill v.buf n x

/-- `_erase(i, len)`, otl.h:425-430; `size - i` is unsigned -/
def eraseN (v : OVec α) (i n : Nat) : Res (OVec α) :=
  let size := v.len
  let n := if n + i > size then (if i ≤ size then size - i else 2 ^ 64 + size - i) else n
  if size < i + n then .ub
  else do
    let xs ← cells v.buf (i + n) (size - i - n)
    let b ← blit v.buf i xs
    .ok ⟨b, v.size - n⟩

/-- `erase(it)`, otl.h:373-376 -/
def erase (v : OVec α) (i : Nat) : Res (OVec α) := v.eraseN i 1
/-- `erase(first, last)`, otl.h:378-384 -/
def eraseRange (v : OVec α) (i j : Nat) : Res (OVec α) := if j < i then .ok v else v.eraseN i (j - i)

/-- `_insert(i, val)`, otl.h:432-439; `size - i` is unsigned: an index past the end moves a huge block -/
def insert (v : OVec α) (i : Nat) (x : α) : Res (OVec α) :=
  if i + 1 > v.buf.length then .err
  else if v.len < i then .ub
  else do
    let xs ← cells v.buf i (v.len - i)
    let b ← blit v.buf (i + 1) xs
    let b ← store b i x
    .ok ⟨b, v.size + 1⟩

/-- `insert(it, first, last)`: the range is copied into a vector of the same capacity first, otl.h:391-397; `_insert` of a
vector, 441-449 -/
def insertRange (raw : List α) (v : OVec α) (i : Nat) (xs : List α) : Res (OVec α) := do
  let w ← fromRange raw xs
  if i + w.len > v.buf.length then .err
  else if v.len < i then .ub
  else do
    let ys ← cells v.buf i (v.len - i)
    let b ← blit v.buf (i + w.len) ys
    let zs ← cells w.buf 0 w.len
    let b ← blit b i zs
    .ok ⟨b, v.size + w.len⟩

/-- `operator[](i)`, otl.h:347-353: no check against the size, only the cells exist -/
def get (v : OVec α) (i : Nat) : Res α :=
  match v.buf[i]? with
  | some x => .ok x
  | none => .ub

/-- `operator[](i) = x` -/
def set (v : OVec α) (i : Nat) (x : α) : Res (OVec α) := do
  let b ← store v.buf i x
  .ok { v with buf := b }

/-- calls on a vector; `raw` are the uninitialised cells of temporaries -/
inductive Op (α : Type) where
  | push (x : α)
  | pop
  | clear
  | resize (n : Nat) (x : α)
  | erase (i : Nat)
  | eraseRange (i j : Nat)
  | insert (i : Nat) (x : α)
  | insertRange (raw : List α) (i : Nat) (xs : List α)
  | set (i : Nat) (x : α)

def step (v : OVec α) : Op α → Res (OVec α)
  | .push x => v.push x
  | .pop => .ok v.pop
  | .clear => .ok v.clear
  | .resize n x => v.resize n x
  | .erase i => v.erase i
  | .eraseRange i j => v.eraseRange i j
  | .insert i x => v.insert i x
  | .insertRange raw i xs => v.insertRange raw i xs
  | .set i x => v.set i x

/-- a sequence of calls -/
def run (v : OVec α) : List (Op α) → Res (OVec α)
  | [] => .ok v
  | op :: t => do
    let v ← v.step op
    run v t

end OVec
end Verif.Utils
