import Verif.Core.Res
import Verif.Core.ShapeSpec
/-!
# Pooling kernels (src/kernels/cpu/pooling2d_core.cpp)

NCHW data as a flat list. Index arithmetic is on mathematical integers: every index is smaller than the element count
of the tensor, which is an `int`, except `oh * stride` for windows beyond the input, which exceeds the extent by less
than one stride plus kernel. Element arithmetic (`+`, `/`, `>`) is a parameter.
-/
namespace Verif.Kernels
open Verif.Core

variable {α : Type}

/-- reading `data[i]`: outside the buffer undefined -/
def readAtInt (data : List α) (i : Int) : Res α :=
  if 0 ≤ i then
    match data[i.toNat]? with
    | some v => .ok v
    | none => .ub
  else .ub

/-- run a computation for every element of a list, in order, collecting the results -/
def forEach {β γ : Type} (f : β → Res γ) : List β → Res (List γ)
  | [] => .ok []
  | b :: t => do
    let x ← f b
    let r ← forEach f t
    .ok (x :: r)

/-- the loop variable of `for (int i = a; i < b; i++)` -/
def upFrom (a b : Int) : List Int := (List.range (b - a).toNat).map fun (k : Nat) => a + k

/-- `oh * stride - pad`, then `min(start + ksize, input)`, then `max(start, 0)`: start and end of a window in one
dimension, pooling2d_core.cpp:63-70 -/
def windowRange (o : Nat) (s p k n : Int) : Int × Int :=
  let st := o * s - p
  (max st 0, min (st + k) n)

/-- the cell indices the two inner loops visit, pooling2d_core.cpp:75-77, in order; `base` is the channel's offset -/
def windowCells (base w : Int) (r c : Int × Int) : List Int :=
  (upFrom r.1 r.2).flatMap fun ih => (upFrom c.1 c.2).map fun iw => base + (ih * w + iw)

/-- parameters of a two-dimensional window -/
structure Window where
  kh : Nat
  kw : Nat
  sh : Nat
  sw : Nat
  top : Nat
  left : Nat
  deriving Repr

/-- one output element of `cpu_max_pooling`, pooling2d_core.cpp:62-86 -/
def maxAt (gt : α → α → Bool) (x : List α) (h w : Nat) (p : Window) (ch oh ow : Nat) : Res α := do
  let r := windowRange oh p.sh p.top p.kh h
  let c := windowRange ow p.sw p.left p.kw w
  let base : Int := ch * (h * w)
  let first ← readAtInt x (base + (r.1 * w + c.1))
  let vs ← forEach (readAtInt x) (windowCells base w r c)
  .ok (vs.foldl (fun m v => if gt v m then v else m) first)

/-- one output element of `cpu_average_pooling`, pooling2d_core.cpp:114-138; `div v n` is `v / n` for an `int` `n` -/
def avgAt (zero : α) (add : α → α → α) (div : α → Nat → α) (x : List α) (h w : Nat) (p : Window) (ch oh ow : Nat) :
    Res α := do
  let r := windowRange oh p.sh p.top p.kh h
  let c := windowRange ow p.sw p.left p.kw w
  let vs ← forEach (readAtInt x) (windowCells (ch * (h * w)) w r c)
  if vs.length = 0 then .ok zero else .ok (div (vs.foldl add zero) vs.length)

/-- one output element of `cpu_average_pooling_white`, pooling2d_core.cpp:166-186 -/
def avgWhiteAt (zero : α) (add : α → α → α) (div : α → Nat → α) (x : List α) (h w : Nat) (p : Window)
    (ch oh ow : Nat) : Res α := do
  let r := windowRange oh p.sh p.top p.kh h
  let c := windowRange ow p.sw p.left p.kw w
  let vs ← forEach (readAtInt x) (windowCells (ch * (h * w)) w r c)
  .ok (div (vs.foldl add zero) (p.kh * p.kw))

/-- The outer loops: `n`, `c` (as one channel counter, the pointers advance by one plane per iteration), `oh`, `ow`,
pooling2d_core.cpp:60-67 and 93-94. Every output element is written once, in order. -/
def poolLoops (chans oh ow : Nat) (f : Nat → Nat → Nat → Res α) : Res (List α) := do
  let planes ← forEach (fun ch => do
    let rows ← forEach (fun i => forEach (fun j => f ch i j) (List.range ow)) (List.range oh)
    .ok rows.flatten) (List.range chans)
  .ok planes.flatten

/-- the element types pooling supports, pooling2d_core.cpp:243-246 -/
inductive PoolType where
  | float32 | float64
  deriving DecidableEq

/-- `Pooling2DType` and the supported `Padding2DType`s -/
inductive PoolMode where
  | max | avgBlack | avgWhite
  deriving DecidableEq

/-- `get_pooling_kernel` chooses a specialised kernel, pooling2d_core.cpp:19-44 -/
def specialised (m : PoolMode) (p : Window) (bottom right : Nat) : Bool :=
  m == .max && p.sh == 2 && p.sw == 2 && decide (p.top ≤ 1) && decide (bottom ≤ 1) && decide (p.left ≤ 1) &&
    decide (right ≤ 1) && ((p.kw == 3 && p.kh == 3) || (p.kw == 2 && p.kh == 2))

/-- `cpu_pooling2d_compute_run`, pooling2d_core.cpp:187-230, on an output buffer `dst`. The specialised kernels exist
only for `float`; their primary templates, used for `double`, have empty bodies (pooling_algorithm.cpp:12-17, 344-349).
The result of the `float` kernels is the argument `special`; they are modelled in `Verif.Kernels.PoolFast` (`poolSpecial`). -/
def poolRun (ty : PoolType) (special : Res (List α)) (gt : α → α → Bool) (zero : α) (add : α → α → α)
    (div : α → Nat → α) (m : PoolMode) (x : List α) (chans h w oh ow : Nat) (p : Window) (bottom right : Nat)
    (dst : List α) : Res (List α) :=
  match m with
  | .max =>
    if specialised m p bottom right then
      match ty with
      | .float32 => special
      | .float64 => .ok dst
    else poolLoops chans oh ow (maxAt gt x h w p)
  | .avgBlack => poolLoops chans oh ow (avgAt zero add div x h w p)
  | .avgWhite => poolLoops chans oh ow (avgWhiteAt zero add div x h w p)

/-! ## lemmas -/

theorem forEach_ok {β γ : Type} {f : β → Res γ} {g : β → γ} {l : List β} (h : ∀ b ∈ l, f b = .ok (g b)) :
    forEach f l = .ok (l.map g) := by
  induction l with
  | nil => rfl
  | cons b t ih =>
    unfold forEach
    rw [h b (by simp), Res.bind_ok, ih fun b hb => h b (by simp [hb])]
    rfl

theorem readAtInt_ok {data : List α} {i : Nat} (h : i < data.length) : readAtInt data (i : Int) = .ok data[i] := by
  unfold readAtInt
  rw [if_pos (by omega)]
  simp [List.getElem?_eq_getElem h]

/-- an interval of natural numbers as a filtered range -/
theorem range_filter_interval (n a b : Nat) (hb : b ≤ n) :
    (List.range n).filter (fun i => decide (a ≤ i) && decide (i < b)) = (List.range (b - a)).map (a + ·) := by
  by_cases hab : a ≤ b
  · have e : List.range n = List.range a ++ ((List.range (b - a)).map (a + ·) ++
        (List.range (n - b)).map (b + ·)) := by
      conv => lhs; rw [show n = a + ((b - a) + (n - b)) by omega, List.range_add, List.range_add]
      simp only [List.map_append, List.map_map]
      congr 2
      apply List.map_congr_left
      intro i _
      simp only [Function.comp_apply]
      omega
    rw [e, List.filter_append, List.filter_append]
    rw [List.filter_eq_nil_iff.2, List.filter_eq_self.2, List.filter_eq_nil_iff.2]
    · simp
    · intro i hi
      simp only [List.mem_map, List.mem_range] at hi
      obtain ⟨k, _, rfl⟩ := hi
      simp
    · intro i hi
      simp only [List.mem_map, List.mem_range] at hi
      obtain ⟨k, _, rfl⟩ := hi
      simp; omega
    · intro i hi
      simp only [List.mem_range] at hi
      simp; omega
  · rw [show b - a = 0 by omega]
    simp only [List.range_zero, List.map_nil, List.filter_eq_nil_iff]
    intro i _
    simp; omega

/-- the indices of one dimension a window covers -/
def covered (o s p k n : Nat) : List Nat :=
  (List.range n).filter fun i => decide (o * s ≤ i + p) && decide (i + p < o * s + k)

theorem upFrom_window (o s p k n : Nat) :
    upFrom (windowRange o s p k n).1 (windowRange o s p k n).2 = (covered o s p k n).map Int.ofNat := by
  have e : covered o s p k n =
      (List.range n).filter fun i => decide (o * s - p ≤ i) && decide (i < min (o * s + k - p) n) := by
    unfold covered
    apply List.filter_congr
    intro i hi
    simp only [List.mem_range] at hi
    congr 1
    · exact decide_eq_decide.2 (by omega)
    · exact decide_eq_decide.2 (by omega)
  rw [e, range_filter_interval _ _ _ (by omega)]
  unfold upFrom windowRange
  simp only
  have hc : ((o : Int) * (s : Int)) = ((o * s : Nat) : Int) := by push_cast; rfl
  rw [hc]
  have hl : (min (((o * s : Nat) : Int) - p + k) n - max (((o * s : Nat) : Int) - p) 0).toNat =
      min (o * s + k - p) n - (o * s - p) := by omega
  rw [hl, List.map_map]
  apply List.map_congr_left
  intro i _
  simp only [Function.comp_apply, Int.ofNat_eq_natCast]
  push_cast
  omega

theorem covered_lt {o s p k n i : Nat} (h : i ∈ covered o s p k n) : i < n := by
  unfold covered at h
  simp only [List.mem_filter, List.mem_range] at h
  exact h.1

theorem cell_lt {ch chans h w i j : Nat} (hc : ch < chans) (hi : i < h) (hj : j < w) :
    ch * (h * w) + (i * w + j) < chans * (h * w) := by
  have h1 : i * w + j < h * w := by
    have : i * w + w ≤ h * w := by
      have := Nat.mul_le_mul_right w hi
      simpa [Nat.succ_mul] using this
    omega
  have h2 : ch * (h * w) + h * w ≤ chans * (h * w) := by
    have := Nat.mul_le_mul_right (h * w) hc
    simpa [Nat.succ_mul] using this
  omega

end Verif.Kernels
