import Verif.Kernels.ReduceLemmas
import Verif.Props.Concat
import Verif.Props.HalfFloat
import Mathlib.Analysis.SpecialFunctions.Exp
import Mathlib.Algebra.BigOperators.Group.List.Basic
/-!
# C50: reductions and normalisations along a dimension

A tensor of shape `s` is a function of coordinates; `Holds s data f` says that `data` is its row-major content
(Verif/Core/Holds.lean). The reduced dimension splits the shape as `pre ++ a :: post`; a coordinate is `u ++ i :: v`.
-/
namespace Verif.Props
open Verif.Core Verif.Spec Verif.Kernels

variable {α : Type}

/-- what is left of a reduced dimension in the shape -/
def keptDims (keep : Bool) (k : Nat) : List Nat := if keep then List.replicate k 1 else []
/-- the coordinate there -/
def keptAt (keep : Bool) (k : Nat) : List Nat := if keep then List.replicate k 0 else []

theorem prod_ones (k : Nat) : prod (List.replicate k 1) = 1 := by
  induction k with
  | zero => rfl
  | succ k ih => simp [List.replicate_succ, prod, ih]

theorem prod_keptOnes (keep : Bool) (k : Nat) : prod (keptDims keep k) = 1 := by
  unfold keptDims; split
  · exact prod_ones k
  · rfl

theorem lin_kept (keep : Bool) (k : Nat) : lin (keptDims keep k) (keptAt keep k) = 0 ∧
    (keptAt keep k).length = (keptDims keep k).length := by
  unfold keptDims keptAt
  cases keep
  · exact ⟨rfl, rfl⟩
  · refine ⟨?_, by simp⟩
    simp only [if_true]
    induction k with
    | zero => rfl
    | succ k ih => simp [List.replicate_succ, lin, ih]

theorem lin_reduced {pre post u v : List Nat} (keep : Bool) (k : Nat) (hu : InBounds pre u) :
    lin (pre ++ keptDims keep k ++ post) (u ++ keptAt keep k ++ v) = lin pre u * prod post + lin post v := by
  have h := lin_kept keep k
  rw [lin_append (by simp [hu.length, h.2]), lin_append hu.length, prod_keptOnes, h.1]
  simp

theorem prod_reduced (pre post : List Nat) (keep : Bool) (k : Nat) : prod (pre ++ keptDims keep k ++ post) = prod pre * prod post := by
  rw [prod_append, prod_append, prod_keptOnes, Nat.mul_one]

theorem reducedShape_mid (keep : Bool) (pre post : List Nat) (a : Nat) :
    reducedShape keep pre.length (pre ++ a :: post) = pre ++ keptDims keep 1 ++ post := by
  unfold reducedShape keptDims
  rw [take_mid, drop_mid]
  cases keep <;> simp

theorem holds_cell {pre post : List Nat} {a : Nat} {data : List α} {f : List Nat → α} (h : Holds (pre ++ a :: post) data f)
    {n i t : Nat} (hn : n < prod pre) (hi : i < a) (ht : t < prod post) :
    data[(n * a + i) * prod post + t]? = some (f (unlin pre n ++ i :: unlin post t)) := (holds_axis.1 h).2 n i t hn hi ht

theorem fixDim_ne_ub (dim : Int) (rank : Nat) : fixDim dim rank ≠ .ub := by
  unfold fixDim
  generalize (if dim ≥ 0 then dim else (rank : Int) + dim) = d
  simp only
  split <;> simp

/-! ## reduce_sum -/

/-- **C50, reduce_sum.** For every tensor and every dimension of it, the element at `(u, v)` is the sum of the elements at
`(u, i, v)`, added in order of `i` starting from zero, and the dimension has extent one or is gone. `add` is the addition of
the element type, whatever its rounding or wrapping. -/
theorem C50_sum (add : α → α → α) (zero : α) (dim : Int) (keep : Bool) (dtype : Nat) (pre post : List Nat) (a : Nat)
    (data : List α) (f : List Nat → α) (hd : MeansDim dim (pre ++ a :: post).length pre.length)
    (ht : plainType dtype = true) (hx : Holds (pre ++ a :: post) data f) :
    ∃ out, reduceSumRun add zero dim keep ⟨dtype, pre ++ a :: post, data⟩ = .ok (pre ++ keptDims keep 1 ++ post, out) ∧
      out.length = prod (pre ++ keptDims keep 1 ++ post) ∧
      ∀ u v, InBounds pre u → InBounds post v → out[lin (pre ++ keptDims keep 1 ++ post) (u ++ keptAt keep 1 ++ v)]? =
        some ((List.range a).foldl (fun s i => add s (f (u ++ i :: v))) zero) := by
  obtain ⟨out, e, el, ev⟩ := sumKernel_ok add zero data (prod pre) a (prod post)
    (fun n i t => f (unlin pre n ++ i :: unlin post t)) fun i c w hi hc hw => holds_cell hx hi hc hw
  refine ⟨out, ?_, by rw [el, prod_reduced], fun u v hu hv => ?_⟩
  · unfold reduceSumRun
    simp only [fixDim_ok hd, Res.bind_ok, ht, if_true]
    rw [take_mid, drop_mid, getD_mid, reducedShape_mid, reducedShape_mid, prod_reduced, e]
    rfl
  · rw [lin_reduced keep 1 hu, ev _ _ (lin_lt hu) (lin_lt hv), unlin_lin hu, unlin_lin hv]

example : reduceSumRun (· + ·) 0 (-2) false ⟨5, [2, 3, 2], [1, 2, 3, 4, 5, 6, 7, 8, 9, 10, 11, 12]⟩ =
    .ok ([2, 2], [9, 12, 27, 30]) := by decide
example : reduceSumRun (· + ·) 0 0 true ⟨5, [2, 2], [1, 2, 3, 4]⟩ = .ok ([1, 2], [4, 6]) := by decide

/-- **C50, reduce_sum, refusals.** A dimension the tensor does not have, or a type without arithmetic, is refused. -/
theorem C50_sum_rejects (add : α → α → α) (zero : α) (dim : Int) (keep : Bool) (x : Operand α)
    (h : (∀ d, ¬ MeansDim dim x.shape.length d) ∨ plainType x.dtype = false) : reduceSumRun add zero dim keep x = .err := by
  unfold reduceSumRun
  rcases hf : fixDim dim x.shape.length with d | _ | _
  · rcases h with h | h
    · exact absurd (fixDim_eq_ok hf) (h d)
    · simp [h]
  · rfl
  · exact absurd hf (fixDim_ne_ub _ _)

example : ∀ d, ¬ MeansDim 2 2 d := by unfold MeansDim; omega

/-! ## reduce_mean -/

/-- the dims from `first` on, `k` of them -/
def dimsFrom (first : Int) (k : Nat) : List Int := (List.range k).map fun (j : Nat) => first + (j : Int)

theorem dimsFrom_succ (first : Int) (k : Nat) : dimsFrom first (k + 1) = first :: dimsFrom (first + 1) k := by
  unfold dimsFrom
  rw [List.range_succ_eq_map]
  simp only [List.map_cons, List.map_map]
  congr 1
  · simp
  · apply List.map_congr_left
    intro j _
    simp only [Function.comp]
    push_cast
    omega

theorem dimsContinue_from (first : Int) (k : Nat) (h1 : -2147483648 ≤ first) (h2 : first + k ≤ 2147483647) :
    dimsContinue (dimsFrom first k) = .ok true := by
  induction k generalizing first with
  | zero => rfl
  | succ k ih =>
    cases k with
    | zero => rfl
    | succ k =>
      have := ih (first + 1) (by omega) (by push_cast at h2 ⊢; omega)
      rw [dimsFrom_succ] at this
      rw [dimsFrom_succ, dimsFrom_succ]
      unfold dimsContinue
      rw [int32_ok (by unfold I32; push_cast at h2; omega)]
      simp only [Res.bind_ok, ne_eq, not_true_eq_false, if_false]
      exact this

theorem fixDims_from (rank p k : Nat) (first : Int) (h : p + k ≤ rank) (h1 : first = p ∨ first = (p : Int) - rank) :
    fixDims rank (dimsFrom first k) = .ok (List.range' p k) := by
  induction k generalizing p first with
  | zero => rfl
  | succ k ih =>
    rw [dimsFrom_succ, List.range'_succ]
    unfold fixDims
    rw [fixDim_ok (d := p) (by unfold MeansDim; omega)]
    simp only [Res.bind_ok]
    by_cases hk : k = 0
    · subst hk; rfl
    · rw [ih (p + 1) (first + 1) (by omega) (by omega)]
      rfl

theorem keepOnes_range (pre mid post : List Nat) :
    keepOnes (List.range' pre.length mid.length) (pre ++ mid ++ post) = pre ++ List.replicate mid.length 1 ++ post := by
  induction mid generalizing pre with
  | nil => simp [keepOnes]
  | cons a mid ih =>
    rw [List.length_cons, List.range'_succ]
    unfold keepOnes
    have e : (pre ++ a :: mid ++ post).set pre.length 1 = (pre ++ [1]) ++ mid ++ post := by simp
    rw [e]
    have := ih (pre ++ [1])
    rw [List.length_append, List.length_singleton] at this
    rw [this]
    simp [List.replicate_succ]

theorem dropDims_mid (p : Nat) (mid post : List Nat) :
    dropDims p (mid ++ post) (List.range' p mid.length) = post := by
  induction mid generalizing p with
  | nil => cases post <;> simp [dropDims]
  | cons a mid ih =>
    rw [List.length_cons, List.range'_succ, List.cons_append]
    unfold dropDims
    rw [if_pos rfl, ih]

theorem dropDims_range (q : Nat) (pre mid post : List Nat) (hm : mid ≠ []) :
    dropDims q (pre ++ mid ++ post) (List.range' (q + pre.length) mid.length) = pre ++ post := by
  induction pre generalizing q with
  | nil => simpa using dropDims_mid q mid post
  | cons a pre ih =>
    have := ih (q + 1)
    rw [show q + 1 + pre.length = q + (a :: pre).length by simp; omega] at this
    cases mid with
    | nil => exact absurd rfl hm
    | cons b mid =>
      rw [List.length_cons (as := mid), List.range'_succ] at this ⊢
      simp only [List.cons_append]
      unfold dropDims
      rw [if_neg (by simp)]
      rw [this]

theorem getD_range' (pre mid post : List Nat) :
    (List.range' pre.length mid.length).map (fun d => (pre ++ mid ++ post).getD d 0) = mid := by
  induction mid generalizing pre with
  | nil => rfl
  | cons a mid ih =>
    rw [List.length_cons, List.range'_succ]
    simp only [List.map_cons]
    congr 1
    · simp
    · have := ih (pre ++ [a])
      simpa using this

theorem divAll_ok (divN : α → Nat → Res α) (quot : α → α) (channels : Nat) (h : ∀ s, divN s channels = .ok (quot s))
    (out : List α) : divAll divN channels out.length out = .ok (out.map quot) := by
  unfold divAll
  have := loop_inv (f := fun out i => do
    let o ← rd out i
    let q ← divN o channels
    wr out i q) (n := out.length) (s := out)
    (fun k o => o.length = out.length ∧ (∀ i, i < k → o[i]? = out[i]?.map quot) ∧ ∀ i, k ≤ i → o[i]? = out[i]?)
    ⟨rfl, by omega, fun _ _ => rfl⟩
    (by
      intro i o hi ⟨h1, h2, h3⟩
      have hv := h3 i (le_refl _)
      rw [List.getElem?_eq_getElem hi] at hv
      refine ⟨_, by
        rw [rd_ok hv]
        simp only [Res.bind_ok, h]
        rw [wr_ok _ (by omega)], by simp [h1], fun j hj => ?_, fun j hj => ?_⟩
      · rcases Nat.lt_or_ge j i with h4 | h4
        · rw [set_ne (by omega)]; exact h2 j h4
        · rw [show j = i by omega, set_eq (by omega), List.getElem?_eq_getElem hi]; rfl
      · rw [set_ne (by omega)]; exact h3 j (by omega))
  obtain ⟨o, e, h1, h2, h3⟩ := this
  rw [e]
  congr 1
  apply List.ext_getElem?
  intro i
  rw [List.getElem?_map]
  by_cases hi : i < out.length
  · exact h2 i hi
  · rw [h3 i (by omega), List.getElem?_eq_none (by omega)]; rfl

/-- **C50, reduce_mean.** For consecutive dimensions (all counted from the front, or all from the end), the element at
`(u, v)` is the sum of the elements at `(u, m, v)` over all coordinates `m` of those dimensions, in row-major order, divided by
their number. -/
theorem C50_mean_partial (add : α → α → α) (zero : α) (divN : α → Nat → Res α) (quot : α → α) (first : Int) (keep : Bool)
    (dtype : Nat) (pre mid post : List Nat) (data : List α) (f : List Nat → α) (hm : mid ≠ [])
    (hrank : (pre ++ mid ++ post).length ≤ 7)
    (hfirst : first = pre.length ∨ first = (pre.length : Int) - (pre ++ mid ++ post).length)
    (ht : plainType dtype = true) (hdiv : ∀ s, divN s (prod mid) = .ok (quot s)) (hx : Holds (pre ++ mid ++ post) data f) :
    ∃ out, reduceMeanRun add zero divN (dimsFrom first mid.length) keep ⟨dtype, pre ++ mid ++ post, data⟩ =
        .ok (pre ++ keptDims keep mid.length ++ post, out) ∧
      out.length = prod (pre ++ keptDims keep mid.length ++ post) ∧
      ∀ u v, InBounds pre u → InBounds post v →
        out[lin (pre ++ keptDims keep mid.length ++ post) (u ++ keptAt keep mid.length ++ v)]? =
          some (quot ((coords mid).foldl (fun s m => add s (f (u ++ m ++ v))) zero)) := by
  obtain ⟨out, e, el, ev⟩ := sumKernel_ok add zero data (prod pre) (prod mid) (prod post)
    (fun n i t => f (unlin pre n ++ unlin mid i ++ unlin post t)) fun i c w hi hc hw => (holds3.1 hx).2 i c w hi hc hw
  have hlen : 0 < mid.length := List.length_pos_of_ne_nil hm
  have hl3 : (pre ++ mid ++ post).length = pre.length + mid.length + post.length := by simp; omega
  have hshape : (if keep = true then keepOnes (List.range' pre.length mid.length) (pre ++ mid ++ post)
      else dropDims 0 (pre ++ mid ++ post) (List.range' pre.length mid.length)) = pre ++ keptDims keep mid.length ++ post := by
    cases keep
    · have := dropDims_range 0 pre mid post hm
      rw [Nat.zero_add] at this
      simp only [Bool.false_eq_true, if_false]; rw [this]; simp [keptDims]
    · simp only [if_true]; rw [keepOnes_range]; rfl
  refine ⟨out.map quot, ?_, by rw [List.length_map, el, prod_reduced], fun u v hu hv => ?_⟩
  · unfold reduceMeanRun
    rw [dimsContinue_from _ _ (by omega) (by omega)]
    simp only [Res.bind_ok, if_true]
    rw [fixDims_from _ pre.length _ _ (by omega) hfirst]
    simp only [Res.bind_ok, ht, if_true]
    have hh : (List.range' pre.length mid.length).head? = some pre.length := by
      obtain ⟨k, hk⟩ := Nat.exists_eq_succ_of_ne_zero (show mid.length ≠ 0 by omega)
      rw [hk, List.range'_succ]; rfl
    have hlast : (List.range' pre.length mid.length).getLast? = some (pre.length + mid.length - 1) := by
      rw [List.getLast?_range', if_neg (by omega)]
    rw [hh, hlast]
    simp only
    rw [getD_range', hshape, prod_reduced]
    have h1 : (pre ++ mid ++ post).take pre.length = pre := by simp
    have h2 : (pre ++ mid ++ post).drop (pre.length + mid.length - 1 + 1) = post := by
      rw [show pre.length + mid.length - 1 + 1 = (pre ++ mid).length by simp; omega, List.drop_left]
    rw [h1, h2, e]
    simp only [Res.bind_ok]
    rw [← el, divAll_ok divN quot _ hdiv]
    rfl
  · rw [lin_reduced keep _ hu, List.getElem?_map, ev _ _ (lin_lt hu) (lin_lt hv), unlin_lin hu, unlin_lin hv, coords_eq,
      List.foldl_map]
    rfl

/-- the quotient of integers, as `int` division does it -/
def intQuot (s : Int) (n : Nat) : Res Int := if n = 0 then .ub else .ok (s.tdiv n)

example : reduceMeanRun (· + ·) 0 intQuot [-2, -1] false ⟨5, [2, 2, 2], [1, 2, 3, 6, 5, 6, 7, 8]⟩ = .ok ([2], [3, 6]) := by
  decide
example : dimsFrom (-2) 2 = [-2, -1] ∧ dimsFrom 0 1 = [0] := by decide
example : coords [2, 2] = [[0, 0], [0, 1], [1, 0], [1, 1]] := by decide

/-- **C50, reduce_mean, refusals.** Dimensions that are not consecutive are refused. -/
theorem C50_mean_rejects (add : α → α → α) (zero : α) (divN : α → Nat → Res α) (dims : List Int) (keep : Bool)
    (x : Operand α) (hb : ∀ d ∈ dims, -2147483648 ≤ d ∧ d < 2147483647)
    (h : ∃ k d e, dims[k]? = some d ∧ dims[k + 1]? = some e ∧ e ≠ d + 1) :
    reduceMeanRun add zero divN dims keep x = .err := by
  have : dimsContinue dims = .ok false := by
    obtain ⟨k, d, e, h1, h2, h3⟩ := h
    induction dims generalizing k with
    | nil => simp at h1
    | cons a t ih =>
      cases t with
      | nil => simp at h2
      | cons b t =>
        unfold dimsContinue
        rw [int32_ok (by have := hb a (by simp); unfold I32; omega)]
        simp only [Res.bind_ok]
        by_cases hab : b ≠ a + 1
        · rw [if_pos hab]
        · rw [if_neg hab]
          cases k with
          | zero => simp at h1 h2; omega
          | succ k => exact ih (fun d hd => hb d (by simp [hd])) k h1 h2
  unfold reduceMeanRun
  rw [this]; rfl

example : ∃ (k : Nat) (d e : Int), [0, 2][k]? = some d ∧ [0, 2][k + 1]? = some e ∧ e ≠ d + 1 := ⟨0, 0, 2, rfl, rfl, by decide⟩

theorem fixDims_err {rank : Nat} {dims : List Int} (h : ∃ d ∈ dims, ∀ j, ¬ MeansDim d rank j) : fixDims rank dims = .err := by
  induction dims with
  | nil => simp at h
  | cons a t ih =>
    unfold fixDims
    rcases hf : fixDim a rank with d | _ | _
    · simp only [Res.bind_ok]
      obtain ⟨e, he, hj⟩ := h
      rcases List.mem_cons.1 he with rfl | he
      · exact absurd (fixDim_eq_ok hf) (hj d)
      · rw [ih ⟨e, he, hj⟩]; rfl
    · rfl
    · exact absurd hf (fixDim_ne_ub _ _)

/-- **C50, reduce_mean, refusals.** A dimension the tensor does not have is refused. -/
theorem C50_mean_range (add : α → α → α) (zero : α) (divN : α → Nat → Res α) (dims : List Int) (keep : Bool)
    (x : Operand α) (hb : ∀ d ∈ dims, -2147483648 ≤ d ∧ d < 2147483647)
    (h : ∃ d ∈ dims, ∀ j, ¬ MeansDim d x.shape.length j) : reduceMeanRun add zero divN dims keep x = .err := by
  have : ∃ b, dimsContinue dims = .ok b := by
    clear h
    induction dims with
    | nil => exact ⟨true, rfl⟩
    | cons a t ih =>
      cases t with
      | nil => exact ⟨true, rfl⟩
      | cons b t =>
        unfold dimsContinue
        rw [int32_ok (by have := hb a (by simp); unfold I32; omega)]
        simp only [Res.bind_ok]
        split
        · exact ⟨_, rfl⟩
        · exact ih fun d hd => hb d (by simp [hd])
  obtain ⟨b, hc⟩ := this
  unfold reduceMeanRun
  rw [hc]
  simp only [Res.bind_ok]
  split
  · rw [fixDims_err h]; rfl
  · rfl

/-- the kernel never refuses -/
theorem sumKernel_ub (add : α → α → α) (x : List α) (N C W : Nat) (out : List α) (hN : 0 < N) (hC : 0 < C) (hW : 0 < W)
    (h : x.length < N * C * W) : sumKernel add x N C W out = .ub := by
  have hne : ∀ (out : List α) (i c w : Nat), (do
      let v ← rd x ((i * C + c) * W + w)
      let o ← rd out (i * W + w)
      wr out (i * W + w) (add o v)) ≠ .err := by
    intro out i c w
    unfold rd wr
    repeat' split
    all_goals simp_all
    all_goals (repeat' split) <;> simp_all
  have hlast : (((N - 1) * C + (C - 1)) * W + (W - 1)) + 1 = N * C * W := by
    have e1 : (N - 1) * C + C = N * C := by rw [← Nat.succ_mul]; congr 1; omega
    have e2 : (N - 1) * C + (C - 1) + 1 = N * C := by omega
    have e3 : ((N - 1) * C + (C - 1)) * W + W = N * C * W := by rw [← Nat.succ_mul, Nat.succ_eq_add_one, e2]
    omega
  unfold sumKernel
  apply loop_ub_of (k := N - 1) (by omega)
  · intro i s _
    exact loop_ne_err fun c s _ => loop_ne_err fun w s _ => hne s i c w
  intro s
  apply loop_ub_of (k := C - 1) (by omega)
  · intro c s _
    exact loop_ne_err fun w s _ => hne s _ c w
  intro s
  apply loop_ub_of (k := W - 1) (by omega)
  · intro w s _
    exact hne s _ _ w
  intro s
  rw [rd_ub (by omega)]
  rfl

/-- **C50, reduce_mean, counted round the end (counterexample).** The last and the first dimension, given as `-1, 0`, pass for
consecutive; on every tensor of rank two or more with at least two elements the kernel then reads outside its operand. -/
theorem C50_mean_wrap_false (add : α → α → α) (zero : α) (divN : α → Nat → Res α) (keep : Bool) (dtype a b : Nat)
    (mid : List Nat) (data : List α) (ht : plainType dtype = true) (hd : data.length = prod (a :: mid ++ [b]))
    (h2 : 2 ≤ data.length) :
    reduceMeanRun add zero divN [-1, 0] keep ⟨dtype, a :: mid ++ [b], data⟩ = .ub := by
  unfold reduceMeanRun
  have hf : fixDims (a :: mid ++ [b]).length [-1, 0] = .ok [mid.length + 1, 0] := by
    unfold fixDims fixDims fixDims
    rw [fixDim_ok (d := mid.length + 1) (by unfold MeansDim; simp), fixDim_ok (d := 0) (by unfold MeansDim; simp)]
    rfl
  have hc : dimsContinue [-1, 0] = .ok true := by decide
  rw [hc]
  simp only [Res.bind_ok, if_true]
  rw [hf]
  simp only [Res.bind_ok, ht, if_true, List.head?_cons, List.getLast?_cons_cons, List.getLast?_singleton]
  have e1 : (a :: mid ++ [b]).take (mid.length + 1) = a :: mid := by simp
  have e2 : (a :: mid ++ [b]).drop (0 + 1) = mid ++ [b] := by simp
  have e3 : ([mid.length + 1, 0].map fun d => (a :: mid ++ [b]).getD d 0) = [b, a] := by
    simp [List.getD]
  rw [e1, e2, e3]
  have hp : data.length = a * prod mid * b := by
    rw [hd]; simp [prod, prod_append, Nat.mul_assoc]
  have hpos : 0 < a ∧ 0 < prod mid ∧ 0 < b := by
    refine ⟨?_, ?_, ?_⟩ <;> (apply Nat.pos_of_ne_zero; rintro h; rw [h] at hp; simp at hp; rw [hp] at h2; simp at h2)
  have hN : prod (a :: mid) = a * prod mid := rfl
  have hW : prod (mid ++ [b]) = prod mid * b := by simp [prod, prod_append]
  have hC : prod [b, a] = b * a := by simp [prod]
  rw [hN, hW, hC, sumKernel_ub]
  · rfl
  · exact Nat.mul_pos hpos.1 hpos.2.1
  · exact Nat.mul_pos hpos.2.2 hpos.1
  · exact Nat.mul_pos hpos.2.1 hpos.2.2
  · have : a * prod mid * (b * a) * (prod mid * b) = data.length * data.length := by rw [hp]; ring
    rw [this]
    have := Nat.mul_le_mul_right data.length h2
    omega

example : reduceMeanRun (· + ·) 0 intQuot [-1, 0] true ⟨5, [2, 2], [1, 2, 3, 4]⟩ = .ub := by decide

/-- **C50, reduce_mean, no dims (counterexample).** Run without dims the kernel reads the first element of an empty vector
(only `infer` refuses). -/
theorem C50_mean_empty_false (add : α → α → α) (zero : α) (divN : α → Nat → Res α) (keep : Bool) (x : Operand α)
    (ht : plainType x.dtype = true) : reduceMeanRun add zero divN [] keep x = .ub := by
  unfold reduceMeanRun
  simp [dimsContinue, fixDims, ht]

/-! ## max -/

theorem max_cells (gt : α → α → Bool) (zero : α) (x : List α) (N ext W : Nat) (X : Nat → Nat → Nat → α) (dst : List α)
    (hx : ∀ i m k, i < N → m < ext → k < W → x[(i * ext + m) * W + k]? = some (X i m k)) (hd : dst.length = N * W)
    (he : 0 < ext) :
    ∃ s, maxKernel gt zero x N ext W dst = .ok s ∧ s.2.length = N * W ∧
      ∀ i k, i < N → k < W → s.2[i * W + k]? = some (runMax gt (fun m => X i m k) (ext - 1)) := by
  have := columns_ok (A := N) (B := 1) (W := W) (buf := fun s : α × List α => s.2)
    (f := fun s i k => do
      let tmp ← maxColumn gt x (k + i * (W * ext)) W ext s.1
      let o ← wr s.2 (i * W + k) tmp
      .ok (tmp, o))
    (g := fun i _ k => runMax gt (fun m => X i m k) (ext - 1)) (s0 := (zero, dst)) (by simpa using hd)
    (by
      rintro ⟨t, o⟩ i k hl hi hk
      simp only [Nat.mul_one] at hl
      have hlt : i * W + k < o.length := by rw [hl]; exact cell2_lt hi hk
      refine ⟨_, by
        rw [maxColumn_ok gt x _ W ext (fun m => X i m k) t (fun m hm => by
          rw [← hx i m k hi hm hk]; congr 1; ring), if_neg (by omega)]
        simp only [Res.bind_ok]
        rw [wr_ok _ hlt]; rfl, by simp [hl], fun j hj => ?_, fun p hp => ?_⟩
      · rw [show (i * 1 + j) * W + k = i * W + k by rw [show j = 0 by omega]; simp]
        exact set_eq hlt
      · have := hp 0 (by omega)
        exact set_ne (fun h => this (by rw [← h]; simp)))
  obtain ⟨s, e, hl, hv⟩ := this
  refine ⟨s, e, by simpa using hl, fun i k hi hk => ?_⟩
  have := hv i 0 k hi (by omega) hk
  simpa using this

/-- **C50, max.** The element at `(u, v)` is the largest of the elements at `(u, i, v)`. -/
theorem C50_max [LinearOrder α] (zero : α) (dim keep : Int) (dtype : Nat) (pre post : List Nat) (a : Nat)
    (data dst : List α) (f : List Nat → α) (hd : MeansDim dim (pre ++ a :: post).length pre.length)
    (ht : plainType dtype = true) (ha : 0 < a) (hx : Holds (pre ++ a :: post) data f)
    (hdst : dst.length = prod pre * prod post) :
    ∃ out, maxRun (fun x y => decide (x > y)) zero dim keep ⟨dtype, pre ++ a :: post, data⟩ dst =
        .ok (pre ++ keptDims (decide (keep = 1)) 1 ++ post, out) ∧
      out.length = prod (pre ++ keptDims (decide (keep = 1)) 1 ++ post) ∧
      ∀ u v, InBounds pre u → InBounds post v → ∃ m,
        out[lin (pre ++ keptDims (decide (keep = 1)) 1 ++ post) (u ++ keptAt (decide (keep = 1)) 1 ++ v)]? = some m ∧
        (∃ i, i < a ∧ m = f (u ++ i :: v)) ∧ ∀ i, i < a → f (u ++ i :: v) ≤ m := by
  obtain ⟨s, e, el, ev⟩ := max_cells (fun x y => decide (x > y)) zero data (prod pre) a (prod post)
    (fun n i t => f (unlin pre n ++ i :: unlin post t)) dst (fun i c w hi hc hw => holds_cell hx hi hc hw) hdst ha
  refine ⟨s.2, ?_, by rw [el, prod_reduced], fun u v hu hv => ?_⟩
  · unfold maxRun
    simp only [fixDim_ok hd, Res.bind_ok, ht, if_true]
    rw [take_mid, drop_mid, getD_mid, reducedShape_mid, e]
    rfl
  · rw [lin_reduced _ 1 hu, ev _ _ (lin_lt hu) (lin_lt hv), unlin_lin hu, unlin_lin hv]
    obtain ⟨⟨i, hi, hm⟩, hb⟩ := runMax_spec (fun m => f (u ++ m :: v)) (a - 1)
    exact ⟨_, rfl, ⟨i, by omega, hm⟩, fun i hi => hb i (by omega)⟩

example : maxRun (fun x y => decide (x > y)) 0 1 1 ⟨5, [2, 3], [-5, -2, -9, 7, 1, 7]⟩ [0, 0] = .ok ([2, 1], [-2, 7]) := by
  decide

/-- **C50, max, refusals.** -/
theorem C50_max_rejects (gt : α → α → Bool) (zero : α) (dim keep : Int) (x : Operand α) (dst : List α)
    (h : (∀ d, ¬ MeansDim dim x.shape.length d) ∨ plainType x.dtype = false) : maxRun gt zero dim keep x dst = .err := by
  unfold maxRun
  rcases hf : fixDim dim x.shape.length with d | _ | _
  · rcases h with h | h
    · exact absurd (fixDim_eq_ok hf) (h d)
    · simp [h]
  · rfl
  · exact absurd hf (fixDim_ne_ub _ _)

/-! ## argmax -/

/-- the four bytes of an `int32_t` in memory, least significant first -/
def bytes32 (v : Int) : List Nat :=
  let u := (if v < 0 then v + 4294967296 else v).toNat
  [u % 256, u / 256 % 256, u / 65536 % 256, u / 16777216 % 256]

/-- the memory of a buffer of 32-bit words -/
def memory32 (vs : List Int) : List Nat := vs.flatMap bytes32

theorem rdInt32_memory {vs : List Int} (h : ∀ v ∈ vs, I32 v) {i : Nat} {v : Int} (hv : vs[i]? = some v) :
    rdInt32 (memory32 vs) i = .ok v := by
  have key : ∀ (vs : List Int) (i : Nat) (v : Int), vs[i]? = some v → ∀ k, k < 4 →
      (memory32 vs)[4 * i + k]? = (bytes32 v)[k]? := by
    intro vs
    induction vs with
    | nil => simp
    | cons a vs ih =>
      intro i v hv k hk
      have hl : (bytes32 a).length = 4 := rfl
      cases i with
      | zero =>
        simp at hv; subst hv
        simp only [memory32, List.flatMap_cons]
        rw [List.getElem?_append_left (by omega)]; simp
      | succ i =>
        simp at hv
        have := ih i v hv k hk
        simp only [memory32, List.flatMap_cons] at this ⊢
        rw [List.getElem?_append_right (by omega), hl, show 4 * (i + 1) + k - 4 = 4 * i + k by omega]
        exact this
  have hb := h v (List.mem_of_getElem? hv)
  unfold I32 at hb
  have h0 := key vs i v hv 0 (by omega)
  have h1 := key vs i v hv 1 (by omega)
  have h2 := key vs i v hv 2 (by omega)
  have h3 := key vs i v hv 3 (by omega)
  simp only [bytes32, List.getElem?_cons_zero, List.getElem?_cons_succ, Nat.add_zero] at h0 h1 h2 h3
  unfold rdInt32
  rw [rd_ok h0, rd_ok h1, rd_ok h2, rd_ok h3]
  simp only [Res.bind_ok]
  congr 1
  generalize hu : (if v < 0 then v + 4294967296 else v).toNat = u
  have hlt : u < 4294967296 := by split at hu <;> omega
  have e : u % 256 + 256 * (u / 256 % 256) + 65536 * (u / 65536 % 256) + 16777216 * (u / 16777216 % 256) = u := by omega
  rw [e]
  split at hu <;> split <;> omega

/-- the kernel on memory whose words are known -/
theorem argmax_words (dim : Int) (pre post : List Nat) (a : Nat) (mem dst : List Nat) (X : List Nat → Int)
    (hd : MeansDim dim (pre ++ a :: post).length pre.length) (ha : 0 < a)
    (hx : ∀ n i t, n < prod pre → i < a → t < prod post →
      rdInt32 mem ((n * a + i) * prod post + t) = .ok (X (unlin pre n ++ i :: unlin post t)))
    (hdst : dst.length = prod pre * prod post) :
    ∃ out, argmaxRun dim (pre ++ a :: post) mem dst = .ok (pre ++ post, out) ∧ out.length = prod (pre ++ post) ∧
      ∀ u v, InBounds pre u → InBounds post v → ∃ m, out[lin (pre ++ post) (u ++ v)]? = some m ∧ m < a ∧
        (∀ i, i < a → X (u ++ i :: v) ≤ X (u ++ m :: v)) ∧ ∀ i, i < m → X (u ++ i :: v) < X (u ++ m :: v) := by
  have := columns_ok (A := prod pre) (B := 1) (W := prod post) (buf := fun s : (Int × Nat) × List Nat => s.2)
    (f := fun s i k => do
      let t ← argmaxColumn mem (k + i * (prod post * a)) (prod post) a s.1
      let o ← wr s.2 (i * prod post + k) t.2
      .ok (t, o))
    (g := fun n _ t => runArg (fun m => X (unlin pre n ++ m :: unlin post t)) (a - 1)) (s0 := ((0, 0), dst))
    (by simpa using hdst)
    (by
      rintro ⟨t, o⟩ i k hl hi hk
      simp only [Nat.mul_one] at hl
      have hlt : i * prod post + k < o.length := by rw [hl]; exact cell2_lt hi hk
      refine ⟨_, by
        rw [argmaxColumn_ok mem _ (prod post) a (fun m => X (unlin pre i ++ m :: unlin post k)) t ha (fun m hm => by
          rw [← hx i m k hi hm hk]; congr 1; ring)]
        simp only [Res.bind_ok]
        rw [wr_ok _ hlt]; rfl, by simp [hl], fun j hj => ?_, fun p hp => ?_⟩
      · rw [show (i * 1 + j) * prod post + k = i * prod post + k by rw [show j = 0 by omega]; simp]
        exact set_eq hlt
      · have := hp 0 (by omega)
        exact set_ne (fun h => this (by rw [← h]; simp)))
  obtain ⟨s, e, hl, hv⟩ := this
  refine ⟨s.2, ?_, by rw [prod_append]; simpa using hl, fun u v hu hv' => ?_⟩
  · unfold argmaxRun
    simp only [fixDim_ok hd, Res.bind_ok]
    rw [take_mid, drop_mid, getD_mid, reducedShape_mid]
    unfold argmaxKernel
    rw [e]
    simp [keptDims]
  · have h1 := hv (lin pre u) 0 (lin post v) (lin_lt hu) (by omega) (lin_lt hv')
    rw [unlin_lin hu, unlin_lin hv'] at h1
    rw [lin_append hu.length]
    simp only [Nat.mul_one, Nat.add_zero] at h1
    obtain ⟨q1, q2, q3⟩ := runArg_spec (fun m => X (u ++ m :: v)) (a - 1)
    exact ⟨_, h1, by omega, fun i hi => q2 i (by omega), q3⟩

/-- **C50, argmax of 32-bit integers.** The element at `(u, v)` is the first `i` at which the element at `(u, i, v)` is
largest. -/
theorem C50_argmax_partial (dim : Int) (pre post : List Nat) (a : Nat) (data : List Int) (dst : List Nat)
    (f : List Nat → Int) (hd : MeansDim dim (pre ++ a :: post).length pre.length) (ha : 0 < a)
    (hb : ∀ v ∈ data, I32 v) (hx : Holds (pre ++ a :: post) data f) (hdst : dst.length = prod pre * prod post) :
    ∃ out, argmaxRun dim (pre ++ a :: post) (memory32 data) dst = .ok (pre ++ post, out) ∧ out.length = prod (pre ++ post) ∧
      ∀ u v, InBounds pre u → InBounds post v → ∃ m, out[lin (pre ++ post) (u ++ v)]? = some m ∧ m < a ∧
        (∀ i, i < a → f (u ++ i :: v) ≤ f (u ++ m :: v)) ∧ ∀ i, i < m → f (u ++ i :: v) < f (u ++ m :: v) :=
  argmax_words dim pre post a _ dst f hd ha
    (fun _ _ _ hn hi ht => rdInt32_memory hb (holds_cell hx hn hi ht)) hdst

example : argmaxRun (-1) [2, 3] (memory32 [-5, -2, -9, 7, 1, 7]) [9, 9] = .ok ([2], [1, 0]) := by decide

/-- the bit pattern of a single-precision code, as an `int32_t` -/
def asInt32 (c : Nat) : Int := if c < 2147483648 then (c : Int) else (c : Int) - 4294967296

/-- **C50, argmax of floats (counterexample).** The memory of a FLOAT32 tensor is read as integers, which orders negative
floats backwards: of any two negative floats, the smaller first, argmax picks the smaller one. -/
theorem C50_argmax_float_false (c0 c1 : Nat) (h0 : c0 < 2 ^ 32) (h1 : c1 < 2 ^ 32) (hs0 : sgnOf .single c0 = 1)
    (hs1 : sgnOf .single c1 = 1) (hlt : ieeeVal .single c0 < ieeeVal .single c1) (d : Nat) :
    argmaxRun 0 [2] (memory32 [asInt32 c0, asInt32 c1]) [d] = .ok ([], [0]) := by
  have hord : c1 < c0 := by
    rw [ieeeVal_unit, ieeeVal_unit, if_pos hs0, if_pos hs1] at hlt
    have hpos : (0 : ℚ) < 2 ^ (1 - ieeeBias Fmt.single - (Fmt.single.f : ℤ)) := by positivity
    have h3 : unitMag Fmt.single (c1 % 2 ^ (Fmt.single.e + Fmt.single.f)) <
        unitMag Fmt.single (c0 % 2 ^ (Fmt.single.e + Fmt.single.f)) := by
      have h4 : (unitMag Fmt.single (c1 % 2 ^ (Fmt.single.e + Fmt.single.f)) : ℚ) <
          unitMag Fmt.single (c0 % 2 ^ (Fmt.single.e + Fmt.single.f)) := by
        by_contra hc
        have := mul_le_mul_of_nonneg_right (not_lt.1 hc) (le_of_lt hpos)
        linarith
      exact_mod_cast h4
    have h5 := (unitMag_strictMono Fmt.single).lt_iff_lt.1 h3
    unfold sgnOf at hs0 hs1
    simp only [Fmt.single] at h5 hs0 hs1
    norm_num at h5 hs0 hs1 h0 h1
    omega
  have hb0 : 2147483648 ≤ c0 ∧ 2147483648 ≤ c1 := by
    unfold sgnOf at hs0 hs1
    simp only [Fmt.single] at hs0 hs1
    norm_num at hs0 hs1 h0 h1
    omega
  norm_num at h0 h1
  have hd : MeansDim 0 ([] ++ 2 :: ([] : List Nat)).length ([] : List Nat).length := by unfold MeansDim; simp
  have e0 : asInt32 c0 = (c0 : Int) - 4294967296 := by unfold asInt32; rw [if_neg (by omega)]
  have e1 : asInt32 c1 = (c1 : Int) - 4294967296 := by unfold asInt32; rw [if_neg (by omega)]
  obtain ⟨out, e, el, ev⟩ := C50_argmax_partial 0 [] [] 2 [asInt32 c0, asInt32 c1] [d]
    (fun c => if c = [0] then asInt32 c0 else asInt32 c1) hd (by omega)
    (by
      intro v hv
      simp at hv
      unfold I32
      rcases hv with rfl | rfl <;> omega)
    (by
      rw [holds_axis]
      refine ⟨rfl, fun n i t hn hi ht => ?_⟩
      simp [prod] at hn ht
      subst hn ht
      have : i = 0 ∨ i = 1 := by omega
      rcases this with rfl | rfl <;> simp [unlin, prod]) rfl
  obtain ⟨m, hm, hma, hmax, -⟩ := ev [] [] trivial trivial
  have : m = 0 := by
    have := hmax 0 (by omega)
    have hm1 : m = 0 ∨ m = 1 := by omega
    rcases hm1 with rfl | rfl
    · rfl
    · simp at this; omega
  subst this
  simp only [List.nil_append] at e
  rw [e]
  simp [prod] at el
  obtain ⟨x, rfl⟩ := List.length_eq_one_iff.1 el
  simp [lin] at hm
  rw [hm]

example : argmaxRun 0 [2] (memory32 [asInt32 0xC0000000, asInt32 0xBF800000]) [7] = .ok ([], [0]) := by decide
example : ieeeVal .single 0xC0000000 = -2 ∧ ieeeVal .single 0xBF800000 = -1 := by
  constructor <;> norm_num [ieeeVal, sgnOf, expOf, fracOf, ieeeBias, Fmt.single]

/-- **C50, argmax of narrow types (counterexample).** With elements of one or two bytes the kernel reads outside the operand:
its buffer ends before the last word read. -/
theorem C50_argmax_narrow_false (dim : Int) (pre post : List Nat) (a : Nat) (mem dst : List Nat)
    (hd : MeansDim dim (pre ++ a :: post).length pre.length) (hp : 0 < prod (pre ++ a :: post))
    (hm : mem.length ≤ 2 * prod (pre ++ a :: post)) : argmaxRun dim (pre ++ a :: post) mem dst = .ub := by
  rw [prod_mid'] at hp hm
  have hpos : 0 < prod pre ∧ 0 < a ∧ 0 < prod post := by
    refine ⟨?_, ?_, ?_⟩ <;> (apply Nat.pos_of_ne_zero; rintro h; simp [h] at hp)
  unfold argmaxRun
  simp only [fixDim_ok hd, Res.bind_ok]
  rw [take_mid, drop_mid, getD_mid]
  have hrd : ∀ i, rdInt32 mem i ≠ .err := by
    intro i
    unfold rdInt32 rd
    rcases mem[4 * i]? with _ | _ <;> simp
    rcases mem[4 * i + 1]? with _ | _ <;> simp
    rcases mem[4 * i + 2]? with _ | _ <;> simp
    rcases mem[4 * i + 3]? with _ | _ <;> simp
  have hcol : ∀ b w e s, argmaxColumn mem b w e s ≠ .err := by
    intro b w e s
    unfold argmaxColumn
    apply loop_ne_err
    intro i s _
    rcases h : rdInt32 mem (b + i * w) with v | _ | _
    · simp
    · exact absurd h (hrd _)
    · simp
  have hstep : ∀ (s : (Int × Nat) × List Nat) i k, (do
      let t ← argmaxColumn mem (k + i * (prod post * a)) (prod post) a s.1
      let o ← wr s.2 (i * prod post + k) t.2
      Res.ok (t, o)) ≠ .err := by
    intro s i k
    rcases h : argmaxColumn mem (k + i * (prod post * a)) (prod post) a s.1 with v | _ | _
    · simp only [Res.bind_ok]
      unfold wr
      split <;> simp
    · exact absurd h (hcol _ _ _ _)
    · simp
  have : argmaxKernel mem (prod pre) a (prod post) dst = .ub := by
    unfold argmaxKernel
    apply loop_ub_of (k := prod pre - 1) (by omega)
    · intro i s _
      exact loop_ne_err fun k s _ => hstep s i k
    intro s
    apply loop_ub_of (k := prod post - 1) (by omega)
    · intro k s _
      exact hstep s _ k
    intro s
    have hc : argmaxColumn mem (prod post - 1 + (prod pre - 1) * (prod post * a)) (prod post) a s.1 = .ub := by
      unfold argmaxColumn
      apply loop_ub_of (k := a - 1) (by omega)
      · intro i s _
        rcases h : rdInt32 mem (prod post - 1 + (prod pre - 1) * (prod post * a) + i * prod post) with v | _ | _
        · simp
        · exact absurd h (hrd _)
        · simp
      intro s
      have hlast : prod post - 1 + (prod pre - 1) * (prod post * a) + (a - 1) * prod post + 1 = prod pre * a * prod post := by
        obtain ⟨p, hp⟩ := Nat.exists_eq_succ_of_ne_zero (show prod pre ≠ 0 by omega)
        obtain ⟨b, hb⟩ := Nat.exists_eq_succ_of_ne_zero (show a ≠ 0 by omega)
        obtain ⟨w, hw⟩ := Nat.exists_eq_succ_of_ne_zero (show prod post ≠ 0 by omega)
        rw [hp, hb, hw]
        simp only [Nat.succ_eq_add_one, Nat.add_sub_cancel]
        ring
      have : mem.length ≤ 4 * (prod post - 1 + (prod pre - 1) * (prod post * a) + (a - 1) * prod post) + 3 := by omega
      have : rdInt32 mem (prod post - 1 + (prod pre - 1) * (prod post * a) + (a - 1) * prod post) = .ub := by
        unfold rdInt32
        rw [rd_ub (i := 4 * (prod post - 1 + (prod pre - 1) * (prod post * a) + (a - 1) * prod post) + 3) this]
        unfold rd
        rcases mem[4 * (prod post - 1 + (prod pre - 1) * (prod post * a) + (a - 1) * prod post)]? with _ | _ <;> simp
        rcases mem[4 * (prod post - 1 + (prod pre - 1) * (prod post * a) + (a - 1) * prod post) + 1]? with _ | _ <;> simp
        rcases mem[4 * (prod post - 1 + (prod pre - 1) * (prod post * a) + (a - 1) * prod post) + 2]? with _ | _ <;> simp
      rw [this]; rfl
    rw [hc]; rfl
  rw [this]; rfl

example : argmaxRun 0 [4] [1, 2, 3, 4] [0] = .ub := by decide

/-- **C50, argmax of 64-bit integers (counterexample).** Only the first half of the memory is read: for any two nonnegative
numbers, the smaller first and below 2³¹, argmax answers that the first is largest. -/
theorem C50_argmax_wide_false (x0 x1 : Nat) (h0 : x0 < 2147483648) (_h1 : x1 < 2 ^ 63) (_hlt : x0 < x1) (d : Nat) :
    argmaxRun 0 [2] (memory32 [(x0 : Int), 0, asInt32 (x1 % 4294967296), (x1 / 4294967296 : Nat)]) [d] = .ok ([], [0]) := by
  have hd : MeansDim 0 ([] ++ 2 :: ([] : List Nat)).length ([] : List Nat).length := by unfold MeansDim; simp
  have hall : ∀ v ∈ [(x0 : Int), 0, asInt32 (x1 % 4294967296), (x1 / 4294967296 : Nat)], I32 v := by
    intro v hv
    simp at hv
    unfold I32
    rcases hv with rfl | rfl | rfl | rfl
    · omega
    · omega
    · unfold asInt32; split <;> omega
    · omega
  obtain ⟨out, e, el, ev⟩ := argmax_words 0 [] [] 2
    (memory32 [(x0 : Int), 0, asInt32 (x1 % 4294967296), (x1 / 4294967296 : Nat)]) [d]
    (fun c => if c = [0] then (x0 : Int) else 0) hd (by omega)
    (by
      intro n i t hn hi ht
      simp [prod] at hn ht
      subst hn ht
      have : i = 0 ∨ i = 1 := by omega
      rcases this with rfl | rfl
      · exact rdInt32_memory hall (by simp [prod, unlin])
      · exact rdInt32_memory hall (by simp [prod, unlin])) rfl
  obtain ⟨m, hm, hma, hmax, hfirst⟩ := ev [] [] trivial trivial
  have : m = 0 := by
    have := hmax 0 (by omega)
    have hm1 : m = 0 ∨ m = 1 := by omega
    rcases hm1 with rfl | rfl
    · rfl
    · have := hfirst 0 (by omega)
      simp at this
      omega
  subst this
  simp only [List.nil_append] at e
  rw [e]
  simp [prod] at el
  obtain ⟨x, rfl⟩ := List.length_eq_one_iff.1 el
  simp [lin] at hm
  rw [hm]

example : argmaxRun 0 [2] (memory32 [5, 0, 9, 0]) [7] = .ok ([], [0]) := by decide

/-! ## softmax -/

/-- the summands of a column -/
def softSum (A : Arith α) (e : α → α) (a : Nat) (X : Nat → α) : α := (List.range a).foldl (fun s j => A.add s (e (X j))) A.zero

/-- **C50, softmax.** For every arithmetic: with an extent other than one, the element at `(u, i, v)` is `exp` of the element
divided by the sum of `exp` along the dimension; in the smooth form the largest element is subtracted first. -/
theorem C50_softmax (A : Arith α) (dim : Int) (smooth : Bool) (dtype : Nat) (pre post : List Nat) (a : Nat)
    (data dst : List α) (f : List Nat → α) (hd : MeansDim dim (pre ++ a :: post).length pre.length)
    (ht : plainType dtype = true) (ha : a ≠ 1) (ha0 : smooth = true → 0 < a) (hx : Holds (pre ++ a :: post) data f)
    (hdst : dst.length = prod (pre ++ a :: post)) :
    ∃ out, softmaxRun A dim smooth ⟨dtype, pre ++ a :: post, data⟩ dst = .ok (pre ++ a :: post, out) ∧
      out.length = prod (pre ++ a :: post) ∧
      ∀ u i v, InBounds pre u → i < a → InBounds post v → ∃ e : α → α,
        (if smooth then e = fun x => A.exp (A.sub x (runMax A.gt (fun j => f (u ++ j :: v)) (a - 1))) else e = A.exp) ∧
        out[lin (pre ++ a :: post) (u ++ i :: v)]? =
          some (A.div (e (f (u ++ i :: v))) (softSum A e a fun j => f (u ++ j :: v))) := by
  rw [prod_mid'] at hdst ⊢
  let E := fun (n t : Nat) => if smooth then fun x => A.exp (A.sub x (runMax A.gt (fun j => f (unlin pre n ++ j :: unlin post t)) (a - 1)))
    else A.exp
  have := columns_ok (A := prod pre) (B := a) (W := prod post) (buf := id)
    (f := fun out n w =>
        if smooth then do
          let mx ← columnMax A.gt data (n * a * prod post + w) (prod post) a
          softmaxColumn A (fun v => A.exp (A.sub v mx)) data (n * a * prod post + w) (prod post) a out
        else softmaxColumn A A.exp data (n * a * prod post + w) (prod post) a out)
    (g := fun n i t => A.div (E n t (f (unlin pre n ++ i :: unlin post t)))
      (softSum A (E n t) a fun j => f (unlin pre n ++ j :: unlin post t))) (s0 := dst) hdst
    (by
      intro out n w hl hn hw
      simp only [id] at hl ⊢
      have hcell : ∀ m, n * a * prod post + w + m * prod post = (n * a + m) * prod post + w := by intro m; ring
      have hX : ∀ m, m < a → data[n * a * prod post + w + m * prod post]? = some (f (unlin pre n ++ m :: unlin post w)) := by
        intro m hm; rw [hcell]; exact holds_cell hx hn hm hw
      have hL : ∀ m, m < a → n * a * prod post + w + m * prod post < out.length := by
        intro m hm; rw [hcell, hl]; exact radix3_lt hn hm hw
      have hW : 0 < prod post := by omega
      cases smooth with
      | false =>
        obtain ⟨o, e, ol, ov, orr⟩ := softmaxColumn_ok A A.exp data (n * a * prod post + w) (prod post) a out _ hW hX hL
        refine ⟨o, by simpa using e, by rw [ol, hl], fun i hi => ?_, fun p hp => orr p fun i hi => ?_⟩
        · rw [← hcell, ov i hi]; rfl
        · rw [hcell]; exact hp i hi
      | true =>
        obtain ⟨o, e, ol, ov, orr⟩ := softmaxColumn_ok A
          (fun v => A.exp (A.sub v (runMax A.gt (fun j => f (unlin pre n ++ j :: unlin post w)) (a - 1)))) data
          (n * a * prod post + w) (prod post) a out _ hW hX hL
        refine ⟨o, ?_, by rw [ol, hl], fun i hi => ?_, fun p hp => orr p fun i hi => ?_⟩
        · simp only [if_true]
          rw [columnMax_ok A.gt data _ _ a (fun j => f (unlin pre n ++ j :: unlin post w)) (ha0 rfl) hX]
          exact e
        · rw [← hcell, ov i hi]; rfl
        · rw [hcell]; exact hp i hi)
  obtain ⟨out, e, el, ev⟩ := this
  simp only [id] at el ev
  refine ⟨out, ?_, el, fun u i v hu hi hv => ⟨E (lin pre u) (lin post v), ?_, ?_⟩⟩
  · unfold softmaxRun
    simp only [fixDim_ok hd, Res.bind_ok, ht, if_true]
    rw [take_mid, drop_mid, getD_mid]
    unfold softmaxKernel
    rw [if_neg ha, e]; rfl
  · simp only [E, unlin_lin hu, unlin_lin hv]
    cases smooth <;> simp
  · rw [lin_mid' hu.length, ev _ _ _ (lin_lt hu) hi (lin_lt hv), unlin_lin hu, unlin_lin hv]

/-- exact real arithmetic -/
noncomputable def realArith : Arith ℝ where
  zero := 0
  one := 1
  add := (· + ·)
  sub := (· - ·)
  mul := (· * ·)
  div := (· / ·)
  exp := Real.exp
  sqrt := Real.sqrt
  gt := fun x y => decide (x > y)

theorem foldl_sum (g : Nat → ℝ) (n : Nat) : (List.range n).foldl (fun s j => s + g j) 0 = ((List.range n).map g).sum := by
  induction n with
  | zero => rfl
  | succ n ih => rw [foldl_range_succ, ih, List.range_succ, List.map_append, List.sum_append]; simp

theorem fill_ok {A : Arith α} (n : Nat) : ∀ i, i < n → (List.replicate n A.one)[i]? = some A.one := by
  intro i hi; simp [List.getElem?_replicate, hi]

/-- **C50, softmax over the reals.** Smooth or not, on every tensor without a zero extent along the dimension, the element at
`(u, i, v)` is `exp x_i / Σ_j exp x_j`. -/
theorem C50_softmax_real (dim : Int) (smooth : Bool) (dtype : Nat) (pre post : List Nat) (a : Nat)
    (data dst : List ℝ) (f : List Nat → ℝ) (hd : MeansDim dim (pre ++ a :: post).length pre.length)
    (ht : plainType dtype = true) (ha : 0 < a) (hx : Holds (pre ++ a :: post) data f)
    (hdst : dst.length = prod (pre ++ a :: post)) :
    ∃ out, softmaxRun realArith dim smooth ⟨dtype, pre ++ a :: post, data⟩ dst = .ok (pre ++ a :: post, out) ∧
      out.length = prod (pre ++ a :: post) ∧
      ∀ u i v, InBounds pre u → i < a → InBounds post v →
        out[lin (pre ++ a :: post) (u ++ i :: v)]? = some
          (Real.exp (f (u ++ i :: v)) / ((List.range a).map fun j => Real.exp (f (u ++ j :: v))).sum) := by
  by_cases h1 : a = 1
  · subst h1
    refine ⟨List.replicate dst.length 1, ?_, by simp [hdst], fun u i v hu hi hv => ?_⟩
    · unfold softmaxRun
      simp only [fixDim_ok hd, Res.bind_ok, ht, if_true]
      rw [take_mid, drop_mid, getD_mid]
      unfold softmaxKernel
      rw [if_pos rfl]; rfl
    · have hi0 : i = 0 := by omega
      subst hi0
      rw [lin_mid' hu.length, hdst, prod_mid', List.getElem?_replicate, if_pos (radix3_lt (lin_lt hu) hi (lin_lt hv))]
      simp
  · obtain ⟨out, e, el, ev⟩ := C50_softmax realArith dim smooth dtype pre post a data dst f hd ht h1 (fun _ => ha) hx hdst
    refine ⟨out, e, el, fun u i v hu hi hv => ?_⟩
    obtain ⟨E, hE, hv'⟩ := ev u i v hu hi hv
    rw [hv']
    congr 1
    have hs : softSum realArith E a (fun j => f (u ++ j :: v)) = ((List.range a).map fun j => E (f (u ++ j :: v))).sum :=
      foldl_sum (fun j => E (f (u ++ j :: v))) a
    rw [hs]
    show E (f (u ++ i :: v)) / _ = _
    cases smooth with
    | false => simp only [Bool.false_eq_true, if_false] at hE; subst hE; rfl
    | true =>
      simp only [if_true] at hE
      generalize runMax realArith.gt (fun j => f (u ++ j :: v)) (a - 1) = mx at hE
      have hexp : ∀ x, E x = Real.exp x * Real.exp (-mx) := by
        intro x; subst hE
        show Real.exp (x - mx) = _
        rw [sub_eq_add_neg, Real.exp_add]
      simp only [hexp]
      rw [List.sum_map_mul_right]
      rw [mul_div_mul_right _ _ (Real.exp_ne_zero _)]

/-- the non-zero extents, the type and the dimension of the hypotheses -/
example : MeansDim (-1) ([2] ++ 3 :: [4]).length 2 ∧ MeansDim 1 ([2] ++ 3 :: [4]).length ([2] : List Nat).length ∧
    plainType 10 = true := by unfold MeansDim; decide
/-- integers standing in for an arithmetic: `exp x` is `2^x`, quotients in hundredths -/
def toyArith : Arith Int := ⟨0, 1, (· + ·), (· - ·), (· * ·), fun x y => (100 * x).tdiv y, fun x => 2 ^ x.toNat, fun x => x, fun x y => decide (x > y)⟩
example : softmaxRun toyArith 0 false ⟨5, [2, 2], [3, 0, 3, 1]⟩ [0, 0, 0, 0] = .ok ([2, 2], [50, 33, 50, 66]) := by decide
example : softmaxRun toyArith (-1) true ⟨5, [1, 2], [1, 0]⟩ [0, 0] = .ok ([1, 2], [50, 50]) := by decide

/-- **C50, smooth softmax of nothing (counterexample).** With a zero extent along the dimension, and others not zero, the smooth
form reads an element although the tensor has none. -/
theorem C50_softmax_empty_false (A : Arith α) (dim : Int) (dtype : Nat) (pre post : List Nat) (dst : List α)
    (hd : MeansDim dim (pre ++ 0 :: post).length pre.length) (ht : plainType dtype = true) (h1 : 0 < prod pre)
    (h2 : 0 < prod post) : softmaxRun A dim true ⟨dtype, pre ++ 0 :: post, []⟩ dst = .ub := by
  unfold softmaxRun
  simp only [fixDim_ok hd, Res.bind_ok, ht, if_true]
  rw [take_mid, drop_mid, getD_mid]
  have : softmaxKernel A true [] (prod pre) 0 (prod post) dst = .ub := by
    unfold softmaxKernel
    rw [if_neg (by omega)]
    have hc : ∀ b, columnMax A.gt ([] : List α) b (prod post) 0 = .ub := by
      intro b; unfold columnMax; rw [rd_ub (by simp)]; rfl
    have hin : ∀ (s : List α) n, loop (fun out w => if true = true then do
          let mx ← columnMax A.gt ([] : List α) (n * 0 * prod post + w) (prod post) 0
          softmaxColumn A (fun v => A.exp (A.sub v mx)) [] (n * 0 * prod post + w) (prod post) 0 out
        else softmaxColumn A A.exp [] (n * 0 * prod post + w) (prod post) 0 out) (prod post) s = .ub := by
      intro s n
      apply loop_ub_of (k := 0) h2
      · intro i s _; simp [hc]
      · intro s; simp [hc]
    apply loop_ub_of (k := 0) h1
    · intro i s _; rw [hin]; simp
    · intro s; exact hin s 0
  rw [this]; rfl

example : softmaxRun toyArith 1 true ⟨5, [2, 0], []⟩ [] = .ub := by decide

/-- **C50, softmax, refusals.** -/
theorem C50_softmax_rejects (A : Arith α) (dim : Int) (smooth : Bool) (x : Operand α) (dst : List α)
    (h : (∀ d, ¬ MeansDim dim x.shape.length d) ∨ plainType x.dtype = false) : softmaxRun A dim smooth x dst = .err := by
  unfold softmaxRun
  rcases hf : fixDim dim x.shape.length with d | _ | _
  · rcases h with h | h
    · exact absurd (fixDim_eq_ok hf) (h d)
    · simp [h]
  · rfl
  · exact absurd hf (fixDim_ne_ub _ _)

/-! ## l2_norm -/

/-- **C50, l2_norm.** For every arithmetic and every extent other than one, the element at `(u, i, v)` is the element divided
by the square root of the sum of squares along the dimension plus epsilon. -/
theorem C50_l2_partial (A : Arith α) (eps : α) (dim : Int) (dtype : Nat) (pre post : List Nat) (a : Nat)
    (data dst : List α) (f : List Nat → α) (hd : MeansDim dim (pre ++ a :: post).length pre.length)
    (ht : plainType dtype = true) (ha : a ≠ 1) (hx : Holds (pre ++ a :: post) data f)
    (hdst : dst.length = prod (pre ++ a :: post)) :
    ∃ out, l2Run A eps dim ⟨dtype, pre ++ a :: post, data⟩ dst = .ok (pre ++ a :: post, out) ∧
      Holds (pre ++ a :: post) out fun c => A.div (f c) (A.sqrt (A.add ((List.range a).foldl
        (fun s j => A.add s (A.mul (f (c.set pre.length j)) (f (c.set pre.length j)))) A.zero) eps)) := by
  rw [prod_mid'] at hdst
  have hset : ∀ n i j t, n < prod pre → t < prod post →
      (unlin pre n ++ i :: unlin post t).set pre.length j = unlin pre n ++ j :: unlin post t := by
    intro n i j t hn ht
    have := (unlin_inBounds hn).length
    rw [← this]; simp
  have := columns_ok (A := prod pre) (B := a) (W := prod post) (buf := id)
    (f := fun out n w => l2Column A eps data (n * a * prod post + w) (prod post) a out)
    (g := fun n i t => A.div (f (unlin pre n ++ i :: unlin post t)) (A.sqrt (A.add ((List.range a).foldl
        (fun s j => A.add s (A.mul (f (unlin pre n ++ j :: unlin post t)) (f (unlin pre n ++ j :: unlin post t)))) A.zero) eps)))
    (s0 := dst) hdst
    (by
      intro out n w hl hn hw
      simp only [id] at hl ⊢
      have hcell : ∀ m, n * a * prod post + w + m * prod post = (n * a + m) * prod post + w := by intro m; ring
      have hX : ∀ m, m < a → data[n * a * prod post + w + m * prod post]? = some (f (unlin pre n ++ m :: unlin post w)) := by
        intro m hm; rw [hcell]; exact holds_cell hx hn hm hw
      have hL : ∀ m, m < a → n * a * prod post + w + m * prod post < out.length := by
        intro m hm; rw [hcell, hl]; exact radix3_lt hn hm hw
      obtain ⟨o, e, ol, ov, orr⟩ := l2Column_ok A eps data (n * a * prod post + w) (prod post) a out _ (by omega) hX hL
      refine ⟨o, e, by rw [ol, hl], fun i hi => ?_, fun p hp => orr p fun i hi => ?_⟩
      · rw [← hcell, ov i hi]
      · rw [hcell]; exact hp i hi)
  obtain ⟨out, e, el, ev⟩ := this
  refine ⟨out, ?_, ?_⟩
  · unfold l2Run
    simp only [fixDim_ok hd, Res.bind_ok, ht, if_true]
    rw [take_mid, drop_mid, getD_mid]
    unfold l2Kernel
    rw [if_neg ha, e]; rfl
  · rw [holds_axis]
    refine ⟨el, fun n i t hn hi ht => ?_⟩
    simp only [hset n i _ t hn ht]
    exact ev n i t hn hi ht

example : l2Run { toyArith with sqrt := fun x => if x = 2500 then 50 else 13 } 0 0 ⟨5, [2, 2], [30, 5, 40, 12]⟩
    [0, 0, 0, 0] = .ok ([2, 2], [60, 38, 80, 92]) := by decide +kernel

/-- **C50, l2_norm over the reals.** -/
theorem C50_l2_real_partial (eps : ℝ) (dim : Int) (dtype : Nat) (pre post : List Nat) (a : Nat) (data dst : List ℝ)
    (f : List Nat → ℝ) (hd : MeansDim dim (pre ++ a :: post).length pre.length) (ht : plainType dtype = true) (ha : a ≠ 1)
    (hx : Holds (pre ++ a :: post) data f) (hdst : dst.length = prod (pre ++ a :: post)) :
    ∃ out, l2Run realArith eps dim ⟨dtype, pre ++ a :: post, data⟩ dst = .ok (pre ++ a :: post, out) ∧
      Holds (pre ++ a :: post) out fun c =>
        f c / Real.sqrt (((List.range a).map fun j => f (c.set pre.length j) ^ 2).sum + eps) := by
  obtain ⟨out, e, h⟩ := C50_l2_partial realArith eps dim dtype pre post a data dst f hd ht ha hx hdst
  refine ⟨out, e, ?_⟩
  refine ⟨h.1, fun c hc => ?_⟩
  rw [h.2 c hc]
  congr 1
  show f c / Real.sqrt (_ + eps) = _
  congr 3
  rw [show ((List.range a).map fun j => f (c.set pre.length j) ^ 2) =
    (List.range a).map fun j => f (c.set pre.length j) * f (c.set pre.length j) from
      List.map_congr_left fun j _ => sq _]
  exact foldl_sum (fun j => f (c.set pre.length j) * f (c.set pre.length j)) a

/-- **C50, l2_norm of a single element (counterexample).** With extent one every element becomes one, although the norm of
`x` is `x / √(x² + ε)`, which for `x ≤ 0` is not positive. -/
theorem C50_l2_single_false (eps : ℝ) (dim : Int) (dtype : Nat) (pre post : List Nat) (data dst : List ℝ)
    (f : List Nat → ℝ) (hd : MeansDim dim (pre ++ 1 :: post).length pre.length) (ht : plainType dtype = true)
    (hdst : dst.length = prod (pre ++ 1 :: post)) :
    ∃ out, l2Run realArith eps dim ⟨dtype, pre ++ 1 :: post, data⟩ dst = .ok (pre ++ 1 :: post, out) ∧
      Holds (pre ++ 1 :: post) out (fun _ => 1) ∧
      ∀ c, InBounds (pre ++ 1 :: post) c → f c ≤ 0 → (1 : ℝ) ≠ f c / Real.sqrt (f c ^ 2 + eps) := by
  refine ⟨List.replicate dst.length 1, ?_, ⟨by simp [hdst], fun c hc => ?_⟩, fun c _ h0 h => ?_⟩
  · unfold l2Run
    simp only [fixDim_ok hd, Res.bind_ok, ht, if_true]
    rw [take_mid, drop_mid, getD_mid]
    unfold l2Kernel
    rw [if_pos rfl]; rfl
  · rw [hdst, List.getElem?_replicate, if_pos (lin_lt hc)]
  · have := div_nonpos_of_nonpos_of_nonneg h0 (Real.sqrt_nonneg (f c ^ 2 + eps))
    linarith

example : l2Run toyArith 0 0 ⟨5, [1, 2], [-7, 0]⟩ [0, 0] = .ok ([1, 2], [1, 1]) := by decide

/-- **C50, l2_norm, refusals.** -/
theorem C50_l2_rejects (A : Arith α) (eps : α) (dim : Int) (x : Operand α) (dst : List α)
    (h : (∀ d, ¬ MeansDim dim x.shape.length d) ∨ plainType x.dtype = false) : l2Run A eps dim x dst = .err := by
  unfold l2Run
  rcases hf : fixDim dim x.shape.length with d | _ | _
  · rcases h with h | h
    · exact absurd (fixDim_eq_ok hf) (h d)
    · simp [h]
  · rfl
  · exact absurd hf (fixDim_ne_ub _ _)

end Verif.Props
