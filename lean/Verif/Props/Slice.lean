import Verif.Kernels.StridedSlice
import Verif.Core.ReshapeLemmas
import Mathlib.Tactic.Ring
/-!
# C18: strided slice

The specification is Python's `slice.indices` (Python reference, `slice` objects; CPython `PySlice_AdjustIndices`).
-/
namespace Verif.Props
open Verif.Core Verif.Spec Verif.Kernels

/-- where the Python slice `b:_:s` of a sequence of length `x` starts (`none`: omitted) -/
def pyStart (x : Int) (b : Option Int) (s : Int) : Int :=
  match b with
  | none => if s > 0 then 0 else x - 1
  | some b =>
    if s > 0 then (if b < 0 then max (b + x) 0 else min b x)
    else (if b < 0 then max (b + x) (-1) else min b (x - 1))

/-- where the Python slice `_:e:s` of a sequence of length `x` stops (exclusive) -/
def pyStop (x : Int) (e : Option Int) (s : Int) : Int :=
  match e with
  | none => if s > 0 then x else -1
  | some e =>
    if s > 0 then (if e < 0 then max (e + x) 0 else min e x)
    else (if e < 0 then max (e + x) (-1) else min e (x - 1))

/-- the Python slice `b:e:s` of a sequence of length `x` has a `k`-th element -/
def PyHas (x : Int) (b e : Option Int) (s : Int) (k : Nat) : Prop :=
  if s > 0 then pyStart x b s + k * s < pyStop x e s else pyStart x b s + k * s > pyStop x e s

/-- `m` is the length of the Python slice -/
def PyLen (x : Int) (b e : Option Int) (s : Int) (m : Nat) : Prop := ∀ k, k < m ↔ PyHas x b e s k

/-- a flagged bound is omitted -/
def bound (flag : Bool) (b : Int) : Option Int := if flag then none else some b

/-- The cases in which the code follows Python: a non-zero stride above `INT_MIN`, and not the combination of a negative
stride with `end = -x`. -/
def SliceOk (x : Nat) (e s : Int) (ef : Bool) : Prop :=
  s ≠ 0 ∧ -2147483648 < s ∧ x ≤ 2147483647 ∧ (s < 0 → ef = false → e = -(x : Int) → x = 0)

theorem sliceCount_pos {b e s : Int} {x : Nat} (hs : 0 < s) (hb : -1 ≤ b) (he : e ≤ x) (hx : x ≤ 2147483647)
    (hbe : b < e) (hb0 : 0 ≤ b) : ∃ n : Nat, sliceCount b e s = .ok n ∧ ∀ k : Nat, k < n ↔ b + k * s < e := by
  have h0 : 0 ≤ (e - b - 1) / s := Int.ediv_nonneg (by omega) (by omega)
  have h1 : (e - b - 1) / s ≤ e - b - 1 := Int.ediv_le_self _ (by omega)
  refine ⟨((e - b - 1) / s + 1).toNat, ?_, ?_⟩
  · unfold sliceCount
    rw [if_pos hs, if_pos hbe, int32_ok (by unfold I32; omega)]
    simp only [Res.bind_ok, div32]
    rw [if_neg (by omega), Int.tdiv_eq_ediv_of_nonneg (by omega), int32_ok (by unfold I32; omega)]
    simp only [Res.bind_ok]
    rw [int32_ok (by unfold I32; omega)]
    congr 1; omega
  · intro k
    have := Int.le_ediv_iff_mul_le (a := k) (b := e - b - 1) hs
    omega

theorem sliceCount_neg {b e s : Int} {x : Nat} (hs : s < 0) (hs2 : -2147483648 < s) (he : -1 ≤ e) (hbx : b < x)
    (hx : x ≤ 2147483647) (hbe : b > e) :
    ∃ n : Nat, sliceCount b e s = .ok n ∧ ∀ k : Nat, k < n ↔ b + k * s > e := by
  have h0 : 0 ≤ (b - e - 1) / (-s) := Int.ediv_nonneg (by omega) (by omega)
  have h1 : (b - e - 1) / (-s) ≤ b - e - 1 := Int.ediv_le_self _ (by omega)
  refine ⟨((b - e - 1) / (-s) + 1).toNat, ?_, ?_⟩
  · unfold sliceCount
    rw [if_neg (by omega), if_pos hs, if_pos hbe, int32_ok (by unfold I32; omega)]
    simp only [Res.bind_ok]
    rw [int32_ok (by unfold I32; omega)]
    simp only [Res.bind_ok, div32]
    rw [if_neg (by omega), Int.tdiv_eq_ediv_of_nonneg (by omega), int32_ok (by unfold I32; omega)]
    simp only [Res.bind_ok]
    rw [int32_ok (by unfold I32; omega)]
    congr 1; omega
  · intro k
    have := Int.le_ediv_iff_mul_le (a := k) (b := b - e - 1) (c := -s) (by omega)
    rw [Int.mul_neg] at this
    omega

theorem pyHas_false_pos {x : Int} {b e : Option Int} {s : Int} (hs : 0 < s) (h : pyStop x e s ≤ pyStart x b s) (k : Nat) :
    ¬ PyHas x b e s k := by
  unfold PyHas
  rw [if_pos hs]
  have : 0 ≤ (k : Int) * s := Int.mul_nonneg (by omega) (by omega)
  omega

theorem pyHas_false_neg {x : Int} {b e : Option Int} {s : Int} (hs : s < 0) (h : pyStart x b s ≤ pyStop x e s) (k : Nat) :
    ¬ PyHas x b e s k := by
  unfold PyHas
  rw [if_neg (by omega)]
  have : (k : Int) * s ≤ 0 := Int.mul_nonpos_of_nonneg_of_nonpos (by omega) (by omega)
  omega

theorem sliceBegin_spec {x : Nat} {b s : Int} {f : Bool} (hs : s ≠ 0) (hx : x ≤ 2147483647) :
    (sliceBegin x b s f = .ok none ∧
      (0 < s → pyStart x (bound f b) s = x) ∧ (s < 0 → pyStart x (bound f b) s = -1)) ∨
    (sliceBegin x b s f = .ok (some (pyStart x (bound f b) s))) := by
  unfold sliceBegin pyStart bound
  cases f
  · simp only [Bool.false_eq_true, if_false]
    by_cases hp : s > 0
    · simp only [if_pos hp]
      by_cases h1 : b ≥ x
      · rw [if_pos h1]
        left
        refine ⟨rfl, fun _ => ?_, fun h => by omega⟩
        rw [if_neg (by omega)]; omega
      · rw [if_neg h1]
        right
        by_cases h2 : b < -(x : Int)
        · rw [if_pos h2, if_pos (by omega)]; congr 2; omega
        · rw [if_neg h2]
          by_cases h3 : b < 0
          · rw [if_pos h3, if_pos h3, int32_ok (by unfold I32; omega)]
            simp only [Res.bind_ok]; congr 2; omega
          · rw [if_neg h3, if_neg h3]; congr 2; omega
    · simp only [if_neg hp]
      by_cases h1 : b < -(x : Int)
      · rw [if_pos h1]
        left
        refine ⟨rfl, fun h => absurd h hp, fun _ => ?_⟩
        rw [if_pos (by omega)]; omega
      · rw [if_neg h1]
        right
        by_cases h2 : b ≥ x
        · rw [if_pos h2, if_neg (by omega)]; congr 2; omega
        · rw [if_neg h2]
          by_cases h3 : b < 0
          · rw [if_pos h3, if_pos h3, int32_ok (by unfold I32; omega)]
            simp only [Res.bind_ok]; congr 2; omega
          · rw [if_neg h3, if_neg h3]; congr 2; omega
  · right; simp

theorem sliceEnd_spec {x : Nat} {e s : Int} {f : Bool} (h : SliceOk x e s f) :
    (sliceEnd x e s f = .ok none ∧
      (0 < s → pyStop x (bound f e) s ≤ 0) ∧ (s < 0 → pyStop x (bound f e) s = x - 1)) ∨
    (∃ e', sliceEnd x e s f = .ok (some e') ∧ (0 < s → e' = pyStop x (bound f e) s) ∧
      (s < 0 → e' = pyStop x (bound f e) s ∨ (e' = x ∧ pyStop x (bound f e) s = x - 1))) := by
  obtain ⟨hs, _, hx, hc⟩ := h
  unfold sliceEnd pyStop bound
  cases f
  · simp only [Bool.false_eq_true, if_false]
    by_cases hp : s > 0
    · simp only [if_pos hp]
      by_cases h1 : e ≤ -(x : Int)
      · rw [if_pos h1]
        left
        refine ⟨rfl, fun _ => ?_, fun h => by omega⟩
        split <;> omega
      · rw [if_neg h1]
        right
        by_cases h2 : e > x
        · rw [if_pos h2]
          refine ⟨_, rfl, fun _ => ?_, fun h => by omega⟩
          rw [if_neg (by omega)]; omega
        · rw [if_neg h2]
          by_cases h3 : e < 0
          · rw [if_pos h3, if_pos h3, int32_ok (by unfold I32; omega)]
            refine ⟨_, rfl, fun _ => ?_, fun h => by omega⟩; omega
          · rw [if_neg h3, if_neg h3]
            refine ⟨_, rfl, fun _ => ?_, fun h => by omega⟩; omega
    · simp only [if_neg hp]
      by_cases h1 : e > (x : Int)
      · rw [if_pos h1]
        left
        refine ⟨rfl, fun h => absurd h hp, fun _ => ?_⟩
        rw [if_neg (by omega)]; omega
      · rw [if_neg h1]
        right
        by_cases h2 : e ≤ -(x : Int)
        · rw [if_pos h2]
          refine ⟨_, rfl, fun h => absurd h hp, fun hn => .inl ?_⟩
          have := hc hn rfl
          split <;> omega
        · rw [if_neg h2]
          by_cases h3 : e < 0
          · rw [if_pos h3, if_pos h3, int32_ok (by unfold I32; omega)]
            refine ⟨_, rfl, fun h => absurd h hp, fun hn => .inl ?_⟩; omega
          · rw [if_neg h3, if_neg h3]
            refine ⟨_, rfl, fun h => absurd h hp, fun hn => ?_⟩; omega
  · right
    simp only [if_true]
    refine ⟨_, rfl, fun h => by simp, fun h => by simp⟩

theorem pyStart_range {x : Nat} {b : Option Int} {s : Int} :
    (0 < s → 0 ≤ pyStart x b s ∧ pyStart x b s ≤ x) ∧ (s < 0 → -1 ≤ pyStart x b s ∧ pyStart x b s < x) := by
  unfold pyStart
  cases b with
  | none => simp only; split <;> constructor <;> intro h <;> omega
  | some b => simp only; split <;> split <;> constructor <;> intro h <;> omega

theorem pyStop_range {x : Nat} {b : Option Int} {s : Int} :
    (0 < s → 0 ≤ pyStop x b s ∧ pyStop x b s ≤ x) ∧ (s < 0 → -1 ≤ pyStop x b s ∧ pyStop x b s < x) := by
  unfold pyStop
  cases b with
  | none => simp only; split <;> constructor <;> intro h <;> omega
  | some b => simp only; split <;> split <;> constructor <;> intro h <;> omega

/-- positions of a Python slice are positions of the sequence -/
theorem pyHas_range {x : Nat} {b e : Option Int} {s : Int} {k : Nat} (hs : s ≠ 0) (h : PyHas x b e s k) :
    0 ≤ pyStart x b s + k * s ∧ pyStart x b s + k * s < x := by
  unfold PyHas at h
  by_cases hp : s > 0
  · rw [if_pos hp] at h
    have h1 := (pyStart_range (x := x) (b := b)).1 hp
    have h2 := (pyStop_range (x := x) (b := e)).1 hp
    have : 0 ≤ (k : Int) * s := Int.mul_nonneg (by omega) (by omega)
    omega
  · rw [if_neg hp] at h
    have hn : s < 0 := by omega
    have h1 := (pyStart_range (x := x) (b := b)).2 hn
    have h2 := (pyStop_range (x := x) (b := e)).2 hn
    have : (k : Int) * s ≤ 0 := Int.mul_nonpos_of_nonneg_of_nonpos (by omega) (by omega)
    omega

/-- C18, one dimension: except for the combination named in `SliceOk`, the extent computed is the length of the Python
slice, and the `begin` left behind (from which the kernel walks in steps of the stride) is its first position whenever
the slice is not empty; every position is inside the dimension. The excluded combination is wrong
(`C18_negative_end_false`, `C18_min_stride_false`). -/
theorem C18_dim_partial (x : Nat) (b e s : Int) (bf ef : Bool) (h : SliceOk x e s ef) :
    ∃ (n : Nat) (b' e' : Int), sliceDim x b e s bf ef = .ok ((n : Int), b', e') ∧
      PyLen x (bound bf b) (bound ef e) s n ∧
      ∀ k : Nat, k < n → b' + k * s = pyStart x (bound bf b) s + k * s ∧ 0 ≤ b' + k * s ∧ b' + k * s < x := by
  have hok := h
  obtain ⟨hs, hmin, hx, _⟩ := h
  have fin0 : (∀ k, ¬ PyHas x (bound bf b) (bound ef e) s k) →
      ∀ b' e', sliceDim x b e s bf ef = .ok (0, b', e') → ∃ (n : Nat) (b' e' : Int),
        sliceDim x b e s bf ef = .ok ((n : Int), b', e') ∧ PyLen x (bound bf b) (bound ef e) s n ∧
        ∀ k : Nat, k < n → b' + k * s = pyStart x (bound bf b) s + k * s ∧ 0 ≤ b' + k * s ∧ b' + k * s < x := by
    intro hno b' e' he
    refine ⟨0, b', e', by simpa using he, ?_, by intro k hk; omega⟩
    intro k
    simp [hno k]
  have fin1 : ∀ (n : Nat) (e' : Int),
      sliceDim x b e s bf ef = .ok ((n : Int), pyStart x (bound bf b) s, e') →
      PyLen x (bound bf b) (bound ef e) s n → ∃ (n : Nat) (b' e' : Int),
        sliceDim x b e s bf ef = .ok ((n : Int), b', e') ∧ PyLen x (bound bf b) (bound ef e) s n ∧
        ∀ k : Nat, k < n → b' + k * s = pyStart x (bound bf b) s + k * s ∧ 0 ≤ b' + k * s ∧ b' + k * s < x := by
    intro n e' he hl
    refine ⟨n, _, e', he, hl, ?_⟩
    intro k hk
    have := pyHas_range (x := x) hs ((hl k).1 hk)
    exact ⟨rfl, this⟩
  have rb := pyStart_range (x := x) (b := bound bf b) (s := s)
  have re := pyStop_range (x := x) (b := bound ef e) (s := s)
  rcases sliceBegin_spec (x := x) (b := b) (f := bf) hs hx with ⟨hb, hbp, hbn⟩ | hb
  · apply fin0 (b' := b) (e' := e)
    · intro k
      rcases Int.lt_or_gt_of_ne hs with hn | hp
      · exact pyHas_false_neg hn (by rw [hbn hn]; exact (re.2 hn).1) k
      · exact pyHas_false_pos hp (by rw [hbp hp]; exact (re.1 hp).2) k
    · unfold sliceDim; rw [hb]; rfl
  · rcases sliceEnd_spec hok with ⟨he, hep, hen⟩ | ⟨e', he, hep, hen⟩
    · apply fin0 (b' := pyStart x (bound bf b) s) (e' := e)
      · intro k
        rcases Int.lt_or_gt_of_ne hs with hn | hp
        · exact pyHas_false_neg hn (by rw [hen hn]; have := (rb.2 hn).2; omega) k
        · exact pyHas_false_pos hp (by have := hep hp; have := (rb.1 hp).1; omega) k
      · unfold sliceDim; rw [hb]; simp only [Res.bind_ok]; rw [he]; rfl
    · have hdim : ∀ n, sliceCount (pyStart x (bound bf b) s) e' s = .ok n →
          sliceDim x b e s bf ef = .ok (n, pyStart x (bound bf b) s, e') := by
        intro n hn
        unfold sliceDim; rw [hb]; simp only [Res.bind_ok]; rw [he]; simp only [Res.bind_ok]; rw [hn]; rfl
      rcases Int.lt_or_gt_of_ne hs with hn | hp
      · by_cases hlt : pyStart x (bound bf b) s > e'
        · have hE : e' = pyStop x (bound ef e) s := by
            rcases hen hn with h | ⟨h, _⟩
            · exact h
            · have := (rb.2 hn).2; omega
          obtain ⟨n, h1, h2⟩ := sliceCount_neg (x := x) (b := pyStart x (bound bf b) s) (e := e') hn hmin
            (by rw [hE]; exact (re.2 hn).1) (rb.2 hn).2 hx hlt
          apply fin1 n e' (hdim _ h1)
          intro k
          rw [h2 k, hE]
          unfold PyHas
          rw [if_neg (by omega)]
        · apply fin0 (b' := pyStart x (bound bf b) s) (e' := e')
          · intro k
            apply pyHas_false_neg hn
            rcases hen hn with h | ⟨_, h⟩
            · omega
            · have := (rb.2 hn).2; omega
          · apply hdim
            unfold sliceCount
            rw [if_neg (by omega), if_pos hn, if_neg hlt]
      · have hE := hep hp
        by_cases hlt : pyStart x (bound bf b) s < e'
        · obtain ⟨n, h1, h2⟩ := sliceCount_pos (x := x) (b := pyStart x (bound bf b) s) (e := e') hp
            (by have := (rb.1 hp).1; omega) (by rw [hE]; exact (re.1 hp).2) hx hlt (rb.1 hp).1
          apply fin1 n e' (hdim _ h1)
          intro k
          rw [h2 k, hE]
          unfold PyHas
          rw [if_pos hp]
        · apply fin0 (b' := pyStart x (bound bf b) s) (e' := e')
          · intro k
            apply pyHas_false_pos hp
            omega
          · apply hdim
            unfold sliceCount
            rw [if_pos hp, if_neg hlt]

example : SliceOk 5 0 (-2) false ∧ sliceDim 5 (-1) 0 (-2) false false = .ok (2, 4, 0) := by
  refine ⟨by unfold SliceOk; omega, by decide⟩

/-- `[4:-5:-1]` of a dimension of extent 5 selects 4, 3, 2, 1 in Python; the code also selects position 0. -/
theorem C18_negative_end_false : sliceDim 5 4 (-5) (-1) false false = .ok (5, 4, -1) ∧
    PyLen 5 (some 4) (some (-5)) (-1) 4 := by
  refine ⟨by decide, ?_⟩
  intro k
  simp [PyHas, pyStart, pyStop]

/-- A stride of `INT_MIN` is negated, which overflows. -/
theorem C18_min_stride_false : sliceDim 5 4 0 (-2147483648) false false = .ub := by decide

/-! ## Whole tensors -/

/-- fixed begins and strides select positions inside the extents -/
inductive Sel : List Nat → List Int → List Int → List Nat → Prop where
  | nil : Sel [] [] [] []
  | cons {x : Nat} {b s : Int} {n : Nat} {xs bs ss ns} (h : ∀ k : Nat, k < n → 0 ≤ b + k * s ∧ b + k * s < x)
      (hs : s ≠ 0) (t : Sel xs bs ss ns) : Sel (x :: xs) (b :: bs) (s :: ss) (n :: ns)

/-- the source coordinate of an output coordinate -/
def srcOf : List Int → List Int → List Nat → List Nat
  | b :: bs, s :: ss, c :: cs => (b + c * s).toNat :: srcOf bs ss cs
  | _, _, _ => []

theorem Sel.coord {xs : List Nat} {bs ss : List Int} {ns c : List Nat} (h : Sel xs bs ss ns) (hc : InBounds ns c)
    (hx : ∀ x ∈ xs, x ≤ 2147483647) :
    sliceCoord (ints c) ss bs = .ok (ints (srcOf bs ss c)) ∧ InBounds xs (srcOf bs ss c) := by
  induction h generalizing c with
  | nil => cases c <;> simp_all [InBounds, sliceCoord, srcOf]
  | @cons x b s n xs bs ss ns hk hs t ih =>
    cases c with
    | nil => simp [InBounds] at hc
    | cons k c =>
      have h1 := hk k hc.1
      have h0 := hk 0 (by have := hc.1; omega)
      have hxx := hx x (by simp)
      obtain ⟨e, i⟩ := ih hc.2 (fun y hy => hx y (by simp [hy]))
      simp only [Int.natCast_zero, Int.zero_mul, Int.add_zero] at h0
      refine ⟨?_, ?_, i⟩
      · simp only [ints_cons, sliceCoord, srcOf]
        rw [int32_ok (by unfold I32; omega)]
        simp only [Res.bind_ok]
        rw [int32_ok (by unfold I32; omega)]
        simp only [Res.bind_ok, e]
        congr 2
        omega
      · show (b + k * s).toNat < x
        omega

theorem Sel.prod_take_le {xs : List Nat} {bs ss : List Int} {ns : List Nat} (h : Sel xs bs ss ns) (m : Nat) :
    prod (ns.take m) ≤ prod (xs.take m) := by
  induction h generalizing m with
  | nil => simp
  | @cons x b s n xs bs ss ns hk hs t ih =>
    cases m with
    | zero => simp
    | succ m =>
      simp only [List.take_succ_cons, prod]
      apply Nat.mul_le_mul _ (ih m)
      rcases Nat.eq_zero_or_pos n with h2 | h2
      · omega
      · have h0 := hk 0 (by omega)
        have hl := hk (n - 1) (by omega)
        simp only [Int.natCast_zero, Int.zero_mul, Int.add_zero] at h0
        rcases Int.lt_or_gt_of_ne hs with hn | hp
        · have : (((n - 1 : Nat) : Int)) * 1 ≤ ((n - 1 : Nat) : Int) * (-s) :=
            Int.mul_le_mul_of_nonneg_left (by omega) (by omega)
          rw [Int.mul_neg] at this
          omega
        · have : (((n - 1 : Nat) : Int)) * 1 ≤ ((n - 1 : Nat) : Int) * s :=
            Int.mul_le_mul_of_nonneg_left (by omega) (by omega)
          omega

theorem Sel.lengths {xs : List Nat} {bs ss : List Int} {ns : List Nat} (h : Sel xs bs ss ns) :
    bs.length = xs.length ∧ ss.length = xs.length ∧ ns.length = xs.length := by
  induction h with
  | nil => simp
  | cons hk hs t ih => simp [ih]

theorem mem_le_prod {xs : List Nat} (hp : ∀ x ∈ xs, 0 < x) {x : Nat} (hx : x ∈ xs) : x ≤ prod xs := by
  obtain ⟨a, b, rfl⟩ := List.append_of_mem hx
  rw [prod_append]
  simp only [prod]
  have h1 : 0 < prod a := prod_pos fun y hy => hp y (by simp [hy])
  have h2 : 0 < prod b := prod_pos fun y hy => hp y (by simp [hy])
  calc x = 1 * (x * 1) := by omega
    _ ≤ prod a * (x * prod b) := Nat.mul_le_mul h1 (Nat.mul_le_mul_left _ h2)

/-- the kernel on fixed begins and strides -/
theorem sliceKernel_ok {α : Type} {xs : List Nat} {bs ss : List Int} {ns : List Nat} (h : Sel xs bs ss ns)
    (hp : ∀ x ∈ xs, 0 < x) (hb : prod xs ≤ 2147483647) (data dst : List α) (hdata : data.length = prod xs)
    (hdst : dst.length = prod ns) :
    ∃ out, sliceKernel (ints xs) bs ss (ints ns) data dst = .ok out ∧ out.length = prod ns ∧
      ∀ c, InBounds ns c → InBounds xs (srcOf bs ss c) ∧ out[lin ns c]? = data[lin xs (srcOf bs ss c)]? := by
  have hx : ∀ x ∈ xs, x ≤ 2147483647 := fun x hx => Nat.le_trans (mem_le_prod hp hx) hb
  have hno : NoOverflow ns := fun n => Nat.le_trans (h.prod_take_le n) (noOverflow_of_pos hp hb n)
  obtain ⟨ms, out, e1, e2, e3, e4⟩ := gather_ok (s := ns)
    (fun c => do
      let ci ← sliceCoord c ss bs
      let k ← toIndex (ints (wts xs)) ci
      idxNat k) (fun c => lin xs (srcOf bs ss c)) data dst
    (by
      intro c hc
      obtain ⟨e, i⟩ := h.coord hc hx
      simp only [e, Res.bind_ok, toIndex_ok i hb, idxNat]
      have := lin_lt i
      refine ⟨?_, by omega⟩
      rw [if_pos (by omega)]
      simp) hdst
  refine ⟨out, ?_, e3, fun c hc => ⟨(h.coord hc hx).2, e4 c hc⟩⟩
  unfold sliceKernel
  rw [weights_ok (fits_of_pos hp hb)]
  simp only [Res.bind_ok]
  have := prod32_ok hno.pfits
  simp only [Int.natCast_one, Nat.one_mul] at this
  rw [this]
  simp only [Res.bind_ok, Int.toNat_natCast]
  rw [e1]
  exact e2

theorem pyLen_unique {x : Int} {b e : Option Int} {s : Int} {n m : Nat} (h : PyLen x b e s n) (h' : PyLen x b e s m) :
    n = m := by
  rcases Nat.lt_trichotomy n m with hl | hl | hl
  · have := (h n).2 ((h' n).1 hl); omega
  · exact hl
  · have := (h' m).2 ((h m).1 hl); omega

/-- every dimension of the request is in the covered cases, with extents `ns` -/
def DimsOk (bm em i : Nat) (xs : List Nat) (bs es ss : List Int) (ns : List Nat) : Prop :=
  ∀ j, j < xs.length →
    SliceOk (xs.getD j 0) (es.getD j 0) (ss.getD j 0) (bit em (i + j)) ∧
    PyLen (xs.getD j 0) (bound (bit bm (i + j)) (bs.getD j 0)) (bound (bit em (i + j)) (es.getD j 0)) (ss.getD j 0)
      (ns.getD j 0)

theorem sliceDims_ok (bm em : Nat) (xs : List Nat) : ∀ (i : Nat) (bs es ss : List Int) (ns : List Nat),
    bs.length = xs.length → es.length = xs.length → ss.length = xs.length → ns.length = xs.length →
    DimsOk bm em i xs bs es ss ns →
    ∃ bs', sliceDims bm em i (ints xs) bs es ss = .ok (ints ns, bs') ∧ Sel xs bs' ss ns ∧
      ∀ c, InBounds ns c → ∀ j, j < xs.length →
        ((srcOf bs' ss c).getD j 0 : Int) =
          pyStart (xs.getD j 0) (bound (bit bm (i + j)) (bs.getD j 0)) (ss.getD j 0) + c.getD j 0 * ss.getD j 0 := by
  induction xs with
  | nil =>
    intro i bs es ss ns hb he hs hn _
    simp at hb he hs hn
    subst hb he hs hn
    exact ⟨[], rfl, .nil, by simp⟩
  | cons x xs ih =>
    intro i bs es ss ns hb he hs hn hd
    cases bs with
    | nil => simp at hb
    | cons b bs =>
    cases es with
    | nil => simp at he
    | cons e es =>
    cases ss with
    | nil => simp at hs
    | cons s ss =>
    cases ns with
    | nil => simp at hn
    | cons n ns =>
    simp only [List.length_cons, Nat.add_right_cancel_iff] at hb he hs hn
    obtain ⟨bs', e1, e2, e3⟩ := ih (i + 1) bs es ss ns hb he hs hn (by
      intro j hj
      have := hd (j + 1) (by simp; omega)
      simpa only [List.getD_cons_succ, Nat.add_assoc, Nat.add_comm 1 j] using this)
    have h0 := hd 0 (by simp)
    simp only [List.getD_cons_zero, Nat.add_zero] at h0
    obtain ⟨n', b', e', d1, d2, d3⟩ := C18_dim_partial x b e s (bit bm i) (bit em i) h0.1
    have hnn : n' = n := pyLen_unique d2 h0.2
    subst hnn
    refine ⟨b' :: bs', ?_, .cons (fun k hk => (d3 k hk).2) h0.1.1 e2, ?_⟩
    · simp only [ints_cons, sliceDims, d1, Res.bind_ok, e1]
    · intro c hc j hj
      cases c with
      | nil => simp [InBounds] at hc
      | cons k c =>
        cases j with
        | zero =>
          simp only [srcOf, List.getD_cons_zero, Nat.add_zero]
          have := d3 k hc.1
          omega
        | succ j =>
          have := e3 c hc.2 j (by simp at hj; omega)
          simp only [srcOf, List.getD_cons_succ]
          rw [this]
          simp only [Nat.add_assoc, Nat.add_comm 1 j]

/-- the dimensions that are kept: those without a shrink bit -/
def kept (n shrink : Nat) (full : List Nat) : List Nat :=
  (full.zipIdx.filter fun p => !(decide (p.2 < n) && bit shrink p.2)).map Prod.fst

theorem kept_append (n shrink : Nat) (A B : List Nat) (h : A.length = n) :
    kept n shrink (A ++ B) = kept n shrink A ++ B := by
  unfold kept
  rw [List.zipIdx_append, List.filter_append, List.map_append]
  congr 1
  have : ∀ (B : List Nat) k, n ≤ k →
      ((B.zipIdx k).filter fun p => !(decide (p.2 < n) && bit shrink p.2)).map Prod.fst = B := by
    intro B
    induction B with
    | nil => simp
    | cons b B ih =>
      intro k hk
      rw [List.zipIdx_cons, List.filter_cons_of_pos]
      · rw [List.map_cons, ih (k + 1) (by omega)]
      · simp; omega
  rw [this _ _ (by omega)]

theorem kept_snoc (n shrink : Nat) (A : List Nat) (y : Nat) (h : A.length = n) :
    kept (n + 1) shrink (A ++ [y]) = kept n shrink A ++ (if bit shrink n then [] else [y]) := by
  unfold kept
  rw [List.zipIdx_append, List.filter_append, List.map_append]
  congr 1
  · congr 1
    apply List.filter_congr
    intro p hp
    have : p.2 < n := by
      have := List.snd_lt_of_mem_zipIdx hp
      omega
    simp [this, Nat.lt_succ_of_lt this]
  · by_cases hb : bit shrink n <;> simp [List.zipIdx_cons, h, hb, List.filter_cons]

theorem shrinkLoop_ok (shrink : Nat) : ∀ (n : Nat) (A B : List Nat), A.length = n →
    (∀ j, j < n → bit shrink j = true → A.getD j 0 = 1) →
    shrinkLoop shrink none (List.range n).reverse (ints (A ++ B)) = .ok (ints (kept n shrink A ++ B)) := by
  intro n
  induction n with
  | zero =>
    intro A B h _
    have : A = [] := List.length_eq_zero_iff.1 h
    subst this
    rfl
  | succ n ih =>
    intro A B h h1
    rw [List.range_succ, List.reverse_append]
    simp only [List.reverse_cons, List.reverse_nil, List.nil_append, List.singleton_append]
    obtain ⟨A', y, rfl⟩ : ∃ A' y, A = A' ++ [y] := by
      refine ⟨A.take n, A.getD n 0, ?_⟩
      apply List.ext_getElem (by simp; omega)
      intro i hi hi'
      by_cases hin : i < n
      · rw [List.getElem_append_left (by simp; omega)]; simp
      · have : i = n := by omega
        subst this
        rw [List.getElem_append_right (by simp)]
        simp [List.getD, h]
    have hA' : A'.length = n := by simpa using h
    unfold shrinkLoop
    have hget : (ints (A' ++ [y] ++ B)).getD n 0 = y := by
      simp [ints, List.getD, hA']
    have hprev : ∀ j, j < n → bit shrink j = true → A'.getD j 0 = 1 := by
      intro j hj hb
      have := h1 j (by omega) hb
      simp only [List.getD] at this ⊢
      rw [List.getElem?_append_left (by omega)] at this
      exact this
    rw [kept_snoc n shrink A' y hA']
    by_cases hb : bit shrink n
    · have hy : y = 1 := by
        have := h1 n (by omega) hb
        simp only [List.getD] at this
        rw [List.getElem?_append_right (by omega)] at this
        simpa [hA'] using this
      simp only [hb, if_true]
      rw [hget, if_neg (by omega)]
      have he : (ints (A' ++ [y] ++ B)).eraseIdx n = ints (A' ++ B) := by
        simp only [ints, List.append_assoc, List.map_append]
        rw [List.eraseIdx_append_of_length_le (by simp; omega)]
        simp [hA']
      rw [he, ih A' B hA' hprev]
      simp
    · simp only [hb]
      rw [List.append_assoc, ih A' ([y] ++ B) hA' hprev]
      simp

theorem prod_filter_take {L : List (Nat × Nat)} {f : Nat × Nat → Bool} (h : ∀ p ∈ L, f p = false → p.1 = 1) (m : Nat) :
    ∃ m', prod (((L.filter f).map Prod.fst).take m) = prod ((L.map Prod.fst).take m') := by
  induction L generalizing m with
  | nil => exact ⟨0, by simp⟩
  | cons p L ih =>
    by_cases hf : f p = true
    · rw [List.filter_cons_of_pos hf]
      cases m with
      | zero => exact ⟨0, by simp⟩
      | succ m =>
        obtain ⟨m', e⟩ := ih (fun q hq => h q (by simp [hq])) m
        exact ⟨m' + 1, by simp [prod, e]⟩
    · rw [List.filter_cons_of_neg hf]
      obtain ⟨m', e⟩ := ih (fun q hq => h q (by simp [hq])) m
      have := h p (by simp) (by simpa using hf)
      exact ⟨m' + 1, by simp [prod, e, this]⟩

theorem prod_filter {L : List (Nat × Nat)} {f : Nat × Nat → Bool} (h : ∀ p ∈ L, f p = false → p.1 = 1) :
    prod ((L.filter f).map Prod.fst) = prod (L.map Prod.fst) := by
  induction L with
  | nil => rfl
  | cons p L ih =>
    have e := ih (fun q hq => h q (by simp [hq]))
    by_cases hf : f p = true
    · rw [List.filter_cons_of_pos hf]; simp [prod, e]
    · rw [List.filter_cons_of_neg hf]
      have := h p (by simp) (by simpa using hf)
      simp [prod, e, this]

theorem kept_drop_one {n shrink : Nat} {full : List Nat} (h1 : ∀ j, j < n → bit shrink j = true → full.getD j 0 = 1) :
    ∀ p ∈ full.zipIdx, (!(decide (p.2 < n) && bit shrink p.2)) = false → p.1 = 1 := by
  rintro ⟨a, i⟩ hp hf
  rw [List.mem_zipIdx_iff_getElem?] at hp
  simp only at hp hf
  have : i < n ∧ bit shrink i = true := by simpa using hf
  have := h1 i this.1 this.2
  simpa [List.getD, hp] using this

theorem prod_kept {n shrink : Nat} {full : List Nat} (h1 : ∀ j, j < n → bit shrink j = true → full.getD j 0 = 1) :
    prod (kept n shrink full) = prod full := by
  unfold kept
  rw [prod_filter (kept_drop_one h1)]
  simp

theorem noOverflow_kept {n shrink : Nat} {full : List Nat} (h1 : ∀ j, j < n → bit shrink j = true → full.getD j 0 = 1)
    (h : NoOverflow full) : NoOverflow (kept n shrink full) := by
  intro m
  obtain ⟨m', e⟩ := prod_filter_take (kept_drop_one h1) m
  unfold kept
  rw [e]
  simp only [List.zipIdx_map_fst]
  exact h m'

theorem ellipsisAt_zero (n : Nat) : ellipsisAt 0 n = none := by
  simp [ellipsisAt, bit]

theorem insertAxes_zero (is : List Nat) (s : List Int) : insertAxes 0 is s = .ok s := by
  induction is with
  | nil => rfl
  | cons i is ih => simp [insertAxes, bit, ih]

/-- What the request selects in every dimension: `full` are the extents (Python lengths for the dimensions with a slice
entry, the tensor's own extents for the others). -/
structure Selects (a : SliceArg) (x full : List Nat) : Prop where
  ends : a.ends.length = a.begins.length
  strides : a.strides.length = a.begins.length
  pos : 0 < a.begins.length
  rank : a.begins.length ≤ x.length
  length : full.length = x.length
  covered : ∀ j, j < a.begins.length →
    SliceOk (x.getD j 0) (a.ends.getD j 0) (a.strides.getD j 0) (bit a.endMask j)
  sliced : ∀ j, j < a.begins.length →
    PyLen (x.getD j 0) (bound (bit a.beginMask j) (a.begins.getD j 0)) (bound (bit a.endMask j) (a.ends.getD j 0))
      (a.strides.getD j 0) (full.getD j 0)
  whole : ∀ j, a.begins.length ≤ j → full.getD j 0 = x.getD j 0

/-- `c'` is the coordinate of the source element that the slice puts at `c` -/
def Source (a : SliceArg) (x c c' : List Nat) : Prop :=
  InBounds x c' ∧
  (∀ j, j < a.begins.length → (c'.getD j 0 : Int) =
    pyStart (x.getD j 0) (bound (bit a.beginMask j) (a.begins.getD j 0)) (a.strides.getD j 0) +
      c.getD j 0 * a.strides.getD j 0) ∧
  (∀ j, a.begins.length ≤ j → c'.getD j 0 = c.getD j 0)

theorem pyLen_whole (x : Nat) : PyLen x none none 1 x := by
  intro k
  simp [PyHas, pyStart, pyStop]

/-- C18 for whole tensors (no ellipsis and no new axis): the result has the Python extents in the sliced dimensions and
all of the others, minus the dimensions with a shrink bit (whose extent is one), and every output element is the
element of the input selected by the Python slices; all reads are inside the input. What is missing from the claim:
the cases excluded by `SliceOk`, and ellipsis or new-axis entries. -/
theorem C18_slice_partial {α : Type} (a : SliceArg) (dtype : Nat) (x full : List Nat) (data dst : List α)
    (he : a.ellipsisMask = 0) (hna : a.newAxisMask = 0) (hsel : Selects a x full)
    (hshrink : ∀ j, j < a.begins.length → bit a.shrinkMask j = true → full.getD j 0 = 1)
    (hpos : ∀ e ∈ x, 0 < e) (hb : prod x ≤ 2147483647) (hty : typeBytes dtype ∈ [1, 2, 4, 8, 16])
    (hdata : data.length = prod x) (hdst : dst.length = prod full) :
    ∃ out, sliceRun a dtype (ints x) data dst = .ok (ints (kept a.begins.length a.shrinkMask full), out) ∧
      out.length = prod full ∧
      ∀ c, InBounds full c → ∃ c', Source a x c c' ∧ out[lin full c]? = data[lin x c']? := by
  obtain ⟨h1, h2, h3, h4, h5, h6, h7, h8⟩ := hsel
  generalize hn : a.begins.length = n at *
  have hxs : x = x.take n ++ x.drop n := (List.take_append_drop n x).symm
  have hfs : full = full.take n ++ x.drop n := by
    conv => lhs; rw [← List.take_append_drop n full]
    congr 1
    apply List.ext_getElem (by simp; omega)
    intro i hi hi'
    have := h8 (n + i) (by omega)
    simp only [List.length_drop] at hi hi'
    simpa [List.getD, List.getElem?_eq_getElem (show n + i < full.length by omega),
      List.getElem?_eq_getElem (show n + i < x.length by omega)] using this
  generalize hxa : x.take n = xa at *
  generalize hxb : x.drop n = xb at *
  generalize hfa : full.take n = fa at *
  have hla : xa.length = n := by rw [← hxa]; simp; omega
  have hlf : fa.length = n := by rw [← hfa]; simp; omega
  have gx : ∀ j, j < n → x.getD j 0 = xa.getD j 0 := by
    intro j hj
    rw [hxs]; simp only [List.getD]; rw [List.getElem?_append_left (by omega)]
  have gf : ∀ j, j < n → full.getD j 0 = fa.getD j 0 := by
    intro j hj
    rw [hfs]; simp only [List.getD]; rw [List.getElem?_append_left (by omega)]
  have hdims : DimsOk a.beginMask a.endMask 0 xa a.begins a.ends a.strides fa := by
    intro j hj
    rw [Nat.zero_add, ← gx j (by omega), ← gf j (by omega)]
    exact ⟨h6 j (by omega), h7 j (by omega)⟩
  obtain ⟨bs0, sd1, sd2, sd3⟩ := sliceDims_ok a.beginMask a.endMask xa 0 a.begins a.ends a.strides fa
    (by omega) (by omega) (by omega) (by omega) hdims
  have hnx : NoOverflow x := noOverflow_of_pos hpos hb
  have hnf : NoOverflow full := by
    intro m
    refine Nat.le_trans ?_ (hnx m)
    rw [hxs, hfs, List.take_append, List.take_append, prod_append, prod_append, hla, hlf]
    exact Nat.mul_le_mul_right _ (sd2.prod_take_le m)
  -- reduce to: a plan and a kernel result
  suffices hplan : ∃ (inn raw : List Nat) (bs ss : List Int),
      slicePlan (ints x) a = .ok ⟨ints inn, bs, ss, ints raw, ints (kept n a.shrinkMask full)⟩ ∧
      Sel inn bs ss raw ∧ (∀ e ∈ inn, 0 < e) ∧ prod inn = prod x ∧ prod raw = prod full ∧
      ∀ c, InBounds full c → ∃ d, InBounds raw d ∧ lin raw d = lin full c ∧
        (InBounds inn (srcOf bs ss d) → ∃ c', Source a x c c' ∧ lin x c' = lin inn (srcOf bs ss d)) by
    obtain ⟨inn, raw, bs, ss, p1, p2, p3, p4, p5, p6⟩ := hplan
    have hni : NoOverflow inn := noOverflow_of_pos p3 (by omega)
    have hnr : NoOverflow raw := fun m => Nat.le_trans (p2.prod_take_le m) (hni m)
    obtain ⟨out, k1, k2, k3⟩ := sliceKernel_ok p2 p3 (by omega) data dst (by omega) (by omega)
    refine ⟨out, ?_, by omega, ?_⟩
    · unfold sliceRun
      rw [p1]
      simp only [Res.bind_ok]
      rw [reshapeShape_nat hnx hni, if_pos p4]
      simp only [Res.bind_ok]
      rw [if_pos hty, k1]
      simp only [Res.bind_ok]
      rw [reshapeShape_nat hnr (noOverflow_kept hshrink hnf), if_pos (by rw [prod_kept hshrink]; omega)]
      rfl
    · intro c hc
      obtain ⟨d, d1, d2, d3⟩ := p6 c hc
      obtain ⟨q1, q2⟩ := k3 d d1
      obtain ⟨c', s1, s2⟩ := d3 q1
      exact ⟨c', s1, by rw [← d2, q2, s2]⟩
  have hsh : shrinkLoop a.shrinkMask none (List.range n).reverse (ints (fa ++ xb)) =
      .ok (ints (kept n a.shrinkMask full)) := by
    rw [shrinkLoop_ok _ n fa xb hlf (fun j hj hb => by rw [← gf j hj]; exact hshrink j hj hb),
      ← kept_append n _ fa xb hlf, ← hfs]
  rcases Nat.lt_or_ge n x.length with hlt | hge
  · -- some dimensions have no slice entry
    have hxbl : xb.length = x.length - n := by rw [← hxb]; simp
    have hposb : ∀ e ∈ xb, 0 < e := fun e h => hpos e (by rw [hxs]; simp [h])
    have hposa : ∀ e ∈ xa, 0 < e := fun e h => hpos e (by rw [hxs]; simp [h])
    have hpx : prod x = prod xa * prod xb := by rw [hxs, prod_append]
    have hPb : prod xb ≤ 2147483647 := by
      have := prod_pos hposa
      have : 1 * prod xb ≤ prod xa * prod xb := Nat.mul_le_mul_right _ this
      omega
    have hbit : ∀ m j, j < n → bit (m ||| 2 ^ n) j = bit m j := by
      intro m j hj
      simp only [bit, Nat.testBit_or, Nat.testBit_two_pow]
      rw [decide_eq_false (by omega)]; simp
    have hbitn : ∀ m, bit (m ||| 2 ^ n) n = true := by
      intro m
      simp [bit, Nat.testBit_or, Nat.testBit_two_pow]
    have hap : ∀ (l : List Int) (y : Int), l.length = n → (∀ j, j < n → (l ++ [y]).getD j 0 = l.getD j 0) ∧
        (l ++ [y]).getD n 0 = y := by
      intro l y hl
      refine ⟨fun j hj => ?_, ?_⟩
      · simp only [List.getD]; rw [List.getElem?_append_left (by omega)]
      · simp only [List.getD]; rw [List.getElem?_append_right (by omega)]; simp [hl]
    have hapn : ∀ (l : List Nat) (y : Nat), l.length = n → (∀ j, j < n → (l ++ [y]).getD j 0 = l.getD j 0) ∧
        (l ++ [y]).getD n 0 = y := by
      intro l y hl
      refine ⟨fun j hj => ?_, ?_⟩
      · simp only [List.getD]; rw [List.getElem?_append_left (by omega)]
      · simp only [List.getD]; rw [List.getElem?_append_right (by omega)]; simp [hl]
    have hdims' : DimsOk (a.beginMask ||| 2 ^ n) (a.endMask ||| 2 ^ n) 0 (xa ++ [prod xb]) (a.begins ++ [0])
        (a.ends ++ [0]) (a.strides ++ [1]) (fa ++ [prod xb]) := by
      intro j hj
      rw [Nat.zero_add]
      rcases Nat.lt_or_ge j n with hjn | hjn
      · rw [hbit _ j hjn, hbit _ j hjn, (hapn xa _ hla).1 j hjn, (hapn fa _ hlf).1 j hjn, (hap _ _ hn).1 j hjn,
          (hap _ _ h1).1 j hjn, (hap _ _ h2).1 j hjn, ← gx j hjn, ← gf j hjn]
        exact ⟨h6 j hjn, h7 j hjn⟩
      · have : j = n := by simp at hj; omega
        subst this
        rw [hbitn, hbitn, (hapn xa _ hla).2, (hapn fa _ hlf).2, (hap _ _ hn).2, (hap _ _ h1).2, (hap _ _ h2).2]
        refine ⟨⟨by omega, by omega, hPb, by omega⟩, ?_⟩
        exact pyLen_whole _
    obtain ⟨bs, e1, e2, e3⟩ := sliceDims_ok _ _ (xa ++ [prod xb]) 0 _ _ _ _ (by simp; omega) (by simp; omega)
      (by simp; omega) (by simp; omega) hdims'
    refine ⟨xa ++ [prod xb], fa ++ [prod xb], bs, a.strides ++ [1], ?_, e2, ?_, ?_, ?_, ?_⟩
    · unfold slicePlan
      rw [if_neg (by omega), if_neg (by omega)]
      simp only [he, ellipsisAt_zero, hna, hn, Res.bind_ok, insertAxes_zero, ints_length]
      rw [if_pos hlt]
      have ed : (ints x).drop n = ints xb := by rw [← hxb]; simp [ints]
      have et : (ints x).take n = ints xa := by rw [← hxa]; simp [ints]
      have ep := prod32_ok (noOverflow_of_pos hposb hPb).pfits
      simp only [Int.natCast_one, Nat.one_mul] at ep
      rw [ed, et, ep]
      simp only [Res.bind_ok]
      rw [show ints xa ++ [((prod xb : Nat) : Int)] = ints (xa ++ [prod xb]) by simp [ints], e1]
      simp only [Res.bind_ok]
      have etk : (ints (fa ++ [prod xb])).take n ++ ints xb = ints (fa ++ xb) := by
        simp [ints, hlf]
      rw [etk, hsh]
      rfl
    · intro e h
      simp only [List.mem_append, List.mem_singleton] at h
      rcases h with h | rfl
      · exact hposa e h
      · exact prod_pos hposb
    · rw [prod_append, hpx]; simp [prod]
    · rw [hfs, prod_append, prod_append]; simp [prod]
    · intro c hc
      have hcl := hc.length
      rw [hfs] at hc
      have hcs : c = c.take n ++ c.drop n := (List.take_append_drop n c).symm
      have hctl : (c.take n).length = fa.length := by simp; omega
      rw [hcs, inBounds_append hctl] at hc
      refine ⟨c.take n ++ [lin xb (c.drop n)], ?_, ?_, ?_⟩
      · rw [inBounds_append hctl]
        exact ⟨hc.1, lin_lt hc.2, trivial⟩
      · rw [lin_append hctl, hfs]
        conv => rhs; rw [hcs]
        rw [lin_append hctl]
        simp [lin, prod]
      · intro hin
        have hd : InBounds (fa ++ [prod xb]) (c.take n ++ [lin xb (c.drop n)]) := by
          rw [inBounds_append hctl]
          exact ⟨hc.1, lin_lt hc.2, trivial⟩
        have hsl := hin.length
        generalize hS : srcOf bs (a.strides ++ [1]) (c.take n ++ [lin xb (c.drop n)]) = S at *
        have hSS : S = S.take n ++ [lin xb (c.drop n)] := by
          have hx := e3 _ hd n (by simp; omega)
          rw [hS, Nat.zero_add, hbitn, (hapn xa _ hla).2, (hap _ _ hn).2, (hap _ _ h2).2] at hx
          have hcn : (c.take n ++ [lin xb (c.drop n)]).getD n 0 = lin xb (c.drop n) :=
            (hapn _ _ (by rw [hctl, hlf])).2
          rw [hcn] at hx
          simp only [pyStart, bound, if_true] at hx
          simp only [List.length_append, List.length_singleton] at hsl
          apply List.ext_getElem (by simp; omega)
          intro i hi hi'
          rcases Nat.lt_or_ge i n with hin' | hin'
          · rw [List.getElem_append_left (by simp; omega)]; simp
          · have : i = n := by omega
            subst this
            rw [List.getElem_append_right (by simp)]
            simp only [List.getD, List.getElem?_eq_getElem hi, Option.getD_some] at hx
            simp only [List.getElem_singleton]
            simp at hx
            omega
        simp only [List.length_append, List.length_singleton] at hsl
        have hStl : (S.take n).length = xa.length := by simp; omega
        rw [hSS, inBounds_append hStl] at hin
        refine ⟨S.take n ++ c.drop n, ⟨?_, ?_, ?_⟩, ?_⟩
        · rw [hxs, inBounds_append hStl]
          exact ⟨hin.1, hc.2⟩
        · intro j hj
          rw [hn] at hj
          have hx := e3 _ hd j (by simp; omega)
          rw [hS, Nat.zero_add, hbit _ j hj, (hapn xa _ hla).1 j hj, (hap _ _ hn).1 j hj, (hap _ _ h2).1 j hj,
            ← gx j hj] at hx
          have e1 : (S.take n ++ c.drop n).getD j 0 = S.getD j 0 := by
            simp only [List.getD]
            rw [List.getElem?_append_left (by omega), List.getElem?_take_of_lt hj]
          have e2 : (c.take n ++ [lin xb (c.drop n)]).getD j 0 = c.getD j 0 := by
            simp only [List.getD]
            rw [List.getElem?_append_left (by omega), List.getElem?_take_of_lt hj]
          rw [e1, hx, e2]
        · intro j hj
          rw [hn] at hj
          simp only [List.getD]
          rw [List.getElem?_append_right (by omega), hStl, hla, List.getElem?_drop]
          congr 2; omega
        · conv => lhs; rw [hxs]
          conv => rhs; rw [hSS]
          rw [lin_append hStl, lin_append hStl]
          simp [lin, prod]
  · have hxl : x.length = n := by omega
    have hxb0 : xb = [] := by rw [← hxb]; exact List.drop_eq_nil_of_le (by omega)
    subst hxb0
    simp only [List.append_nil] at hxs hfs hsh
    subst hxs hfs
    refine ⟨x, full, bs0, a.strides, ?_, sd2, hpos, rfl, rfl, ?_⟩
    · unfold slicePlan
      rw [if_neg (by omega), if_neg (by omega)]
      simp only [he, ellipsisAt_zero, hna, hn, Res.bind_ok, insertAxes_zero, ints_length]
      rw [if_neg (by omega), if_neg (by omega), sd1]
      simp only [Res.bind_ok]
      rw [hsh]
      rfl
    · intro c hc
      refine ⟨c, hc, rfl, fun hin => ⟨_, ⟨hin, ?_, ?_⟩, rfl⟩⟩
      · intro j hj
        rw [hn] at hj
        have := sd3 c hc j (by omega)
        rwa [Nat.zero_add] at this
      · intro j hj
        rw [hn] at hj
        have := hin.length
        have := hc.length
        simp only [List.getD]
        rw [List.getElem?_eq_none (by omega), List.getElem?_eq_none (by omega)]

/-- The hypotheses are met: `x[::-2, 1]` with the second dimension shrunk, on a 3 × 2 × 2 tensor. -/
example : sliceRun ⟨[0, 1], [0, 2], [-2, 1], 1, 1, 0, 0, 2⟩ 2 [3, 2, 2] [0, 1, 2, 3, 4, 5, 6, 7, 8, 9, 10, 11]
    [0, 0, 0, 0] = .ok ([2, 2], [10, 11, 2, 3]) := by decide
example : Selects ⟨[0, 1], [0, 2], [-2, 1], 1, 1, 0, 0, 2⟩ [3, 2, 2] [2, 1, 2] := by
  refine ⟨rfl, rfl, by decide, by decide, rfl, ?_, ?_, ?_⟩
  · intro j hj
    have : j = 0 ∨ j = 1 := by simp at hj; omega
    rcases this with rfl | rfl <;> simp [SliceOk, bit]
  · intro j hj k
    have : j = 0 ∨ j = 1 := by simp at hj; omega
    rcases this with rfl | rfl
    · show k < 2 ↔ PyHas 3 none none (-2) k
      simp [PyHas, pyStart, pyStop]; omega
    · show k < 1 ↔ PyHas 2 (some 1) (some 2) 1 k
      simp [PyHas, pyStart, pyStop]; omega
  · intro j hj
    match j, hj with
    | 2, _ => rfl
    | j + 3, _ => simp

/-- An ellipsis that stands for no dimension leaves an extra extent of one: `x[..., 0:2]` on a vector of five elements
has shape `[1, 2]`, not `[2]`. -/
theorem C18_empty_ellipsis_false :
    sliceRun ⟨[0, 0], [0, 2], [1, 1], 0, 0, 1, 0, 0⟩ 2 [5] [0, 1, 2, 3, 4] [9, 9] = .ok ([1, 2], [0, 1]) := by decide

/-- A zero stride is not rejected: the result is empty. -/
theorem C18_zero_stride_false :
    sliceRun ⟨[0], [5], [0], 0, 0, 0, 0, 0⟩ 2 [5] [0, 1, 2, 3, 4] [] = .ok ([0], ([] : List Nat)) := by decide

end Verif.Props
