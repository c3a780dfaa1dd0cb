import Verif.Kernels.Generate
import Verif.Kernels.BroadcastLemmas
import Verif.Props.Fill
import Mathlib.Tactic.Linarith
import Mathlib.Tactic.FieldSimp
/-!
# C62: operators that make tensors from numbers

Specification: `IsRange`.
-/
namespace Verif.Props
open Verif.Core Verif.Kernels

/-- the numbers from `start` in steps of `delta` up to (not including) `limit`: no more, no fewer -/
structure IsRange {α : Type} [Ring α] [LT α] (start limit delta : α) (out : List α) : Prop where
  cells : ∀ (i : Nat) v, out[i]? = some v → v = start + i * delta
  before : ∀ v ∈ out, (0 < delta → v < limit) ∧ (delta < 0 → limit < v)
  whole : (0 < delta → ¬ start + (out.length : α) * delta < limit) ∧ (delta < 0 → ¬ limit < start + (out.length : α) * delta)

section ints
variable {t : IntTy}

theorem conv_has (ht : t ∈ rangeTypes) {x : Int} (h : t.has x) : t.conv x = x := by
  simp only [rangeTypes, List.mem_cons, List.not_mem_nil, or_false] at ht
  rcases ht with rfl | rfl | rfl | rfl | rfl | rfl | rfl | rfl <;>
    simp only [IntTy.has, IntTy.lo, IntTy.hi, IntTy.conv] at * <;> norm_num at * <;> omega

theorem arith_type (ht : t ∈ rangeTypes) : t.arith ∈ rangeTypes := by
  simp only [rangeTypes, List.mem_cons, List.not_mem_nil, or_false] at ht
  rcases ht with rfl | rfl | rfl | rfl | rfl | rfl | rfl | rfl <;> decide

theorem arith_has (ht : t ∈ rangeTypes) {x : Int} (h : t.has x) : t.arith.has x := by
  simp only [rangeTypes, List.mem_cons, List.not_mem_nil, or_false] at ht
  rcases ht with rfl | rfl | rfl | rfl | rfl | rfl | rfl | rfl <;>
    simp only [IntTy.has, IntTy.lo, IntTy.hi, IntTy.arith] at * <;> norm_num at * <;> omega

theorem result_has (ht : t ∈ rangeTypes) {x : Int} (h : t.has x) : t.result x = .ok x := by
  unfold IntTy.result
  split
  · rfl
  · rw [conv_has ht h]

theorem has_zero (ht : t ∈ rangeTypes) : t.has 0 := by
  simp only [rangeTypes, List.mem_cons, List.not_mem_nil, or_false] at ht
  rcases ht with rfl | rfl | rfl | rfl | rfl | rfl | rfl | rfl <;> decide

theorem has_mid {a b x : Int} (ha : t.has a) (hb : t.has b) (h1 : a ≤ x) (h2 : x ≤ b) : t.has x := ⟨le_trans ha.1 h1, lt_of_le_of_lt h2 hb.2⟩

theorem arith_int (ht : t ∈ rangeTypes) {x : Int} (h0 : 0 ≤ x) (h1 : x < 2 ^ 31) : t.arith.has x := by
  simp only [rangeTypes, List.mem_cons, List.not_mem_nil, or_false] at ht
  rcases ht with rfl | rfl | rfl | rfl | rfl | rfl | rfl | rfl <;>
    simp only [IntTy.has, IntTy.lo, IntTy.hi, IntTy.arith] at * <;> norm_num at * <;> omega

theorem cInt_type : cInt ∈ rangeTypes := by decide

theorem cInt_has {x : Int} : cInt.has x ↔ -2 ^ 31 ≤ x ∧ x < 2 ^ 31 := by
  simp [cInt, IntTy.has, IntTy.lo, IntTy.hi]

/-- the elements, if all of them are values of the type -/
theorem rangeFill_ok (ht : t ∈ rangeTypes) {start delta : Int} {n : Nat} {fresh : Nat → List Int} (hf : (fresh n).length = n) (hn : (n : Int) < 2 ^ 31)
    (hs : t.has start)
    (h : ∀ i : Nat, i < n → t.arith.has (i * delta) ∧ t.has (start + i * delta)) :
    rangeFill t start delta n fresh = .ok ((List.range n).map fun (i : Nat) => start + i * delta) := by
  unfold rangeFill
  rw [if_neg (by omega), Int.toNat_natCast]
  refine loop_fill hf fun i d hi hd => ?_
  obtain ⟨h1, h2⟩ := h i hi
  unfold rangeCell
  rw [conv_has (arith_type ht) (arith_int ht (by omega) (by omega)), result_has (arith_type ht) h1, Res.bind_ok,
    result_has (arith_type ht) (arith_has ht h2), Res.bind_ok, conv_has ht h2, Res.bind_ok, wr_ok _ (by omega)]

/-- the number of steps: the rounded quotient, and one more if that does not reach the limit -/
theorem rangeSteps_ok (ht : t ∈ rangeTypes) {start limit delta q : Int} (h0 : delta ≠ 0) (hd : t.arith.has (limit - start))
    (hq : Int.tdiv (limit - start) delta = q) (q0 : 0 ≤ q) (q1 : q < 2 ^ 31) (q2 : q * delta + start < limit → q + 1 < 2 ^ 31) (hp : t.arith.has (q * delta)) (hs : t.arith.has (q * delta + start)) :
    rangeSteps t start limit delta = .ok (if q * delta + start < limit then q + 1 else q) := by
  have hA := arith_type ht
  unfold rangeSteps
  rw [result_has hA hd, Res.bind_ok, if_neg h0, hq, result_has hA (arith_int ht q0 (by omega)), Res.bind_ok, conv_has cInt_type (cInt_has.2 (by omega))]
  unfold rangeRound
  rw [conv_has hA (arith_int ht q0 (by omega)), result_has hA hp, Res.bind_ok, result_has hA hs, Res.bind_ok]
  split
  · rename_i c
    have := q2 c
    rw [result_has cInt_type (cInt_has.2 (by omega))]
  · rfl

theorem rangeRun_eq (ht : t ∈ rangeTypes) {s l d : Int} (hl : t.has l) (hd : t.has d) (fresh : Nat → List Int) :
    rangeRun (t, [s]) (t, [l]) (t, [d]) fresh = rangeSteps t s l d >>= fun n => rangeFill t s d n fresh := by
  simp only [rangeRun, rangeOperand, lt_irrefl, if_false]
  rw [Res.bind_ok, Res.bind_ok, conv_has ht hl, conv_has ht hd]

theorem isRange_map {start limit delta : Int} {n : Nat} (h : ∀ i : Nat, i < n → (0 < delta → start + i * delta < limit) ∧ (delta < 0 → limit < start + i * delta))
    (hw : (0 < delta → ¬ start + n * delta < limit) ∧ (delta < 0 → ¬ limit < start + n * delta)) :
    IsRange start limit delta ((List.range n).map fun (i : Nat) => start + i * delta) := by
  refine ⟨?_, ?_, by simpa using hw⟩
  · intro i v hv
    rw [List.getElem?_map] at hv
    by_cases hi : i < n
    · rw [List.getElem?_range hi] at hv; simpa using hv.symm
    · rw [List.getElem?_eq_none (by simpa using hi)] at hv; simp at hv
  · intro v hv
    obtain ⟨i, hi, rfl⟩ := List.mem_map.1 hv
    exact h i (List.mem_range.1 hi)

/-- **C62, ascending ranges.** Missing: a `limit` more than `delta` below `start` (which should give an empty tensor, see below), differences or counts that
overflow. -/
theorem C62_range_partial (t : IntTy) (ht : t ∈ rangeTypes) (start limit delta : Int) (hs : t.has start) (hl : t.has limit) (hd : t.has delta)
    (pos : 0 < delta) (order : start ≤ limit ∨ (t.arith.signed = true ∧ start - limit < delta)) (fits : t.arith.has (limit - start))
    (count : limit - start ≤ (2 ^ 31 - 1) * delta) (fresh : Nat → List Int) (hf : ∀ n, (fresh n).length = n) :
    ∃ out, rangeRun (t, [start]) (t, [limit]) (t, [delta]) fresh = .ok out ∧ IsRange start limit delta out := by
  have hA := arith_type ht
  rw [rangeRun_eq ht hl hd]
  by_cases hle : start ≤ limit
  · obtain ⟨q, hq⟩ : ∃ q, q = (limit - start) / delta := ⟨_, rfl⟩
    have e1 : q * delta ≤ limit - start := by rw [hq]; exact Int.ediv_mul_le _ (by omega)
    have e2 : limit - start < q * delta + delta := by
      have := Int.lt_ediv_add_one_mul_self (limit - start) pos
      rw [← hq] at this; linarith [this, add_mul q 1 delta]
    have q0 : 0 ≤ q := by rw [hq]; exact Int.ediv_nonneg (by omega) (by omega)
    have qm : 0 ≤ q * delta := mul_nonneg q0 (by omega)
    have q1 : q ≤ 2 ^ 31 - 1 := by
      by_contra hc
      have : (2 ^ 31 - 1 + 1) * delta ≤ q * delta := mul_le_mul_of_nonneg_right (by omega) (by omega)
      nlinarith
    have last : q * delta + start < limit → q + 1 < 2 ^ 31 := by
      intro c
      by_contra hc
      have : q = 2 ^ 31 - 1 := by omega
      rw [this] at c
      omega
    rw [rangeSteps_ok ht (by omega) fits (by rw [Int.tdiv_eq_ediv_of_nonneg (by omega), ← hq]) q0 (by omega) last (has_mid (has_zero hA) fits qm e1)
      (has_mid (arith_has ht hs) (arith_has ht hl) (by omega) (by omega)), Res.bind_ok]
    obtain ⟨n, hn⟩ : ∃ n : Nat, (n : Int) = if q * delta + start < limit then q + 1 else q :=
      ⟨(if q * delta + start < limit then q + 1 else q).toNat, by split <;> omega⟩
    rw [← hn]
    have cell : ∀ i : Nat, i < n → start + i * delta < limit := by
      intro i hi
      by_cases c : q * delta + start < limit
      · rw [if_pos c] at hn
        have : (i : Int) * delta ≤ q * delta := mul_le_mul_of_nonneg_right (by omega) (by omega)
        omega
      · rw [if_neg c] at hn
        have : ((i : Int) + 1) * delta ≤ q * delta := mul_le_mul_of_nonneg_right (by omega) (by omega)
        rw [add_mul] at this
        omega
    refine ⟨_, rangeFill_ok ht (hf n) (by split at hn <;> omega) hs ?_, isRange_map ?_ ⟨?_, fun h => by omega⟩⟩
    · intro i hi
      have := cell i hi
      have p0 : (0 : Int) ≤ (i : Int) * delta := mul_nonneg (by omega) (by omega)
      exact ⟨has_mid (has_zero hA) fits p0 (by omega), has_mid hs hl (by omega) (by omega)⟩
    · exact fun i hi => ⟨fun _ => cell i hi, fun h => by omega⟩
    · intro _
      rw [hn]
      split
      · rw [add_mul]; omega
      · omega
  · have hz : Int.tdiv (limit - start) delta = 0 := by
      rw [show limit - start = -(start - limit) by ring, Int.neg_tdiv, Int.tdiv_eq_ediv_of_nonneg (by omega), Int.ediv_eq_zero_of_lt (by omega) (by omega)]
      rfl
    rw [rangeSteps_ok ht (by omega) fits hz (by omega) (by omega) (by omega) (by simpa using has_zero hA) (by simpa using arith_has ht hs), Res.bind_ok,
      if_neg (by omega)]
    refine ⟨_, rangeFill_ok (n := 0) ht (hf 0) (by omega) hs (by omega), isRange_map (by omega) ⟨fun _ => by push_cast; omega, fun h => by omega⟩⟩

example : ∃ out, rangeRun (⟨false, 8⟩, [250]) (⟨false, 8⟩, [255]) (⟨false, 8⟩, [2]) (fun n => List.replicate n 0) = .ok out ∧ IsRange 250 255 2 out :=
  C62_range_partial ⟨false, 8⟩ (by decide) 250 255 2 (by decide) (by decide) (by decide) (by decide) (by decide) (by decide) (by decide) _ (by simp)

example : rangeRun (⟨false, 8⟩, [250]) (⟨false, 8⟩, [255]) (⟨false, 8⟩, [2]) (fun n => List.replicate n 0) = .ok [250, 252, 254] := by decide

/-- the quotient of a descending range -/
theorem descending_steps (ht : t ∈ rangeTypes) {start limit delta : Int} (hs : t.has start) (hl : t.has limit) (neg : delta < 0)
    (order : limit ≤ start) (fits : t.arith.has (limit - start)) (count : start - limit ≤ (2 ^ 31 - 1) * -delta) :
    rangeSteps t start limit delta = .ok ((start - limit) / -delta) ∧ 0 ≤ (start - limit) / -delta ∧ (start - limit) / -delta < 2 ^ 31 := by
  have hA := arith_type ht
  obtain ⟨q, hq⟩ : ∃ q, q = (start - limit) / -delta := ⟨_, rfl⟩
  have e1 : q * -delta ≤ start - limit := by rw [hq]; exact Int.ediv_mul_le _ (by omega)
  have q0 : 0 ≤ q := by rw [hq]; exact Int.ediv_nonneg (by omega) (by omega)
  have qm : 0 ≤ q * -delta := mul_nonneg q0 (by omega)
  have q1 : q < 2 ^ 31 := by
    by_contra hc
    have : (2 ^ 31 - 1 + 1) * -delta ≤ q * -delta := mul_le_mul_of_nonneg_right (by omega) (by omega)
    nlinarith
  rw [mul_neg] at e1 qm
  rw [← hq]
  refine ⟨?_, q0, q1⟩
  rw [rangeSteps_ok ht (q := q) (by omega) fits _ q0 q1 (by omega) (has_mid fits (has_zero hA) (by omega) (by omega))
        (has_mid (arith_has ht hl) (arith_has ht hs) (by omega) (by omega)), if_neg (by omega)]
  rw [show limit - start = -(start - limit) by ring, Int.neg_tdiv, ← Int.tdiv_neg, Int.tdiv_eq_ediv_of_nonneg (by omega), ← hq]

theorem descending_run (ht : t ∈ rangeTypes) {start limit delta : Int} (hs : t.has start) (hl : t.has limit) (hd : t.has delta) (neg : delta < 0)
    (order : limit ≤ start) (fits : t.arith.has (limit - start)) (count : start - limit ≤ (2 ^ 31 - 1) * -delta) {fresh : Nat → List Int}
    (hf : ∀ n, (fresh n).length = n) :
    rangeRun (t, [start]) (t, [limit]) (t, [delta]) fresh =
      .ok ((List.range ((start - limit) / -delta).toNat).map fun (i : Nat) => start + i * delta) := by
  have hA := arith_type ht
  obtain ⟨e, q0, q1⟩ := descending_steps ht hs hl neg order fits count
  rw [rangeRun_eq ht hl hd, e, Res.bind_ok]
  obtain ⟨n, hn⟩ := Int.eq_ofNat_of_zero_le q0
  have hle := Int.ediv_mul_le (start - limit) (b := -delta) (by omega)
  rw [hn] at q1 hle ⊢
  rw [Int.toNat_natCast]
  refine rangeFill_ok ht (hf _) q1 hs fun i hi => ?_
  have h1 : (0 : Int) ≤ i * -delta := mul_nonneg (by omega) (by omega)
  have h2 : (i : Int) * -delta ≤ n * -delta := mul_le_mul_of_nonneg_right (by omega) (by omega)
  rw [mul_neg] at h1 h2 hle
  rw [mul_neg] at h2
  exact ⟨has_mid fits (has_zero hA) (by omega) (by omega), has_mid hl hs (by omega) (by omega)⟩

/-- **C62, descending ranges** that end exactly at the limit. Missing: the others, which lose their last element, see `C62_descending_false`. -/
theorem C62_descending_partial (t : IntTy) (ht : t ∈ rangeTypes) (start limit delta : Int) (hs : t.has start) (hl : t.has limit) (hd : t.has delta)
    (neg : delta < 0) (order : limit ≤ start) (exact_ : delta ∣ limit - start) (fits : t.arith.has (limit - start))
    (count : start - limit ≤ (2 ^ 31 - 1) * -delta) (fresh : Nat → List Int) (hf : ∀ n, (fresh n).length = n) :
    ∃ out, rangeRun (t, [start]) (t, [limit]) (t, [delta]) fresh = .ok out ∧ IsRange start limit delta out := by
  obtain ⟨e, q0, q1⟩ := descending_steps ht hs hl neg order fits count
  refine ⟨_, descending_run ht hs hl hd neg order fits count hf, ?_⟩
  obtain ⟨k, hk⟩ := exact_
  have : (start - limit) / -delta = k := by
    rw [show start - limit = k * -delta by linarith [hk, mul_comm delta k, mul_neg k delta], Int.mul_ediv_cancel _ (by omega)]
  rw [this] at q0 ⊢
  obtain ⟨n, rfl⟩ := Int.eq_ofNat_of_zero_le q0
  rw [Int.toNat_natCast]
  have e : limit = start + n * delta := by linarith [mul_comm delta (n : Int)]
  refine isRange_map (fun i hi => ⟨fun h => by omega, fun _ => ?_⟩) ⟨fun h => by omega, fun _ => by omega⟩
  have : (i : Int) * -delta < n * -delta := mul_lt_mul_of_pos_right (by omega) (by omega)
  rw [mul_neg, mul_neg] at this
  omega

example : ∃ out, rangeRun (⟨true, 64⟩, [5]) (⟨true, 64⟩, [-5]) (⟨true, 64⟩, [-5]) (fun n => List.replicate n 0) = .ok out ∧ IsRange 5 (-5) (-5) out :=
  C62_descending_partial ⟨true, 64⟩ (by decide) 5 (-5) (-5) (by decide) (by decide) (by decide) (by decide) (by decide) ⟨2, by decide⟩ (by decide)
    (by decide) _ (by simp)

/-- A descending range that does not hit the limit misses its last element, whatever the type and the numbers. -/
theorem C62_descending_false (t : IntTy) (ht : t ∈ rangeTypes) (start limit delta : Int) (hs : t.has start) (hl : t.has limit) (hd : t.has delta)
    (neg : delta < 0) (order : limit ≤ start) (inexact : ¬ delta ∣ limit - start) (fits : t.arith.has (limit - start))
    (count : start - limit ≤ (2 ^ 31 - 1) * -delta) (fresh : Nat → List Int) (hf : ∀ n, (fresh n).length = n) :
    ∃ out, rangeRun (t, [start]) (t, [limit]) (t, [delta]) fresh = .ok out ∧ ¬ IsRange start limit delta out ∧
      limit < start + out.length * delta := by
  obtain ⟨e, q0, q1⟩ := descending_steps ht hs hl neg order fits count
  refine ⟨_, descending_run ht hs hl hd neg order fits count hf, ?_⟩
  have hlt : limit < start + ((start - limit) / -delta).toNat * delta := by
    rw [Int.toNat_of_nonneg q0]
    have h1 := Int.ediv_mul_le (start - limit) (b := -delta) (by omega)
    rw [mul_neg] at h1
    have h2 : (start - limit) / -delta * delta ≠ limit - start := fun h => inexact ⟨_, by rw [← h]; ring⟩
    omega
  have hlen : ((List.range ((start - limit) / -delta).toNat).map fun (i : Nat) => start + i * delta).length = ((start - limit) / -delta).toNat := by simp
  rw [hlen]
  exact ⟨fun h => by
    have := h.whole.2 neg
    rw [hlen] at this
    exact this hlt, hlt⟩

example : rangeRun (⟨true, 32⟩, [5]) (⟨true, 32⟩, [0]) (⟨true, 32⟩, [-2]) (fun n => List.replicate n 0) = .ok [5, 3] ∧ ¬ (-2 : Int) ∣ 0 - 5 := by decide

/-- A range that should be empty asks for a tensor of negative extent; with unsigned operands of 32 bits it may become a huge one; and with a negative
delta it has an element. -/
theorem C62_empty_range_false :
    (∀ fresh, rangeRun (⟨true, 32⟩, [5]) (⟨true, 32⟩, [0]) (⟨true, 32⟩, [1]) fresh = .ub) ∧
    rangeSteps ⟨false, 32⟩ 5 0 4 = .ok 1073741822 ∧
    rangeRun (⟨true, 32⟩, [0]) (⟨true, 32⟩, [1]) (⟨true, 32⟩, [-2]) (fun n => List.replicate n 7) = .ok [0] := by
  refine ⟨fun fresh => ?_, by decide, by decide⟩
  rw [rangeRun_eq (by decide) (by decide) (by decide), show rangeSteps ⟨true, 32⟩ 5 0 1 = .ok (-5) by decide, Res.bind_ok]
  rfl

/-- The types of `limit` and `delta` are not compared with that of `start`: a narrower one is read behind its end. A `delta` of zero divides by zero. -/
theorem C62_unchecked_false (t u : IntTy) (s l d : Int) (fresh : Nat → List Int) :
    (u.bits < t.bits → rangeRun (t, [s]) (u, [l]) (t, [d]) fresh = .ub ∧ rangeRun (t, [s]) (t, [l]) (u, [d]) fresh = .ub) ∧
    (t ∈ rangeTypes → t.has s → t.has l → rangeRun (t, [s]) (t, [l]) (t, [0]) fresh = .ub) := by
  refine ⟨fun h => ⟨?_, ?_⟩, fun ht hs hl => ?_⟩
  · simp only [rangeRun, rangeOperand, if_pos h]
    rfl
  · simp only [rangeRun, rangeOperand, if_pos h, lt_irrefl, if_false]
    rfl
  · rw [rangeRun_eq ht hl (has_zero ht)]
    unfold rangeSteps
    cases e : t.arith.result (l - s) with
    | ok v => rfl
    | ub => rfl
    | err => unfold IntTy.result at e; split at e <;> [split at e; skip] <;> simp at e

/-- **C62, refusals**: operands with more or less than one element. -/
theorem C62_range_rejects (a b c : IntTy × List Int) (fresh : Nat → List Int) (h : a.2.length ≠ 1 ∨ b.2.length ≠ 1 ∨ c.2.length ≠ 1) :
    rangeRun a b c fresh = .err := by
  obtain ⟨ta, a⟩ := a
  obtain ⟨tb, b⟩ := b
  obtain ⟨tc, c⟩ := c
  match a, b, c with
  | [_], [_], [_] => simp at h
  | [], _, _ => rfl
  | _ :: _ :: _, _, _ => rfl
  | [_], [], _ => rfl
  | [_], _ :: _ :: _, _ => rfl
  | [_], [_], [] => rfl
  | [_], [_], _ :: _ :: _ => rfl

end ints

/-! ## floating point, in exact arithmetic -/

theorem rangeRunQ_eq {start limit delta : Rat} {n : Nat} {fresh : Nat → List Rat} (hf : (fresh n).length = n) (h : rangeStepsQ start limit delta = .ok n) :
    rangeRunQ start limit delta fresh = .ok ((List.range n).map fun (i : Nat) => start + i * delta) := by
  unfold rangeRunQ
  rw [h, Res.bind_ok, if_neg (by omega), Int.toNat_natCast]
  exact loop_fill hf fun i d hi hd => wr_ok _ (by omega)

/-- **C62, ascending ranges of `float` and `double`**, in exact arithmetic. -/
theorem C62_range_float_partial (start limit delta : Rat) (pos : 0 < delta) (order : start - limit < delta)
    (count : limit - start ≤ (2 ^ 31 - 1) * delta) (fresh : Nat → List Rat) (hf : ∀ n, (fresh n).length = n) :
    ∃ out, rangeRunQ start limit delta fresh = .ok out ∧ IsRange start limit delta out := by
  have key : ∃ n : Nat, rangeStepsQ start limit delta = .ok n ∧ (∀ i : Nat, i < n → start + i * delta < limit) ∧ ¬ start + n * delta < limit := by
    unfold rangeStepsQ
    rw [if_neg (ne_of_gt pos)]
    by_cases hle : start ≤ limit
    · have hq0 : 0 ≤ (limit - start) / delta := div_nonneg (by linarith) (le_of_lt pos)
      have hq1 : (limit - start) / delta ≤ 2 ^ 31 - 1 := by rw [div_le_iff₀ pos]; exact count
      obtain ⟨q, hq⟩ := Int.eq_ofNat_of_zero_le (Int.floor_nonneg.2 hq0)
      have f1 := Int.floor_le ((limit - start) / delta)
      have f2 := Int.lt_floor_add_one ((limit - start) / delta)
      rw [hq] at f1 f2
      rw [le_div_iff₀ pos] at f1
      rw [div_lt_iff₀ pos] at f2
      push_cast at f1 f2
      have hlt : (q : Int) < 2 ^ 31 := by
        have h1 := Int.floor_le_floor hq1
        rw [hq] at h1
        have : ⌊(2 ^ 31 - 1 : Rat)⌋ = 2 ^ 31 - 1 := by
          rw [show (2 ^ 31 - 1 : Rat) = ((2 ^ 31 - 1 : Int) : Rat) by norm_num, Int.floor_intCast]
        omega
      have ht : truncInt ((limit - start) / delta) = .ok (q : Int) := by
        unfold truncInt
        rw [if_pos hq0, hq]
        exact if_pos (cInt_has.2 ⟨by omega, hlt⟩)
      rw [ht, Res.bind_ok]
      push_cast
      by_cases c : (q : Rat) * delta + start < limit
      · rw [if_pos c]
        have hlt' : (q : Int) + 1 < 2 ^ 31 := by
          by_contra hc
          have : q = 2 ^ 31 - 1 := by omega
          rw [this] at c
          push_cast at c
          linarith
        refine ⟨q + 1, by rw [result_has cInt_type (cInt_has.2 ⟨by omega, hlt'⟩)]; rfl, fun i hi => ?_, ?_⟩
        · have : (i : Rat) * delta ≤ q * delta := mul_le_mul_of_nonneg_right (by exact_mod_cast Nat.lt_succ_iff.1 hi) (le_of_lt pos)
          linarith
        · push_cast; linarith
      · rw [if_neg c]
        refine ⟨q, rfl, fun i hi => ?_, by linarith⟩
        have : ((i : Rat) + 1) * delta ≤ q * delta := mul_le_mul_of_nonneg_right (by exact_mod_cast hi) (le_of_lt pos)
        linarith
    · have h0 : (limit - start) / delta < 0 := div_neg_of_neg_of_pos (by linarith) pos
      have h1 : -1 < (limit - start) / delta := by rw [lt_div_iff₀ pos]; linarith
      have ht : truncInt ((limit - start) / delta) = .ok 0 := by
        unfold truncInt
        rw [if_neg (not_le.2 h0), show ⌈(limit - start) / delta⌉ = 0 by rw [Int.ceil_eq_iff]; push_cast; constructor <;> linarith]
        rfl
      rw [ht, Res.bind_ok, if_neg (by push_cast; linarith)]
      exact ⟨0, rfl, by intro i hi; omega, by push_cast; linarith⟩
  obtain ⟨n, e, c1, c2⟩ := key
  refine ⟨_, rangeRunQ_eq (hf n) e, ?_, ?_, ?_, ?_⟩
  · intro i v hv
    rw [List.getElem?_map] at hv
    by_cases hi : i < n
    · rw [List.getElem?_range hi] at hv; simpa using hv.symm
    · rw [List.getElem?_eq_none (by simpa using hi)] at hv; simp at hv
  · intro v hv
    obtain ⟨i, hi, rfl⟩ := List.mem_map.1 hv
    exact ⟨fun _ => c1 i (List.mem_range.1 hi), fun h => by linarith⟩
  · intro _; simpa using c2
  · intro h; linarith

example : ∃ out, rangeRunQ 0 1 (3 / 10) (fun n => List.replicate n 0) = .ok out ∧ IsRange 0 1 (3 / 10) out :=
  C62_range_float_partial 0 1 (3 / 10) (by norm_num) (by norm_num) (by norm_num) _ (by simp)

/-! ## constant_of_shape, shape, _dims -/

/-- **C62, constant_of_shape**: a value of one element is in every element; the memory is bytes, `bytes` of them per element. -/
theorem C62_constant_partial (bytes : Nat) (value : List Nat) (shape : List Int) (fresh : Nat → List Nat) (hf : ∀ n, (fresh n).length = n)
    (hb : 0 < bytes) (hv : value.length = bytes) (hc : 0 ≤ countOf shape) (h64 : (countOf shape).toNat * bytes < 2 ^ 64) :
    ∃ out, (∃ enough, ∀ fuel, enough ≤ fuel → constantOfShape fuel true bytes value shape fresh = some (.ok out)) ∧
      out.length = (countOf shape).toNat * bytes ∧ ∀ (i b : Nat), i < (countOf shape).toNat → b < bytes → out[i * bytes + b]? = value[b]? := by
  obtain ⟨out, h1, h2, h3, -⟩ := C25_fill_partial (fresh ((countOf shape).toNat * bytes)) value ((countOf shape).toNat * bytes)
    (by intro h; rw [h] at hv; simp at hv; omega) (by rw [hf]) h64
  refine ⟨out, ⟨(countOf shape).toNat * bytes + 1, fun fuel hfuel => ?_⟩, by rw [h2, hf], fun i b hi hb' => ?_⟩
  · unfold constantOfShape
    rw [if_neg (by omega), if_neg (by simp)]
    exact h1 fuel hfuel
  · rw [h3 _ (by have := Nat.mul_le_mul_right bytes hi; rw [Nat.succ_mul] at this; omega), hv, Nat.mul_add_mod', Nat.mod_eq_of_lt hb']

example : ∃ out, (∃ enough, ∀ fuel, enough ≤ fuel → constantOfShape fuel true 2 [1, 2] [2, 3] (fun n => List.replicate n 0) = some (.ok out)) ∧
    out.length = 12 := by
  obtain ⟨out, h, l, -⟩ := C62_constant_partial 2 [1, 2] [2, 3] (fun n => List.replicate n 0) (by simp) (by decide) (by decide) (by decide) (by decide)
  exact ⟨out, h, l⟩

/-- A value of several elements is not refused: the elements alternate. An empty value: the call does not return. -/
theorem C62_constant_values_false : constantOfShape 100 true 1 [1, 2] [3] (fun n => List.replicate n 0) = some (.ok [1, 2, 1]) ∧
    ∀ fuel fresh, constantOfShape fuel true 1 [] [3] fresh = none := by
  refine ⟨by decide, fun fuel fresh => ?_⟩
  unfold constantOfShape
  rw [if_neg (by decide), if_neg (by simp)]
  exact C25_empty_pattern_false _ _ _

/-- **C62, shape and _dims** -/
theorem C62_shape (shape : List Int) (fresh : Nat → List Int) (hf : ∀ n, (fresh n).length = n) :
    shapeRun shape fresh = .ok shape ∧ dimsRun shape = shape.length := by
  refine ⟨?_, rfl⟩
  unfold shapeRun
  rw [loop_fill (g := fun i => shape.getD i 0) (hf _)]
  · congr 1
    apply List.ext_getElem
    · simp
    · intro i h1 h2
      simp [List.getD_eq_getElem?_getD, h2]
  · intro i d hi hd
    rw [rd_ok (v := shape.getD i 0) (by rw [List.getD_eq_getElem?_getD, List.getElem?_eq_getElem hi, Option.getD_some]), Res.bind_ok, wr_ok _ (by omega)]

example : shapeRun [2, 3, 4] (fun n => List.replicate n 0) = .ok [2, 3, 4] := by decide

end Verif.Props
