import Verif.Kernels.Quantize
import Verif.Props.Conv
import Mathlib.Algebra.Order.BigOperators.Group.Finset
import Mathlib.Algebra.Order.BigOperators.Ring.Finset
/-!
# C76: quantisation and convolution of quantised tensors
-/
namespace Verif.Props
open Verif.Core Verif.Kernels Verif.Spec

/-! ## Specification -/

/-- `w` is the eight bit value for `q`: a nearest integer, or the bound on the side of `q` -/
def Quantized (q : Rat) (w : Int) : Prop :=
  (-128 ≤ w ∧ w ≤ 127) ∧ (-128 ≤ q → q ≤ 127 → |(w : Rat) - q| ≤ 1 / 2) ∧ (127 < q → w = 127) ∧ (q < -128 → w = -128)

/-! ## One number -/

theorem roundAway_near (q : Rat) : |(roundAway q : Rat) - q| ≤ 1 / 2 := by
  unfold roundAway
  split
  · have h1 := Int.floor_le (q + 1 / 2)
    have h2 := Int.lt_floor_add_one (q + 1 / 2)
    rw [abs_le]; constructor <;> linarith
  · have h1 := Int.le_ceil (q - 1 / 2)
    have h2 := Int.ceil_lt_add_one (q - 1 / 2)
    rw [abs_le]; constructor <;> linarith

theorem quantized_of_near {q : Rat} {v : Int} (h : |(v : Rat) - q| ≤ 1 / 2) : Quantized q (clampInt8 v) := by
  rw [abs_le] at h
  have up : ∀ n : Int, q < n → v ≤ n := by
    intro n hn
    have : (v : Rat) < ((n + 1 : Int) : Rat) := by push_cast; linarith
    have := Int.cast_lt.1 this
    omega
  have dn : ∀ n : Int, (n : Rat) < q → n ≤ v := by
    intro n hn
    have : ((n - 1 : Int) : Rat) < (v : Rat) := by push_cast; linarith
    have := Int.cast_lt.1 this
    omega
  unfold clampInt8
  by_cases h1 : v > 127
  · rw [if_pos h1]
    refine ⟨by omega, fun _ h3 => ?_, fun _ => rfl, fun h3 => ?_⟩
    · have h4 : (128 : Rat) ≤ v := by exact_mod_cast h1
      rw [abs_le]; push_cast; constructor <;> linarith
    · have := up (-128) (by push_cast; linarith)
      omega
  · rw [if_neg h1]
    by_cases h2 : v < -128
    · rw [if_pos h2]
      refine ⟨by omega, fun h3 _ => ?_, fun h3 => ?_, fun _ => rfl⟩
      · have h4 : (v : Rat) ≤ -129 := by
          have : v ≤ -129 := by omega
          exact_mod_cast this
        rw [abs_le]; push_cast; constructor <;> linarith
      · have := dn 127 (by push_cast; linarith)
        omega
    · rw [if_neg h2]
      refine ⟨by omega, fun _ _ => by rw [abs_le]; exact h, fun h3 => ?_, fun h3 => ?_⟩
      · have := dn 127 (by push_cast; linarith)
        omega
      · have := up (-128) (by push_cast; linarith)
        omega

/-- a number that the conversion to `int32_t` takes -/
def FitsInt32 (q : Rat) : Prop := -2147483648 ≤ q ∧ q ≤ 2147483647

theorem has_of_near {q : Rat} {v : Int} (hq : FitsInt32 q) (h : |(v : Rat) - q| ≤ 1 / 2) : cInt.has v := by
  rw [abs_le] at h
  obtain ⟨h1, h2⟩ := hq
  have a : ((-2147483649 : Int) : Rat) < (v : Rat) := by push_cast; linarith
  have b : (v : Rat) < ((2147483648 : Int) : Rat) := by push_cast; linarith
  have a := Int.cast_lt.1 a
  have b := Int.cast_lt.1 b
  simp only [IntTy.has, IntTy.lo, IntTy.hi, cInt]
  norm_num
  omega

theorem toInt8_ok {q : Rat} (hq : FitsInt32 q) : ∃ w, toInt8 q = .ok w ∧ Quantized q w := by
  refine ⟨_, ?_, quantized_of_near (roundAway_near q)⟩
  unfold toInt8 toInt32
  rw [if_pos (has_of_near hq (roundAway_near q)), Res.bind_ok]

theorem laneInt8_ok {l : Lanes} (hl : l ≠ .neon) {q : Rat} (hq : FitsInt32 q) : ∃ w, laneInt8 l q = .ok w ∧ Quantized q w := by
  cases l with
  | sse =>
    refine ⟨_, ?_, quantized_of_near (roundEven_near q)⟩
    simp only [laneInt8, laneInt32]
    rw [if_pos (has_of_near hq (roundEven_near q)), Res.bind_ok]
  | neon => exact absurd rfl hl
  | base => exact toInt8_ok hq

/-! ## Loops -/

/-- a loop that writes `F` of the elements from `p` on -/
theorem qfill_ok {β γ : Type} (F : γ → Res β) (x : List γ) (p n : Nat) (out : List β) (P : Nat → β → Prop)
    (h : ∀ k, k < n → ∃ v w, x[p + k]? = some v ∧ F v = .ok w ∧ P (p + k) w) (hp : p + n ≤ out.length) :
    ∃ out', loop (fun (out : List β) k => do
        let v ← rd x (p + k)
        let w ← F v
        wr out (p + k) w) n out = .ok out' ∧ out'.length = out.length ∧
      (∀ i, p ≤ i → i < p + n → ∃ w, out'[i]? = some w ∧ P i w) ∧ ∀ i, i < p ∨ p + n ≤ i → out'[i]? = out[i]? := by
  obtain ⟨o, e, h1, h2, h3⟩ := loop_inv (f := fun (out : List β) k => do
        let v ← rd x (p + k)
        let w ← F v
        wr out (p + k) w) (n := n) (s := out) (fun k o => o.length = out.length ∧ (∀ i, p ≤ i → i < p + k → ∃ w, o[i]? = some w ∧ P i w) ∧
      ∀ i, i < p ∨ p + k ≤ i → o[i]? = out[i]?) ⟨rfl, fun i _ _ => by omega, fun _ _ => rfl⟩ (by
    intro k o hk ⟨hl, ha, hb⟩
    obtain ⟨v, w, hv, hw, hP⟩ := h k hk
    rw [rd_ok hv, Res.bind_ok, hw, Res.bind_ok, wr_ok _ (by omega)]
    refine ⟨_, rfl, by simpa using hl, fun i hi1 hi2 => ?_, fun i hi => ?_⟩
    · by_cases hik : p + k = i
      · subst hik
        exact ⟨w, set_eq (by omega), hP⟩
      · rw [set_ne hik]
        exact ha i hi1 (by omega)
    · rw [set_ne (by omega)]
      exact hb i (by omega))
  exact ⟨o, e, h1, h2, h3⟩

section
variable {f fl : Rat → Rat} {rnd : Nat → Rat → Rat}

theorem quantizeOne_ok (s : Rat) (x : List Rat) (out : List Int) (ho : out.length = x.length) (hx : ∀ v ∈ x, FitsInt32 (fl (v * s))) :
    ∃ out', quantizeOne fl s x x.length out = .ok out' ∧ out'.length = x.length ∧
      ∀ (i : Nat) (v : Rat), x[i]? = some v → ∃ w, out'[i]? = some w ∧ Quantized (fl (v * s)) w := by
  obtain ⟨o, e, h1, h2, -⟩ := qfill_ok (fun v => toInt8 (fl (v * s))) x 0 x.length out (fun i w => ∀ v, x[i]? = some v → Quantized (fl (v * s)) w) (by
    intro k hk
    have hv := List.getElem?_eq_getElem hk
    obtain ⟨w, e, q⟩ := toInt8_ok (hx _ (List.mem_of_getElem? hv))
    refine ⟨x[k], w, by rw [Nat.zero_add]; exact hv, e, fun v hv' => ?_⟩
    rw [Nat.zero_add, hv] at hv'
    cases hv'
    exact q) (by omega)
  simp only [Nat.zero_add] at e
  refine ⟨o, e, by omega, fun i v hv => ?_⟩
  obtain ⟨w, hw, hP⟩ := h2 i (by omega) (by have := (List.getElem?_eq_some_iff.1 hv).1; omega)
  exact ⟨w, hw, hP v hv⟩

theorem quantizeOneFloat_ok {l : Lanes} (hl : l ≠ .neon) (s : Rat) (x : List Rat) (out : List Int) (ho : out.length = x.length) (hx : ∀ v ∈ x, FitsInt32 (fl (v * s))) :
    ∃ out', quantizeOneFloat fl l s x x.length out = .ok out' ∧ out'.length = x.length ∧
      ∀ (i : Nat) (v : Rat), x[i]? = some v → ∃ w, out'[i]? = some w ∧ Quantized (fl (v * s)) w := by
  have h8 : x.length / 8 * 8 ≤ x.length := Nat.div_mul_le_self _ _
  unfold quantizeOneFloat
  obtain ⟨o1, e1, hl1, hw1⟩ := loop_inv (f := fun (out : List Int) i => loop (fun out k => do
    let v ← rd x (i * 8 + k)
    let w ← laneInt8 l (fl (v * s))
    wr out (i * 8 + k) w) 8 out) (n := x.length / 8) (s := out)
    (fun k o => o.length = x.length ∧ ∀ i v, i < k * 8 → x[i]? = some v → ∃ w, o[i]? = some w ∧ Quantized (fl (v * s)) w) ⟨ho, fun i v hi => by omega⟩ (by
      intro i o hi ⟨hlo, hw⟩
      obtain ⟨o', e', h1, h2, h3⟩ := qfill_ok (fun v => laneInt8 l (fl (v * s))) x (i * 8) 8 o (fun i w => ∀ v, x[i]? = some v → Quantized (fl (v * s)) w) (by
        intro k hk
        have hlt : i * 8 + k < x.length := by omega
        have hv := List.getElem?_eq_getElem hlt
        obtain ⟨w, e, q⟩ := laneInt8_ok hl (hx _ (List.mem_of_getElem? hv))
        refine ⟨x[i * 8 + k], w, hv, e, fun v hv' => ?_⟩
        rw [hv] at hv'
        cases hv'
        exact q) (by omega)
      refine ⟨o', e', by omega, fun j v hj hv => ?_⟩
      by_cases hji : j < i * 8
      · rw [h3 j (Or.inl hji)]
        exact hw j v hji hv
      · obtain ⟨w, hw', hP⟩ := h2 j (by omega) (by omega)
        exact ⟨w, hw', hP v hv⟩)
  rw [e1, Res.bind_ok]
  obtain ⟨o, e, h1, h2, h3⟩ := qfill_ok (fun v => toInt8 (fl (v * s))) x (x.length / 8 * 8) (x.length - x.length / 8 * 8) o1
    (fun i w => ∀ v, x[i]? = some v → Quantized (fl (v * s)) w) (by
    intro k hk
    have hlt : x.length / 8 * 8 + k < x.length := by omega
    have hv := List.getElem?_eq_getElem hlt
    obtain ⟨w, e, q⟩ := toInt8_ok (hx _ (List.mem_of_getElem? hv))
    refine ⟨x[x.length / 8 * 8 + k], w, hv, e, fun v hv' => ?_⟩
    rw [hv] at hv'
    cases hv'
    exact q) (by omega)
  refine ⟨o, e, by omega, fun i v hv => ?_⟩
  have hi := (List.getElem?_eq_some_iff.1 hv).1
  by_cases hi8 : i < x.length / 8 * 8
  · rw [h3 i (Or.inl hi8)]
    exact hw1 i v hi8 hv
  · obtain ⟨w, hw, hP⟩ := h2 i (by omega) (by omega)
    exact ⟨w, hw, hP v hv⟩

/-- several scales with groups of any size: what is written where -/
theorem quantizeGroups_ok (scales : List Rat) (x : List Rat) (size : Nat) (out : List Int) (ho : out.length = x.length)
    (hs : groupSize f x.length scales.length = .ok size) (hx : ∀ v ∈ x, ∀ s ∈ scales, FitsInt32 (fl (v * s))) :
    ∃ out', quantizeGroups f fl scales x x.length out = .ok out' ∧ out'.length = x.length ∧
      (∀ i v s, i < scales.length * size → x[i]? = some v → scales[i / size]? = some s → ∃ w, out'[i]? = some w ∧ Quantized (fl (v * s)) w) ∧
      ∀ i, scales.length * size ≤ i → out'[i]? = out[i]? := by
  unfold quantizeGroups
  rw [hs, Res.bind_ok]
  obtain ⟨⟨p, o⟩, e, hp, hl, hw, hr⟩ := loop_inv (f := fun (s : Nat × List Int) n => do
      let scale ← rd scales n
      quantizeGroup fl scale x x.length size s) (n := scales.length) (s := (0, out))
    (fun n s => s.1 = min x.length (n * size) ∧ s.2.length = x.length ∧
      (∀ i v sc, i < n * size → x[i]? = some v → scales[i / size]? = some sc → ∃ w, s.2[i]? = some w ∧ Quantized (fl (v * sc)) w) ∧
      ∀ i, n * size ≤ i → s.2[i]? = out[i]?) ⟨by simp, ho, fun i _ _ hi => by omega, fun _ _ => rfl⟩ (by
      rintro n ⟨p, o⟩ hn ⟨hp, hl, hw, hr⟩
      simp only at hp hl hw hr
      have hsc := List.getElem?_eq_getElem hn
      rw [rd_ok hsc, Res.bind_ok]
      unfold quantizeGroup
      simp only
      have e1 : (n + 1) * size = n * size + size := Nat.succ_mul _ _
      obtain ⟨o', e', h1, h2, h3⟩ := qfill_ok (fun v => toInt8 (fl (v * scales[n]))) x p (min (x.length - p) size) o
        (fun i w => ∀ v, x[i]? = some v → Quantized (fl (v * scales[n])) w) (by
        intro k hk
        have hlt : p + k < x.length := by omega
        have hv := List.getElem?_eq_getElem hlt
        obtain ⟨w, e, q⟩ := toInt8_ok (hx _ (List.mem_of_getElem? hv) _ (List.mem_of_getElem? hsc))
        refine ⟨x[p + k], w, hv, e, fun v hv' => ?_⟩
        rw [hv] at hv'
        cases hv'
        exact q) (by omega)
      rw [e', Res.bind_ok]
      refine ⟨_, rfl, by simp only; omega, by simp only; omega, fun i v sc hi hv hsc' => ?_, fun i hi => ?_⟩
      · have hix := (List.getElem?_eq_some_iff.1 hv).1
        by_cases hin : i < n * size
        · simp only
          rw [h3 i (Or.inl (by omega))]
          exact hw i v sc hin hv hsc'
        · have hq : i / size = n := by
            have hpos : 0 < size := by
              rcases Nat.eq_zero_or_pos size with h | h
              · subst h; omega
              · exact h
            rw [Nat.div_eq_iff hpos]
            constructor <;> [rw [Nat.mul_comm]; rw [Nat.mul_comm]] <;> (try rw [Nat.mul_comm size n]) <;> omega
          rw [hq, hsc] at hsc'
          cases hsc'
          obtain ⟨w, hw', hP⟩ := h2 i (by omega) (by omega)
          exact ⟨w, hw', hP v hv⟩
      · simp only
        rw [h3 i (by omega)]
        exact hr i (by omega))
  rw [e, Res.bind_ok]
  exact ⟨o, rfl, hl, hw, hr⟩

theorem groupSize_exact (hf : Binary32 f) {n m : Nat} (hn : 0 < n) (h : n * m < 16777216) : groupSize f (n * m) n = .ok m := by
  unfold groupSize
  rw [if_neg (by omega)]
  by_cases hm : m = 0
  · subst hm
    have h0 := hf.exact 0 (by norm_num)
    simp only [Int.cast_zero] at h0
    simp [h0]
  · have hnn : n < 16777216 := by nlinarith [Nat.pos_of_ne_zero hm]
    have hmm : m < 16777216 := by nlinarith
    have e1 := hf.exact ((n * m : Nat) : Int) (by rw [abs_of_nonneg (by omega)]; omega)
    have e2 := hf.exact (n : Int) (by rw [abs_of_nonneg (by omega)]; omega)
    have e3 := hf.exact (m : Int) (by rw [abs_of_nonneg (by omega)]; omega)
    rw [Int.cast_natCast] at e1 e2 e3
    rw [e1, e2]
    have hq : ((n * m : Nat) : Rat) / (n : Rat) = (m : Rat) := by
      have : (n : Rat) ≠ 0 := by exact_mod_cast (show n ≠ 0 by omega)
      push_cast
      field_simp
    rw [hq, e3]
    simp

/-- **C76** (quantisation). A FLOAT32 or FLOAT64 tensor of less than 2^24 elements, or any with one row, becomes an INT8 tensor of the same shape, in which the element at each
place is the eight bit value for the product of the operand's element and the scale of its row (with the vector instructions of SSE or AVX, or without any) -/
theorem C76_quantize (hf : Binary32 f) {l : Lanes} (hl : l ≠ .neon) (dtype : Nat) (hd : dtype = 10 ∨ dtype = 11) (n : Nat) (rest : List Nat) (scales x : List Rat)
    (fresh : Nat → List Int) (hfresh : ∀ k, (fresh k).length = k) (hn : 0 < n) (hs : scales.length = n) (hx : x.length = prod (n :: rest))
    (hc : n = 1 ∨ prod (n :: rest) < 16777216) (hfit : ∀ v ∈ x, ∀ s ∈ scales, FitsInt32 (rnd dtype (v * s))) :
    ∃ out, quantize f rnd l dtype (n :: rest) scales x fresh = .ok (n :: rest, out) ∧ out.length = prod (n :: rest) ∧
      ∀ b j v s, b < n → j < prod rest → x[b * prod rest + j]? = some v → scales[b]? = some s →
        ∃ w, out[b * prod rest + j]? = some w ∧ Quantized (rnd dtype (v * s)) w := by
  have hprod : prod (n :: rest) = n * prod rest := rfl
  have key : ∃ out, quantizeRun f rnd l dtype scales x (prod (n :: rest)) (fresh (prod (n :: rest))) = .ok out ∧ out.length = prod (n :: rest) ∧
      ∀ b j v s, b < n → j < prod rest → x[b * prod rest + j]? = some v → scales[b]? = some s →
        ∃ w, out[b * prod rest + j]? = some w ∧ Quantized (rnd dtype (v * s)) w := by
    rw [← hx]
    have hfl : (fresh x.length).length = x.length := hfresh _
    by_cases h1 : scales.length = 1
    · obtain ⟨s, rfl⟩ := List.length_eq_one_iff.1 h1
      have hn1 : n = 1 := by rw [← hs]; rfl
      have hone : ∀ out : List Int, (∀ (i : Nat) (v : Rat), x[i]? = some v → ∃ w, out[i]? = some w ∧ Quantized (rnd dtype (v * s)) w) →
          ∀ b j v s', b < n → j < prod rest → x[b * prod rest + j]? = some v → [s][b]? = some s' →
          ∃ w, out[b * prod rest + j]? = some w ∧ Quantized (rnd dtype (v * s')) w := by
        intro out h b j v s' hb _ hv hs'
        have : b = 0 := by omega
        subst this
        cases hs'
        exact h _ v hv
      rcases hd with rfl | rfl
      · obtain ⟨out, e, h2, h3⟩ := quantizeOneFloat_ok (fl := rnd 10) hl s x (fresh x.length) hfl (fun v hv => hfit v hv s (by simp))
        refine ⟨out, ?_, by omega, hone out h3⟩
        unfold quantizeRun
        rw [if_pos rfl]
        exact e
      · obtain ⟨out, e, h2, h3⟩ := quantizeOne_ok (fl := rnd 11) s x (fresh x.length) hfl (fun v hv => hfit v hv s (by simp))
        refine ⟨out, ?_, by omega, hone out h3⟩
        unfold quantizeRun
        rw [if_neg (by omega), if_pos rfl]
        exact e
    · have hlt : n * prod rest < 16777216 := by
        rcases hc with h | h
        · omega
        · rwa [hprod] at h
      have hg : groupSize f x.length scales.length = .ok (prod rest) := by
        rw [hx, hs, hprod]
        exact groupSize_exact hf hn hlt
      obtain ⟨out, e, h2, h3, -⟩ := quantizeGroups_ok (fl := rnd dtype) scales x (prod rest) (fresh x.length) hfl hg hfit
      refine ⟨out, ?_, by omega, fun b j v s hb hj hv hsb => ?_⟩
      · unfold quantizeRun
        rcases hd with rfl | rfl
        · rw [if_pos rfl]
          split
          · exact absurd rfl h1
          · exact e
        · rw [if_neg (by omega), if_pos rfl]
          split
          · exact absurd rfl h1
          · exact e
      · refine h3 _ v s ?_ hv ?_
        · rw [hs]; exact rc_lt hb hj
        · rw [Nat.mul_comm, Nat.mul_add_div (by omega), Nat.div_eq_of_lt hj, Nat.add_zero]
          exact hsb
  obtain ⟨out, e, h1, h2⟩ := key
  refine ⟨out, ?_, h1, h2⟩
  unfold quantize
  simp only
  rw [if_pos hs, e, Res.bind_ok]

/-- **C76** (what is refused, and what is not). Other types and another number of scales than rows are refused; a tensor without dimensions and one without rows are undefined -/
theorem C76_quantize_rejects (l : Lanes) (dtype : Nat) (scales x : List Rat) (fresh : Nat → List Int) :
    (∀ n rest, scales.length ≠ n → quantize f rnd l dtype (n :: rest) scales x fresh = .err) ∧
    (∀ n rest, dtype ≠ 10 → dtype ≠ 11 → quantize f rnd l dtype (n :: rest) scales x fresh = .err) ∧
    quantize f rnd l dtype [] scales x fresh = .ub ∧
    (∀ rest, dtype = 10 ∨ dtype = 11 → quantize f rnd l dtype (0 :: rest) [] x fresh = .ub) := by
  refine ⟨fun n rest h => ?_, fun n rest h1 h2 => ?_, rfl, fun rest h => ?_⟩
  · unfold quantize; simp only; rw [if_neg h]
  · unfold quantize quantizeRun
    simp only
    rw [if_neg h1, if_neg h2]
    by_cases h : scales.length = n
    · rw [if_pos h]; rfl
    · rw [if_neg h]
  · rcases h with rfl | rfl <;> rfl

end


/-- **C76** (large tensors). With the number of elements of a group computed in `float`, a tensor of two rows of 2^24 + 1 elements gets groups of 2^24: the last element of the first
row takes the scale of the second row, and the last two elements of the tensor are never written -/
theorem C76_groups_false (rnd : Nat → Rat → Rat) (l : Lanes) (s0 s1 : Rat) (x : List Rat) (fresh : Nat → List Int) (hx : x.length = 33554434)
    (hfresh : ∀ k, (fresh k).length = k) (hfit : ∀ v ∈ x, ∀ s ∈ [s0, s1], FitsInt32 (rnd 10 (v * s))) :
    ∃ out, quantize f32 rnd l 10 [2, 16777217] [s0, s1] x fresh = .ok ([2, 16777217], out) ∧
      (∀ v, x[16777216]? = some v → ∃ w, out[16777216]? = some w ∧ Quantized (rnd 10 (v * s1)) w) ∧
      out[33554432]? = (fresh 33554434)[33554432]? ∧ out[33554433]? = (fresh 33554434)[33554433]? := by
  have hg : groupSize f32 x.length [s0, s1].length = .ok 16777216 := by
    rw [hx]
    show groupSize f32 33554434 2 = .ok 16777216
    decide +kernel
  have hp : prod [2, 16777217] = x.length := by rw [hx]; rfl
  obtain ⟨out, e, -, h2, h3⟩ := quantizeGroups_ok (f := f32) (fl := rnd 10) [s0, s1] x 16777216 (fresh x.length) (hfresh _) hg hfit
  refine ⟨out, ?_, fun v hv => h2 16777216 v s1 (by simp) hv rfl, ?_, ?_⟩
  · unfold quantize
    simp only
    rw [if_pos (show [s0, s1].length = 2 from rfl), hp]
    unfold quantizeRun
    rw [if_pos rfl]
    show (quantizeGroups f32 (rnd 10) [s0, s1] x x.length (fresh x.length) >>= _) = _
    rw [e, Res.bind_ok]
  · rw [← hx]; exact h3 33554432 (by simp)
  · rw [← hx]; exact h3 33554433 (by simp)

example : ∃ out, quantize f32 (fun _ q => q) .sse 10 [2, 16777217] [1, 2] (List.replicate 33554434 3) (fun n => List.replicate n 0) = .ok ([2, 16777217], out) := by
  obtain ⟨out, e, -⟩ := C76_groups_false (fun _ q => q) .sse 1 2 (List.replicate 33554434 3) (fun n => List.replicate n 0) (List.length_replicate ..)
    (fun _ => List.length_replicate ..) (by
      intro v hv s hs
      rw [List.eq_of_mem_replicate hv]
      simp only [List.mem_cons, List.not_mem_nil, or_false] at hs
      unfold FitsInt32
      rcases hs with rfl | rfl <;> norm_num)
  exact ⟨out, e⟩

/-- **C76** (not so: the same everywhere). Halves are rounded to even by SSE and AVX but away from zero in the rest of fewer than eight elements; a number above the `int32_t` range
becomes -128; with NEON all are cut towards zero -/
theorem C76_lanes_false :
    quantize f32 (fun _ q => q) .sse 10 [1, 9] [1] (List.replicate 9 (1 / 2)) (fun n => List.replicate n 7) = .ok ([1, 9], [0, 0, 0, 0, 0, 0, 0, 0, 1]) ∧
    quantize f32 (fun _ q => q) .neon 10 [1, 9] [1] (List.replicate 9 (9 / 10)) (fun n => List.replicate n 7) = .ok ([1, 9], [0, 0, 0, 0, 0, 0, 0, 0, 1]) ∧
    quantize f32 (fun _ q => q) .sse 10 [1, 8] [1] (List.replicate 8 3000000000) (fun n => List.replicate n 7)
      = .ok ([1, 8], [-128, -128, -128, -128, -128, -128, -128, -128]) ∧
    quantize f32 (fun _ q => q) .sse 10 [1, 1] [1] [3000000000] (fun n => List.replicate n 7) = .ub := by decide +kernel

example : quantize f32 (fun _ q => q) .sse 10 [2, 3] [1, 10] [1 / 3, -200, 5 / 2, 1 / 3, -200, 13] (fun n => List.replicate n 7) = .ok ([2, 3], [0, -128, 3, 3, -128, 127]) := by
  decide +kernel

example : ∃ out, quantize f32 (fun _ q => q) .sse 10 [2, 1] [1, 10] [1 / 3, -200] (fun n => List.replicate n 7) = .ok ([2, 1], out) := by
  obtain ⟨out, e, -⟩ := C76_quantize f32_binary32 (rnd := fun _ q => q) (l := .sse) (by simp) 10 (Or.inl rfl) 2 [1] [1, 10] [1 / 3, -200] (fun n => List.replicate n 7)
    (by simp) (by simp) rfl rfl (Or.inr (by decide)) (by
      intro v hv s hs
      simp only [List.mem_cons, List.not_mem_nil, or_false] at hv hs
      unfold FitsInt32
      rcases hv with rfl | rfl <;> rcases hs with rfl | rfl <;> norm_num)
  exact ⟨out, e⟩

/-! ## Convolution -/

theorem sum_bound (u v : Nat → Int) (K : Nat) (hu : ∀ k, k < K → |u k| ≤ 128) (hv : ∀ k, k < K → |v k| ≤ 128) :
    |∑ k ∈ Finset.range K, u k * v k| ≤ (K : Int) * 16384 := by
  refine (Finset.abs_sum_le_sum_abs _ _).trans ?_
  calc ∑ k ∈ Finset.range K, |u k * v k| ≤ ∑ k ∈ Finset.range K, (16384 : Int) := by
        refine Finset.sum_le_sum fun k hk => ?_
        have hk := Finset.mem_range.1 hk
        rw [abs_mul]
        nlinarith [hu k hk, hv k hk, abs_nonneg (u k), abs_nonneg (v k)]
    _ = (K : Int) * 16384 := by simp

theorem i32_of_abs {x : Int} (h : |x| ≤ 2147483647) : int32 x = .ok x := by
  apply int32_ok
  rw [abs_le] at h
  unfold I32
  omega

theorem dotInt8_ok (K : Nat) (a : List Int) (oa : Nat) (b : List Int) (ob ldb : Nat) (u v : Nat → Int) (hK : K ≤ 131071)
    (ha : ∀ k, k < K → a[oa + k]? = some (u k)) (hb : ∀ k, k < K → b[ob + k * ldb]? = some (v k)) (hu : ∀ k, k < K → |u k| ≤ 128) (hv : ∀ k, k < K → |v k| ≤ 128) :
    dotInt8 K a oa b ob ldb = .ok (∑ k ∈ Finset.range K, u k * v k) := by
  unfold dotInt8
  obtain ⟨s, e, h⟩ := loop_inv (f := fun (s : Int) k => do
    let x ← rd a (oa + k)
    let y ← rd b (ob + k * ldb)
    int32 (s + x * y)) (n := K) (s := 0) (fun k s => s = ∑ k ∈ Finset.range k, u k * v k) (by simp) (by
      intro k s hk hs
      rw [rd_ok (ha k hk), Res.bind_ok, rd_ok (hb k hk), Res.bind_ok, hs, ← Finset.sum_range_succ (fun k => u k * v k), i32_of_abs]
      · exact ⟨_, rfl, rfl⟩
      · have := sum_bound u v (k + 1) (fun j hj => hu j (by omega)) (fun j hj => hv j (by omega))
        push_cast at this
        omega)
  rw [e, h]

theorem gemmInt8_ok (M N K : Nat) (a b dst : List Int) (hK : K ≤ 131071) (ha : M * K ≤ a.length) (hb : K * N ≤ b.length) (hd : dst.length = M * N)
    (hal : ∀ i, |a.getD i 0| ≤ 128) (hbl : ∀ i, |b.getD i 0| ≤ 128) :
    ∃ out, gemmInt8 M N K a b dst = .ok out ∧ out.length = M * N ∧
      ∀ i j, i < M → j < N → out[i * N + j]? = some (∑ k ∈ Finset.range K, a.getD (i * K + k) 0 * b.getD (k * N + j) 0) := by
  have get : ∀ (l : List Int) i, i < l.length → l[i]? = some (l.getD i 0) := fun l i h => by
    rw [List.getD_eq_getElem?_getD, List.getElem?_eq_getElem h]; rfl
  have dot : ∀ i j, i < M → j < N → dotInt8 K a (i * K) b j N = .ok (∑ k ∈ Finset.range K, a.getD (i * K + k) 0 * b.getD (k * N + j) 0) := by
    intro i j hi hj
    refine dotInt8_ok K a _ b _ _ _ (fun k => b.getD (k * N + j) 0) hK (fun k hk => get a _ ?_) (fun k hk => ?_) (fun k _ => hal _) (fun k _ => hbl _)
    · have := rc_lt hi hk; omega
    · rw [show j + k * N = k * N + j by omega]
      have := rc_lt hk hj
      exact get b _ (by omega)
  unfold gemmInt8
  obtain ⟨d0, e0, hl0, hz⟩ := loop_inv (f := fun (d : List Int) i => wr d i 0) (n := M * N) (s := dst)
    (fun k d => d.length = M * N ∧ ∀ i, i < k → d[i]? = some 0) ⟨hd, fun i h => by omega⟩ (by
      intro i d hi ⟨hl, hz⟩
      rw [wr_ok _ (by omega)]
      refine ⟨_, rfl, by simpa using hl, fun j hj => ?_⟩
      by_cases h : i = j
      · subst h; exact set_eq (by omega)
      · rw [set_ne h]; exact hz j (by omega))
  rw [e0, Res.bind_ok]
  obtain ⟨out, e, hl, hw, -⟩ := loop_inv (f := fun (d : List Int) i => loop (fun d j => do
    let s ← dotInt8 K a (i * K) b j N
    let c ← rd d (i * N + j)
    let c ← int32 (c + 1 * s)
    wr d (i * N + j) c) N d) (n := M) (s := d0)
    (fun m d => d.length = M * N ∧ (∀ i j, i < m → j < N → d[i * N + j]? = some (∑ k ∈ Finset.range K, a.getD (i * K + k) 0 * b.getD (k * N + j) 0)) ∧
      ∀ p, m * N ≤ p → p < M * N → d[p]? = some 0) ⟨hl0, fun i j h => by omega, fun p _ hp => hz p hp⟩ (by
      intro i d hi ⟨hl, hw, hz⟩
      obtain ⟨d', e', hl', hw', hz', hs'⟩ := loop_inv (f := fun (d : List Int) j => do
        let s ← dotInt8 K a (i * K) b j N
        let c ← rd d (i * N + j)
        let c ← int32 (c + 1 * s)
        wr d (i * N + j) c) (n := N) (s := d)
        (fun n d' => d'.length = M * N ∧ (∀ j, j < n → d'[i * N + j]? = some (∑ k ∈ Finset.range K, a.getD (i * K + k) 0 * b.getD (k * N + j) 0)) ∧
          (∀ p, i * N + n ≤ p → d'[p]? = d[p]?) ∧ ∀ p, p < i * N → d'[p]? = d[p]?) ⟨hl, fun j h => by omega, fun _ _ => rfl, fun _ _ => rfl⟩ (by
          intro j d' hj ⟨hl', hw', hz', hs'⟩
          have hlt := rc_lt hi hj
          have hc : d'[i * N + j]? = some 0 := by
            rw [hz' _ (Nat.le_refl _)]
            exact hz _ (by omega) hlt
          rw [dot i j hi hj, Res.bind_ok, rd_ok hc, Res.bind_ok, i32_of_abs, Res.bind_ok, wr_ok _ (by omega)]
          · refine ⟨_, rfl, by simpa using hl', fun j' hj' => ?_, fun p hp => ?_, fun p hp => ?_⟩
            · by_cases h : j = j'
              · subst h
                rw [set_eq (by omega)]
                simp
              · rw [set_ne (by omega)]
                exact hw' j' (by omega)
            · rw [set_ne (by omega)]
              exact hz' p (by omega)
            · rw [set_ne (by omega)]
              exact hs' p hp
          · have := sum_bound (fun k => a.getD (i * K + k) 0) (fun k => b.getD (k * N + j) 0) K (fun k _ => hal _) (fun k _ => hbl _)
            simp only [zero_add, one_mul]
            omega)
      refine ⟨d', e', hl', fun i' j hi' hj => ?_, fun p hp1 hp2 => ?_⟩
      · by_cases h : i' = i
        · subst h; exact hw' j hj
        · have : i' < i := by omega
          rw [hs' _ (by have := rc_lt this hj; omega)]
          exact hw i' j this hj
      · rw [Nat.succ_mul] at hp1
        rw [hz' p (by omega)]
        exact hz p (by omega) hp2)
  exact ⟨out, e, hl, hw⟩

/-- eight bit values -/
def Bytes (l : List Int) : Prop := ∀ v ∈ l, -128 ≤ v ∧ v ≤ 127

theorem bytes_getD {l : List Int} (h : Bytes l) (i : Nat) : |l.getD i 0| ≤ 128 := by
  rw [List.getD_eq_getElem?_getD]
  rcases e : l[i]? with _ | v
  · simp
  · have := h v (List.mem_of_getElem? e)
    rw [Option.getD_some, abs_le]
    omega

section
variable {κ : Type}

/-- what the loop over the channels writes, in any order of them -/
theorem dequantImage_ok (deq : Int → κ → κ) (scales : List κ) (acc : List Int) (o sp n : Nat) (order : List Nat) (p : Nat) (out : List κ)
    (hs : scales.length = o) (ho : ∀ c ∈ order, c < o) (ha : (n + 1) * (o * sp) ≤ acc.length) (hp : p + order.length * sp ≤ out.length) :
    ∃ out', dequantImage deq scales acc o sp n order (p, out) = .ok (p + order.length * sp, out') ∧ out'.length = out.length ∧
      (∀ k i c s v, i < sp → order[k]? = some c → scales[c]? = some s → acc[n * (o * sp) + c * sp + i]? = some v → out'[p + k * sp + i]? = some (deq v s)) ∧
      ∀ q, q < p ∨ p + order.length * sp ≤ q → out'[q]? = out[q]? := by
  induction order generalizing p out with
  | nil => exact ⟨out, by simp [dequantImage], rfl, fun k i c s v _ h => by simp at h, fun _ _ => rfl⟩
  | cons c cs ih =>
    have hc : c < o := ho c (by simp)
    rw [List.length_cons, Nat.succ_mul] at hp
    have hsc := List.getElem?_eq_getElem (show c < scales.length by omega)
    rw [Nat.succ_mul] at ha
    obtain ⟨o1, e1, hl1, hw1, hr1⟩ := qfill_ok (fun v => (.ok (deq v scales[c]) : Res κ)) (acc.drop (n * (o * sp) + c * sp)) 0 sp (out.drop p)
      (fun i w => ∀ v, acc[n * (o * sp) + c * sp + i]? = some v → w = deq v scales[c]) (by
        intro k hk
        have : n * (o * sp) + c * sp + k < acc.length := by
          have := rc_lt hc hk
          omega
        refine ⟨acc[n * (o * sp) + c * sp + k], _, by rw [Nat.zero_add, List.getElem?_drop]; exact List.getElem?_eq_getElem this, rfl, fun v hv => ?_⟩
        rw [Nat.zero_add, List.getElem?_eq_getElem this] at hv
        cases hv
        rfl) (by simp; omega)
    clear e1 hl1 hw1 hr1 o1
    obtain ⟨o1, e1, hl1, hw1, hr1⟩ := loop_inv (f := fun (out : List κ) i => do
        let v ← rd acc (n * (o * sp) + c * sp + i)
        wr out (p + i) (deq v scales[c])) (n := sp) (s := out)
      (fun k o' => o'.length = out.length ∧ (∀ i v, i < k → acc[n * (o * sp) + c * sp + i]? = some v → o'[p + i]? = some (deq v scales[c])) ∧
        ∀ q, q < p ∨ p + k ≤ q → o'[q]? = out[q]?) ⟨rfl, fun i v h => by omega, fun _ _ => rfl⟩ (by
        intro k o' hk ⟨hl, hw, hr⟩
        have hlt : n * (o * sp) + c * sp + k < acc.length := by
          have := rc_lt hc hk
          omega
        rw [rd_ok (List.getElem?_eq_getElem hlt), Res.bind_ok, wr_ok _ (by omega)]
        refine ⟨_, rfl, by simpa using hl, fun i v hi hv => ?_, fun q hq => ?_⟩
        · by_cases h : k = i
          · subst h
            rw [set_eq (by omega)]
            rw [List.getElem?_eq_getElem hlt] at hv
            cases hv
            rfl
          · rw [set_ne (by omega)]
            exact hw i v (by omega) hv
        · rw [set_ne (by omega)]
          exact hr q (by omega))
    obtain ⟨o2, e2, hl2, hw2, hr2⟩ := ih (p + sp) o1 (fun c hc => ho c (by simp [hc])) (by omega)
    refine ⟨o2, ?_, by omega, fun k i c' s v hi hk hsc' hv => ?_, fun q hq => ?_⟩
    · simp only [dequantImage, dequantChannel]
      rw [rd_ok hsc, Res.bind_ok, e1, Res.bind_ok, Res.bind_ok, e2]
      congr 2
      rw [List.length_cons, Nat.succ_mul]
      omega
    · cases k with
      | zero =>
        cases hk
        rw [hsc] at hsc'
        cases hsc'
        rw [hr2 _ (by omega), Nat.zero_mul, Nat.add_zero]
        exact hw1 i v hi hv
      | succ k =>
        rw [show p + (k + 1) * sp + i = p + sp + k * sp + i by rw [Nat.succ_mul]; omega]
        exact hw2 k i c' s v hi hk hsc' hv
    · rw [List.length_cons, Nat.succ_mul] at hq
      rw [hr2 q (by omega), hr1 q (by omega)]

theorem dequant_ok (deq : Int → κ → κ) (order : Nat → List Nat) (scales : List κ) (acc : List Int) (N o sp : Nat) (out : List κ)
    (hs : scales.length = o) (ho : ∀ n, (order n).length = o ∧ ∀ c ∈ order n, c < o) (ha : acc.length = N * (o * sp)) (hout : out.length = N * (o * sp)) :
    ∃ out', dequant deq order scales acc N o sp out = .ok out' ∧ out'.length = N * (o * sp) ∧
      ∀ n k i c s v, n < N → i < sp → (order n)[k]? = some c → scales[c]? = some s → acc[n * (o * sp) + c * sp + i]? = some v →
        out'[n * (o * sp) + k * sp + i]? = some (deq v s) := by
  unfold dequant
  obtain ⟨⟨p, o'⟩, e, hp, hl, hw⟩ := loop_inv (f := fun (s : Nat × List κ) n => dequantImage deq scales acc o sp n (order n) s) (n := N) (s := (0, out))
    (fun m s => s.1 = m * (o * sp) ∧ s.2.length = N * (o * sp) ∧
      ∀ n k i c sc v, n < m → i < sp → (order n)[k]? = some c → scales[c]? = some sc → acc[n * (o * sp) + c * sp + i]? = some v →
        s.2[n * (o * sp) + k * sp + i]? = some (deq v sc)) ⟨by simp, hout, fun n k i c sc v h => by omega⟩ (by
      rintro m ⟨p, o'⟩ hm ⟨hp, hl, hw⟩
      simp only at hp hl hw
      have hmN : (m + 1) * (o * sp) ≤ N * (o * sp) := Nat.mul_le_mul_right _ hm
      have hmN' := hmN
      rw [Nat.succ_mul] at hmN'
      obtain ⟨o2, e2, hl2, hw2, hr2⟩ := dequantImage_ok deq scales acc o sp m (order m) p o' hs (ho m).2 (by omega) (by rw [(ho m).1]; omega)
      refine ⟨_, e2, ?_, by simp only; omega, fun n k i c sc v hn hi hk hsc hv => ?_⟩
      · simp only
        rw [(ho m).1, hp, Nat.succ_mul]
      · simp only
        by_cases h : n = m
        · subst h
          have := hw2 k i c sc v hi hk hsc hv
          rwa [hp] at this
        · have hnm : n < m := by omega
          have hko : k < o := by rw [← (ho n).1]; exact (List.getElem?_eq_some_iff.1 hk).1
          rw [hr2 _ (Or.inl (by have h1 := rc_lt hnm (rc_lt hko hi); omega))]
          exact hw n k i c sc v hnm hi hk hsc hv)
  rw [e, Res.bind_ok]
  exact ⟨o', rfl, hl, hw⟩

/-- **C76** (convolution of quantised tensors, iterations in any order). For every geometry on which the formulas for the output size succeed, eight bit tensors, and kernels of
less than 131072 values, the result has the inferred extents. If `order` is the order in which the iterations of the loop over the output channels of an image are run,
then the values in the place of channel `k` are the sums of channel `order[k]`, times the scale of channel `order[k]` -/
theorem C76_conv_order (deq : Int → κ → κ) (order : Nat → List Nat) (g : ConvGeo) (padv : Rat) (x w : List Int) (scales : List κ) (init : Nat → List Int)
    (fresh : Nat → List κ) (oh ow : Nat) (hx : x.length = g.n * g.c * g.h * g.w) (hw : w.length = g.o * g.c * g.kh * g.kw)
    (hoh : convForward g.h g.top g.bottom g.kh g.sh g.dh = .ok (oh : Int)) (how : convForward g.w g.left g.right g.kw g.sw g.dw = .ok (ow : Int))
    (hinit : ∀ i, (init i).length = g.o * (oh * ow)) (hfresh : ∀ k, (fresh k).length = k) (hs : scales.length = g.o) (hbx : Bytes x) (hbw : Bytes w)
    (hpad : -128 ≤ truncQ padv ∧ truncQ padv ≤ 127) (hK : g.c * g.kh * g.kw ≤ 131071) (ho : ∀ n, (order n).length = g.o ∧ ∀ c ∈ order n, c < g.o) :
    ∃ out, quantConvRun deq order true 1 1 g padv x w scales init fresh = .ok ((oh, ow), out) ∧ out.length = g.n * g.o * oh * ow ∧
      ∀ n k c s i j, n < g.n → i < oh → j < ow → (order n)[k]? = some c → scales[c]? = some s →
        out[((n * g.o + k) * oh + i) * ow + j]? = some (deq (convSpec g (truncQ padv) x w n c i j) s) := by
  have hpv : ∃ pv : Int, quantPad g padv = .ok pv ∧ (-128 ≤ pv ∧ pv ≤ 127) ∧ (is1x1 g = false → pv = truncQ padv) := by
    by_cases h : is1x1 g = true
    · exact ⟨0, by unfold quantPad; rw [if_pos h], by omega, fun h' => by rw [h] at h'; cases h'⟩
    · refine ⟨truncQ padv, ?_, hpad, fun _ => rfl⟩
      unfold quantPad
      rw [if_neg h]
      unfold padInt8
      rw [if_pos]
      simp only [IntTy.has, IntTy.lo, IntTy.hi, int8]
      norm_num
      omega
  obtain ⟨pv, epv, hpvb, hpve⟩ := hpv
  have himg : ∀ n, n < g.n → ∃ out, quantImage g pv oh ow (x.drop (n * (g.c * g.h * g.w))) w (init n) = .ok out ∧ out.length = g.o * (oh * ow) ∧
      ∀ o i j, o < g.o → i < oh → j < ow → out[o * (oh * ow) + (i * ow + j)]? = some (convSpec g (truncQ padv) x w n o i j) := by
    intro n hn
    obtain ⟨col, e, hcl, hc⟩ := convCols g pv x n oh ow hx hn hoh how
    have hcol : ∀ i, |col.getD i 0| ≤ 128 := by
      intro i
      have hx' : Bytes (x.drop (n * (g.c * g.h * g.w))) := fun v hv => hbx v (List.mem_of_mem_drop hv)
      unfold convColumns at e
      by_cases h1 : is1x1 g = true
      · rw [if_pos h1] at e
        cases e
        exact bytes_getD hx' i
      · rw [if_neg h1] at e
        split at e
        · next l hl =>
          split at e
          · cases e
            refine bytes_getD (fun v hv => ?_) i
            unfold im2col at hl
            rw [hoh, Res.bind_ok, how, Res.bind_ok, if_neg (by omega), Int.toNat_natCast, Int.toNat_natCast] at hl
            have hf := forEach_ok (f := fun (c, kr, kc, i, j) => colAt g pv (x.drop (n * (g.c * g.h * g.w))) c kr kc i j) (g := fun (c, kr, kc, i, j) =>
              xpad g pv x n c (i * g.sh + kr * g.dh - g.top) (j * g.sw + kc * g.dw - g.left)) (l := colLoops g oh ow) (by
                rintro ⟨c, kr, kc, i, j⟩ hm
                unfold colLoops at hm
                simp only [List.mem_flatMap, List.mem_map, List.mem_range, Prod.mk.injEq] at hm
                obtain ⟨c', hc', _, _, _, _, _, _, _, _, rfl, rfl, rfl, rfl, rfl⟩ := hm
                exact colAt_ok g pv x n _ _ _ _ _ hx hn hc')
            rw [hf] at hl
            cases hl
            obtain ⟨⟨c, kr, kc, i, j⟩, -, rfl⟩ := List.mem_map.1 hv
            simp only
            unfold xpad
            split
            · have := bytes_getD hbx (((n * g.c + c) * g.h + (↑i * ↑g.sh + ↑kr * ↑g.dh - g.top).toNat) * g.w + (↑j * ↑g.sw + ↑kc * ↑g.dw - g.left).toNat)
              rw [List.getD_eq_getElem?_getD] at this ⊢
              generalize hq : x[((n * g.c + c) * g.h + (↑i * ↑g.sh + ↑kr * ↑g.dh - g.top).toNat) * g.w + (↑j * ↑g.sw + ↑kc * ↑g.dw - g.left).toNat]? = q
              cases q with
              | none => simp
              | some v => exact hbx v (List.mem_of_getElem? hq)
            · exact hpvb
          · cases e
        · next hne => exact absurd e (by intro h; exact hne _ h)
    obtain ⟨out, e2, el, hout⟩ := gemmInt8_ok g.o (oh * ow) (g.c * g.kh * g.kw) w col (init n) hK (by rw [hw]; apply le_of_eq; ring) hcl (hinit n)
      (bytes_getD hbw) hcol
    refine ⟨out, ?_, el, ?_⟩
    · unfold quantImage
      rw [e, Res.bind_ok]
      exact e2
    · intro o i j ho hi hj
      rw [hout o _ ho (rc_lt hi hj)]
      congr 1
      have hspec : convSpec g (truncQ padv) x w n o i j = convSpec g pv x w n o i j := by
        by_cases h1 : is1x1 g = true
        · unfold convSpec
          refine Finset.sum_congr rfl fun c _ => Finset.sum_congr rfl fun kr hkr => Finset.sum_congr rfl fun kc hkc => ?_
          congr 1
          simp only [is1x1, Bool.and_eq_true, beq_iff_eq] at h1
          obtain ⟨⟨⟨⟨⟨⟨⟨a1, a2⟩, a3⟩, a4⟩, a5⟩, a6⟩, a7⟩, a8⟩ := h1
          have unit : ∀ (y d : Nat) (r : Int), convForward y 0 0 1 1 d = .ok r → r = y := by
            intro y d r hr
            unfold convForward dilatedKernel div32 at hr
            simp only [Res.bind_eq_ok, int32_eq_ok, if_neg (by decide : ¬ (1 : Int) = 0)] at hr
            obtain ⟨_, ⟨_, rfl⟩, _, ⟨_, rfl⟩, _, ⟨_, ⟨_, rfl⟩, _, ⟨_, rfl⟩, _, rfl⟩, _, ⟨_, rfl⟩, _, ⟨_, rfl⟩, _, hr⟩ := hr
            rw [hr]; simp
          have ho' : oh = g.h := by rw [a5, a6, a3, a1] at hoh; have := unit g.h g.dh _ hoh; omega
          have hw' : ow = g.w := by rw [a7, a8, a4, a2] at how; have := unit g.w g.dw _ how; omega
          have hkr0 : kr = 0 := by have := Finset.mem_range.1 hkr; omega
          have hkc0 : kc = 0 := by have := Finset.mem_range.1 hkc; omega
          subst hkr0 hkc0
          have e1 : (i : Int) * g.sh + ((0 : Nat) : Int) * g.dh - g.top = i := by rw [a1, a5]; simp
          have e2 : (j : Int) * g.sw + ((0 : Nat) : Int) * g.dw - g.left = j := by rw [a2, a7]; simp
          rw [e1, e2]
          unfold xpad
          rw [if_pos (by omega), if_pos (by omega)]
        · rw [hpve (by simpa using h1)]
      rw [hspec]
      unfold convSpec
      rw [sum_range_mul, sum_range_mul]
      refine Finset.sum_congr rfl fun c hc' => Finset.sum_congr rfl fun kr hkr => Finset.sum_congr rfl fun kc hkc => ?_
      rw [Finset.mem_range] at hc' hkr hkc
      rw [hc c kr kc i j hc' hkr hkc hi hj]
      congr 2
      ring
  choose! f hf1 hf2 hf3 using himg
  have hacc : ((List.range g.n).flatMap f).length = g.n * (g.o * (oh * ow)) := (flatMap_get _ _ _ hf2).1
  obtain ⟨out, eo, hl, ho'⟩ := dequant_ok deq order scales ((List.range g.n).flatMap f) g.n g.o (oh * ow) (fresh (g.n * g.o * (oh * ow))) hs ho hacc
    (by rw [hfresh]; ring)
  refine ⟨out, ?_, by rw [hl]; ring, ?_⟩
  · unfold quantConvRun
    rw [if_pos ⟨rfl, rfl, hs⟩, hoh, Res.bind_ok, how, Res.bind_ok, if_neg (by omega), if_pos rfl]
    simp only [Int.toNat_natCast]
    rw [epv, Res.bind_ok, forEach_ok (g := f) (fun n hn => hf1 n (by simpa using hn)), Res.bind_ok, ← List.flatMap_def, eo, Res.bind_ok]
  · intro n k c s i j hn hi hj hk hsc
    rw [show ((n * g.o + k) * oh + i) * ow + j = n * (g.o * (oh * ow)) + k * (oh * ow) + (i * ow + j) by ring]
    have hc : c < g.o := (ho n).2 c (List.mem_of_getElem? hk)
    refine ho' n k (i * ow + j) c s _ hn (rc_lt hi hj) hk hsc ?_
    rw [show n * (g.o * (oh * ow)) + c * (oh * ow) + (i * ow + j) = n * (g.o * (oh * ow)) + (c * (oh * ow) + (i * ow + j)) by ring,
      (flatMap_get _ _ _ hf2).2 n _ hn (rc_lt hc (rc_lt hi hj))]
    exact hf3 n hn c i j hc hi hj

/-- **C76** (convolution of quantised tensors, without OpenMP or with one thread): every element is the defining sum, computed in integers, times the scale of its channel -/
theorem C76_conv (deq : Int → κ → κ) (g : ConvGeo) (padv : Rat) (x w : List Int) (scales : List κ) (init : Nat → List Int)
    (fresh : Nat → List κ) (oh ow : Nat) (hx : x.length = g.n * g.c * g.h * g.w) (hw : w.length = g.o * g.c * g.kh * g.kw)
    (hoh : convForward g.h g.top g.bottom g.kh g.sh g.dh = .ok (oh : Int)) (how : convForward g.w g.left g.right g.kw g.sw g.dw = .ok (ow : Int))
    (hinit : ∀ i, (init i).length = g.o * (oh * ow)) (hfresh : ∀ k, (fresh k).length = k) (hs : scales.length = g.o) (hbx : Bytes x) (hbw : Bytes w)
    (hpad : -128 ≤ truncQ padv ∧ truncQ padv ≤ 127) (hK : g.c * g.kh * g.kw ≤ 131071) :
    ∃ out, quantConvRun deq (fun _ => List.range g.o) true 1 1 g padv x w scales init fresh = .ok ((oh, ow), out) ∧ out.length = g.n * g.o * oh * ow ∧
      ∀ n o s i j, n < g.n → o < g.o → i < oh → j < ow → scales[o]? = some s →
        out[((n * g.o + o) * oh + i) * ow + j]? = some (deq (convSpec g (truncQ padv) x w n o i j) s) := by
  obtain ⟨out, e, hl, h⟩ := C76_conv_order deq (fun _ => List.range g.o) g padv x w scales init fresh oh ow hx hw hoh how hinit hfresh hs hbx hbw hpad hK
    (fun _ => ⟨by simp, fun c hc => by simpa using hc⟩)
  exact ⟨out, e, hl, fun n o s i j hn ho hi hj hsc => h n o o s i j hn hi hj (by simp [ho]) hsc⟩

/-- **C76** (what is refused): tensors that are not INT8, another number of scales than channels, and the NHWC layout (if its output size can be computed) -/
theorem C76_conv_rejects (deq : Int → κ → κ) (order : Nat → List Nat) (nchw : Bool) (xd wd : Nat) (g : ConvGeo) (padv : Rat) (x w : List Int) (scales : List κ)
    (init : Nat → List Int) (fresh : Nat → List κ) :
    (xd ≠ 1 ∨ wd ≠ 1 ∨ scales.length ≠ g.o → quantConvRun deq order nchw xd wd g padv x w scales init fresh = .err) ∧
    (∀ oh ow : Nat, convForward g.h g.top g.bottom g.kh g.sh g.dh = .ok (oh : Int) → convForward g.w g.left g.right g.kw g.sw g.dw = .ok (ow : Int) →
      quantConvRun deq order false xd wd g padv x w scales init fresh = .err) := by
  refine ⟨fun h => ?_, fun oh ow h1 h2 => ?_⟩
  · unfold quantConvRun
    rw [if_neg (by omega)]
  · unfold quantConvRun
    by_cases h : xd = wd ∧ xd = 1 ∧ scales.length = g.o
    · rw [if_pos h, h1, Res.bind_ok, h2, Res.bind_ok, if_neg (by omega), if_neg (by simp)]
    · rw [if_neg h]

end

/-- two images of 2 x 1 pixels with one channel, two 1 x 1 kernels -/
def quantEx : ConvGeo := { n := 2, c := 1, h := 1, w := 2, o := 2, kh := 1, kw := 1, top := 0, bottom := 0, left := 0, right := 0, sh := 1, sw := 1, dh := 1, dw := 1 }

/-- a 2 x 2 kernel with padding on the left -/
def quantEx2 : ConvGeo := { n := 1, c := 1, h := 2, w := 2, o := 1, kh := 2, kw := 2, top := 0, bottom := 0, left := 1, right := 0, sh := 1, sw := 1, dh := 1, dw := 1 }

/-- **C76** (not so: any order of the iterations). The iterations of the loop over the channels, which is an OpenMP loop, share the pointer to the output; when they are not run in
ascending order the channels are exchanged -/
theorem C76_openmp_false :
    quantConvRun (fun v (s : Rat) => v * s) (fun _ => [0, 1]) true 1 1 quantEx 0 [1, 2, 3, 4] [10, -10] [1, 1 / 2] (fun _ => [0, 0, 0, 0]) (fun n => List.replicate n 0)
      = .ok ((1, 2), [10, 20, -5, -10, 30, 40, -15, -20]) ∧
    quantConvRun (fun v (s : Rat) => v * s) (fun _ => [1, 0]) true 1 1 quantEx 0 [1, 2, 3, 4] [10, -10] [1, 1 / 2] (fun _ => [0, 0, 0, 0]) (fun n => List.replicate n 0)
      = .ok ((1, 2), [-5, -10, 10, 20, -15, -20, 30, 40]) := by decide +kernel

example : ∃ out, quantConvRun (fun v (s : Rat) => v * s) (fun _ => List.range 1) true 1 1 quantEx2 (-5 / 2) [1, 2, 3, 4] [1, 2, 3, -100] [1 / 4] (fun _ => [9, 9])
    (fun n => List.replicate n 0) = .ok ((1, 2), out) ∧ out[0]? = some (((1 * -2 + 2 * 1 + 3 * -2 + -100 * 3 : Int) : Rat) * (1 / 4)) := by
  obtain ⟨out, e, -, h⟩ := C76_conv (fun v (s : Rat) => v * s) quantEx2 (-5 / 2) [1, 2, 3, 4] [1, 2, 3, -100] [1 / 4] (fun _ => [9, 9])
    (fun n => List.replicate n 0) 1 2 rfl rfl (by decide) (by decide) (fun _ => rfl) (by simp) rfl (by unfold Bytes; decide) (by unfold Bytes; decide) (by decide +kernel)
    (by decide)
  refine ⟨out, e, ?_⟩
  have := h 0 0 (1 / 4) 0 0 (by decide) (by decide) (by decide) (by decide) rfl
  rw [show ((0 * quantEx2.o + 0) * 1 + 0) * 2 + 0 = 0 from rfl] at this
  rw [this]
  decide +kernel

/-- **C76** (not so: large kernels). A sum of 131072 products or more can leave `int`: with all values -128 it is undefined, for every such number of channels -/
theorem C76_overflow_false {κ : Type} (deq : Int → κ → κ) (order : Nat → List Nat) (c : Nat) (hc : 131072 ≤ c) (padv : Rat) (s : κ) (fresh : Nat → List κ) :
    quantConvRun deq order true 1 1 { n := 1, c := c, h := 1, w := 1, o := 1, kh := 1, kw := 1, top := 0, bottom := 0, left := 0, right := 0, sh := 1, sw := 1, dh := 1, dw := 1 }
      padv (List.replicate c (-128)) (List.replicate c (-128)) [s] (fun _ => [0]) fresh = .ub := by
  have hdot : dotInt8 c (List.replicate c (-128)) 0 (List.replicate c (-128)) 0 1 = .ub := by
    have hget : ∀ i, i < c → rd (List.replicate c (-128 : Int)) i = .ok (-128) := fun i hi => rd_ok (by rw [List.getElem?_replicate, if_pos hi])
    unfold dotInt8
    simp only [Nat.zero_add, Nat.mul_one]
    refine loop_ub (k := 131071) (fun k s => s = (k : Int) * 16384) (by simp) (by omega) ?_ ?_
    · intro i s' hi hs'
      rw [hget i (by omega), Res.bind_ok, Res.bind_ok, hs', i32_of_abs]
      · exact ⟨_, rfl, by push_cast; ring⟩
      · rw [abs_of_nonneg (by omega)]; omega
    · intro s' hs'
      rw [hget 131071 (by omega), Res.bind_ok, Res.bind_ok, hs']
      rfl
  unfold quantConvRun
  rw [if_pos ⟨rfl, rfl, rfl⟩]
  have h1 : convForward ((1 : Nat) : Int) 0 0 ((1 : Nat) : Int) ((1 : Nat) : Int) ((1 : Nat) : Int) = .ok 1 := by decide
  show (convForward ((1 : Nat) : Int) 0 0 ((1 : Nat) : Int) ((1 : Nat) : Int) ((1 : Nat) : Int) >>= fun oh =>
    convForward ((1 : Nat) : Int) 0 0 ((1 : Nat) : Int) ((1 : Nat) : Int) ((1 : Nat) : Int) >>= _) = _
  rw [h1, Res.bind_ok, Res.bind_ok, if_neg (by decide), if_pos rfl]
  unfold quantPad
  have h2 : is1x1 { n := 1, c := c, h := 1, w := 1, o := 1, kh := 1, kw := 1, top := 0, bottom := 0, left := 0, right := 0, sh := 1, sw := 1, dh := 1, dw := 1 } = true := rfl
  rw [if_pos h2, Res.bind_ok]
  have h3 : quantImage { n := 1, c := c, h := 1, w := 1, o := 1, kh := 1, kw := 1, top := 0, bottom := 0, left := 0, right := 0, sh := 1, sw := 1, dh := 1, dw := 1 } 0
      (Int.toNat 1) (Int.toNat 1) ((List.replicate c (-128)).drop (0 * (c * 1 * 1))) (List.replicate c (-128)) [0] = .ub := by
    unfold quantImage convColumns
    rw [if_pos h2, Res.bind_ok]
    simp only [Nat.mul_one, Nat.zero_mul, List.drop_zero]
    unfold gemmInt8
    show (loop (fun d j => dotInt8 c (List.replicate c (-128)) (0 * c) (List.replicate c (-128)) j 1 >>= _) 1 [0]) = .ub
    show (dotInt8 c (List.replicate c (-128)) (0 * c) (List.replicate c (-128)) 0 1 >>= _) = .ub
    rw [Nat.zero_mul, hdot]
    rfl
  show ((forEach _ [0]) >>= _) = _
  unfold forEach
  rw [h3]
  rfl

end Verif.Props
