import Verif.Kernels.ChannelLemmas
import Verif.Props.Reduce
import Mathlib.Analysis.SpecialFunctions.Pow.Real
/-!
# C51: operators with one coefficient per channel

A tensor of shape `s` is a function of coordinates; `Holds s data f` says that `data` is its row-major content
(Verif/Core/Holds.lean). The channel dimension splits the shape as `pre ++ a :: post`, so the channel of the coordinate `c` is
`c.getD pre.length 0`. A tensor of coefficients is given by a function of the channel.
-/
namespace Verif.Props
open Verif.Core Verif.Spec Verif.Kernels

variable {α : Type}

/-- the tensor of one coefficient per channel -/
def perChannel (dtype a : Nat) (g : Nat → α) : Operand α := ⟨dtype, [a], (List.range a).map g⟩
/-- the channel of a coordinate when the channels are after `n` dimensions -/
def channel (n : Nat) (c : List Nat) : Nat := c.getD n 0

theorem rd_perChannel {dtype a k : Nat} (g : Nat → α) (h : k < a) : rd (perChannel dtype a g).data k = .ok (g k) :=
  rd_ok (by simp [perChannel, h])

theorem isChannel_per (dtype a : Nat) (pre post : List Nat) (data : List α) (g : Nat → α) :
    isChannel (⟨dtype, pre ++ a :: post, data⟩ : Operand α) pre.length (perChannel dtype a g) = true := by
  simp [isChannel, perChannel]

/-- the common part -/
theorem chanRun_ok (dtype a : Nat) (pre post : List Nat) (data dst : List α) (f : List Nat → α) (cs : List (Operand α))
    (coef : Nat → Res (Elem α)) (G : Nat → Elem α) (ht : plainType dtype = true)
    (hx : Holds (pre ++ a :: post) data f) (hdst : dst.length = prod (pre ++ a :: post))
    (hcs : cs.all (isChannel ⟨dtype, pre ++ a :: post, data⟩ pre.length) = true)
    (hc : ∀ k, k < a → coef k = .ok (G k))
    (hG : dtype = 10 → ∀ c, InBounds (pre ++ a :: post) c →
      (G (channel pre.length c)).lane (f c) = (G (channel pre.length c)).one (f c)) :
    ∃ out, chanRun pre.length ⟨dtype, pre ++ a :: post, data⟩ cs coef dst = .ok (pre ++ a :: post, out) ∧
      Holds (pre ++ a :: post) out fun c => (G (channel pre.length c)).one (f c) := by
  have hx' := holds_axis.1 hx
  have hch : ∀ n i t, n < prod pre → channel pre.length (unlin pre n ++ i :: unlin post t) = i := by
    intro n i t hn
    have := (unlin_inBounds hn).length
    unfold channel
    rw [← this]
    exact getD_mid _ _ _
  have hin : ∀ n i t, n < prod pre → i < a → t < prod post →
      InBounds (pre ++ a :: post) (unlin pre n ++ i :: unlin post t) := by
    intro n i t hn hi ht
    exact (inBounds_append (unlin_inBounds hn).length).2 ⟨unlin_inBounds hn, hi, unlin_inBounds ht⟩
  unfold chanRun
  simp only [hcs, ht, if_true, Int.toNat_natCast, take_mid, drop_mid, getD_mid]
  rw [if_neg (by omega), if_neg (by simp)]
  by_cases h10 : dtype = 10
  · rw [if_pos h10]
    obtain ⟨out, e, el, ev⟩ := chanFloat_ok coef G data dst (prod pre) a (prod post)
      (fun n i t => f (unlin pre n ++ i :: unlin post t)) hc (by rw [hdst, prod_mid']) hx'.2
    refine ⟨out, by rw [e]; rfl, holds_axis.2 ⟨el, fun n i t hn hi ht' => ?_⟩⟩
    rw [ev n i t hn hi ht', hch n i t hn]
    congr 1
    have := hG h10 _ (hin n i t hn hi ht')
    rw [hch n i t hn] at this
    split
    · exact this
    · rfl
  · rw [if_neg h10]
    obtain ⟨out, e, el, ev⟩ := chanGeneric_ok coef G data (prod pre) a (prod post)
      (fun n i t => f (unlin pre n ++ i :: unlin post t)) hc hx'.1 hx'.2
    refine ⟨out, by rw [e]; rfl, holds_axis.2 ⟨el, fun n i t hn hi ht' => ?_⟩⟩
    rw [ev n i t hn hi ht', hch n i t hn]

/-! ## add_bias -/

/-- **C51, add_bias.** For every tensor and every dimension of it, the result has the shape of the tensor and each element is the
element plus the bias of its channel. -/
theorem C51_add_bias (A : Arith α) (dtype a : Nat) (pre post : List Nat) (data dst : List α) (f : List Nat → α)
    (bias : Nat → α) (ht : plainType dtype = true) (hx : Holds (pre ++ a :: post) data f)
    (hdst : dst.length = prod (pre ++ a :: post)) :
    ∃ out, addBiasRun A pre.length ⟨dtype, pre ++ a :: post, data⟩ (perChannel dtype a bias) dst =
        .ok (pre ++ a :: post, out) ∧
      Holds (pre ++ a :: post) out fun c => A.add (f c) (bias (channel pre.length c)) := by
  refine chanRun_ok dtype a pre post data dst f _ _ (fun k => both fun e => A.add e (bias k)) ht hx hdst
    (by simp [isChannel_per]) (fun k hk => by simp [rd_perChannel bias hk]) (fun _ _ _ => rfl)

example : addBiasRun toyArith 1 ⟨10, [1, 2, 5], [1, 2, 3, 4, 5, 6, 7, 8, 9, 10]⟩ ⟨10, [2], [10, 20]⟩ (List.replicate 10 0) =
    .ok ([1, 2, 5], [11, 12, 13, 14, 15, 26, 27, 28, 29, 30]) := by decide

/-- **C51, add_bias, which dimension.** It is the dimension given, or else that of `C` in the format. With neither, or another
format, the operator refuses. -/
theorem C51_add_bias_dim (dim : Option Int) :
    addBiasDim (some "NCHW") dim = .ok (dim.getD 1) ∧ addBiasDim (some "NHWC") dim = .ok (dim.getD 3) ∧
      (∀ d, addBiasDim none (some d) = .ok d) ∧ addBiasDim none none = .err ∧
      ∀ f, f ≠ "NCHW" → f ≠ "NHWC" → addBiasDim (some f) dim = .err := by
  refine ⟨rfl, rfl, fun _ => rfl, rfl, fun f h1 h2 => ?_⟩
  unfold addBiasDim
  simp [h1, h2]

/-- the letter at the dimension used for a format is `C` -/
example : "NCHW".toList[1]? = some 'C' ∧ "NHWC".toList[3]? = some 'C' := by decide

/-! ## batch_norm and batch_scale -/

/-- **C51, batch_norm.** Each element is its difference from the mean of its channel, times the inverse root of the variance of its
channel plus epsilon. -/
theorem C51_batch_norm (A : Arith α) (rsqrt : α → α) (eps : α) (dtype a : Nat) (pre post : List Nat) (data dst : List α)
    (f : List Nat → α) (mean variance : Nat → α) (ht : plainType dtype = true) (hx : Holds (pre ++ a :: post) data f)
    (hdst : dst.length = prod (pre ++ a :: post)) :
    ∃ out, batchNormRun A rsqrt eps pre.length ⟨dtype, pre ++ a :: post, data⟩ (perChannel dtype a mean)
        (perChannel dtype a variance) dst = .ok (pre ++ a :: post, out) ∧
      Holds (pre ++ a :: post) out fun c => A.mul (A.sub (f c) (mean (channel pre.length c)))
        (rsqrt (A.add (variance (channel pre.length c)) eps)) := by
  refine chanRun_ok dtype a pre post data dst f _ _
    (fun k => both fun e => A.mul (A.sub e (mean k)) (rsqrt (A.add (variance k) eps))) ht hx hdst
    (by simp [isChannel_per]) (fun k hk => ?_) (fun _ _ _ => rfl)
  have : rd (invStd A rsqrt eps (perChannel dtype a variance).data) k = .ok (rsqrt (A.add (variance k) eps)) :=
    rd_ok (by simp [invStd, perChannel, hk])
  simp [rd_perChannel mean hk, this]

/-- **C51, batch_norm over the reals.** The element at `c` is `(x − μ) / √(σ² + ε)`. -/
theorem C51_batch_norm_real (eps : ℝ) (dtype a : Nat) (pre post : List Nat) (data dst : List ℝ)
    (f : List Nat → ℝ) (mean variance : Nat → ℝ) (ht : plainType dtype = true) (hx : Holds (pre ++ a :: post) data f)
    (hdst : dst.length = prod (pre ++ a :: post)) :
    ∃ out, batchNormRun realArith (fun v => 1 / Real.sqrt v) eps pre.length ⟨dtype, pre ++ a :: post, data⟩
        (perChannel dtype a mean) (perChannel dtype a variance) dst = .ok (pre ++ a :: post, out) ∧
      Holds (pre ++ a :: post) out fun c =>
        (f c - mean (channel pre.length c)) / Real.sqrt (variance (channel pre.length c) + eps) := by
  obtain ⟨out, e, h⟩ := C51_batch_norm realArith (fun v => 1 / Real.sqrt v) eps dtype a pre post data dst f mean variance ht hx hdst
  refine ⟨out, e, ?_⟩
  convert h using 2 with c
  show _ = (f c - _) * (1 / Real.sqrt _)
  rw [mul_one_div]
  rfl

/-- **C51, batch_scale.** Each element is itself times the scale of its channel, plus the bias of its channel. -/
theorem C51_batch_scale (A : Arith α) (dtype a : Nat) (pre post : List Nat) (data dst : List α)
    (f : List Nat → α) (scale bias : Nat → α) (ht : plainType dtype = true) (hx : Holds (pre ++ a :: post) data f)
    (hdst : dst.length = prod (pre ++ a :: post)) :
    ∃ out, batchScaleRun A pre.length ⟨dtype, pre ++ a :: post, data⟩ (perChannel dtype a scale)
        (perChannel dtype a bias) dst = .ok (pre ++ a :: post, out) ∧
      Holds (pre ++ a :: post) out fun c => A.add (A.mul (f c) (scale (channel pre.length c))) (bias (channel pre.length c)) := by
  refine chanRun_ok dtype a pre post data dst f _ _ (fun k => both fun e => A.add (A.mul e (scale k)) (bias k)) ht hx hdst
    (by simp [isChannel_per]) (fun k hk => by simp [rd_perChannel scale hk, rd_perChannel bias hk]) (fun _ _ _ => rfl)

example : batchNormRun toyArith (fun v => v) 0 1 ⟨5, [2, 2, 1], [1, 2, 3, 4]⟩ ⟨5, [2], [1, 1]⟩ ⟨5, [2], [5, 7]⟩ [0, 0, 0, 0] =
    .ok ([2, 2, 1], [0, 7, 10, 21]) := by decide
example : batchScaleRun toyArith 0 ⟨10, [2, 5], [1, 2, 3, 4, 5, 6, 7, 8, 9, 10]⟩ ⟨10, [2], [1, 10]⟩ ⟨10, [2], [0, 3]⟩
    (List.replicate 10 0) = .ok ([2, 5], [1, 2, 3, 4, 5, 63, 73, 83, 93, 103]) := by decide

/-! ## fused_batch_norm -/

/-- **C51, fused_batch_norm.** Each element is normalised and then scaled, with the coefficients of its channel. -/
theorem C51_fused (A : Arith α) (rsqrt : α → α) (eps : α) (dtype a : Nat) (pre post : List Nat) (data dst : List α)
    (f : List Nat → α) (mean variance scale bias : Nat → α) (ht : plainType dtype = true)
    (hx : Holds (pre ++ a :: post) data f) (hdst : dst.length = prod (pre ++ a :: post)) :
    ∃ out, fusedRun A rsqrt eps pre.length ⟨dtype, pre ++ a :: post, data⟩ (perChannel dtype a mean)
        (perChannel dtype a variance) (perChannel dtype a scale) (perChannel dtype a bias) dst = .ok (pre ++ a :: post, out) ∧
      Holds (pre ++ a :: post) out fun c => A.add (A.mul (A.mul (A.sub (f c) (mean (channel pre.length c)))
        (rsqrt (A.add (variance (channel pre.length c)) eps))) (scale (channel pre.length c))) (bias (channel pre.length c)) := by
  refine chanRun_ok dtype a pre post data dst f _ _
    (fun k => both fun e => A.add (A.mul (A.mul (A.sub e (mean k)) (rsqrt (A.add (variance k) eps))) (scale k)) (bias k)) ht hx hdst
    (by simp [isChannel_per]) (fun k hk => ?_) (fun _ _ _ => rfl)
  have : rd (invStd A rsqrt eps (perChannel dtype a variance).data) k = .ok (rsqrt (A.add (variance k) eps)) :=
    rd_ok (by simp [invStd, perChannel, hk])
  simp [rd_perChannel mean hk, rd_perChannel scale hk, rd_perChannel bias hk, this]

/-- two contents of the same tensor are the same -/
theorem holds_unique {s : List Nat} {d1 d2 : List α} {f : List Nat → α} (h1 : Holds s d1 f) (h2 : Holds s d2 f) : d1 = d2 := by
  rw [h1.eq_map, h2.eq_map]

/-- **C51, fusion is exact.** In every arithmetic, whatever its rounding, fused_batch_norm gives the very elements that batch_norm
followed by batch_scale gives, whatever the destinations held. -/
theorem C51_fused_eq (A : Arith α) (rsqrt : α → α) (eps : α) (dtype a : Nat) (pre post : List Nat)
    (data d1 d2 d3 : List α) (f : List Nat → α) (mean variance scale bias : Nat → α) (ht : plainType dtype = true)
    (hx : Holds (pre ++ a :: post) data f) (h1 : d1.length = prod (pre ++ a :: post))
    (h2 : d2.length = prod (pre ++ a :: post)) (h3 : d3.length = prod (pre ++ a :: post)) :
    fusedRun A rsqrt eps pre.length ⟨dtype, pre ++ a :: post, data⟩ (perChannel dtype a mean)
        (perChannel dtype a variance) (perChannel dtype a scale) (perChannel dtype a bias) d1 =
      (batchNormRun A rsqrt eps pre.length ⟨dtype, pre ++ a :: post, data⟩ (perChannel dtype a mean)
        (perChannel dtype a variance) d2).bind fun r =>
          batchScaleRun A pre.length ⟨dtype, r.1, r.2⟩ (perChannel dtype a scale) (perChannel dtype a bias) d3 := by
  obtain ⟨o1, e1, r1⟩ := C51_fused A rsqrt eps dtype a pre post data d1 f mean variance scale bias ht hx h1
  obtain ⟨o2, e2, r2⟩ := C51_batch_norm A rsqrt eps dtype a pre post data d2 f mean variance ht hx h2
  obtain ⟨o3, e3, r3⟩ := C51_batch_scale A dtype a pre post o2 d3 _ scale bias ht r2 h3
  rw [e1, e2]
  show _ = batchScaleRun A pre.length ⟨dtype, pre ++ a :: post, o2⟩ (perChannel dtype a scale) (perChannel dtype a bias) d3
  rw [e3, holds_unique r1 r3]

example : fusedRun toyArith (fun v => v) 1 1 ⟨5, [2, 2, 1], [1, 2, 3, 4]⟩ ⟨5, [2], [1, 1]⟩ ⟨5, [2], [4, 6]⟩ ⟨5, [2], [2, 1]⟩
    ⟨5, [2], [1, 0]⟩ [0, 0, 0, 0] = .ok ([2, 2, 1], [1, 7, 21, 21]) := by decide

/-! ## prelu -/

/-- an element compares with zero in exactly one way -/
def Trichotomous (A : Arith α) (e : α) : Prop :=
  (A.gt e A.zero = true ∧ A.gt A.zero e = false) ∨ (A.gt e A.zero = false ∧ A.gt A.zero e = true) ∨ e = A.zero

/-- **C51, prelu.** When every element is comparable with zero, the result is the positive part of the element plus the slope of its
channel times the negative part. -/
theorem C51_prelu (A : Arith α) (dtype a : Nat) (pre post : List Nat) (data dst : List α)
    (f : List Nat → α) (slope : Nat → α) (ht : plainType dtype = true) (hx : Holds (pre ++ a :: post) data f)
    (hdst : dst.length = prod (pre ++ a :: post)) (h0 : A.gt A.zero A.zero = false)
    (hf : ∀ c, InBounds (pre ++ a :: post) c → Trichotomous A (f c)) :
    ∃ out, preluRun A pre.length ⟨dtype, pre ++ a :: post, data⟩ (perChannel dtype a slope) dst =
        .ok (pre ++ a :: post, out) ∧
      Holds (pre ++ a :: post) out fun c =>
        A.add (if A.gt (f c) A.zero then f c else A.zero)
          (A.mul (slope (channel pre.length c)) (if A.gt (f c) A.zero then A.zero else f c)) := by
  obtain ⟨out, e, hl, h⟩ := chanRun_ok dtype a pre post data dst f [perChannel dtype a slope] (fun k => do
      let s ← rd (perChannel dtype a slope).data k
      .ok ⟨fun e => A.add (if A.gt e A.zero then e else A.zero) (A.mul s (if A.gt A.zero e then e else A.zero)),
        fun e => A.add (if A.gt A.zero e then A.zero else e) (A.mul s (if A.gt e A.zero then A.zero else e))⟩)
    (fun k => ⟨fun e => A.add (if A.gt e A.zero then e else A.zero) (A.mul (slope k) (if A.gt A.zero e then e else A.zero)),
      fun e => A.add (if A.gt A.zero e then A.zero else e) (A.mul (slope k) (if A.gt e A.zero then A.zero else e))⟩) ht hx hdst
    (by simp [isChannel_per]) (fun k hk => by simp [rd_perChannel slope hk]) (fun _ c hc => by
      rcases hf c hc with h | h | h
      · simp [h]
      · simp [h]
      · simp [h, h0])
  refine ⟨out, e, hl, fun c hc => ?_⟩
  rw [h c hc]
  rcases hf c hc with h | h | h
  · simp [h]
  · simp [h]
  · simp [h, h0]

/-- **C51, prelu over the reals.** Elements not below zero are kept, the others are multiplied by the slope of their channel. -/
theorem C51_prelu_real (dtype a : Nat) (pre post : List Nat) (data dst : List ℝ)
    (f : List Nat → ℝ) (slope : Nat → ℝ) (ht : plainType dtype = true) (hx : Holds (pre ++ a :: post) data f)
    (hdst : dst.length = prod (pre ++ a :: post)) :
    ∃ out, preluRun realArith pre.length ⟨dtype, pre ++ a :: post, data⟩ (perChannel dtype a slope) dst =
        .ok (pre ++ a :: post, out) ∧
      Holds (pre ++ a :: post) out fun c => if 0 ≤ f c then f c else slope (channel pre.length c) * f c := by
  obtain ⟨out, e, hl, h⟩ := C51_prelu realArith dtype a pre post data dst f slope ht hx hdst (by simp [realArith]) (by
    intro c _
    unfold Trichotomous
    rcases lt_trichotomy (f c) 0 with h | h | h
    · exact .inr (.inl ⟨by simp [realArith, h.le], by simp [realArith, h]⟩)
    · exact .inr (.inr h)
    · exact .inl ⟨by simp [realArith, h], by simp [realArith, h.le]⟩)
  refine ⟨out, e, hl, fun c hc => ?_⟩
  rw [h c hc]
  congr 1
  rcases lt_trichotomy (f c) 0 with h | h | h
  · simp [realArith, h, h.le, not_lt.2 h.le]
  · simp [realArith, h]
  · simp [realArith, h, h.le]

example : preluRun toyArith 1 ⟨10, [1, 2, 5], [1, -2, 3, -4, -5, 6, -7, 0, 9, -10]⟩ ⟨10, [2], [2, 3]⟩ (List.replicate 10 7) =
    .ok ([1, 2, 5], [1, -4, 3, -8, -10, 6, -21, 0, 9, -30]) := by decide

/-- integers with a value that compares with none, as NaN does -/
def nanArith : Arith (Option Int) :=
  let op (g : Int → Int → Int) : Option Int → Option Int → Option Int := fun x y => x.bind fun a => y.map (g a)
  ⟨some 0, some 1, op (· + ·), op (· - ·), op (· * ·), op Int.tdiv, id, id,
    fun x y => match x, y with | some a, some b => decide (a > b) | _, _ => false⟩

/-- **C51, prelu of NaN (counterexample).** The result of an element should depend on the element and its channel only. For float
and a NaN it depends on the position as well: in a row of five NaN the first four become zero and the last stays NaN. -/
theorem C51_prelu_nan_false : ¬ ∀ (A : Arith (Option Int)) (data slope : List (Option Int)) (n : Nat) (out : List (Option Int)),
    preluRun A 0 ⟨10, [1, n], data⟩ ⟨10, [1], slope⟩ (List.replicate n A.zero) = .ok ([1, n], out) →
    ∀ (i j : Nat), i < n → j < n → data[i]? = data[j]? → out[i]? = out[j]? := by
  intro h
  have := h nanArith (List.replicate 5 none) [some 1] 5 [some 0, some 0, some 0, some 0, none] (by decide) 0 4 (by decide)
    (by decide) rfl
  simp at this

/-! ## refusals -/

/-- the coefficients the operators refuse: not one per channel of `x`, or of another type -/
def BadCoef (x b : Operand α) (d : Nat) : Prop := b.shape ≠ [x.shape.getD d 0] ∨ b.dtype ≠ x.dtype

theorem chanRun_rejects (dim : Int) (x : Operand α) (cs : List (Operand α)) (coef : Nat → Res (Elem α)) (dst : List α)
    (h : dim < 0 ∨ (x.shape.length : Int) ≤ dim ∨ (∃ b ∈ cs, BadCoef x b dim.toNat) ∨ plainType x.dtype = false) :
    chanRun dim x cs coef dst = .err := by
  unfold chanRun
  split
  · rfl
  split
  · rfl
  rename_i h1 h2
  simp only
  split
  · rename_i h3
    split
    · rename_i h4
      rcases h with h | h | ⟨b, hb, h⟩ | h
      · exact absurd h h1
      · exact absurd h h2
      · have := List.all_eq_true.1 h3 b hb
        simp only [isChannel, Bool.and_eq_true, decide_eq_true_eq] at this
        rcases h with h | h
        · exact absurd this.1 h
        · exact absurd this.2.symm h
      · rw [h] at h4; cases h4
    · rfl
  · rfl

/-- **C51, refusals.** A negative dimension, a dimension the tensor does not have, coefficients that are not one per channel or are
of another type, and a type without arithmetic, are refused by all five operators. -/
theorem C51_rejects (A : Arith α) (rsqrt : α → α) (eps : α) (dim : Int) (x : Operand α) (dst : List α) (b m v s : Operand α)
    (h : dim < 0 ∨ (x.shape.length : Int) ≤ dim ∨ plainType x.dtype = false) :
    addBiasRun A dim x b dst = .err ∧ batchNormRun A rsqrt eps dim x m v dst = .err ∧ batchScaleRun A dim x s b dst = .err ∧
      fusedRun A rsqrt eps dim x m v s b dst = .err ∧ preluRun A dim x s dst = .err := by
  have h' : ∀ cs : List (Operand α), dim < 0 ∨ (x.shape.length : Int) ≤ dim ∨ (∃ b ∈ cs, BadCoef x b dim.toNat) ∨
      plainType x.dtype = false := fun cs => by rcases h with h | h | h <;> simp [h]
  exact ⟨chanRun_rejects _ _ _ _ _ (h' _), chanRun_rejects _ _ _ _ _ (h' _), chanRun_rejects _ _ _ _ _ (h' _),
    chanRun_rejects _ _ _ _ _ (h' _), chanRun_rejects _ _ _ _ _ (h' _)⟩

/-- **C51, refusals of coefficients.** -/
theorem C51_rejects_coef (A : Arith α) (rsqrt : α → α) (eps : α) (dim : Int) (x : Operand α) (dst : List α)
    (b m v s : Operand α) :
    (BadCoef x b dim.toNat → addBiasRun A dim x b dst = .err) ∧
    (BadCoef x m dim.toNat ∨ BadCoef x v dim.toNat → batchNormRun A rsqrt eps dim x m v dst = .err) ∧
    (BadCoef x s dim.toNat ∨ BadCoef x b dim.toNat → batchScaleRun A dim x s b dst = .err) ∧
    (BadCoef x m dim.toNat ∨ BadCoef x v dim.toNat ∨ BadCoef x s dim.toNat ∨ BadCoef x b dim.toNat →
      fusedRun A rsqrt eps dim x m v s b dst = .err) ∧
    (BadCoef x s dim.toNat → preluRun A dim x s dst = .err) := by
  refine ⟨fun h => ?_, fun h => ?_, fun h => ?_, fun h => ?_, fun h => ?_⟩ <;>
    refine chanRun_rejects _ _ _ _ _ (.inr (.inr (.inl ?_))) <;> simpa using h

example : BadCoef (⟨10, [2, 3], [1, 2, 3, 4, 5, 6]⟩ : Operand Nat) ⟨10, [2], [1, 2]⟩ 1 := by
  unfold BadCoef; decide

end Verif.Props
