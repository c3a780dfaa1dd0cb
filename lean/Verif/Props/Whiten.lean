import Verif.Kernels.ImageNorm
import Verif.Core.Holds
import Verif.Kernels.Eff
import Verif.Kernels.ReduceLemmas
import Mathlib.Analysis.SpecialFunctions.Pow.Real
/-!
# C72: normalisation of images (prewhiten, norm_image)

A batch of images has the shape `b :: s`; the elements of image `n` are `item f s n`.
-/
namespace Verif.Props
open Verif.Core Verif.Spec Verif.Kernels

variable {α δ : Type}

/-- the elements of an image of a batch, in row-major order -/
def item (f : List Nat → α) (s : List Nat) (n : Nat) : List α := (coords s).map fun c => f (n :: c)

/-- the mean of some elements, computed in the wide type -/
def wideMean (W : Wide α δ) (l : List α) : δ := W.div (l.foldl (fun m v => W.add m (W.widen v)) W.zero) (W.ofNat l.length)

/-- the standard deviation of some elements, computed in the wide type -/
def wideDev (W : Wide α δ) (l : List α) : δ :=
  W.sqrt (W.div (l.foldl (fun m v => W.add m (W.mul (W.sub (W.widen v) (wideMean W l)) (W.sub (W.widen v) (wideMean W l)))) W.zero) (W.ofNat l.length))

theorem loop_foldl {β : Type} (l out : List α) (base : Nat) (g : β → α → β) (z : β) (h : ∀ i, i < l.length → out[base + i]? = l[i]?) :
    loop (fun m i => do
      let v ← rd out (base + i)
      Res.ok (g m v)) l.length z = .ok (l.foldl g z) := by
  obtain ⟨s, e, hs⟩ := loop_inv (f := fun m i => do
      let v ← rd out (base + i)
      Res.ok (g m v)) (n := l.length) (s := z) (fun k s => s = (l.take k).foldl g z) rfl (by
      rintro i s hi rfl
      refine ⟨_, ?_, rfl⟩
      have := h i hi
      rw [List.getElem?_eq_getElem hi] at this
      rw [rd_ok this, Res.bind_ok, List.take_succ_eq_append_getElem hi, List.foldl_append]
      rfl)
  rw [e, hs, List.take_length]

theorem itemMean_ok (W : Wide α δ) (l out : List α) (base : Nat) (h : ∀ i, i < l.length → out[base + i]? = l[i]?) :
    itemMean W out base l.length = .ok (wideMean W l) := by
  unfold itemMean
  rw [loop_foldl l out base _ _ h]
  rfl

theorem itemDev_ok (W : Wide α δ) (l out : List α) (base : Nat) (h : ∀ i, i < l.length → out[base + i]? = l[i]?) :
    itemDev W (wideMean W l) out base l.length = .ok (wideDev W l) := by
  unfold itemDev
  rw [loop_foldl l out base (fun m v => W.add m (W.mul (W.sub (W.widen v) (wideMean W l)) (W.sub (W.widen v) (wideMean W l)))) W.zero h]
  rfl

/-- what becomes of the element `v` of an image with the elements `l` -/
def normed (W : Wide α δ) (factor : Nat → δ → δ) (l : List α) (v : α) : α :=
  W.mulT (W.subT v (W.narrow (wideMean W l))) (W.narrow (factor l.length (wideDev W l)))

theorem normKernel_ok (W : Wide α δ) (factor : Nat → δ → δ) (b : Nat) (s : List Nat) (f : List Nat → α) (data : List α) (hb : 0 < b)
    (hx : Holds (b :: s) data f) :
    ∃ out, normKernel W factor (prod (b :: s)) b data = .ok out ∧ Holds (b :: s) out fun c => normed W factor (item f s (c.headD 0)) (f c) := by
  have hx' := holds2 (a := [b]) (b := s) |>.1 hx
  simp only [prod, Nat.mul_one, unlin_single] at hx'
  have hq : prod (b :: s) / b = prod s := by simp only [prod]; rw [Nat.mul_comm, Nat.mul_div_cancel _ hb]
  have hlen : ∀ n, (item f s n).length = prod s := fun n => by simp [item, coords_length]
  have hget : ∀ n i, i < prod s → (item f s n)[i]? = some (f (n :: unlin s i)) := by
    intro n i hi
    simp [item, coords_eq, hi]
  unfold normKernel
  rw [if_neg (by omega), hq]
  obtain ⟨out, e, hl, hv, -⟩ := loop_inv (f := fun out n => do
      let mean ← itemMean W out (n * prod s) (prod s)
      let dev ← itemDev W mean out (n * prod s) (prod s)
      loop (fun out i => do
        let v ← rd out (n * prod s + i)
        wr out (n * prod s + i) (W.mulT (W.subT v (W.narrow mean)) (W.narrow (factor (prod s) dev)))) (prod s) out) (n := b) (s := data)
    (fun k o => o.length = b * prod s ∧
      (∀ n i, n < k → i < prod s → o[n * prod s + i]? = some (normed W factor (item f s n) (f (n :: unlin s i)))) ∧
      ∀ p, k * prod s ≤ p → o[p]? = data[p]?)
    ⟨hx'.1, by intros; omega, fun _ _ => rfl⟩ (by
      rintro n o hn ⟨ol, od, oo⟩
      have hrow : (n + 1) * prod s ≤ b * prod s := Nat.mul_le_mul_right _ hn
      rw [Nat.add_mul, Nat.one_mul] at hrow
      have hcell : ∀ i, i < prod s → o[n * prod s + i]? = some (f (n :: unlin s i)) := by
        intro i hi
        rw [oo _ (by omega)]
        have := hx'.2 n i hn hi
        simpa using this
      have hit : ∀ i, i < (item f s n).length → o[n * prod s + i]? = (item f s n)[i]? := by
        intro i hi
        rw [hlen] at hi
        rw [hcell i hi, hget n i hi]
      have hm := itemMean_ok W (item f s n) o (n * prod s) hit
      have hd := itemDev_ok W (item f s n) o (n * prod s) hit
      rw [hlen] at hm hd
      rw [hm, Res.bind_ok, hd, Res.bind_ok]
      obtain ⟨o', e, al, ad, ao⟩ := loop_inv (f := fun out i => do
        let v ← rd out (n * prod s + i)
        wr out (n * prod s + i) (W.mulT (W.subT v (W.narrow (wideMean W (item f s n)))) (W.narrow (factor (prod s) (wideDev W (item f s n))))))
        (n := prod s) (s := o)
        (fun k o' => o'.length = b * prod s ∧
          (∀ i, i < k → o'[n * prod s + i]? = some (normed W factor (item f s n) (f (n :: unlin s i)))) ∧
          ∀ p, (p < n * prod s ∨ n * prod s + k ≤ p) → o'[p]? = o[p]?)
        ⟨ol, by intros; omega, fun _ _ => rfl⟩ (by
          rintro i o' hi ⟨bl, bd, bo⟩
          have hc : o'[n * prod s + i]? = some (f (n :: unlin s i)) := by rw [bo _ (by omega), hcell i hi]
          refine ⟨_, by rw [rd_ok hc, Res.bind_ok, wr_ok _ (by omega)], by simp [bl], ?_, ?_⟩
          · intro j hj
            by_cases hji : j = i
            · subst hji
              rw [List.getElem?_set_self (by omega)]
              unfold normed
              rw [hlen]
            · rw [List.getElem?_set_ne (by omega)]
              exact bd j (by omega)
          · intro p hp
            rw [List.getElem?_set_ne (by omega)]
            exact bo p (by omega))
      refine ⟨o', e, al, ?_, ?_⟩
      · intro m i hm hi
        by_cases hmn : m = n
        · subst hmn; exact ad i hi
        · have : (m + 1) * prod s ≤ n * prod s := Nat.mul_le_mul_right _ (by omega)
          rw [Nat.add_mul, Nat.one_mul] at this
          rw [ao _ (by omega)]
          exact od m i (by omega) hi
      · intro p hp
        rw [Nat.add_mul, Nat.one_mul] at hp
        rw [ao p (by omega), oo p (by omega)])
  refine ⟨out, e, (holds2 (a := [b]) (b := s)).2 ⟨by rw [hl]; simp [prod], fun n t hn ht => ?_⟩⟩
  simp only [prod, Nat.mul_one] at hn
  rw [hv n t hn ht, unlin_single]
  rfl

theorem normDispatch_ok (W : Wide α δ) (factor : Nat → δ → δ) (dtype b : Nat) (s : List Nat) (f : List Nat → α) (data : List α) (fresh : Nat → List α)
    (ht : dtype = 10 ∨ dtype = 11) (hb : 0 < b) (hx : Holds (b :: s) data f) (hf : ∀ n, (fresh n).length = n) :
    ∃ out, normDispatch W factor ⟨dtype, b :: s, data⟩ fresh = .ok (b :: s, out) ∧
      Holds (b :: s) out fun c => normed W factor (item f s (c.headD 0)) (f c) := by
  obtain ⟨out, e, h⟩ := normKernel_ok W factor b s f data hb hx
  refine ⟨out, ?_, h⟩
  unfold normDispatch
  rw [if_pos ht]
  simp only
  have : Verif.Memory.copyFrom (fresh (prod (b :: s))) 0 data (prod (b :: s)) = .ok data := by
    unfold Verif.Memory.copyFrom
    rw [if_pos ⟨by rw [hf]; omega, by rw [hx.1]⟩]
    simp [hf, ← hx.1]
  rw [this, Res.bind_ok, e]
  rfl

/-- **C72, the operations.** For every batch of images and whatever the arithmetic: each element becomes its difference from the mean of its image, times the factor
for the standard deviation of its image; mean, deviation and factor are computed in the wide type and then converted. -/
theorem C72_images (W : Wide α δ) (eps : δ) (dtype b : Nat) (s : List Nat) (f : List Nat → α) (data : List α) (fresh : Nat → List α)
    (ht : dtype = 10 ∨ dtype = 11) (hb : 0 < b) (hx : Holds (b :: s) data f) (hf : ∀ n, (fresh n).length = n) :
    (∃ out, prewhitenRun W ⟨dtype, b :: s, data⟩ fresh = .ok (b :: s, out) ∧
      Holds (b :: s) out fun c => normed W (fun n d => W.div W.one
        (if W.lt d (W.div W.one (W.sqrt (W.ofNat n))) then W.div W.one (W.sqrt (W.ofNat n)) else d)) (item f s (c.headD 0)) (f c)) ∧
      ∃ out, normImageRun W eps ⟨dtype, b :: s, data⟩ fresh = .ok (b :: s, out) ∧
        Holds (b :: s) out fun c => normed W (fun _ d => W.div W.one (W.add d eps)) (item f s (c.headD 0)) (f c) := by
  constructor
  · unfold prewhitenRun
    rw [if_neg (by simp)]
    exact normDispatch_ok W _ dtype b s f data fresh ht hb hx hf
  · exact normDispatch_ok W _ dtype b s f data fresh ht hb hx hf

/-- **C72, refusals.** A tensor of another type than `float` or `double` is refused; prewhiten refuses a tensor without dimensions. -/
theorem C72_rejects (W : Wide α δ) (eps : δ) (x : Operand α) (fresh : Nat → List α) :
    (x.dtype ≠ 10 → x.dtype ≠ 11 → prewhitenRun W x fresh = .err ∧ normImageRun W eps x fresh = .err) ∧
      (x.shape = [] → prewhitenRun W x fresh = .err) := by
  refine ⟨fun h1 h2 => ⟨?_, ?_⟩, fun h => ?_⟩
  · unfold prewhitenRun
    split
    · rfl
    · unfold normDispatch
      rw [if_neg (by omega)]
  · unfold normImageRun normDispatch
    rw [if_neg (by omega)]
  · unfold prewhitenRun
    rw [if_pos h]

/-- **C72, empty batches.** A batch without images is divided by its number of images, and norm_image of a tensor without dimensions reads a dimension it does not
have. -/
theorem C72_empty_false (W : Wide α δ) (eps : δ) (dtype : Nat) (s : List Nat) (fresh : Nat → List α) (ht : dtype = 10 ∨ dtype = 11) (v : α)
    (hf : ∀ n, (fresh n).length = n) :
    prewhitenRun W ⟨dtype, 0 :: s, []⟩ fresh = .ub ∧ normImageRun W eps ⟨dtype, 0 :: s, []⟩ fresh = .ub ∧
      normImageRun W eps ⟨dtype, [], [v]⟩ fresh = .ub := by
  have hd : ∀ factor : Nat → δ → δ, normDispatch W factor ⟨dtype, 0 :: s, []⟩ fresh = .ub := by
    intro factor
    unfold normDispatch
    rw [if_pos ht]
    simp only [prod, Nat.zero_mul]
    have : Verif.Memory.copyFrom (fresh 0) 0 [] 0 = .ok (fresh 0) := by simp [Verif.Memory.copyFrom]
    rw [this, Res.bind_ok]
    rfl
  refine ⟨?_, hd _, ?_⟩
  · unfold prewhitenRun
    rw [if_neg (by simp)]
    exact hd _
  · unfold normImageRun normDispatch
    rw [if_pos ht]

/-! ## In exact arithmetic -/

/-- real numbers for both types -/
noncomputable def realWide : Wide ℝ ℝ where
  widen := id
  narrow := id
  zero := 0
  one := 1
  ofNat n := n
  add := (· + ·)
  sub := (· - ·)
  mul := (· * ·)
  div := (· / ·)
  sqrt := Real.sqrt
  lt a b := by classical exact decide (a < b)
  subT := (· - ·)
  mulT := (· * ·)

/-- the mean -/
noncomputable def meanR (l : List ℝ) : ℝ := l.sum / l.length
/-- the standard deviation -/
noncomputable def devR (l : List ℝ) : ℝ := Real.sqrt ((l.map fun v => (v - meanR l) ^ 2).sum / l.length)

theorem foldl_add_map (l : List ℝ) (g : ℝ → ℝ) (z : ℝ) : l.foldl (fun m v => m + g v) z = z + (l.map g).sum := by
  induction l generalizing z with
  | nil => simp
  | cons a l ih => rw [List.foldl_cons, ih, List.map_cons, List.sum_cons, add_assoc]

theorem wideMean_real (l : List ℝ) : wideMean realWide l = meanR l := by
  show (l.foldl (fun m v => m + id v) 0) / (l.length : ℝ) = _
  rw [foldl_add_map l id 0]
  simp [meanR]

theorem wideDev_real (l : List ℝ) : wideDev realWide l = devR l := by
  show Real.sqrt ((l.foldl (fun m v => m + (id v - wideMean realWide l) * (id v - wideMean realWide l)) 0) / (l.length : ℝ)) = _
  rw [foldl_add_map l (fun v => (id v - wideMean realWide l) * (id v - wideMean realWide l)) 0, wideMean_real]
  simp [devR, pow_two]

/-- **C72, in exact arithmetic.** prewhiten: the difference from the mean divided by the standard deviation, or by 1/√count where that is more; norm_image: divided by
the standard deviation plus epsilon. -/
theorem C72_real_partial (eps : ℝ) (dtype b : Nat) (s : List Nat) (f : List Nat → ℝ) (data : List ℝ) (fresh : Nat → List ℝ)
    (ht : dtype = 10 ∨ dtype = 11) (hb : 0 < b) (hx : Holds (b :: s) data f) (hf : ∀ n, (fresh n).length = n) :
    (∃ out, prewhitenRun realWide ⟨dtype, b :: s, data⟩ fresh = .ok (b :: s, out) ∧
      Holds (b :: s) out fun c => (f c - meanR (item f s (c.headD 0))) / max (devR (item f s (c.headD 0))) (1 / Real.sqrt (prod s))) ∧
      ∃ out, normImageRun realWide eps ⟨dtype, b :: s, data⟩ fresh = .ok (b :: s, out) ∧
        Holds (b :: s) out fun c => (f c - meanR (item f s (c.headD 0))) / (devR (item f s (c.headD 0)) + eps) := by
  obtain ⟨⟨o1, e1, h1⟩, ⟨o2, e2, h2⟩⟩ := C72_images realWide eps dtype b s f data fresh ht hb hx hf
  have hlen : ∀ n, (item f s n).length = prod s := fun n => by simp [item, coords_length]
  refine ⟨⟨o1, e1, h1.1, fun c hc => ?_⟩, ⟨o2, e2, h2.1, fun c hc => ?_⟩⟩
  · rw [h1.2 c hc]
    congr 1
    show normed realWide _ (item f s (c.headD 0)) (f c) = (f c - meanR (item f s (c.headD 0))) / max (devR (item f s (c.headD 0))) (1 / Real.sqrt (prod s))
    unfold normed
    rw [wideMean_real, wideDev_real, hlen]
    show (f c - meanR _) * (1 / (if decide (devR (item f s (c.headD 0)) < 1 / Real.sqrt (prod s)) = true then 1 / Real.sqrt (prod s) else
      devR (item f s (c.headD 0)))) = _
    by_cases h : devR (item f s (c.headD 0)) < 1 / Real.sqrt (prod s)
    · rw [if_pos (by simpa using h), max_eq_right h.le]; ring
    · rw [if_neg (by simpa using h), max_eq_left (not_lt.1 h)]; ring
  · rw [h2.2 c hc]
    congr 1
    show normed realWide _ (item f s (c.headD 0)) (f c) = (f c - meanR (item f s (c.headD 0))) / (devR (item f s (c.headD 0)) + eps)
    unfold normed
    rw [wideMean_real, wideDev_real]
    show (f c - meanR _) * (1 / (devR (item f s (c.headD 0)) + eps)) = _
    ring

theorem sum_sub_div (l : List ℝ) (m k : ℝ) : (l.map fun v => (v - m) / k).sum = (l.sum - l.length * m) / k := by
  induction l with
  | nil => simp
  | cons a l ih => rw [List.map_cons, List.sum_cons, ih, List.sum_cons, List.length_cons]; push_cast; ring

theorem sum_sq_div (l : List ℝ) (m k : ℝ) : (l.map fun v => ((v - m) / k) ^ 2).sum = (l.map fun v => (v - m) ^ 2).sum / k ^ 2 := by
  induction l with
  | nil => simp
  | cons a l ih => rw [List.map_cons, List.sum_cons, ih, List.map_cons, List.sum_cons]; ring

/-- **C72, what whitening achieves, in exact arithmetic.** In the result of prewhiten every image has the mean 0 and, where its standard deviation was at least 1/√count,
the standard deviation 1. -/
theorem C72_whitened_partial (dtype b : Nat) (s : List Nat) (f : List Nat → ℝ) (data : List ℝ) (fresh : Nat → List ℝ)
    (ht : dtype = 10 ∨ dtype = 11) (hb : 0 < b) (hx : Holds (b :: s) data f) (hf : ∀ n, (fresh n).length = n) :
    ∃ out g, prewhitenRun realWide ⟨dtype, b :: s, data⟩ fresh = .ok (b :: s, out) ∧ Holds (b :: s) out g ∧
      ∀ n, n < b → meanR (item g s n) = 0 ∧ (0 < prod s → 1 / Real.sqrt (prod s) ≤ devR (item f s n) → devR (item g s n) = 1) := by
  obtain ⟨⟨out, e, h⟩, -⟩ := C72_real_partial 0 dtype b s f data fresh ht hb hx hf
  refine ⟨out, _, e, h, fun n hn => ?_⟩
  have hlen : ∀ (f : List Nat → ℝ) n, (item f s n).length = prod s := fun f n => by simp [item, coords_length]
  set m := meanR (item f s n) with hm
  set k := max (devR (item f s n)) (1 / Real.sqrt (prod s)) with hk
  have hi : item (fun c => (f c - meanR (item f s (c.headD 0))) / max (devR (item f s (c.headD 0))) (1 / Real.sqrt (prod s))) s n =
      (item f s n).map fun v => (v - m) / k := by
    simp [item, m, k]
  have hmean : meanR (item (fun c => (f c - meanR (item f s (c.headD 0))) / max (devR (item f s (c.headD 0))) (1 / Real.sqrt (prod s))) s n) = 0 := by
    rw [hi]
    show ((item f s n).map fun v => (v - m) / k).sum / (((item f s n).map fun v => (v - m) / k).length : ℝ) = 0
    rw [sum_sub_div, List.length_map]
    rcases Nat.eq_zero_or_pos (item f s n).length with h0 | h0
    · rw [h0]; simp
    · have : (item f s n).sum - (item f s n).length * m = 0 := by
        rw [hm]; unfold meanR
        field_simp
        ring
      rw [this]; simp
  refine ⟨hmean, fun hp hd => ?_⟩
  have hpos : (0 : ℝ) < prod s := by exact_mod_cast hp
  have hkd : k = devR (item f s n) := max_eq_left hd
  have hdpos : 0 < devR (item f s n) := lt_of_lt_of_le (by positivity) hd
  show Real.sqrt ((List.map (fun v => (v - meanR _) ^ 2) _).sum / _) = 1
  rw [hmean, hi, List.map_map, List.length_map]
  have : ((item f s n).map ((fun v => (v - 0) ^ 2) ∘ fun v => (v - m) / k)).sum = ((item f s n).map fun v => (v - m) ^ 2).sum / k ^ 2 := by
    rw [← sum_sq_div]; simp [Function.comp_def]
  rw [this]
  have hsq : ((item f s n).map fun v => (v - m) ^ 2).sum / (item f s n).length = k ^ 2 := by
    rw [hkd]
    unfold devR
    rw [Real.sq_sqrt]
    apply div_nonneg
    · apply List.sum_nonneg
      intro x hx
      simp only [List.mem_map] at hx
      obtain ⟨v, -, rfl⟩ := hx
      positivity
    · positivity
  have hk0 : k ≠ 0 := by rw [hkd]; exact hdpos.ne'
  rw [div_right_comm, hsq, div_self (pow_ne_zero 2 hk0), Real.sqrt_one]

/-- integers with truncated division, to see the operators run: the mean 4 and the deviation 3 of 1, 1, 7, 7 -/
def toyWide : Wide Int Int where
  widen := id
  narrow := id
  zero := 0
  one := 12
  ofNat n := n
  add := (· + ·)
  sub := (· - ·)
  mul := (· * ·)
  div := Int.tdiv
  sqrt v := v.toNat.sqrt
  lt a b := decide (a < b)
  subT := (· - ·)
  mulT := (· * ·)

example : normImageRun toyWide 1 ⟨10, [2, 4], [1, 1, 7, 7, 2, 2, 2, 2]⟩ (fun n => List.replicate n 0) =
    .ok ([2, 4], [-9, -9, 9, 9, 0, 0, 0, 0]) := by decide +kernel

example : Holds [2, 2] [(1 : ℝ), 1, 7, 7] (fun c => if c.headD 0 = 0 then 1 else 7) := by
  refine (holds2 (a := [2]) (b := [2])).2 ⟨rfl, fun n t hn ht => ?_⟩
  simp only [prod, Nat.mul_one] at hn ht
  rcases n with _ | _ | n <;> rcases t with _ | _ | t <;> first | omega | simp [unlin, prod]

end Verif.Props
