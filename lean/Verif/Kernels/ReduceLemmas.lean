import Verif.Kernels.Reduce
import Verif.Core.Holds
import Verif.Kernels.DataMoveLemmas
/-! # Lemmas about the reduction kernels -/
namespace Verif.Kernels
open Verif.Core Verif.Spec

variable {α σ : Type}

theorem foldl_range_succ {β : Type} (g : β → Nat → β) (n : Nat) (z : β) :
    (List.range (n + 1)).foldl g z = g ((List.range n).foldl g z) n := by
  rw [List.range_succ, List.foldl_append]; rfl

/-- sums along the middle of three blocks -/
theorem sumKernel_ok (add : α → α → α) (zero : α) (x : List α) (N C W : Nat) (X : Nat → Nat → Nat → α)
    (hx : ∀ i c w, i < N → c < C → w < W → x[(i * C + c) * W + w]? = some (X i c w)) :
    ∃ out, sumKernel add x N C W (List.replicate (N * W) zero) = .ok out ∧ out.length = N * W ∧
      ∀ i w, i < N → w < W → out[i * W + w]? = some ((List.range C).foldl (fun s c => add s (X i c w)) zero) := by
  let S := fun (i w k : Nat) => (List.range k).foldl (fun s c => add s (X i c w)) zero
  let Inv := fun (cnt : Nat → Nat → Nat) (out : List α) => out.length = N * W ∧
    ∀ i w, i < N → w < W → out[i * W + w]? = some (S i w (cnt i w))
  have hcong : ∀ c1 c2 out, (∀ i w, i < N → w < W → c1 i w = c2 i w) → Inv c1 out → Inv c2 out := by
    intro c1 c2 out h hi
    refine ⟨hi.1, fun i w hiN hw => ?_⟩
    rw [hi.2 i w hiN hw, h i w hiN hw]
  have := loop_inv (f := fun out i =>
    loop (fun out c =>
      loop (fun out w => do
        let v ← rd x ((i * C + c) * W + w)
        let o ← rd out (i * W + w)
        wr out (i * W + w) (add o v)) W out) C out) (n := N) (s := List.replicate (N * W) zero)
    (fun i out => Inv (fun i' _ => if i' < i then C else 0) out)
    (by
      refine ⟨by simp, fun i w hi hw => ?_⟩
      simp [S, List.getElem?_replicate, cell2_lt hi hw])
    (by
      intro i out hi hI
      have := loop_inv (f := fun out c =>
          loop (fun out w => do
            let v ← rd x ((i * C + c) * W + w)
            let o ← rd out (i * W + w)
            wr out (i * W + w) (add o v)) W out) (n := C) (s := out)
        (fun c out => Inv (fun i' _ => if i' < i then C else if i' = i then c else 0) out)
        (hcong _ _ _ (by intro i' w _ _; split <;> [rfl; (split <;> rfl)]) hI)
        (by
          intro c out hc hI
          have := loop_inv (f := fun out w => do
              let v ← rd x ((i * C + c) * W + w)
              let o ← rd out (i * W + w)
              wr out (i * W + w) (add o v)) (n := W) (s := out)
            (fun w out => Inv (fun i' w' => if i' < i then C else if i' = i then (if w' < w then c + 1 else c) else 0) out)
            (hcong _ _ _ (by intro i' w _ _; simp) hI)
            (by
              intro w out hw hI
              have ho := hI.2 i w hi hw
              simp only [Nat.lt_irrefl, if_false, if_true] at ho
              have hlt := cell2_lt hi hw
              refine ⟨_, by
                rw [rd_ok (hx i c w hi hc hw)]
                simp only [Res.bind_ok]
                rw [rd_ok ho]
                simp only [Res.bind_ok]
                rw [wr_ok _ (by rw [hI.1]; exact hlt)], by simp [hI.1], fun i' w' hi' hw' => ?_⟩
              by_cases he : i' = i ∧ w' = w
              · obtain ⟨rfl, rfl⟩ := he
                rw [set_eq (by rw [hI.1]; exact hlt)]
                simp [S, foldl_range_succ]
              · rw [set_ne (fun h => he (by have := cell2_inj hw hw' h; omega)), hI.2 i' w' hi' hw']
                congr 2
                show (if i' < i then C else if i' = i then if w' < w then c + 1 else c else 0) =
                  (if i' < i then C else if i' = i then if w' < w + 1 then c + 1 else c else 0)
                split
                · rfl
                · split
                  · have : w' ≠ w := by omega
                    by_cases h1 : w' < w
                    · rw [if_pos h1, if_pos (by omega)]
                    · rw [if_neg h1, if_neg (by omega)]
                  · rfl)
          obtain ⟨out', e, h⟩ := this
          exact ⟨out', e, hcong _ _ _ (by
            intro i' w _ hw
            split
            · rfl
            · split <;> simp [hw]) h⟩)
      obtain ⟨out', e, h⟩ := this
      exact ⟨out', e, hcong _ _ _ (by
        intro i' w _ _
        by_cases h1 : i' < i
        · rw [if_pos h1, if_pos (by omega)]
        · rw [if_neg h1]
          by_cases h2 : i' = i
          · rw [if_pos h2, if_pos (by omega)]
          · rw [if_neg h2, if_neg (by omega)]) h⟩)
  obtain ⟨out, e, h⟩ := this
  exact ⟨out, e, h.1, fun i w hi hw => by rw [h.2 i w hi hw]; simp [hi, S]⟩

/-- a kernel that handles one column at a time: column `(n, w)` sets the cells `(n, i, w)` and nothing else -/
theorem columns_ok {A B W : Nat} (buf : σ → List α) (f : σ → Nat → Nat → Res σ) (g : Nat → Nat → Nat → α) (s0 : σ)
    (h0 : (buf s0).length = A * B * W)
    (h : ∀ s n w, (buf s).length = A * B * W → n < A → w < W → ∃ s', f s n w = .ok s' ∧ (buf s').length = A * B * W ∧
      (∀ i, i < B → (buf s')[(n * B + i) * W + w]? = some (g n i w)) ∧
      (∀ p, (∀ i, i < B → p ≠ (n * B + i) * W + w) → (buf s')[p]? = (buf s)[p]?)) :
    ∃ s', loop (fun s n => loop (fun s w => f s n w) W s) A s0 = .ok s' ∧ (buf s').length = A * B * W ∧
      ∀ n i w, n < A → i < B → w < W → (buf s')[(n * B + i) * W + w]? = some (g n i w) := by
  have hne : ∀ {n i w n' i' w' : Nat}, i < B → w < W → i' < B → w' < W → (n, w) ≠ (n', w') →
      (n * B + i) * W + w ≠ (n' * B + i') * W + w' := by
    intro n i w n' i' w' hi hw hi' hw' hd he
    have h1 := cell2_inj hw hw' he
    have h2 := cell2_inj hi hi' h1.1
    exact hd (by rw [h2.1, h1.2])
  have := loop_inv (f := fun s n => loop (fun s w => f s n w) W s) (n := A) (s := s0)
    (fun k s => (buf s).length = A * B * W ∧
      ∀ n i w, n < k → i < B → w < W → (buf s)[(n * B + i) * W + w]? = some (g n i w))
    ⟨h0, by omega⟩
    (by
      intro k s hk ⟨hl, hs⟩
      have := loop_inv (f := fun s w => f s k w) (n := W) (s := s)
        (fun j s => (buf s).length = A * B * W ∧
          ∀ n i w, (n < k ∨ n = k ∧ w < j) → i < B → w < W → (buf s)[(n * B + i) * W + w]? = some (g n i w))
        ⟨hl, fun n i w hn => hs n i w (by omega)⟩
        (by
          intro j s hj ⟨hl, hs⟩
          obtain ⟨s', e, hl', hv, hr⟩ := h s k j hl hk hj
          refine ⟨s', e, hl', fun n i w hn hi hw => ?_⟩
          by_cases he : n = k ∧ w = j
          · rw [he.1, he.2]; exact hv i hi
          · rw [hr _ fun i' hi' => hne hi hw hi' hj (by simp; omega)]
            exact hs n i w (by omega) hi hw)
      obtain ⟨s', e, hl', hv⟩ := this
      exact ⟨s', e, hl', fun n i w hn hi hw => hv n i w (by omega) hi hw⟩)
  obtain ⟨s', e, hl, hv⟩ := this
  exact ⟨s', e, hl, hv⟩

/-! ## max, argmax -/

/-- the running maximum of a column -/
def runMax (gt : α → α → Bool) (X : Nat → α) : Nat → α
  | 0 => X 0
  | m + 1 => if gt (X (m + 1)) (runMax gt X m) then X (m + 1) else runMax gt X m

theorem maxColumn_ok (gt : α → α → Bool) (x : List α) (base W ext : Nat) (X : Nat → α) (tmp : α)
    (hx : ∀ m, m < ext → x[base + m * W]? = some (X m)) :
    maxColumn gt x base W ext tmp = .ok (if ext = 0 then tmp else runMax gt X (ext - 1)) := by
  unfold maxColumn
  have := loop_inv (f := fun tmp m => do
    let v ← rd x (base + m * W)
    .ok (if m = 0 then v else if gt v tmp then v else tmp)) (n := ext) (s := tmp)
    (fun k t => t = if k = 0 then tmp else runMax gt X (k - 1)) rfl
    (by
      intro i s hi hs
      refine ⟨_, by rw [rd_ok (hx i hi)]; rfl, ?_⟩
      cases i with
      | zero => simp [runMax]
      | succ i => simp only [Nat.succ_ne_zero, if_false, Nat.add_sub_cancel] at hs ⊢; rw [hs]; rfl)
  obtain ⟨t, e, ht⟩ := this
  rw [e, ht]

theorem runMax_spec [LinearOrder α] (X : Nat → α) (m : Nat) :
    (∃ i, i ≤ m ∧ runMax (fun a b => decide (a > b)) X m = X i) ∧
      ∀ i, i ≤ m → X i ≤ runMax (fun a b => decide (a > b)) X m := by
  induction m with
  | zero => exact ⟨⟨0, le_refl _, rfl⟩, fun i hi => by rw [Nat.le_zero.1 hi]; exact le_refl _⟩
  | succ m ih =>
    simp only [runMax, decide_eq_true_eq]
    by_cases h : X (m + 1) > runMax (fun a b => decide (a > b)) X m
    · rw [if_pos h]
      refine ⟨⟨m + 1, le_refl _, rfl⟩, fun i hi => ?_⟩
      rcases Nat.lt_or_ge i (m + 1) with h1 | h1
      · exact le_trans (ih.2 i (by omega)) (le_of_lt h)
      · rw [show i = m + 1 by omega]
    · rw [if_neg h]
      obtain ⟨⟨i, hi, e⟩, hb⟩ := ih
      refine ⟨⟨i, by omega, e⟩, fun i hi => ?_⟩
      rcases Nat.lt_or_ge i (m + 1) with h1 | h1
      · exact hb i (by omega)
      · rw [show i = m + 1 by omega]; exact le_of_not_gt h

/-- the index of the running maximum -/
def runArg (X : Nat → Int) : Nat → Nat
  | 0 => 0
  | m + 1 => if X (m + 1) > X (runArg X m) then m + 1 else runArg X m

theorem runArg_spec (X : Nat → Int) (m : Nat) :
    runArg X m ≤ m ∧ (∀ i, i ≤ m → X i ≤ X (runArg X m)) ∧ ∀ i, i < runArg X m → X i < X (runArg X m) := by
  induction m with
  | zero => exact ⟨le_refl _, fun i hi => by rw [Nat.le_zero.1 hi]; exact le_refl _, by simp [runArg]⟩
  | succ m ih =>
    obtain ⟨h1, h2, h3⟩ := ih
    simp only [runArg]
    by_cases h : X (m + 1) > X (runArg X m)
    · rw [if_pos h]
      refine ⟨le_refl _, fun i hi => ?_, fun i hi => ?_⟩
      · rcases Nat.lt_or_ge i (m + 1) with h4 | h4
        · exact le_trans (h2 i (by omega)) (le_of_lt h)
        · rw [show i = m + 1 by omega]
      · exact lt_of_le_of_lt (h2 i (by omega)) h
    · rw [if_neg h]
      refine ⟨by omega, fun i hi => ?_, h3⟩
      rcases Nat.lt_or_ge i (m + 1) with h4 | h4
      · exact h2 i (by omega)
      · rw [show i = m + 1 by omega]; omega

theorem argmaxColumn_ok (x : List Nat) (base W ext : Nat) (X : Nat → Int) (s : Int × Nat) (he : 0 < ext)
    (hx : ∀ m, m < ext → rdInt32 x (base + m * W) = .ok (X m)) :
    argmaxColumn x base W ext s = .ok (X (runArg X (ext - 1)), runArg X (ext - 1)) := by
  unfold argmaxColumn
  have := loop_inv (f := fun (s : Int × Nat) m => do
    let v ← rdInt32 x (base + m * W)
    .ok (if m = 0 then (v, 0) else if v > s.1 then (v, m) else s)) (n := ext) (s := s)
    (fun k t => 0 < k → t = (X (runArg X (k - 1)), runArg X (k - 1))) (by omega)
    (by
      intro i s hi hs
      refine ⟨_, by rw [hx i hi]; rfl, fun _ => ?_⟩
      cases i with
      | zero => simp [runArg]
      | succ i =>
        have hs := hs (by omega)
        simp only [Nat.succ_ne_zero, if_false, Nat.add_sub_cancel] at hs ⊢
        subst hs
        simp only [runArg]
        split <;> simp_all)
  obtain ⟨t, e, ht⟩ := this
  rw [e, ht he]

/-! ## softmax, l2_norm -/

theorem columnMax_ok (gt : α → α → Bool) (x : List α) (base W B : Nat) (X : Nat → α) (hB : 0 < B)
    (hx : ∀ m, m < B → x[base + m * W]? = some (X m)) :
    columnMax gt x base W B = .ok (runMax gt X (B - 1)) := by
  unfold columnMax
  have h0 := hx 0 hB
  rw [Nat.zero_mul, Nat.add_zero] at h0
  rw [rd_ok h0]
  simp only [Res.bind_ok]
  have := loop_inv (f := fun mx j => do
    let v ← rd x (base + (j + 1) * W)
    .ok (if gt v mx then v else mx)) (n := B - 1) (s := X 0)
    (fun k t => t = runMax gt X k) rfl
    (by
      intro i s hi hs
      refine ⟨_, by rw [rd_ok (hx (i + 1) (by omega))]; rfl, ?_⟩
      subst hs; rfl)
  obtain ⟨t, e, ht⟩ := this
  rw [e, ht]

theorem col_inj {base W i j : Nat} (hW : 0 < W) (h : base + i * W = base + j * W) : i = j := by
  have : i * W = j * W := by omega
  exact Nat.eq_of_mul_eq_mul_right hW this

theorem softmaxColumn_ok (A : Arith α) (e : α → α) (x : List α) (base W B : Nat) (out : List α) (X : Nat → α) (hW : 0 < W)
    (hx : ∀ m, m < B → x[base + m * W]? = some (X m)) (hl : ∀ m, m < B → base + m * W < out.length) :
    ∃ out', softmaxColumn A e x base W B out = .ok out' ∧ out'.length = out.length ∧
      (∀ i, i < B → out'[base + i * W]? =
        some (A.div (e (X i)) ((List.range B).foldl (fun s j => A.add s (e (X j))) A.zero))) ∧
      (∀ p, (∀ i, i < B → p ≠ base + i * W) → out'[p]? = out[p]?) := by
  unfold softmaxColumn
  have h1 := loop_inv (f := fun (s : α × List α) i => do
    let v ← rd x (base + i * W)
    let o ← wr s.2 (base + i * W) (e v)
    .ok (A.add s.1 (e v), o)) (n := B) (s := (A.zero, out))
    (fun k s => s.1 = (List.range k).foldl (fun s j => A.add s (e (X j))) A.zero ∧ s.2.length = out.length ∧
      (∀ i, i < k → s.2[base + i * W]? = some (e (X i))) ∧
      (∀ p, (∀ i, i < k → p ≠ base + i * W) → s.2[p]? = out[p]?))
    ⟨rfl, rfl, by omega, fun _ _ => rfl⟩
    (by
      rintro i ⟨s1, s2⟩ hi ⟨ha, hb, hc, hd⟩
      simp only at ha hb hc hd
      refine ⟨_, by
        rw [rd_ok (hx i hi)]
        simp only [Res.bind_ok]
        rw [wr_ok _ (by rw [hb]; exact hl i hi)]; rfl, ?_, by simp [hb], ?_, ?_⟩
      · simp only [foldl_range_succ, ha]
      · intro j hj
        simp only
        rcases Nat.lt_or_ge j i with h | h
        · rw [set_ne (fun hh => by have := col_inj hW hh; omega)]; exact hc j h
        · rw [show j = i by omega, set_eq (by rw [hb]; exact hl i hi)]
      · intro p hp
        simp only
        rw [set_ne (fun hh => hp i (by omega) hh.symm)]
        exact hd p fun j hj => hp j (by omega))
  obtain ⟨⟨sum, o1⟩, e1, ha, hb, hc, hd⟩ := h1
  simp only at ha hb hc hd
  rw [e1]
  simp only [Res.bind_ok]
  have h2 := loop_inv (f := fun out i => do
    let o ← rd out (base + i * W)
    wr out (base + i * W) (A.div o sum)) (n := B) (s := o1)
    (fun k o => o.length = out.length ∧
      (∀ i, i < B → o[base + i * W]? = some (if i < k then A.div (e (X i)) sum else e (X i))) ∧
      (∀ p, (∀ i, i < B → p ≠ base + i * W) → o[p]? = out[p]?))
    ⟨hb, fun i hi => by simpa using hc i hi, hd⟩
    (by
      intro i o hi ⟨ha', hb', hc'⟩
      have hv := hb' i hi
      simp only [Nat.lt_irrefl, if_false] at hv
      refine ⟨_, by
        rw [rd_ok hv]
        simp only [Res.bind_ok]
        rw [wr_ok _ (by rw [ha']; exact hl i hi)], by simp [ha'], ?_, ?_⟩
      · intro j hj
        by_cases h : j = i
        · subst h; rw [set_eq (by rw [ha']; exact hl _ hi)]; simp
        · rw [set_ne (fun hh => h (col_inj hW hh).symm), hb' j hj]
          congr 1
          by_cases h1 : j < i
          · rw [if_pos h1, if_pos (by omega)]
          · rw [if_neg h1, if_neg (by omega)]
      · intro p hp
        rw [set_ne (fun hh => hp i hi hh.symm)]
        exact hc' p hp)
  obtain ⟨o2, e2, ha2, hb2, hc2⟩ := h2
  refine ⟨o2, e2, ha2, fun i hi => ?_, hc2⟩
  rw [hb2 i hi, if_pos hi, ha]

theorem l2Column_ok (A : Arith α) (eps : α) (x : List α) (base W B : Nat) (out : List α) (X : Nat → α) (hW : 0 < W)
    (hx : ∀ m, m < B → x[base + m * W]? = some (X m)) (hl : ∀ m, m < B → base + m * W < out.length) :
    ∃ out', l2Column A eps x base W B out = .ok out' ∧ out'.length = out.length ∧
      (∀ i, i < B → out'[base + i * W]? = some (A.div (X i)
        (A.sqrt (A.add ((List.range B).foldl (fun s j => A.add s (A.mul (X j) (X j))) A.zero) eps)))) ∧
      (∀ p, (∀ i, i < B → p ≠ base + i * W) → out'[p]? = out[p]?) := by
  unfold l2Column
  have h1 := loop_inv (f := fun sum i => do
    let v ← rd x (base + i * W)
    .ok (A.add sum (A.mul v v))) (n := B) (s := A.zero)
    (fun k s => s = (List.range k).foldl (fun s j => A.add s (A.mul (X j) (X j))) A.zero) rfl
    (by
      intro i s hi hs
      refine ⟨_, by rw [rd_ok (hx i hi)]; rfl, ?_⟩
      simp only [foldl_range_succ, hs])
  obtain ⟨sum, e1, hsum⟩ := h1
  rw [e1]
  simp only [Res.bind_ok]
  have h2 := loop_inv (f := fun out i => do
    let v ← rd x (base + i * W)
    wr out (base + i * W) (A.div v (A.sqrt (A.add sum eps)))) (n := B) (s := out)
    (fun k o => o.length = out.length ∧
      (∀ i, i < k → o[base + i * W]? = some (A.div (X i) (A.sqrt (A.add sum eps)))) ∧
      (∀ p, (∀ i, i < k → p ≠ base + i * W) → o[p]? = out[p]?))
    ⟨rfl, by omega, fun _ _ => rfl⟩
    (by
      intro i o hi ⟨ha', hb', hc'⟩
      refine ⟨_, by
        rw [rd_ok (hx i hi)]
        simp only [Res.bind_ok]
        rw [wr_ok _ (by rw [ha']; exact hl i hi)], by simp [ha'], ?_, ?_⟩
      · intro j hj
        rcases Nat.lt_or_ge j i with h | h
        · rw [set_ne (fun hh => by have := col_inj hW hh; omega)]; exact hb' j h
        · rw [show j = i by omega, set_eq (by rw [ha']; exact hl i hi)]
      · intro p hp
        rw [set_ne (fun hh => hp i (by omega) hh.symm)]
        exact hc' p fun j hj => hp j (by omega))
  obtain ⟨o2, e2, ha2, hb2, hc2⟩ := h2
  exact ⟨o2, e2, ha2, fun i hi => by rw [hb2 i hi, hsum], hc2⟩

end Verif.Kernels
