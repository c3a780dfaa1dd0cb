import Verif.Kernels.Channel
import Verif.Kernels.ReduceLemmas
/-! # Lemmas about the kernels with coefficients per channel -/
namespace Verif.Kernels
open Verif.Core Verif.Spec

variable {α : Type}

/-- a kernel that handles one block of `W` consecutive cells at a time -/
theorem blocks_ok {A B W : Nat} (f : List α → Nat → Nat → Res (List α)) (init : List α) (g : Nat → Nat → Nat → α)
    (h0 : init.length = A * B * W)
    (h : ∀ out i k, out.length = A * B * W → i < A → k < B →
      (∀ m, m < W → out[(i * B + k) * W + m]? = init[(i * B + k) * W + m]?) →
      ∃ out', f out i k = .ok out' ∧ out'.length = A * B * W ∧
        (∀ m, m < W → out'[(i * B + k) * W + m]? = some (g i k m)) ∧
        (∀ p, (∀ m, m < W → p ≠ (i * B + k) * W + m) → out'[p]? = out[p]?)) :
    ∃ out', loop (fun out i => loop (fun out k => f out i k) B out) A init = .ok out' ∧ out'.length = A * B * W ∧
      ∀ i k m, i < A → k < B → m < W → out'[(i * B + k) * W + m]? = some (g i k m) := by
  have hne : ∀ {n i w n' i' w' : Nat}, i < B → w < W → i' < B → w' < W → (n, i) ≠ (n', i') →
      (n * B + i) * W + w ≠ (n' * B + i') * W + w' := by
    intro n i w n' i' w' hi hw hi' hw' hd he
    have h1 := cell2_inj hw hw' he
    have h2 := cell2_inj hi hi' h1.1
    exact hd (by rw [h2.1, h2.2])
  have := loop_inv (f := fun out i => loop (fun out k => f out i k) B out) (n := A) (s := init)
    (fun j out => out.length = A * B * W ∧
      ∀ i k m, k < B → m < W → out[(i * B + k) * W + m]? = if i < j then some (g i k m) else init[(i * B + k) * W + m]?)
    ⟨h0, by simp⟩
    (by
      intro j out hj ⟨hl, hs⟩
      have := loop_inv (f := fun out k => f out j k) (n := B) (s := out)
        (fun q out => out.length = A * B * W ∧
          ∀ i k m, k < B → m < W → out[(i * B + k) * W + m]? =
            if i < j ∨ i = j ∧ k < q then some (g i k m) else init[(i * B + k) * W + m]?)
        ⟨hl, fun i k m hk hm => by rw [hs i k m hk hm]; simp⟩
        (by
          intro q out hq ⟨hl, hs⟩
          obtain ⟨out', e, hl', hv, hr⟩ := h out j q hl hj hq (fun m hm => by rw [hs j q m hq hm]; simp)
          refine ⟨out', e, hl', fun i k m hk hm => ?_⟩
          by_cases he : i = j ∧ k = q
          · obtain ⟨rfl, rfl⟩ := he
            rw [hv m hm]; simp
          · rw [hr _ fun m' hm' => hne hk hm hq hm' (by simp; omega), hs i k m hk hm]
            by_cases h1 : i < j ∨ i = j ∧ k < q
            · rw [if_pos h1, if_pos (by omega)]
            · rw [if_neg h1, if_neg (by omega)])
      obtain ⟨out', e, hl', hv⟩ := this
      refine ⟨out', e, hl', fun i k m hk hm => ?_⟩
      rw [hv i k m hk hm]
      by_cases h1 : i < j + 1
      · rw [if_pos h1, if_pos (by omega)]
      · rw [if_neg h1, if_neg (by omega)])
  obtain ⟨out', e, hl, hv⟩ := this
  exact ⟨out', e, hl, fun i k m hi hk hm => by rw [hv i k m hk hm, if_pos hi]⟩

theorem chanGeneric_ok (coef : Nat → Res (Elem α)) (G : Nat → Elem α) (x : List α) (A B W : Nat) (X : Nat → Nat → Nat → α)
    (hc : ∀ k, k < B → coef k = .ok (G k)) (hl : x.length = A * B * W)
    (hx : ∀ i k m, i < A → k < B → m < W → x[(i * B + k) * W + m]? = some (X i k m)) :
    ∃ out, chanGeneric coef x A B W = .ok out ∧ out.length = A * B * W ∧
      ∀ i k m, i < A → k < B → m < W → out[(i * B + k) * W + m]? = some ((G k).one (X i k m)) := by
  unfold chanGeneric
  refine blocks_ok (fun out i k => do
      let g ← coef k
      loop (fun out m => do
        let v ← rd out (i * (W * B) + k * W + m)
        wr out (i * (W * B) + k * W + m) (g.one v)) W out) x (fun i k m => (G k).one (X i k m)) hl ?_
  intro out i k hol hi hk hinit
  rw [hc k hk]
  simp only [Res.bind_ok]
  have hoff : ∀ m, i * (W * B) + k * W + m = (i * B + k) * W + m := by intro m; ring
  have hlt : ∀ m, m < W → (i * B + k) * W + m < out.length := by intro m hm; rw [hol]; exact radix3_lt hi hk hm
  have := loop_inv (f := fun out m => do
        let v ← rd out (i * (W * B) + k * W + m)
        wr out (i * (W * B) + k * W + m) ((G k).one v)) (n := W) (s := out)
    (fun j o => o.length = out.length ∧
      (∀ m, m < W → o[(i * B + k) * W + m]? = some (if m < j then (G k).one (X i k m) else X i k m)) ∧
      (∀ p, (∀ m, m < W → p ≠ (i * B + k) * W + m) → o[p]? = out[p]?))
    ⟨rfl, fun m hm => by rw [hinit m hm, hx i k m hi hk hm]; simp, fun _ _ => rfl⟩
    (by
      intro j o hj ⟨h1, h2, h3⟩
      have hv := h2 j hj
      simp only [Nat.lt_irrefl, if_false] at hv
      refine ⟨_, by
        rw [hoff, rd_ok hv]
        simp only [Res.bind_ok]
        rw [wr_ok _ (by rw [h1]; exact hlt j hj)], by simp [h1], fun m hm => ?_, fun p hp => ?_⟩
      · by_cases hm' : m = j
        · subst hm'; rw [set_eq (by rw [h1]; exact hlt _ hj)]; simp
        · rw [set_ne (by omega), h2 m hm]
          congr 1
          by_cases h4 : m < j
          · rw [if_pos h4, if_pos (by omega)]
          · rw [if_neg h4, if_neg (by omega)]
      · rw [set_ne (fun h => hp j hj h.symm)]; exact h3 p hp)
  obtain ⟨o, e, h1, h2, h3⟩ := this
  exact ⟨o, e, by rw [h1, hol], fun m hm => by rw [h2 m hm, if_pos hm], h3⟩

theorem chanBlock_ok (g : Elem α) (x : List α) (off W : Nat) (out : List α) (X : Nat → α)
    (hx : ∀ m, m < W → x[off + m]? = some (X m)) (hl : ∀ m, m < W → off + m < out.length) :
    ∃ out', chanBlock g x off W out = .ok out' ∧ out'.length = out.length ∧
      (∀ m, m < W → out'[off + m]? = some ((if m < W / 4 * 4 then g.lane else g.one) (X m))) ∧
      (∀ p, (∀ m, m < W → p ≠ off + m) → out'[p]? = out[p]?) := by
  unfold chanBlock
  have hW : W / 4 * 4 ≤ W := Nat.div_mul_le_self W 4
  have h1 := loop_inv (f := fun out q => do
    let a ← rd x (off + 4 * q)
    let b ← rd x (off + (4 * q + 1))
    let c ← rd x (off + (4 * q + 2))
    let d ← rd x (off + (4 * q + 3))
    let out ← wr out (off + 4 * q) (g.lane a)
    let out ← wr out (off + (4 * q + 1)) (g.lane b)
    let out ← wr out (off + (4 * q + 2)) (g.lane c)
    wr out (off + (4 * q + 3)) (g.lane d)) (n := W / 4) (s := out)
    (fun q o => o.length = out.length ∧ (∀ m, m < 4 * q → o[off + m]? = some (g.lane (X m))) ∧
      (∀ p, (∀ m, m < 4 * q → p ≠ off + m) → o[p]? = out[p]?))
    ⟨rfl, by omega, fun _ _ => rfl⟩
    (by
      intro q o hq ⟨h1, h2, h3⟩
      have hb : 4 * q + 3 < W := by omega
      have e0 : o.length = out.length := h1
      have l0 := hl (4 * q) (by omega)
      have l1 := hl (4 * q + 1) (by omega)
      have l2 := hl (4 * q + 2) (by omega)
      have l3 := hl (4 * q + 3) (by omega)
      refine ⟨_, by
        rw [rd_ok (hx (4 * q) (by omega)), rd_ok (hx (4 * q + 1) (by omega)), rd_ok (hx (4 * q + 2) (by omega)),
          rd_ok (hx (4 * q + 3) (by omega))]
        simp only [Res.bind_ok]
        rw [wr_ok _ (by omega)]
        simp only [Res.bind_ok]
        rw [wr_ok _ (by simp; omega)]
        simp only [Res.bind_ok]
        rw [wr_ok _ (by simp; omega)]
        simp only [Res.bind_ok]
        rw [wr_ok _ (by simp; omega)], by simp [h1], fun m hm => ?_, fun p hp => ?_⟩
      · by_cases c3 : m = 4 * q + 3
        · rw [c3, set_eq (by simp; omega)]
        rw [set_ne (by omega)]
        by_cases c2 : m = 4 * q + 2
        · rw [c2, set_eq (by simp; omega)]
        rw [set_ne (by omega)]
        by_cases c1 : m = 4 * q + 1
        · rw [c1, set_eq (by simp; omega)]
        rw [set_ne (by omega)]
        by_cases c0 : m = 4 * q
        · rw [c0, set_eq (by omega)]
        rw [set_ne (by omega)]
        exact h2 m (by omega)
      · have p0 := hp (4 * q) (by omega)
        have p1 := hp (4 * q + 1) (by omega)
        have p2 := hp (4 * q + 2) (by omega)
        have p3 := hp (4 * q + 3) (by omega)
        rw [set_ne (by omega), set_ne (by omega), set_ne (by omega), set_ne (by omega)]
        exact h3 p fun m hm => hp m (by omega))
  obtain ⟨o1, e1, a1, a2, a3⟩ := h1
  rw [e1]
  simp only [Res.bind_ok]
  have h2 := loop_inv (f := fun out j => do
    let v ← rd x (off + (W / 4 * 4 + j))
    wr out (off + (W / 4 * 4 + j)) (g.one v)) (n := W - W / 4 * 4) (s := o1)
    (fun j o => o.length = out.length ∧ (∀ m, m < W / 4 * 4 + j → o[off + m]? = some ((if m < W / 4 * 4 then g.lane else g.one) (X m))) ∧
      (∀ p, (∀ m, m < W / 4 * 4 + j → p ≠ off + m) → o[p]? = out[p]?))
    ⟨a1, fun m hm => by rw [if_pos (by omega)]; exact a2 m (by omega), fun p hp => a3 p fun m hm => hp m (by omega)⟩
    (by
      intro j o hj ⟨h1, h2, h3⟩
      have l0 := hl (W / 4 * 4 + j) (by omega)
      refine ⟨_, by
        rw [rd_ok (hx (W / 4 * 4 + j) (by omega))]
        simp only [Res.bind_ok]
        rw [wr_ok _ (by omega)], by simp [h1], fun m hm => ?_, fun p hp => ?_⟩
      · by_cases c0 : m = W / 4 * 4 + j
        · rw [c0, set_eq (by omega), if_neg (by omega)]
        · rw [set_ne (by omega)]; exact h2 m (by omega)
      · have := hp (W / 4 * 4 + j) (by omega)
        rw [set_ne (by omega)]; exact h3 p fun m hm => hp m (by omega))
  obtain ⟨o2, e2, b1, b2, b3⟩ := h2
  exact ⟨o2, e2, b1, fun m hm => b2 m (by omega), fun p hp => b3 p fun m hm => hp m (by omega)⟩

theorem chanFloat_ok (coef : Nat → Res (Elem α)) (G : Nat → Elem α) (x dst : List α) (A B W : Nat) (X : Nat → Nat → Nat → α)
    (hc : ∀ k, k < B → coef k = .ok (G k)) (hl : dst.length = A * B * W)
    (hx : ∀ i k m, i < A → k < B → m < W → x[(i * B + k) * W + m]? = some (X i k m)) :
    ∃ out, chanFloat coef x A B W dst = .ok out ∧ out.length = A * B * W ∧
      ∀ i k m, i < A → k < B → m < W → out[(i * B + k) * W + m]? = some ((if m < W / 4 * 4 then (G k).lane else (G k).one) (X i k m)) := by
  unfold chanFloat
  refine blocks_ok (fun out i k => do
      let g ← coef k
      chanBlock g x (i * (W * B) + k * W) W out) dst (fun i k m => (if m < W / 4 * 4 then (G k).lane else (G k).one) (X i k m)) hl ?_
  intro out i k hol hi hk _
  rw [hc k hk]
  simp only [Res.bind_ok]
  have hoff : i * (W * B) + k * W = (i * B + k) * W := by ring
  rw [hoff]
  obtain ⟨o, e, h1, h2, h3⟩ := chanBlock_ok (G k) x ((i * B + k) * W) W out (X i k) (fun m hm => hx i k m hi hk hm)
    (fun m hm => by rw [hol]; exact radix3_lt hi hk hm)
  exact ⟨o, e, by rw [h1, hol], h2, h3⟩

end Verif.Kernels
