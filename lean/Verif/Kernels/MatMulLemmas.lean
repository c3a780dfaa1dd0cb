import Verif.Kernels.MatMul
import Mathlib.Tactic.Linarith
/-! Helper lemmas for the matrix products (C46). -/
namespace Verif.Kernels
open Verif.Core

variable {α : Type}

theorem updAll_append (a b : List (Nat × (α → Res α))) (c : List α) :
    updAll (a ++ b) c = (updAll a c >>= updAll b) := by
  induction a generalizing c with
  | nil => rfl
  | cons u a ih =>
    obtain ⟨i, f⟩ := u
    simp only [List.cons_append, updAll]
    cases readN c i with
    | err => rfl
    | ub => rfl
    | ok v =>
      simp only [Res.bind_ok]
      cases f v with
      | err => rfl
      | ub => rfl
      | ok w => simp only [Res.bind_ok]; exact ih _

theorem updAll_ok (us : List (Nat × (α → Res α))) (c : List α) (g : Nat → α → α) (hnd : (us.map Prod.fst).Nodup)
    (h : ∀ u ∈ us, u.1 < c.length ∧ ∀ v, u.2 v = .ok (g u.1 v)) :
    ∃ out, updAll us c = .ok out ∧ out.length = c.length ∧
      (∀ i ∈ us.map Prod.fst, out[i]? = c[i]?.map (g i)) ∧ ∀ i, i ∉ us.map Prod.fst → out[i]? = c[i]? := by
  induction us generalizing c with
  | nil => exact ⟨c, rfl, rfl, by simp, by simp⟩
  | cons u us ih =>
    obtain ⟨i, f⟩ := u
    obtain ⟨hi, hf⟩ := h (i, f) (by simp)
    simp only at hi hf
    rw [List.map_cons, List.nodup_cons] at hnd
    obtain ⟨out, e, el, e1, e2⟩ := ih (c.set i (g i c[i])) hnd.2 (fun u hu => by
      have := h u (by simp [hu]); simpa using this)
    refine ⟨out, ?_, by simpa using el, ?_, ?_⟩
    · unfold updAll
      rw [readN_ok (List.getElem?_eq_getElem hi), Res.bind_ok, hf, Res.bind_ok]
      exact e
    · intro j hj
      rw [List.map_cons, List.mem_cons] at hj
      rcases hj with rfl | hj
      · rw [e2 _ hnd.1]; simp [hi]
      · have hne : i ≠ j := fun h => hnd.1 (h ▸ hj)
        rw [e1 j hj, List.getElem?_set_ne hne]
    · intro j hj
      rw [List.map_cons, List.mem_cons, not_or] at hj
      rw [e2 j hj.2, List.getElem?_set_ne (Ne.symm hj.1)]

/-- positions `i * ld + j` of an `M × N` block -/
def grid (M N ld : Nat) : List Nat := (List.range M).flatMap fun i => (List.range N).map fun j => i * ld + j

theorem mem_grid {M N ld p : Nat} : p ∈ grid M N ld ↔ ∃ i j, i < M ∧ j < N ∧ p = i * ld + j := by
  simp only [grid, List.mem_flatMap, List.mem_map, List.mem_range]
  constructor
  · rintro ⟨i, hi, j, hj, rfl⟩; exact ⟨i, j, hi, hj, rfl⟩
  · rintro ⟨i, j, hi, hj, rfl⟩; exact ⟨i, hi, j, hj, rfl⟩

theorem pos_inj {N ld i j i' j' : Nat} (hN : N ≤ ld) (hj : j < N) (hj' : j' < N) (h : i * ld + j = i' * ld + j') :
    i = i' ∧ j = j' := by
  have key : ∀ a b, a < ld → (b * ld + a) / ld = b := by
    intro a b ha
    rw [Nat.mul_comm, Nat.mul_add_div (by omega), Nat.div_eq_of_lt ha, Nat.add_zero]
  have hi : i = i' := by rw [← key j i (by omega), ← key j' i' (by omega), h]
  subst hi
  exact ⟨rfl, by omega⟩

theorem grid_nodup {M N ld : Nat} (hN : N ≤ ld) : (grid M N ld).Nodup := by
  unfold grid
  rw [List.nodup_flatMap]
  refine ⟨fun i _ => ?_, ?_⟩
  · apply List.Nodup.map
    · intro a b h; simpa using h
    · exact List.nodup_range
  · apply List.Pairwise.imp_of_mem (R := fun a b => a ≠ b)
    · intro a b _ _ hab
      simp only [List.disjoint_left, Function.onFun, List.mem_map, List.mem_range]
      rintro x ⟨j, hj, rfl⟩ ⟨j', hj', h⟩
      exact hab (pos_inj hN hj' hj h).1.symm
    · exact List.nodup_range

variable [CommSemiring α]

theorem inlineDot_ok (simd : Bool) (n : Nat) (x y : List α) (ox incx oy incy : Nat)
    (hx : ∀ k, k < n → ox + k * incx < x.length) (hy : ∀ k, k < n → oy + k * incy < y.length) :
    inlineDot simd n x ox incx y oy incy =
      .ok (∑ k ∈ Finset.range n, x.getD (ox + k * incx) 0 * y.getD (oy + k * incy) 0) := by
  unfold inlineDot
  have g1 : ∀ k, k < n → x[ox + k * incx]? = some (x.getD (ox + k * incx) 0) := by
    intro k hk; simp [hx k hk]
  have g2 : ∀ k, k < n → y[oy + k * incy]? = some (y.getD (oy + k * incy) 0) := by
    intro k hk; simp [hy k hk]
  cases simd with
  | true =>
    rw [if_pos rfl]
    exact fma4_ok x y _ _ _ _ n g1 g2
  | false =>
    rw [if_neg (by simp), fmaSeq_ok x y _ _ (fun k => x.getD (ox + k * incx) 0) (fun k => y.getD (oy + k * incy) 0) _ 0
      (by simpa using g1) (by simpa using g2), zero_add, sum_range_list]

/-- the `beta * C` step -/
theorem scal_ok (near : α → α → Bool) (M N : Nat) (beta : α) (C : List α) (ldc : Nat)
    (h0 : near beta 0 = true → beta = 0) (h1 : near beta 1 = true → beta = 1) (hl : N ≤ ldc)
    (hC : ∀ i j, i < M → j < N → i * ldc + j < C.length) :
    ∃ out, (if ldc = N then inlineScal near (M * N) beta 0 C else scalRows near N beta ldc (List.range M) C) = .ok out ∧
      out.length = C.length ∧ (∀ i ∈ grid M N ldc, out[i]? = C[i]?.map (· * beta)) ∧
      ∀ i, i ∉ grid M N ldc → out[i]? = C[i]? := by
  have rowsOne : ∀ ms : List Nat, ∀ x : List α, near beta 1 = true → scalRows near N beta ldc ms x = .ok x := by
    intro ms
    induction ms with
    | nil => intro x _; rfl
    | cons m ms ih => intro x h; unfold scalRows inlineScal; rw [if_pos h, Res.bind_ok]; exact ih x h
  by_cases e1 : near beta 1 = true
  · refine ⟨C, ?_, rfl, fun i _ => by rw [h1 e1]; simp, fun _ _ => rfl⟩
    split
    · unfold inlineScal; rw [if_pos e1]
    · exact rowsOne _ _ e1
  · have hf : ∃ f : α → Res α, (∀ v, f v = .ok (v * beta)) ∧
        ∀ n off (x : List α), inlineScal near n beta off x = updAll ((List.range n).map fun i => (off + i, f)) x := by
      by_cases e0 : near beta 0 = true
      · exact ⟨fun _ => .ok 0, fun v => by simp [h0 e0], fun n off x => by
          unfold inlineScal; rw [if_neg e1, if_pos e0]⟩
      · exact ⟨fun v => .ok (v * beta), fun v => rfl, fun n off x => by
          unfold inlineScal; rw [if_neg e1, if_neg e0]⟩
    obtain ⟨f, hf1, hf2⟩ := hf
    have rows : ∀ ms : List Nat, ∀ x : List α, scalRows near N beta ldc ms x =
        updAll (ms.flatMap fun m => (List.range N).map fun i => (m * ldc + i, f)) x := by
      intro ms
      induction ms with
      | nil => intro x; rfl
      | cons m ms ih =>
        intro x
        unfold scalRows
        rw [List.flatMap_cons, updAll_append, hf2]
        congr 1
        funext y
        exact ih y
    have key : (if ldc = N then inlineScal near (M * N) beta 0 C else scalRows near N beta ldc (List.range M) C) =
        updAll ((grid M N ldc).map fun p => (p, f)) C := by
      split
      · rename_i e
        subst e
        rw [hf2, ← range_mul]
        unfold grid
        congr 1
        simp only [Nat.zero_add]
      · rw [rows]
        unfold grid
        rw [List.map_flatMap]
        congr 1
        apply List.flatMap_congr
        intro m _
        rw [List.map_map]; rfl
    rw [key]
    have hm : ((grid M N ldc).map fun p => (p, f)).map Prod.fst = grid M N ldc := by
      rw [List.map_map]
      have : (Prod.fst ∘ fun p : Nat => (p, f)) = id := rfl
      rw [this, List.map_id]
    obtain ⟨out, e, el, e1, e2⟩ := updAll_ok ((grid M N ldc).map fun p => (p, f)) C (fun _ v => v * beta)
      (by rw [hm]; exact grid_nodup hl) (by
        intro u hu
        obtain ⟨p, hp, rfl⟩ := List.mem_map.1 hu
        obtain ⟨i, j, hi, hj, rfl⟩ := mem_grid.1 hp
        exact ⟨hC i j hi hj, hf1⟩)
    rw [hm] at e1 e2
    exact ⟨out, e, el, e1, e2⟩

end Verif.Kernels
