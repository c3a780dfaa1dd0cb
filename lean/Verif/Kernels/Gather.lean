import Verif.Core.Shape
import Verif.Core.ShapeSpec
import Verif.Core.ShapeLemmas
import Verif.Kernels.Moves
/-!
# Kernels that walk the output with a `ShapeIterator`

Several CPU kernels run `for (i = 0; i < count; ++i) { … out[i] = in[f(coordinate)]; ++it; }`, where `it` is a
`ShapeIterator` over the output shape: strided_slice.cpp:39-51, broadcast.cpp, pad.cpp. This file has that loop once,
with the computation of the source index as a parameter.
-/
namespace Verif.Kernels
open Verif.Core Verif.Spec

/-- `n` iterations left, at position `i` with iterator coordinate `c`, e.g. strided_slice.cpp:39-51. -/
def gatherLoop (src : List Int → Res Nat) (shape : List Int) : Nat → Nat → List Int → Res (List (Nat × Nat))
  | 0, _, _ => .ok []
  | n + 1, i, c => do
    let s ← src c
    let ms ← gatherLoop src shape n (i + 1) (increase shape c)
    .ok ((i, s) :: ms)

theorem gatherLoop_ok {s : List Nat} (hp : ∀ x ∈ s, 0 < x) (src : List Int → Res Nat) (f : Nat → Nat)
    (h : ∀ j, j < prod s → src (ints (unlin s j)) = .ok (f j)) (n i : Nat) (hn : i + n ≤ prod s) :
    gatherLoop src (ints s) n i (ints (unlin s (i % prod s))) =
      .ok ((List.range n).map fun k => (i + k, f (i + k))) := by
  induction n generalizing i with
  | zero => rfl
  | succ n ih =>
    unfold gatherLoop
    rw [Nat.mod_eq_of_lt (by omega), h i (by omega)]
    simp only [Res.bind_ok]
    have := increase_unlin hp i
    rw [Nat.mod_eq_of_lt (show i < prod s by omega)] at this
    rw [this, ih (i + 1) (by omega)]
    simp only [Res.bind_ok]
    rw [List.range_succ_eq_map]
    simp [Function.comp_def, Nat.add_comm, Nat.add_left_comm]

/-- The whole loop from the zero coordinate; extents may be zero. -/
theorem gather_ok {α : Type} {s : List Nat} (src : List Int → Res Nat) (g : List Nat → Nat) (data dst : List α)
    (h : ∀ c, InBounds s c → src (ints c) = .ok (g c) ∧ g c < data.length) (hd : dst.length = prod s) :
    ∃ ms out, gatherLoop src (ints s) (prod s) 0 (iterStart (ints s)) = .ok ms ∧
      runMoves data ms dst = .ok out ∧ out.length = prod s ∧
      ∀ c, InBounds s c → out[lin s c]? = data[g c]? := by
  by_cases hp : ∀ x ∈ s, 0 < x
  · have e := gatherLoop_ok hp src (fun j => g (unlin s j)) (fun j hj => (h _ (unlin_inBounds hj)).1) (prod s) 0
      (by omega)
    rw [iterStart_unlin hp]
    obtain ⟨out, e1, e2, e3, -⟩ := runMoves_spec data (fun j => g (unlin s j))
      ((List.range (prod s)).map fun k => (0 + k, g (unlin s (0 + k)))) dst
      (by simp) (by simp only [List.mem_map, List.mem_range]
                    rintro m ⟨k, hk, rfl⟩
                    exact (h _ (unlin_inBounds (by omega))).2)
      (by simp only [List.mem_map, List.mem_range]
          rintro m ⟨k, hk, rfl⟩
          show 0 + k < dst.length
          omega)
    refine ⟨_, out, e, e1, by omega, ?_⟩
    intro c hc
    have hl := lin_lt hc
    rw [e3 (lin s c) (by simp; exact hl), unlin_lin hc]
  · have h0 : prod s = 0 := by
      rcases Nat.eq_zero_or_pos (prod s) with h0 | h0
      · exact h0
      · exfalso
        apply hp
        intro x hx
        rcases Nat.eq_zero_or_pos x with rfl | h1
        · exfalso
          obtain ⟨a, b, rfl⟩ := List.append_of_mem hx
          rw [prod_append] at h0
          simp [prod] at h0
        · exact h1
    rw [h0]
    refine ⟨[], dst, rfl, rfl, by omega, ?_⟩
    intro c hc
    have := lin_lt hc
    omega

end Verif.Kernels
