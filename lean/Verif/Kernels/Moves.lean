import Verif.Core.Res
/-!
# Data-moving kernels as sequences of element copies

A data-moving kernel performs a sequence of assignments `pdst[d] = psrc[s]` between two distinct buffers.
The model of a kernel is the sequence of pairs `(d, s)` its loops produce; executing it on concrete
buffers is `runMoves`. An index outside its buffer is undefined behaviour.
-/
namespace Verif.Kernels
open Verif.Core

variable {α : Type}

/-- `pdst[d] = psrc[s]` for every pair in order -/
def runMoves (src : List α) : List (Nat × Nat) → List α → Res (List α)
  | [], dst => .ok dst
  | (d, s) :: ms, dst =>
    match src[s]? with
    | none => .ub
    | some v => if d < dst.length then runMoves src ms (dst.set d v) else .ub

/-- an `int` used as an index: negative is before the buffer -/
def idxNat (i : Int) : Res Nat := if 0 ≤ i then .ok i.toNat else .ub

theorem runMoves_spec (src : List α) (f : Nat → Nat) (ms : List (Nat × Nat)) (dst : List α)
    (hf : ∀ m ∈ ms, m.2 = f m.1) (hs : ∀ m ∈ ms, m.2 < src.length) (hd : ∀ m ∈ ms, m.1 < dst.length) :
    ∃ out, runMoves src ms dst = .ok out ∧ out.length = dst.length ∧
      (∀ d, d ∈ ms.map Prod.fst → out[d]? = src[f d]?) ∧
      (∀ d, d ∉ ms.map Prod.fst → out[d]? = dst[d]?) := by
  induction ms generalizing dst with
  | nil => exact ⟨dst, rfl, rfl, by simp, by simp⟩
  | cons m ms ih =>
    obtain ⟨d, s⟩ := m
    have h1 : s = f d := hf (d, s) (by simp)
    have h2 : s < src.length := hs (d, s) (by simp)
    have h3 : d < dst.length := hd (d, s) (by simp)
    obtain ⟨out, e, el, ein, eout⟩ := ih (dst.set d src[s]) (fun m hm => hf m (by simp [hm]))
      (fun m hm => hs m (by simp [hm])) (fun m hm => by simpa using hd m (by simp [hm]))
    refine ⟨out, ?_, by simpa using el, ?_, ?_⟩
    · simp only [runMoves, List.getElem?_eq_getElem h2, h3, if_true, e]
    · intro x hx
      by_cases hm : x ∈ ms.map Prod.fst
      · exact ein x hm
      · simp only [List.map_cons, List.mem_cons, hm, or_false] at hx
        subst hx
        rw [eout _ hm, List.getElem?_set_self h3, ← h1, List.getElem?_eq_getElem h2]
    · intro x hx
      simp only [List.map_cons, List.mem_cons, not_or] at hx
      rw [eout x hx.2, List.getElem?_set_ne (by omega)]

/-- the same for a sequence of copies in which no two copies disagree on a destination -/
theorem runMoves_rel (src : List α) (ms : List (Nat × Nat)) (dst : List α)
    (hf : ∀ m ∈ ms, ∀ m' ∈ ms, m.1 = m'.1 → m.2 = m'.2) (hs : ∀ m ∈ ms, m.2 < src.length)
    (hd : ∀ m ∈ ms, m.1 < dst.length) :
    ∃ out, runMoves src ms dst = .ok out ∧ out.length = dst.length ∧
      (∀ m ∈ ms, out[m.1]? = src[m.2]?) ∧ (∀ d, d ∉ ms.map Prod.fst → out[d]? = dst[d]?) := by
  have key : ∀ m ∈ ms, m.2 = ((ms.find? fun x => x.1 == m.1).map Prod.snd).getD 0 := by
    intro m hm
    cases h : ms.find? fun x => x.1 == m.1 with
    | none =>
      rw [List.find?_eq_none] at h
      exact absurd (by simp) (h m hm)
    | some x =>
      have h1 := List.mem_of_find?_eq_some h
      have h2 := List.find?_some h
      simp only [beq_iff_eq] at h2
      simp [hf m hm x h1 h2.symm]
  obtain ⟨out, e, el, ein, eout⟩ := runMoves_spec src
    (fun d => ((ms.find? fun x => x.1 == d).map Prod.snd).getD 0) ms dst key hs hd
  refine ⟨out, e, el, ?_, eout⟩
  intro m hm
  rw [ein m.1 (List.mem_map_of_mem hm), key m hm]

end Verif.Kernels
