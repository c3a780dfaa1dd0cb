import Verif.Kernels.DataMove
import Mathlib.Tactic.Ring
import Mathlib.Data.List.Basic
/-! # Lemmas about the element-moving operators -/
namespace Verif.Kernels
open Verif.Core Verif.Spec

variable {α : Type}

theorem lin3 (A B W n i t : Nat) : lin [A, B, W] [n, i, t] = (n * B + i) * W + t := by
  simp only [lin, prod]; ring

theorem radix3_lt {A B W n i t : Nat} (hn : n < A) (hi : i < B) (ht : t < W) : (n * B + i) * W + t < A * B * W := by
  have : InBounds [A, B, W] [n, i, t] := ⟨hn, hi, ht, trivial⟩
  have h := lin_lt this
  rw [lin3] at h
  simp only [prod] at h
  calc _ < A * (B * (W * 1)) := h
    _ = A * B * W := by ring

theorem radix3_inj {B W n i t n' i' t' : Nat} (hi : i < B) (ht : t < W) (hi' : i' < B) (ht' : t' < W)
    (h : (n * B + i) * W + t = (n' * B + i') * W + t') : n = n' ∧ i = i' ∧ t = t' := by
  have h1 : InBounds [n + n' + 1, B, W] [n, i, t] := ⟨by omega, hi, ht, trivial⟩
  have h2 : InBounds [n + n' + 1, B, W] [n', i', t'] := ⟨by omega, hi', ht', trivial⟩
  have := lin_inj h1 h2 (by rw [lin3, lin3, h])
  simpa using this

/-- copies of `A × B` blocks of `W` elements to consecutive places, in any order -/
theorem runMoves_blocks (src : List α) (A B W : Nat) (f : Nat → Nat → Nat → Nat) (ms : List (Nat × Nat)) (dst : List α)
    (hms : ∀ m, m ∈ ms ↔ ∃ n i t, n < A ∧ i < B ∧ t < W ∧ m = ((n * B + i) * W + t, f n i t))
    (hf : ∀ n i t, n < A → i < B → t < W → f n i t < src.length) (hd : dst.length = A * B * W) :
    ∃ out, runMoves src ms dst = .ok out ∧ out.length = A * B * W ∧
      ∀ n i t, n < A → i < B → t < W → out[(n * B + i) * W + t]? = src[f n i t]? := by
  obtain ⟨out, e, el, ev, -⟩ := runMoves_rel src ms dst
    (by
      intro m hm m' hm' hh
      obtain ⟨n, i, t, a, b, c, rfl⟩ := (hms m).1 hm
      obtain ⟨n', i', t', a', b', c', rfl⟩ := (hms m').1 hm'
      obtain ⟨rfl, rfl, rfl⟩ := radix3_inj b c b' c' hh
      rfl)
    (by
      intro m hm
      obtain ⟨n, i, t, a, b, c, rfl⟩ := (hms m).1 hm
      exact hf n i t a b c)
    (by
      intro m hm
      obtain ⟨n, i, t, a, b, c, rfl⟩ := (hms m).1 hm
      rw [hd]; exact radix3_lt a b c)
  refine ⟨out, e, by omega, ?_⟩
  intro n i t a b c
  exact ev _ ((hms _).2 ⟨n, i, t, a, b, c, rfl⟩)

theorem runMoves_ub (src : List α) (ms : List (Nat × Nat)) (dst : List α) (h : ∃ m ∈ ms, src.length ≤ m.2) :
    runMoves src ms dst = .ub := by
  induction ms generalizing dst with
  | nil => simp at h
  | cons m ms ih =>
    obtain ⟨d, s⟩ := m
    simp only [runMoves]
    by_cases hs : s < src.length
    · rw [List.getElem?_eq_getElem hs]
      simp only
      split
      · apply ih
        obtain ⟨m, hm, h1⟩ := h
        rcases List.mem_cons.1 hm with rfl | hm
        · simp only at h1; omega
        · exact ⟨m, hm, h1⟩
      · rfl
    · rw [List.getElem?_eq_none (by omega)]

theorem runMovesI_ub (src : List α) (ms : List (Nat × Int)) (dst : List α)
    (h : ∃ m ∈ ms, m.2 < 0 ∨ (src.length : Int) ≤ m.2) : runMovesI src ms dst = .ub := by
  unfold runMovesI
  split
  · rename_i hall
    obtain ⟨m, hm, h⟩ := h
    have h0 := List.all_eq_true.1 hall m hm
    simp only [decide_eq_true_eq] at h0
    apply runMoves_ub
    exact ⟨(m.1, m.2.toNat), List.mem_map.2 ⟨m, hm, rfl⟩, by simp only; omega⟩
  · rfl

theorem runMovesI_eq (src : List α) (ms : List (Nat × Int)) (ns : List (Nat × Nat)) (dst : List α)
    (h : ms = ns.map fun m => (m.1, (m.2 : Int))) : runMovesI src ms dst = runMoves src ns dst := by
  subst h
  unfold runMovesI
  rw [if_pos (by simp)]
  congr 1
  rw [List.map_map]
  conv => rhs; rw [← List.map_id ns]
  apply List.map_congr_left
  intro m _
  simp

theorem getD_mid' (pre post : List Nat) (a : Nat) : (pre ++ a :: post).getD pre.length 0 = a := by
  simp [List.getD]

theorem take_mid (pre post : List Nat) (a : Nat) : (pre ++ a :: post).take pre.length = pre := by simp

theorem drop_mid (pre post : List Nat) (a : Nat) : (pre ++ a :: post).drop (pre.length + 1) = post := by
  rw [List.drop_append]; simp

theorem prod_mid' (pre post : List Nat) (a : Nat) : prod (pre ++ a :: post) = prod pre * a * prod post := by
  rw [prod_append, prod, Nat.mul_assoc]

theorem lin_mid' {pre post u v : List Nat} {a i : Nat} (h : u.length = pre.length) :
    lin (pre ++ a :: post) (u ++ i :: v) = (lin pre u * a + i) * prod post + lin post v := by
  rw [lin_append h, lin, prod]; ring

theorem lin_app3 {pre mid post u v w : List Nat} (h : u.length = pre.length) (h2 : v.length = mid.length) :
    lin (pre ++ mid ++ post) (u ++ v ++ w) = (lin pre u * prod mid + lin mid v) * prod post + lin post w := by
  rw [lin_append (by simp [h, h2]), lin_append h]

theorem prod_app3 (pre mid post : List Nat) : prod (pre ++ mid ++ post) = prod pre * prod mid * prod post := by
  rw [prod_append, prod_append]

/-! ## gather -/

theorem fixIndices_ok {axis : Int} {extent : Nat} {idx : List Int} {is : List Nat} (hl : is.length = idx.length)
    (h : ∀ k (hk : k < idx.length), idx[k] = (is.getD k 0 : Int) ∨ (0 ≤ axis ∧ idx[k] = (is.getD k 0 : Int) - extent))
    (hlt : ∀ i ∈ is, i < extent) : fixIndices axis extent idx = .ok (ints is) := by
  induction idx generalizing is with
  | nil => cases is with
    | nil => rfl
    | cons _ _ => simp at hl
  | cons a idx ih =>
    cases is with
    | nil => simp at hl
    | cons b is =>
      have h0 := h 0 (by simp)
      have hb := hlt b (by simp)
      simp only [List.getElem_cons_zero, List.getD_cons_zero] at h0
      have e : fixIndex axis extent a = .ok (b : Int) := by
        unfold fixIndex
        rcases h0 with h0 | ⟨h1, h0⟩
        · rw [if_neg (by omega), h0]
        · rw [if_pos (by omega), if_neg (by omega), h0]; congr 1; omega
      unfold fixIndices
      rw [e, ih (is := is) (by simpa using hl) (fun k hk => by
        have := h (k + 1) (by simp; omega)
        simpa using this) (fun i hi => hlt i (by simp [hi]))]
      rfl

theorem gatherMoves_nat (number extent width : Nat) (is : List Nat) :
    gatherMoves number extent width (ints is) =
      ((List.range is.length).flatMap fun i => (List.range number).flatMap fun n => (List.range width).map fun t =>
        ((n * is.length + i) * width + t, (n * extent + is.getD i 0) * width + t)).map fun m => (m.1, (m.2 : Int)) := by
  unfold gatherMoves
  rw [ints_length, List.map_flatMap]
  apply List.flatMap_congr
  intro i hi
  rw [List.map_flatMap]
  apply List.flatMap_congr
  intro n _
  rw [List.map_map]
  apply List.map_congr_left
  intro t _
  have : (ints is).getD i 0 = (is.getD i 0 : Int) := by
    simp only [List.mem_range] at hi
    simp [List.getD, ints, hi]
  simp only [Function.comp]
  rw [this]
  push_cast
  rfl

theorem gather_blocks (src : List α) (number extent width : Nat) (is : List Nat) (dst : List α)
    (hlt : ∀ i ∈ is, i < extent) (hs : src.length = number * extent * width)
    (hd : dst.length = number * is.length * width) :
    ∃ out, runMovesI src (gatherMoves number extent width (ints is)) dst = .ok out ∧
      out.length = number * is.length * width ∧
      ∀ n i t, n < number → i < is.length → t < width →
        out[(n * is.length + i) * width + t]? = src[(n * extent + is.getD i 0) * width + t]? := by
  rw [runMovesI_eq _ _ _ _ (gatherMoves_nat number extent width is)]
  refine runMoves_blocks src number is.length width (fun n i t => (n * extent + is.getD i 0) * width + t) _ dst ?_ ?_ hd
  · intro m
    simp only [List.mem_flatMap, List.mem_range, List.mem_map]
    constructor
    · rintro ⟨i, hi, n, hn, t, ht, rfl⟩; exact ⟨n, i, t, hn, hi, ht, rfl⟩
    · rintro ⟨n, i, t, hn, hi, ht, rfl⟩; exact ⟨i, hi, n, hn, t, ht, rfl⟩
  · intro n i t hn hi ht
    rw [hs]
    refine radix3_lt hn (hlt _ ?_) ht
    simp [List.getD, hi]

/-! ## gather_v2 -/

theorem ints_replicate (n : Nat) : ints (List.replicate n 0) = List.replicate n 0 := by simp [ints]

/-- the index of a tuple followed by zeros -/
theorem lin_zeros {s1 s2 c1 : List Nat} (h : c1.length = s1.length) :
    lin (s1 ++ s2) (c1 ++ List.replicate s2.length 0) = lin s1 c1 * prod s2 := by
  rw [lin_append h]
  have : ∀ s : List Nat, lin s (List.replicate s.length 0) = 0 := by
    intro s
    induction s with
    | nil => rfl
    | cons a s ih => simp [List.replicate_succ, lin, ih]
  rw [this]; rfl

theorem inBounds_zeros {s : List Nat} (h : ∀ x ∈ s, 0 < x) : InBounds s (List.replicate s.length 0) := by
  induction s with
  | nil => trivial
  | cons a s ih => exact ⟨h a (by simp), ih fun x hx => h x (by simp [hx])⟩

theorem gatherNdLoop_ok {s1 s2 : List Nat} {idx : List Int} (row : Nat → List Nat)
    (hp : ∀ x ∈ s1 ++ s2, 0 < x) (hb : prod (s1 ++ s2) ≤ 2147483647) (l : List Nat)
    (h : ∀ i ∈ l, InBounds s1 (row i) ∧ (idx.drop (i * s1.length)).take s1.length = ints (row i)) :
    gatherNdLoop (ints (wts (s1 ++ s2))) (s1 ++ s2).length s1.length (prod s2) idx l =
      .ok ((l.flatMap fun i => (List.range (prod s2)).map fun t =>
        (i * prod s2 + t, lin s1 (row i) * prod s2 + t)).map fun m => (m.1, (m.2 : Int))) := by
  induction l with
  | nil => rfl
  | cons i l ih =>
    obtain ⟨h1, h2⟩ := h i (by simp)
    unfold gatherNdLoop
    simp only
    rw [h2, show (s1 ++ s2).length - s1.length = s2.length by simp, ← ints_replicate, ← ints_append,
      toIndex_ok (s := s1 ++ s2) ((inBounds_append h1.length).2 ⟨h1, inBounds_zeros fun x hx => hp x (by simp [hx])⟩) hb,
      lin_zeros h1.length]
    simp only [Res.bind_ok]
    rw [ih fun j hj => h j (by simp [hj])]
    simp only [Res.bind_ok, List.flatMap_cons, List.map_append, List.map_map]
    congr 2

/-! ## gather_elements -/

theorem gatherElemLoop_ok (extent width : Nat) (is : List Nat) (l : List Nat) (h : ∀ o ∈ l, o < is.length) :
    gatherElemLoop extent width (ints is) l = .ok ((l.map fun o =>
      (o, (o / width * extent + is.getD o 0) * width + o % width)).map fun m => (m.1, (m.2 : Int))) := by
  induction l with
  | nil => rfl
  | cons o l ih =>
    have ho := h o (by simp)
    have e : (ints is)[o]? = some (is.getD o 0 : Int) := by simp [ints, List.getD, ho]
    unfold gatherElemLoop
    rw [e]
    simp only
    rw [ih fun x hx => h x (by simp [hx])]
    simp only [Res.bind_ok, List.map_cons]
    congr 3

/-! ## scatter -/

theorem scatterLoop_append (block : Nat) (idx : List Int) (u : List α) (l : List Nat) (i : Nat) (out : List α) :
    scatterLoop block idx u (l ++ [i]) out = (scatterLoop block idx u l out).bind (scatterLoop block idx u [i]) := by
  induction l generalizing out with
  | nil => rfl
  | cons j l ih =>
    simp only [List.cons_append]
    rw [scatterLoop, scatterLoop]
    split
    · rfl
    · split
      · rfl
      · cases hr : runMoves u _ out with
        | ok o => simp only [Res.bind_ok]; exact ih o
        | err => rfl
        | ub => rfl

theorem scatter_ok (n0 block m : Nat) (is : List Nat) (u data : List α) (hm : m ≤ is.length) (hlt : ∀ i ∈ is, i < n0)
    (hu : m * block ≤ u.length) (hd : data.length = n0 * block) :
    ∃ out, scatterLoop block (ints is) u (List.range m) data = .ok out ∧ out.length = n0 * block ∧
      ∀ j t, j < n0 → t < block →
        (∀ i, i < m → is.getD i 0 = j → (∀ i', i < i' → i' < m → is.getD i' 0 ≠ j) →
          out[j * block + t]? = u[i * block + t]?) ∧
        ((∀ i, i < m → is.getD i 0 ≠ j) → out[j * block + t]? = data[j * block + t]?) := by
  induction m with
  | zero => exact ⟨data, rfl, hd, fun j t _ _ => ⟨fun i hi => by omega, fun _ => rfl⟩⟩
  | succ m ih =>
    have hu' : m * block + block ≤ u.length := by rw [← Nat.succ_mul]; exact hu
    obtain ⟨o, e, el, ev⟩ := ih (by omega) (by omega)
    have hmi : m < is.length := by omega
    have hrow : is.getD m 0 < n0 := hlt _ (by simp [List.getD, hmi])
    have hblk : is.getD m 0 * block + block ≤ n0 * block := by
      rw [← Nat.succ_mul]; exact Nat.mul_le_mul_right _ hrow
    obtain ⟨out, e2, el2, hin, hnot⟩ := runMoves_spec u (fun d => m * block + (d - is.getD m 0 * block))
      ((List.range block).map fun t => (is.getD m 0 * block + t, m * block + t)) o
      (by simp only [List.mem_map, List.mem_range]
          rintro _ ⟨t, ht, rfl⟩
          simp)
      (by simp only [List.mem_map, List.mem_range]
          rintro _ ⟨t, ht, rfl⟩
          simp only; omega)
      (by simp only [List.mem_map, List.mem_range]
          rintro _ ⟨t, ht, rfl⟩
          simp only; omega)
    refine ⟨out, ?_, by omega, ?_⟩
    · rw [List.range_succ, scatterLoop_append, e]
      show scatterLoop block (ints is) u [m] o = _
      have hg : (ints is)[m]? = some (is.getD m 0 : Int) := by simp [ints, List.getD, hmi]
      rw [scatterLoop, hg]
      simp only
      rw [if_neg (by omega)]
      simp only [Int.toNat_natCast]
      rw [e2]
      rfl
    · intro j t hj ht
      by_cases hjm : is.getD m 0 = j
      · have h1 : out[j * block + t]? = u[m * block + t]? := by
          rw [hin (j * block + t) (by simp only [List.map_map, List.mem_map, List.mem_range, Function.comp]
                                      exact ⟨t, ht, by rw [hjm]⟩)]
          rw [hjm]; congr 1; omega
        refine ⟨?_, fun h => absurd hjm (h m (by omega))⟩
        intro i hi hij hlast
        have : i = m := by
          by_contra hne
          exact hlast m (by omega) (by omega) hjm
        rw [this, h1]
      · have h1 : out[j * block + t]? = o[j * block + t]? := by
          apply hnot
          simp only [List.map_map, List.mem_map, List.mem_range, Function.comp, not_exists, not_and]
          intro t' ht' he
          have := radix3_inj (n := 0) (n' := 0) (B := n0) (W := block) hrow ht' hj ht (by simpa using he)
          exact hjm this.2.1
        refine ⟨?_, ?_⟩
        · intro i hi hij hlast
          have hne : i ≠ m := by rintro rfl; exact hjm hij
          rw [h1]
          exact (ev j t hj ht).1 i (by omega) hij fun i' a b => hlast i' a (by omega)
        · intro h
          rw [h1]
          exact (ev j t hj ht).2 fun i hi => h i (by omega)

end Verif.Kernels
