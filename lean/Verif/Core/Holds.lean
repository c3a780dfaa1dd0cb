import Verif.Core.ShapeSpec
import Verif.Core.ShapeLemmas
import Mathlib.Data.List.Basic
/-!
# Tensors as functions of coordinates: the specification

Independent of the code.
-/
namespace Verif.Spec

variable {α : Type}

/-- `data` is the row-major content of the tensor of shape `s` whose element at coordinate `c` is `f c` -/
def Holds (s : List Nat) (data : List α) (f : List Nat → α) : Prop :=
  data.length = prod s ∧ ∀ c, InBounds s c → data[lin s c]? = some (f c)

/-- all coordinates of a shape, in row-major order -/
def coords : List Nat → List (List Nat)
  | [] => [[]]
  | a :: s => (List.range a).flatMap fun i => (coords s).map (i :: ·)

theorem coords_eq (s : List Nat) : coords s = (List.range (prod s)).map (unlin s) := by
  induction s with
  | nil => rfl
  | cons a s ih =>
    simp only [coords, prod, ih]
    induction a with
    | zero => simp
    | succ a iha =>
      rw [List.range_succ, List.flatMap_append, iha, Nat.add_mul, Nat.one_mul, List.range_add, List.map_append]
      congr 1
      simp only [List.flatMap_cons, List.flatMap_nil, List.append_nil, List.map_map]
      apply List.map_congr_left
      intro x hx
      have hx := List.mem_range.1 hx
      simp only [Function.comp, unlin]
      rw [Nat.add_comm, Nat.add_mul_div_right _ _ (by omega), Nat.div_eq_of_lt hx, Nat.add_mul_mod_self_right,
        Nat.mod_eq_of_lt hx, Nat.zero_add]

theorem mem_coords {s c : List Nat} : c ∈ coords s ↔ InBounds s c := by
  induction s generalizing c with
  | nil => cases c <;> simp [coords, InBounds]
  | cons a s ih =>
    cases c with
    | nil => simp [coords, InBounds]
    | cons x c => simp [coords, InBounds, ih]

theorem coords_length (s : List Nat) : (coords s).length = prod s := by simp [coords_eq]

/-- contents are determined by position -/
theorem holds_iff {s : List Nat} {data : List α} {f : List Nat → α} :
    Holds s data f ↔ data.length = prod s ∧ ∀ i, i < prod s → data[i]? = some (f (unlin s i)) := by
  unfold Holds
  constructor
  · rintro ⟨h1, h2⟩
    refine ⟨h1, fun i hi => ?_⟩
    have := h2 (unlin s i) (unlin_inBounds hi)
    rwa [lin_unlin hi] at this
  · rintro ⟨h1, h2⟩
    refine ⟨h1, fun c hc => ?_⟩
    have := h2 (lin s c) (lin_lt hc)
    rwa [unlin_lin hc] at this

theorem Holds.eq_map {s : List Nat} {data : List α} {f : List Nat → α} (h : Holds s data f) : data = (coords s).map f := by
  rw [holds_iff] at h
  apply List.ext_getElem?
  intro i
  rw [coords_eq, List.map_map]
  by_cases hi : i < prod s
  · rw [h.2 i hi, List.getElem?_map, List.getElem?_range hi]; rfl
  · rw [List.getElem?_eq_none (by omega), List.getElem?_eq_none (by simp; omega)]

theorem holds_map (s : List Nat) (f : List Nat → α) : Holds s ((coords s).map f) f := by
  rw [holds_iff]
  refine ⟨by simp [coords_length], fun i hi => ?_⟩
  rw [coords_eq, List.map_map, List.getElem?_map, List.getElem?_range hi]; rfl

/-- every buffer of the right size is the content of some tensor -/
theorem holds_exists [Inhabited α] {s : List Nat} {data : List α} (h : data.length = prod s) :
    Holds s data fun c => data.getD (lin s c) default := by
  refine ⟨h, fun c hc => ?_⟩
  have := lin_lt hc
  simp [List.getD, show lin s c < data.length by omega]

theorem prod_append' (a b : List Nat) : prod (a ++ b) = prod a * prod b := by
  induction a with
  | nil => simp [prod]
  | cons x a ih => simp [prod, ih, Nat.mul_assoc]

theorem unlin_append (a b : List Nat) (i j : Nat) (hj : j < prod b) (hi : i < prod a) :
    unlin (a ++ b) (i * prod b + j) = unlin a i ++ unlin b j := by
  induction a generalizing i with
  | nil => simp [prod] at hi; simp [unlin, hi]
  | cons x a ih =>
    have hpa : 0 < prod a := by
      rcases Nat.eq_zero_or_pos (prod a) with h | h
      · simp [prod, h] at hi
      · exact h
    have e : i * prod b + j = (i / prod a) * (prod a * prod b) + ((i % prod a) * prod b + j) := by
      conv => lhs; rw [← Nat.div_add_mod i (prod a)]
      rw [Nat.add_mul, Nat.mul_comm (prod a) (i / prod a), Nat.mul_assoc, Nat.add_assoc]
    have hm : i % prod a < prod a := Nat.mod_lt _ hpa
    have hlt : (i % prod a) * prod b + j < prod a * prod b := by
      have : (i % prod a + 1) * prod b ≤ prod a * prod b := Nat.mul_le_mul_right _ hm
      rw [Nat.add_mul] at this; omega
    simp only [List.cons_append, unlin, prod_append']
    rw [e, Nat.add_comm, Nat.add_mul_div_right _ _ (by omega), Nat.div_eq_of_lt hlt, Nat.zero_add,
      Nat.add_mul_mod_self_right, Nat.mod_eq_of_lt hlt, ih _ hm]

/-- two blocks -/
theorem holds2 {a b : List Nat} {data : List α} {f : List Nat → α} :
    Holds (a ++ b) data f ↔ data.length = prod a * prod b ∧
      ∀ n t, n < prod a → t < prod b → data[n * prod b + t]? = some (f (unlin a n ++ unlin b t)) := by
  rw [holds_iff, prod_append']
  refine and_congr_right fun _ => ⟨fun h n t hn ht => ?_, fun h i hi => ?_⟩
  · rw [h _ (by
      have : (n + 1) * prod b ≤ prod a * prod b := Nat.mul_le_mul_right _ hn
      rw [Nat.add_mul] at this; omega), unlin_append _ _ _ _ ht hn]
  · have hb : 0 < prod b := by
      rcases Nat.eq_zero_or_pos (prod b) with h | h
      · simp [h] at hi
      · exact h
    have h1 : i / prod b < prod a := (Nat.div_lt_iff_lt_mul hb).2 hi
    have h2 : i % prod b < prod b := Nat.mod_lt _ hb
    have e : i = i / prod b * prod b + i % prod b := by
      rw [Nat.mul_comm]; exact (Nat.div_add_mod i (prod b)).symm
    have := h _ _ h1 h2
    rw [← unlin_append _ _ _ _ h2 h1, ← e] at this
    exact this

/-- three blocks -/
theorem holds3 {a m b : List Nat} {data : List α} {f : List Nat → α} :
    Holds (a ++ m ++ b) data f ↔ data.length = prod a * prod m * prod b ∧
      ∀ n j t, n < prod a → j < prod m → t < prod b →
        data[(n * prod m + j) * prod b + t]? = some (f (unlin a n ++ unlin m j ++ unlin b t)) := by
  rw [holds2, prod_append']
  refine and_congr_right fun _ => ⟨fun h n j t hn hj ht => ?_, fun h i t hi ht => ?_⟩
  · have := h (n * prod m + j) t (by
      have : (n + 1) * prod m ≤ prod a * prod m := Nat.mul_le_mul_right _ hn
      rw [Nat.add_mul] at this; omega) ht
    rw [unlin_append _ _ _ _ hj hn] at this
    exact this
  · have hb : 0 < prod m := by
      rcases Nat.eq_zero_or_pos (prod m) with h | h
      · simp [h] at hi
      · exact h
    have h1 : i / prod m < prod a := (Nat.div_lt_iff_lt_mul hb).2 hi
    have h2 : i % prod m < prod m := Nat.mod_lt _ hb
    have e : i = i / prod m * prod m + i % prod m := by
      rw [Nat.mul_comm]; exact (Nat.div_add_mod i (prod m)).symm
    have := h _ _ t h1 h2 ht
    rw [← unlin_append _ _ _ _ h2 h1, ← e] at this
    exact this

theorem unlin_single {a i : Nat} : unlin [a] i = [i] := by simp [unlin, prod]

/-- one dimension singled out -/
theorem holds_axis {pre post : List Nat} {a : Nat} {data : List α} {f : List Nat → α} :
    Holds (pre ++ a :: post) data f ↔ data.length = prod pre * a * prod post ∧
      ∀ n i t, n < prod pre → i < a → t < prod post →
        data[(n * a + i) * prod post + t]? = some (f (unlin pre n ++ i :: unlin post t)) := by
  have e : pre ++ a :: post = pre ++ [a] ++ post := by simp
  rw [e, holds3]
  simp [prod, unlin_single]

end Verif.Spec
