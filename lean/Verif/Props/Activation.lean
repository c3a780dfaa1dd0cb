import Verif.Kernels.Activation
import Verif.Props.Generate
import Mathlib.Data.EReal.Operations
import Mathlib.Analysis.Complex.Trigonometric
/-!
# C75: activations apply their function to every element
-/
namespace Verif.Props
open Verif.Core Verif.Kernels

variable {α : Type}

/-! ## Loops -/

/-- all elements in order, stopping at the first that is refused or undefined -/
def each (f : α → Res α) : List α → Res (List α)
  | [] => .ok []
  | v :: l => do
    let w ← f v
    let r ← each f l
    .ok (w :: r)

theorem each_ok {f : α → Res α} {g : α → α} {l : List α} (h : ∀ v ∈ l, f v = .ok (g v)) : each f l = .ok (l.map g) := by
  induction l with
  | nil => rfl
  | cons v l ih =>
    simp only [each]
    rw [h v (by simp), Res.bind_ok, ih (fun w hw => h w (by simp [hw])), Res.bind_ok]
    rfl

theorem each_snoc (f : α → Res α) (l : List α) (v : α) : each f (l ++ [v]) = (do let r ← each f l; let w ← f v; .ok (r ++ [w])) := by
  induction l with
  | nil =>
    simp only [List.nil_append, each, Res.bind_ok]
  | cons u l ih =>
    simp only [List.cons_append, each]
    rw [ih]
    cases f u with
    | ok a =>
      simp only [Res.bind_ok]
      cases each f l with
      | ok r =>
        simp only [Res.bind_ok]
        cases f v <;> rfl
      | err => rfl
      | ub => rfl
    | err => rfl
    | ub => rfl

theorem each_length {f : α → Res α} {l r : List α} (h : each f l = .ok r) : r.length = l.length := by
  induction l generalizing r with
  | nil => cases h; rfl
  | cons v l ih =>
    simp only [each] at h
    cases e : f v with
    | ok w =>
      rw [e, Res.bind_ok] at h
      cases e2 : each f l with
      | ok q =>
        rw [e2, Res.bind_ok] at h
        cases h
        simp [ih e2]
      | err => rw [e2] at h; cases h
      | ub => rw [e2] at h; cases h
    | err => rw [e] at h; cases h
    | ub => rw [e] at h; cases h

/-- a loop whose step `i` writes `f` of `src i` to element `i` -/
theorem loop_each {f : α → Res α} {x out : List α} (body : List α → Nat → Res (List α)) (n : Nat) (hx : n ≤ x.length) (ho : n ≤ out.length)
    (hb : ∀ (o : List α) (i : Nat) (v : α), i < n → x[i]? = some v → o.length = out.length → o.drop i = out.drop i →
      body o i = (do let w ← f v; wr o i w)) :
    loop body n out = (do let r ← each f (x.take n); .ok (r ++ out.drop n)) := by
  have key : ∀ k, k ≤ n → loop body k out = (do let r ← each f (x.take k); .ok (r ++ out.drop k)) := by
    intro k
    induction k with
    | zero => intro _; rfl
    | succ k ih =>
      intro hk
      have hkx : k < x.length := by omega
      simp only [loop]
      rw [ih (by omega), List.take_succ_eq_append_getElem hkx, each_snoc]
      cases e : each f (x.take k) with
      | ok r =>
        have hrl := each_length e
        rw [List.length_take, Nat.min_eq_left (by omega)] at hrl
        simp only [Res.bind_ok]
        rw [hb (r ++ out.drop k) k x[k] (by omega) (List.getElem?_eq_getElem hkx) (by simp; omega) (by rw [List.drop_left' hrl])]
        cases f x[k] with
        | ok w =>
          simp only [Res.bind_ok]
          rw [wr_ok _ (by simp; omega), List.set_append_right _ _ (by omega), hrl, Nat.sub_self]
          have hd := List.drop_eq_getElem_cons (show k < out.length by omega)
          rw [hd, List.set_cons_zero, List.append_assoc]
          rfl
        | err => rfl
        | ub => rfl
      | err => rfl
      | ub => rfl
  exact key n (Nat.le_refl n)

theorem bind_append_nil (r : Res (List α)) : (r >>= fun l => (.ok (l ++ []) : Res (List α))) = r := by
  cases r <;> simp

theorem mapAll_eq (f : α → Res α) (x out : List α) (ho : out.length = x.length) : mapAll f x x.length out = each f x := by
  unfold mapAll
  rw [loop_each (f := f) (x := x) _ x.length (Nat.le_refl _) (by omega) (fun o i v hi hv _ _ => by rw [rd_ok hv, Res.bind_ok]), List.take_length,
    List.drop_eq_nil_of_le (by omega), bind_append_nil]

theorem memcpyAll (x out : List α) (ho : out.length = x.length) : Verif.Memory.copyFrom out 0 x x.length = .ok x := by
  unfold Verif.Memory.copyFrom
  rw [if_pos (by omega)]
  simp [List.drop_eq_nil_of_le (show out.length ≤ x.length by omega)]

theorem copyMap_eq (f : α → Res α) (x out : List α) (ho : out.length = x.length) : copyMap f x x.length out = each f x := by
  unfold copyMap
  rw [memcpyAll x out ho, Res.bind_ok, loop_each (f := f) (x := x) _ x.length (Nat.le_refl _) (Nat.le_refl _) (fun o i v hi hv hl hd => ?_), List.take_length,
    List.drop_eq_nil_of_le (by omega), bind_append_nil]
  have : o[i]? = some v := by
    rw [← hv]
    have := congrArg (fun l => l[0]?) hd
    simpa using this
  rw [rd_ok this, Res.bind_ok]

theorem stuckMap_eq (f : α → Res α) (v : α) (x out : List α) (ho : out.length = (v :: x).length) :
    stuckMap f (v :: x) (v :: x).length out = each (fun _ => f v) (v :: x) := by
  unfold stuckMap
  rw [memcpyAll (v :: x) out ho, Res.bind_ok, loop_each (f := fun _ => f v) (x := v :: x) _ (v :: x).length (Nat.le_refl _) (Nat.le_refl _)
    (fun o i w hi hv hl hd => ?_), List.take_length, List.drop_eq_nil_of_le (by omega), bind_append_nil]
  rw [rd_ok (b := v :: x) (i := 0) (v := v) rfl, Res.bind_ok]

/-- what the vector loop and the rest give -/
theorem simdMap_eq (g f : α → α) (x out : List α) (ho : out.length = x.length) :
    simdMap g f x x.length out = .ok ((x.take (x.length / 4 * 4)).map g ++ (x.drop (x.length / 4 * 4)).map f) := by
  have h4 : x.length / 4 * 4 ≤ x.length := Nat.div_mul_le_self _ _
  unfold simdMap
  obtain ⟨o1, e1, i1⟩ := loop_inv (f := fun (out : List α) i => do
    let a ← rd x (i * 4)
    let b ← rd x (i * 4 + 1)
    let c ← rd x (i * 4 + 2)
    let d ← rd x (i * 4 + 3)
    let out ← wr out (i * 4) (g a)
    let out ← wr out (i * 4 + 1) (g b)
    let out ← wr out (i * 4 + 2) (g c)
    wr out (i * 4 + 3) (g d)) (n := x.length / 4) (s := out) (fun i o => o = (x.take (i * 4)).map g ++ out.drop (i * 4)) (by simp) (by
      intro i s hi hs
      have hi4 : i * 4 + 4 ≤ x.length := by omega
      have hlen : s.length = x.length := by rw [hs]; simp; omega
      rw [rd_ok (List.getElem?_eq_getElem (show i * 4 < x.length by omega)), Res.bind_ok,
        rd_ok (List.getElem?_eq_getElem (show i * 4 + 1 < x.length by omega)), Res.bind_ok,
        rd_ok (List.getElem?_eq_getElem (show i * 4 + 2 < x.length by omega)), Res.bind_ok,
        rd_ok (List.getElem?_eq_getElem (show i * 4 + 3 < x.length by omega)), Res.bind_ok,
        wr_ok _ (by omega), Res.bind_ok, wr_ok _ (by simp; omega), Res.bind_ok, wr_ok _ (by simp; omega), Res.bind_ok, wr_ok _ (by simp; omega)]
      refine ⟨_, rfl, ?_⟩
      apply List.ext_getElem?
      intro j
      have hs' : ∀ j, s[j]? = if j < i * 4 then (x[j]?).map g else out[j]? := by
        intro j
        rw [hs, List.getElem?_append]
        have hl : ((x.take (i * 4)).map g).length = i * 4 := by simp; omega
        rw [hl]
        by_cases hj : j < i * 4
        · rw [if_pos hj, if_pos hj, List.getElem?_map, List.getElem?_take_of_lt hj]
        · rw [if_neg hj, if_neg hj, List.getElem?_drop, show i * 4 + (j - i * 4) = j by omega]
      have hr : ((x.take ((i + 1) * 4)).map g ++ out.drop ((i + 1) * 4))[j]? = if j < (i + 1) * 4 then (x[j]?).map g else out[j]? := by
        rw [List.getElem?_append]
        have hl : ((x.take ((i + 1) * 4)).map g).length = (i + 1) * 4 := by simp; omega
        rw [hl]
        by_cases hj : j < (i + 1) * 4
        · rw [if_pos hj, if_pos hj, List.getElem?_map, List.getElem?_take_of_lt hj]
        · rw [if_neg hj, if_neg hj, List.getElem?_drop, show (i + 1) * 4 + (j - (i + 1) * 4) = j by omega]
      rw [hr]
      simp only [List.getElem?_set, List.length_set, hlen]
      by_cases h3 : i * 4 + 3 = j
      · subst h3; simp [show i * 4 + 3 < x.length by omega, show i * 4 + 3 < (i + 1) * 4 by omega]
      · rw [if_neg h3]
        by_cases h2 : i * 4 + 2 = j
        · subst h2; simp [show i * 4 + 2 < x.length by omega, show i * 4 + 2 < (i + 1) * 4 by omega]
        · rw [if_neg h2]
          by_cases h1 : i * 4 + 1 = j
          · subst h1; simp [show i * 4 + 1 < x.length by omega, show i * 4 + 1 < (i + 1) * 4 by omega]
          · rw [if_neg h1]
            by_cases h0 : i * 4 = j
            · subst h0; simp [show i * 4 < x.length by omega, show i * 4 < (i + 1) * 4 by omega]
            · rw [if_neg h0, hs' j]
              by_cases hj : j < i * 4
              · rw [if_pos hj, if_pos (by omega)]
              · rw [if_neg hj, if_neg (by omega)])
  rw [e1, Res.bind_ok]
  have hl1 : o1.length = x.length := by rw [i1]; simp; omega
  obtain ⟨o2, e2, i2⟩ := loop_inv (f := fun (out : List α) k => do
    let v ← rd x (x.length / 4 * 4 + k)
    wr out (x.length / 4 * 4 + k) (f v)) (n := x.length - x.length / 4 * 4) (s := o1)
    (fun k o => o.length = x.length ∧ ∀ j, o[j]? = if j < x.length / 4 * 4 then (x[j]?).map g else if j < x.length / 4 * 4 + k then (x[j]?).map f else out[j]?) ⟨hl1, by
      intro j
      rw [i1, List.getElem?_append]
      have hl : ((x.take (x.length / 4 * 4)).map g).length = x.length / 4 * 4 := by simp; omega
      rw [hl]
      by_cases hj : j < x.length / 4 * 4
      · rw [if_pos hj, if_pos hj, List.getElem?_map, List.getElem?_take_of_lt hj]
      · rw [if_neg hj, if_neg hj, if_neg (by omega), List.getElem?_drop, show x.length / 4 * 4 + (j - x.length / 4 * 4) = j by omega]⟩ (by
      intro k s hk hs
      obtain ⟨hl, hs⟩ := hs
      have hlt : x.length / 4 * 4 + k < x.length := by omega
      rw [rd_ok (List.getElem?_eq_getElem hlt), Res.bind_ok, wr_ok _ (by omega)]
      refine ⟨_, rfl, by simpa using hl, fun j => ?_⟩
      rw [List.getElem?_set]
      by_cases hj : x.length / 4 * 4 + k = j
      · subst hj; simp [hl, hlt, show ¬ x.length / 4 * 4 + k < x.length / 4 * 4 by omega]
      · rw [if_neg hj, hs j]
        by_cases h1 : j < x.length / 4 * 4
        · rw [if_pos h1, if_pos h1]
        · rw [if_neg h1, if_neg h1]
          by_cases h2 : j < x.length / 4 * 4 + k
          · rw [if_pos h2, if_pos (by omega)]
          · rw [if_neg h2, if_neg (by omega)])
  rw [e2]
  congr 1
  apply List.ext_getElem?
  intro j
  rw [i2.2 j, List.getElem?_append]
  have hl : ((x.take (x.length / 4 * 4)).map g).length = x.length / 4 * 4 := by simp; omega
  rw [hl]
  by_cases hj : j < x.length / 4 * 4
  · rw [if_pos hj, if_pos hj, List.getElem?_map, List.getElem?_take_of_lt hj]
  · rw [if_neg hj, if_neg hj, List.getElem?_map, List.getElem?_drop, show x.length / 4 * 4 + (j - x.length / 4 * 4) = j by omega]
    by_cases h2 : j < x.length
    · rw [if_pos (by omega)]
    · rw [if_neg (by omega), List.getElem?_eq_none (by omega), List.getElem?_eq_none (by omega)]
      rfl

/-! ## Floating point -/

/-- what is used of the arithmetic: numbers (all but NaN) have a value, comparisons and the vector instructions go by the value, and zeros are neutral. Rounding, and what the
instructions make of NaN, are left open -/
structure LawfulOps (O : FloatOps α) (num : α → Prop) (val : α → EReal) : Prop where
  lt_iff : ∀ a b, num a → num b → (O.lt a b = true ↔ val a < val b)
  zero : num O.zero ∧ val O.zero = 0
  one : num O.one ∧ val O.one = 1
  maxLane : ∀ a b, num a → num b → num (O.maxLane a b) ∧ val (O.maxLane a b) = max (val a) (val b)
  minLane : ∀ a b, num a → num b → num (O.minLane a b) ∧ val (O.minLane a b) = min (val a) (val b)
  add_zero : ∀ a z, num a → num z → val z = 0 → num (O.add a z) ∧ val (O.add a z) = val a
  zero_add : ∀ a z, num z → val z = 0 → num a → num (O.add z a) ∧ val (O.add z a) = val a
  mul_zero : ∀ s z, num s → val s ≠ ⊤ → val s ≠ ⊥ → num z → val z = 0 → num (O.mul s z) ∧ val (O.mul s z) = 0
  mul_comm : ∀ s a b, num s → num a → num b → val a = val b → num (O.mul b s) → num (O.mul s a) ∧ val (O.mul s a) = val (O.mul b s)

section
variable {O : FloatOps α} {num : α → Prop} {val : α → EReal}

theorem LawfulOps.max (L : LawfulOps O num val) {a b : α} (ha : num a) (hb : num b) : num (O.max a b) ∧ val (O.max a b) = Max.max (val a) (val b) := by
  unfold FloatOps.max
  by_cases h : O.lt a b = true
  · rw [if_pos h]
    exact ⟨hb, (max_eq_right (le_of_lt ((L.lt_iff a b ha hb).1 h))).symm⟩
  · rw [if_neg h]
    exact ⟨ha, (max_eq_left (not_lt.1 (fun h' => h ((L.lt_iff a b ha hb).2 h')))).symm⟩

theorem LawfulOps.min (L : LawfulOps O num val) {a b : α} (ha : num a) (hb : num b) : num (O.min a b) ∧ val (O.min a b) = Min.min (val a) (val b) := by
  unfold FloatOps.min
  by_cases h : O.lt b a = true
  · rw [if_pos h]
    exact ⟨hb, (min_eq_right (le_of_lt ((L.lt_iff b a hb ha).1 h))).symm⟩
  · rw [if_neg h]
    exact ⟨ha, (min_eq_left (not_lt.1 (fun h' => h ((L.lt_iff b a hb ha).2 h')))).symm⟩

/-- as many elements as the operand, and each a result for the element of the operand at its place -/
def PerElement (P : α → α → Prop) (x r : List α) : Prop := r.length = x.length ∧ ∀ (i : Nat) (v w : α), x[i]? = some v → r[i]? = some w → P v w

theorem perElement_map {P : α → α → Prop} {f : α → α} {x : List α} (h : ∀ v ∈ x, P v (f v)) : PerElement P x (x.map f) := by
  refine ⟨by simp, fun i v w hv hw => ?_⟩
  rw [List.getElem?_map, hv] at hw
  cases hw
  exact h v (List.mem_of_getElem? hv)

theorem perElement_append {P : α → α → Prop} {f g : α → α} {x : List α} {k : Nat} (hk : k ≤ x.length) (hg : ∀ v ∈ x, P v (g v)) (hf : ∀ v ∈ x, P v (f v)) :
    PerElement P x ((x.take k).map g ++ (x.drop k).map f) := by
  refine ⟨by simp; omega, fun i v w hv hw => ?_⟩
  rw [List.getElem?_append] at hw
  have hl : ((x.take k).map g).length = k := by simp; omega
  rw [hl] at hw
  by_cases hi : i < k
  · rw [if_pos hi, List.getElem?_map, List.getElem?_take_of_lt hi, hv] at hw
    cases hw
    exact hg v (List.mem_of_getElem? hv)
  · rw [if_neg hi, List.getElem?_map, List.getElem?_drop, show k + (i - k) = i by omega, hv] at hw
    cases hw
    exact hf v (List.mem_of_getElem? hv)

/-- on `double`s all operators but softplus are the function of one element -/
theorem doubleRun_eq (op : ActOp α) (hop : op ≠ .softplus) (x out : List α) (ho : out.length = x.length) : doubleRun O op x out = .ok (x.map (floatCell O op)) := by
  have h : doubleRun O op x out
      = if copies op then copyMap (fun v => .ok (floatCell O op v)) x x.length out else mapAll (fun v => .ok (floatCell O op v)) x x.length out := by
    cases op <;> first | rfl | exact absurd rfl hop
  rw [h]
  by_cases hc : copies op = true
  · rw [if_pos hc, copyMap_eq _ _ _ ho, each_ok (fun _ _ => rfl)]
  · rw [if_neg hc, mapAll_eq _ _ _ ho, each_ok (fun _ _ => rfl)]

theorem floatRun_plain (op : ActOp α) (hop : floatLane O op = none) (x out : List α) (ho : out.length = x.length) :
    floatRun O op x out = .ok (x.map (floatCell O op)) := by
  unfold floatRun
  rw [hop]
  show (if copies op then _ else _) = _
  by_cases hc : copies op = true
  · rw [if_pos hc, copyMap_eq _ _ _ ho, each_ok (fun _ _ => rfl)]
  · rw [if_neg hc, mapAll_eq _ _ _ ho, each_ok (fun _ _ => rfl)]

theorem both {P : α → α → Prop} {op : ActOp α} {g : α → α} {x out : List α} (hop : floatLane O op = some g) (hne : op ≠ .softplus) (ho : out.length = x.length)
    (hg : ∀ v ∈ x, P v (g v)) (hf : ∀ v ∈ x, P v (floatCell O op v)) :
    (∃ r, floatRun O op x out = .ok r ∧ PerElement P x r) ∧ ∃ r, doubleRun O op x out = .ok r ∧ PerElement P x r := by
  constructor
  · unfold floatRun
    rw [hop]
    exact ⟨_, simdMap_eq g _ x out ho, perElement_append (Nat.div_mul_le_self _ _) hg hf⟩
  · exact ⟨_, doubleRun_eq op hne x out ho, perElement_map hf⟩

/-- **C75** (relu). The result has an element for each element of the operand: the larger of it and zero. This is so for `float`s, of which four at a time are computed by
vector instructions and the rest one by one, and for `double`s -/
theorem C75_relu (L : LawfulOps O num val) (x out : List α) (ho : out.length = x.length) (hx : ∀ v ∈ x, num v) :
    (∃ r, floatRun O .relu x out = .ok r ∧ PerElement (fun v w => num w ∧ val w = max (val v) 0) x r)
    ∧ ∃ r, doubleRun O .relu x out = .ok r ∧ PerElement (fun v w => num w ∧ val w = max (val v) 0) x r := by
  refine both rfl (by simp) ho (fun v hv => ?_) (fun v hv => ?_)
  · have := L.maxLane v O.zero (hx v hv) L.zero.1
    rwa [L.zero.2] at this
  · have := L.max (hx v hv) L.zero.1
    rwa [L.zero.2] at this

/-- **C75** (relu_max). The larger of the element and zero, but at most the parameter -/
theorem C75_relu_max (L : LawfulOps O num val) (m : α) (hm : num m) (x out : List α) (ho : out.length = x.length) (hx : ∀ v ∈ x, num v) :
    (∃ r, floatRun O (.reluMax m) x out = .ok r ∧ PerElement (fun v w => num w ∧ val w = min (max (val v) 0) (val m)) x r)
    ∧ ∃ r, doubleRun O (.reluMax m) x out = .ok r ∧ PerElement (fun v w => num w ∧ val w = min (max (val v) 0) (val m)) x r := by
  refine both rfl (by simp) ho (fun v hv => ?_) (fun v hv => ?_)
  · have h1 := L.maxLane v O.zero (hx v hv) L.zero.1
    have h2 := L.minLane _ m h1.1 hm
    rwa [h1.2, L.zero.2] at h2
  · have h1 := L.max (hx v hv) L.zero.1
    have h2 := L.min h1.1 hm
    rwa [h1.2, L.zero.2] at h2

/-- **C75** (leaky_relu). Elements above zero stay, others are multiplied by a (finite) scale; the vector instructions, which compute `max(v, 0) + scale * min(v, 0)`, give the
same value -/
theorem C75_leaky (L : LawfulOps O num val) (s : α) (hs : num s) (hs1 : val s ≠ ⊤) (hs2 : val s ≠ ⊥) (x out : List α) (ho : out.length = x.length)
    (hx : ∀ v ∈ x, num v ∧ (val v ≤ 0 → num (O.mul v s))) :
    (∃ r, floatRun O (.leaky s) x out = .ok r ∧ PerElement (fun v w => num w ∧ (0 < val v → val w = val v) ∧ (val v ≤ 0 → val w = val (O.mul v s))) x r)
    ∧ ∃ r, doubleRun O (.leaky s) x out = .ok r ∧ PerElement (fun v w => num w ∧ (0 < val v → val w = val v) ∧ (val v ≤ 0 → val w = val (O.mul v s))) x r := by
  refine both rfl (by simp) ho (fun v hv => ?_) (fun v hv => ?_)
  · obtain ⟨hn, hp⟩ := hx v hv
    have h1 := L.maxLane v O.zero hn L.zero.1
    have h2 := L.minLane v O.zero hn L.zero.1
    rw [L.zero.2] at h1 h2
    by_cases h : 0 < val v
    · have hz : val (O.minLane v O.zero) = 0 := by rw [h2.2, min_eq_right (le_of_lt h)]
      have h3 := L.mul_zero s _ hs hs1 hs2 h2.1 hz
      have h4 := L.add_zero _ _ h1.1 h3.1 h3.2
      rw [h1.2, max_eq_left (le_of_lt h)] at h4
      exact ⟨h4.1, fun _ => h4.2, fun h' => absurd h (not_lt.2 h')⟩
    · have hle := not_lt.1 h
      have hz : val (O.maxLane v O.zero) = 0 := by rw [h1.2, max_eq_right hle]
      have he : val (O.minLane v O.zero) = val v := by rw [h2.2, min_eq_left hle]
      have h3 := L.mul_comm s _ v hs h2.1 hn he (hp hle)
      have h4 := L.zero_add _ _ h1.1 hz h3.1
      exact ⟨h4.1, fun h' => absurd h' h, fun _ => h4.2.trans h3.2⟩
  · obtain ⟨hn, hp⟩ := hx v hv
    have hlt := L.lt_iff O.zero v L.zero.1 hn
    rw [L.zero.2] at hlt
    show num (if O.lt O.zero v then v else O.mul v s) ∧ _
    by_cases h : O.lt O.zero v = true
    · have : floatCell O (.leaky s) v = v := if_pos h
      rw [if_pos h, this]
      exact ⟨hn, fun _ => rfl, fun h' => absurd (hlt.1 h) (not_lt.2 h')⟩
    · have : floatCell O (.leaky s) v = O.mul v s := if_neg h
      rw [if_neg h, this]
      have hle := not_lt.1 (fun h' => h (hlt.2 h'))
      exact ⟨hp hle, fun h' => absurd (hlt.2 h') h, fun _ => rfl⟩

/-- **C75** (hard_sigmoid). `alpha * v + beta`, cut to the interval from 0 to 1 -/
theorem C75_hard_sigmoid (L : LawfulOps O num val) (a b : α) (x out : List α) (ho : out.length = x.length) (hx : ∀ v ∈ x, num (O.add (O.mul a v) b)) :
    (∃ r, floatRun O (.hardSigmoid a b) x out = .ok r ∧ PerElement (fun v w => num w ∧ val w = max 0 (min 1 (val (O.add (O.mul a v) b)))) x r)
    ∧ ∃ r, doubleRun O (.hardSigmoid a b) x out = .ok r ∧ PerElement (fun v w => num w ∧ val w = max 0 (min 1 (val (O.add (O.mul a v) b)))) x r := by
  refine both rfl (by simp) ho (fun v hv => ?_) (fun v hv => ?_)
  · have h1 := L.minLane O.one _ L.one.1 (hx v hv)
    have h2 := L.maxLane O.zero _ L.zero.1 h1.1
    rwa [h1.2, L.zero.2, L.one.2] at h2
  · have h1 := L.min L.one.1 (hx v hv)
    have h2 := L.max L.zero.1 h1.1
    rwa [h1.2, L.zero.2, L.one.2] at h2

/-- **C75** (the other functions). Square, absolute value, square root, its inverse, exponential, error function and logistic function are that function of each element,
computed by the operations of the type, for `float` and `double`; softplus for `float` only -/
theorem C75_map (x out : List α) (ho : out.length = x.length) :
    (∀ run ∈ [floatRun O, doubleRun O],
      run .square x out = .ok (x.map fun v => O.mul v v) ∧ run .abs x out = .ok (x.map O.abs) ∧ run .sqrt x out = .ok (x.map O.sqrt)
      ∧ run .rsqrt x out = .ok (x.map fun v => O.div O.one (O.sqrt v)) ∧ run .exp x out = .ok (x.map O.exp) ∧ run .erf x out = .ok (x.map O.erf)
      ∧ run .sigmoid x out = .ok (x.map fun v => O.div O.one (O.add O.one (O.exp (O.neg v)))))
    ∧ floatRun O .softplus x out = .ok (x.map fun v => O.log (O.add (O.exp v) O.one))
    ∧ roundRun O true x out = .ok (x.map O.ceil) ∧ roundRun O false x out = .ok (x.map O.floor) := by
  refine ⟨fun run hr => ?_, floatRun_plain _ rfl x out ho, ?_, ?_⟩
  · simp only [List.mem_cons, List.not_mem_nil, or_false] at hr
    rcases hr with h | h
    · subst h
      exact ⟨floatRun_plain _ rfl x out ho, floatRun_plain _ rfl x out ho, floatRun_plain _ rfl x out ho, floatRun_plain _ rfl x out ho, floatRun_plain _ rfl x out ho,
        floatRun_plain _ rfl x out ho, floatRun_plain _ rfl x out ho⟩
    · subst h
      exact ⟨doubleRun_eq _ (by simp) x out ho, doubleRun_eq _ (by simp) x out ho, doubleRun_eq _ (by simp) x out ho, doubleRun_eq _ (by simp) x out ho,
        doubleRun_eq _ (by simp) x out ho, doubleRun_eq _ (by simp) x out ho, doubleRun_eq _ (by simp) x out ho⟩
  · unfold roundRun
    rw [mapAll_eq _ _ _ ho, each_ok (fun _ _ => rfl)]
    rfl
  · unfold roundRun
    rw [mapAll_eq _ _ _ ho, each_ok (fun _ _ => rfl)]
    rfl

end

/-- exact arithmetic on the reals -/
noncomputable def realOps : FloatOps ℝ where
  zero := 0
  one := 1
  lt a b := by classical exact decide (a < b)
  add := (· + ·)
  sub := (· - ·)
  mul := (· * ·)
  div := (· / ·)
  neg a := -a
  abs a := |a|
  sqrt a := a
  exp := Real.exp
  log := fun a => a
  erf a := a
  floor a := ⌊a⌋
  ceil a := ⌈a⌉
  maxLane := max
  minLane := min

theorem tanh_sigmoid (v : ℝ) : (1 + 1) * (1 / (1 + Real.exp (-((1 + 1) * v)))) - 1 = Real.tanh v := by
  rw [Real.tanh_eq_sinh_div_cosh, Real.sinh_eq, Real.cosh_eq]
  have h1 : Real.exp (-((1 + 1) * v)) = Real.exp (-v) * Real.exp (-v) := by rw [← Real.exp_add]; congr 1; ring
  have h2 : Real.exp v * Real.exp (-v) = 1 := by rw [← Real.exp_add]; simp
  have p1 := Real.exp_pos v
  have p2 := Real.exp_pos (-v)
  rw [h1]
  have q1 : (1 : ℝ) + Real.exp (-v) * Real.exp (-v) ≠ 0 := by positivity
  have q2 : Real.exp v + Real.exp (-v) ≠ 0 := by positivity
  field_simp
  have h3 : Real.exp v * (Real.exp (-v) * Real.exp (-v)) = Real.exp (-v) := by rw [← mul_assoc, h2, one_mul]
  nlinarith [h2, h3]

/-- **C75** (tanh, partial: exact arithmetic). `2 * sigmoid(2 * v) - 1` is the hyperbolic tangent -/
theorem C75_tanh_partial (x out : List ℝ) (ho : out.length = x.length) :
    floatRun realOps .tanh x out = .ok (x.map Real.tanh) ∧ doubleRun realOps .tanh x out = .ok (x.map Real.tanh) := by
  have h : floatCell realOps .tanh = Real.tanh := by
    funext v
    exact tanh_sigmoid v
  constructor
  · rw [floatRun_plain _ rfl x out ho, h]
  · rw [doubleRun_eq _ (by simp) x out ho, h]

/-! ## Integers -/

section
variable {fn : ActOp Unit → IntTy → Int → Res Int} {t : IntTy}

/-- the operators but softplus on integers: the cell of each element, in order -/
theorem intRun_each {op : ActOp Rat} {o : ActOp Int} (hop : intOp t op = .ok o) (hne : o ≠ .softplus) (x out : List Int) (ho : out.length = x.length) :
    intRun fn t op x out = each (intCell fn t o) x := by
  have h : intRun fn t op x out
      = if copies o then copyMap (intCell fn t o) x x.length out else mapAll (intCell fn t o) x x.length out := by
    unfold intRun
    rw [hop, Res.bind_ok]
    cases o <;> first | rfl | exact absurd rfl hne
  rw [h]
  by_cases hc : copies o = true
  · rw [if_pos hc, copyMap_eq _ _ _ ho]
  · rw [if_neg hc, mapAll_eq _ _ _ ho]

theorem result_conv (ht : t ∈ rangeTypes) {x : Int} (hx : t.has x) : (do let w ← t.arith.result x; Res.ok (t.conv w)) = Res.ok x := by
  have ha := arith_has ht hx
  have : t.arith.result x = .ok x := by
    unfold IntTy.result
    by_cases hs : t.arith.signed = true
    · rw [if_pos hs, if_pos ha]
    · rw [if_neg hs, conv_has (arith_type ht) ha]
  rw [this, Res.bind_ok, conv_has ht hx]

/-- **C75** (integers). Relu is exact; relu_max is so for the parameter cut to an integer, if that is in the type; square and absolute value are exact when they are in the
type; leaky_relu multiplies by the scale cut to an integer -/
theorem C75_int (ht : t ∈ rangeTypes) (x out : List Int) (ho : out.length = x.length) :
    intRun fn t .relu x out = .ok (x.map fun v => max v 0)
    ∧ (∀ m : Rat, t.has (truncQ m) → intRun fn t (.reluMax m) x out = .ok (x.map fun v => min (max v 0) (truncQ m)))
    ∧ ((∀ v ∈ x, t.has (v * v)) → intRun fn t .square x out = .ok (x.map fun v => v * v))
    ∧ ((∀ v ∈ x, t.has v ∧ t.has |v|) → intRun fn t .abs x out = .ok (x.map fun v => |v|))
    ∧ (∀ s : Rat, t.has (truncQ s) → (∀ v ∈ x, v ≤ 0 → t.has (v * truncQ s)) →
        intRun fn t (.leaky s) x out = .ok (x.map fun v => if 0 < v then v else v * truncQ s)) := by
  refine ⟨?_, fun m hm => ?_, fun h => ?_, fun h => ?_, fun s hs h => ?_⟩
  · rw [intRun_each rfl (by simp) x out ho]
    exact each_ok (fun _ _ => rfl)
  · have e : intOp t (.reluMax m) = .ok (.reluMax (truncQ m)) := by
      simp only [intOp, intParam]
      rw [if_pos hm, Res.bind_ok]
    rw [intRun_each e (by simp) x out ho]
    exact each_ok (fun _ _ => rfl)
  · rw [intRun_each rfl (by simp) x out ho]
    exact each_ok (fun v hv => result_conv ht (h v hv))
  · rw [intRun_each rfl (by simp) x out ho, each_ok (g := fun v => |v|) (fun v hv => ?_)]
    show (if t.signed then _ else _) = _
    by_cases hs : t.signed = true
    · rw [if_pos hs]
      exact result_conv ht (h v hv).2
    · rw [if_neg hs]
      have : 0 ≤ v := by
        have := (h v hv).1.1
        simp only [IntTy.lo, hs] at this
        simpa using this
      rw [abs_of_nonneg this]
  · have e : intOp t (.leaky s) = .ok (.leaky (truncQ s)) := by
      simp only [intOp, intParam]
      rw [if_pos hs, Res.bind_ok]
    rw [intRun_each e (by simp) x out ho, each_ok (g := fun v => if 0 < v then v else v * truncQ s) (fun v hv => ?_)]
    show (if 0 < v then _ else _) = _
    by_cases hp : 0 < v
    · rw [if_pos hp, if_pos hp]
    · rw [if_neg hp, if_neg hp]
      exact result_conv ht (h v hv (by omega))

/-- **C75** (which integer operators there are). Hard_sigmoid, rsqrt, exp, tanh and erf of integers are refused -/
theorem C75_int_refused (x out : List Int) (a b : Rat) :
    intRun fn t (.hardSigmoid a b) x out = .err ∧ intRun fn t .rsqrt x out = .err ∧ intRun fn t .exp x out = .err ∧ intRun fn t .tanh x out = .err
    ∧ intRun fn t .erf x out = .err := ⟨rfl, rfl, rfl, rfl, rfl⟩

end

/-! ## Non-vacuity, and what is not so -/

/-- rationals with a NaN, and the vector instructions of SSE: `maxps a, b` is `a > b ? a : b`. The transcendental functions play no part here -/
def ratOps : FloatOps (Option Rat) where
  zero := some 0
  one := some 1
  lt a b := match a, b with
    | some a, some b => decide (a < b)
    | _, _ => false
  add a b := do let a ← a; let b ← b; some (a + b)
  sub a b := do let a ← a; let b ← b; some (a - b)
  mul a b := do let a ← a; let b ← b; some (a * b)
  div a b := do let a ← a; let b ← b; some (a / b)
  neg a := a.map (- ·)
  abs a := a.map fun v => |v|
  sqrt a := a
  exp a := a
  log a := a
  erf a := a
  floor a := a.map fun v => ⌊v⌋
  ceil a := a.map fun v => ⌈v⌉
  maxLane a b := match a, b with
    | some a, some b => if b < a then some a else some b
    | _, b => b
  minLane a b := match a, b with
    | some a, some b => if a < b then some a else some b
    | _, b => b

/-- the value of a number -/
noncomputable def ratVal (a : Option Rat) : EReal := ((a.getD 0 : ℝ) : EReal)

theorem ratVal_lt (a b : Rat) : ratVal (some a) < ratVal (some b) ↔ a < b := by
  simp [ratVal]

theorem ratVal_zero {a : Rat} (h : ratVal (some a) = 0) : a = 0 := by
  simpa [ratVal] using h

theorem ratVal_inj {a b : Rat} (h : ratVal (some a) = ratVal (some b)) : a = b := by
  simpa [ratVal] using h

theorem ratOps_lawful : LawfulOps ratOps (fun a => a.isSome = true) ratVal where
  lt_iff a b ha hb := by
    cases a <;> cases b <;> simp at ha hb
    rw [ratVal_lt]
    simp [ratOps]
  zero := ⟨rfl, by simp [ratOps, ratVal]⟩
  one := ⟨rfl, by simp [ratOps, ratVal]⟩
  maxLane a b ha hb := by
    cases a <;> cases b <;> simp at ha hb
    rename_i a b
    show (Option.isSome (if b < a then some a else some b) = true) ∧ ratVal (if b < a then some a else some b) = _
    by_cases h : b < a
    · rw [if_pos h]
      exact ⟨rfl, (max_eq_left (le_of_lt ((ratVal_lt b a).2 h))).symm⟩
    · rw [if_neg h]
      exact ⟨rfl, (max_eq_right (not_lt.1 (fun h' => h ((ratVal_lt b a).1 h')))).symm⟩
  minLane a b ha hb := by
    cases a <;> cases b <;> simp at ha hb
    rename_i a b
    show (Option.isSome (if a < b then some a else some b) = true) ∧ ratVal (if a < b then some a else some b) = _
    by_cases h : a < b
    · rw [if_pos h]
      exact ⟨rfl, (min_eq_left (le_of_lt ((ratVal_lt a b).2 h))).symm⟩
    · rw [if_neg h]
      exact ⟨rfl, (min_eq_right (not_lt.1 (fun h' => h ((ratVal_lt a b).1 h')))).symm⟩
  add_zero a z ha hz h := by
    cases a <;> cases z <;> simp at ha hz
    rename_i a z
    have := ratVal_zero h
    subst this
    show (some (a + 0) : Option Rat).isSome = true ∧ ratVal (some (a + 0)) = _
    rw [add_zero]
    exact ⟨rfl, rfl⟩
  zero_add a z hz h ha := by
    cases a <;> cases z <;> simp at ha hz
    rename_i a z
    have := ratVal_zero h
    subst this
    show (some (0 + a) : Option Rat).isSome = true ∧ ratVal (some (0 + a)) = _
    rw [zero_add]
    exact ⟨rfl, rfl⟩
  mul_zero s z hs h1 h2 hz h := by
    clear h1 h2
    cases s <;> cases z <;> simp at hs hz
    rename_i s z
    have := ratVal_zero h
    subst this
    show (some (s * 0) : Option Rat).isSome = true ∧ ratVal (some (s * 0)) = _
    rw [mul_zero]
    exact ⟨rfl, by simp [ratVal]⟩
  mul_comm s a b hs ha hb h h' := by
    clear h'
    cases s <;> cases a <;> cases b <;> simp at hs ha hb
    rename_i s a b
    have := ratVal_inj h
    subst this
    show (some (s * a) : Option Rat).isSome = true ∧ ratVal (some (s * a)) = ratVal (some (a * s))
    rw [mul_comm]
    exact ⟨rfl, rfl⟩

/-- five numbers: one vector and a rest -/
def fiveNumbers : List (Option Rat) := [some (-2), some 3, some 0, some (1 / 2), some (-1)]

example : floatRun ratOps .relu fiveNumbers (List.replicate 5 none) = .ok [some 0, some 3, some 0, some (1 / 2), some 0] := by decide +kernel
example : floatRun ratOps (.reluMax (some 1)) fiveNumbers (List.replicate 5 none) = .ok [some 0, some 1, some 0, some (1 / 2), some 0] := by decide +kernel
example : floatRun ratOps (.leaky (some (1 / 10))) fiveNumbers (List.replicate 5 none) = .ok [some (-1 / 5), some 3, some 0, some (1 / 2), some (-1 / 10)] := by
  decide +kernel
example : floatRun ratOps (.hardSigmoid (some (1 / 2)) (some (1 / 2))) fiveNumbers (List.replicate 5 none) = .ok [some 0, some 1, some (1 / 2), some (3 / 4), some 0] := by
  decide +kernel

example : ∃ r, floatRun ratOps (.leaky (some (1 / 10))) fiveNumbers (List.replicate 5 none) = .ok r
    ∧ PerElement (fun v w => w.isSome = true ∧ (0 < ratVal v → ratVal w = ratVal v) ∧ (ratVal v ≤ 0 → ratVal w = ratVal (ratOps.mul v (some (1 / 10))))) fiveNumbers r :=
  (C75_leaky ratOps_lawful (some (1 / 10)) rfl (EReal.coe_ne_top _) (EReal.coe_ne_bot _) fiveNumbers (List.replicate 5 none) rfl (by
    intro v hv
    simp only [fiveNumbers, List.mem_cons, List.not_mem_nil, or_false] at hv
    rcases hv with h | h | h | h | h <;> subst h <;> exact ⟨rfl, fun _ => rfl⟩)).1

/-- the same with exact reals, nothing else being assumed of the arithmetic -/
example : floatRun realOps .tanh [0, 1] [0, 0] = .ok [Real.tanh 0, Real.tanh 1] := (C75_tanh_partial [0, 1] [0, 0] rfl).1

example : doubleRun ratOps .square fiveNumbers (List.replicate 5 none) = .ok [some 4, some 9, some 0, some (1 / 4), some 1] := by decide +kernel
example : floatRun ratOps .softplus [some 1, some 2] [none, none] = .ok [some 2, some 3] := by decide +kernel

/-- **C75** (not so: NaN in relu). In the vector part of a `float` tensor a NaN becomes 0, in the rest it stays NaN: what becomes of an element depends on its place -/
theorem C75_nan_false : floatRun ratOps .relu [none, none, none, none, none] (List.replicate 5 none) = .ok [some 0, some 0, some 0, some 0, none] := by decide +kernel

/-- **C75** (not so: softplus of `double`s). For any `double`s the result has, at every place, the value for the first element -/
theorem C75_softplus_double_false (O : FloatOps α) (v : α) (x out : List α) (ho : out.length = (v :: x).length) :
    doubleRun O .softplus (v :: x) out = .ok ((v :: x).map fun _ => O.log (O.add (O.exp v) O.one)) := by
  show stuckMap (fun v => .ok (floatCell O .softplus v)) (v :: x) (v :: x).length out = _
  rw [stuckMap_eq _ v x out ho, each_ok (fun _ _ => rfl)]
  rfl

example : doubleRun ratOps .softplus [some 1, some 2] [none, none] = .ok [some 2, some 2] := by decide +kernel

/-- **C75** (not so: softplus of integers). The same for integers -/
theorem C75_softplus_int_false (fn : ActOp Unit → IntTy → Int → Res Int) (t : IntTy) (v w : Int) (x out : List Int) (ho : out.length = (v :: x).length)
    (hw : fn .softplus t v = .ok w) : intRun fn t .softplus (v :: x) out = .ok ((v :: x).map fun _ => w) := by
  show stuckMap (intCell fn t .softplus) (v :: x) (v :: x).length out = _
  rw [stuckMap_eq _ v x out ho]
  exact each_ok (fun _ _ => hw)

/-- the computations in `double` on small types: `1. / (1. + exp(w))` is 1 for `w` below -37 and converts to 0 otherwise, `log(exp(w) + 1.)` and the root are cut -/
def demoFn (op : ActOp Unit) (_ : IntTy) (w : Int) : Res Int :=
  match op with
  | .sigmoid => .ok (if w < -37 then 1 else 0)
  | .softplus => .ok (if 0 < w then w else 0)
  | _ => .ok 0

example : intRun demoFn ⟨true, 32⟩ .softplus [1, 5] [0, 0] = .ok [1, 1] := by decide +kernel

/-- **C75** (logistic function of integers). A signed value is negated in its type, an unsigned one is not, before `1. / (1. + exp(.))` is computed -/
theorem C75_sigmoid_int (fn : ActOp Unit → IntTy → Int → Res Int) {t : IntTy} (ht : t ∈ rangeTypes) (g : Int → Int) (x out : List Int) (ho : out.length = x.length) :
    (t.signed = true → (∀ v ∈ x, t.has (-v) ∧ fn .sigmoid t (-v) = .ok (g v)) → intRun fn t .sigmoid x out = .ok (x.map g))
    ∧ (t.signed = false → (∀ v ∈ x, fn .sigmoid t v = .ok (g v)) → intRun fn t .sigmoid x out = .ok (x.map g)) := by
  refine ⟨fun hs h => ?_, fun hs h => ?_⟩
  · rw [intRun_each rfl (by simp) x out ho, each_ok (g := g) (fun v hv => ?_)]
    show (do let w ← negInt t v; fn .sigmoid t w) = _
    unfold negInt
    rw [if_pos hs, result_conv ht (h v hv).1, Res.bind_ok, (h v hv).2]
  · rw [intRun_each rfl (by simp) x out ho, each_ok (g := g) (fun v hv => ?_)]
    show (do let w ← negInt t v; fn .sigmoid t w) = _
    unfold negInt
    rw [if_neg (by simp [hs]), Res.bind_ok, h v hv]

/-- **C75** (not so: the logistic function of unsigned integers and of -128). Of 100 it is 1 for INT8 but 0 for UINT8; of -128, whose value is next to 0, it is 1 for INT8; and the
least INT32 cannot be negated -/
theorem C75_sigmoid_int_false : intRun demoFn ⟨true, 8⟩ .sigmoid [100, -100, -128] [0, 0, 0] = .ok [1, 0, 1] ∧ intRun demoFn ⟨false, 8⟩ .sigmoid [100] [0] = .ok [0]
    ∧ intRun demoFn ⟨true, 32⟩ .sigmoid [-2 ^ 31] [0] = .ub := by decide +kernel

/-- **C75** (not so: leaky_relu and overflow of integers). A scale below one gives 0 for all that is not above zero; the square of an UINT16 is undefined although a value modulo
2^16 exists; so is the absolute value of the least INT32, and that of -128 is -128; a parameter out of the type is undefined -/
theorem C75_int_false : intRun demoFn ⟨true, 32⟩ (.leaky (1 / 2)) [-4, 6] [0, 0] = .ok [0, 6] ∧ intRun demoFn ⟨false, 16⟩ .square [65535] [0] = .ub
    ∧ intRun demoFn ⟨false, 32⟩ .square [65536] [0] = .ok [0] ∧ intRun demoFn ⟨true, 32⟩ .abs [-2 ^ 31] [0] = .ub ∧ intRun demoFn ⟨true, 8⟩ .abs [-128] [0] = .ok [-128]
    ∧ intRun demoFn ⟨true, 8⟩ (.reluMax 255) [-1, 5] [0, 0] = .ub := by decide +kernel

example : intRun demoFn ⟨true, 16⟩ .square [-3, 181] [0, 0] = .ok [9, 32761] ∧ intRun demoFn ⟨true, 8⟩ .abs [-3, 7] [0, 0] = .ok [3, 7]
    ∧ intRun demoFn ⟨true, 8⟩ (.reluMax (13 / 2)) [-3, 5, 9] [0, 0, 0] = .ok [0, 5, 6] ∧ intRun demoFn ⟨true, 32⟩ (.leaky (5 / 2)) [-4, 6] [0, 0] = .ok [-8, 6]
    ∧ intRun demoFn ⟨false, 8⟩ .relu [3, 255] [0, 0] = .ok [3, 255] := by decide +kernel

end Verif.Props
