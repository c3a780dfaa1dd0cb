import Verif.Kernels.Pooling
import Mathlib.Order.Defs.LinearOrder
/-!
# C43: pooling

Specification. A window of `k` taps with stride `s` and leading padding `p` covers, at output position `o`, the input
coordinates `i` with `o·s ≤ i + p < o·s + k`. The values of a two-dimensional window are those of its in-range cells,
row by row.
-/
namespace Verif.Props
open Verif.Core Verif.Kernels

/-- in-range coordinates a window covers in one dimension of extent `n`, ascending -/
def inWindow (o s p k n : Nat) : List Nat :=
  (List.range n).filter fun i => decide (o * s ≤ i + p) && decide (i + p < o * s + k)

/-- the in-range values of a window of channel plane `ch` (planes of `h` rows of `w`) -/
def windowValues {α : Type} (x : List α) (h w : Nat) (p : Window) (ch oh ow : Nat) : List α :=
  (inWindow oh p.sh p.top p.kh h).flatMap fun i =>
    (inWindow ow p.sw p.left p.kw w).filterMap fun j => x[ch * (h * w) + (i * w + j)]?

theorem flatten_get {α : Type} (b : Nat) : ∀ (a : Nat) (f : Nat → List α), (∀ i, i < a → (f i).length = b) →
    ((List.range a).map f).flatten.length = a * b ∧
    ∀ i j, i < a → j < b → ((List.range a).map f).flatten[i * b + j]? = (f i)[j]?
  | 0, _, _ => by simp
  | a + 1, f, hl => by
    obtain ⟨h1, h2⟩ := flatten_get b a f fun i hi => hl i (by omega)
    have h3 := hl a (by omega)
    rw [List.range_succ, List.map_append, List.flatten_append]
    simp only [List.map_cons, List.map_nil, List.flatten_cons, List.flatten_nil, List.append_nil]
    refine ⟨by rw [List.length_append, h1, h3, Nat.succ_mul], ?_⟩
    intro i j hi hj
    by_cases hia : i < a
    · have : i * b + j < a * b := by
        have := Nat.mul_le_mul_right b hia
        simp only [Nat.succ_mul] at this
        omega
      rw [List.getElem?_append_left (by omega)]
      exact h2 i j hia hj
    · have : i = a := by omega
      subst this
      rw [List.getElem?_append_right (by omega), h1]
      congr 1
      omega

/-- the loops write every output element once, at its row-major position -/
theorem poolLoops_ok {α : Type} (chans oh ow : Nat) (f : Nat → Nat → Nat → Res α) (g : Nat → Nat → Nat → α)
    (h : ∀ c i j, c < chans → i < oh → j < ow → f c i j = .ok (g c i j)) :
    ∃ out, poolLoops chans oh ow f = .ok out ∧ out.length = chans * (oh * ow) ∧
      ∀ c i j, c < chans → i < oh → j < ow → out[c * (oh * ow) + (i * ow + j)]? = some (g c i j) := by
  have row : ∀ c i, c < chans → i < oh → forEach (fun j => f c i j) (List.range ow) =
      .ok ((List.range ow).map (g c i)) := by
    intro c i hc hi
    exact forEach_ok fun j hj => h c i j hc hi (by simpa using hj)
  have plane : ∀ c, c < chans → (do
      let rows ← forEach (fun i => forEach (fun j => f c i j) (List.range ow)) (List.range oh)
      .ok rows.flatten : Res (List α)) =
      .ok ((List.range oh).map fun i => (List.range ow).map (g c i)).flatten := by
    intro c hc
    rw [forEach_ok (g := fun i => (List.range ow).map (g c i)) fun i hi => row c i hc (by simpa using hi)]
    rfl
  unfold poolLoops
  rw [forEach_ok (g := fun c => ((List.range oh).map fun i => (List.range ow).map (g c i)).flatten)
    fun c hc => plane c (by simpa using hc)]
  simp only [Res.bind_ok]
  have inner : ∀ c, _ := fun c => flatten_get ow oh (fun i => (List.range ow).map (g c i)) (by simp)
  obtain ⟨l1, l2⟩ := flatten_get (oh * ow) chans
    (fun c => ((List.range oh).map fun i => (List.range ow).map (g c i)).flatten) fun c _ => (inner c).1
  refine ⟨_, rfl, l1, ?_⟩
  intro c i j hc hi hj
  have hij : i * ow + j < oh * ow := by
    have := Nat.mul_le_mul_right ow hi
    simp only [Nat.succ_mul] at this
    omega
  rw [l2 c _ hc hij, (inner c).2 i j hi hj]
  simp [hj]

/-- what the two inner loops read -/
theorem cells_read {α : Type} (x : List α) (chans h w : Nat) (p : Window) (ch oh ow : Nat) (hx : x.length = chans * (h * w))
    (hc : ch < chans) :
    forEach (readAtInt x) (windowCells (ch * (h * w)) w (windowRange oh p.sh p.top p.kh h)
      (windowRange ow p.sw p.left p.kw w)) = .ok (windowValues x h w p ch oh ow) := by
  unfold windowCells
  rw [upFrom_window, upFrom_window]
  have key : ∀ (rows cols : List Nat), (∀ i ∈ rows, i < h) → (∀ j ∈ cols, j < w) →
      forEach (readAtInt x) ((rows.map Int.ofNat).flatMap fun ih => (cols.map Int.ofNat).map fun iw =>
        (ch : Int) * ((h : Int) * w) + (ih * w + iw)) =
      .ok (rows.flatMap fun i => cols.filterMap fun j => x[ch * (h * w) + (i * w + j)]?) := by
    intro rows cols hr hcs
    let e : List Nat := rows.flatMap fun i => cols.map fun j => ch * (h * w) + (i * w + j)
    have he : ((rows.map Int.ofNat).flatMap fun ih => (cols.map Int.ofNat).map fun iw =>
        (ch : Int) * ((h : Int) * w) + (ih * w + iw)) = e.map Int.ofNat := by
      simp only [e, List.flatMap_map, List.map_flatMap, List.map_map]
      rfl
    have hlt : ∀ k ∈ e, k < x.length := by
      intro k hk
      simp only [e, List.mem_flatMap, List.mem_map] at hk
      obtain ⟨i, hi, j, hj, rfl⟩ := hk
      rw [hx]
      exact cell_lt hc (hr i hi) (hcs j hj)
    rw [he]
    have h2 : (rows.flatMap fun i => cols.filterMap fun j => x[ch * (h * w) + (i * w + j)]?) =
        e.filterMap fun k => x[k]? := by
      simp only [e, List.filterMap_flatMap, List.filterMap_map]
      rfl
    rw [h2]
    generalize e = e at hlt
    clear he h2
    induction e with
    | nil => rfl
    | cons k e ih =>
      have hk := hlt k (by simp)
      unfold forEach
      simp only [List.map_cons]
      rw [show Int.ofNat k = (k : Int) from rfl, readAtInt_ok hk, Res.bind_ok, ih fun k hk => hlt k (by simp [hk]),
        List.filterMap_cons_some (List.getElem?_eq_getElem hk)]
      rfl
  exact key _ _ (fun i hi => covered_lt hi) (fun j hj => covered_lt hj)

theorem foldl_max {α : Type} [LinearOrder α] (l : List α) (m : α) :
    let r := l.foldl (fun m v => if decide (m < v) then v else m) m
    (r = m ∨ r ∈ l) ∧ m ≤ r ∧ ∀ v ∈ l, v ≤ r := by
  induction l generalizing m with
  | nil => simp
  | cons a l ih =>
    simp only [List.foldl_cons]
    by_cases h : m < a
    · simp only [h, decide_true, if_true]
      obtain ⟨h1, h2, h3⟩ := ih a
      refine ⟨?_, le_trans (le_of_lt h) h2, ?_⟩
      · rcases h1 with h1 | h1
        · exact .inr (by rw [h1]; simp)
        · exact .inr (List.mem_cons_of_mem _ h1)
      · intro v hv
        rcases List.mem_cons.1 hv with rfl | hv
        · exact h2
        · exact h3 v hv
    · simp only [h, decide_false, Bool.false_eq_true, if_false]
      obtain ⟨h1, h2, h3⟩ := ih m
      refine ⟨?_, h2, ?_⟩
      · rcases h1 with h1 | h1
        · exact .inl h1
        · exact .inr (List.mem_cons_of_mem _ h1)
      · intro v hv
        rcases List.mem_cons.1 hv with rfl | hv
        · exact le_trans (le_of_not_gt h) h2
        · exact h3 v hv

theorem window_head {o s p k n : Nat} (h : inWindow o s p k n ≠ []) :
    ∃ t, inWindow o s p k n = (o * s - p) :: t := by
  have e : inWindow o s p k n = (List.range (min (o * s + k - p) n - (o * s - p))).map ((o * s - p) + ·) := by
    rw [← range_filter_interval n (o * s - p) (min (o * s + k - p) n) (by omega)]
    unfold inWindow
    apply List.filter_congr
    intro i hi
    simp only [List.mem_range] at hi
    congr 1
    · exact decide_eq_decide.2 (by omega)
    · exact decide_eq_decide.2 (by omega)
  rw [e] at h ⊢
  cases hm : min (o * s + k - p) n - (o * s - p) with
  | zero => rw [hm] at h; simp at h
  | succ m => exact ⟨_, by rw [List.range_succ_eq_map]; rfl⟩

/-- C43, max pooling by the general kernel: if every window meets the input, every output element is the greatest of
the in-range values of its window (elements of a linear order: no NaN). -/
theorem C43_max_pool {α : Type} [LinearOrder α] [Inhabited α] (x : List α) (chans h w oh ow : Nat) (p : Window)
    (hx : x.length = chans * (h * w)) (hh : ∀ i, i < oh → inWindow i p.sh p.top p.kh h ≠ [])
    (hw : ∀ j, j < ow → inWindow j p.sw p.left p.kw w ≠ []) :
    ∃ out, poolLoops chans oh ow (maxAt (fun a b => decide (b < a)) x h w p) = .ok out ∧
      out.length = chans * (oh * ow) ∧
      ∀ c i j, c < chans → i < oh → j < ow → ∃ m, out[c * (oh * ow) + (i * ow + j)]? = some m ∧
        m ∈ windowValues x h w p c i j ∧ ∀ v ∈ windowValues x h w p c i j, v ≤ m := by
  have main : ∀ c i j, c < chans → i < oh → j < ow → ∃ m, maxAt (fun a b => decide (b < a)) x h w p c i j = .ok m ∧
      m ∈ windowValues x h w p c i j ∧ ∀ v ∈ windowValues x h w p c i j, v ≤ m := by
    intro c i j hc hi hj
    obtain ⟨t1, e1⟩ := window_head (hh i hi)
    obtain ⟨t2, e2⟩ := window_head (hw j hj)
    have m1 : i * p.sh - p.top < h := covered_lt (o := i) (s := p.sh) (p := p.top) (k := p.kh) (by
      show _ ∈ inWindow i p.sh p.top p.kh h
      rw [e1]; simp)
    have m2 : j * p.sw - p.left < w := covered_lt (o := j) (s := p.sw) (p := p.left) (k := p.kw) (by
      show _ ∈ inWindow j p.sw p.left p.kw w
      rw [e2]; simp)
    have hlt : c * (h * w) + ((i * p.sh - p.top) * w + (j * p.sw - p.left)) < x.length := by
      rw [hx]; exact cell_lt hc m1 m2
    have hfirst : readAtInt x ((c : Int) * ((h : Int) * w) +
        ((windowRange i p.sh p.top p.kh h).1 * w + (windowRange j p.sw p.left p.kw w).1)) =
        .ok x[c * (h * w) + ((i * p.sh - p.top) * w + (j * p.sw - p.left))] := by
      rw [← readAtInt_ok hlt]
      congr 1
      unfold windowRange
      simp only
      have a1 : max ((i : Int) * (p.sh : Int) - p.top) 0 = ((i * p.sh - p.top : Nat) : Int) := by
        have : ((i : Int) * (p.sh : Int)) = ((i * p.sh : Nat) : Int) := by push_cast; rfl
        omega
      have a2 : max ((j : Int) * (p.sw : Int) - p.left) 0 = ((j * p.sw - p.left : Nat) : Int) := by
        have : ((j : Int) * (p.sw : Int)) = ((j * p.sw : Nat) : Int) := by push_cast; rfl
        omega
      rw [a1, a2]
      push_cast
      rfl
    unfold maxAt
    simp only
    rw [hfirst, Res.bind_ok, cells_read x chans h w p c i j hx hc, Res.bind_ok]
    have hmem : x[c * (h * w) + ((i * p.sh - p.top) * w + (j * p.sw - p.left))] ∈ windowValues x h w p c i j := by
      unfold windowValues
      rw [List.mem_flatMap]
      refine ⟨i * p.sh - p.top, by rw [e1]; simp, ?_⟩
      rw [List.mem_filterMap]
      exact ⟨j * p.sw - p.left, by rw [e2]; simp, List.getElem?_eq_getElem hlt⟩
    obtain ⟨h1, h2, h3⟩ := foldl_max (windowValues x h w p c i j)
      x[c * (h * w) + ((i * p.sh - p.top) * w + (j * p.sw - p.left))]
    refine ⟨_, rfl, ?_, h3⟩
    rcases h1 with h1 | h1
    · rw [h1]; exact hmem
    · exact h1
  let g : Nat → Nat → Nat → α := fun c i j =>
    match maxAt (fun a b => decide (b < a)) x h w p c i j with
    | .ok m => m
    | _ => default
  obtain ⟨out, e, el, eg⟩ := poolLoops_ok chans oh ow (maxAt (fun a b => decide (b < a)) x h w p) g (by
    intro c i j hc hi hj
    obtain ⟨m, hm, _⟩ := main c i j hc hi hj
    simp only [g, hm])
  refine ⟨out, e, el, ?_⟩
  intro c i j hc hi hj
  obtain ⟨m, hm, h2, h3⟩ := main c i j hc hi hj
  exact ⟨m, by rw [eg c i j hc hi hj]; simp only [g, hm], h2, h3⟩

/-- a 3×3 plane, 2×2 windows, stride 2, no padding, rounding up: the last windows are cut -/
example : (∀ i, i < 2 → inWindow i 2 0 2 3 ≠ []) ∧
    poolLoops 1 2 2 (maxAt (fun a b => decide (b < a)) [1, 5, 2, 4, 3, 9, 7, 8, 6] 3 3 ⟨2, 2, 2, 2, 0, 0⟩) =
      .ok [5, 9, 8, 6] := by
  refine ⟨by decide, by decide⟩

/-- C43, average pooling: every output element is the sum of the in-range values (added row by row to zero) divided by
their number; an empty window gives zero. -/
theorem C43_avg_pool {α : Type} (zero : α) (add : α → α → α) (div : α → Nat → α) (x : List α)
    (chans h w oh ow : Nat) (p : Window) (hx : x.length = chans * (h * w)) :
    ∃ out, poolLoops chans oh ow (avgAt zero add div x h w p) = .ok out ∧ out.length = chans * (oh * ow) ∧
      ∀ c i j, c < chans → i < oh → j < ow → out[c * (oh * ow) + (i * ow + j)]? =
        some (if windowValues x h w p c i j = [] then zero
          else div ((windowValues x h w p c i j).foldl add zero) (windowValues x h w p c i j).length) := by
  apply poolLoops_ok
  intro c i j hc hi hj
  unfold avgAt
  simp only
  rw [cells_read x chans h w p c i j hx hc, Res.bind_ok]
  simp only [List.length_eq_zero_iff]
  split <;> rfl

/-- C43, average pooling with white padding: padding counts as zeros, i.e. the sum of the in-range values is divided by
the number of taps. -/
theorem C43_avg_white_pool {α : Type} (zero : α) (add : α → α → α) (div : α → Nat → α) (x : List α)
    (chans h w oh ow : Nat) (p : Window) (hx : x.length = chans * (h * w)) :
    ∃ out, poolLoops chans oh ow (avgWhiteAt zero add div x h w p) = .ok out ∧ out.length = chans * (oh * ow) ∧
      ∀ c i j, c < chans → i < oh → j < ow → out[c * (oh * ow) + (i * ow + j)]? =
        some (div ((windowValues x h w p c i j).foldl add zero) (p.kh * p.kw)) := by
  apply poolLoops_ok
  intro c i j hc hi hj
  unfold avgWhiteAt
  simp only
  rw [cells_read x chans h w p c i j hx hc, Res.bind_ok]

example : poolLoops 2 1 1 (avgAt 0 (· + ·) (fun a n => a / (n : Int)) [2, 4, 6, 8, 10, 20, 30, 40] 2 2 ⟨2, 2, 1, 1, 0, 0⟩) =
    .ok [5, 25] := by decide

/-- C43, a max-pooling window that lies entirely below the input: the general kernel reads the element at the clamped
window start, which may be outside the buffer (one plane of three rows, kernel 1, stride 3, two output rows as inferred,
see `C21_pool_window_outside_false`). -/
theorem C43_empty_window_reads_outside_false :
    poolLoops 1 2 1 (maxAt (fun a b => decide (b < a)) [1, 2, 3] 3 1 ⟨1, 1, 3, 1, 0, 0⟩) = .ub := by decide

/-- C43 is false for FLOAT64 max pooling with 2×2 or 3×3 windows and stride 2: the kernel chosen has an empty body and
the output buffer keeps whatever it contained. -/
theorem C43_float64_special_false : ∀ (dst : List Int),
    poolRun .float64 .err (fun a b => decide (b < a)) 0 (· + ·) (fun a n => a / (n : Int)) .max
      [1, 2, 3, 4] 1 2 2 1 1 ⟨2, 2, 2, 2, 0, 0⟩ 0 0 dst = .ok dst := by
  intro dst
  rfl

/-- … although the window's greatest value is 4. -/
example : windowValues [1, 2, 3, 4] 2 2 ⟨2, 2, 2, 2, 0, 0⟩ 0 0 0 = [1, 2, 3, 4] := by decide

/-- C43: outside the specialised cases the operator runs the general kernels, for both element types. -/
theorem C43_dispatch_partial {α : Type} (ty : PoolType) (special : Res (List α)) (gt : α → α → Bool) (zero : α)
    (add : α → α → α) (div : α → Nat → α) (x : List α) (chans h w oh ow : Nat) (p : Window) (bottom right : Nat)
    (dst : List α)
    (hs : p.sh ≠ 2 ∨ p.sw ≠ 2 ∨ 2 ≤ p.top ∨ 2 ≤ bottom ∨ 2 ≤ p.left ∨ 2 ≤ right ∨
      ¬ ((p.kh = 3 ∧ p.kw = 3) ∨ (p.kh = 2 ∧ p.kw = 2))) :
    poolRun ty special gt zero add div .max x chans h w oh ow p bottom right dst =
      poolLoops chans oh ow (maxAt gt x h w p) := by
  unfold poolRun
  simp only
  rw [if_neg]
  unfold specialised
  simp only [beq_self_eq_true, Bool.true_and, Bool.and_eq_true, beq_iff_eq, decide_eq_true_eq, Bool.or_eq_true, not_and]
  omega

example : ∃ p : Window, p.sh ≠ 2 := ⟨⟨2, 2, 1, 1, 0, 0⟩, by decide⟩

end Verif.Props
