import Verif.Props.Pooling
import Verif.Kernels.PoolFastLemmas
/-!
# C43, the specialised kernels of FLOAT32 max pooling (3×3 and 2×2 windows, stride 2, padding at most 1)

The specification is that of `Verif.Props.Pooling`: every output element is the greatest of the in-range values of its
window.
-/
namespace Verif.Props
open Verif.Core Verif.Kernels

theorem inWindow_eq (o s p k n : Nat) :
    inWindow o s p k n = (List.range (min (o * s + k - p) n - (o * s - p))).map ((o * s - p) + ·) := by
  rw [← range_filter_interval n (o * s - p) (min (o * s + k - p) n) (by omega)]
  unfold inWindow
  apply List.filter_congr
  intro i hi
  simp only [List.mem_range] at hi
  congr 1
  · exact decide_eq_decide.2 (by omega)
  · exact decide_eq_decide.2 (by omega)

/-- one dimension: `right` as the kernels compute it -/
def endPad (k n cnt pad : Nat) : Int :=
  (if 2 * (cnt : Int) + ((k - 2 : Nat) : Int) - n < 0 then 0 else 2 * (cnt : Int) + ((k - 2 : Nat) : Int) - n) - pad

/-- one dimension: the plan of the kernels -/
def planOf (k n cnt pad : Nat) : RowPlan :=
  ⟨decide (pad = 1), decide (0 < endPad k n cnt pad), if 0 < endPad k n cnt pad then cnt - 1 else cnt⟩

theorem plan_facts {k n cnt pad : Nat} (hk : k = 2 ∨ k = 3) (hp : pad ≤ 1) (hc : 1 ≤ cnt)
    (hw : ∀ j, j < cnt → inWindow j 2 pad k n ≠ []) (hn : pad = 1 → k - 1 ≤ n) :
    (planOf k n cnt pad).count = cnt ∧ ((planOf k n cnt pad).l → 1 ≤ (planOf k n cnt pad).nf) ∧
    ((planOf k n cnt pad).e → 1 ≤ endPad k n cnt pad ∧ endPad k n cnt pad < k) ∧
    ∀ j, j < cnt →
      inWindow j 2 pad k n = (List.range ((planOf k n cnt pad).height k (k - (endPad k n cnt pad).toNat) j)).map
        ((planOf k n cnt pad).start j + ·) ∧
      1 ≤ (planOf k n cnt pad).height k (k - (endPad k n cnt pad).toNat) j ∧
      (planOf k n cnt pad).start j + (planOf k n cnt pad).height k (k - (endPad k n cnt pad).toNat) j ≤ n := by
  have hlast := hw (cnt - 1) (by omega)
  have hlt : (cnt - 1) * 2 - pad < n := by
    rw [inWindow_eq] at hlast
    by_contra hcon
    apply hlast
    rw [show min ((cnt - 1) * 2 + k - pad) n - ((cnt - 1) * 2 - pad) = 0 by omega]
    rfl
  have he : endPad k n cnt pad = (if 2 * (cnt : Int) + ((k - 2 : Nat) : Int) - n < 0 then 0
    else 2 * (cnt : Int) + ((k - 2 : Nat) : Int) - n) - pad := rfl
  generalize endPad k n cnt pad = e at he
  unfold planOf
  rw [show endPad k n cnt pad = (if 2 * (cnt : Int) + ((k - 2 : Nat) : Int) - n < 0 then 0
    else 2 * (cnt : Int) + ((k - 2 : Nat) : Int) - n) - pad from rfl, ← he]
  have hel : 0 < e → e < k := by
    intro h
    split at he <;> omega
  have he1 : 0 < e → pad = 1 → 2 ≤ cnt := by
    intro h1 h2
    have := hn h2
    split at he <;> omega
  refine ⟨?_, ?_, ?_, ?_⟩
  · unfold RowPlan.count
    simp only [decide_eq_true_eq]
    split <;> omega
  · simp only [decide_eq_true_eq]
    intro h
    split
    · rename_i h1; have := he1 h1 h; omega
    · omega
  · simp only [decide_eq_true_eq]
    intro h
    exact ⟨by omega, hel h⟩
  · intro j hj
    rw [inWindow_eq]
    unfold RowPlan.height RowPlan.start
    simp only [decide_eq_true_eq]
    have hst : (if pad = 1 then 2 * j - 1 else 2 * j) = j * 2 - pad := by split <;> omega
    rw [hst]
    by_cases hfirst : pad = 1 ∧ j = 0
    · rw [if_pos hfirst]
      obtain ⟨hp1, rfl⟩ := hfirst
      have := hn hp1
      refine ⟨?_, by omega, by omega⟩
      rw [show min (0 * 2 + k - pad) n - (0 * 2 - pad) = k - 1 by omega]
    · rw [if_neg hfirst]
      by_cases hpos : 0 < e
      · rw [if_pos hpos]
        have hek := hel hpos
        have he2 : e = 2 * (cnt : Int) + ((k - 2 : Nat) : Int) - n - pad := by split at he <;> omega
        by_cases hjn : j < cnt - 1
        · rw [if_pos hjn]
          refine ⟨?_, by omega, by omega⟩
          rw [show min (j * 2 + k - pad) n - (j * 2 - pad) = k by omega]
        · rw [if_neg hjn]
          refine ⟨?_, by omega, by omega⟩
          rw [show min (j * 2 + k - pad) n - (j * 2 - pad) = k - e.toNat by omega]
      · rw [if_neg hpos, if_pos hj]
        have hle : 2 * (cnt : Int) + ((k - 2 : Nat) : Int) - n - pad ≤ 0 := by split at he <;> omega
        refine ⟨?_, by omega, by omega⟩
        rw [show min (j * 2 + k - pad) n - (j * 2 - pad) = k by omega]

theorem reduce1_max {α : Type} [LinearOrder α] {l : List α} (h : l ≠ []) :
    ∃ m, reduce1 max l = .ok m ∧ m ∈ l ∧ ∀ v ∈ l, v ≤ m := by
  cases l with
  | nil => exact absurd rfl h
  | cons a t =>
    refine ⟨t.foldl max a, rfl, ?_⟩
    clear h
    induction t generalizing a with
    | nil => simp
    | cons b t ih =>
      simp only [List.foldl_cons]
      obtain ⟨h1, h2⟩ := ih (max a b)
      constructor
      · rcases List.mem_cons.1 h1 with h1 | h1
        · rw [h1]
          rcases max_choice a b with h | h <;> rw [h] <;> simp
        · simp [h1]
      · intro v hv
        have h3 := h2 (max a b) (by simp)
        rcases List.mem_cons.1 hv with rfl | hv
        · exact le_trans (le_max_left _ _) h3
        rcases List.mem_cons.1 hv with rfl | hv
        · exact le_trans (le_max_right _ _) h3
        · exact h2 v (by simp [hv])

theorem forEach_exists {β γ : Type} [Inhabited γ] {f : β → Res γ} {P : β → γ → Prop} {l : List β}
    (h : ∀ b ∈ l, ∃ c, f b = .ok c ∧ P b c) : ∃ g : β → γ, forEach f l = .ok (l.map g) ∧ ∀ b ∈ l, P b (g b) := by
  classical
  refine ⟨fun b => if hb : b ∈ l then (h b hb).choose else default, ?_, ?_⟩
  · apply forEach_ok
    intro b hb
    rw [dif_pos hb]
    exact (h b hb).choose_spec.1
  · intro b hb
    simp only [dif_pos hb]
    exact (h b hb).choose_spec.2

/-- the value at a window's cell -/
theorem cell_max {α : Type} [LinearOrder α] [Inhabited α] (x : List α) (chans h w ch a r st c : Nat)
    (hx : x.length = chans * (h * w)) (hch : ch < chans) (hr : 1 ≤ r) (hc : 1 ≤ c) (har : a + r ≤ h) (hst : st + c ≤ w) :
    ∃ m, cellAt max x ((List.range c).map fun (i : Nat) => (i : Int))
        ((rowsAt ((ch : Int) * ((h : Int) * w)) w a r).map (· + (st : Int))) = .ok m ∧
      (∃ i j, i < r ∧ j < c ∧ x[ch * (h * w) + ((a + i) * w + (st + j))]? = some m) ∧
      ∀ i j v, i < r → j < c → x[ch * (h * w) + ((a + i) * w + (st + j))]? = some v → v ≤ m := by
  have hin : ∀ i j, i < r → j < c → ch * (h * w) + ((a + i) * w + (st + j)) < x.length := by
    intro i j hi hj
    rw [hx]
    exact cell_lt hch (by omega) (by omega)
  let val : Nat → Nat → α := fun i j => (x[ch * (h * w) + ((a + i) * w + (st + j))]?).getD default
  have hval : ∀ i j, i < r → j < c → x[ch * (h * w) + ((a + i) * w + (st + j))]? = some (val i j) := by
    intro i j hi hj
    simp only [val]
    rw [List.getElem?_eq_getElem (hin i j hi hj)]
    rfl
  -- one row
  have hrow : ∀ i, i < r → ∃ m, reduceAt max x ((List.range c).map fun (i : Nat) => (i : Int))
      ((ch : Int) * ((h : Int) * w) + ((a + i : Nat) : Int) * w + st) = .ok m ∧
      ((∃ j, j < c ∧ m = val i j) ∧ ∀ j, j < c → val i j ≤ m) := by
    intro i hi
    unfold reduceAt
    rw [forEach_ok (g := fun (o : Int) => val i o.toNat) (by
      intro o ho
      obtain ⟨j, hj, rfl⟩ := List.mem_map.1 ho
      rw [List.mem_range] at hj
      have := hin i j hi hj
      rw [show (ch : Int) * ((h : Int) * w) + ((a + i : Nat) : Int) * w + st + (j : Int) =
        ((ch * (h * w) + ((a + i) * w + (st + j)) : Nat) : Int) by push_cast; omega, readAtInt_ok this]
      simp only [val, Int.toNat_natCast]
      rw [List.getElem?_eq_getElem this]
      rfl), Res.bind_ok, List.map_map]
    obtain ⟨m, h1, h2, h3⟩ := reduce1_max (l := (List.range c).map ((fun (o : Int) => val i o.toNat) ∘ fun (i : Nat) => (i : Int)))
      (by
        intro hnil
        have := congrArg List.length hnil
        simp at this
        omega)
    refine ⟨m, h1, ?_, ?_⟩
    · obtain ⟨j, hj, rfl⟩ := List.mem_map.1 h2
      exact ⟨j, List.mem_range.1 hj, rfl⟩
    · intro j hj
      exact h3 _ (List.mem_map.2 ⟨j, List.mem_range.2 hj, rfl⟩)
  unfold cellAt rowsAt
  rw [List.map_map]
  have hfe := forEach_exists (f := fun i : Nat => reduceAt max x ((List.range c).map fun (i : Nat) => (i : Int))
      ((ch : Int) * ((h : Int) * w) + ((a + i : Nat) : Int) * w + st))
    (P := fun i m => (∃ j, j < c ∧ m = val i j) ∧ ∀ j, j < c → val i j ≤ m) (l := List.range r)
    (fun i hi => hrow i (List.mem_range.1 hi))
  obtain ⟨g, hg1, hg2⟩ := hfe
  have hmap : ∀ {β γ δ : Type} (f : γ → Res δ) (k : β → γ) (l : List β), forEach f (l.map k) = forEach (fun b => f (k b)) l := by
    intro β γ δ f k l
    induction l with
    | nil => rfl
    | cons b t ih => simp only [List.map_cons, forEach, ih]
  rw [hmap]
  simp only [Function.comp_apply]
  rw [hg1, Res.bind_ok]
  obtain ⟨m, h1, h2, h3⟩ := reduce1_max (l := (List.range r).map g) (by
    intro hnil
    have := congrArg List.length hnil
    simp at this
    omega)
  refine ⟨m, h1, ?_, ?_⟩
  · obtain ⟨i, hi, rfl⟩ := List.mem_map.1 h2
    obtain ⟨⟨j, hj, hm⟩, _⟩ := hg2 i hi
    rw [List.mem_range] at hi
    exact ⟨i, j, hi, hj, by rw [hm]; exact hval i j hi hj⟩
  · intro i j v hi hj hv
    rw [hval i j hi hj] at hv
    obtain rfl := Option.some.inj hv
    exact le_trans ((hg2 i (List.mem_range.2 hi)).2 j hj) (h3 _ (List.mem_map.2 ⟨i, List.mem_range.2 hi, rfl⟩))

/-- both kernels at once: `k` taps in each dimension -/
theorem fast_pool {α : Type} [LinearOrder α] [Inhabited α] (k : Nat) (hk : k = 2 ∨ k = 3) (x dst : List α)
    (chans h w oh ow top left : Nat) (hx : x.length = chans * (h * w)) (hd : dst.length = chans * (oh * ow))
    (htop : top ≤ 1) (hleft : left ≤ 1) (hoh : 1 ≤ oh) (how : 1 ≤ ow)
    (hh : ∀ i, i < oh → inWindow i 2 top k h ≠ []) (hw : ∀ j, j < ow → inWindow j 2 left k w ≠ [])
    (hn : top = 1 → k - 1 ≤ h) (hm : left = 1 → k - 1 ≤ w) :
    ∃ out, fastPlanes (fastPlane (walkRow max max false x ((List.range (k - 1)).map fun (i : Nat) => (i : Int))
          ((List.range k).map fun (i : Nat) => (i : Int))
          (if (planOf k w ow left).e then some ((List.range (k - (endPad k w ow left).toNat)).map fun (i : Nat) => (i : Int))
            else none) left (fastGeom ((k - 2 : Nat) : Int) h w oh ow top left)) k
          (if (planOf k h oh top).e then some (k - (endPad k h oh top).toNat) else none) w top
          (fastGeom ((k - 2 : Nat) : Int) h w oh ow top left)) ((h : Int) * w) ((oh : Int) * ow) 0 chans dst = .ok out ∧
      out.length = chans * (oh * ow) ∧
      ∀ c i j, c < chans → i < oh → j < ow → ∃ m, out[c * (oh * ow) + (i * ow + j)]? = some m ∧
        m ∈ windowValues x h w ⟨k, k, 2, 2, top, left⟩ c i j ∧
        ∀ v ∈ windowValues x h w ⟨k, k, 2, 2, top, left⟩ c i j, v ≤ m := by
  obtain ⟨v1, v2, v3, v4⟩ := plan_facts hk htop hoh hh hn
  obtain ⟨u1, u2, u3, u4⟩ := plan_facts hk hleft how hw hm
  -- cells
  have hcell : ∀ c i j, c < chans → i < oh → j < ow → ∃ m,
      cellAt max x ((List.range ((planOf k w ow left).height k (k - (endPad k w ow left).toNat) j)).map fun (i : Nat) => (i : Int))
        ((rowsAt ((c : Int) * ((h : Int) * w)) w ((planOf k h oh top).start i)
          ((planOf k h oh top).height k (k - (endPad k h oh top).toNat) i)).map
            (· + ((planOf k w ow left).start j : Int))) = .ok m ∧
      m ∈ windowValues x h w ⟨k, k, 2, 2, top, left⟩ c i j ∧
        ∀ v ∈ windowValues x h w ⟨k, k, 2, 2, top, left⟩ c i j, v ≤ m := by
    intro c i j hc hi hj
    obtain ⟨e1, e2, e3⟩ := v4 i hi
    obtain ⟨f1, f2, f3⟩ := u4 j hj
    obtain ⟨m, m1, m2, m3⟩ := cell_max x chans h w c _ _ _ _ hx hc e2 f2 e3 f3
    refine ⟨m, m1, ?_, ?_⟩
    · obtain ⟨a, b, ha, hb, hm⟩ := m2
      unfold windowValues
      rw [List.mem_flatMap]
      refine ⟨(planOf k h oh top).start i + a, ?_, ?_⟩
      · simp only
        rw [e1]
        exact List.mem_map.2 ⟨a, List.mem_range.2 ha, rfl⟩
      · rw [List.mem_filterMap]
        refine ⟨(planOf k w ow left).start j + b, ?_, hm⟩
        simp only
        rw [f1]
        exact List.mem_map.2 ⟨b, List.mem_range.2 hb, rfl⟩
    · intro v hv
      unfold windowValues at hv
      rw [List.mem_flatMap] at hv
      obtain ⟨r, hr, hv⟩ := hv
      rw [List.mem_filterMap] at hv
      obtain ⟨s, hs, hv⟩ := hv
      simp only at hr hs
      rw [e1] at hr
      rw [f1] at hs
      obtain ⟨a, ha, rfl⟩ := List.mem_map.1 hr
      obtain ⟨b, hb, rfl⟩ := List.mem_map.1 hs
      exact m3 a b v (List.mem_range.1 ha) (List.mem_range.1 hb) hv
  obtain ⟨g, hg⟩ : ∃ g : Nat → Nat → Nat → α, ∀ c i j, c < chans → i < oh → j < ow →
      cellAt max x ((List.range ((planOf k w ow left).height k (k - (endPad k w ow left).toNat) j)).map fun (i : Nat) => (i : Int))
        ((rowsAt ((c : Int) * ((h : Int) * w)) w ((planOf k h oh top).start i)
          ((planOf k h oh top).height k (k - (endPad k h oh top).toNat) i)).map
            (· + ((planOf k w ow left).start j : Int))) = .ok (g c i j) ∧
      g c i j ∈ windowValues x h w ⟨k, k, 2, 2, top, left⟩ c i j ∧
        ∀ v ∈ windowValues x h w ⟨k, k, 2, 2, top, left⟩ c i j, v ≤ g c i j := by
    classical
    refine ⟨fun c i j => if hp : c < chans ∧ i < oh ∧ j < ow then (hcell c i j hp.1 hp.2.1 hp.2.2).choose else default, ?_⟩
    intro c i j hc hi hj
    simp only [dif_pos (show c < chans ∧ i < oh ∧ j < ow from ⟨hc, hi, hj⟩)]
    exact (hcell c i j hc hi hj).choose_spec
  -- the geometry
  have gr : (fastGeom ((k - 2 : Nat) : Int) h w oh ow top left).ow = (planOf k w ow left).nf := by
    show (if endPad k w ow left > 0 then (ow : Int) - 1 else ow) =
      ((if 0 < endPad k w ow left then ow - 1 else ow : Nat) : Int)
    split <;> omega
  have gh : (fastGeom ((k - 2 : Nat) : Int) h w oh ow top left).oh = (planOf k h oh top).nf := by
    show (if endPad k h oh top > 0 then (oh : Int) - 1 else oh) =
      ((if 0 < endPad k h oh top then oh - 1 else oh : Nat) : Int)
    split <;> omega
  have gb : (fastGeom ((k - 2 : Nat) : Int) h w oh ow top left).blocks =
      ((if (planOf k w ow left).l then ((planOf k w ow left).nf - 1) / 4 else (planOf k w ow left).nf / 4 : Nat) : Int) := by
    show (if (left : Int) = 1 then ((fastGeom ((k - 2 : Nat) : Int) h w oh ow top left).ow - 1).tdiv 4
      else ((fastGeom ((k - 2 : Nat) : Int) h w oh ow top left).ow).tdiv 4) = _
    rw [gr]
    have hl : (planOf k w ow left).l = decide (left = 1) := rfl
    rw [hl] at u2 ⊢
    generalize (planOf k w ow left).nf = nf at *
    by_cases h1 : left = 1
    · have hnf := u2 (by simpa using h1)
      rw [if_pos (by omega), if_pos (by simpa using h1)]
      rw [show ((nf : Int) - 1) = ((nf - 1 : Nat) : Int) by omega, Int.tdiv_eq_ediv_of_nonneg (by omega)]
      omega
    · rw [if_neg (by omega), if_neg (by simpa using h1), Int.tdiv_eq_ediv_of_nonneg (by omega)]
      omega
  have grem : ((planOf k w ow left).start (planOf k w ow left).nf : Int) +
      (fastGeom ((k - 2 : Nat) : Int) h w oh ow top left).remain = w := by
    show _ + (if (left : Int) = 1 then (w : Int) - (fastGeom ((k - 2 : Nat) : Int) h w oh ow top left).ow * 2 + 1
      else (w : Int) - (fastGeom ((k - 2 : Nat) : Int) h w oh ow top left).ow * 2) = _
    rw [gr]
    unfold RowPlan.start
    have hl : (planOf k w ow left).l = decide (left = 1) := rfl
    rw [hl] at u2 ⊢
    generalize (planOf k w ow left).nf = nf at *
    by_cases h1 : left = 1
    · have hnf := u2 (by simpa using h1)
      rw [if_pos (by simpa using h1), if_pos (by omega)]
      omega
    · rw [if_neg (by simpa using h1), if_neg (by omega)]
      omega
  have hleftI : (left : Int) = if (planOf k w ow left).l then 1 else 0 := by
    show (left : Int) = if decide (left = 1) then 1 else 0
    by_cases h1 : left = 1 <;> simp [h1] <;> omega
  have htopI : (top : Int) = if (planOf k h oh top).l then 1 else 0 := by
    show (top : Int) = if decide (top = 1) then 1 else 0
    by_cases h1 : top = 1 <;> simp [h1] <;> omega
  have hoffs : ∀ j, j < ow → (planOf k w ow left).offs ((List.range (k - 1)).map fun (i : Nat) => (i : Int))
      ((List.range k).map fun (i : Nat) => (i : Int))
      ((List.range (k - (endPad k w ow left).toNat)).map fun (i : Nat) => (i : Int)) j =
      (List.range ((planOf k w ow left).height k (k - (endPad k w ow left).toNat) j)).map fun (i : Nat) => (i : Int) := by
    intro j _
    unfold RowPlan.offs RowPlan.height
    split
    · rfl
    · split <;> rfl
  -- rows
  have hrow : ∀ c, c < chans → RowDone (walkRow max max false x ((List.range (k - 1)).map fun (i : Nat) => (i : Int))
          ((List.range k).map fun (i : Nat) => (i : Int))
          (if (planOf k w ow left).e then some ((List.range (k - (endPad k w ow left).toNat)).map fun (i : Nat) => (i : Int))
            else none) left (fastGeom ((k - 2 : Nat) : Int) h w oh ow top left))
      (planOf k h oh top) k (k - (endPad k h oh top).toNat) ((c : Int) * ((h : Int) * w)) w
      ((planOf k w ow left).start (planOf k w ow left).nf : Int) ow (fun i => (List.range ow).map (g c i)) := by
    intro c hc i hi
    rw [v1] at hi
    refine ⟨by simp, ?_⟩
    intro o d ho
    have := walkRow_ok max max x ((List.range (k - 1)).map fun (i : Nat) => (i : Int))
          ((List.range k).map fun (i : Nat) => (i : Int))
          ((List.range (k - (endPad k w ow left).toNat)).map fun (i : Nat) => (i : Int)) (planOf k w ow left) left
          (fastGeom ((k - 2 : Nat) : Int) h w oh ow top left)
          (rowsAt ((c : Int) * ((h : Int) * w)) w ((planOf k h oh top).start i)
            ((planOf k h oh top).height k (k - (endPad k h oh top).toNat) i)) o d (g c i) hleftI gr u2 gb (by
              intro j hj
              rw [u1] at hj
              rw [hoffs j hj]
              exact (hg c i j hc hi hj).1) (by
              intro j hj hn
              have hj2 : j < ow := by rw [← u1]; unfold RowPlan.count; omega
              have e : (planOf k w ow left).height k (k - (endPad k w ow left).toNat) j = k := by
                unfold RowPlan.height
                rw [if_neg hn, if_pos hj]
              have := (hg c i j hc hi hj2).1
              rw [e] at this
              exact this) (by rw [u1]; exact ho)
    rw [u1] at this
    exact this
  have hvl : ∀ c, ((List.range oh).flatMap fun i => (List.range ow).map (g c i)).length = oh * ow := by
    intro c
    exact flatMap_length_const fun i _ => by simp
  have hplanes := fastPlanes_ok (plane := fastPlane (walkRow max max false x ((List.range (k - 1)).map fun (i : Nat) => (i : Int))
          ((List.range k).map fun (i : Nat) => (i : Int))
          (if (planOf k w ow left).e then some ((List.range (k - (endPad k w ow left).toNat)).map fun (i : Nat) => (i : Int))
            else none) left (fastGeom ((k - 2 : Nat) : Int) h w oh ow top left)) k
          (if (planOf k h oh top).e then some (k - (endPad k h oh top).toNat) else none) w top
          (fastGeom ((k - 2 : Nat) : Int) h w oh ow top left)) (isz := (h : Int) * w) (osz := (oh : Int) * ow)
    (os := oh * ow) (vals := fun c => (List.range oh).flatMap fun i => (List.range ow).map (g c i)) (by push_cast; rfl)
    chans 0 dst (by omega) (by
      intro c _ hc
      refine ⟨hvl c, ?_⟩
      intro d hdl
      have := fastPlane_ok (hrow c (by omega)) (by omega) (by omega) v2 htopI gh grem (c * (oh * ow)) d (by
        rw [v1]; exact hdl)
      rw [v1] at this
      exact this)
  have hflat : ((List.range chans).flatMap fun j => (List.range oh).flatMap fun i => (List.range ow).map (g (0 + j) i)).length =
      chans * (oh * ow) := flatMap_length_const fun c _ => hvl _
  refine ⟨_, hplanes, ?_, ?_⟩
  · rw [Nat.zero_mul, put_all (by rw [hd]; exact hflat)]
    exact hflat
  · intro c i j hc hi hj
    rw [Nat.zero_mul, put_all (by rw [hd]; exact hflat)]
    refine ⟨g c i j, ?_, ?_⟩
    · rw [List.flatMap_def]
      obtain ⟨_, a2⟩ := flatten_get (oh * ow) chans (fun j => (List.range oh).flatMap fun i => (List.range ow).map (g (0 + j) i))
        (fun c _ => hvl _)
      have hij : i * ow + j < oh * ow := by
        have := Nat.mul_le_mul_right ow hi
        rw [Nat.succ_mul] at this
        omega
      rw [a2 c (i * ow + j) hc hij, Nat.zero_add]
      rw [List.flatMap_def]
      obtain ⟨_, b2⟩ := flatten_get ow oh (fun i => (List.range ow).map (g c i)) (fun i _ => by simp)
      rw [b2 i j hi hj]
      simp [hj]
    · exact (hg c i j hc hi hj).2

/-- C43, FLOAT32 max pooling with 2×2 windows, stride 2 and padding at most 1: if every window meets the input, every
output element is the greatest of the in-range values of its window, whatever the output buffer contained. `mx` is
`std::max`, `vmx` a lane of the vector maximum; both give the greater of two elements of a linear order (no NaN). -/
theorem C43_float_k2 {α : Type} [LinearOrder α] [Inhabited α] (mx vmx : α → α → α) (hmx : ∀ a b, mx a b = max a b)
    (hvmx : ∀ a b, vmx a b = max a b) (x dst : List α) (chans h w oh ow top left : Nat)
    (hx : x.length = chans * (h * w)) (hd : dst.length = chans * (oh * ow))
    (htop : top ≤ 1) (hleft : left ≤ 1) (hoh : 1 ≤ oh) (how : 1 ≤ ow)
    (hh : ∀ i, i < oh → inWindow i 2 top 2 h ≠ []) (hw : ∀ j, j < ow → inWindow j 2 left 2 w ≠ []) :
    ∃ out, maxPoolK2S2 mx vmx x chans h w oh ow top left dst = .ok out ∧ out.length = chans * (oh * ow) ∧
      ∀ c i j, c < chans → i < oh → j < ow → ∃ m, out[c * (oh * ow) + (i * ow + j)]? = some m ∧
        m ∈ windowValues x h w ⟨2, 2, 2, 2, top, left⟩ c i j ∧
        ∀ v ∈ windowValues x h w ⟨2, 2, 2, 2, top, left⟩ c i j, v ≤ m := by
  obtain rfl : mx = max := by funext a b; exact hmx a b
  obtain rfl : vmx = max := by funext a b; exact hvmx a b
  have hn : ∀ {o p n : Nat}, inWindow o 2 p 2 n ≠ [] → 1 ≤ n := by
    intro o p n h
    rcases Nat.eq_zero_or_pos n with rfl | h1
    · exact absurd rfl h
    · exact h1
  have hh1 := hn (hh 0 hoh)
  have hw1 := hn (hw 0 how)
  obtain ⟨out, e, r⟩ := fast_pool 2 (Or.inl rfl) x dst chans h w oh ow top left hx hd htop hleft hoh how hh hw
    (fun _ => hh1) (fun _ => hw1)
  refine ⟨out, ?_, r⟩
  rw [← e]
  obtain ⟨_, _, v3, _⟩ := plan_facts (Or.inl rfl) htop hoh hh (fun _ => hh1)
  obtain ⟨_, _, u3, _⟩ := plan_facts (Or.inl rfl) hleft how hw (fun _ => hw1)
  have el : (if endPad 2 w ow left > 0 then some ([0] : List Int) else none) =
      (if (planOf 2 w ow left).e then some ((List.range (2 - (endPad 2 w ow left).toNat)).map fun (i : Nat) => (i : Int))
        else none) := by
    have he : (planOf 2 w ow left).e = decide (0 < endPad 2 w ow left) := rfl
    rw [he] at u3 ⊢
    by_cases hpos : 0 < endPad 2 w ow left
    · obtain ⟨h1, h2⟩ := u3 (by simpa using hpos)
      rw [if_pos hpos, if_pos (by simpa using hpos), show 2 - (endPad 2 w ow left).toNat = 1 by omega]
      rfl
    · rw [if_neg hpos, if_neg (by simpa using hpos)]
  have eb : (if endPad 2 h oh top > 0 then some 1 else none) =
      (if (planOf 2 h oh top).e then some (2 - (endPad 2 h oh top).toNat) else none) := by
    have he : (planOf 2 h oh top).e = decide (0 < endPad 2 h oh top) := rfl
    rw [he] at v3 ⊢
    by_cases hpos : 0 < endPad 2 h oh top
    · obtain ⟨h1, h2⟩ := v3 (by simpa using hpos)
      rw [if_pos hpos, if_pos (by simpa using hpos), show 2 - (endPad 2 h oh top).toNat = 1 by omega]
    · rw [if_neg hpos, if_neg (by simpa using hpos)]
  rw [← el, ← eb]
  rfl

/-- two planes of 3×10, padding 1 at the top and at the left, rounding up: top row, blocks of four, remaining cells,
right edge -/
example : (∀ i, i < 2 → inWindow i 2 1 2 3 ≠ []) ∧ (∀ j, j < 6 → inWindow j 2 1 2 10 ≠ []) ∧
    maxPoolK2S2 max max (List.range 60) 2 3 10 2 6 1 1 (List.replicate 24 99) =
      .ok [0, 2, 4, 6, 8, 9, 20, 22, 24, 26, 28, 29, 30, 32, 34, 36, 38, 39, 50, 52, 54, 56, 58, 59] := by
  refine ⟨by decide, by decide, by decide⟩

/-- `std::max` and `_mm_max_ps` are the maximum of a linear order -/
example : (∀ a b : Int, (if a < b then b else a) = max a b) ∧ (∀ a b : Int, (if a > b then a else b) = max a b) := by
  constructor <;> intro a b <;> split <;> omega

/-- C43, FLOAT32 max pooling with 3×3 windows, stride 2 and padding at most 1, builds without `TS_USE_NEON`. Missing from
the claim: a dimension of extent 1 with leading padding 1 (`C43_float_k3_false`). -/
theorem C43_float_k3_partial {α : Type} [LinearOrder α] [Inhabited α] (mx vmx : α → α → α)
    (hmx : ∀ a b, mx a b = max a b) (hvmx : ∀ a b, vmx a b = max a b) (x dst : List α)
    (chans h w oh ow top left : Nat) (hx : x.length = chans * (h * w)) (hd : dst.length = chans * (oh * ow))
    (htop : top ≤ 1) (hleft : left ≤ 1) (hoh : 1 ≤ oh) (how : 1 ≤ ow)
    (hh : ∀ i, i < oh → inWindow i 2 top 3 h ≠ []) (hw : ∀ j, j < ow → inWindow j 2 left 3 w ≠ [])
    (hn : top = 1 → h ≠ 1) (hm : left = 1 → w ≠ 1) :
    ∃ out, maxPoolK3S2 mx vmx false x chans h w oh ow top left dst = .ok out ∧ out.length = chans * (oh * ow) ∧
      ∀ c i j, c < chans → i < oh → j < ow → ∃ m, out[c * (oh * ow) + (i * ow + j)]? = some m ∧
        m ∈ windowValues x h w ⟨3, 3, 2, 2, top, left⟩ c i j ∧
        ∀ v ∈ windowValues x h w ⟨3, 3, 2, 2, top, left⟩ c i j, v ≤ m := by
  obtain rfl : mx = max := by funext a b; exact hmx a b
  obtain rfl : vmx = max := by funext a b; exact hvmx a b
  have hpos : ∀ {o p n : Nat}, inWindow o 2 p 3 n ≠ [] → 1 ≤ n := by
    intro o p n h
    rcases Nat.eq_zero_or_pos n with rfl | h1
    · exact absurd rfl h
    · exact h1
  have hh1 := hpos (hh 0 hoh)
  have hw1 := hpos (hw 0 how)
  have hh2 : top = 1 → 3 - 1 ≤ h := fun h => by have := hn h; omega
  have hw2 : left = 1 → 3 - 1 ≤ w := fun h => by have := hm h; omega
  obtain ⟨out, e, r⟩ := fast_pool 3 (Or.inr rfl) x dst chans h w oh ow top left hx hd htop hleft hoh how hh hw hh2 hw2
  refine ⟨out, ?_, r⟩
  rw [← e]
  obtain ⟨_, _, v3, _⟩ := plan_facts (Or.inr rfl) htop hoh hh hh2
  obtain ⟨_, _, u3, _⟩ := plan_facts (Or.inr rfl) hleft how hw hw2
  have el : (if endPad 3 w ow left = 1 then some ([0, 1] : List Int) else if endPad 3 w ow left = 2 then some [0] else none) =
      (if (planOf 3 w ow left).e then some ((List.range (3 - (endPad 3 w ow left).toNat)).map fun (i : Nat) => (i : Int))
        else none) := by
    have he : (planOf 3 w ow left).e = decide (0 < endPad 3 w ow left) := rfl
    rw [he] at u3 ⊢
    by_cases hpos : 0 < endPad 3 w ow left
    · obtain ⟨h1, h2⟩ := u3 (by simpa using hpos)
      rw [if_pos (show decide (0 < endPad 3 w ow left) = true by simpa using hpos)]
      by_cases h3 : endPad 3 w ow left = 1
      · rw [if_pos h3, h3]
        rfl
      · have h4 : endPad 3 w ow left = 2 := by omega
        rw [if_neg h3, if_pos h4, h4]
        rfl
    · rw [if_neg (by omega), if_neg (by omega), if_neg (by simpa using hpos)]
  have eb : (if endPad 3 h oh top = 1 then some 2 else if endPad 3 h oh top = 2 then some 1 else none) =
      (if (planOf 3 h oh top).e then some (3 - (endPad 3 h oh top).toNat) else none) := by
    have he : (planOf 3 h oh top).e = decide (0 < endPad 3 h oh top) := rfl
    rw [he] at v3 ⊢
    by_cases hpos : 0 < endPad 3 h oh top
    · obtain ⟨h1, h2⟩ := v3 (by simpa using hpos)
      rw [if_pos (show decide (0 < endPad 3 h oh top) = true by simpa using hpos)]
      by_cases h3 : endPad 3 h oh top = 1
      · rw [if_pos h3, h3]
        rfl
      · have h4 : endPad 3 h oh top = 2 := by omega
        rw [if_neg h3, if_pos h4, h4]
        rfl
    · rw [if_neg (by omega), if_neg (by omega), if_neg (by simpa using hpos)]
  rw [← el, ← eb]
  rfl

/-- two planes of 4×12, padding 1 on every side -/
example : (∀ i, i < 2 → inWindow i 2 1 3 4 ≠ []) ∧ (∀ j, j < 7 → inWindow j 2 1 3 12 ≠ []) ∧
    maxPoolK3S2 max max false (List.range 96) 2 4 12 2 7 1 1 (List.replicate 28 999) =
      .ok [13, 15, 17, 19, 21, 23, 23, 37, 39, 41, 43, 45, 47, 47, 61, 63, 65, 67, 69, 71, 71, 85, 87, 89, 91, 93, 95, 95] := by
  refine ⟨by decide, by decide, by decide⟩

/-- C43 is false for the 3×3 kernel on planes of one row and one column with padding 1: the kernel takes the one window
for a window cut at the top left and for one cut at the bottom right, reads beyond the plane and writes beyond the
output, although the window covers the one element. -/
theorem C43_float_k3_false : ∀ (v d : Int),
    maxPoolK3S2 max max false [v] 1 1 1 1 1 1 1 [d] = .ub ∧ windowValues [v] 1 1 ⟨3, 3, 2, 2, 1, 1⟩ 0 0 0 = [v] := by
  intro v d
  exact ⟨rfl, rfl⟩

/-- C43 is false for the 3×3 kernel in builds with `TS_USE_NEON`: it loads eight elements per row pointer before looking
at the width, so a 3×3 plane is read beyond its end. -/
theorem C43_float_k3_neon_false :
    maxPoolK3S2 max max true [1, 2, 3, 4, 5, 6, 7, 8, (9 : Int)] 1 3 3 1 1 0 0 [0] = .ub ∧
    maxPoolK3S2 max max false [1, 2, 3, 4, 5, 6, 7, 8, (9 : Int)] 1 3 3 1 1 0 0 [0] = .ok [9] := by
  exact ⟨by decide, by decide⟩

/-- The load ahead takes eight elements: a 3×5 plane is read beyond its end although its last row has four elements to
spare. It is repeated for the elements after every block: a 3×9 plane, whose first eight columns are inside, is read beyond
its end after the first block. -/
theorem C43_float_k3_neon_ahead_false :
    maxPoolK3S2 max max true (List.replicate 15 (7 : Int)) 1 3 5 1 2 0 0 [0, 0] = .ub ∧
    maxPoolK3S2 max max false (List.replicate 15 (7 : Int)) 1 3 5 1 2 0 0 [0, 0] = .ok [7, 7] ∧
    maxPoolK3S2 max max true (List.replicate 27 (7 : Int)) 1 3 9 1 4 0 0 [0, 0, 0, 0] = .ub ∧
    maxPoolK3S2 max max false (List.replicate 27 (7 : Int)) 1 3 9 1 4 0 0 [0, 0, 0, 0] = .ok [7, 7, 7, 7] ∧
    preload (List.replicate 27 (7 : Int)) 0 [0, 9, 18] = .ok () := by
  exact ⟨by decide, by decide, by decide, by decide, by decide⟩

/-- C43, FLOAT32 max pooling as the operator runs it (builds without `TS_USE_NEON`), for every window size, stride and
padding: if every window meets the input, every output element is the greatest of the in-range values of its window.
Missing from the claim: a dimension of extent 1 with leading padding 1 under a 3×3 window of stride 2. -/
theorem C43_max_float32_partial {α : Type} [LinearOrder α] [Inhabited α] (mx vmx : α → α → α)
    (hmx : ∀ a b, mx a b = max a b) (hvmx : ∀ a b, vmx a b = max a b) (zero : α) (add : α → α → α) (div : α → Nat → α)
    (x dst : List α) (chans h w oh ow : Nat) (p : Window) (bottom right : Nat)
    (hx : x.length = chans * (h * w)) (hd : dst.length = chans * (oh * ow)) (hoh : 1 ≤ oh) (how : 1 ≤ ow)
    (hh : ∀ i, i < oh → inWindow i p.sh p.top p.kh h ≠ []) (hw : ∀ j, j < ow → inWindow j p.sw p.left p.kw w ≠ [])
    (hn : p.kh = 3 → p.sh = 2 → p.top = 1 → h ≠ 1) (hm : p.kw = 3 → p.sw = 2 → p.left = 1 → w ≠ 1) :
    ∃ out, poolRun .float32 (poolSpecial mx vmx false x chans h w oh ow p dst) (fun a b => decide (b < a)) zero add div
        .max x chans h w oh ow p bottom right dst = .ok out ∧ out.length = chans * (oh * ow) ∧
      ∀ c i j, c < chans → i < oh → j < ow → ∃ m, out[c * (oh * ow) + (i * ow + j)]? = some m ∧
        m ∈ windowValues x h w p c i j ∧ ∀ v ∈ windowValues x h w p c i j, v ≤ m := by
  by_cases hs : specialised .max p bottom right = true
  · have e : poolRun .float32 (poolSpecial mx vmx false x chans h w oh ow p dst) (fun a b => decide (b < a)) zero add div
        .max x chans h w oh ow p bottom right dst = poolSpecial mx vmx false x chans h w oh ow p dst := by
      unfold poolRun
      simp only [hs, if_true]
    rw [e]
    unfold specialised at hs
    simp only [beq_self_eq_true, Bool.true_and, Bool.and_eq_true, beq_iff_eq, decide_eq_true_eq, Bool.or_eq_true] at hs
    obtain ⟨⟨⟨⟨⟨⟨h1, h2⟩, h3⟩, h4⟩, h5⟩, h6⟩, h7⟩ := hs
    obtain ⟨kh, kw, sh, sw, top, left⟩ := p
    simp only at *
    subst h1 h2
    unfold poolSpecial
    simp only
    rcases h7 with ⟨rfl, rfl⟩ | ⟨rfl, rfl⟩
    · rw [if_pos ⟨rfl, rfl⟩]
      exact C43_float_k3_partial mx vmx hmx hvmx x dst chans h w oh ow top left hx hd h3 h5 hoh how hh hw
        (hn rfl rfl) (hm rfl rfl)
    · rw [if_neg (by decide)]
      exact C43_float_k2 mx vmx hmx hvmx x dst chans h w oh ow top left hx hd h3 h5 hoh how hh hw
  · have e : poolRun .float32 (poolSpecial mx vmx false x chans h w oh ow p dst) (fun a b => decide (b < a)) zero add div
        .max x chans h w oh ow p bottom right dst = poolLoops chans oh ow (maxAt (fun a b => decide (b < a)) x h w p) := by
      unfold poolRun
      simp only [hs]
      rfl
    rw [e]
    exact C43_max_pool x chans h w oh ow p hx hh hw

/-- one plane through the operator, once specialised (stride 2) and once not (stride 1) -/
example : poolRun .float32 (poolSpecial max max false [1, 5, 2, 4, 3, 9, 7, 8, 6] 1 3 3 2 2 ⟨2, 2, 2, 2, 0, 0⟩ [0, 0, 0, 0])
      (fun a b => decide (b < a)) 0 (· + ·) (fun a n => a / n) .max [1, 5, 2, 4, 3, 9, 7, 8, 6] 1 3 3 2 2
      ⟨2, 2, 2, 2, 0, 0⟩ 1 1 [0, 0, 0, 0] = .ok [5, 9, 8, 6] ∧
    poolRun .float32 (poolSpecial max max false [1, 5, 2, 4, 3, 9, 7, 8, 6] 1 3 3 2 2 ⟨2, 2, 1, 1, 0, 0⟩ [0, 0, 0, 0])
      (fun a b => decide (b < a)) 0 (· + ·) (fun a n => a / n) .max [1, 5, 2, 4, 3, 9, 7, 8, 6] 1 3 3 2 2
      ⟨2, 2, 1, 1, 0, 0⟩ 0 0 [0, 0, 0, 0] = .ok [5, 9, 8, 9] := by
  exact ⟨by decide, by decide⟩

end Verif.Props
