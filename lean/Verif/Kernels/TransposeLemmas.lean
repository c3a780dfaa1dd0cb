import Mathlib.Tactic.Ring
import Mathlib.Data.List.Perm.Basic
import Mathlib.Data.List.Perm.Subperm
import Mathlib.Data.List.Nodup
import Verif.Kernels.Transpose
import Verif.Core.ReshapeLemmas
namespace Verif.Kernels
open Verif.Core Verif.Spec

/-- the list `l` read through `p`: entry `k` of the result is entry `p[k]` of `l` -/
def app (p l : List Nat) : List Nat := p.map fun k => l.getD k 0

/-- `p` is a permutation of `0 … n-1` -/
def IsPerm (p : List Nat) (n : Nat) : Prop := p.Perm (List.range n)

theorem IsPerm.length {p : List Nat} {n : Nat} (h : IsPerm p n) : p.length = n := by
  simpa using List.Perm.length_eq h

theorem IsPerm.lt {p : List Nat} {n : Nat} (h : IsPerm p n) : ∀ k ∈ p, k < n := fun k hk => by
  simpa using (List.Perm.mem_iff h).1 hk

theorem IsPerm.mem {p : List Nat} {n : Nat} (h : IsPerm p n) {k : Nat} (hk : k < n) : k ∈ p :=
  (List.Perm.mem_iff h).2 (by simpa using hk)

theorem app_length (p l : List Nat) : (app p l).length = p.length := by simp [app]

theorem prod_perm {a b : List Nat} (h : a.Perm b) : prod a = prod b := by
  induction h with
  | nil => rfl
  | cons x _ ih => simp [prod, ih]
  | swap x y l => simp [prod, Nat.mul_left_comm]
  | trans _ _ ih1 ih2 => rw [ih1, ih2]

theorem range_map_getD (l : List Nat) : (List.range l.length).map (fun k => l.getD k 0) = l := by
  apply List.ext_getElem
  · simp
  · intro i h1 h2; simp [h2]

theorem app_perm {p l : List Nat} (h : IsPerm p l.length) : (app p l).Perm l := by
  have := List.Perm.map (fun k => l.getD k 0) h
  rwa [range_map_getD] at this

theorem prod_app {p l : List Nat} (h : IsPerm p l.length) : prod (app p l) = prod l := prod_perm (app_perm h)

theorem app_inBounds {p s c : List Nat} (hp : ∀ k ∈ p, k < s.length) (hc : InBounds s c) :
    InBounds (app p s) (app p c) := by
  rw [inBounds_iff] at hc ⊢
  refine ⟨by simp [app_length], ?_⟩
  intro k h1 h2
  simp only [app, List.getElem_map]
  have hkp : k < p.length := by simpa [app] using h1
  have hk := hp p[k] (List.getElem_mem hkp)
  have := hc.2 p[k] hk (by omega)
  have e1 : s.getD p[k] 0 = s[p[k]] := by simp [List.getD, hk]
  have e2 : c.getD p[k] 0 = c[p[k]]'(by omega) := by
    have : p[k] < c.length := by omega
    simp [List.getD, this]
  rw [e1, e2]; exact this

theorem app_inj {p c d : List Nat} {n : Nat} (hp : IsPerm p n) (hc : c.length = n) (hd : d.length = n)
    (h : app p c = app p d) : c = d := by
  apply List.ext_getElem (by omega)
  intro i h1 h2
  obtain ⟨k, hk, e⟩ := List.getElem_of_mem (hp.mem (k := i) (by omega))
  have := congrArg (fun l => l[k]?) h
  simp only [app, List.getElem?_map, List.getElem?_eq_getElem hk, Option.map_some, Option.some.injEq] at this
  rw [e] at this
  simpa [List.getD, h1, h2] using this

theorem getIdx_ok {c : List Nat} {k : Nat} (h : k < c.length) : getIdx (ints c) k = .ok ((c.getD k 0 : Nat) : Int) := by
  simp [getIdx, ints, List.getD, h]

theorem permCoord_ok {c p : List Nat} (h : ∀ k ∈ p, k < c.length) :
    permCoord (ints c) (ints p) = .ok (ints (app p c)) := by
  induction p with
  | nil => rfl
  | cons k p ih =>
    simp only [ints_cons, permCoord]
    rw [getIdx_ok (h k (by simp)), ih (fun x hx => h x (by simp [hx]))]
    simp [app]

theorem permLoop_ok {s p : List Nat} (h : ∀ k ∈ p, k < s.length) (hpos : ∀ x ∈ s, 0 < x) :
    permLoop (ints s) (ints p) = .ok (ints (app p s)) := by
  induction p with
  | nil => rfl
  | cons k p ih =>
    simp only [ints_cons, permLoop]
    have hk := h k (by simp)
    have hv : 0 < s.getD k 0 := by
      simp only [List.getD, List.getElem?_eq_getElem hk, Option.getD_some]
      exact hpos _ (List.getElem_mem hk)
    rw [getIdx_ok hk, ih (fun x hx => h x (by simp [hx]))]
    simp only [Res.bind_ok, app, List.map_cons, ints_cons]
    rw [if_pos (by omega)]

/-- the copies of a transposition: each is `out[app p c] ← in[c]`, all are there, as many as elements -/
def IsTransposeMoves (s p : List Nat) (ms : List (Nat × Nat)) : Prop :=
  ms.length = prod s ∧
  (∀ m ∈ ms, ∃ c, InBounds s c ∧ m = (lin (app p s) (app p c), lin s c)) ∧
  ∀ c, InBounds s c → (lin (app p s) (app p c), lin s c) ∈ ms

theorem transposeMoves_ok {s p : List Nat} (hp : IsPerm p s.length) (hpos : ∀ x ∈ s, 0 < x)
    (hb : prod s ≤ 2147483647) (n i : Nat) (hn : i + n ≤ prod s) :
    transposeMoves (ints (wts (app p s))) (ints p) (ints s) n i (ints (unlin s (i % prod s))) =
      .ok ((List.range' i n).map fun j => (lin (app p s) (app p (unlin s j)), j)) := by
  induction n generalizing i with
  | zero => rfl
  | succ n ih =>
    have hi : i < prod s := by omega
    have hc := unlin_inBounds (s := s) hi
    have hlen := hc.length
    unfold transposeMoves
    have e0 : (ints p).take (ints (unlin s (i % prod s))).length = ints p := by
      rw [Nat.mod_eq_of_lt hi, List.take_of_length_le]
      simp [hlen, hp.length]
    rw [e0, permCoord_ok (by rw [Nat.mod_eq_of_lt hi, hlen]; exact hp.lt)]
    simp only [Res.bind_ok]
    rw [Nat.mod_eq_of_lt hi, toIndex_ok (app_inBounds hp.lt hc) (by rw [prod_app hp]; exact hb)]
    simp only [Res.bind_ok, idxNat]
    rw [if_pos (by omega)]
    simp only [Res.bind_ok]
    have e1 := increase_unlin hpos i
    rw [Nat.mod_eq_of_lt hi] at e1
    rw [e1, ih (i + 1) (by omega)]
    simp [List.range'_succ]

theorem general_isTranspose {s p : List Nat} (hp : IsPerm p s.length) :
    IsTransposeMoves s p ((List.range' 0 (prod s)).map fun j => (lin (app p s) (app p (unlin s j)), j)) := by
  refine ⟨by simp, ?_, ?_⟩
  · intro m hm
    simp only [List.mem_map, List.mem_range'_1] at hm
    obtain ⟨j, hj, rfl⟩ := hm
    have hj' : j < prod s := by omega
    exact ⟨unlin s j, unlin_inBounds hj', by rw [lin_unlin hj']⟩
  · intro c hc
    simp only [List.mem_map, List.mem_range'_1]
    exact ⟨lin s c, ⟨Nat.zero_le _, by have := lin_lt hc; omega⟩, by rw [unlin_lin hc]⟩

theorem length_flatMap_const {β γ : Type} (l : List β) (f : β → List γ) (k : Nat) (h : ∀ x ∈ l, (f x).length = k) :
    (l.flatMap f).length = l.length * k := by
  induction l with
  | nil => simp
  | cons x l ih =>
    rw [List.flatMap_cons, List.length_append, h x (by simp), ih (fun y hy => h y (by simp [hy])),
      List.length_cons, Nat.add_mul]; omega

/-- a four-dimensional coordinate -/
theorem inBounds4 {a b c d : Nat} {x : List Nat} (h : InBounds [a, b, c, d] x) :
    ∃ i j k l, x = [i, j, k, l] ∧ i < a ∧ j < b ∧ k < c ∧ l < d := by
  match x, h with
  | [i, j, k, l], h => exact ⟨i, j, k, l, rfl, h.1, h.2.1, h.2.2.1, h.2.2.2.1⟩

theorem nhwc_isTranspose (N H W C : Nat) : IsTransposeMoves [N, H, W, C] [0, 3, 1, 2] (nhwcToNchw N H W C) := by
  refine ⟨?_, ?_, ?_⟩
  · unfold nhwcToNchw
    rw [length_flatMap_const _ _ (H * (W * C))]
    · simp [prod]
    intro n _
    rw [length_flatMap_const _ _ (W * C)]
    · simp
    intro h _
    rw [length_flatMap_const _ _ C]
    · simp
    intro w _; simp
  · intro m hm
    simp only [nhwcToNchw, List.mem_flatMap, List.mem_map, List.mem_range] at hm
    obtain ⟨n, hn, h, hh, w, hw, c, hc, rfl⟩ := hm
    refine ⟨[n, h, w, c], ⟨hn, hh, hw, hc, trivial⟩, ?_⟩
    simp only [app, List.map_cons, List.map_nil, List.getD_cons_zero, List.getD_cons_succ, lin, prod]
    congr 1 <;> ring
  · intro x hx
    obtain ⟨n, h, w, c, rfl, hn, hh, hw, hc⟩ := inBounds4 hx
    simp only [nhwcToNchw, List.mem_flatMap, List.mem_map, List.mem_range]
    refine ⟨n, hn, h, hh, w, hw, c, hc, ?_⟩
    simp only [app, List.map_cons, List.map_nil, List.getD_cons_zero, List.getD_cons_succ, lin, prod]
    congr 1 <;> ring

theorem nchw_isTranspose (N C H W : Nat) : IsTransposeMoves [N, C, H, W] [0, 2, 3, 1] (nchwToNhwc N C H W) := by
  refine ⟨?_, ?_, ?_⟩
  · unfold nchwToNhwc
    rw [length_flatMap_const _ _ (H * (W * C))]
    · simp only [prod, List.length_range]; ring
    intro n _
    rw [length_flatMap_const _ _ (W * C)]
    · simp
    intro h _
    rw [length_flatMap_const _ _ C]
    · simp
    intro w _; simp
  · intro m hm
    simp only [nchwToNhwc, List.mem_flatMap, List.mem_map, List.mem_range] at hm
    obtain ⟨n, hn, h, hh, w, hw, c, hc, rfl⟩ := hm
    refine ⟨[n, c, h, w], ⟨hn, hc, hh, hw, trivial⟩, ?_⟩
    simp only [app, List.map_cons, List.map_nil, List.getD_cons_zero, List.getD_cons_succ, lin, prod]
    congr 1 <;> ring
  · intro x hx
    obtain ⟨n, c, h, w, rfl, hn, hc, hh, hw⟩ := inBounds4 hx
    simp only [nchwToNhwc, List.mem_flatMap, List.mem_map, List.mem_range]
    refine ⟨n, hn, h, hh, w, hw, c, hc, ?_⟩
    simp only [app, List.map_cons, List.map_nil, List.getD_cons_zero, List.getD_cons_succ, lin, prod]
    congr 1 <;> ring

theorem split4 (W w : Nat) (hw : w < W) :
    (∃ b j, b < W / 4 ∧ j < 4 ∧ w = 4 * b + j) ∨ (∃ r, r < W % 4 ∧ w = W / 4 * 4 + r) := by
  by_cases h : w < W / 4 * 4
  · exact .inl ⟨w / 4, w % 4, by omega, by omega, by omega⟩
  · exact .inr ⟨w - W / 4 * 4, by omega, by omega⟩

theorem nhwcFloat_isTranspose (N H W : Nat) :
    IsTransposeMoves [N, H, W, 3] [0, 3, 1, 2] (nhwcToNchwFloat N H W 3) := by
  refine ⟨?_, ?_, ?_⟩
  · unfold nhwcToNchwFloat
    rw [length_flatMap_const _ _ (H * (W * 3))]
    · simp [prod]
    intro n _
    rw [length_flatMap_const _ _ (W * 3)]
    · simp
    intro h _
    rw [List.length_append, length_flatMap_const _ _ 12, length_flatMap_const _ _ 3]
    · simp; omega
    · intro _ _; simp
    · intro _ _; rw [length_flatMap_const _ _ 4] <;> simp
  · intro m hm
    simp only [nhwcToNchwFloat, List.mem_flatMap, List.mem_map, List.mem_range, List.mem_append] at hm
    obtain ⟨n, hn, h, hh, hm⟩ := hm
    rcases hm with ⟨b, hb, c, hc, j, hj, rfl⟩ | ⟨r, hr, c, hc, rfl⟩
    · refine ⟨[n, h, 4 * b + j, c], ⟨hn, hh, by omega, hc, trivial⟩, ?_⟩
      simp only [app, List.map_cons, List.map_nil, List.getD_cons_zero, List.getD_cons_succ, lin, prod]
      congr 1 <;> ring
    · refine ⟨[n, h, W / 4 * 4 + r, c], ⟨hn, hh, by omega, hc, trivial⟩, ?_⟩
      simp only [app, List.map_cons, List.map_nil, List.getD_cons_zero, List.getD_cons_succ, lin, prod]
      congr 1 <;> ring
  · intro x hx
    obtain ⟨n, h, w, c, rfl, hn, hh, hw, hc⟩ := inBounds4 hx
    simp only [nhwcToNchwFloat, List.mem_flatMap, List.mem_map, List.mem_range, List.mem_append]
    refine ⟨n, hn, h, hh, ?_⟩
    rcases split4 W w hw with ⟨b, j, hb, hj, rfl⟩ | ⟨r, hr, e⟩
    · refine .inl ⟨b, hb, c, hc, j, hj, ?_⟩
      simp only [app, List.map_cons, List.map_nil, List.getD_cons_zero, List.getD_cons_succ, lin, prod]
      congr 1 <;> ring
    · refine .inr ⟨r, hr, c, hc, ?_⟩
      simp only [app, List.map_cons, List.map_nil, List.getD_cons_zero, List.getD_cons_succ, lin, prod, ← e]
      congr 1 <;> ring

theorem nchwFloat_isTranspose (N H W : Nat) :
    IsTransposeMoves [N, 3, H, W] [0, 2, 3, 1] (nchwToNhwcFloat N 3 H W) := by
  refine ⟨?_, ?_, ?_⟩
  · unfold nchwToNhwcFloat
    rw [length_flatMap_const _ _ (H * (W * 3))]
    · simp only [prod, List.length_range]; ring
    intro n _
    rw [length_flatMap_const _ _ (W * 3)]
    · simp
    intro h _
    rw [List.length_append, length_flatMap_const _ _ 12, length_flatMap_const _ _ 3]
    · simp; omega
    · intro _ _; simp
    · intro _ _; rw [length_flatMap_const _ _ 3] <;> simp
  · intro m hm
    simp only [nchwToNhwcFloat, List.mem_flatMap, List.mem_map, List.mem_range, List.mem_append] at hm
    obtain ⟨n, hn, h, hh, hm⟩ := hm
    rcases hm with ⟨b, hb, j, hj, c, hc, rfl⟩ | ⟨r, hr, c, hc, rfl⟩
    · refine ⟨[n, c, h, 4 * b + j], ⟨hn, hc, hh, by omega, trivial⟩, ?_⟩
      simp only [app, List.map_cons, List.map_nil, List.getD_cons_zero, List.getD_cons_succ, lin, prod]
      congr 1 <;> ring
    · refine ⟨[n, c, h, W / 4 * 4 + r], ⟨hn, hc, hh, by omega, trivial⟩, ?_⟩
      simp only [app, List.map_cons, List.map_nil, List.getD_cons_zero, List.getD_cons_succ, lin, prod]
      congr 1 <;> ring
  · intro x hx
    obtain ⟨n, c, h, w, rfl, hn, hc, hh, hw⟩ := inBounds4 hx
    simp only [nchwToNhwcFloat, List.mem_flatMap, List.mem_map, List.mem_range, List.mem_append]
    refine ⟨n, hn, h, hh, ?_⟩
    rcases split4 W w hw with ⟨b, j, hb, hj, rfl⟩ | ⟨r, hr, e⟩
    · refine .inl ⟨b, hb, j, hj, c, hc, ?_⟩
      simp only [app, List.map_cons, List.map_nil, List.getD_cons_zero, List.getD_cons_succ, lin, prod]
      congr 1 <;> ring
    · refine .inr ⟨r, hr, c, hc, ?_⟩
      simp only [app, List.map_cons, List.map_nil, List.getD_cons_zero, List.getD_cons_succ, lin, prod, ← e]
      congr 1 <;> ring

theorem computeMoves_ok {s p : List Nat} (float : Bool) (hp : IsPerm p s.length) (hpos : ∀ x ∈ s, 0 < x)
    (hb : prod s ≤ 2147483647) :
    ∃ ms, computeMoves float (ints s) (ints p) (ints (app p s)) = .ok ms ∧ IsTransposeMoves s p ms := by
  have hgen : ∃ ms, (do
      let wts ← weights (ints (app p s))
      let len ← prod32 1 (ints s)
      transposeMoves wts (ints p) (ints s) len.toNat 0 (iterStart (ints s))) = Res.ok ms ∧ IsTransposeMoves s p ms := by
    refine ⟨_, ?_, general_isTranspose hp⟩
    have hpos' : ∀ x ∈ app p s, 0 < x := fun x hx => hpos x ((app_perm hp).mem_iff.1 hx)
    have e2 := prod32_ok (noOverflow_of_pos hpos hb).pfits
    simp only [Int.natCast_one, Nat.one_mul] at e2
    rw [weights_ok (fits_of_pos hpos' (by rw [prod_app hp]; exact hb)), e2]
    simp only [Res.bind_ok, Int.toNat_natCast]
    rw [iterStart_unlin hpos, transposeMoves_ok hp hpos hb _ _ (by omega)]
  unfold computeMoves
  split
  · rename_i h1 h2
    have hp' : p = [0, 3, 1, 2] := ints_inj (by rw [h1]; rfl)
    match s, h2 with
    | [a, b, c, d], h2 =>
      simp only [ints_cons, ints_nil, List.cons.injEq, and_true] at h2
      obtain ⟨rfl, rfl, rfl, h3⟩ := h2
      have hd : d = 3 := by omega
      subst hd; subst hp'
      cases float with
      | true => exact ⟨_, rfl, by simpa using nhwcFloat_isTranspose a b c⟩
      | false => exact ⟨_, rfl, by simpa using nhwc_isTranspose a b c 3⟩
  · rename_i h1 h2
    have hp' : p = [0, 2, 3, 1] := ints_inj (by rw [h1]; rfl)
    match s, h2 with
    | [a, b, c, d], h2 =>
      simp only [ints_cons, ints_nil, List.cons.injEq, and_true] at h2
      obtain ⟨rfl, h3, rfl, rfl⟩ := h2
      have hd : b = 3 := by omega
      subst hd; subst hp'
      cases float with
      | true => exact ⟨_, rfl, by simpa using nchwFloat_isTranspose a c d⟩
      | false => exact ⟨_, rfl, by simpa using nchw_isTranspose a 3 c d⟩
  · exact hgen

theorem runMoves_transpose {α : Type} {s p : List Nat} {ms : List (Nat × Nat)} (hp : IsPerm p s.length)
    (h : IsTransposeMoves s p ms) (src dst : List α) (hs : src.length = prod s) (hd : dst.length = prod s) :
    ∃ out, runMoves src ms dst = .ok out ∧ out.length = prod s ∧
      ∀ c, InBounds s c → out[lin (app p s) (app p c)]? = src[lin s c]? := by
  have h1 : ∀ m ∈ ms, ∀ m' ∈ ms, m.1 = m'.1 → m.2 = m'.2 := by
    intro m hm m' hm' he
    obtain ⟨c, hc, rfl⟩ := h.2.1 m hm
    obtain ⟨c', hc', rfl⟩ := h.2.1 m' hm'
    have := lin_inj (app_inBounds hp.lt hc) (app_inBounds hp.lt hc') he
    rw [app_inj hp hc.length hc'.length this]
  have h2 : ∀ m ∈ ms, m.2 < src.length := by
    intro m hm
    obtain ⟨c, hc, rfl⟩ := h.2.1 m hm
    rw [hs]; exact lin_lt hc
  have h3 : ∀ m ∈ ms, m.1 < dst.length := by
    intro m hm
    obtain ⟨c, hc, rfl⟩ := h.2.1 m hm
    rw [hd, ← prod_app hp]; exact lin_lt (app_inBounds hp.lt hc)
  obtain ⟨out, e, el, ein, _⟩ := runMoves_rel src ms dst h1 h2 h3
  exact ⟨out, e, by omega, fun c hc => ein _ (h.2.2 c hc)⟩

/-- every output coordinate is `app p c` for an input coordinate `c` -/
theorem app_surj {s p d : List Nat} (hp : IsPerm p s.length) (hd : InBounds (app p s) d) :
    ∃ c, InBounds s c ∧ app p c = d := by
  have hl := hd.length
  rw [app_length] at hl
  refine ⟨(List.range s.length).map fun k => d.getD (p.idxOf k) 0, ?_, ?_⟩
  · rw [inBounds_iff] at hd ⊢
    refine ⟨by simp, ?_⟩
    intro k h1 h2
    simp only [List.getElem_map, List.getElem_range]
    have hk := hp.mem h1
    have hidx : p.idxOf k < p.length := List.idxOf_lt_length_of_mem hk
    have := hd.2 (p.idxOf k) (by simpa [app_length] using hidx) (by omega)
    simp only [app, List.getElem_map, List.getElem_idxOf] at this
    rw [show s.getD k 0 = s[k] by simp [List.getD, h1]] at this
    rw [show d.getD (p.idxOf k) 0 = d[p.idxOf k]'(by omega) by
      have : p.idxOf k < d.length := by omega
      simp [List.getD, this]]
    exact this
  · apply List.ext_getElem
    · simp [app_length, hl]
    · intro i h1 h2
      rw [app_length] at h1
      have hlt := hp.lt p[i] (List.getElem_mem h1)
      simp only [app, List.getElem_map]
      have hnd : p.Nodup := (List.Perm.nodup_iff hp).2 List.nodup_range
      rw [List.getD_eq_getElem?_getD, List.getElem?_eq_getElem (by simpa using hlt)]
      simp only [List.getElem_map, List.getElem_range, Option.getD_some]
      rw [hnd.idxOf_getElem, List.getD_eq_getElem?_getD, List.getElem?_eq_getElem h2]
      rfl

theorem markPerm_length (n : Nat) (ds : List Int) (flag : List Bool) : (markPerm n ds flag).length = flag.length := by
  induction ds generalizing flag with
  | nil => rfl
  | cons d ds ih =>
    unfold markPerm; split
    · rfl
    · rw [ih]; simp

theorem markPerm_mem (n : Nat) (ds : List Int) (flag : List Bool) (k : Nat)
    (h : (markPerm n ds flag)[k]? = some true) : flag[k]? = some true ∨ (k : Int) ∈ ds := by
  induction ds generalizing flag with
  | nil => exact .inl h
  | cons d ds ih =>
    unfold markPerm at h
    split at h
    · exact .inl h
    · rename_i hd
      rcases ih _ h with h' | h'
      · by_cases hk : d.toNat = k
        · right; simp; left; omega
        · rw [List.getElem?_set_ne hk] at h'; exact .inl h'
      · right; simp [h']

theorem markPerm_all (n : Nat) (p : List Nat) (flag : List Bool) (hl : flag.length = n) (hp : ∀ k ∈ p, k < n) (k : Nat)
    (hk : flag[k]? = some true ∨ k ∈ p) : (markPerm n (ints p) flag)[k]? = some true := by
  induction p generalizing flag with
  | nil => simpa [markPerm] using hk
  | cons d p ih =>
    have hd := hp d (by simp)
    simp only [ints_cons, markPerm]
    rw [if_neg (by omega)]
    apply ih _ (by simpa using hl) (fun x hx => hp x (by simp [hx]))
    rcases hk with hk | hk
    · by_cases e : d = k
      · left; subst e; simp [hl, hd]
      · left; rw [List.getElem?_set_ne (by simpa using e)]; exact hk
    · simp at hk
      rcases hk with rfl | hk
      · left; simp [hl, hd]
      · exact .inr hk

theorem initPermute_some (P : List Int) :
    (∃ p, P = ints p ∧ IsPerm p p.length ∧ initPermute (some P) = .ok P) ∨
    ((¬ ∃ p, P = ints p ∧ IsPerm p p.length) ∧ initPermute (some P) = .err) := by
  unfold initPermute
  by_cases h : (markPerm P.length P (List.replicate P.length false)).all id = true
  · left
    have hall : ∀ k, k < P.length → (k : Int) ∈ P := by
      intro k hk
      have hlen := markPerm_length P.length P (List.replicate P.length false)
      rw [List.all_eq_true] at h
      have hk' : k < (markPerm P.length P (List.replicate P.length false)).length := by rw [hlen]; simpa using hk
      have := h _ (List.getElem_mem hk')
      simp only [id] at this
      have h2 : (markPerm P.length P (List.replicate P.length false))[k]? = some true := by
        rw [List.getElem?_eq_getElem hk', this]
      rcases markPerm_mem _ _ _ _ h2 with h3 | h3
      · simp [List.getElem?_replicate] at h3
      · exact h3
    have hsub : (ints (List.range P.length)) ⊆ P := by
      intro x hx
      simp only [ints, List.mem_map, List.mem_range] at hx
      obtain ⟨k, hk, rfl⟩ := hx
      exact hall k hk
    have hnd : (ints (List.range P.length)).Nodup := by
      unfold ints
      exact List.Nodup.map (fun a b h => Int.ofNat.inj h) List.nodup_range
    have hperm : (ints (List.range P.length)).Perm P :=
      (List.subperm_of_subset hnd hsub).perm_of_length_le (by simp)
    have hnn : ∀ x ∈ P, 0 ≤ x := by
      intro x hx
      have := hperm.mem_iff.2 hx
      simp only [ints, List.mem_map] at this
      obtain ⟨k, _, rfl⟩ := this
      exact Int.natCast_nonneg k
    refine ⟨P.map Int.toNat, ?_, ?_, by simp only [h, if_true]⟩
    · unfold ints
      rw [List.map_map]
      symm
      conv => rhs; rw [← List.map_id P]
      apply List.map_congr_left
      intro x hx
      have := hnn x hx
      simp; omega
    · have := (hperm.map Int.toNat).symm
      simpa [IsPerm, ints, Function.comp_def] using this
  · right
    refine ⟨?_, by simp only []; rw [if_neg h]⟩
    rintro ⟨p, rfl, hp⟩
    apply h
    rw [List.all_eq_true]
    intro b hb
    obtain ⟨k, hk, rfl⟩ := List.getElem_of_mem hb
    have hk' : k < p.length := by
      rw [markPerm_length] at hk; simpa using hk
    have := markPerm_all p.length p (List.replicate p.length false) (by simp) hp.lt k (.inr (hp.mem hk'))
    rw [List.getElem?_eq_some_iff] at this
    obtain ⟨_, e⟩ := this
    simpa using e

end Verif.Kernels
