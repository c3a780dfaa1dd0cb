import Verif.Kernels.TransposeLemmas
/-!
# C16: transpose

`app p l` is the list `l` read through the permutation `p` (entry `k` is `l[p[k]]`); `IsPerm p n` says that `p` is a
rearrangement of `0 … n-1`. `Verif.Spec.lin` is the row-major position.
-/
namespace Verif.Props
open Verif.Core Verif.Spec Verif.Kernels

/-- a shape padded with leading ones to rank `n` -/
def padded (n : Nat) (s : List Nat) : List Nat := List.replicate (n - s.length) 1 ++ s

/-- C16: a `permute` parameter is accepted exactly when it is a permutation of its positions; otherwise an error. -/
theorem C16_parameter_check (P : List Int) :
    ((∃ p, P = ints p ∧ IsPerm p p.length) → initPermute (some P) = .ok P) ∧
    ((¬ ∃ p, P = ints p ∧ IsPerm p p.length) → initPermute (some P) = .err) := by
  rcases initPermute_some P with ⟨p, rfl, hp, h⟩ | ⟨hn, h⟩
  · exact ⟨fun _ => h, fun h' => absurd ⟨p, rfl, hp⟩ h'⟩
  · exact ⟨fun h' => absurd h' hn, fun _ => h⟩

example : IsPerm [2, 0, 1] 3 ∧ initPermute (some [0, 0, 1]) = .err := by unfold IsPerm; decide

theorem padShape_ok (s : List Nat) (n : Nat) (hn : n ≤ 7) : padShape (ints s) n = .ok (ints (padded n s)) := by
  unfold padShape
  rw [if_neg (by omega)]
  simp [padded, ints]

theorem prod_padded (n : Nat) (s : List Nat) : prod (padded n s) = prod s := by
  unfold padded
  rw [prod_append]
  have : ∀ k, prod (List.replicate k 1) = 1 := by
    intro k; induction k with
    | zero => rfl
    | succ k ih => simp [List.replicate_succ, prod, ih]
  rw [this, Nat.one_mul]

/-- C16 (with a parameter): for every permutation `p` of at most seven positions, every supported element type, every
shape of positive extents (padded with leading ones to the rank of `p`) with an `int` element count, and whatever the
output buffer held before, transposing is defined and yields the permuted shape with `out[c∘p] = in[c]` for every
coordinate `c`; every output position is of the form `c∘p`, so every output element is determined (fast paths for three
channels, float and not, included). -/
theorem C16_transpose {α : Type} (p s : List Nat) (dtype : Nat) (src dst : List α)
    (hne : p ≠ []) (hp : IsPerm p p.length) (hr : s.length ≤ p.length) (h7 : p.length ≤ 7)
    (hpos : ∀ x ∈ s, 0 < x) (hb : prod s ≤ 2147483647) (hty : transposeSupports dtype = true)
    (hs : src.length = prod s) (hd : dst.length = prod s) :
    ∃ out, transposeRun (some (ints p)) dtype (ints s) src dst = .ok (ints (app p (padded p.length s)), out) ∧
      out.length = prod s ∧
      (∀ c, InBounds (padded p.length s) c →
        out[lin (app p (padded p.length s)) (app p c)]? = src[lin (padded p.length s) c]?) ∧
      (∀ d, InBounds (app p (padded p.length s)) d → ∃ c, InBounds (padded p.length s) c ∧ app p c = d) := by
  have hlen : (padded p.length s).length = p.length := by simp [padded]; omega
  have hp' : IsPerm p (padded p.length s).length := by rw [hlen]; exact hp
  have hpos' : ∀ x ∈ padded p.length s, 0 < x := by
    intro x hx
    simp only [padded, List.mem_append, List.mem_replicate] at hx
    rcases hx with h | h
    · omega
    · exact hpos x h
  have hprod := prod_padded p.length s
  obtain ⟨ms, hms, hT⟩ := computeMoves_ok (dtype = 10) hp' hpos' (by omega)
  obtain ⟨out, he, hl, hv⟩ := runMoves_transpose hp' hT src dst (by omega) (by omega)
  refine ⟨out, ?_, by omega, hv, fun d hd => app_surj hp' hd⟩
  unfold transposeRun
  rw [(C16_parameter_check (ints p)).1 ⟨p, rfl, hp⟩]
  simp only [Res.bind_ok]
  unfold getPermute
  rw [if_pos (by cases p <;> simp_all), if_neg (by simp; omega)]
  simp only [Res.bind_ok, ints_length]
  rw [padShape_ok s _ h7]
  simp only [Res.bind_ok]
  have hps : permutedShape (ints (padded p.length s)) (ints p) = .ok (ints (app p (padded p.length s))) := by
    unfold permutedShape
    rw [ints_length, padShape_ok _ _ h7]
    have : padded p.length (padded p.length s) = padded p.length s := by
      rw [show padded p.length (padded p.length s) =
        List.replicate (p.length - (padded p.length s).length) 1 ++ padded p.length s from rfl, hlen]
      simp
    simp only [Res.bind_ok, this]
    rw [if_neg (by rw [ints_length]; omega), permLoop_ok hp'.lt hpos']
  rw [hps]
  simp only [Res.bind_ok, hty, if_true]
  rw [hms]
  simp only [Res.bind_ok]
  rw [he]
  rfl

example : transposeRun (some [1, 0]) 2 [2, 3] [0, 1, 2, 3, 4, 5] [9, 9, 9, 9, 9, 9] =
    .ok ([3, 2], [0, 3, 1, 4, 2, 5]) := by decide
example : transposeSupports 10 = true ∧ IsPerm [0, 3, 1, 2] 4 ∧ (∀ x ∈ [1, 2, 5, 3], 0 < x) := by
  unfold IsPerm; decide

/-- C16: transposing by `p` and then by its inverse `q` gives back the elements. -/
theorem C16_inverse {α : Type} (p q s : List Nat) (dtype : Nat) (src dst dst2 : List α)
    (hne : p ≠ []) (hp : IsPerm p p.length) (hq : IsPerm q q.length) (hl : s.length = p.length)
    (hinv : app q p = List.range p.length) (hlq : q.length = p.length) (h7 : p.length ≤ 7)
    (hpos : ∀ x ∈ s, 0 < x) (hb : prod s ≤ 2147483647) (hty : transposeSupports dtype = true)
    (hs : src.length = prod s) (hd : dst.length = prod s) (hd2 : dst2.length = prod s) :
    ∃ mid, transposeRun (some (ints p)) dtype (ints s) src dst = .ok (ints (app p s), mid) ∧
      transposeRun (some (ints q)) dtype (ints (app p s)) mid dst2 = .ok (ints s, src) := by
  have hpad : padded p.length s = s := by simp [padded, hl]
  have hpad2 : padded q.length (app p s) = app p s := by simp [padded, app_length, hlq]
  have hp' : IsPerm p s.length := by rw [hl]; exact hp
  have hq' : IsPerm q (app p s).length := by rw [app_length, ← hlq]; exact hq
  obtain ⟨mid, h1, l1, v1, -⟩ := C16_transpose p s dtype src dst hne hp (by omega) h7 hpos hb hty hs hd
  rw [hpad] at h1 v1
  have hpos2 : ∀ x ∈ app p s, 0 < x := fun x hx => hpos x ((app_perm hp').mem_iff.1 hx)
  obtain ⟨out, h2, l2, v2, -⟩ := C16_transpose q (app p s) dtype mid dst2
    (by intro h; subst h; simp at hlq; exact hne (List.length_eq_zero_iff.1 hlq.symm)) hq (by rw [app_length]; omega) (by omega) hpos2
    (by rw [prod_app hp']; exact hb) hty (by rw [prod_app hp']; exact l1) (by rw [prod_app hp']; exact hd2)
  rw [hpad2] at h2 v2
  have hqp : ∀ c : List Nat, c.length = p.length → app q (app p c) = c := by
    intro c hc
    have : app q (app p c) = (app q p).map fun k => c.getD k 0 := by
      simp only [app, List.map_map]
      apply List.map_congr_left
      intro k hk
      have hkl := hq.lt k hk
      rw [hlq] at hkl
      simp [List.getD, hkl]
    rw [this, hinv, ← hc, range_map_getD]
  refine ⟨mid, h1, ?_⟩
  rw [h2, hqp s hl]
  congr 2
  apply List.ext_getElem?
  intro i
  by_cases hi : i < prod s
  · have hc := unlin_inBounds (s := s) hi
    have := v2 (app p (unlin s i)) (app_inBounds hp'.lt hc)
    rw [hqp s hl, hqp _ (by rw [hc.length, hl]), lin_unlin hi] at this
    rw [this, v1 _ hc, lin_unlin hi]
  · have e1 : out.length = prod s := by rw [l2, prod_app hp']
    rw [List.getElem?_eq_none (by omega), List.getElem?_eq_none (by omega)]

example : app [1, 2, 0] [2, 0, 1] = List.range 3 ∧ IsPerm [1, 2, 0] 3 ∧ IsPerm [2, 0, 1] 3 := by
  unfold IsPerm; decide

/-- Without a parameter the last two dimensions are not swapped: for a 2 × 3 tensor the operator produces a 3 × 3 shape
(six of its nine elements are whatever the buffer held). -/
theorem C16_default_swap_false :
    transposeRun none 2 [2, 3] [0, 1, 2, 3, 4, 5] [90, 91, 92, 93, 94, 95, 96, 97, 98] =
      .ok ([3, 3], [3, 91, 92, 93, 4, 95, 96, 97, 5]) := by decide

end Verif.Props
