import Verif.Kernels.MatMulLemmas
import Verif.Props.Transpose
import Mathlib.Algebra.Ring.Nat
import Mathlib.Algebra.Ring.Int.Defs
import Mathlib.Algebra.Order.Field.Rat
import Mathlib.Tactic.NormNum
/-!
# C46: matrix products compute the defining sums

Specification: `entry` (an element of a matrix stored row by row, possibly transposed) and plain finite sums, over any
commutative semiring (exact arithmetic).
-/
namespace Verif.Props
open Verif.Core Verif.Kernels Verif.Spec

variable {α : Type} [CommSemiring α]

/-- element `(i, k)` of a matrix whose rows start `ld` elements apart, or of its transpose -/
def entry (trans : Bool) (A : List α) (ld i k : Nat) : α := if trans then A.getD (k * ld + i) 0 else A.getD (i * ld + k) 0

/-- element `(i, j)` of the product of two matrices with inner extent `K` -/
def productAt (tA tB : Bool) (K : Nat) (A : List α) (lda : Nat) (B : List α) (ldb : Nat) (i j : Nat) : α :=
  ∑ k ∈ Finset.range K, entry tA A lda i k * entry tB B ldb k j

/-- C46, `gemm` on row-major matrices: with a comparison `near` that is exact on the two scalars, for all extents,
leading extents, transpositions, both implementations of the dot product and all contents, whenever the operands hold the
elements named, `gemm` replaces every `C(i, j)` by `beta C(i, j) + alpha Σ op(A)(i, k) op(B)(k, j)` and nothing else; too
small leading extents are an error. -/
theorem C46_gemm_row_major (near : α → α → Bool) (simd tA tB : Bool) (M N K lda ldb ldc : Nat) (alpha beta : α)
    (A B C : List α) (ha : near alpha 0 = true → alpha = 0) (hb0 : near beta 0 = true → beta = 0)
    (hb1 : near beta 1 = true → beta = 1) (hlda : (if tA then M else K) ≤ lda) (hldb : (if tB then K else N) ≤ ldb)
    (hldc : N ≤ ldc)
    (hA : ∀ i k, i < M → k < K → (if tA then k * lda + i else i * lda + k) < A.length)
    (hB : ∀ k j, k < K → j < N → (if tB then j * ldb + k else k * ldb + j) < B.length)
    (hC : ∀ i j, i < M → j < N → i * ldc + j < C.length) :
    ∃ out, gemmRowMajor near simd tA tB M N K alpha A lda B ldb beta C ldc = .ok out ∧ out.length = C.length ∧
      (∀ i j, i < M → j < N → out[i * ldc + j]? =
        some (beta * C.getD (i * ldc + j) 0 + alpha * productAt tA tB K A lda B ldb i j)) ∧
      ∀ p, (∀ i j, i < M → j < N → p ≠ i * ldc + j) → out[p]? = C[p]? := by
  obtain ⟨C1, e, el, e1, e2⟩ := scal_ok near M N beta C ldc hb0 hb1 hldc hC
  unfold gemmRowMajor
  rw [if_neg (by omega), e, Res.bind_ok]
  have hget : ∀ i j, i < M → j < N → C[i * ldc + j]? = some (C.getD (i * ldc + j) 0) := by
    intro i j hi hj; simp [hC i j hi hj]
  by_cases h0 : near alpha 0 = true
  · rw [if_pos h0]
    refine ⟨C1, rfl, el, ?_, ?_⟩
    · intro i j hi hj
      rw [e1 _ (mem_grid.2 ⟨i, j, hi, hj, rfl⟩), hget i j hi hj, ha h0, Option.map_some]
      congr 1; ring
    · intro p hp
      apply e2
      intro hm
      obtain ⟨i, j, hi, hj, rfl⟩ := mem_grid.1 hm
      exact hp i j hi hj rfl
  · rw [if_neg h0]
    have hdot : ∀ i j, i < M → j < N → ∀ v, dotUpdate simd tA tB K alpha A lda B ldb i j v =
        .ok (v + alpha * productAt tA tB K A lda B ldb i j) := by
      intro i j hi hj v
      unfold dotUpdate
      rw [inlineDot_ok]
      · rw [Res.bind_ok]
        congr 2
        unfold productAt
        congr 1
        apply Finset.sum_congr rfl
        intro k _
        unfold entry rowOf colOf
        cases tA <;> cases tB <;> simp only [if_true, Bool.false_eq_true, if_false, Nat.mul_one] <;>
          congr 2 <;> omega
      · intro k hk
        have := hA i k hi hk
        unfold rowOf
        cases tA <;> simp only [if_true, Bool.false_eq_true, if_false, Nat.mul_one] at this ⊢ <;> omega
      · intro k hk
        have := hB k j hk hj
        unfold colOf
        cases tB <;> simp only [if_true, Bool.false_eq_true, if_false, Nat.mul_one] at this ⊢ <;> omega
    have hm : (((List.range M).flatMap fun i => (List.range N).map fun j =>
        (i * ldc + j, dotUpdate simd tA tB K alpha A lda B ldb i j)).map Prod.fst) = grid M N ldc := by
      unfold grid
      rw [List.map_flatMap]
      apply List.flatMap_congr
      intro i _
      rw [List.map_map]; rfl
    have hdiv : ∀ i j, j < N → (i * ldc + j) / ldc = i ∧ (i * ldc + j) % ldc = j := by
      intro i j hj
      constructor
      · rw [Nat.mul_comm, Nat.mul_add_div (by omega), Nat.div_eq_of_lt (by omega), Nat.add_zero]
      · rw [Nat.mul_comm, Nat.mul_add_mod, Nat.mod_eq_of_lt (by omega)]
    obtain ⟨out, f, fl, f1, f2⟩ := updAll_ok ((List.range M).flatMap fun i => (List.range N).map fun j =>
        (i * ldc + j, dotUpdate simd tA tB K alpha A lda B ldb i j)) C1
        (fun p v => v + alpha * productAt tA tB K A lda B ldb (p / ldc) (p % ldc))
        (by rw [hm]; exact grid_nodup hldc) (by
          intro u hu
          simp only [List.mem_flatMap, List.mem_map, List.mem_range] at hu
          obtain ⟨i, hi, j, hj, rfl⟩ := hu
          refine ⟨by rw [el]; exact hC i j hi hj, fun v => ?_⟩
          simp only [(hdiv i j hj).1, (hdiv i j hj).2]
          exact hdot i j hi hj v)
    rw [hm] at f1 f2
    refine ⟨out, f, by rw [fl, el], ?_, ?_⟩
    · intro i j hi hj
      have hmem : i * ldc + j ∈ grid M N ldc := mem_grid.2 ⟨i, j, hi, hj, rfl⟩
      rw [f1 _ hmem, e1 _ hmem, hget i j hi hj, Option.map_some, Option.map_some]
      simp only [(hdiv i j hj).1, (hdiv i j hj).2]
      congr 1; ring
    · intro p hp
      have hnm : p ∉ grid M N ldc := by
        intro hmem
        obtain ⟨i, j, hi, hj, rfl⟩ := mem_grid.1 hmem
        exact hp i j hi hj rfl
      rw [f2 p hnm, e2 p hnm]

/-- too small leading extents are rejected -/
theorem C46_gemm_rejects (near : α → α → Bool) (simd tA tB : Bool) (M N K lda ldb ldc : Nat) (alpha beta : α)
    (A B C : List α) (h : lda < (if tA then M else K) ∨ ldb < (if tB then K else N) ∨ ldc < N) :
    gemmRowMajor near simd tA tB M N K alpha A lda B ldb beta C ldc = .err := by
  unfold gemmRowMajor; rw [if_pos h]

/-- non-vacuity: a 2 × 2 block of a buffer with rows of three, `beta = 2`, `alpha = 3`, first operand transposed -/
example : gemmRowMajor (α := Nat) (fun a b => a == b) true true false 2 2 3 3 [1, 2, 3, 4, 5, 6] 2 [1, 0, 0, 1, 1, 1] 2 2
    [1, 1, 9, 1, 1, 9] 3 = .ok [20, 26, 9, 26, 32, 9] := by decide

/-- C46, `gemm` on column-major matrices (columns `ld` elements apart): the same sums. -/
theorem C46_gemm_col_major (near : α → α → Bool) (simd tA tB : Bool) (M N K lda ldb ldc : Nat) (alpha beta : α)
    (A B C : List α) (ha : near alpha 0 = true → alpha = 0) (hb0 : near beta 0 = true → beta = 0)
    (hb1 : near beta 1 = true → beta = 1) (hlda : (if tA then K else M) ≤ lda) (hldb : (if tB then N else K) ≤ ldb)
    (hldc : M ≤ ldc)
    (hA : ∀ i k, i < M → k < K → (if tA then i * lda + k else k * lda + i) < A.length)
    (hB : ∀ k j, k < K → j < N → (if tB then k * ldb + j else j * ldb + k) < B.length)
    (hC : ∀ i j, i < M → j < N → j * ldc + i < C.length) :
    ∃ out, gemmOrder near simd true tA tB M N K alpha A lda B ldb beta C ldc = .ok out ∧ out.length = C.length ∧
      (∀ i j, i < M → j < N → out[j * ldc + i]? =
        some (beta * C.getD (j * ldc + i) 0 + alpha * ∑ k ∈ Finset.range K,
          (if tA then A.getD (i * lda + k) 0 else A.getD (k * lda + i) 0) *
          (if tB then B.getD (k * ldb + j) 0 else B.getD (j * ldb + k) 0))) ∧
      ∀ p, (∀ i j, i < M → j < N → p ≠ j * ldc + i) → out[p]? = C[p]? := by
  obtain ⟨out, e, el, e1, e2⟩ := C46_gemm_row_major near simd tB tA N M K ldb lda ldc alpha beta B A C ha hb0 hb1 hldb hlda
    hldc (fun j k hj hk => hB k j hk hj) (fun k i hk hi => hA i k hi hk) (fun j i hj hi => hC i j hi hj)
  refine ⟨out, ?_, el, ?_, fun p hp => e2 p (fun j i hj hi => hp i j hi hj)⟩
  · unfold gemmOrder; rw [if_pos rfl]; exact e
  · intro i j hi hj
    rw [e1 j i hj hi]
    congr 3
    unfold productAt
    apply Finset.sum_congr rfl
    intro k _
    unfold entry
    rw [mul_comm]

/-- the inexact comparison of the code, on rationals: `FLT_EPSILON = 2⁻²³` -/
def nearRat (a b : Rat) : Bool := decide ((if a > b then a - b else b - a) < 1 / 8388608)

/-- A scalar that is small but not zero drops the product altogether, however large the operands are. -/
theorem C46_small_alpha_false :
    gemmRowMajor nearRat false false false 1 1 1 (1 / 16777216) [16777216] 1 [1] 1 0 [0] 1 = .ok [0] ∧
    (0 : Rat) * ([0] : List Rat).getD 0 0 + 1 / 16777216 * productAt false false 1 [(16777216 : Rat)] 1 [1] 1 0 0 = 1 := by
  constructor
  · have h1 : nearRat 0 1 = false := by unfold nearRat; norm_num
    have h2 : nearRat 0 0 = true := by unfold nearRat; norm_num
    have h3 : nearRat (16777216⁻¹) 0 = true := by unfold nearRat; norm_num
    simp [gemmRowMajor, inlineScal, h1, h2, h3, updAll, readN]
  · simp [productAt, entry]

/-! ## Gemm -/

/-- the `broadcast` element of `C` for row `i` and column `j`: extents of one repeat, missing extents are one -/
def biasAt (c : List Nat) (C : List α) (i j : Nat) : α :=
  match c with
  | [] => C.getD 0 0
  | [n] => C.getD (if n = 1 then 0 else j) 0
  | [m, n] => C.getD ((if m = 1 then 0 else i) * n + (if n = 1 then 0 else j)) 0
  | _ => 0

/-- the shapes for which `C` can be added to an `M × N` matrix -/
def BiasFits (c : List Nat) (M N : Nat) : Prop :=
  c = [] ∨ (∃ n, c = [n] ∧ (n = 1 ∨ n = N)) ∨ ∃ m n, c = [m, n] ∧ (m = 1 ∨ m = M) ∧ (n = 1 ∨ n = N)

omit [CommSemiring α] in
theorem broadcastCLoop_ok [Zero α] (L : List Nat) (M N : Nat) (C : List α) (hL : L.length = 2) (hlp : ∀ x ∈ L, 0 < x)
    (hM : 0 < M) (hN : 0 < N) (hlb : prod L ≤ 2147483647) (hob : M * N ≤ 2147483647) (hC : prod L ≤ C.length)
    (n i : Nat) (out : List α) (hin : i + n = M * N) (hout : out.length = M * N) :
    ∃ r, broadcastCLoop (ints L) (ints (wts L)) [(M : Int), (N : Int)] C n i (ints (unlin [M, N] (i % (M * N)))) out = .ok r ∧
      r.length = M * N ∧ (∀ p, p < i → r[p]? = out[p]?) ∧
      ∀ p, i ≤ p → p < M * N → r[p]? = some (C.getD (lin L (wrap L (unlin [M, N] p))) 0) := by
  induction n generalizing i out with
  | zero => exact ⟨out, rfl, hout, fun _ _ => rfl, fun p h1 h2 => by omega⟩
  | succ n ih =>
    have hi : i < M * N := by omega
    have hpr : prod [M, N] = M * N := by simp [prod]
    have hub : InBounds [M, N] (unlin [M, N] i) := unlin_inBounds (by omega)
    have hpos : ∀ x ∈ [M, N], 0 < x := by simp [hM, hN]
    have hM' : M ≤ 2147483647 := Nat.le_trans (Nat.le_mul_of_pos_right M hN) hob
    have hN' : N ≤ 2147483647 := Nat.le_trans (Nat.le_mul_of_pos_left N hM) hob
    have hcb : ∀ x ∈ unlin [M, N] i, x ≤ 2147483647 := by
      revert hub
      generalize unlin [M, N] i = c
      intro hub x hx
      match c, hub with
      | [a, b], hub =>
        simp only [InBounds, List.mem_cons, List.not_mem_nil, or_false] at hub hx
        rcases hx with rfl | rfl <;> omega
    have hmi := modIndex_ok (L := L) (O := [M, N]) (by simpa using hL) hlp hlb hub hcb
    have hw := wrap_inBounds (L := L) (O := [M, N]) (by simpa using hL) hlp hub
    have hlt : lin L (wrap L (unlin [M, N] i)) < C.length := Nat.lt_of_lt_of_le (lin_lt hw) hC
    have hinc := increase_unlin hpos i
    rw [hpr] at hinc
    have hints : ints [M, N] = [(M : Int), (N : Int)] := rfl
    rw [hints] at hinc
    obtain ⟨r, e, el, e1, e2⟩ := ih (i + 1) (out.set i (C.getD (lin L (wrap L (unlin [M, N] i))) 0)) (by omega) (by simpa)
    refine ⟨r, ?_, el, ?_, ?_⟩
    · unfold broadcastCLoop
      rw [Nat.mod_eq_of_lt hi, hmi, Res.bind_ok]
      have hrd : readN C (lin L (wrap L (unlin [M, N] i))) = .ok (C.getD (lin L (wrap L (unlin [M, N] i))) 0) := by
        apply readN_ok; simp [hlt]
      rw [hrd, Res.bind_ok, if_pos (by omega)]
      rw [Nat.mod_eq_of_lt hi] at hinc
      rw [hinc]
      exact e
    · intro p hp
      rw [e1 p (by omega), List.getElem?_set_ne (by omega)]
    · intro p h1 h2
      by_cases hp : p = i
      · subst hp
        rw [e1 p (by omega)]
        simp [hout, h2]
      · exact e2 p (by omega) h2

/-- the broadcast copy of `C` -/
theorem broadcastC_ok (c : List Nat) (M N : Nat) (C out : List α) (hM : 0 < M) (hN : 0 < N) (hob : M * N ≤ 2147483647)
    (hc : BiasFits c M N) (hC : C.length = prod c) (hout : out.length = M * N) :
    ∃ r, broadcastC (List.replicate (2 - (ints c).length) 1 ++ ints c) C M N out = .ok r ∧ r.length = M * N ∧
      ∀ i j, i < M → j < N → r[i * N + j]? = some (biasAt c C i j) := by
  have hM' : M ≤ M * N := Nat.le_mul_of_pos_right M hN
  have hN' : N ≤ M * N := Nat.le_mul_of_pos_left N hM
  have key : ∀ m n, (m = 1 ∨ m = M) → (n = 1 ∨ n = N) → C.length = m * n →
      (∀ i j, i < M → j < N → C.getD ((if m = 1 then 0 else i) * n + (if n = 1 then 0 else j)) 0 = biasAt c C i j) →
      ∃ r, broadcastC (ints [m, n]) C M N out = .ok r ∧ r.length = M * N ∧
        ∀ i j, i < M → j < N → r[i * N + j]? = some (biasAt c C i j) := by
    intro m n hm hn hlen hb
    have hmp : 0 < m := by rcases hm with rfl | rfl <;> omega
    have hnp : 0 < n := by rcases hn with rfl | rfl <;> omega
    have hle : m * n ≤ M * N := Nat.mul_le_mul (by omega) (by omega)
    have hpr : prod [m, n] = m * n := by simp [prod]
    have hpos : ∀ x ∈ [m, n], 0 < x := by simp [hmp, hnp]
    obtain ⟨r, e, el, -, e2⟩ := broadcastCLoop_ok [m, n] M N C rfl hpos hM hN (by omega) hob (by omega) (M * N) 0 out
      (by omega) hout
    refine ⟨r, ?_, el, ?_⟩
    · unfold broadcastC
      rw [weights_ok (fits_of_pos hpos (by omega)), Res.bind_ok]
      have hst := iterStart_unlin (s := [M, N]) (by simp [hM, hN])
      have hpr2 : prod [M, N] = M * N := by simp [prod]
      rw [hpr2] at hst
      have hints : ints [M, N] = [(M : Int), (N : Int)] := rfl
      rw [hints] at hst
      rw [hst]
      exact e
    · intro i j hi hj
      rw [e2 _ (by omega) (rc_lt hi hj), ← hb i j hi hj]
      congr 2
      have h1 : (i * N + j) / N = i := by
        rw [Nat.mul_comm, Nat.mul_add_div (by omega), Nat.div_eq_of_lt hj, Nat.add_zero]
      have h2 : (i * N + j) % N = j := by rw [Nat.mul_comm, Nat.mul_add_mod, Nat.mod_eq_of_lt hj]
      have hi' : i % m = if m = 1 then 0 else i := by
        rcases hm with rfl | rfl
        · simp [Nat.mod_one]
        · rw [Nat.mod_eq_of_lt hi]; split <;> omega
      have hj' : j % n = if n = 1 then 0 else j := by
        rcases hn with rfl | rfl
        · simp [Nat.mod_one]
        · rw [Nat.mod_eq_of_lt hj]; split <;> omega
      simp [unlin, wrap, lin, prod, h1, h2, hi', hj', Nat.mod_one]
  rcases hc with rfl | ⟨n, rfl, hn⟩ | ⟨m, n, rfl, hm, hn⟩
  · have := key 1 1 (.inl rfl) (.inl rfl) (by simpa [prod] using hC) (by intro i j _ _; simp [biasAt])
    simpa [ints] using this
  · have := key 1 n (.inl rfl) hn (by simpa [prod] using hC) (by intro i j _ _; simp [biasAt])
    simpa [ints] using this
  · have := key m n hm hn (by simpa [prod] using hC) (by intro i j _ _; simp [biasAt])
    simpa [ints] using this

/-- the inexact comparisons of the code decide the scalar `x` correctly -/
def ExactAt (near : α → α → Bool) (x : α) : Prop := (near x 0 = true → x = 0) ∧ (near x 1 = true → x = 1)

/-- C46, the Gemm operator: for all positive extents, transpositions, both element types, every bias shape that can be
broadcast and whatever the output held, the result has shape `M × N` and element
`beta C + alpha Σ op(A)(i, k) op(B)(k, j)`. -/
theorem C46_gemm (near : α → α → Bool) (nearZero : α → Bool) (simd tA tB bz : Bool) (M N K : Nat) (alpha beta : α)
    (A B C : Arr α) (c : List Nat) (dst : List α) (hM : 0 < M) (hN : 0 < N) (hob : M * N ≤ 2147483647)
    (ha : ExactAt near alpha) (hb : ExactAt near beta) (hz : nearZero beta = true → beta = 0) (h01 : near 0 1 = false)
    (hAs : A.shape = if tA then [(K : Int), (M : Int)] else [(M : Int), (K : Int)])
    (hBs : B.shape = if tB then [(N : Int), (K : Int)] else [(K : Int), (N : Int)])
    (hCs : C.shape = ints c) (hc : BiasFits c M N) (hty : A.dtype = 10 ∨ A.dtype = 11) (hB : B.dtype = A.dtype)
    (hC : C.dtype = A.dtype) (hAl : A.data.length = M * K) (hBl : B.data.length = K * N) (hCl : C.data.length = prod c)
    (hd : dst.length = M * N) :
    ∃ out, gemmRun near nearZero bz simd tA tB alpha beta A B C dst = .ok ⟨A.dtype, [(M : Int), (N : Int)], out⟩ ∧
      out.length = M * N ∧ ∀ i j, i < M → j < N → out[i * N + j]? =
        some (beta * biasAt c C.data i j +
          alpha * productAt tA tB K A.data (if tA then M else K) B.data (if tB then K else N) i j) := by
  have hrank : (ints c).length = c.length := by simp [ints]
  have hshape : gemmShape tA tB A.shape B.shape C.shape = .ok [(M : Int), (N : Int)] := by
    rw [hAs, hBs, hCs]
    have hc2 : ¬ (ints c).length > 2 := by
      rw [hrank]
      rcases hc with rfl | ⟨n, rfl, -⟩ | ⟨m, n, rfl, -⟩ <;> simp
    cases tA <;> cases tB <;> simp only [gemmShape, if_true, Bool.false_eq_true, if_false, if_neg hc2, ne_eq,
      not_true_eq_false] <;>
    · rcases hc with rfl | ⟨n, rfl, hn⟩ | ⟨m, n, rfl, hm, hn⟩
      · simp [ints]
      · simp [ints]; omega
      · simp [ints]; omega
  unfold gemmRun
  rw [hshape, Res.bind_ok, if_neg (by simp [hB, hC]), if_neg (by omega)]
  have hK : (if tA then A.shape.getD 0 0 else A.shape.getD 1 0).toNat = K := by
    rw [hAs]; cases tA <;> simp
  simp only [hK, List.getD_cons_zero, List.getD_cons_succ, Int.toNat_natCast]
  obtain ⟨r0, b1, b2, b3⟩ := broadcastC_ok c M N C.data dst hM hN hob hc hCl hd
  have hgem : ∀ (b : α) (C0 : List α), ExactAt near b → C0.length = M * N →
      ∃ out, gemmPlain near (simd && A.dtype == 10) tA tB M N K alpha A.data B.data b C0 = .ok out ∧
        out.length = M * N ∧ ∀ i j, i < M → j < N → out[i * N + j]? =
          some (b * C0.getD (i * N + j) 0 +
            alpha * productAt tA tB K A.data (if tA then M else K) B.data (if tB then K else N) i j) := by
    intro b C0 hbE hl
    obtain ⟨out, e, el, e1, -⟩ := C46_gemm_row_major near (simd && A.dtype == 10) tA tB M N K (if tA then M else K)
      (if tB then K else N) N alpha b A.data B.data C0 ha.1 hbE.1 hbE.2 (Nat.le_refl _) (Nat.le_refl _) (Nat.le_refl _)
      (by
        intro i k hi hk
        rw [hAl]
        cases tA
        · simpa using rc_lt hi hk
        · simp only [if_true]; rw [Nat.mul_comm M K]; exact rc_lt hk hi)
      (by
        intro k j hk hj
        rw [hBl]
        cases tB
        · simpa using rc_lt hk hj
        · simp only [if_true]; rw [Nat.mul_comm K N]; exact rc_lt hj hk)
      (by intro i j hi hj; rw [hl]; exact rc_lt hi hj)
    exact ⟨out, e, by rw [el, hl], e1⟩
  by_cases hzb : nearZero beta = true
  · simp only [hzb, if_true, Res.bind_ok]
    obtain ⟨out, e, el, e1⟩ := hgem 0 dst ⟨fun _ => rfl, fun h => by simp [h01] at h⟩ hd
    refine ⟨out, by rw [e, Res.bind_ok], el, fun i j hi hj => ?_⟩
    rw [e1 i j hi hj, hz hzb]
    simp
  · simp only [hzb, Bool.false_eq_true, if_false]
    rw [hCs, b1, Res.bind_ok]
    obtain ⟨out, e, el, e1⟩ := hgem beta r0 hb b2
    refine ⟨out, by rw [e, Res.bind_ok], el, fun i j hi hj => ?_⟩
    rw [e1 i j hi hj, List.getD_eq_getElem?_getD, b3 i j hi hj]
    rfl

/-- non-vacuity: both operands transposed, a column bias -/
example : gemmRun (α := Nat) (fun a b => a == b) (fun a => a == 0) false true true true 2 3
    ⟨10, [3, 2], [1, 2, 3, 4, 5, 6]⟩ ⟨10, [2, 3], [1, 0, 1, 0, 1, 1]⟩ ⟨10, [2, 1], [1, 2]⟩ [7, 7, 7, 7] =
    .ok ⟨10, [2, 2], [15, 19, 22, 26]⟩ ∧ BiasFits [2, 1] 2 2 ∧ ExactAt (fun a b : Nat => a == b) 2 :=
  ⟨rfl, .inr (.inr ⟨2, 1, rfl, .inr rfl, .inl rfl⟩), by simp [ExactAt]⟩

/-! ## InnerProd -/

/-- a shape whose first extent is `M` and whose other extents multiply to `K` -/
def FlatMatrix (s : List Nat) (M K : Nat) : Prop := ∃ rest, s = M :: rest ∧ prod rest = K ∧ ∀ x ∈ s, 0 < x

theorem flattenLhs_ok {s : List Nat} {M K : Nat} (h : FlatMatrix s M K) (hb : M * K ≤ 2147483647) :
    flattenLhs (ints s) = .ok [(M : Int), (K : Int)] ∧
      ∀ t r, innerProdShape t (ints s) r = innerProd2 t [(M : Int), (K : Int)] r := by
  obtain ⟨rest, rfl, rfl, hp⟩ := h
  have hM : 0 < M := hp M (by simp)
  have hps : prod (M :: rest) = M * prod rest := by simp [prod]
  have hno : NoOverflow (M :: rest) := noOverflow_of_pos hp (by omega)
  have hK : 0 < prod rest := prod_pos fun x hx => hp x (by simp [hx])
  have hno2 : NoOverflow ([M] ++ 1 :: []) := noOverflow_of_pos (by simp; omega) (by
    have : M ≤ M * prod rest := Nat.le_mul_of_pos_right M hK
    simp [prod]; omega)
  have hre : reshapeShape (ints (M :: rest)) [(M : Int), -1] = .ok [(M : Int), (prod rest : Int)] := by
    have := reshapeShape_one (sizes := M :: rest) (a := [M]) (b := []) (x := -1) (by omega) hno hno2 (by simp; omega) (by simp)
    have hd : M * prod rest / (M * 1) = prod rest := by rw [Nat.mul_one, Nat.mul_div_cancel_left _ hM]
    simp only [ints, List.map_cons, List.map_nil, List.singleton_append, hps, prod, Nat.mul_one] at this
    rw [show M * prod rest / M = prod rest from Nat.mul_div_cancel_left _ hM, if_pos rfl] at this
    simpa [ints] using this
  have hlen : (ints (M :: rest)).length = rest.length + 1 := by simp [ints]
  by_cases h2 : rest.length = 1
  · obtain ⟨k, rfl⟩ := List.length_eq_one_iff.1 h2
    refine ⟨?_, fun t r => ?_⟩
    · simp [flattenLhs, ints, prod]
    · simp [innerProdShape, ints, prod]
  · have hne : (ints (M :: rest)).length ≠ 2 := by rw [hlen]; omega
    have hcons : ints (M :: rest) = (M : Int) :: ints rest := rfl
    refine ⟨?_, fun t r => ?_⟩
    · unfold flattenLhs
      rw [hcons] at hne hre ⊢
      simp only [if_pos hne]
      exact hre
    · unfold innerProdShape
      rw [hcons] at hne hre ⊢
      simp only [if_pos hne]
      rw [hre, Res.bind_ok]

/-- the transposed right operand -/
theorem plainRhs_ok (t : Bool) (K N : Nat) (r : Arr α) (tdst : List α) (hK : 0 < K) (hN : 0 < N)
    (hb : K * N ≤ 2147483647) (hty : r.dtype = 10 ∨ r.dtype = 11)
    (hs : r.shape = if t then [(N : Int), (K : Int)] else [(K : Int), (N : Int)]) (hr : r.data.length = K * N)
    (ht : tdst.length = K * N) :
    ∃ b, plainRhs t r tdst = .ok b ∧ b.length = K * N ∧
      ∀ k j, k < K → j < N → b.getD (k * N + j) 0 = entry t r.data (if t then K else N) k j := by
  cases t with
  | false => exact ⟨r.data, rfl, hr, fun k j _ _ => by simp [entry]⟩
  | true =>
    simp only [if_true] at hs ⊢
    have hpr : prod [N, K] = K * N := by simp [prod, Nat.mul_comm]
    obtain ⟨out, e, el, e1, -⟩ := C16_transpose [1, 0] [N, K] r.dtype r.data tdst (by simp) (by unfold IsPerm; decide)
      (by simp) (by simp) (by simp [hK, hN]) (by omega) (by rcases hty with h | h <;> rw [h] <;> decide) (by omega) (by omega)
    refine ⟨out, ?_, by omega, ?_⟩
    · unfold plainRhs
      rw [if_pos rfl, hs]
      have : transposeRun (some [1, 0]) r.dtype [(N : Int), (K : Int)] r.data tdst = _ := e
      rw [this]; rfl
    · intro k j hk hj
      have hpd : padded 2 [N, K] = [N, K] := rfl
      have hib : InBounds [N, K] [j, k] := by simp [InBounds, hk, hj]
      have := e1 [j, k] hib
      simp only [List.length_cons, List.length_nil, hpd] at this
      have a1 : app [1, 0] [N, K] = [K, N] := rfl
      have a2 : app [1, 0] [j, k] = [k, j] := rfl
      rw [a1, a2] at this
      have l1 : lin [K, N] [k, j] = k * N + j := by simp [lin, prod]
      have l2 : lin [N, K] [j, k] = j * K + k := by simp [lin, prod]
      rw [l1, l2] at this
      unfold entry
      rw [if_pos rfl, List.getD_eq_getElem?_getD, List.getD_eq_getElem?_getD, this]

/-- C46, the InnerProd operator on `float`: for all positive extents, a left operand of any rank (flattened to rows), a
right operand given plainly or transposed, and whatever the buffers held, the result has shape `M × N` and elements
`Σ lhs(i, k) op(rhs)(k, j)`. -/
theorem C46_inner_prod_partial (t : Bool) (M N K : Nat) (l r : Arr α) (s : List Nat) (dst tdst : List α)
    (hls : l.shape = ints s) (hs : FlatMatrix s M K) (hN : 0 < N) (hbl : M * K ≤ 2147483647) (hbr : K * N ≤ 2147483647)
    (hrs : r.shape = if t then [(N : Int), (K : Int)] else [(K : Int), (N : Int)])
    (hlt : l.dtype = 10) (hrt : r.dtype = 10) (hll : l.data.length = M * K) (hrl : r.data.length = K * N)
    (hd : dst.length = M * N) (htd : tdst.length = K * N) :
    ∃ out, innerProdRun t false l r dst tdst = .ok ⟨10, [(M : Int), (N : Int)], out⟩ ∧ out.length = M * N ∧
      ∀ i j, i < M → j < N → out[i * N + j]? =
        some (productAt false t K l.data K r.data (if t then K else N) i j) := by
  have hKM : 0 < M ∧ 0 < K := by
    obtain ⟨rest, rfl, rfl, hp⟩ := hs
    exact ⟨hp M (by simp), prod_pos fun x hx => hp x (by simp [hx])⟩
  obtain ⟨f1, f2⟩ := flattenLhs_ok hs hbl
  obtain ⟨b, b1, b2, b3⟩ := plainRhs_ok t K N r tdst hKM.2 hN hbr (.inl hrt) hrs hrl htd
  obtain ⟨out, e, el, e1⟩ := gemmPacked_ok M N K l.data b dst (by omega) (by omega) hd
  refine ⟨out, ?_, el, ?_⟩
  · unfold innerProdRun
    rw [hls, f2, hrs, f1]
    have h2 : innerProd2 t [(M : Int), (K : Int)] (if t then [(N : Int), (K : Int)] else [(K : Int), (N : Int)]) =
        .ok [(M : Int), (N : Int)] := by cases t <;> simp [innerProd2]
    rw [h2, Res.bind_ok, Res.bind_ok, if_neg (by omega), if_neg (by omega), if_neg (by simp), b1, Res.bind_ok]
    simp only [hlt, List.getD_cons_zero, List.getD_cons_succ, Int.toNat_natCast, beq_self_eq_true, Bool.not_false]
    rw [e, Res.bind_ok]
  · intro i j hi hj
    rw [e1 i j hi hj]
    congr 1
    unfold productAt
    apply Finset.sum_congr rfl
    intro k hk
    rw [b3 k j (Finset.mem_range.1 hk) hj]
    simp [entry]

/-- non-vacuity: a left operand of rank three -/
example : innerProdRun (α := Nat) true false ⟨10, [2, 1, 2], [1, 2, 3, 4]⟩ ⟨10, [3, 2], [1, 0, 0, 1, 1, 1]⟩
    [9, 9, 9, 9, 9, 9] [8, 8, 8, 8, 8, 8] = .ok ⟨10, [2, 3], [1, 2, 3, 3, 4, 7]⟩ ∧ FlatMatrix [2, 1, 2] 2 2 :=
  ⟨by decide +kernel, [1, 2], rfl, rfl, by decide⟩

/-- FLOAT64 inner products never write their output (for any operands that pass the checks). -/
theorem C46_inner_prod_double_false (M N K : Nat) (l r : Arr α) (s : List Nat) (dst tdst : List α)
    (hls : l.shape = ints s) (hs : FlatMatrix s M K) (hbl : M * K ≤ 2147483647)
    (hrs : r.shape = [(K : Int), (N : Int)]) (hlt : l.dtype = 11) (hrt : r.dtype = 11) (hll : l.data.length = M * K)
    (hrl : r.data.length = K * N) :
    innerProdRun false false l r dst tdst = .ok ⟨11, [(M : Int), (N : Int)], dst⟩ := by
  obtain ⟨f1, f2⟩ := flattenLhs_ok hs hbl
  unfold innerProdRun
  rw [hls, f2, hrs, f1]
  have h2 : innerProd2 false [(M : Int), (K : Int)] [(K : Int), (N : Int)] = .ok [(M : Int), (N : Int)] := by
    simp [innerProd2]
  rw [h2, Res.bind_ok, Res.bind_ok, if_neg (by omega), if_neg (by omega), if_neg (by simp)]
  simp only [plainRhs, Bool.false_eq_true, if_false, Res.bind_ok, hlt, List.getD_cons_zero, List.getD_cons_succ,
    Int.toNat_natCast]
  unfold gemmPacked
  simp only [cond_true, Bool.not_false]
  rw [pack8A_ok _ _ _ (by omega), Res.bind_ok]
  unfold pack8B
  rw [pack_ok _ _ (fun i hi => by have := packBIdx_lt _ _ _ hi; omega), Res.bind_ok]
  rfl

/-- C46, packed weights: packing the right operand in advance (transposing it first if it is a transposed one) and
multiplying with the packed form gives exactly what multiplying with the original gives, whatever the buffers held. -/
theorem C46_packed_weights (t : Bool) (M N K : Nat) (l r : Arr α) (s : List Nat) (dst dst' tdst tdst' : List α)
    (hls : l.shape = ints s) (hs : FlatMatrix s M K) (hN : 0 < N) (hbl : M * K ≤ 2147483647) (hbr : K * N ≤ 2147483647)
    (hrs : r.shape = if t then [(N : Int), (K : Int)] else [(K : Int), (N : Int)])
    (hlt : l.dtype = 10) (hrt : r.dtype = 10) (hll : l.data.length = M * K) (hrl : r.data.length = K * N)
    (hd : dst.length = M * N) (hd' : dst'.length = M * N) (htd : tdst.length = K * N) :
    ∃ p, packInnerWeights t r = .ok p ∧ p.dtype = 10 ∧ p.shape = [(K : Int), (N : Int)] ∧ p.data.length = K * N ∧
      innerProdRun false true l p dst' tdst' = innerProdRun t false l r dst tdst := by
  obtain ⟨out, e, el, e1⟩ := C46_inner_prod_partial t M N K l r s dst tdst hls hs hN hbl hbr hrs hlt hrt hll hrl hd htd
  -- the plain right operand the packing starts from
  have hplain : ∃ b : List α, b.length = K * N ∧
      (∀ k j, k < K → j < N → b.getD (k * N + j) 0 = entry t r.data (if t then K else N) k j) ∧
      packInnerWeights t r = .ok ⟨10, [(K : Int), (N : Int)], (packBIdx K N N).map fun i => b.getD i 0⟩ := by
    cases t with
    | false =>
      refine ⟨r.data, hrl, fun k j _ _ => by simp [entry], ?_⟩
      simp only [Bool.false_eq_true, if_false] at hrs
      simp only [packInnerWeights, hrs, hrt, ne_eq, not_true_eq_false, if_false, Bool.false_eq_true, Int.toNat_natCast]
      unfold pack8B
      rw [pack_ok _ _ (fun i hi => by have := packBIdx_lt _ _ _ hi; omega), Res.bind_ok]
    | true =>
      simp only [if_true] at hrs ⊢
      have hidx : ∀ p ∈ ((List.range K).flatMap fun i => (List.range N).map fun j => j * K + i), p < r.data.length := by
        intro p hp
        simp only [List.mem_flatMap, List.mem_map, List.mem_range] at hp
        obtain ⟨i, hi, j, hj, rfl⟩ := hp
        rw [hrl, Nat.mul_comm K N]; exact rc_lt hj hi
      refine ⟨((List.range K).flatMap fun i => (List.range N).map fun j => j * K + i).map fun i => r.data.getD i 0, ?_, ?_, ?_⟩
      · rw [List.length_map, (flatMap_get N K _ (by simp)).1]
      · intro k j hk hj
        have := (flatMap_get N K (fun i => (List.range N).map fun j => j * K + i) (by simp)).2 k j hk hj
        rw [List.getD_eq_getElem?_getD, List.getElem?_map, this]
        simp [hj, entry]
      · simp only [packInnerWeights, hrs, hrt, ne_eq, not_true_eq_false, if_false, if_true, Int.toNat_natCast]
        unfold matrixTranspose
        rw [pack_ok _ _ hidx, Res.bind_ok]
        unfold pack8B
        rw [pack_ok _ _ (fun i hi => by
          have := packBIdx_lt _ _ _ hi
          rw [List.length_map, (flatMap_get N K _ (by simp)).1]; exact this), Res.bind_ok]
  obtain ⟨b, bl, b3, hp⟩ := hplain
  have hlenB : (packBIdx K N N).length = K * N := by
    unfold packBIdx
    rw [List.length_append, (flatMap_get (K * 8) (N / 8) _ (fun nn _ => by rw [(flatMap_get 8 K _ (by simp)).1])).1,
      (flatMap_get K (N % 8) _ (by simp)).1]
    rw [show N / 8 * (K * 8) = N / 8 * 8 * K by ring, ← Nat.add_mul, Nat.mul_comm K N]
    congr 1
    omega
  refine ⟨_, hp, rfl, rfl, by rw [List.length_map, hlenB], ?_⟩
  rw [e]
  obtain ⟨f1, f2⟩ := flattenLhs_ok hs hbl
  -- the kernel sees the same packed operands
  obtain ⟨out1, g, gl, g1⟩ := gemmPacked_ok M N K l.data b dst' (by omega) (by omega) hd'
  have hsame : out1 = out := by
    apply List.ext_getElem?
    intro p
    by_cases hpb : p < M * N
    · have hNp : 0 < N := hN
      have hq : p = p / N * N + p % N := by rw [Nat.mul_comm]; exact (Nat.div_add_mod p N).symm
      have h1 : p / N < M := by
        rw [Nat.div_lt_iff_lt_mul hNp]; exact hpb
      have h2 : p % N < N := Nat.mod_lt _ hNp
      rw [hq, g1 _ _ h1 h2, e1 _ _ h1 h2]
      congr 1
      unfold productAt
      apply Finset.sum_congr rfl
      intro k hk
      rw [b3 k _ (Finset.mem_range.1 hk) h2]
      simp [entry]
    · rw [List.getElem?_eq_none (by omega), List.getElem?_eq_none (by omega)]
  have gg : gemmPacked true M N K l.data ((packBIdx K N N).map fun i => b.getD i 0) true false dst' = .ok out := by
    rw [← hsame, ← g]
    unfold gemmPacked
    simp only [cond_true, cond_false]
    unfold pack8B
    rw [pack_ok b _ (fun i hi => by have := packBIdx_lt _ _ _ hi; omega)]
  unfold innerProdRun
  rw [hls, f2, f1]
  have h2 : innerProd2 false [(M : Int), (K : Int)] [(K : Int), (N : Int)] = .ok [(M : Int), (N : Int)] := by
    simp [innerProd2]
  rw [h2, Res.bind_ok, Res.bind_ok, if_neg (by simp [hlt]), if_neg (by omega), if_neg (by simp)]
  simp only [plainRhs, Bool.false_eq_true, if_false, Res.bind_ok, hlt, List.getD_cons_zero, List.getD_cons_succ,
    Int.toNat_natCast, beq_self_eq_true, Bool.not_true]
  rw [gg, Res.bind_ok]

/-- non-vacuity: nine columns (one full block and a remainder), weights given transposed -/
example : (packInnerWeights true (⟨10, [9, 2], List.range 18⟩ : Arr Nat)).bind (fun p =>
    innerProdRun false true ⟨10, [1, 2], [1, 10]⟩ p (List.replicate 9 7) []) =
    .ok ⟨10, [1, 9], [10, 32, 54, 76, 98, 120, 142, 164, 186]⟩ := by decide +kernel

/-- C46, refusals: operands whose shapes fit but whose element types differ, or that are not floating point, are an error
for Gemm and for InnerProd, whatever the contents; and only `float` weights can be packed. -/
theorem C46_types_refused (near : α → α → Bool) (nearZero : α → Bool) (simd tA tB bz t p : Bool) (alpha beta : α)
    (A B C : Arr α) (dst tdst : List α) :
    (∀ out, gemmShape tA tB A.shape B.shape C.shape = .ok out →
      (A.dtype ≠ B.dtype ∨ (A.dtype ≠ 10 ∧ A.dtype ≠ 11) ∨ (bz = false ∧ C.dtype ≠ A.dtype)) →
      gemmRun near nearZero bz simd tA tB alpha beta A B C dst = .err) ∧
    (∀ out ls, innerProdShape t A.shape B.shape = .ok out → flattenLhs A.shape = .ok ls →
      (A.dtype ≠ B.dtype ∨ (A.dtype ≠ 10 ∧ A.dtype ≠ 11)) → innerProdRun t p A B dst tdst = .err) ∧
    (∀ h w rest, A.shape = h :: w :: rest → A.dtype ≠ 10 → packInnerWeights t A = .err) := by
  refine ⟨?_, ?_, ?_⟩
  · intro out ho h
    unfold gemmRun
    rw [ho, Res.bind_ok]
    by_cases h1 : A.dtype ≠ B.dtype ∨ (bz = false ∧ C.dtype ≠ A.dtype)
    · rw [if_pos h1]
    · rw [if_neg h1, if_pos]
      rcases h with h | h | h
      · exact absurd (.inl h) h1
      · exact h
      · exact absurd (.inr h) h1
  · intro out ls ho hl h
    unfold innerProdRun
    rw [ho, Res.bind_ok, hl, Res.bind_ok]
    by_cases h1 : A.dtype ≠ B.dtype
    · rw [if_pos h1]
    · rw [if_neg h1, if_pos]
      rcases h with h | h
      · exact absurd h h1
      · exact h
  · intro h w rest hs hd
    unfold packInnerWeights
    rw [hs]
    simp only
    rw [if_pos hd]

/-- non-vacuity: a `float` times a `double` matrix, and `double` weights -/
example : gemmShape false false [2, 2] [2, 2] [2] = .ok [2, 2] ∧
    innerProdRun (α := Int) false false ⟨10, [1, 2], [1, 2]⟩ ⟨11, [2, 1], [1, 1]⟩ [0] [] = .err ∧
    packInnerWeights false (⟨11, [1, 1], [3]⟩ : Arr Int) = .err := by decide

/-! ## MatMul -/

/-- C46, the MatMul operator, second operand a matrix: for a first operand of any shape `pre ++ [K]` the result has shape
`pre ++ [N]` and, with `p` ranging over the leading positions, elements `Σ a(p, k) b(k, j)`. -/
theorem C46_matmul (pre : List Nat) (K N : Nat) (a b : Arr α) (dst tdst : List α) (hpre : ∀ x ∈ pre, 0 < x) (hK : 0 < K)
    (hN : 0 < N) (hba : prod pre * K ≤ 2147483647) (hbb : K * N ≤ 2147483647) (hbo : prod pre * N ≤ 2147483647)
    (has : a.shape = ints (pre ++ [K])) (hbs : b.shape = ints [K, N]) (hat : a.dtype = 10) (hbt : b.dtype = 10)
    (hal : a.data.length = prod pre * K) (hbl : b.data.length = K * N) (hd : dst.length = prod pre * N)
    (htd : tdst.length = K * N) :
    ∃ out, matmulRun a b dst tdst = .ok ⟨10, ints (pre ++ [N]), out⟩ ∧ out.length = prod pre * N ∧
      ∀ p j, p < prod pre → j < N → out[p * N + j]? =
        some (∑ k ∈ Finset.range K, a.data.getD (p * K + k) 0 * b.data.getD (k * N + j) 0) := by
  have hP : 0 < prod pre := prod_pos hpre
  have hla : (ints (pre ++ [K])).length = pre.length + 1 := by simp [ints]
  have hlb : (ints [K, N]).length = 2 := rfl
  have hinf : matmulInfer a.shape b.shape = .ok () := by
    rw [has, hbs]
    unfold matmulInfer
    rw [if_neg (by simp [ints]), if_neg (by simp [ints]), Res.bind_ok]
    simp only [hla, hlb]
    have s0 : sizeAt (ints [K, N]) 1 = .ok (N : Int) := rfl
    split
    · have : ∃ v, sizeAt (ints (pre ++ [K])) 0 = .ok v := by
        cases pre <;> exact ⟨_, rfl⟩
      obtain ⟨v, hv⟩ := this
      rw [hv, s0]; rfl
    · rw [s0, Res.bind_ok, if_neg (by omega)]
  have hrun : matmulRun a b dst tdst = matmulCompute a b dst tdst := by
    unfold matmulRun
    rw [hinf]
    show (if a.shape.length = 4 ∧ b.shape.length = 4 then _ else _) = _
    rw [if_neg (by rw [hbs]; simp [ints])]
  rw [hrun]
  unfold matmulCompute
  by_cases h2 : pre.length = 1
  · obtain ⟨m, rfl⟩ := List.length_eq_one_iff.1 h2
    rw [if_pos (by rw [has, hbs]; simp [ints])]
    have hm : 0 < m := hpre m (by simp)
    have e0 : prod [m] = m := by simp [prod]
    rw [e0] at hba hbo hal hd hP ⊢
    obtain ⟨out, e, el, e1⟩ := C46_inner_prod_partial false m N K a b [m, K] dst tdst has
      ⟨[K], rfl, by simp [prod], by simp [hm, hK]⟩ hN hba hbb (by simpa [ints] using hbs) hat hbt hal hbl hd htd
    refine ⟨out, ?_, el, ?_⟩
    · rw [e]; rfl
    · intro p j hp hj
      rw [e1 p j hp hj]
      simp [productAt, entry]
  · rw [if_neg (by rw [has, hbs, hla, hlb]; omega)]
    have hsz : sizeAt b.shape 1 = .ok (N : Int) := by rw [hbs]; rfl
    have hlast : sizeAt a.shape (a.shape.length - 1) = .ok (K : Int) := by
      rw [has, hla]
      unfold sizeAt
      have : (ints (pre ++ [K]))[pre.length + 1 - 1]? = some (K : Int) := by
        simp [ints]
      rw [this]
    have hdl : a.shape.dropLast = ints pre := by rw [has]; simp [ints]
    have hno : NoOverflow pre := noOverflow_of_pos hpre (by
      have : prod pre ≤ prod pre * K := Nat.le_mul_of_pos_right _ hK
      omega)
    have hpos1 : ∀ x ∈ pre ++ [K], 0 < x := by
      intro x hx
      rcases List.mem_append.1 hx with h | h
      · exact hpre x h
      · simp at h; omega
    have hpos2 : ∀ x ∈ pre ++ [N], 0 < x := by
      intro x hx
      rcases List.mem_append.1 hx with h | h
      · exact hpre x h
      · simp at h; omega
    have hprod1 : prod (pre ++ [K]) = prod pre * K := by rw [prod_append]; simp [prod]
    have hprod2 : prod (pre ++ [N]) = prod pre * N := by rw [prod_append]; simp [prod]
    have e32 := prod32_ok hno.pfits
    simp only [Int.natCast_one, Nat.one_mul] at e32
    have hre : reshapeShape a.shape [(prod pre : Int), (K : Int)] = .ok [(prod pre : Int), (K : Int)] := by
      have := reshapeShape_nat (sizes := pre ++ [K]) (r := [prod pre, K]) (noOverflow_of_pos hpos1 (by omega))
        (noOverflow_of_pos (by simp [hP, hK]) (by simp [prod]; omega))
      rw [if_pos (by rw [hprod1]; simp [prod])] at this
      rw [has]; exact this
    have hre2 : reshapeShape [(prod pre : Int), (N : Int)] (ints pre ++ [(N : Int)]) = .ok (ints (pre ++ [N])) := by
      have := reshapeShape_nat (sizes := [prod pre, N]) (r := pre ++ [N])
        (noOverflow_of_pos (by simp [hP, hN]) (by simp [prod]; omega)) (noOverflow_of_pos hpos2 (by omega))
      rw [if_pos (by rw [hprod2]; simp [prod])] at this
      rw [← this]
      simp [ints]
    obtain ⟨out, e, el, e1⟩ := C46_inner_prod_partial false (prod pre) N K
      { a with shape := [(prod pre : Int), (K : Int)] } b [prod pre, K] dst tdst rfl
      ⟨[K], rfl, by simp [prod], by simp [hP, hK]⟩ hN hba hbb (by simpa [ints] using hbs) hat hbt hal hbl hd htd
    refine ⟨out, ?_, el, ?_⟩
    · rw [hsz, Res.bind_ok, hlast, Res.bind_ok, hdl, e32, Res.bind_ok, hre, Res.bind_ok, e, Res.bind_ok]
      simp only
      rw [hre2, Res.bind_ok]
    · intro p j hp hj
      rw [e1 p j hp hj]
      simp [productAt, entry]

/-- non-vacuity: a batch of two rows of two matrices, and a single row -/
example : matmulRun (α := Nat) ⟨10, [2, 1, 2], [1, 2, 3, 4]⟩ ⟨10, [2, 2], [1, 0, 1, 1]⟩ [9, 9, 9, 9] [0, 0, 0, 0] =
    .ok ⟨10, [2, 1, 2], [3, 2, 7, 4]⟩ ∧
    matmulRun (α := Nat) ⟨10, [2], [1, 2]⟩ ⟨10, [2, 2], [1, 0, 1, 1]⟩ [9, 9] [0, 0, 0, 0] = .ok ⟨10, [2], [3, 2]⟩ := by
  decide +kernel

/-- C46, MatMul of two tensors of rank four with leading extents one: the product of the matrices they hold. -/
theorem C46_matmul_rank4 (M K N : Nat) (a b : Arr α) (dst tdst : List α) (hM : 0 < M) (hK : 0 < K) (hN : 0 < N)
    (hba : M * K ≤ 2147483647) (hbb : K * N ≤ 2147483647) (hbo : M * N ≤ 2147483647)
    (has : a.shape = ints [1, 1, M, K]) (hbs : b.shape = ints [1, 1, K, N]) (hat : a.dtype = 10) (hbt : b.dtype = 10)
    (hal : a.data.length = M * K) (hbl : b.data.length = K * N) (hd : dst.length = M * N) (htd : tdst.length = K * N) :
    ∃ out, matmulRun a b dst tdst = .ok ⟨10, ints [1, 1, M, N], out⟩ ∧ out.length = M * N ∧
      ∀ i j, i < M → j < N → out[i * N + j]? =
        some (∑ k ∈ Finset.range K, a.data.getD (i * K + k) 0 * b.data.getD (k * N + j) 0) := by
  have hl : ∀ x y : Nat, 0 < x → 0 < y → x * y ≤ 2147483647 →
      last2 (ints [1, 1, x, y]) = .ok (ints [x, y]) ∧ reshapeShape (ints [x, y]) (ints [1, 1, x, y]) = .ok (ints [1, 1, x, y]) := by
    intro x y hx hy hb
    have n1 : NoOverflow [1, 1, x, y] := noOverflow_of_pos (by simp [hx, hy]) (by simp [prod]; omega)
    have n2 : NoOverflow [x, y] := noOverflow_of_pos (by simp [hx, hy]) (by simp [prod]; omega)
    constructor
    · have := reshapeShape_nat n1 n2
      rw [if_pos (by simp [prod])] at this
      exact this
    · have := reshapeShape_nat n2 n1
      rw [if_pos (by simp [prod])] at this
      exact this
  obtain ⟨a1, -⟩ := hl M K hM hK hba
  obtain ⟨b1, -⟩ := hl K N hK hN hbb
  obtain ⟨-, o1⟩ := hl M N hM hN hbo
  obtain ⟨out, e, el, e1⟩ := C46_inner_prod_partial false M N K { a with shape := ints [M, K] } { b with shape := ints [K, N] }
    [M, K] dst tdst rfl ⟨[K], rfl, by simp [prod], by simp [hM, hK]⟩ hN hba hbb rfl hat hbt hal hbl hd htd
  refine ⟨out, ?_, el, ?_⟩
  · unfold matmulRun
    rw [has, hbs]
    have hinf : matmulInfer (ints [1, 1, M, K]) (ints [1, 1, K, N]) = .ok () := by
      unfold matmulInfer
      rw [if_pos (by simp [ints])]
      have h0 : sizeAt (ints [1, 1, M, K]) 0 = .ok 1 := rfl
      have h1 : sizeAt (ints [1, 1, M, K]) 1 = .ok 1 := rfl
      have h2 : sizeAt (ints [1, 1, K, N]) 0 = .ok 1 := rfl
      have h3 : sizeAt (ints [1, 1, K, N]) 1 = .ok 1 := rfl
      rw [h0, h1, h2, h3]
      simp only [Res.bind_ok]
      rw [if_neg (by decide), a1, b1]
      rfl
    rw [hinf]
    simp only [Res.bind_ok]
    rw [if_pos (by simp [ints]), a1, Res.bind_ok, b1, Res.bind_ok]
    unfold matmulCompute
    rw [if_pos (by simp [ints]), e, Res.bind_ok]
    have h0 : sizeAt [(M : Int), (N : Int)] 0 = .ok (M : Int) := rfl
    have h1 : sizeAt [(M : Int), (N : Int)] 1 = .ok (N : Int) := rfl
    simp only [h0, h1, Res.bind_ok]
    have o2 : reshapeShape [(M : Int), (N : Int)] [1, 1, (M : Int), (N : Int)] = .ok (ints [1, 1, M, N]) := o1
    rw [o2]; rfl
  · intro i j hi hj
    rw [e1 i j hi hj]
    simp [productAt, entry]

example : matmulRun (α := Nat) ⟨10, [1, 1, 1, 2], [1, 2]⟩ ⟨10, [1, 1, 2, 2], [1, 0, 1, 1]⟩ [9, 9] [0, 0, 0, 0] =
    .ok ⟨10, [1, 1, 1, 2], [3, 2]⟩ := by decide +kernel

/-- MatMul of two vectors (a dot product) reads outside the shape of its second operand. -/
theorem C46_matmul_vectors_false (l m : List α) (dst tdst : List α) (n : Int) :
    matmulRun ⟨10, [n], l⟩ ⟨10, [n], m⟩ dst tdst = .ub := rfl

end Verif.Props
