import Verif.Kernels.Gemm
/-!
# The packed matrix product computes the product
-/
namespace Verif.Kernels
open Verif.Core

theorem flatMap_get {β : Type} (b : Nat) : ∀ (a : Nat) (f : Nat → List β), (∀ i, i < a → (f i).length = b) →
    ((List.range a).flatMap f).length = a * b ∧
    ∀ i j, i < a → j < b → ((List.range a).flatMap f)[i * b + j]? = (f i)[j]?
  | 0, _, _ => by simp
  | a + 1, f, hl => by
    obtain ⟨h1, h2⟩ := flatMap_get b a f fun i hi => hl i (by omega)
    have h3 := hl a (by omega)
    rw [List.range_succ, List.flatMap_append]
    simp only [List.flatMap_cons, List.flatMap_nil, List.append_nil]
    refine ⟨by rw [List.length_append, h1, h3, Nat.succ_mul], ?_⟩
    intro i j hi hj
    by_cases hia : i < a
    · have : i * b + j < a * b := by
        calc i * b + j < i * b + b := by omega
          _ = (i + 1) * b := by ring
          _ ≤ a * b := Nat.mul_le_mul_right _ hia
      rw [List.getElem?_append_left (by omega)]
      exact h2 i j hia hj
    · have : i = a := by omega
      subst this
      rw [List.getElem?_append_right (by omega), h1]
      congr 1
      omega

theorem packAIdx_block (row col lda mm k r : Nat) (hm : mm < row / 8) (hk : k < col) (hr : r < 8) :
    (packAIdx row col lda)[mm * 8 * col + (k * 8 + r)]? = some ((mm * 8 + r) * lda + k) := by
  have inner : ∀ nn, ((List.range col).flatMap fun i => (List.range 8).map fun r => (nn * 8 + r) * lda + i).length =
      col * 8 := fun nn => (flatMap_get 8 col _ (by simp)).1
  obtain ⟨h1, h2⟩ := flatMap_get (col * 8) (row / 8) _ fun nn _ => inner nn
  have hlt : k * 8 + r < col * 8 := by omega
  have hlt' : mm * (col * 8) + (k * 8 + r) < row / 8 * (col * 8) := by
    calc _ < mm * (col * 8) + col * 8 := by omega
      _ = (mm + 1) * (col * 8) := by ring
      _ ≤ _ := Nat.mul_le_mul_right _ hm
  unfold packAIdx
  rw [show mm * 8 * col + (k * 8 + r) = mm * (col * 8) + (k * 8 + r) by ring,
    List.getElem?_append_left (by rw [h1]; exact hlt'), h2 mm _ hm hlt,
    (flatMap_get 8 col _ (by simp)).2 k r hk hr]
  simp [hr]

theorem packAIdx_rest (row col lda u k : Nat) (hu : u < row % 8) (hk : k < col) :
    (packAIdx row col lda)[(row / 8 * 8 + u) * col + k]? = some ((row / 8 * 8 + u) * lda + k) := by
  have inner : ∀ nn, ((List.range col).flatMap fun i => (List.range 8).map fun r => (nn * 8 + r) * lda + i).length =
      col * 8 := fun nn => (flatMap_get 8 col _ (by simp)).1
  obtain ⟨h1, -⟩ := flatMap_get (col * 8) (row / 8) _ fun nn _ => inner nn
  unfold packAIdx
  rw [show (row / 8 * 8 + u) * col + k = row / 8 * (col * 8) + (u * col + k) by ring,
    List.getElem?_append_right (by rw [h1]; omega), h1, Nat.add_sub_cancel_left,
    (flatMap_get col (row % 8) _ (by simp)).2 u k hu hk]
  simp [hk]

theorem packBIdx_block (row col ldb nn k l : Nat) (hn : nn < col / 8) (hk : k < row) (hl : l < 8) :
    (packBIdx row col ldb)[nn * 8 * row + (k * 8 + l)]? = some (nn * 8 + l + k * ldb) := by
  have inner : ∀ nn, ((List.range row).flatMap fun i => (List.range 8).map fun l => nn * 8 + l + i * ldb).length =
      row * 8 := fun nn => (flatMap_get 8 row _ (by simp)).1
  obtain ⟨h1, h2⟩ := flatMap_get (row * 8) (col / 8) _ fun nn _ => inner nn
  have hlt : k * 8 + l < row * 8 := by omega
  have hlt' : nn * (row * 8) + (k * 8 + l) < col / 8 * (row * 8) := by
    calc _ < nn * (row * 8) + row * 8 := by omega
      _ = (nn + 1) * (row * 8) := by ring
      _ ≤ _ := Nat.mul_le_mul_right _ hn
  unfold packBIdx
  rw [show nn * 8 * row + (k * 8 + l) = nn * (row * 8) + (k * 8 + l) by ring,
    List.getElem?_append_left (by rw [h1]; exact hlt'), h2 nn _ hn hlt,
    (flatMap_get 8 row _ (by simp)).2 k l hk hl]
  simp [hl]

theorem packBIdx_rest (row col ldb u k : Nat) (hu : u < col % 8) (hk : k < row) :
    (packBIdx row col ldb)[(col / 8 * 8 + u) * row + k]? = some ((col / 8 * 8 + u) + k * ldb) := by
  have inner : ∀ nn, ((List.range row).flatMap fun i => (List.range 8).map fun l => nn * 8 + l + i * ldb).length =
      row * 8 := fun nn => (flatMap_get 8 row _ (by simp)).1
  obtain ⟨h1, -⟩ := flatMap_get (row * 8) (col / 8) _ fun nn _ => inner nn
  unfold packBIdx
  rw [show (col / 8 * 8 + u) * row + k = col / 8 * (row * 8) + (u * row + k) by ring,
    List.getElem?_append_right (by rw [h1]; omega), h1, Nat.add_sub_cancel_left,
    (flatMap_get row (col % 8) _ (by simp)).2 u k hu hk]
  simp [hk]

theorem rc_lt {m n k t : Nat} (hm : m < n) (hk : k < t) : m * t + k < n * t := by
  calc _ < m * t + t := by omega
    _ = (m + 1) * t := by ring
    _ ≤ _ := Nat.mul_le_mul_right _ hm

theorem packAIdx_lt (row col i : Nat) (h : i ∈ packAIdx row col col) : i < row * col := by
  unfold packAIdx at h
  simp only [List.mem_append, List.mem_flatMap, List.mem_range, List.mem_map] at h
  rcases h with ⟨nn, hn, k, hk, r, hr, rfl⟩ | ⟨t, ht, k, hk, rfl⟩
  · exact rc_lt (by omega) hk
  · exact rc_lt (by omega) hk

theorem packBIdx_lt (row col i : Nat) (h : i ∈ packBIdx row col col) : i < row * col := by
  unfold packBIdx at h
  simp only [List.mem_append, List.mem_flatMap, List.mem_range, List.mem_map] at h
  rcases h with ⟨nn, hn, k, hk, r, hr, rfl⟩ | ⟨t, ht, k, hk, rfl⟩
  · rw [Nat.add_comm]; exact rc_lt hk (by omega)
  · rw [Nat.add_comm]; exact rc_lt hk (by omega)

variable {α : Type} [CommSemiring α]

theorem readN_getD {d : List α} {i : Nat} (h : i < d.length) : readN d i = .ok (d.getD i 0) := by
  apply readN_ok
  simp [h]

theorem pack_ok (src : List α) (idx : List Nat) (h : ∀ i ∈ idx, i < src.length) :
    forEach (readN src) idx = .ok (idx.map fun i => src.getD i 0) :=
  forEach_ok fun i hi => readN_getD (h i hi)

/-- the stores of the kernel on packed operands -/
theorem kernelWrites_ok (M K N : Nat) (A B : List α) (pa pb : List α)
    (ha : pa = (packAIdx M K K).map fun i => A.getD i 0) (hb : pb = (packBIdx K N N).map fun i => B.getD i 0) :
    (∀ w ∈ kernelWrites M K N N pa pb, ∃ m n, m < M ∧ n < N ∧ w.1 = m * N + n ∧
      w.2 = .ok (∑ k ∈ Finset.range K, A.getD (m * K + k) 0 * B.getD (k * N + n) 0)) ∧
    ∀ m n, m < M → n < N → ∃ w ∈ kernelWrites M K N N pa pb, w.1 = m * N + n := by
  have hAblk : ∀ mm k r, mm < M / 8 → k < K → r < 8 →
      pa[mm * 8 * K + (k * 8 + r)]? = some (A.getD ((mm * 8 + r) * K + k) 0) := by
    intro mm k r h1 h2 h3
    rw [ha, List.getElem?_map, packAIdx_block _ _ _ _ _ _ h1 h2 h3]; rfl
  have hArst : ∀ u k, u < M % 8 → k < K →
      pa[(M / 8 * 8 + u) * K + k]? = some (A.getD ((M / 8 * 8 + u) * K + k) 0) := by
    intro u k h1 h2
    rw [ha, List.getElem?_map, packAIdx_rest _ _ _ _ _ h1 h2]; rfl
  have hBblk : ∀ nn k l, nn < N / 8 → k < K → l < 8 →
      pb[nn * 8 * K + (k * 8 + l)]? = some (B.getD (k * N + (nn * 8 + l)) 0) := by
    intro nn k l h1 h2 h3
    rw [hb, List.getElem?_map, packBIdx_block _ _ _ _ _ _ h1 h2 h3, Nat.add_comm (nn * 8 + l)]; rfl
  have hBrst : ∀ t k, t < N % 8 → k < K →
      pb[(N / 8 * 8 + t) * K + k]? = some (B.getD (k * N + (N / 8 * 8 + t)) 0) := by
    intro t k h1 h2
    rw [hb, List.getElem?_map, packBIdx_rest _ _ _ _ _ h1 h2, Nat.add_comm (N / 8 * 8 + t)]; rfl
  constructor
  · intro w hw
    unfold kernelWrites at hw
    simp only [List.mem_append, List.mem_flatMap, List.mem_range, List.mem_map] at hw
    rcases hw with ⟨mm, hm, ⟨nn, hn, r, hr, l, hl, rfl⟩ | ⟨t, ht, r, hr, rfl⟩⟩ |
      ⟨u, hu, ⟨nn, hn, l, hl, rfl⟩ | ⟨t, ht, rfl⟩⟩
    · exact ⟨_, _, by omega, by omega, rfl, fmaSeq_range _ _ _ _ _ _ K
        (fun k hk => hAblk mm k r hm hk hr) (fun k hk => hBblk nn k l hn hk hl)⟩
    · exact ⟨_, _, by omega, by omega, rfl, fma4_ok _ _ _ _ _ _ K
        (fun k hk => hAblk mm k r hm hk hr) (fun k hk => hBrst t k ht hk)⟩
    · exact ⟨_, _, by omega, by omega, rfl, fmaSeq_range _ _ _ _ _ _ K
        (fun k hk => hArst u k hu hk) (fun k hk => hBblk nn k l hn hk hl)⟩
    · exact ⟨_, _, by omega, by omega, rfl, fma4_ok _ _ _ _ _ _ K
        (fun k hk => hArst u k hu hk) (fun k hk => hBrst t k ht hk)⟩
  · intro m n hm hn
    unfold kernelWrites
    simp only [List.mem_append, List.mem_flatMap, List.mem_range, List.mem_map]
    by_cases h1 : m < M / 8 * 8 <;> by_cases h2 : n < N / 8 * 8
    · refine ⟨_, .inl ⟨m / 8, by omega, .inl ⟨n / 8, by omega, m % 8, by omega, n % 8, by omega, rfl⟩⟩, ?_⟩
      simp only [show m / 8 * 8 + m % 8 = m by omega, show n / 8 * 8 + n % 8 = n by omega]
    · refine ⟨_, .inl ⟨m / 8, by omega, .inr ⟨n - N / 8 * 8, by omega, m % 8, by omega, rfl⟩⟩, ?_⟩
      simp only [show m / 8 * 8 + m % 8 = m by omega, show N / 8 * 8 + (n - N / 8 * 8) = n by omega]
    · refine ⟨_, .inr ⟨m - M / 8 * 8, by omega, .inl ⟨n / 8, by omega, n % 8, by omega, rfl⟩⟩, ?_⟩
      simp only [show M / 8 * 8 + (m - M / 8 * 8) = m by omega, show n / 8 * 8 + n % 8 = n by omega]
    · refine ⟨_, .inr ⟨m - M / 8 * 8, by omega, .inr ⟨n - N / 8 * 8, by omega, rfl⟩⟩, ?_⟩
      simp only [show M / 8 * 8 + (m - M / 8 * 8) = m by omega, show N / 8 * 8 + (n - N / 8 * 8) = n by omega]

/-- `gemmPacked` on `float`: the product of `W` and `B`, whatever the destination held, if the first operand arrives at
the kernel as the packed `W`. -/
theorem gemmPacked_ok' (M N K : Nat) (A W B dst : List α) (packA : Bool)
    (hA : (bif packA then pack8A M K A K else .ok A) = .ok ((packAIdx M K K).map fun i => W.getD i 0))
    (hB : K * N ≤ B.length) (hd : dst.length = M * N) :
    ∃ out, gemmPacked true M N K A B packA true dst = .ok out ∧ out.length = M * N ∧
      ∀ m n, m < M → n < N →
        out[m * N + n]? = some (∑ k ∈ Finset.range K, W.getD (m * K + k) 0 * B.getD (k * N + n) 0) := by
  obtain ⟨hw, hc⟩ := kernelWrites_ok M K N W B _ _ rfl rfl
  let g : Nat → α := fun i => ∑ k ∈ Finset.range K, W.getD (i / N * K + k) 0 * B.getD (k * N + i % N) 0
  have hg : ∀ m n, n < N → g (m * N + n) = ∑ k ∈ Finset.range K, W.getD (m * K + k) 0 * B.getD (k * N + n) 0 := by
    intro m n hn
    have h1 : (m * N + n) / N = m := by
      rw [Nat.mul_comm, Nat.mul_add_div (by omega), Nat.div_eq_of_lt hn, Nat.add_zero]
    have h2 : (m * N + n) % N = n := by
      rw [Nat.mul_comm, Nat.mul_add_mod, Nat.mod_eq_of_lt hn]
    simp only [g, h1, h2]
  obtain ⟨out, e, el, e1, -⟩ := applyWrites_ok g _ dst (fun w hw' => by
    obtain ⟨m, n, hm, hn, h1, h2⟩ := hw w hw'
    refine ⟨by rw [h1, hd]; exact rc_lt hm hn, ?_⟩
    rw [h2, h1, hg m n hn])
  refine ⟨out, ?_, by rw [el, hd], ?_⟩
  · unfold gemmPacked
    rw [hA, Res.bind_ok]
    simp only [cond_true]
    unfold pack8B
    rw [pack_ok _ _ (fun i hi => by have := packBIdx_lt _ _ _ hi; omega), Res.bind_ok]
    unfold kernel8x8
    rw [if_pos rfl]
    exact e
  · intro m n hm hn
    obtain ⟨w, hw', h1⟩ := hc m n hm hn
    have := e1 w hw'
    rw [h1, hg m n hn] at this
    exact this

theorem pack8A_ok (M K : Nat) (A : List α) (hA : M * K ≤ A.length) :
    pack8A M K A K = .ok ((packAIdx M K K).map fun i => A.getD i 0) :=
  pack_ok _ _ (fun i hi => by have := packAIdx_lt _ _ _ hi; omega)

/-- `gemmPacked` on `float`: the product, whatever the destination held. -/
theorem gemmPacked_ok (M N K : Nat) (A B dst : List α) (hA : M * K ≤ A.length) (hB : K * N ≤ B.length)
    (hd : dst.length = M * N) :
    ∃ out, gemmPacked true M N K A B true true dst = .ok out ∧ out.length = M * N ∧
      ∀ m n, m < M → n < N →
        out[m * N + n]? = some (∑ k ∈ Finset.range K, A.getD (m * K + k) 0 * B.getD (k * N + n) 0) :=
  gemmPacked_ok' M N K A A B dst true (by simpa using pack8A_ok M K A hA) hB hd

end Verif.Kernels
