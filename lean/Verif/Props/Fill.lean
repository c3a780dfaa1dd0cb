import Verif.Memory.Fill
/-!
# C25: pattern fill
-/
namespace Verif.Props
open Verif.Core Verif.Memory

variable {α : Type}

/-- first `k` cells hold the periodic pattern, the rest is as in `mem0` -/
private def Filled (mem0 mem : List α) (pat : List α) (k : Nat) : Prop :=
  mem.length = mem0.length ∧ (∀ i, i < k → mem[i]? = pat[i % pat.length]?) ∧ ∀ i, k ≤ i → mem[i]? = mem0[i]?

private theorem copyWithin_filled {mem0 mem pat : List α} {a len m : Nat} (h : Filled mem0 mem pat a)
    (hm : a = pat.length * m) (hlen : len ≤ a) (hfit : a + len ≤ mem0.length) :
    ∃ out, copyWithin mem a len = .ok out ∧ Filled mem0 out pat (a + len) := by
  obtain ⟨hl, hlo, hhi⟩ := h
  refine ⟨_, by rw [copyWithin, if_pos ⟨by omega, hlen⟩], ?_, ?_, ?_⟩
  · simp; omega
  · intro i hi
    rw [List.append_assoc, List.getElem?_append]
    simp only [List.length_take]
    split
    · rw [List.getElem?_take_of_lt (by omega)]; exact hlo i (by omega)
    · rw [List.getElem?_append_left (by simp; omega), List.getElem?_take_of_lt (by omega), hlo _ (by omega)]
      have : i = (i - min a mem.length) + pat.length * m := by omega
      have h2 : i % pat.length = (i - min a mem.length) % pat.length := by
        rw [this, Nat.add_mul_mod_self_left]; congr 1; omega
      rw [h2]
  · intro i hi
    rw [List.append_assoc, List.getElem?_append_right (by simp; omega),
      List.getElem?_append_right (by simp; omega), List.getElem?_drop]
    rw [← hhi i (by omega)]
    congr 1
    simp; omega

private theorem fillLoop_ok {mem0 pat : List α} {n : Nat} (hn : n ≤ mem0.length) (h64 : n < 2 ^ 64) :
    ∀ (fuel : Nat) (mem : List α) (a m : Nat), Filled mem0 mem pat (min n a) → a = pat.length * m → 0 < a →
      n < a + fuel → 0 < fuel →
      ∃ out b m', fillLoop n fuel mem a = some (.ok (out, b)) ∧ Filled mem0 out pat (min n b) ∧ b = pat.length * m' ∧
        n / 2 < b := by
  intro fuel
  induction fuel with
  | zero => intro mem a m h hm ha hf hf0; omega
  | succ fuel ih =>
    intro mem a m h hm ha hf _
    rw [fillLoop]
    by_cases hle : a ≤ n / 2
    · rw [if_pos hle]
      rw [show min n a = a by omega] at h
      obtain ⟨out, e, ho⟩ := copyWithin_filled h hm (Nat.le_refl a) (by omega)
      rw [e, Nat.mod_eq_of_lt (by omega)]
      refine ih out (a * 2) (m * 2) ?_ (by rw [hm, Nat.mul_assoc]) (by omega) (by omega) (by omega)
      rw [show min n (a * 2) = a + a by omega]
      exact ho
    · rw [if_neg hle]
      exact ⟨mem, a, m, rfl, h, hm, by omega⟩

/-- **C25** Filling `n` bytes (of an allocation `mem` that holds at least `n`) with a non-empty pattern terminates, makes
byte `i` equal to pattern byte `i mod pattern size` for every `i < n`, and touches nothing else. -/
theorem C25_fill_partial (mem pat : List α) (n : Nat) (hp : pat ≠ []) (hn : n ≤ mem.length) (h64 : n < 2 ^ 64) :
    ∃ out, (∀ fuel, n + 1 ≤ fuel → fill fuel mem n pat = some (.ok out)) ∧ out.length = mem.length ∧
      (∀ i, i < n → out[i]? = pat[i % pat.length]?) ∧ ∀ i, n ≤ i → out[i]? = mem[i]? := by
  have hpos : 0 < pat.length := by cases pat with | nil => simp at hp | cons a t => simp
  have key : ∀ fuel, n + 1 ≤ fuel → ∃ out, fill fuel mem n pat = some (.ok out) ∧ Filled mem out pat n := by
    intro fuel hfuel
    have h0 : Filled mem (mem.take 0 ++ pat.take (min n pat.length) ++ mem.drop (0 + min n pat.length)) pat
        (min n pat.length) := by
      refine ⟨by simp; omega, ?_, ?_⟩
      · intro i hi
        rw [List.getElem?_append_left (by simp; omega)]
        simp only [List.take_zero, List.nil_append]
        rw [List.getElem?_take_of_lt hi, Nat.mod_eq_of_lt (by omega)]
      · intro i hi
        rw [List.getElem?_append_right (by simp; omega), List.getElem?_drop]
        congr 1
        simp; omega
    obtain ⟨out, b, m', e, ho, hb, hlt⟩ := fillLoop_ok hn h64 fuel _ pat.length 1 h0 (by simp) hpos (by omega) (by omega)
    unfold fill
    rw [copyFrom, if_pos ⟨by omega, by omega⟩]
    simp only []
    rw [e]
    simp only []
    by_cases hnb : n > b
    · rw [if_pos hnb]
      rw [show min n b = b by omega] at ho
      obtain ⟨out', e', ho'⟩ := copyWithin_filled (len := n - b) ho hb (by omega) (by omega)
      refine ⟨out', by rw [e'], ?_⟩
      rwa [show b + (n - b) = n by omega] at ho'
    · rw [if_neg hnb]
      rw [show min n b = n by omega] at ho
      exact ⟨out, rfl, ho⟩
  obtain ⟨out, e, ho⟩ := key (n + 1) (Nat.le_refl _)
  refine ⟨out, ?_, ho.1, ho.2.1, ho.2.2⟩
  intro fuel hf
  obtain ⟨out', e', ho'⟩ := key fuel hf
  have : out' = out := by
    apply List.ext_getElem?
    intro i
    by_cases hi : i < n
    · rw [ho'.2.1 i hi, ho.2.1 i hi]
    · rw [ho'.2.2 i (by omega), ho.2.2 i (by omega)]
  rw [e', this]

example : fill 9 [0, 0, 0, 0, 0, 0, 0, 0, 9] 8 [1, 2, 3] = some (.ok [1, 2, 3, 1, 2, 3, 1, 2, 9]) := rfl
/-- pattern longer than the buffer -/
example : fill 3 [0, 0, 9] 2 [1, 2, 3] = some (.ok [1, 2, 9]) := rfl
example : ([1, 2, 3] : List Nat) ≠ [] ∧ 8 ≤ [0, 0, 0, 0, 0, 0, 0, 0, 9].length := by decide

/-- **C25, negation of the unrestricted claim** With an empty pattern the fill never ends, whatever the buffer. -/
theorem C25_empty_pattern_false (mem : List α) (n fuel : Nat) : fill fuel mem n [] = none := by
  have key : ∀ fuel (mem : List α), fillLoop n fuel mem 0 = none := by
    intro fuel
    induction fuel with
    | zero => intro _; rfl
    | succ k ih => intro mem; simp [fillLoop, copyWithin, ih]
  unfold fill
  simp [copyFrom, key]

/-- **C25 (copies)** The sized copies either copy exactly the asked bytes and keep the rest, or throw; they never touch
memory outside the buffers. -/
theorem C25_copy (dst src : List α) (size : Nat) :
    (size ≤ dst.length → size ≤ src.length → copySized dst src size = .ok (src.take size ++ dst.drop size)) ∧
    (¬(size ≤ dst.length ∧ size ≤ src.length) → copySized dst src size = .err) ∧
    (src.length ≤ dst.length → copyWhole dst src = .ok (src ++ dst.drop src.length)) ∧
    (dst.length < src.length → copyWhole dst src = .err) := by
  refine ⟨?_, ?_, ?_, ?_⟩
  · intro h1 h2; simp [copySized, copyFrom, h1, h2]
  · intro h
    unfold copySized
    split
    · split
      · omega
      · rfl
    · rfl
  · intro h; simp [copyWhole, copyFrom, h]
  · intro h; simp [copyWhole]; omega

example : copySized [0, 0, 0] [1, 2, 3, 4] 2 = .ok [1, 2, 0] := rfl

/-- **C25 (copies)** The raw copy copies the smaller of the two sizes and reports it. -/
theorem C25_copyRaw (dst src : List α) : copyRaw dst dst.length src src.length =
    .ok (src.take dst.length ++ dst.drop src.length, min src.length dst.length) := by
  unfold copyRaw copyFrom
  simp only [Nat.zero_add]
  rw [if_pos ⟨by omega, by omega⟩]
  simp only [Res.bind_ok, List.take_zero, List.nil_append, Res.ok.injEq, Prod.mk.injEq, and_true]
  by_cases h : src.length ≤ dst.length
  · rw [Nat.min_eq_left h, List.take_of_length_le (Nat.le_refl _), List.take_of_length_le h]
  · rw [Nat.min_eq_right (by omega), List.drop_of_length_le (Nat.le_refl _), List.drop_of_length_le (by omega)]

example : copyRaw [0, 0, 0] 3 [1, 2, 3, 4] 4 = .ok ([1, 2, 3], 3) := rfl

end Verif.Props
