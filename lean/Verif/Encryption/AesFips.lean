import Verif.Encryption.AesLemmas
import Mathlib.Tactic.FinCases
import Mathlib.Data.Fintype.Basic
/-! # The cipher is that of FIPS-197 -/
namespace Verif.Encryption
open Verif.Fips197 (toMatrix)

theorem toMatrix_subBytes {s : List UInt8} (h : s.length = 16) :
    toMatrix (subBytes s) = Fips197.subBytes sbox (toMatrix s) := by
  obtain ⟨a, b, c, d, e, f, g, i, j, k, l, m, n, o, p, q, rfl⟩ := bytes16 h
  rw [subBytes_eq]
  funext r t
  fin_cases r <;> fin_cases t <;> rfl

theorem toMatrix_shiftRows {s : List UInt8} (h : s.length = 16) :
    toMatrix (shiftRows s) = Fips197.shiftRows (toMatrix s) := by
  obtain ⟨a, b, c, d, e, f, g, i, j, k, l, m, n, o, p, q, rfl⟩ := bytes16 h
  rw [shiftRows_eq]
  funext r t
  fin_cases r <;> fin_cases t <;> rfl

theorem mixed_spec (a b c d : UInt8) : mixed a b c d =
    [Fips197.mul a 2 ^^^ Fips197.mul b 3 ^^^ c ^^^ d, Fips197.mul b 2 ^^^ Fips197.mul c 3 ^^^ d ^^^ a,
      Fips197.mul c 2 ^^^ Fips197.mul d 3 ^^^ a ^^^ b, Fips197.mul d 2 ^^^ Fips197.mul a 3 ^^^ b ^^^ c] := by
  simp only [mixed, mul_two, mul_three, xtime_xor]
  generalize xtime a = a1
  generalize xtime b = b1
  generalize xtime c = c1
  generalize xtime d = d1
  simp only [UInt8.xor_assoc, UInt8.xor_comm, xlc, UInt8.xor_self, UInt8.xor_zero, UInt8.zero_xor, xor_cancel]

theorem toMatrix_mixColumns {s : List UInt8} (h : s.length = 16) :
    toMatrix (mixColumns s) = Fips197.mixColumns (toMatrix s) := by
  obtain ⟨a, b, c, d, e, f, g, i, j, k, l, m, n, o, p, q, rfl⟩ := bytes16 h
  rw [mixColumns_eq]
  simp only [mixed_spec, List.cons_append, List.nil_append]
  funext r t
  fin_cases r <;> fin_cases t <;> rfl

/-- the words of the round keys -/
def words (rk : List UInt8) (i : Nat) (j : Fin 4) : UInt8 := rk.getD (4 * i + j) 0

theorem toMatrix_addRoundKey (round : Nat) (rk : List UInt8) {s : List UInt8} (h : s.length = 16) :
    toMatrix (addRoundKey round rk s) = Fips197.addRoundKey (words rk) round (toMatrix s) := by
  rw [addRoundKey_zip round rk h]
  funext r c
  have hp : r.val + 4 * c.val < 16 := by omega
  simp only [toMatrix, Fips197.addRoundKey, words, keyBytes, List.getD_eq_getElem?_getD, List.getElem?_zipWith, List.getElem?_map,
    List.getElem?_range hp, Option.map_some]
  rw [List.getElem?_eq_getElem (by omega)]
  simp only [Option.getD_some]
  congr 3
  omega

attribute [local irreducible] addRoundKey mixColumns shiftRows subBytes

theorem toMatrix_rounds (rk : List UInt8) (n first : Nat) {s : List UInt8} (h : s.length = 16) :
    toMatrix ((List.range' first n).foldl (fun s round => addRoundKey round rk (mixColumns (shiftRows (subBytes s)))) s) =
      Fips197.rounds sbox (words rk) first n (toMatrix s) := by
  induction n generalizing first s with
  | zero => rfl
  | succ n ih =>
    have h1 := subBytes_length h
    have h2 := shiftRows_length h1
    have h3 := mixColumns_length h2
    rw [List.range'_succ, List.foldl_cons, ih (first + 1) (addRoundKey_length first rk h3)]
    simp only [Fips197.rounds]
    rw [toMatrix_addRoundKey first rk h3, toMatrix_mixColumns h2, toMatrix_shiftRows h1, toMatrix_subBytes h]

theorem toMatrix_cipher (rk : List UInt8) {s : List UInt8} (h : s.length = 16) :
    toMatrix (cipher rk s) = Fips197.cipher sbox (words rk) (toMatrix s) := by
  have h0 := addRoundKey_length 0 rk h
  have h1 := rounds_length rk (List.range' 1 13) h0
  unfold cipher Fips197.cipher
  simp only
  rw [toMatrix_addRoundKey _ _ (shiftRows_length (subBytes_length h1)), toMatrix_shiftRows (subBytes_length h1),
    toMatrix_subBytes h1, toMatrix_rounds rk 13 1 h0, toMatrix_addRoundKey 0 rk h]

/-! ## Key expansion -/

theorem expandStep_length (rk : List UInt8) (i : Nat) : (expandStep rk i).length = rk.length + 4 := by
  simp [expandStep]

theorem expandStep_prefix (rk : List UInt8) (i : Nat) : rk <+: expandStep rk i := ⟨_, rfl⟩

theorem expand_prefix (n first : Nat) (rk : List UInt8) : rk <+: (List.range' first n).foldl expandStep rk := by
  induction n generalizing first rk with
  | zero => exact List.prefix_rfl
  | succ n ih =>
    rw [List.range'_succ, List.foldl_cons]
    exact (expandStep_prefix rk first).trans (ih _ _)

theorem expand_length (n first : Nat) (rk : List UInt8) : ((List.range' first n).foldl expandStep rk).length = rk.length + 4 * n := by
  induction n generalizing first rk with
  | zero => rfl
  | succ n ih =>
    rw [List.range'_succ, List.foldl_cons, ih, expandStep_length]; omega

theorem getD_prefix {a b : List UInt8} (h : a <+: b) {k : Nat} (hk : k < a.length) : b.getD k 0 = a.getD k 0 := by
  obtain ⟨c, rfl⟩ := h
  simp only [List.getD_eq_getElem?_getD]
  rw [List.getElem?_append_left hk]

/-- every word comes from the ones before by one step -/
theorem word_step (key : List UInt8) (hk : key.length = 32) (i : Nat) (h8 : 8 ≤ i) (h60 : i < 60) :
    ∃ rk, rk.length = 4 * i ∧ rk <+: keyExpansion key ∧ expandStep rk i <+: keyExpansion key := by
  refine ⟨(List.range' 8 (i - 8)).foldl expandStep (key.take 32), ?_, ?_, ?_⟩
  · rw [expand_length]; simp [hk]; omega
  · have e : List.range' 8 52 = List.range' 8 (i - 8) ++ List.range' i (60 - i) := by
      rw [show 52 = (i - 8) + (60 - i) by omega, ← List.range'_append_1]; congr 2; omega
    unfold keyExpansion
    rw [e, List.foldl_append]
    exact expand_prefix _ _ _
  · have e : List.range' 8 52 = List.range' 8 (i - 8) ++ i :: List.range' (i + 1) (60 - i - 1) := by
      rw [show 52 = (i - 8) + (60 - i) by omega, ← List.range'_append_1]; congr 1
      rw [show 8 + (i - 8) = i by omega, ← List.range'_succ]; congr 1; omega
    unfold keyExpansion
    rw [e, List.foldl_append, List.foldl_cons]
    exact expand_prefix _ _ _

theorem rcon_pow (j : Nat) (h1 : 1 ≤ j) (h2 : j < 8) : rcon.getD j 0 = Fips197.mulXPow 1 (j - 1) := by
  have : ∀ j : Fin 8, 1 ≤ j.val → rcon.getD j.val 0 = Fips197.mulXPow 1 (j.val - 1) := by decide
  exact this ⟨j, h2⟩ h1

theorem schedule (key : List UInt8) (hk : key.length = 32) :
    Fips197.IsSchedule sbox key (words (keyExpansion key)) := by
  have hw : ∀ i, 8 ≤ i → i < 60 → ∃ rk, (∀ i' (j : Fin 4), i' < i → words (keyExpansion key) i' j = rk.getD (4 * i' + j) 0) ∧
      ∀ j : Fin 4, words (keyExpansion key) i j = (expandStep rk i).getD (rk.length + j) 0 := by
    intro i h8 h60
    obtain ⟨rk, hl, hp, hs⟩ := word_step key hk i h8 h60
    refine ⟨rk, fun i' j hi => getD_prefix hp (by omega), fun j => ?_⟩
    unfold words
    rw [getD_prefix hs (by rw [expandStep_length]; omega), hl]
  have tail : ∀ (rk : List UInt8) (x y z t : UInt8) (j : Fin 4), (rk ++ [x, y, z, t]).getD (rk.length + j) 0 =
      [x, y, z, t].getD j 0 := by
    intro rk x y z t j
    simp [List.getD_eq_getElem?_getD]
  constructor
  · intro i hi j
    unfold words keyExpansion
    rw [getD_prefix (expand_prefix 52 8 (key.take 32)) (by simp [hk]; omega)]
    rw [List.take_of_length_le (by omega)]
  · intro i h8 h60 hm j
    obtain ⟨rk, ho, hn⟩ := hw i h8 h60
    rw [hn j, ho _ _ (by omega : i - 8 < i), ho _ _ (by omega : i - 1 < i), expandStep]
    simp only [hm, if_true, if_neg (by omega : ¬ (0 : Nat) = 4)]
    rw [tail, rcon_pow (i / 8) (by omega) (by omega)]
    fin_cases j <;> simp [Nat.mul_comm]
  · intro i h8 h60 hm j
    obtain ⟨rk, ho, hn⟩ := hw i h8 h60
    rw [hn j, ho _ _ (by omega : i - 8 < i), ho _ _ (by omega : i - 1 < i), expandStep]
    simp only [hm, if_true, if_neg (by omega : ¬ (4 : Nat) = 0)]
    rw [tail]
    fin_cases j <;> simp [Nat.mul_comm]
  · intro i h8 h60 hm hm' j
    obtain ⟨rk, ho, hn⟩ := hw i h8 h60
    rw [hn j, ho _ _ (by omega : i - 8 < i), ho _ _ (by omega : i - 1 < i), expandStep]
    simp only [hm, hm', if_false]
    rw [tail]
    fin_cases j <;> simp [Nat.mul_comm]

end Verif.Encryption
