import Verif.Utils.Random
import Mathlib.Tactic.Linarith
import Mathlib.Tactic.NormNum
import Mathlib.Tactic.Positivity
/-!
# C98: random numbers

The generator is specified as the infinite sequence of words of Matsumoto and Nishimura; `sr` is the right shift that is used (the published
generator shifts zeros in: `BitVec.ushiftRight`; the code keeps the sign: `BitVec.sshiftRight`).
-/
namespace Verif.Props
open Verif.Core Verif.Utils.Random

namespace Rnd

/-- a right shift -/
abbrev Shift := BitVec 32 → Nat → BitVec 32

/-- the word made of the highest bit of `a` and the lower bits of `b`, times the matrix A -/
def twist (sr : Shift) (a b : BitVec 32) : BitVec 32 :=
  let g := (a &&& 0x80000000#32) ||| (b &&& 0x7fffffff#32)
  sr g 1 ^^^ (if g.getLsbD 0 then 0x9908b0df#32 else 0#32)

/-- the words of the generator with the given seed -/
structure Follows (sr : Shift) (seed : BitVec 32) (x : Nat → BitVec 32) : Prop where
  first : x 0 = seed
  init : ∀ k, k < 623 → x (k + 1) = 1812433253#32 * (x k ^^^ sr (x k) 30) + BitVec.ofNat 32 (k + 1)
  later : ∀ k, x (k + 624) = x (k + 397) ^^^ twist sr (x k) (x (k + 1))

/-- the output made of a word -/
def temper (sr : Shift) (y : BitVec 32) : BitVec 32 :=
  let y := y ^^^ sr y 11
  let y := y ^^^ ((y <<< 7) &&& 0x9d2c5680#32)
  let y := y ^^^ ((y <<< 15) &&& 0xefc60000#32)
  y ^^^ sr y 18

abbrev keepSign : Shift := BitVec.sshiftRight
abbrev zeros : Shift := BitVec.ushiftRight

/-- the words exist -/
def word (sr : Shift) (seed : BitVec 32) (n : Nat) : BitVec 32 :=
  if n = 0 then seed
  else if n < 624 then
    let p := word sr seed (n - 1)
    1812433253#32 * (p ^^^ sr p 30) + BitVec.ofNat 32 n
  else word sr seed (n - 227) ^^^ twist sr (word sr seed (n - 624)) (word sr seed (n - 623))
termination_by n
decreasing_by all_goals omega

theorem word_follows (sr : Shift) (seed : BitVec 32) : Follows sr seed (word sr seed) := by
  refine ⟨?_, fun k hk => ?_, fun k => ?_⟩
  · rw [word]; rfl
  · rw [word, if_neg (by omega), if_pos (by omega)]; rfl
  · rw [word, if_neg (by omega), if_neg (by omega)]
    rw [show k + 624 - 227 = k + 397 by omega, show k + 624 - 624 = k by omega, show k + 624 - 623 = k + 1 by omega]

/-- the array after `n` draws: position `j` holds the word of the last `624` whose number is `j` modulo 624 -/
structure Window (x : Nat → BitVec 32) (n : Nat) (g : Mt) : Prop where
  len : g.mt.length = 624
  pos : g.i = n % 624
  at_ : ∀ k, n ≤ k → k < n + 624 → g.mt[k % 624]? = some (x k)

theorem masks : ∀ i : Fin 32, ((0x80000000#32)[i] && (0x7fffffff#32)[i]) = false := by decide

theorem or_add (a b : BitVec 32) : (a &&& 0x80000000#32) + (b &&& 0x7fffffff#32) = (a &&& 0x80000000#32) ||| (b &&& 0x7fffffff#32) := by
  rw [BitVec.add_eq_or_of_and_eq_zero]
  ext i hi
  simp only [BitVec.getElem_and, BitVec.getElem_zero]
  have this := masks ⟨i, hi⟩
  simp only [Fin.getElem_fin] at this
  revert this
  generalize (0x80000000#32)[i] = p
  generalize (0x7fffffff#32)[i] = q
  cases a[i] <;> cases b[i] <;> cases p <;> cases q <;> simp

theorem low_bit (g : BitVec 32) : (g &&& 1#32 = 0#32) ↔ g.getLsbD 0 = false := by
  constructor
  · intro h
    have := congrArg (fun v => v.getLsbD 0) h
    simpa using this
  · intro h
    ext i hi
    rcases i with _ | i
    · simp only [BitVec.getElem_and, BitVec.getElem_zero]
      rw [BitVec.getLsbD_eq_getElem (by omega)] at h
      rw [h]; rfl
    · simp [BitVec.getElem_one]

theorem rand_window {sr : BitVec 32} {x : Nat → BitVec 32} (hx : Follows keepSign sr x) {n : Nat} {g : Mt} (hw : Window x n g) :
    ∃ g', rand false g = .ok (temper keepSign (x (n + 624)), g') ∧ Window x (n + 1) g' := by
  have e0 : g.mt[g.i]? = some (x n) := by rw [hw.pos]; exact hw.at_ n (Nat.le_refl _) (by omega)
  have e1 : g.mt[(g.i + 1) % 624]? = some (x (n + 1)) := by
    rw [hw.pos, Nat.mod_add_mod]; exact hw.at_ (n + 1) (by omega) (by omega)
  have e2 : g.mt[(g.i + 397) % 624]? = some (x (n + 397)) := by
    rw [hw.pos, Nat.mod_add_mod]; exact hw.at_ (n + 397) (by omega) (by omega)
  have hv : ∀ a b c : BitVec 32, (if ((a &&& 0x80000000#32) + (b &&& 0x7fffffff#32)) &&& 1#32 = 0#32 then c ^^^ ((a &&& 0x80000000#32) + (b &&& 0x7fffffff#32)).sshiftRight 1
      else c ^^^ ((a &&& 0x80000000#32) + (b &&& 0x7fffffff#32)).sshiftRight 1 ^^^ 0x9908b0df#32) = c ^^^ twist keepSign a b := by
    intro a b c
    rw [or_add]
    simp only [twist, low_bit, keepSign]
    split
    · next h => simp only [h, Bool.false_eq_true, if_false, BitVec.xor_zero]
    · next h =>
      have h' : ((a &&& 2147483648#32) ||| (b &&& 2147483647#32)).getLsbD 0 = true := by simpa using h
      simp only [h', if_true]
      rw [BitVec.xor_assoc]
  refine ⟨⟨g.mt.set g.i (x (n + 624)), (g.i + 1) % 624⟩, ?_, ?_⟩
  · simp only [rand, wordAt, e0, e1, e2, Res.bind_ok, shl, Bool.false_eq_true, false_and, if_false, hv]
    rw [← hx.later n]
    rfl
  · refine ⟨by simp [hw.len], by rw [hw.pos, Nat.mod_add_mod], fun k h1 h2 => ?_⟩
    show (g.mt.set g.i _)[k % 624]? = _
    by_cases hk : k = n + 624
    · subst hk
      rw [hw.pos, Nat.add_mod_right, List.getElem?_set_self (by rw [hw.len]; exact Nat.mod_lt _ (by omega))]
    · rw [List.getElem?_set_ne (by rw [hw.pos]; omega)]
      exact hw.at_ k (by omega) (by omega)

theorem seed_words {seed : BitVec 32} {x : Nat → BitVec 32} (hx : Follows keepSign seed x) :
    ∀ left i, i + left = 623 → ∃ ws, seedWords false left (i + 1) (x i) = .ok ws ∧ ws.length = left ∧ ∀ k, k < left → ws[k]? = some (x (i + 1 + k)) := by
  intro left
  induction left with
  | zero => exact fun i _ => ⟨[], rfl, rfl, fun k hk => absurd hk (by omega)⟩
  | succ left ih =>
    intro i hi
    obtain ⟨ws, h1, h2, h3⟩ := ih (i + 1) (by omega)
    refine ⟨x (i + 1) :: ws, ?_, by simp [h2], fun k hk => ?_⟩
    · simp only [seedWords, mul, add, Bool.false_eq_true, false_and, if_false, Res.bind_ok]
      rw [show (0x6c078965#32) = 1812433253#32 from rfl, ← hx.init i (by omega), h1]
      rfl
    · cases k with
      | zero => rfl
      | succ k =>
        rw [List.getElem?_cons_succ, h3 k (by omega)]
        congr 2; omega

theorem srand_window {seed : BitVec 32} {x : Nat → BitVec 32} (hx : Follows keepSign seed x) (g : Mt) :
    ∃ g', srand false g seed = .ok g' ∧ Window x 0 g' := by
  obtain ⟨ws, h1, h2, h3⟩ := seed_words hx 623 0 (by omega)
  rw [hx.first] at h1
  refine ⟨⟨seed :: ws, 0⟩, ?_, ?_, ?_, fun k _ hk => ?_⟩
  rotate_left
  · rw [List.length_cons, h2]
  · exact (Nat.zero_mod _).symm
  rotate_left
  · simp only [srand, h1, Res.bind_ok]
  · rw [Nat.mod_eq_of_lt (by omega)]
    cases k with
    | zero => simp [hx.first]
    | succ k =>
      have e : 0 + 1 + k = k + 1 := by omega
      rw [List.getElem?_cons_succ, h3 k (by omega), e]

theorem draws_window {seed : BitVec 32} {x : Nat → BitVec 32} (hx : Follows keepSign seed x) :
    ∀ m n g, Window x n g → ∃ g', draws false m g = .ok ((List.range' n m).map (fun k => temper keepSign (x (k + 624))), g') := by
  intro m
  induction m with
  | zero => exact fun n g _ => ⟨g, rfl⟩
  | succ m ih =>
    intro n g hw
    obtain ⟨g1, h1, h2⟩ := rand_window hx hw
    obtain ⟨g2, h3⟩ := ih (n + 1) g1 h2
    refine ⟨g2, ?_⟩
    simp only [draws, h1, Res.bind_ok, h3, List.range'_succ, List.map_cons]

theorem temper_nonneg (y : BitVec 32) : 0 ≤ (temper keepSign y).toInt := by
  have h : ∀ z : BitVec 32, (z ^^^ z.sshiftRight 18).msb = false := by
    intro z; simp [BitVec.msb_xor, BitVec.msb_sshiftRight]
  exact BitVec.toInt_nonneg_of_msb_false (h _)

/-- a rounding of real numbers to `double`, as far as it is needed -/
structure Rounds (fl : ℚ → ℚ) : Prop where
  mono : ∀ a b, a ≤ b → fl a ≤ fl b
  int : ∀ n : Int, n.natAbs ≤ 2 ^ 53 → fl n = n
  close : ∀ a, 0 ≤ a → fl a ≤ a * (1 + 1 / 2 ^ 53)

theorem rounds_id : Rounds id := by
  refine ⟨fun _ _ h => h, fun _ _ => rfl, fun a ha => ?_⟩
  have : 0 ≤ a * (1 / 2 ^ 53) := by positivity
  show a ≤ _
  linarith

theorem le_max (y : BitVec 32) : y.toInt ≤ 2147483647 := by
  have := BitVec.toInt_lt (x := y)
  simp at this; omega

theorem u_range {fl : ℚ → ℚ} (hf : Rounds fl) {y : BitVec 32} (hy : 0 ≤ y.toInt) : 0 ≤ u fl y ∧ u fl y ≤ 1 := by
  have h0 : fl 0 = 0 := by simpa using hf.int 0 (by norm_num)
  have h1 : fl 1 = 1 := by simpa using hf.int 1 (by norm_num)
  have hy' : (0 : ℚ) ≤ (y.toInt : ℚ) := by exact_mod_cast hy
  have hm : (y.toInt : ℚ) ≤ 2147483647 := by exact_mod_cast le_max y
  constructor
  · rw [u, ← h0]; apply hf.mono; positivity
  · rw [u, ← h1]; apply hf.mono; rw [div_le_one (by norm_num)]; exact hm

end Rnd

open Rnd

/-- **C98** (wrapping arithmetic) After seeding, whatever happened before, `m` draws are the tempered words 624, 625, … of the twisted sequence of that seed with
sign-keeping shifts: the array is never read outside, and the sequence depends on nothing but the seed. -/
theorem C98_sequence_partial (g : Mt) (seed : BitVec 32) (x : Nat → BitVec 32) (hx : Follows keepSign seed x) (m : Nat) :
    ∃ g', (srand false g seed >>= draws false m) = .ok ((List.range m).map (fun k => temper keepSign (x (k + 624))), g') := by
  obtain ⟨g1, h1, h2⟩ := srand_window hx g
  obtain ⟨g2, h3⟩ := draws_window hx m 0 g1 h2
  refine ⟨g2, ?_⟩
  rw [h1, Res.bind_ok, h3, List.range_eq_range']

example (seed : BitVec 32) : ∃ x, Follows keepSign seed x := ⟨_, word_follows keepSign seed⟩

/-- **C98** Every draw of every program that seeds before it draws is in [0, 2^31 - 1]. -/
theorem C98_range_partial (calls : List Call) (seed : BitVec 32) (g : Mt) :
    ∃ ys g', run false (.seed seed :: calls) g = .ok (ys, g') ∧ ∀ y ∈ ys, 0 ≤ y.toInt ∧ y.toInt ≤ 2147483647 := by
  have main : ∀ (calls : List Call) (s : BitVec 32) (x : Nat → BitVec 32) (n : Nat) (g : Mt), Follows keepSign s x → Window x n g →
      ∃ ys g', run false calls g = .ok (ys, g') ∧ ∀ y ∈ ys, 0 ≤ y.toInt ∧ y.toInt ≤ 2147483647 := by
    intro calls
    induction calls with
    | nil => exact fun s x n g _ _ => ⟨[], g, rfl, by simp⟩
    | cons c calls ih =>
      intro s x n g hx hw
      cases c with
      | seed t =>
        obtain ⟨g1, h1, h2⟩ := srand_window (word_follows keepSign t) g
        obtain ⟨ys, g', h3, h4⟩ := ih t _ 0 g1 (word_follows keepSign t) h2
        exact ⟨ys, g', by simp only [run, h1, Res.bind_ok, h3], h4⟩
      | next =>
        obtain ⟨g1, h1, h2⟩ := rand_window hx hw
        obtain ⟨ys, g', h3, h4⟩ := ih s x (n + 1) g1 hx h2
        refine ⟨temper keepSign (x (n + 624)) :: ys, g', by simp only [run, h1, Res.bind_ok, h3], fun y hy => ?_⟩
        rcases List.mem_cons.mp hy with rfl | hy
        · exact ⟨temper_nonneg _, le_max _⟩
        · exact h4 y hy
  obtain ⟨g1, h1, h2⟩ := srand_window (word_follows keepSign seed) g
  obtain ⟨ys, g', h3, h4⟩ := main calls seed _ 0 g1 (word_follows keepSign seed) h2
  exact ⟨ys, g', by simp only [run, h1, Res.bind_ok, h3], h4⟩

/-- **C98** The numbers between 0 and 1, and the integers between two bounds, are between them, for every draw in the range of `C98_range_partial`. -/
theorem C98_bounds (fl : ℚ → ℚ) (hf : Rounds fl) (y : BitVec 32) (hy : 0 ≤ y.toInt) :
    (0 ≤ u fl y ∧ u fl y ≤ 1) ∧
    ∀ lo hi : Int, I32 lo → I32 hi → lo ≤ hi → hi - lo ≤ 2147483647 → ∃ r, next fl lo hi y = .ok r ∧ lo ≤ r ∧ r ≤ hi := by
  obtain ⟨h0, h1⟩ := u_range hf hy
  refine ⟨⟨h0, h1⟩, fun lo hi hlo hhi hle hd => ?_⟩
  have f0 : fl 0 = 0 := by simpa using hf.int 0 (by norm_num)
  have hd0 : (0 : ℚ) ≤ ((hi - lo : Int) : ℚ) := by exact_mod_cast (by omega : (0 : Int) ≤ hi - lo)
  have a0 : 0 ≤ fl (((hi - lo : Int) : ℚ) * u fl y) := by rw [← f0]; exact hf.mono _ _ (mul_nonneg hd0 h0)
  have a1 : fl (((hi - lo : Int) : ℚ) * u fl y) ≤ ((hi - lo : Int) : ℚ) := by
    have := hf.mono (((hi - lo : Int) : ℚ) * u fl y) ((hi - lo : Int) : ℚ) (by nlinarith)
    rwa [hf.int (hi - lo) (by omega)] at this
  have b0 : (0 : Int) ≤ ⌊fl (((hi - lo : Int) : ℚ) * u fl y)⌋ := Int.floor_nonneg.mpr a0
  have b1 : ⌊fl (((hi - lo : Int) : ℚ) * u fl y)⌋ ≤ hi - lo := by
    have := Int.floor_le_floor a1
    rwa [Int.floor_intCast] at this
  refine ⟨lo + ⌊fl (((hi - lo : Int) : ℚ) * u fl y)⌋, ?_, by omega, by omega⟩
  unfold I32 at hlo hhi
  rw [next, int32_ok (by unfold I32; omega), Res.bind_ok, toInt, if_neg (not_lt.mpr a0), int32_ok (by unfold I32; omega), Res.bind_ok,
    int32_ok (by unfold I32; omega)]

example : Rounds id ∧ (0 : Int) ≤ (5#32 : BitVec 32).toInt := ⟨rounds_id, by decide⟩

/-- **C98, disproved**: by the C++11 standard every seeding is undefined: the product of two `int`s overflows, whatever the seed is. -/
theorem C98_seed_undefined_false (g : Mt) (seed : BitVec 32) : srand true g seed = .ub := by
  have main : seedWords true 623 1 seed = .ub := by
    rw [show (623 : Nat) = 622 + 1 from rfl, seedWords]
    generalize hp : (seed ^^^ seed.sshiftRight 30) = p
    by_cases h : p.toInt = -1 ∨ p.toInt = 0 ∨ p.toInt = 1
    · have e : p = -1#32 ∨ p = 0#32 ∨ p = 1#32 := by
        rcases h with h | h | h
        · exact Or.inl (BitVec.eq_of_toInt_eq (by rw [h]; decide))
        · exact Or.inr (Or.inl (BitVec.eq_of_toInt_eq (by rw [h]; decide)))
        · exact Or.inr (Or.inr (BitVec.eq_of_toInt_eq (by rw [h]; decide)))
      rcases e with e | e | e <;> subst e <;> decide +kernel
    · have hm : mul true 0x6c078965#32 p = .ub := by
        have e : (0x6c078965#32 : BitVec 32).toInt = 1812433253 := by decide
        have ho : ¬ I32 ((0x6c078965#32 : BitVec 32).toInt * p.toInt) := by
          rw [e]; unfold I32; omega
        rw [mul, if_pos ⟨rfl, ho⟩]
      rw [hm]; rfl
  rw [srand, main]; rfl

/-- the first words of the published generator -/
def Rnd.firstWords (seed : BitVec 32) : Nat → BitVec 32
  | 0 => seed
  | k + 1 => let p := Rnd.firstWords seed k; 1812433253#32 * (p ^^^ p.ushiftRight 30) + BitVec.ofNat 32 (k + 1)

theorem Rnd.first_eq {seed : BitVec 32} {x : Nat → BitVec 32} (hx : Follows zeros seed x) : ∀ k, k < 624 → x k = firstWords seed k := by
  intro k
  induction k with
  | zero => exact fun _ => hx.first
  | succ k ih => intro hk; rw [hx.init k (by omega), ih (by omega)]; rfl

/-- **C98, disproved**: the generator is not the published MT19937. For its usual seed 5489 the first number of that generator is 3499211612, and here 31526908. -/
theorem C98_standard_false : (∀ x, Follows zeros 5489#32 x → temper zeros (x 624) = 3499211612#32) ∧
    ∀ g, ∃ g', (srand false g 5489#32 >>= rand false) = .ok (31526908#32, g') := by
  constructor
  · intro x hx
    rw [show 624 = 0 + 624 from rfl, hx.later 0, Rnd.first_eq hx (0 + 397) (by omega), Rnd.first_eq hx 0 (by omega), Rnd.first_eq hx (0 + 1) (by omega)]
    decide +kernel
  · intro g
    have h := word_follows keepSign 5489#32
    obtain ⟨g1, h1, h2⟩ := srand_window h g
    obtain ⟨g2, h3, _⟩ := rand_window h h2
    refine ⟨g2, ?_⟩
    rw [h1, Res.bind_ok, h3]
    have hk : ∀ k, k < 624 → word keepSign 5489#32 k = Nat.rec (5489#32) (fun k p => 1812433253#32 * (p ^^^ p.sshiftRight 30) + BitVec.ofNat 32 (k + 1)) k := by
      intro k
      induction k with
      | zero => exact fun _ => h.first
      | succ k ih => intro hk; rw [h.init k (by omega), ih (by omega)]
    have e : temper keepSign (word keepSign 5489#32 (0 + 624)) = 31526908#32 := by
      rw [h.later 0, hk (0 + 397) (by omega), hk 0 (by omega), hk (0 + 1) (by omega)]
      decide +kernel
    rw [e]

/-- **C98, disproved**: the upper bound of `next(min, max)` is not drawn like the others: of the 2^31 draws only one gives it. In particular
`next(0, 1)` is 0 for all others. -/
theorem C98_uniform_false (fl : ℚ → ℚ) (hf : Rounds fl) (lo hi : Int) (y : BitVec 32) (hy : 0 ≤ y.toInt) (hlt : lo < hi) (h : next fl lo hi y = .ok hi) :
    y.toInt = 2147483647 := by
  have hmax := le_max y
  by_contra hne
  have hy1 : y.toInt ≤ 2147483646 := by omega
  obtain ⟨h0, _⟩ := u_range hf hy
  have hq : (y.toInt : ℚ) ≤ 2147483646 := by exact_mod_cast hy1
  have hq0 : (0 : ℚ) ≤ (y.toInt : ℚ) := by exact_mod_cast hy
  have hu : u fl y ≤ 2147483646 / 2147483647 * (1 + 1 / 2 ^ 53) := by
    refine (hf.close _ (by positivity)).trans ?_
    refine mul_le_mul_of_nonneg_right ?_ (by norm_num)
    gcongr
  obtain ⟨d, hd, h⟩ := Res.bind_eq_ok.mp h
  obtain ⟨t, ht, h⟩ := Res.bind_eq_ok.mp h
  obtain ⟨_, rfl⟩ := int32_eq_ok.mp hd
  obtain ⟨_, rfl⟩ := int32_eq_ok.mp ht
  obtain ⟨_, e⟩ := int32_eq_ok.mp h
  have hd0 : (0 : ℚ) < ((hi - lo : Int) : ℚ) := by exact_mod_cast (by omega : (0 : Int) < hi - lo)
  have f0 : fl 0 = 0 := by simpa using hf.int 0 (by norm_num)
  have a0 : 0 ≤ fl (((hi - lo : Int) : ℚ) * u fl y) := by rw [← f0]; exact hf.mono _ _ (mul_nonneg hd0.le h0)
  rw [if_neg (not_lt.mpr a0)] at e
  have e' : ⌊fl (((hi - lo : Int) : ℚ) * u fl y)⌋ = hi - lo := by omega
  have a1 : ((hi - lo : Int) : ℚ) ≤ fl (((hi - lo : Int) : ℚ) * u fl y) := by
    have := Int.floor_le (fl (((hi - lo : Int) : ℚ) * u fl y))
    rwa [e'] at this
  have a2 := hf.close _ (mul_nonneg hd0.le h0)
  have a3 : ((hi - lo : Int) : ℚ) * u fl y * (1 + 1 / 2 ^ 53) < ((hi - lo : Int) : ℚ) := by
    rw [mul_assoc]
    refine mul_lt_of_lt_one_right hd0 ?_
    calc u fl y * (1 + 1 / 2 ^ 53) ≤ 2147483646 / 2147483647 * (1 + 1 / 2 ^ 53) * (1 + 1 / 2 ^ 53) := mul_le_mul_of_nonneg_right hu (by norm_num)
      _ < 1 := by norm_num
  linarith

/-- the largest draw gives the upper bound -/
example : next id 0 1 2147483647#32 = .ok 1 ∧ next id 0 1 2147483646#32 = .ok 0 := by decide +kernel

/-- **C98, disproved**: bounds further apart than 2^31 - 1 are undefined. -/
theorem C98_wide_false (fl : ℚ → ℚ) (lo hi : Int) (y : BitVec 32) (h : 2147483647 < hi - lo) : next fl lo hi y = .ub := by
  have : int32 (hi - lo) = .ub := by unfold int32; rw [if_neg]; unfold I32; omega
  rw [next, this]; rfl

example : (2147483647 : Int) < 2000000000 - (-2000000000) := by decide

/-- **C98, `binomial`.** On a draw of the generator: never for a probability of zero or less, always above one, the more likely the greater the
probability and the smaller the draw; without rounding it happens exactly for draws below `p` times the largest draw. -/
theorem C98_binomial {fl : ℚ → ℚ} (hf : Rounds fl) {y : BitVec 32} (hy : 0 ≤ y.toInt) (p : ℚ) :
    (p ≤ 0 → binomial fl p y = false) ∧ (1 < p → binomial fl p y = true) ∧
    (∀ q, p ≤ q → binomial fl p y = true → binomial fl q y = true) ∧
    (∀ z : BitVec 32, z.toInt ≤ y.toInt → binomial fl p y = true → binomial fl p z = true) ∧
    (binomial id p y = true ↔ (y.toInt : ℚ) < p * 2147483647) := by
  obtain ⟨h0, h1⟩ := u_range hf hy
  unfold binomial
  refine ⟨fun h => decide_eq_false (by linarith), fun h => decide_eq_true (by linarith), fun q hq h => ?_, fun z hz h => ?_, ?_⟩
  · have := of_decide_eq_true h
    exact decide_eq_true (by linarith)
  · have h := of_decide_eq_true h
    refine decide_eq_true (lt_of_le_of_lt ?_ h)
    unfold u
    apply hf.mono
    have : (z.toInt : ℚ) ≤ (y.toInt : ℚ) := by exact_mod_cast hz
    exact div_le_div_of_nonneg_right this (by norm_num)
  · rw [decide_eq_true_iff]
    show (y.toInt : ℚ) / 2147483647 < p ↔ _
    rw [div_lt_iff₀ (by norm_num)]

example : binomial id (1 / 2) 1000000000#32 = true ∧ binomial id (1 / 2) 2000000000#32 = false := by
  constructor <;> norm_num [binomial, u, BitVec.toInt]

end Verif.Props
