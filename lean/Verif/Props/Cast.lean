import Verif.Kernels.Cast
import Verif.Props.Generate
/-!
# C63: conversions between element types

Specification: `Converts`.
-/
namespace Verif.Props
open Verif.Core Verif.Kernels

/-- what a conversion of the value `v` to another type yields, and when it is defined: integers stay the same modulo the range of the new type, numbers
with a fraction are rounded towards zero and have to be in range, floating point types round in their own way -/
def Converts (rnd : Nat → Rat → Rat) (src dst : NumTy) (dtype : Nat) (v w : Rat) : Prop :=
  match src, dst with
  | _, .real => w = rnd dtype v
  | .int _, .int t => ∃ n : Int, w = n ∧ t.has n ∧ (2 ^ t.bits : Int) ∣ v.num - n
  | .real, .int t => ∃ n : Int, w = n ∧ t.has n ∧ (0 ≤ v → n ≤ v ∧ v < n + 1) ∧ (v ≤ 0 → n - 1 < v ∧ v ≤ n)

/-- does the conversion of `v` have a defined result? -/
def Castable (src dst : NumTy) (v : Rat) : Prop :=
  match src, dst with
  | .real, .int t => (t.lo : Rat) - 1 < v ∧ v < t.hi
  | _, _ => True

theorem numTy_int {k : Nat} {t : IntTy} (h : numTy k = some (.int t)) : t ∈ rangeTypes := by
  unfold numTy at h
  split at h <;> simp only [Option.some.injEq, NumTy.int.injEq, reduceCtorEq] at h <;> subst h <;> decide

theorem conv_spec {t : IntTy} (ht : t ∈ rangeTypes) (x : Int) : t.has (t.conv x) ∧ (2 ^ t.bits : Int) ∣ x - t.conv x := by
  have e : t.hi = t.lo + 2 ^ t.bits := by
    simp only [rangeTypes, List.mem_cons, List.not_mem_nil, or_false] at ht
    rcases ht with rfl | rfl | rfl | rfl | rfl | rfl | rfl | rfl <;> decide
  have p : (0 : Int) < 2 ^ t.bits := by positivity
  unfold IntTy.conv IntTy.has
  have h1 := Int.emod_nonneg (x - t.lo) (ne_of_gt p)
  have h2 := Int.emod_lt_of_pos (x - t.lo) p
  refine ⟨⟨by omega, by omega⟩, ?_⟩
  rw [show x - ((x - t.lo) % 2 ^ t.bits + t.lo) = (x - t.lo) - (x - t.lo) % 2 ^ t.bits by ring]
  exact Int.dvd_self_sub_emod

theorem truncQ_spec (v : Rat) : (0 ≤ v → (truncQ v : Rat) ≤ v ∧ v < truncQ v + 1) ∧ (v ≤ 0 → (truncQ v : Rat) - 1 < v ∧ v ≤ truncQ v) := by
  unfold truncQ
  constructor
  · intro h
    rw [if_pos h]
    exact ⟨Int.floor_le v, Int.lt_floor_add_one v⟩
  · intro h
    by_cases h0 : 0 ≤ v
    · have : v = 0 := le_antisymm h h0
      subst this
      norm_num
    · rw [if_neg h0]
      exact ⟨by linarith [Int.ceil_lt_add_one v], Int.le_ceil v⟩

theorem truncQ_has {t : IntTy} (ht : t ∈ rangeTypes) {v : Rat} (h : (t.lo : Rat) - 1 < v ∧ v < t.hi) : t.has (truncQ v) := by
  have l0 : t.lo ≤ 0 ∧ 0 < t.hi := by
    have := has_zero ht
    exact this
  unfold truncQ IntTy.has
  split
  · rename_i h0
    exact ⟨le_trans l0.1 (Int.floor_nonneg.2 h0), Int.floor_lt.2 h.2⟩
  · rename_i h0
    refine ⟨?_, ?_⟩
    · have : t.lo - 1 < ⌈v⌉ := by
        rw [Int.lt_ceil]
        push_cast
        exact h.1
      omega
    · have : ⌈v⌉ ≤ 0 := Int.ceil_le.2 (by push_cast; linarith)
      omega

theorem castCell_ok (rnd : Nat → Rat → Rat) {s d : NumTy} {dtype sd : Nat} (hd : numTy dtype = some d) (hs : numTy sd = some s) {v : Rat} (h : Castable s d v) :
    ∃ w, castCell rnd s d dtype v = .ok w ∧ Converts rnd s d dtype v w := by
  cases d with
  | real => cases s <;> exact ⟨_, rfl, rfl⟩
  | int t =>
    have ht := numTy_int hd
    cases s with
    | int u => exact ⟨_, rfl, _, rfl, conv_spec ht _⟩
    | real =>
      have := truncQ_has ht h
      exact ⟨_, by unfold castCell; exact if_pos this, _, rfl, this, truncQ_spec v⟩

/-- the loops convert every element -/
theorem castLoop_ok (rnd : Nat → Rat → Rat) {s d : NumTy} {dtype : Nat} {x : List Rat} {n : Nat} {out : List Rat} (g : Nat → Rat) (hx : x.length = n)
    (ho : out.length = n) (h : ∀ i v, x[i]? = some v → castCell rnd s d dtype v = .ok (g i)) :
    castLoop rnd s d dtype x n out = .ok ((List.range n).map g) := by
  have step : ∀ i (o : List Rat), i < n → o.length = n → castStep rnd s d dtype x o i = .ok (o.set i (g i)) := by
    intro i o hi ho
    unfold castStep
    rw [rd_ok (List.getElem?_eq_getElem (by omega)), Res.bind_ok, h i _ (List.getElem?_eq_getElem (by omega)), Res.bind_ok, wr_ok _ (by omega)]
  have e1 : Eff n g (fun o => loop (fun out k => loop (fun out j => castStep rnd s d dtype x out (4 * k + j)) 4 out) (n / 4) o)
      (fun p => ∃ k, k < n / 4 ∧ ∃ j, j < 4 ∧ p = 4 * k + j) :=
    Eff.loop fun k hk => Eff.loop fun j hj => by
      intro o ho
      have hp : 4 * k + j < n := by omega
      refine ⟨_, step _ o hp ho, by simpa using ho, ?_, ?_⟩
      · rintro p rfl
        rw [List.getElem?_set_self (by omega)]
      · intro p hp
        rw [List.getElem?_set_ne (fun h => hp h.symm)]
  have e2 : Eff n g (fun o => loop (fun out k => castStep rnd s d dtype x out (n / 4 * 4 + k)) (n - n / 4 * 4) o)
      (fun p => ∃ k, k < n - n / 4 * 4 ∧ p = n / 4 * 4 + k) :=
    Eff.loop fun k hk => by
      intro o ho
      have hp : n / 4 * 4 + k < n := by omega
      refine ⟨_, step _ o hp ho, by simpa using ho, ?_, ?_⟩
      · rintro p rfl
        rw [List.getElem?_set_self (by omega)]
      · intro p hp
        rw [List.getElem?_set_ne (fun h => hp h.symm)]
  obtain ⟨o, e, l, v, -⟩ := Eff.seq e1 e2 out ho
  unfold castLoop
  refine e.trans ?_
  congr 1
  apply List.ext_getElem?
  intro i
  by_cases hi : i < n
  · rw [List.getElem?_map, List.getElem?_range hi, v i]
    · rfl
    · by_cases c : i < n / 4 * 4
      · exact .inl ⟨i / 4, by omega, i % 4, by omega, by omega⟩
      · exact .inr ⟨i - n / 4 * 4, by omega, by omega⟩
  · rw [List.getElem?_eq_none (by omega), List.getElem?_eq_none (by simpa using hi)]

/-- **C63.** Missing: rounding of the floating point types, infinities and not-a-number; conversion to truth values, see below. -/
theorem C63_cast_partial (rnd : Nat → Rat → Rat) (dtype sd : Nat) (s d : NumTy) (hs : numTy sd = some s) (hd : numTy dtype = some d) (x : List Rat)
    (hx : ∀ v ∈ x, Castable s d v) (fresh : Nat → List Rat) (hf : ∀ n, (fresh n).length = n) :
    ∃ out, castRun rnd dtype sd x fresh = .ok out ∧ out.length = x.length ∧ (sd = dtype → out = x) ∧
      (sd ≠ dtype → ∀ (i : Nat) v, x[i]? = some v → ∃ w, out[i]? = some w ∧ Converts rnd s d dtype v w) := by
  by_cases e : sd = dtype
  · exact ⟨x, by unfold castRun; rw [if_pos e], rfl, fun _ => rfl, fun h => absurd e h⟩
  · have key : ∀ i : Nat, ∃ w, ∀ v, x[i]? = some v → castCell rnd s d dtype v = .ok w ∧ Converts rnd s d dtype v w := by
      intro i
      cases hi : x[i]? with
      | none => exact ⟨0, fun v h => by simp at h⟩
      | some v =>
        obtain ⟨w, h1, h2⟩ := castCell_ok rnd hd hs (hx v (List.mem_of_getElem? hi))
        exact ⟨w, fun v' h => by obtain rfl := Option.some.inj h; exact ⟨h1, h2⟩⟩
    choose g hg using key
    refine ⟨(List.range x.length).map g, ?_, by simp, fun h => absurd h e, fun _ i v hv => ⟨g i, ?_, (hg i v hv).2⟩⟩
    · unfold castRun tensorCast
      rw [if_neg e, if_neg e, hs, hd]
      simp only
      rw [castLoop_ok rnd g rfl (hf _) fun i v hv => (hg i v hv).1, Res.bind_ok]
      simp [Verif.Memory.copyWhole, Verif.Memory.copyFrom, hf]
      rw [List.take_of_length_le (by simp), List.drop_of_length_le (by rw [hf]), List.append_nil]
    · have hi : i < x.length := by
        by_contra hc
        rw [List.getElem?_eq_none (by omega)] at hv
        simp at hv
      rw [List.getElem?_map, List.getElem?_range hi]
      rfl

/-- an integer that the new type has is kept -/
theorem converts_keeps {rnd : Nat → Rat → Rat} {u t : IntTy} {dtype k : Nat} (ht : numTy k = some (.int t)) {n : Int} {w : Rat} (hn : t.has n)
    (h : Converts rnd (.int u) (.int t) dtype n w) : w = n := by
  obtain ⟨m, rfl, hm, c, hc⟩ := h
  have hr := numTy_int ht
  have e : t.hi = t.lo + 2 ^ t.bits := by
    simp only [rangeTypes, List.mem_cons, List.not_mem_nil, or_false] at hr
    rcases hr with rfl | rfl | rfl | rfl | rfl | rfl | rfl | rfl <;> decide
  have p : (0 : Int) < 2 ^ t.bits := by positivity
  have e1 : ((n : Int) : Rat).num = n := by simp
  rw [e1] at hc
  have : c = 0 := by
    by_contra h0
    rcases lt_or_gt_of_ne h0 with h | h
    · have : 2 ^ t.bits * c ≤ 2 ^ t.bits * (-1 : Int) := mul_le_mul_of_nonneg_left (by omega) (by omega)
      have := hn.1; have := hn.2; have := hm.1; have := hm.2
      omega
    · have : 2 ^ t.bits * (1 : Int) ≤ 2 ^ t.bits * c := mul_le_mul_of_nonneg_left (by omega) (by omega)
      have := hn.1; have := hn.2; have := hm.1; have := hm.2
      omega
  subst this
  congr 1
  omega

example : ∃ out, castRun (fun _ v => v) 1 10 [5 / 2, -5 / 2, 0, 127, -1 / 2] (fun n => List.replicate n 0) = .ok out ∧ out.length = 5 := by
  obtain ⟨out, h, l, -⟩ := C63_cast_partial (fun _ v => v) 1 10 .real (.int ⟨true, 8⟩) rfl rfl [5 / 2, -5 / 2, 0, 127, -1 / 2]
    (by simp [Castable, IntTy.lo, IntTy.hi]; norm_num) (fun n => List.replicate n 0) (by simp)
  exact ⟨out, h, l⟩

/-- **C63, widening**: a conversion to a type that has all the values of the first, and back, changes nothing. -/
theorem C63_round_trip (rnd : Nat → Rat → Rat) (a b : Nat) (t u : IntTy) (ha : numTy a = some (.int t)) (hb : numTy b = some (.int u))
    (x : List Int) (h1 : ∀ n ∈ x, t.has n) (h2 : ∀ n ∈ x, u.has n) (fresh : Nat → List Rat) (hf : ∀ n, (fresh n).length = n) :
    castRun rnd b a (x.map fun (n : Int) => (n : Rat)) fresh = .ok (x.map fun (n : Int) => (n : Rat)) ∧
    castRun rnd a b (x.map fun (n : Int) => (n : Rat)) fresh = .ok (x.map fun (n : Int) => (n : Rat)) := by
  have key : ∀ a b : Nat, ∀ t u : IntTy, numTy a = some (.int t) → numTy b = some (.int u) → (∀ n ∈ x, u.has n) →
      castRun rnd b a (x.map fun (n : Int) => (n : Rat)) fresh = .ok (x.map fun (n : Int) => (n : Rat)) := by
    intro a b t u ha hb h2
    obtain ⟨out, e, l, s1, s2⟩ := C63_cast_partial rnd b a (.int t) (.int u) ha hb (x.map fun (n : Int) => (n : Rat)) (fun _ _ => trivial) fresh hf
    rw [e]
    congr 1
    by_cases hab : a = b
    · exact s1 hab
    · apply List.ext_getElem?
      intro i
      cases hi : (x.map fun (n : Int) => (n : Rat))[i]? with
      | none =>
        rw [List.getElem?_eq_none_iff] at hi ⊢
        omega
      | some v =>
        obtain ⟨w, hw, hc⟩ := s2 hab i v hi
        rw [hw]
        obtain ⟨n, hn, rfl⟩ := List.mem_map.1 (List.mem_of_getElem? hi)
        rw [converts_keeps hb (h2 n hn) hc]
  exact ⟨key a b t u ha hb h2, key b a u t hb ha h1⟩

example : castRun (fun _ v => v) 5 2 ([0, 255].map fun (n : Int) => (n : Rat)) (fun n => List.replicate n 0) = .ok ([0, 255].map fun (n : Int) => (n : Rat)) :=
  (C63_round_trip (fun _ v => v) 2 5 ⟨false, 8⟩ ⟨true, 32⟩ rfl rfl [0, 255] (by decide) (by decide) _ (by simp)).1

theorem toBool_single (rnd : Nat → Rat → Rat) (v : Rat) : Verif.Kernels.toBool rnd 10 0 [v] (fun n => List.replicate n 0) =
    castCell rnd .real (.int ⟨false, 8⟩) 21 v >>= fun w => .ok (w != 0) := by
  unfold Verif.Kernels.toBool firstAs tensorCast
  rw [if_neg (by decide), if_neg (by simp), if_neg (by decide)]
  simp only [numTy, castLoop, castStep, List.length_singleton]
  cases h : castCell rnd .real (.int ⟨false, 8⟩) 21 v with
  | ok w => simp [Verif.Kernels.loop, rd, wr, h]
  | err => simp [Verif.Kernels.loop, rd, h]
  | ub => simp [Verif.Kernels.loop, rd, h]

/-- Numbers that are not zero become false: 256 as a truth value is stored as 0, and so is every number between -1 and 1; a number of -1 or less is
undefined. -/
theorem C63_bool_false (rnd : Nat → Rat → Rat) :
    Verif.Kernels.toBool rnd 5 0 [256] (fun n => List.replicate n 0) = .ok false ∧
    (∀ v : Rat, -1 < v → v < 1 → Verif.Kernels.toBool rnd 10 0 [v] (fun n => List.replicate n 0) = .ok false) ∧
    ∀ v : Rat, v ≤ -1 → Verif.Kernels.toBool rnd 10 0 [v] (fun n => List.replicate n 0) = .ub := by
  refine ⟨rfl, fun v h1 h2 => ?_, fun v h => ?_⟩
  · have e : truncQ v = 0 := by
      unfold truncQ
      split
      · rename_i h0
        rw [Int.floor_eq_iff]; push_cast; constructor <;> linarith
      · rename_i h0
        rw [Int.ceil_eq_iff]; push_cast; constructor <;> linarith
    have c : castCell rnd .real (.int ⟨false, 8⟩) 21 v = .ok 0 := by
      unfold castCell
      simp only [e]
      rw [if_pos (by decide)]
      rfl
    rw [toBool_single, c]
    rfl
  · have e : truncQ v < 0 := by
      unfold truncQ
      rw [if_neg (by linarith)]
      have : ⌈v⌉ ≤ -1 := Int.ceil_le.2 (by push_cast; exact h)
      omega
    have c : castCell rnd .real (.int ⟨false, 8⟩) 21 v = .ub := by
      unfold castCell
      simp only
      rw [if_neg]
      intro h
      have := h.1
      simp only [IntTy.lo] at this
      norm_num at this
      omega
    rw [toBool_single, c]
    rfl

/-- **C63, refusals**: types without conversion, and single numbers from empty tensors. -/
theorem C63_rejects (rnd : Nat → Rat → Rat) (dtype sd rank : Nat) (x : List Rat) (fresh : Nat → List Rat) :
    (sd ≠ dtype → numTy sd = none ∨ numTy dtype = none → castRun rnd dtype sd x fresh = .err) ∧
    (¬ (sd = 13 ∧ rank = 1) → x = [] → toInt rnd sd rank x fresh = .err ∧ Verif.Kernels.toBool rnd sd rank x fresh = .err) := by
  refine ⟨fun e h => ?_, fun h hx => ?_⟩
  · unfold castRun tensorCast
    rw [if_neg e, if_neg e]
    rcases h with h | h <;> rw [h]
    · rfl
    · cases numTy sd <;> rfl
  · subst hx
    unfold toInt Verif.Kernels.toBool firstAs
    rw [if_neg h, if_neg h]
    exact ⟨rfl, rfl⟩

/-! ## numbers in strings -/

/-- the number that decimal digits denote, the last digit counting one -/
def decimal : List Nat → Nat
  | [] => 0
  | d :: ds => d * 10 ^ ds.length + decimal ds

theorem foldl_decimal (ds : List Nat) (a : Nat) : ds.foldl (fun a d => a * 10 + d) a = a * 10 ^ ds.length + decimal ds := by
  induction ds generalizing a with
  | nil => simp [decimal]
  | cons d ds ih =>
    rw [List.foldl_cons, ih, decimal, List.length_cons, pow_succ]
    ring

theorem digitsFront_map {ds rest : List Nat} (h : ∀ d ∈ ds, d < 10) (hr : ∀ c ∈ rest.head?, ¬ (48 ≤ c ∧ c ≤ 57)) :
    digitsFront (ds.map (· + 48) ++ rest) = ds := by
  induction ds with
  | nil =>
    cases rest with
    | nil => rfl
    | cons c cs => simp only [List.map_nil, List.nil_append, digitsFront]; rw [if_neg (hr c (by simp))]
  | cons d ds ih =>
    have := h d (by simp)
    simp only [List.map_cons, List.cons_append, digitsFront]
    rw [if_pos (by omega), ih (fun d hd => h d (by simp [hd]))]
    simp

theorem dropSpaces {spaces s : List Nat} (h : ∀ c ∈ spaces, isSpace c = true) (hs : ∀ c ∈ s.head?, isSpace c = false) :
    (spaces ++ s).dropWhile isSpace = s := by
  induction spaces with
  | nil =>
    cases s with
    | nil => rfl
    | cons c cs => simp only [List.nil_append, List.dropWhile]; rw [hs c (by simp)]
  | cons c cs ih =>
    simp only [List.cons_append, List.dropWhile]
    rw [h c (by simp)]
    exact ih fun c hc => h c (by simp [hc])

/-- **C63, numbers in strings**: white space, an optional sign, decimal digits and anything else denote their number, if it is an `int`. -/
theorem C63_string_number (rnd : Nat → Rat → Rat) (spaces ds rest : List Nat) (sign : Option Bool) (fresh : Nat → List Rat)
    (hsp : ∀ c ∈ spaces, isSpace c = true) (hds : ∀ d ∈ ds, d < 10) (hne : ds ≠ []) (hr : ∀ c ∈ rest.head?, ¬ (48 ≤ c ∧ c ≤ 57))
    (n : Int) (hn : n = if sign = some true then -(decimal ds : Int) else decimal ds) (fits : -2 ^ 31 ≤ n ∧ n < 2 ^ 31)
    (x : List Rat) (hx : x.map charByte = spaces ++ (match sign with | none => [] | some true => [45] | some false => [43]) ++ ds.map (· + 48) ++ rest) :
    toInt rnd 13 1 x fresh = .ok n := by
  have key : strtol (x.map charByte) = n := by
    obtain ⟨d, ds', hd⟩ := List.exists_cons_of_ne_nil hne
    have d10 : d < 10 := hds d (by simp [hd])
    have num : numberFront (ds.map (· + 48) ++ rest) = decimal ds := by
      unfold numberFront
      rw [digitsFront_map hds hr, foldl_decimal, Nat.zero_mul, Nat.zero_add]
    have clamp : clampLong n = n := by
      unfold clampLong
      rw [if_neg (by omega), if_neg (by omega)]
    rw [hx]
    unfold strtol
    rw [List.append_assoc, List.append_assoc, dropSpaces hsp]
    · rcases sign with _ | _ | _
      · simp only [List.nil_append]
        simp only [reduceCtorEq, if_false] at hn
        have h1 : clampLong (numberFront (ds.map (· + 48) ++ rest)) = n := by rw [num, ← hn, clamp]
        rw [← h1]
        split
        · rename_i r e
          rw [hd] at e
          simp at e
        · rename_i r e
          rw [hd] at e
          simp at e
        · rfl
      · simp only [Option.some.injEq, Bool.false_eq_true, if_false] at hn
        show clampLong (numberFront (ds.map (· + 48) ++ rest)) = n
        rw [num, ← hn, clamp]
      · simp only [if_true] at hn
        show clampLong (-numberFront (ds.map (· + 48) ++ rest)) = n
        rw [num, ← hn, clamp]
    · intro c hc
      rcases sign with _ | _ | _
      · rw [hd] at hc
        simp at hc
        subst hc
        simp [isSpace]
      · simp at hc; subst hc; decide
      · simp at hc; subst hc; decide
  unfold toInt
  rw [if_pos ⟨rfl, rfl⟩, key, conv_has cInt_type (cInt_has.2 fits)]

example : toInt (fun _ v => v) 13 1 [32, 45, 49, 50, 59] (fun n => List.replicate n 0) = .ok (-12 : Int) :=
  C63_string_number _ [32] [1, 2] [59] (some true) _ (by decide) (by decide) (by decide) (by decide) (-12) (by decide) (by decide) _ (by decide)

/-- A number in a string that is no `int` is not refused: it is reduced modulo 2^32. And text without digits is zero. -/
theorem C63_string_wraps_false : strtol ((("4294967297").toList.map Char.toNat)) = 4294967297 ∧
    cInt.conv 4294967297 = 1 ∧ strtol (("none").toList.map Char.toNat) = 0 := by decide

/-! ## the types, and single numbers from tensors -/

/-- the integers of a dtype: the name, the code, the smallest and the largest value -/
def intRanges : List (String × Nat × Int × Int) :=
  [("INT8", 1, -128, 127), ("UINT8", 2, 0, 255), ("INT16", 3, -32768, 32767), ("UINT16", 4, 0, 65535), ("INT32", 5, -2147483648, 2147483647),
   ("UINT32", 6, 0, 4294967295), ("INT64", 7, -9223372036854775808, 9223372036854775807), ("UINT64", 8, 0, 18446744073709551615),
   ("CHAR8", 13, -128, 127), ("CHAR16", 14, 0, 65535), ("CHAR32", 15, 0, 4294967295), ("BOOLEAN", 21, 0, 255)]

/-- **C63, types**: what every convertible type can hold; all other types are refused (`C63_rejects`). -/
theorem C63_types :
    (∀ r ∈ intRanges, ∃ t, numTy r.2.1 = some (.int t) ∧ ∀ n : Int, t.has n ↔ r.2.2.1 ≤ n ∧ n ≤ r.2.2.2) ∧
    (∀ k, numTy k = some .real ↔ k = 9 ∨ k = 10 ∨ k = 11) ∧ ∀ k, numTy k = none ↔ k ∉ intRanges.map (·.2.1) ∧ k ∉ [9, 10, 11] := by
  refine ⟨?_, fun k => ?_, fun k => ?_⟩
  · intro r hr
    simp only [intRanges, List.mem_cons, List.not_mem_nil, or_false] at hr
    rcases hr with rfl | rfl | rfl | rfl | rfl | rfl | rfl | rfl | rfl | rfl | rfl | rfl <;>
      refine ⟨_, rfl, fun n => ?_⟩ <;> simp [IntTy.has, IntTy.lo, IntTy.hi] <;> omega
  · unfold numTy
    split <;> simp_all
  · unfold numTy
    split <;> simp_all [intRanges]

/-- the conversion that comes before reading a single number -/
theorem firstAs_ok (rnd : Nat → Rat → Rat) {dtype sd : Nat} {s d : NumTy} (hs : numTy sd = some s) (hd : numTy dtype = some d) {v : Rat} {x : List Rat}
    (hx : ∀ w ∈ v :: x, Castable s d w) {fresh : Nat → List Rat} (hf : ∀ n, (fresh n).length = n) :
    ∃ w, firstAs rnd dtype sd (v :: x) fresh = .ok w ∧ (sd = dtype → w = v) ∧ (sd ≠ dtype → Converts rnd s d dtype v w) := by
  unfold firstAs tensorCast
  rw [if_neg (by simp)]
  by_cases e : sd = dtype
  · rw [if_pos e]
    exact ⟨v, rfl, fun _ => rfl, fun h => absurd e h⟩
  · rw [if_neg e, hs, hd]
    simp only
    have key : ∀ i : Nat, ∃ w, ∀ u, (v :: x)[i]? = some u → castCell rnd s d dtype u = .ok w ∧ Converts rnd s d dtype u w := by
      intro i
      cases hi : (v :: x)[i]? with
      | none => exact ⟨0, fun u h => by simp at h⟩
      | some u =>
        obtain ⟨w, h1, h2⟩ := castCell_ok rnd hd hs (hx u (List.mem_of_getElem? hi))
        exact ⟨w, fun u' h => by obtain rfl := Option.some.inj h; exact ⟨h1, h2⟩⟩
    choose g hg using key
    rw [castLoop_ok rnd g rfl (hf _) fun i u hu => (hg i u hu).1, Res.bind_ok]
    refine ⟨g 0, ?_, fun h => absurd h e, fun _ => (hg 0 v rfl).2⟩
    exact rd_ok (by simp)

/-- **C63, single integers**: the integer read from a tensor of numbers is the first element, converted to 32 bits. -/
theorem C63_to_int (rnd : Nat → Rat → Rat) (sd rank : Nat) (s : NumTy) (hs : numTy sd = some s) (hr : ¬ (sd = 13 ∧ rank = 1)) (v : Rat) (x : List Rat)
    (hx : ∀ w ∈ v :: x, s = .real → -2147483649 < w ∧ w < 2147483648) (fresh : Nat → List Rat) (hf : ∀ n, (fresh n).length = n) :
    ∃ w, toInt rnd sd rank (v :: x) fresh = .ok w ∧ (sd = 5 → w = v) ∧ (sd ≠ 5 → Converts rnd s (.int ⟨true, 32⟩) 5 v w) := by
  unfold toInt
  rw [if_neg hr]
  refine firstAs_ok rnd hs rfl (fun w hw => ?_) hf
  cases s with
  | int t => trivial
  | real =>
    have := hx w hw rfl
    simp only [Castable, IntTy.lo, IntTy.hi]
    norm_num
    constructor <;> linarith [this.1, this.2]

example : toInt (fun _ v => v) 10 1 [-7 / 2, 9] (fun n => List.replicate n 0) = .ok (-3) := by
  obtain ⟨w, h, -, hc⟩ := C63_to_int (fun _ v => v) 10 1 .real rfl (by decide) (-7 / 2) [9]
    (by intro w hw _; simp at hw; rcases hw with rfl | rfl <;> norm_num) (fun n => List.replicate n 0) (by simp)
  obtain ⟨n, rfl, -, -, h2⟩ := hc (by decide)
  have := h2 (by norm_num)
  have h3 : (n : Rat) < -2 := by linarith [this.1]
  have h4 : (-4 : Rat) < n := by linarith [this.2]
  have : n = -3 := by
    have : n < -2 := by exact_mod_cast h3
    have : -4 < n := by exact_mod_cast h4
    omega
  rw [h, this]; rfl

/-- **C63, truth values of integers**: an integer from 0 to 255 is true exactly if it is not zero; missing: all others (`C63_bool_false`). -/
theorem C63_to_bool_partial (rnd : Nat → Rat → Rat) (sd rank : Nat) (t : IntTy) (hs : numTy sd = some (.int t)) (hr : ¬ (sd = 13 ∧ rank = 1)) (n : Int)
    (hn : 0 ≤ n ∧ n ≤ 255) (x : List Rat) (fresh : Nat → List Rat) (hf : ∀ n, (fresh n).length = n) :
    Verif.Kernels.toBool rnd sd rank ((n : Rat) :: x) fresh = .ok (decide (n ≠ 0)) := by
  unfold Verif.Kernels.toBool
  rw [if_neg hr]
  obtain ⟨w, h, h1, h2⟩ := firstAs_ok rnd (dtype := 21) (v := (n : Rat)) (x := x) hs (d := .int ⟨false, 8⟩) rfl (fun w hw => trivial) hf
  have e : w = n := by
    by_cases c : sd = 21
    · exact h1 c
    · exact converts_keeps (k := 2) rfl (by simp [IntTy.has, IntTy.lo, IntTy.hi]; omega) (h2 c)
  rw [h, Res.bind_ok, e]
  congr 1
  by_cases c : n = 0
  · subst c; rfl
  · have : (n : Rat) ≠ 0 := by exact_mod_cast c
    simp [c]

example : Verif.Kernels.toBool (fun _ v => v) 5 0 [((200 : Int) : Rat)] (fun n => List.replicate n 0) = .ok true :=
  C63_to_bool_partial _ 5 0 ⟨true, 32⟩ rfl (by decide) 200 (by decide) [] _ (by simp)

/-- **C63, truth values of strings**: a string is true exactly if it is the word `true`, in any mixture of capital and small letters. -/
theorem C63_string_bool (rnd : Nat → Rat → Rat) (x : List Rat) (fresh : Nat → List Rat) :
    Verif.Kernels.toBool rnd 13 1 x fresh = .ok true ↔
      ∃ a b c d : Char, x.map charByte = [a.toNat, b.toNat, c.toNat, d.toNat] ∧ (a = 't' ∨ a = 'T') ∧ (b = 'r' ∨ b = 'R') ∧ (c = 'u' ∨ c = 'U') ∧ (d = 'e' ∨ d = 'E') := by
  unfold Verif.Kernels.toBool
  rw [if_pos ⟨rfl, rfl⟩]
  generalize x.map charByte = l
  have one : ∀ n k : Nat, 97 ≤ k → k ≤ 122 → ((if 65 ≤ n ∧ n ≤ 90 then n + 32 else n) = k ↔ n = k ∨ n = k - 32) := by
    intro n k h1 h2
    split <;> omega
  constructor
  · intro h
    have h : isTrueString l = true := by injection h
    unfold isTrueString at h
    have h := LawfulBEq.eq_of_beq h
    rcases l with _ | ⟨a, _ | ⟨b, _ | ⟨c, _ | ⟨d, _ | ⟨e, r⟩⟩⟩⟩⟩
    iterate 4 (exact absurd (congrArg List.length h) (by simp))
    · simp only [List.map_cons, List.map_nil, List.cons.injEq, and_true] at h
      rw [one _ _ (by decide) (by decide), one _ _ (by decide) (by decide), one _ _ (by decide) (by decide), one _ _ (by decide) (by decide)] at h
      obtain ⟨rfl | rfl, rfl | rfl, rfl | rfl, rfl | rfl⟩ := h
      · exact ⟨'t', 'r', 'u', 'e', rfl, by decide⟩
      · exact ⟨'t', 'r', 'u', 'E', rfl, by decide⟩
      · exact ⟨'t', 'r', 'U', 'e', rfl, by decide⟩
      · exact ⟨'t', 'r', 'U', 'E', rfl, by decide⟩
      · exact ⟨'t', 'R', 'u', 'e', rfl, by decide⟩
      · exact ⟨'t', 'R', 'u', 'E', rfl, by decide⟩
      · exact ⟨'t', 'R', 'U', 'e', rfl, by decide⟩
      · exact ⟨'t', 'R', 'U', 'E', rfl, by decide⟩
      · exact ⟨'T', 'r', 'u', 'e', rfl, by decide⟩
      · exact ⟨'T', 'r', 'u', 'E', rfl, by decide⟩
      · exact ⟨'T', 'r', 'U', 'e', rfl, by decide⟩
      · exact ⟨'T', 'r', 'U', 'E', rfl, by decide⟩
      · exact ⟨'T', 'R', 'u', 'e', rfl, by decide⟩
      · exact ⟨'T', 'R', 'u', 'E', rfl, by decide⟩
      · exact ⟨'T', 'R', 'U', 'e', rfl, by decide⟩
      · exact ⟨'T', 'R', 'U', 'E', rfl, by decide⟩
    · exact absurd (congrArg List.length h) (by simp)
  · rintro ⟨a, b, c, d, rfl, rfl | rfl, rfl | rfl, rfl | rfl, rfl | rfl⟩ <;> rfl

example : Verif.Kernels.toBool (fun _ v => v) 13 1 [84, 114, 85, 101] (fun n => List.replicate n 0) = .ok true :=
  (C63_string_bool _ _ _).2 ⟨'T', 'r', 'U', 'e', by decide, by decide⟩

end Verif.Props
