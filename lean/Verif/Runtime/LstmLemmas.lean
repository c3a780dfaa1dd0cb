import Verif.Runtime.Lstm
import Verif.Runtime.MachineLemmas
import Mathlib.Tactic.Ring
import Mathlib.Tactic.Push
/-! Helper lemmas for the LSTM operator: running the callees on a canonical stack. -/
namespace Verif.Lstm
open Verif.Runtime
variable {R : Type}

/-- a stack with `lo` below the frame `fr` -/
abbrev st (lo fr : List (Tsr R)) (bs : List Nat) : Stk (Tsr R) := ⟨lo ++ fr, lo.length, bs⟩

theorem push_st (lo fr : List (Tsr R)) (bs v) : (st lo fr bs).push v = st lo (fr ++ [v]) bs := by
  simp [Stk.push, st]

theorem run_pure1 (g : List (Tsr R) → Option (Ten R)) (lo rest args : List (Tsr R)) (bs) (v : Ten R) (n : Nat)
    (hn : n = args.length) (h0 : 0 < args.length) (hg : g args = some v) :
    runOperator (pure1 g) n (st lo (rest ++ args) bs) = .ok (st lo (rest ++ [v.t]) bs) 1 := by
  subst hn
  have h1 : ¬ (rest ++ args).length < args.length := by simp
  have h2 := Stk.pushBase_neg_mk lo rest args bs h0
  unfold runOperator
  rw [Stk.size_mk, if_neg h1, h2]
  have h3 : pure1 g ⟨(lo ++ rest) ++ args, (lo ++ rest).length, lo.length :: bs⟩ =
      .ok ⟨(lo ++ rest) ++ (args ++ [v.t]), (lo ++ rest).length, lo.length :: bs⟩ 1 := by
    unfold pure1
    rw [List.drop_left, hg]
    simp [Stk.push]
  rw [h3]
  have h4 := Stk.erase_keep_mk (lo ++ rest) (args ++ [v.t]) (lo.length :: bs) 1 (by omega) (by simp)
  simp only [Int.natCast_one] at h4
  have h5 : ¬ ((1:Int) < 0 ∨ ((Stk.mk ((lo ++ rest) ++ (args ++ [v.t])) (lo ++ rest).length (lo.length :: bs)).size : Int) < 1) := by
    rw [Stk.size_mk]; simp
  simp only [Out.bind, if_neg h5, h4, Out.finallyDo, Stk.popBase]
  simp

theorem run_pure1_err (g : List (Tsr R) → Option (Ten R)) (lo rest args : List (Tsr R)) (bs) (n : Nat)
    (hn : n = args.length) (h0 : 0 < args.length) (hg : g args = none) :
    runOperator (pure1 g) n (st lo (rest ++ args) bs) = .err (st lo (rest ++ args) bs) := by
  subst hn
  have h1 : ¬ (rest ++ args).length < args.length := by simp
  have h2 := Stk.pushBase_neg_mk lo rest args bs h0
  unfold runOperator
  rw [Stk.size_mk, if_neg h1, h2]
  have h3 : pure1 g ⟨(lo ++ rest) ++ args, (lo ++ rest).length, lo.length :: bs⟩ =
      .err ⟨(lo ++ rest) ++ args, (lo ++ rest).length, lo.length :: bs⟩ := by
    unfold pure1
    rw [List.drop_left, hg]
  rw [h3]
  simp [Out.bind, Out.finallyDo, Stk.popBase, st]

/-- a matrix with the elements `f` -/
structure IsMat (t : Ten R) (ty : Dt) (m n : Nat) (f : Nat → Nat → R) : Prop where
  ty : t.ty = ty
  shape : t.shape = [m, n]
  el : ∀ i < m, ∀ j < n, t.el [i, j] = f i j

/-- a vector with the elements `f` -/
structure IsVec (t : Ten R) (ty : Dt) (n : Nat) (f : Nat → R) : Prop where
  ty : t.ty = ty
  shape : t.shape = [n]
  el : ∀ j < n, t.el [j] = f j

/-- the first `n` values of `f` -/
abbrev row (n : Nat) (f : Nat → R) : List R := (List.range n).map f

theorem row_congr (n : Nat) {f g : Nat → R} (h : ∀ j < n, f j = g j) : row n f = row n g := by
  apply List.map_congr_left
  intro a ha
  exact h a (List.mem_range.1 ha)

theorem gemm_mat (S : Scalar R) {a b c : Ten R} {ty m k n fa fb fc} (ha : IsMat a ty m k fa)
    (hb : IsMat b ty n k fb) (hc : IsVec c ty n fc) :
    ∃ t, gemmT S [a.t, b.t, c.t] = some t ∧
      IsMat t ty m n (fun i j => S.lin (row k (fa i)) (row k (fb j)) (fc j)) := by
  have h1 : ¬ c.shape.length > 2 := by simp [hc.shape]
  have h2 : ¬ (a.ty ≠ b.ty ∨ c.ty ≠ a.ty) := by simp [ha.ty, hb.ty, hc.ty]
  refine ⟨_, by
    unfold gemmT Ten.t
    simp only [ha.shape, hb.shape]
    rw [if_neg h1, if_neg h2, if_neg (by simp), if_neg (by simp [hc.shape])], ?_⟩
  refine ⟨ha.ty, rfl, ?_⟩
  intro i hi j hj
  simp only [List.getD_cons_zero, List.getD_cons_succ, hc.shape, List.length_singleton, List.replicate_one,
    List.singleton_append, List.drop_succ_cons, List.drop_zero, Nat.reduceSub]
  congr 1
  · exact row_congr k fun q hq => ha.el i hi q hq
  · exact row_congr k fun q hq => hb.el j hj q hq
  · by_cases h : n = 1
    · subst h
      have : j = 0 := by omega
      subst this
      simp [hc.el 0 (by omega)]
    · rw [if_neg h]; exact hc.el j hj

theorem zip_mat (f : R → R → R) {a b : Ten R} {ty m n fa fb} (ha : IsMat a ty m n fa) (hb : IsMat b ty m n fb) :
    ∃ t, zip f [a.t, b.t] = some t ∧ IsMat t ty m n (fun i j => f (fa i j) (fb i j)) := by
  refine ⟨_, by unfold zip Ten.t; simp only []; rw [if_pos (by rw [ha.shape, hb.shape])], ?_⟩
  refine ⟨?_, ha.shape, ?_⟩
  · simp only [wider, ha.ty, hb.ty]; cases ty <;> rfl
  · intro i hi j hj
    simp only [ha.el i hi j hj, hb.el i hi j hj]

theorem map_mat (f : R → R) {a : Ten R} {ty m n fa} (ha : IsMat a ty m n fa) :
    ∃ t, map1 f [a.t] = some t ∧ IsMat t ty m n (fun i j => f (fa i j)) := by
  refine ⟨_, rfl, ha.ty, ha.shape, ?_⟩
  intro i hi j hj
  simp only [ha.el i hi j hj]

/-- One gate pushes the activated sum of its two products. -/
theorem gate_mat (S : Scalar R) (act : R → R) {xt w wb h r rb : Ten R} {ty B I H} {X W Hp Rm} {bw br : Nat → R}
    (hx : IsMat xt ty B I X) (hw : IsMat w ty H I W) (hwb : IsVec wb ty H bw)
    (hh : IsMat h ty B H Hp) (hr : IsMat r ty H H Rm) (hrb : IsVec rb ty H br)
    (lo fr : List (Tsr R)) (bs) :
    ∃ a, gate S act xt w wb h r rb (st lo fr bs) = .ok (st lo (fr ++ [a.t]) bs) () ∧
      IsMat a ty B H (fun b k => act (S.add (S.lin (row I (X b)) (row I (W k)) (bw k))
        (S.lin (row H (Hp b)) (row H (Rm k)) (br k)))) := by
  obtain ⟨p, hp, hp'⟩ := gemm_mat S hx hw hwb
  obtain ⟨q, hq, hq'⟩ := gemm_mat S hh hr hrb
  obtain ⟨z, hz, hz'⟩ := zip_mat S.add hp' hq'
  obtain ⟨a, ha, ha'⟩ := map_mat act hz'
  refine ⟨a, ?_, ha'⟩
  unfold gate
  have e1 : (((st lo fr bs).push xt.t).push w.t).push wb.t = st lo (fr ++ [xt.t, w.t, wb.t]) bs := by
    simp [push_st]
  rw [e1, run_pure1 _ lo fr _ bs p 3 rfl (by simp) hp]
  show Out.bind (runOperator _ 3 _) _ = _
  have e2 : (((st lo (fr ++ [p.t]) bs).push h.t).push r.t).push rb.t = st lo ((fr ++ [p.t]) ++ [h.t, r.t, rb.t]) bs := by
    simp [push_st]
  rw [e2, run_pure1 _ lo _ _ bs q 3 rfl (by simp) hq]
  show Out.bind (runOperator _ 2 _) _ = _
  rw [List.append_assoc, show ([p.t] ++ [q.t] : List (Tsr R)) = [p.t, q.t] from rfl,
    run_pure1 _ lo fr _ bs z 2 rfl (by simp) hz]
  show Out.bind (runOperator _ 1 _) _ = _
  rw [run_pure1 _ lo fr _ bs a 1 rfl (by simp) ha]
  rfl

theorem topSlot_st (lo fr : List (Tsr R)) (bs) (v : Tsr R) : topSlot (st lo (fr ++ [v]) bs) = lo.length + fr.length := by
  simp [topSlot]

theorem deref_st (lo fr more : List (Tsr R)) (bs) (v : Tsr R) :
    deref (st lo (fr ++ v :: more) bs) (lo.length + fr.length) = some v := by
  simp only [deref]
  rw [← List.append_assoc, ← List.length_append, List.getElem?_append_right (by simp)]
  simp

theorem top_st (lo fr : List (Tsr R)) (bs) (v : Ten R) : top (st lo (fr ++ [v.t]) bs) = some v := by
  simp [top, Ten.t]

/-- the matrices of the four gates -/
structure IsGates (g : Gates R) (ty : Dt) (m n : Nat) (el : Nat → Nat → Nat → R) : Prop where
  i : IsMat g.i ty m n (el 0)
  o : IsMat g.o ty m n (el 1)
  f : IsMat g.f ty m n (el 2)
  c : IsMat g.c ty m n (el 3)

/-- the vectors of the four gates -/
structure IsGatesV (g : Gates R) (ty : Dt) (n : Nat) (el : Nat → Nat → R) : Prop where
  i : IsVec g.i ty n (el 0)
  o : IsVec g.o ty n (el 1)
  f : IsVec g.f ty n (el 2)
  c : IsVec g.c ty n (el 3)

/-- the pre-activation of gate `g` -/
abbrev preOf (S : Scalar R) (I H : Nat) (X : Nat → Nat → R) (W Rm : Nat → Nat → Nat → R) (bw br : Nat → Nat → R)
    (h : Nat → Nat → R) (g b k : Nat) : R :=
  S.add (S.lin (row I (X b)) (row I (W g k)) (bw g k)) (S.lin (row H (h b)) (row H (Rm g k)) (br g k))

/-- the next cell state -/
abbrev nextC (S : Scalar R) (I H : Nat) (X : Nat → Nat → R) (W Rm : Nat → Nat → Nat → R) (bw br : Nat → Nat → R)
    (h c : Nat → Nat → R) (b k : Nat) : R :=
  S.add (S.mul (S.sigmoid (preOf S I H X W Rm bw br h 0 b k)) (S.tanh (preOf S I H X W Rm bw br h 3 b k)))
    (S.mul (S.sigmoid (preOf S I H X W Rm bw br h 2 b k)) (c b k))

/-- the next hidden state -/
abbrev nextH (S : Scalar R) (I H : Nat) (X : Nat → Nat → R) (W Rm : Nat → Nat → Nat → R) (bw br : Nat → Nat → R)
    (h c : Nat → Nat → R) (b k : Nat) : R :=
  S.mul (S.tanh (nextC S I H X W Rm bw br h c b k)) (S.sigmoid (preOf S I H X W Rm bw br h 1 b k))

theorem cellStep_mat (S : Scalar R) {w r wb rb : Gates R} {xt h c : Ten R} {ty B I H} {X Hp Cp W Rm} {bw br}
    (hx : IsMat xt ty B I X) (hw : IsGates w ty H I W) (hwb : IsGatesV wb ty H bw)
    (hh : IsMat h ty B H Hp) (hc : IsMat c ty B H Cp) (hr : IsGates r ty H H Rm) (hrb : IsGatesV rb ty H br)
    (lo fr : List (Tsr R)) (bs) :
    ∃ vf vo h' c', cellStep S w r wb rb xt h c (st lo fr bs) = .ok (st lo (fr ++ [vf, vo] ++ [h'.t]) bs) (h', c') ∧
      IsMat h' ty B H (nextH S I H X W Rm bw br Hp Cp) ∧ IsMat c' ty B H (nextC S I H X W Rm bw br Hp Cp) := by
  obtain ⟨vf, ef, hf⟩ := gate_mat S S.sigmoid hx hw.f hwb.f hh hr.f hrb.f lo fr bs
  obtain ⟨vo, eo, ho⟩ := gate_mat S S.sigmoid hx hw.o hwb.o hh hr.o hrb.o lo (fr ++ [vf.t]) bs
  obtain ⟨vi, ei, hi⟩ := gate_mat S S.sigmoid hx hw.i hwb.i hh hr.i hrb.i lo (fr ++ [vf.t] ++ [vo.t]) bs
  obtain ⟨vc, ec, hc'⟩ := gate_mat S S.tanh hx hw.c hwb.c hh hr.c hrb.c lo (fr ++ [vf.t] ++ [vo.t] ++ [vi.t]) bs
  obtain ⟨m1, em1, hm1⟩ := zip_mat S.mul hi hc'
  obtain ⟨m2, em2, hm2⟩ := zip_mat S.mul hf hc
  obtain ⟨ct, ect, hct⟩ := zip_mat S.add hm1 hm2
  obtain ⟨tc, etc, htc⟩ := map_mat S.tanh hct
  obtain ⟨ht, eht, hht⟩ := zip_mat S.mul htc ho
  refine ⟨vf.t, vo.t, ht, ct, ?_, hht, hct⟩
  unfold cellStep
  rw [ef]
  show Out.bind (gate S _ xt w.o _ _ _ _ _) _ = _
  rw [eo]
  show Out.bind (gate S _ xt w.i _ _ _ _ _) _ = _
  rw [ei]
  show Out.bind (gate S _ xt w.c _ _ _ _ _) _ = _
  rw [ec]
  show Out.bind (runOperator _ 2 _) _ = _
  rw [List.append_assoc (fr ++ [vf.t] ++ [vo.t]) [vi.t], show ([vi.t] ++ [vc.t] : List (Tsr R)) = [vi.t, vc.t] from rfl,
    run_pure1 _ lo _ _ bs m1 2 rfl (by simp) em1]
  show Out.bind (orUbV _ (deref _ _)) _ = _
  rw [topSlot_st, show fr ++ [vf.t] ++ [vo.t] ++ [m1.t] = fr ++ vf.t :: ([vo.t] ++ [m1.t]) by simp, deref_st]
  show Out.bind (runOperator _ 2 _) _ = _
  rw [show ((st lo (fr ++ vf.t :: ([vo.t] ++ [m1.t])) bs).push vf.t).push c.t =
      st lo ((fr ++ vf.t :: ([vo.t] ++ [m1.t])) ++ [vf.t, c.t]) bs by simp [push_st],
    run_pure1 _ lo _ _ bs m2 2 rfl (by simp) em2]
  show Out.bind (runOperator _ 2 _) _ = _
  rw [show (fr ++ vf.t :: ([vo.t] ++ [m1.t])) ++ [m2.t] = (fr ++ [vf.t, vo.t]) ++ [m1.t, m2.t] by simp,
    run_pure1 _ lo _ _ bs ct 2 rfl (by simp) ect]
  show Out.bind (orUbV _ (top _)) _ = _
  rw [top_st]
  show Out.bind (runOperator _ 1 _) _ = _
  rw [run_pure1 _ lo _ _ bs tc 1 rfl (by simp) etc]
  show Out.bind (orUbV _ (deref _ _)) _ = _
  rw [topSlot_st, show fr ++ [vf.t, vo.t] ++ [tc.t] = (fr ++ [vf.t]) ++ vo.t :: [tc.t] by simp, deref_st]
  show Out.bind (runOperator _ 2 _) _ = _
  rw [push_st, show (fr ++ [vf.t]) ++ vo.t :: [tc.t] ++ [vo.t] = (fr ++ [vf.t, vo.t]) ++ [tc.t, vo.t] by simp,
    run_pure1 _ lo _ _ bs ht 2 rfl (by simp) eht]
  show Out.bind (orUbV _ (top _)) _ = _
  rw [top_st]
  rfl

/-- a sequence of matrices with the elements `f` -/
structure IsSeq (t : Ten R) (ty : Dt) (l m n : Nat) (f : Nat → Nat → Nat → R) : Prop where
  ty : t.ty = ty
  shape : t.shape = [l, m, n]
  el : ∀ a < l, ∀ i < m, ∀ j < n, t.el [a, i, j] = f a i j

theorem IsMat.congr {t : Ten R} {ty m n} {f g : Nat → Nat → R} (h : IsMat t ty m n f)
    (hfg : ∀ i < m, ∀ j < n, f i j = g i j) : IsMat t ty m n g :=
  ⟨h.ty, h.shape, fun i hi j hj => by rw [h.el i hi j hj, hfg i hi j hj]⟩

theorem slice1_seq {x : Ten R} {ty l m n f} (hx : IsSeq x ty l m n f) (a : Nat) (ha : a < l) :
    ∃ t, slice1 x (a : Int) = some t ∧ IsMat t ty m n (f a) := by
  refine ⟨⟨x.ty, [m, n], fun idx => x.el (a :: idx)⟩, ?_, hx.ty, rfl, fun i hi j hj => hx.el a ha i hi j hj⟩
  unfold slice1
  rw [hx.shape]
  simp only []
  rw [if_pos (by omega)]
  simp

theorem expand_mat {h : Ten R} {ty m n f} (hh : IsMat h ty m n f) :
    ∃ t, expand h 0 = some t ∧ IsSeq t ty 1 m n (fun _ => f) := by
  refine ⟨⟨h.ty, [1, m, n], fun idx => h.el (idx.eraseIdx 0)⟩, ?_, hh.ty, rfl, ?_⟩
  · simp [expand, hh.shape]
  · intro a _ i hi j hj
    exact hh.el i hi j hj

theorem concat0_seq {a b : Ten R} {ty p q m n f g} (ha : IsSeq a ty p m n f) (hb : IsSeq b ty q m n g) :
    ∃ t, concat 0 [a.t, b.t] = some t ∧ IsSeq t ty (p + q) m n (fun i => if i < p then f i else g (i - p)) := by
  have e1 : ¬ a.ty ≠ b.ty := by simp [ha.ty, hb.ty]
  refine ⟨_, by
    unfold concat Ten.t
    simp only []
    rw [if_neg e1, if_neg (by simp [ha.shape]), if_neg (by simp [ha.shape, hb.shape]),
      if_neg (by simp [ha.shape, hb.shape])], ?_⟩
  refine ⟨ha.ty, by simp [ha.shape, hb.shape], ?_⟩
  intro i hi j hj k hk
  simp only [ha.shape, List.getD_cons_zero, List.set_cons_zero]
  by_cases h : i < p
  · rw [if_pos h, if_pos h]; exact ha.el i h j hj k hk
  · rw [if_neg h, if_neg h]; exact hb.el (i - p) (by omega) j hj k hk

/-- what has been collected after `i` steps -/
def IsOut (out : Option (Ten R)) (ty : Dt) (i B H : Nat) (rev : Bool) (hs : Nat → Nat → Nat → R) : Prop :=
  (i = 0 ∧ out = none) ∨
  (0 < i ∧ ∃ o, out = some o ∧ IsSeq o ty i B H (fun t => if rev then hs (i - t) else hs (t + 1)))

theorem collect_ok {rev : Bool} {out : Option (Ten R)} {eh : Ten R} {ty i B H hs} (ho : IsOut out ty i B H rev hs)
    (he : IsSeq eh ty 1 B H (fun _ => hs (i + 1))) (lo fr : List (Tsr R)) (bs) :
    ∃ fr' o, collect rev out eh (st lo fr bs) = .ok (st lo (fr ++ fr') bs) o ∧
      IsOut (some o) ty (i + 1) B H rev hs := by
  rcases ho with ⟨rfl, rfl⟩ | ⟨hi, o, rfl, ho⟩
  · refine ⟨[], eh, by simp [collect], Or.inr ⟨by omega, eh, rfl, he.ty, he.shape, ?_⟩⟩
    intro a ha b hb k hk
    have : a = 0 := by omega
    subst this
    rw [he.el 0 (by omega) b hb k hk]
    cases rev <;> rfl
  · cases rev with
    | false =>
      obtain ⟨t, et, ht⟩ := concat0_seq ho he
      refine ⟨[t.t], t, ?_, Or.inr ⟨by omega, t, rfl, ht.ty, ht.shape, ?_⟩⟩
      · unfold collect
        simp only [Bool.false_eq_true, if_false]
        rw [show ((st lo fr bs).push o.t).push eh.t = st lo (fr ++ [o.t, eh.t]) bs by simp [push_st],
          run_pure1 _ lo fr _ bs t 2 rfl (by simp) et]
        show orUbV _ (top _) = _
        rw [top_st]; rfl
      · intro a ha b hb k hk
        rw [ht.el a ha b hb k hk]
        simp only [Bool.false_eq_true, if_false]
        by_cases h : a < i
        · rw [if_pos h]
        · rw [if_neg h]; have : a = i := by omega
          rw [this]
    | true =>
      obtain ⟨t, et, ht⟩ := concat0_seq he ho
      refine ⟨[t.t], t, ?_, Or.inr ⟨by omega, t, rfl, ht.ty, by rw [ht.shape, Nat.add_comm], ?_⟩⟩
      · unfold collect
        simp only [if_true]
        rw [show ((st lo fr bs).push eh.t).push o.t = st lo (fr ++ [eh.t, o.t]) bs by simp [push_st],
          run_pure1 _ lo fr _ bs t 2 rfl (by simp) et]
        show orUbV _ (top _) = _
        rw [top_st]; rfl
      · intro a ha b hb k hk
        rw [ht.el a (by omega) b hb k hk]
        simp only [if_true]
        by_cases h : a < 1
        · rw [if_pos h]; have : a = 0 := by omega
          rw [this]; rfl
        · rw [if_neg h, show i - (a - 1) = i + 1 - a by omega]

theorem erase7_st (lo fr : List (Tsr R)) (bs) (h : 8 ≤ fr.length) :
    (st lo fr bs).erase 7 (-1) = some (st lo (fr.take 7 ++ fr.drop (fr.length - 1)) bs) := by
  have h1 : ((lo.length : Int) + 7).toNat = lo.length + 7 := by omega
  have h2 : (((lo ++ fr).length : Int) + -1).toNat = lo.length + (fr.length - 1) := by
    rw [List.length_append]; omega
  have h3 : (0:Int) ≤ (lo.length : Int) + 7 ∧ (lo.length : Int) + 7 ≤ ((lo ++ fr).length : Int) + -1 ∧
      ((lo ++ fr).length : Int) + -1 ≤ (lo ++ fr).length := by
    rw [List.length_append]; push_cast; omega
  simp only [Stk.erase, Stk.abs, st, show (0:Int) ≤ 7 from by omega, if_true, show ¬ (0:Int) ≤ -1 from by omega,
    if_false, h1, h2, if_pos h3]
  rw [List.take_append, List.drop_append, List.take_of_length_le (by omega), List.drop_eq_nil_of_le (by omega)]
  simp

/-- The unrolled loop follows any pair of sequences that satisfies the recurrence. -/
theorem unroll_ok (S : Scalar R) {x : Ten R} {w r wb rb : Gates R} {ty} {T B I H : Nat} {rev : Bool} {X W Rm} {bw br}
    (hx : IsSeq x ty T B I X) (hw : IsGates w ty H I W) (hwb : IsGatesV wb ty H bw)
    (hr : IsGates r ty H H Rm) (hrb : IsGatesV rb ty H br)
    (hs cs : Nat → Nat → Nat → R)
    (hh : ∀ t < T, ∀ b < B, ∀ k < H, hs (t + 1) b k =
      nextH S I H (X (if rev then T - t - 1 else t)) W Rm bw br (hs t) (cs t) b k)
    (hc : ∀ t < T, ∀ b < B, ∀ k < H, cs (t + 1) b k =
      nextC S I H (X (if rev then T - t - 1 else t)) W Rm bw br (hs t) (cs t) b k)
    (k : Nat) : ∀ (i : Nat) (out : Option (Ten R)) (h c : Ten R) (lo fr : List (Tsr R)) (bs : List Nat),
      i + k = T → IsOut out ty i B H rev hs → IsMat h ty B H (hs i) → IsMat c ty B H (cs i) → 6 ≤ fr.length →
      ∃ fr' out' h' c', unroll S x T rev w r wb rb k i out h c (st lo fr bs) = .ok (st lo fr' bs) (out', h', c') ∧
        6 ≤ fr'.length ∧ IsOut out' ty T B H rev hs ∧ IsMat h' ty B H (hs T) ∧ IsMat c' ty B H (cs T) := by
  induction k with
  | zero =>
    intro i out h c lo fr bs hi ho hh' hc' hfr
    have : i = T := by omega
    subst this
    exact ⟨fr, out, h, c, rfl, hfr, ho, hh', hc'⟩
  | succ k ih =>
    intro i out h c lo fr bs hi ho hh' hc' hfr
    have hT : i < T := by omega
    obtain ⟨xt, ext, hxt⟩ := slice1_seq hx (if rev then T - i - 1 else i) (by split <;> omega)
    obtain ⟨vf, vo, h1, c1, ecell, hh1, hc1⟩ := cellStep_mat S hxt hw hwb hh' hc' hr hrb lo fr bs
    have hh1' := hh1.congr (g := hs (i + 1)) fun b hb k hk => (hh i hT b hb k hk).symm
    have hc1' := hc1.congr (g := cs (i + 1)) fun b hb k hk => (hc i hT b hb k hk).symm
    obtain ⟨eh, eeh, heh⟩ := expand_mat hh1'
    obtain ⟨fr2, o, eo, ho'⟩ := collect_ok ho heh lo (fr ++ [vf, vo] ++ [h1.t]) bs
    have hlen : 8 ≤ (fr ++ [vf, vo] ++ [h1.t] ++ fr2).length := by simp; omega
    have hidx : (if rev = true then (T : Int) - i - 1 else i) = ((if rev then T - i - 1 else i : Nat) : Int) := by
      cases rev
      · simp
      · simp; omega
    have E : unroll S x T rev w r wb rb (k + 1) i out h c (st lo fr bs) =
        unroll S x T rev w r wb rb k (i + 1) (some o) h1 c1
          (st lo (((fr ++ [vf, vo] ++ [h1.t] ++ fr2).take 7) ++
            (fr ++ [vf, vo] ++ [h1.t] ++ fr2).drop ((fr ++ [vf, vo] ++ [h1.t] ++ fr2).length - 1)) bs) := by
      rw [unroll, hidx, ext]
      have e7 := erase7_st lo _ bs hlen
      simp only [Out.bind, orUbV, orUb, ecell, eeh, eo, e7]
    rw [E]
    exact ih (i + 1) (some o) h1 c1 lo _ bs (by omega) ho' hh1' hc1' (by
      simp only [List.length_append, List.length_take, List.length_drop] at hlen ⊢; omega)

theorem slice2_mat {t : Ten R} {ty m n f} (ht : IsMat t ty m n f) (b e : Nat) (hbe : b < e) (he : e ≤ m)
    (s : Stk (Tsr R)) :
    ∃ u, slice2 t (b : Int) (e : Int) s = .ok s u ∧ IsMat u ty (e - b) n (fun i j => f (b + i) j) := by
  refine ⟨⟨t.ty, [e - b, n], fun idx => t.el ((b + idx.headD 0) :: idx.tail)⟩, ?_, ht.ty, rfl, ?_⟩
  · unfold slice2
    rw [if_pos (by omega), ht.shape]
    simp only []
    rw [if_pos (by omega)]
    simp
  · intro i hi j hj
    exact ht.el (b + i) (by omega) j hj

theorem slice2_vec {t : Ten R} {ty m f} (ht : IsVec t ty m f) (b e : Nat) (hbe : b < e) (he : e ≤ m)
    (s : Stk (Tsr R)) :
    ∃ u, slice2 t (b : Int) (e : Int) s = .ok s u ∧ IsVec u ty (e - b) (fun j => f (b + j)) := by
  refine ⟨⟨t.ty, [e - b], fun idx => t.el ((b + idx.headD 0) :: idx.tail)⟩, ?_, ht.ty, rfl, ?_⟩
  · unfold slice2
    rw [if_pos (by omega), ht.shape]
    simp only []
    rw [if_pos (by omega)]
    simp
  · intro j hj
    exact ht.el (b + j) (by omega)

theorem gates_mat {t : Ten R} {ty n f} {H : Nat} (hH : 0 < H) (ht : IsMat t ty (4 * H) n f) (s : Stk (Tsr R)) :
    ∃ g, gates t (H : Int) 0 s = .ok s g ∧ IsGates g ty H n (fun g k j => f (g * H + k) j) := by
  obtain ⟨a, ea, ha⟩ := slice2_mat ht 0 H hH (by omega) s
  obtain ⟨b, eb, hb⟩ := slice2_mat ht H (2 * H) (by omega) (by omega) s
  obtain ⟨c, ec, hc⟩ := slice2_mat ht (2 * H) (3 * H) (by omega) (by omega) s
  obtain ⟨d, ed, hd⟩ := slice2_mat ht (3 * H) (4 * H) (by omega) (by omega) s
  refine ⟨⟨a, b, c, d⟩, ?_, ?_, ?_, ?_, ?_⟩
  · unfold gates
    rw [show (H : Int) * 0 = ((0 : Nat) : Int) by simp, show (H : Int) * (0 + 1) = (H : Int) by simp,
      show (H : Int) * (0 + 2) = ((2 * H : Nat) : Int) by push_cast; ring,
      show (H : Int) * (0 + 3) = ((3 * H : Nat) : Int) by push_cast; ring,
      show (H : Int) * (0 + 4) = ((4 * H : Nat) : Int) by push_cast; ring, ea]
    simp only [Out.bind, eb, ec, ed]
  · rw [Nat.sub_zero] at ha; simpa using ha
  · rw [show 2 * H - H = H by omega] at hb; simpa using hb
  · rw [show 3 * H - 2 * H = H by omega] at hc; exact hc
  · rw [show 4 * H - 3 * H = H by omega] at hd; exact hd

theorem gates_vec {t : Ten R} {ty f} {H m : Nat} (hH : 0 < H) (ht : IsVec t ty m f) (q : Nat) (hm : q * H + 4 * H ≤ m)
    (s : Stk (Tsr R)) :
    ∃ g, gates t (H : Int) (q : Int) s = .ok s g ∧ IsGatesV g ty H (fun g k => f (q * H + g * H + k)) := by
  obtain ⟨a, ea, ha⟩ := slice2_vec ht (q * H) (q * H + H) (by omega) (by omega) s
  obtain ⟨b, eb, hb⟩ := slice2_vec ht (q * H + H) (q * H + 2 * H) (by omega) (by omega) s
  obtain ⟨c, ec, hc⟩ := slice2_vec ht (q * H + 2 * H) (q * H + 3 * H) (by omega) (by omega) s
  obtain ⟨d, ed, hd⟩ := slice2_vec ht (q * H + 3 * H) (q * H + 4 * H) (by omega) (by omega) s
  refine ⟨⟨a, b, c, d⟩, ?_, ?_, ?_, ?_, ?_⟩
  · unfold gates
    rw [show (H : Int) * (q : Int) = ((q * H : Nat) : Int) by push_cast; ring,
      show (H : Int) * ((q : Int) + 1) = ((q * H + H : Nat) : Int) by push_cast; ring,
      show (H : Int) * ((q : Int) + 2) = ((q * H + 2 * H : Nat) : Int) by push_cast; ring,
      show (H : Int) * ((q : Int) + 3) = ((q * H + 3 * H : Nat) : Int) by push_cast; ring,
      show (H : Int) * ((q : Int) + 4) = ((q * H + 4 * H : Nat) : Int) by push_cast; ring, ea]
    simp only [Out.bind, eb, ec, ed]
  · rw [Nat.add_sub_cancel_left] at ha; simpa using ha
  · rw [show q * H + 2 * H - (q * H + H) = H by omega] at hb; simpa using hb
  · rw [show q * H + 3 * H - (q * H + 2 * H) = H by omega] at hc; exact hc
  · rw [show q * H + 4 * H - (q * H + 3 * H) = H by omega] at hd; exact hd

/-- `lstm_compute` follows any pair of sequences that satisfies the recurrence. -/
theorem compute_ok (S : Scalar R) {x w r b h0 c0 : Ten R} {ty} {T B I H : Nat} {rev : Bool} {X W Rm} {bb : Nat → R}
    (hH : 0 < H) (hx : IsSeq x ty T B I X) (hw : IsMat w ty (4 * H) I W) (hr : IsMat r ty (4 * H) H Rm)
    (hb : IsVec b ty (8 * H) bb) (hs cs : Nat → Nat → Nat → R)
    (hh0 : IsMat h0 ty B H (hs 0)) (hc0 : IsMat c0 ty B H (cs 0))
    (hh : ∀ t < T, ∀ b < B, ∀ k < H, hs (t + 1) b k =
      nextH S I H (X (if rev then T - t - 1 else t)) (fun g k j => W (g * H + k) j) (fun g k j => Rm (g * H + k) j)
        (fun g k => bb (g * H + k)) (fun g k => bb (4 * H + g * H + k)) (hs t) (cs t) b k)
    (hc : ∀ t < T, ∀ b < B, ∀ k < H, cs (t + 1) b k =
      nextC S I H (X (if rev then T - t - 1 else t)) (fun g k j => W (g * H + k) j) (fun g k j => Rm (g * H + k) j)
        (fun g k => bb (g * H + k)) (fun g k => bb (4 * H + g * H + k)) (hs t) (cs t) b k)
    (lo fr : List (Tsr R)) (bs : List Nat) (hfr : 6 ≤ fr.length) :
    ∃ fr' out' h' c', compute S (H : Int) x w r b h0 c0 rev (st lo fr bs) = .ok (st lo fr' bs) (out', h', c') ∧
        6 ≤ fr'.length ∧ IsOut out' ty T B H rev hs ∧ IsMat h' ty B H (hs T) ∧ IsMat c' ty B H (cs T) := by
  obtain ⟨gw, egw, hgw⟩ := gates_mat hH hw (st lo fr bs)
  obtain ⟨gr, egr, hgr⟩ := gates_mat hH hr (st lo fr bs)
  obtain ⟨gb, egb, hgb⟩ := gates_vec hH hb 0 (by omega) (st lo fr bs)
  obtain ⟨gc, egc, hgc⟩ := gates_vec hH hb 4 (by omega) (st lo fr bs)
  have hgb' : IsGatesV gb ty H (fun g k => bb (g * H + k)) := by
    simpa using hgb
  obtain ⟨fr', o, h', c', E, rest⟩ := unroll_ok S hx hgw hgb' hgr hgc hs cs hh hc T 0 none h0 c0 lo fr bs (by omega)
    (Or.inl ⟨rfl, rfl⟩) hh0 hc0 hfr
  refine ⟨fr', o, h', c', ?_, rest⟩
  unfold compute
  rw [egw]
  show Out.bind (gates r _ _ _) _ = _
  rw [egr]
  show Out.bind (gates b _ _ _) _ = _
  have egb' : gates b (H : Int) 0 (st lo fr bs) = .ok (st lo fr bs) gb := egb
  rw [egb']
  show Out.bind (gates b _ _ _) _ = _
  have egc' : gates b (H : Int) 4 (st lo fr bs) = .ok (st lo fr bs) gc := egc
  rw [egc']
  show unroll S x (x.shape.headD 0) rev gw gr gb gc (x.shape.headD 0) 0 none h0 c0 _ = _
  rw [hx.shape]
  exact E

end Verif.Lstm
