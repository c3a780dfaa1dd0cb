import Verif.Runtime.LstmLemmas
/-!
# C78: the LSTM operator computes the LSTM recurrence

The specification is `LstmStates`: the hidden and cell states of one direction, step by step, with the gates in
the order input, output, forget, cell. The scalar operations are arbitrary functions, so the theorems hold for
the rounded arithmetic of the callees as well.
-/
namespace Verif.Props
open Verif.Lstm Verif.Runtime
variable {R : Type}

/-- The value of gate `g` for batch entry `b` and hidden unit `k` before its activation: input part plus recurrent
part, each a product with the rows of that gate and its own bias. -/
def gateSum (S : Scalar R) (I H : Nat) (x : Nat → R) (W Rm : Nat → Nat → R) (bias : Nat → R) (h : Nat → R) (g k : Nat) : R :=
  S.add (S.lin ((List.range I).map x) ((List.range I).map (W (g * H + k))) (bias (g * H + k)))
    (S.lin ((List.range H).map h) ((List.range H).map (Rm (g * H + k))) (bias (4 * H + g * H + k)))

/-- The LSTM recurrence over the inputs `X 0, X 1, …` (time, batch, feature): `hs t`, `cs t` are the hidden and the
cell state after `t` steps. Gates: 0 input, 1 output, 2 forget, 3 cell. -/
structure LstmStates (S : Scalar R) (T B I H : Nat) (X : Nat → Nat → Nat → R) (W Rm : Nat → Nat → R) (bias : Nat → R)
    (h0 c0 : Nat → Nat → R) (hs cs : Nat → Nat → Nat → R) : Prop where
  h_zero : ∀ b < B, ∀ k < H, hs 0 b k = h0 b k
  c_zero : ∀ b < B, ∀ k < H, cs 0 b k = c0 b k
  c_succ : ∀ t < T, ∀ b < B, ∀ k < H, cs (t + 1) b k =
    S.add (S.mul (S.sigmoid (gateSum S I H (X t b) W Rm bias (hs t b) 0 k))
        (S.tanh (gateSum S I H (X t b) W Rm bias (hs t b) 3 k)))
      (S.mul (S.sigmoid (gateSum S I H (X t b) W Rm bias (hs t b) 2 k)) (cs t b k))
  h_succ : ∀ t < T, ∀ b < B, ∀ k < H, hs (t + 1) b k =
    S.mul (S.tanh (cs (t + 1) b k)) (S.sigmoid (gateSum S I H (X t b) W Rm bias (hs t b) 1 k))

/-- An initial state: given with its three extents, or with fewer extents, which stands for zeros and works for
FLOAT32 only. -/
def InitialState (S : Scalar R) (t : Ten R) (ty : Dt) (D B H : Nat) (f : Nat → Nat → Nat → R) : Prop :=
  IsSeq t ty D B H f ∨ (t.shape.length < 3 ∧ ty = .f32 ∧ ∀ d b k, f d b k = S.zero)

/-- The operands on the frame: `x [T,B,I]`, `w [D,4H,I]`, `r [D,4H,H]`, `b [D,8H]` and the two initial states; there
may be more behind them. -/
def LstmOperands (S : Scalar R) (fr : List (Tsr R)) (ty : Dt) (D T B I H : Nat) (X W Rm : Nat → Nat → Nat → R)
    (bias : Nat → Nat → R) (h0 c0 : Nat → Nat → Nat → R) : Prop :=
  ∃ x w r b h c more, fr.map Tsr.hd = x :: w :: r :: b :: h :: c :: more ∧
    IsSeq x ty T B I X ∧ IsSeq w ty D (4 * H) I W ∧ IsSeq r ty D (4 * H) H Rm ∧ IsMat b ty D (8 * H) bias ∧
    InitialState S h ty D B H h0 ∧ InitialState S c ty D B H c0

theorem operand_st (lo fr : List (Tsr R)) (bs) (i : Nat) (t : Ten R) (h : (fr.map Tsr.hd)[i]? = some t) :
    operand (st lo fr bs) i = .ok (st lo fr bs) t := by
  rw [List.getElem?_map] at h
  unfold operand
  rw [Stk.index_mk]
  cases hv : fr[i]? with
  | none => rw [hv] at h; cases h
  | some v => rw [hv] at h; simp only [Option.map_some, Option.some.injEq] at h; simp only [h]

theorem initial_ok {S : Scalar R} {x w r t : Ten R} {ty D T B I H} {X W Rm} {f} (hx : IsSeq x ty T B I X)
    (hw : IsSeq w ty D (4 * H) I W) (hr : IsSeq r ty D (4 * H) H Rm) (ht : InitialState S t ty D B H f) :
    ∃ t', initial S x w r t = some t' ∧ IsSeq t' ty D B H f := by
  rcases ht with ht | ⟨h1, h2, h3⟩
  · exact ⟨t, by simp [initial, ht.shape], ht⟩
  · refine ⟨⟨.f32, [D, B, H], fun _ => S.zero⟩, ?_, h2.symm, rfl, fun _ _ _ _ _ _ => (h3 _ _ _).symm⟩
    unfold initial
    rw [if_pos h1, if_pos (by simp [hx.shape, hw.shape, hr.shape])]
    simp [hx.shape, hw.shape, hr.shape]

theorem slice1_mat {x : Ten R} {ty m n f} (hx : IsMat x ty m n f) (a : Nat) (ha : a < m) :
    ∃ t, slice1 x (a : Int) = some t ∧ IsVec t ty n (f a) := by
  refine ⟨⟨x.ty, [n], fun idx => x.el (a :: idx)⟩, ?_, hx.ty, rfl, fun j hj => hx.el a ha j hj⟩
  unfold slice1
  rw [hx.shape]
  simp only []
  rw [if_pos (by omega)]
  simp

/-- the tensors of direction `d` -/
structure IsDir (v : Dir R) (ty : Dt) (B I H : Nat) (W Rm : Nat → Nat → R) (bias : Nat → R) (h0 c0 : Nat → Nat → R) :
    Prop where
  w : IsMat v.w ty (4 * H) I W
  r : IsMat v.r ty (4 * H) H Rm
  b : IsVec v.b ty (8 * H) bias
  h : IsMat v.h ty B H h0
  c : IsMat v.c ty B H c0

theorem sliceDir_ok {w r b h c : Ten R} {ty D B I H} {W Rm h0 c0} {bias}
    (hw : IsSeq w ty D (4 * H) I W) (hr : IsSeq r ty D (4 * H) H Rm) (hb : IsMat b ty D (8 * H) bias)
    (hh : IsSeq h ty D B H h0) (hc : IsSeq c ty D B H c0) (d : Nat) (hd : d < D) (s : Stk (Tsr R)) :
    ∃ v, sliceDir w r b h c d s = .ok s v ∧ IsDir v ty B I H (W d) (Rm d) (bias d) (h0 d) (c0 d) := by
  obtain ⟨w', ew, hw'⟩ := slice1_seq hw d hd
  obtain ⟨r', er, hr'⟩ := slice1_seq hr d hd
  obtain ⟨b', eb, hb'⟩ := slice1_mat hb d hd
  obtain ⟨h', eh, hh'⟩ := slice1_seq hh d hd
  obtain ⟨c', ec, hc'⟩ := slice1_seq hc d hd
  refine ⟨⟨w', r', b', h', c'⟩, ?_, hw', hr', hb', hh', hc'⟩
  unfold sliceDir
  simp only [ew, er, eb, eh, ec, orUbV, Out.bind]

/-- one direction follows its recurrence -/
theorem dir_ok (S : Scalar R) {x : Ten R} {v : Dir R} {ty} {T B I H : Nat} {X} {W Rm} {bias} {h0 c0} (rev : Bool)
    (hH : 0 < H) (hx : IsSeq x ty T B I X) (hv : IsDir v ty B I H W Rm bias h0 c0) {hs cs}
    (hst : LstmStates S T B I H (fun t => X (if rev then T - 1 - t else t)) W Rm bias h0 c0 hs cs)
    (lo fr : List (Tsr R)) (bs : List Nat) (hfr : 6 ≤ fr.length) :
    ∃ fr' out' h' c', compute S (H : Int) x v.w v.r v.b v.h v.c rev (st lo fr bs) = .ok (st lo fr' bs) (out', h', c') ∧
        6 ≤ fr'.length ∧ IsOut out' ty T B H rev hs ∧ IsMat h' ty B H (hs T) ∧ IsMat c' ty B H (cs T) := by
  have hc : ∀ t < T, ∀ b < B, ∀ k < H, cs (t + 1) b k =
      nextC S I H (X (if rev then T - t - 1 else t)) (fun g k j => W (g * H + k) j) (fun g k j => Rm (g * H + k) j)
        (fun g k => bias (g * H + k)) (fun g k => bias (4 * H + g * H + k)) (hs t) (cs t) b k := by
    intro t ht b hb k hk
    rw [hst.c_succ t ht b hb k hk, show T - t - 1 = T - 1 - t by omega]
    rfl
  refine compute_ok S hH hx hv.w hv.r hv.b hs cs (hv.h.congr fun b hb k hk => (hst.h_zero b hb k hk).symm)
    (hv.c.congr fun b hb k hk => (hst.c_zero b hb k hk).symm) ?_ hc lo fr bs hfr
  intro t ht b hb k hk
  rw [hst.h_succ t ht b hb k hk, hc t ht b hb k hk, show T - t - 1 = T - 1 - t by omega]
  rfl

/-- the three results of a direction, with the extent of the direction -/
structure IsResult (v : Ten R × Ten R × Ten R) (ty : Dt) (T B H : Nat) (y : Nat → Nat → Nat → R) (h c : Nat → Nat → R) :
    Prop where
  yty : v.1.ty = ty
  yshape : v.1.shape = [T, 1, B, H]
  y : ∀ t < T, ∀ b < B, ∀ k < H, v.1.el [t, 0, b, k] = y t b k
  h : IsSeq v.2.1 ty 1 B H (fun _ => h)
  c : IsSeq v.2.2 ty 1 B H (fun _ => c)

theorem expandAll_ok {out : Option (Ten R)} {h c : Ten R} {ty T B H rev hs} {fh fc} (hT : 0 < T)
    (ho : IsOut out ty T B H rev hs) (hh : IsMat h ty B H fh) (hc : IsMat c ty B H fc) (s : Stk (Tsr R)) :
    ∃ v, expandAll s (out, h, c) = .ok s v ∧
      IsResult v ty T B H (fun t => if rev then hs (T - t) else hs (t + 1)) fh fc := by
  rcases ho with ⟨h1, _⟩ | ⟨_, o, rfl, ho⟩
  · omega
  obtain ⟨h', eh, hh'⟩ := expand_mat hh
  obtain ⟨c', ec, hc'⟩ := expand_mat hc
  refine ⟨(⟨o.ty, [T, 1, B, H], fun idx => o.el (idx.eraseIdx 1)⟩, h', c'), ?_, ho.ty, rfl, ?_, hh', hc'⟩
  · unfold expandAll
    have eo : expand o 1 = some ⟨o.ty, [T, 1, B, H], fun idx => o.el (idx.eraseIdx 1)⟩ := by
      simp [expand, ho.shape]
    simp only [orUbV, Out.bind, eo, eh, ec]
  · intro t ht b hb k hk
    exact ho.el t ht b hb k hk

theorem eraseLast_st (lo fr : List (Tsr R)) (bs) (h : 0 < fr.length) :
    (st lo fr bs).eraseOne (-1) = some (st lo fr.dropLast bs) := by
  have h1 : (((lo ++ fr).length : Int) + -1).toNat = (lo ++ fr).length - 1 := by omega
  have h2 : (0:Int) ≤ ((lo ++ fr).length : Int) + -1 ∧ ((lo ++ fr).length : Int) + -1 < (lo ++ fr).length := by
    rw [List.length_append]; push_cast; omega
  simp only [Stk.eraseOne, Stk.abs, show ¬ (0:Int) ≤ -1 from by omega, if_false, if_pos h2, h1]
  rw [List.eraseIdx_length_sub_one]
  rw [List.dropLast_append_of_ne_nil (by intro h'; simp [h'] at h)]

theorem infer_ok {S : Scalar R} {lo fr : List (Tsr R)} {bs} {ty D T B I H} {X W Rm bias h0 c0}
    (h : LstmOperands S fr ty D T B I H X W Rm bias h0 c0) (dir : String) :
    infer dir (H : Int) (st lo fr bs) = .ok (st lo fr bs)
      (let d : Int := if dir = "bidirectional" then 2 else 1
       [[(T : Int), d, B, H], [d, (B : Int), H], [d, (B : Int), H]]) := by
  obtain ⟨x, w, r, b, h, c, more, e, hx, -⟩ := h
  unfold infer
  rw [operand_st lo fr bs 0 x (by rw [e]; rfl)]
  simp only [Out.bind]
  rw [operand_st lo fr bs 1 w (by rw [e]; rfl)]
  simp only []
  rw [operand_st lo fr bs 2 r (by rw [e]; rfl)]
  simp only []
  rw [if_neg (by simp [hx.shape]), if_neg (by omega)]
  have : (if directionOf dir = 2 then (2:Int) else 1) = if dir = "bidirectional" then 2 else 1 := by
    unfold directionOf; split <;> simp_all
  rw [this]
  simp [hx.shape]

/-- **Forward LSTM.** With any direction but "bidirectional" the operator pushes one packed tensor: all hidden
states `[T,1,B,H]`, the last hidden state and the last cell state `[1,B,H]`, all of them the values of the
recurrence; the tensors below its frame and the bases are untouched. -/
theorem C78_forward (S : Scalar R) (dir : String) (hdir : dir ≠ "bidirectional") {lo fr : List (Tsr R)} {bs : List Nat}
    {ty} {D T B I H : Nat} {X W Rm bias h0 c0} (hH : 0 < H) (hT : 0 < T) (hD : 1 ≤ D)
    (hop : LstmOperands S fr ty D T B I H X W Rm bias h0 c0) {hs cs}
    (hst : LstmStates S T B I H X (W 0) (Rm 0) (bias 0) (h0 0) (c0 0) hs cs) :
    ∃ fr' y yh yc, run S dir (H : Int) ⟨lo ++ fr, lo.length, bs⟩ =
        .ok ⟨lo ++ (fr' ++ [⟨y, [yh, yc]⟩]), lo.length, bs⟩ 1 ∧
      y.ty = ty ∧ y.shape = [T, 1, B, H] ∧ (∀ t < T, ∀ b < B, ∀ k < H, y.el [t, 0, b, k] = hs (t + 1) b k) ∧
      yh.ty = ty ∧ yh.shape = [1, B, H] ∧ (∀ b < B, ∀ k < H, yh.el [0, b, k] = hs T b k) ∧
      yc.ty = ty ∧ yc.shape = [1, B, H] ∧ (∀ b < B, ∀ k < H, yc.el [0, b, k] = cs T b k) := by
  have hinf := infer_ok (lo := lo) (bs := bs) hop dir
  obtain ⟨x, w, r, b, h, c, more, e, hx, hw, hr, hb, hh, hc⟩ := hop
  have hlen : 6 ≤ fr.length := by
    have := congrArg List.length e
    simp at this; omega
  obtain ⟨h', eh, hh'⟩ := initial_ok hx hw hr hh
  obtain ⟨c', ec, hc'⟩ := initial_ok hx hw hr hc
  obtain ⟨d0, ed0, hd0⟩ := sliceDir_ok hw hr hb hh' hc' 0 (by omega) (st lo fr bs)
  obtain ⟨fr1, out, hl, cl, ecomp, hfr1, hout, hhl, hcl⟩ := dir_ok S false hH hx hd0 hst lo fr bs hlen
  obtain ⟨v, ev, hv⟩ := expandAll_ok hT hout hhl hcl (st lo fr1.dropLast bs)
  refine ⟨fr1.dropLast, v.1, v.2.1, v.2.2, ?_, hv.yty, hv.yshape, hv.y, hv.h.ty, hv.h.shape,
    hv.h.el 0 (by omega), hv.c.ty, hv.c.shape, hv.c.el 0 (by omega)⟩
  have hd : ¬ directionOf dir = 2 := by unfold directionOf; rw [if_neg hdir]; omega
  unfold run
  rw [Stk.size_mk, if_neg (by omega), hinf]
  simp only [Out.bind]
  rw [operand_st lo fr bs 0 x (by rw [e]; rfl)]
  simp only []
  rw [operand_st lo fr bs 1 w (by rw [e]; rfl)]
  simp only []
  rw [operand_st lo fr bs 2 r (by rw [e]; rfl)]
  simp only []
  rw [operand_st lo fr bs 3 b (by rw [e]; rfl)]
  simp only []
  rw [operand_st lo fr bs 4 h (by rw [e]; rfl)]
  simp only []
  rw [operand_st lo fr bs 5 c (by rw [e]; rfl)]
  simp only [eh, ec, orUbV, if_neg hd, ed0, ecomp, eraseLast_st lo fr1 bs (by omega), orUb, ev]
  rw [push_st]

theorem joinTwo_ok (dim : Nat) {f g v : Ten R} (hv : concat dim [f.t, g.t] = some v) (lo fr : List (Tsr R)) (bs) :
    joinTwo dim f g (st lo fr bs) = .ok (st lo fr bs) v := by
  unfold joinTwo
  rw [show ((st lo fr bs).push f.t).push g.t = st lo (fr ++ [f.t, g.t]) bs by simp [push_st],
    run_pure1 _ lo fr _ bs v 2 rfl (by simp) hv]
  simp only [Out.bind, top_st, orUbV]
  rw [eraseLast_st lo _ bs (by simp)]
  simp [orUb]

theorem concat1_ok {a b : Ten R} {ty T B H} (ha : a.ty = ty) (ha' : a.shape = [T, 1, B, H]) (hb : b.ty = ty)
    (hb' : b.shape = [T, 1, B, H]) :
    ∃ t, concat 1 [a.t, b.t] = some t ∧ t.ty = ty ∧ t.shape = [T, 2, B, H] ∧
      (∀ i j k, t.el [i, 0, j, k] = a.el [i, 0, j, k]) ∧ (∀ i j k, t.el [i, 1, j, k] = b.el [i, 0, j, k]) := by
  have e1 : ¬ a.ty ≠ b.ty := by simp [ha, hb]
  have e : concat 1 [a.t, b.t] = some ⟨a.ty, a.shape.set 1 (a.shape.getD 1 0 + b.shape.getD 1 0), fun idx =>
      if idx.getD 1 0 < a.shape.getD 1 0 then a.el idx
      else b.el (idx.set 1 (idx.getD 1 0 - a.shape.getD 1 0))⟩ := by
    unfold concat Ten.t
    simp only []
    rw [if_neg e1, if_neg (by simp [ha']), if_neg (by simp [ha', hb']), if_neg (by simp [ha', hb'])]
  refine ⟨_, e, ha, by simp [ha', hb'], ?_, ?_⟩
  · intro i j k; simp [ha']
  · intro i j k; simp [ha']

/-- **Bidirectional LSTM.** The second direction runs the recurrence over the sequence backwards with its own
weights; its hidden states are stored at the times they belong to, its last states are those after the first
element of the sequence. -/
theorem C78_bidirectional (S : Scalar R) {lo fr : List (Tsr R)} {bs : List Nat}
    {ty} {D T B I H : Nat} {X W Rm bias h0 c0} (hH : 0 < H) (hT : 0 < T) (hD : 2 ≤ D)
    (hop : LstmOperands S fr ty D T B I H X W Rm bias h0 c0) {hs cs hs' cs'}
    (hst : LstmStates S T B I H X (W 0) (Rm 0) (bias 0) (h0 0) (c0 0) hs cs)
    (hst' : LstmStates S T B I H (fun t => X (T - 1 - t)) (W 1) (Rm 1) (bias 1) (h0 1) (c0 1) hs' cs') :
    ∃ fr' y yh yc, run S "bidirectional" (H : Int) ⟨lo ++ fr, lo.length, bs⟩ =
        .ok ⟨lo ++ (fr' ++ [⟨y, [yh, yc]⟩]), lo.length, bs⟩ 1 ∧
      y.ty = ty ∧ y.shape = [T, 2, B, H] ∧ (∀ t < T, ∀ b < B, ∀ k < H, y.el [t, 0, b, k] = hs (t + 1) b k) ∧
      (∀ t < T, ∀ b < B, ∀ k < H, y.el [t, 1, b, k] = hs' (T - t) b k) ∧
      yh.ty = ty ∧ yh.shape = [2, B, H] ∧ (∀ b < B, ∀ k < H, yh.el [0, b, k] = hs T b k) ∧
      (∀ b < B, ∀ k < H, yh.el [1, b, k] = hs' T b k) ∧
      yc.ty = ty ∧ yc.shape = [2, B, H] ∧ (∀ b < B, ∀ k < H, yc.el [0, b, k] = cs T b k) ∧
      (∀ b < B, ∀ k < H, yc.el [1, b, k] = cs' T b k) := by
  have hinf := infer_ok (lo := lo) (bs := bs) hop "bidirectional"
  obtain ⟨x, w, r, b, h, c, more, e, hx, hw, hr, hb, hh, hc⟩ := hop
  have hlen : 6 ≤ fr.length := by
    have := congrArg List.length e
    simp at this; omega
  obtain ⟨h', eh, hh'⟩ := initial_ok hx hw hr hh
  obtain ⟨c', ec, hc'⟩ := initial_ok hx hw hr hc
  obtain ⟨d0, ed0, hd0⟩ := sliceDir_ok hw hr hb hh' hc' 0 (by omega) (st lo fr bs)
  obtain ⟨d1, ed1, hd1⟩ := sliceDir_ok hw hr hb hh' hc' 1 (by omega) (st lo fr bs)
  obtain ⟨fr1, out, hl, cl, ecomp, hfr1, hout, hhl, hcl⟩ := dir_ok S false hH hx hd0 hst lo fr bs hlen
  obtain ⟨fr2, out', hl', cl', ecomp', hfr2, hout', hhl', hcl'⟩ := dir_ok S true hH hx hd1 hst' lo fr1 bs hfr1
  obtain ⟨v, ev, hv⟩ := expandAll_ok hT hout hhl hcl (st lo fr2.dropLast bs)
  obtain ⟨u, eu, hu⟩ := expandAll_ok hT hout' hhl' hcl' (st lo fr2.dropLast bs)
  obtain ⟨y, ey, y1, y2, y3, y4⟩ := concat1_ok hv.yty hv.yshape hu.yty hu.yshape
  obtain ⟨yh, eyh, hyh⟩ := concat0_seq hv.h hu.h
  obtain ⟨yc, eyc, hyc⟩ := concat0_seq hv.c hu.c
  refine ⟨fr2.dropLast, y, yh, yc, ?_, y1, y2, ?_, ?_, hyh.ty, hyh.shape, ?_, ?_, hyc.ty, hyc.shape, ?_, ?_⟩
  · have hd : directionOf "bidirectional" = 2 := by simp [directionOf]
    have ed1' : sliceDir w r b h' c' 1 (st lo fr bs) = .ok (st lo fr bs) d1 := ed1
    unfold run
    rw [Stk.size_mk, if_neg (by omega), hinf]
    simp only [Out.bind]
    rw [operand_st lo fr bs 0 x (by rw [e]; rfl)]
    simp only []
    rw [operand_st lo fr bs 1 w (by rw [e]; rfl)]
    simp only []
    rw [operand_st lo fr bs 2 r (by rw [e]; rfl)]
    simp only []
    rw [operand_st lo fr bs 3 b (by rw [e]; rfl)]
    simp only []
    rw [operand_st lo fr bs 4 h (by rw [e]; rfl)]
    simp only []
    rw [operand_st lo fr bs 5 c (by rw [e]; rfl)]
    simp only [eh, ec, orUbV, if_pos hd, ed0, ed1', ecomp, ecomp', eraseLast_st lo fr2 bs (by omega), orUb, ev, eu,
      joinTwo_ok 1 ey, joinTwo_ok 0 eyh, joinTwo_ok 0 eyc]
    rw [push_st]
  · intro t ht b hb k hk; rw [y3, hv.y t ht b hb k hk]; rfl
  · intro t ht b hb k hk; rw [y4, hu.y t ht b hb k hk]; rfl
  · intro b hb k hk; rw [hyh.el 0 (by omega) b hb k hk]; rfl
  · intro b hb k hk; rw [hyh.el 1 (by omega) b hb k hk]; rfl
  · intro b hb k hk; rw [hyc.el 0 (by omega) b hb k hk]; rfl
  · intro b hb k hk; rw [hyc.el 1 (by omega) b hb k hk]; rfl

/-- The recurrence always has a solution: the hypothesis of the two theorems above can be met for all operands. -/
theorem C78_states_exist (S : Scalar R) (T B I H : Nat) (X : Nat → Nat → Nat → R) (W Rm : Nat → Nat → R)
    (bias : Nat → R) (h0 c0 : Nat → Nat → R) :
    ∃ hs cs, LstmStates S T B I H X W Rm bias h0 c0 hs cs := by
  let nc : Nat → (Nat → Nat → R) → (Nat → Nat → R) → Nat → Nat → R := fun t h c b k =>
    S.add (S.mul (S.sigmoid (gateSum S I H (X t b) W Rm bias (h b) 0 k))
        (S.tanh (gateSum S I H (X t b) W Rm bias (h b) 3 k)))
      (S.mul (S.sigmoid (gateSum S I H (X t b) W Rm bias (h b) 2 k)) (c b k))
  let nh : Nat → (Nat → Nat → R) → (Nat → Nat → R) → Nat → Nat → R := fun t h c b k =>
    S.mul (S.tanh (nc t h c b k)) (S.sigmoid (gateSum S I H (X t b) W Rm bias (h b) 1 k))
  let rec_ : Nat → (Nat → Nat → R) × (Nat → Nat → R) := fun t =>
    Nat.rec (h0, c0) (fun t p => (nh t p.1 p.2, nc t p.1 p.2)) t
  exact ⟨fun t => (rec_ t).1, fun t => (rec_ t).2, fun _ _ _ _ => rfl, fun _ _ _ _ => rfl,
    fun _ _ _ _ _ _ => rfl, fun _ _ _ _ _ _ => rfl⟩

/-- The recurrence has only one solution on the times and units it speaks about. -/
theorem C78_states_unique (S : Scalar R) (T B I H : Nat) (X : Nat → Nat → Nat → R) (W Rm : Nat → Nat → R)
    (bias : Nat → R) (h0 c0 : Nat → Nat → R) {hs cs hs' cs'} (h : LstmStates S T B I H X W Rm bias h0 c0 hs cs)
    (h' : LstmStates S T B I H X W Rm bias h0 c0 hs' cs') (t : Nat) (ht : t ≤ T) :
    (∀ b < B, ∀ k < H, hs t b k = hs' t b k) ∧ (∀ b < B, ∀ k < H, cs t b k = cs' t b k) := by
  induction t with
  | zero =>
    exact ⟨fun b hb k hk => by rw [h.h_zero b hb k hk, h'.h_zero b hb k hk],
      fun b hb k hk => by rw [h.c_zero b hb k hk, h'.c_zero b hb k hk]⟩
  | succ t ih =>
    obtain ⟨ihh, ihc⟩ := ih (by omega)
    have hg : ∀ b < B, ∀ g k, gateSum S I H (X t b) W Rm bias (hs t b) g k =
        gateSum S I H (X t b) W Rm bias (hs' t b) g k := by
      intro b hb g k
      unfold gateSum
      rw [show (List.range H).map (hs t b) = (List.range H).map (hs' t b) from row_congr H fun j hj => ihh b hb j hj]
    have hc : ∀ b < B, ∀ k < H, cs (t + 1) b k = cs' (t + 1) b k := by
      intro b hb k hk
      rw [h.c_succ t (by omega) b hb k hk, h'.c_succ t (by omega) b hb k hk, hg b hb, hg b hb, hg b hb, ihc b hb k hk]
    refine ⟨?_, hc⟩
    intro b hb k hk
    rw [h.h_succ t (by omega) b hb k hk, h'.h_succ t (by omega) b hb k hk, hg b hb, hc b hb k hk]

/-- `infer` announces the extents the two theorems above find in the results. -/
theorem C78_infer {S : Scalar R} {lo fr : List (Tsr R)} {bs} {ty D T B I H} {X W Rm bias h0 c0}
    (h : LstmOperands S fr ty D T B I H X W Rm bias h0 c0) (dir : String) :
    ∃ d : Int, (dir = "bidirectional" → d = 2) ∧ (dir ≠ "bidirectional" → d = 1) ∧
      infer dir (H : Int) ⟨lo ++ fr, lo.length, bs⟩ = .ok ⟨lo ++ fr, lo.length, bs⟩
        [[(T : Int), d, B, H], [d, (B : Int), H], [d, (B : Int), H]] :=
  ⟨_, fun e => if_pos e, fun e => if_neg e, infer_ok h dir⟩

/-- **The direction "reverse" is not implemented**: it gives exactly what "forward" gives. -/
theorem C78_reverse_false (S : Scalar R) (H : Int) (s : Stk (Tsr R)) : run S "reverse" H s = run S "forward" H s := by
  have : directionOf "reverse" = directionOf "forward" := by simp [directionOf]
  unfold run infer
  rw [this]

/-- **The last three operands are required**, although only three are checked for: with three to five operands the
run ends in an exception (`std::out_of_range`), never in a result. -/
theorem C78_missing_operands_false (S : Scalar R) (dir : String) (H : Int) (lo fr : List (Tsr R)) (bs)
    (h : 3 ≤ fr.length ∧ fr.length < 6) :
    (∃ s, run S dir H ⟨lo ++ fr, lo.length, bs⟩ = .err s) ∨ run S dir H ⟨lo ++ fr, lo.length, bs⟩ = .ub := by
  have hop : ∀ i : Nat, (∃ t, operand (st lo fr bs) i = .ok (st lo fr bs) t) ∨ operand (st lo fr bs) i = .err (st lo fr bs) := by
    intro i
    unfold operand
    cases (st lo fr bs).index i with
    | none => right; rfl
    | some v => left; exact ⟨v.hd, rfl⟩
  have h5 : operand (st lo fr bs) 5 = .err (st lo fr bs) := by
    unfold operand
    rw [Stk.index_mk, List.getElem?_eq_none (by omega)]
  have hinf : (∃ v, infer dir H (st lo fr bs) = .ok (st lo fr bs) v) ∨ (∃ s, infer dir H (st lo fr bs) = .err s) ∨
      infer dir H (st lo fr bs) = .ub := by
    unfold infer
    rcases hop 0 with ⟨x, e⟩ | e <;> rw [e] <;> simp only [Out.bind]
    · rcases hop 1 with ⟨w, e⟩ | e <;> rw [e] <;> simp only []
      · rcases hop 2 with ⟨r, e⟩ | e <;> rw [e] <;> simp only []
        · by_cases h1 : x.shape.length < 2
          · simp [if_pos h1]
          · by_cases h2 : H < 0
            · simp [if_neg h1, if_pos h2]
            · left; exact ⟨_, by rw [if_neg h1, if_neg h2]⟩
        · simp
      · simp
    · simp
  unfold run
  rw [Stk.size_mk, if_neg (by omega)]
  rcases hinf with ⟨v, e⟩ | ⟨s, e⟩ | e <;> rw [e] <;> simp only [Out.bind]
  · rcases hop 0 with ⟨x, e⟩ | e <;> rw [e] <;> simp only []
    · rcases hop 1 with ⟨x, e⟩ | e <;> rw [e] <;> simp only []
      · rcases hop 2 with ⟨x, e⟩ | e <;> rw [e] <;> simp only []
        · rcases hop 3 with ⟨x, e⟩ | e <;> rw [e] <;> simp only []
          · rcases hop 4 with ⟨x, e⟩ | e <;> rw [e] <;> simp only []
            · rw [h5]; simp
            · simp
          · simp
        · simp
      · simp
    · simp
  · simp
  · simp

/-- **An empty sequence is undefined behaviour**: there is no hidden state to give an extent to. -/
theorem C78_empty_sequence_false (S : Scalar R) (dir : String) (hdir : dir ≠ "bidirectional") {lo fr : List (Tsr R)}
    {bs : List Nat} {ty} {D B I H : Nat} {X W Rm bias h0 c0} (hH : 0 < H) (hD : 1 ≤ D)
    (hop : LstmOperands S fr ty D 0 B I H X W Rm bias h0 c0) :
    run S dir (H : Int) ⟨lo ++ fr, lo.length, bs⟩ = .ub := by
  have hinf := infer_ok (lo := lo) (bs := bs) hop dir
  obtain ⟨x, w, r, b, h, c, more, e, hx, hw, hr, hb, hh, hc⟩ := hop
  have hlen : 6 ≤ fr.length := by
    have := congrArg List.length e
    simp at this; omega
  obtain ⟨h', eh, hh'⟩ := initial_ok hx hw hr hh
  obtain ⟨c', ec, hc'⟩ := initial_ok hx hw hr hc
  obtain ⟨d0, ed0, hd0⟩ := sliceDir_ok hw hr hb hh' hc' 0 (by omega) (st lo fr bs)
  obtain ⟨hs, cs, hst⟩ := C78_states_exist S 0 B I H X (W 0) (Rm 0) (bias 0) (h0 0) (c0 0)
  obtain ⟨fr1, out, hl, cl, ecomp, hfr1, hout, hhl, hcl⟩ := dir_ok S false hH hx hd0 hst lo fr bs hlen
  have hout' : out = none := by
    rcases hout with ⟨_, h⟩ | ⟨h, _⟩
    · exact h
    · omega
  subst hout'
  have hd : ¬ directionOf dir = 2 := by unfold directionOf; rw [if_neg hdir]; omega
  unfold run
  rw [Stk.size_mk, if_neg (by omega), hinf]
  simp only [Out.bind]
  rw [operand_st lo fr bs 0 x (by rw [e]; rfl)]
  simp only []
  rw [operand_st lo fr bs 1 w (by rw [e]; rfl)]
  simp only []
  rw [operand_st lo fr bs 2 r (by rw [e]; rfl)]
  simp only []
  rw [operand_st lo fr bs 3 b (by rw [e]; rfl)]
  simp only []
  rw [operand_st lo fr bs 4 h (by rw [e]; rfl)]
  simp only []
  rw [operand_st lo fr bs 5 c (by rw [e]; rfl)]
  simp only [eh, ec, orUbV, if_neg hd, ed0, ecomp, eraseLast_st lo fr1 bs (by omega), orUb, expandAll, Out.bind]

/-- **Double precision needs explicit initial states**: the zeros that stand for a missing hidden state are
FLOAT32, so every FLOAT64 run without one ends in an exception of `gemm`. -/
theorem C78_double_without_state_false (S : Scalar R) (dir : String) (hdir : dir ≠ "bidirectional")
    {lo fr : List (Tsr R)} {bs : List Nat} {D T B I H : Nat} {X W Rm : Nat → Nat → Nat → R} {bias : Nat → Nat → R}
    (hH : 0 < H) (hT : 0 < T) (hD : 1 ≤ D) {x w r b h c : Ten R} {more : List (Ten R)}
    (e : fr.map Tsr.hd = x :: w :: r :: b :: h :: c :: more)
    (hx : IsSeq x .f64 T B I X) (hw : IsSeq w .f64 D (4 * H) I W) (hr : IsSeq r .f64 D (4 * H) H Rm)
    (hb : IsMat b .f64 D (8 * H) bias) (hh : h.shape.length < 3)
    (hc : c.shape.length < 3 ∨ ∃ f, IsSeq c .f64 D B H f) :
    ∃ s, run S dir (H : Int) ⟨lo ++ fr, lo.length, bs⟩ = .err s := by
  have hlen : 6 ≤ fr.length := by
    have := congrArg List.length e
    simp at this; omega
  have hini : ∀ t : Ten R, t.shape.length < 3 → ∃ u, initial S x w r t = some u ∧ u.shape = [D, B, H] ∧ u.ty = .f32 := by
    intro t ht
    refine ⟨⟨.f32, [D, B, H], fun _ => S.zero⟩, ?_, rfl, rfl⟩
    unfold initial
    rw [if_pos ht, if_pos (by simp [hx.shape, hw.shape, hr.shape])]
    simp [hx.shape, hw.shape, hr.shape]
  obtain ⟨h', eh, hh1, hh2⟩ := hini h hh
  obtain ⟨c', ec, hc1⟩ : ∃ u, initial S x w r c = some u ∧ u.shape = [D, B, H] := by
    rcases hc with hc | ⟨f, hc⟩
    · obtain ⟨u, h1, h2, _⟩ := hini c hc
      exact ⟨u, h1, h2⟩
    · exact ⟨c, by simp [initial, hc.shape], hc.shape⟩
  have hs1 : ∀ t : Ten R, t.shape = [D, B, H] → ∃ u, slice1 t ((0 : Nat) : Int) = some u ∧ u.ty = t.ty := by
    intro t ht
    refine ⟨⟨t.ty, [B, H], fun idx => t.el (0 :: idx)⟩, ?_, rfl⟩
    unfold slice1
    rw [ht]
    simp only []
    rw [if_pos (by omega)]
    simp
  obtain ⟨w0, ew, hw0⟩ := slice1_seq hw 0 (by omega)
  obtain ⟨r0, er, hr0⟩ := slice1_seq hr 0 (by omega)
  obtain ⟨b0, eb, hb0⟩ := slice1_mat hb 0 (by omega)
  obtain ⟨hi, ehi, hhi⟩ := hs1 h' hh1
  obtain ⟨ci, eci, _⟩ := hs1 c' hc1
  have edir : sliceDir w r b h' c' 0 (st lo fr bs) = .ok (st lo fr bs) ⟨w0, r0, b0, hi, ci⟩ := by
    unfold sliceDir
    simp only [ew, er, eb, ehi, eci, orUbV, Out.bind]
  obtain ⟨gw, egw, hgw⟩ := gates_mat hH hw0 (st lo fr bs)
  obtain ⟨gr, egr, hgr⟩ := gates_mat hH hr0 (st lo fr bs)
  obtain ⟨gb, egb, hgb⟩ := gates_vec hH hb0 0 (by omega) (st lo fr bs)
  obtain ⟨gc, egc, hgc⟩ := gates_vec hH hb0 4 (by omega) (st lo fr bs)
  have egb' : gates b0 (H : Int) 0 (st lo fr bs) = .ok (st lo fr bs) gb := egb
  have egc' : gates b0 (H : Int) 4 (st lo fr bs) = .ok (st lo fr bs) gc := egc
  obtain ⟨xt, ext, hxt⟩ := slice1_seq hx 0 hT
  obtain ⟨p, ep, hp⟩ := gemm_mat S hxt hgw.f hgb.f
  have eq : gemmT S [hi.t, gr.f.t, gc.f.t] = none := by
    unfold gemmT Ten.t
    simp only [hgr.f.shape]
    split
    · next m k n k' _ _ =>
      have h1 : hi.ty = .f32 := by rw [hhi, hh2]
      rw [if_neg (by simp [hgc.f.shape]), if_pos (Or.inl (by rw [h1, hgr.f.ty]; simp))]
    · rfl
  have egate : gate S S.sigmoid xt gw.f gb.f hi gr.f gc.f (st lo fr bs) =
      .err (st lo ((fr ++ [p.t]) ++ [hi.t, gr.f.t, gc.f.t]) bs) := by
    unfold gate
    rw [show (((st lo fr bs).push xt.t).push gw.f.t).push gb.f.t = st lo (fr ++ [xt.t, gw.f.t, gb.f.t]) bs by
      simp [push_st], run_pure1 _ lo fr _ bs p 3 rfl (by simp) ep]
    simp only [Out.bind]
    rw [show (((st lo (fr ++ [p.t]) bs).push hi.t).push gr.f.t).push gc.f.t =
      st lo ((fr ++ [p.t]) ++ [hi.t, gr.f.t, gc.f.t]) bs by simp [push_st],
      run_pure1_err _ lo _ _ bs 3 rfl (by simp) eq]
  have ecomp : compute S (H : Int) x w0 r0 b0 hi ci false (st lo fr bs) =
      .err (st lo ((fr ++ [p.t]) ++ [hi.t, gr.f.t, gc.f.t]) bs) := by
    unfold compute
    obtain ⟨k, rfl⟩ : ∃ k, T = k + 1 := ⟨T - 1, by omega⟩
    have ext' : slice1 x ((0 : Nat) : Int) = some xt := ext
    simp only [egw, egr, egb', egc', Out.bind, hx.shape, List.headD_cons, unroll, Bool.false_eq_true, if_false, ext', orUbV,
      cellStep, egate]
  have hd : ¬ directionOf dir = 2 := by unfold directionOf; rw [if_neg hdir]; omega
  have hinf : ∃ v, infer dir (H : Int) (st lo fr bs) = .ok (st lo fr bs) v := by
    unfold infer
    rw [operand_st lo fr bs 0 x (by rw [e]; rfl)]
    simp only [Out.bind]
    rw [operand_st lo fr bs 1 w (by rw [e]; rfl)]
    simp only []
    rw [operand_st lo fr bs 2 r (by rw [e]; rfl)]
    simp only []
    rw [if_neg (by simp [hx.shape]), if_neg (by omega)]
    exact ⟨_, rfl⟩
  obtain ⟨v, hinf⟩ := hinf
  refine ⟨st lo ((fr ++ [p.t]) ++ [hi.t, gr.f.t, gc.f.t]) bs, ?_⟩
  unfold run
  rw [Stk.size_mk, if_neg (by omega), hinf]
  simp only [Out.bind]
  rw [operand_st lo fr bs 0 x (by rw [e]; rfl)]
  simp only []
  rw [operand_st lo fr bs 1 w (by rw [e]; rfl)]
  simp only []
  rw [operand_st lo fr bs 2 r (by rw [e]; rfl)]
  simp only []
  rw [operand_st lo fr bs 3 b (by rw [e]; rfl)]
  simp only []
  rw [operand_st lo fr bs 4 h (by rw [e]; rfl)]
  simp only []
  rw [operand_st lo fr bs 5 c (by rw [e]; rfl)]
  simp only [eh, ec, orUbV, if_neg hd, edir, ecomp]

/-- **Hidden size**: a size that is not positive is refused with an exception. -/
theorem C78_hidden_size (S : Scalar R) (dir : String) (hdir : dir ≠ "bidirectional") {lo fr : List (Tsr R)}
    {bs : List Nat} {ty} {D T B I H : Nat} {X W Rm bias h0 c0} (hD : 1 ≤ D)
    (hop : LstmOperands S fr ty D T B I H X W Rm bias h0 c0) (n : Int) (hn : n ≤ 0) :
    ∃ s, run S dir n ⟨lo ++ fr, lo.length, bs⟩ = .err s := by
  obtain ⟨x, w, r, b, h, c, more, e, hx, hw, hr, hb, hh, hc⟩ := hop
  have hlen : 6 ≤ fr.length := by
    have := congrArg List.length e
    simp at this; omega
  obtain ⟨h', eh, hh'⟩ := initial_ok hx hw hr hh
  obtain ⟨c', ec, hc'⟩ := initial_ok hx hw hr hc
  obtain ⟨d0, ed0, hd0⟩ := sliceDir_ok hw hr hb hh' hc' 0 (by omega) (st lo fr bs)
  have hinf : infer dir n (st lo fr bs) = .err (st lo fr bs) ∨
      (n = 0 ∧ ∃ v, infer dir n (st lo fr bs) = .ok (st lo fr bs) v) := by
    unfold infer
    rw [operand_st lo fr bs 0 x (by rw [e]; rfl)]
    simp only [Out.bind]
    rw [operand_st lo fr bs 1 w (by rw [e]; rfl)]
    simp only []
    rw [operand_st lo fr bs 2 r (by rw [e]; rfl)]
    simp only []
    rw [if_neg (by simp [hx.shape])]
    by_cases h0 : n < 0
    · left; rw [if_pos h0]
    · right; refine ⟨by omega, ?_⟩
      rw [if_neg h0]; exact ⟨_, rfl⟩
  have hd : ¬ directionOf dir = 2 := by unfold directionOf; rw [if_neg hdir]; omega
  unfold run
  rw [Stk.size_mk, if_neg (by omega)]
  rcases hinf with hinf | ⟨rfl, v, hinf⟩
  · rw [hinf]; exact ⟨_, rfl⟩
  · refine ⟨st lo fr bs, ?_⟩
    have ecomp : compute S 0 x d0.w d0.r d0.b d0.h d0.c false (st lo fr bs) = .err (st lo fr bs) := by
      simp [compute, gates, slice2, Out.bind]
    rw [hinf]
    simp only [Out.bind]
    rw [operand_st lo fr bs 0 x (by rw [e]; rfl)]
    simp only []
    rw [operand_st lo fr bs 1 w (by rw [e]; rfl)]
    simp only []
    rw [operand_st lo fr bs 2 r (by rw [e]; rfl)]
    simp only []
    rw [operand_st lo fr bs 3 b (by rw [e]; rfl)]
    simp only []
    rw [operand_st lo fr bs 4 h (by rw [e]; rfl)]
    simp only []
    rw [operand_st lo fr bs 5 c (by rw [e]; rfl)]
    simp only [eh, ec, orUbV, if_neg hd, ed0, ecomp]

/-! ## Concrete cases -/

/-- integers with simple functions in place of the activations -/
def intScalar : Scalar Int :=
  ⟨fun a b c => (List.zipWith (· * ·) a b).sum + c, (· + ·), (· * ·), fun v => v + 1, fun v => 2 * v, 0⟩

/-- a sequence of two steps, one batch entry, one feature, one hidden unit, one direction -/
def lstmExample : List (Tsr Int) :=
  [⟨⟨.f32, [2, 1, 1], fun i => if i.headD 0 = 0 then 3 else 5⟩, []⟩, ⟨⟨.f32, [1, 4, 1], fun _ => 1⟩, []⟩,
   ⟨⟨.f32, [1, 4, 1], fun _ => 2⟩, []⟩, ⟨⟨.f32, [1, 8], fun _ => 0⟩, []⟩, ⟨⟨.f32, [], fun _ => 7⟩, []⟩,
   ⟨⟨.f32, [0], fun _ => 9⟩, []⟩]

theorem lstmExample_ok : LstmOperands intScalar lstmExample .f32 1 2 1 1 1
    (fun t _ _ => if t = 0 then 3 else 5) (fun _ _ _ => 1) (fun _ _ _ => 2) (fun _ _ => 0) (fun _ _ _ => 0)
    (fun _ _ _ => 0) :=
  ⟨_, _, _, _, _, _, [], rfl, ⟨rfl, rfl, fun _ _ _ _ _ _ => rfl⟩, ⟨rfl, rfl, fun _ _ _ _ _ _ => rfl⟩,
    ⟨rfl, rfl, fun _ _ _ _ _ _ => rfl⟩, ⟨rfl, rfl, fun _ _ _ _ => rfl⟩,
    Or.inr ⟨by decide, rfl, fun _ _ _ => rfl⟩, Or.inr ⟨by decide, rfl, fun _ _ _ => rfl⟩⟩

/-- the result of a run at one coordinate of its first field -/
def outAt (o : Out (Stk (Tsr Int)) Int) (idx : List Nat) : Option Int :=
  match o with
  | .ok s _ => s.cells.getLast?.map fun v => v.hd.el idx
  | _ => none

-- step 1: gates 3, c = (3+1)·6 + 4·0 = 24, h = 48·4 = 192
example : outAt (run intScalar "forward" 1 ⟨lstmExample, 0, []⟩) [0, 0, 0, 0] = some 192 := by decide +kernel
/-- the sequence of the example read backwards: a reverse LSTM has seen only its last element at time 1 and its
hidden state there is 720, the operator gives another value -/
theorem C78_reverse_witness_false : ∃ v, outAt (run intScalar "reverse" 1 ⟨lstmExample, 0, []⟩) [1, 0, 0, 0] = some v ∧
    ∀ hs cs, LstmStates intScalar 2 1 1 1 (fun t _ _ => if 1 - t = 0 then 3 else 5) (fun _ _ => 1) (fun _ _ => 2)
      (fun _ => 0) (fun _ _ => 0) (fun _ _ => 0) hs cs → hs 1 0 0 = 720 ∧ v ≠ 720 := by
  refine ⟨_, (by decide +kernel :
    outAt (run intScalar "reverse" 1 ⟨lstmExample, 0, []⟩) [1, 0, 0, 0] = some 243968400), ?_⟩
  intro hs cs h
  refine ⟨?_, by decide⟩
  have h0 := h.h_zero 0 (by omega) 0 (by omega)
  have c0 := h.c_zero 0 (by omega) 0 (by omega)
  have c1 := h.c_succ 0 (by omega) 0 (by omega) 0 (by omega)
  have h1 := h.h_succ 0 (by omega) 0 (by omega) 0 (by omega)
  simp [gateSum, intScalar, h0, c0, List.range_succ] at c1 h1
  rw [h1, c1]; decide

-- "reverse" should begin with the last element: gates 5, c = 60, h = 120·6 = 720 at time 1; the operator says
-- what "forward" says
example : outAt (run intScalar "reverse" 1 ⟨lstmExample, 0, []⟩) [0, 0, 0, 0] = some 192 := by decide +kernel

example : ∃ fr' y yh yc, run intScalar "forward" ((1 : Nat) : Int) ⟨[] ++ lstmExample, 0, []⟩ =
    .ok ⟨[] ++ (fr' ++ [⟨y, [yh, yc]⟩]), 0, []⟩ 1 ∧ y.shape = [2, 1, 1, 1] := by
  obtain ⟨hs, cs, hst⟩ := C78_states_exist intScalar 2 1 1 1 (fun t _ _ => if t = 0 then 3 else 5) (fun _ _ => 1)
    (fun _ _ => 2) (fun _ => 0) (fun _ _ => 0) (fun _ _ => 0)
  obtain ⟨fr', y, yh, yc, e, _, h2, _⟩ := C78_forward (lo := []) (bs := []) intScalar "forward" (by decide)
    (by omega) (by omega) (by omega) lstmExample_ok hst
  exact ⟨fr', y, yh, yc, e, h2⟩

end Verif.Props
