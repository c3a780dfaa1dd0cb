import Verif.Runtime.Safe
/-! Launch safety (helpers for C04). -/
namespace Verif.Runtime
variable {V : Type}
open Stk

/-- A program all of whose code is depth-checked and all of whose operators stay in their frame. -/
def Checked : Prog V → Prop
  | .nofilter => True
  | .mk nin _ data code filter cast =>
      (∃ d, depths data.length code nin = some d) ∧ (∀ i ∈ code, OpLocal i) ∧
      (∀ i, Checked (filter i)) ∧
      (∀ i a b c d e f, filter i = .mk a b c d e f → b = 1) ∧
      (∀ i c, cast i = some c → FrameLocal c ∧ (∀ s, s.Wf → c s ≠ .ub))

theorem castTop_spec (c : Option (Op V))
    (hc : ∀ f, c = some f → FrameLocal f ∧ (∀ s, s.Wf → f s ≠ .ub))
    (lo rest : List V) (a : V) (bs) :
    (∃ a', castTop c ⟨lo ++ (rest ++ [a]), lo.length, bs⟩ = .ok ⟨lo ++ (rest ++ [a']), lo.length, bs⟩ ()) ∨
    (∃ fr', castTop c ⟨lo ++ (rest ++ [a]), lo.length, bs⟩ = .err ⟨lo ++ (rest ++ fr'), lo.length, bs⟩) := by
  cases c with
  | none => left; exact ⟨a, rfl⟩
  | some f =>
    obtain ⟨hf, hub⟩ := hc f rfl
    have h2 : ¬ (rest ++ [a]).length < 1 := by simp
    have h3 := Stk.pushBase_neg_mk lo rest [a] bs (by simp)
    simp only [List.length_singleton] at h3
    simp only [castTop, runOperator, size_mk, if_neg h2, h3]
    have hw : (Stk.mk ((lo ++ rest) ++ [a]) (lo ++ rest).length (lo.length :: bs)).Wf := wf_mk _ _ _
    have h1 := hf _ hw
    have h2 := hub _ hw
    cases hfs : f ⟨(lo ++ rest) ++ [a], (lo ++ rest).length, lo.length :: bs⟩ with
    | ub => exact absurd hfs h2
    | err s1 =>
      rw [hfs] at h1
      obtain ⟨fr1, rfl⟩ := below_ex h1
      right; exact ⟨fr1, by simp [Out.bind, Out.finallyDo, popBase]⟩
    | ok s1 r =>
      rw [hfs] at h1
      obtain ⟨fr1, rfl⟩ := below_ex h1
      by_cases hneg : r < 0 ∨ ((Stk.mk ((lo ++ rest) ++ fr1) (lo ++ rest).length (lo.length :: bs)).size : Int) < r
      · right
        exact ⟨fr1, by simp only [Out.bind, if_pos hneg]; simp [Out.finallyDo, popBase]⟩
      have hneg' := hneg
      rw [size_mk] at hneg
      have hr0 : 0 ≤ r := by omega
      have hr1 : r ≤ fr1.length := by omega
      simp only [Out.bind, if_neg hneg']
      clear hneg'
      obtain ⟨n, rfl⟩ := Int.eq_ofNat_of_zero_le hr0
      by_cases hn : n = 0
      · subst hn
        right
        refine ⟨fr1, ?_⟩
        have he := erase_prefix_mk (lo ++ rest) fr1 (lo.length :: bs) 0 (by omega)
        simp only [Int.ofNat_zero, Int.neg_zero, Out.bind, Int.natCast_zero] at he ⊢
        simp only [he, Out.finallyDo, popBase]
        simp
      · have he := erase_keep_mk (lo ++ rest) fr1 (lo.length :: bs) n (by omega) (by omega)
        simp only [Out.bind, he, Out.finallyDo, popBase]
        by_cases hn1 : n = 1
        · left
          subst hn1
          have : (fr1.drop (fr1.length - 1)).length = 1 := by simp; omega
          obtain ⟨a', ha'⟩ := List.length_eq_one_iff.mp this
          exact ⟨a', by simp [ha']⟩
        · right
          refine ⟨fr1.drop (fr1.length - n), ?_⟩
          have : ¬ ((n : Int) = 1) := by omega
          simp [this]

/-- contract of a filter launch: consumes one cell, produces one -/
def FilterOk (lf : Stk V → Out (Stk V) Unit) : Prop :=
  ∀ (lo rest : List V) (a : V) bs,
    (∃ a', lf ⟨lo ++ (rest ++ [a]), lo.length, bs⟩ = .ok ⟨lo ++ (rest ++ [a']), lo.length, bs⟩ ()) ∨
    (∃ fr', lf ⟨lo ++ (rest ++ [a]), lo.length, bs⟩ = .err ⟨lo ++ (rest ++ fr'), lo.length, bs⟩)

theorem argLoop_spec (adj : Adjust V) (lf : Nat → Option (Stk V → Out (Stk V) Unit))
    (hlf : ∀ i f, lf i = some f → FilterOk f)
    (cast : Nat → Option (Op V))
    (hc : ∀ i c, cast i = some c → FrameLocal c ∧ (∀ s, s.Wf → c s ≠ .ub))
    (nargs k i : Nat) (lo args done : List V) (bs) (hna : args.length = nargs) (hd : done.length = i)
    (hk : k + i = nargs) :
    (∃ new, new.length = k ∧
      argLoop adj lf cast nargs k i ⟨lo ++ (args ++ done), lo.length, bs⟩ =
        .ok ⟨lo ++ (args ++ (done ++ new)), lo.length, bs⟩ ()) ∨
    (∃ fr', argLoop adj lf cast nargs k i ⟨lo ++ (args ++ done), lo.length, bs⟩ =
        .err ⟨lo ++ fr', lo.length, bs⟩) := by
  induction k generalizing i done with
  | zero => left; exact ⟨[], rfl, by simp [argLoop]⟩
  | succ k ih =>
    have hidx : (Stk.mk (lo ++ (args ++ done)) lo.length bs).index (-(nargs : Int)) = args[i]? := by
      rw [index_neg_mk _ _ _ _ (by omega) (by simp; omega)]
      have : (args ++ done).length - nargs = i := by simp; omega
      rw [this, List.getElem?_append_left (by omega)]
    have hi : i < args.length := by omega
    rw [List.getElem?_eq_getElem hi] at hidx
    -- the state after pushing / filtering the argument
    have hfilter :
        (∃ a', filterTop adj (lf i) args[i] ⟨lo ++ (args ++ done), lo.length, bs⟩ =
            .ok ⟨lo ++ ((args ++ done) ++ [a']), lo.length, bs⟩ ()) ∨
        (∃ fr', filterTop adj (lf i) args[i] ⟨lo ++ (args ++ done), lo.length, bs⟩ =
            .err ⟨lo ++ fr', lo.length, bs⟩) := by
      unfold filterTop
      cases hlfi : lf i with
      | none => left; exact ⟨args[i], by simp [Stk.push]⟩
      | some f =>
        simp only []
        cases adj args[i] with
        | none => right; exact ⟨args ++ (done ++ [args[i]]), by simp [Stk.push]⟩
        | some arg' =>
          simp only []
          have he : (((Stk.mk (lo ++ (args ++ done)) lo.length bs).push args[i]).push arg').eraseOne (-2) =
              some ⟨lo ++ ((args ++ done) ++ [arg']), lo.length, bs⟩ := by
            have : ((Stk.mk (lo ++ (args ++ done)) lo.length bs).push args[i]).push arg' =
                ⟨lo ++ ((args ++ done) ++ [args[i], arg']), lo.length, bs⟩ := by simp [Stk.push]
            rw [this, eraseOne_rel _ _ _ _ (by simp [rel]; omega) (by simp [rel]; omega)]
            have h2 : (rel ((args ++ done) ++ [args[i], arg']).length (-2)).toNat = (args ++ done).length := by
              simp [rel]; omega
            rw [h2, List.eraseIdx_append_of_length_le (by omega)]
            simp
          simp only [he]
          rcases hlf i f hlfi lo (args ++ done) arg' bs with ⟨a', h⟩ | ⟨fr', h⟩
          · left; exact ⟨a', h⟩
          · right; exact ⟨_, h⟩
    simp only [argLoop, hidx]
    rcases hfilter with ⟨a', h⟩ | ⟨fr', h⟩
    · rw [h]
      simp only [Out.bind]
      rcases castTop_spec (cast i) (hc i) lo (args ++ done) a' bs with ⟨a2, h2⟩ | ⟨fr2, h2⟩
      · rw [h2]
        simp only []
        have := ih (i + 1) (done ++ [a2]) (by simp [hd]) (by omega)
        rcases this with ⟨new, hn, h3⟩ | ⟨fr3, h3⟩
        · left
          refine ⟨a2 :: new, by simp [hn], ?_⟩
          simp only [List.append_assoc] at h3 ⊢
          rw [h3]; simp
        · right
          refine ⟨fr3, ?_⟩
          simp only [List.append_assoc] at h3 ⊢
          exact h3
      · rw [h2]; right; exact ⟨_, rfl⟩
    · rw [h]; right; exact ⟨_, rfl⟩

theorem launchOnline_spec (P : PackOps V) (adj : Adjust V) (p : Prog V) (hp : Checked p)
    (lo rest args : List V) (bs) (h0 : args.length = 0 → rest = []) :
    (∃ res, launchOnline P adj p args.length ⟨lo ++ (rest ++ args), lo.length, bs⟩ =
        .ok ⟨lo ++ (rest ++ res), lo.length, bs⟩ res.length ∧
        (∀ nin nout data code fl ca, p = .mk nin nout data code fl ca → res.length = nout)) ∨
    (∃ fr', launchOnline P adj p args.length ⟨lo ++ (rest ++ args), lo.length, bs⟩ =
        .err ⟨lo ++ (rest ++ fr'), lo.length, bs⟩) := by
  induction p generalizing lo rest args bs with
  | nofilter => right; exact ⟨args, rfl⟩
  | mk nin nout data code filter cast ih =>
    obtain ⟨⟨d, hd⟩, hl, hfl, hf1, hca⟩ := hp
    simp only [launchOnline]
    by_cases hni : nin = args.length
    · subst hni
      simp only [ne_eq, not_true, if_false, size_mk]
      rw [if_neg (by simp)]
      have hpb : (Stk.mk (lo ++ (rest ++ args)) lo.length bs).pushBase (-(args.length : Int)) =
          ⟨(lo ++ rest) ++ args, (lo ++ rest).length, lo.length :: bs⟩ := by
        by_cases hz : args.length = 0
        · have := h0 hz
          subst this
          simp [pushBase, Stk.abs, hz]
        · exact pushBase_neg_mk _ _ _ _ (by omega)
      rw [hpb]
      have hal := argLoop_spec adj
        (fun i => if (filter i).isSome then
                some (fun st => (launchOnline P adj (filter i) 1 st).bind fun st' _ => .ok st' ())
              else none)
        (by
          intro i f hf lo rest a bs
          cases hfi : filter i with
          | nofilter => simp only [hfi, Prog.isSome] at hf; simp at hf
          | mk a1 a2 a3 a4 a5 a6 =>
            simp only [hfi, Prog.isSome, if_true, Option.some.injEq] at hf
            subst hf
            have := ih i (hfl i) lo rest [a] bs (by simp)
            simp only [hfi, List.length_singleton] at this
            rcases this with ⟨res, h, hres⟩ | ⟨fr', h⟩
            · have hres := hres _ _ _ _ _ _ rfl
              simp only [h]
              rw [hf1 _ _ _ _ _ _ _ hfi] at hres
              obtain ⟨a', rfl⟩ := List.length_eq_one_iff.mp hres
              left; exact ⟨a', by simp [Out.bind]⟩
            · right; exact ⟨fr', by simp only [h, Out.bind]⟩)
        cast hca args.length args.length 0 (lo ++ rest) args [] (lo.length :: bs) rfl rfl (by omega)
      rcases hal with ⟨new, hn, h⟩ | ⟨fr', h⟩
      · simp only [List.append_nil, List.nil_append] at h
        rw [h]
        simp only [Out.bind]
        rw [erase_prefix_mk _ _ _ _ (by simp)]
        simp only [orUb, List.drop_left]
        have hcc := runCode_contract P data code ⟨(lo ++ rest) ++ new, (lo ++ rest).length, lo.length :: bs⟩
          (wf_mk _ _ _) hl d (by rw [size_mk, hn]; exact hd)
        cases hrc : runCode P data code ⟨(lo ++ rest) ++ new, (lo ++ rest).length, lo.length :: bs⟩ with
        | ub => rw [hrc] at hcc; exact hcc.elim
        | err s' =>
          rw [hrc] at hcc
          obtain ⟨fr1, rfl⟩ := below_ex hcc
          right; exact ⟨fr1, by simp [Out.finallyDo, popBase]⟩
        | ok s' u =>
          rw [hrc] at hcc
          obtain ⟨fr1, rfl⟩ := below_ex hcc.1
          simp only [size_mk]
          by_cases hno : fr1.length = nout
          · left
            refine ⟨fr1, by simp [hno, Out.finallyDo, popBase], ?_⟩
            intro _ _ _ _ _ _ he
            injection he with _ h2; rw [← h2]; exact hno
          · right
            exact ⟨fr1, by simp [hno, Out.finallyDo, popBase]⟩
      · simp only [List.append_nil] at h
        rw [h]
        right; exact ⟨fr', by simp [Out.bind, Out.finallyDo, popBase]⟩
    · right
      simp only [ne_eq, hni, not_false_eq_true, if_true]
      exact ⟨args, rfl⟩
end Verif.Runtime
