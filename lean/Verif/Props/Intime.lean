import Verif.Runtime.Intime
import Verif.Runtime.MachineLemmas
/-!
# C93: operators called at once, and the same functions as nodes
-/
namespace Verif.Props
open Verif.Runtime Verif.Runtime.Stk Verif.Runtime.Intime

variable {V : Type}

/-! ## specification -/

/-- The operator `f`, called with the arguments `args` (whatever lies below them on the stack), returns normally and leaves the
results `vs` on top, and it has not touched what lies below. -/
def Yields (f : Op V) (args vs : List V) : Prop :=
  ∀ (lo : List V) (bs : List Nat), ∃ junk : List V,
    f ⟨lo ++ args, lo.length, bs⟩ = .ok ⟨lo ++ (junk ++ vs), lo.length, bs⟩ vs.length

/-- what a caller sees after a call: the stack is the one before, unless the operator itself is undefined -/
def LeavesStack {α : Type} (s : Stk V) : Out (Stk V) α → Prop
  | .ok s' _ => s' = s
  | .err s' => s' = s
  | .ub => True

/-! ## running -/

theorem pushBase_size (lo fr : List V) (bs) :
    (Stk.mk (lo ++ fr) lo.length bs).pushBase ((Stk.mk (lo ++ fr) lo.length bs).size : Int) =
      ⟨(lo ++ fr) ++ [], (lo ++ fr).length, lo.length :: bs⟩ := by
  rw [size_mk]
  unfold pushBase
  have : ((Stk.mk (lo ++ fr) lo.length bs).abs (fr.length : Int)).toNat = (lo ++ fr).length := by
    unfold Stk.abs
    rw [if_pos (by omega)]
    simp only [List.length_append]
    omega
  rw [this]
  simp

/-- what one run of an operator on the frame `args` (all of it arguments) may end in -/
theorem runOperator_all (f : Op V) (lo args : List V) (bs : List Nat) (hf : FrameLocal f) :
    (∃ fr, runOperator f args.length ⟨lo ++ args, lo.length, bs⟩ = .err ⟨lo ++ fr, lo.length, bs⟩)
      ∨ (∃ (fr : List V) (r : Int), runOperator f args.length ⟨lo ++ args, lo.length, bs⟩ = .ok ⟨lo ++ fr, lo.length, bs⟩ r)
      ∨ (runOperator f args.length ⟨lo ++ args, lo.length, bs⟩ = .ub ∧ f ⟨lo ++ args, lo.length, lo.length :: bs⟩ = .ub) := by
  unfold runOperator
  rw [size_mk, if_neg (Nat.lt_irrefl _)]
  have hb : (Stk.mk (lo ++ args) lo.length bs).pushBase (-(args.length : Int)) = ⟨lo ++ args, lo.length, lo.length :: bs⟩ := by
    unfold pushBase Stk.abs
    by_cases h : args.length = 0
    · have ha : args = [] := List.eq_nil_of_length_eq_zero h
      subst ha
      simp
    · rw [if_neg (by omega)]
      simp only [List.length_append]
      congr 1
      omega
  rw [hb]
  have := hf ⟨lo ++ args, lo.length, lo.length :: bs⟩ (wf_mk _ _ _)
  cases hr : f ⟨lo ++ args, lo.length, lo.length :: bs⟩ with
  | ub => right; right; exact ⟨rfl, rfl⟩
  | err s' =>
    rw [hr] at this
    obtain ⟨fr, rfl⟩ := below_ex this
    left
    exact ⟨fr, rfl⟩
  | ok s' r =>
    rw [hr] at this
    obtain ⟨fr, rfl⟩ := below_ex this
    simp only [Out.bind, size_mk]
    by_cases hc : r < 0 ∨ (fr.length : Int) < r
    · rw [if_pos hc]
      left
      exact ⟨fr, rfl⟩
    · rw [if_neg hc]
      right; left
      obtain ⟨n, rfl⟩ : ∃ n : Nat, r = n := ⟨r.toNat, by omega⟩
      by_cases hn : n = 0
      · subst hn
        have he : (Stk.mk (lo ++ fr) lo.length (lo.length :: bs)).erase 0 (-((0 : Nat) : Int)) =
            some ⟨lo ++ fr, lo.length, lo.length :: bs⟩ := by
          have := erase_prefix_mk lo fr (lo.length :: bs) 0 (Nat.zero_le _)
          simpa using this
        rw [he]
        exact ⟨fr, 0, rfl⟩
      · rw [erase_keep_mk _ _ _ _ (by omega) (by omega)]
        exact ⟨_, _, rfl⟩

theorem runOperator_yields (f : Op V) (lo args vs : List V) (bs : List Nat) (hf : Yields f args vs) (h1 : vs ≠ []) :
    runOperator f args.length ⟨lo ++ args, lo.length, bs⟩ = .ok ⟨lo ++ vs, lo.length, bs⟩ vs.length := by
  unfold runOperator
  rw [size_mk, if_neg (Nat.lt_irrefl _)]
  have hb : (Stk.mk (lo ++ args) lo.length bs).pushBase (-(args.length : Int)) = ⟨lo ++ args, lo.length, lo.length :: bs⟩ := by
    unfold pushBase Stk.abs
    by_cases h : args.length = 0
    · have ha : args = [] := List.eq_nil_of_length_eq_zero h
      subst ha
      simp
    · rw [if_neg (by omega)]
      simp only [List.length_append]
      congr 1
      omega
  rw [hb]
  obtain ⟨junk, hj⟩ := hf lo (lo.length :: bs)
  rw [hj]
  have hl : 0 < vs.length := List.length_pos_iff.mpr h1
  simp only [Out.bind, size_mk]
  rw [if_neg (by simp only [List.length_append]; omega), erase_keep_mk _ _ _ _ hl (by simp)]
  simp [Out.finallyDo, popBase]

theorem readFrame_mk (lo fr : List V) (bs) : readFrame ⟨lo ++ fr, lo.length, bs⟩ fr.length = some fr := by
  unfold readFrame
  have h : ∀ (n : Nat), n ≤ fr.length →
      ((List.range n).mapM fun i => (Stk.mk (lo ++ fr) lo.length bs).index (i : Nat)) = some (fr.take n) := by
    intro n
    induction n with
    | zero => intro _; simp
    | succ n ih =>
      intro hn
      rw [List.range_succ, List.mapM_append, ih (by omega)]
      have hi := index_mk lo fr bs n
      rw [List.getElem?_eq_getElem (by omega)] at hi
      have ht : fr.take (n + 1) = fr.take n ++ [fr[n]'(by omega)] := by
        rw [List.take_succ, List.getElem?_eq_getElem (by omega)]
        rfl
      rw [ht]
      simp only [List.mapM_cons, List.mapM_nil, hi]
      rfl
  have := h fr.length (Nat.le_refl _)
  rwa [List.take_length] at this

theorem clear_pop (lo fr lo' fr' : List V) (bs) (h : lo ++ fr = lo') :
    ((Stk.mk (lo' ++ fr') lo'.length (lo.length :: bs)).clear).popBase = ⟨lo ++ fr, lo.length, bs⟩ := by
  rw [clear_mk, popBase_cons, h]

/-- **C93 (stack)**: after a call at once, whether it returns or throws, the stack of the workbench is exactly what it was: nothing of the call stays,
nothing that was there is lost, and the frame of the caller is the current one. -/
theorem C93_stack (P : PackOps V) (create : Bubble → Option (Op V)) (b : Bubble) (inputs : List V) (s : Stk V) (hs : s.Wf)
    (hf : ∀ f, create b = some f → FrameLocal f) : LeavesStack s (Intime.run P create b inputs s) := by
  obtain ⟨lo, fr, _, he, _, _⟩ := eq_mk s hs
  generalize s.bases = bs at he
  subst he
  unfold Intime.run onlineRun
  rw [pushBase_size]
  cases hc : create b with
  | none =>
    simp only [Out.bind, Out.finallyDo, LeavesStack]
    exact clear_pop lo fr _ [] bs rfl
  | some f =>
    have hp := pushAll_mk (lo ++ fr) [] inputs (lo.length :: bs)
    simp only [hp, List.nil_append, size_mk]
    rcases runOperator_all f (lo ++ fr) inputs (lo.length :: bs) (hf f hc) with ⟨g, h⟩ | ⟨g, r, h⟩ | ⟨h, _⟩
    · rw [h]
      simp only [Out.bind, Out.finallyDo, LeavesStack]
      exact clear_pop lo fr _ g bs rfl
    · rw [h]
      simp only [Out.bind, size_mk]
      split
      · split
        · simp only [Out.finallyDo, LeavesStack]
          exact clear_pop lo fr _ g bs rfl
        · simp only [Out.finallyDo, LeavesStack]
          exact clear_pop lo fr _ g bs rfl
      · rw [readFrame_mk]
        simp only [Out.finallyDo, LeavesStack]
        exact clear_pop lo fr _ g bs rfl
    · rw [h]
      trivial

/-- **C93 (value)**: a call at once of an operator that yields `vs` for these inputs gives `vs` itself if it is one tensor and the packed tensor otherwise. -/
theorem C93_value (P : PackOps V) (create : Bubble → Option (Op V)) (b : Bubble) (inputs vs : List V) (s : Stk V) (hs : s.Wf) (f : Op V)
    (hc : create b = some f) (hf : Yields f inputs vs) (h1 : vs ≠ []) :
    Intime.run P create b inputs s = .ok s (match vs with | [v] => v | vs => P.pack vs) := by
  obtain ⟨lo, fr, _, he, _, _⟩ := eq_mk s hs
  generalize s.bases = bs at he
  subst he
  unfold Intime.run onlineRun
  rw [pushBase_size, hc]
  have hp := pushAll_mk (lo ++ fr) [] inputs (lo.length :: bs)
  simp only [hp, List.nil_append, size_mk]
  rw [runOperator_yields f (lo ++ fr) inputs vs _ hf h1]
  simp only [Out.bind, size_mk]
  by_cases h : vs.length = 1
  · obtain ⟨v, rfl⟩ := List.length_eq_one_iff.mp h
    rw [if_pos h]
    have := index_mk (lo ++ fr) [v] (lo.length :: bs) 0
    simp only [Int.ofNat_zero, Int.natCast_zero] at this
    rw [this]
    simp only [List.length_cons, List.length_nil, Nat.zero_add, Nat.lt_add_one, getElem?_pos, List.getElem_cons_zero, Out.finallyDo]
    rw [clear_pop lo fr _ [v] bs rfl]
  · rw [if_neg h, readFrame_mk]
    simp only [Out.finallyDo]
    rw [clear_pop lo fr _ vs bs rfl]
    congr 1
    split
    · simp at h
    · rfl

/-- **C93 (undefined)**: a call at once is undefined only if the operator itself is. -/
theorem C93_no_ub (P : PackOps V) (create : Bubble → Option (Op V)) (b : Bubble) (inputs : List V) (s : Stk V) (hs : s.Wf)
    (hf : ∀ f, create b = some f → FrameLocal f ∧ ∀ t, f t ≠ .ub) : Intime.run P create b inputs s ≠ .ub := by
  obtain ⟨lo, fr, _, he, _, _⟩ := eq_mk s hs
  generalize s.bases = bs at he
  subst he
  unfold Intime.run onlineRun
  rw [pushBase_size]
  cases hc : create b with
  | none =>
    simp only [Out.bind, Out.finallyDo]
    exact fun h => by cases h
  | some f =>
    have hp := pushAll_mk (lo ++ fr) [] inputs (lo.length :: bs)
    simp only [hp, List.nil_append, size_mk]
    rcases runOperator_all f (lo ++ fr) inputs (lo.length :: bs) (hf f hc).1 with ⟨g, h⟩ | ⟨g, r, h⟩ | ⟨_, h⟩
    · rw [h]
      simp only [Out.bind, Out.finallyDo]
      exact fun h => by cases h
    · rw [h]
      simp only [Out.bind, size_mk]
      split
      · split
        · simp only [Out.finallyDo]
          exact fun h => by cases h
        · simp only [Out.finallyDo]
          exact fun h => by cases h
      · rw [readFrame_mk]
        simp only [Out.finallyDo]
        exact fun h => by cases h
    · exact absurd h ((hf f hc).2 _)

/-- **C93 (offline)**: `Workbench::offline_run` gives exactly the results of the operator and leaves the stack as it was. -/
theorem C93_offline_value (f : Op V) (inputs vs : List V) (s : Stk V) (hs : s.Wf) (hf : Yields f inputs vs) (h1 : vs ≠ []) :
    offlineRun f inputs s = .ok s vs := by
  obtain ⟨lo, fr, _, he, _, _⟩ := eq_mk s hs
  generalize s.bases = bs at he
  subst he
  unfold offlineRun
  have hp := pushAll_mk (lo ++ fr) [] inputs (lo.length :: bs)
  rw [pushBase_size, hp, List.nil_append, runOperator_yields f (lo ++ fr) inputs vs _ hf h1]
  simp only [Out.bind, size_mk]
  rw [if_neg (fun h => h rfl), Int.toNat_natCast, readFrame_mk]
  simp only [Out.finallyDo]
  rw [clear_pop lo fr _ vs bs rfl]

/-- **C93 (offline, stack)**: `offline_run` leaves the stack as it was, also when it throws. -/
theorem C93_offline_stack (f : Op V) (inputs : List V) (s : Stk V) (hs : s.Wf) (hf : FrameLocal f) : LeavesStack s (offlineRun f inputs s) := by
  obtain ⟨lo, fr, _, he, _, _⟩ := eq_mk s hs
  generalize s.bases = bs at he
  subst he
  unfold offlineRun
  have hp := pushAll_mk (lo ++ fr) [] inputs (lo.length :: bs)
  rw [pushBase_size, hp, List.nil_append]
  rcases runOperator_all f (lo ++ fr) inputs (lo.length :: bs) hf with ⟨g, h⟩ | ⟨g, r, h⟩ | ⟨h, _⟩
  · rw [h]
    simp only [Out.bind, Out.finallyDo, LeavesStack]
    exact clear_pop lo fr _ g bs rfl
  · rw [h]
    simp only [Out.bind]
    split
    · simp only [Out.finallyDo, LeavesStack]
      exact clear_pop lo fr _ g bs rfl
    · split
      · simp only [Out.finallyDo, LeavesStack]
        exact clear_pop lo fr _ g bs rfl
      · simp only [Out.finallyDo, LeavesStack]
        exact clear_pop lo fr _ g bs rfl
  · rw [h]
    trivial

/-- addition as an operator: the arguments stay below the result -/
def addOp : Op Int := fun s =>
  match s.index 0, s.index 1 with
  | some a, some b => .ok (s.push (a + b)) 1
  | _, _ => .err s

theorem addOp_yields (a b : Int) : Yields addOp [a, b] [a + b] := by
  intro lo bs
  refine ⟨[a, b], ?_⟩
  have h0 : (Stk.mk (lo ++ [a, b]) lo.length bs).index 0 = some a := index_mk lo [a, b] bs 0
  have h1 : (Stk.mk (lo ++ [a, b]) lo.length bs).index 1 = some b := index_mk lo [a, b] bs 1
  simp [addOp, h0, h1, push]

theorem addOp_local : FrameLocal addOp := by
  intro s hs
  unfold addOp
  split
  · rename_i a b h
    split at h
    · cases h
      exact ⟨rfl, rfl, by simp only [push, List.length_append]; unfold Wf at hs; omega,
        by simp only [push]; rw [List.take_append_of_le_length hs]⟩
    · cases h
  · rename_i a h
    split at h
    · cases h
    · cases h
      exact Below.refl hs
  · trivial

example : Yields addOp [2, 3] [5] := addOp_yields 2 3
example : FrameLocal addOp := addOp_local
example : Intime.run ⟨fun l => l.sum, fun _ _ => none⟩ (fun _ => some addOp) Desc.add [2, 3] ⟨[7, 8, 9], 1, [0]⟩ = .ok ⟨[7, 8, 9], 1, [0]⟩ 5 :=
  C93_value _ _ _ _ [5] _ (by simp [Wf]) addOp rfl (addOp_yields 2 3) (by simp)

/-- **C93 (no results), false**: an operator that has no results does not give an empty answer: the call gives the arguments back. -/
theorem C93_no_results_false : ∃ (f : Op Int) (P : PackOps Int), FrameLocal f ∧ (∀ s, ∃ s', f s = .ok s' 0) ∧
    Intime.run P (fun _ => some f) Desc.sigmoid [4] ⟨[], 0, []⟩ = .ok ⟨[], 0, []⟩ 4 := by
  refine ⟨fun s => .ok s 0, ⟨fun _ => 0, fun _ _ => none⟩, fun s hs => Below.refl hs, fun s => ⟨s, rfl⟩, ?_⟩
  decide

/-! ## the same functions as nodes -/

/-- `node` and `call` do the same: whatever operator the workbench makes of the node and whatever it yields for the inputs, the instruction of the
node (operands on top of the stack) replaces the operands by it, and the call returns it. -/
def Same (create : Bubble → Option (Op V)) (node : NodeOf V) (call : Stk V → Out (Stk V) V) : Prop :=
  ∀ (f : Op V) (v : V), create node.desc = some f → Yields f node.inputs [v] →
    (∀ (lo rest : List V) (bs : List Nat), runOpInstr f node.inputs.length 1 ⟨lo ++ (rest ++ node.inputs), lo.length, bs⟩ =
      .ok ⟨lo ++ (rest ++ [v]), lo.length, bs⟩ ()) ∧ ∀ s : Stk V, s.Wf → call s = .ok s v

theorem same_run (P : PackOps V) (create : Bubble → Option (Op V)) (node : NodeOf V) (call : Stk V → Out (Stk V) V) (h0 : node.inputs ≠ [])
    (hc : call = Intime.run P create node.desc node.inputs) : Same create node call := by
  intro f v hf hy
  refine ⟨fun lo rest bs => ?_, fun s hs => ?_⟩
  · rw [runOpInstr_mk f lo rest node.inputs bs 1 (List.length_pos_iff.mpr h0)]
    obtain ⟨junk, hj⟩ := hy (lo ++ rest) (lo.length :: bs)
    rw [hj]
    simp only [Out.bind, size_mk]
    rw [if_neg (by simp), if_neg (by simp)]
    have := erase_keep_mk (lo ++ rest) (junk ++ [v]) (lo.length :: bs) 1 (by omega) (by simp)
    rw [this]
    simp [orUb, Out.finallyDo, popBase]
  · rw [hc]
    exact C93_value P create _ _ [v] s hs f hf hy (by simp)

/-- **C93 (nodes)**: a node that a function of the frontend makes computes what the function of the same name computes at once, for every choice of
operators. Missing: `concat` and `broadcast`, for which it is false. -/
theorem C93_nodes_partial (P : PackOps V) (create : Bubble → Option (Op V)) (x y z : V) (n : Int) (w : Nat) (t : ResizeType) (sm : Bool) (l : List Int)
    (dt : V → Int) :
    Same create (Symbol.resize2d x y t) (Intime.resize2d P create x y t)
    ∧ Same create (Symbol.add x y) (Intime.add P create x y)
    ∧ Same create (Symbol.sub x y) (Intime.sub P create x y)
    ∧ Same create (Symbol.mul x y) (Intime.mul P create x y)
    ∧ Same create (Symbol.div x y) (Intime.div P create x y)
    ∧ Same create (Symbol.transpose x l) (Intime.transpose P create x l)
    ∧ Same create (Symbol.sigmoid x) (Intime.sigmoid P create x)
    ∧ Same create (Symbol.gather x y n) (Intime.gather P create x y n)
    ∧ Same create (Symbol.softmax x n sm) (Intime.softmax P create x n sm)
    ∧ Same create (Symbol.pad x y w) (Intime.pad P create x y w)
    ∧ (dt x ≠ n → Same create (Symbol.cast x n) (Intime.cast P create dt x n))
    ∧ Same create (Symbol.affineSample2d x y z n w t) (Intime.affineSample2d P create x y z n w t)
    ∧ Same create (Symbol.affineOnSample2d x y z n t) (Intime.affineOnSample2d P create x y z n t)
    ∧ Same create (Symbol.matmul x y sm) (Intime.matmul P create x y sm) := by
  refine ⟨?_, ?_, ?_, ?_, ?_, ?_, ?_, ?_, ?_, ?_, fun h => ?_, ?_, ?_, ?_⟩
  · exact same_run P create _ _ (by simp [Symbol.resize2d]) rfl
  · exact same_run P create _ _ (by simp [Symbol.add]) rfl
  · exact same_run P create _ _ (by simp [Symbol.sub]) rfl
  · exact same_run P create _ _ (by simp [Symbol.mul]) rfl
  · exact same_run P create _ _ (by simp [Symbol.div]) rfl
  · exact same_run P create _ _ (by simp [Symbol.transpose]) rfl
  · exact same_run P create _ _ (by simp [Symbol.sigmoid]) rfl
  · exact same_run P create _ _ (by simp [Symbol.gather]) rfl
  · exact same_run P create _ _ (by simp [Symbol.softmax]) rfl
  · exact same_run P create _ _ (by simp [Symbol.pad]) rfl
  · refine same_run P create _ _ (by simp [Symbol.cast]) ?_
    funext s
    unfold Intime.cast
    rw [if_neg h]
    rfl
  · exact same_run P create _ _ (by simp [Symbol.affineSample2d]) rfl
  · exact same_run P create _ _ (by simp [Symbol.affineOnSample2d]) rfl
  · exact same_run P create _ _ (by simp [Symbol.matmul]) rfl

/-- operators that know addition only for the name `name` and multiplication otherwise -/
def mulOp : Op Int := fun s =>
  match s.index 0, s.index 1 with
  | some a, some b => .ok (s.push (a * b)) 1
  | _, _ => .err s

theorem mulOp_yields (a b : Int) : Yields mulOp [a, b] [a * b] := by
  intro lo bs
  refine ⟨[a, b], ?_⟩
  have h0 : (Stk.mk (lo ++ [a, b]) lo.length bs).index 0 = some a := index_mk lo [a, b] bs 0
  have h1 : (Stk.mk (lo ++ [a, b]) lo.length bs).index 1 = some b := index_mk lo [a, b] bs 1
  simp [mulOp, h0, h1, push]

example : Same (fun b => if b.op = "add" then some addOp else some mulOp) (Symbol.add (2 : Int) 3)
    (Intime.add ⟨fun l => l.sum, fun _ _ => none⟩ (fun b => if b.op = "add" then some addOp else some mulOp) 2 3) :=
  (C93_nodes_partial _ _ 2 3 0 0 0 .linear true [] (fun _ => 1)).2.1

/-- **C93 (concat), false**: the node which `symbol::concat` (and `frontend::concat`) makes is not a concatenation: it is a `gather`. -/
theorem C93_concat_false : ∃ (P : PackOps Int) (create : Bubble → Option (Op Int)),
    ¬ Same create (Symbol.concat [2, 3] 0) (Intime.concat P create [2, 3] 0) := by
  refine ⟨⟨fun l => l.sum, fun _ _ => none⟩, fun b => if b.op = "concat" then some addOp else some mulOp, fun h => ?_⟩
  have := (h mulOp 6 (if_neg (by decide)) (mulOp_yields 2 3)).2 ⟨[], 0, []⟩ (by simp [Wf])
  revert this
  decide

/-- **C93 (broadcast), false**: the node which `symbol::broadcast` makes is an inner product. -/
theorem C93_broadcast_false : ∃ (P : PackOps Int) (create : Bubble → Option (Op Int)),
    ¬ Same create (Symbol.broadcast 2 3) (Intime.broadcast P create 2 3) := by
  refine ⟨⟨fun l => l.sum, fun _ _ => none⟩, fun b => if b.op = "broadcast" then some addOp else some mulOp, fun h => ?_⟩
  have := (h mulOp 6 (if_neg (by decide)) (mulOp_yields 2 3)).2 ⟨[], 0, []⟩ (by simp [Wf])
  revert this
  decide

/-- **C93 (shortcuts)**: concatenating one tensor and converting a tensor to the type it has give the tensor itself, whatever the operators are. -/
theorem C93_shortcuts (P : PackOps V) (create : Bubble → Option (Op V)) (dt : V → Int) (x : V) (dim : Int) (s : Stk V) :
    Intime.concat P create [x] dim s = .ok s x ∧ Intime.cast P create dt x (dt x) s = .ok s x := by
  refine ⟨rfl, ?_⟩
  unfold Intime.cast
  rw [if_pos rfl]

/-- **C93 (concat at once)**: two tensors or more are given to the operator `concat`, in their order, with the dimension. -/
theorem C93_concat_at_once (P : PackOps V) (create : Bubble → Option (Op V)) (x : List V) (dim : Int) (h : x.length ≠ 1) (f : Op V) (v : V) (s : Stk V)
    (hs : s.Wf) (hc : create ⟨"concat", [("dim", .int dim)]⟩ = some f) (hy : Yields f x [v]) : Intime.concat P create x dim s = .ok s v := by
  have he : Intime.concat P create x dim s = Intime.run P create (Desc.concat dim) x s := by
    unfold Intime.concat
    split
    · exact absurd rfl h
    · rfl
  rw [he]
  exact C93_value P create _ _ [v] s hs f hc hy (by simp)

/-! ## parameters -/

/-- `b` is accepted by the operator of its name: no parameter is refused, none that is required is missing (no scalar is empty), and the operator
then has for `k` the value `v` for each of `want`. -/
def ParamsAccepted (b : Bubble) (op : String) (want : List (String × PVal)) : Prop :=
  b.op = op ∧ ∃ s, configure b = some s
    ∧ (∀ emp : PVal → Bool, (∀ n, emp (.int n) = false) → s.initOk emp) ∧ ∀ k v, (k, v) ∈ want → s.get k = some v

/-- **C93 (parameters)**: every description is accepted by the operator registered for it, which then has the values that were given. The numbers of the
interpolations are those of the operators. -/
theorem C93_params (n : Int) (w : Nat) (sm : Bool) (l : List Int) :
    ParamsAccepted (Desc.resize2d .linear) "_resize2d" [("type", .int 0)]
    ∧ ParamsAccepted (Desc.resize2d .cubic) "_resize2d" [("type", .int 1)]
    ∧ ParamsAccepted (Desc.resize2d .nearest) "_resize2d" [("type", .int 2)]
    ∧ ParamsAccepted Desc.add "add" [] ∧ ParamsAccepted Desc.sub "sub" [] ∧ ParamsAccepted Desc.mul "mul" [] ∧ ParamsAccepted Desc.div "div" []
    ∧ ParamsAccepted (Desc.transpose l) "_transpose" [("permute", .ints l)]
    ∧ ParamsAccepted Desc.sigmoid "sigmoid" []
    ∧ ParamsAccepted (Desc.gather n) "gather" [("axis", .int n)]
    ∧ ParamsAccepted (Desc.concat n) "concat" [("dim", .int n)]
    ∧ ParamsAccepted (Desc.softmax n sm) "softmax" [("dim", .int n), ("smooth", .bool sm)]
    ∧ ParamsAccepted (Desc.pad w) "pad" [("padding_value", .float w)]
    ∧ ParamsAccepted (Desc.cast n) "_cast" [("dtype", .int n)]
    ∧ ParamsAccepted (Desc.affineSample2d n w .cubic) "affine_sample2d" [("dim", .int n), ("outer_value", .float w), ("type", .int 1)]
    ∧ ParamsAccepted (Desc.affineSample2d n w .nearest) "affine_sample2d" [("dim", .int n), ("outer_value", .float w), ("type", .int 2)]
    ∧ ParamsAccepted (Desc.affineSample2d n w .linear) "affine_sample2d" [("dim", .int n), ("outer_value", .float w), ("type", .int 0)]
    ∧ ParamsAccepted (Desc.affineOnSample2d n .linear) "affine_sample2d" [("dim", .int n), ("type", .int 0)]
    ∧ ParamsAccepted (Desc.matmul sm) "inner_prod" [("transpose", .bool sm), ("kernel_packed", .bool false)]
    ∧ ParamsAccepted Desc.broadcast "broadcast" [] := by
  refine ⟨?_, ?_, ?_, ?_, ?_, ?_, ?_, ?_, ?_, ?_, ?_, ?_, ?_, ?_, ?_, ?_, ?_, ?_, ?_, ?_⟩ <;>
  · refine ⟨rfl, _, rfl, fun emp he _ p hp => ?_, fun k v hk => ?_⟩
    · simp [Params.field, Params.fieldDefault, Params.new, Params.mark, Params.put] at hp ⊢ <;> first | (subst hp; simp [he]) | (rcases hp with hp | hp <;> subst hp <;> simp [he])
    · simp [Params.get, Params.field, Params.fieldDefault, Params.new, Params.mark, Params.put, ResizeType.toInt] at hk ⊢ <;>
        first | (rcases hk with ⟨h1, h2⟩ | ⟨h1, h2⟩ | ⟨h1, h2⟩ <;> subst h1 h2 <;> simp; done) |
          (rcases hk with ⟨h1, h2⟩ | ⟨h1, h2⟩ <;> subst h1 h2 <;> simp; done) | (obtain ⟨h1, h2⟩ := hk; subst h1 h2; simp; done)

/-- **C93 (outside)**: `affine_sample2d` fills what lies outside with the value given, `affine_on_sample2d` with the nearest pixel. -/
theorem C93_outer (n : Int) (w : Nat) (t : ResizeType) :
    (configure (Desc.affineSample2d n w t)).bind outerMode = some (.value w)
    ∧ (configure (Desc.affineOnSample2d n t)).bind outerMode = some .nearest := by
  constructor <;> rfl

end Verif.Props
