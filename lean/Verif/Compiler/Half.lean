import Mathlib.Data.List.Basic
/-!
# Translating a module to half precision

`Fp16TranslatorOption` (src/compiler/option/fp16_translator_option.cpp) inside `Translator::translate` (src/compiler/translater.cpp), as it runs with
`--float16`: the option handles every node, so the packing option after it never runs. Simplifications: graphs are lists of nodes whose operands come
earlier (no cycles, see C38); node names are not modelled; nodes of type "variable" are not modelled. Batch norms are treated at the end.
-/
namespace Verif.Compiler.Half

/-- the types that the option tells apart -/
inductive DT where
  | f16
  | f32
  | f64
  | other
  deriving DecidableEq, Repr

/-- nodes: parameter, constant, the operators `cast` and `to_float`, any other operator -/
inductive Kind (V : Type) where
  | param (name : Nat)
  | const (t : DT) (v : V)
  | cast (t : DT)
  | toFloat
  | op (name : Nat)
  deriving DecidableEq, Repr

/-- a node with the indices of its operands -/
structure Node (V : Type) where
  kind : Kind V
  inputs : List Nat
  deriving DecidableEq, Repr

/-- `Fp16OperatorCreator::Query(device, op, false)`, fp16_operator_factory.cpp: is there a half precision version of an operator, of `cast` and of
`to_float` on the device? -/
structure Reg where
  half : Nat → Bool
  cast : Bool
  toFloat : Bool

variable {V : Type}

/-- `stream_is_fp16`, fp16_translator_option.cpp:62-80 -/
def streamIsHalf (reg : Reg) : Kind V → Bool
  | .cast t => decide (t = .f16) && reg.cast
  | .const t _ => decide (t = .f16)
  | .param _ => false
  | .toFloat => reg.toFloat
  | .op o => reg.half o

/-- a constant that cannot be converted, fp16_translator_option.cpp:71-75 -/
def unconvertible : Kind V → Bool
  | .const .other _ => true
  | _ => false

/-- the casts that are put before the operands, fp16_translator_option.cpp:57-103: `self` tells whether the operator has a half precision version,
`convert` is `const_to_fp16`, which stays `false` from the first constant that cannot be converted on -/
def plan (reg : Reg) (self : Bool) : Bool → List (Kind V) → List (Option DT)
  | _, [] => []
  | convert, k :: ks =>
    let convert := convert && !unconvertible k
    (if !streamIsHalf reg k && self && convert then some .f16
     else if streamIsHalf reg k && !self then some .f32
     else none) :: plan reg self convert ks

/-- the translated nodes so far, and `ready_map` -/
structure St (V : Type) where
  out : List (Node V)
  ready : Nat → Option Nat

/-- a new node -/
def emit (st : St V) (nd : Node V) : St V × Nat := (⟨st.out ++ [nd], st.ready⟩, st.out.length)

/-- `ready_map.insert`, translater.cpp:50: keeps an entry that is there already -/
def remember (n : Nat) (r : St V × Nat) : St V × Nat :=
  (⟨r.1.out, fun m => if m = n ∧ r.1.ready n = none then some r.2 else r.1.ready m⟩, r.2)

/-- a translated operand with the cast before it, if there is one -/
def behind (d : Option DT) (r : St V × Nat) : St V × Nat :=
  match d with
  | none => r
  | some t => emit r.1 ⟨.cast t, [r.2]⟩

/-- operands, translater.cpp:40-44: those behind a new cast are translated through it (the cast node is copied and linked to its translated
operand, fp16_translator_option.cpp:35-39) -/
def operands (f : Nat → St V → St V × Nat) : List (Nat × Option DT) → St V → St V × List Nat
  | [], st => (st, [])
  | (i, d) :: ins, st =>
    let r := behind d (f i st)
    let rs := operands f ins r.1
    (rs.1, r.2 :: rs.2)

/-- operands that are kept as they are, with the casts before them -/
def planned (reg : Reg) (g : List (Node V)) (nd : Node V) : List (Nat × Option DT) :=
  match nd.kind with
  | .op o => nd.inputs.zip (plan reg (reg.half o) true (nd.inputs.map fun i => (g.getD i ⟨.toFloat, []⟩).kind))
  | _ => nd.inputs.map fun i => (i, none)

/-- `translate_node` with `output_flag = false`, translater.cpp:20-55, fp16_translator_option.cpp:12-41 and 55-107 -/
def inner (reg : Reg) (g : List (Node V)) : Nat → Nat → St V → St V × Nat
  | 0, _, st => (st, 0)
  | fuel + 1, n, st =>
    match st.ready n with
    | some m => (st, m)
    | none =>
      match g[n]? with
      | none => (st, 0)
      | some nd =>
        let rs := operands (inner reg g fuel) (planned reg g nd) st
        remember n (emit rs.1 ⟨nd.kind, rs.2⟩)

/-- `translate_node` with `output_flag = true` for an output or an input of the module: an operator with a half precision version is put behind a cast,
fp16_translator_option.cpp:45-53. The entry in `ready_map` is made by the inner call. -/
def top (reg : Reg) (g : List (Node V)) (n : Nat) (st : St V) : St V × Nat :=
  match st.ready n with
  | some m => (st, m)
  | none =>
    match (g[n]?).map Node.kind with
    | some (.op o) =>
      if reg.half o then
        let r := inner reg g (n + 1) n st
        remember n (emit r.1 ⟨.cast .f32, [r.2]⟩)
      else inner reg g (n + 1) n st
    | _ => inner reg g (n + 1) n st

/-- the loop over the outputs, translater.cpp:80-84 -/
def tops (reg : Reg) (g : List (Node V)) : List Nat → St V → St V × List Nat
  | [], st => (st, [])
  | n :: ns, st =>
    let r := top reg g n st
    let rs := tops reg g ns r.1
    (rs.1, r.2 :: rs.2)

/-- the translated graph and its outputs -/
def translate (reg : Reg) (g : List (Node V)) (outs : List Nat) : List (Node V) × List Nat :=
  let r := tops reg g outs ⟨[], fun _ => none⟩
  (r.1.out, r.2)

/-! ## batch norms -/

/-- A batch norm after translation: the constant at the end of its variance operand (`none` if that operand is an end point itself, or ends in a
parameter) and the cell of its epsilon, if it has one (the parameter is optional, base_batch_norm.cpp:17). -/
structure Bn where
  variance : Option Nat
  epsilon : Option Nat

/-- what the constants and the epsilons hold. With type `FLOAT32`, `tensor::cast` gives the same memory (tensor_builder.cpp:124-127), so both the original and
the translated module see every change. -/
structure Cells (α : Type) where
  var : Nat → List α
  eps : Nat → α

/-- the batch norm part, fp16_translator_option.cpp:109-143, for `FLOAT32` constants and epsilons: the epsilon is added to the constant, and becomes zero.
The epsilon is asked for in any case (111): `none` is an exception. -/
def foldBn {α : Type} [Add α] [Zero α] (c : Cells α) (b : Bn) : Option (Cells α) :=
  match b.epsilon with
  | none => none
  | some e =>
    match b.variance with
    | none => some c
    | some v => some ⟨fun m => if m = v then (c.var v).map (· + c.eps e) else c.var m, fun k => if k = e then 0 else c.eps k⟩

/-- all batch norms of a module in the order in which they are translated -/
def foldAll {α : Type} [Add α] [Zero α] : Cells α → List Bn → Option (Cells α)
  | c, [] => some c
  | c, b :: bs =>
    match foldBn c b with
    | none => none
    | some c => foldAll c bs

/-- The same for constants of another type (`FLOAT64`): new tensors are set in the translated node (epsilon zero) and in the original constant; the
epsilon of the original node stays. First the cells of the original module, then those of the translated one. -/
def foldBnCopied {α : Type} [Add α] [Zero α] (c : Cells α) (v e : Nat) : Cells α × Cells α :=
  let w := fun m => if m = v then (c.var v).map (· + c.eps e) else c.var m
  (⟨w, c.eps⟩, ⟨w, fun k => if k = e then 0 else c.eps k⟩)

/-- the value of a chain of operators over a constant, outermost first: the walk along first operands, fp16_translator_option.cpp:113-121, does not look
at what the operators do -/
def chainValue {α : Type} (fs : List (α → α)) (c : α) : α := fs.foldr (fun f x => f x) c

end Verif.Compiler.Half
