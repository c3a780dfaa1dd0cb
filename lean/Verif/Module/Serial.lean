import Verif.Core.Tensor
import Verif.Module.Load
import Verif.Compiler.Schedule
/-!
# Serialisation of tensors, bubbles, graphs and modules

Models src/core/tensor.cpp:314-389, src/module/bubble.cpp:139-213, src/module/menu.cpp:79-150,
src/module/header.cpp and src/module/module.cpp:239-325 (the same reader is in src/module/loaders/open.cpp).
A writer produces a list of bytes, a reader consumes one. Machine representation: `uint32_t` is stored little
endian (the code writes the object representation; x86 and ARM targets). Memory exhaustion by very large counts
is not modelled.
-/
namespace Verif.Module
open Verif.Core Verif.Compiler

/-! ## Streams -/

/-- Result of reading: a value and the unread bytes, a C++ exception, or undefined behaviour. -/
inductive Out (α : Type) where
  | ok (a : α) (rest : List UInt8)
  | err
  | ub

abbrev Rd (α : Type) := List UInt8 → Out α

def Rd.pure {α : Type} (a : α) : Rd α := fun s => .ok a s
def Rd.bind {α β : Type} (m : Rd α) (f : α → Rd β) : Rd β := fun s =>
  match m s with
  | .ok a r => f a r
  | .err => .err
  | .ub => .ub
def Rd.err {α : Type} : Rd α := fun _ => .err
def Rd.ub {α : Type} : Rd α := fun _ => .ub

/-- bytes of a `uint32_t` (the conversion `uint32_t(x)` is the reduction modulo 2^32 of `UInt8.ofNat`) -/
def le32 (n : Nat) : List UInt8 :=
  [UInt8.ofNat n, UInt8.ofNat (n / 256), UInt8.ofNat (n / 65536), UInt8.ofNat (n / 16777216)]

def rd32 (a b c d : UInt8) : Nat := a.toNat + 256 * b.toNat + 65536 * c.toNat + 16777216 * d.toNat

/-- `binio::read<uint32_t>(stream, x)` (stream.h:44-47) into a variable that held `old` (`none`:
uninitialised). `std::istream::read` stores the bytes that are left and the reader never looks at the count;
reading an uninitialised variable afterwards is undefined. -/
def readU32 (old : Option Nat) : Rd Nat := fun s =>
  match s with
  | a :: b :: c :: d :: r => .ok (rd32 a b c d) r
  | _ => match old with
    | none => .ub
    | some o => match s with
      | [a, b, c] => .ok (rd32 a b c (UInt8.ofNat (o / 16777216))) []
      | [a, b] => .ok (rd32 a b (UInt8.ofNat (o / 65536)) (UInt8.ofNat (o / 16777216))) []
      | [a] => .ok (rd32 a (UInt8.ofNat (o / 256)) (UInt8.ofNat (o / 65536)) (UInt8.ofNat (o / 16777216))) []
      | _ => .ok o []

/-- `binio::read<char>(stream, buffer, n)` (stream.h:49-52) into a buffer holding `fill 0, fill 1, …`. -/
def readBytes (fill : Nat → UInt8) (n : Nat) : Rd (List UInt8) := fun s =>
  .ok (s.take n ++ (List.range (n - s.length)).map (fun i => fill (s.length + i))) (s.drop n)

/-! ## Tensors -/

/-- conversion `int32_t → uint32_t` -/
def toU32 (z : Int) : Nat := (z % 4294967296).toNat
/-- conversion `uint32_t → int32_t` -/
def ofU32 (n : Nat) : Int := if n < 2147483648 then n else n - 4294967296

/-- `serialize_prototype_memory`, tensor.cpp:314-335. -/
def writeField (f : Field) : List UInt8 :=
  UInt8.ofNat f.dtype :: le32 f.shape.length ++ f.shape.flatMap (fun z => le32 (toU32 z)) ++
    f.mem.take (((count f.shape).getD 0).toNat * typeBytes f.dtype)

/-- `Tensor::serialize`, tensor.cpp:367-375; each field contributes its own prototype and memory only. -/
def writeTensor (t : Tensor) : List UInt8 :=
  le32 (fieldsCount t) ++ (unpack t).flatMap (fun f => writeField f.own)

/-- reading the sizes, tensor.cpp:353-356; `size_buffer` is re-used, so it is initialised here -/
def readSizes : Nat → Nat → Rd (List Int)
  | 0, _ => Rd.pure []
  | k + 1, old => (readU32 (some old)).bind fun n => (readSizes k n).bind fun l => Rd.pure (ofU32 n :: l)

/-- `externalize_prototype_memory`, tensor.cpp:337-365. `junk` is what freshly allocated memory contains.
`shape.resize(n)` writes behind the seven slots of `Shape` for `n > 7` (otl.h:341-343, no check). A negative
element count makes the allocation size wrap to almost 2^64, which the allocator refuses. -/
def readField (junk : Nat → UInt8) : Rd Field := fun s =>
  match s with
  | [] => .ub
  | d :: s => ((readU32 none).bind fun rank =>
      if rank > 7 then Rd.ub else
      (readSizes rank rank).bind fun shape =>
      match count shape with
      | none => Rd.ub
      | some c =>
        if c < 0 ∧ typeBytes d.toNat ≠ 0 then Rd.err else
        (readBytes junk (c.toNat * typeBytes d.toNat)).bind fun mem =>
        Rd.pure ⟨d.toNat, shape, mem⟩) s

def readFields (junk : Nat → UInt8) : Nat → Rd (List Tensor)
  | 0 => Rd.pure []
  | k + 1 => (readField junk).bind fun f => (readFields junk k).bind fun l => Rd.pure (.mk f [] :: l)

/-- `Tensor::externalize`, tensor.cpp:377-389, called on a tensor `self`. -/
def readTensor (junk : Nat → UInt8) (self : Tensor) : Rd Tensor :=
  (readU32 none).bind fun n => (readFields junk n).bind fun fs => Rd.pure (pack self fs)

/-! ## Bubbles -/

abbrev Str := List UInt8
def str (s : String) : Str := s.toList.map fun c => UInt8.ofNat c.toNat

/-- `Bubble` (include/module/bubble.h): `m_params` in the iteration order of its hash map. -/
structure Bubble where
  op : Str
  name : Str
  shape : List Int
  params : List (Str × Tensor)

/-- conversions of src/core/tensor_builder.cpp this model does not go into (strings and floating point):
`tensor::to_int` and `tensor::cast(INT32, ·)` of tensors that are not `INT32`; `none` is an exception. -/
structure Conv where
  toInt : Tensor → Option Int
  castOther : Tensor → Option (List Int)

/-- `tensor::to_string`, tensor_builder.cpp:29-40 -/
def tensorToString (t : Tensor) : Option Str :=
  if t.own.dtype = 13 then
    match t.own.shape with
    | [n] => some (t.own.mem.take n.toNat)
    | _ => none
  else none

/-- `tensor::from(string)`, tensor_builder.cpp:22-27 -/
def stringTensor (s : Str) : Tensor := .mk ⟨13, [(s.length : Int)], s⟩ []

/-- little-endian `int32_t`s of a memory -/
def words : List UInt8 → List Int
  | a :: b :: c :: d :: r => ofU32 (rd32 a b c d) :: words r
  | _ => []

/-- `tensor::cast(INT32, t)` and reading its elements, tensor_builder.cpp:124-145, bubble.cpp:204-208 -/
def castI32 (cv : Conv) (t : Tensor) : Option (List Int) :=
  if t.own.dtype = 5 then some (words t.own.mem) else cv.castOther t

/-- `write_param`, bubble.cpp:139-152 -/
def writeParam (p : Str × Tensor) : List UInt8 := le32 p.1.length ++ p.1 ++ writeTensor p.2

/-- `Bubble::serialize`, bubble.cpp:171-178 -/
def writeBubble (b : Bubble) : List UInt8 := le32 b.params.length ++ b.params.flatMap writeParam

/-- `unordered_map::insert`: an existing key keeps its value -/
def insertParam (l : List (Str × Tensor)) (p : Str × Tensor) : List (Str × Tensor) :=
  if p.1 ∈ l.map Prod.fst then l else l ++ [p]

/-- `read_param`, bubble.cpp:154-169 (`string_buffer` is zero-filled), and the loop of `Bubble::externalize`,
bubble.cpp:185-188; `param` (and so its tensor) is re-used from one iteration to the next. -/
def readParams (junk : Nat → UInt8) : Nat → Tensor → List (Str × Tensor) → Rd (List (Str × Tensor))
  | 0, _, acc => Rd.pure acc
  | k + 1, old, acc =>
    (readU32 none).bind fun n =>
    (readBytes (fun _ => 0) n).bind fun nm =>
    (readTensor junk old).bind fun t =>
    readParams junk k t (insertParam acc (nm, t))

def lookup (l : List (Str × Tensor)) (k : Str) : Option Tensor := (l.find? (fun p => p.1 = k)).map Prod.snd

/-- the `#shape` part of `Bubble::externalize`, bubble.cpp:201-211: `m_shape.resize` writes behind the
buffer for more than seven elements -/
def readShape (cv : Conv) (ps : List (Str × Tensor)) : Rd (List Int) :=
  match lookup ps (str "#shape") with
  | none => Rd.pure []
  | some t => match castI32 cv t with
    | none => Rd.err
    | some l => if l.length > 7 then Rd.ub else Rd.pure l

/-- the `#output_count` check, bubble.cpp:192-200 -/
def outputCountOk (cv : Conv) (ps : List (Str × Tensor)) : Bool :=
  match lookup ps (str "#output_count") with
  | none => true
  | some t => cv.toInt t == some 1

/-- `Bubble::externalize` on a new bubble, bubble.cpp:180-213. A missing `#op` or `#name` becomes a default
tensor, which `to_string` refuses. -/
def readBubble (junk : Nat → UInt8) (cv : Conv) : Rd Bubble :=
  (readU32 none).bind fun n =>
  (readParams junk n (.mk emptyField []) []).bind fun ps =>
  match (lookup ps (str "#op")).bind tensorToString, (lookup ps (str "#name")).bind tensorToString with
  | some op, some name =>
    if outputCountOk cv ps then
      (readShape cv ps).bind fun sh => Rd.pure ⟨op, name, sh, ps⟩
    else Rd.err
  | _, _ => Rd.err

/-! ## Graphs and modules -/

/-- A graph of bubbles: `Node::bubble()` and `Node::inputs()`. -/
structure BGraph (N : Type) where
  bubble : N → Bubble
  inputs : N → List N

/-- `Bubble::op()` compared with the three end point names, bubble.cpp:17-20. Which operator it is does not
matter for loading. -/
def kindOf (op : Str) : Kind :=
  if op = str "<param>" then .param else if op = str "<const>" then .const
  else if op = str "<var>" then .variable else .oper

def BGraph.toGraph {N : Type} (G : BGraph N) : Graph N Unit where
  kind n := kindOf (G.bubble n).op
  inputs := G.inputs
  value _ := ()
  sem _ _ := none

variable {N : Type} [DecidableEq N]

/-- index of a node in the written order; `none` if it is not there (menu.cpp:89-94, 103-106) -/
def indexIn (nodes : List N) (n : N) : Option Nat := nodes.findIdx? (fun m => m = n)

/-- one node of `serialize_nodes`, menu.cpp:100-117; `none` is the ejected error -/
def writeNode (G : BGraph N) (nodes : List N) (n : N) : Option (List UInt8) :=
  match (G.inputs n).mapM (indexIn nodes) with
  | none => none
  | some idx => some (writeBubble (G.bubble n) ++ le32 idx.length ++ idx.flatMap le32)

/-- `serialize_nodes`, menu.cpp:88-120 -/
def writeNodes (G : BGraph N) (nodes : List N) : Option (List UInt8) :=
  match nodes.mapM (writeNode G nodes) with
  | none => none
  | some bs => some (le32 nodes.length ++ bs.flatten)

/-- a graph read back: the nodes in the order they were made, with the positions of their inputs -/
abbrev Rec := Bubble × List Nat

/-- reading `n` indices into a zero-filled vector, menu.cpp:137-140 and module.cpp:283-293 -/
def readIndices : Nat → Rd (List Nat)
  | 0 => Rd.pure []
  | k + 1 => (readU32 (some 0)).bind fun i => (readIndices k).bind fun l => Rd.pure (i :: l)

/-- the reading loop of `externalize_nodes`, menu.cpp:132-142; `size_buffer` is shared by all iterations -/
def readRecs (junk : Nat → UInt8) (cv : Conv) : Nat → Nat → Rd (List Rec)
  | 0, _ => Rd.pure []
  | k + 1, old =>
    (readBubble junk cv).bind fun b =>
    (readU32 (some old)).bind fun n =>
    (readIndices n).bind fun idx =>
    (readRecs junk cv k n).bind fun l => Rd.pure ((b, idx) :: l)

/-- `externalize_nodes`, menu.cpp:122-152: linking indexes the vector of nodes without a check -/
def readNodes (junk : Nat → UInt8) (cv : Conv) : Rd (List Rec) :=
  (readU32 (some 0)).bind fun n =>
  (readRecs junk cv n 0).bind fun recs =>
  if recs.all (fun r => r.2.all (fun i => i < recs.length)) then Rd.pure recs else Rd.ub

/-- the header, header.cpp:10-16, with the code set by module.cpp:258-260 -/
def headerBytes : List UInt8 := le32 0 ++ le32 0x19910929 ++ List.replicate 120 0

/-- the nodes in the order written by `Module::Save`, module.cpp:241-256: the schedule of the outputs, then
inputs that are not in it -/
def saveNodes (sched : List N) (inputs : List N) : List N :=
  inputs.foldl (fun acc n => if n ∈ acc then acc else acc ++ [n]) sched

/-- `Module::Save`, module.cpp:239-274, given the order `list_reference_nodes` produced; `map_node_index[n]`
of a missing node is 0. -/
def save (G : BGraph N) (m : Modl N) (sched : List N) : Option (List UInt8) :=
  let nodes := saveNodes sched m.inputs
  match writeNodes G nodes with
  | none => none
  | some body =>
    some (headerBytes ++
      (le32 m.inputs.length ++ m.inputs.flatMap (fun n => le32 ((indexIn nodes n).getD 0))) ++
      (le32 m.outputs.length ++ m.outputs.flatMap (fun n => le32 ((indexIn nodes n).getD 0))) ++ body)

/-- the graph in a list of records -/
def arenaGraph (recs : List Rec) : BGraph Nat where
  bubble n := match recs[n]? with | some r => r.1 | none => ⟨[], [], [], []⟩
  inputs n := match recs[n]? with | some r => r.2 | none => []

/-- enough fuel for `graph_walker`: every node is expanded at most once -/
def walkFuel (recs : List Rec) (outputs : List Nat) : Nat :=
  outputs.length + (recs.map (fun r => r.2.length)).sum + 1

/-- `read_uint32_list`, module.cpp:283-293 -/
def readList : Rd (List Nat) := (readU32 (some 0)).bind readIndices

/-- `Module::Load(stream)`, module.cpp:295-325: the module read and the graph it lives in. The order of the
inputs found by `graph_walker` does not matter, `sort_inputs` replaces it. -/
def load (junk : Nat → UInt8) (cv : Conv) : Rd (Modl Nat × List Rec) :=
  (readU32 (some 0)).bind fun _ =>
  (readU32 (some 0)).bind fun code =>
  (readBytes (fun _ => 0) 120).bind fun _ =>
  if code ≠ 0x19910929 then Rd.err else
  readList.bind fun ins =>
  readList.bind fun outs =>
  (readNodes junk cv).bind fun recs =>
  if ins.all (fun i => i < recs.length) && outs.all (fun i => i < recs.length) then
    match graphWalker (arenaGraph recs).toGraph (List.range recs.length) (walkFuel recs outs) outs with
    | some (some found) =>
      match sortNodes ((⟨[], []⟩ : Modl Nat).load found outs) ins with
      | some m => Rd.pure (m, recs)
      | none => Rd.err
    | _ => Rd.err
  else Rd.ub

end Verif.Module
