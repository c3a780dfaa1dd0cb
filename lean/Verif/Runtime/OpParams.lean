/-!
# Parameters of an operator: `Operator`, src/runtime/operator.cpp, include/runtime/operator.h

`α` is the type of tensors, `emp` is `Tensor::empty`. The hash map and hash sets are functions of the name. A call that throws
leaves the state as it is and answers `none`; the text of the message (`fuzzy_param_name`) is not modelled.
-/
namespace Verif.Runtime

variable {α : Type}

/-- state of an operator, operator.h:130-134 -/
structure Params (α : Type) where
  params : String → Option α
  optional : String → Bool
  required : String → Bool
  strict : Bool

namespace Params

/-- a new operator, operator.h:130-134 -/
def new : Params α := ⟨fun _ => none, fun _ => false, fun _ => false, true⟩

/-- `!param.empty() && param[0] == '#'`, operator.cpp:27, 66 -/
def isRetention (p : String) : Bool := p.toList.head? == some '#'

/-- `is_in_fields`, operator.cpp:163-166 -/
def isInFields (s : Params α) (p : String) : Bool := s.optional p || s.required p

def put (m : String → Option α) (p : String) (v : Option α) : String → Option α := fun x => if x = p then v else m x
def mark (m : String → Bool) (p : String) : String → Bool := fun x => if x = p then true else m x

/-- `has`, operator.cpp:22-24 -/
def has (s : Params α) (p : String) : Bool := (s.params p).isSome

/-- `set`, operator.cpp:26-38 -/
def set (s : Params α) (p : String) (v : α) : Option (Params α) :=
  if !isRetention p && !s.isInFields p && s.strict then none
  else some { s with params := put s.params p (some v) }

/-- `get`, operator.cpp:40-51 -/
def get (s : Params α) (p : String) : Option α := s.params p

/-- `clear`, operator.cpp:53-60 -/
def clear (s : Params α) (p : String) : Option (Params α) :=
  if (s.params p).isNone then none else some { s with params := put s.params p none }

/-- `clear_params`, operator.cpp:62-73 -/
def clearParams (s : Params α) : Params α :=
  { s with params := fun p => if isRetention p then s.params p else none }

/-- `clear_fields`, operator.cpp:75-81 -/
def clearFields (s : Params α) : Params α :=
  { s with optional := fun _ => false, required := fun _ => false,
           params := fun p => if s.required p then none else s.params p }

inductive Attr where
  | optional
  | required
  deriving DecidableEq

/-- `field(param, attr)`, operator.cpp:93-104 -/
def field (s : Params α) (p : String) : Attr → Params α
  | .optional => { s with optional := mark s.optional p }
  | .required => { s with required := mark s.required p, params := put s.params p none }

/-- `field(param, attr, default)`, operator.cpp:83-91 -/
def fieldDefault (s : Params α) (p : String) (a : Attr) (d : α) : Params α :=
  let s := s.field p a
  { s with params := put s.params p (some d) }

/-- `set_param_checking_mode`, operator.cpp:229-231 -/
def setMode (s : Params α) (strict : Bool) : Params α := { s with strict := strict }

/-- the calls -/
inductive Call (α : Type) where
  | set (p : String) (v : α)
  | clear (p : String)
  | clearParams
  | clearFields
  | field (p : String) (a : Attr)
  | fieldDefault (p : String) (a : Attr) (d : α)
  | setMode (strict : Bool)

/-- one call: `none` if it throws -/
def call? (s : Params α) : Call α → Option (Params α)
  | .set p v => s.set p v
  | .clear p => s.clear p
  | .clearParams => some s.clearParams
  | .clearFields => some s.clearFields
  | .field p a => some (s.field p a)
  | .fieldDefault p a d => some (s.fieldDefault p a d)
  | .setMode b => some (s.setMode b)

/-- a call that throws leaves the operator as it was -/
def call (s : Params α) (c : Call α) : Params α := (s.call? c).getD s

/-- a sequence of calls on a new operator -/
def run (cs : List (Call α)) : Params α := cs.foldl call new

/-- `check_params`, operator.cpp:117-126, for the names in `names` (the iterated `m_required_fields` are the marked names) -/
def checkParams (emp : α → Bool) (s : Params α) : Prop :=
  s.strict = true → ∀ p, s.required p = true → ∃ v, s.params p = some v ∧ emp v = false

/-- `init`, operator.cpp:172-190: throws unless `check_params` -/
def initOk (emp : α → Bool) (s : Params α) : Prop := s.checkParams emp

end Params
end Verif.Runtime
