/-
Model of operation ids.

Models /repo/include/maf/messaging/client-server/CSContractDefinesBegin.mc.h 97-101, 141-148 (`mc_maf_csc_declare_feature`: the id of an operation of a contract),
/repo/include/maf/messaging/client-server/itc/TypeIDParamTrait.h 18-24 (`MAF_CS_SIMPLE_REQUEST`), 76-83 (`getOperationID`), 99-119 (`translate`), and
/repo/include/maf/messaging/client-server/ParamTraitBase.h 31-50 (`getOperationID`, `isSameOpID`).

Operations of one service are told apart by their ids only (`registerRequestHandler`, `onIncomingMessage`).
-/

namespace Maf.OpId

inductive Kind where
  | request | property | signal
deriving DecidableEq, Repr

/-- `#type` -/
def Kind.name : Kind → List Char
  | .request => "request".toList
  | .property => "property".toList
  | .signal => "signal".toList

/-- `MAF_CS_CONTRACT_PREFIX #name "." #type` -/
def contract (pre name : List Char) (k : Kind) : List Char := pre ++ name ++ ['.'] ++ k.name

/-- `#RequestName #Input #Output` -/
def simple (request input output : List Char) : List Char := request ++ input ++ output

/-- What asking a pointer to a message for its operation comes to: an id, or undefined behaviour. -/
inductive Asked where
  | id (i : List Char)
  | undefined
deriving DecidableEq, Repr

/-- ParamTraitBase.h 37-44; `none` is the null pointer, `some i` points to a message whose class has id `i`. -/
def ofPointer : Option (List Char) → Asked
  | some _ => .id []
  | none => .undefined

/-- ParamTraitBase.h 46-49 -/
def sameOp (a b : Option (List Char)) : Option Bool :=
  match ofPointer a, ofPointer b with
  | .id i, .id j => some (i == j)
  | _, _ => none

/-- A payload of inter-thread communication: the class it was made of, and its bytes. -/
structure Payload where
  cls : Nat
  val : Nat
deriving DecidableEq, Repr

inductive Got where
  | value (v : Nat)
  | null
  /-- an object of another class is used as one of the expected class -/
  | undefined
deriving DecidableEq, Repr

/-- TypeIDParamTrait.h 99-103: a cast without check to the class `want` -/
def translate (want : Nat) : Option Payload → Got
  | none => .null
  | some p => if p.cls = want then .value p.val else .undefined

/-- A request as it is declared: the names given, and the class of its input. -/
structure Decl where
  request : List Char
  input : List Char
  output : List Char
  cls : Nat
deriving DecidableEq, Repr

/-- Stub: the handler found for an id is the one registered with it first or last; here: the only one that is registered. -/
def deliver (registered : Decl) (sent : Decl) (val : Nat) : Option Got :=
  if simple sent.request sent.input sent.output = simple registered.request registered.input registered.output then
    some (translate registered.cls (some ⟨sent.cls, val⟩))
  else none

end Maf.OpId
