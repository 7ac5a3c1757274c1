import Verif.Model.Receive

/-!
# Overload resolution in handlers

`dispatch` (`Verif.Model.Receive`) takes as given for which messages a handler derived from
`PartialHandlerBase` has an overload that wins over the empty defaults. This file derives that from the
declarations in the class: `ParameterHandlerBase` calls the handler object with the message tag and the
fields, and the compiler chooses among the user's overloads and the templates of `PartialHandlerBase` by
the rules of the language.

Simplifications: no conversions between message types (the first parameter of an overload is
`Message const &`, `Message &&` or `Message`, all of them an exact match); no overload with default
arguments, no overload that is itself a template; no field type is a fusion sequence.
-/

namespace TT

/-- How a parameter is declared: `T`, `T const &` or `T &`. Parameters as in PartialHandlerBase.h:55-80
(`T`) and ParameterHandlerBase.h:50-51 (`T const &`). -/
inductive Mode where
  | value
  | constRef
  | mutRef
deriving DecidableEq, Repr

/-- A parameter of an overload. User code, called in ParameterHandlerBase.h:55. -/
structure Param where
  ty : FieldType
  mode : Mode
deriving DecidableEq, Repr

/-- One `operator()(Message const &, params...)` written by the user. User code, called in
ParameterHandlerBase.h:55. -/
structure Overload where
  msg : MsgType
  params : List Param
deriving DecidableEq, Repr

/-- The implicit conversion from one type to a different one, if the language has it. For arguments of the
call in ParameterHandlerBase.h:55. -/
inductive Conv where
  | promotion
  | conversion
  | impossible
deriving DecidableEq, Repr

/-- What the language says about conversions between different types. For arguments of the call in
ParameterHandlerBase.h:55. -/
abbrev Conversions := FieldType → FieldType → Conv

/-- Rank of passing a field of type `f`, which is a `const` lvalue in the sequence given to
`invoke_procedure` (ParameterHandlerBase.h:49-56: `Sequence const &`), to a parameter: 0 exact match,
1 promotion, 2 conversion; `none`: not possible. A `const` lvalue does not bind to `T &`. -/
def Param.rank (conv : Conversions) (p : Param) (f : FieldType) : Option Nat :=
  match p.mode with
  | .mutRef => none
  | _ => if p.ty = f then some 0 else match conv f p.ty with
    | .promotion => some 1
    | .conversion => some 2
    | .impossible => none

/-- Ranks of all arguments; `none` unless the overload is viable. For arguments of the call in
ParameterHandlerBase.h:55. -/
def ranksOf (conv : Conversions) : List Param → List FieldType → Option (List Nat)
  | [], [] => some []
  | p :: ps, f :: fs =>
    match p.rank conv f, ranksOf conv ps fs with
    | some r, some rs => some (r :: rs)
    | _, _ => none
  | _, _ => none

/-- A viable function: an overload of the user, or a default of `PartialHandlerBase` (`none`), with the
ranks of its arguments. The defaults are PartialHandlerBase.h:52-80. -/
structure Candidate where
  fn : Option Overload
  ranks : List Nat
deriving DecidableEq, Repr

/-- The viable overloads of the user for the fields of `m`. For the call in ParameterHandlerBase.h:55. -/
def userCandidates (conv : Conversions) (os : List Overload) (m : MsgType) : List Candidate :=
  os.filterMap fun o =>
    if o.msg = m then (ranksOf conv o.params m.fields).map (Candidate.mk (some o)) else none

/-- The empty defaults: one function template for each arity from 0 to 9, all parameters deduced as the
fields' types (`T1`, ...), hence exact matches. The tag parameter has a default argument, which does not take
part. Models PartialHandlerBase.h:52-80. -/
def defaultCandidates (m : MsgType) : List Candidate :=
  if m.fields.length ≤ 9 then [⟨none, m.fields.map fun _ => 0⟩] else []

/-- Is `c` a better match than `d`? No argument is worse, and one is better or only `d` is a template.
The rule of the language (over.match.best). For the call in ParameterHandlerBase.h:55. -/
def Candidate.better (c d : Candidate) : Bool :=
  (List.zipWith (fun a b => decide (a ≤ b)) c.ranks d.ranks).all id &&
  ((List.zipWith (fun a b => decide (a < b)) c.ranks d.ranks).any id || (c.fn.isSome && d.fn.isNone))

/-- The outcome of overload resolution. Of the call in ParameterHandlerBase.h:55. -/
inductive Resolution where
  | call (o : Overload)
  | default
  | ambiguous
  | noMatch
deriving DecidableEq, Repr

/-- Overload resolution: the viable function better than all others. For the call in ParameterHandlerBase.h:55. -/
def resolve (cs : List Candidate) : Resolution :=
  match cs with
  | [] => .noMatch
  | cs =>
    match cs.zipIdx.find? fun c => cs.zipIdx.all fun d => decide (c.2 = d.2) || c.1.better d.1 with
    | some (⟨some o, _⟩, _) => .call o
    | some (⟨none, _⟩, _) => .default
    | none => .ambiguous

/-- What the call with the fields of `m` resolves to in a class derived from `PartialHandlerBase`.
Models PartialHandlerBase.h:47-82 with a `using` declaration as its documentation demands. -/
def resolvePartial (conv : Conversions) (os : List Overload) (m : MsgType) : Resolution :=
  resolve (userCandidates conv os m ++ defaultCandidates m)

/-- The same in a class derived from `ParameterHandlerBase` only. Models ParameterHandlerBase.h:46-61. -/
def resolveParameter (conv : Conversions) (os : List Overload) (m : MsgType) : Resolution :=
  resolve (userCandidates conv os m)

/-- Does the resolution compile?. The call is ParameterHandlerBase.h:55. -/
def Resolution.ok : Resolution → Bool
  | .call _ => true
  | .default => true
  | _ => false

/-- The handler class made from `PartialHandlerBase` and the overloads `os`, as `dispatch` knows it; the
receiver instantiates the call for every message of the collection (detail/operations/DeserializeToFusion.h:96-126),
so all of them have to compile. `none`: does not compile. -/
def partialKind (conv : Conversions) (os : List Overload) (C : Collection) : Option HandlerKind :=
  if C.messages.all fun m => (resolvePartial conv os m).ok then
    some (.partialBase (C.messages.filter fun m => match resolvePartial conv os m with
      | .call _ => true
      | _ => false))
  else none

end TT
