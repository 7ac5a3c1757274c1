import Verif.Model.CppText
import Verif.Model.Transmit

/-!
# Calls of `send` and the function templates they select

What the compiler does with a call `send<Collection, Message>(tx, args...)` or `send<Bound>(tx, args...)`: the
function templates read from the generated header (`Verif.Model.CppText`) and the main template of Send.h are
candidates.

Simplifications: an argument is a fusion sequence, or an expression of a type that is not a sequence; a fusion
sequence does not convert to a field type. `boost::mpl::equal`, meant for sequences, is applied to integral constants
in the header; the model takes as a parameter what it answers, and assumes only that it answers `true` for equal ones.
-/

namespace TT.Cpp
open TT.Gen

/-- What the names in a function template stand for. For the text of detail/operations/SendOverloads_Generated.h:55-430. -/
inductive Entity where
  | collection (C : Collection)
  | message (m : MsgType)
  | bound (C : Collection) (m : MsgType)
  | sequence (fs : List FieldType)
  | field (f : FieldType)
  /-- `mpl::void_`, the result of `mpl::at_c` behind the end. Nothing converts to it. -/
  | void_
  /-- `void` -/
  | nothing
  | int (n : Nat)
  | bool (b : Bool)
  /-- The derived class of the transmitter, and `TransmitterBase` of it. -/
  | derived
  | transmitter
deriving DecidableEq, Repr

/-- Template parameters that are known. For the text of detail/operations/SendOverloads_Generated.h:55-430. -/
abbrev Env := List (Text × Entity)

/-- `x::name`. Models MessageType.h:51-56 (`sequence_type`) and BoundMessageType.h:64-67. -/
def Entity.member (x : Entity) (name : Text) : Option Entity :=
  match x with
  | .message m => if name = chars! "sequence_type" then some (.sequence m.fields) else none
  | .bound C m =>
    if name = chars! "message_type" then some (.message m)
    else if name = chars! "message_collection" then some (.collection C) else none
  | _ => none

/-- `x::a::b`... As in detail/operations/SendOverloads_Generated.h:88-97. -/
def members (x : Entity) : List Tok → Option Entity
  | [] => some x
  | .punct ':' :: .punct ':' :: .word w :: ts => (x.member w).bind fun y => members y ts
  | _ => none

/-- Without a leading `typename`. For the text of detail/operations/SendOverloads_Generated.h:55-430. -/
def dropTypename : List Tok → List Tok
  | .word w :: ts => if w = chars! "typename" then ts else .word w :: ts
  | ts => ts

/-- A type or constant expression. `eqTest a b`: the answer of `mpl::equal` for the constants `a` and `b`; `fuel`: more
than the nesting depth. `none`: not understood, or a substitution failure.
`mpl::at_c`, `mpl::int_`, `enable_if`: Boost; `MessageArity`: detail/operations/MessageArity.h:37-38. -/
def evalTy (eqTest : Nat → Nat → Bool) (env : Env) : Nat → List Tok → Option Entity
  | 0, _ => none
  | fuel + 1, ts =>
    let ts := dropTypename ts
    match expect (lex (chars! "mpl::at_c<")) ts with
    | some us => do
      let (gs, us) ← groups 0 [] [] us
      match gs with
      | [g, h] => do
        if us ≠ lex (chars! "::type") then none else
        match evalTy eqTest env fuel g, evalTy eqTest env fuel h with
        | some (.sequence fs), some (.int i) =>
          match fs[i]? with
          | some f => some (.field f)
          | none => some .void_
        | _, _ => none
      | _ => none
    | none =>
    match expect (lex (chars! "mpl::int_<")) ts with
    | some us => do
      let (gs, us) ← groups 0 [] [] us
      match gs with
      | [g] => if us ≠ [] then none else evalTy eqTest env fuel g
      | _ => none
    | none =>
    match expect (lex (chars! "MessageArity<")) ts with
    | some us => do
      let (gs, us) ← groups 0 [] [] us
      match gs with
      | [g] =>
        if us ≠ [] then none else
        match evalTy eqTest env fuel g with
        | some (.message m) => some (.int (messageArity m))
        | _ => none
      | _ => none
    | none =>
    match expect (lex (chars! "mpl::equal<")) ts with
    | some us => do
      let (gs, us) ← groups 0 [] [] us
      match gs with
      | [g, h] =>
        if us ≠ [] then none else
        match evalTy eqTest env fuel g, evalTy eqTest env fuel h with
        | some (.int a), some (.int b) => some (.bool (eqTest a b))
        | _, _ => none
      | _ => none
    | none =>
    match expect (lex (chars! "enable_if<")) ts with
    | some us => do
      let (gs, us) ← groups 0 [] [] us
      match gs with
      | [g, h] =>
        if us ≠ lex (chars! "::type") then none else
        match evalTy eqTest env fuel g with
        | some (.bool true) => evalTy eqTest env fuel h
        | _ => none
      | _ => none
    | none =>
    match expect (lex (chars! "transmitters::TransmitterBase<")) ts with
    | some us => do
      let (gs, us) ← groups 0 [] [] us
      match gs with
      | [g] =>
        if us ≠ [] then none else
        match evalTy eqTest env fuel g with
        | some .derived => some .transmitter
        | _ => none
      | _ => none
    | none =>
    match ts with
    | .word w :: us =>
      match number w with
      | some n => if us = [] then some (.int n) else none
      | none =>
        if w = chars! "void" then if us = [] then some .nothing else none
        else (env.lookup w).bind fun x => members x us
    | _ => none

/-- Nesting depth that is enough for the header. For the text of detail/operations/SendOverloads_Generated.h:55-430. -/
def depth : Nat := 6

/-- An argument that is not a fusion sequence: its type, if a field can have it, and what the implicit conversion to
a field type gives (the bytes of the object), if there is one. An argument of calls of
detail/operations/SendOverloads_Generated.h:55-430. -/
structure Expr where
  ty : Option FieldType
  conv : FieldType → Option (List Byte)

/-- An argument of `send` after the transmitter. An argument of calls of Send.h:48-73 and
detail/operations/SendOverloads_Generated.h:55-430. -/
inductive Arg where
  | seq (vs : List Value)
  | expr (e : Expr)

/-- The name of a template parameter `typename X`. For the text of detail/operations/SendOverloads_Generated.h:55-430. -/
def tparamName : List Tok → Option Text
  | [.word k, .word x] => if k = chars! "typename" then some x else none
  | _ => none

/-- The names of all template parameters. For the text of detail/operations/SendOverloads_Generated.h:55-430. -/
def tparamNames : List (List Tok) → Option (List Text)
  | [] => some []
  | g :: gs => (tparamName g).bind fun x => (tparamNames gs).map (x :: ·)

/-- Type and name of a parameter; a reference to a type is the type here. For the text of
detail/operations/SendOverloads_Generated.h:55-430. -/
def paramOf (eqTest : Nat → Nat → Bool) (env : Env) (g : List Tok) : Option (Entity × Text) :=
  match g.getLast? with
  | some (.word x) =>
    let ty := g.dropLast
    let ty := if ty.getLast? = some (.punct '&') then ty.dropLast else ty
    (evalTy eqTest env depth ty).map fun e => (e, x)
  | _ => none

/-- Types and names of all parameters. For the text of detail/operations/SendOverloads_Generated.h:55-430. -/
def paramsOf (eqTest : Nat → Nat → Bool) (env : Env) : List (List Tok) → Option (List (Entity × Text))
  | [] => some []
  | g :: gs => (paramOf eqTest env g).bind fun p => (paramsOf eqTest env gs).map (p :: ·)

/-- The value a parameter gets from an argument; `none`: the argument does not convert. For the text of
detail/operations/SendOverloads_Generated.h:55-430. -/
def bindArg (p : Entity × Text) (a : Arg) : Option Value :=
  match p.1, a with
  | .field f, .expr e => (e.conv f).map fun bs => ⟨f, bs⟩
  | _, _ => none

/-- The values of all parameters, one argument for each. For the text of detail/operations/SendOverloads_Generated.h:55-430. -/
def bindArgs : List (Entity × Text) → List Arg → Option (List (Text × Value))
  | [], [] => some []
  | p :: ps, a :: as => (bindArg p a).bind fun v => (bindArgs ps as).map ((p.2, v) :: ·)
  | _, _ => none

/-- A generated function that is viable for a call: what its parameters are bound to, and its template
parameters. For the text of detail/operations/SendOverloads_Generated.h:55-430. -/
structure Viable where
  fn : Fn
  env : Env
  types : List Entity
  values : List (Text × Value)

/-- Is the function viable for a call with explicit template arguments `ex` and arguments `as` after the transmitter?
The last template parameter is deduced from the transmitter; a template with more parameters has one that cannot be
deduced, one with fewer would have to take the message for the type of the transmitter. For the text of
detail/operations/SendOverloads_Generated.h:55-430. -/
def viable (eqTest : Nat → Nat → Bool) (ex : List Entity) (as : List Arg) (f : Fn) : Option Viable := do
  let names ← tparamNames f.tparams
  if names.length ≠ ex.length + 1 then none else
  let env := names.zip (ex ++ [.derived])
  match expect [.word (chars! "inline")] f.result with
  | none => none
  | some r =>
    match evalTy eqTest env depth r with
    | some .nothing =>
      match paramsOf eqTest env f.params with
      | some ((.transmitter, _) :: ps) =>
        (bindArgs ps as).map fun vs => ⟨f, env, ps.map (·.1), vs⟩
      | _ => none
    | _ => none

/-- The values of the variables in `make_list(...)`. For the text of detail/operations/SendOverloads_Generated.h:55-430. -/
def variables (vs : List (Text × Value)) : List (List Tok) → Option (List Value)
  | [] => some []
  | [.word x] :: gs => (vs.lookup x).bind fun v => (variables vs gs).map (v :: ·)
  | _ :: _ => none

/-- The body of a generated function: the call of the main template. For the text of
detail/operations/SendOverloads_Generated.h:55-430. -/
def Viable.call (eqTest : Nat → Nat → Bool) (v : Viable) : Option (Collection × MsgType × List Value) := do
  let ts ← expect (lex (chars! "::transmission::send<")) v.fn.body
  let (targs, ts) ← groups 0 [] [] ts
  let ts ← expect [.punct '('] ts
  let (args, ts) ← groups 0 [] [] ts
  if ts ≠ [.punct ';'] then none else
  match targs, args with
  | [c, m], [t, l] =>
    if t ≠ [.word (chars! "tx")] then none else
    match evalTy eqTest v.env depth c, evalTy eqTest v.env depth m with
    | some (.collection C), some (.message m) => do
      let us ← expect (lex (chars! "fusion::make_list(")) l
      let (gs, us) ← groups 0 [] [] us
      if us ≠ [] then none else
      let vs ← variables v.values gs
      return (C, m, vs)
    | _, _ => none
  | _, _ => none

/-- The main template and the one taking a bound message: with a fusion sequence they send it. With anything else the
static assertion or `fusion::for_each` fails to compile. Models Send.h:48-73. -/
def callMain {σ : Type} (ex : List Entity) (T : Tx σ) (s : σ) (a : Arg) : Option (Res σ) :=
  match ex, a with
  | [.collection C, .message m], .seq vs => send C m T s vs
  | [.bound C m], .seq vs => send C m T s vs
  | _, _ => none

/-- Does the argument have exactly the type?. For the calls of Send.h:48-73 and
detail/operations/SendOverloads_Generated.h:55-430. -/
def Arg.exact (a : Arg) (x : Entity) : Bool :=
  match a, x with
  | .expr e, .field f => decide (e.ty = some f)
  | _, _ => false

/-- `send<ex...>(tx, as...)`: overload resolution among the generated functions `fs` and the main template, and the call.
The main template takes one argument of any type as an exact match. A generated function that needs a conversion is
worse than that; one that needs none is more specialised and therefore better. Two viable generated functions are
ambiguous. `none`: the call does not compile. Models Send.h:48-73 and
detail/operations/SendOverloads_Generated.h:58-442. -/
def callSend {σ : Type} (eqTest : Nat → Nat → Bool) (fs : List Fn) (ex : List Entity) (T : Tx σ) (s : σ)
    (as : List Arg) : Option (Res σ) :=
  match fs.filterMap (viable eqTest ex as), as with
  | [], [a] => callMain ex T s a
  | [v], [a] =>
    if v.types.all (a.exact ·) then
      (v.call eqTest).bind fun (C, m, vs) => send C m T s vs
    else callMain ex T s a
  | [v], _ => (v.call eqTest).bind fun (C, m, vs) => send C m T s vs
  | _, _ => none

end TT.Cpp
