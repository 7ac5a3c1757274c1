import Verif.Model.SendCalls

/-!
# Calls of handlers and the generated defaults of `PartialHandlerBase`

`ParameterHandlerBase` calls the handler object with the message tag and the fields (ParameterHandlerBase.h:50-57),
the receiver calls it with the tag and the sequence. This file says which function templates read from the generated
text (`Verif.Model.CppText`) are viable for such a call.

Simplifications: the first argument is the message tag; the others are `const` lvalues that do not convert to the
pointer types of the parameters with default arguments (`void *`).
-/

namespace TT.Cpp
open TT.Gen

/-- Is the parameter declared with a default argument?. As in PartialHandlerBase.h:52-80. -/
def hasDefault (g : List Tok) : Bool := g.contains (.punct '=')

/-- Deduction of the template parameters from arguments, of which only is known whether they are fusion sequences:
every parameter is a template parameter that is not deduced from another one. The templates are those of
PartialHandlerBase.h:52-80. -/
def deduce (names : List Text) : List (Text × Bool) → List (List Tok) → List Bool → Option (List (Text × Bool))
  | ded, [], [] => some ded
  | ded, [.word x] :: ps, a :: as =>
    if names.contains x && (ded.lookup x).isNone then deduce names (ded ++ [(x, a)]) ps as else none
  | _, _, _ => none

/-- Can the default argument be instantiated? `isMessage`: has the tag a member `message_type_tag`
(MessageType.h:55)? `boost::disable_if` has no member `type` if its condition holds. -/
def defaultOk (isMessage : Bool) (ded : List (Text × Bool)) (g : List Tok) : Option Bool :=
  if g = lex (chars! "typename M::message_type_tag * = NULL") then some isMessage
  else do
    let us ← expect (lex (chars! "typename boost::disable_if<boost::fusion::traits::is_sequence<")) g
    match us with
    | .word x :: vs =>
      if vs = lex (chars! "> >::type * = NULL") then (ded.lookup x).map (!·) else none
    | _ => none

/-- Is the template viable for a call with a tag and further arguments `as` (is it a fusion sequence)? `none`: the
text is not understood. Models the templates of PartialHandlerBase.h:52-81 by what their text says. -/
def handlerViable (isMessage : Bool) (as : List Bool) (f : Fn) : Option Bool := do
  if f.name ≠ chars! "operator" ∨ f.result ≠ [.word (chars! "void")] then none else
  let names ← tparamNames f.tparams
  match f.params with
  | p :: ps =>
    if p ≠ lex (chars! "M const &") ∨ names.head? ≠ some (chars! "M") then none else
    let required := ps.filter (!hasDefault ·)
    let defaults := ps.filter hasDefault
    -- default arguments are at the end
    if ps ≠ required ++ defaults then none else
    match deduce names.tail [] required as with
    | none => some false
    | some ded =>
      if ded.length ≠ names.tail.length then some false else do
      let oks ← defaults.mapM (defaultOk isMessage ded)
      return oks.all id
  | [] => none

/-- The body of the defaults does nothing. As in PartialHandlerBase.h:52-80. -/
def Fn.empty (f : Fn) : Bool := f.body.isEmpty

end TT.Cpp
