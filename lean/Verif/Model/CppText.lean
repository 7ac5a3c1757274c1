import Verif.Model.Generator

/-!
# Reading generated C++ text

The generated headers (generation/, `Verif.Model.Generator`) are text. This file reads as much of the language as
they use: tokens, comments to the end of the line, the preprocessor directives `#ifndef`, `#define`, `#if X >= n`
and `#endif`, and function templates.

This is a model of the compiler, not of code in /repo. Simplifications: `<` and `>` are always brackets and kinds
of brackets are not told apart; no block comments, no string literals, no nested braces in functions.
-/

namespace TT.Cpp
open TT.Gen

/-- A token: a word (name or number), a punctuation character, or a preprocessor line without its `#`. For
text like detail/operations/SendOverloads_Generated.h:55-442 and PartialHandlerBase.h:52-80. -/
inductive Tok where
  | word (w : Text)
  | punct (c : Char)
  | line (t : Text)
deriving DecidableEq, Repr

/-- What the tokeniser is in the middle of. For text like detail/operations/SendOverloads_Generated.h:55-442 and
PartialHandlerBase.h:52-80. -/
inductive LexMode where
  | code (w : Text)
  | slash
  | comment
  | directive (t : Text)
deriving DecidableEq, Repr

/-- Characters of names and numbers. For text like detail/operations/SendOverloads_Generated.h:55-442 and
PartialHandlerBase.h:52-80. -/
def isWordChar (c : Char) : Bool := c.isAlphanum || c == '_'

/-- The word read so far, if any. For text like detail/operations/SendOverloads_Generated.h:55-442 and PartialHandlerBase.h:52-80. -/
def flush : Text → List Tok
  | [] => []
  | w => [.word w]

/-- One character. For text like detail/operations/SendOverloads_Generated.h:55-442 and PartialHandlerBase.h:52-80. -/
def lexStep : LexMode → Char → List Tok × LexMode
  | .code w, c =>
    if isWordChar c then ([], .code (w ++ [c]))
    else if c = '/' then (flush w, .slash)
    else if c = '#' then (flush w, .directive [])
    else if c = ' ' ∨ c = '\t' ∨ c = '\n' then (flush w, .code [])
    else (flush w ++ [.punct c], .code [])
  | .slash, c => if c = '/' then ([], .comment) else ([.punct '/', .punct c], .code [])
  | .comment, c => ([], if c = '\n' then .code [] else .comment)
  | .directive t, c => if c = '\n' then ([.line t], .code []) else ([], .directive (t ++ [c]))

/-- The tokens of a text, and what the tokeniser is in the middle of at its end. For text like
detail/operations/SendOverloads_Generated.h:55-442 and PartialHandlerBase.h:52-80. -/
def lexGo : LexMode → Text → List Tok × LexMode
  | m, [] => ([], m)
  | m, c :: cs =>
    let (ts, m) := lexStep m c
    let (us, m) := lexGo m cs
    (ts ++ us, m)

/-- The end of the text. For text like detail/operations/SendOverloads_Generated.h:55-442 and PartialHandlerBase.h:52-80. -/
def lexEnd : LexMode → List Tok
  | .code w => flush w
  | .slash => [.punct '/']
  | .comment => []
  | .directive t => [.line t]

/-- The tokens of a text. For text like detail/operations/SendOverloads_Generated.h:55-442 and PartialHandlerBase.h:52-80. -/
def lex (t : Text) : List Tok := (lexGo (.code []) t).1 ++ lexEnd (lexGo (.code []) t).2

/-- Value of a digit. As in detail/constants/ArityConfig.h:46. -/
def digitValue (c : Char) : Option Nat :=
  match c with
  | '0' => some 0 | '1' => some 1 | '2' => some 2 | '3' => some 3 | '4' => some 4
  | '5' => some 5 | '6' => some 6 | '7' => some 7 | '8' => some 8 | '9' => some 9
  | _ => none

/-- Value of decimal digits, after digits worth `acc`. As in detail/constants/ArityConfig.h:46. -/
def numberGo : Nat → Text → Option Nat
  | acc, [] => some acc
  | acc, c :: cs => (digitValue c).bind fun d => numberGo (10 * acc + d) cs

/-- Value of a number in decimal notation; `none` for words that are not numbers. As in detail/constants/ArityConfig.h:46. -/
def number : Text → Option Nat
  | [] => none
  | cs => numberGo 0 cs

/-- Numeric macros that are defined. As those of detail/constants/ArityConfig.h:45-50. -/
abbrev Macros := List (Text × Nat)

/-- A preprocessor line: the macros after it and the conditional groups that are open, innermost first; `true`: the
group is kept. `none`: not understood. Lines like detail/operations/SendOverloads_Generated.h:55 and detail/constants/ArityConfig.h:45-50. -/
def directive (ms : Macros) (open_ : List Bool) (t : Text) : Option (Macros × List Bool) :=
  match lex t with
  | [.word k] =>
    if k = chars! "endif" then
      match open_ with
      | [] => none
      | _ :: os => some (ms, os)
    else none
  | [.word k, .word x] =>
    if k = chars! "ifndef" then some (ms, (ms.lookup x).isNone :: open_) else none
  | [.word k, .word x, .word n] =>
    if k = chars! "define" then
      if open_.all id then (number n).map fun n => ((x, n) :: ms, open_) else some (ms, open_)
    else none
  | [.word k, .word x, .punct '>', .punct '=', .word n] =>
    if k = chars! "if" then
      -- a name that is not defined counts as 0
      (number n).map fun n => (ms, decide (n ≤ (ms.lookup x).getD 0) :: open_)
    else none
  | _ => none

/-- The preprocessor: the tokens that are kept, and the macros defined in the end. For lines like
detail/operations/SendOverloads_Generated.h:55 and detail/constants/ArityConfig.h:45-50. -/
def preprocess (ms : Macros) (open_ : List Bool) : List Tok → Option (List Tok × Macros)
  | [] => if open_ = [] then some ([], ms) else none
  | .line t :: ts => (directive ms open_ t).bind fun (ms, os) => preprocess ms os ts
  | t :: ts =>
    (preprocess ms open_ ts).map fun (us, ms) => (if open_.all id then t :: us else us, ms)

/-- The groups between commas, up to the closing bracket that belongs to a bracket before the tokens; and the tokens
after it. `d`: brackets open inside, `cur`: the group so far, `acc`: the groups before. For text like
detail/operations/SendOverloads_Generated.h:55-442 and PartialHandlerBase.h:52-80. -/
def groups (d : Nat) (cur : List Tok) (acc : List (List Tok)) : List Tok →
    Option (List (List Tok) × List Tok)
  | [] => none
  | t :: ts =>
    if t = .punct '(' ∨ t = .punct '<' then groups (d + 1) (cur ++ [t]) acc ts
    else if t = .punct ')' ∨ t = .punct '>' then
      match d with
      | 0 => some (if cur = [] ∧ acc = [] then [] else acc ++ [cur], ts)
      | d + 1 => groups d (cur ++ [t]) acc ts
    else if t = .punct ',' ∧ d = 0 then groups d [] (acc ++ [cur]) ts
    else groups d (cur ++ [t]) acc ts

/-- The tokens after a prefix. For text like detail/operations/SendOverloads_Generated.h:55-442 and PartialHandlerBase.h:52-80. -/
def expect : List Tok → List Tok → Option (List Tok)
  | [], ts => some ts
  | _ :: _, [] => none
  | p :: ps, t :: ts => if p = t then expect ps ts else none

/-- A function template: template parameters, everything between them and the name, name, parameters, body.
As in detail/operations/SendOverloads_Generated.h:59-67 and PartialHandlerBase.h:52-53. -/
structure Fn where
  tparams : List (List Tok)
  result : List Tok
  name : Text
  params : List (List Tok)
  body : List Tok
deriving DecidableEq, Repr

/-- The tokens up to the first word outside brackets that is followed by an opening parenthesis, that word, and the
tokens after the parenthesis. `operator()` counts as a word. For text like detail/operations/SendOverloads_Generated.h:55-442
and PartialHandlerBase.h:52-80. -/
def declarator (d : Nat) (acc : List Tok) : List Tok → Option (List Tok × Text × List Tok)
  | [] => none
  | t :: ts =>
    match d, t, ts with
    | 0, .word w, .punct '(' :: us =>
      if w = chars! "operator" then
        (expect [.punct ')', .punct '('] us).map fun vs => (acc, w, vs)
      else some (acc, w, us)
    | d, t, ts =>
      if t = .punct '<' then declarator (d + 1) (acc ++ [t]) ts
      else if t = .punct '>' then declarator (d - 1) (acc ++ [t]) ts
      else declarator d (acc ++ [t]) ts

/-- The tokens up to a closing brace, and those after it. For text like detail/operations/SendOverloads_Generated.h:55-442 and
PartialHandlerBase.h:52-80. -/
def untilBrace (acc : List Tok) : List Tok → Option (List Tok × List Tok)
  | [] => none
  | t :: ts => if t = .punct '}' then some (acc, ts) else untilBrace (acc ++ [t]) ts

/-- One function template, and the tokens after it. For text like detail/operations/SendOverloads_Generated.h:55-442 and
PartialHandlerBase.h:52-80. -/
def parseFn (ts : List Tok) : Option (Fn × List Tok) := do
  let ts ← expect [.word (chars! "template"), .punct '<'] ts
  let (tparams, ts) ← groups 0 [] [] ts
  let (result, name, ts) ← declarator 0 [] ts
  let (params, ts) ← groups 0 [] [] ts
  let ts ← expect [.punct '{'] ts
  let (body, ts) ← untilBrace [] ts
  return (⟨tparams, result, name, params, body⟩, ts)

/-- All function templates; `fuel`: more than there are. For text like detail/operations/SendOverloads_Generated.h:55-442 and
PartialHandlerBase.h:52-80. -/
def parseFns : Nat → List Tok → Option (List Fn)
  | _, [] => some []
  | 0, _ => none
  | fuel + 1, ts => (parseFn ts).bind fun (f, us) => (parseFns fuel us).map (f :: ·)

/-- The function templates in a text, with macros defined before. For text like
detail/operations/SendOverloads_Generated.h:55-442 and PartialHandlerBase.h:52-80. -/
def readFns (ms : Macros) (t : Text) : Option (List Fn) :=
  (preprocess ms [] (lex t)).bind fun (ts, _) => parseFns (ts.length + 1) ts

end TT.Cpp
