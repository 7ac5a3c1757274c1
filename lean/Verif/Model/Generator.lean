/-!
# The scripts that generate headers (generation/)

`generation/variadicGenerate.lua` runs a data file and prints a header. The functions of the scripts are
modelled as functions on texts; a Lua string is a list of characters. `out` appends to the list of lines;
here each function returns the lines it appends.
-/

namespace TT.Gen

/-- A text. Lines in the table of generation/variadicGenerate.lua:10. -/
abbrev Text := List Char

/-- Notation for the characters of a string literal, as a list of character literals. -/
macro "chars!" s:str : term => do
  s.getString.toList.foldrM (fun c cs => do `($(Lean.quote c) :: $cs)) (← `(([] : Text)))

/-- One decimal digit. Part of the `format` calls, for example generation/SendOverloads.gen.lua:3. -/
def digit (n : Nat) : Char :=
  match n with
  | 0 => '0' | 1 => '1' | 2 => '2' | 3 => '3' | 4 => '4'
  | 5 => '5' | 6 => '6' | 7 => '7' | 8 => '8' | _ => '9'

/-- The digits of `n`, most significant first, in front of `acc`; `fuel` is at least the number of digits.
Part of the `format` calls, for example generation/SendOverloads.gen.lua:3. -/
def decimalGo : Nat → Nat → Text → Text
  | 0, _, acc => acc
  | fuel + 1, n, acc => if n < 10 then digit n :: acc else decimalGo fuel (n / 10) (digit (n % 10) :: acc)

/-- `("%d"):format(n)` and `tostring(n)` for a number that is not negative. Models for example
generation/SendOverloads.gen.lua:3,101. -/
def decimal (n : Nat) : Text := decimalGo (n + 1) n []

/-- `table.concat(t, sep)`. Models generation/variadicGenerate.lua:75. -/
def cat : List Text → Text → Text
  | [], _ => []
  | [t], _ => t
  | t :: u :: ts, sep => t ++ sep ++ cat (u :: ts) sep

/-- `genRange(count, f)`: `f(1)`, ..., `f(count)` joined with commas.
Models generation/variadicGenerate.lua:67-73. -/
def genRange (count : Nat) (f : Nat → Text) : Text :=
  cat ((List.range count).map fun i => f (i + 1)) (chars! ", ")

/-- `indent(amount, functionIndents)`; `rep` of a negative count is empty. `baseIndent` is the one of the
data file. Models generation/variadicGenerate.lua:41-43. -/
def indent (baseIndent : Nat) (amount : Int) (functionIndents : Nat) : Text :=
  List.replicate (amount + baseIndent).toNat '\t' ++
    (List.replicate functionIndents (chars! "    ")).flatten

/-- `out(regularIndents, argumentIndents, line)`. Models generation/variadicGenerate.lua:45-65. -/
def out (baseIndent : Nat) (regularIndents : Int) (argumentIndents : Nat) (line : Text) : Text :=
  indent baseIndent regularIndents argumentIndents ++ line

namespace SendOverloads

/-- `baseIndent` of the data file. Models generation/SendOverloads.gen.lua:22. -/
def baseIndent : Nat := 4

/-- The list `arguments`. Models generation/SendOverloads.gen.lua:6-9. -/
def arguments (arity : Nat) (messageSequenceType : Text) : List Text :=
  chars! "transmitters::TransmitterBase<TransmitterDerived> & tx" ::
    (List.range arity).map fun i =>
      chars! "typename mpl::at_c<" ++ messageSequenceType ++ chars! ", " ++ decimal i ++ chars! ">::type a"
        ++ decimal (i + 1)

/-- `generateHelper(arity, MessageCollectionType, MessageType, message_sequence_type)`: one overload.
Models generation/SendOverloads.gen.lua:1-17. -/
def generateHelper (arity : Nat) (messageCollectionType messageType messageSequenceType : Text) : List Text :=
  [ out baseIndent 0 0 (chars! "inline typename enable_if< mpl::equal<mpl::int_<" ++ decimal arity ++
      chars! ">, MessageArity<" ++ messageType ++ chars! "> >, void>::type"),
    out baseIndent 0 0 (chars! "send(" ++
      cat (arguments arity messageSequenceType) (chars! ",\n" ++ indent baseIndent 0 0 ++ chars! "     ") ++
      chars! ") {\n"),
    out baseIndent 1 0 (chars! "::transmission::send<" ++ messageCollectionType ++ chars! ", " ++
      messageType ++ chars! ">("),
    out baseIndent 1 1 (chars! "tx,"),
    out baseIndent 1 1 (chars! "fusion::make_list(" ++ genRange arity (fun i => chars! "a" ++ decimal i) ++
      chars! ")"),
    out baseIndent 1 0 (chars! ");"),
    out baseIndent 0 0 (chars! "}\n") ]

/-- `generate(arity)`: the two overloads for one arity.
Models generation/SendOverloads.gen.lua:25-47. -/
def generate (arity : Nat) : List Text :=
  [ out baseIndent (-4) 0 (chars! "#if FUSION_MAX_LIST_SIZE >= " ++ decimal arity),
    out baseIndent 0 0 (chars! "/// @brief Overload of transmission::send() taking a message collection and a message type as explicit"),
    out baseIndent 0 0 (chars! "/// template parameters, and taking a transmitter, plus values for " ++ decimal arity ++
      chars! " message fields directly"),
    out baseIndent 0 0 (chars! "/// instead of a boost::fusion sequence containing the field values."),
    out baseIndent 0 0 (chars! "template<typename MessageCollectionType, typename MessageType, typename TransmitterDerived>") ] ++
  generateHelper arity (chars! "MessageCollectionType") (chars! "MessageType")
    (chars! "typename MessageType::sequence_type") ++
  [ out baseIndent 0 0 (chars! "/// @brief Overload of transmission::send() taking a BoundMessageType as the only explicit"),
    out baseIndent 0 0 (chars! "/// template parameter, and taking a transmitter, plus values for " ++ decimal arity ++
      chars! " message fields directly"),
    out baseIndent 0 0 (chars! "/// instead of a boost::fusion sequence containing the field values."),
    out baseIndent 0 0 (chars! "template<typename BoundMessage, typename TransmitterDerived>") ] ++
  generateHelper arity (chars! "typename BoundMessage::message_collection")
    (chars! "typename BoundMessage::message_type") (chars! "typename BoundMessage::message_type::sequence_type") ++
  [ out baseIndent (-4) 0 (chars! "#endif\n") ]

end SendOverloads

namespace PartialHandler

/-- `baseIndent` of the data file. Models generation/PartialHandlerBase.gen.lua:3. -/
def baseIndent : Nat := 3

/-- The list `argumentTypes`. Models generation/PartialHandlerBase.gen.lua:9,13-14. -/
def argumentTypes (arity : Nat) : List Text :=
  chars! "typename M" ::
    (if 0 < arity then [genRange arity fun i => chars! "typename T" ++ decimal i] else [])

/-- The list `arguments`. Models generation/PartialHandlerBase.gen.lua:10,13-24. -/
def arguments (arity : Nat) : List Text :=
  [chars! "M const &"] ++
    (if 0 < arity then [genRange arity fun i => chars! "T" ++ decimal i] else []) ++
    [chars! "typename M::message_type_tag * = NULL"] ++
    (if arity = 1 then
      [chars! "typename boost::disable_if<boost::fusion::traits::is_sequence<T1> >::type * = NULL"] else [])

/-- `generate(arity)`: the empty default for one arity. Models generation/PartialHandlerBase.gen.lua:7-28. -/
def generate (arity : Nat) : List Text :=
  [ out baseIndent 0 0 (chars! "template<" ++ cat (argumentTypes arity) (chars! ", ") ++ chars! ">"),
    out baseIndent 0 0 (chars! "void operator()(" ++ cat (arguments arity) (chars! ", ") ++ chars! ") {}\n") ]

end PartialHandler

namespace ArityConfig

/-- `generate()`; the values are the settings at the top of the script. Models
generation/ArityConfig.gen.lua:7-31 with generation/variadicGenerate.lua:4-7. -/
def generate (sendOverloadMaxArity receiveMaxArity : Nat) : List Text :=
  [ chars! "#ifndef FUSION_MAX_LIST_SIZE",
    chars! "#define FUSION_MAX_LIST_SIZE " ++ decimal sendOverloadMaxArity,
    chars! "#endif",
    chars! "#ifndef BOOST_FUSION_INVOKE_PROCEDURE_MAX_ARITY",
    chars! "#define BOOST_FUSION_INVOKE_PROCEDURE_MAX_ARITY " ++ decimal (receiveMaxArity + 1),
    chars! "#endif",
    chars! "namespace transmission {",
    out 0 1 0 (chars! "namespace detail {"),
    out 0 2 0 (chars! "namespace constants {"),
    out 0 3 0 (chars! "enum {"),
    out 0 4 0 (chars! "ReceiveMaxArity = " ++ decimal receiveMaxArity),
    out 0 3 0 (chars! "};"),
    out 0 2 0 (chars! "} // end of namespace constants"),
    out 0 1 0 (chars! "} // end of namespace detail"),
    chars! "} // end of namespace transmission" ]

end ArityConfig

/-- The part of a header between prefix and suffix: `generate` for each arity from `minArity` to `maxArity`, the
lines joined with line ends. Models generation/variadicGenerate.lua:30-35 without prefix and suffix. -/
def body (generate : Nat → List Text) (minArity maxArity : Nat) : Text :=
  cat ((List.range (maxArity + 1 - minArity)).flatMap fun i => generate (minArity + i)) (chars! "\n")

end TT.Gen
