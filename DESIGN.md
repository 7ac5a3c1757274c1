# Design of the formal model of tuple-transmission

The C++ library in `/repo` is modelled, function by function, as total computable Lean 4 functions
(`lean/Verif/Model/`). Independent specifications are in `lean/Verif/Spec/`, helper lemmas in
`lean/Verif/Proofs/`, and the property theorems, each next to a concrete example, in
`lean/Verif/Properties/`.

## Trusted base

* The Lean 4.33.0 kernel.
* Axioms: only Lean's standard `propext`, `Classical.choice`, `Quot.sound`. None of our own, no
  `sorry`, no `native_decide`, no `bv_decide`. The per-theorem list is in section
  "Axioms per theorem" below (output of `#print axioms`).
* That the definitions in `Verif/Model/` transcribe the C++ correctly. Each definition cites file and
  lines. Paths are relative to `/repo/tuple-transmission` unless they start with `util/`,
  `generation/`, `tests/` or `tuple-transmission/`, which are in `/repo`.
* That the specifications in `Verif/Spec/` say what the English statements in `properties.jsonl` say.

## Outcomes

Every modelled call returns `Res α = Except Fault α`, with three distinct faults:

* `ub`: the C++ standard, or a library contract, leaves the behaviour undefined. Out-of-bounds access,
  `std::copy` onto a destination inside the source range, call through a null function pointer,
  dereference of an empty `boost::optional`, use of an uninitialised variable.
* `abort`: a `BOOST_ASSERT` or `BOOST_ASSERT_MSG` failed. Only in debug builds.
* `diverge`: the loop budget of the model ran out. Theorems about termination exclude it.

`Build` has two parameters: `debug` (are assertions evaluated; in release the argument, including its
side effects, is not evaluated) and `intBits` (width of `int`, for integral promotion).

## What is modelled

| Code | Model |
|---|---|
| `util/ReceiveBuffer.h`, `util/VectorSimulator.h` (`front`, `back`) | `Model/ReceiveBuffer.lean`: all public and private members; `size_type` wraps at 8/16/32/64 bits |
| control codes, `MessageType`, `MessageCollection`, `Sizeof`, `MessageArity`, `MessageCount`, `IsIdValid`, `MaxMessageLength`, `ComputeReceiveBufferSize`, `MessageLength`, `MessageSizeType`, `find_index`, `apply_at` | `Model/Protocol.lean` |
| `TransmitterBase`, all transmitters, `BitwiseCopySerializer`, `sendMessage` of both envelopes, `send`, generated overloads | `Model/Transmit.lean` |
| `EnvelopeReceiveBuffer`, `checkBufferForMessage` of both envelopes, `popAndRetry`, `BitwiseCopyDeserializer`, `DeserializeToFusion`, `Receiver`, handler bases, `ReceiveAdapterBase` | `Model/Receive.lean` |
| the receiving functions again, counting calls on the buffer | `Model/Cost.lean` |
| `at` without exceptions, `push_back` of a range of the buffer itself | `Model/BufferMore.lean` |
| the number of bytes moved by `ensure_space` | `Model/Moves.lean` |
| `SerializationPolicy` with another serializer in the same envelopes | `Model/Policy.lean` |
| overload resolution in handlers derived from `PartialHandlerBase` and `ParameterHandlerBase` | `Model/Overloads.lean` |
| `generation/*.lua` (what is printed between prefix and suffix of the headers) | `Model/Generator.lean` |
| `generation/generateAll.sh`, `generation/query.lua`, `generation/CMakeLists.txt` (build rules), main function of `variadicGenerate.lua`, prefix and suffix of the headers | `Model/Regenerate.lean` |
| the part of C++ the generated headers use: tokens, preprocessor, function templates | `Model/CppText.lean` |
| overload resolution for `send` among the templates read from the generated text and the main template | `Model/SendCalls.lean` |
| which generated defaults of `PartialHandlerBase` a call can use, from their text | `Model/HandlerCalls.lean` |
| conversion of integer arguments in the generated `send` overloads | `Model/Integers.lean` |
| `util/BoostAssertMsg.h` with `BOOST_ENABLE_ASSERT_HANDLER`, handler throws | `Model/AssertHandler.lean` |
| `util/BoostAssertMsg.h`: every assertion off, stopping, or calling a function that returns | `Model/Asserts.lean` |
| destruction of handler objects | `Model/Lifetime.lean` |
| receivers destroyed by their own handlers | `Model/Destroyed.lean` |
| programs that use `EnvelopeReceiveBuffer` without a receiver | `Model/Direct.lean` |
| the sending side of envelopes written by users (`sendMessage`, called from `Send.h`) | `Model/CustomSend.lean` |
| `BitwiseCopyDeserializer` and its callers, for types not all of whose bit patterns are values | `Model/Representations.lean` |
| `send`, `sendMessage`, `BitwiseCopySerializer` and `TransmitterComposition` with transmitters that overwrite the array they are given | `Model/MutableWrites.lean` |
| the copies that the overloads of `send` and `DeserializeToFusion.h` make, for types with padding | `Model/Padding.lean` |
| `appendReceived(begin, end)` with elements of other types and iterators that throw | `Model/Ranges.lean` |
| `#include` lines, include guards, defaults and uses of `FUSION_MAX_LIST_SIZE`, `BOOST_FUSION_INVOKE_PROCEDURE_MAX_ARITY`, `BOOST_TEST_MESSAGE` in all headers | `Model/Includes.lean` |
| handlers that call `receiveFrom` on, copy or assign the receiver that is calling them | `Model/Inside.lean` |
| programs with several receivers whose handlers use other receivers | `Model/Several.lean` |
| envelopes written by users, with handlers that throw and call the receiver | `Model/CustomMoves.lean` |
| `util/ReceiveBuffer.h` with any element type, copies of elements may throw | `Model/AnyBuffer.lean` |
| envelopes written by users (`EnvelopeBase.h`, interface of `EnvelopeReceiveBuffer.h`) | `Model/CustomEnvelope.lean` |
| `send` with transmitters that throw | `Model/Throwing.lean` |
| the memory of `VectorBuffer`: requests that may be refused, reservation, copies | `Model/Storage.lean` |
| a transmitter (user code) that appends to a receiver in the same program | `Model/Loopback.lean` |
| `util/MPLApplyAt.h` and `util/MPLFindIndex.h` for any sequence, index and functor | `Model/ApplyAt.lean` |
| implicit copies of `BoostArrayBuffer` (iterator into another object), assignment of `Receiver` | `Model/Copies.lean` |
| compositions as references to shared components, components and compositions that are destroyed | `Model/References.lean` |
| `ArduinoI2C` on a bus library that takes a limited number of bytes per write | `Model/LimitedBus.lean`; the limit is a parameter |
| programs that assign a new receiver before each packet of bytes | `Model/Restart.lean` |
| `processMessages` with interrupts that append bytes between its calls on the buffer; interrupts inside `size`, `operator[]`, `pop_front` | `Model/Interrupts.lean` |
| `receiveadapters/VrpnSerial.h`, `receiveadapters/ArduinoSerial.h`, `ReceiveAdapterWithoutAvailable` | `Model/Adapters.lean`; the port object is a parameter |

Handlers are arbitrary user code: a function from everything the code has been called with and the
free space it can query to a list of calls back into the receiver, and whether it throws.
Receive adapters are arbitrary functions from the byte limit to the bytes written and count returned.
Transmitters are arbitrary implementations of the three interface functions.

## What is not modelled

* Template instantiation, and overload resolution other than in handlers (C79) and for `send` (C86). Static assertions appear as `Option` results or
  hypotheses. Field types are `uint8_t` or an opaque trivially copyable type with a size.
* The contents of assertion messages and `BOOST_TEST_MESSAGE` output.
* Memory allocation failure in `VectorBuffer`, except in C117.
* The hardware behind `TwoWire`, `Print`/`Stream` and VRPN serial ports: a write is recorded; return
  values are ignored as in the code.
* Lifetime of objects other than handlers (C83), array buffers (C63), receivers destroyed in handlers (C103) and transmitters
  in compositions (C115).
* Concurrency: the library has none. Interrupts that append bytes are modelled in `Model/Interrupts.lean`
  (C93); other threads, and interrupts at places not listed there, are not.
* Code the compiler rejects when instantiated (see "Findings that are compile-time only").

## Hypotheses that recur

* `C.compiles`: at least one and at most 255 messages. An empty collection does not compile.
* `Arith`: `2 * capacity ≤ 2 ^ max (bits of size_type) intBits` and `capacity < 2^64`.
  It holds for every capacity below 2^31 when `int` has 32 bits. C50 shows that it is needed.

## Properties

One entry per property: what is modelled and how it is proved.

* C01, C02, C03: `send` run on the vector transmitter equals the previous content followed by the
  spec's `frame`. The spec defines `frame` by list concatenation and a byte sum. Induction on fields.
* C04, C05: array buffers with an explicit bounds fault. Invariant on the write index; exact
  characterisation of the total length.
* C06: induction on the list of sends.
* C07: componentwise equality of the composed run, by induction on an output script.
* C08, C09, C10: list lookup lemmas for `findIndex`, `applyAt`, `maxElement`.
* C11: deserialisation of an array holding the serialised fields at an offset, induction on fields.
* C12: separate small spec of little and big endian digit lists over natural numbers.
* C13, C14: refinement. The abstraction of a buffer is the list between its two indices. Each
  operation commutes with the list operation and does not fault; induction on operation scripts.
* C15, C16, C17: single-operation refinement lemmas, plus concrete fault witnesses.
* C18: the recursion budget `size + 1` suffices; every larger budget gives the same result.
* C19, C20, C23: `checkBufferForMessage` and `processMessages` refine the decoding relation `Run` of
  the spec, which is stated only with frames, waiting prefixes and one-byte skips.
* C21: spec predicate splitting the fed bytes in delivered, skipped and buffered pieces.
* C22: idempotence lemma; equality of debug and release runs on legal histories.
* C24, C25, C26, C27, C28, C29, C30: theorems about `Run` (determinism, extension stability) combined
  with the refinement.
* C31, C32, C51: arithmetic on byte sums.
* C33, C34: invariants by induction on histories.
* C35, C38, C44, C46, C50, C51: positive theorem on the safe side and a concrete witness for the
  failure, or an exact characterisation.
* C36, C37, C39, C47: induction on histories.
* C40, C41, C42, C43, C44: theorems about the processing loop with user code that calls back.
* C45: filter of the invocation log.
* C53: case analysis on whether the push slides the contents; the aliased element is read afterwards.
* C54, C55: a polling program over a port that is a queue of bytes; one round is a lemma, rounds by
  induction; the amount taken per round is bounded below by the free space left after processing.
* C48, C49, C52: output scripts of `send`, run on any transmitter.
* C44 (release builds): `Proofs/Overrun.lean` follows a nested `processMessages` that leaves the outer
  `popMessage` with too few bytes, up to the out-of-range index.
* C56, C57, C58, C59: theorems about `Run` for damaged frames, combined with the refinement. The end
  code at the announced place decides; `run_giveUp` skips a rejected frame without inner start codes.
* C60: start codes of a Basic stream are frame starts; the byte at the other envelope's end position.
* C61: `typeOf` is stable under appending types; old receivers reject unknown ids at once.
* C62: `splitFields` is inverted by `payloadOf`, so each call is a legal `send`; then C25.
* C63: a heap of array buffers whose iterator is an address and an index (`Model/Copies.lean`). Linked to
  the model used for C05 by `write_own`.
* C64: the abstract state is preserved by assignment; receivers with equal abstract states react alike
  to every history (`same_run`).
* C65: exact result of the 8/16/32/64-bit sum `pastEnd + 255`.
* C66: the output script of C49 run on a recording port and on a port that takes prefixes.
* C67: scan from an arbitrary place inside frames inside which no other message begins (`Solid`); induction over the garbage.
* C68: position of the trailer the receiver expects, against the bytes the sender puts there.
  Completeness of the list by explicit collections, with the id chosen so that the checksums agree.
* C69: `check_spec` gives the result for every recursion budget, not only for sufficient ones.
* C70: C32 and a count of the byte strings with a given sum.
* C71: induction over the calls; the invariant is that the buffer holds no complete message.
* C72: C07, and the array buffer lemmas for the I2C buffer.
* C74: `send` is a script of outputs (C49); an exception is a flag that makes later outputs no-ops
  (`Model/Throwing.lean`). The receiver part is a sharper form of C67.
* C73: the scan lemma of C67; the converse by payloads whose frame is a rotation of another frame.
* C75: two receivers joined by two byte queues, all schedules (`Properties/Network.lean`); invariant: bytes
  fed plus bytes on the line are the frames of everything sent. Assumption: the lines lose nothing.
* C76: the receiving functions written once more in a counting monad (`Model/Cost.lean`), proved to compute
  the same for all states and user code (C76_same); the bounds by a program logic for costs
  (`Costs`, `Proofs/Cost.lean`) with the number of buffered bytes as potential. Moving bytes inside the
  buffer while appending is not counted here (C77).
* C77: `Model/Moves.lean` says how many elements `std::copy` moves in `ensure_space`; the bound by an account
  (`Account`, `Proofs/Moves.lean`) in which removed bytes and bytes received since the last search pay for the
  next move. Moves caused by appends inside handlers are outside (the theorem assumes there are none).
* C78: `Model/Policy.lean` repeats the functions that depend on the serialization policy with the policy as a
  parameter (`C78_same_send`, `C78_same_receiver`: with `BitwiseCopy` they are the functions of the rest of the
  model). The receiver's part is a simulation: every run with the policy is the image of a run with `BitwiseCopy`
  in which the arguments of the calls are decoded. A policy is exact if it satisfies `Exact` (`Spec/Policy.lean`).
* C79: `Model/Overloads.lean` has the candidates of the call that `ParameterHandlerBase` makes and the language's
  rule for the best one; `partialKind` gives the handler class that `dispatch` takes as a parameter. The rule is
  shown to be: exact overloads win, defaults beat everything else; the stream statement follows from C45.
* C80: `Model/Integers.lean` adds the implicit conversion of the arguments to the parameter types and the view of
  the received bytes as an integer; the specification (`Narrowed`) is a congruence and a range. Then C25.
* C81: `Model/AssertHandler.lean` repeats `ensure_space`, `push_back`, `popMessage` and the loop with failed
  assertions as a result instead of a fault. The invariant is that of the other proofs (`Abs`) without the rules for
  callers; where no assertion fails the two models are proved equal (`C81_agrees`).
* C82: a union bound over positions and ids on top of C19 (`hits`); exactness by injectivity of `frame`.
* C83: `Model/Lifetime.lean` repeats the loop with a check before each handler call. The two models are related call by
  call (`Guarded`): same result if no call is on a dead object, undefined otherwise.
* C84: an envelope is a decision tree over the members of `EnvelopeReceiveBuffer` (`EnvCode`). Its effect on a list of
  bytes (`effect`) is related to its run on the modelled buffer by induction on the tree; the rest is list reasoning.
  The shipped envelopes are written as such trees and shown equal in effect to `checkBufferForMessage`.
  `Proofs/DemoEnvelope.lean` has a third envelope, correct and in two wrong variants.
* C85: `Spec/Place.lean` says where the first element is after each call; the helper lemmas of C13 with the begin index
  added. `Model/BufferMore.lean` has `at` and (for C53) `push_back` of a range of the buffer itself.
* C86: the scripts are functions from arities to texts (`Model/Generator.lean`); `Model/CppText.lean` reads such a text
  (tokens, preprocessor, function templates), `Model/SendCalls.lean` evaluates the types and bodies it finds and resolves
  calls. The proofs go through the text for a symbolic arity (`Proofs/GeneratedSend.lean`, `Proofs/SendCalls.lean`).
  `Verif/TestsGenerated.lean` compares the scripts' output for nine with the headers in `/repo` character by character.
* C87: as C86, for the defaults of `PartialHandlerBase` (`Model/HandlerCalls.lean`); `C87_candidates` says that the header
  as shipped gives the default candidates assumed for C79.
* C88: the loop of `processMessages` again with the further calls (`Model/Inside.lean`). Refinement of the same abstract `C88_model` ties the model to the one of the other properties: for handlers that make only the calls of `Act` the two end alike in every state.
  machine, for user code with refills replaced by appends (`Spec/Inside.lean`); copies are logged with the call they were
  made in. Assignment: direct computation of `popMessage` on the assigned state.
* C89: the `#include` lines, the defaults and the uses of three macros of all 56 headers (`Model/Includes.lean`). Invariant over
  nested includes, ordered by nesting depth. Boost.Fusion is a parameter that says which header fixes which limit and with
  what default; headers of Boost other than Fusion, of the standard library and of VRPN are left out, and so are
  includes that they make themselves.
* C90: frames of the sent messages are what each transmitter adds (C05, C06, C48 and the lemma for faithful ones); compositions of
  faithful transmitters are faithful in both parts; then C25.
* C91: `Properties/Gateway.lean`: a receiver of one collection whose calls are sent on with another collection; `forward` is from `Properties/Peers.lean`.
* C92: `Properties/Gateway.lean`: two senders on one line. `Merge` is the relation of lists and their interleavings; the writes of serial transmitters are those of C66. `Properties/ManySenders.lean` has any number of senders; `Interleaved` gives the turns in which their messages get onto the line.
* C93: `C93_between`, `C93_complete` and `C93_delivers` are about the program of Model/Interrupts.lean with `late = false`; `BytewiseOrClean` is the proviso. `C93_noise_witness` and `C93_iterator_witness` show that it fails without the proviso and with `late = true`. `C93_pop_between`, `C93_size`, `C93_get` and `C93_increment` say exactly what an interrupt inside a member of the buffer does. `C93_undisturbed` ties this model to the one of the other properties: without interrupts the two end alike in every state.
* C94: `Properties/Disturbances.lean`: induction over the disturbances with the scan lemma of C67; `Survives` says what may be missing or forged behind each one.
* C95: `completed` (the calls of a history that returned: all but the last one of each `processMessages` that threw) is defined over the model's steps; `C95_once`, `C95_all`, `C95_same`, `C95_sent` relate it to the decoding of the bytes fed; `C95_attempts` describes all calls as retries; `C95_stuck` is about messages that are never accepted.
* C96: `Model/Several.lean` has any number of receivers and cuts `processMessages` at the handler calls, with a stack of the calls in progress; user code is whoever makes the next move. The invariant says of each receiver what C95 says of one. `C96_model` shows that `processMessages` of `Model/Receive.lean`, with user code as a function, is a special case.
* C97: `Model/Asserts.lean` has the functions of `Model/ReceiveBuffer.lean` and `Model/Receive.lean` with a mode for each assertion. A run that ends well with all assertions on ends in the same way with any; the assertion in `popMessage` needs that a message is in front. `C97_all_on` and `C97_all_off` tie this model to the other two, for all programs.
* C98: a burst of at most eight bits changes two neighbouring bytes at most, the one above some bit and the other below it; then the sum modulo 256 changes unless nothing does. The rest is as for C31 and C32.
* C99: `Model/CustomMoves.lean` cuts `processMessages` with an envelope of the user at the handler calls, as `Model/Several.lean` does for the shipped envelopes. The invariant is about the bytes in the buffer: whatever comes later, the messages of the stream are the completed ones followed by those of the buffer and what comes later. `C99_model` shows that `processMessages` of `Model/CustomEnvelope.lean` is a special case. `C99_settled_witness` shows that the envelope has to find a message again, also without assertions.
* C100: `util::ReceiveBuffer<SIZE, Values>` for any element type with copies that may throw (`Model/AnyBuffer.lean`); for bytes `C100_model` proves it equal to the model of the other properties.
* C101: the exact conditions under which two collections understand each other. The direction from arrival to agreement uses one message with zeros of each type, given to a receiver byte by byte, and C19.
* C102: `Flushes` says what filler is for in terms of histories; `C102_exact` gives the exact length for fillers without start code and STX. For fillers with STX only a sufficient length is given.
* C103: `Model/Destroyed.lean` repeats the loop with a flag for a receiver that is gone. `runX_gen` relates it to the main model.
* C104: the receive buffer used without a receiver. `Pulls` lists the allowed calls with their results; the misuse theorems show what each forgotten check does.
* C105: `Model/CustomSend.lean` gives envelopes of users a sending side, as a tree of writes; `C105_shipped` shows that `send` of the shipped envelopes is an instance. The negative part (`C105_in_clear`, `C105_no_escaping`, `C105_forgery`) does not mention the sending side: it holds for all bytes from which the receiver understands the message.
* C106: `Spec/Rewriting.lean` says what it means that a check decodes in place (`Look`, `Performs`, `Finds`), `Proofs/RewriteEnvelope.lean` has the program for an arbitrary look and the byte-stuffing envelope. `C106_repeatable_witness` and `C106_throw_witness` show two natural ways to write such an envelope that fail. The code of the envelopes is ours, an example of what a user may write; the library has no envelope that writes into its buffer.
* C107: the moves are those of C99 (`CPlay`, `CMove`). `Steady` is the condition on the check; `C107_steady_witness` shows that the condition of C106 does not suffice.
* C108: `Model/Representations.lean` repeats the way from `processMessages` to the deserializer with a parameter that says which bit patterns are values. `C108_rule` relates it to the main model, where all are. The standard leaves to the platform which patterns are values; for `bool` usually 0 and 1.
* C109: `Model/MutableWrites.lean` repeats the way from `send` to the transmitters with a `write` that also says what the array holds afterwards. `C109_alone` and `C109_model` relate it to the main model. The serializer copies the value first (`uint8_t buf[sizeof(T)]`), so that the result carries the values of the caller as well.
* C110: `Model/Ranges.lean` has `push_back` of a range whose elements are converted one by one and may throw. It concerns calls by the main program. Handlers append bytes, as in the main model.
* C111: `restart` is the assignment of a temporary `Receiver(handler)`. The log `fed` of a world is ghost state; it begins anew with each packet. `Packets` (in Properties/Restart.lean) is the specification of a legal program in packets; `datagrams` is a program that hands over each packet at once.
* C112: a data file is a function from the global variables to the table it returns (or an error); `generate` of a data file is a function from the arity to lines (or an error). Not modelled: Lua errors that depend on anything else, data files that write files or print, headers written over data files, names of directories with spaces, what make does with the output of a failed rule. The headers in /repo are compared byte for byte with the output of the modelled scripts in `Verif/TestsGenerated.lean`.
* C113: copies are functions on representations that keep all bytes but padding. On the sending side they are applied before
  `send`; on the receiving side they are part of the user code, about which everything else holds anyway.
* C114: the machine is `Spec/Machine.lean`. Soundness is the simulation used everywhere else; completeness follows from it
  with determinism, since the simulation yields a step or a proof that the machine goes on for longer than the loop bound.
* C115: transmitters are objects in memory and compositions are trees of references to them. The lemma is an equivalence for one output, by induction on the tree; the state of an object depends only on the calls it gets, so the order between components does not matter.
* C116: `GuardedUser` (every nested `processMessages` happens while the handler is cleared; a handler is set at the end unless the reaction throws; appends fit) is wider than `BenignUser`; `C116_reduces` maps each history to one of `calm user`, which is a `BenignUser`, so the other properties apply to it.
* C117: `send` to such a vector is `push_back` of the bytes of the message one by one until one throws; the theorems are about that loop, by induction on the bytes. The state has the number of requests made so far, so that `grants` can be any function.
* C118: a transmitter connected to a receiver in the same program (`Model/Loopback.lean`): `send` is the appends it amounts to, room for two, handled at once, programs with handlers that send, and handlers that must switch handling off (`Properties/Loopback.lean`).
* C119: `util::apply_at` and `util::find_index` for any sequence, index and functor (`Model/ApplyAt.lean`, `Properties/ApplyAt.lean`); the dispatch of `Model/Protocol.lean` is an instance.
* C120: routes through any number of programs, at any moment and at the end (`Properties/Routes.lean`); one step of it is C91.
* C121: every execution that does not fail has kept the rules (`Properties/Allowed.lean`): the hypotheses `Legal` and `BenignUser` of the other properties, as far as they are about how much is appended, are necessary as well as sufficient.
* C122: a run of bytes lost from within one message to within a later one (`Properties/LostRuns.lean`).
* C123: infinite executions (`Properties/Forever.lean`): safety and liveness over infinite sequences of calls, and the existence of such executions for the usual loop.
* C124: what a receiver remembers (`Properties/Memory.lean`): a simulation between two abstract executions whose logs differ, carried over to the code by C114; beginnings of messages are told apart by the rest of the longer one.
* C125: how often a message must be repeated (`Properties/Repetition.lean`), from the bound on what garbage costs (C67), by induction on the stretches of the line; stretches too short to synchronise count as garbage.
* C126: streams that lack a code, and lines that change bytes one by one (`Properties/ByteMap.lean`).
* C127: `Properties/TextMode.lean`. The line is any map from bytes to non-empty lists of bytes; `Passed` says for each message what it is taken for. Text mode is one such line.
* C128: `Properties/Swallowed.lean`. The line is any set of byte values that disappear; `mayLose` is the limit for each envelope, and `C128_tight` shows that it cannot be raised.
* C129: `Properties/Trees.lean`. `Tree` is a tree of stations (those of C120) and senders, `TreeDone` says that everything has arrived; `Tree.expected` looks up the sender at the end of a path and filters what they sent by the collections on the way. It uses the interleavings of C92. `Properties/TreesAny.lean` has C92 and C129 at any moment: `Begun` is an interleaving of beginnings, `TreeAt` lets each line carry any part of what has been sent.
* C130: `Properties/LimitedBus.lean`. `limitedI2C limit` is the transmitter with a library that keeps the first `limit` bytes of a write. The limit (32 on the usual boards) is not in the repository and is a parameter. `C130_forged` and `C130_lost` name the two outcomes; which of them occurs is a matter of the lengths and, with a checksum, of the contents.
* C131: `Properties/TreesForever.lean`. A tree is a function of time; `TreeRuns` says how the programs (executions of C123 with a clock) and lines (`FairLine`) fit together. The attribution of calls to senders (`Traced`) grows with time and is built level by level: turns on the line, cut to the number of calls made.
* C132: `Properties/Retries.lean`. The program that insists is `Insists`, built from the sends of C74; `Retried` is what its attempts at one message leave on the line. An attempt that broke off is skipped because the byte where its message would have to end lies within what follows and is not the end of a message (`Retriable`); with C95 for the receiver's side.
* C133: `Properties/ThrowingGateway.lean`. `Relays` is user code that throws exactly when its send has thrown; `exec_flagged` follows which calls of a run threw, from which the gateway is an instance of `Insists` of C132. `ThrowRoute` chains the stations of C120.
* C134: `Properties/ThrowingAnyTime.lean`. `InsistsSoFar` and `GoingRoute` are the programs of C132 and C133 at any moment. Attempts in vain complete no message because the whole message, appended in thought, would still have to be delivered (`no_skip_last`).
* C135: `Properties/Interludes.lean`. `Falters` is the condition on what stands at the end of an interlude, `Interlude` asks it of all its ends. That a message behind it ends every attempt to read it is a comparison of places (as in C68); for the converse a message is constructed that completes or prolongs the first end that does not falter.
* C136: what a line does to messages is a relation `Line` between the messages sent, the bytes that arrive and the messages that arrive whole; it leaves open why. The case `moved` is about bytes missing or added after the id, `gone` about messages of which nothing arrives; the bytes of a message that is cut off before its id count as noise. A damaged message whose bytes happen to be another message counts as that message. The conditions of C31, C56 and C98 on start codes in what follows are weaker here (beginnings of messages).
* C137: the lines between the programs of C120 are those of C136.
* C138: the two programs are users of the library (`Numbering`, `Exchange` in Properties/Numbered.lean); the library itself neither numbers nor repeats messages. Each handled message is answered once; lines damage messages as in C136 and keep their order. Whether a message will arrive whole is settled when it is sent, which restricts nothing, as neither program can see it. `Endless` is an exchange without end; what is transmitted after a moment is not before the message of that moment, so answers beyond the number of transmissions so far are to later ones (`C138_eventually`).
* C139: endless programs as in C123; a program catches what `processMessages` throws and goes on. In the first theorem nothing is assumed about how often `processMessages` is called, so the second case includes programs that stop calling it.
* C140: a tree of the programs of C137 (`Spread` in Properties/Spread.lean); every way from its top downwards is a route of C137. That one `send` serves several lines is `C140_composition`, whose components may be compositions; a program may as well send for each line separately, which is what `Spread.SoFar` allows.
* C141: `Slides` and `Window` in Properties/Window.lean. The invariant carries with each transmission the number of messages acknowledged at its time: everything in flight lies within `W` of what the receiver expects, and every answer within `W` of what the sender knows, so numbers modulo `K > W` tell them apart. It uses the lines of C136 in both directions.
* C142: `Hops` and `Relayed` in Properties/NumberedRoutes.lean. All that the proofs of C141 need of a step is `Moves`, that each end has handled the first ones of the messages sent to it that arrive whole; for routes that is C137, with the losses on all lines taken together (`fates`).
* C143: Properties/NumberedRetries.lean. `rising_handled` shows that the numbers of what has been handled rise by at most one each time (`Rising` of C138), from C132 for the line and C95 for the handlers that throw; `Numbering.taken_eq` of C138 gives the rest.
* C144: Properties/NumberedGateways.lean. That the numbers on a line rise (`RisingLine`) passes from each program to the next: by `gateway_pending` of C134 what a gateway has sent is what it has handled to the end and the message it has been called for in vain.
* C145: Properties/NumberedForever.lean. From C139 for the receiver and `rising_handled` of C143 for the numbers; the examples have infinitely many exceptions on both sides. `LiveLine` says what a line is like at all moments, and `live_next` (from `gateway_pending` of C134) that a gateway keeps it so.

## Validation of the model against the unit tests

`Verif/Tests.lean` transcribes the unit tests in `/repo/tests` as `example`s over the model; all hold.
They are tests of the transcription, not proofs. One observation: in `tests/EnvelopeReceiveBuffer.cpp`
the second `round == 4` block is unreachable, and its expectation would be wrong (the id 1 is itself a
start code, so two bytes stay buffered, not one).

## Findings that are compile-time only (outside the model)

Observed by reading; they cannot be expressed as run-time behaviour.

* `ReceiveBuffer::operator[] const` and `data() const` call the non-const `adjusted_index`.
* The range forms of `ReceiveBuffer::push_back` and `appendReceived` subtract iterators. Their parameter is named
  `InputIterator`, but iterators of a list or of an input stream do not compile.
* `EnvelopeReceiveBuffer::bufferEnsureSpace` is `const` but calls a non-const function.
* `vector_simulator::at()` reaches the private `rangecheck` through a private access function.
* The arity assertion in `BoundMessageType` and the arity conditions of the generated `send`
  overloads apply `mpl::equal`, which compares sequences, to integral constants.
  For such operands `mpl::equal` does not compare them; C86 shows that calls with a wrong number of arguments
  are rejected for other reasons.
* `send<Collection, Message>(tx, 5)` does not compile for a message whose only field is not an `int` (C86_one_converted):
  the main template is an exact match and wins. For such messages `sendInts` (C80) is about arguments of the field's type.
* `transmitters/ArduinoI2C.h` names its constructor `ArduinoSerial`.
* `transmitters/ArduinoSerial.h` initialises a `Stream &` with a `Print &`, its base class. The model reads the member as `Print &`.
* `receiveadapters/ArduinoSerial.h` derives from `detail::ReceiveAdapter`, which does not exist.
* `EnvelopeBase::unbuffer` has a non-void return type and no return statement.
* Copy-constructing from a non-const `Receiver` selects the constructor template
  `Receiver(MessageFunctor &)`, treats the source as a handler and does not compile. C47 is about
  copies of const receivers; assignment (C64) is not affected.
* `SendContext::operator()` of a stateful serializer is `const` and calls `impl.buffer`, so `buffer` has to be
  a `const` member and can change state only through `mutable` members.
* Several handler tests never call `processMessages`, so their handlers never run.

## Axioms per theorem

From `#print axioms`; no theorem depends on anything else.

* none (1 theorems): C110_minus_one.
* `propext` (18 theorems): C04_new, C35_witness, C52_wrong_arity, C56_lost_id, C97_buffer_witness, C100_push_back_witness, C100_range_witness, C105_call, C109_left, C112_failure, C112_cmake_all, C112_missing_setting, C112_nil, C117_copy_witness, C127_text_without, C127_text_forged_witness, C128_tight, C136_sublist.
* `Quot.sound` (1 theorems): C90_composition.
* `propext`, `Quot.sound` (126 theorems): C01_basic_wire, C01_compiles_iff, C02_checksum_wire, C03_size, C04_autosized, C04_collection, C07_composition, C07_checksum, C08_id_is_position, C08_ids_distinct, C09_length_invalid, C10_max_length, C11_incomplete, C30_prefix_free, C31_same_length, C31_not_start, C36_no_handler, C37_constructed, C40_propagates, C44_release_wrap_witness, C46_error_witness, C48_i2c_one_write, C49_fixed_outputs, C49_same_bytes, C50_bound, C51_shorter_witness, C56_lost_id_witness, C57_checksum_witness, C61_front_witness, C63_own, C63_construct, C63_dangling, C63_reset, C63_i2c_own, C67_count, C67_swallowed, C68_witness, C73_left_witness, C74_calls, C74_code_witness, C76_same, C77_throw_witness, C78_same_send, C78_same_receiver, C81_agrees, C81_clear_witness, C81_wrap_witness, C84_settled_witness, C84_online_witness, C86_reads, C87_reads, C88_loaded, C88_model, C89_order, C89_uses, C89_limits, C89_fusion_first, C92_port_loss_witness, C92_port_forgery_witness, C93_undisturbed, C93_noise_witness, C93_iterator_witness, C94_lost, C94_two_witness, C96_model, C96_cycle_witness, C97_all_on, C97_all_off, C97_macros_build, C97_contract_witness, C98_nine_bits_witness, C98_three_bits_witness, C99_model, C99_settled_witness, C100_model, C103_after, C104_pop_release, C105_same, C105_shipped, C106_plain, C106_any, C106_repeatable_witness, C106_throw_witness, C107_plain, C107_any, C107_steady_witness, C108_join_witness, C109_alone, C109_composed, C109_gentle, C109_model, C109_order_witness, C110_unique, C110_char, C111_without_restart, C112_shipped, C112_heading, C112_cmake_some, C112_cmake_shipped, C112_settings, C113_sent, C113_compare_witness, C113_look_witness, C114_deterministic, C115_sent, C115_destroyed, C115_copy, C115_twice_witness, C115_forged_witness, C116_reduces, C116_same, C116_leaves_off_witness, C116_early_witness, C118_three_witness, C118_handlers, C118_nested_witness, C122_mixed, C132_codes_witness, C132_second_witness, C132_twice_witness, C132_four_witness, C132_start_witness, C134_finished_witness, C136_code, C136_end_code_witness, C136_inside_witness.
* `propext`, `Classical.choice`, `Quot.sound` (440 theorems): C05_array_boundary, C06_vector_accumulates, C08_dispatch, C08_dispatch_invalid, C09_length_valid, C11_roundtrip, C12_byte_order, C13_refines_list, C13_from_range, C13_from_array, C14_no_fault, C15_copy_assign, C15_self_assign, C16_erase, C16_erase_empty, C17_external_functor, C17_limit_mod_256, C18_terminates, C18_reachable, C19_sound, C19_each_call, C20_greedy, C20_decoding_unique, C21_conservation, C21_delivered, C22_idempotent, C22_builds_agree, C23_returned, C23_leftover, C24_chunking, C25_round_trip, C25_fed_is_chunks, C26_prompt, C27_no_truncated, C27_completed, C28_noise, C29_resync, C30_uniquely_decodable, C31_not_delivered, C31_next_delivered, C32_checksum, C32_basic, C32_reordering, C33_space, C33_rounds_legal, C34_no_fault, C34_terminates, C34_feedback_witness, C35_overfull, C36_waiting, C36_later, C37_current_handler, C37_nothing_lost, C38_count, C38_exact, C38_wrap_witness, C39_last_id, C39_last_call, C40_throw, C40_redelivered, C41_append_inside, C42_clear_inside, C43_next_message, C43_switch, C44_debug_abort, C44_release_ub, C44_delivered_twice, C45_partial_base, C45_parameter, C46_receive, C46_vrpn, C46_arduino, C47_copy, C47_same_behaviour, C48_i2c_overflow, C48_i2c_sequence, C50_exact, C51_basic_id, C51_checksum_id, C52_overload, C53_push_own_element, C53_witness, C53_range, C54_polling, C54_vrpn, C54_arduino, C55_drains, C55_round, C55_shipped_round, C55_shipped_drains, C56_lost_not_start, C56_lost, C57_inserted_same, C57_inserted, C58_held_back, C58_released, C59_payload_delivered, C60_basic_to_checksum, C60_checksum_to_basic, C61_same_send, C61_old_receiver, C61_new_receiver, C62_forward, C62_cleans, C62_downstream, C63_copy, C63_i2c, C64_assign, C64_self, C64_self_after_append, C65_error, C65_small, C66_writes, C66_short_writes, C66_no_loss, C67_recovery, C68_size_mismatch, C68_complete, C69_exact, C69_bound, C69_worst, C69_attack, C70_one_in_256, C70_position, C71_settled, C72_never_flushed, C72_i2c_silent, C72_i2c_overflow, C73_late, C73_locked_basic, C73_locked_checksum, C74_prefix, C74_sequence, C74_receiver, C75_in_order, C75_complete, C75_catches_up, C75_answers, C75_responses, C76_call, C76_history, C76_idle, C77_call, C77_polled, C77_history, C78_send, C78_receiver, C78_round_trip, C78_short, C79_partial_handler, C79_parameter_exact, C79_parameter_converted, C79_compiles, C79_stream, C80_unique, C80_survives, C80_seen, C80_exact, C81_safe, C81_rejected, C81_recovers, C82_bound, C82_exact, C83_exact, C83_idle, C83_dead, C83_live, C84_safe, C84_process, C84_stream, C84_round_trip, C84_shipped, C84_second_look, C85_place, C85_stable, C85_from_empty, C85_push_moves, C85_at, C86_calls, C86_wrong_number, C86_one_converted, C86_same, C86_overload, C86_config, C87_defaults, C87_empty, C87_limits, C87_send_limits, C87_candidates, C88_refill, C88_copies, C88_reset, C89_which, C90_vector, C90_port, C90_array, C90_i2c, C90_both, C90_minimal, C91_compiles, C91_gateway, C91_end_to_end, C92_messages, C92_i2c, C92_many, C92_many_i2c, C92_many_length, C92_any_time, C93_between, C93_complete, C93_delivers, C93_pop_between, C93_size, C93_get, C93_increment, C94_local, C94_count, C94_message, C95_once, C95_all, C95_same, C95_sent, C95_attempts, C95_stuck, C96_safe, C96_each, C96_all, C96_others, C96_alone, C96_count, C97_receiver, C97_one_assertion, C97_buffer, C97_macros, C98_burst_same_length, C98_burst_not_start, C98_burst_not_delivered, C98_burst_next_delivered, C98_two_bits, C99_safe, C99_at_any_time, C99_all, C99_count, C100_program, C100_list, C100_read, C100_reserve, C100_assign, C100_retained, C101_bytes, C101_values, C101_calls, C101_same, C101_prefix, C102_flushes, C102_after, C102_messages, C102_exact, C102_start_code, C103_unused, C103_returns, C103_defined, C103_throws, C103_gone, C103_nested, C104_defined, C104_check, C104_complete, C104_receiver, C104_pop_debug, C104_pop_incomplete, C105_end_to_end, C105_in_clear, C105_no_escaping, C105_forgery, C106_safe, C106_process, C106_stream, C106_end_to_end, C106_escaping, C106_escaped_transmission, C106_join, C106_progress, C107_safe, C107_at_any_time, C107_all, C107_count, C108_rule, C108_exact, C108_any_input, C108_sent, C108_checksum, C108_flip_witness, C110_program, C110_undefined, C111_restart, C111_each, C111_local, C111_datagrams, C111_intact, C112_success, C112_again, C113_determined, C113_seen, C113_blind, C113_round_trip, C114_sound, C114_complete, C114_total, C114_exclusive, C115_program, C115_round_trip, C116_safe, C116_returns, C116_decodes, C117_fits, C117_reserved, C117_requests, C117_refused, C117_granted, C117_few, C117_copy, C117_restore, C118_is_appending, C118_arrives, C118_two, C118_at_once, C118_safe, C118_all_arrive, C119_any_index, C119_in_range, C119_out_of_range, C119_reduced_witness, C119_comparisons, C119_start, C119_find_index, C119_library, C120_any_time, C120_all, C120_goes_on, C121_not_failed, C121_kept, C121_exact, C121_never_silent, C122_forged, C122_held, C122_lost, C123_safe, C123_live, C123_messages, C123_loop, C123_loop_messages, C124_same, C124_new, C124_told_apart, C124_doomed, C125_count, C125_arrives, C125_tight, C126_lacking, C126_basic, C126_checksum, C126_seven_bits, C127_each, C127_text_one, C127_text, C128_delivered, C128_flow_control, C129_tree, C129_empty, C129_any_time, C130_sent, C130_same, C130_fits, C130_forged, C130_lost, C130_held, C131_tree, C131_message, C132_receiver, C132_both, C132_any_time, C132_sender, C132_end_to_end, C132_exactly_once, C133_insists, C133_far_end, C133_exactly_once, C133_route, C133_end_to_end, C134_receiver, C134_any_time, C134_gateway, C134_route, C134_end_to_end, C135_harmless, C135_both, C135_harmful, C136_unharmed, C136_any_time, C136_burst, C136_unnoticed, C137_exactly, C137_any_time, C137_bounds, C138_once, C138_progress, C138_handled, C138_eventually, C138_possible, C138_numbers_needed, C139_safe, C139_dichotomy, C139_live, C139_patient, C139_messages, C139_forever_witness, C140_composition, C140_any_time, C140_exactly, C140_order, C140_agree, C141_once, C141_settled, C141_progress, C141_eventually, C141_possible, C141_numbers_needed, C142_once, C142_settled, C142_progress, C142_eventually, C142_possible, C143_exactly_once, C143_any_time, C144_any_time, C144_exactly_once, C145_forever, C145_patient, C145_route.
