{"id": "C01", "title": "Wire format of the Basic envelope", "statement": "send() with envelopes::Basic makes the transmitter output exactly SOH, the message's id, STX, the fields' object representations in declaration order without padding, ETX, EOT, and nothing else.", "quantifier": "for every compiling collection, every message type in it, every field contents and every transmitter state", "why_tests_cant": "Tests print a handful of messages; the claim is about every collection, arity, field size and byte value.", "anchors": ["tuple-transmission/envelopes/Basic.h: sendMessage", "tuple-transmission/Send.h: send", "tuple-transmission/serializers/BitwiseCopySerialization.h: BitwiseCopySerializer"]}
{"id": "C02", "title": "Wire format of the BasicChecksum envelope", "statement": "send() with envelopes::BasicChecksum outputs exactly SOH, id, STX, the fields in order, ETX, one checksum byte, EOT, where the checksum byte is the sum modulo 256 of every byte output before it.", "quantifier": "for every compiling collection, message type, field contents and transmitter state", "why_tests_cant": "The checksum must cover exactly the bytes that were transmitted for every content; tests check one or two sums.", "anchors": ["tuple-transmission/envelopes/BasicChecksum.h: sendMessage", "tuple-transmission/transmitters/ChecksumComputer.h", "tuple-transmission/transmitters/TransmitterComposition.h"]}
{"id": "C03", "title": "Transmitted size equals the compile-time size", "statement": "The number of bytes one send() outputs equals Sizeof<BoundMessageType<Collection, Message>>: the sum of the field sizes plus 5 (Basic) or 6 (BasicChecksum).", "quantifier": "for every collection, message type and contents", "why_tests_cant": "Users size static buffers from this number; tests only check chosen message types.", "anchors": ["tuple-transmission/detail/operations/Sizeof.h: Sizeof", "tuple-transmission/envelopes/Basic.h: Size", "tuple-transmission/envelopes/BasicChecksum.h: Size"]}
{"id": "C04", "title": "Autosized array buffers always suffice", "statement": "AutosizedBoostArrayBuffer<Message> holds exactly one send() of that message and is full afterwards; CollectionAutosizedBoostArrayBuffer<Collection> holds one send() of any message of the collection. No write is out of bounds, and the buffer range equals the wire bytes, before and after reset().", "quantifier": "for every collection, message type and contents", "why_tests_cant": "Out-of-bounds writes in an unchecked array are undefined behaviour a passing test does not exclude.", "anchors": ["tuple-transmission/transmitters/AutosizedBoostArrayBuffer.h", "tuple-transmission/transmitters/BoostArrayBuffer.h"]}
{"id": "C05", "title": "Array buffer overflow boundary", "statement": "A sequence of outputs to BoostArrayBuffer<SIZE> without reset() is well defined if and only if the total number of bytes is at most SIZE; in that case begin()..end() is the concatenation of everything output, otherwise the behaviour is undefined (no check exists).", "quantifier": "for every SIZE and every sequence of outputs", "why_tests_cant": "The overflow side is undefined behaviour; no test can observe it reliably.", "anchors": ["tuple-transmission/transmitters/BoostArrayBuffer.h: writeByte, write, reset, begin, end"]}
{"id": "C06", "title": "VectorBuffer accumulates", "statement": "Any sequence of send() calls to a VectorBuffer leaves its previous contents unchanged and appends the wire bytes of each message in call order.", "quantifier": "for every previous content and every list of messages of any compiling collections", "why_tests_cant": "Universal over call sequences.", "anchors": ["tuple-transmission/transmitters/VectorBuffer.h", "tuple-transmission/Send.h: send"]}
{"id": "C07", "title": "Transmitter composition duplicates outputs and nothing else", "statement": "Sending through a TransmitterComposition gives each component exactly the outputs it would receive alone (in the same order); composing with a ChecksumComputer leaves the other component's bytes unchanged and the computed value is the sum of them modulo 256. outputFinished is not forwarded.", "quantifier": "for all transmitters, all states, all output sequences", "why_tests_cant": "Requires quantifying over arbitrary user-defined transmitters.", "anchors": ["tuple-transmission/transmitters/TransmitterComposition.h", "tuple-transmission/transmitters/ChecksumComputer.h"]}
{"id": "C08", "title": "Message ids identify messages", "statement": "In a compiling collection of distinct message types, the id is the zero-based position of the type in the list, different types get different ids, the id survives the conversion to the 8-bit id type, every valid id belongs to exactly one type, and looking up the type by the transmitted id at run time finds the type whose id was sent.", "quantifier": "for every collection of 1 to 255 message types", "why_tests_cant": "Depends on the whole type list; tests use lists of a few types and never reach the 8-bit limit.", "anchors": ["tuple-transmission/BoundMessageType.h: message_id", "util/MPLFindIndex.h: find_index", "util/MPLApplyAt.h: apply_at", "tuple-transmission/detail/operations/IsIdValid.h"]}
{"id": "C09", "title": "Run-time message length equals compile-time length", "statement": "getMessageLength<Collection>(id) equals MessageLength<Collection, id> for every valid id (no truncation by the size type) and is 0 for every invalid id.", "quantifier": "for every collection and every 8-bit id", "why_tests_cant": "The size type is chosen per collection; truncation would appear only for particular size combinations.", "anchors": ["tuple-transmission/detail/operations/MessageLength.h", "tuple-transmission/detail/types/MessageSizeType.h"]}
{"id": "C10", "title": "Maximum message length and receive capacity", "statement": "MaxMessageLength is attained by some message of the collection and is an upper bound for all of them; the receive buffer capacity is three times it, so any message fits in the buffer, and also in an empty receiver getBufferAvailableSpace() equals three times the maximum.", "quantifier": "for every non-empty collection whose buffer size is representable (below 2^64)", "why_tests_cant": "Universal over type lists, including lists with ties and any order.", "anchors": ["tuple-transmission/detail/operations/MaxMessageLength.h", "tuple-transmission/detail/operations/ComputeReceiveBufferSize.h", "tuple-transmission/detail/constants/MessageBufferSizeScale.h"]}
{"id": "C11", "title": "Serialize/deserialize round trip", "statement": "Deserializing, at any position of any byte array, the bytes produced by serializing a tuple of fields yields the same object representations in the same order, reads nothing outside the message, and never depends on bytes after it.", "quantifier": "for every field list, every contents, every surrounding bytes", "why_tests_cant": "Universal over types, values and buffer positions.", "anchors": ["tuple-transmission/serializers/BitwiseCopySerialization.h", "tuple-transmission/detail/operations/DeserializeToFusion.h"]}
{"id": "C12", "title": "Byte order of multi-byte fields", "statement": "If sender and receiver use the same byte order every unsigned integer field arrives with its value; if they differ, an n-byte field arrives with its bytes reversed, hence unchanged exactly when its byte representation is a palindrome (there is no byte-order conversion anywhere).", "quantifier": "for every field width and value, both orders on both sides", "why_tests_cant": "Tests run sender and receiver on one machine.", "anchors": ["tuple-transmission/serializers/BitwiseCopySerialization.h: buffer, Unbuffer"]}
{"id": "C13", "title": "ReceiveBuffer behaves as a bounded FIFO/vector", "statement": "After any sequence of push_back (single and range), pop_front, pop_back, erase, clear, ensure_space, element assignment, copy and assignment with in-range arguments, the observable contents (size, indexing, front, back, iteration) are those of the same operations on a plain sequence; sliding of the contents inside the array is never observable.", "quantifier": "for every capacity (within the arithmetic bound of C50) and every sequence of operations whose size never exceeds the capacity", "why_tests_cant": "The internal offset interacts with every operation; operation sequences are unbounded.", "anchors": ["util/ReceiveBuffer.h: ReceiveBuffer", "util/VectorSimulator.h"]}
{"id": "C14", "title": "ReceiveBuffer never faults within its contract", "statement": "With in-range arguments and pushes that fit in max_size()-size(), no ReceiveBuffer operation performs an out-of-bounds access, an overlapping std::copy with undefined result, or fails an assertion; debug and release builds behave the same.", "quantifier": "for every capacity, reachable state and operation in contract", "why_tests_cant": "Undefined behaviour need not be visible in a test.", "anchors": ["util/ReceiveBuffer.h: push_back, ensure_space, slide_contents_forward, idealContentsCopy, pop_front, pop_back, erase"]}
{"id": "C15", "title": "Copying and assigning ReceiveBuffers", "statement": "A copy-constructed or assigned buffer has the same observable contents as its source, regardless of the internal position and of the target's former contents, and with all capacity usable; self-assignment keeps the contents when the internal position is positive or the buffer is empty, but is formally undefined (std::copy onto itself) for a non-empty buffer whose contents already start at the front.", "quantifier": "for every pair of valid buffers of equal capacity", "why_tests_cant": "Internal layouts are unobservable to tests; the self-copy is undefined behaviour that happens to work.", "anchors": ["util/ReceiveBuffer.h: copy constructor, operator=, idealContentsCopy"]}
{"id": "C16", "title": "erase removes exactly the range", "statement": "erase(first,last) with begin()<=first<last<=end() removes exactly those elements, keeps the order of the others, and returns an iterator to the element after the erased ones (or end()). The empty range aborts in debug builds but is a no-op in release builds.", "quantifier": "for every valid buffer and every range in it", "why_tests_cant": "Four code paths depending on position; debug/release disagreement is not visible in one build.", "anchors": ["util/ReceiveBuffer.h: erase"]}
{"id": "C17", "title": "bufferFromExternalFunctorRef respects the free space", "statement": "The functor is told a limit that is at most the free space and at most the requested count; if it writes at most that many bytes and returns how many it wrote, exactly those bytes are appended and their number returned, with no fault.", "quantifier": "for every buffer state, request and well-behaved functor, when the free space offered is below 256", "why_tests_cant": "Universal over external device behaviour.", "anchors": ["util/ReceiveBuffer.h: bufferFromExternalFunctorRef", "tuple-transmission/detail/bases/ReceiveAdapterBase.h: operator()"]}
{"id": "C18", "title": "Message search terminates", "statement": "checkBufferForMessage terminates on every buffer content; its recursion depth is at most the number of buffered bytes plus one, and any larger stack changes nothing.", "quantifier": "for every collection, envelope, build and buffer state", "why_tests_cant": "Termination for all contents.", "anchors": ["tuple-transmission/envelopes/Basic.h: checkBufferForMessage", "tuple-transmission/envelopes/BasicChecksum.h: checkBufferForMessage", "tuple-transmission/detail/bases/EnvelopeBase.h: popAndRetry"]}
{"id": "C19", "title": "Only well-formed messages are delivered", "statement": "Every handler call corresponds to a contiguous piece of the received byte stream that is a complete well-formed message (start codes, valid id, exact length, trailer, correct checksum for BasicChecksum); the arguments are the payload bytes of that piece, and pieces of different calls do not overlap and occur in stream order.", "quantifier": "for every byte stream, chunking and polling pattern; the last part for handlers that do not throw (a message whose handler throws is delivered again, see C40)", "why_tests_cant": "Universal over adversarial inputs.", "anchors": ["tuple-transmission/Receiver.h: processMessages", "tuple-transmission/envelopes/Basic.h", "tuple-transmission/envelopes/BasicChecksum.h"]}
{"id": "C20", "title": "Delivery is the greedy leftmost decoding", "statement": "processMessages delivers exactly the messages of the leftmost-first decoding of the stream: at each position a complete message is taken if one starts there, otherwise, unless the bytes could still become a message, exactly one byte is skipped. Nothing that this decoding contains is missed and nothing else is delivered.", "quantifier": "for every collection, every stream and buffer state, and handlers that do not throw", "why_tests_cant": "A full functional characterisation over all streams.", "anchors": ["tuple-transmission/Receiver.h: processMessages", "tuple-transmission/envelopes/Basic.h: checkBufferForMessage", "tuple-transmission/envelopes/BasicChecksum.h: checkBufferForMessage"]}
{"id": "C21", "title": "Bytes are conserved", "statement": "At any time the bytes fed to the receiver are, in order: the bytes of removed messages (if handlers do not throw, exactly the delivered ones, each once) with skipped bytes between them, and the bytes still buffered; no byte is duplicated, reordered or lost otherwise, and getBufferAvailableSpace() is the capacity minus the buffered bytes.", "quantifier": "for every history of appends, adapter reads, processing, handler changes and copies", "why_tests_cant": "Universal over histories.", "anchors": ["tuple-transmission/Receiver.h", "tuple-transmission/detail/types/EnvelopeReceiveBuffer.h"]}
{"id": "C22", "title": "Assertion side effects are harmless", "statement": "checkBufferForMessage is idempotent: after it returns true, calling it again returns true and changes nothing. Therefore the call hidden in popMessage's assertion does not alter behaviour, and builds with and without assertions deliver the same calls, results and state for every legal history.", "quantifier": "for every state and every legal history", "why_tests_cant": "Compares two builds on all executions.", "anchors": ["tuple-transmission/detail/types/EnvelopeReceiveBuffer.h: popMessage", "tuple-transmission/Receiver.h: processMessages"]}
{"id": "C23", "title": "What remains buffered after processing", "statement": "After processMessages returns (with a handler set), the buffered bytes are either none or a possible beginning of one message: a start code alone, a start code and a valid id, or a start code, valid id, STX and fewer bytes than that message's length.", "quantifier": "for every stream, state and handler behaviour", "why_tests_cant": "Universal over streams.", "anchors": ["tuple-transmission/envelopes/Basic.h: checkBufferForMessage", "tuple-transmission/envelopes/BasicChecksum.h: checkBufferForMessage"]}
{"id": "C24", "title": "Chunking and polling do not matter", "statement": "Two receivers fed the same byte stream in any two ways (any splitting into appends and adapter reads, any placement of processMessages calls, any copies of the receiver in between), each ending with processMessages, deliver the same sequence of messages and keep the same buffered bytes.", "quantifier": "for every stream, every pair of legal histories feeding it, and handlers that do not throw", "why_tests_cant": "Exponentially many chunkings.", "anchors": ["tuple-transmission/Receiver.h: appendReceived, receiveFrom, processMessages"]}
{"id": "C25", "title": "End-to-end round trip", "statement": "If a list of messages is sent to a transmitter and the produced bytes reach a fresh receiver of the same collection, in any chunking and polling pattern that respects the free space, then after the last processMessages the handler has been called exactly once per message, in order, with the sent type and field contents, and nothing is left buffered - even if payloads contain control codes.", "quantifier": "for every collection, message list, contents, chunking, polling pattern and handler that does not throw", "why_tests_cant": "Universal over contents, including payloads imitating frames.", "anchors": ["tuple-transmission/Send.h: send", "tuple-transmission/Receiver.h", "tuple-transmission/envelopes/Basic.h", "tuple-transmission/envelopes/BasicChecksum.h"]}
{"id": "C26", "title": "Messages are delivered promptly", "statement": "Whenever the bytes received so far are a sequence of complete messages followed by a proper prefix of another message, processMessages delivers every complete one; no following byte is needed to release a message, and the prefix is kept.", "quantifier": "for every message list, prefix, chunking and handler that does not throw", "why_tests_cant": "Universal over cut points and contents.", "anchors": ["tuple-transmission/Receiver.h: processMessages"]}
{"id": "C27", "title": "Truncated messages are never delivered", "statement": "A proper prefix of a message, however long one waits and however often one polls, causes no handler call; completing it later delivers it exactly once.", "quantifier": "for every message, cut point and handler (the second part for handlers that do not throw)", "why_tests_cant": "Universal over cut points and polling.", "anchors": ["tuple-transmission/envelopes/Basic.h: checkBufferForMessage", "tuple-transmission/envelopes/BasicChecksum.h: checkBufferForMessage"]}
{"id": "C28", "title": "Noise without a start code is harmless", "statement": "Bytes different from SOH between messages (before, between or after complete messages) are discarded and have no effect on which messages are delivered.", "quantifier": "for every message list, noise strings without the start code, and handler that does not throw", "why_tests_cant": "Universal over noise.", "anchors": ["tuple-transmission/envelopes/Basic.h: checkBufferForMessage", "tuple-transmission/envelopes/BasicChecksum.h: checkBufferForMessage"]}
{"id": "C29", "title": "Resynchronisation after corruption", "statement": "After arbitrary garbage a following message is delivered provided no valid-looking message that starts in the garbage extends past its end and enough bytes have arrived (the longest message) to rule out candidates starting in the garbage; the messages after it are then decoded as if the garbage had never been there.", "quantifier": "for every garbage string, message, continuation and handler that does not throw", "why_tests_cant": "Universal over garbage.", "anchors": ["tuple-transmission/detail/bases/EnvelopeBase.h: popAndRetry", "tuple-transmission/envelopes/Basic.h", "tuple-transmission/envelopes/BasicChecksum.h"]}
{"id": "C30", "title": "Unique decodability", "statement": "No encoded message is a proper prefix of another encoded message of the same collection, and two different message lists never have the same encoding.", "quantifier": "for every collection of distinct types and all message lists", "why_tests_cant": "Universal over pairs of messages.", "anchors": ["tuple-transmission/envelopes/Basic.h: sendMessage", "tuple-transmission/envelopes/BasicChecksum.h: sendMessage"]}
{"id": "C31", "title": "The checksum detects every single-byte error", "statement": "With BasicChecksum, changing exactly one byte of an encoded message to any other value yields a string in which no message of the original length starts at its beginning; if the changed byte is not the id, no message at all starts there, so the receiver does not deliver the corrupted message.", "quantifier": "for every collection, message, position and replacement byte", "why_tests_cant": "255 x length x contents cases for every collection.", "anchors": ["tuple-transmission/envelopes/BasicChecksum.h: checkBufferForMessage"]}
{"id": "C32", "title": "Exactly which payload corruption goes undetected", "statement": "With BasicChecksum, replacing the payload by another of the same length and keeping the rest is accepted if and only if the two payloads have the same byte sum modulo 256 (so any reordering of bytes is accepted); with Basic every payload replacement is accepted.", "quantifier": "for every message, replacement payload and handler that does not throw", "why_tests_cant": "Exact characterisation over all payload pairs.", "anchors": ["tuple-transmission/envelopes/BasicChecksum.h: checkBufferForMessage", "tuple-transmission/envelopes/Basic.h: checkBufferForMessage"]}
{"id": "C33", "title": "Free space after processing", "statement": "After processMessages returns with a handler set, getBufferAvailableSpace() is at least twice the maximum message length plus one; so a user who appends at most that much between calls never overflows the buffer.", "quantifier": "for every history", "why_tests_cant": "Universal over histories.", "anchors": ["tuple-transmission/detail/operations/ComputeReceiveBufferSize.h", "tuple-transmission/Receiver.h: getBufferAvailableSpace"]}
{"id": "C34", "title": "Legal use never faults", "statement": "If every append fits in the space reported by getBufferAvailableSpace() at that time, adapters write at most what they are allowed and return that count, and handlers do not call back clearHandler or processMessages, no execution has undefined behaviour or a failed assertion, and without appends from handlers every processMessages call terminates.", "quantifier": "for every collection (within the arithmetic bound of C50), build and history", "why_tests_cant": "Absence of undefined behaviour over all executions.", "anchors": ["tuple-transmission/Receiver.h", "util/ReceiveBuffer.h"]}
{"id": "C35", "title": "Overfull appends are not caught in general", "statement": "Appending more than the reported space aborts in debug builds unless the length wraps around the buffer's size type; in release builds, and in debug builds when the length is a multiple of the type's range plus a small number, it writes out of bounds (undefined behaviour).", "quantifier": "for every buffer state and every append length; plus a concrete witness that evades the assertion", "why_tests_cant": "Undefined behaviour; length arithmetic corner.", "anchors": ["util/ReceiveBuffer.h: push_back, ensure_space"]}
{"id": "C36", "title": "No handler, no processing", "statement": "Without a handler processMessages returns 0, calls nothing, and keeps every buffered byte and the last message id; messages appended meanwhile are delivered, in order, after a handler is set.", "quantifier": "for every state and history", "why_tests_cant": "Universal over histories.", "anchors": ["tuple-transmission/Receiver.h: processMessages, setHandler, clearHandler, hasHandler"]}
{"id": "C37", "title": "Handler replacement between calls", "statement": "Every message is delivered to the handler object most recently set before the processMessages call that delivers it; changing or clearing handlers between calls neither loses nor duplicates messages. A receiver constructed with a handler does what one does on which that handler is set first.", "quantifier": "for every history with setHandler/clearHandler/processMessages in any order", "why_tests_cant": "Universal over histories.", "anchors": ["tuple-transmission/Receiver.h: setHandler, clearHandler"]}
{"id": "C38", "title": "processMessages returns the message count modulo 256", "statement": "The returned 8-bit value is the number of handler invocations modulo 256; it is exact whenever fewer than 256 messages fit into the receive buffer, i.e. when three times the maximum length is below 256 times the shortest message length; otherwise 256 delivered messages are reported as 0.", "quantifier": "for every state; plus a concrete collection and input for the wrap", "why_tests_cant": "Needs collections with very long messages and 256 short ones in one call.", "anchors": ["tuple-transmission/Receiver.h: processMessages (msgCount)"]}
{"id": "C39", "title": "getLastMessageId", "statement": "getLastMessageId() is empty until the first message is delivered and afterwards always the id of the most recently delivered message - also inside the handler call and after a handler threw - and is unaffected by skipped bytes, invalid frames, appends and handler changes.", "quantifier": "for every history", "why_tests_cant": "Universal over histories.", "anchors": ["tuple-transmission/Receiver.h: getLastMessageId, processMessages"]}
{"id": "C40", "title": "Exceptions from handlers", "statement": "If the handler throws, processMessages propagates it with the message still buffered: earlier messages of the call have been removed, the buffer remains valid, and the next processMessages call delivers the same message again first (at-least-once delivery).", "quantifier": "for every state and every handler behaviour that throws", "why_tests_cant": "Universal over states and throwing points.", "anchors": ["tuple-transmission/Receiver.h: processMessages"]}
{"id": "C41", "title": "Appending from inside a handler", "statement": "A handler may append received bytes to its own receiver (within the reported space): the arguments of the running call are unaffected, the appended bytes come after all buffered ones, complete messages among them are delivered by the same processMessages call, and nothing is lost or duplicated even if the buffer contents are moved.", "quantifier": "for every state and every handler whose appends fit", "why_tests_cant": "Re-entrancy over all states, including those in which the append slides the buffer.", "anchors": ["tuple-transmission/Receiver.h: appendReceived, processMessages", "util/ReceiveBuffer.h: ensure_space"]}
{"id": "C42", "title": "clearHandler inside a handler", "statement": "If a handler clears the handler while at least one more complete message is pending, processMessages calls through a null function pointer (undefined behaviour); if no further message is pending it returns normally.", "quantifier": "for every state: exact characterisation", "why_tests_cant": "Undefined behaviour.", "anchors": ["tuple-transmission/Receiver.h: clearHandler, processMessages"]}
{"id": "C43", "title": "setHandler inside a handler", "statement": "setHandler called from a handler takes effect for the very next message of the same processMessages call (not only for future calls as documented).", "quantifier": "for every state and pair of handlers", "why_tests_cant": "Universal over pending contents.", "anchors": ["tuple-transmission/Receiver.h: setHandler, processMessages"]}
{"id": "C44", "title": "processMessages inside a handler", "statement": "Calling processMessages from a handler delivers the message being handled a second time. If the nested call returns normally, a debug build then aborts; a release build has undefined behaviour whenever the buffer's size type can hold twice the capacity (handler otherwise passive), and without that condition it can instead hand over already handled messages again.", "quantifier": "for every reachable state with a pending message, in both kinds of build; concrete witness for the repeated delivery", "why_tests_cant": "Re-entrancy, undefined behaviour.", "anchors": ["tuple-transmission/Receiver.h: processMessages", "tuple-transmission/detail/types/EnvelopeReceiveBuffer.h: popMessage"]}
{"id": "C45", "title": "Partial and parameter handlers", "statement": "A handler deriving from PartialHandlerBase receives exactly the calls, in order, for the message types it has overloads for, and other messages are consumed without effect and counted; a handler deriving from ParameterHandlerBase receives every message with its fields as separate parameters in order.", "quantifier": "for every set of overloads and every stream", "why_tests_cant": "Universal over overload sets and streams.", "anchors": ["tuple-transmission/PartialHandlerBase.h", "tuple-transmission/ParameterHandlerBase.h"]}
{"id": "C46", "title": "receiveFrom", "statement": "receiveFrom asks the adapter for at most min(available, free space) bytes, appends exactly what the adapter delivered, and returns that number, for any adapter that honours the limit. An adapter whose device call reports an error as -1 (as the VRPN one does) makes the receiver take 255 bytes that were never received.", "quantifier": "for every receiver state and adapter; concrete witness for the error case", "why_tests_cant": "Universal over device behaviour; error path never exercised.", "anchors": ["tuple-transmission/Receiver.h: receiveFrom", "tuple-transmission/detail/bases/ReceiveAdapterBase.h", "tuple-transmission/receiveadapters/VrpnSerial.h"]}
{"id": "C47", "title": "Copies of receivers", "statement": "A copy of a (const) receiver has the same handler, last id, buffered bytes and free space and from then on behaves identically to the original for identical inputs; feeding one does not affect the other.", "quantifier": "for every reachable receiver and every later history", "why_tests_cant": "Universal over histories; internal layouts differ between copies.", "anchors": ["tuple-transmission/Receiver.h", "util/ReceiveBuffer.h: copy constructor"]}
{"id": "C48", "title": "I2C sends one transaction per message", "statement": "With the ArduinoI2C transmitter each send() results in exactly one bus write containing exactly the message's wire bytes, whatever was sent before, provided the message is at most 255 bytes; longer messages overflow the internal buffer (undefined behaviour).", "quantifier": "for every message list; exact size boundary", "why_tests_cant": "Universal over histories; overflow is undefined behaviour.", "anchors": ["tuple-transmission/transmitters/ArduinoI2C.h", "tuple-transmission/detail/bases/TransmitterBase.h: outputFinished"]}
{"id": "C49", "title": "Transmitter-independent output sequence", "statement": "The sequence of output calls made by send() depends only on collection, message and contents, not on the transmitter; outputFinished is called exactly once, last. Consequently all byte-faithful transmitters put the same bytes on the wire.", "quantifier": "for every transmitter (any implementation of the interface) and state", "why_tests_cant": "Quantifies over user-written transmitters.", "anchors": ["tuple-transmission/Send.h: send", "tuple-transmission/detail/bases/TransmitterBase.h"]}
{"id": "C50", "title": "Arithmetic bound on buffer capacity", "statement": "ensure_space is correct whenever twice the capacity is representable in the arithmetic type (max of the size type and int); this always holds for capacities up to 2^31 with 32-bit int and for 8-bit sizes with any int of at least 16 bits. Beyond it, a push that fits can be placed out of bounds.", "quantifier": "for every capacity; concrete witness beyond the bound", "why_tests_cant": "Requires multi-gigabyte buffers.", "anchors": ["util/ReceiveBuffer.h: ensure_space, size_type"]}
{"id": "C51", "title": "Corruption of the id byte", "statement": "With Basic, changing the id to another valid id whose message has the same length is always accepted as the other message. With BasicChecksum a changed id is never accepted with the same length, but can be accepted when the other message is shorter (concrete witness).", "quantifier": "for every message and id; concrete witness", "why_tests_cant": "Universal over messages and ids.", "anchors": ["tuple-transmission/envelopes/Basic.h", "tuple-transmission/envelopes/BasicChecksum.h"]}
{"id": "C52", "title": "Parameter overloads of send", "statement": "send<Collection,Message>(tx, a1, ..., an) for 0 to 9 fields outputs the same bytes as sending the tuple (a1, ..., an), and is rejected at compile time when the number of arguments differs from the number of fields.", "quantifier": "for every message of at most nine fields and all arguments", "why_tests_cant": "Generated code for ten arities and arbitrary types.", "anchors": ["tuple-transmission/detail/operations/SendOverloads_Generated.h", "tuple-transmission/Send.h"]}
{"id": "C53", "title": "Pushing elements of the buffer onto itself", "statement": "buf.push_back(buf[i]) appends the value of element i as long as the contents need not be moved; when they have to be moved (the end of the array is reached) the value appended is whatever then stands at the element's former place, which is a wrong value whenever the moved contents cover that place. Pushing a range of the buffer onto itself, push_back(begin()+i, begin()+i+n), is right as long as nothing has to be moved; otherwise it is right, or pushes wrong elements, or is undefined, depending on whether the range lies behind, before or across the place where the moved contents end.", "quantifier": "for every buffer state with enough free places, every index and every range; plus a concrete wrong value", "why_tests_cant": "Depends on the invisible internal position; std::vector users rely on aliasing being safe.", "anchors": ["util/ReceiveBuffer.h: push_back(const_reference), push_back(InputIterator, InputIterator), increment_pastEnd, ensure_space"]}
{"id": "C54", "title": "Polling a serial port loses nothing", "statement": "A program that alternates receiveFrom(adapter) and processMessages on the VRPN or Arduino serial adapter never fails, whatever arrives and however much arrives between rounds: the bytes handed to the receiver followed by the bytes still waiting in the port are exactly the bytes that arrived, in order, and the handler calls made are the complete decoding of the bytes handed over.", "quantifier": "for every collection, handler that neither throws nor calls back, number of rounds and arrivals per round, both adapters", "why_tests_cant": "Universal over arrival schedules, including bursts larger than the receive buffer.", "anchors": ["tuple-transmission/Receiver.h: receiveFrom, processMessages", "tuple-transmission/receiveadapters/VrpnSerial.h", "tuple-transmission/receiveadapters/ArduinoSerial.h", "tuple-transmission/detail/bases/ReceiveAdapterBase.h"]}
{"id": "C55", "title": "Polling catches up", "statement": "Each polling round takes at least min(255, 2 * longest message + 1, bytes waiting) bytes from the port; so after a burst of any size, enough further rounds without arrivals leave the port empty and everything that arrived decoded and delivered.", "quantifier": "for every collection, arrivals and number of further rounds reaching the stated bound, both adapters", "why_tests_cant": "A progress property over all schedules.", "anchors": ["tuple-transmission/Receiver.h: receiveFrom, processMessages, getBufferAvailableSpace", "tuple-transmission/detail/operations/ComputeReceiveBufferSize.h"]}
{"id": "C56", "title": "A lost byte never forges a message, unless it is the id", "statement": "If one byte other than the id of a message is lost on the line, and the message contains no further start code, then the receiver drops that message and delivers every message that follows it, with either envelope. Losing the id byte is different: a message 0 whose payload begins with STX turns into a well formed message 2, and the checksum does not notice.", "quantifier": "for every collection, message, position of the loss other than the id, non-empty list of following messages, chunking and handler that does not throw; plus a family of wrong deliveries for the id", "why_tests_cant": "Universal over messages, positions and what follows.", "anchors": ["tuple-transmission/envelopes/Basic.h", "tuple-transmission/envelopes/BasicChecksum.h", "tuple-transmission/Receiver.h: processMessages"]}
{"id": "C57", "title": "An inserted byte", "statement": "With the Basic envelope, if a byte other than the start code is inserted after the id of a message that has no further start code, the receiver either delivers that very message or drops it, never a different one, and delivers all following messages. With BasicChecksum an inserted byte can turn a message into a different one that passes every check.", "quantifier": "for every collection with the Basic envelope, message, position, inserted byte and following messages; plus a concrete wrong delivery for BasicChecksum", "why_tests_cant": "Universal over positions and inserted values; the failure needs a special payload.", "anchors": ["tuple-transmission/envelopes/Basic.h", "tuple-transmission/envelopes/BasicChecksum.h", "tuple-transmission/Receiver.h: processMessages"]}
{"id": "C58", "title": "A false start holds back later messages", "statement": "After a start code, a valid id and STX, even if produced by noise, nothing is delivered and nothing is discarded until as many bytes have arrived as that id announces, although complete messages may be waiting behind it. As soon as they have arrived and the last of them is not EOT (and the id is not itself the value of the start code), the false start is given up and what is delivered is what the bytes behind it decode to.", "quantifier": "for every collection, valid id, following bytes, history, polling pattern and handler", "why_tests_cant": "A statement about all histories, including that something does not happen.", "anchors": ["tuple-transmission/Receiver.h: processMessages", "tuple-transmission/detail/bases/EnvelopeBase.h", "tuple-transmission/envelopes/Basic.h: checkBufferForMessage", "tuple-transmission/envelopes/BasicChecksum.h: checkBufferForMessage"]}
{"id": "C59", "title": "Payload bytes are not escaped", "statement": "If the start code of a message is lost and its payload contains the bytes of another message, with no start code before them, then that inner message is delivered although nobody sent it, and decoding continues behind it.", "quantifier": "for every collection, inner message, payload around it and following bytes", "why_tests_cant": "Universal over payloads; shows a limit of the protocol rather than a single bad run.", "anchors": ["tuple-transmission/Receiver.h: processMessages", "tuple-transmission/envelopes/Basic.h: sendMessage", "tuple-transmission/envelopes/BasicChecksum.h: sendMessage"]}
{"id": "C60", "title": "Sender and receiver with different envelopes", "statement": "For messages without inner start codes: a receiver that expects BasicChecksum never calls a handler for messages sent with Basic; a receiver that expects Basic delivers, of the messages sent with BasicChecksum, exactly those whose checksum byte equals EOT, with correct contents.", "quantifier": "for every collection, list of messages, chunking and polling pattern; in the first part also every handler", "why_tests_cant": "Universal over message lists; the second part is an exact characterisation.", "anchors": ["tuple-transmission/envelopes/Basic.h", "tuple-transmission/envelopes/BasicChecksum.h", "tuple-transmission/Receiver.h: processMessages"]}
{"id": "C61", "title": "Adding message types at the end is compatible", "statement": "If message types are added at the end of a collection, send produces the same output for the old types on every transmitter; a receiver of the extended collection delivers everything an old sender sends; a receiver of the old collection delivers exactly the messages of old types and skips the others, provided these contain no inner start code. Adding a type in front is not compatible: an old message is delivered as the wrong type.", "quantifier": "for every collection, list of added types, transmitter, list of messages and chunking; plus a concrete witness for the last part", "why_tests_cant": "Relates two versions of a program over all message lists.", "anchors": ["tuple-transmission/MessageCollection.h", "tuple-transmission/Send.h", "tuple-transmission/Receiver.h: processMessages"]}
{"id": "C62", "title": "A relay passes messages on unchanged", "statement": "Every handler call a receiver makes, whatever the stream, can be passed on with send: the call compiles and carries the same type and field contents. With distinct message types the output of a relay is exactly the frames of the messages its input decodes to, without noise, and a receiver behind the relay delivers exactly what the relay's receiver delivered.", "quantifier": "for every collection, input stream, history, handler and faithful transmitter", "why_tests_cant": "Composes send and receive over all input streams.", "anchors": ["tuple-transmission/Send.h", "tuple-transmission/Receiver.h: processMessages", "tuple-transmission/detail/operations/DeserializeAndInvoke.h"]}
{"id": "C63", "title": "Copies of array buffers are not usable before reset", "statement": "A copy of a BoostArrayBuffer keeps an iterator into the original: [begin(), end()) of the copy is not a range, outputs to the copy land in the original's array behind the original's end without becoming visible in either object, and once the original is gone any output is undefined. reset() makes the copy an independent empty buffer. Every send on a copied ArduinoI2C transmitter is undefined. Buffers that were not copied affect no other object.", "quantifier": "for every buffer state, addresses and outputs that fit; for I2C every message", "why_tests_cant": "Undefined behaviour that often appears to work; implicit copy operations are not visible in the source.", "anchors": ["tuple-transmission/transmitters/BoostArrayBuffer.h: BoostArrayBuffer, begin, end, reset", "tuple-transmission/transmitters/ArduinoI2C.h: writeFinished"]}
{"id": "C64", "title": "Assigning receivers", "statement": "Assigning one receiver to another never fails and afterwards the target behaves exactly as the source would, whatever the target had gone through. Assigning a receiver to itself is undefined exactly if bytes are buffered that stand at the beginning of the internal array, in particular right after appending to a receiver with nothing buffered; otherwise it changes nothing observable.", "quantifier": "for every pair of reachable receivers and every later history", "why_tests_cant": "Universal over two histories; internal positions are invisible to tests.", "anchors": ["tuple-transmission/Receiver.h: Receiver", "tuple-transmission/detail/types/EnvelopeReceiveBuffer.h: EnvelopeReceiveBuffer", "util/ReceiveBuffer.h: operator="]}
{"id": "C65", "title": "Read errors of the VRPN adapter corrupt the receive buffer", "statement": "When the VRPN port reports a read error, receiveFrom always claims 255 bytes. If 255 bytes fit, that many bytes nobody sent are appended. If they do not fit and the sum is representable in the size type, debug builds abort and release builds then report free space of nearly the whole type range. Otherwise received bytes are removed from the end; with a buffer of less than 256 bytes exactly the byte received last.", "quantifier": "for every collection, reachable receiver state and build; the three cases are exhaustive", "why_tests_cant": "Depends on the device failing and on the exact fill level.", "anchors": ["tuple-transmission/receiveadapters/VrpnSerial.h: receiveIntoBuffer", "tuple-transmission/Receiver.h: receiveFrom", "util/ReceiveBuffer.h: bufferFromExternalFunctorRef"]}
{"id": "C66", "title": "Writes on serial ports", "statement": "On a serial transmitter send makes exactly one port write per control byte and one per field, in order, together the message's bytes. Short writes go unnoticed: send returns normally, continues with the next write, and what the port did not take is missing on the line. If the port takes everything, exactly the message's bytes arrive.", "quantifier": "for every collection, message, contents and port behaviour", "why_tests_cant": "Universal over port behaviour.", "anchors": ["tuple-transmission/transmitters/VrpnSerial.h", "tuple-transmission/transmitters/ArduinoSerial.h", "tuple-transmission/Send.h"]}
{"id": "C67", "title": "Garbage costs at most one message length", "statement": "Whatever garbage arrives between two sequences of messages: all messages before it are delivered, and of the messages after it (if the beginning of a message - start code, id of a message, 02 - does not occur inside them and they are together at least as long as the longest message minus one) all are delivered that begin at least the longest message length minus one byte behind the garbage. Only those beginning closer can be lost, and a loss is real: a false start can swallow the next message.", "quantifier": "for every collection, garbage of any content and length, messages before and after, chunking, build and handler that does not throw", "why_tests_cant": "Garbage is arbitrary; the bound must hold for the worst one.", "anchors": ["tuple-transmission/envelopes/Basic.h: checkBufferForMessage", "tuple-transmission/envelopes/BasicChecksum.h: checkBufferForMessage", "tuple-transmission/detail/bases/EnvelopeBase.h: popAndRetry"]}
{"id": "C68", "title": "Peers that disagree on the size of a message", "statement": "If sender and receiver use the same envelope but lay out some message types with different sizes, and each difference (receiver minus sender) is -1 or +1 to +4 for Basic, or -2, -1, +1, +2, +3 or +5 for BasicChecksum, then, in a stream of messages, messages of those types inside which no beginning of a message (start code, id of a message, 02) occurs are ignored and all others delivered in order (as soon as a message of an agreed type has followed). This list is complete: for every other difference there are collections differing in one type only and messages without further start codes for which the receiver delivers a wrong value.", "quantifier": "for every pair of collections, message sequence, chunking, build and handler that does not throw; the converse for every other pair of sizes", "why_tests_cant": "Needs two incompatible builds and universal quantification over payloads.", "anchors": ["tuple-transmission/detail/operations/MessageLength.h", "tuple-transmission/detail/operations/Sizeof.h", "tuple-transmission/envelopes/Basic.h: checkBufferForMessage", "tuple-transmission/envelopes/BasicChecksum.h: checkBufferForMessage"]}
{"id": "C69", "title": "Stack depth of the message search", "statement": "checkBufferForMessage recurses once for every start code it removes from the buffer and never otherwise, so its depth is exactly one more than their number, at most one more than the buffer capacity. A peer that fills the buffer with start codes forces a depth of three times the longest message minus one.", "quantifier": "for every collection, valid buffer content, reachable receiver state and build", "why_tests_cant": "Tests observe results, not stack use; the worst case depends on hostile input.", "anchors": ["tuple-transmission/detail/bases/EnvelopeBase.h: popAndRetry", "tuple-transmission/envelopes/Basic.h: checkBufferForMessage", "tuple-transmission/envelopes/BasicChecksum.h: checkBufferForMessage", "tuple-transmission/detail/types/EnvelopeReceiveBuffer.h: checkBufferForMessage"]}
{"id": "C70", "title": "The checksum lets one in 256 corruptions through", "statement": "With BasicChecksum, of all payloads that could arrive in place of a message's own with everything else intact, exactly one in 256 is accepted; and whatever else is wrong with the payload, for each position exactly one byte value makes it acceptable.", "quantifier": "for every collection, message with a non-empty payload, position, history and build", "why_tests_cant": "Counts over all payloads.", "anchors": ["tuple-transmission/envelopes/BasicChecksum.h: checkBufferForMessage", "tuple-transmission/transmitters/ChecksumComputer.h"]}
{"id": "C71", "title": "Nothing happens without new bytes", "statement": "Once processMessages has returned with a handler set, then until bytes arrive no call (processMessages any number of times, setHandler, clearHandler, copying the receiver) leads to a handler call or changes the buffered bytes, the free space or the last message id; every processMessages returns 0, and none faults or loops.", "quantifier": "for every collection, reachable state, following call sequence without input, build and handler behaviour", "why_tests_cant": "Universal over call sequences.", "anchors": ["tuple-transmission/Receiver.h: processMessages, setHandler, clearHandler"]}
{"id": "C72", "title": "A composition never flushes its components", "statement": "A transmitter that passes data on only in writeFinished never passes anything on when it is a component of a TransmitterComposition. The I2C transmitter there collects all messages in its 255-byte buffer, sends nothing to the bus, and writes outside the buffer with the message that makes the total exceed 255 bytes, also if every message fits.", "quantifier": "for every component transmitter with that behaviour, every other component, message list and state", "why_tests_cant": "Universal over transmitters and message lists; the overflow is undefined behaviour.", "anchors": ["tuple-transmission/transmitters/TransmitterComposition.h", "tuple-transmission/transmitters/ArduinoI2C.h", "tuple-transmission/detail/bases/TransmitterBase.h: outputFinished"]}
{"id": "C73", "title": "Joining in the middle of a stream", "statement": "A receiver that starts listening at any byte of a sequence of messages delivers exactly the messages that begin at or after that byte, provided the beginning of a message (start code, id of a message, 02) does not occur inside them, nor at their very end start code and id of a message (checksum 01, end code 04). Otherwise there is no such guarantee: for both envelopes there are messages which, sent over and over, keep a receiver that joined inside one of them out of step for ever, delivering a wrong message instead of each.", "quantifier": "for every collection, message sequence, joining position, chunking and build, and handlers that do not throw; the converse for families of payloads and any number of repetitions", "why_tests_cant": "Universal over positions and contents; staying out of step for ever is not a finite observation.", "anchors": ["tuple-transmission/envelopes/Basic.h: checkBufferForMessage", "tuple-transmission/envelopes/BasicChecksum.h: checkBufferForMessage", "tuple-transmission/detail/bases/EnvelopeBase.h: popAndRetry"]}
{"id": "C74", "title": "Exceptions from a transmitter", "statement": "If a transmitter throws during send, send makes no further call on it (in particular no outputFinished), the bytes that went out are a beginning of the message's bytes, the exception reaches the caller, and later sends are complete and correct. A receiver that gets the broken-off message between others delivers everything before it, and of what follows (no beginnings of messages inside them; the broken-off one not ending with a start code other than its first byte if there is a message with id 1 and the next one has id 2) either all messages, or one wrong message in place of exactly those that begin within it.", "quantifier": "for every transmitter, point of failure, message, sequence of sends, collection, chunking and build, and handlers that do not throw", "why_tests_cant": "Every call of every message can be the one that throws.", "anchors": ["tuple-transmission/Send.h: send", "tuple-transmission/detail/bases/TransmitterBase.h", "tuple-transmission/envelopes/Basic.h: sendMessage, checkBufferForMessage", "tuple-transmission/envelopes/BasicChecksum.h: sendMessage, checkBufferForMessage"]}
{"id": "C75", "title": "Two programs talking to each other", "statement": "Two programs, each with a receiver and a transmitter to the other, exchange messages over two lossless byte streams; handlers may send messages (answers). Under every interleaving of sending, arrival of any number of bytes and processing, nothing faults, and each program's handler has at any time been called for exactly the first so many messages sent to it, in order and unchanged. Once all bytes have arrived and been processed it has been called for all of them; a program that keeps polling gets there in a bounded number of rounds. If one program sends only answers, the other receives exactly the answers to its requests, in the order of the requests.", "quantifier": "for every pair of collections (with either envelope), build, schedule, message contents and answering behaviour; handlers that neither throw nor append to their own receiver", "why_tests_cant": "All interleavings of two programs; unbounded conversations.", "anchors": ["tuple-transmission/Receiver.h: appendReceived, processMessages", "tuple-transmission/Send.h: send", "tuple-transmission/envelopes/Basic.h", "tuple-transmission/envelopes/BasicChecksum.h"]}
{"id": "C76", "title": "The work of processMessages is linear in the bytes received", "statement": "Let L be the length of the longest message. Counting every call that the message search, the removal of a message and the deserialization make on the receive buffer (copying n bytes or removing n bytes as n), one processMessages call does at most L+17 units of work for each byte it removes from the buffer, plus one such amount (two if a handler throws). Over a whole session the work is at most (L+17) x (bytes received + 2 x processMessages calls), whatever the bytes are and however they are cut. A processMessages call with nothing received since the last one makes at most ten calls on the buffer, however many bytes are waiting.", "quantifier": "for every collection (with either envelope), build, byte stream, chunking and history of API calls; handlers that call back only setHandler and appendReceived", "why_tests_cant": "The worst case over all byte streams; a test sees some streams, and running time instead of calls.", "anchors": ["tuple-transmission/Receiver.h: processMessages", "tuple-transmission/envelopes/Basic.h: checkBufferForMessage", "tuple-transmission/envelopes/BasicChecksum.h: checkBufferForMessage", "tuple-transmission/detail/bases/EnvelopeBase.h: popAndRetry", "tuple-transmission/detail/types/EnvelopeReceiveBuffer.h: popMessage"]}
{"id": "C77", "title": "Appending moves each byte a bounded number of times", "statement": "appendReceived and receiveFrom move the waiting bytes to the front of the receive buffer when there is no room behind them. One call moves no more bytes than are waiting, and right after processMessages has returned fewer than the longest message has. Over a whole session with handlers that neither append nor throw, the number of bytes moved is at most twice the bytes received plus half the bytes asked for (two and a half moves per byte if all arrive), whatever the pieces are and however often processMessages is called. With a handler that throws this fails (witness: thirty bytes moved for every five received).", "quantifier": "for every collection, build (within the arithmetic bound of C50), byte stream, chunking and history of API calls, including copies of the receiver; concrete witness for throwing handlers", "why_tests_cant": "An amortised bound over all histories; the position of the contents in the array cannot be observed from outside.", "anchors": ["util/ReceiveBuffer.h: ensure_space, slide_contents_forward, idealContentsCopy, push_back, bufferFromExternalFunctorRef", "tuple-transmission/Receiver.h: appendReceived, receiveFrom"]}
{"id": "C78", "title": "Any exact serialization policy gives the same guarantees as BitwiseCopy", "statement": "If an envelope uses another SerializationPolicy in place of BitwiseCopy, on both sides, and that policy uses exactly sizeof(T) bytes for a field of type T and its deserializer undoes its serializer, then messages sent through any byte-faithful transmitter and received in any legal way are delivered exactly once each, in order, with the values that were sent, and nothing is left in the buffer. A receiver with such a policy behaves in every state and under all calls (legal or not) as one with BitwiseCopy, apart from the decoding of the values. If the policy makes fewer bytes of a message than the sizes of its field types add up to, a receiver given the whole transmission keeps it all and delivers nothing.", "quantifier": "for every serialization policy (including stateful ones, and ones that output in pieces of any shape), collection, message values, transmitter that keeps the bytes, build, chunking and legal history; for the last sentence every policy and message with too few bytes", "why_tests_cant": "No policy other than BitwiseCopy exists in the repository, so no test uses one; the claim is about all of them.", "anchors": ["tuple-transmission/detail/bases/SerializerBase.h: SerializationPolicy, StatelessSerializer_tag, StatefulSerializer_tag, buffer, unbuffer", "tuple-transmission/detail/bases/EnvelopeBase.h: bufferTuple", "tuple-transmission/detail/operations/DeserializeToFusion.h", "tuple-transmission/envelopes/Basic.h: sendMessage", "tuple-transmission/envelopes/BasicChecksum.h: sendMessage", "tuple-transmission/Receiver.h: processMessages"]}
{"id": "C79", "title": "Partial handlers ignore overloads that need a conversion", "statement": "In a handler derived from PartialHandlerBase a message reaches the user's operator() declared with exactly the field types (by value or by reference to const). If there is none the message goes to the empty default, even when the user wrote an overload for that message that could be called with promoted or converted arguments, or with a non-const reference: it is consumed and counted and user code never learns of it. If there are two such overloads the class does not compile. In a handler derived from ParameterHandlerBase only, the overload that needs a conversion is called.", "quantifier": "for every set of overloads, all implicit conversions between the field types, every collection with at most nine fields per message, every stream and history", "why_tests_cant": "Overload resolution is silent: a test can only show that one signature works; the claim is about every set of signatures.", "anchors": ["tuple-transmission/PartialHandlerBase.h: operator() defaults", "tuple-transmission/ParameterHandlerBase.h: operator()", "tuple-transmission/detail/operations/DeserializeToFusion.h: InvokeWrapper"]}
{"id": "C80", "title": "Integer arguments of send arrive modulo the size of the field", "statement": "If a program sends messages with the send overloads that take the fields as separate arguments, and the arguments are integers of any size, the handler on a machine of the same byte order is called for the same messages in the same order and sees for each argument the one integer that the field's type can represent and that differs from the argument by a multiple of 2^(8*sizeof(field)). It sees exactly the integers given to send iff each fits its field's type; nothing reports the others.", "quantifier": "for all integer arguments, signed and unsigned field types of every size, both byte orders, every collection, transmitter that keeps the bytes, chunking and legal history", "why_tests_cant": "A test uses a few values that fit; the claim quantifies over all integers and all field types.", "anchors": ["tuple-transmission/detail/operations/SendOverloads_Generated.h: send", "tuple-transmission/serializers/BitwiseCopySerialization.h: buffer, Unbuffer", "tuple-transmission/Receiver.h: processMessages"]}
{"id": "C81", "title": "With an assertion handler that throws, breaking the receiver's rules is recoverable", "statement": "Built with BOOST_ENABLE_ASSERT_HANDLER and an assertion_failed_msg that throws, a program may append more than fits and call processMessages inside a handler, from handlers that catch the exception or let it out, and go on afterwards: no memory is touched out of bounds and no call is undefined, the bytes waiting are always the last ones of those accepted, and every handler call is for a message that really arrived. appendReceived throws exactly if the bytes do not fit and then has changed nothing observable. A program that keeps the rules from some point on gets exactly the messages in the bytes then waiting and those fed since. Two rules stay unguarded: clearHandler inside a handler while another message waits, and ranges whose length wraps in the buffer's arithmetic, are undefined behaviour even so.", "quantifier": "for all collections, byte ranges (of lengths that can be told in the buffer's arithmetic), handlers, choices of what is caught, and histories", "why_tests_cant": "Tests run with aborting assertions and well-behaved programs; the claim is about every sequence of violations and what remains of the receiver after each.", "anchors": ["util/BoostAssertMsg.h: BOOST_ASSERT_MSG", "util/ReceiveBuffer.h: ensure_space, push_back", "tuple-transmission/detail/types/EnvelopeReceiveBuffer.h: popMessage", "tuple-transmission/Receiver.h: appendReceived, processMessages"]}
{"id": "C82", "title": "Noise is taken for a message with a probability of at most about n*messages/256^overhead", "statement": "Of the 256^n strings of n bytes, at most (n-overhead+1) * number of message types * 256^(n-overhead) can make a receiver call its handler, where overhead is 5 for Basic and 6 for BasicChecksum; all others deliver nothing, however they are fed and polled. The estimate is exact at the smallest length: of the strings as long as a given message, exactly one in 256^overhead is taken for that message.", "quantifier": "for all n, all byte strings of length n, every collection, both envelopes, every legal history", "why_tests_cant": "A count over 256^n inputs; tests feed a few noise strings.", "anchors": ["tuple-transmission/envelopes/Basic.h: checkBufferForMessage", "tuple-transmission/envelopes/BasicChecksum.h: checkBufferForMessage", "tuple-transmission/Receiver.h: processMessages"]}
{"id": "C83", "title": "The handler object must be alive exactly when a message is delivered to it", "statement": "A program may destroy handler objects at any time, also in handlers. If the calls on the receiver are otherwise legal, the behaviour is undefined exactly if some handler call is made on an object destroyed before; otherwise everything is as if nothing had been destroyed. So a handler may be destroyed once it has been replaced or cleared, and even while the receiver still points to it as long as no complete message waits when processMessages is called; with a message waiting, processMessages is then undefined. No other member function uses the object.", "quantifier": "for all histories, handlers (also nested, throwing, replacing the handler), objects and moments of destruction", "why_tests_cant": "Use after destruction is undefined behaviour; a test run that seems to work shows nothing.", "anchors": ["tuple-transmission/Receiver.h: Receiver, setHandler, clearHandler, processMessages, deserializeAndInvoke"]}
{"id": "C84", "title": "Envelopes written by users: three conditions give safety, delivery and independence of chunking", "statement": "Take any envelope whose checkBufferForMessage is a terminating program over the members of the receive buffer and whose effect depends on the buffered bytes only: it skips n bytes and reports the id of a message found there, or nothing. (1) If it never skips or reads more than is buffered, reports only messages that are there as a whole, and data_offset <= overhead_size, overhead_size > 0, then no legal history is undefined or endless, and each processMessages call delivers exactly what repeated scans of the buffered bytes give, with the right count and last id; builds with assertions also need that a reported message is reported again when looked at again, because the assertion in popMessage repeats the check. (2) If in addition decisions are not revised when more bytes arrive, then what has been delivered after a poll depends only on the bytes received, and messages that the sender encodes so that the scan finds them all arrive in order and nothing else does. (3) Both shipped envelopes meet all conditions. (4) Without the second look, builds with assertions abort; with revised decisions, delivery depends on how the bytes were cut (witnesses).", "quantifier": "for all envelope programs, message collections, byte streams, histories of appends, polls and handler changes, builds", "why_tests_cant": "Quantifies over all envelopes a user could write, and over all ways of cutting a stream; the library's tests know two envelopes.", "anchors": ["tuple-transmission/detail/bases/EnvelopeBase.h: EnvelopeBase, checkBufferForMessage, popAndRetry", "tuple-transmission/detail/types/EnvelopeReceiveBuffer.h: checkBufferForMessage, popMessage, setCurrentMessageId, getMessageLength, buffer, bufferPopFront", "tuple-transmission/Receiver.h: processMessages", "tuple-transmission/envelopes/Basic.h: checkBufferForMessage", "tuple-transmission/envelopes/BasicChecksum.h: checkBufferForMessage"]}
{"id": "C85", "title": "Iterators into a ReceiveBuffer: which calls move the elements", "statement": "The elements of a ReceiveBuffer stand side by side, element i at begin()+i, after any calls. Removing elements at the front or at the end never moves the others. Pushing moves elements exactly when the pushed elements do not fit behind the last one in the array; then all of them move, and an iterator from before never designates the same element again. So from an empty buffer on, as long as no more than CAPACITY elements are pushed altogether and the buffer does not become empty, iterators to elements that are still there stay valid, whatever is removed in between. at() on platforms without exceptions gives element i, has no check but the assertion of operator[], and takes its index modulo the range of size_type.", "quantifier": "for every capacity (within the arithmetic bound of C50), sequence of calls in contract and build", "why_tests_cant": "Depends on the invisible internal position after an arbitrary history; the header only says 'may invalidate iterators'.", "anchors": ["util/ReceiveBuffer.h: begin, end, push_back, pop_front, pop_back, erase, ensure_space, slide_contents_forward, operator[]", "util/VectorSimulator.h: at (UTIL_HEADERS_VECTORSIMULATOR_NO_EXCEPTIONS)"]}
{"id": "C86", "title": "Which calls of send compile and what they send, for every arity the headers are generated for", "statement": "send<Collection, Message>(tx, tuple) and send<Bound>(tx, tuple) send the tuple if it has exactly the message's field types. Passing the fields separately compiles exactly if there are as many arguments as fields, each converts to the type of its field, the header was generated for at least that many, FUSION_MAX_LIST_SIZE is at least that many, and, with a single field, the argument has exactly the type of the field; then the call does what sending the tuple of the converted arguments does. No other call compiles, whatever mpl::equal answers for different numbers. Naming collection and message or the bound message makes no difference. The generated ArityConfig.h sets FUSION_MAX_LIST_SIZE to the arity for sending and BOOST_FUSION_INVOKE_PROCEDURE_MAX_ARITY to one more than the arity for receiving, unless the program has defined them before, and changes no other macro.", "quantifier": "for every maximal arity the scripts are run with, every set of macros defined before, collection, message, transmitter, list of arguments and behaviour of mpl::equal on different numbers", "why_tests_cant": "The headers come from scripts that can be run with any limits; tests compile one generated version, and a test cannot contain calls that must not compile.", "anchors": ["generation/SendOverloads.gen.lua: generate, generateHelper", "generation/ArityConfig.gen.lua: generate", "generation/variadicGenerate.lua: out, indent, genRange, commaJoin", "tuple-transmission/detail/operations/SendOverloads_Generated.h: send", "tuple-transmission/detail/constants/ArityConfig.h", "tuple-transmission/Send.h: send"]}
{"id": "C87", "title": "The generated defaults of PartialHandlerBase and the generated limits fit together", "statement": "For every maximal arity the scripts are run with, PartialHandlerBase has exactly one default that can be called with a message's tag and n separate fields if n is at most that arity, and none if n is larger; no default takes a single Fusion sequence (which has to reach ParameterHandlerBase to be split up) and none can be called with a first argument that is not a message. All of them do nothing. With the limits that the generated ArityConfig.h defines, there is a default for exactly those messages whose fields fusion::invoke_procedure can pass together with the tag, and send takes exactly as many separate fields as a Fusion list can have elements.", "quantifier": "for every maximal arity for receiving and for sending, every number and kind of arguments", "why_tests_cant": "The headers come from scripts that can be run with any limits; tests compile one generated version with messages of a few arities.", "anchors": ["generation/PartialHandlerBase.gen.lua: generate", "generation/ArityConfig.gen.lua: generate", "tuple-transmission/PartialHandlerBase.h: operator()", "tuple-transmission/ParameterHandlerBase.h: operator()", "tuple-transmission/detail/constants/ArityConfig.h"]}
{"id": "C88", "title": "Refilling, copying and assigning a receiver from inside its own handler", "statement": "A handler may call receiveFrom on the receiver that is calling it and may copy that receiver: processMessages ends as if the bytes the adapter delivered had been appended with appendReceived and no copy had been made. But a copy made during a handler call still contains the message being handled, so processing the copy delivers that message again before everything else. A handler must not assign to its own receiver and return: after assigning a newly constructed receiver, processMessages fails an assertion in debug builds and is undefined in release builds (it is safe only if the handler then throws); after assigning a receiver that holds messages, a debug build removes the first of them without delivering it.", "quantifier": "for every collection, every legal history before, every handler code that refills (with adapters that keep their contract), copies, appends and sets handlers in any order and number in each call, every fuel; for assignment: every such code before the assignment", "why_tests_cant": "Tests never touch the receiver from inside a handler; what a handler may do depends on its position between the two searches of processMessages, for every buffer content.", "anchors": ["tuple-transmission/Receiver.h: processMessages", "tuple-transmission/Receiver.h: receiveFrom", "tuple-transmission/detail/types/EnvelopeReceiveBuffer.h: popMessage", "tuple-transmission/detail/types/EnvelopeReceiveBuffer.h: getMessageLength", "util/ReceiveBuffer.h: operator=", "util/ReceiveBuffer.h: ReceiveBuffer (copy constructor)"]}
{"id": "C89", "title": "Including the library's headers in any order", "statement": "Whatever headers of the library a program includes, in whatever order, exactly those and the ones they need are read, each once and after the ones it needs, and every macro the library uses is defined where it is used. As long as no Boost.Fusion header is included before a library header that brings ArityConfig.h with it, Boost.Fusion is set up with the library's limits (lists of 9, procedures with 10 parameters) or with those the program defined itself, and the send overloads are cut off at the limit of lists. If a Boost.Fusion header that fixes a limit comes first, Boost's default for it stays, whatever is included later.", "quantifier": "for every list of #include lines of library and Boost.Fusion headers, every macros defined beforehand, every behaviour of Boost.Fusion headers towards the two limits", "why_tests_cant": "There are infinitely many sequences of includes and each needs its own translation unit; the tests include headers in a dozen fixed orders.", "anchors": ["tuple-transmission/detail/constants/ArityConfig.h: FUSION_MAX_LIST_SIZE", "tuple-transmission/detail/constants/ArityConfig.h: BOOST_FUSION_INVOKE_PROCEDURE_MAX_ARITY", "tuple-transmission/ParameterHandlerBase.h: #include lines", "tuple-transmission/detail/operations/SendOverloads_Generated.h: #if FUSION_MAX_LIST_SIZE", "tuple-transmission/envelopes/BasicChecksum.h: BOOST_TEST_MESSAGE", "tuple-transmission/Receiver.h: #include lines"]}
{"id": "C90", "title": "Whole transmissions through every transmitter of the library", "statement": "Messages sent through VectorBuffer, VrpnSerial or ArduinoSerial (on a port that takes what it is given), ArduinoI2C (messages of at most 255 bytes each, any number of them, one transaction for each) or a BoostArrayBuffer with room for them: all send calls succeed, and a receiver given the bytes that were added calls its handler for exactly these messages, in order, with the contents sent, and keeps nothing. In an array buffer without enough room for all of them the calls are undefined behaviour. A TransmitterComposition of two transmitters that keep all bytes keeps them all in both parts, so receivers behind both components get all the messages, and compositions can be nested. A transmitter of the user that only defines writeByte, and takes each byte, works as well: the fallbacks of TransmitterBase do the rest.", "quantifier": "for every collection, list of messages, state of the transmitter, chunking, polling pattern, build and handler that does not throw; compositions of any two transmitters that keep the bytes", "why_tests_cant": "Needs all message lists, buffer sizes and fill levels, all states of the transmitter and all ways to cut the bytes; a test shows one transmission through one transmitter.", "anchors": ["tuple-transmission/transmitters/VectorBuffer.h: VectorBuffer", "tuple-transmission/transmitters/BoostArrayBuffer.h: BoostArrayBuffer", "tuple-transmission/transmitters/ArduinoI2C.h: ArduinoI2C", "tuple-transmission/transmitters/VrpnSerial.h: VrpnSerial", "tuple-transmission/transmitters/TransmitterComposition.h: TransmitterComposition", "tuple-transmission/Receiver.h: Receiver", "tuple-transmission/detail/bases/TransmitterBase.h: TransmitterBase"]}
{"id": "C91", "title": "A gateway between two protocols passes on exactly the messages of the types they share", "statement": "Handlers of a receiver for one collection pass on what they get with `send` for another collection, with another envelope, other ids and other types. Such a forwarding call compiles exactly for the types that are in the other collection. Whatever bytes the first receiver was given, the forwarding calls succeed, and a receiver of the other collection given their bytes calls its handler for exactly the calls of the shared types, in order, with the same contents. From end to end, everything sent with the first collection of a shared type arrives at the second receiver.", "quantifier": "for all pairs of collections and envelopes, all byte streams and histories of operations at the gateway, all benign handlers, all transmitters that take what they are given", "why_tests_cant": "The pairs of collections and the streams are unbounded, and the property is about the composition of four parts (receiver, handler, sender, second receiver) each with their own id tables", "anchors": ["tuple-transmission/Send.h: send", "tuple-transmission/BoundMessageType.h", "tuple-transmission/MessageCollection.h: message_types", "tuple-transmission/Receiver.h: Receiver::processMessages"]}
{"id": "C92", "title": "Senders may share a line message by message, not write by write", "statement": "When the bytes of any number of senders get onto one line message by message, in whatever order, the receiver calls its handler for all messages of all of them and nothing else, each sender's messages in the order sent. At any moment before, it has called it for the first few messages of each sender, in the order sent, and nothing else. This is so for any number of ArduinoI2C transmitters on one bus, which make one transaction for each message. It is not so for two senders that write to one serial port, whose transmitters make several writes for a message: alternating writes can lose the messages of both, or make a message that nobody sent.", "quantifier": "for all collections, all numbers of senders, all lists of messages of each, all interleavings, all histories of the receiver; two concrete interleavings for the negative part", "why_tests_cant": "The number of interleavings grows exponentially with the number of messages", "anchors": ["tuple-transmission/transmitters/ArduinoI2C.h: ArduinoI2C::writeFinished", "tuple-transmission/transmitters/VrpnSerial.h: VrpnSerial::writeByte", "tuple-transmission/Receiver.h: Receiver::processMessages"]}
{"id": "C93", "title": "Bytes that arrive in interrupts while messages are processed", "statement": "Bytes may be appended to a receiver by an interrupt routine while processMessages runs, at any places between the calls it makes on its receive buffer, without bytes being lost or misread, provided that they arrive one at a time or that there is no noise on the line: handler calls are then those for the messages in the stream, whatever the interrupts. Otherwise, and for interrupts at finer places, this fails: with noise and interrupts that bring several bytes a release build may deliver a message that is not in the stream; an interrupt between getDataIterator() and the reading of the fields may make a handler see the contents of another message; an interrupt inside size(), operator[] or the increment of pop_front gives results that are off by the number of elements popped, exactly if the interrupt moved the contents of the buffer.", "quantifier": "All collections and both envelopes, debug and release builds, all streams, all numbers of processMessages calls, all sequences of interrupts (places and sizes); for the finer places all buffer states and all appended bytes.", "why_tests_cant": "An interrupt can come at every place of every call; the failing cases need a particular place together with a particular position of the contents in the buffer, which a test on a PC never produces.", "anchors": ["tuple-transmission/Receiver.h: Receiver::processMessages, appendReceived", "tuple-transmission/detail/types/EnvelopeReceiveBuffer.h: popMessage, getDataIterator", "tuple-transmission/detail/bases/EnvelopeBase.h: popAndRetry", "tuple-transmission/envelopes/Basic.h: checkBufferForMessage", "tuple-transmission/envelopes/BasicChecksum.h: checkBufferForMessage", "util/ReceiveBuffer.h: size, operator[], pop_front, increment_begin, ensure_space"]}
{"id": "C94", "title": "The harm done by disturbances of the line is local", "statement": "On a line that is disturbed any number of times, every message is delivered, in order, except those that begin less than the length of the longest message minus one behind a disturbance: at most (longest - 2) / overhead + 1 messages per disturbance are lost, provided the messages between disturbances contain no beginnings of messages (start code, id of a message, 02) inside and are together at least as long as the longest message minus one. Messages nobody sent can only be made of the bytes of the disturbance and of the messages lost with it. A message arrives whenever that stretch of line before it was undisturbed, whatever came in earlier and whatever comes later. One disturbance can cost more than one message.", "quantifier": "for every collection, number, place, content and length of disturbances, messages between them, bytes afterwards, chunking, polling pattern, build, and handler that does not throw", "why_tests_cant": "The number, places and contents of disturbances are unbounded, and harm could accumulate from one to the next; a test tries one disturbance.", "anchors": ["tuple-transmission/envelopes/Basic.h: Basic::checkBufferForMessage", "tuple-transmission/envelopes/BasicChecksum.h: BasicChecksum::checkBufferForMessage", "tuple-transmission/detail/bases/EnvelopeBase.h: popAndRetry", "tuple-transmission/Receiver.h: Receiver::processMessages"]}
{"id": "C95", "title": "Every message is handled to the end exactly once, however often handlers throw", "statement": "Call a handler call completed if it returned. In every history, with handlers that throw whenever they like, the completed calls are for messages in the bytes received, each once and in order. Once a processMessages call has returned, they are for exactly the messages in these bytes, so they are the same as if nothing had been thrown, whatever the chunking and polling. All other calls are attempts: before the completed call for a message come only calls for the same message that threw, and there are as many of them as the program has seen exceptions. A handler that throws whenever it is called for a certain message keeps everything behind that message from ever being handled.", "quantifier": "for every collection, byte stream, chunking, polling pattern, handlers (that append within the free space, set handlers, throw at any calls), build", "why_tests_cant": "The pattern of throws, retries and arrivals is unbounded; tests fix a few.", "anchors": ["tuple-transmission/Receiver.h: processMessages, appendReceived, setHandler", "tuple-transmission/detail/types/EnvelopeReceiveBuffer.h: popMessage"]}
{"id": "C96", "title": "Handlers may use other receivers", "statement": "In a program with several receivers, code in a handler call may do anything to the other receivers: give them bytes or handlers, and call their processMessages, to any depth, with exceptions thrown out of handlers and caught anywhere on the way. As long as no receiver's processMessages is called while it is in progress (also indirectly, through handlers of other receivers) and its handler is not cleared meanwhile, nothing is undefined, no assertion fails, and each receiver behaves as if it were alone: its handler calls that return are those for the messages in the bytes it was given, each once and in order, a call that threw is repeated, and processMessages returns the number of its own handler calls that returned, modulo 256. If two receivers' handlers call each other's processMessages in a cycle, a message is removed twice: an assertion fails, or behaviour is undefined.", "quantifier": "All families of collections with either envelope (one for each receiver, any number of receivers), debug and release builds, all sequences of moves of user code (append, receiveFrom, setHandler, clearHandler, processMessages on any receiver, return from the handler call in progress, exception) that keep the rules, without any restriction on what decides the next move; for the failing case a concrete program.", "why_tests_cant": "The interleavings of nested calls over several receivers are unbounded in depth and length, and exceptions can cut any of them; tests have one receiver.", "anchors": ["tuple-transmission/Receiver.h: Receiver::processMessages, appendReceived, receiveFrom, setHandler, clearHandler", "tuple-transmission/detail/types/EnvelopeReceiveBuffer.h: popMessage, checkBufferForMessage", "tuple-transmission/detail/operations/DeserializeToFusion.h: DeserializeFunctorWrapper"]}
{"id": "C97", "title": "Every assertion can be switched on or off by itself", "statement": "Which of the library's assertions are compiled in, and whether a failed one stops the program or calls a user function that returns, makes no difference to a program that keeps to the contract: it reaches the same state with the same observations for every choice, made separately for every assertion. In particular this holds for every combination of NDEBUG, BOOST_DISABLE_ASSERTS and BOOST_ENABLE_ASSERT_HANDLER with BOOST_ASSERT_MSG as defined in util/BoostAssertMsg.h, and with BOOST_ASSERT of Boost in any state, on or off. The same holds for the receive buffer used by itself. If every assertion stops the program, this is the debug build, and if none does and the one in popMessage is not evaluated, this is the release build, also for programs that break the contract. For such programs the choice matters: with a handler that calls processMessages itself, the behaviour is undefined with all assertions off, the program stops if only the assertion in getMessageLength is on, and goes on with a message dropped if only that in popMessage is evaluated.", "quantifier": "All collections with either envelope, all widths of int for which C50 holds, all modes (off, stops, goes on) for each of the fifteen assertions, all legal histories with any handlers that append in the free space, set handlers or throw; for the buffer all capacities and all sequences of calls in contract; for the two uniform choices all programs; concrete programs for the cases that differ.", "why_tests_cant": "There are 3^15 combinations; a test is compiled with one. Assertions have side effects in one place, so that switching them is not obviously harmless.", "anchors": ["util/BoostAssertMsg.h: BOOST_ASSERT_MSG", "util/ReceiveBuffer.h: ReceiveBuffer", "tuple-transmission/detail/types/EnvelopeReceiveBuffer.h: popMessage, getMessageLength", "tuple-transmission/detail/bases/EnvelopeBase.h: popAndRetry", "tuple-transmission/Receiver.h: Receiver::processMessages"]}
{"id": "C98", "title": "Bursts of up to eight wrong bits are detected, most pairs of wrong bits too", "statement": "With BasicChecksum, if any of at most eight consecutive bits of an encoded message are wrong when it arrives, counting bits in the order of the line (least significant first as on serial ports, or most significant first as on I2C), no message of the original length starts there. If the id is not among the wrong bytes, no message at all starts there: the receiver gives up on it, and if what arrived has no further start code, exactly the messages after it are delivered. Two wrong bits in different bytes of the payload go unnoticed if and only if they have the same place in their bytes and either this is the most significant place or one was set and the other not. Nine consecutive bits can go unnoticed in either order, and so can three single bits.", "quantifier": "All collections with BasicChecksum, all messages, all bursts of at most eight bits anywhere in the message in either bit order, all pairs of bits of the payload, all legal histories that feed the bytes in any chunks and end with a poll, any handlers that do not throw; concrete messages for what is not detected.", "why_tests_cant": "The number of bursts and pairs grows with the message length and contents; whether an arithmetic checksum sees a burst across two bytes depends on carries, so that samples say nothing about the rest.", "anchors": ["tuple-transmission/transmitters/ChecksumComputer.h: ChecksumComputer", "tuple-transmission/envelopes/BasicChecksum.h: BasicChecksum::checkBufferForMessage, sendMessage", "tuple-transmission/Receiver.h: Receiver::processMessages"]}
{"id": "C99", "title": "Envelopes written by users work with handlers that throw and call the receiver", "statement": "Take any envelope that looks for messages without looking ahead, reports only whole messages, finds the same message again when it looks twice, and does not revise decisions when more bytes arrive. Then a receiver with this envelope can be used with handlers that throw, append bytes, receive from adapters and replace the handler: nothing is undefined and no assertion fails. At any time the handler calls that returned are those for the first messages of the stream, each once and in order, and all other calls are attempts that threw or the one in progress, at the message in front. When processMessages returns, they are those for exactly the messages of the bytes received. It returns how many of its handler calls returned, modulo 256. An envelope that finds nothing when it looks again loses a message when a handler throws, even in a release build, where it works otherwise.", "quantifier": "All envelope programs with these four guarantees, all collections, builds with the arithmetic condition, and sequences of moves of the main program and the handlers that keep the rules (appended bytes fit, adapters keep their contract, no nested processMessages, no clearing of the handler during a call); a concrete envelope for the last claim.", "why_tests_cant": "Envelopes are an extension point: the envelopes, collections and handlers are chosen by users, and exceptions may come out of any handler call.", "anchors": ["tuple-transmission/Receiver.h: Receiver::processMessages, appendReceived, receiveFrom, setHandler", "tuple-transmission/detail/types/EnvelopeReceiveBuffer.h: EnvelopeReceiveBuffer::checkBufferForMessage, popMessage", "tuple-transmission/envelopes/Basic.h: Basic (as a pattern for other envelopes)"]}
{"id": "C100", "title": "A ReceiveBuffer of any element type stays valid when copies of elements throw", "statement": "For every element type and every capacity, a program that makes calls on a util::ReceiveBuffer (clear, push_back, push_back of a range, pop_back, pop_front, erase, ensure_space), each within the rules for the elements then held, never gets to undefined behaviour or a failed assertion, whichever copies of elements throw. Every call that returns has the effect and the result of the same operation on a list; without exceptions the whole program behaves as on a list. After a call that threw the buffer is valid: pop_front and pop_back left it unchanged; erase left the number of elements and, when it removes from an end, all of them; ensure_space and push_back of a range left the number of elements and all of them unless they had to be moved to the front of the array, when some at the front may be overwritten by later ones; push_back of one element may in addition leave one more element, of an unspecified old value. After ensure_space(n) has returned, appending a range of at most n elements either succeeds or changes nothing. Assignment copies all elements or throws and leaves a valid target. Elements removed from an end or by clear stay in the array, undestroyed. With bytes all of this agrees with the buffer of the other properties, in every state.", "quantifier": "for all element types, capacities, sequences of calls within the rules, and numbers of copies after which one throws in each call", "why_tests_cant": "A test picks an element type and a few places in which a copy throws; the states that a throwing copy leaves behind depend on the position of the elements in the array, which later calls rely on.", "anchors": ["util/ReceiveBuffer.h: ReceiveBuffer::push_back, pop_back, pop_front, erase, ensure_space, clear, operator=, idealContentsCopy, slide_contents_forward", "util/VectorSimulator.h: front, back"]}
{"id": "C101", "title": "Exactly which pairs of collections understand each other", "statement": "Let a sender use one collection and a receiver another one. The contents of every sequence of messages sent arrive, one handler call for each message in order, in every legal use of the receiver, if and only if the envelopes are the same and for every type of the sender the receiver has, at the id with which it is sent, a type of the same total size. Every field arrives with its own bytes if and only if moreover the types at equal ids have fields of the same sizes in the same order. The calls are for the types that were sent if and only if every type has the same id on both sides; if the sender's types are distinct, that means that the receiver's list begins with the sender's list. Names of types and of fields do not matter for the first two, and a type may be listed twice: the id of its first entry is used and everything arrives.", "quantifier": "for all pairs of non-empty collections (the sender's with at most 255 types), sequences of send calls, handlers, and legal histories of the receiver", "why_tests_cant": "Compatibility of two protocol versions is a statement about all messages of one and all states of a receiver of the other; a test sends some messages between two fixed versions.", "anchors": ["tuple-transmission/BoundMessageType.h: message_id", "util/MPLFindIndex.h: find_index", "tuple-transmission/detail/operations/MessageLength.h", "tuple-transmission/detail/types/EnvelopeReceiveBuffer.h: checkBufferForMessage", "tuple-transmission/Send.h: send"]}
{"id": "C102", "title": "Idle bytes synchronise a receiver", "statement": "Whatever a receiver was given before, bytes that are neither a start code nor STX empty its buffer when it is polled, if and only if they are at least as many as the bytes of the longest message minus three; any bytes without a start code do if they are at least as many as the longest message minus one. Everything that is given to it afterwards is then received as by a new receiver: all messages behind the filler are delivered, nothing else behind it is, and what may be left in the buffer is the same. Bytes that end in a start code never empty the buffer.", "quantifier": "all collections, all bytes before the filler, all fillers, all ways of handing the bytes over, all handlers that do not throw, all bytes and all messages behind the filler", "why_tests_cant": "Whether a filler is long enough depends on every possible content of the buffer, that is on all bytes that can have come in before; a test tries a few and may leave out the ones that need the most filler.", "anchors": ["tuple-transmission/detail/types/EnvelopeReceiveBuffer.h: checkBufferForMessage", "tuple-transmission/envelopes/Basic.h: checkBufferForMessage", "tuple-transmission/envelopes/BasicChecksum.h: checkBufferForMessage", "tuple-transmission/Receiver.h: processMessages"]}
{"id": "C103", "title": "A handler may destroy its receiver only if it throws", "statement": "If every handler returns, a program is free of undefined behaviour exactly if no handler that is called destroys the receiver that called it, whatever the message, the envelope and the nesting; clearing the handler does not help. If handlers that have destroyed the receiver leave by an exception, the program is defined, and every call has the result it has otherwise, provided that no member of the receiver is called afterwards. In every defined program in which the receiver goes this way, it goes in the last call on it, and that call is left by an exception.", "quantifier": "all collections, builds, user code and histories of calls that are otherwise free of faults, all choices of handler calls that destroy the receiver", "why_tests_cant": "That the use of a destroyed object is undefined cannot be seen from outside: a test that deletes the receiver in a handler usually passes, because the memory still holds the old values.", "anchors": ["tuple-transmission/Receiver.h: processMessages", "tuple-transmission/Receiver.h: deserializeAndInvoke", "tuple-transmission/detail/types/EnvelopeReceiveBuffer.h: popMessage"]}
{"id": "C104", "title": "The receive buffer can be used without a receiver, but a forgotten check only shows in release builds", "statement": "A program may use an EnvelopeReceiveBuffer itself and ask for messages. Allowed are: putting in bytes (range, single byte, device functor) that fit the free space; checkBufferForMessage at any time; getCurrentMessageId, getMessageLength, deserializing at getDataIterator and popMessage while the last check said true and nothing was popped since; size queries; going on with a copy of the object. Then every call is defined, in every build, and returns exactly what the specification says: a check says true if and only if a scan of the buffered bytes comes to a message, which is then in front, and the id, length and contents are those of this message, also after more bytes were put in. The popped messages are those of a scan of all bytes put in; when a check says false they are the complete decoding, the same messages a Receiver delivers for these bytes. A popMessage without a check since the last popMessage is undefined in builds without assertions, whatever is buffered; with assertions the assertion itself makes the check, so that the call works if there is a message and aborts if there is none. A popMessage after a check that found only part of a message returns normally in builds without assertions, and the buffer then claims to hold 2^bits minus the number of missing bytes.", "quantifier": "all collections, all sequences of allowed calls of any length with any bytes and any device functors, all builds; for the misuse: all histories followed by the wrong call", "why_tests_cant": "Sequences of calls are unbounded and bytes arbitrary; tests run with assertions, which hide the forgotten check because the assertion's argument performs it.", "anchors": ["tuple-transmission/detail/types/EnvelopeReceiveBuffer.h: bufferAppend, bufferFromFunctorRef, checkBufferForMessage, popMessage, getDataIterator, getCurrentMessageId, getMessageLength, bufferAvailableSpace", "tuple-transmission/envelopes/Basic.h: checkBufferForMessage", "tuple-transmission/envelopes/BasicChecksum.h: checkBufferForMessage", "util/ReceiveBuffer.h: pop_front"]}
{"id": "C105", "title": "Envelopes written by users: what they send arrives, but an envelope that does not write into the receive buffer cannot hide or protect the contents", "statement": "An envelope written by a user has a sending side too: sendMessage gets the id, the contents and a buffer object to which it may write bytes, blocks and the contents, in any order, any number of times, directly or through a wrapper of its own that watches what is written. What it puts into a VectorBuffer for some message is what it puts, after whatever is already there, into every transmitter that takes what it is given. If for each message sent the search of the receiving side finds these bytes as that message (id, length, contents at the data offset), then all messages sent through such a transmitter arrive at a receiver with this envelope, in order, with the values sent, and nothing else arrives, however the bytes are split. The shipped envelopes are of this kind. But whatever the sender does, and whatever envelope the receiver has, as long as its check only discards bytes at the front and does not write into the buffer (the condition of C84), the contents of the messages a receiver delivers stand unchanged in the bytes received, in order and without overlap, and at least the overhead is used up for each. So no such envelope can escape, compress or encrypt contents, or keep a byte value out of the line. Hence whenever the contents of one message type have room for the bytes of some other message, there are contents for it such that a receiver that joins in the middle calls its handler for the other message, which nobody sent, whatever follows.", "quantifier": "all envelopes written by users that meet the conditions of C84 and all sending sides made of writes, blocks, contents and a wrapper; all transmitters that take what they are given, all message lists, all ways to split the bytes, all histories of the receiver, all builds; for the last part all message types with room for the other message's bytes", "why_tests_cant": "It is a statement about all envelopes a user could write; a test can try one envelope with some messages, and cannot show that no cleverer envelope exists.", "anchors": ["tuple-transmission/Send.h: send", "tuple-transmission/detail/bases/EnvelopeBase.h: EnvelopeBase, bufferTuple, sendMessage", "tuple-transmission/detail/types/EnvelopeReceiveBuffer.h: getDataIterator, getMessageLength, popMessage, buffer", "tuple-transmission/detail/bases/TransmitterBase.h: output, outputFinished", "tuple-transmission/transmitters/TransmitterComposition.h: TransmitterComposition", "tuple-transmission/transmitters/VectorBuffer.h: VectorBuffer"]}
{"id": "C106", "title": "Envelopes whose check decodes messages in place: when they work, that escaping is possible, and what goes wrong in debug builds", "statement": "buffer(i) gives an envelope's check a reference into the receive buffer, so that the check may change bytes, for instance to undo escaping, a mask or a cipher. Call what one check makes of the bytes in the buffer a look: the bytes it leaves, and the id it reports, if any. Suppose that the check does what the look says, that a message is reported only when it is whole, that bytes arriving later do not change what was decided, and that a second check straight after a report reports the same message with the same contents and length. Then nothing is undefined, no assertion fails, processMessages ends, and however the bytes are split, the handler is called for exactly the messages that repeated looks find in the stream, in order, with the decoded contents; what the corresponding sending side sends arrives. Envelopes that do not write into the buffer (C84) are of this kind. Every look that reports only whole messages can be programmed as such an envelope, by remembering in the current message id that the front is decoded. In particular an envelope with byte stuffing is possible: its flag byte never stands inside a message, so after any garbage, or when joining in the middle of a stream, exactly the messages that begin afterwards arrive (compare C105, which shows that this is impossible without writing). The condition about the second check is needed: an envelope that decodes in place and does not remember it works in release builds, but aborts in debug builds, since the assertion in popMessage calls the check again.", "quantifier": "all envelopes written by users whose check is made of reads, writes, discarding bytes and the operations on the current id, and that meet the conditions; all message types; all byte streams and ways to split them; all histories of the receiver with handlers that return; all builds; for byte stuffing all contents and all garbage", "why_tests_cant": "A test runs one envelope on some streams in one build; the failing envelopes pass all tests made in a release build, and the positive part is about all envelopes and all streams.", "anchors": ["tuple-transmission/detail/types/EnvelopeReceiveBuffer.h: buffer, bufferFront, checkBufferForMessage, popMessage, setCurrentMessageId, isCurrentMessageIdValid, getDataIterator", "tuple-transmission/detail/bases/EnvelopeBase.h: EnvelopeBase, checkBufferForMessage", "tuple-transmission/Receiver.h: processMessages", "util/ReceiveBuffer.h: operator[], pop_front"]}
{"id": "C107", "title": "Envelopes that decode in place, with handlers that throw, append and replace themselves: each message is handled successfully once, with the decoded contents, if the check leaves a reported message alone", "statement": "When a handler throws, the reported message stays in the buffer, decoded as the check left it, and the next processMessages calls the check again. Suppose an envelope meets the conditions of C106, with the stronger condition that a check, while a reported message stands in front, reports it again and changes nothing, also if bytes were appended since. Then, whatever the main program and the handlers do, throw, append bytes, or replace the handler, as long as the rules for appending and for not nesting processMessages are kept, nothing is undefined and no assertion fails. At any time the handler calls that returned are those for the first messages of the stream, each once and in order; all other calls are further attempts at one of these or at the next one, with the same contents each time. When processMessages returns, the calls that returned are those for exactly the messages of the bytes received; the number it returns is the number of its handler calls that returned, modulo 256. The envelopes of C99 are of this kind, and every look can be programmed this way. The stronger condition is needed: an envelope that removes a mask whenever it is called meets all conditions of C106, but after a throw the handler gets contents that nobody sent, in debug and release builds.", "quantifier": "all envelopes written by users that meet the conditions, all programs of main program and handlers made of appending, receiving, setting and clearing handlers, processing, returning and throwing, all streams, all builds", "why_tests_cant": "Which handler calls throw, when, and what is appended meanwhile has unboundedly many combinations, and the property is about all envelopes; an envelope that decodes twice after a throw passes every test whose handlers do not throw.", "anchors": ["tuple-transmission/detail/types/EnvelopeReceiveBuffer.h: buffer, bufferFront, checkBufferForMessage, popMessage, setCurrentMessageId, isCurrentMessageIdValid, getDataIterator", "tuple-transmission/detail/bases/EnvelopeBase.h: EnvelopeBase, checkBufferForMessage", "tuple-transmission/Receiver.h: processMessages", "util/ReceiveBuffer.h: operator[], pop_front", "tuple-transmission/Receiver.h: appendReceived, setHandler"]}
{"id": "C108", "title": "Field types that do not use all bit patterns (bool, enumerations, pointers): a receiver is defined on all input only without them", "statement": "The deserializer copies received bytes into an object of the field's type and returns it. For bool, enumerations, pointers and structures with such members, not every bit pattern is a value, and returning another one is undefined. Given which patterns of which types are values: a legal history is undefined exactly if one of the messages for which the handler is called has a field that is not a value, and otherwise everything is as if all patterns were values. With handlers that do not throw, this means that the messages that the stream decodes to are made of values. So whatever arrives and whatever handlers do, a receiver stays defined if and only if all patterns of all its field types are values. What is sent with send and arrives unchanged is made of values, and so is defined. With BasicChecksum, a message with one byte changed, other than its id, and no start code after the first byte, followed by correct messages, does no harm. With Basic one flipped bit in a bool makes the receiver undefined, and with both envelopes a receiver that joins a perfect line in the middle of a message may become undefined, since contents may look like a message with an invalid bool.", "quantifier": "all collections, all ways in which the platform may assign values to bit patterns, all byte streams and histories of calls, all handlers that throw, append or replace themselves, both envelopes, all builds", "why_tests_cant": "Undefined behaviour may look right in every test; which byte streams contain an invalid pattern at the place of a field of a message that is delivered is a question about all streams.", "anchors": ["tuple-transmission/serializers/BitwiseCopySerialization.h: BitwiseCopyDeserializer, Unbuffer", "tuple-transmission/detail/operations/DeserializeToFusion.h: Deserialize", "tuple-transmission/Receiver.h: processMessages"]}
{"id": "C109", "title": "Transmitters that overwrite the array they are given: harmless alone and last, but a composition passes on what the first has left", "statement": "TransmitterBase::output passes a pointer to bytes that are not constant, so a transmitter may change them in place. Whatever a transmitter given to send does to the arrays, it gets exactly the same outputs as any other transmitter, with both envelopes: the checksum is that of the bytes before they were changed, and the values of the caller stay as they are. In a TransmitterComposition the first transmitter gets the outputs and the second one gets the arrays as the first has left them, and single bytes as they were; a composition leaves what its second transmitter leaves. So if the first leaves arrays as they are, both get the outputs, whatever the second does. All transmitters of the library, and compositions of them, leave arrays as they are. If the first inverts arrays in place, the second does not get the message: with BasicChecksum not even a message, with Basic one with other contents.", "quantifier": "all collections, messages and values, both envelopes, all transmitters that change arrays in any way depending on their state, all compositions, transmitters that fail included", "why_tests_cant": "Whether a serializer copies, and whether the checksum is taken before or after the transmitter sees the bytes, shows only with a transmitter that writes into the array; the transmitters that users write are not known to the tests.", "anchors": ["tuple-transmission/detail/bases/TransmitterBase.h: output, write", "tuple-transmission/transmitters/TransmitterComposition.h: write", "tuple-transmission/serializers/BitwiseCopySerialization.h: BitwiseCopySerializer::buffer", "tuple-transmission/envelopes/BasicChecksum.h: sendMessage"]}
{"id": "C110", "title": "Ranges of elements of any arithmetic type can be appended, and iterators may throw", "statement": "appendReceived(begin, end) accepts iterators to elements of any type that can be assigned to a byte. A program that appends such ranges, none longer than the free space, behaves as the program that appends the bytes for which the elements stand: for an integer of any type the byte equal to it modulo 256, for a floating point number its whole part. So bytes stored in char arrays, signed or not, or in int or double arrays arrive unchanged, and the result -1 of a read function that is not checked arrives as 0xFF. If an iterator throws while the range is read, the call has no effect at all: the program behaves as if it had not been made, whatever had been copied and moved before. If a floating point number comes up that is not a number or whose whole part is not the value of a byte, the call is undefined in every state.", "quantifier": "all collections, all programs of appended ranges and other calls within the rules, all elements and all places where an iterator throws, all handlers that throw, append or replace themselves, both envelopes, all builds", "why_tests_cant": "The tests append bytes only; that a partly copied range has no effect later must hold for all states of the buffer and all later calls.", "anchors": ["tuple-transmission/Receiver.h: appendReceived", "tuple-transmission/detail/types/EnvelopeReceiveBuffer.h: bufferAppend", "util/ReceiveBuffer.h: push_back"]}
{"id": "C111", "title": "A receiver started afresh for each packet confines every error to its packet", "statement": "A program that assigns a newly constructed Receiver(handler) to its receiver before each packet of bytes (datagram, or burst after a silence) gets exactly the messages each packet decodes to by itself, packet after packet, however the bytes of a packet are cut into pieces and however often the receiver is polled meanwhile. The assignment succeeds in every state the receiver can be in and leaves it with that handler, the whole capacity free, nothing buffered and no last message id. If what arrives differs in one packet only, the messages of all other packets are delivered all the same; in particular a packet of whole messages is delivered completely whatever came before. If packets are appended at once, none is longer than the capacity and handlers do not append, the program never fails; a handler that throws costs only the rest of its packet. Without the new receiver this is false: the beginning of a message in one packet holds back an intact message in the next.", "quantifier": "All collections, both envelopes, all histories before the first packet, all lists of packets and contents, all ways to hand them over, all handlers (for the datagram program: that do not append; they may throw).", "why_tests_cant": "The guarantee is about every prior state of the receiver and every kind of damage in the other packets; the state left behind by damage is what tests rarely produce.", "anchors": ["tuple-transmission/Receiver.h: Receiver(T&), implicit operator=, appendReceived, processMessages", "tuple-transmission/detail/types/EnvelopeReceiveBuffer.h: EnvelopeReceiveBuffer", "util/ReceiveBuffer.h: operator="]}
{"id": "C112", "title": "Regenerating the headers gives headers that depend on the scripts alone, and a failure leaves an empty header behind", "statement": "If generation/generateAll.sh ends well, every header named by a data file contains exactly what the generator prints for the last data file that names it, and no other file below tuple-transmission/ has changed; running it again changes nothing, and what was in the headers before does not matter. With the data files as they are it ends well for all arities, if the headers can be written; each header is its heading with the name of the script, the text for the arities and its ending. Building the target regenerate-headers gives the same headers, also if only those out of date are generated and the others are as generated. If the script fails, the headers before the failing data file are new, those after it are old, and the one at fault is empty if it was the generator that failed: for instance removing the setting ReceiveMaxArity leaves an empty ArityConfig.h and two old headers. A data file without outFile is not noticed; its header goes to a file called nil. A percent sign in a heading has to be doubled: any other than the first %s makes the generator fail.", "quantifier": "All data files (any Lua that returns a table or raises an error), all settings, all previous contents of the directory, any set of files that cannot be written; for the data files as they are, all arities.", "why_tests_cant": "The scripts are only run by hand; no test runs them, least of all with other arities, with errors in data files or interrupted halfway.", "anchors": ["generation/generateAll.sh", "generation/query.lua", "generation/variadicGenerate.lua: main", "generation/CMakeLists.txt: regenerate-headers", "generation/ArityConfig.gen.lua", "generation/PartialHandlerBase.gen.lua", "generation/SendOverloads.gen.lua"]}
{"id": "C113", "title": "Fields with padding bytes: values arrive, but the bytes sent are not determined by them", "statement": "A field may be a structure with padding, and every copy of such an object may have anything in its padding. Whatever the copies made by the overloads of send do, one correct message is sent, with the right checksum and always the same length, whose fields have the values given to send; and whatever the copies on the way to the handler do, messages sent over a faithful line are given to the handler with the values they were sent with. For handlers that do not look at padding every history is the same as without copies. The bytes sent are determined by the values if and only if no field of the message has padding: otherwise equal values can give messages with different bytes and different checksums, so that comparing them takes equal values for different ones, and a handler that looks at padding may throw or not.", "quantifier": "all collections, messages and values, both envelopes, all assignments of padding bytes to types, all ways in which copies may change padding (differently for each field and call), all transmitters, all histories and handlers", "why_tests_cant": "What a compiler leaves in padding depends on the compiler, its options and the surrounding code; a test sees one choice.", "anchors": ["tuple-transmission/detail/operations/SendOverloads_Generated.h: send", "tuple-transmission/serializers/BitwiseCopySerialization.h: BitwiseCopySerializer::buffer, BitwiseCopyDeserializer", "tuple-transmission/detail/operations/DeserializeToFusion.h: Deserialize::apply, InvokeWrapper", "tuple-transmission/envelopes/BasicChecksum.h: sendMessage"]}
{"id": "C114", "title": "The receiver is exactly a small abstract machine", "statement": "The abstract machine has as its state the bytes waiting, the handler, the last message id, the calls made and the bytes ever given to it. appendReceived and receiveFrom add bytes at the end if they fit; processMessages takes the leftmost message out of the bytes, again and again, calls the handler before each removal, does what the handler asks for, and stops when nothing can be taken out any more or the handler throws; setHandler, clearHandler and copying do what they say. Every legal history of calls on a Receiver is an execution of this machine with the same results, and afterwards the two look alike in everything that can be queried. Conversely every execution of the machine is one of the code, in every build. The machine has no choice: a list of calls has at most one execution. And for every list of calls, it either has one, or it gets to an append that does not fit or an adapter that misbehaves, or to a processMessages in which handlers append one message after the other for ever; these cases exclude each other, and in the last one the code does not end either.", "quantifier": "all collections with at most 255 message types, both envelopes, all lists of calls, all handlers that throw, append within the free space or replace themselves, all builds within the arithmetic bound", "why_tests_cant": "A test compares the results of some histories; that there is no history with another result, and none of the machine that the code misses, is a statement about all of them.", "anchors": ["tuple-transmission/Receiver.h: Receiver", "tuple-transmission/detail/types/EnvelopeReceiveBuffer.h: EnvelopeReceiveBuffer", "tuple-transmission/envelopes/Basic.h: checkBufferForMessage", "tuple-transmission/envelopes/BasicChecksum.h: checkBufferForMessage", "util/ReceiveBuffer.h: ReceiveBuffer"]}
{"id": "C115", "title": "Compositions refer to their components: sharing and destroying them", "statement": "A TransmitterComposition keeps references. Sending a message through any tree of compositions succeeds if and only if none of the objects that are reached (components, and compositions in between) has been destroyed and every component accepts its calls; otherwise, with components that accept everything, the behaviour is undefined. A component gets every output of the message once for each way that leads to it, in order, and never outputFinished, whatever happens in the other components; an object that is not reached keeps its state. A copy of a composition writes to the same components. A program that sends messages through any trees and destroys objects is defined if and only if it never sends through a destroyed object, and then every component has got its share of each message in order; if there is at most one way to it from each transmitter used, a receiver fed with its bytes delivers exactly the messages sent through transmitters that reach it. A component that is reached in two ways gets each byte or field twice in a row: the message is lost, and can even be taken for another message.", "quantifier": "All collections and both envelopes, all messages and contents, all trees of compositions over any transmitter classes and states, all sets of destroyed objects, all programs that send and destroy; end to end for all faithful transmitters and all legal histories of the receiver.", "why_tests_cant": "Sending through a destroyed component or composition is undefined and often seems to work. The number of ways objects can be shared is unbounded, and tests use one composition of two distinct objects.", "anchors": ["tuple-transmission/transmitters/TransmitterComposition.h: TransmitterComposition::TransmitterComposition, write, writeByte, _tx1, _tx2", "tuple-transmission/detail/bases/TransmitterBase.h: TransmitterBase::output, outputFinished, writeFinished", "tuple-transmission/Send.h: send"]}
{"id": "C116", "title": "A handler may switch message handling off while it works and call processMessages in that state", "statement": "Let every function object called for a message, and everything it calls, follow two rules: call processMessages only while no handler is set (after clearHandler), and leave a handler set when it returns (if it throws, the handler may stay cleared); and append no more bytes than there is space for. Then: (1) no sequence of calls leads to undefined behaviour or to a failing assertion; (2) if the handlers append nothing, every call of processMessages returns or throws; (3) as long as no call of processMessages throws, every state and every result is the same as if the handlers called neither clearHandler nor processMessages; with exceptions it is the same as if the program called clearHandler directly after some of the processMessages calls that threw; (4) if no handler throws, after processMessages with a handler set exactly the messages contained in the bytes received have been delivered. Both rules are needed: a handler that returns with the handler cleared leads to undefined behaviour when another message is buffered, and a handler that calls processMessages before clearHandler to a failing assertion.", "quantifier": "for all collections, envelopes, builds whose size type is large enough, user code following the rules (its behaviour may depend on all earlier calls and on the free space), and all sequences of calls", "why_tests_cant": "The rules allow arbitrary interleavings of setting, clearing, appending and nested calls in each of unboundedly many handler calls; tests exercise a few of them.", "anchors": ["tuple-transmission/Receiver.h: Receiver::processMessages, Receiver::setHandler, Receiver::clearHandler, Receiver::appendReceived", "tuple-transmission/detail/types/EnvelopeReceiveBuffer.h: popMessage"]}
{"id": "C117", "title": "VectorBuffer has memory in reserve for one message, and survives refused memory", "statement": "(1) A VectorBuffer that could be constructed takes one message of its collection, whichever it is, without requesting memory, so that this send cannot throw however little memory there is. (2) In general send requests memory exactly if what the vector holds and the message together do not fit in its memory; otherwise pointers and iterators to the elements remain valid. (3) If a request is refused, send throws; what was in the vector before is still there, followed by a proper beginning of the message; without refused requests send returns and the vector holds everything sent. (4) If the memory of a full vector at least doubles, k requests after the construction mean that more than 2^(k-1) times the longest message has been sent. (5) A copy of a VectorBuffer holds the same bytes but has nothing in reserve: every send to it requests memory, and throws without effect if that is refused, also where the original would have taken the message. (6) A program that keeps a copy can undo a send that threw by assigning the copy: this requests no memory and cannot throw.", "quantifier": "for all collections, messages and values, all contents of the vector, all rules of growth, and all patterns of granted and refused requests", "why_tests_cant": "Which request is refused depends on the whole program; tests run with memory that is never refused and do not see the reservation at all.", "anchors": ["tuple-transmission/transmitters/VectorBuffer.h: VectorBuffer::VectorBuffer, writeByte, write", "tuple-transmission/detail/operations/MaxMessageLength.h: MaxMessageLength", "tuple-transmission/Send.h: send"]}
{"id": "C118", "title": "A transmitter connected to a receiver in the same program loses nothing, whoever sends", "statement": "A transmitter whose functions append to a receiver in the same program (and optionally call `processMessages` when a message is finished) makes `send` equivalent to the calls on the receiver it amounts to, in every state and faults included. A message that fits in the free space is then in the buffer behind what was there; after `processMessages` there is room for two more, whatever they are, but not always for three. If messages are handled at once and the buffer is empty at first, any number can be sent and each has been handled, once and in order, when its `send` returns. In programs whose handlers send to the same receiver, too, everything sent has been handled after the last `processMessages`, exactly once, in the order of the `send` calls, and nothing faults. Handlers that have their messages handled at once must switch handling off meanwhile; otherwise an assertion fails.", "quantifier": "for every collection, envelope, build, history, free space, program of sends, handlers that send, and list of messages", "why_tests_cant": "The messages handlers send interleave with those of the program depending on states, contents and free space; there are infinitely many programs.", "anchors": ["tuple-transmission/detail/bases/TransmitterBase.h: TransmitterBase::output, outputFinished", "tuple-transmission/Send.h", "tuple-transmission/Receiver.h: appendReceived, processMessages", "util/ReceiveBuffer.h: ReceiveBuffer"]}
{"id": "C119", "title": "apply_at calls a copy of the functor with the type at the index reduced to a small type, and find_index is its inverse", "statement": "`util::apply_at` on any sequence of types, with an index of any integer type: the index is reduced to the smallest unsigned type that can hold the number of types, and a copy of the functor is called once with the type at that position, or not at all if there is none. So an index smaller than the number of types selects its type; a larger one that has a value of that type selects none; others wrap around (256 selects the first of three types). The functor of the caller is never changed, only what it refers to; an exception reaches the caller. The number of comparisons is the position plus one, at most the number of types. With another starting point types before it are not found. `util::find_index` compiles exactly for the types of the sequence, gives the first position, and `apply_at` at that index calls the functor with that type. The dispatch on message ids is this function.", "quantifier": "for every sequence of types, every integer as index, every functor with state, references and exceptions, and every starting point", "why_tests_cant": "Sequence, index type and functor are template parameters; the wrap-around shows only for certain combinations of lengths and index values.", "anchors": ["util/MPLApplyAt.h: apply_at, runtime_int_to_type_impl, apply_at_functor_impl", "util/MPLFindIndex.h: find_index", "tuple-transmission/detail/operations/DeserializeAndInvoke.h", "tuple-transmission/detail/operations/MessageLength.h"]}
{"id": "C120", "title": "Messages that travel through any number of programs", "statement": "Programs pass on the messages they receive, one to the next, each with a collection, envelope, build, transmitter and way of polling of its own; a handler passes on its message if the next collection has the type. At any moment, whatever has arrived and been processed where by then, each program on the route has handled, in order and with the contents sent, the first ones of those messages sent to the first program whose types all programs up to this one have: nothing is made up, reordered, repeated or skipped. When everything has arrived everywhere and been processed, each has handled all of these messages exactly once and keeps no bytes. No program gets stuck: what it has handled so far can be passed on to a program with any collection.", "quantifier": "for every number of programs, all collections (of up to 255 types), builds, transmitters that lose nothing, handlers that do not throw, polling patterns, messages sent, and every moment", "why_tests_cant": "The length of the route, the collections on it and the interleaving of sending, arriving and processing are unbounded.", "anchors": ["tuple-transmission/Send.h: send", "tuple-transmission/Receiver.h: processMessages, appendReceived", "tuple-transmission/MessageCollection.h", "tuple-transmission/detail/operations/DeserializeAndInvoke.h"]}
{"id": "C121", "title": "Whatever does not fail has kept the rules", "statement": "Handlers may call back appendReceived with any number of bytes, and setHandler; devices given to the receiver keep their limit. Then a program is without undefined behaviour and failed assertions if and only if every append, in the program and in its handlers, was given no more bytes than getBufferAvailableSpace() says at that time. Bytes that do not fit are never silently dropped, cut or accepted. So every state reached without failing is one that a program reaches that keeps all the rules, and the other properties hold of it without assuming that the rules were kept.", "quantifier": "for all collections, builds, histories of calls (legal or not), contents, and handlers that call back only appendReceived and setHandler", "why_tests_cant": "It is about every program that breaks the rules, at any moment, and in release builds breaking them is undefined behaviour, which a test cannot observe.", "anchors": ["tuple-transmission/Receiver.h: appendReceived, getBufferAvailableSpace, processMessages, receiveFrom", "util/ReceiveBuffer.h: push_back, ensure_space"]}
{"id": "C122", "title": "A run of lost bytes", "statement": "The line loses a run of bytes, from somewhere behind the STX of one message to somewhere within a later message. Messages before the loss are delivered. What is left of the two messages, with the messages that follow, is taken for the first message if up to the end of some later message it has the first message's length (and with a checksum, its sum is right): then it is delivered with wrong contents and swallows the messages up to there, and those behind it are delivered. While fewer bytes have come in than the first message should have, they are held back together with the complete messages that follow the loss. Otherwise, if the messages have no start or end codes inside, exactly the damaged messages are lost and all others are delivered. If the loss goes from one place in a message to the same place in a message of the same type, the Basic envelope always delivers a mixture of the two; the checksum notices unless the exchanged contents have the same sum.", "quantifier": "for all collections, builds, histories of calls, messages before and after, places where the loss starts and ends, contents, and handlers that do not throw", "why_tests_cant": "The loss can start and end at any byte of any two messages of any types with any contents, and what follows decides what becomes of it.", "anchors": ["tuple-transmission/envelopes/Basic.h: checkBufferForMessage", "tuple-transmission/envelopes/BasicChecksum.h: checkBufferForMessage", "tuple-transmission/Receiver.h: processMessages"]}
{"id": "C123", "title": "Programs that run forever", "statement": "A program never ends: again and again it appends what has come in from an endless line and calls processMessages with a handler set. At each moment what has been delivered is the beginning of what the line decodes to. Nothing is put off forever: whatever any first part of the line decodes to has been delivered from some moment on. If the line carries an endless sequence of messages, at each moment the first ones of them have been delivered, once each and in order, and each one is delivered after some number of calls. A loop that appends at most twice the longest message and one byte and then processes runs forever without breaking a rule, failing, or a call that does not return, and if each piece is one message then after each round exactly the messages of all rounds have been delivered.", "quantifier": "for all collections, builds, infinite sequences of calls that keep the rules, infinite lines, infinite sequences of messages, and handlers that do not throw", "why_tests_cant": "No test runs forever; a test sees finitely many calls and cannot tell a delay from a loss.", "anchors": ["tuple-transmission/Receiver.h: appendReceived, processMessages, setHandler", "util/ReceiveBuffer.h: push_back, pop_front"]}
{"id": "C124", "title": "A receiver remembers its unread bytes and nothing else", "statement": "If two receivers of the same collection, with any histories and in any two builds, have the same unread bytes and the same handler, and user code does the same in both from now on, they cannot be told apart: whatever calls can be made on one can be made on the other, with the same results, the same handler calls, the same free space and the same bytes left (and, after the first message, the same last id). In particular a receiver that has nothing left to read is as good as a new one with its handler, however long it has been in use. Of the bytes of an incomplete message nothing could be left out: different beginnings of messages are told apart by some following bytes. But bytes that cannot become a message any more, because the end of the text is missing where it should be, are kept until the whole length of the message has come in, although they make no difference.", "quantifier": "for all collections, pairs of builds, pairs of histories of calls, user code that agrees from now on, and all further histories of calls; for all pairs of beginnings of messages", "why_tests_cant": "It compares all pasts with each other and all futures; wear that shows after a particular past (a buffer position, a stale id) is found by a test only if it has that past and the right future.", "anchors": ["tuple-transmission/Receiver.h: Receiver, appendReceived, processMessages, getLastMessageId", "tuple-transmission/detail/types/EnvelopeReceiveBuffer.h: checkBufferForMessage, popMessage", "util/ReceiveBuffer.h: ReceiveBuffer, ensure_space, slide_contents_forward"]}
{"id": "C125", "title": "Repeating a message until it arrives", "statement": "A message inside which the beginning of a message (start code, id of a message, 02) does not occur is sent over and over on a line that is disturbed any number of times, at any places, by any bytes. If k copies of it are together at least as long as the longest message of the collection minus one, at most k undamaged copies are lost for each disturbance, all other undamaged copies arrive. So the message arrives at least once if more than d*k copies are undamaged, where d is the number of disturbances. The number cannot be improved: with a message of the longest type (k = 1) and one undamaged copy for each disturbance, it may be that none arrives and a message nobody sent is delivered for each.", "quantifier": "for all collections, builds, histories of calls, messages of the kind described, numbers and places of disturbances, bytes of disturbances, numbers of copies, and handlers that do not throw", "why_tests_cant": "A test tries particular disturbances at particular places; the number of repetitions that is enough must hold for all of them.", "anchors": ["tuple-transmission/envelopes/Basic.h: checkBufferForMessage", "tuple-transmission/envelopes/BasicChecksum.h: checkBufferForMessage", "tuple-transmission/detail/bases/EnvelopeBase.h: popAndRetry", "tuple-transmission/Receiver.h: processMessages"]}
{"id": "C126", "title": "A line that changes bytes systematically, or lacks a code", "statement": "Bytes among which one of the codes SOH, STX, ETX, EOT does not occur cause no handler call, in whatever pieces and however often processMessages is called: a line stuck at one value, plain text. If a line changes every byte by a fixed function that leaves the codes and the ids alone, the Basic envelope cannot notice it: every message is delivered with the changed contents. With a checksum exactly those messages are delivered (with the changed contents) for which the changed checksum is the checksum of the changed message; the others are lost without harm to their neighbours, if after the change there are no further start codes. In particular on a line with seven bits, messages with contents below 128 pass the Basic envelope unharmed, and with a checksum they are lost if and only if their checksum is 128 or more.", "quantifier": "for all collections, builds, histories of calls, functions on bytes, lists of messages, and handlers that do not throw", "why_tests_cant": "Whether a message survives such a line depends on the sum of all its bytes; tests with a few values easily miss one of the two cases.", "anchors": ["tuple-transmission/envelopes/Basic.h: checkBufferForMessage", "tuple-transmission/envelopes/BasicChecksum.h: checkBufferForMessage", "tuple-transmission/transmitters/ChecksumComputer.h: ChecksumComputer", "tuple-transmission/Receiver.h: processMessages"]}
{"id": "C127", "title": "Lines in text mode", "statement": "A line puts other bytes, at least one, in place of each byte, leaves the start of every message alone and makes no new start codes. Then each message is judged for itself: if what comes out for it begins with a message, that message is delivered; otherwise nothing is, and neighbouring messages do not suffer. In particular on a line in text mode (0A comes out as 0D 0A), among messages with at most one line feed, and that in the contents, exactly those without line feeds are delivered, with both envelopes. With more line feeds a message can come out as another one.", "quantifier": "for every collection, every list of messages without inner start codes, every such line, both envelopes and every division of the bytes among calls; plus a concrete forged message", "why_tests_cant": "Text mode damages only messages that happen to contain a line feed, which test data may never do; that a damaged message never harms its neighbours and is never taken for another is a statement about all contents.", "anchors": ["tuple-transmission/envelopes/Basic.h: checkBufferForMessage", "tuple-transmission/envelopes/BasicChecksum.h: checkBufferForMessage", "tuple-transmission/Receiver.h: Receiver::processMessages"]}
{"id": "C128", "title": "Lines with software flow control", "statement": "A line keeps some byte values for itself, none of them a code or an id. If no message loses more than four bytes that way (three with a checksum), exactly the messages without such bytes are delivered: damaged ones are neither taken for others nor cost their neighbours. The limits are sharp for both envelopes: with one byte more, a damaged message together with the start of the next one can be taken for a third one, even with a checksum.", "quantifier": "for every collection, every list of messages without inner start codes, every set of kept byte values that leaves codes and ids alone, and every division of the bytes among calls; plus concrete witnesses beyond the limits", "why_tests_cant": "Flow control characters are removed only when the contents happen to contain them; the guarantee and its limits depend on how the remains of a message line up with the next one, for all contents.", "anchors": ["tuple-transmission/envelopes/Basic.h: checkBufferForMessage", "tuple-transmission/envelopes/BasicChecksum.h: checkBufferForMessage", "tuple-transmission/Receiver.h: Receiver::processMessages"]}
{"id": "C129", "title": "Trees of programs that collect messages", "statement": "Programs collect messages from senders and from other programs and pass on what they can, towards one program at the root, each with a collection, envelope, build and way of polling of its own; those who send to the same program share a line message by message, in any order. When everything has arrived and been processed, every handler call at the root can be traced back along a path to a sender, so that the calls traced back to one sender are exactly that sender's messages of the types all programs on the path have, each once, in the order sent and with the contents sent. No program keeps any bytes. At any moment before, the calls traced back to one sender are the first ones of these messages.", "quantifier": "for every tree of programs of any depth and width, all collections and envelopes, all message lists of all senders, all orders in which messages get onto the lines, all histories of every program", "why_tests_cant": "The orders in which messages can mix grow exponentially at each level, and trees come in all shapes.", "anchors": ["tuple-transmission/Receiver.h: Receiver::processMessages", "tuple-transmission/Send.h: send", "tuple-transmission/envelopes/Basic.h: checkBufferForMessage", "tuple-transmission/envelopes/BasicChecksum.h: checkBufferForMessage"]}
{"id": "C130", "title": "A bus library that takes only so many bytes at once", "statement": "The bus library of the boards takes the first bytes of a write, up to a limit of its own, and reports how many it has taken; ArduinoI2C does not look at the answer. So `send` succeeds for messages longer than the limit, and each transaction carries the beginning of its message. Messages of types within the limit all arrive. A longer one that is followed by at least as many bytes of other messages as were cut off, and whose remains together with them do not look like a message (nor contain the beginning of one inside), is lost, and the others all arrive. With fewer bytes behind it, nothing is delivered and everything is held back. With the Basic envelope, if the messages behind it are together exactly as long as the part cut off, the receiver reports one message of the longer type with contents that nobody has sent, and none of the others.", "quantifier": "for every limit of at least three bytes (any limit for what is sent and for messages that fit), all collections and both envelopes (the last part: Basic), all contents, all messages behind it, all builds, all histories of the receiver", "why_tests_cant": "The tests have no bus. Whether the remains look like a message depends on the limit, on the types that follow and on all contents.", "anchors": ["tuple-transmission/transmitters/ArduinoI2C.h: ArduinoI2C::writeFinished", "tuple-transmission/transmitters/BoostArrayBuffer.h: BoostArrayBuffer::writeByte", "tuple-transmission/Receiver.h: Receiver::processMessages", "tuple-transmission/envelopes/Basic.h: checkBufferForMessage", "tuple-transmission/envelopes/BasicChecksum.h: checkBufferForMessage"]}
{"id": "C131", "title": "Trees of programs that run forever", "statement": "Senders send more and more messages; programs that run forever, each at a speed of its own, collect messages from them and from each other and pass on what they can, towards one program at the root. Lines shared message by message are fair (everybody is through with what they had to send at some later time) and everything on a line arrives at some time; each program processes again and again. Then one can say once and for all from which sender each handler call at the root comes, so that at each moment the calls that come from one sender are the first ones of that sender's messages of the types all programs on the path have, in order and with the contents sent, and every one of these is handled after some time.", "quantifier": "for every tree of programs of any depth and width, all collections, envelopes, builds, all infinite histories and relative speeds of the programs, all infinite sequences of messages, all fair ways of sharing lines, all splittings of what arrives", "why_tests_cant": "Tests are finite, and this says what happens in the end of infinite runs; delays and orders on every line can be chosen by the environment again and again.", "anchors": ["tuple-transmission/Receiver.h: Receiver::processMessages", "tuple-transmission/Receiver.h: Receiver::appendReceived", "tuple-transmission/Send.h: send", "tuple-transmission/envelopes/Basic.h: checkBufferForMessage", "tuple-transmission/envelopes/BasicChecksum.h: checkBufferForMessage"]}
{"id": "C132", "title": "Sending a message again until send returns", "statement": "A program sends each message again as long as send throws, and the handlers of the receiver may throw too. If neither the beginning (start code, id of a message, 02) nor the end of a message (03 04; with the checksum envelope 03, any byte, 04) occurs inside the messages, none has id 2 while the collection has an id 1, and with the checksum envelope none has id 4, then whatever the attempts that broke off have left on the line is skipped: when everything has arrived and processMessages has returned, each message has been handled to the end, in order, at least once and at most as often as it was attempted, namely as often as all of its bytes went out. It is exactly once if a call on the transmitter that throws has never put all of its bytes on the line; in particular outputFinished must not throw, else messages arrive twice. At any earlier time what has been handled to the end is a beginning of this. Each of these conditions is needed: with the end or the beginning of a message inside, with ids 1 and 2, or with id 4 and a checksum, an attempt that broke off and the message itself can pass for a message that was never sent.", "quantifier": "for every transmitter that may throw at any calls, all numbers of attempts, all messages of the kind described, collections, envelopes, builds, chunkings and polling patterns, handlers that throw at any calls, append within the free space and set handlers", "why_tests_cant": "Attempts can break off behind any byte any number of times, in combination with any chunking and any exceptions at the receiver; whether the remains of attempts can be mistaken for a message depends on contents, ids and lengths.", "anchors": ["tuple-transmission/Send.h: send", "tuple-transmission/Receiver.h: Receiver::processMessages", "tuple-transmission/envelopes/Basic.h: checkBufferForMessage", "tuple-transmission/envelopes/BasicChecksum.h: checkBufferForMessage", "tuple-transmission/detail/bases/TransmitterBase.h: TransmitterBase::outputFinished"]}
{"id": "C133", "title": "Gateways whose transmitter throws", "statement": "A handler passes on what it is called with by send, over a transmitter that may throw, and does not catch the exceptions. Because the receiver keeps a message until its handler has returned and calls it again otherwise, the gateway insists on each message: it sends it again until send has returned. So the receiver behind it, whose handlers may throw as well, has in the end handled each message that the gateway has handled and could pass on, in order, with the same contents, at least once, and exactly once if calls on the transmitter that throw have not put all of their bytes on the line. The same holds along any number of such gateways and from a sender that sends again until send returns. The messages are as in C132, in the encoding of each side.", "quantifier": "for every transmitter that may throw at any calls, all chains of gateways with any collections, envelopes and builds, all messages of the kind described, all chunkings and polling patterns at each of them, and handlers of the last program that throw at any calls", "why_tests_cant": "The exceptions of one program decide what the next one gets, what is left of broken sends, and which messages are handled again; these combine at each gateway without bound.", "anchors": ["tuple-transmission/Receiver.h: Receiver::processMessages", "tuple-transmission/Send.h: send", "tuple-transmission/envelopes/Basic.h: checkBufferForMessage", "tuple-transmission/envelopes/BasicChecksum.h: checkBufferForMessage", "tuple-transmission/detail/bases/TransmitterBase.h: TransmitterBase::outputFinished"]}
{"id": "C134", "title": "Sending again and passing on, at any time", "statement": "Take a sender that sends each message again until send returns, and any number of gateways whose handlers send what they are called with and do not catch the exceptions of send, none of which has come to an end: a message is being tried, bytes are on their way, programs have just been left by an exception or have not been polled for a while. If calls on the transmitters that throw have not put all of their bytes on the line, then at every program what has been handled to the end is a beginning of the messages whose send has returned at the sender and which it can get at all: each once, in order, with the same contents. No program is ahead of the one before it, and no handler is called with anything that the program before has not handled to the end. If outputFinished throws, a message can be handled whose send has not returned. The messages are as in C132 and C133.", "quantifier": "for every transmitter that may throw at any calls without completing them, all chains of gateways with any collections, envelopes and builds, all messages of the kind described, all chunkings and polling patterns, any amount of bytes on the way between any two programs, and handlers of the last program that throw at any calls", "why_tests_cant": "The property is about all moments of all interleavings of several programs with exceptions in each of them; what attempts in vain leave on the line must never complete a message.", "anchors": ["tuple-transmission/Receiver.h: Receiver::processMessages", "tuple-transmission/Send.h: send", "tuple-transmission/envelopes/Basic.h: checkBufferForMessage", "tuple-transmission/envelopes/BasicChecksum.h: checkBufferForMessage", "tuple-transmission/detail/bases/TransmitterBase.h: TransmitterBase::outputFinished"]}
{"id": "C135", "title": "What may be on the line between messages", "statement": "With the envelope Basic: exactly which bytes between messages are harmless. Nothing comes of them if, wherever one looks, they do not contain a message; if what stands at their end is the beginning of a message of n bytes (start code, id, 02), it lacks at most four bytes, or one byte less than every message of the collection has; and if they end with a start code alone, there are not both a message with id 1 that is not empty and one with id 2 of another length. Then messages with such bytes before, between and behind them are delivered as if there were nothing else. For all other bytes there is a message which, sent behind them, is lost, replaced or accompanied by another. With both envelopes, bytes are harmless if within them, and together with the three bytes that follow, there is no start code followed by the id of a message and 02.", "quantifier": "for all collections, builds, histories of calls, numbers and kinds of interludes, messages, chunkings, polling patterns and handlers that do not throw; the converse for every byte sequence that does not meet the conditions", "why_tests_cant": "the harmless sequences are infinitely many, and that all others can do harm needs a message constructed for each of them", "anchors": ["tuple-transmission/envelopes/Basic.h: Basic::checkBufferForMessage", "tuple-transmission/envelopes/BasicChecksum.h: BasicChecksum::checkBufferForMessage", "tuple-transmission/detail/bases/EnvelopeBase.h: EnvelopeBase::popAndRetry"]}
{"id": "C136", "title": "Exactly the unharmed messages are delivered", "statement": "On a line any number of messages are damaged: by wrong bytes, not in the id, such that they are not the bytes of another message; by the loss of the start code; or by the loss or addition of any number of bytes after the id, where the byte that comes to stand in the place of the end code is not 04. Messages may also be lost completely, and other bytes may arrive between messages. If what arrives of damaged messages and between messages contains no further beginning of a message (start code, id of a message, 02), exactly the messages that arrive whole are delivered, once and in order, and nothing is left over; at any earlier time the first ones of them. Wrong bytes meet the condition if one of the four codes is wrong, whatever else is; with a checksum also if any of at most eight bits in a row are; if they do not meet it, they are another message of the same type. Two damages side by side can forge a message in spite of the checksum: a message that has lost a byte, with 04 in place of the next start code.", "quantifier": "for all collections, builds, histories of calls, numbers and orders of messages sent, sets of damaged and lost messages, kinds of damage, chunkings, polling patterns and handlers that do not throw", "why_tests_cant": "the combinations of damages of neighbouring messages and bytes between them are unbounded in number", "anchors": ["tuple-transmission/envelopes/Basic.h: Basic::checkBufferForMessage", "tuple-transmission/envelopes/BasicChecksum.h: BasicChecksum::checkBufferForMessage", "tuple-transmission/detail/bases/EnvelopeBase.h: EnvelopeBase::popAndRetry", "tuple-transmission/Receiver.h: Receiver::processMessages"]}
{"id": "C137", "title": "Messages through any number of programs over lines that damage some", "statement": "Programs pass on what they receive, one to the next, each with a collection, an envelope, a transmitter and a way of polling of its own. On the line to each of them any number of messages are damaged or lost as in C136. When everything that arrives anywhere has been processed, each program has handled exactly those of the messages sent to the first one whose types all programs up to it have and which have arrived whole at all programs up to it. So nothing is delivered that was not sent, nothing twice and nothing out of order, and at most as many messages are missing as were damaged or lost on the way. At any earlier time, while only parts have arrived and been processed, each program has handled the first ones of these messages.", "quantifier": "for all numbers of programs, collections, envelopes, builds, transmitters that lose nothing, messages, sets of damaged messages on each line, kinds of damage, chunkings, polling patterns and handlers that pass on messages and do not throw", "why_tests_cant": "the number of programs and the sets of messages damaged on each line are unbounded; that damages do not add up to further losses or to forged messages is a statement about all of them together", "anchors": ["tuple-transmission/Receiver.h: Receiver::processMessages", "tuple-transmission/Send.h: send", "tuple-transmission/detail/operations/DeserializeAndInvoke.h: deserializeAndInvoke", "tuple-transmission/envelopes/BasicChecksum.h: BasicChecksum"]}
{"id": "C138", "title": "Numbered messages, repeated until they are acknowledged, are taken once each and in order", "statement": "Two programs send each other messages with this library, over lines that damage or lose any of them as in C136. The first transmits its present message as often and whenever it likes; each message contains its number modulo K (K at least 2). The second answers every message it handles with a message containing the same number, and takes a message for new if its number is that of the next one. The first goes on to its next message when it handles an answer with the number of the present one. At any time the second program has taken for new exactly the first n messages, once each and in order, and n is the number of those the first program takes for acknowledged, or one more. If the last transmission and its answer arrive whole and everything that has arrived has been processed, the first program goes on. If the exchange goes on forever and the first program handles ever more answers, every message is taken for new at some time and acknowledged; such endless exchanges exist for every numbering. Without numbers (K = 1) a repeated message is taken twice.", "quantifier": "for all finite and infinite exchanges, all agreements on numbering with K at least 2, collections and envelopes in either direction, builds, sequences of messages, times and numbers of repetitions, sets of damaged messages and damaged answers, chunkings, polling patterns and handlers that do not throw", "why_tests_cant": "the executions are unbounded and both programs and both lines take part in them; which repetitions and which answers are damaged can be combined in any way", "anchors": ["tuple-transmission/Receiver.h: Receiver::processMessages", "tuple-transmission/Send.h: send", "tuple-transmission/envelopes/Basic.h: Basic::checkBufferForMessage", "tuple-transmission/envelopes/BasicChecksum.h: BasicChecksum::checkBufferForMessage"]}
{"id": "C139", "title": "Only a handler that throws forever keeps messages from being handled", "statement": "In a program that runs forever, with handlers that throw whenever they like, at each moment the handler calls that returned are those for the first messages that have come in, once each and in order. For the messages that have come in at some moment there are two cases: after some number of calls they all have been handled to the end; or from some moment on every call of processMessages makes one handler call, for the same one of these messages, and is left by an exception, and exactly the messages before it have been handled to the end. So they are all handled if again and again some call of processMessages is not left by an exception, or if processMessages is called again and again and of any T + 1 calls in a row for the same message one returns, for some T. If the line carries an endless sequence of messages, each one is handled after some number of calls. The second case is possible: a handler that throws forever at one message keeps all later ones from being handled.", "quantifier": "for all collections, builds, endless histories of calls, lines, chunkings, polling patterns and handlers that throw, append and replace themselves; for all T", "why_tests_cant": "the executions are infinite; that something happens at some time is not settled by any finite number of steps", "anchors": ["tuple-transmission/Receiver.h: Receiver::processMessages, Receiver::appendReceived", "tuple-transmission/detail/bases/EnvelopeBase.h: EnvelopeBase::popAndRetry", "tuple-transmission/detail/operations/DeserializeAndInvoke.h: deserializeAndInvoke"]}
{"id": "C140", "title": "Messages that spread to any number of programs are seen in the same order everywhere", "statement": "A program sends messages to several others at once, with one call of send per message and a composition of transmitters; each of these passes on what it handles to any number of further programs, and so on. The composition carries the same bytes on every line. At any time each program has handled the first ones of the messages whose types all programs on the way to it have and which the lines on that way have neither damaged nor lost as in C136, with the contents sent; when everything has arrived and has been processed it has handled exactly these. If the messages are all different, no two programs ever handle two of them in different orders, whatever the lines damage or lose. If they damage and lose nothing, then of any two programs one has handled, of the messages of the types all programs on both ways have, the first ones of those the other has handled.", "quantifier": "for all trees of programs, collections and envelopes of each of them, builds, handlers that do not throw, lists of messages, transmitters that lose nothing, sets of messages damaged on each line, chunkings and polling patterns", "why_tests_cant": "the number of programs and their arrangement are unbounded, and all of them run at their own speed", "anchors": ["tuple-transmission/transmitters/TransmitterComposition.h: TransmitterComposition", "tuple-transmission/Send.h: send", "tuple-transmission/Receiver.h: Receiver::processMessages"]}
{"id": "C141", "title": "Several numbered messages may be on their way at once if there are more numbers than such messages", "statement": "As in C138, but the first program may at any time transmit any of the W messages from the first one on that is not acknowledged, in any order and as often as it likes, and the second program answers everything it handles with the number of messages taken so far, modulo K; the first goes on by the difference to what it knows, if that is at most W. Lines damage and lose messages and answers. If K is greater than W, at any time the second program has taken exactly the first n messages, once each and in order, and n is at least the number acknowledged and at most W more. Once the last answer has arrived whole, the first program knows n. If the first message not acknowledged is transmitted, and it and its answer arrive whole and are handled, it is acknowledged; if that happens again and again in an exchange that goes on forever, every message is taken at some time; such exchanges exist for every numbering. With K = W = 2 an old message can be taken for a new one.", "quantifier": "for all finite and infinite exchanges, all W and K > W, agreements on numbering, collections and envelopes in either direction, builds, sequences of messages, orders, times and numbers of repetitions, sets of damaged or lost messages and answers, chunkings, polling patterns and handlers that do not throw", "why_tests_cant": "the executions are unbounded and both programs and both lines take part in them; the number of messages on their way is a parameter", "anchors": ["tuple-transmission/Receiver.h: Receiver::processMessages", "tuple-transmission/Send.h: send", "tuple-transmission/envelopes/Basic.h: Basic::checkBufferForMessage", "tuple-transmission/envelopes/BasicChecksum.h: BasicChecksum::checkBufferForMessage"]}
{"id": "C142", "title": "Numbered messages arrive once and in order over any number of programs in between", "statement": "The two programs of C141 exchange messages and answers over other programs, which pass on what they handle, each with a collection, an envelope and a way of polling of its own; the ways there and back may differ. Every line on the ways damages and loses messages as in C136; the programs in between do nothing about it. If all of them have the types of the messages and answers and K is greater than W, the statements of C141 hold between the two ends: the last program has taken exactly the first n messages, once each and in order, n is at least the number acknowledged and at most W more, and whenever a transmission of the first message not acknowledged and the answer to it pass all lines, it is acknowledged; in exchanges that go on forever and in which that happens again and again every message is taken. Such exchanges exist for routes of all lengths.", "quantifier": "for all finite and infinite exchanges, numbers of programs on the way there and back, collections and envelopes of each of them, all W and K > W, agreements on numbering, builds, sequences of messages, orders, times and numbers of repetitions, sets of damaged or lost messages and answers on each line, chunkings, polling patterns and handlers that pass on messages and do not throw", "why_tests_cant": "the executions are unbounded, and so is the number of programs and lines that take part in them", "anchors": ["tuple-transmission/Receiver.h: Receiver::processMessages", "tuple-transmission/Send.h: send", "tuple-transmission/envelopes/Basic.h: Basic::checkBufferForMessage", "tuple-transmission/envelopes/BasicChecksum.h: BasicChecksum::checkBufferForMessage"]}
{"id": "C143", "title": "Numbered messages sent again until send returns are taken once, whatever throws", "statement": "A program sends each message again as long as send throws, as in C132, but now the transmitter may throw anywhere, also after the last byte and from outputFinished, so that messages may arrive several times; and the handlers of the receiver may throw too, so that they may be called several times for each. The messages contain their numbers modulo some K of at least 2, and are of the kind that C132 allows. When everything has arrived and processMessages has returned, a receiver that takes for new only a message with the next number has taken each message exactly once and in order, both if it takes messages at the end of its handlers and if it takes them at the beginning, before they may throw. At any earlier time, also if all attempts at one more message have failed so far, it has taken the first n messages, once each and in order, and none beyond the one being attempted. No answers are needed.", "quantifier": "for every transmitter that may throw at any calls, all numbers of messages and attempts, all K of at least 2 and agreements on numbering, collections, envelopes, builds, chunkings, polling patterns and times, handlers that throw at any calls, append within the free space and set handlers", "why_tests_cant": "Attempts can break off anywhere, also after a complete message, in combination with exceptions at the receiver; how often a message arrives and is handled is unbounded.", "anchors": ["tuple-transmission/Send.h: send", "tuple-transmission/Receiver.h: Receiver::processMessages", "tuple-transmission/envelopes/Basic.h: checkBufferForMessage", "tuple-transmission/envelopes/BasicChecksum.h: checkBufferForMessage", "tuple-transmission/detail/bases/TransmitterBase.h: TransmitterBase::outputFinished"]}
{"id": "C144", "title": "Numbered messages pass any number of gateways once each, whatever throws", "statement": "The sender of C143 is followed by any number of programs one behind the other, whose handlers pass on with send what they are called with and throw when send does, as in C133; all transmitters may throw anywhere, also after the last byte and from outputFinished, and the handlers of the last program throw as they like. So each line may carry each message several times and each handler may be called several times for each of these. If all programs have the types of the messages, and these are of the kind that C132 allows in each of the collections, then at any time each program that takes for new only a message with the next number has taken the first n messages, once each and in order, where n is no greater than for any program before it; and when everything has arrived and processMessages has returned everywhere, each of them has taken all messages exactly once. That holds both for programs that take messages at the end of their handlers and for those that take them at the beginning. The programs in between need not look at the numbers.", "quantifier": "for all numbers of programs, collections and envelopes of each, transmitters that throw at any calls, numbers of messages and attempts, all K of at least 2 and agreements on numbering, builds, chunkings, polling patterns and times, and handlers of the last program that throw at any calls", "why_tests_cant": "The copies of a message multiply from one program to the next; the number of programs, messages, exceptions and copies is unbounded.", "anchors": ["tuple-transmission/Send.h: send", "tuple-transmission/Receiver.h: Receiver::processMessages", "tuple-transmission/envelopes/Basic.h: checkBufferForMessage", "tuple-transmission/envelopes/BasicChecksum.h: checkBufferForMessage", "tuple-transmission/detail/bases/TransmitterBase.h: TransmitterBase::outputFinished"]}
{"id": "C145", "title": "Every numbered message is taken in programs that run and throw forever", "statement": "A program sends an endless sequence of numbered messages, each of them until send returns, over a transmitter that may throw anywhere, also after the last byte; the receiver runs forever, too, and its handlers may throw, as in C139. The messages are of the kind that C132 allows, and what the sender puts on the line arrives after some time. At each moment the receiver, which takes for new only a message with the next number, has taken the first so many messages, once each and in order. If again and again some call of processMessages is not left by an exception, or if processMessages is called again and again and handlers throw at most T times in a row for the same message, then every message of the sequence is taken after some number of calls, and stays taken. This holds whether the receiver takes messages at the end of its handlers or at their beginning. Both hold, too, for each of any number of programs that pass the messages on, one to the next, with handlers that throw when send has thrown.", "quantifier": "for all infinite executions of both programs and of the programs between them, all numbers of these, all transmitters that throw at any calls as long as send returns at last for each message, all T, all K of at least 2 and agreements on numbering, endless sequences of messages, collections, envelopes, builds, chunkings, polling patterns and handlers that throw at any calls", "why_tests_cant": "It is a statement about infinite executions with infinitely many exceptions on both sides; no finite test settles that something happens at last.", "anchors": ["tuple-transmission/Send.h: send", "tuple-transmission/Receiver.h: Receiver::processMessages", "tuple-transmission/envelopes/Basic.h: checkBufferForMessage", "tuple-transmission/envelopes/BasicChecksum.h: checkBufferForMessage", "tuple-transmission/detail/bases/TransmitterBase.h: TransmitterBase::outputFinished"]}
