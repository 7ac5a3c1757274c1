import Verif.Proofs.Generator

/-!
# The function templates in the generated text of the `send` overloads
-/

namespace TT.Cpp
open TT.Gen

/-- A text that ends in the middle of a word: its tokens are `ts` and the word `w`. -/
def Ends (t : Text) (ts : List Tok) (w : Text) : Prop := lexGo (.code []) t = (ts, .code w) ∧ w ≠ []

/-- The tokens of such a text. -/
def tokensOf (ts : List Tok) (w : Text) : List Tok := ts ++ [.word w]

/-- The text does not begin with a character of a word. -/
def startsPlain : Text → Bool
  | [] => false
  | c :: _ => !isWordChar c

theorem Ends.then_ {t : Text} {ts : List Tok} {w : Text} (h : Ends t ts w) {s : Text}
    {us : List Tok} {m : LexMode} (hc : startsPlain s = true) (hu : lexGo (.code []) s = (us, m)) :
    lexGo (.code []) (t ++ s) = (tokensOf ts w ++ us, m) := by
  cases s with
  | nil => cases hc
  | cons c cs =>
    rw [Lexes.trans h.1 (lexGo_after_word h.2 (by simpa [startsPlain] using hc) hu)]
    simp [tokensOf]

theorem decimal_ends (n : Nat) : Ends (decimal n) [] (decimal n) :=
  ⟨by rw [lexGo_decimal]; simp, decimal_ne_nil n⟩

/-- The name of parameter `i`, counted from 1. -/
def argName (i : Nat) : Text := chars! "a" ++ decimal i

theorem argName_ne_nil (i : Nat) : argName i ≠ [] := by simp [argName]

theorem argName_ends (i : Nat) : Ends (argName i) [] (argName i) := by
  refine ⟨?_, argName_ne_nil i⟩
  unfold argName
  rw [Lexes.trans (a := []) (m1 := .code (chars! "a")) (by decide +kernel) (lexGo_decimal _ _)]
  rfl

/-- The parameter for field `i`, counted from 0. -/
def fieldParam (seq : List Tok) (i : Nat) : List Tok :=
  lex (chars! "typename mpl::at_c<") ++ (seq ++ (.punct ',' :: .word (decimal i) ::
    (lex (chars! ">::type") ++ [.word (argName (i + 1))])))

/-- The transmitter parameter. -/
def txParam : List Tok := lex (chars! "transmitters::TransmitterBase<TransmitterDerived> & tx")

/-- The condition of the overload for an arity. -/
def condition (arity : Nat) (mt : List Tok) : List Tok :=
  lex (chars! "inline typename enable_if< mpl::equal<mpl::int_<") ++ (.word (decimal arity) ::
    (lex (chars! ">, MessageArity<") ++ (mt ++ lex (chars! "> >, void>::type"))))

/-- The body of an overload. -/
def sendBody (arity : Nat) (mc mt : List Tok) : List Tok :=
  lex (chars! "::transmission::send<") ++ (mc ++ (.punct ',' :: (mt ++ (lex (chars! ">(tx,fusion::make_list(") ++
    (commas ((List.range arity).map fun i => [.word (argName (i + 1))]) ++ lex (chars! "));"))))))

/-- The tokens of an overload after the template parameters. -/
def overloadToks (arity : Nat) (mc mt seq : List Tok) : List Tok :=
  condition arity mt ++ (.word (chars! "send") :: .punct '(' ::
    (commas (txParam :: (List.range arity).map (fieldParam seq)) ++ (.punct ')' :: .punct '{' ::
      (sendBody arity mc mt ++ [.punct '}']))))

/-- Texts that end in a word, joined with a comma and white space. -/
theorem lex_cat {α : Type} {f : α → Text} {a : α → List Tok} {w : α → Text} (hf : ∀ x, Ends (f x) (a x) (w x))
    {sep : Text} (hsep : lexGo (.code []) (',' :: sep) = ([.punct ','], .code []))
    {t : Text} {vs : List Tok} {m : LexMode} (hc : startsPlain t = true)
    (hv : lexGo (.code []) t = (vs, m)) (xs : List α) :
    lexGo (.code []) (cat (xs.map f) (',' :: sep) ++ t) =
      (commas (xs.map fun x => tokensOf (a x) (w x)) ++ vs, m) := by
  induction xs with
  | nil => simpa [cat, commas] using hv
  | cons x xs ih =>
    cases xs with
    | nil => exact (hf x).then_ hc hv
    | cons y xs =>
      have h1 := Lexes.trans hsep ih
      have h2 := (hf x).then_ (by rfl) h1
      simp only [List.map_cons, cat, commas, List.append_assoc, List.cons_append] at h2 ⊢
      refine h2.trans ?_
      simp

/-- Text and tokens of the parameter for field `i`. -/
theorem fieldParam_ends {ms : Text} {us : List Tok} {w : Text} (hms : Ends ms us w) (i : Nat) :
    Ends (chars! "typename mpl::at_c<" ++ ms ++ chars! ", " ++ decimal i ++ chars! ">::type a"
      ++ decimal (i + 1))
      (lex (chars! "typename mpl::at_c<") ++ (tokensOf us w ++ (.punct ',' :: .word (decimal i) ::
        lex (chars! ">::type")))) (argName (i + 1)) := by
  refine ⟨?_, argName_ne_nil _⟩
  have h3 : lexGo (.code []) (chars! ">::type a" ++ decimal (i + 1)) =
      (lex (chars! ">::type"), .code (argName (i + 1))) := by
    rw [Lexes.trans (a := lex (chars! ">::type")) (m1 := .code (chars! "a")) (by decide +kernel)
      (lexGo_decimal _ _)]
    simp [argName]
  have h2 := (decimal_ends i).then_ (by rfl) h3
  have h1 : lexGo (.code []) (chars! ", " ++ (decimal i ++ (chars! ">::type a" ++ decimal (i + 1)))) = _ :=
    Lexes.trans (a := [.punct ',']) (m1 := .code []) (by decide +kernel) h2
  have h0 := hms.then_ (by rfl) h1
  have := Lexes.trans (m := .code []) (s := chars! "typename mpl::at_c<") (a := lex (chars! "typename mpl::at_c<"))
    (m1 := .code []) (by decide +kernel) h0
  simp only [List.append_assoc] at this ⊢
  refine this.trans ?_
  simp [tokensOf]

/-- The tokens of the parameter list. -/
theorem lex_arguments (arity : Nat) {ms : Text} {us : List Tok} {w : Text} (hms : Ends ms us w)
    {t : Text} {vs : List Tok} {m : LexMode} (hc : startsPlain t = true)
    (hv : lexGo (.code []) t = (vs, m)) :
    lexGo (.code []) (cat (SendOverloads.arguments arity ms)
      (chars! ",\n" ++ indent SendOverloads.baseIndent 0 0 ++ chars! "     ") ++ t) =
    (commas (txParam :: (List.range arity).map (fieldParam (tokensOf us w))) ++ vs, m) := by
  have htx : Ends (chars! "transmitters::TransmitterBase<TransmitterDerived> & tx")
      (lex (chars! "transmitters::TransmitterBase<TransmitterDerived> &")) (chars! "tx") := by
    constructor <;> decide +kernel
  have e4 : tokensOf (lex (chars! "transmitters::TransmitterBase<TransmitterDerived> &")) (chars! "tx") =
      txParam := by decide +kernel
  have h := lex_cat (α := Option Nat)
    (f := fun x => match x with
      | none => chars! "transmitters::TransmitterBase<TransmitterDerived> & tx"
      | some i => chars! "typename mpl::at_c<" ++ ms ++ chars! ", " ++ decimal i ++ chars! ">::type a"
        ++ decimal (i + 1))
    (a := fun x => match x with
      | none => lex (chars! "transmitters::TransmitterBase<TransmitterDerived> &")
      | some i => lex (chars! "typename mpl::at_c<") ++ (tokensOf us w ++ (.punct ',' :: .word (decimal i) ::
        lex (chars! ">::type"))))
    (w := fun x => match x with
      | none => chars! "tx"
      | some i => argName (i + 1))
    (by intro x; cases x with | none => exact htx | some i => exact fieldParam_ends hms i)
    (sep := chars! "\n" ++ indent SendOverloads.baseIndent 0 0 ++ chars! "     ") (by decide +kernel) hc hv
    (none :: (List.range arity).map some)
  simp only [List.map_cons, List.map_map, Function.comp_def, e4] at h
  refine Eq.trans ?_ (h.trans ?_)
  · rfl
  · congr 4
    apply List.map_congr_left
    intro i _
    simp [fieldParam, tokensOf]

/-- The tokens of `a1, a2, ...`. -/
theorem lex_names (arity : Nat) {t : Text} {vs : List Tok} {m : LexMode} (hc : startsPlain t = true)
    (hv : lexGo (.code []) t = (vs, m)) :
    lexGo (.code []) (genRange arity (fun i => chars! "a" ++ decimal i) ++ t) =
    (commas ((List.range arity).map fun i => [.word (argName (i + 1))]) ++ vs, m) :=
  lex_cat (fun i => argName_ends (i + 1)) (sep := chars! " ") (by decide +kernel) hc hv (List.range arity)

/-- The tokens of the lines of one overload. -/
theorem lex_helper (arity : Nat) {mc mt ms : Text} {cs ts ss : List Tok} {cw tw sw : Text}
    (hmc : Ends mc cs cw) (hmt : Ends mt ts tw) (hms : Ends ms ss sw) :
    ((SendOverloads.generateHelper arity mc mt ms).map lineToks).flatten =
      overloadToks arity (tokensOf cs cw) (tokensOf ts tw) (tokensOf ss sw) := by
  have l1 : lineToks (out SendOverloads.baseIndent 0 0 (chars! "inline typename enable_if< mpl::equal<mpl::int_<" ++
      decimal arity ++ chars! ">, MessageArity<" ++ mt ++ chars! "> >, void>::type")) =
      condition arity (tokensOf ts tw) := by
    have h4 : lexGo (.code []) (chars! "> >, void>::type\n") = (lex (chars! "> >, void>::type"), .code []) := by
      decide +kernel
    have h3 := hmt.then_ (by rfl) h4
    have h2 : lexGo (.code []) (chars! ">, MessageArity<" ++ (mt ++ chars! "> >, void>::type\n")) = _ :=
      Lexes.trans (a := lex (chars! ">, MessageArity<")) (m1 := .code []) (by decide +kernel) h3
    have h1 := (decimal_ends arity).then_ (by rfl) h2
    have h0 := Lexes.trans (m := .code []) (m1 := .code [])
      (s := indent SendOverloads.baseIndent 0 0 ++ chars! "inline typename enable_if< mpl::equal<mpl::int_<")
      (a := lex (chars! "inline typename enable_if< mpl::equal<mpl::int_<")) (by decide +kernel) h1
    unfold lineToks out
    simp only [List.append_assoc, List.cons_append, List.nil_append] at h0 ⊢
    rw [h0]
    simp [condition, tokensOf]
  have l2 : lineToks (out SendOverloads.baseIndent 0 0 (chars! "send(" ++
      cat (SendOverloads.arguments arity ms) (chars! ",\n" ++ indent SendOverloads.baseIndent 0 0 ++ chars! "     ") ++
      chars! ") {\n")) = .word (chars! "send") :: .punct '(' ::
      (commas (txParam :: (List.range arity).map (fieldParam (tokensOf ss sw))) ++ [.punct ')', .punct '{']) := by
    have h1 := lex_arguments arity hms (t := chars! ") {\n\n") (vs := [.punct ')', .punct '{'])
      (m := .code []) (by rfl) (by decide +kernel)
    have h0 := Lexes.trans (m := .code []) (m1 := .code [])
      (s := indent SendOverloads.baseIndent 0 0 ++ chars! "send(")
      (a := [.word (chars! "send"), .punct '(']) (by decide +kernel) h1
    unfold lineToks out
    simp only [List.append_assoc, List.cons_append, List.nil_append] at h0 ⊢
    rw [h0]
  have l3 : lineToks (out SendOverloads.baseIndent 1 0 (chars! "::transmission::send<" ++ mc ++ chars! ", " ++
      mt ++ chars! ">(")) = lex (chars! "::transmission::send<") ++ (tokensOf cs cw ++ (.punct ',' ::
        (tokensOf ts tw ++ [.punct '>', .punct '(']))) := by
    have h3 := hmt.then_ (s := chars! ">(\n") (us := [.punct '>', .punct '(']) (m := .code []) (by rfl)
      (by decide +kernel)
    have h2 : lexGo (.code []) (chars! ", " ++ (mt ++ chars! ">(\n")) = _ :=
      Lexes.trans (a := [.punct ',']) (m1 := .code []) (by decide +kernel) h3
    have h1 := hmc.then_ (by rfl) h2
    have h0 := Lexes.trans (m := .code []) (m1 := .code [])
      (s := indent SendOverloads.baseIndent 1 0 ++ chars! "::transmission::send<")
      (a := lex (chars! "::transmission::send<")) (by decide +kernel) h1
    unfold lineToks out
    simp only [List.append_assoc, List.cons_append, List.nil_append] at h0 ⊢
    rw [h0]
  have l4 : lineToks (out SendOverloads.baseIndent 1 1 (chars! "tx,")) = lex (chars! "tx,") := by decide +kernel
  have l5 : lineToks (out SendOverloads.baseIndent 1 1 (chars! "fusion::make_list(" ++
      genRange arity (fun i => chars! "a" ++ decimal i) ++ chars! ")")) = lex (chars! "fusion::make_list(") ++
      (commas ((List.range arity).map fun i => [.word (argName (i + 1))]) ++ [.punct ')']) := by
    have h1 := lex_names arity (t := chars! ")\n") (vs := [.punct ')']) (m := .code []) (by rfl)
      (by decide +kernel)
    have h0 := Lexes.trans (m := .code []) (m1 := .code [])
      (s := indent SendOverloads.baseIndent 1 1 ++ chars! "fusion::make_list(")
      (a := lex (chars! "fusion::make_list(")) (by decide +kernel) h1
    unfold lineToks out
    simp only [List.append_assoc, List.cons_append, List.nil_append] at h0 ⊢
    rw [h0]
  have l6 : lineToks (out SendOverloads.baseIndent 1 0 (chars! ");")) = lex (chars! ");") := by decide +kernel
  have l7 : lineToks (out SendOverloads.baseIndent 0 0 (chars! "}\n")) = [.punct '}'] := by decide +kernel
  have e1 : lex (chars! ">(tx,fusion::make_list(") = [.punct '>', .punct '('] ++ (lex (chars! "tx,") ++
      lex (chars! "fusion::make_list(")) := by decide +kernel
  have e2 : lex (chars! "));") = .punct ')' :: lex (chars! ");") := by decide +kernel
  unfold SendOverloads.generateHelper
  simp only [List.map_cons, List.map_nil, List.flatten_cons, List.flatten_nil, l1, l2, l3, l4, l5, l6, l7]
  simp only [overloadToks, sendBody, e1, e2, List.append_assoc, List.cons_append, List.nil_append, List.append_nil]

end TT.Cpp

namespace TT.Cpp
open TT.Gen

/-! ### The text for one arity -/

theorem lexGo_comment {t : Text} (h : '\n' ∉ t) : lexGo .comment t = ([], .comment) := by
  induction t with
  | nil => rfl
  | cons c t ih =>
    simp only [List.mem_cons, not_or] at h
    have hc : c ≠ '\n' := fun e => h.1 e.symm
    simp [lexGo, lexStep, hc, ih h.2]

theorem lexGo_directive {t : Text} (w : Text) (h : '\n' ∉ t) :
    lexGo (.directive w) t = ([], .directive (w ++ t)) := by
  induction t generalizing w with
  | nil => simp [lexGo]
  | cons c t ih =>
    simp only [List.mem_cons, not_or] at h
    have hc : c ≠ '\n' := fun e => h.1 e.symm
    simp [lexGo, lexStep, hc, ih _ h.2]

theorem newline_not_decimal (n : Nat) : '\n' ∉ decimal n := by
  intro h
  have := decimal_wordChar n _ h
  exact absurd this (by decide)

/-- The text of the directive in front of an arity. -/
def ifText (arity : Nat) : Text := chars! "if FUSION_MAX_LIST_SIZE >= " ++ decimal arity

/-- Template parameters of the overload that takes collection and message. -/
def pairHead : List Tok :=
  lex (chars! "template<typename MessageCollectionType, typename MessageType, typename TransmitterDerived>")

/-- Template parameters of the overload that takes a bound message. -/
def boundHead : List Tok := lex (chars! "template<typename BoundMessage, typename TransmitterDerived>")

/-- The overload that takes collection and message. -/
def pairToks (arity : Nat) : List Tok :=
  pairHead ++ overloadToks arity (lex (chars! "MessageCollectionType")) (lex (chars! "MessageType"))
    (lex (chars! "typename MessageType::sequence_type"))

/-- The overload that takes a bound message. -/
def boundToks (arity : Nat) : List Tok :=
  boundHead ++ overloadToks arity (lex (chars! "typename BoundMessage::message_collection"))
    (lex (chars! "typename BoundMessage::message_type"))
    (lex (chars! "typename BoundMessage::message_type::sequence_type"))

/-- All tokens for one arity. -/
def arityToks (arity : Nat) : List Tok :=
  .line (ifText arity) :: (pairToks arity ++ boundToks arity ++ [.line (chars! "endif")])

theorem lex_generate (arity : Nat) : ((SendOverloads.generate arity).map lineToks).flatten = arityToks arity := by
  have l1 : lineToks (out SendOverloads.baseIndent (-4) 0 (chars! "#if FUSION_MAX_LIST_SIZE >= " ++ decimal arity)) =
      [.line (ifText arity)] := by
    have h : lexGo (.code []) (chars! "#" ++ ifText arity) = ([], .directive (ifText arity)) :=
      Lexes.trans (a := []) (m1 := .directive []) (by decide +kernel) (lexGo_directive [] (by
        simp only [ifText, List.mem_append, not_or]
        exact ⟨by decide +kernel, newline_not_decimal arity⟩))
    exact (lineToks_of h).trans rfl
  have comment : ∀ t : Text, '\n' ∉ t → lineToks (out SendOverloads.baseIndent 0 0 (chars! "///" ++ t)) = [] := by
    intro t ht
    have h : lexGo (.code []) (indent SendOverloads.baseIndent 0 0 ++ chars! "///" ++ t) = ([], .comment) :=
      Lexes.trans (a := []) (m1 := .comment) (by decide +kernel) (lexGo_comment ht)
    have := lineToks_of h
    rw [List.append_assoc] at this
    exact this.trans rfl
  have c1 := comment (chars! " @brief Overload of transmission::send() taking a message collection and a message type as explicit")
    (by decide +kernel)
  have c2 := comment (chars! " template parameters, and taking a transmitter, plus values for " ++ decimal arity ++
      chars! " message fields directly") (by
    simp only [List.mem_append, not_or]
    exact ⟨⟨by decide +kernel, newline_not_decimal arity⟩, by decide +kernel⟩)
  have c3 := comment (chars! " instead of a boost::fusion sequence containing the field values.") (by decide +kernel)
  have c4 := comment (chars! " @brief Overload of transmission::send() taking a BoundMessageType as the only explicit")
    (by decide +kernel)
  have c5 := comment (chars! " template parameter, and taking a transmitter, plus values for " ++ decimal arity ++
      chars! " message fields directly") (by
    simp only [List.mem_append, not_or]
    exact ⟨⟨by decide +kernel, newline_not_decimal arity⟩, by decide +kernel⟩)
  have t1 : lineToks (out SendOverloads.baseIndent 0 0 (chars! "template<typename MessageCollectionType, typename MessageType, typename TransmitterDerived>")) =
    pairHead := by decide +kernel
  have t2 : lineToks (out SendOverloads.baseIndent 0 0 (chars! "template<typename BoundMessage, typename TransmitterDerived>")) =
    boundHead := by decide +kernel
  have l2 : lineToks (out SendOverloads.baseIndent (-4) 0 (chars! "#endif\n")) = [.line (chars! "endif")] := by
    decide +kernel
  have h1 := lex_helper arity (mc := chars! "MessageCollectionType") (cs := []) (cw := chars! "MessageCollectionType")
    (mt := chars! "MessageType") (ts := []) (tw := chars! "MessageType")
    (ms := chars! "typename MessageType::sequence_type") (ss := lex (chars! "typename MessageType::"))
    (sw := chars! "sequence_type")
    (by constructor <;> decide +kernel) (by constructor <;> decide +kernel) (by constructor <;> decide +kernel)
  have h2 := lex_helper arity (mc := chars! "typename BoundMessage::message_collection")
    (cs := lex (chars! "typename BoundMessage::")) (cw := chars! "message_collection")
    (mt := chars! "typename BoundMessage::message_type") (ts := lex (chars! "typename BoundMessage::"))
    (tw := chars! "message_type")
    (ms := chars! "typename BoundMessage::message_type::sequence_type")
    (ss := lex (chars! "typename BoundMessage::message_type::")) (sw := chars! "sequence_type")
    (by constructor <;> decide +kernel) (by constructor <;> decide +kernel) (by constructor <;> decide +kernel)
  have e1 : tokensOf [] (chars! "MessageCollectionType") = lex (chars! "MessageCollectionType") := by decide +kernel
  have e2 : tokensOf [] (chars! "MessageType") = lex (chars! "MessageType") := by decide +kernel
  have e3 : tokensOf (lex (chars! "typename MessageType::")) (chars! "sequence_type") =
    lex (chars! "typename MessageType::sequence_type") := by decide +kernel
  have e4 : tokensOf (lex (chars! "typename BoundMessage::")) (chars! "message_collection") =
    lex (chars! "typename BoundMessage::message_collection") := by decide +kernel
  have e5 : tokensOf (lex (chars! "typename BoundMessage::")) (chars! "message_type") =
    lex (chars! "typename BoundMessage::message_type") := by decide +kernel
  have e6 : tokensOf (lex (chars! "typename BoundMessage::message_type::")) (chars! "sequence_type") =
    lex (chars! "typename BoundMessage::message_type::sequence_type") := by decide +kernel
  rw [e1, e2, e3] at h1
  rw [e4, e5, e6] at h2
  unfold SendOverloads.generate
  rw [List.map_append, List.map_append, List.map_append, List.map_append, List.flatten_append, List.flatten_append,
    List.flatten_append, List.flatten_append, h1, h2]
  simp only [List.map_cons, List.map_nil, List.flatten_cons, List.flatten_nil, l1, l2, t1, t2]
  simp only [List.cons_append, List.nil_append] at c1 c2 c3 c4 c5 ⊢
  rw [c1, c2, c3, c4, c5]
  simp [arityToks, pairToks, boundToks]

/-- The tokens of the header, between prefix and suffix, for all arities up to `k`. -/
theorem lex_body (k : Nat) : lex (body SendOverloads.generate 0 k) = (List.range (k + 1)).flatMap arityToks := by
  have key : ∀ ls : List Text, lex (cat (ls ++ SendOverloads.generate k) ['\n']) =
      (ls.map lineToks).flatten ++ arityToks k := by
    intro ls
    have hl : ∃ l, SendOverloads.generate k = l ++ [(chars! "#endif") ++ ['\n']] := by
      unfold SendOverloads.generate
      exact ⟨_, rfl⟩
    obtain ⟨l, hl⟩ := hl
    have h2 : lineToks (chars! "#endif") = lineToks (chars! "#endif" ++ ['\n']) := by decide +kernel
    rw [hl, ← List.append_assoc, lex_cat_lines, ← lex_generate k, hl]
    simp only [List.map_append, List.flatten_append, List.map_cons, List.map_nil, List.flatten_cons,
      List.flatten_nil, List.append_nil, List.append_assoc]
    rw [h2]
  unfold body
  rw [List.range_succ, List.flatMap_append]
  simp only [Nat.zero_add, List.flatMap_cons, List.flatMap_nil, List.append_nil]
  have : List.range (k + 1 - 0) = List.range k ++ [k] := List.range_succ
  rw [this, List.flatMap_append]
  simp only [List.flatMap_cons, List.flatMap_nil, List.append_nil]
  refine (key _).trans ?_
  congr 1
  rw [List.map_flatMap, List.flatMap_def, List.flatMap_def]
  have : ∀ l : List Nat, (l.map fun a => (SendOverloads.generate a).map lineToks).flatten.flatten =
      (l.map arityToks).flatten := by
    intro l
    induction l with
    | nil => rfl
    | cons a l ih => simp only [List.map_cons, List.flatten_cons, List.flatten_append, lex_generate, ih]
  exact this _

end TT.Cpp

namespace TT.Cpp
open TT.Gen

/-! ### The functions in the header -/

/-- Depth of angle brackets after the tokens. -/
def angles : Nat → List Tok → Nat
  | d, [] => d
  | d, t :: ts => if t = .punct '<' then angles (d + 1) ts else if t = .punct '>' then angles (d - 1) ts else angles d ts

theorem declarator_append {w : Text} (hw : w ≠ chars! "operator") {us : List Tok} {r : List Tok} :
    ∀ {d : Nat} {acc : List Tok}, .punct '(' ∉ r → angles d r = 0 →
    declarator d acc (r ++ .word w :: .punct '(' :: us) = some (acc ++ r, w, us) := by
  induction r with
  | nil =>
    intro d acc h hd
    simp only [angles] at hd
    subst hd
    simp only [List.nil_append, declarator, List.append_nil]
    rw [if_neg hw]
  | cons t r ih =>
    intro d acc h hd
    simp only [List.mem_cons, not_or] at h
    have hstep : declarator d acc (t :: (r ++ .word w :: .punct '(' :: us)) =
        (if t = .punct '<' then declarator (d + 1) (acc ++ [t]) (r ++ .word w :: .punct '(' :: us)
        else if t = .punct '>' then declarator (d - 1) (acc ++ [t]) (r ++ .word w :: .punct '(' :: us)
        else declarator d (acc ++ [t]) (r ++ .word w :: .punct '(' :: us)) := by
      conv => lhs; unfold declarator
      split
      · rename_i heq
        exfalso
        cases r with
        | nil => simp at heq
        | cons t' r =>
          simp only [List.cons_append, List.cons.injEq] at heq
          exact h.2 (by rw [heq.1]; simp)
      · rfl
    rw [List.cons_append, hstep]
    simp only [angles] at hd
    by_cases h1 : t = .punct '<'
    · rw [if_pos h1] at hd
      rw [if_pos h1, ih h.2 hd]; simp
    · rw [if_neg h1] at hd
      rw [if_neg h1]
      by_cases h2 : t = .punct '>'
      · rw [if_pos h2] at hd
        rw [if_pos h2, ih h.2 hd]; simp
      · rw [if_neg h2] at hd
        rw [if_neg h2, ih h.2 hd]; simp

/-- The overload for an arity that takes collection and message. -/
def pairFn (arity : Nat) : Fn where
  tparams := [lex (chars! "typename MessageCollectionType"), lex (chars! "typename MessageType"),
    lex (chars! "typename TransmitterDerived")]
  result := condition arity (lex (chars! "MessageType"))
  name := chars! "send"
  params := txParam :: (List.range arity).map (fieldParam (lex (chars! "typename MessageType::sequence_type")))
  body := sendBody arity (lex (chars! "MessageCollectionType")) (lex (chars! "MessageType"))

/-- The overload for an arity that takes a bound message. -/
def boundFn (arity : Nat) : Fn where
  tparams := [lex (chars! "typename BoundMessage"), lex (chars! "typename TransmitterDerived")]
  result := condition arity (lex (chars! "typename BoundMessage::message_type"))
  name := chars! "send"
  params := txParam ::
    (List.range arity).map (fieldParam (lex (chars! "typename BoundMessage::message_type::sequence_type")))
  body := sendBody arity (lex (chars! "typename BoundMessage::message_collection"))
    (lex (chars! "typename BoundMessage::message_type"))

theorem mem_commas {t : Tok} {gs : List (List Tok)} (h : t ∈ commas gs) : t = .punct ',' ∨ ∃ g ∈ gs, t ∈ g := by
  induction gs with
  | nil => simp [commas] at h
  | cons g gs ih =>
    cases gs with
    | nil => exact .inr ⟨g, by simp, by simpa [commas] using h⟩
    | cons g' gs =>
      simp only [commas, List.mem_append, List.mem_cons] at h
      rcases h with h | h | h
      · exact .inr ⟨g, by simp, h⟩
      · exact .inl h
      · rcases ih h with h | ⟨k, hk, h⟩
        · exact .inl h
        · exact .inr ⟨k, by simp only [List.mem_cons] at hk ⊢; exact .inr hk, h⟩

/-- One overload is read as it is written. -/
theorem parse_overload {head mc mt seq : List Tok} {tps : List (List Tok)} {arity : Nat}
    (hhead : head = lex (chars! "template<") ++ (commas tps ++ [.punct '>']))
    (htps : ∀ g ∈ tps, balanced 0 g = true) (htps' : tps ≠ [[]])
    (hcond : .punct '(' ∉ condition arity mt) (hang : angles 0 (condition arity mt) = 0)
    (hseq : ∀ i, balanced 0 (fieldParam seq i) = true) (hmc : .punct '}' ∉ mc) (hmt : .punct '}' ∉ mt)
    (us : List Tok) :
    parseFn (head ++ overloadToks arity mc mt seq ++ us) =
      some (⟨tps, condition arity mt, chars! "send", txParam :: (List.range arity).map (fieldParam seq),
        sendBody arity mc mt⟩, us) := by
  have e0 : lex (chars! "template<") = [.word (chars! "template"), .punct '<'] := by decide +kernel
  have h1 : groups 0 [] [] (commas tps ++ .punct '>' :: (overloadToks arity mc mt seq ++ us)) =
      some (tps, overloadToks arity mc mt seq ++ us) :=
    groups_commas (.inr rfl) htps htps' _
  have h2 : declarator 0 [] (overloadToks arity mc mt seq ++ us) = some (condition arity mt, chars! "send",
      commas (txParam :: (List.range arity).map (fieldParam seq)) ++ (.punct ')' :: .punct '{' ::
        (sendBody arity mc mt ++ (.punct '}' :: us)))) := by
    have := declarator_append (w := chars! "send") (by decide) (acc := [])
      (us := commas (txParam :: (List.range arity).map (fieldParam seq)) ++ (.punct ')' :: .punct '{' ::
        (sendBody arity mc mt ++ (.punct '}' :: us)))) hcond hang
    rw [← List.nil_append (condition arity mt), ← this]
    simp [overloadToks]
  have h3 : groups 0 [] [] (commas (txParam :: (List.range arity).map (fieldParam seq)) ++ .punct ')' :: (.punct '{' ::
        (sendBody arity mc mt ++ (.punct '}' :: us)))) = some (txParam :: (List.range arity).map (fieldParam seq),
        .punct '{' :: (sendBody arity mc mt ++ (.punct '}' :: us))) := by
    refine groups_commas (.inl rfl) ?_ ?_ _
    · intro g hg
      simp only [List.mem_cons, List.mem_map] at hg
      rcases hg with rfl | ⟨i, _, rfl⟩
      · decide +kernel
      · exact hseq i
    · intro h
      have : txParam = [] := by injection h
      exact absurd this (by decide +kernel)
  have h4 : untilBrace [] (sendBody arity mc mt ++ .punct '}' :: us) = some (sendBody arity mc mt, us) := by
    have := untilBrace_append (acc := []) (us := us) (b := sendBody arity mc mt) (by
      unfold sendBody
      simp only [List.mem_append, List.mem_cons, not_or]
      refine ⟨by decide +kernel, hmc, by decide, hmt, by decide +kernel, ?_, by decide +kernel⟩
      intro h
      rcases mem_commas h with h | ⟨g, hg, h⟩
      · cases h
      · obtain ⟨i, _, rfl⟩ := List.mem_map.mp hg
        simp at h)
    simpa using this
  unfold parseFn
  rw [hhead, e0]
  simp only [List.append_assoc, List.cons_append, List.nil_append, expect, if_true]
  simp only [bind, Option.bind, h1, h2, h3, h4, expect, if_true]
  rfl

theorem parse_pair (arity : Nat) (us : List Tok) :
    parseFn (pairToks arity ++ us) = some (pairFn arity, us) := by
  refine parse_overload (by decide +kernel) (by decide +kernel) (by decide +kernel) ?_ (by rfl) (fun i => by rfl)
    (by decide +kernel) (by decide +kernel) us
  unfold condition
  simp only [List.mem_append, List.mem_cons, not_or]
  exact ⟨by decide +kernel, by simp, by decide +kernel, by decide +kernel, by decide +kernel⟩

theorem parse_bound (arity : Nat) (us : List Tok) :
    parseFn (boundToks arity ++ us) = some (boundFn arity, us) := by
  refine parse_overload (by decide +kernel) (by decide +kernel) (by decide +kernel) ?_ (by rfl) (fun i => by rfl)
    (by decide +kernel) (by decide +kernel) us
  unfold condition
  simp only [List.mem_append, List.mem_cons, not_or]
  exact ⟨by decide +kernel, by simp, by decide +kernel, by decide +kernel, by decide +kernel⟩

theorem all_plain_commas {gs : List (List Tok)} (h : ∀ g ∈ gs, g.all plain = true) : (commas gs).all plain = true := by
  rw [List.all_eq_true]
  intro t ht
  rcases mem_commas ht with rfl | ⟨g, hg, ht⟩
  · rfl
  · exact (List.all_eq_true.mp (h g hg)) t ht

theorem all_plain_overload (arity : Nat) {mc mt seq : List Tok} (h1 : mc.all plain = true) (h2 : mt.all plain = true)
    (h3 : seq.all plain = true) : (overloadToks arity mc mt seq).all plain = true := by
  have hf : ∀ i, (fieldParam seq i).all plain = true := by
    intro i
    simp only [fieldParam, List.all_append, List.all_cons, h3, plain, Bool.true_and]
    decide +kernel
  have hp : (commas (txParam :: (List.range arity).map (fieldParam seq))).all plain = true := by
    apply all_plain_commas
    intro g hg
    simp only [List.mem_cons, List.mem_map] at hg
    rcases hg with rfl | ⟨i, _, rfl⟩
    · decide +kernel
    · exact hf i
  have hn : (commas ((List.range arity).map fun i => [.word (argName (i + 1))])).all plain = true := by
    apply all_plain_commas
    intro g hg
    obtain ⟨i, _, rfl⟩ := List.mem_map.mp hg
    rfl
  simp only [overloadToks, condition, sendBody, List.all_append, List.all_cons, List.all_nil, h1, h2, hp, hn, plain,
    Bool.and_true, Bool.true_and]
  decide +kernel

/-- The macro that limits the arity of fusion lists. -/
def listSize : Text := chars! "FUSION_MAX_LIST_SIZE"

theorem directive_if (ms : Macros) (n : Nat) :
    directive ms [] (ifText n) = some (ms, [decide (n ≤ (ms.lookup listSize).getD 0)]) := by
  have h : lex (ifText n) = [.word (chars! "if"), .word listSize, .punct '>', .punct '=', .word (decimal n)] := by
    have h0 : lexGo (.code []) (ifText n) = ([.word (chars! "if"), .word listSize, .punct '>', .punct '='],
        .code (decimal n)) :=
      Lexes.trans (m1 := .code []) (a := [.word (chars! "if"), .word listSize, .punct '>', .punct '=']) (b := [])
        (s := chars! "if FUSION_MAX_LIST_SIZE >= ") (by decide +kernel) (lexGo_decimal [] n)
    unfold lex
    rw [h0]
    have : flush (decimal n) = [.word (decimal n)] := by
      cases hd : decimal n with
      | nil => exact absurd hd (decimal_ne_nil n)
      | cons => rfl
    simp [lexEnd, this]
  unfold directive
  rw [h]
  simp [number_decimal]

theorem directive_endif (ms : Macros) (b : Bool) : directive ms [b] (chars! "endif") = some (ms, []) := by
  rfl

/-- The preprocessor keeps the overloads for the arities that fit into a fusion list. -/
theorem preprocess_arities (ms : Macros) (ns : List Nat) :
    preprocess ms [] (ns.flatMap arityToks) =
      some ((ns.filter fun n => decide (n ≤ (ms.lookup listSize).getD 0)).flatMap
        fun n => pairToks n ++ boundToks n, ms) := by
  induction ns with
  | nil => simp [preprocess]
  | cons n ns ih =>
    have hp : (pairToks n ++ boundToks n).all plain = true := by
      simp only [pairToks, boundToks, List.all_append]
      rw [all_plain_overload n (by decide +kernel) (by decide +kernel) (by decide +kernel),
        all_plain_overload n (by decide +kernel) (by decide +kernel) (by decide +kernel)]
      decide +kernel
    rw [List.flatMap_cons]
    unfold arityToks
    rw [List.cons_append, preprocess_line, directive_if]
    simp only [Option.bind_some]
    rw [List.append_assoc, preprocess_plain hp]
    rw [List.cons_append, List.nil_append, preprocess_line, directive_endif]
    simp only [Option.bind_some]
    have ih' : preprocess ms [] (List.flatMap (fun arity => Tok.line (ifText arity) ::
        (pairToks arity ++ boundToks arity ++ [.line (chars! "endif")])) ns) = _ := ih
    rw [ih']
    by_cases h : n ≤ (ms.lookup listSize).getD 0
    · simp [h]
    · simp [h]

theorem length_pair (n : Nat) : 1 ≤ (pairToks n).length ∧ 1 ≤ (boundToks n).length := by
  constructor
  · simp only [pairToks, List.length_append]
    have : 1 ≤ pairHead.length := by decide +kernel
    omega
  · simp only [boundToks, List.length_append]
    have : 1 ≤ boundHead.length := by decide +kernel
    omega

theorem parseFns_arities (ns : List Nat) : ∀ fuel, (ns.flatMap fun n => pairToks n ++ boundToks n).length < fuel →
    parseFns fuel (ns.flatMap fun n => pairToks n ++ boundToks n) =
      some (ns.flatMap fun n => [pairFn n, boundFn n]) := by
  induction ns with
  | nil => intro fuel _; cases fuel <;> rfl
  | cons n ns ih =>
    intro fuel hf
    obtain ⟨h1, h2⟩ := length_pair n
    simp only [List.flatMap_cons, List.length_append] at hf
    obtain ⟨fuel, rfl⟩ : ∃ k, fuel = k + 2 := ⟨fuel - 2, by omega⟩
    have step : ∀ (k : Nat) (ts us : List Tok) (f : Fn), 1 ≤ ts.length → parseFn (ts ++ us) = some (f, us) →
        parseFns (k + 1) (ts ++ us) = (parseFns k us).map (f :: ·) := by
      intro k ts us f hl h
      cases ts with
      | nil => simp at hl
      | cons t ts =>
        rw [List.cons_append] at h ⊢
        simp only [parseFns, h, Option.bind_some]
    rw [List.flatMap_cons, List.append_assoc, step _ _ _ _ h1 (parse_pair n _),
      step _ _ _ _ h2 (parse_bound n _), ih _ (by omega)]
    simp

/-- The functions in the header generated for arities up to `k`. -/
theorem readFns_body (ms : Macros) (k : Nat) :
    readFns ms (body SendOverloads.generate 0 k) =
      some (((List.range (k + 1)).filter fun n => decide (n ≤ (ms.lookup listSize).getD 0)).flatMap
        fun n => [pairFn n, boundFn n]) := by
  unfold readFns
  rw [lex_body, preprocess_arities]
  simp only [Option.bind_some]
  exact parseFns_arities _ _ (by omega)

end TT.Cpp
