import Verif.Model.SendCalls
import Verif.Proofs.GeneratedSend

/-!
# Evaluating the generated overloads of `send`
-/

namespace TT.Cpp
open TT.Gen

/-- Template arguments of the overloads that take collection and message. -/
def pairEnv (C : Collection) (m : MsgType) : Env :=
  [(chars! "MessageCollectionType", .collection C), (chars! "MessageType", .message m),
    (chars! "TransmitterDerived", .derived)]

/-- Template arguments of the overloads that take a bound message. -/
def boundEnv (C : Collection) (m : MsgType) : Env :=
  [(chars! "BoundMessage", .bound C m), (chars! "TransmitterDerived", .derived)]

variable {eqTest : Nat → Nat → Bool} {env : Env}

theorem expect_cons_ne {p t : Tok} {ps ts : List Tok} (h : p ≠ t) : expect (p :: ps) (t :: ts) = none := by
  simp [expect, h]

theorem ne_of_number {w v : Text} {n : Nat} (h : number w = some n) (hv : number v = none) : v ≠ w := by
  intro e; rw [e, h] at hv; cases hv

theorem evalTy_number {w : Text} {n : Nat} (h : number w = some n) (fuel : Nat) :
    evalTy eqTest env (fuel + 1) [.word w] = some (.int n) := by
  have hd : dropTypename [.word w] = [.word w] := by
    simp only [dropTypename]
    rw [if_neg (fun e => ne_of_number h (by decide +kernel) e.symm)]
  have hx : ∀ (v : Text) (ps : List Tok), number v = none → expect (.word v :: ps) [.word w] = none := by
    intro v ps hv
    exact expect_cons_ne (fun e => ne_of_number h hv (by injection e))
  unfold evalTy
  simp only [hd]
  rw [show lex (chars! "mpl::at_c<") = .word (chars! "mpl") :: (lex (chars! "mpl::at_c<")).tail by decide +kernel,
    show lex (chars! "mpl::int_<") = .word (chars! "mpl") :: (lex (chars! "mpl::int_<")).tail by decide +kernel,
    show lex (chars! "MessageArity<") = .word (chars! "MessageArity") :: (lex (chars! "MessageArity<")).tail
      by decide +kernel,
    show lex (chars! "mpl::equal<") = .word (chars! "mpl") :: (lex (chars! "mpl::equal<")).tail by decide +kernel,
    show lex (chars! "enable_if<") = .word (chars! "enable_if") :: (lex (chars! "enable_if<")).tail by decide +kernel,
    show lex (chars! "transmitters::TransmitterBase<") = .word (chars! "transmitters") ::
      (lex (chars! "transmitters::TransmitterBase<")).tail by decide +kernel]
  simp only [hx _ _ (show number (chars! "mpl") = none by decide +kernel),
    hx _ _ (show number (chars! "MessageArity") = none by decide +kernel),
    hx _ _ (show number (chars! "enable_if") = none by decide +kernel),
    hx _ _ (show number (chars! "transmitters") = none by decide +kernel), h, if_true]

theorem eval_messageType (C : Collection) (m : MsgType) (fuel : Nat) :
    evalTy eqTest (pairEnv C m) (fuel + 1) (lex (chars! "MessageType")) = some (.message m) := by rfl

theorem eval_sequence (C : Collection) (m : MsgType) (fuel : Nat) :
    evalTy eqTest (pairEnv C m) (fuel + 1) (lex (chars! "typename MessageType::sequence_type")) =
      some (.sequence m.fields) := by rfl

theorem eval_boundMessage (C : Collection) (m : MsgType) (fuel : Nat) :
    evalTy eqTest (boundEnv C m) (fuel + 1) (lex (chars! "typename BoundMessage::message_type")) =
      some (.message m) := by rfl

theorem eval_boundSequence (C : Collection) (m : MsgType) (fuel : Nat) :
    evalTy eqTest (boundEnv C m) (fuel + 1) (lex (chars! "typename BoundMessage::message_type::sequence_type")) =
      some (.sequence m.fields) := by rfl

/-- The field at an index, or `mpl::void_`. -/
def fieldEntity (m : MsgType) (i : Nat) : Entity :=
  match m.fields[i]? with
  | some f => .field f
  | none => .void_

theorem eval_field (fuel : Nat) {seq : List Tok} {i : Nat} {w : Text} (hseq : balanced 0 seq = true)
    (hw : number w = some i) {m : MsgType} (h : evalTy eqTest env (fuel + 1) seq = some (.sequence m.fields)) :
    evalTy eqTest env (fuel + 2) (lex (chars! "typename mpl::at_c<") ++ (seq ++ (.punct ',' :: .word w ::
      lex (chars! ">::type")))) = some (fieldEntity m i) := by
  have hg : groups 0 [] [] (seq ++ (.punct ',' :: .word w :: lex (chars! ">::type"))) =
      some ([seq, [.word w]], lex (chars! "::type")) := by
    have := groups_commas (gs := [seq, [.word w]]) (close := .punct '>') (.inr rfl) (by
      intro g hg
      simp only [List.mem_cons, List.not_mem_nil, or_false] at hg
      rcases hg with rfl | rfl
      · exact hseq
      · rfl) (by intro e; injection e with e1 e2; cases e2) (lex (chars! "::type"))
    rw [← this]
    simp only [commas, List.append_assoc, List.cons_append, List.nil_append]
    rfl
  have h1 : evalTy eqTest env (fuel + 2) (lex (chars! "typename mpl::at_c<") ++ (seq ++ (.punct ',' :: .word w ::
      lex (chars! ">::type")))) = (groups 0 [] [] (seq ++ (.punct ',' :: .word w :: lex (chars! ">::type")))).bind
      fun r => match r.1 with
        | [g, h] => if r.2 ≠ lex (chars! "::type") then none else
          match evalTy eqTest env (fuel + 1) g, evalTy eqTest env (fuel + 1) h with
          | some (.sequence fs), some (.int i) =>
            match fs[i]? with
            | some f => some (.field f)
            | none => some .void_
          | _, _ => none
        | _ => none := by rfl
  rw [h1, hg]
  simp only [Option.bind_some, ne_eq, not_true, if_false, h, evalTy_number hw]
  unfold fieldEntity
  cases m.fields[i]? <;> rfl

theorem paramOf_field {seq : List Tok} (i : Nat) (hseq : balanced 0 seq = true) {m : MsgType}
    (h : evalTy eqTest env 5 seq = some (.sequence m.fields)) :
    paramOf eqTest env (fieldParam seq i) = some (fieldEntity m i, argName (i + 1)) := by
  have e : fieldParam seq i = (lex (chars! "typename mpl::at_c<") ++ (seq ++ (.punct ',' :: .word (decimal i) ::
      lex (chars! ">::type")))) ++ [.word (argName (i + 1))] := by simp [fieldParam]
  have hl : (lex (chars! "typename mpl::at_c<") ++ (seq ++ (.punct ',' :: .word (decimal i) ::
      lex (chars! ">::type")))).getLast? = some (.word (chars! "type")) := by
    rw [show lex (chars! ">::type") = lex (chars! ">::") ++ [.word (chars! "type")] by decide +kernel]
    simp only [← List.cons_append, ← List.append_assoc, List.getLast?_concat]
  unfold paramOf
  rw [e, List.getLast?_concat]
  simp only [List.dropLast_concat, hl]
  rw [if_neg (by simp)]
  have := eval_field 4 hseq (number_decimal i) h
  unfold depth
  rw [this]
  rfl

theorem paramOf_tx_pair (C : Collection) (m : MsgType) :
    paramOf eqTest (pairEnv C m) txParam = some (.transmitter, chars! "tx") := by rfl

theorem paramOf_tx_bound (C : Collection) (m : MsgType) :
    paramOf eqTest (boundEnv C m) txParam = some (.transmitter, chars! "tx") := by rfl

theorem paramsOf_map {seq : List Tok} (hseq : balanced 0 seq = true) {m : MsgType}
    (h : evalTy eqTest env 5 seq = some (.sequence m.fields)) (is : List Nat) :
    paramsOf eqTest env (is.map (fieldParam seq)) = some (is.map fun i => (fieldEntity m i, argName (i + 1))) := by
  induction is with
  | nil => rfl
  | cons i is ih => simp [paramsOf, paramOf_field i hseq h, ih]

/-- The operands of the condition. -/
def condEqual (n : Nat) (mt : List Tok) : List Tok :=
  lex (chars! "mpl::equal<") ++ (commas [lex (chars! "mpl::int_<") ++ [.word (decimal n), .punct '>'],
    lex (chars! "MessageArity<") ++ (mt ++ [.punct '>'])] ++ [.punct '>'])

theorem groups_one {g : List Tok} (h : balanced 0 g = true) (hg : g ≠ []) (us : List Tok) :
    groups 0 [] [] (g ++ .punct '>' :: us) = some ([g], us) :=
  groups_commas (gs := [g]) (.inr rfl) (by intro x hx; simp only [List.mem_cons, List.not_mem_nil, or_false] at hx; rwa [hx])
    (by intro e; injection e with e1; exact hg e1) us

theorem groups_two {g h : List Tok} (h1 : balanced 0 g = true) (h2 : balanced 0 h = true) (us : List Tok) :
    groups 0 [] [] (commas [g, h] ++ .punct '>' :: us) = some ([g, h], us) :=
  groups_commas (gs := [g, h]) (.inr rfl) (by
    intro x hx
    simp only [List.mem_cons, List.not_mem_nil, or_false] at hx
    rcases hx with rfl | rfl
    · exact h1
    · exact h2) (by intro e; injection e with e1 e2; cases e2) us

/-- The condition of an overload. -/
theorem eval_condition {mt : List Tok} {n : Nat} {m : MsgType} (hb : balanced 0 mt = true) (hne : mt ≠ [])
    (hb1 : balanced 0 (lex (chars! "MessageArity<") ++ (mt ++ [.punct '>'])) = true)
    (hb2 : balanced 0 (condEqual n mt) = true) (hm : evalTy eqTest env 3 mt = some (.message m)) :
    (expect [.word (chars! "inline")] (condition n mt)).bind
      (evalTy eqTest env depth) = if eqTest n m.fields.length then some .nothing else none := by
  have e0 : condition n mt = .word (chars! "inline") :: (lex (chars! "typename enable_if<") ++
      (commas [condEqual n mt, [.word (chars! "void")]] ++ .punct '>' :: lex (chars! "::type"))) := by
    unfold condition condEqual
    rw [show lex (chars! "inline typename enable_if< mpl::equal<mpl::int_<") = .word (chars! "inline") ::
      (lex (chars! "typename enable_if<") ++ (lex (chars! "mpl::equal<") ++ lex (chars! "mpl::int_<"))) by decide +kernel,
      show lex (chars! ">, MessageArity<") = .punct '>' :: .punct ',' :: lex (chars! "MessageArity<") by decide +kernel,
      show lex (chars! "> >, void>::type") = .punct '>' :: .punct '>' :: .punct ',' :: .word (chars! "void") ::
        .punct '>' :: lex (chars! "::type") by decide +kernel]
    simp [commas]
  have s1 : ∀ us, evalTy eqTest env 6 (lex (chars! "typename enable_if<") ++ us) = (groups 0 [] [] us).bind
      fun r => match r.1 with
      | [g, h] =>
        if r.2 ≠ lex (chars! "::type") then none else
        match evalTy eqTest env 5 g with
        | some (.bool true) => evalTy eqTest env 5 h
        | _ => none
      | _ => none := fun us => by rfl
  have s2 : ∀ us, evalTy eqTest env 5 (lex (chars! "mpl::equal<") ++ us) = (groups 0 [] [] us).bind
      fun r => match r.1 with
      | [g, h] =>
        if r.2 ≠ [] then none else
        match evalTy eqTest env 4 g, evalTy eqTest env 4 h with
        | some (.int a), some (.int b) => some (.bool (eqTest a b))
        | _, _ => none
      | _ => none := fun us => by rfl
  have s3 : ∀ us, evalTy eqTest env 4 (lex (chars! "mpl::int_<") ++ us) = (groups 0 [] [] us).bind
      fun r => match r.1 with
      | [g] => if r.2 ≠ [] then none else evalTy eqTest env 3 g
      | _ => none := fun us => by rfl
  have s4 : ∀ us, evalTy eqTest env 4 (lex (chars! "MessageArity<") ++ us) = (groups 0 [] [] us).bind
      fun r => match r.1 with
      | [g] => if r.2 ≠ [] then none else
        match evalTy eqTest env 3 g with
        | some (.message m) => some (.int (messageArity m))
        | _ => none
      | _ => none := fun us => by rfl
  have r3 : evalTy eqTest env 4 (lex (chars! "mpl::int_<") ++ [.word (decimal n), .punct '>']) = some (.int n) := by
    rw [s3, show ([.word (decimal n), .punct '>'] : List Tok) = [.word (decimal n)] ++ .punct '>' :: [] from rfl,
      groups_one (by rfl) (by simp)]
    simp [evalTy_number (number_decimal n)]
  have r4 : evalTy eqTest env 4 (lex (chars! "MessageArity<") ++ (mt ++ [.punct '>'])) =
      some (.int m.fields.length) := by
    rw [s4, groups_one hb hne]
    simp [hm, messageArity]
  have r2 : evalTy eqTest env 5 (condEqual n mt) = some (.bool (eqTest n m.fields.length)) := by
    unfold condEqual
    rw [s2, groups_two (by rfl) hb1]
    simp [r3, r4]
  rw [e0]
  have hx : ∀ us, expect [.word (chars! "inline")] (.word (chars! "inline") :: us) = some us := fun us => by rfl
  rw [hx, Option.bind_some]
  show evalTy eqTest env 6 _ = _
  rw [s1, groups_two hb2 (by rfl)]
  simp only [Option.bind_some, ne_eq, not_true, if_false, r2]
  cases eqTest n m.fields.length
  · rfl
  · rfl

theorem eval_condition_pair (C : Collection) (m : MsgType) (n : Nat) :
    (expect [.word (chars! "inline")] (condition n (lex (chars! "MessageType")))).bind
      (evalTy eqTest (pairEnv C m) depth) = if eqTest n m.fields.length then some .nothing else none :=
  eval_condition (by decide +kernel) (by decide +kernel) (by decide +kernel) (by rfl) (by rfl)

theorem eval_condition_bound (C : Collection) (m : MsgType) (n : Nat) :
    (expect [.word (chars! "inline")] (condition n (lex (chars! "typename BoundMessage::message_type")))).bind
      (evalTy eqTest (boundEnv C m) depth) = if eqTest n m.fields.length then some .nothing else none :=
  eval_condition (by decide +kernel) (by decide +kernel) (by decide +kernel) (by rfl) (by rfl)

/-- The arguments converted to the first fields. -/
def convert : List FieldType → List Arg → Option (List Value)
  | _, [] => some []
  | f :: fs, .expr e :: as => (e.conv f).bind fun bs => (convert fs as).map (⟨f, bs⟩ :: ·)
  | _, _ => none

theorem convert_length : ∀ {fs : List FieldType} {as : List Arg} {vs : List Value}, convert fs as = some vs →
    vs.length = as.length ∧ vs.map (·.ty) = fs.take as.length
  | fs, [], vs, h => by cases fs <;> (simp only [convert, Option.some.injEq] at h; subst h; simp)
  | [], .expr _ :: _, _, h => by simp [convert] at h
  | [], .seq _ :: _, _, h => by simp [convert] at h
  | _ :: _, .seq _ :: _, _, h => by simp [convert] at h
  | f :: fs, .expr e :: as, vs, h => by
    simp only [convert, Option.bind_eq_some_iff, Option.map_eq_some_iff] at h
    obtain ⟨bs, _, ws, hw, rfl⟩ := h
    obtain ⟨h1, h2⟩ := convert_length hw
    simp [h1, h2]

theorem bindArgs_length : ∀ {ps : List (Entity × Text)} {as : List Arg}, ps.length ≠ as.length → bindArgs ps as = none
  | [], [], h => absurd rfl h
  | [], _ :: _, _ => rfl
  | _ :: _, [], _ => rfl
  | p :: ps, a :: as, h => by
    have : bindArgs ps as = none := bindArgs_length (by simpa using h)
    simp [bindArgs, this]

theorem bindArgs_convert (m : MsgType) : ∀ (as : List Arg) (a : Nat),
    bindArgs ((List.range' a as.length).map fun i => (fieldEntity m i, argName (i + 1))) as =
      (convert (m.fields.drop a) as).map ((List.range' a as.length).map (fun i => argName (i + 1))).zip
  | [], a => by
    cases m.fields.drop a <;> rfl
  | x :: as, a => by
    simp only [List.length_cons, List.range'_succ, List.map_cons, bindArgs]
    rw [bindArgs_convert m as (a + 1)]
    cases hf : m.fields[a]? with
    | none =>
      have hd : m.fields.drop a = [] := by
        rw [List.drop_eq_nil_iff]; simpa using hf
      rw [hd]
      cases x <;> simp [bindArg, fieldEntity, hf, convert]
    | some f =>
      have hd : m.fields.drop a = f :: m.fields.drop (a + 1) := by
        obtain ⟨h, rfl⟩ := List.getElem?_eq_some_iff.mp hf
        exact List.drop_eq_getElem_cons h
      rw [hd]
      cases x with
      | seq vs => simp [bindArg, fieldEntity, hf, convert]
      | expr e =>
        simp only [bindArg, fieldEntity, hf, convert]
        cases e.conv f with
        | none => rfl
        | some bs =>
          simp only [Option.map_some, Option.bind_some]
          cases convert (m.fields.drop (a + 1)) as <;> rfl

theorem argName_inj {i j : Nat} (h : argName i = argName j) : i = j :=
  decimal_inj (List.append_cancel_left h)

theorem variables_prefix (vs : List Value) : ∀ (a : Nat) (pre : List (Text × Value)),
    (∀ p ∈ pre, ∀ i, a ≤ i → p.1 ≠ argName (i + 1)) →
    variables (pre ++ ((List.range' a vs.length).map (fun i => argName (i + 1))).zip vs)
      ((List.range' a vs.length).map fun i => [.word (argName (i + 1))]) = some vs := by
  induction vs with
  | nil => intro a pre _; rfl
  | cons v vs ih =>
    intro a pre hpre
    simp only [List.length_cons, List.range'_succ, List.map_cons, List.zip_cons_cons, variables]
    have hl : (pre ++ (argName (a + 1), v) :: ((List.range' (a + 1) vs.length).map (fun i => argName (i + 1))).zip vs).lookup
        (argName (a + 1)) = some v := by
      clear ih
      induction pre with
      | nil => simp
      | cons p pre ihp =>
        have h1 : p.1 ≠ argName (a + 1) := hpre p (by simp) a (Nat.le_refl a)
        have h2 : (argName (a + 1) == p.1) = false := by simpa using fun e => h1 e.symm
        rw [List.cons_append, List.lookup_cons, h2]
        exact ihp (fun q hq => hpre q (by simp [hq]))
    rw [hl]
    have := ih (a + 1) (pre ++ [(argName (a + 1), v)]) (by
      intro p hp i hi
      simp only [List.mem_append, List.mem_cons, List.not_mem_nil, or_false] at hp
      rcases hp with hp | rfl
      · exact hpre p hp i (by omega)
      · intro e
        have := argName_inj e
        omega)
    rw [List.append_assoc] at this
    simp only [List.cons_append, List.nil_append] at this
    rw [Option.bind_some, this]
    rfl

theorem viable_of {ex : List Entity} {f : Fn} {names : List Text} {m : MsgType} {n : Nat} (as : List Arg)
    (hn : tparamNames f.tparams = some names) (hl : names.length = ex.length + 1)
    (henv : names.zip (ex ++ [.derived]) = env)
    (hc : (expect [.word (chars! "inline")] f.result).bind (evalTy eqTest env depth) =
      if eqTest n m.fields.length then some .nothing else none)
    (hp : paramsOf eqTest env f.params = some ((.transmitter, chars! "tx") ::
      (List.range n).map fun i => (fieldEntity m i, argName (i + 1)))) :
    viable eqTest ex as f =
      if eqTest n m.fields.length = true ∧ as.length = n then
        (convert m.fields as).map fun vs => ⟨f, env, (List.range n).map (fieldEntity m),
          ((List.range n).map (fun i => argName (i + 1))).zip vs⟩
      else none := by
  unfold viable
  simp only [hn, hl, henv, bind, Option.bind_some, ne_eq, not_true, if_false]
  cases hr : expect [.word (chars! "inline")] f.result with
  | none =>
    rw [hr] at hc
    simp only [Option.bind_none] at hc ⊢
    split
    · rename_i h; rw [if_pos h.1] at hc; cases hc
    · rfl
  | some r =>
    rw [hr, Option.bind_some] at hc
    simp only [hc, hp]
    by_cases he : eqTest n m.fields.length = true
    · simp only [he, if_true, true_and]
      by_cases hl : as.length = n
      · subst hl
        have := bindArgs_convert m as 0
        rw [← List.range_eq_range'] at this
        rw [this, if_pos rfl]
        simp only [List.drop_zero, Option.map_map, List.map_map]
        rfl
      · rw [if_neg hl, bindArgs_length (by simpa using fun e => hl e.symm)]
        rfl
    · simp [he]

/-- The generated functions for collection and message, as far as a call sees them. -/
theorem viable_pair (C : Collection) (m : MsgType) (as : List Arg) (n : Nat) :
    viable eqTest [.collection C, .message m] as (pairFn n) =
      if eqTest n m.fields.length = true ∧ as.length = n then
        (convert m.fields as).map fun vs => ⟨pairFn n, pairEnv C m, (List.range n).map (fieldEntity m),
          ((List.range n).map (fun i => argName (i + 1))).zip vs⟩
      else none := by
  have hp := paramsOf_map (eqTest := eqTest) (env := pairEnv C m) (m := m)
    (seq := lex (chars! "typename MessageType::sequence_type")) (by decide +kernel) (by rfl) (List.range n)
  refine viable_of (names := [chars! "MessageCollectionType", chars! "MessageType", chars! "TransmitterDerived"]) as
    ?_ rfl rfl (eval_condition_pair C m n) ?_
  · show tparamNames [_, _, _] = _
    decide +kernel
  · show paramsOf eqTest (pairEnv C m) (txParam :: _) = _
    simp only [paramsOf, paramOf_tx_pair, Option.bind_some, hp, Option.map_some]

/-- The generated functions for bound messages, as far as a call sees them. -/
theorem viable_bound (C : Collection) (m : MsgType) (as : List Arg) (n : Nat) :
    viable eqTest [.bound C m] as (boundFn n) =
      if eqTest n m.fields.length = true ∧ as.length = n then
        (convert m.fields as).map fun vs => ⟨boundFn n, boundEnv C m, (List.range n).map (fieldEntity m),
          ((List.range n).map (fun i => argName (i + 1))).zip vs⟩
      else none := by
  have hp := paramsOf_map (eqTest := eqTest) (env := boundEnv C m) (m := m)
    (seq := lex (chars! "typename BoundMessage::message_type::sequence_type")) (by decide +kernel) (by rfl)
    (List.range n)
  refine viable_of (names := [chars! "BoundMessage", chars! "TransmitterDerived"]) as ?_ rfl rfl
    (eval_condition_bound C m n) ?_
  · show tparamNames [_, _] = _
    decide +kernel
  · show paramsOf eqTest (boundEnv C m) (txParam :: _) = _
    simp only [paramsOf, paramOf_tx_bound, Option.bind_some, hp, Option.map_some]

theorem viable_pair_bound (C : Collection) (m : MsgType) (as : List Arg) (n : Nat) :
    viable eqTest [.collection C, .message m] as (boundFn n) = none := by
  have : tparamNames (boundFn n).tparams = some [chars! "BoundMessage", chars! "TransmitterDerived"] := by
    show tparamNames [_, _] = _
    decide +kernel
  unfold viable
  simp [this, bind]

theorem viable_bound_pair (C : Collection) (m : MsgType) (as : List Arg) (n : Nat) :
    viable eqTest [.bound C m] as (pairFn n) = none := by
  have : tparamNames (pairFn n).tparams =
      some [chars! "MessageCollectionType", chars! "MessageType", chars! "TransmitterDerived"] := by
    show tparamNames [_, _, _] = _
    decide +kernel
  unfold viable
  simp [this, bind]

theorem variables_names {n : Nat} {vs : List Value} (h : vs.length = n) :
    variables (((List.range n).map (fun i => argName (i + 1))).zip vs)
      ((List.range n).map fun i => [.word (argName (i + 1))]) = some vs := by
  subst h
  have := variables_prefix vs 0 [] (by simp)
  rw [← List.range_eq_range'] at this
  exact this

theorem balanced_words (d : Nat) (us : List Tok) {α : Type} (w : α → Text) (xs : List α) :
    balanced (d + 1) (commas (xs.map fun x => [.word (w x)]) ++ us) = balanced (d + 1) us := by
  induction xs with
  | nil => rfl
  | cons x xs ih =>
    cases xs with
    | nil => rfl
    | cons y xs => exact ih

/-- What the body of a generated function does. -/
theorem call_of {v : Viable} {C : Collection} {m : MsgType} {n : Nat} {vs : List Value} {mc mt : List Tok}
    (hbody : v.fn.body = sendBody n mc mt) (h1 : balanced 0 mc = true) (h2 : balanced 0 mt = true)
    (hC : evalTy eqTest v.env depth mc = some (.collection C)) (hm : evalTy eqTest v.env depth mt = some (.message m))
    (hv : v.values = ((List.range n).map (fun i => argName (i + 1))).zip vs) (hl : vs.length = n) :
    v.call eqTest = some (C, m, vs) := by
  have hexp : ∀ p ts, expect p (p ++ ts) = some ts := fun p ts => expect_append p ts
  have e : sendBody n mc mt = lex (chars! "::transmission::send<") ++ (commas [mc, mt] ++ .punct '>' ::
      ([.punct '('] ++ (commas [[.word (chars! "tx")], lex (chars! "fusion::make_list(") ++
        (commas ((List.range n).map fun i => [.word (argName (i + 1))]) ++ .punct ')' :: [])] ++ .punct ')' :: [.punct ';']))) := by
    unfold sendBody
    rw [show lex (chars! ">(tx,fusion::make_list(") = .punct '>' :: .punct '(' :: .word (chars! "tx") :: .punct ',' ::
      lex (chars! "fusion::make_list(") by decide +kernel,
      show lex (chars! "));") = [.punct ')', .punct ')', .punct ';'] by decide +kernel]
    simp [commas]
  have hb : balanced 0 (lex (chars! "fusion::make_list(") ++
      (commas ((List.range n).map fun i => [.word (argName (i + 1))]) ++ .punct ')' :: [])) = true :=
    balanced_words 0 [.punct ')'] (fun i => argName (i + 1)) (List.range n)
  have hg1 : groups 0 [] [] (commas [[.word (chars! "tx")], lex (chars! "fusion::make_list(") ++
        (commas ((List.range n).map fun i => [.word (argName (i + 1))]) ++ .punct ')' :: [])] ++ .punct ')' :: [.punct ';']) =
      some ([[.word (chars! "tx")], lex (chars! "fusion::make_list(") ++
        (commas ((List.range n).map fun i => [.word (argName (i + 1))]) ++ .punct ')' :: [])], [.punct ';']) :=
    groups_commas (.inl rfl) (by
      intro x hx
      simp only [List.mem_cons, List.not_mem_nil, or_false] at hx
      rcases hx with rfl | rfl
      · rfl
      · exact hb) (by intro e; injection e with e1 e2; cases e2) _
  have hg2 : groups 0 [] [] (commas ((List.range n).map fun i => [.word (argName (i + 1))]) ++ .punct ')' :: []) =
      some ((List.range n).map fun i => [.word (argName (i + 1))], []) :=
    groups_commas (.inl rfl) (by
      intro x hx
      obtain ⟨i, _, rfl⟩ := List.mem_map.mp hx
      rfl) (by
      intro e
      cases hr : List.range n with
      | nil => rw [hr] at e; cases e
      | cons i is => rw [hr] at e; simp at e) _
  unfold Viable.call
  rw [hbody, e, expect_append]
  simp only [bind, Option.bind_some]
  rw [groups_two h1 h2]
  simp only [Option.bind_some, expect_append, hg1, ne_eq, not_true, if_false, hC, hm, hg2, hv, variables_names hl]
  rfl

/-- The functions in the header that the macros let through. -/
def overloads (ms : Macros) (k : Nat) : List Fn :=
  ((List.range (k + 1)).filter fun n => decide (n ≤ (ms.lookup listSize).getD 0)).flatMap fun n => [pairFn n, boundFn n]

theorem filterMap_nodup {α β : Type} [DecidableEq α] {g : α → List β} {x : α} (h : ∀ y, y ≠ x → g y = []) {ns : List α}
    (hn : ns.Nodup) : ns.flatMap g = if x ∈ ns then g x else [] := by
  induction ns with
  | nil => rfl
  | cons y ns ih =>
    rw [List.nodup_cons] at hn
    rw [List.flatMap_cons, ih hn.2]
    by_cases hy : y = x
    · subst hy
      rw [if_neg hn.1, if_pos (by simp)]; simp
    · rw [h y hy]
      have : x ≠ y := fun e => hy e.symm
      simp [this]

theorem filterMap_overloads {ex : List Entity} {as : List Arg} {fn : Nat → Fn} (ms : Macros) (k : Nat)
    (h : ∀ n, [pairFn n, boundFn n].filterMap (viable eqTest ex as) = (viable eqTest ex as (fn n)).toList)
    (hl : ∀ n, n ≠ as.length → viable eqTest ex as (fn n) = none) :
    (overloads ms k).filterMap (viable eqTest ex as) =
      if as.length ≤ k ∧ as.length ≤ (ms.lookup listSize).getD 0 then (viable eqTest ex as (fn as.length)).toList
      else [] := by
  unfold overloads
  rw [List.filterMap_flatMap]
  have e : (fun n => [pairFn n, boundFn n].filterMap (viable eqTest ex as)) =
      fun n => (viable eqTest ex as (fn n)).toList := funext h
  rw [e, filterMap_nodup (x := as.length) (fun y hy => by rw [hl y hy]; rfl)
    (List.Pairwise.filter _ List.nodup_range)]
  simp only [List.mem_filter, List.mem_range, decide_eq_true_eq, Nat.lt_succ_iff]

theorem exact_fieldEntity (m : MsgType) (e : Expr) :
    ([fieldEntity m 0].all ((Arg.expr e).exact ·)) = true ↔ ∃ f, m.fields[0]? = some f ∧ e.ty = some f := by
  unfold fieldEntity
  cases m.fields[0]? with
  | none => simp [Arg.exact]
  | some f => simp [Arg.exact]

/-- The outcome of a call, given which generated function is viable. -/
theorem callSend_of {σ : Type} {fs : List Fn} {ex : List Entity} {T : Tx σ} {s : σ} {as : List Arg} {C : Collection}
    {m : MsgType} {lim : Prop} [Decidable lim] {v : List Value → Viable}
    (heq : ∀ a, eqTest a a = true)
    (hv : fs.filterMap (viable eqTest ex as) = if lim then
      (if eqTest as.length m.fields.length = true then (convert m.fields as).map v else none).toList else [])
    (htypes : ∀ vs, (v vs).types = (List.range as.length).map (fieldEntity m))
    (hcall : ∀ vs, convert m.fields as = some vs → (v vs).call eqTest = some (C, m, vs))
    (hmain : ∀ vs, callMain ex T s (.seq vs) = send C m T s vs)
    (hmain' : ∀ e, callMain ex T s (.expr e) = none) (r : Res σ) :
    callSend eqTest fs ex T s as = some r ↔
      (∃ vs, as = [.seq vs] ∧ send C m T s vs = some r) ∨
      (∃ vs, convert m.fields as = some vs ∧ as.length = m.fields.length ∧ lim ∧
        (∀ e, as = [.expr e] → ∃ f, m.fields[0]? = some f ∧ e.ty = some f) ∧ send C m T s vs = some r) := by
  have hsend : ∀ vs, convert m.fields as = some vs → send C m T s vs = some r → as.length = m.fields.length := by
    intro vs h1 h2
    obtain ⟨h3, h4⟩ := convert_length h1
    have hm : vs.map (·.ty) = m.fields := by
      unfold send at h2
      split at h2
      · rename_i h
        simp only [Bool.and_eq_true, contentsMatch, decide_eq_true_eq] at h
        exact h.2
      · cases h2
    rw [← h3, ← hm, List.length_map]
  unfold callSend
  rw [hv]
  cases hc : convert m.fields as with
  | none =>
    have e : (if lim then (if eqTest as.length m.fields.length = true then Option.map v none else none).toList else []) =
        ([] : List Viable) := by
      by_cases h1 : lim
      · rw [if_pos h1]; split <;> rfl
      · rw [if_neg h1]
    rw [e]
    constructor
    · intro h
      match as, hc with
      | [], hc => cases hm : m.fields <;> (rw [hm] at hc; simp [convert] at hc)
      | [.seq vs], _ => exact .inl ⟨vs, rfl, by rw [← hmain]; exact h⟩
      | [.expr e], _ => simp [hmain'] at h
      | _ :: _ :: _, _ => simp at h
    · rintro (⟨vs, rfl, h⟩ | ⟨vs, h, _⟩)
      · simpa [hmain] using h
      · cases h
  | some vs =>
    have hnotseq : ∀ ws, as ≠ [.seq ws] := by
      rintro ws rfl
      cases hm : m.fields <;> (rw [hm] at hc; simp [convert] at hc)
    have hpos : lim ∧ eqTest as.length m.fields.length = true →
        (if lim then (if eqTest as.length m.fields.length = true then Option.map v (some vs) else none).toList else []) =
        [v vs] := by
      rintro ⟨h1, h2⟩
      rw [if_pos h1, if_pos h2]; rfl
    have hneg : ¬ (lim ∧ eqTest as.length m.fields.length = true) →
        (if lim then (if eqTest as.length m.fields.length = true then Option.map v (some vs) else none).toList else []) =
        ([] : List Viable) := by
      intro h
      by_cases h1 : lim
      · rw [if_pos h1, if_neg (fun h2 => h ⟨h1, h2⟩)]; rfl
      · rw [if_neg h1]
    have hcl := hcall vs hc
    by_cases hlim : lim ∧ eqTest as.length m.fields.length = true
    · rw [hpos hlim]
      match as, hnotseq, hc, htypes, hsend with
      | [], _, hc, _, hsend =>
        simp only [hcl, Option.bind_some]
        constructor
        · intro h
          exact .inr ⟨vs, rfl, hsend vs hc h, hlim.1, (by intro e he; cases he), h⟩
        · rintro (⟨ws, h, _⟩ | ⟨ws, h, _, _, _, h'⟩)
          · cases h
          · cases h; exact h'
      | [.seq ws], hns, _, _, _ => exact absurd rfl (hns ws)
      | [.expr e], _, hc, htypes, hsend =>
        have ht : (v vs).types = [fieldEntity m 0] := htypes vs
        simp only [hcl, Option.bind_some, ht]
        constructor
        · intro h
          split at h
          · rename_i hx
            refine .inr ⟨vs, rfl, hsend vs hc h, hlim.1, ?_, h⟩
            intro e' he
            injection he with he
            injection he with he
            subst he
            exact (exact_fieldEntity m e).mp hx
          · rw [hmain'] at h; cases h
        · rintro (⟨ws, h, _⟩ | ⟨ws, h, _, _, hx, h'⟩)
          · cases h
          · cases h
            rw [if_pos ((exact_fieldEntity m e).mpr (hx e rfl))]
            exact h'
      | a :: b :: as, _, hc, _, hsend =>
        simp only [hcl, Option.bind_some]
        constructor
        · intro h
          exact .inr ⟨vs, rfl, hsend vs hc h, hlim.1, (by intro e he; cases he), h⟩
        · rintro (⟨ws, h, _⟩ | ⟨ws, h, _, _, _, h'⟩)
          · cases h
          · cases h; exact h'
    · rw [hneg hlim]
      constructor
      · intro h
        match as, hnotseq with
        | [], _ => simp at h
        | [.seq ws], hns => exact absurd rfl (hns ws)
        | [.expr e], _ => simp [hmain'] at h
        | _ :: _ :: _, _ => simp at h
      · rintro (⟨ws, h, _⟩ | ⟨ws, h, h1, h2, _, _⟩)
        · exact absurd h (hnotseq ws)
        · exact absurd ⟨h2, by rw [h1]; exact heq _⟩ hlim

/-- Calls with collection and message as template arguments. -/
theorem callSend_pair {σ : Type} (heq : ∀ a, eqTest a a = true) (ms : Macros) (k : Nat) (C : Collection) (m : MsgType)
    (T : Tx σ) (s : σ) (as : List Arg) (r : Res σ) :
    callSend eqTest (overloads ms k) [.collection C, .message m] T s as = some r ↔
      (∃ vs, as = [.seq vs] ∧ send C m T s vs = some r) ∨
      (∃ vs, convert m.fields as = some vs ∧ as.length = m.fields.length ∧
        (as.length ≤ k ∧ as.length ≤ (ms.lookup listSize).getD 0) ∧
        (∀ e, as = [.expr e] → ∃ f, m.fields[0]? = some f ∧ e.ty = some f) ∧ send C m T s vs = some r) := by
  refine callSend_of (v := fun vs => ⟨pairFn as.length, pairEnv C m, (List.range as.length).map (fieldEntity m),
    ((List.range as.length).map (fun i => argName (i + 1))).zip vs⟩) heq ?_ (fun _ => rfl) ?_ (fun _ => rfl)
    (fun _ => rfl) r
  · rw [filterMap_overloads (fn := pairFn) ms k (fun n => by
      simp only [List.filterMap_cons, List.filterMap_nil, viable_pair_bound]
      cases viable eqTest [.collection C, .message m] as (pairFn n) <;> rfl) (fun n hn => by
      rw [viable_pair, if_neg (fun h => hn h.2.symm)])]
    rw [viable_pair]
    simp only [and_true]
  · intro vs hv
    exact call_of (n := as.length) (mc := lex (chars! "MessageCollectionType")) (mt := lex (chars! "MessageType")) rfl
      (by decide +kernel) (by decide +kernel) (by rfl) (by rfl) rfl (convert_length hv).1

/-- Calls with a bound message as template argument. -/
theorem callSend_bound {σ : Type} (heq : ∀ a, eqTest a a = true) (ms : Macros) (k : Nat) (C : Collection) (m : MsgType)
    (T : Tx σ) (s : σ) (as : List Arg) (r : Res σ) :
    callSend eqTest (overloads ms k) [.bound C m] T s as = some r ↔
      (∃ vs, as = [.seq vs] ∧ send C m T s vs = some r) ∨
      (∃ vs, convert m.fields as = some vs ∧ as.length = m.fields.length ∧
        (as.length ≤ k ∧ as.length ≤ (ms.lookup listSize).getD 0) ∧
        (∀ e, as = [.expr e] → ∃ f, m.fields[0]? = some f ∧ e.ty = some f) ∧ send C m T s vs = some r) := by
  refine callSend_of (v := fun vs => ⟨boundFn as.length, boundEnv C m, (List.range as.length).map (fieldEntity m),
    ((List.range as.length).map (fun i => argName (i + 1))).zip vs⟩) heq ?_ (fun _ => rfl) ?_ (fun _ => rfl)
    (fun _ => rfl) r
  · rw [filterMap_overloads (fn := boundFn) ms k (fun n => by
      simp only [List.filterMap_cons, List.filterMap_nil, viable_bound_pair]
      cases viable eqTest [.bound C m] as (boundFn n) <;> rfl) (fun n hn => by
      rw [viable_bound, if_neg (fun h => hn h.2.symm)])]
    rw [viable_bound]
    simp only [and_true]
  · intro vs hv
    exact call_of (n := as.length) (mc := lex (chars! "typename BoundMessage::message_collection"))
      (mt := lex (chars! "typename BoundMessage::message_type")) rfl
      (by decide +kernel) (by decide +kernel) (by rfl) (by rfl) rfl (convert_length hv).1

end TT.Cpp
