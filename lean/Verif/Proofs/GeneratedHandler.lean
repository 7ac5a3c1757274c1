import Verif.Model.HandlerCalls
import Verif.Proofs.GeneratedSend

/-!
# The function templates in the generated text of `PartialHandlerBase`
-/

namespace TT.Cpp
open TT.Gen

/-! ### Lists of texts -/

/-- The text has these tokens in front of anything that does not continue a word. -/
def Item (t : Text) (ts : List Tok) : Prop := ∀ s us m, startsPlain s = true → lexGo (.code []) s = (us, m) →
  lexGo (.code []) (t ++ s) = (ts ++ us, m)

theorem Ends.item {t : Text} {ts : List Tok} {w : Text} (h : Ends t ts w) : Item t (tokensOf ts w) :=
  fun _ _ _ hc hu => h.then_ hc hu

theorem item_of_code {t : Text} {ts : List Tok} (h : lexGo (.code []) t = (ts, .code [])) : Item t ts :=
  fun _ _ _ _ hu => Lexes.trans h hu

theorem lex_items {xs : List (Text × List Tok)} (h : ∀ x ∈ xs, Item x.1 x.2) {t : Text} {vs : List Tok} {m : LexMode}
    (hc : startsPlain t = true) (hv : lexGo (.code []) t = (vs, m)) :
    lexGo (.code []) (cat (xs.map (·.1)) (chars! ", ") ++ t) = (commas (xs.map (·.2)) ++ vs, m) := by
  induction xs with
  | nil => simpa [cat, commas] using hv
  | cons x xs ih =>
    have ih := ih (fun y hy => h y (by simp [hy]))
    cases xs with
    | nil => exact h x (by simp) _ _ _ hc hv
    | cons y xs =>
      have h1 := Lexes.trans (m := .code []) (m1 := .code []) (s := chars! ", ") (a := [.punct ',']) (by decide +kernel) ih
      have h2 := h x (by simp) _ _ _ (by rfl) h1
      simp only [List.map_cons, cat, commas, List.append_assoc, List.cons_append, List.nil_append] at h2 ⊢
      exact h2

theorem cat_nested (l1 : List Text) {l2 : List Text} (l3 : List Text) (sep : Text) (h : l2 ≠ []) :
    cat (l1 ++ cat l2 sep :: l3) sep = cat (l1 ++ (l2 ++ l3)) sep := by
  have h0 : cat (cat l2 sep :: l3) sep = cat (l2 ++ l3) sep := by
    induction l2 with
    | nil => exact absurd rfl h
    | cons a l2 ih =>
      cases l2 with
      | nil => rfl
      | cons b l2 =>
        have ih := ih (by simp)
        cases l3 with
        | nil => simp [cat]
        | cons c l3 =>
          simp only [cat, List.cons_append, List.append_assoc] at ih ⊢
          rw [ih]
  induction l1 with
  | nil => exact h0
  | cons a l1 ih =>
    cases l1 with
    | nil =>
      cases l2 with
      | nil => exact absurd rfl h
      | cons b l2 =>
        simp only [List.cons_append, List.nil_append, cat] at ih ⊢
        rw [ih]
    | cons b l1 => simp only [List.cons_append, cat] at ih ⊢; rw [ih]

/-! ### One arity -/

/-- The name of a template parameter. -/
def tName (i : Nat) : Text := chars! "T" ++ decimal i

theorem tName_ends (i : Nat) : Ends (tName i) [] (tName i) := by
  refine ⟨?_, by simp [tName]⟩
  unfold tName
  rw [Lexes.trans (a := []) (m1 := .code (chars! "T")) (by decide +kernel) (lexGo_decimal _ _)]
  rfl

theorem tName_inj {i j : Nat} (h : tName i = tName j) : i = j := decimal_inj (List.append_cancel_left h)

/-- The parameter that only message types have. -/
def tagParam : List Tok := lex (chars! "typename M::message_type_tag * = NULL")

/-- The parameter that keeps sequences out. -/
def seqParam : List Tok :=
  lex (chars! "typename boost::disable_if<boost::fusion::traits::is_sequence<T1> >::type * = NULL")

/-- The default for an arity. -/
def defaultFn (arity : Nat) : Fn where
  tparams := lex (chars! "typename M") :: (List.range arity).map fun i => [.word (chars! "typename"), .word (tName (i + 1))]
  result := [.word (chars! "void")]
  name := chars! "operator"
  params := lex (chars! "M const &") :: ((List.range arity).map (fun i => [.word (tName (i + 1))]) ++
    (tagParam :: if arity = 1 then [seqParam] else []))
  body := []

/-- Its tokens. -/
def defaultToks (arity : Nat) : List Tok :=
  lex (chars! "template<") ++ (commas (defaultFn arity).tparams ++ (.punct '>' :: (lex (chars! "void operator()(") ++
    (commas (defaultFn arity).params ++ lex (chars! ") {}")))))

theorem lex_argumentTypes (arity : Nat) {t : Text} {vs : List Tok} {m : LexMode} (hc : startsPlain t = true)
    (hv : lexGo (.code []) t = (vs, m)) :
    lexGo (.code []) (cat (PartialHandler.argumentTypes arity) (chars! ", ") ++ t) =
      (commas (defaultFn arity).tparams ++ vs, m) := by
  have h := lex_items (xs := (chars! "typename M", lex (chars! "typename M")) :: (List.range arity).map fun i =>
      (chars! "typename T" ++ decimal (i + 1), [.word (chars! "typename"), .word (tName (i + 1))])) (by
    intro x hx
    simp only [List.mem_cons, List.mem_map] at hx
    rcases hx with rfl | ⟨i, _, rfl⟩
    · have := Ends.item (t := chars! "typename M") (ts := [.word (chars! "typename")]) (w := chars! "M")
        (by constructor <;> decide +kernel)
      have e : tokensOf [.word (chars! "typename")] (chars! "M") = lex (chars! "typename M") := by decide +kernel
      rw [e] at this
      exact this
    · refine Ends.item (ts := [.word (chars! "typename")]) (w := tName (i + 1)) ⟨?_, by simp [tName]⟩
      show lexGo (.code []) (chars! "typename T" ++ decimal (i + 1)) = _
      rw [Lexes.trans (a := [.word (chars! "typename")]) (m1 := .code (chars! "T")) (by decide +kernel)
        (lexGo_decimal _ _)]
      rfl) hc hv
  have e : cat (PartialHandler.argumentTypes arity) (chars! ", ") = cat (((chars! "typename M", lex (chars! "typename M")) ::
      (List.range arity).map fun i => (chars! "typename T" ++ decimal (i + 1),
        ([.word (chars! "typename"), .word (tName (i + 1))] : List Tok))).map (·.1)) (chars! ", ") := by
    unfold PartialHandler.argumentTypes
    cases arity with
    | zero => rfl
    | succ n =>
      rw [if_pos (Nat.succ_pos n)]
      have := cat_nested [chars! "typename M"] (l2 := (List.range (n + 1)).map fun i => chars! "typename T" ++ decimal (i + 1))
        [] (chars! ", ") (by simp [List.range_succ])
      refine this.trans ?_
      simp [List.map_map, Function.comp_def]
  rw [e, h]
  simp [defaultFn, List.map_map, Function.comp_def]

theorem lex_arguments_default (arity : Nat) {t : Text} {vs : List Tok} {m : LexMode} (hc : startsPlain t = true)
    (hv : lexGo (.code []) t = (vs, m)) :
    lexGo (.code []) (cat (PartialHandler.arguments arity) (chars! ", ") ++ t) =
      (commas (defaultFn arity).params ++ vs, m) := by
  have htag : Item (chars! "typename M::message_type_tag * = NULL") tagParam := by
    have := Ends.item (t := chars! "typename M::message_type_tag * = NULL")
      (ts := lex (chars! "typename M::message_type_tag * =")) (w := chars! "NULL") (by constructor <;> decide +kernel)
    have e : tokensOf (lex (chars! "typename M::message_type_tag * =")) (chars! "NULL") = tagParam := by decide +kernel
    rw [e] at this
    exact this
  have hseq : Item (chars! "typename boost::disable_if<boost::fusion::traits::is_sequence<T1> >::type * = NULL") seqParam := by
    have := Ends.item (t := chars! "typename boost::disable_if<boost::fusion::traits::is_sequence<T1> >::type * = NULL")
      (ts := lex (chars! "typename boost::disable_if<boost::fusion::traits::is_sequence<T1> >::type * ="))
      (w := chars! "NULL") (by constructor <;> decide +kernel)
    have e : tokensOf (lex (chars! "typename boost::disable_if<boost::fusion::traits::is_sequence<T1> >::type * ="))
      (chars! "NULL") = seqParam := by decide +kernel
    rw [e] at this
    exact this
  have hM : Item (chars! "M const &") (lex (chars! "M const &")) := item_of_code (by decide +kernel)
  have h := lex_items (xs := (chars! "M const &", lex (chars! "M const &")) :: ((List.range arity).map (fun i =>
      (tName (i + 1), [.word (tName (i + 1))])) ++ ((chars! "typename M::message_type_tag * = NULL", tagParam) ::
      if arity = 1 then [(chars! "typename boost::disable_if<boost::fusion::traits::is_sequence<T1> >::type * = NULL",
        seqParam)] else []))) (by
    intro x hx
    simp only [List.mem_cons, List.mem_append, List.mem_map] at hx
    rcases hx with rfl | ⟨i, _, rfl⟩ | rfl | hx
    · exact hM
    · exact (tName_ends (i + 1)).item
    · exact htag
    · split at hx
      · simp only [List.mem_cons, List.not_mem_nil, or_false] at hx
        subst hx
        exact hseq
      · simp at hx) hc hv
  have e : cat (PartialHandler.arguments arity) (chars! ", ") = cat (((chars! "M const &", lex (chars! "M const &")) ::
      ((List.range arity).map (fun i =>
      (tName (i + 1), [.word (tName (i + 1))])) ++ ((chars! "typename M::message_type_tag * = NULL", tagParam) ::
      if arity = 1 then [(chars! "typename boost::disable_if<boost::fusion::traits::is_sequence<T1> >::type * = NULL",
        seqParam)] else []))).map (·.1)) (chars! ", ") := by
    unfold PartialHandler.arguments
    cases arity with
    | zero => rfl
    | succ n =>
      rw [if_pos (Nat.succ_pos n)]
      have := cat_nested [chars! "M const &"] (l2 := (List.range (n + 1)).map fun i => chars! "T" ++ decimal (i + 1))
        (chars! "typename M::message_type_tag * = NULL" :: if n + 1 = 1 then
          [chars! "typename boost::disable_if<boost::fusion::traits::is_sequence<T1> >::type * = NULL"] else [])
        (chars! ", ") (by simp [List.range_succ])
      refine Eq.trans ?_ (this.trans ?_)
      · rfl
      · simp only [List.map_cons, List.map_append, List.map_map, Function.comp_def, List.cons_append, List.nil_append]
        split <;> rfl
  rw [e, h]
  simp only [defaultFn, List.map_cons, List.map_append, List.map_map, Function.comp_def]
  split <;> rfl

theorem lex_default (arity : Nat) : ((PartialHandler.generate arity).map lineToks).flatten = defaultToks arity := by
  have l1 : lineToks (out PartialHandler.baseIndent 0 0 (chars! "template<" ++
      cat (PartialHandler.argumentTypes arity) (chars! ", ") ++ chars! ">")) =
      lex (chars! "template<") ++ (commas (defaultFn arity).tparams ++ [.punct '>']) := by
    have h1 := lex_argumentTypes arity (t := chars! ">\n") (vs := [.punct '>']) (m := .code []) (by rfl) (by decide +kernel)
    have h0 := Lexes.trans (m := .code []) (m1 := .code [])
      (s := indent PartialHandler.baseIndent 0 0 ++ chars! "template<")
      (a := lex (chars! "template<")) (by decide +kernel) h1
    unfold lineToks out
    simp only [List.append_assoc, List.cons_append, List.nil_append] at h0 ⊢
    rw [h0]
  have l2 : lineToks (out PartialHandler.baseIndent 0 0 (chars! "void operator()(" ++
      cat (PartialHandler.arguments arity) (chars! ", ") ++ chars! ") {}\n")) =
      lex (chars! "void operator()(") ++ (commas (defaultFn arity).params ++ lex (chars! ") {}")) := by
    have h1 := lex_arguments_default arity (t := chars! ") {}\n\n") (vs := lex (chars! ") {}")) (m := .code [])
      (by rfl) (by decide +kernel)
    have h0 := Lexes.trans (m := .code []) (m1 := .code [])
      (s := indent PartialHandler.baseIndent 0 0 ++ chars! "void operator()(")
      (a := lex (chars! "void operator()(")) (by decide +kernel) h1
    unfold lineToks out
    simp only [List.append_assoc, List.cons_append, List.nil_append] at h0 ⊢
    rw [h0]
  unfold PartialHandler.generate
  simp only [List.map_cons, List.map_nil, List.flatten_cons, List.flatten_nil, l1, l2]
  simp [defaultToks]

/-! ### The whole text -/

theorem lex_handler_body (k : Nat) : lex (body PartialHandler.generate 0 k) = (List.range (k + 1)).flatMap defaultToks := by
  have key : ∀ ls : List Text, lex (cat (ls ++ PartialHandler.generate k) ['\n']) =
      (ls.map lineToks).flatten ++ defaultToks k := by
    intro ls
    have hl : ∃ l t, PartialHandler.generate k = l ++ [t ++ ['\n']] ∧ lineToks (t ++ ['\n']) = lineToks t := by
      refine ⟨[out PartialHandler.baseIndent 0 0 (chars! "template<" ++
        cat (PartialHandler.argumentTypes k) (chars! ", ") ++ chars! ">")],
        out PartialHandler.baseIndent 0 0 (chars! "void operator()(" ++
          cat (PartialHandler.arguments k) (chars! ", ") ++ chars! ") {}"), ?_, ?_⟩
      · simp [PartialHandler.generate, out]
      · have h1 := fun (t : Text) (h : startsPlain t = true) (h' : lexGo (.code []) t = (lex (chars! ") {}"), .code [])) =>
          lex_arguments_default k h h'
        have h2 := fun (t : Text) (h : startsPlain t = true) (h' : lexGo (.code []) t = (lex (chars! ") {}"), .code [])) =>
          Lexes.trans (m := .code []) (m1 := .code [])
            (s := indent PartialHandler.baseIndent 0 0 ++ chars! "void operator()(")
            (a := lex (chars! "void operator()(")) (by decide +kernel) (h1 t h h')
        have e1 := h2 (chars! ") {}\n\n") (by rfl) (by decide +kernel)
        have e2 := h2 (chars! ") {}\n") (by rfl) (by decide +kernel)
        unfold lineToks out
        simp only [List.append_assoc, List.cons_append, List.nil_append] at e1 e2 ⊢
        rw [e1, e2]
    obtain ⟨l, t, hl, ht⟩ := hl
    rw [hl, ← List.append_assoc, lex_cat_lines, ← lex_default k, hl]
    simp only [List.map_append, List.flatten_append, List.map_cons, List.map_nil, List.flatten_cons,
      List.flatten_nil, List.append_nil, List.append_assoc, ht]
  unfold body
  rw [List.range_succ, List.flatMap_append]
  simp only [Nat.zero_add, List.flatMap_cons, List.flatMap_nil, List.append_nil]
  have : List.range (k + 1 - 0) = List.range k ++ [k] := List.range_succ
  rw [this, List.flatMap_append]
  simp only [List.flatMap_cons, List.flatMap_nil, List.append_nil]
  refine (key _).trans ?_
  congr 1
  rw [List.map_flatMap, List.flatMap_def, List.flatMap_def]
  have : ∀ l : List Nat, (l.map fun a => (PartialHandler.generate a).map lineToks).flatten.flatten =
      (l.map defaultToks).flatten := by
    intro l
    induction l with
    | nil => rfl
    | cons a l ih => simp only [List.map_cons, List.flatten_cons, List.flatten_append, lex_default, ih]
  exact this _

theorem plain_default (arity : Nat) : (defaultToks arity).all plain = true := by
  have h1 : (commas (defaultFn arity).tparams).all plain = true := by
    apply all_plain_commas
    intro g hg
    simp only [defaultFn, List.mem_cons, List.mem_map] at hg
    rcases hg with rfl | ⟨i, _, rfl⟩
    · decide +kernel
    · rfl
  have h2 : (commas (defaultFn arity).params).all plain = true := by
    apply all_plain_commas
    intro g hg
    simp only [defaultFn, List.mem_cons, List.mem_append, List.mem_map] at hg
    rcases hg with rfl | ⟨i, _, rfl⟩ | rfl | hg
    · decide +kernel
    · rfl
    · decide +kernel
    · split at hg
      · simp only [List.mem_cons, List.not_mem_nil, or_false] at hg
        subst hg
        decide +kernel
      · simp at hg
  simp only [defaultToks, List.all_append, List.all_cons, h1, h2, plain, Bool.true_and]
  decide +kernel

theorem parse_default (arity : Nat) (us : List Tok) :
    parseFn (defaultToks arity ++ us) = some (defaultFn arity, us) := by
  have e0 : lex (chars! "template<") = [.word (chars! "template"), .punct '<'] := by decide +kernel
  have e1 : lex (chars! "void operator()(") =
      [.word (chars! "void"), .word (chars! "operator"), .punct '(', .punct ')', .punct '('] := by decide +kernel
  have e2 : lex (chars! ") {}") = [.punct ')', .punct '{', .punct '}'] := by decide +kernel
  have h1 : ∀ ws, groups 0 [] [] (commas (defaultFn arity).tparams ++ .punct '>' :: ws) =
      some ((defaultFn arity).tparams, ws) := by
    intro ws
    refine groups_commas (.inr rfl) ?_ ?_ _
    · intro g hg
      simp only [defaultFn, List.mem_cons, List.mem_map] at hg
      rcases hg with rfl | ⟨i, _, rfl⟩
      · decide +kernel
      · rfl
    · intro h
      simp only [defaultFn, List.cons.injEq] at h
      exact absurd h.1 (by decide +kernel)
  have h3 : ∀ ws, groups 0 [] [] (commas (defaultFn arity).params ++ .punct ')' :: ws) =
      some ((defaultFn arity).params, ws) := by
    intro ws
    refine groups_commas (.inl rfl) ?_ ?_ _
    · intro g hg
      simp only [defaultFn, List.mem_cons, List.mem_append, List.mem_map] at hg
      rcases hg with rfl | ⟨i, _, rfl⟩ | rfl | hg
      · decide +kernel
      · rfl
      · decide +kernel
      · split at hg
        · simp only [List.mem_cons, List.not_mem_nil, or_false] at hg
          subst hg
          decide +kernel
        · simp at hg
    · intro h
      simp only [defaultFn, List.cons.injEq] at h
      exact absurd h.1 (by decide +kernel)
  have h2 : ∀ ws, declarator 0 [] (.word (chars! "void") :: .word (chars! "operator") :: .punct '(' :: .punct ')' ::
      .punct '(' :: ws) = some ([.word (chars! "void")], chars! "operator", ws) := fun ws => rfl
  unfold parseFn defaultToks
  rw [e0, e1, e2]
  simp only [List.append_assoc, List.cons_append, List.nil_append, expect, if_true]
  simp only [bind, Option.bind, h1, h2, h3, expect, if_true, untilBrace]
  rfl

theorem length_default (n : Nat) : 1 ≤ (defaultToks n).length := by
  have : lex (chars! "template<") = [.word (chars! "template"), .punct '<'] := by decide +kernel
  simp only [defaultToks, this, List.length_append, List.length_cons]
  omega

theorem parseFns_default (ns : List Nat) : ∀ fuel, (ns.flatMap defaultToks).length < fuel →
    parseFns fuel (ns.flatMap defaultToks) = some (ns.map defaultFn) := by
  induction ns with
  | nil => intro fuel _; cases fuel <;> rfl
  | cons n ns ih =>
    intro fuel hf
    have h1 := length_default n
    simp only [List.flatMap_cons, List.length_append] at hf
    obtain ⟨fuel, rfl⟩ : ∃ k, fuel = k + 1 := ⟨fuel - 1, by omega⟩
    rw [List.flatMap_cons]
    have hp := parse_default n (ns.flatMap defaultToks)
    cases hd : defaultToks n with
    | nil => rw [hd] at h1; simp at h1
    | cons t ts =>
      rw [hd, List.cons_append] at hp
      rw [List.cons_append]
      simp only [parseFns, hp, Option.bind_some]
      rw [ih _ (by omega)]
      rfl

/-- The functions in the header generated for arities up to `k`. -/
theorem readFns_handler (ms : Macros) (k : Nat) :
    readFns ms (body PartialHandler.generate 0 k) = some ((List.range (k + 1)).map defaultFn) := by
  unfold readFns
  rw [lex_handler_body]
  have hp : ((List.range (k + 1)).flatMap defaultToks).all plain = true := by
    rw [List.all_eq_true]
    intro t ht
    obtain ⟨n, _, ht⟩ := List.mem_flatMap.mp ht
    exact List.all_eq_true.mp (plain_default n) t ht
  have := preprocess_plain (ms := ms) (os := []) (us := []) hp
  rw [List.append_nil] at this
  rw [this]
  simp only [preprocess, if_true, Option.map_some, List.all_nil, List.append_nil, Option.bind_some]
  exact parseFns_default _ _ (by omega)

/-! ### Calls -/

theorem deduce_length {names : List Text} : ∀ {ded : List (Text × Bool)} {ps : List (List Tok)} {as : List Bool},
    ps.length ≠ as.length → deduce names ded ps as = none
  | _, [], [], h => absurd rfl h
  | _, [], _ :: _, _ => rfl
  | _, [] :: _, [], _ => rfl
  | _, p :: ps, [], _ => by
    unfold deduce
    split <;> simp_all
  | ded, p :: ps, a :: as, h => by
    unfold deduce
    split
    · rename_i heq1 heq2; cases heq1
    · rename_i heq1 heq2
      split
      · rename_i x _ _ _ _ _
        simp only [List.cons.injEq] at heq1 heq2
        rw [← heq1.2, ← heq2.2]
        exact deduce_length (by simpa using h)
      · rfl
    · rfl

theorem deduce_range {names : List Text} : ∀ (as : List Bool) (a : Nat) (ded : List (Text × Bool)),
    (∀ i, a ≤ i → i < a + as.length → tName (i + 1) ∈ names) →
    (∀ i, a ≤ i → ded.lookup (tName (i + 1)) = none) →
    deduce names ded ((List.range' a as.length).map fun i => [.word (tName (i + 1))]) as =
      some (ded ++ ((List.range' a as.length).map fun i => tName (i + 1)).zip as)
  | [], a, ded, _, _ => by simp [deduce]
  | b :: as, a, ded, hn, hd => by
    simp only [List.length_cons, List.range'_succ, List.map_cons, List.zip_cons_cons, deduce]
    rw [hd a (Nat.le_refl a)]
    have hm : names.contains (tName (a + 1)) = true := by
      rw [List.contains_iff_mem]
      exact hn a (Nat.le_refl a) (by simp)
    simp only [hm, Option.isNone_none, Bool.and_self, if_true]
    rw [deduce_range as (a + 1) (ded ++ [(tName (a + 1), b)]) (by
      intro i h1 h2
      exact hn i (by omega) (by simp only [List.length_cons]; omega)) (by
      intro i hi
      have hne : (tName (i + 1) == tName (a + 1)) = false := by
        rw [beq_eq_false_iff_ne]
        intro e
        have := tName_inj e
        omega
      have h0 := hd i (by omega)
      clear hn hd hm
      induction ded with
      | nil => simp [List.lookup_cons, hne]
      | cons p ded ih =>
        rw [List.cons_append, List.lookup_cons]
        rw [List.lookup_cons] at h0
        cases he : tName (i + 1) == p.1 with
        | true => rw [he] at h0; simp at h0
        | false => rw [he] at h0; exact ih h0)]
    simp

theorem tparamNames_default (arity : Nat) : tparamNames (defaultFn arity).tparams =
    some (chars! "M" :: (List.range arity).map fun i => tName (i + 1)) := by
  have h : ∀ is : List Nat, tparamNames (is.map fun i => [.word (chars! "typename"), .word (tName (i + 1))]) =
      some (is.map fun i => tName (i + 1)) := by
    intro is
    induction is with
    | nil => rfl
    | cons i is ih => simp only [List.map_cons, tparamNames, ih]; rfl
  show tparamNames (lex (chars! "typename M") :: _) = _
  have e : tparamName (lex (chars! "typename M")) = some (chars! "M") := by decide +kernel
  simp only [tparamNames, e, h, Option.bind_some, Option.map_some]

/-- The generated defaults, as far as a call sees them. -/
theorem viable_default (isMessage : Bool) (as : List Bool) (n : Nat) :
    handlerViable isMessage as (defaultFn n) = some (decide (as.length = n) && isMessage && !(decide (as = [true]))) := by
  have ht : hasDefault tagParam = true := by decide +kernel
  have hs : hasDefault seqParam = true := by decide +kernel
  have hw : ∀ is : List Nat, (is.map fun i => ([.word (tName (i + 1))] : List Tok)).filter (!hasDefault ·) =
      is.map fun i => [.word (tName (i + 1))] := by
    intro is
    rw [List.filter_eq_self]
    intro g hg
    obtain ⟨i, _, rfl⟩ := List.mem_map.mp hg
    rfl
  have hw' : ∀ is : List Nat, (is.map fun i => ([.word (tName (i + 1))] : List Tok)).filter hasDefault = [] := by
    intro is
    rw [List.filter_eq_nil_iff]
    intro g hg
    obtain ⟨i, _, rfl⟩ := List.mem_map.mp hg
    simp [hasDefault]
  have hreq : ((List.range n).map (fun i => ([.word (tName (i + 1))] : List Tok)) ++
      (tagParam :: if n = 1 then [seqParam] else [])).filter (!hasDefault ·) =
      (List.range n).map fun i => [.word (tName (i + 1))] := by
    rw [List.filter_append, hw]
    split <;> simp [ht, hs]
  have hdef : ((List.range n).map (fun i => ([.word (tName (i + 1))] : List Tok)) ++
      (tagParam :: if n = 1 then [seqParam] else [])).filter hasDefault =
      tagParam :: if n = 1 then [seqParam] else [] := by
    rw [List.filter_append, hw']
    split <;> simp [ht, hs]
  have htag : ∀ ded, defaultOk isMessage ded tagParam = some isMessage := by
    intro ded
    unfold defaultOk
    rw [if_pos (by rfl)]
  have hseq : ∀ b, defaultOk isMessage [(tName 1, b)] seqParam = some (!b) := by
    intro b
    have e1 : seqParam = lex (chars! "typename boost::disable_if<boost::fusion::traits::is_sequence<") ++
      .word (chars! "T1") :: lex (chars! "> >::type * = NULL") := by decide +kernel
    unfold defaultOk
    rw [if_neg (by decide +kernel), e1, expect_append]
    simp only [bind, Option.bind_some, if_true]
    rfl
  have h1 : handlerViable isMessage as (defaultFn n) =
      match deduce ((List.range n).map fun i => tName (i + 1)) [] ((List.range n).map fun i => [.word (tName (i + 1))]) as with
      | none => some false
      | some ded =>
        if ded.length ≠ ((List.range n).map fun i => tName (i + 1)).length then some false else
        ((tagParam :: if n = 1 then [seqParam] else []).mapM (defaultOk isMessage ded)).bind fun oks =>
          some (oks.all id) := by
    unfold handlerViable
    have e1 : (defaultFn n).name = chars! "operator" := rfl
    have e2 : (defaultFn n).result = [.word (chars! "void")] := rfl
    have e3 : (defaultFn n).params = lex (chars! "M const &") :: ((List.range n).map (fun i => [.word (tName (i + 1))]) ++
      (tagParam :: if n = 1 then [seqParam] else [])) := rfl
    rw [if_neg (by rw [e1, e2]; simp), tparamNames_default]
    simp only [bind, Option.bind_some, e3, List.head?_cons, List.tail_cons, ne_eq, not_true, or_false, if_false,
      hreq, hdef]
    rfl
  rw [h1]
  by_cases hl : as.length = n
  · subst hl
    have hd := deduce_range (names := (List.range as.length).map fun i => tName (i + 1)) as 0 [] (by
      intro i _ h2
      rw [List.mem_map]
      exact ⟨i, by rw [List.mem_range]; omega, rfl⟩) (by intro i _; rfl)
    rw [← List.range_eq_range'] at hd
    rw [hd]
    simp only [List.nil_append, List.length_zip, List.length_map, List.length_range, Nat.min_self, ne_eq,
      not_true, if_false, decide_true, Bool.true_and]
    match as with
    | [] => simp [htag]
    | [b] =>
      have e : ((List.range [b].length).map fun i => tName (i + 1)).zip [b] = [(tName 1, b)] := rfl
      rw [e]
      simp [htag, hseq]
    | a :: b :: as => simp [htag]
  · rw [deduce_length (by simpa using fun e => hl e.symm)]
    simp [hl]

end TT.Cpp
