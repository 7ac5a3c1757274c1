import Verif.Proofs.GeneratedSend

/-!
# The macros that the generated header ArityConfig.h defines
-/

namespace TT.Cpp
open TT.Gen

/-- The other macro in the header. -/
def procedureArity : Text := chars! "BOOST_FUSION_INVOKE_PROCEDURE_MAX_ARITY"

/-- A definition of a macro. -/
def defineText (x : Text) (n : Nat) : Text := chars! "define " ++ x ++ chars! " " ++ decimal n

theorem cat_last (ls : List Text) (l sep : Text) : cat (ls ++ [l]) sep ++ ['\n'] = cat (ls ++ [l ++ ['\n']]) sep := by
  induction ls with
  | nil => rfl
  | cons k ls ih =>
    cases ls with
    | nil => simp [cat]
    | cons j ls => simp only [List.cons_append, cat, List.append_assoc] at ih ⊢; rw [ih]

/-- The tokens of ArityConfig.h. -/
theorem lex_config (a b : Nat) : lex (cat (ArityConfig.generate a b) (chars! "\n") ++ chars! "\n") =
    [.line (chars! "ifndef FUSION_MAX_LIST_SIZE"), .line (defineText listSize a), .line (chars! "endif"),
      .line (chars! "ifndef BOOST_FUSION_INVOKE_PROCEDURE_MAX_ARITY"), .line (defineText procedureArity (b + 1)),
      .line (chars! "endif")] ++ (lex (chars! "namespace transmission { namespace detail { namespace constants { enum { ReceiveMaxArity =") ++
      (.word (decimal b) :: lex (chars! "}; } } }"))) := by
  have hd : ∀ (x : Text) (n : Nat), '\n' ∉ x → lineToks (chars! "#" ++ defineText x n) = [.line (defineText x n)] := by
    intro x n hx
    have h : lexGo (.code []) (chars! "#" ++ defineText x n) = ([], .directive (defineText x n)) :=
      Lexes.trans (a := []) (m1 := .directive []) (by decide +kernel) (lexGo_directive [] (by
        simp only [defineText, List.mem_append, not_or]
        exact ⟨⟨⟨by decide +kernel, hx⟩, by decide +kernel⟩, newline_not_decimal n⟩))
    exact (lineToks_of h).trans rfl
  have h1 : lineToks (chars! "#define FUSION_MAX_LIST_SIZE " ++ decimal a) = [.line (defineText listSize a)] :=
    hd listSize a (by decide +kernel)
  have h2 : lineToks (chars! "#define BOOST_FUSION_INVOKE_PROCEDURE_MAX_ARITY " ++ decimal (b + 1)) =
      [.line (defineText procedureArity (b + 1))] := hd procedureArity (b + 1) (by decide +kernel)
  have h3 : lineToks (out 0 4 0 (chars! "ReceiveMaxArity = " ++ decimal b)) =
      lex (chars! "ReceiveMaxArity =") ++ [.word (decimal b)] := by
    have e1 := (decimal_ends b).then_ (s := chars! "\n") (us := []) (m := .code []) (by rfl) (by decide +kernel)
    have e0 := Lexes.trans (m := .code []) (m1 := .code []) (s := indent 0 4 0 ++ chars! "ReceiveMaxArity = ")
      (a := lex (chars! "ReceiveMaxArity =")) (by decide +kernel) e1
    unfold lineToks out
    simp only [List.append_assoc, List.cons_append, List.nil_append] at e0 ⊢
    rw [e0]
    rfl
  have e : ArityConfig.generate a b = (ArityConfig.generate a b).dropLast ++ [chars! "} // end of namespace transmission"] := rfl
  have l1 : lineToks (chars! "#ifndef FUSION_MAX_LIST_SIZE") = [.line (chars! "ifndef FUSION_MAX_LIST_SIZE")] := by
    decide +kernel
  have l2 : lineToks (chars! "#endif") = [.line (chars! "endif")] := by decide +kernel
  have l3 : lineToks (chars! "#ifndef BOOST_FUSION_INVOKE_PROCEDURE_MAX_ARITY") =
    [.line (chars! "ifndef BOOST_FUSION_INVOKE_PROCEDURE_MAX_ARITY")] := by decide +kernel
  have l4 : lineToks (chars! "namespace transmission {") ++ (lineToks (out 0 1 0 (chars! "namespace detail {")) ++
      (lineToks (out 0 2 0 (chars! "namespace constants {")) ++ (lineToks (out 0 3 0 (chars! "enum {")) ++
      lex (chars! "ReceiveMaxArity =")))) =
      lex (chars! "namespace transmission { namespace detail { namespace constants { enum { ReceiveMaxArity =") := by
    decide +kernel
  have l5 : lineToks (out 0 3 0 (chars! "};")) ++ (lineToks (out 0 2 0 (chars! "} // end of namespace constants")) ++
      (lineToks (out 0 1 0 (chars! "} // end of namespace detail")) ++
        lineToks (chars! "} // end of namespace transmission"))) = lex (chars! "}; } } }") := by decide +kernel
  rw [e, cat_last, lex_cat_lines, ← l4, ← l5]
  have e' : (ArityConfig.generate a b).dropLast = [ chars! "#ifndef FUSION_MAX_LIST_SIZE",
    chars! "#define FUSION_MAX_LIST_SIZE " ++ decimal a,
    chars! "#endif",
    chars! "#ifndef BOOST_FUSION_INVOKE_PROCEDURE_MAX_ARITY",
    chars! "#define BOOST_FUSION_INVOKE_PROCEDURE_MAX_ARITY " ++ decimal (b + 1),
    chars! "#endif",
    chars! "namespace transmission {",
    out 0 1 0 (chars! "namespace detail {"),
    out 0 2 0 (chars! "namespace constants {"),
    out 0 3 0 (chars! "enum {"),
    out 0 4 0 (chars! "ReceiveMaxArity = " ++ decimal b),
    out 0 3 0 (chars! "};"),
    out 0 2 0 (chars! "} // end of namespace constants"),
    out 0 1 0 (chars! "} // end of namespace detail")] := rfl
  rw [e']
  simp only [List.map_cons, List.map_nil, List.flatten_cons, List.flatten_nil, h1, h2, h3, l1, l2, l3]
  simp only [List.append_assoc, List.cons_append, List.nil_append, List.append_nil]

theorem directive_define {x : Text} {n : Nat} (hx : Ends (chars! "define " ++ x) [.word (chars! "define")] x)
    (ms : Macros) (c : Bool) :
    directive ms [c] (defineText x n) = some (if c then (x, n) :: ms else ms, [c]) := by
  have h : lex (defineText x n) = [.word (chars! "define"), .word x, .word (decimal n)] := by
    have h1 : lexGo (.code []) (chars! " " ++ decimal n) = ([], .code (decimal n)) :=
      Lexes.trans (m1 := .code []) (a := []) (b := []) (s := chars! " ") (by decide +kernel) (lexGo_decimal [] n)
    have h0 := hx.then_ (by rfl) h1
    have hf : flush (decimal n) = [.word (decimal n)] := by
      cases hd : decimal n with
      | nil => exact absurd hd (decimal_ne_nil n)
      | cons => rfl
    have e : defineText x n = (chars! "define " ++ x) ++ (chars! " " ++ decimal n) := by simp [defineText]
    unfold lex
    rw [e, h0]
    simp [lexEnd, hf, tokensOf]
  unfold directive
  rw [h]
  cases c <;> simp [number_decimal]

/-- What a macro is after `#ifndef x / #define x n / #endif`. -/
def defineUnless (ms : Macros) (x : Text) (n : Nat) : Macros :=
  if (ms.lookup x).isNone then (x, n) :: ms else ms

/-- The macros after ArityConfig.h. -/
theorem config_macros (ms : Macros) (a b : Nat) : ∃ ts,
    preprocess ms [] (lex (cat (ArityConfig.generate a b) (chars! "\n") ++ chars! "\n")) =
      some (ts, defineUnless (defineUnless ms listSize a) procedureArity (b + 1)) := by
  have hif1 : ∀ ms, directive ms [] (chars! "ifndef FUSION_MAX_LIST_SIZE") =
      some (ms, [(ms.lookup listSize).isNone]) := by
    intro ms
    have : lex (chars! "ifndef FUSION_MAX_LIST_SIZE") = [.word (chars! "ifndef"), .word listSize] := by decide +kernel
    unfold directive
    rw [this]
    simp
  have hif2 : ∀ ms, directive ms [] (chars! "ifndef BOOST_FUSION_INVOKE_PROCEDURE_MAX_ARITY") =
      some (ms, [(ms.lookup procedureArity).isNone]) := by
    intro ms
    have : lex (chars! "ifndef BOOST_FUSION_INVOKE_PROCEDURE_MAX_ARITY") =
      [.word (chars! "ifndef"), .word procedureArity] := by decide +kernel
    unfold directive
    rw [this]
    simp
  have hp : (lex (chars! "namespace transmission { namespace detail { namespace constants { enum { ReceiveMaxArity =") ++
      (.word (decimal b) :: lex (chars! "}; } } }"))).all plain = true := by
    rw [List.all_append, List.all_cons]
    simp only [plain, Bool.true_and]
    decide +kernel
  generalize hts : lex (chars! "namespace transmission { namespace detail { namespace constants { enum { ReceiveMaxArity =") ++
      (.word (decimal b) :: lex (chars! "}; } } }")) = ts at hp
  have hpp : ∀ ms, preprocess ms [] ts = some (ts, ms) := fun ms => by
    have := preprocess_plain (ms := ms) (os := []) (us := []) hp
    rw [List.append_nil] at this
    rw [this]
    simp [preprocess]
  refine ⟨ts, ?_⟩
  rw [lex_config, hts]
  simp only [List.cons_append, List.nil_append, preprocess_line]
  rw [hif1]
  simp only [Option.bind_some]
  rw [directive_define (by constructor <;> decide +kernel)]
  simp only [Option.bind_some]
  rw [directive_endif]
  simp only [Option.bind_some]
  rw [hif2]
  simp only [Option.bind_some]
  rw [directive_define (by constructor <;> decide +kernel)]
  simp only [Option.bind_some]
  rw [directive_endif]
  simp only [Option.bind_some]
  rw [hpp]
  rfl

theorem lookup_defineUnless (ms : Macros) (x y : Text) (n : Nat) :
    (defineUnless ms x n).lookup y = if y = x then some ((ms.lookup x).getD n) else ms.lookup y := by
  unfold defineUnless
  cases h : ms.lookup x with
  | none =>
    simp only [Option.isNone_none, if_true, List.lookup_cons, Option.getD_none]
    by_cases hy : y = x
    · simp [hy]
    · have : (y == x) = false := by simpa using hy
      simp [this, hy]
  | some k =>
    simp only [Option.isNone_some, Option.getD_some]
    by_cases hy : y = x
    · simp [hy, h]
    · simp [hy]

end TT.Cpp
