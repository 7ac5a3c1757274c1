import Verif.Model.CppText

/-!
# Lemmas on generated text: numbers, tokens, preprocessor, groups
-/

namespace TT.Cpp
open TT.Gen

/-! ### Decimal numbers -/

theorem digitValue_digit {n : Nat} (h : n < 10) : digitValue (digit n) = some n := by
  match n, h with
  | 0, _ | 1, _ | 2, _ | 3, _ | 4, _ | 5, _ | 6, _ | 7, _ | 8, _ | 9, _ => rfl
  | n + 10, h => omega

theorem isWordChar_digit (n : Nat) : isWordChar (digit n) = true := by
  match n with
  | 0 | 1 | 2 | 3 | 4 | 5 | 6 | 7 | 8 | 9 => decide
  | n + 10 => show isWordChar '9' = true; decide

theorem numberGo_append (a : Nat) (s t : Text) :
    numberGo a (s ++ t) = (numberGo a s).bind fun b => numberGo b t := by
  induction s generalizing a with
  | nil => rfl
  | cons c s ih =>
    simp only [List.cons_append, numberGo]
    cases digitValue c with
    | none => rfl
    | some d => exact ih _

theorem decimalGo_append (fuel n : Nat) (acc : Text) : decimalGo fuel n acc = decimalGo fuel n [] ++ acc := by
  induction fuel generalizing n acc with
  | zero => rfl
  | succ fuel ih =>
    unfold decimalGo
    split
    · rfl
    · rw [ih, ih _ [_]]; simp

theorem numberGo_decimalGo (fuel n : Nat) (h : n < fuel) : numberGo 0 (decimalGo fuel n []) = some n := by
  induction fuel generalizing n with
  | zero => omega
  | succ fuel ih =>
    unfold decimalGo
    split
    · rename_i hn
      simp [numberGo, digitValue_digit hn]
    · rename_i hn
      rw [decimalGo_append, numberGo_append, ih _ (by omega)]
      simp only [Option.bind_some, numberGo, digitValue_digit (show n % 10 < 10 by omega)]
      congr 1; omega

theorem decimalGo_ne_nil (fuel n : Nat) : decimalGo (fuel + 1) n [] ≠ [] := by
  unfold decimalGo
  split
  · simp
  · rw [decimalGo_append]; simp

theorem decimal_ne_nil (n : Nat) : decimal n ≠ [] := decimalGo_ne_nil _ _

/-- Numbers are read as they are written. -/
theorem number_decimal (n : Nat) : number (decimal n) = some n := by
  have h := numberGo_decimalGo (n + 1) n (by omega)
  unfold number
  split
  · rename_i e; exact absurd e (decimal_ne_nil n)
  · exact h

theorem decimal_inj {m n : Nat} (h : decimal m = decimal n) : m = n := by
  have := number_decimal m
  rw [h, number_decimal] at this
  exact (Option.some.inj this).symm

theorem decimal_wordChar (n : Nat) : ∀ c ∈ decimal n, isWordChar c = true := by
  have : ∀ (fuel n : Nat), ∀ c ∈ decimalGo fuel n [], isWordChar c = true := by
    intro fuel
    induction fuel with
    | zero => intro n c hc; cases hc
    | succ fuel ih =>
      intro n c hc
      unfold decimalGo at hc
      split at hc
      · simp only [List.mem_singleton] at hc; subst hc; exact isWordChar_digit _
      · rw [decimalGo_append] at hc
        rcases List.mem_append.mp hc with hc | hc
        · exact ih _ c hc
        · simp only [List.mem_singleton] at hc; subst hc; exact isWordChar_digit _
  exact this _ _

/-! ### Tokens -/

theorem lexGo_append (m : LexMode) (s t : Text) :
    lexGo m (s ++ t) = ((lexGo m s).1 ++ (lexGo (lexGo m s).2 t).1, (lexGo (lexGo m s).2 t).2) := by
  induction s generalizing m with
  | nil => rfl
  | cons c s ih =>
    simp only [List.cons_append, lexGo]
    rw [ih]
    simp

theorem Lexes.trans {m m1 m2 : LexMode} {s t : Text} {a b : List Tok} (h1 : lexGo m s = (a, m1))
    (h2 : lexGo m1 t = (b, m2)) : lexGo m (s ++ t) = (a ++ b, m2) := by
  rw [lexGo_append, h1, h2]

theorem lexGo_word (w t : Text) (h : ∀ c ∈ t, isWordChar c = true) :
    lexGo (.code w) t = ([], .code (w ++ t)) := by
  induction t generalizing w with
  | nil => simp [lexGo]
  | cons c t ih =>
    simp only [lexGo, lexStep, h c (by simp), if_true]
    rw [ih _ fun c hc => h c (by simp [hc])]
    simp

theorem lexGo_decimal (w : Text) (n : Nat) : lexGo (.code w) (decimal n) = ([], .code (w ++ decimal n)) :=
  lexGo_word w _ (decimal_wordChar n)

/-- A word ends before a character that does not belong to words. -/
theorem lexGo_after_word {w : Text} {c : Char} {cs : Text} {ts : List Tok} {m : LexMode} (hw : w ≠ [])
    (hc : isWordChar c = false) (h : lexGo (.code []) (c :: cs) = (ts, m)) :
    lexGo (.code w) (c :: cs) = (.word w :: ts, m) := by
  have hf : flush w = [.word w] := by cases w with | nil => exact absurd rfl hw | cons => rfl
  obtain ⟨h4, h5⟩ : (lexGo (.code []) (c :: cs)).1 = ts ∧ (lexGo (.code []) (c :: cs)).2 = m := by
    rw [h]; exact ⟨rfl, rfl⟩
  rw [← h4, ← h5]
  simp only [lexGo, lexStep, hc, Bool.false_eq_true, if_false]
  by_cases h1 : c = '/'
  · simp [h1, flush]
  by_cases h2 : c = '#'
  · simp [h2, flush]
  by_cases h3 : c = ' ' ∨ c = '\t' ∨ c = '\n'
  · simp [h1, h2, h3, flush]
  · simp [h1, h2, h3, flush]

theorem append_ne_nil_right {w t : Text} (h : t ≠ []) : w ++ t ≠ [] := by simp [h]

/-- The tokens of one line, with its end. -/
def lineToks (l : Text) : List Tok := (lexGo (.code []) (l ++ ['\n'])).1

theorem lexStep_newline (m : LexMode) : (lexStep m '\n').2 = .code [] := by
  cases m <;> rfl

theorem lineToks_of {l : Text} {ts : List Tok} {m : LexMode} (h : lexGo (.code []) l = (ts, m)) :
    lineToks l = ts ++ (lexStep m '\n').1 := by
  unfold lineToks
  rw [lexGo_append, h]
  simp [lexGo]

/-- The tokens of lines joined with line ends, if the text ends with a line end of its own. -/
theorem lex_cat_lines (ls : List Text) (l : Text) :
    lex (cat (ls ++ [l ++ ['\n']]) ['\n']) = (ls.map lineToks).flatten ++ lineToks l := by
  have key : ∀ ls, lexGo (.code []) (cat (ls ++ [l ++ ['\n']]) ['\n']) =
      ((ls.map lineToks).flatten ++ lineToks l, .code []) := by
    intro ls
    induction ls with
    | nil =>
      simp only [List.nil_append, cat, List.map_nil, List.flatten_nil]
      refine Prod.ext rfl ?_
      rw [lexGo_append]
      simp [lexGo, lexStep_newline]
    | cons k ls ih =>
      have e : cat ((k :: ls) ++ [l ++ ['\n']]) ['\n'] = (k ++ ['\n']) ++ cat (ls ++ [l ++ ['\n']]) ['\n'] := by
        cases ls <;> simp [cat]
      rw [e]
      have h1 : lexGo (.code []) (k ++ ['\n']) = (lineToks k, .code []) := by
        refine Prod.ext rfl ?_
        rw [lexGo_append]
        simp [lexGo, lexStep_newline]
      rw [Lexes.trans h1 ih]
      simp
  unfold lex
  rw [key]
  simp [lexEnd, flush]

/-! ### Preprocessor -/

/-- Not a preprocessor line. -/
def plain : Tok → Bool
  | .line _ => false
  | _ => true

theorem preprocess_plain {ms : Macros} {os : List Bool} {ts us : List Tok} (h : ts.all plain = true) :
    preprocess ms os (ts ++ us) =
      (preprocess ms os us).map fun r => (if os.all id then ts ++ r.1 else r.1, r.2) := by
  induction ts with
  | nil => simp only [List.nil_append, ite_self]; cases h : preprocess ms os us <;> simp
  | cons t ts ih =>
    simp only [List.all_cons, Bool.and_eq_true] at h
    cases t with
    | line t => simp [plain] at h
    | word w =>
      simp only [List.cons_append, preprocess, ih h.2]
      cases preprocess ms os us with
      | none => rfl
      | some r => by_cases ho : os.all id <;> simp [ho]
    | punct c =>
      simp only [List.cons_append, preprocess, ih h.2]
      cases preprocess ms os us with
      | none => rfl
      | some r => by_cases ho : os.all id <;> simp [ho]

theorem preprocess_line (ms : Macros) (os : List Bool) (t : Text) (ts : List Tok) :
    preprocess ms os (.line t :: ts) = (directive ms os t).bind fun r => preprocess r.1 r.2 ts := rfl

/-! ### Groups -/

/-- Brackets in the tokens are balanced, when `d` more are open before, and there is no comma outside them. -/
def balanced : Nat → List Tok → Bool
  | d, [] => d == 0
  | d, t :: ts =>
    if t = .punct '(' ∨ t = .punct '<' then balanced (d + 1) ts
    else if t = .punct ')' ∨ t = .punct '>' then
      match d with
      | 0 => false
      | d + 1 => balanced d ts
    else if t = .punct ',' ∧ d = 0 then false
    else balanced d ts

theorem groups_balanced {g : List Tok} : ∀ {d : Nat} {cur : List Tok} {acc : List (List Tok)} {us : List Tok},
    balanced d g = true → groups d cur acc (g ++ us) = groups 0 (cur ++ g) acc us := by
  induction g with
  | nil => intro d cur acc us h; simp [balanced] at h; subst h; simp
  | cons t g ih =>
    intro d cur acc us h
    unfold balanced at h
    rw [List.cons_append]
    conv => lhs; unfold groups
    by_cases h1 : t = .punct '(' ∨ t = .punct '<'
    · rw [if_pos h1] at h
      rw [if_pos h1, ih h]; simp
    · rw [if_neg h1] at h
      rw [if_neg h1]
      by_cases h2 : t = .punct ')' ∨ t = .punct '>'
      · rw [if_pos h2] at h
        rw [if_pos h2]
        cases d with
        | zero => simp at h
        | succ d => simp only at h ⊢; rw [ih h]; simp
      · rw [if_neg h2] at h
        rw [if_neg h2]
        by_cases h3 : t = .punct ',' ∧ d = 0
        · rw [if_pos h3] at h; cases h
        · rw [if_neg h3] at h
          rw [if_neg h3, ih h]; simp

/-- Tokens of groups separated by commas. -/
def commas : List (List Tok) → List Tok
  | [] => []
  | [g] => g
  | g :: h :: gs => g ++ .punct ',' :: commas (h :: gs)

theorem groups_go {gs : List (List Tok)} {close : Tok} (hc : close = .punct ')' ∨ close = .punct '>') :
    ∀ {g : List Tok} {acc : List (List Tok)} {us : List Tok},
    (∀ h ∈ g :: gs, balanced 0 h = true) → (acc = [] → g :: gs ≠ [[]]) →
    groups 0 [] acc (commas (g :: gs) ++ close :: us) = some (acc ++ g :: gs, us) := by
  have hne : ¬ (close = .punct '(' ∨ close = .punct '<') := by rcases hc with rfl | rfl <;> decide
  induction gs with
  | nil =>
    intro g acc us hb hn
    simp only [commas]
    rw [groups_balanced (hb g (by simp))]
    unfold groups
    rw [if_neg hne, if_pos hc]
    simp only [List.nil_append]
    rw [if_neg]
    intro h
    exact hn h.2 (by rw [h.1])
  | cons h gs ih =>
    intro g acc us hb hn
    have e : commas (g :: h :: gs) ++ close :: us = g ++ .punct ',' :: (commas (h :: gs) ++ close :: us) := by
      simp [commas]
    rw [e, groups_balanced (hb g (by simp))]
    conv => lhs; unfold groups
    rw [if_neg (by decide), if_neg (by decide), if_pos (by simp)]
    rw [ih (fun k hk => hb k (by simp [hk])) (by simp)]
    simp

/-- Groups are read as they are written. -/
theorem groups_commas {gs : List (List Tok)} {close : Tok} (hc : close = .punct ')' ∨ close = .punct '>')
    (hb : ∀ h ∈ gs, balanced 0 h = true) (hn : gs ≠ [[]]) (us : List Tok) :
    groups 0 [] [] (commas gs ++ close :: us) = some (gs, us) := by
  have hne : ¬ (close = .punct '(' ∨ close = .punct '<') := by rcases hc with rfl | rfl <;> decide
  cases gs with
  | nil =>
    simp only [commas, List.nil_append]
    unfold groups
    rw [if_neg hne, if_pos hc]
    simp
  | cons g gs => exact groups_go hc hb fun _ => hn

theorem expect_append (ps us : List Tok) : expect ps (ps ++ us) = some us := by
  induction ps with
  | nil => rfl
  | cons p ps ih => simp [expect, ih]

/-- No closing brace. -/
theorem untilBrace_append {b acc us : List Tok} (h : .punct '}' ∉ b) :
    untilBrace acc (b ++ .punct '}' :: us) = some (acc ++ b, us) := by
  induction b generalizing acc with
  | nil => simp [untilBrace]
  | cons t b ih =>
    simp only [List.mem_cons, not_or] at h
    simp only [List.cons_append, untilBrace]
    rw [if_neg fun e => h.1 e.symm, ih h.2]
    simp

end TT.Cpp
