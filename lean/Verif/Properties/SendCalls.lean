import Verif.Proofs.SendCalls
import Verif.Proofs.GeneratedConfig
import Verif.Properties.Samples

/-!
# Property of calls of `send` and of the generated headers: C86
-/

namespace TT.Properties
open TT.Gen TT.Cpp

/-! ### Specification -/

/-- The arguments are, one for each field, expressions that convert to the fields' types; `vs` is what they give. -/
inductive Passes : List FieldType → List Arg → List Value → Prop where
  | nil : Passes [] [] []
  | cons {e : Expr} {f : FieldType} {bs : List Byte} {fs : List FieldType} {as : List Arg} {vs : List Value} :
    e.conv f = some bs → Passes fs as vs → Passes (f :: fs) (.expr e :: as) (⟨f, bs⟩ :: vs)

/-- The two ways to say with explicit template arguments what to send. -/
inductive Names : List Entity → Collection → MsgType → Prop where
  | pair (C : Collection) (m : MsgType) : Names [.collection C, .message m] C m
  | bound (C : Collection) (m : MsgType) : Names [.bound C m] C m

/-- The value of `FUSION_MAX_LIST_SIZE`. -/
def listLimit (ms : Macros) : Nat := (ms.lookup (chars! "FUSION_MAX_LIST_SIZE")).getD 0

/-- If it is one argument that is no sequence, it has the type of the field. -/
def SoleExact (m : MsgType) (as : List Arg) : Prop := ∀ e, as = [.expr e] → e.ty = m.fields.head?

/-! ### C86 -/

theorem passes_convert {fs : List FieldType} {as : List Arg} {vs : List Value} :
    Passes fs as vs ↔ convert fs as = some vs ∧ as.length = fs.length := by
  constructor
  · intro h
    induction h with
    | nil => exact ⟨rfl, rfl⟩
    | cons h _ ih =>
      obtain ⟨h1, h2⟩ := ih
      simp [convert, h, h1, h2]
  · rintro ⟨h1, h2⟩
    induction as generalizing fs vs with
    | nil =>
      cases fs with
      | nil => simp only [convert, Option.some.injEq] at h1; subst h1; exact .nil
      | cons => simp at h2
    | cons a as ih =>
      cases fs with
      | nil => simp at h2
      | cons f fs =>
        cases a with
        | seq vs => simp [convert] at h1
        | expr e =>
          simp only [convert, Option.bind_eq_some_iff, Option.map_eq_some_iff] at h1
          obtain ⟨bs, hb, ws, hw, rfl⟩ := h1
          exact .cons hb (ih hw (by simpa using h2))

/-- C86. The header generated for arities up to `k` can be read, with whatever macros are defined before. -/
theorem C86_reads (ms : Macros) (k : Nat) : ∃ fs, readFns ms (body SendOverloads.generate 0 k) = some fs :=
  ⟨_, readFns_body ms k⟩

/-- C86. Which calls of `send` compile and what they do: a tuple of the message's fields is sent. As many arguments
as the message has fields, which convert to the fields' types, are sent like the tuple of the converted values if the
header was generated for that many and a list can have that many elements; one argument must have exactly the type
of the field. Nothing else compiles. `eqTest`: the answer of `mpl::equal` for two numbers, whatever it is for
different ones. -/
theorem C86_calls {σ : Type} {eqTest : Nat → Nat → Bool} (heq : ∀ a, eqTest a a = true) {ms : Macros} {k : Nat}
    {fs : List Fn} (hfs : readFns ms (body SendOverloads.generate 0 k) = some fs)
    {ex : List Entity} {C : Collection} {m : MsgType} (hex : Names ex C m)
    (T : Tx σ) (s : σ) (as : List Arg) (r : Res σ) :
    callSend eqTest fs ex T s as = some r ↔
      (∃ vs, as = [.seq vs] ∧ send C m T s vs = some r) ∨
      (∃ vs, Passes m.fields as vs ∧ as.length ≤ k ∧ as.length ≤ listLimit ms ∧ SoleExact m as ∧
        send C m T s vs = some r) := by
  have hf : fs = overloads ms k := by
    rw [readFns_body] at hfs
    exact (Option.some.inj hfs).symm
  subst hf
  have hx : ∀ e : Expr, (∃ f, m.fields[0]? = some f ∧ e.ty = some f) ↔ (e.ty = m.fields.head? ∧ m.fields ≠ []) := by
    intro e
    cases m.fields with
    | nil => simp
    | cons f fs => simp
  have hx' : ∀ {vs}, Passes m.fields as vs →
      ((∀ e, as = [.expr e] → ∃ f, m.fields[0]? = some f ∧ e.ty = some f) ↔ SoleExact m as) := by
    intro vs hp
    constructor
    · intro h e he
      exact ((hx e).mp (h e he)).1
    · intro h e he
      refine (hx e).mpr ⟨h e he, ?_⟩
      have := (passes_convert.mp hp).2
      rw [he] at this
      intro h0
      rw [h0] at this
      cases this
  have key : callSend eqTest (overloads ms k) ex T s as = some r ↔
      (∃ vs, as = [.seq vs] ∧ send C m T s vs = some r) ∨
      (∃ vs, convert m.fields as = some vs ∧ as.length = m.fields.length ∧
        (as.length ≤ k ∧ as.length ≤ (ms.lookup listSize).getD 0) ∧
        (∀ e, as = [.expr e] → ∃ f, m.fields[0]? = some f ∧ e.ty = some f) ∧ send C m T s vs = some r) := by
    cases hex with
    | pair C m => exact callSend_pair heq ms k C m T s as r
    | bound C m => exact callSend_bound heq ms k C m T s as r
  rw [key]
  refine or_congr Iff.rfl (exists_congr fun vs => ?_)
  constructor
  · rintro ⟨h1, h2, ⟨h3, h4⟩, h5, h6⟩
    have hp := passes_convert.mpr ⟨h1, h2⟩
    exact ⟨hp, h3, h4, (hx' hp).mp h5, h6⟩
  · rintro ⟨h1, h3, h4, h5, h6⟩
    exact ⟨(passes_convert.mp h1).1, (passes_convert.mp h1).2, ⟨h3, h4⟩, (hx' h1).mpr h5, h6⟩

/-- C86. A call with other than the message's number of arguments, or with more than a list can have, does not
compile, unless it passes one tuple. -/
theorem C86_wrong_number {σ : Type} {eqTest : Nat → Nat → Bool} (heq : ∀ a, eqTest a a = true) {ms : Macros} {k : Nat}
    {fs : List Fn} (hfs : readFns ms (body SendOverloads.generate 0 k) = some fs)
    {ex : List Entity} {C : Collection} {m : MsgType} (hex : Names ex C m) (T : Tx σ) (s : σ) {as : List Arg}
    (hseq : ∀ vs, as ≠ [.seq vs]) (hn : as.length ≠ m.fields.length ∨ k < as.length ∨ listLimit ms < as.length) :
    callSend eqTest fs ex T s as = none := by
  cases h : callSend eqTest fs ex T s as with
  | none => rfl
  | some r =>
    rcases (C86_calls heq hfs hex T s as r).mp h with ⟨vs, he, _⟩ | ⟨vs, hp, h1, h2, _, _⟩
    · exact absurd he (hseq vs)
    · have := (passes_convert.mp hp).2
      omega

/-- C86. One argument whose type is not that of the field, even if it converts to it, does not compile. -/
theorem C86_one_converted {σ : Type} {eqTest : Nat → Nat → Bool} (heq : ∀ a, eqTest a a = true) {ms : Macros} {k : Nat}
    {fs : List Fn} (hfs : readFns ms (body SendOverloads.generate 0 k) = some fs)
    {ex : List Entity} {C : Collection} {m : MsgType} (hex : Names ex C m) (T : Tx σ) (s : σ) {e : Expr}
    (hne : e.ty ≠ m.fields.head?) : callSend eqTest fs ex T s [.expr e] = none := by
  cases h : callSend eqTest fs ex T s [.expr e] with
  | none => rfl
  | some r =>
    rcases (C86_calls heq hfs hex T s _ r).mp h with ⟨vs, he, _⟩ | ⟨vs, _, _, _, hx, _⟩
    · simp at he
    · exact absurd (hx e rfl) hne

/-- C86. Both ways to name the message are the same. -/
theorem C86_same {σ : Type} {eqTest : Nat → Nat → Bool} (heq : ∀ a, eqTest a a = true) {ms : Macros} {k : Nat}
    {fs : List Fn} (hfs : readFns ms (body SendOverloads.generate 0 k) = some fs) (C : Collection) (m : MsgType)
    (T : Tx σ) (s : σ) (as : List Arg) :
    callSend eqTest fs [.bound C m] T s as = callSend eqTest fs [.collection C, .message m] T s as := by
  have h1 := C86_calls heq hfs (.bound C m) T s as
  have h2 := C86_calls heq hfs (.pair C m) T s as
  cases h : callSend eqTest fs [.collection C, .message m] T s as with
  | some r => exact (h1 r).mpr ((h2 r).mp h)
  | none =>
    cases h' : callSend eqTest fs [.bound C m] T s as with
    | none => rfl
    | some r => rw [(h2 r).mpr ((h1 r).mp h')] at h; cases h

theorem passes_zip {fs : List FieldType} {as : List Arg} {vs : List Value} (h : Passes fs as vs) :
    List.zipWith Value.mk fs (vs.map (·.bytes)) = vs := by
  induction h with
  | nil => rfl
  | cons _ _ ih => simp [ih]

/-- C86. In terms of `sendOverload`: the header as shipped, for arities up to nine. -/
theorem C86_overload {σ : Type} {eqTest : Nat → Nat → Bool} (heq : ∀ a, eqTest a a = true) {ms : Macros}
    {fs : List Fn} (hfs : readFns ms (body SendOverloads.generate 0 9) = some fs) (hl : 9 ≤ listLimit ms)
    {ex : List Entity} {C : Collection} {m : MsgType} (hex : Names ex C m) (T : Tx σ) (s : σ) {as : List Arg}
    {vs : List Value} (hp : Passes m.fields as vs) (hx : SoleExact m as) :
    callSend eqTest fs ex T s as = sendOverload C m T s (vs.map (·.bytes)) := by
  obtain ⟨hc, hlen⟩ := passes_convert.mp hp
  obtain ⟨hv, hty⟩ := convert_length hc
  have hz : List.zipWith Value.mk m.fields (vs.map (·.bytes)) = vs := passes_zip hp
  have hns : ∀ ws, as ≠ [.seq ws] := by
    rintro ws rfl
    cases hm : m.fields <;> (rw [hm] at hc; simp [convert] at hc)
  have hiff := C86_calls heq hfs hex T s as
  have : ∀ r, callSend eqTest fs ex T s as = some r ↔ sendOverload C m T s (vs.map (·.bytes)) = some r := by
    intro r
    rw [hiff r]
    unfold sendOverload
    rw [hz, List.length_map, hv, hlen]
    constructor
    · rintro (⟨ws, h, _⟩ | ⟨ws, h1, h2, _, _, h5⟩)
      · exact absurd h (hns ws)
      · have := (passes_convert.mp h1).1
        rw [hc] at this
        cases this
        rw [if_pos ⟨rfl, h2⟩]
        exact h5
    · intro h
      split at h
      · rename_i h9
        exact .inr ⟨vs, hp, h9.2, Nat.le_trans h9.2 hl, hx, h⟩
      · cases h
  cases h : callSend eqTest fs ex T s as with
  | some r => exact ((this r).mp h).symm
  | none =>
    cases h' : sendOverload C m T s (vs.map (·.bytes)) with
    | none => rfl
    | some r => rw [(this r).mpr h'] at h; cases h

/-- C86. The generated configuration header makes the limits what the scripts were told, unless the program has
defined them before: `FUSION_MAX_LIST_SIZE` as the arity for sending, `BOOST_FUSION_INVOKE_PROCEDURE_MAX_ARITY` one
more than the arity for receiving, because of the tag. It changes no other macro. -/
theorem C86_config (ms : Macros) (sendMax receiveMax : Nat) : ∃ ts ms',
    preprocess ms [] (lex (cat (ArityConfig.generate sendMax receiveMax) (chars! "\n") ++ chars! "\n")) =
      some (ts, ms') ∧
    ms'.lookup (chars! "FUSION_MAX_LIST_SIZE") = some ((ms.lookup (chars! "FUSION_MAX_LIST_SIZE")).getD sendMax) ∧
    ms'.lookup (chars! "BOOST_FUSION_INVOKE_PROCEDURE_MAX_ARITY") =
      some ((ms.lookup (chars! "BOOST_FUSION_INVOKE_PROCEDURE_MAX_ARITY")).getD (receiveMax + 1)) ∧
    ∀ x, x ≠ chars! "FUSION_MAX_LIST_SIZE" → x ≠ chars! "BOOST_FUSION_INVOKE_PROCEDURE_MAX_ARITY" →
      ms'.lookup x = ms.lookup x := by
  obtain ⟨ts, hts⟩ := config_macros ms sendMax receiveMax
  refine ⟨ts, _, hts, ?_, ?_, ?_⟩
  · show List.lookup listSize _ = some ((ms.lookup listSize).getD sendMax)
    rw [lookup_defineUnless, if_neg (show listSize ≠ procedureArity by decide +kernel), lookup_defineUnless, if_pos rfl]
  · show List.lookup procedureArity _ = some ((ms.lookup procedureArity).getD (receiveMax + 1))
    rw [lookup_defineUnless, if_pos rfl, lookup_defineUnless,
      if_neg (show procedureArity ≠ listSize by decide +kernel)]
  · intro x h1 h2
    rw [lookup_defineUnless, if_neg (show ¬ x = procedureArity from h2), lookup_defineUnless,
      if_neg (show ¬ x = listSize from h1)]

/-! ### Examples -/

/-- An expression of a field type with the given bytes. -/
def typed (f : FieldType) (bs : List Byte) : Arg := .expr ⟨some f, fun g => if g = f then some bs else none⟩

/-- An `int` literal, which converts to a byte. -/
def literal (b : Byte) : Arg := .expr ⟨none, fun g => if g = .uint8 then some [b] else none⟩

/-- The header as shipped. -/
def shipped : List Fn := overloads [(listSize, 9)] 9

theorem shipped_reads : readFns [(listSize, 9)] (body SendOverloads.generate 0 9) = some shipped := readFns_body _ _

/-- Three fields, the first given as a literal. -/
example : callSend (fun _ _ => true) shipped [.collection Sample.basic, .message Sample.pose] vectorBuffer []
      [literal 1, typed (.pod 0 4) [2, 3, 4, 5], typed (.pod 1 2) [6, 7]] =
    sendOverload Sample.basic Sample.pose vectorBuffer [] [[1], [2, 3, 4, 5], [6, 7]] :=
  C86_overload (vs := [⟨.uint8, [1]⟩, ⟨.pod 0 4, [2, 3, 4, 5]⟩, ⟨.pod 1 2, [6, 7]⟩]) (fun _ => rfl) shipped_reads
    (by decide +kernel) (.pair _ _) _ _ (.cons rfl (.cons rfl (.cons rfl .nil))) (fun e he => by simp at he)

/-- That call compiles. -/
example : (sendOverload Sample.basic Sample.pose vectorBuffer [] [[1], [2, 3, 4, 5], [6, 7]]).isSome = true := by
  decide +kernel

/-- The same with a bound message. -/
example (as : List Arg) := C86_same (eqTest := fun _ _ => true) (fun _ => rfl) shipped_reads Sample.checked Sample.pose
  vectorBuffer [] as

/-- Two arguments for three fields, although `mpl::equal` does not object. -/
example : callSend (fun _ _ => true) shipped [.bound Sample.basic Sample.pose] vectorBuffer []
    [literal 1, typed (.pod 0 4) [2, 3, 4, 5]] = none :=
  C86_wrong_number (fun _ => rfl) shipped_reads (.bound _ _) _ _ (by intro vs h; simp at h) (.inl (by decide))

/-- A literal for the only field of `level` does not compile; a byte does, and so does a tuple. -/
example : callSend (fun _ _ => true) shipped [.collection Sample.basic, .message Sample.level] vectorBuffer []
      [literal 5] = none ∧
    (callSend (fun _ _ => true) shipped [.collection Sample.basic, .message Sample.level] vectorBuffer []
      [typed .uint8 [5]]).isSome = true ∧
    callSend (fun _ _ => true) shipped [.collection Sample.basic, .message Sample.level] vectorBuffer []
      [.seq Sample.levelVals] = send Sample.basic Sample.level vectorBuffer [] Sample.levelVals := by
  refine ⟨C86_one_converted (fun _ => rfl) shipped_reads (.pair _ _) _ _ (by decide), ?_, ?_⟩
  · rw [C86_overload (fun _ => rfl) shipped_reads (by decide +kernel) (.pair _ _) _ _ (.cons rfl .nil)
      (by intro e he; simp only [typed, List.cons.injEq, Arg.expr.injEq, and_true] at he; rw [← he]; rfl)]
    decide +kernel
  · cases h : send Sample.basic Sample.level vectorBuffer [] Sample.levelVals with
    | none => exact absurd h (by decide +kernel)
    | some r => exact (C86_calls (fun _ => rfl) shipped_reads (.pair _ _) _ _ _ r).mpr (.inl ⟨_, rfl, h⟩)

/-- A program that limits lists to two elements before it includes the library: three fields need a tuple. -/
example (fs : List Fn) (h : readFns [(chars! "FUSION_MAX_LIST_SIZE", 2)] (body SendOverloads.generate 0 9) = some fs) :
    callSend (fun _ _ => true) fs [.bound Sample.basic Sample.pose] vectorBuffer []
      [literal 1, typed (.pod 0 4) [2, 3, 4, 5], typed (.pod 1 2) [6, 7]] = none :=
  C86_wrong_number (fun _ => rfl) h (.bound _ _) _ _ (by intro vs h; simp at h) (.inr (.inr (by decide +kernel)))

example := C86_config [] 9 9

/-- The text that is read is not empty: the shipped header has twenty function templates. -/
example : shipped.length = 20 := by decide +kernel

end TT.Properties
