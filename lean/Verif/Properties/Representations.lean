import Verif.Model.Representations
import Verif.Properties.LineErrors
import Verif.Properties.Receiver

/-!
# Property about field types that do not use all their bit patterns: C108
-/

namespace TT.Properties
open Spec

variable {C : Collection} {B : Build} {user : UserCode} {fuel : Nat} {V : Patterns}

/-! ### C108 -/

/-- The contents of every field are a value of its type. -/
def Readable (V : Patterns) (fs : List FieldType) (vs : List (List Byte)) : Prop :=
  ∀ ty n v, (FieldType.pod ty n, v) ∈ fs.zip vs → V ty v = true

/-- So are those of all fields of all calls. -/
def AllReadable (V : Patterns) (calls : List (MsgType × List (List Byte))) : Prop :=
  ∀ c ∈ calls, Readable V c.1.fields c.2

theorem readable_cons {f : FieldType} {fs : List FieldType} {v : List Byte} {vs : List (List Byte)} :
    Readable V (f :: fs) (v :: vs) ↔ V.ok f v = true ∧ Readable V fs vs := by
  constructor
  · intro h
    refine ⟨?_, fun ty n u hu => h ty n u (by simp [hu])⟩
    cases f with
    | uint8 => rfl
    | pod ty n => exact h ty n v (by simp)
  · rintro ⟨h1, h2⟩ ty n u hu
    simp only [List.zip_cons_cons, List.mem_cons, Prod.mk.injEq] at hu
    rcases hu with ⟨rfl, rfl⟩ | hu
    · exact h1
    · exact h2 ty n u hu

theorem deserializeV_eq (contents : List Byte) : ∀ (fs : List FieldType) (it : Nat) (acc args : List (List Byte)),
    deserialize contents it fs acc = .ok args → ∃ vs, args = acc ++ vs ∧
      (Readable V fs vs → deserializeV V contents it fs acc = .ok args) ∧
      (¬ Readable V fs vs → deserializeV V contents it fs acc = .error .ub) := by
  intro fs
  induction fs with
  | nil =>
    intro it acc args h
    simp only [deserialize, Except.ok.injEq] at h
    exact ⟨[], by simp [h], fun _ => by simp [deserializeV, h], fun hn => absurd (by intro _ _ _ h; simp at h) hn⟩
  | cons f fs ih =>
    intro it acc args h
    simp only [deserialize] at h
    cases hu : unbuffer contents it f with
    | error e => simp [hu] at h
    | ok q =>
      obtain ⟨v, it'⟩ := q
      simp only [hu, ok_bind] at h
      obtain ⟨vs, h1, h2, h3⟩ := ih it' (acc ++ [v]) args h
      refine ⟨v :: vs, by rw [h1]; simp, ?_, ?_⟩
      · intro hr
        obtain ⟨k1, k2⟩ := readable_cons.mp hr
        simp only [deserializeV, unbufferV, hu, ok_bind, k1, if_true]
        exact h2 k2
      · intro hr
        rw [readable_cons] at hr
        by_cases k1 : V.ok f v = true
        · simp only [deserializeV, unbufferV, hu, ok_bind, k1, if_true]
          exact h3 fun k2 => hr ⟨k1, k2⟩
        · simp only [deserializeV, unbufferV, hu, ok_bind, k1]
          rfl

theorem invokeV_eq {r : Receiver C} {id : Byte} {i? : Option Invocation} (h : r.invoke id = .ok i?) :
    ((∀ i ∈ i?, Readable V i.msg.fields i.args) → r.invokeV V id = .ok i?) ∧
    ((¬ ∀ i ∈ i?, Readable V i.msg.fields i.args) → r.invokeV V id = .error .ub) := by
  unfold Receiver.invoke at h
  unfold Receiver.invokeV
  cases hk : r.invoker with
  | none => simp [hk] at h
  | some k =>
    cases ho : r.functorPointer with
    | none => simp [hk, ho] at h
    | some o =>
      simp only [hk, ho, applyAt_eq] at h ⊢
      cases hm : C.messages[id.toNat]? with
      | none =>
        simp only [hm, Except.ok.injEq] at h
        subst h
        exact ⟨fun _ => rfl, fun hn => absurd (by simp) hn⟩
      | some m =>
        simp only [hm] at h ⊢
        cases hd : deserialize r.recv.buf.contents r.recv.getDataIterator m.fields [] with
        | error e => simp [hd] at h
        | ok args =>
          simp only [hd, ok_bind] at h
          cases h
          obtain ⟨vs, h1, h2, h3⟩ := deserializeV_eq (V := V) _ _ _ _ _ hd
          simp only [List.nil_append] at h1
          subst h1
          constructor
          · intro hr
            rw [h2 (hr _ rfl)]
            rfl
          · intro hr
            rw [h3 fun k => hr (by rintro i ⟨⟩; exact k)]
            rfl

/-- From the state `w`, the model with invalid patterns does `y` where the one without does `x`: the same, or the undefined
behaviour at the first call with an invalid pattern. -/
def Refines (V : Patterns) {α : Type} (w : World C) (x y : Res (World C × α)) : Prop :=
  ∀ w' a, x = .ok (w', a) → w.trace <+: w'.trace ∧ (AllReadable V (delivered w') → y = .ok (w', a)) ∧
    (AllReadable V (delivered w) → ¬ AllReadable V (delivered w') → y = .error .ub)

theorem allReadable_prefix {a b : List Invocation} (h : a <+: b) (hr : AllReadable V (b.map seen)) :
    AllReadable V (a.map seen) := by
  obtain ⟨t, rfl⟩ := h
  exact fun c hc => hr c (by simp at hc ⊢; exact Or.inl hc)

theorem refines_same {α : Type} {w : World C} {x : Res (World C × α)}
    (h : ∀ w' a, x = .ok (w', a) → w'.trace = w.trace) : Refines V w x x := by
  intro w' a e
  have := h w' a e
  refine ⟨by rw [this]; exact List.prefix_rfl, fun _ => e, fun h1 h2 => absurd ?_ h2⟩
  unfold delivered at *
  rw [this]
  exact h1

theorem refines_bind {α β : Type} {w : World C} {x y : Res (World C × α)} {f g : World C × α → Res (World C × β)}
    (h : Refines V w x y) (hfg : ∀ w1 a, x = .ok (w1, a) → Refines V w1 (f (w1, a)) (g (w1, a))) :
    Refines V w (x >>= f) (y >>= g) := by
  intro w' b e
  cases hx : x with
  | error e' => simp [hx] at e
  | ok q =>
    obtain ⟨w1, a⟩ := q
    simp only [hx, ok_bind] at e
    obtain ⟨p1, k1, k2⟩ := h w1 a hx
    obtain ⟨p2, k3, k4⟩ := hfg w1 a hx w' b e
    refine ⟨p1.trans p2, fun hr => ?_, fun h0 hn => ?_⟩
    · rw [k1 (allReadable_prefix p2 hr), ok_bind]
      exact k3 hr
    · by_cases hr : AllReadable V (delivered w1)
      · rw [k1 hr, ok_bind]
        exact k4 hr hn
      · rw [k2 h0 hr]
        rfl

theorem refines_start {α : Type} {w w0 : World C} {x y : Res (World C × α)} (h : Refines V w x y)
    (ht : w.trace = w0.trace) : Refines V w0 x y := by
  intro w' a e
  obtain ⟨h1, h2, h3⟩ := h w' a e
  unfold delivered at *
  rw [ht] at h1 h3
  exact ⟨h1, h2, h3⟩

theorem append_trace {w w' : World C} {xs : List Byte} (h : w.append B xs = .ok w') : w'.trace = w.trace := by
  unfold World.append at h
  cases hr : w.rx.appendReceived B xs with
  | error e => simp [hr] at h
  | ok r => simp [hr] at h; rw [← h]

theorem refines_acts {nested nestedV : World C → Res (World C × Outcome)}
    (hn : ∀ w, Refines V w (nested w) (nestedV w)) : ∀ (as : List Act) (w : World C),
    Refines V w (w.runActs B nested as) (w.runActs B nestedV as) := by
  intro as
  induction as with
  | nil => exact fun w => refines_same fun w' a e => by simp [World.runActs] at e; rw [← e.1]
  | cons a as ih =>
    intro w
    cases a with
    | append xs =>
      simp only [World.runActs]
      cases ha : w.append B xs with
      | error e => exact refines_same fun w' a e => by simp at e
      | ok w1 => exact refines_start (ih w1) (append_trace ha)
    | setHandler h => exact refines_start (ih _) rfl
    | clearHandler => exact refines_start (ih _) rfl
    | process =>
      simp only [World.runActs]
      refine refines_bind (hn w) fun w1 o _ => ?_
      cases o with
      | threw => exact refines_same fun w' a e => by simp at e; rw [← e.1]
      | returned n => exact ih w1

theorem refines_call {nested nestedV : World C → Res (World C × Outcome)}
    (hn : ∀ w, Refines V w (nested w) (nestedV w)) (w : World C) (i : Invocation) :
    Refines V { w with trace := w.trace ++ [i] } (w.callHandler B user nested i) (w.callHandler B user nestedV i) := by
  unfold World.callHandler
  cases hd : dispatch i with
  | none => exact refines_same fun w' a e => by simp at e; rw [← e.1]
  | some c =>
    refine refines_bind (refines_acts hn _ _) fun w1 a _ => refines_same fun w' b e => ?_
    simp at e
    rw [← e.1]

theorem refines_deliver {nested nestedV : World C → Res (World C × Outcome)} (hn : ∀ w, Refines V w (nested w) (nestedV w))
    {f g : World C × Bool → Res (World C × Outcome)} (hfg : ∀ w t, Refines V w (f (w, t)) (g (w, t))) (w : World C) (id : Byte) :
    Refines V w
      (w.rx.invoke id >>= fun i? => (match i? with
        | none => (.ok (w, false) : Res (World C × Bool))
        | some i => w.callHandler B user nested i) >>= f)
      (w.rx.invokeV V id >>= fun i? => (match i? with
        | none => (.ok (w, false) : Res (World C × Bool))
        | some i => w.callHandler B user nestedV i) >>= g) := by
  cases hi : w.rx.invoke id with
  | error e' => intro w' a e; cases e
  | ok i? =>
    obtain ⟨k1, k2⟩ := invokeV_eq (V := V) hi
    cases i? with
    | none =>
      rw [k1 (by simp)]
      simp only [ok_bind]
      exact hfg w false
    | some i =>
      have hcall := refines_bind (f := f) (g := g) (refines_call (user := user) (B := B) hn w i) fun w2 t _ => hfg w2 t
      intro w' a e'
      simp only [ok_bind] at e'
      obtain ⟨h1, h2, h3⟩ := hcall w' a e'
      have hpre : w.trace <+: w.trace ++ [i] := List.prefix_append _ _
      by_cases hr : Readable V i.msg.fields i.args
      · rw [k1 (by rintro j ⟨⟩; exact hr)]
        simp only [ok_bind]
        refine ⟨hpre.trans h1, h2, fun h0 hnot => h3 ?_ hnot⟩
        intro c hc
        simp only [delivered, List.map_append, List.mem_append, List.map_cons, List.map_nil, List.mem_singleton] at hc
        rcases hc with hc | rfl
        · exact h0 c hc
        · exact hr
      · rw [k2 fun h => hr (h i rfl)]
        exact ⟨hpre.trans h1, fun hall => absurd (allReadable_prefix h1 hall (seen i) (by simp)) hr, fun _ _ => rfl⟩

/-- What the loop does after the handler call. -/
def nextRound (B : Build) (next : World C → Res (World C × Outcome)) (q : World C × Bool) : Res (World C × Outcome) :=
  if q.2 = true then .ok (q.1, .threw) else
    q.1.rx.recv.popMessage B >>= fun e => next { q.1 with rx := { q.1.rx with recv := e } }

theorem refines_after {next nextV : World C → Res (World C × Outcome)} (hn : ∀ w, Refines V w (next w) (nextV w))
    (w : World C) (t : Bool) : Refines V w (nextRound B next (w, t)) (nextRound B nextV (w, t)) := by
  unfold nextRound
  cases t with
  | true => exact refines_same fun w' a e => by simp at e; rw [← e.1]
  | false =>
    simp only [Bool.false_eq_true, if_false]
    cases hp : w.rx.recv.popMessage B with
    | error e' => intro w' a e; cases e
    | ok e2 => exact refines_start (hn _) rfl

theorem refines_loop : ∀ (fuel : Nat) (w : World C) (n : Byte),
    Refines V w (w.processLoop B user fuel n) (w.processLoopV V B user fuel n) := by
  intro fuel
  induction fuel with
  | zero => exact fun w n w' a e => by simp [World.processLoop] at e
  | succ fuel ih =>
    intro w n
    rw [World.processLoop, World.processLoopV]
    revert ih
    generalize World.processLoop (C := C) B user fuel = L
    generalize World.processLoopV (C := C) V B user fuel = LV
    intro ih
    cases hc : w.rx.recv.checkBufferForMessage B with
    | error e => intro w' a e; cases e
    | ok q =>
      obtain ⟨e, found⟩ := q
      simp only [ok_bind]
      cases found with
      | false =>
        simp only [Bool.not_false, if_true]
        exact refines_same fun w' a e => by cases e; rfl
      | true =>
        simp only [Bool.not_true, Bool.false_eq_true, if_false]
        cases hg : e.getCurrentMessageId B with
        | error e' => intro w' a e; cases e
        | ok id =>
          simp only [ok_bind]
          have hn : ∀ w : World C, Refines V w (if !w.rx.hasHandler then .ok (w, .returned 0) else L w 0)
              (if !w.rx.hasHandler then .ok (w, .returned 0) else LV w 0) := by
            intro w
            by_cases hh : (!w.rx.hasHandler) = true
            · simp only [hh, if_true]
              exact refines_same fun w' a e => by simp at e; rw [← e.1]
            · simp only [hh]
              exact ih w 0
          have := refines_deliver (B := B) (user := user) hn
            (refines_after (B := B) fun w => ih w (n + 1)) { w with rx := { w.rx with recv := e, lastMessageId := some id } } id
          exact refines_start this rfl

theorem refines_step (w : World C) (op : Op) : Refines V w (w.step B user fuel op) (w.stepV V B user fuel op) := by
  cases op with
  | process =>
    unfold World.step World.stepV World.processMessages World.processMessagesV
    by_cases hh : (!w.rx.hasHandler) = true
    · simp only [hh, if_true]
      exact refines_same fun w' a e => by simp at e; rw [← e.1]
    · simp only [hh]
      refine refines_bind (refines_loop fuel w 0) fun w1 a _ => refines_same fun w' a e => by simp at e; rw [← e.1]
  | append xs =>
    refine refines_same fun w' a e => ?_
    simp only [World.step] at e
    cases ha : w.append B xs with
    | error e' => simp [ha] at e
    | ok w1 => simp [ha] at e; rw [← e.1]; exact append_trace ha
  | receiveFrom a r =>
    refine refines_same fun w' a e => ?_
    simp only [World.step] at e
    cases ha : w.rx.receiveFrom B ⟨‹_›, r⟩ with
    | error e' => simp [ha] at e
    | ok w1 => simp [ha] at e; rw [← e.1]
  | setHandler h => exact refines_same fun w' a e => by simp [World.step] at e; rw [← e.1]
  | clearHandler => exact refines_same fun w' a e => by simp [World.step] at e; rw [← e.1]
  | copy =>
    refine refines_same fun w' a e => ?_
    simp only [World.step] at e
    cases ha : w.rx.copyConstruct with
    | error e' => simp [ha] at e
    | ok w1 => simp [ha] at e; rw [← e.1]

theorem refines_run : ∀ (ops : List Op) (w : World C), Refines V w (w.run B user fuel ops) (w.runV V B user fuel ops) := by
  intro ops
  induction ops with
  | nil => exact fun w => refines_same fun w' a e => by simp [World.run] at e; rw [← e.1]
  | cons op ops ih =>
    intro w
    simp only [World.run, World.runV]
    refine refines_bind (refines_step w op) fun w1 o _ => refines_bind (ih w1) fun w2 os _ =>
      refines_same fun w' a e => by simp at e; rw [← e.1]

/-- C108, the rule. A legal history is defined exactly if every field of every call it makes is a value of its type; it is
then as if all patterns were valid, and otherwise it is undefined. -/
theorem C108_rule {ops : List Op} {w : World C} {os : List Obs} (h : Reached B user fuel ops w os) :
    (AllReadable V (delivered w) → (World.new C).runV V B user fuel ops = .ok (w, os)) ∧
    (¬ AllReadable V (delivered w) → (World.new C).runV V B user fuel ops = .error .ub) := by
  obtain ⟨-, h2, h3⟩ := refines_run (V := V) ops (World.new C) w os h.run
  exact ⟨h2, h3 fun c hc => by cases hc⟩

/-- All bit patterns of the right size are values, for all fields of all messages. -/
def AllPatterns (V : Patterns) (C : Collection) : Prop :=
  ∀ t ∈ C.messages, ∀ ty n, FieldType.pod ty n ∈ t.fields → ∀ bs : List Byte, bs.length = n → V ty bs = true

theorem readable_of_all : ∀ (fs : List FieldType) (p : List Byte), p.length = (fs.map fieldSize).sum →
    (∀ ty n, FieldType.pod ty n ∈ fs → ∀ bs : List Byte, bs.length = n → V ty bs = true) →
    Readable V fs (splitFields fs p) := by
  intro fs
  induction fs with
  | nil => intro p _ _ ty n v h; simp at h
  | cons f fs ih =>
    intro p hp hV
    simp only [List.map_cons, List.sum_cons] at hp
    rw [splitFields, readable_cons]
    refine ⟨?_, ih _ (by simp; omega) fun ty n h => hV ty n (by simp [h])⟩
    cases f with
    | uint8 => rfl
    | pod ty n => exact hV ty n (by simp) _ (by simp [fieldSize] at hp ⊢; omega)

theorem IsMsg.readable {m : Msg} (hm : IsMsg C m) (hV : AllPatterns V C) :
    Readable V (meaning C m).1.fields (meaning C m).2 := by
  obtain ⟨t, ht, hl⟩ := hm
  simp only [meaning, ht, Option.getD_some]
  exact readable_of_all _ _ hl (hV t (List.mem_of_getElem? ht))

/-- A receiver that is given `xs` and asked once. -/
theorem once_reached (A : Arith B (recvBufferSize C)) (hne : C.messages ≠ []) (hf : capacity C < fuel) (h : Handler)
    {xs : List Byte} (hx : xs.length ≤ 2 * maxLen C + 1) :
    ∃ (w : World C) (os : List Obs), Reached B Sample.passive fuel ([.setHandler h, .append xs] ++ [.process]) w os ∧
      w.rx.hasHandler = true ∧ w.fed = xs := by
  have S : Setting C B Sample.passive := ⟨A, Sample.passive_benign⟩
  have hl : Legal B Sample.passive fuel (World.new C) ([.setHandler h, .append xs] ++ [.process]) :=
    C33_rounds_legal S Sample.passive_neverThrows hne h [xs] (by simpa using hx)
  obtain ⟨w, os, hr⟩ := C34_terminates S Sample.passive_quiet hf _ hl
  have R : Reached B Sample.passive fuel ([.setHandler h, .append xs] ++ [.process]) w os := ⟨hl, hr⟩
  obtain ⟨s, ms, ha, he⟩ := R.exec S
  refine ⟨w, os, R, ?_, ?_⟩
  · rw [ha.hasHandler, exec_handler Sample.passive_keepsHandler he]
    rfl
  · rw [ha.fed]
    cases he with
    | cons h1 he =>
      cases h1
      cases he with
      | cons h2 he =>
        cases h2
        cases he with
        | cons h3 he =>
          cases he
          cases h3 with
          | idle _ => rfl
          | process _ hp => rw [hp.quiet Sample.passive_quiet]; rfl
          | thrown _ hp => rw [hp.quiet Sample.passive_quiet]; rfl

/-- C108, exact. After a poll with a handler that does not throw, the history has been defined exactly if all messages the
stream decodes to are made of values. -/
theorem C108_exact (S : Setting C B user) (hn : NeverThrows user) {ops : List Op} {w : World C} {os : List Obs}
    (h : Reached B user fuel (ops ++ [.process]) w os) (hh : w.rx.hasHandler = true)
    {ms : List Msg} {r : List Byte} (hd : Decodes C w.fed ms r) :
    ((World.new C).runV V B user fuel (ops ++ [.process]) = .ok (w, os) ↔ AllReadable V (ms.map (meaning C))) ∧
    ((World.new C).runV V B user fuel (ops ++ [.process]) = .error .ub ↔ ¬ AllReadable V (ms.map (meaning C))) := by
  obtain ⟨h1, h2⟩ := C108_rule (V := V) h
  obtain ⟨ms', hd', e⟩ := h.polled S hn hh
  rw [e, (hd'.unique hd).1] at h1 h2
  by_cases hr : AllReadable V (ms.map (meaning C))
  · simp [h1 hr, hr]
  · simp [h2 hr, hr]

/-- C108, all input. Whatever arrives and whatever handlers do, a receiver stays defined if all patterns of all its field types
are values; and only then. -/
theorem C108_any_input (A : Arith B (recvBufferSize C)) (hl : C.messages.length ≤ 255) (hf : capacity C < fuel) :
    (∀ user, BenignUser user → ∀ (ops : List Op) (w : World C) (os : List Obs), Reached B user fuel ops w os →
      (World.new C).runV V B user fuel ops = .ok (w, os)) ↔ AllPatterns V C := by
  constructor
  · intro H t ht ty n hfield bs hbs
    by_cases hv : V ty bs = true
    · exact hv
    exfalso
    obtain ⟨as, zs, hfs⟩ := List.append_of_mem hfield
    let vs : List Value := as.map (fun f => ⟨f, List.replicate (fieldSize f) 0⟩) ++
      ⟨.pod ty n, bs⟩ :: zs.map (fun f => ⟨f, List.replicate (fieldSize f) 0⟩)
    have hfit : ∀ v ∈ vs, Value.Fits v := by
      intro v hm
      simp only [vs, List.mem_append, List.mem_map, List.mem_cons] at hm
      rcases hm with ⟨f, _, rfl⟩ | rfl | ⟨f, _, rfl⟩
      · simp [Value.Fits]
      · simp [Value.Fits, fieldSize, hbs]
      · simp [Value.Fits]
    have hty : vs.map (·.ty) = t.fields := by
      rw [hfs]
      simp [vs, Function.comp_def]
    have hs : Sendable C t vs := ⟨hl, ht, hty⟩
    have hg : Request.Good C ⟨C, t, vs⟩ := ⟨rfl, hs, hfit⟩
    have hm := hg.isMsg
    have hlen : (frame C.envelope (Request.msg ⟨C, t, vs⟩)).length ≤ maxLen C := by
      have := announced_le hm.announced
      rw [maxLen_eq]
      exact this
    obtain ⟨w, os, R, hh, hfed⟩ := once_reached A (List.ne_nil_of_mem ht) hf ⟨.functor, 0⟩
      (xs := frame C.envelope (Request.msg ⟨C, t, vs⟩)) (by omega)
    have hd : Decodes C w.fed [Request.msg ⟨C, t, vs⟩] [] := by
      refine ⟨?_, Or.inl rfl⟩
      rw [hfed, ← List.append_nil (frame _ _)]
      exact Run.take hm (Run.refl [])
    have := (C108_exact (V := V) ⟨A, Sample.passive_benign⟩ Sample.passive_neverThrows R hh hd).1.mp
      (H _ Sample.passive_benign _ _ _ R)
    have h2 := this _ (List.mem_map_of_mem List.mem_cons_self)
    rw [hg.meaning] at h2
    refine hv (h2 ty n bs ?_)
    show (FieldType.pod ty n, bs) ∈ t.fields.zip (vs.map (·.bytes))
    rw [← hty, List.zip_map']
    simp [vs]
  · intro hV user hu ops w os h
    refine (C108_rule h).1 ?_
    intro c hc
    obtain ⟨i, hi, rfl⟩ := List.mem_map.mp hc
    obtain ⟨_, m, _, hm, _, e⟩ := C19_each_call ⟨A, hu⟩ h i hi
    rw [e]
    exact IsMsg.readable hm hV

/-- The contents of the fields are values of their types. -/
def Request.Valued (V : Patterns) (r : Request) : Prop := ∀ v ∈ r.vs, ∀ ty n, v.ty = .pod ty n → V ty v.bytes = true

theorem Request.Valued.readable {r : Request} (hv : r.Valued V) (hg : r.Good C) :
    Readable V r.t.fields (r.vs.map (·.bytes)) := by
  intro ty n bs hm
  rw [← hg.2.1.2.2, List.zip_map', List.mem_map] at hm
  obtain ⟨v, h1, h2⟩ := hm
  simp only [Prod.mk.injEq] at h2
  rw [← h2.2]
  exact hv v h1 ty n h2.1

/-- C108, transmissions. What is sent consists of values; received over a faithful line, it does again. -/
theorem C108_sent {σ : Type} {T : Tx σ} {log : σ → List Byte} (hT : Faithful T log) (S : Setting C B user)
    (hn : NeverThrows user) (rs : List Request) (hrs : ∀ r ∈ rs, r.Good C ∧ r.Valued V) (s s' : σ)
    (hsend : sendAll T s rs = some (.ok s')) {ops : List Op} {w : World C} {os : List Obs}
    (h : Reached B user fuel (ops ++ [.process]) w os) (hh : w.rx.hasHandler = true)
    (hfed : log s' = log s ++ w.fed) :
    (World.new C).runV V B user fuel (ops ++ [.process]) = .ok (w, os) ∧
      delivered w = rs.map (fun r => (r.t, r.vs.map (·.bytes))) := by
  have hd := (C25_round_trip hT S hn rs (fun r hr => (hrs r hr).1) s s' hsend h hh hfed).1
  refine ⟨(C108_rule h).1 ?_, hd⟩
  rw [hd]
  intro c hc
  obtain ⟨r, hr, rfl⟩ := List.mem_map.mp hc
  exact (hrs r hr).2.readable (hrs r hr).1

/-- C108, line errors. With BasicChecksum and messages of values, a message with one byte changed (not its id, and without start
codes after its first byte) does not make the receiver undefined. -/
theorem C108_checksum (hE : C.envelope = .basicChecksum) (S : Setting C B user) (hn : NeverThrows user)
    {ops : List Op} {w : World C} {os : List Obs} (h : Reached B user fuel (ops ++ [.process]) w os)
    (hh : w.rx.hasHandler = true) {m : Msg} (hm : IsMsg C m) {j : Nat} {x b : Byte}
    (hx : (frame C.envelope m)[j]? = some x) (hb : b ≠ x) (hj : j ≠ 1)
    (hno : ∀ c ∈ ((frame C.envelope m).set j b).drop 1, c ≠ 0x01)
    (ms : List Msg) (hms : ∀ m ∈ ms, IsMsg C m ∧ Readable V (meaning C m).1.fields (meaning C m).2)
    (hfed : w.fed = (frame C.envelope m).set j b ++ frames C.envelope ms) :
    (World.new C).runV V B user fuel (ops ++ [.process]) = .ok (w, os) := by
  have hd := (C31_next_delivered hE S hn h hh hm hx hb hj hno ms (fun m hm => (hms m hm).1) hfed).1
  refine (C108_rule h).1 ?_
  rw [hd]
  intro c hc
  obtain ⟨m', hm', rfl⟩ := List.mem_map.mp hc
  exact (hms m' hm').2

/-- A platform where type 7 is `bool`. -/
def boolPatterns : Patterns := fun ty bs => ty != 7 || bs == [0] || bs == [1]

/-- A message with a `bool`, and one with eight bytes without meaning. -/
def switchType : MsgType := ⟨0, [.pod 7 1]⟩
def blobType : MsgType := ⟨1, [.pod 8 8]⟩
def switches (E : Envelope) : Collection := ⟨[switchType, blobType], E⟩

/-- C108. With Basic, one flipped bit in a `bool` makes the receiver undefined, whatever the handler and the build. The
message sent was fine. -/
theorem C108_flip_witness :
    (∀ B, Arith B (recvBufferSize (switches .basic)) → (World.new (switches .basic)).runV boolPatterns B Sample.passive 50
      ([.setHandler Sample.h0, .append [1, 0, 2, 1, 3, 4]] ++ [.process]) ≠ .error .ub) ∧
    (∀ B, Arith B (recvBufferSize (switches .basic)) → (World.new (switches .basic)).runV boolPatterns B Sample.passive 50
      ([.setHandler Sample.h0, .append [1, 0, 2, 3, 3, 4]] ++ [.process]) = .error .ub) := by
  have key : ∀ (b : Byte) (B : Build), Arith B (recvBufferSize (switches .basic)) →
      ∃ w os, Reached (C := switches .basic) B Sample.passive 50
        ([.setHandler Sample.h0, .append [1, 0, 2, b, 3, 4]] ++ [.process]) w os ∧
        delivered w = [(switchType, [[b]])] := by
    intro b B A
    obtain ⟨w, os, R, hh, hf⟩ := once_reached A (by decide) (by decide +kernel : capacity (switches .basic) < 50) Sample.h0
      (xs := [1, 0, 2, b, 3, 4]) (by show 6 ≤ _; decide +kernel)
    have hm : IsMsg (switches .basic) ⟨0, [b]⟩ := ⟨switchType, rfl, rfl⟩
    have hd : Decodes (switches .basic) w.fed [⟨0, [b]⟩] [] := by
      refine ⟨?_, Or.inl rfl⟩
      rw [hf]
      exact Run.take (s := []) hm (Run.refl [])
    exact ⟨w, os, R, (polled_eq ⟨A, Sample.passive_benign⟩ Sample.passive_neverThrows R hh hd).1⟩
  constructor
  · intro B A
    obtain ⟨w, os, R, hd⟩ := key 1 B A
    rw [(C108_rule (V := boolPatterns) R).1]
    · simp
    · rw [hd]
      intro c hc
      simp only [List.mem_singleton] at hc
      subst hc
      intro ty n v hv
      simp [switchType] at hv
      obtain ⟨⟨rfl, rfl⟩, rfl⟩ := hv
      rfl
  · intro B A
    obtain ⟨w, os, R, hd⟩ := key 3 B A
    refine (C108_rule R).2 ?_
    rw [hd]
    intro H
    exact absurd (H _ List.mem_cons_self 7 1 [3] (by simp [switchType])) (by decide)

/-- C108. With both envelopes, a receiver that starts to listen in the middle of a message can become undefined, although the
message is fine and the line is perfect. -/
theorem C108_join_witness :
    Readable boolPatterns blobType.fields [[1, 0, 2, 5, 3, 4, 0, 0]] ∧
    Readable boolPatterns blobType.fields [[1, 0, 2, 5, 3, 11, 4, 0]] ∧
    (World.new (switches .basic)).runV boolPatterns Sample.dbg Sample.passive 50 ([.setHandler Sample.h0,
      .append ((frame .basic ⟨1, [1, 0, 2, 5, 3, 4, 0, 0]⟩).drop 1)] ++ [.process]) = .error .ub ∧
    (World.new (switches .basicChecksum)).runV boolPatterns Sample.dbg Sample.passive 50 ([.setHandler Sample.h0,
      .append ((frame .basicChecksum ⟨1, [1, 0, 2, 5, 3, 11, 4, 0]⟩).drop 1)] ++ [.process]) = .error .ub := by
  refine ⟨?_, ?_, by decide +kernel, by decide +kernel⟩ <;>
  · intro ty n v hv
    simp [blobType] at hv
    obtain ⟨⟨rfl, rfl⟩, rfl⟩ := hv
    rfl

/-! Examples -/

instance (V : Patterns) (fs : List FieldType) (vs : List (List Byte)) : Decidable (Readable V fs vs) :=
  decidable_of_iff (∀ q ∈ fs.zip vs, V.ok q.1 q.2 = true) (by
    constructor
    · intro h ty n v hv
      exact h _ hv
    · rintro h ⟨f, v⟩ hq
      cases f with
      | uint8 => rfl
      | pod ty n => exact h ty n v hq)

instance (V : Patterns) (calls : List (MsgType × List (List Byte))) : Decidable (AllReadable V calls) :=
  inferInstanceAs (Decidable (∀ c ∈ calls, _))

/-- A switch set to true, half a message, the rest of it: a switch that is neither true nor false. -/
def switchSession : List Op :=
  [.setHandler Sample.h0, .append [9, 1, 0, 2, 1, 3, 4, 1, 0], .process, .append [2, 0x80, 3, 4]]

example : ∃ (w : World (switches .basic)) (os : List Obs),
    Reached Sample.dbg Sample.passive 50 switchSession w os ∧ delivered w ≠ [] ∧
    (World.new (switches .basic)).runV boolPatterns Sample.dbg Sample.passive 50 switchSession = .ok (w, os) := by
  obtain ⟨w, os, h, hp⟩ := Sample.reached (C := switches .basic) (B := Sample.dbg) (user := Sample.passive) (fuel := 50)
    (ops := switchSession) (fun w _ => decide (AllReadable boolPatterns (delivered w)) && decide (delivered w ≠ []))
    (by decide +kernel)
  simp only [Bool.and_eq_true, decide_eq_true_eq] at hp
  exact ⟨w, os, h, hp.2, (C108_rule h).1 hp.1⟩

example : ∃ (w : World (switches .basic)) (os : List Obs),
    Reached Sample.dbg Sample.passive 50 (switchSession ++ [.process]) w os ∧
    (World.new (switches .basic)).runV boolPatterns Sample.dbg Sample.passive 50 (switchSession ++ [.process]) = .error .ub := by
  obtain ⟨w, os, h, hp⟩ := Sample.reached (C := switches .basic) (B := Sample.dbg) (user := Sample.passive) (fuel := 50)
    (ops := switchSession ++ [.process]) (fun w _ => w.rx.hasHandler && decide (w.fed = [9] ++
      (frame (switches .basic).envelope ⟨0, [1]⟩ ++ (frame (switches .basic).envelope ⟨0, [0x80]⟩ ++ [])))) (by decide +kernel)
  simp only [Bool.and_eq_true, decide_eq_true_eq] at hp
  have hd : Decodes (switches .basic) w.fed [⟨0, [1]⟩, ⟨0, [0x80]⟩] [] := by
    refine ⟨?_, Or.inl rfl⟩
    rw [hp.2]
    exact run_noise (by decide) (Run.take (by decide +kernel) (Run.take (by decide +kernel) (Run.refl [])))
  exact ⟨w, os, h, (C108_exact ⟨⟨by decide +kernel, by decide +kernel⟩, Sample.passive_benign⟩ Sample.passive_neverThrows h hp.1
    hd).2.mpr (by decide +kernel)⟩

/-- Integers and bytes only: nothing to fear. -/
example : ∀ user, BenignUser user → ∀ (ops : List Op) (w : World Sample.checked) (os : List Obs),
    Reached Sample.dbg user 50 ops w os →
    (World.new Sample.checked).runV boolPatterns Sample.dbg user 50 ops = .ok (w, os) :=
  (C108_any_input ⟨by decide, by decide⟩ (by decide) (by decide +kernel)).mpr (by
    intro t ht ty n hf bs _
    simp [Sample.checked, Sample.ping, Sample.level, Sample.pose] at ht
    rcases ht with rfl | rfl | rfl <;> simp at hf
    rcases hf with ⟨rfl, rfl⟩ | ⟨rfl, rfl⟩ <;> rfl)

example : ¬ ∀ user, BenignUser user → ∀ (ops : List Op) (w : World (switches .basicChecksum)) (os : List Obs),
    Reached Sample.dbg user 50 ops w os →
    (World.new (switches .basicChecksum)).runV boolPatterns Sample.dbg user 50 ops = .ok (w, os) := fun H =>
  absurd ((C108_any_input ⟨by decide +kernel, by decide +kernel⟩ (by decide) (by decide +kernel)).mp H
    switchType (by simp [switches]) 7 1 (by simp [switchType]) [2] rfl) (by decide)

/-- A switch damaged by noise, then one that is not. -/
example : ∃ (w : World (switches .basicChecksum)) (os : List Obs), delivered w ≠ [] ∧
    (World.new (switches .basicChecksum)).runV boolPatterns Sample.dbg Sample.passive 50 ([.setHandler Sample.h0,
      .append ((frame .basicChecksum ⟨0, [0]⟩).set 3 0x40 ++ frames .basicChecksum [⟨0, [1]⟩])] ++ [.process]) = .ok (w, os) := by
  obtain ⟨w, os, h, hp⟩ := Sample.reached (C := switches .basicChecksum) (B := Sample.dbg) (user := Sample.passive) (fuel := 50)
    (ops := [.setHandler Sample.h0, .append ((frame .basicChecksum ⟨0, [0]⟩).set 3 0x40 ++
      frames .basicChecksum [⟨0, [1]⟩])] ++ [.process])
    (fun w _ => w.rx.hasHandler && decide (delivered w ≠ [])) (by decide +kernel)
  simp only [Bool.and_eq_true, decide_eq_true_eq] at hp
  have S : Setting (switches .basicChecksum) Sample.dbg Sample.passive :=
    ⟨⟨by decide +kernel, by decide +kernel⟩, Sample.passive_benign⟩
  have hf := C25_fed_is_chunks S Sample.passive_quiet (by simp) h
  exact ⟨w, os, hp.2, C108_checksum rfl S Sample.passive_neverThrows h hp.1 (m := ⟨0, [0]⟩) (by decide +kernel) (j := 3)
    (x := 0) (b := 0x40) (by decide +kernel) (by decide) (by decide) (by decide +kernel) [⟨0, [1]⟩] (by decide +kernel)
    (by rw [hf]; decide +kernel)⟩

/-- A switch and a blob, sent and received. -/
def switchRequests : List Request :=
  [⟨switches .basic, switchType, [⟨.pod 7 1, [1]⟩]⟩, ⟨switches .basic, blobType, [⟨.pod 8 8, [1, 0, 2, 5, 3, 4, 0, 0]⟩]⟩]

example : ∃ (w : World (switches .basic)) (os : List Obs),
    (World.new (switches .basic)).runV boolPatterns Sample.dbg Sample.passive 50 ([.setHandler Sample.h0,
      .append [1, 0, 2, 1, 3, 4, 1, 1, 2, 1, 0, 2, 5, 3, 4, 0, 0, 3, 4]] ++ [.process]) = .ok (w, os) ∧
    delivered w = switchRequests.map (fun r => (r.t, r.vs.map (·.bytes))) := by
  obtain ⟨w, os, h, hp⟩ := Sample.reached (C := switches .basic) (B := Sample.dbg) (user := Sample.passive) (fuel := 50)
    (ops := [.setHandler Sample.h0, .append [1, 0, 2, 1, 3, 4, 1, 1, 2, 1, 0, 2, 5, 3, 4, 0, 0, 3, 4]] ++ [.process])
    (fun w _ => w.rx.hasHandler) (by decide +kernel)
  have S : Setting (switches .basic) Sample.dbg Sample.passive :=
    ⟨⟨by decide +kernel, by decide +kernel⟩, Sample.passive_benign⟩
  have hf := C25_fed_is_chunks S Sample.passive_quiet (by simp) h
  refine ⟨w, os, C108_sent vectorBuffer_faithful S Sample.passive_neverThrows switchRequests ?_ []
    [1, 0, 2, 1, 3, 4, 1, 1, 2, 1, 0, 2, 5, 3, 4, 0, 0, 3, 4] (by decide +kernel) h hp (by rw [hf]; rfl)⟩
  intro r hr
  refine ⟨(by decide +kernel : ∀ r ∈ switchRequests, r.Good (switches .basic)) r hr, ?_⟩
  simp only [switchRequests, List.mem_cons, List.not_mem_nil, or_false] at hr
  rcases hr with rfl | rfl
  · intro v hv ty n e
    simp only [List.mem_singleton] at hv
    subst hv
    cases e
    rfl
  · intro v hv ty n e
    simp only [List.mem_singleton] at hv
    subst hv
    cases e
    rfl

end TT.Properties
