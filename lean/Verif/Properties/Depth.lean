import Verif.Properties.Stream

/-!
# Stack depth of the message search, and repeated processing: C69, C71
-/

namespace TT.Properties
open Spec

variable {C : Collection} {B : Build} {user : UserCode} {fuel : Nat}

/-! ### C69 -/

/-- C69. `checkBufferForMessage` calls itself (through `popAndRetry`) once for every start code it
removes from the buffer, and never otherwise: a recursion depth suffices exactly if it is greater than
the number of start codes among the removed bytes. -/
theorem C69_exact (hc : recvBufferSize C < 2 ^ 64) (e : ERB C) (xs : List Byte)
    (h : e.buf.Holds xs) :
    ∃ (e' : ERB C) (found : Bool) (removed kept : List Byte),
      xs = removed ++ kept ∧ e'.buf.Holds kept ∧
      ∀ B, e.checkBufferForMessage B = .ok (e', found) ∧
        ∀ depth, e.checkDepth B depth =
          if removed.count 0x01 < depth then .ok (e', found) else .error .diverge := by
  obtain ⟨e', found, ys, h1, h2, hh, hr, _⟩ := check_spec hc h
  obtain ⟨pre, rfl⟩ := hr.suffix
  refine ⟨e', found, pre, ys, rfl, hh, fun B => ⟨h1 B, fun d => ?_⟩⟩
  rw [h2 B d, List.count_append]
  split <;> split <;> first | rfl | omega

/-- C69. In every state a legal history leads to, the depth is at most one more than the number of
start codes in the buffer, hence at most one more than the capacity of the buffer. -/
theorem C69_bound (S : Setting C B user) {ops : List Op} {w : World C} {os : List Obs}
    (h : Reached B user fuel ops w os) :
    (buffered w).count 0x01 ≤ recvBufferSize C ∧
    ∃ e' found, ∀ B' depth, (buffered w).count 0x01 < depth →
      w.rx.recv.checkDepth B' depth = .ok (e', found) := by
  obtain ⟨s, ms, ha, _⟩ := h.exec S
  rw [ha.buffered]
  have hl := ha.buf.length_le
  have := List.count_le_length (a := (0x01 : Byte)) (l := s.buf)
  obtain ⟨e', found, removed, kept, e, _, hd⟩ := C69_exact S.arith.lt64 _ _ ha.buf
  refine ⟨by omega, e', found, fun B' depth hlt => ?_⟩
  rw [(hd B').2, if_pos]
  rw [e, List.count_append] at hlt
  omega

/-- C69. The worst case is real: in a buffer filled with start codes only, every depth below the number
of buffered bytes minus one is exceeded. -/
theorem C69_worst (hc : recvBufferSize C < 2 ^ 64) (e : ERB C) (n : Nat)
    (h : e.buf.Holds (List.replicate n 0x01)) (B : Build) (depth : Nat) (hd : depth + 2 ≤ n) :
    e.checkDepth B depth = .error .diverge := by
  obtain ⟨e', found, ys, _, h2, hh, hr, _, ht, hf⟩ := check_spec hc h
  obtain ⟨pre, e0⟩ := hr.suffix
  have hall : ∀ b ∈ ys, b = (0x01 : Byte) := fun b hb =>
    List.eq_of_mem_replicate (n := n) (by rw [e0]; simp [hb])
  have h2' : (0x02 : Byte) ∉ ys := fun hm => absurd (hall _ hm) (by decide)
  have hlen : ys.length ≤ 2 := by
    cases found with
    | true =>
      obtain ⟨m, t, _, e1, _⟩ := ht rfl
      obtain ⟨rest, e2⟩ := frame_cons C.envelope m
      rw [e1, e2] at h2'
      simp at h2'
    | false =>
      rcases hf rfl with e1 | e1 | ⟨i, _, e1⟩ | ⟨i, rest, m, _, e1, _⟩
      · simp [e1]
      · simp [e1]
      · simp [e1]
      · rw [e1] at h2'
        simp at h2'
  have hcnt := List.count_le_length (a := (0x01 : Byte)) (l := ys)
  rw [h2 B depth, List.count_replicate_self, if_neg (by omega)]

/-- C69. A peer can bring every receiver there: after as many start codes as the receive buffer holds,
the first search of `processMessages` needs three times the longest message, minus one, nested calls. -/
theorem C69_attack (S : Setting C B user) (hdl : Handler) :
    ∃ (w : World C) (os : List Obs),
      Reached B user fuel [.setHandler hdl, .append (List.replicate (3 * maxLen C) 0x01)] w os ∧
      w.rx.hasHandler = true ∧
      ∀ B' depth, depth + 2 ≤ 3 * maxLen C → w.rx.recv.checkDepth B' depth = .error .diverge := by
  have h0 : Abs { World.new C with rx := (World.new C).rx.setHandler hdl }
      { AState.new with handler := some hdl } :=
    ⟨RB.holds_new _, rfl, rfl, rfl, rfl, rfl⟩
  have hl : (AState.new).buf.length + (List.replicate (3 * maxLen C) (0x01 : Byte)).length ≤
      capacity C := by simp [AState.new, capacity]
  obtain ⟨w, h1, ha, _⟩ := append_ok S.arith.lt64 h0 hl
  refine ⟨w, [.unit, .unit], ⟨⟨trivial, ?_⟩, ?_⟩, by rw [ha.hasHandler]; rfl, fun B' depth hd => ?_⟩
  · intro w1 o1 e
    simp only [World.step, Except.ok.injEq, Prod.mk.injEq] at e
    obtain ⟨rfl, _⟩ := e
    refine ⟨?_, fun _ _ _ => trivial⟩
    show _ ≤ _
    rw [h0.space S.arith.lt64]
    simp [AState.new, capacity]
  · simp [World.run, World.step, h1 B S.arith]
  · exact C69_worst S.arith.lt64 _ _ (by simpa [AState.new] using ha.buf) B' depth hd

example := C69_attack (fuel := 1) Sample.setting_basic ⟨.functor, 1⟩
example : 3 * maxLen Sample.basic = 36 := by decide

/-- C69. A buffer with two abandoned start codes and a message: depth 3 is needed and suffices. -/
example : ∃ (w : World Sample.basic) (os : List Obs),
    Reached Sample.dbg Sample.passive 9 [.append ([0x01, 0x01, 0x07] ++ frame .basic Sample.mPing)]
      w os ∧ (match w.rx.recv.checkDepth Sample.dbg 2, w.rx.recv.checkDepth Sample.dbg 3 with
        | .error .diverge, .ok (_, found) => found
        | _, _ => false) = true :=
  Sample.reached (fun (w : World Sample.basic) _ => match w.rx.recv.checkDepth Sample.dbg 2,
      w.rx.recv.checkDepth Sample.dbg 3 with
    | .error .diverge, .ok (_, found) => found
    | _, _ => false) (by decide +kernel)

/-! ### C71 -/

/-- Calls that give the receiver no bytes. -/
def NoInput : Op → Prop
  | .append _ => False
  | .receiveFrom _ _ => False
  | _ => True

theorem proc_final {s s' : AState} {ms : List Msg} {thrown : Bool} (h : Proc C user s ms s' thrown)
    (ht : thrown = false) : Final C s'.buf := by
  induction h with
  | done hd => exact hd.2
  | throw _ _ _ h => simp at ht
  | msg _ _ _ _ _ ih => exact ih ht

/-- C23, for handlers of any kind, also ones that throw at other times: whenever a `processMessages` with
a handler set returns, the buffer is empty or holds a possible beginning of one message, shorter than
the longest one. -/
theorem C23_returned (S : Setting C B user) {ops : List Op} {w w' : World C} {os : List Obs}
    (h : Reached B user fuel ops w os) (hh : w.rx.hasHandler = true) {n : UInt8}
    (hp : w.processMessages B user fuel = .ok (w', .returned n)) :
    buffered w' = [] ∨ buffered w' = [0x01] ∨
    (∃ id, typeOf C id ≠ none ∧ buffered w' = [0x01, id]) ∨
    (∃ id rest t, typeOf C id = some t ∧ buffered w' = 0x01 :: id :: 0x02 :: rest ∧
      (buffered w').length < overhead C.envelope + payloadSize t) := by
  obtain ⟨s, ms, ha, he⟩ := h.exec S
  have hs : s.handler.isSome := by rw [ha.hasHandler] at hh; exact hh
  rcases processMessages_spec S.arith.lt64 S.benign fuel ha hs with
    ⟨_, hdv⟩ | ⟨w1, s1, ms1, th, e1, ha1, hpr, _⟩
  · rw [hdv B S.arith] at hp; simp at hp
  · rw [e1 B S.arith] at hp
    simp only [Except.ok.injEq, Prod.mk.injEq] at hp
    obtain ⟨rfl, hp⟩ := hp
    cases th with
    | true => simp at hp
    | false =>
      have hfin := proc_final hpr rfl
      rw [← ha1.buffered] at hfin
      rcases hfin with h | h | h | ⟨id, rest, n, h1, h2, h3⟩
      · exact Or.inl h
      · exact Or.inr (Or.inl h)
      · exact Or.inr (Or.inr (Or.inl h))
      · unfold announced at h1
        cases ht : typeOf C id with
        | none => simp [ht] at h1
        | some t =>
          simp [ht] at h1
          exact Or.inr (Or.inr (Or.inr ⟨id, rest, t, ht, h2, by omega⟩))

theorem quiet_run (S : Setting C B user) (hf : 0 < fuel) (ops : List Op)
    (hno : ∀ op ∈ ops, NoInput op) : ∀ {w : World C} {s : AState}, Abs w s → Final C s.buf →
    ∃ (w' : World C) (os : List Obs) (h' : Option Handler), w.run B user fuel ops = .ok (w', os) ∧
      Abs w' { s with handler := h' } ∧
      (∀ o, .processed o ∈ os → o = .returned 0) := by
  induction ops with
  | nil => intro w s hw _; exact ⟨w, [], s.handler, rfl, hw, by simp⟩
  | cons op ops ih =>
    intro w s hw hfin
    have key : ∃ (w1 : World C) (o1 : Obs) (h1 : Option Handler),
        w.step B user fuel op = .ok (w1, o1) ∧ Abs w1 { s with handler := h1 } ∧
        (∀ o, o1 = .processed o → o = .returned 0) := by
      cases op with
      | append xs => exact absurd (hno _ List.mem_cons_self) id
      | receiveFrom a r => exact absurd (hno _ List.mem_cons_self) id
      | setHandler h =>
        exact ⟨_, _, some h, rfl, ⟨hw.buf, rfl, rfl, hw.last, hw.trace, hw.fed⟩, by simp⟩
      | clearHandler =>
        exact ⟨_, _, none, rfl, ⟨hw.buf, rfl, rfl, hw.last, hw.trace, hw.fed⟩, by simp⟩
      | copy =>
        obtain ⟨r, h1, h2, _⟩ := copy_ok S.arith.lt64 hw
        exact ⟨_, .unit, s.handler, by simp [World.step, h1], h2, by simp⟩
      | process =>
        cases hh : s.handler with
        | none =>
          refine ⟨w, .processed (.returned 0), none, ?_, by rw [← hh]; exact hw, by simp⟩
          simp [World.step, processMessages_none hw hh]
        | some h =>
          obtain ⟨w1, h1, ha⟩ := processMessages_total S.arith.lt64 S.benign (fuel := fuel) hw
            (by simp [hh]) (Proc.done (user := user) ⟨Run.refl _, hfin⟩) (by simpa using hf)
          refine ⟨w1, .processed (.returned 0), some h, ?_, by rw [← hh]; exact ha, by simp⟩
          simp [World.step, h1 B S.arith]
    obtain ⟨w1, o1, h1, e1, ha1, ho1⟩ := key
    obtain ⟨w2, os2, h2, e2, ha2, ho2⟩ := ih (fun o ho => hno o (by simp [ho])) ha1 hfin
    refine ⟨w2, o1 :: os2, h2, by simp [World.run, e1, e2], ha2, ?_⟩
    intro o ho
    simp only [List.mem_cons] at ho
    rcases ho with ho | ho
    · exact ho1 o ho.symm
    · exact ho2 o ho

/-- C71. Once a `processMessages` call with a handler set has returned, then as long as no bytes
arrive nothing further happens, whatever is called (`processMessages` any number of times, exchanging
or removing the handler, copying): no handler is called, every `processMessages` returns 0, the
buffered bytes and the last message id stay, and no call faults or loops. -/
theorem C71_settled (S : Setting C B user) (hf : 0 < fuel) {ops : List Op} {w w1 : World C}
    {os : List Obs} (h : Reached B user fuel ops w os) (hh : w.rx.hasHandler = true) {n : UInt8}
    (hp : w.processMessages B user fuel = .ok (w1, .returned n)) (ops' : List Op)
    (hno : ∀ op ∈ ops', NoInput op) :
    ∃ (w2 : World C) (os2 : List Obs), w1.run B user fuel ops' = .ok (w2, os2) ∧
      w2.trace = w1.trace ∧ w2.fed = w1.fed ∧ buffered w2 = buffered w1 ∧
      w2.rx.lastMessageId = w1.rx.lastMessageId ∧
      w2.rx.getBufferAvailableSpace = w1.rx.getBufferAvailableSpace ∧
      (∀ o, .processed o ∈ os2 → o = .returned 0) := by
  obtain ⟨s, ms, ha, _⟩ := h.exec S
  rw [ha.hasHandler] at hh
  rcases processMessages_spec S.arith.lt64 S.benign fuel ha hh with
    ⟨_, hd⟩ | ⟨w1', s1, ms1, th, h1, ha1, hpr, _, _⟩
  · rw [hd B S.arith] at hp; simp at hp
  · rw [h1 B S.arith] at hp
    simp only [Except.ok.injEq, Prod.mk.injEq] at hp
    obtain ⟨rfl, hp⟩ := hp
    cases th with
    | true => simp at hp
    | false =>
      obtain ⟨w2, os2, h2, e2, ha2, ho⟩ := quiet_run S hf ops' hno ha1 (proc_final hpr rfl)
      refine ⟨w2, os2, e2, ?_, ?_, ?_, ?_, ?_, ho⟩
      · rw [ha2.trace, ha1.trace]
      · rw [ha2.fed, ha1.fed]
      · rw [ha2.buffered, ha1.buffered]
      · rw [ha2.last, ha1.last]
      · rw [ha2.space S.arith.lt64, ha1.space S.arith.lt64]

example : ∃ (w w1 : World Sample.basic) (os : List Obs),
    Reached Sample.dbg Sample.passive 9
      [.setHandler ⟨.functor, 1⟩, .append (frame .basic Sample.mPose ++ [0x01, 0x02])] w os ∧
    w.processMessages Sample.dbg Sample.passive 9 = .ok (w1, .returned 1) ∧
    (w.rx.hasHandler && buffered w1 == [0x01, 0x02]) = true :=
  Sample.processes (.returned 1) (fun w w1 => w.rx.hasHandler && buffered w1 == [0x01, 0x02])
    (by decide +kernel)

example : ∀ op ∈ [Op.process, .setHandler ⟨.functor, 2⟩, .copy, .process], NoInput op := by
  simp [NoInput]

end TT.Properties
