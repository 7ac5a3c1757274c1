import Verif.Properties.Exact
import Verif.Properties.LineErrors

/-!
# Property C124: what a receiver remembers
-/

namespace TT.Properties
open Spec

variable {C : Collection} {B B1 B2 : Build} {user user1 user2 : UserCode} {fuel fuel1 fuel2 : Nat}

/-- Two abstract states with the same bytes and handler, whose logs have grown by the same since `p1`, `f1` and `p2`, `f2`. -/
structure AlikeSince (p1 p2 : List Invocation) (f1 f2 : List Byte) (s1 s2 : AState) : Prop where
  buf : s1.buf = s2.buf
  handler : s1.handler = s2.handler
  grown : ∃ calls bytes, s1.trace = p1 ++ calls ∧ s2.trace = p2 ++ calls ∧ s1.fed = f1 ++ bytes ∧ s2.fed = f2 ++ bytes ∧
    (s1.last = s2.last ∨ calls = [])

/-- User code that does in two programs the same from now on. -/
def AgreeSince (user1 user2 : UserCode) (past1 past2 : List UserCall) : Prop :=
  ∀ new free, user1 (past1 ++ new) free = user2 (past2 ++ new) free

theorem alike_reaction {p1 p2 : List Invocation} {f1 f2 : List Byte} {s1 s2 : AState}
    (hu : AgreeSince user1 user2 (p1.filterMap userCall) (p2.filterMap userCall)) (h : AlikeSince p1 p2 f1 f2 s1 s2)
    (i : Invocation) (free : Nat) : reaction user1 s1.trace i free = reaction user2 s2.trace i free := by
  obtain ⟨calls, _, e1, e2, _⟩ := h.grown
  unfold reaction
  cases userCall i with
  | none => rfl
  | some _ =>
    rw [e1, e2]
    simp only [List.filterMap_append, List.append_assoc]
    exact hu _ _

theorem alike_afterCall {p1 p2 : List Invocation} {f1 f2 : List Byte} {s1 s2 : AState}
    (hu : AgreeSince user1 user2 (p1.filterMap userCall) (p2.filterMap userCall)) (h : AlikeSince p1 p2 f1 f2 s1 s2)
    (hd : Handler) (m : Msg) (t : List Byte) :
    AlikeSince p1 p2 f1 f2 (afterCall C user1 s1 hd m t).1 (afterCall C user2 s2 hd m t).1 ∧
      (afterCall C user1 s1 hd m t).2 = (afterCall C user2 s2 hd m t).2 := by
  have hr := alike_reaction hu h (callOf C hd m) (capacity C - (frame C.envelope m ++ t).length)
  obtain ⟨calls, bytes, e1, e2, e3, e4, _⟩ := h.grown
  unfold afterCall
  simp only [hr]
  refine ⟨⟨rfl, rfl, ⟨calls ++ [callOf C hd m],
    bytes ++ appended (reaction user2 s2.trace (callOf C hd m) (capacity C - (frame C.envelope m ++ t).length)).acts,
    ?_, ?_, ?_, ?_, Or.inl rfl⟩⟩, trivial⟩
  · simp [e1]
  · simp [e2]
  · simp only [e3, List.append_assoc]
  · simp only [e4, List.append_assoc]

theorem AlikeSince.withBuf {p1 p2 : List Invocation} {f1 f2 : List Byte} {s1 s2 : AState}
    (h : AlikeSince p1 p2 f1 f2 s1 s2) {b1 b2 : List Byte} (hb : b1 = b2) :
    AlikeSince p1 p2 f1 f2 { s1 with buf := b1 } { s2 with buf := b2 } := ⟨hb, h.handler, h.grown⟩

theorem alike_proc {p1 p2 : List Invocation} {f1 f2 : List Byte}
    (hu : AgreeSince user1 user2 (p1.filterMap userCall) (p2.filterMap userCall)) {s1 s1' : AState} {ms : List Msg}
    {th : Bool} (hp : Proc C user1 s1 ms s1' th) :
    ∀ s2, AlikeSince p1 p2 f1 f2 s1 s2 → ∃ s2', Proc C user2 s2 ms s2' th ∧ AlikeSince p1 p2 f1 f2 s1' s2' := by
  induction hp with
  | done hd =>
    intro s2 h
    rw [h.buf] at hd
    exact ⟨_, .done hd, h.withBuf rfl⟩
  | @throw s m t hd hm hr hh ht =>
    intro s2 h
    rw [h.buf] at hr
    obtain ⟨ha, hb⟩ := alike_afterCall (C := C) hu h hd m t
    exact ⟨_, .throw hm hr (h.handler ▸ hh) (hb ▸ ht), ha⟩
  | @msg s s' m t hd ms th hm hr hh ht _ ih =>
    intro s2 h
    rw [h.buf] at hr
    obtain ⟨ha, hb⟩ := alike_afterCall (C := C) hu h hd m t
    obtain ⟨s2', h1, h2⟩ := ih _ (ha.withBuf (congrArg (List.drop _) ha.buf))
    exact ⟨s2', .msg hm hr (h.handler ▸ hh) (hb ▸ ht) h1, h2⟩

theorem alike_step {p1 p2 : List Invocation} {f1 f2 : List Byte}
    (hu : AgreeSince user1 user2 (p1.filterMap userCall) (p2.filterMap userCall)) {s1 s1' s2 : AState} {op : Op}
    {ms : List Msg} {o : Obs} (hs : Step C user1 s1 op ms s1' o) (h : AlikeSince p1 p2 f1 f2 s1 s2) :
    ∃ s2', Step C user2 s2 op ms s2' o ∧ AlikeSince p1 p2 f1 f2 s1' s2' := by
  obtain ⟨calls, bytes, e1, e2, e3, e4, e5⟩ := h.grown
  cases hs with
  | @append xs hl =>
    refine ⟨_, .append (h.buf ▸ hl), ⟨by simp [h.buf], h.handler, calls, bytes ++ xs, e1, e2, ?_, ?_, e5⟩⟩
    · simp only [e3, List.append_assoc]
    · simp only [e4, List.append_assoc]
  | @receive avail rcv limit hl hg =>
    refine ⟨_, .receive (h.buf ▸ hl) hg, ⟨by simp [h.buf], h.handler, calls,
      bytes ++ (rcv (UInt8.ofNat limit)).written, e1, e2, ?_, ?_, e5⟩⟩
    · simp only [e3, List.append_assoc]
    · simp only [e4, List.append_assoc]
  | setHandler => exact ⟨_, .setHandler, ⟨h.buf, rfl, h.grown⟩⟩
  | clearHandler => exact ⟨_, .clearHandler, ⟨h.buf, rfl, h.grown⟩⟩
  | copy => exact ⟨_, .copy, h⟩
  | idle hn => exact ⟨_, .idle (h.handler ▸ hn), h⟩
  | process hh hp =>
    obtain ⟨s2', h1, h2⟩ := alike_proc hu hp s2 h
    exact ⟨s2', .process (h.handler ▸ hh) h1, h2⟩
  | thrown hh hp =>
    obtain ⟨s2', h1, h2⟩ := alike_proc hu hp s2 h
    exact ⟨s2', .thrown (h.handler ▸ hh) h1, h2⟩

theorem alike_exec {p1 p2 : List Invocation} {f1 f2 : List Byte}
    (hu : AgreeSince user1 user2 (p1.filterMap userCall) (p2.filterMap userCall)) {s1 s1' : AState} {ops : List Op}
    {ms : List Msg} {os : List Obs} (he : Exec C user1 s1 ops ms s1' os) :
    ∀ s2, AlikeSince p1 p2 f1 f2 s1 s2 → ∃ s2', Exec C user2 s2 ops ms s2' os ∧ AlikeSince p1 p2 f1 f2 s1' s2' := by
  induction he with
  | nil s => intro s2 h; exact ⟨s2, .nil _, h⟩
  | cons hs _ ih =>
    intro s2 h
    obtain ⟨s3, h1, h2⟩ := alike_step hu hs h
    obtain ⟨s4, h3, h4⟩ := ih s3 h2
    exact ⟨s4, .cons h1 h3, h4⟩

/-- What two receivers have in common, and what has happened to both since `w1` and `w2`. -/
structure SameSince (w1 w2 w1' w2' : World C) : Prop where
  bytes : buffered w1' = buffered w2'
  free : w1'.rx.getBufferAvailableSpace = w2'.rx.getBufferAvailableSpace
  handler : currentHandler w1' = currentHandler w2'
  calls : ∃ new, w1'.trace = w1.trace ++ new ∧ w2'.trace = w2.trace ++ new ∧
    (new = [] ∨ w1'.rx.getLastMessageId = w2'.rx.getLastMessageId)

/-- C124. If two receivers, in two programs with any histories and in any builds, have the same unread bytes and the same
handler, and user code does the same in both from now on, then they cannot be told apart: whatever calls are made on one
can be made on the other, with the same results, the same calls of handlers and the same bytes left. -/
theorem C124_same (S1 : Setting C B1 user1) (S2 : Setting C B2 user2) {ops1 ops2 : List Op} {w1 w2 : World C}
    {os1 os2 : List Obs} (h1 : Reached B1 user1 fuel1 ops1 w1 os1) (h2 : Reached B2 user2 fuel2 ops2 w2 os2)
    (hb : buffered w1 = buffered w2) (hh : currentHandler w1 = currentHandler w2)
    (hu : AgreeSince user1 user2 w1.userCalls w2.userCalls) {ops : List Op} {w1' : World C} {os : List Obs}
    (h : Reached B1 user1 fuel1 (ops1 ++ ops) w1' (os1 ++ os)) :
    ∃ n, ∀ fuel2, n < fuel2 → ∃ w2', Legal B2 user2 fuel2 w2 ops ∧ w2.run B2 user2 fuel2 ops = .ok (w2', os) ∧
      SameSince w1 w2 w1' w2' := by
  obtain ⟨s1, _, ha1, _⟩ := h1.exec S1
  obtain ⟨s2, _, ha2, _⟩ := h2.exec S2
  obtain ⟨w, os3, os4, e1, e2, e3⟩ := run_append h.run
  rw [h1.run] at e1
  simp only [Except.ok.injEq, Prod.mk.injEq] at e1
  obtain ⟨rfl, rfl⟩ := e1
  obtain rfl := List.append_cancel_left e3
  obtain ⟨s1', ms, ha1', he⟩ := run_exec S1.arith.lt64 S1.benign S1.arith ha1 (Legal.drop _ h.legal h1.run) e2
  have halike : AlikeSince s1.trace s2.trace s1.fed s2.fed s1 s2 := by
    refine ⟨?_, ?_, [], [], by simp, by simp, by simp, by simp, Or.inr rfl⟩
    · rw [← ha1.buffered, ← ha2.buffered, hb]
    · rw [← currentHandler_abs ha1, ← currentHandler_abs ha2, hh]
  have hu' : AgreeSince user1 user2 (s1.trace.filterMap userCall) (s2.trace.filterMap userCall) := by
    rw [← ha1.trace, ← ha2.trace, userCall_eq_dispatch]
    exact hu
  obtain ⟨s2', he2, hal⟩ := alike_exec hu' he s2 halike
  obtain ⟨calls, bytes, t1, t2, _, _, t5⟩ := hal.grown
  refine ⟨ms.length, fun fuel2 hf => ?_⟩
  obtain ⟨w2', h3, h4⟩ := exec_complete S2.arith.lt64 S2.benign he2 hf w2 ha2
  refine ⟨w2', (h3 B2 S2.arith).1, (h3 B2 S2.arith).2, ?_, ?_, ?_, calls, ?_, ?_, ?_⟩
  · rw [ha1'.buffered, h4.buffered, hal.buf]
  · show w1'.rx.getBufferAvailableSpace = w2'.rx.getBufferAvailableSpace
    rw [ha1'.space S1.arith.lt64, h4.space S1.arith.lt64, hal.buf]
  · rw [currentHandler_abs ha1', currentHandler_abs h4, hal.handler]
  · rw [ha1'.trace, ha1.trace, t1]
  · rw [h4.trace, ha2.trace, t2]
  · unfold Receiver.getLastMessageId
    rw [ha1'.last, h4.last]
    exact t5.symm

/-- C124. A receiver that has nothing left to read is as good as new: it behaves like one just constructed and given the
same handler, whatever has happened to it before. -/
theorem C124_new (S : Setting C B user) {ops : List Op} {w : World C} {os : List Obs} (h : Reached B user fuel ops w os)
    (hb : buffered w = []) {hd : Handler} (hh : currentHandler w = some hd) {ops' : List Op} {w' : World C}
    {os' : List Obs} (h' : Reached B user fuel (ops ++ ops') w' (os ++ os')) :
    ∃ n, ∀ fuel2, n < fuel2 → ∃ v v' : World C,
      Reached B (fun calls free => user (w.userCalls ++ calls) free) fuel2 [.setHandler hd] v [.unit] ∧
      Reached B (fun calls free => user (w.userCalls ++ calls) free) fuel2 (.setHandler hd :: ops') v' (.unit :: os') ∧
      SameSince w v w' v' := by
  have S2 : Setting C B (fun calls free => user (w.userCalls ++ calls) free) :=
    ⟨S.arith, fun calls free => S.benign _ free⟩
  have hr : ∀ fuel2, Reached B (fun calls free => user (w.userCalls ++ calls) free) fuel2 [.setHandler hd]
      { World.new C with rx := (World.new C).rx.setHandler hd } [.unit] := by
    intro fuel2
    exact ⟨⟨trivial, fun _ _ _ => trivial⟩, rfl⟩
  obtain ⟨n, hn⟩ := C124_same S S2 h (hr 0) (by rw [hb]; rfl) (by rw [hh]; rfl) (by
    intro new free
    rfl) h'
  refine ⟨n, fun fuel2 hf => ?_⟩
  obtain ⟨v', h1, h2, h3⟩ := hn fuel2 hf
  refine ⟨_, v', hr fuel2, ⟨⟨trivial, ?_⟩, ?_⟩, h3⟩
  · intro w1 o e
    simp only [World.step, Except.ok.injEq, Prod.mk.injEq] at e
    rw [← e.1]
    exact h1
  · simp only [World.run, World.step, ok_bind, h2]
    rfl

/-! ### The bytes kept are needed -/

theorem splitFields_whole (fs : List FieldType) : ∀ p : List Byte, p.length = (fs.map fieldSize).sum →
    (splitFields fs p).flatten = p := by
  induction fs with
  | nil => intro p h; simp at h; simp [splitFields, h]
  | cons f fs ih =>
    intro p h
    simp only [List.map_cons, List.sum_cons] at h
    simp only [splitFields, List.flatten_cons]
    rw [ih _ (by simp; omega), List.take_append_drop]

theorem meaning_injective (hd : C.messages.Nodup) {m m' : Msg} (hm : IsMsg C m) (hm' : IsMsg C m')
    (h : meaning C m = meaning C m') : m = m' := by
  obtain ⟨t, ht, hl⟩ := hm
  obtain ⟨t', ht', hl'⟩ := hm'
  simp only [meaning, ht, ht', Option.getD_some, Prod.mk.injEq] at h
  obtain ⟨rfl, h⟩ := h
  have hp : m.payload = m'.payload := by
    rw [← splitFields_whole t.fields m.payload hl, ← splitFields_whole t.fields m'.payload hl', h]
  have hi : m.id = m'.id := by
    unfold typeOf at ht ht'
    obtain ⟨h1, e1⟩ := List.getElem?_eq_some_iff.mp ht
    obtain ⟨h2, e2⟩ := List.getElem?_eq_some_iff.mp ht'
    have hd' := List.pairwise_iff_getElem.mp hd
    rcases Nat.lt_trichotomy m.id.toNat m'.id.toNat with hlt | heq | hlt
    · exact absurd (e1.trans e2.symm) (hd' _ _ h1 h2 hlt)
    · exact UInt8.toNat_inj.mp heq
    · exact absurd (e2.trans e1.symm) (hd' _ _ h2 h1 hlt)
  cases m; cases m'
  simp_all

/-- C124. Of the bytes of an incomplete message nothing can be left out: two receivers that have the beginnings of
messages unread, and not the same ones, are told apart by some following bytes. -/
theorem C124_told_apart (S1 : Setting C B1 user1) (S2 : Setting C B2 user2) (hn1 : NeverThrows user1)
    (hn2 : NeverThrows user2) (hd : C.messages.Nodup) {r1 r2 : List Byte} (hne : r1 ≠ r2)
    (hr1 : ∃ m t, IsMsg C m ∧ frame C.envelope m = r1 ++ t ∧ t ≠ [])
    (hr2 : ∃ m t, IsMsg C m ∧ frame C.envelope m = r2 ++ t ∧ t ≠ []) :
    ∃ t : List Byte, t.length ≤ maxLen C ∧ ∀ (ops1 ops2 ops1' ops2' : List Op) (w1 w1' w2 w2' : World C)
      (os1 os1' os2 os2' : List Obs),
      Reached B1 user1 fuel1 (ops1 ++ [.process]) w1 os1 → w1.rx.hasHandler = true → buffered w1 = r1 →
      Reached B1 user1 fuel1 (ops1' ++ [.process]) w1' os1' → w1'.rx.hasHandler = true → w1'.fed = w1.fed ++ t →
      Reached B2 user2 fuel2 (ops2 ++ [.process]) w2 os2 → w2.rx.hasHandler = true → buffered w2 = r2 →
      Reached B2 user2 fuel2 (ops2' ++ [.process]) w2' os2' → w2'.rx.hasHandler = true → w2'.fed = w2.fed ++ t →
      ¬ ∃ new, delivered w1' = delivered w1 ++ new ∧ delivered w2' = delivered w2 ++ new := by
  -- what a receiver with the bytes `r` unread delivers when `t` comes in
  have key : ∀ (B : Build) (user : UserCode) (fuel : Nat) (ops ops' : List Op) (w w' : World C) (os os' : List Obs)
      (r t : List Byte) (es : List Msg) (q : List Byte), Setting C B user → NeverThrows user →
      Reached B user fuel (ops ++ [.process]) w os → w.rx.hasHandler = true → buffered w = r →
      Reached B user fuel (ops' ++ [.process]) w' os' → w'.rx.hasHandler = true → w'.fed = w.fed ++ t →
      Decodes C (r ++ t) es q → delivered w' = delivered w ++ es.map (meaning C) := by
    intro B user fuel ops ops' w w' os os' r t es q S hn h hh hb h' hh' hf hdec
    obtain ⟨ms, h1, h2⟩ := h.polled S hn hh
    rw [hb] at h1
    have := (polled_eq S hn h' hh' (ms := ms ++ es) (r := q) ⟨by
      rw [hf]
      exact (h1.1.append t).trans hdec.1, hdec.2⟩).1
    rw [this, h2, List.map_append]
  -- no other beginning of a message, not longer than `r`, yields the message that `r` is the beginning of
  have other : ∀ (r r' t : List Byte) (m : Msg) (es : List Msg) (q : List Byte), IsMsg C m →
      frame C.envelope m = r ++ t → r ≠ r' → r'.length ≤ r.length → Decodes C (r' ++ t) es q →
      es.map (meaning C) ≠ [meaning C m] := by
    intro r r' t m es q hm e hrr hlen hdec heq
    cases es with
    | nil => simp at heq
    | cons m' es =>
      simp only [List.map_cons, List.cons.injEq, List.map_eq_nil_iff] at heq
      obtain ⟨h1, rfl⟩ := heq
      obtain rfl := meaning_injective hd (hdec.1.isMsg m' (by simp)) hm h1
      obtain ⟨pre, post, e'⟩ := hdec.1.piece m' (by simp)
      have hl := congrArg List.length e'
      rw [e] at e'
      simp only [List.length_append] at hl
      have hl2 := congrArg List.length e
      simp only [List.length_append] at hl2
      have hp : pre = [] := List.length_eq_zero_iff.mp (by omega)
      have hq : post = [] := List.length_eq_zero_iff.mp (by omega)
      subst hp hq
      simp only [List.nil_append, List.append_nil] at e'
      exact hrr (List.append_cancel_right e').symm
  have single : ∀ (r t : List Byte) (m : Msg), IsMsg C m → frame C.envelope m = r ++ t →
      Decodes C (r ++ t) [m] [] := by
    intro r t m hm e
    refine ⟨?_, Or.inl rfl⟩
    rw [← e]
    have := Run.take hm (Run.refl (C := C) [])
    rwa [List.append_nil] at this
  have short : ∀ (r t : List Byte) (m : Msg), IsMsg C m → frame C.envelope m = r ++ t → t.length ≤ maxLen C := by
    intro r t m hm e
    have h1 := announced_le hm.announced
    rw [← maxLen_eq, e, List.length_append] at h1
    omega
  obtain ⟨m1, t1, hm1, e1, -⟩ := hr1
  obtain ⟨m2, t2, hm2, e2, -⟩ := hr2
  rcases Nat.le_total r2.length r1.length with hle | hle
  · refine ⟨t1, short _ _ _ hm1 e1, ?_⟩
    rintro ops1 ops2 ops1' ops2' w1 w1' w2 w2' os1 os1' os2 os2' h1 hh1 hb1 h1' hh1' hf1 h2 hh2 hb2 h2' hh2' hf2 ⟨new, a, b⟩
    obtain ⟨es, q, hdec⟩ := decodes_exists C (r2 ++ t1)
    have x := key _ _ _ _ _ _ _ _ _ _ _ _ _ S1 hn1 h1 hh1 hb1 h1' hh1' hf1 (single _ _ _ hm1 e1)
    have y := key _ _ _ _ _ _ _ _ _ _ _ _ _ S2 hn2 h2 hh2 hb2 h2' hh2' hf2 hdec
    rw [x] at a
    rw [y] at b
    have a' := List.append_cancel_left a
    have b' := List.append_cancel_left b
    exact other _ _ _ _ _ _ hm1 e1 hne hle hdec (b'.trans a'.symm)
  · refine ⟨t2, short _ _ _ hm2 e2, ?_⟩
    rintro ops1 ops2 ops1' ops2' w1 w1' w2 w2' os1 os1' os2 os2' h1 hh1 hb1 h1' hh1' hf1 h2 hh2 hb2 h2' hh2' hf2 ⟨new, a, b⟩
    obtain ⟨es, q, hdec⟩ := decodes_exists C (r1 ++ t2)
    have x := key _ _ _ _ _ _ _ _ _ _ _ _ _ S2 hn2 h2 hh2 hb2 h2' hh2' hf2 (single _ _ _ hm2 e2)
    have y := key _ _ _ _ _ _ _ _ _ _ _ _ _ S1 hn1 h1 hh1 hb1 h1' hh1' hf1 hdec
    rw [x] at b
    rw [y] at a
    have a' := List.append_cancel_left a
    have b' := List.append_cancel_left b
    exact other _ _ _ _ _ _ hm2 e2 (Ne.symm hne) hle hdec (a'.trans b'.symm)

theorem frame_text_end (E : Envelope) (m : Msg) : (frame E m)[3 + m.payload.length]? = some 0x03 := by
  cases E <;> simp [frame, Nat.add_comm 3]

/-- C124. But the receiver does not find out as early as it could that bytes will not become a message: if the end of the
text is missing where it should be, the bytes are kept until as many have come in as the message should have, although
they make no difference any more. -/
theorem C124_doomed {m : Msg} (hm : IsMsg C m) (hid : m.id ≠ 0x01) (hp : ∀ b ∈ m.payload, b ≠ 0x01) {x : Byte}
    (hx : x ≠ 0x03) (hx1 : x ≠ 0x01) :
    Final C (0x01 :: m.id :: 0x02 :: (m.payload ++ [x])) ∧
    ∀ (t : List Byte) (es : List Msg) (q : List Byte), overhead C.envelope ≤ t.length + 4 →
      (Decodes C (0x01 :: m.id :: 0x02 :: (m.payload ++ [x]) ++ t) es q ↔ Decodes C t es q) := by
  have hl := frame_length C.envelope m
  constructor
  · refine Or.inr (Or.inr (Or.inr ⟨m.id, _, _, hm.announced, rfl, ?_⟩))
    rw [hl]
    cases C.envelope <;> simp [overhead] <;> omega
  · intro t es q ht
    have fwd : ∀ es q, Decodes C t es q → Decodes C (0x01 :: m.id :: 0x02 :: (m.payload ++ [x]) ++ t) es q := by
      intro es q hd
      refine ⟨?_, hd.2⟩
      refine run_giveUp (tail := m.id :: 0x02 :: (m.payload ++ [x])) ?_ ?_ ?_ hd.1
      · rintro ⟨m', u, hm', e⟩
        have h1 : (frame C.envelope m' ++ u)[1]? = some m.id := by rw [← e]; rfl
        rw [frame_id] at h1
        have hid' : m'.id = m.id := Option.some.inj h1
        have hlen : m'.payload.length = m.payload.length := by
          have a := hm'.announced
          rw [hid', hm.announced, hl, frame_length] at a
          have := Option.some.inj a
          omega
        have h2 : (frame C.envelope m' ++ u)[3 + m.payload.length]? = some x := by
          rw [← e]
          simp [Nat.add_comm 3]
        rw [List.getElem?_append_left (by rw [frame_length]; cases C.envelope <;> simp [overhead] <;> omega), ← hlen,
          frame_text_end] at h2
        exact hx (Option.some.inj h2).symm
      · refine not_waiting_of_length (id := m.id) rfl hm.announced (by simp) ?_
        rw [hl]
        simp only [List.length_cons, List.length_append, List.length_nil]
        omega
      · intro b hb
        simp only [List.mem_cons, List.mem_append, List.not_mem_nil, or_false] at hb
        rcases hb with rfl | rfl | hb | rfl
        · exact hid
        · decide
        · exact hp b hb
        · exact hx1
    refine ⟨fun h => ?_, fwd es q⟩
    obtain ⟨es', q', hd⟩ := decodes_exists C t
    obtain ⟨rfl, rfl⟩ := (fwd es' q' hd).unique h
    exact hd

/-! ### The hypotheses can be met -/

/-- Unread: the same beginning of a message; one program has received two messages and noise before, in a debug build. -/
example : ∃ (w1 w2 : World Sample.basic) (os1 os2 : List Obs),
    Reached Sample.dbg Sample.passive 50 ([.setHandler Sample.h0, .append (frames .basic [⟨2, [1, 1, 1, 1, 1, 1, 1]⟩] ++ [9]),
      .process, .append ([7, 8] ++ frames .basic [⟨0, []⟩] ++ [1, 2, 2, 5])] ++ [.process]) w1 os1 ∧
    Reached Sample.rel16 Sample.passive 50 ([.append [1], .copy, .append [2, 2], .setHandler Sample.h0] ++ [.append [5]])
      w2 os2 ∧
    buffered w1 = buffered w2 ∧ currentHandler w1 = currentHandler w2 ∧
    AgreeSince Sample.passive Sample.passive w1.userCalls w2.userCalls ∧ w1.rx.recv.buf ≠ w2.rx.recv.buf := by
  obtain ⟨w1, os1, h1, p1⟩ := Sample.reached (C := Sample.basic) (B := Sample.dbg) (user := Sample.passive) (fuel := 50)
    (ops := [.setHandler Sample.h0, .append (frames .basic [⟨2, [1, 1, 1, 1, 1, 1, 1]⟩] ++ [9]),
      .process, .append ([7, 8] ++ frames .basic [⟨0, []⟩] ++ [1, 2, 2, 5])] ++ [.process])
    (fun w _ => decide (buffered w = [1, 2, 2, 5] ∧ currentHandler w = some Sample.h0 ∧ w.rx.recv.buf.begin_ ≠ 0))
    (by decide +kernel)
  obtain ⟨w2, os2, h2, p2⟩ := Sample.reached (C := Sample.basic) (B := Sample.rel16) (user := Sample.passive) (fuel := 50)
    (ops := [.append [1], .copy, .append [2, 2], .setHandler Sample.h0] ++ [.append [5]])
    (fun w _ => decide (buffered w = [1, 2, 2, 5] ∧ currentHandler w = some Sample.h0 ∧ w.rx.recv.buf.begin_ = 0))
    (by decide +kernel)
  simp only [decide_eq_true_eq] at p1 p2
  refine ⟨w1, w2, os1, os2, h1, h2, p1.1.trans p2.1.symm, p1.2.1.trans p2.2.1.symm, fun _ _ => rfl, fun e => ?_⟩
  exact p1.2.2 (e ▸ p2.2.2)

/-- Different beginnings of messages. -/
example : ([1, 2, 2, 5] : List Byte) ≠ [1, 1, 2] ∧
    (∃ m t, IsMsg Sample.basic m ∧ frame .basic m = ([1, 2, 2, 5] : List Byte) ++ t ∧ t ≠ []) ∧
    (∃ m t, IsMsg Sample.basic m ∧ frame .basic m = ([1, 1, 2] : List Byte) ++ t ∧ t ≠ []) ∧
    Sample.basic.messages.Nodup :=
  ⟨by decide, ⟨⟨2, [5, 1, 2, 3, 4, 5, 6]⟩, [1, 2, 3, 4, 5, 6, 3, 4], ⟨Sample.pose, by decide, by decide⟩, by decide, by decide⟩,
    ⟨⟨1, [7]⟩, [7, 3, 4], ⟨Sample.level, by decide, by decide⟩, by decide, by decide⟩, by decide⟩

/-- Bytes that make no difference any more. -/
example (t : List Byte) (es : List Msg) (q : List Byte) (ht : 1 ≤ t.length) :
    Decodes Sample.basic ([1, 0, 2, 9] ++ t) es q ↔ Decodes Sample.basic t es q :=
  (C124_doomed (C := Sample.basic) (m := ⟨0, []⟩) ⟨Sample.ping, by decide, by decide⟩ (by decide) (by decide) (x := 9)
    (by decide) (by decide)).2 t es q (by show 5 ≤ _; omega)

end TT.Properties
