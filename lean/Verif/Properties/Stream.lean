import Verif.Properties.Sessions
import Verif.Properties.Send

/-!
# Properties of decoding byte streams: C18-C32, C51
-/

namespace TT.Properties
open Spec

variable {C : Collection} {B : Build} {user : UserCode} {fuel : Nat}

/-! ### C18 -/

/-- C18. On every valid receive buffer `checkBufferForMessage` returns: a recursion depth of the
number of buffered bytes plus one suffices and more depth changes nothing. -/
theorem C18_terminates (hc : recvBufferSize C < 2 ^ 64) (e : ERB C) (xs : List Byte)
    (h : e.buf.Holds xs) :
    ∃ e' found, ∀ B, e.checkBufferForMessage B = .ok (e', found) ∧
      ∀ depth, xs.length + 1 ≤ depth → e.checkDepth B depth = .ok (e', found) := by
  obtain ⟨e', found, ys, h1, h2, _⟩ := check_spec hc h
  have := List.count_le_length (a := (0x01 : Byte)) (l := xs)
  exact ⟨e', found, fun B => ⟨h1 B, fun d hd => by rw [h2 B d, if_pos (by omega)]⟩⟩

/-- C18. Every state a legal history leads to has such a buffer. -/
theorem C18_reachable (S : Setting C B user) {ops : List Op} {w : World C} {os : List Obs}
    (h : Reached B user fuel ops w os) :
    ∃ e' found, ∀ B', w.rx.recv.checkBufferForMessage B' = .ok (e', found) ∧
      ∀ depth, (buffered w).length + 1 ≤ depth →
        w.rx.recv.checkDepth B' depth = .ok (e', found) := by
  obtain ⟨s, ms, ha, _⟩ := h.exec S
  rw [ha.buffered]
  exact C18_terminates S.arith.lt64 _ _ ha.buf

/-- C18. The depth is really needed: on start codes only, every byte costs one level. -/
example : (⟨none, ⟨0, 4, [1, 1, 1, 1] ++ List.replicate 32 0⟩⟩ : ERB Sample.basic).checkDepth
      Sample.dbg 3 = .ok (⟨some 1, ⟨2, 4, [1, 1, 1, 1] ++ List.replicate 32 0⟩⟩, false) ∧
    (⟨none, ⟨0, 4, [1, 1, 1, 1] ++ List.replicate 32 0⟩⟩ : ERB Sample.basic).checkDepth
      Sample.dbg 2 = .error .diverge := by decide +kernel

/-! ### C19 -/

/-- The stream cut into pieces: skipped bytes, a message, skipped bytes, a message, …, a rest. -/
def assemble (E : Envelope) : List (List Byte × Msg) → List Byte → List Byte
  | [], rest => rest
  | (skipped, m) :: ps, rest => skipped ++ frame E m ++ assemble E ps rest

theorem assemble_of_run {s r : List Byte} {ms : List Msg} (h : Run C s ms r) :
    ∃ ps skipped, s = assemble C.envelope ps (skipped ++ r) ∧ ps.map (·.2) = ms := by
  induction h with
  | refl s => exact ⟨[], [], rfl, rfl⟩
  | @take m s r ms hm _ ih =>
    obtain ⟨ps, sk, e, hp⟩ := ih
    exact ⟨([], m) :: ps, sk, by simp [assemble, ← e], by simp [hp]⟩
  | @skip b s r ms _ _ _ ih =>
    obtain ⟨ps, sk, e, hp⟩ := ih
    cases ps with
    | nil => exact ⟨[], b :: sk, by rw [e]; rfl, hp⟩
    | cons p ps => exact ⟨(b :: p.1, p.2) :: ps, sk, by rw [e]; simp [assemble], by simpa using hp⟩

/-- C19. The handler calls, in order, are the messages of disjoint pieces of the stream in stream
order, each piece a well-formed frame of the collection; the bytes still buffered come after all of
them. -/
theorem C19_sound (S : Setting C B user) (hn : NeverThrows user) {ops : List Op} {w : World C}
    {os : List Obs} (h : Reached B user fuel ops w os) :
    ∃ (ps : List (List Byte × Msg)) (skipped : List Byte),
      w.fed = assemble C.envelope ps (skipped ++ buffered w) ∧
      (∀ p ∈ ps, IsMsg C p.2) ∧
      delivered w = ps.map (fun p => meaning C p.2) := by
  obtain ⟨ms, hr, hd⟩ := h.partly S hn
  obtain ⟨ps, sk, e, hp⟩ := assemble_of_run hr
  refine ⟨ps, sk, e, ?_, by rw [hd, ← hp]; simp⟩
  intro p hmem
  exact hr.isMsg p.2 (by rw [← hp]; exact List.mem_map_of_mem hmem)

/-- A scan that takes `m` passes a point where `m` is in front. -/
theorem run_reaches {s r : List Byte} {ms : List Msg} (h : Run C s ms r) :
    ∀ m ∈ ms, ∃ D post, Run C s D (frame C.envelope m ++ post) := by
  induction h with
  | refl => simp
  | @take m0 s r ms hm _ ih =>
    intro m hmem
    rcases List.mem_cons.mp hmem with rfl | hmem
    · exact ⟨[], s, Run.refl _⟩
    · obtain ⟨D, post, e⟩ := ih m hmem
      exact ⟨m0 :: D, post, Run.take hm e⟩
  | @skip b s r ms h1 h2 _ ih =>
    intro m hmem
    obtain ⟨D, post, e⟩ := ih m hmem
    exact ⟨D, post, Run.skip h1 h2 e⟩

/-- Call `i` is about a message the scan of the stream `fed` comes across. -/
def OnPath (C : Collection) (fed : List Byte) (i : Invocation) : Prop :=
  ∃ D m post, IsMsg C m ∧ Run C fed D (frame C.envelope m ++ post) ∧ seen i = meaning C m

theorem OnPath.append {fed : List Byte} {i : Invocation} (h : OnPath C fed i) (xs : List Byte) :
    OnPath C (fed ++ xs) i := by
  obtain ⟨D, m, post, hm, hr, hs⟩ := h
  exact ⟨D, m, post ++ xs, hm, by simpa using hr.append xs, hs⟩

theorem step_onPath {s s' : AState} {op : Op} {ms : List Msg} {o : Obs}
    (h : Step C user s op ms s' o) {D : List Msg} (hr : Run C s.fed D s.buf)
    (hall : ∀ i ∈ s.trace, OnPath C s.fed i) : ∀ i ∈ s'.trace, OnPath C s'.fed i := by
  have grow : ∀ xs, ∀ i ∈ s.trace, OnPath C (s.fed ++ xs) i :=
    fun xs i hi => (hall i hi).append xs
  have proc : ∀ {ms s' th}, Proc C user s ms s' th → ∀ i ∈ s'.trace, OnPath C s'.fed i := by
    intro ms s' th hp
    obtain ⟨app, calls, cms, h1, h2, h3, h4, h5, _, h7, h8⟩ := hp.sound
    rw [h1, h2]
    intro i hi
    rcases List.mem_append.mp hi with hi | hi
    · exact grow app i hi
    · have hmem : seen i ∈ cms.map (meaning C) := by
        rw [← h4]; exact List.mem_map_of_mem hi
      obtain ⟨m, hm, e⟩ := List.mem_map.mp hmem
      have key : ∃ D post, Run C (s.buf ++ app) D (frame C.envelope m ++ post) := by
        cases th with
        | false => rw [(h7 rfl).2] at hm; exact run_reaches h3 m hm
        | true =>
          obtain ⟨m', t', _, hb, hc⟩ := h8 rfl
          rw [hc] at hm
          rcases List.mem_append.mp hm with hm | hm
          · exact run_reaches h3 m hm
          · simp at hm
            subst hm
            exact ⟨ms, t', by rw [← hb]; exact h3⟩
      obtain ⟨D', post, hk⟩ := key
      exact ⟨D ++ D', m, post, h5 m hm, (hr.append app).trans hk, e.symm⟩
  cases h with
  | append _ => exact grow _
  | receive _ _ => exact grow _
  | setHandler => exact hall
  | clearHandler => exact hall
  | copy => exact hall
  | idle _ => exact hall
  | process _ hp => exact proc hp
  | thrown _ hp => exact proc hp

theorem exec_onPath {s0 s : AState} {ops : List Op} {ms : List Msg} {os : List Obs}
    (he : Exec C user s0 ops ms s os) : ∀ {D}, Run C s0.fed D s0.buf →
    (∀ i ∈ s0.trace, OnPath C s0.fed i) → ∀ i ∈ s.trace, OnPath C s.fed i := by
  induction he with
  | nil => intro D _ h; exact h
  | cons hs _ ih => intro D hr h; exact ih (hs.sound hr) (step_onPath hs hr h)

theorem reached_onPath (S : Setting C B user) {ops : List Op} {w : World C} {os : List Obs}
    (h : Reached B user fuel ops w os) : ∀ i ∈ w.trace, OnPath C w.fed i := by
  obtain ⟨s, ms, ha, he⟩ := h.exec S
  rw [ha.trace, ha.fed]
  exact exec_onPath he (D := []) (Run.refl _) (by simp [AState.new])

/-- C19. Also with handlers that throw, every call is about a well-formed frame in the stream. -/
theorem C19_each_call (S : Setting C B user) {ops : List Op} {w : World C} {os : List Obs}
    (h : Reached B user fuel ops w os) :
    ∀ i ∈ w.trace, ∃ pre m post, IsMsg C m ∧
      w.fed = pre ++ frame C.envelope m ++ post ∧ seen i = meaning C m := by
  intro i hi
  obtain ⟨D, m, post, hm, hr, hs⟩ := reached_onPath S h i hi
  obtain ⟨pre, e⟩ := hr.suffix
  exact ⟨pre, m, post, hm, by rw [e]; simp, hs⟩

/-- A session: noise, a message, half a message, poll, the rest, poll. -/
def session1 : List Op :=
  [.setHandler Sample.h0, .append ([9, 1, 1] ++ frame .basic Sample.mLevel ++ [1, 2, 2]),
   .process, .append ([1, 1, 0, 2, 3, 3, 4, 3] ++ [4, 7]), .copy, .process]

/-- Legal history, with a handler, that delivers two messages: the hypotheses of C18-C23 hold. -/
theorem session1_reached : ∃ (w : World Sample.basic) (os : List Obs),
    Reached Sample.dbg Sample.passive 50 session1 w os ∧
    (w.rx.hasHandler && decide (delivered w = [meaning Sample.basic Sample.mLevel,
      meaning Sample.basic Sample.mPose]) && decide (buffered w = [])) = true :=
  Sample.reached (fun w _ => w.rx.hasHandler && decide (delivered w =
    [meaning Sample.basic Sample.mLevel, meaning Sample.basic Sample.mPose]) &&
    decide (buffered w = [])) (by decide +kernel)

example : ∃ w : World Sample.basic, ∃ os, ∃ (ps : List (List Byte × Msg)) (skipped : List Byte),
    ps.length = 2 ∧ Reached Sample.dbg Sample.passive 50 session1 w os ∧
      w.fed = assemble .basic ps (skipped ++ buffered w) := by
  obtain ⟨w, os, h, hp⟩ := session1_reached
  obtain ⟨ps, sk, h1, _, h3⟩ := C19_sound Sample.setting_basic Sample.passive_neverThrows h
  simp only [Bool.and_eq_true, decide_eq_true_eq] at hp
  refine ⟨w, os, ps, sk, ?_, h, h1⟩
  have := congrArg List.length (hp.1.2.symm.trans h3)
  simpa using this.symm

/-! ### C20, C23 -/

/-- C20. After a poll with a handler set, the calls made so far are exactly the messages of the
leftmost-first decoding of all bytes fed so far, and the buffered bytes are what that decoding leaves.
(`Decodes` determines both: `Decodes.unique`.) -/
theorem C20_greedy (S : Setting C B user) (hn : NeverThrows user) {ops : List Op} {w : World C}
    {os : List Obs} (h : Reached B user fuel (ops ++ [.process]) w os)
    (hh : w.rx.hasHandler = true) :
    ∃ ms, Decodes C w.fed ms (buffered w) ∧ delivered w = ms.map (meaning C) :=
  h.polled S hn hh

/-- C20. The decoding exists for every stream and is unique. -/
theorem C20_decoding_unique (C : Collection) (s : List Byte) :
    ∃ ms r, Decodes C s ms r ∧ ∀ ms' r', Decodes C s ms' r' → ms' = ms ∧ r' = r := by
  obtain ⟨ms, r, h⟩ := decodes_exists C s
  exact ⟨ms, r, h, fun ms' r' h' => h'.unique h⟩

/-- C23. After a poll with a handler set (not left by an exception), the buffer is empty or holds a
possible beginning of one message. -/
theorem C23_leftover (S : Setting C B user) (hn : NeverThrows user) {ops : List Op} {w : World C}
    {os : List Obs} (h : Reached B user fuel (ops ++ [.process]) w os)
    (hh : w.rx.hasHandler = true) :
    buffered w = [] ∨ buffered w = [0x01] ∨
    (∃ id, typeOf C id ≠ none ∧ buffered w = [0x01, id]) ∨
    (∃ id rest t, typeOf C id = some t ∧ buffered w = 0x01 :: id :: 0x02 :: rest ∧
      (buffered w).length < overhead C.envelope + payloadSize t) := by
  obtain ⟨ms, hd, _⟩ := h.polled S hn hh
  rcases hd.2 with h | h | h | ⟨id, rest, n, h1, h2, h3⟩
  · exact Or.inl h
  · exact Or.inr (Or.inl h)
  · exact Or.inr (Or.inr (Or.inl h))
  · unfold announced at h1
    cases ht : typeOf C id with
    | none => simp [ht] at h1
    | some t =>
      simp [ht] at h1
      exact Or.inr (Or.inr (Or.inr ⟨id, rest, t, ht, h2, by omega⟩))

example : ∃ w : World Sample.basic, ∃ ms, Decodes Sample.basic w.fed ms (buffered w) ∧
    ms.length = 2 := by
  obtain ⟨w, os, h, hp⟩ := session1_reached
  simp only [Bool.and_eq_true, decide_eq_true_eq] at hp
  obtain ⟨ms, h1, h2⟩ := C20_greedy Sample.setting_basic Sample.passive_neverThrows
    (ops := session1.dropLast) h hp.1.1
  refine ⟨w, ms, h1, ?_⟩
  have := congrArg List.length (hp.1.2.symm.trans h2)
  simpa using this.symm

/-- A session that leaves part of a message buffered. -/
example : ∃ (w : World Sample.checked) (os : List Obs),
    Reached Sample.dbg Sample.passive 50
      ([.append [5, 1, 0, 2, 3, 6, 4, 1, 2, 2, 9], .setHandler Sample.h1] ++ [.process]) w os ∧
    (w.rx.hasHandler && decide (buffered w = [1, 2, 2, 9]) &&
      decide (delivered w = [(Sample.ping, [])])) = true :=
  Sample.reached (fun w _ => w.rx.hasHandler && decide (buffered w = [1, 2, 2, 9]) &&
      decide (delivered w = [(Sample.ping, [])])) (by decide +kernel)

/-! ### C21 -/

/-- C21. After any legal history, also with handlers that throw or append: the bytes fed are, in
order, skipped bytes and removed messages, then the buffered bytes; the free space is the capacity
minus the number of buffered bytes. -/
theorem C21_conservation (S : Setting C B user) {ops : List Op} {w : World C} {os : List Obs}
    (h : Reached B user fuel ops w os) :
    ∃ (ps : List (List Byte × Msg)) (skipped : List Byte),
      w.fed = assemble C.envelope ps (skipped ++ buffered w) ∧
      (∀ p ∈ ps, IsMsg C p.2) ∧
      w.rx.getBufferAvailableSpace + (buffered w).length = capacity C := by
  obtain ⟨s, ms, ha, he⟩ := h.exec S
  have hr := he.sound (D := []) (Run.refl _)
  simp only [List.nil_append] at hr
  obtain ⟨ps, sk, e, hp⟩ := assemble_of_run hr
  refine ⟨ps, sk, by rw [ha.fed, ha.buffered]; exact e, ?_, ?_⟩
  · intro p hmem
    exact hr.isMsg p.2 (by rw [← hp]; exact List.mem_map_of_mem hmem)
  · rw [ha.space S.arith.lt64, ha.buffered]
    have := RB.Holds.length_le ha.buf
    rw [← capacity_eq] at this
    omega

example : ∃ w : World Sample.basic, ∃ ps skipped,
    w.fed = assemble .basic ps (skipped ++ buffered w) ∧ delivered w ≠ [] := by
  obtain ⟨w, os, h, hp⟩ := session1_reached
  obtain ⟨ps, sk, h1, _⟩ := C21_conservation Sample.setting_basic h
  simp only [Bool.and_eq_true, decide_eq_true_eq] at hp
  exact ⟨w, ps, sk, h1, by rw [hp.1.2]; simp⟩

/-- C21. If handlers do not throw, the removed messages are exactly the delivered ones, each once; so the
bytes of the delivered messages and the buffered bytes together are no more than the bytes fed. -/
theorem C21_delivered (S : Setting C B user) (hn : NeverThrows user) {ops : List Op} {w : World C}
    {os : List Obs} (h : Reached B user fuel ops w os) :
    ∃ (ps : List (List Byte × Msg)) (skipped : List Byte),
      w.fed = assemble C.envelope ps (skipped ++ buffered w) ∧
      delivered w = ps.map (fun p => meaning C p.2) ∧
      overhead C.envelope * (delivered w).length + (buffered w).length ≤ w.fed.length := by
  obtain ⟨ms, hr, hd⟩ := h.partly S hn
  obtain ⟨ps, sk, e, hp⟩ := assemble_of_run hr
  refine ⟨ps, sk, e, by rw [hd, ← hp, List.map_map]; rfl, ?_⟩
  have key : ∀ {s r : List Byte} {ms : List Msg}, Run C s ms r →
      overhead C.envelope * ms.length + r.length ≤ s.length := by
    intro s r ms h
    induction h with
    | refl => simp
    | take _ _ ih =>
      rw [List.length_append, frame_length, List.length_cons, Nat.mul_succ]
      omega
    | skip _ _ _ ih => rw [List.length_cons]; omega
  rw [hd, List.length_map]
  exact key hr

example : ∃ w : World Sample.basic, 5 * (delivered w).length + (buffered w).length ≤ w.fed.length ∧
    delivered w ≠ [] := by
  obtain ⟨w, os, h, hp⟩ := session1_reached
  obtain ⟨ps, sk, _, _, h3⟩ := C21_delivered Sample.setting_basic Sample.passive_neverThrows h
  simp only [Bool.and_eq_true, decide_eq_true_eq] at hp
  exact ⟨w, h3, by rw [hp.1.2]; simp⟩

/-! ### C22 -/

/-- C22. If `checkBufferForMessage` returns true, calling it again returns true and changes
nothing. -/
theorem C22_idempotent (hc : recvBufferSize C < 2 ^ 64) (e e' : ERB C) (xs : List Byte)
    (hx : e.buf.Holds xs) (B : Build) (h : e.checkBufferForMessage B = .ok (e', true)) :
    ∀ B', e'.checkBufferForMessage B' = .ok (e', true) := by
  obtain ⟨e1, found, ys, h1, _, hh, _, _, ht, _⟩ := check_spec hc hx
  rw [h1 B] at h
  simp only [Except.ok.injEq, Prod.mk.injEq] at h
  obtain ⟨rfl, rfl⟩ := h
  obtain ⟨m, t, hm, rfl, hid⟩ := ht rfl
  intro B'
  rw [check_at_frame hc hm hh B', ← hid]

/-- C22. A legal history gives the same state and observations in all builds, with and without
assertions. -/
theorem C22_builds_agree (S : Setting C B user) (ops : List Op)
    (hl : Legal B user fuel (World.new C) ops) (B' : Build) (hB' : Arith B' (recvBufferSize C)) :
    (World.new C).run B' user fuel ops = (World.new C).run B user fuel ops := by
  rcases run_ok S.arith.lt64 S.benign fuel S.arith ops (abs_new C) hl with
    ⟨hd, _⟩ | ⟨w, s, ms, os, h, _, _⟩
  · rw [hd B' hB', hd B S.arith]
  · rw [h B' hB', h B S.arith]

example : ∃ (w : World Sample.basic) (os : List Obs), delivered w ≠ [] ∧
    (World.new Sample.basic).run Sample.rel16 Sample.passive 50 session1 = .ok (w, os) := by
  obtain ⟨w, os, h, hp⟩ := session1_reached
  simp only [Bool.and_eq_true, decide_eq_true_eq] at hp
  exact ⟨w, os, by rw [hp.1.2]; simp, by
    rw [C22_builds_agree Sample.setting_basic session1 h.legal Sample.rel16
      ⟨by decide, by decide⟩, h.run]⟩

/-! ### C24 -/

/-- C24. Two receivers fed the same bytes in any two legal ways, with any handlers and any polls in
between, each ending with a poll, have delivered the same messages and keep the same bytes - also
across builds. -/
theorem C24_chunking {B' : Build} {user' : UserCode} {fuel' : Nat} (S : Setting C B user)
    (S' : Setting C B' user') (hn : NeverThrows user) (hn' : NeverThrows user')
    {ops ops' : List Op} {w w' : World C} {os os' : List Obs}
    (h : Reached B user fuel (ops ++ [.process]) w os)
    (h' : Reached B' user' fuel' (ops' ++ [.process]) w' os')
    (hh : w.rx.hasHandler = true) (hh' : w'.rx.hasHandler = true) (hfed : w.fed = w'.fed) :
    delivered w = delivered w' ∧ buffered w = buffered w' ∧
    w.rx.getBufferAvailableSpace = w'.rx.getBufferAvailableSpace := by
  obtain ⟨ms, hd, e⟩ := h.polled S hn hh
  obtain ⟨ms', hd', e'⟩ := h'.polled S' hn' hh'
  rw [hfed] at hd
  obtain ⟨h1, h2⟩ := hd.unique hd'
  refine ⟨by rw [e, e', h1], h2, ?_⟩
  obtain ⟨_, _, _, _, hs⟩ := C21_conservation S h
  obtain ⟨_, _, _, _, hs'⟩ := C21_conservation S' h'
  rw [h2] at hs
  omega

/-- The same bytes as `session1`, one by one through an adapter, polled each time. -/
def session2 : List Op :=
  (([9, 1, 1] ++ frame .basic Sample.mLevel ++ [1, 2, 2] ++ [1, 1, 0, 2, 3, 3, 4, 3] ++ [4, 7] :
    List Byte).flatMap fun b => [.receiveFrom 1 (fun _ => ⟨[b], 1⟩), .process]) ++
  [.setHandler Sample.h1]

example : ∃ (w w' : World Sample.basic) (os os' : List Obs),
    Reached Sample.dbg Sample.passive 50 (session1.dropLast ++ [.process]) w os ∧
    Reached Sample.rel16 Sample.passive 60 (session2 ++ [.process]) w' os' ∧
    w.fed = w'.fed ∧ delivered w = delivered w' := by
  obtain ⟨w, os, h, hp⟩ := session1_reached
  obtain ⟨w', os', h', hp'⟩ := Sample.reached (C := Sample.basic) (B := Sample.rel16)
    (user := Sample.passive) (fuel := 60) (ops := session2 ++ [.process])
    (fun w _ => w.rx.hasHandler && decide (w.fed = [9, 1, 1] ++ frame .basic Sample.mLevel ++
      [1, 2, 2] ++ [1, 1, 0, 2, 3, 3, 4, 3] ++ [4, 7])) (by decide +kernel)
  obtain ⟨w2, os2, h2, hp2⟩ := Sample.reached (C := Sample.basic) (B := Sample.dbg)
    (user := Sample.passive) (fuel := 50) (ops := session1)
    (fun w _ => w.rx.hasHandler && decide (w.fed = [9, 1, 1] ++ frame .basic Sample.mLevel ++
      [1, 2, 2] ++ [1, 1, 0, 2, 3, 3, 4, 3] ++ [4, 7])) (by decide +kernel)
  simp only [Bool.and_eq_true, decide_eq_true_eq] at hp' hp2
  have hf : w2.fed = w'.fed := hp2.2.trans hp'.2.symm
  exact ⟨w2, w', os2, os', h2, h', hf, (C24_chunking (ops := session1.dropLast)
    Sample.setting_basic ⟨⟨by decide, by decide⟩, Sample.passive_benign⟩
    Sample.passive_neverThrows Sample.passive_neverThrows h2 h' hp2.1 hp'.1 hf).1⟩

end TT.Properties
