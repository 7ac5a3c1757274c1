import Verif.Model.Restart
import Verif.Properties.Copies
import Verif.Properties.LineErrors
import Verif.Properties.Reactions

/-!
# C111: a receiver started afresh for each packet
-/

namespace TT.Properties
open Spec

variable {C : Collection} {B : Build} {user : UserCode} {fuel : Nat}

/-- A receiver that has been used legally, in packets. `Packets h w ps w'`: starting from `w`, the program assigned a new
receiver with handler `h` before each of the packets, then used it legally, ending with a `processMessages()` while a
handler was set; `ps` are the bytes the receiver was given in each packet. -/
inductive Packets (B : Build) (user : UserCode) (fuel : Nat) (h : Handler) :
    World C → List (List Byte) → World C → Prop where
  | nil (w : World C) : Packets B user fuel h w [] w
  | cons {w w1 w2 w3 : World C} {ops : List Op} {os : List Obs} {ps : List (List Byte)} :
      w.restart h = .ok w1 → Legal B user fuel w1 (ops ++ [.process]) →
      w1.run B user fuel (ops ++ [.process]) = .ok (w2, os) → w2.rx.hasHandler = true →
      Packets B user fuel h w2 ps w3 → Packets B user fuel h w (w2.fed :: ps) w3

/-- How far a packet with the messages `ms` has come when its first `k` messages have been delivered and
`processMessages()` ended with `out`: it returned, and all have been, or a handler threw, that of message `k`. -/
def AsFar (ms : List Msg) (k : Nat) (out : Outcome) : Prop :=
  k = ms.length ∧ out = .returned (UInt8.ofNat ms.length) ∨ 0 < k ∧ k ≤ ms.length ∧ out = .threw

/-! ### Helpers -/

theorem restart_ok (hc : recvBufferSize C < 2 ^ 64) {w : World C} {s : AState} (ha : Abs w s) (h : Handler) :
    ∃ w', w.restart h = .ok w' ∧
      Abs w' { buf := [], handler := some h, last := none, trace := s.trace, fed := [] } := by
  obtain ⟨b, hb, hh, _⟩ := RB.holds_idealContentsCopy hc (RB.holds_new (recvBufferSize C)) ha.buf.len
  refine ⟨_, by unfold World.restart Receiver.assign RB.assign; simp only [Receiver.newWith, ERB.new]; rw [hb]; rfl, ?_⟩
  exact ⟨hh, rfl, rfl, rfl, ha.trace, rfl⟩

/-- The last step of a history that ended with `processMessages()` with a handler set, from any state with an empty
buffer and an empty log of bytes. -/
theorem packet_ok (S : Setting C B user) (hn : NeverThrows user) {w w2 : World C} {s : AState} (ha : Abs w s)
    (hb : s.buf = []) (hf : s.fed = []) {ops : List Op} {os : List Obs}
    (hl : Legal B user fuel w (ops ++ [.process]))
    (hr : w.run B user fuel (ops ++ [.process]) = .ok (w2, os)) (hh : w2.rx.hasHandler = true) :
    ∃ s2 ms, Abs w2 s2 ∧ Decodes C w2.fed ms (buffered w2) ∧
      delivered w2 = delivered w ++ ms.map (meaning C) := by
  obtain ⟨s2, ms, ha2, he⟩ := run_exec S.arith.lt64 S.benign S.arith ha hl hr
  have hrun := he.sound (D := []) (by rw [hb, hf]; exact Run.refl _)
  obtain ⟨calls, hc1, hc2⟩ := he.calls hn
  refine ⟨s2, ms, ha2, ⟨?_, ?_⟩, ?_⟩
  · rw [ha2.buffered, ha2.fed]; exact hrun
  · obtain ⟨s1, ms1, ms2, os1, os2, h1, h2, _, _⟩ := Exec.append_iff.mp he
    rw [ha2.hasHandler] at hh
    rw [ha2.buffered]
    cases h2 with
    | cons hs hnil =>
      cases hnil
      cases hs with
      | idle hno => simp [hno] at hh
      | process _ hp =>
        obtain ⟨_, _, _, _, _, _, _, _, _, h7, _⟩ := hp.sound
        exact (h7 rfl).1
      | thrown _ hp => have := hp.no_throw hn; simp at this
  · rw [ha2.delivered, ha.delivered, hc1, List.map_append, hc2]

theorem packets_ok (S : Setting C B user) (hn : NeverThrows user) {h : Handler} {w w' : World C}
    {ps : List (List Byte)} (hp : Packets B user fuel h w ps w') : ∀ {s : AState}, Abs w s →
    ∃ parts : List (List Byte × List Msg), parts.map (·.1) = ps ∧
      (∀ q ∈ parts, ∃ r, Decodes C q.1 q.2 r) ∧
      delivered w' = delivered w ++ (parts.flatMap (·.2)).map (meaning C) := by
  induction hp with
  | nil w => intro s _; exact ⟨[], rfl, by simp, by simp⟩
  | @cons w w1 w2 w3 ops os ps h1 hl hr hh _ ih =>
    intro s ha
    obtain ⟨w1', e, ha1⟩ := restart_ok S.arith.lt64 ha h
    rw [h1] at e
    simp only [Except.ok.injEq] at e
    subst e
    obtain ⟨s2, ms, ha2, hd, e2⟩ := packet_ok S hn ha1 rfl rfl hl hr hh
    obtain ⟨parts, e3, e4, e5⟩ := ih ha2
    refine ⟨(w2.fed, ms) :: parts, by simp [e3], ?_, ?_⟩
    · intro q hq
      rcases List.mem_cons.mp hq with rfl | hq
      · exact ⟨_, hd⟩
      · exact e4 q hq
    · rw [e5, e2]
      have : delivered w1 = delivered w := by rw [ha1.delivered, ha.delivered]
      rw [this]
      simp

/-- One packet that is appended at once, with handlers that may throw. -/
theorem datagram_ok (S : Setting C B user) (hq : Quiet user) (hfuel : capacity C < fuel) {w : World C} {s : AState}
    (ha : Abs w s) (h : Handler) {p : List Byte} (hl : p.length ≤ capacity C) :
    ∃ (w1 w2 w3 : World C) (s3 : AState) (out : Outcome) (ms : List Msg) (r : List Byte) (k : Nat),
      w.restart h = .ok w1 ∧ w1.append B p = .ok w2 ∧ w2.processMessages B user fuel = .ok (w3, out) ∧ Abs w3 s3 ∧
      Decodes C p ms r ∧ delivered w3 = delivered w ++ (ms.take k).map (meaning C) ∧
      (NeverThrows user → out ≠ .threw) ∧ AsFar ms k out := by
  have hc := S.arith.lt64
  obtain ⟨w1, h1, ha1⟩ := restart_ok hc ha h
  obtain ⟨w2, h2, ha2, _⟩ := append_ok hc ha1 (xs := p) (by simpa using hl)
  simp only [List.nil_append] at ha2
  rcases processMessages_spec hc S.benign fuel ha2 rfl with ⟨hk, _⟩ | ⟨w3, s3, ms, th, h3, ha3, hp, hh, _⟩
  · have := hk.quiet_le hq
    simp only at this
    omega
  · obtain ⟨app, calls, cms, e1, e2, e3, e4, e5, _, e7, e8⟩ := hp.sound
    have happ : app = [] := by
      have := hp.quiet hq
      simp only at this e1
      rw [this] at e1
      exact (List.self_eq_append_right.mp e1)
    simp only [happ, List.append_nil] at e3
    have hdel : delivered w3 = delivered w ++ cms.map (meaning C) := by
      rw [ha3.delivered, ha.delivered, e2, List.map_append, e4]
    cases th with
    | false =>
      obtain ⟨f1, f2⟩ := e7 rfl
      exact ⟨w1, w2, w3, s3, _, ms, s3.buf, ms.length, h1, h2 B S.arith, h3 B S.arith, ha3, ⟨e3, f1⟩,
        by rw [hdel, f2, List.take_length], by simp, Or.inl ⟨rfl, by simp⟩⟩
    | true =>
      obtain ⟨m, t, hm, f1, f2⟩ := e8 rfl
      obtain ⟨ns, r, hd⟩ := decodes_exists C t
      refine ⟨w1, w2, w3, s3, _, ms ++ m :: ns, r, ms.length + 1, h1, h2 B S.arith, h3 B S.arith, ha3,
        ⟨e3.trans (by rw [f1]; exact Run.take hm hd.1), hd.2⟩, ?_, fun hn => ?_,
        Or.inr ⟨by omega, by simp, by simp⟩⟩
      · rw [hdel, f2]
        congr 2
        simp [List.take_append, List.take_of_length_le]
      · have := hp.no_throw hn; simp at this

theorem datagrams_ok (S : Setting C B user) (hq : Quiet user) (hfuel : capacity C < fuel) (h : Handler)
    (ps : List (List Byte)) : ∀ {w : World C} {s : AState}, Abs w s → (∀ p ∈ ps, p.length ≤ capacity C) →
    ∃ w' outs, w.datagrams B user fuel h ps = .ok (w', outs) ∧
      ∃ parts : List (List Byte × List Msg × Nat × Outcome), parts.map (·.1) = ps ∧ parts.map (·.2.2.2) = outs ∧
        (∀ q ∈ parts, (∃ r, Decodes C q.1 q.2.1 r) ∧ AsFar q.2.1 q.2.2.1 q.2.2.2 ∧
          (NeverThrows user → q.2.2.2 ≠ .threw)) ∧
        delivered w' = delivered w ++ (parts.flatMap fun q => q.2.1.take q.2.2.1).map (meaning C) := by
  induction ps with
  | nil => intro w s _ _; exact ⟨w, [], rfl, [], rfl, rfl, by simp, by simp⟩
  | cons p ps ih =>
    intro w s ha hl
    obtain ⟨w1, w2, w3, s3, out, ms, r, k, h1, h2, h3, ha3, hd, e, hn, hk⟩ :=
      datagram_ok S hq hfuel ha h (hl p (by simp))
    obtain ⟨w', outs, h4, parts, e1, e0, e2, e3⟩ := ih ha3 fun p hp => hl p (by simp [hp])
    refine ⟨w', out :: outs, by simp [World.datagrams, h1, h2, h3, h4], (p, ms, k, out) :: parts, by simp [e1],
      by simp [e0], ?_, ?_⟩
    · intro q hq
      rcases List.mem_cons.mp hq with rfl | hq
      · exact ⟨⟨r, hd⟩, hk, hn⟩
      · exact e2 q hq
    · rw [e3, e]; simp

/-! ### The property -/

/-- C111 (restart). Whatever a receiver has gone through, assigning `Receiver(handler)` to it succeeds; afterwards it has
that handler, the whole capacity free, nothing buffered and no last message id, and it has called no handler. -/
theorem C111_restart (S : Setting C B user) {ops : List Op} {w : World C} {os : List Obs}
    (hw : Reached B user fuel ops w os) (h : Handler) :
    ∃ w', w.restart h = .ok w' ∧ w'.trace = w.trace ∧ w'.fed = [] ∧ buffered w' = [] ∧ currentHandler w' = some h ∧
      w'.rx.getBufferAvailableSpace = capacity C ∧ w'.rx.getLastMessageId = none := by
  obtain ⟨s, _, ha, _⟩ := hw.exec S
  obtain ⟨w', h1, h2⟩ := restart_ok S.arith.lt64 ha h
  refine ⟨w', h1, by rw [h2.trace, ha.trace], h2.fed, h2.buffered, by rw [currentHandler_abs h2], ?_, ?_⟩
  · rw [h2.space S.arith.lt64]; rfl
  · unfold Receiver.getLastMessageId; rw [h2.last]

/-- C111 (each packet by itself). However the bytes of each packet were handed over and however often the receiver was
polled meanwhile: the messages delivered are those each packet decodes to by itself, one packet after the other. -/
theorem C111_each (S : Setting C B user) (hn : NeverThrows user) {ops : List Op} {w w' : World C} {os : List Obs}
    (hw : Reached B user fuel ops w os) {h : Handler} {ps : List (List Byte)} (hp : Packets B user fuel h w ps w') :
    ∃ parts : List (List Byte × List Msg), parts.map (·.1) = ps ∧
      (∀ q ∈ parts, ∃ r, Decodes C q.1 q.2 r) ∧
      delivered w' = delivered w ++ (parts.flatMap (·.2)).map (meaning C) := by
  obtain ⟨s, _, ha, _⟩ := hw.exec S
  exact packets_ok S hn hp ha

theorem parts_unique {parts parts' : List (List Byte × List Msg)} (h : ∀ q ∈ parts, ∃ r, Decodes C q.1 q.2 r)
    (h' : ∀ q ∈ parts', ∃ r, Decodes C q.1 q.2 r) (e : parts.map (·.1) = parts'.map (·.1)) : parts = parts' := by
  induction parts generalizing parts' with
  | nil => cases parts' with
    | nil => rfl
    | cons _ _ => simp at e
  | cons q qs ih =>
    cases parts' with
    | nil => simp at e
    | cons q' qs' =>
      simp only [List.map_cons, List.cons.injEq] at e
      obtain ⟨r, hr⟩ := h q (by simp)
      obtain ⟨r', hr'⟩ := h' q' (by simp)
      rw [← e.1] at hr'
      rw [ih (fun x hx => h x (by simp [hx])) (fun x hx => h' x (by simp [hx])) e.2]
      congr 1
      exact Prod.ext e.1 (hr.unique hr').1

/-- C111 (errors stay within their packet). If what arrives differs in one packet only, so does what is delivered: the
messages of all packets before and after it are delivered all the same. -/
theorem C111_local (S : Setting C B user) (hn : NeverThrows user) {h : Handler} {a b : List (List Byte)} {x y : List Byte}
    {w w' : World C} (hp : Packets B user fuel h (World.new C) (a ++ x :: b) w)
    (hp' : Packets B user fuel h (World.new C) (a ++ y :: b) w') :
    ∃ da dx dy db, delivered w = da ++ dx ++ db ∧ delivered w' = da ++ dy ++ db ∧
      (∃ ms r, Decodes C x ms r ∧ dx = ms.map (meaning C)) ∧ ∃ ms r, Decodes C y ms r ∧ dy = ms.map (meaning C) := by
  obtain ⟨parts, e1, e2, e3⟩ := packets_ok S hn hp (abs_new C)
  obtain ⟨parts', f1, f2, f3⟩ := packets_ok S hn hp' (abs_new C)
  obtain ⟨pa, px, rfl, ea, ex⟩ := List.map_eq_append_iff.mp e1
  obtain ⟨pa', py, rfl, fa, fy⟩ := List.map_eq_append_iff.mp f1
  cases px with
  | nil => simp at ex
  | cons qx pb =>
    cases py with
    | nil => simp at fy
    | cons qy pb' =>
      simp only [List.map_cons, List.cons.injEq] at ex fy
      have ha := parts_unique (fun q hq => e2 q (by simp [hq])) (fun q hq => f2 q (by simp [hq])) (ea.trans fa.symm)
      have hb := parts_unique (fun q hq => e2 q (by simp [hq])) (fun q hq => f2 q (by simp [hq])) (ex.2.trans fy.2.symm)
      subst ha hb
      obtain ⟨rx, hx⟩ := e2 qx (by simp)
      obtain ⟨ry, hy⟩ := f2 qy (by simp)
      rw [ex.1] at hx
      rw [fy.1] at hy
      refine ⟨(pa.flatMap (·.2)).map (meaning C), qx.2.map (meaning C), qy.2.map (meaning C),
        (pb.flatMap (·.2)).map (meaning C), ?_, ?_, ⟨_, _, hx, rfl⟩, ⟨_, _, hy, rfl⟩⟩
      · rw [e3]; simp [delivered, World.new]
      · rw [f3]; simp [delivered, World.new]

/-- C111 (datagrams). A program that hands over each packet at once never fails if no packet is longer than the capacity
and the handlers do not append. Of each packet all messages it decodes to are delivered and counted; if a handler throws,
those up to the one whose handler threw. -/
theorem C111_datagrams (S : Setting C B user) (hq : Quiet user) (hfuel : capacity C < fuel) (h : Handler)
    (ps : List (List Byte)) (hl : ∀ p ∈ ps, p.length ≤ capacity C) :
    ∃ (w' : World C) (outs : List Outcome), (World.new C).datagrams B user fuel h ps = .ok (w', outs) ∧
      ∃ parts : List (List Byte × List Msg × Nat × Outcome), parts.map (·.1) = ps ∧ parts.map (·.2.2.2) = outs ∧
        (∀ q ∈ parts, (∃ r, Decodes C q.1 q.2.1 r) ∧ AsFar q.2.1 q.2.2.1 q.2.2.2 ∧
          (NeverThrows user → q.2.2.2 ≠ .threw)) ∧
        delivered w' = (parts.flatMap fun q => q.2.1.take q.2.2.1).map (meaning C) := by
  simpa [delivered, World.new] using datagrams_ok S hq hfuel h ps (abs_new C) hl

/-- C111 (intact datagrams arrive). If handlers do not throw, a datagram that consists of whole messages is delivered
completely, whatever the datagrams before and after it contain. -/
theorem C111_intact (S : Setting C B user) (hq : Quiet user) (hn : NeverThrows user) (hfuel : capacity C < fuel)
    (h : Handler) {a b : List (List Byte)} {ms : List Msg} (hms : ∀ m ∈ ms, IsMsg C m) {w' : World C} {outs : List Outcome}
    (hl : ∀ p ∈ a ++ frames C.envelope ms :: b, p.length ≤ capacity C)
    (hr : (World.new C).datagrams B user fuel h (a ++ frames C.envelope ms :: b) = .ok (w', outs)) :
    ∃ da db : List Msg, delivered w' = (da ++ ms ++ db).map (meaning C) := by
  obtain ⟨w, outs', e, parts, e1, _, e2, e3⟩ := C111_datagrams S hq hfuel h _ hl
  rw [hr] at e
  simp only [Except.ok.injEq, Prod.mk.injEq] at e
  obtain ⟨rfl, rfl⟩ := e
  obtain ⟨pa, px, rfl, ea, ex⟩ := List.map_eq_append_iff.mp e1
  cases px with
  | nil => simp at ex
  | cons qx pb =>
    simp only [List.map_cons, List.cons.injEq] at ex
    obtain ⟨⟨r, hx⟩, hk, hk'⟩ := e2 qx (by simp)
    have hk : qx.2.2.1 = qx.2.1.length := by
      rcases hk with hk | hk
      · exact hk.1
      · exact absurd hk.2.2 (hk' hn)
    have hd : Decodes C (frames C.envelope ms) ms [] := by
      have := run_frames hms []
      rw [List.append_nil] at this
      exact ⟨this, Or.inl rfl⟩
    rw [ex.1] at hx
    have := (hx.unique hd).1
    refine ⟨pa.flatMap fun q => q.2.1.take q.2.2.1, pb.flatMap fun q => q.2.1.take q.2.2.1, ?_⟩
    rw [e3, List.flatMap_append, List.flatMap_cons, hk, List.take_length, this, List.append_assoc]

/-- C111 (why it matters). The first five bytes of a `pose` message arrive, then an intact `ping`. A receiver started afresh
for the second packet delivers the `ping`; the same receiver used throughout has delivered nothing. -/
theorem C111_without_restart :
    let ps : List (List Byte) := [[1, 2, 2, 9, 9], [1, 0, 2, 3, 4]]
    ((World.new Sample.basic).datagrams Sample.dbg Sample.passive 50 Sample.h0 ps).map (fun r => delivered r.1) =
        .ok [meaning Sample.basic Sample.mPing] ∧
      ((World.new Sample.basic).run Sample.dbg Sample.passive 50
        (.setHandler Sample.h0 :: ps.flatMap fun p => [.append p, .process])).map (fun r => delivered r.1) = .ok [] := by
  decide +kernel

/-! ### Examples -/

/-- A receiver with half a message in its buffer, started afresh. -/
example : ∃ (w w' : World Sample.basic) (os : List Obs),
    Reached Sample.dbg Sample.passive 50 [.setHandler Sample.h0, .append [7, 7, 1, 1], .process] w os ∧
    buffered w = [1, 1] ∧ w.restart Sample.h0 = .ok w' ∧ buffered w' = [] := by
  obtain ⟨w, os, h, hb⟩ := Sample.reached (C := Sample.basic) (B := Sample.dbg)
    (user := Sample.passive) (fuel := 50)
    (ops := [.setHandler Sample.h0, .append [7, 7, 1, 1], .process]) (fun w _ => decide (buffered w = [1, 1]))
    (by decide +kernel)
  obtain ⟨w', h1, _, _, h2, _⟩ := C111_restart Sample.setting_basic h Sample.h0
  exact ⟨w, w', os, h, by simpa using hb, h1, h2⟩

/-- Packets handed over in two pieces each, in two versions that differ in the first. -/
theorem sample_packets (x : List Byte) (hx : x.length ≤ 5) : ∃ w : World Sample.checked,
    Packets Sample.dbg Sample.passive 50 Sample.h0 (World.new Sample.checked)
      ([] ++ x :: [frame .basicChecksum Sample.mLevel]) w := by
  have S := Sample.setting_checked
  have one : ∀ (w : World Sample.checked) (s : AState) (p : List Byte), p.length ≤ 10 → Abs w s →
      ∃ (w1 w2 : World Sample.checked) (s2 : AState) (os : List Obs), w.restart Sample.h0 = .ok w1 ∧
        Legal Sample.dbg Sample.passive 50 w1 ([.append (p.take 1), .process, .append (p.drop 1)] ++ [.process]) ∧
        w1.run Sample.dbg Sample.passive 50 ([.append (p.take 1), .process, .append (p.drop 1)] ++ [.process]) =
          .ok (w2, os) ∧ w2.rx.hasHandler = true ∧ w2.fed = p ∧ Abs w2 s2 := by
    intro w s p hp ha
    have hc := S.arith.lt64
    have hcap : capacity Sample.checked = 39 := by decide
    obtain ⟨w1, h1, ha1⟩ := restart_ok hc ha Sample.h0
    obtain ⟨w2, h2, ha2, _⟩ := append_ok hc ha1 (xs := p.take 1) (by simp [hcap]; omega)
    rcases processMessages_spec hc S.benign 50 ha2 rfl with ⟨hk, _⟩ | ⟨w3, s3, ms3, th3, h3, ha3, hp3, hh3, _⟩
    · have := hk.quiet_le Sample.passive_quiet
      simp at this; omega
    have q3 : s3.fed = p.take 1 := by simpa using hp3.quiet Sample.passive_quiet
    have l3 : s3.buf.length ≤ 1 := by
      obtain ⟨app, _, _, e1, _, e3, _⟩ := hp3.sound
      have : app = [] := by
        rw [q3] at e1
        simpa using e1
      rw [this] at e3
      have := e3.length_le
      simp at this
      omega
    obtain ⟨w4, h4, ha4, _⟩ := append_ok hc ha3 (xs := p.drop 1) (by simp [hcap]; omega)
    rcases processMessages_spec hc S.benign 50 ha4 hh3 with ⟨hk, _⟩ | ⟨w5, s5, ms5, th5, h5, ha5, hp5, hh5, _⟩
    · have := hk.quiet_le Sample.passive_quiet
      simp at this; omega
    have q5 : s5.fed = p := by
      have := hp5.quiet Sample.passive_quiet
      rw [this]; simp only [q3, List.take_append_drop]
    refine ⟨w1, w5, s5, [.unit, .processed (if th3 then .threw else .returned (UInt8.ofNat ms3.length)), .unit,
      .processed (if th5 then .threw else .returned (UInt8.ofNat ms5.length))], h1, ?_, ?_, ?_, ?_, ha5⟩
    rotate_left
    · simp [-List.drop_one, World.run, World.step, h2 _ S.arith, h3 _ S.arith, h4 _ S.arith, h5 _ S.arith]
    · rw [ha5.hasHandler]; exact hh5
    · rw [ha5.fed, q5]
    · refine ⟨?_, fun u o e => ?_⟩
      · simp only [OpLegal, ha1.space hc, hcap]; simp; omega
      simp [World.step, h2 _ S.arith] at e
      obtain ⟨rfl, rfl⟩ := e
      refine ⟨trivial, fun u o e => ?_⟩
      simp [World.step, h3 _ S.arith] at e
      obtain ⟨rfl, rfl⟩ := e
      refine ⟨?_, fun u o e => ⟨trivial, fun _ _ _ => trivial⟩⟩
      simp only [OpLegal, ha3.space hc, hcap]; simp; omega
  obtain ⟨w1, w2, s2, os, h1, h2, h3, h4, h5, ha⟩ := one _ _ x (by omega) (abs_new _)
  obtain ⟨w1', w2', s2', os', h1', h2', h3', h4', h5', _⟩ := one w2 s2 (frame .basicChecksum Sample.mLevel) (by decide) ha
  refine ⟨w2', ?_⟩
  have := Packets.cons h1 h2 h3 h4 (Packets.cons h1' h2' h3' h4' (Packets.nil w2'))
  rw [h5, h5'] at this
  exact this

/-- A half message and its absence: the `level` of the second packet is delivered all the same. -/
example : ∃ (w w' : World Sample.checked) (da dx dy db : List (MsgType × List (List Byte))),
    Packets Sample.dbg Sample.passive 50 Sample.h0 (World.new Sample.checked)
      ([] ++ [1, 2, 2] :: [frame .basicChecksum Sample.mLevel]) w ∧
    Packets Sample.dbg Sample.passive 50 Sample.h0 (World.new Sample.checked)
      ([] ++ [] :: [frame .basicChecksum Sample.mLevel]) w' ∧
    delivered w = da ++ dx ++ db ∧ delivered w' = da ++ dy ++ db := by
  obtain ⟨w, h⟩ := sample_packets [1, 2, 2] (by decide)
  obtain ⟨w', h'⟩ := sample_packets [] (by decide)
  obtain ⟨da, dx, dy, db, e1, e2, _⟩ := C111_local Sample.setting_checked Sample.passive_neverThrows h h'
  exact ⟨w, w', da, dx, dy, db, h, h', e1, e2⟩

/-- A damaged datagram, an intact one with two messages, and one that begins in the middle of a message. -/
example : ∃ (w' : World Sample.checked) (outs : List Outcome),
    (World.new Sample.checked).datagrams Sample.dbg Sample.passive 50 Sample.h0
      ([[1, 2, 2]] ++ frames .basicChecksum [Sample.mLevel, Sample.mPing] :: [[3, 4, 1]]) = .ok (w', outs) ∧
    ∃ da db, delivered w' = (da ++ [Sample.mLevel, Sample.mPing] ++ db).map (meaning Sample.checked) := by
  have hl : ∀ p ∈ [[1, 2, 2]] ++ frames Sample.checked.envelope [Sample.mLevel, Sample.mPing] :: [[3, 4, 1]],
      p.length ≤ capacity Sample.checked := by decide
  obtain ⟨w', outs, h, _⟩ := C111_datagrams (fuel := 50) Sample.setting_checked Sample.passive_quiet (by decide) Sample.h0 _ hl
  exact ⟨w', outs, h, C111_intact Sample.setting_checked Sample.passive_quiet Sample.passive_neverThrows (by decide) Sample.h0
    (by decide) hl h⟩

/-- A handler that throws at its first call: the second message of the first datagram is lost, the second datagram not. -/
example :
    ((World.new Sample.checked).datagrams Sample.dbg (fun calls _ => ⟨[], calls.length == 1⟩) 50 Sample.h0
      [frames .basicChecksum [Sample.mLevel, Sample.mPing], frames .basicChecksum [Sample.mPose, Sample.mPing]]).map
        (fun r => (delivered r.1, r.2)) =
      .ok ([Sample.mLevel, Sample.mPose, Sample.mPing].map (meaning Sample.checked), [.threw, .returned 2]) := by
  decide +kernel

end TT.Properties
