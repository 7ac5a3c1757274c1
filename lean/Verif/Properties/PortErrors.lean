import Verif.Properties.LineErrors
import Verif.Properties.Ports

/-!
# Properties of ports that fail: C65 (read errors), C66 (short writes)
-/

namespace TT.Properties
open Spec

variable {C : Collection} {B : Build} {user : UserCode} {fuel : Nat}

/-! ### C65: read errors of the VRPN adapter -/

/-- Number of values of the smallest of the unsigned types with 8, 16, 32, 64 bits that can hold `n`. -/
def typeRange (n : Nat) : Nat :=
  if n < 256 then 256 else if n < 65536 then 65536 else if n < 4294967296 then 4294967296
  else 18446744073709551616

theorem typeRange_eq (n : Nat) : typeRange n = 2 ^ leastBits n := by
  unfold typeRange leastBits
  split
  · simp [*]
  · split
    · simp [*]
    · split <;> simp [*]

theorem lt_typeRange {n : Nat} (h : n < 2 ^ 64) : n < typeRange n ∧ 256 ≤ typeRange n := by
  unfold typeRange
  split
  · omega
  · split
    · omega
    · split <;> omega

theorem functor_error {cap : Nat} {b : RB cap} {xs : List Byte} (hc : cap < 2 ^ 64)
    (h : b.Holds xs) (f : Byte → RB.DeviceReply) (hf : ∀ n, f n = ⟨[], 255⟩) (ha : Arith B cap) :
    (xs.length + 255 ≤ cap → ∃ b' stale, b.bufferFromExternalFunctorRef B f 255 = .ok (b', 255) ∧
      stale.length = 255 ∧ b'.Holds (xs ++ stale)) ∧
    (cap < xs.length + 255 → ∃ b1 : RB cap, b1.Holds xs ∧ b1.begin_ = 0 ∧
      b.bufferFromExternalFunctorRef B f 255 =
        (({ b1 with pastEnd := (xs.length + 255) % typeRange cap } : RB cap).verifyInvariants B).bind
          fun _ => .ok ({ b1 with pastEnd := (xs.length + 255) % typeRange cap }, 255)) := by
  have hl := h.length_le
  obtain ⟨b1, e1, hh1, hs1⟩ := h.ensureSpace_ok hc (n := min 255 (cap - xs.length)) (by omega)
  have e : b.bufferFromExternalFunctorRef B f 255 =
      (({ b1 with pastEnd := trunc cap (b1.pastEnd + 255) } : RB cap).verifyInvariants B).bind
        fun _ => .ok ({ b1 with pastEnd := trunc cap (b1.pastEnd + 255) }, 255) := by
    unfold RB.bufferFromExternalFunctorRef
    simp only [h.size_eq hc]
    rw [subT_of_le hc (Nat.le_refl _) hl]
    simp only [e1 B ha, hf, RB.writeAt, ok_bind]
    rfl
  have hpe := hh1.pe
  constructor
  · intro hle
    have hpe2 : b1.pastEnd + 255 ≤ cap := by omega
    obtain ⟨pre, post, hs, hp⟩ := hh1.split
    have hlen := hh1.len
    rw [hs] at hlen
    simp only [List.length_append] at hlen
    have hh : ({ b1 with pastEnd := b1.pastEnd + 255 } : RB cap).Holds (xs ++ post.take 255) := by
      refine ⟨⟨pre, post.drop 255, ?_, hp⟩, ?_, hh1.len⟩
      · show b1.contents = _
        rw [hs]; simp
      · show b1.pastEnd + 255 = b1.begin_ + (xs ++ post.take 255).length
        simp; omega
    refine ⟨_, post.take 255, ?_, by simp; omega, hh⟩
    rw [e, trunc_of_le hc hpe2, hh.verifyInvariants_ok]
    rfl
  · intro hgt
    have h0 : b1.begin_ = 0 := by omega
    refine ⟨b1, hh1, h0, ?_⟩
    rw [e]
    have : trunc cap (b1.pastEnd + 255) = (xs.length + 255) % typeRange cap := by
      unfold trunc
      rw [typeRange_eq, hpe, h0, Nat.zero_add]
    rw [this]

/-- C65. What `receiveFrom` does when the VRPN port reports an error, for every state of the receiver.
It always claims 255 bytes. If they would fit, 255 bytes nobody sent are appended. If they would not
fit but their number is representable, debug builds abort and release builds afterwards report free
space of almost the whole range of the size type. Otherwise bytes that were received are silently
removed from the end of the buffer. -/
theorem C65_error (S : Setting C B user) {ops : List Op} {w : World C} {os : List Obs}
    (h : Reached B user fuel ops w os) (read : Byte → PortReply) (hr : ∀ n, read n = ⟨[], -1⟩) :
    ((buffered w).length + 255 ≤ capacity C → ∃ r stale,
      w.rx.receiveFrom B (vrpnAdapter read) = .ok (r, 255) ∧ stale.length = 255 ∧
      buffered { w with rx := r } = buffered w ++ stale) ∧
    (capacity C < (buffered w).length + 255 →
      (buffered w).length + 255 < typeRange (capacity C) →
      (B.debug = true → w.rx.receiveFrom B (vrpnAdapter read) = .error .abort) ∧
      (B.debug = false → ∃ r, w.rx.receiveFrom B (vrpnAdapter read) = .ok (r, 255) ∧
        r.getBufferAvailableSpace =
          typeRange (capacity C) + capacity C - ((buffered w).length + 255))) ∧
    (typeRange (capacity C) ≤ (buffered w).length + 255 → ∃ r,
      w.rx.receiveFrom B (vrpnAdapter read) = .ok (r, 255) ∧
      buffered { w with rx := r } =
        (buffered w).take ((buffered w).length + 255 - typeRange (capacity C))) := by
  have hc := S.arith.lt64
  obtain ⟨s, _, ha, _⟩ := h.exec S
  rw [ha.buffered]
  have hl : s.buf.length ≤ capacity C := by rw [capacity_eq]; exact RB.Holds.length_le ha.buf
  have hf : ∀ n, (vrpnAdapter read).receive n = ⟨[], 255⟩ := by
    intro n; simp only [vrpnAdapter, hr]; rfl
  have hrx : ∀ x, w.rx.recv.buf.bufferFromExternalFunctorRef B (vrpnAdapter read).receive 255 = x →
      w.rx.receiveFrom B (vrpnAdapter read) = x.bind fun y =>
        .ok ({ w.rx with recv := { w.rx.recv with buf := y.1 } }, y.2) := by
    intro x hx
    unfold Receiver.receiveFrom ERB.bufferFromFunctorRef
    rw [show (vrpnAdapter read).numAvailable.toNat = 255 from rfl, hx]
    cases x <;> rfl
  obtain ⟨h1, h2⟩ := functor_error hc ha.buf (vrpnAdapter read).receive hf S.arith
  rw [capacity_eq] at hl ⊢
  obtain ⟨t1, t2⟩ := lt_typeRange hc
  have hb : ∀ (b : RB (recvBufferSize C)) (ys : List Byte), b.Holds ys →
      buffered { w with rx := { w.rx with recv := { w.rx.recv with buf := b } } } = ys := by
    intro b ys hh
    obtain ⟨pre, post, hs, hp⟩ := hh.split
    have hpe := hh.pe
    unfold buffered
    show (b.contents.drop b.begin_).take (b.pastEnd - b.begin_) = ys
    rw [hpe, hs, ← hp]
    simp
  refine ⟨fun hle => ?_, fun hgt hlt => ?_, fun hge => ?_⟩
  · obtain ⟨b', stale, e, hs, hh⟩ := h1 hle
    exact ⟨_, stale, by rw [hrx _ e]; rfl, hs, hb _ _ hh⟩
  · obtain ⟨b1, hh1, h0, e⟩ := h2 hgt
    rw [Nat.mod_eq_of_lt hlt] at e
    constructor
    · intro hd
      rw [hrx _ e]
      simp only [RB.verifyInvariants, assertMsg, hd, h0]
      rw [show (decide (s.buf.length + 255 ≤ recvBufferSize C)) = false by simp; omega]
      rfl
    · intro hd
      refine ⟨_, by rw [hrx _ e]; simp only [RB.verifyInvariants, assertMsg, hd]; rfl, ?_⟩
      show subT (recvBufferSize C) (recvBufferSize C)
        (subT (recvBufferSize C) (s.buf.length + 255) b1.begin_) = _
      rw [h0]
      unfold subT
      rw [← typeRange_eq]
      rw [Nat.zero_mod, Nat.sub_zero, Nat.add_mod_right, Nat.mod_eq_of_lt hlt, Nat.mod_eq_of_lt hlt,
        Nat.mod_eq_of_lt (by omega)]
      omega
  · obtain ⟨b1, hh1, h0, e⟩ := h2 (by omega)
    have hm : (s.buf.length + 255) % typeRange (recvBufferSize C) =
        s.buf.length + 255 - typeRange (recvBufferSize C) := by
      rw [Nat.mod_eq_sub_mod hge, Nat.mod_eq_of_lt (by omega)]
    rw [hm] at e
    have hh : ({ b1 with pastEnd := s.buf.length + 255 - typeRange (recvBufferSize C) } :
        RB (recvBufferSize C)).Holds
          (s.buf.take (s.buf.length + 255 - typeRange (recvBufferSize C))) := by
      obtain ⟨pre, post, hs, hp⟩ := hh1.split
      refine ⟨⟨pre, s.buf.drop (s.buf.length + 255 - typeRange (recvBufferSize C)) ++ post, ?_, hp⟩,
        ?_, hh1.len⟩
      · show b1.contents = _
        rw [hs]
        simp only [List.append_assoc]
        congr 1
        rw [← List.append_assoc, List.take_append_drop]
      · show s.buf.length + 255 - typeRange (recvBufferSize C) = b1.begin_ + _
        rw [h0, List.length_take]
        omega
    refine ⟨_, by rw [hrx _ e, hh.verifyInvariants_ok]; rfl, hb _ _ hh⟩

/-- C65. So with a receive buffer of less than 256 bytes, every read error while something is buffered
removes exactly the byte received last, in all builds. -/
theorem C65_small (S : Setting C B user) (hcap : capacity C < 256) {ops : List Op} {w : World C}
    {os : List Obs} (h : Reached B user fuel ops w os) (hne : buffered w ≠ [])
    (read : Byte → PortReply) (hr : ∀ n, read n = ⟨[], -1⟩) :
    ∃ r, w.rx.receiveFrom B (vrpnAdapter read) = .ok (r, 255) ∧
      buffered { w with rx := r } = (buffered w).dropLast := by
  have hpos : 0 < (buffered w).length := List.length_pos_iff.mpr hne
  have ht : typeRange (capacity C) = 256 := by unfold typeRange; rw [if_pos hcap]
  obtain ⟨r, h1, h2⟩ := (C65_error S h read hr).2.2 (by rw [ht]; omega)
  refine ⟨r, h1, ?_⟩
  rw [h2, ht, List.dropLast_eq_take,
    show (buffered w).length + 255 - 256 = (buffered w).length - 1 by omega]

/-- All but the last byte of a message have arrived; a read error removes another one. -/
example : ∃ (w : World Sample.basic) (os : List Obs) (r : Receiver Sample.basic),
    Reached Sample.dbg Sample.passive 50 [.append [1, 0, 2, 3]] w os ∧
    w.rx.receiveFrom Sample.dbg (vrpnAdapter fun _ => ⟨[], -1⟩) = .ok (r, 255) ∧
    buffered { w with rx := r } = [1, 0, 2] := by
  obtain ⟨w, os, h, hp⟩ := Sample.reached (C := Sample.basic) (B := Sample.dbg)
    (user := Sample.passive) (fuel := 50) (ops := [.append [1, 0, 2, 3]])
    (fun w _ => decide (buffered w = [1, 0, 2, 3])) (by decide +kernel)
  simp only [decide_eq_true_eq] at hp
  obtain ⟨r, h1, h2⟩ := C65_small Sample.setting_basic (by decide) h (by simp [hp])
    (fun _ => ⟨[], -1⟩) (fun _ => rfl)
  exact ⟨w, os, r, h, h1, by rw [h2, hp]; rfl⟩

/-- The other two cases of `C65_error`: an empty small buffer, and a large one. -/
example : ((World.new Sample.basic).rx.receiveFrom Sample.dbg (vrpnAdapter fun _ => ⟨[], -1⟩) =
      .error .abort) ∧
    ∃ r stale, (World.new longShort).rx.receiveFrom Sample.dbg (vrpnAdapter fun _ => ⟨[], -1⟩) =
      .ok (r, 255) ∧ stale.length = 255 ∧
      buffered { World.new longShort with rx := r } = buffered (World.new longShort) ++ stale := by
  have h1 : Reached Sample.dbg Sample.passive 50 [] (World.new Sample.basic) [] := ⟨trivial, rfl⟩
  have h2 : Reached Sample.dbg Sample.passive 50 [] (World.new longShort) [] := ⟨trivial, rfl⟩
  have S : Setting longShort Sample.dbg Sample.passive :=
    ⟨⟨by decide +kernel, by decide +kernel⟩, Sample.passive_benign⟩
  exact ⟨((C65_error Sample.setting_basic h1 _ fun _ => rfl).2.1 (by decide +kernel)
    (by decide +kernel)).1 rfl, (C65_error S h2 _ fun _ => rfl).1 (by decide +kernel)⟩

/-! ### C66: serial transmitters -/

/-- The writes one `send` makes on a serial port: one per control byte, one per field. -/
def portWrites (C : Collection) (t : MsgType) (vs : List Value) : List (List Byte) :=
  let id := UInt8.ofNat (C.messages.idxOf t)
  [[0x01], [id], [0x02]] ++ vs.map (·.bytes) ++
    (match C.envelope with
      | .basic => [[0x03], [0x04]]
      | .basicChecksum =>
        [[0x03], [byteSum ([0x01, id, 0x02] ++ payloadOf vs ++ [0x03])], [0x04]])

theorem script_writes (C : Collection) (t : MsgType) (vs : List Value) :
    ∃ os, script C.envelope (UInt8.ofNat (C.messages.idxOf t)) vs = os ++ [.finished] ∧
      (∀ o ∈ os, o ≠ .finished) ∧ os.map Out.bytes = portWrites C t vs := by
  obtain ⟨os, e, hne, _⟩ := script_split C.envelope (UInt8.ofNat (C.messages.idxOf t)) vs
  refine ⟨os, e, hne, ?_⟩
  have e2 := congrArg (fun l => (List.dropLast l).map Out.bytes) e
  simp only [List.dropLast_concat] at e2
  rw [← e2]
  unfold script portWrites
  rw [List.dropLast_concat]
  have hv : (vs.map outField).map Out.bytes = vs.map (·.bytes) := by
    rw [List.map_map]; exact List.map_congr_left fun v _ => outField_bytes v
  cases C.envelope <;> simp [Out.bytes, hv, -List.map_map]

/-- C66. On a serial port `send` makes exactly these writes, in this order; together they are the
message's bytes. -/
theorem C66_writes (C : Collection) (t : MsgType) (vs : List Value) (h : Sendable C t vs)
    (s : List (List Byte)) :
    send C t portTransmitter s vs = some (.ok (s ++ portWrites C t vs)) ∧
    (portWrites C t vs).flatten = wire C t vs := by
  obtain ⟨os, e, hne, hw⟩ := script_writes C t vs
  constructor
  · rw [send_eq C t _ _ vs h (idOf_idxOf h.1 h.2.1), e, ← hw]
    congr 1
    have key : ∀ (os : List Out), (∀ o ∈ os, o ≠ .finished) → ∀ s : List (List Byte),
        feed portTransmitter s (os ++ [.finished]) = .ok (s ++ os.map Out.bytes) := by
      intro os
      induction os with
      | nil => intro _ s; simp [feed, Out.on, portTransmitter, defaultWriteFinished]
      | cons o os ih =>
        intro hn s
        have e1 : o.on portTransmitter s = .ok (s ++ [o.bytes]) := by
          cases o with
          | byte b => rfl
          | block bs => rfl
          | finished => exact absurd rfl (hn .finished (by simp))
        rw [List.cons_append, feed, e1]
        simp only
        rw [ih (fun o ho => hn o (by simp [ho]))]
        simp
    exact key os hne s
  · rw [← hw]
    have := outBytes_script C.envelope (UInt8.ofNat (C.messages.idxOf t)) vs
    rw [e, outBytes_append] at this
    simpa [outBytes, Out.bytes, wire] using this

/-- What is left of consecutive writes, the first of which is call number `n`, on a port that takes
only the first `accept i` bytes of call `i`. -/
def taken (accept : Nat → Nat) : Nat → List (List Byte) → List Byte
  | _, [] => []
  | n, d :: ds => d.take (accept n) ++ taken accept (n + 1) ds

/-- C66. The library does not notice when the port takes fewer bytes than it was given: `send` returns
normally, goes on with the next write, and what was not taken is missing on the line. -/
theorem C66_short_writes (C : Collection) (t : MsgType) (vs : List Value) (h : Sendable C t vs)
    (accept : Nat → Nat) (n : Nat) (line : List Byte) :
    send C t (lossyPort accept) (n, line) vs = some (.ok
      (n + (portWrites C t vs).length, line ++ taken accept n (portWrites C t vs))) := by
  obtain ⟨os, e, hne, hw⟩ := script_writes C t vs
  rw [send_eq C t _ _ vs h (idOf_idxOf h.1 h.2.1), e, ← hw]
  congr 1
  have key : ∀ (os : List Out), (∀ o ∈ os, o ≠ .finished) → ∀ (n : Nat) (line : List Byte),
      feed (lossyPort accept) (n, line) (os ++ [.finished]) =
        .ok (n + (os.map Out.bytes).length, line ++ taken accept n (os.map Out.bytes)) := by
    intro os
    induction os with
    | nil => intro _ n line; simp [feed, Out.on, lossyPort, defaultWriteFinished, taken]
    | cons o os ih =>
      intro hn n line
      have e1 : o.on (lossyPort accept) (n, line) =
          .ok (n + 1, line ++ o.bytes.take (accept n)) := by
        cases o with
        | byte b => rfl
        | block bs => rfl
        | finished => exact absurd rfl (hn .finished (by simp))
      rw [List.cons_append, feed, e1]
      simp only
      rw [ih (fun o ho => hn o (by simp [ho]))]
      simp [taken]
      omega
  exact key os hne n line

/-- C66. A port that takes everything puts exactly the message's bytes on the line. -/
theorem C66_no_loss (C : Collection) (t : MsgType) (vs : List Value) (h : Sendable C t vs)
    (accept : Nat → Nat) (n : Nat) (line : List Byte)
    (hacc : ∀ i d, (portWrites C t vs)[i]? = some d → d.length ≤ accept (n + i)) :
    send C t (lossyPort accept) (n, line) vs = some (.ok
      (n + (portWrites C t vs).length, line ++ wire C t vs)) := by
  rw [C66_short_writes C t vs h, ← (C66_writes C t vs h []).2]
  have key : ∀ (ds : List (List Byte)) (n : Nat),
      (∀ i d, ds[i]? = some d → d.length ≤ accept (n + i)) → taken accept n ds = ds.flatten := by
    intro ds
    induction ds with
    | nil => intro n _; rfl
    | cons d ds ih =>
      intro n hd
      have h0 := hd 0 d rfl
      rw [taken, List.flatten_cons, List.take_of_length_le (by simpa using h0), ih]
      intro i d' hi
      have := hd (i + 1) d' (by simpa using hi)
      rwa [show n + 1 + i = n + (i + 1) by omega]
  rw [key _ _ hacc]

example := C66_writes Sample.checked Sample.pose Sample.poseVals (by decide) [[9]]
example := C66_short_writes Sample.checked Sample.pose Sample.poseVals (by decide) (fun _ => 1) 5 [9]
example := C66_no_loss Sample.checked Sample.pose Sample.poseVals (by decide) (fun _ => 4) 0 []
  (by
    intro i d h
    have : ∀ d ∈ portWrites Sample.checked Sample.pose Sample.poseVals, d.length ≤ 4 := by
      decide +kernel
    exact this d (List.mem_of_getElem? h))

end TT.Properties
