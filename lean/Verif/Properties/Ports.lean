import Verif.Properties.Reactions
import Verif.Spec.Port

/-!
# Properties of `receiveFrom` and the shipped receive adapters: C46, C54, C55
-/

namespace TT.Properties
open Spec

variable {C : Collection} {B : Build} {user : UserCode} {fuel : Nat}

/-! ### C46 -/

/-- C46. `receiveFrom` offers the adapter `min(available, free)` bytes; if the adapter honours that,
exactly what it wrote is appended and its number returned. -/
theorem C46_receive (S : Setting C B user) {ops : List Op} {w : World C} {os : List Obs}
    (h : Reached B user fuel ops w os) (d : Receiver.Device) (limit : Nat)
    (hl : limit = min d.numAvailable.toNat w.rx.getBufferAvailableSpace)
    (hg : GoodReply limit (d.receive (UInt8.ofNat limit))) :
    ∃ r, w.rx.receiveFrom B d = .ok (r, (d.receive (UInt8.ofNat limit)).written.length) ∧
      (UInt8.ofNat limit).toNat = limit ∧
      buffered { w with rx := r } = buffered w ++ (d.receive (UInt8.ofNat limit)).written ∧
      r.getBufferAvailableSpace =
        w.rx.getBufferAvailableSpace - (d.receive (UInt8.ofNat limit)).written.length := by
  obtain ⟨s, _, ha, _⟩ := h.exec S
  have hsp := ha.space S.arith.lt64
  rw [hsp] at hl
  obtain ⟨r, h1, h2⟩ := receiveFrom_ok S.arith.lt64 ha hl hg
  have hb := UInt8.toNat_lt d.numAvailable
  refine ⟨r, h1 B S.arith, ?_, ?_, ?_⟩
  · rw [UInt8.toNat_ofNat']; omega
  · have := h2.buffered
    rw [ha.buffered]
    exact this
  · have := h2.space S.arith.lt64
    simp only [List.length_append] at this
    rw [hsp]
    rw [this]
    omega

example : ∃ (w : World Sample.basic) (os : List Obs),
    Reached Sample.dbg Sample.passive 50 [.append (List.replicate 30 7)] w os ∧
    (decide (6 = min (vrpnPort (List.replicate 40 9)).numAvailable.toNat
        w.rx.getBufferAvailableSpace) &&
     decide (GoodReply 6 ((vrpnPort (List.replicate 40 9)).receive (UInt8.ofNat 6)))) = true :=
  Sample.reached _ (by decide +kernel)

/-- C46 for the VRPN adapter, with a port that reads at most as many bytes as it is asked for and reports their number:
the port is asked for `min(255, free)` bytes. -/
theorem C46_vrpn (S : Setting C B user) {ops : List Op} {w : World C} {os : List Obs}
    (h : Reached B user fuel ops w os) (read : Byte → PortReply)
    (hr : ∀ count, (read count).written.length ≤ count.toNat ∧ (read count).ret = (read count).written.length) :
    ∃ r, w.rx.receiveFrom B (vrpnAdapter read) =
        .ok (r, (read (UInt8.ofNat (min 255 w.rx.getBufferAvailableSpace))).written.length) ∧
      buffered { w with rx := r } =
        buffered w ++ (read (UInt8.ofNat (min 255 w.rx.getBufferAvailableSpace))).written := by
  have e : (UInt8.ofNat (min 255 w.rx.getBufferAvailableSpace)).toNat = min 255 w.rx.getBufferAvailableSpace := by
    rw [UInt8.toNat_ofNat']; omega
  obtain ⟨h1, h2⟩ := hr (UInt8.ofNat (min 255 w.rx.getBufferAvailableSpace))
  rw [e] at h1
  obtain ⟨r, h3, -, h4, -⟩ := C46_receive S h (vrpnAdapter read) (min 255 w.rx.getBufferAvailableSpace) rfl
    ⟨h1, by
      show (UInt8.ofInt (read _).ret).toNat = (read _).written.length
      rw [h2]
      unfold UInt8.ofInt
      rw [UInt8.toNat_ofNat']
      omega⟩
  exact ⟨r, h3, h4⟩

/-- C46 for the Arduino adapter, with a stream that reads at most as many bytes as it is asked for and reports their
number: the stream is asked for `min(255, available, free)` bytes. -/
theorem C46_arduino (S : Setting C B user) {ops : List Op} {w : World C} {os : List Obs}
    (h : Reached B user fuel ops w os) (available : Nat) (readBytes : Byte → List Byte × Nat)
    (hr : ∀ count, (readBytes count).1.length ≤ count.toNat ∧ (readBytes count).2 = (readBytes count).1.length)
    (limit : Nat) (hl : limit = min (min 255 available) w.rx.getBufferAvailableSpace) :
    ∃ r, w.rx.receiveFrom B (arduinoAdapter available readBytes) =
        .ok (r, (readBytes (UInt8.ofNat limit)).1.length) ∧
      buffered { w with rx := r } = buffered w ++ (readBytes (UInt8.ofNat limit)).1 := by
  have e : (UInt8.ofNat limit).toNat = limit := by
    rw [UInt8.toNat_ofNat']; omega
  obtain ⟨h1, h2⟩ := hr (UInt8.ofNat limit)
  rw [e] at h1
  obtain ⟨r, h3, -, h4, -⟩ := C46_receive S h (arduinoAdapter available readBytes) limit
    (by
      have : (arduinoAdapter available readBytes).numAvailable.toNat = min 255 available := by
        simp only [arduinoAdapter]
        unfold UInt8.ofInt
        rw [UInt8.toNat_ofNat']
        omega
      rw [this, hl])
    ⟨h1, by
      show (UInt8.ofNat (readBytes _).2).toNat = (readBytes _).1.length
      rw [h2, UInt8.toNat_ofNat']
      omega⟩
  exact ⟨r, h3, h4⟩

/-- A stream that says that 300 bytes are available and hands over half of what it is asked for. -/
example : ∀ count : Byte, ((List.replicate (count.toNat / 2) (7 : Byte), count.toNat / 2) : List Byte × Nat).1.length ≤
    count.toNat ∧ (((List.replicate (count.toNat / 2) (7 : Byte), count.toNat / 2) : List Byte × Nat)).2 =
      (List.replicate (count.toNat / 2) (7 : Byte)).length := by
  intro count
  simp
  omega

/-- C46. Witness: the VRPN adapter turns an error (-1) into 255 bytes: nothing was written, 255 bytes
are reported and buffered. -/
theorem C46_error_witness : ∃ (w : World longShort) (os : List Obs) (r : Receiver longShort),
    Reached Sample.dbg Sample.passive 50 [] w os ∧
    w.rx.receiveFrom Sample.dbg (vrpnAdapter fun _ => ⟨[], -1⟩) = .ok (r, 255) ∧
    (buffered w).length = 0 ∧ (buffered { w with rx := r }).length = 255 := by
  have S : Setting longShort Sample.dbg Sample.passive :=
    ⟨⟨by decide +kernel, by decide +kernel⟩, Sample.passive_benign⟩
  have h0 : Reached Sample.dbg Sample.passive 50 [] (World.new longShort) [] := ⟨trivial, rfl⟩
  have key : ((World.new longShort).rx.receiveFrom Sample.dbg
      (vrpnAdapter fun _ => ⟨[], -1⟩)).toOption.any (fun x => decide (x.2 = 255) &&
        decide ((buffered { World.new longShort with rx := x.1 }).length = 255)) = true := by
    decide +kernel
  cases e : (World.new longShort).rx.receiveFrom Sample.dbg (vrpnAdapter fun _ => ⟨[], -1⟩) with
  | error f => rw [e] at key; simp [Except.toOption] at key
  | ok x =>
    obtain ⟨r, n⟩ := x
    rw [e] at key
    simp only [Except.toOption, Option.any_some, Bool.and_eq_true, decide_eq_true_eq] at key
    obtain ⟨rfl, k⟩ := key
    exact ⟨_, [], r, h0, e, rfl, k⟩

/-! ### C54 -/

/-- The two ports hand over `min(255, free, waiting)` bytes. -/
theorem vrpnPort_reply (q : List Byte) (limit : Nat) (hl : limit ≤ 255) :
    (vrpnPort q).receive (UInt8.ofNat limit) = ⟨q.take limit, UInt8.ofNat (q.take limit).length⟩ := by
  have e : (UInt8.ofNat limit).toNat = limit := by rw [UInt8.toNat_ofNat']; omega
  simp only [vrpnPort, vrpnAdapter, e]
  congr 1
  unfold UInt8.ofInt
  have hlt : (q.take limit).length < 256 := by rw [List.length_take]; omega
  congr 1
  omega

theorem arduinoPort_reply (q : List Byte) (limit : Nat) (hl : limit ≤ 255) :
    (arduinoPort q).receive (UInt8.ofNat limit) =
      ⟨q.take limit, UInt8.ofNat (q.take limit).length⟩ := by
  have e : (UInt8.ofNat limit).toNat = limit := by rw [UInt8.toNat_ofNat']; omega
  simp only [arduinoPort, arduinoAdapter, e]

theorem arduinoPort_available (q : List Byte) :
    (arduinoPort q).numAvailable.toNat = min 255 q.length := by
  simp only [arduinoPort, arduinoAdapter]
  unfold UInt8.ofInt
  rw [UInt8.toNat_ofNat']
  omega

/-- What the theorems below need of a port. -/
structure GoodPort (port : List Byte → Receiver.Device) : Prop where
  avail : ∀ q, min 255 q.length ≤ (port q).numAvailable.toNat
  reply : ∀ q limit, limit ≤ 255 → (port q).receive (UInt8.ofNat limit) =
    ⟨q.take limit, UInt8.ofNat (q.take limit).length⟩

theorem goodPort_vrpn : GoodPort vrpnPort :=
  ⟨fun q => by show _ ≤ (255 : UInt8).toNat; simp; omega, vrpnPort_reply⟩

theorem goodPort_arduino : GoodPort arduinoPort :=
  ⟨fun q => by rw [arduinoPort_available]; exact Nat.le_refl _, arduinoPort_reply⟩

/-- What one round can take. -/
def roundSize (C : Collection) : Nat := min 255 (2 * maxLen C + 1)

/-- State between rounds. -/
structure Between (C : Collection) (w : World C) (s : AState) : Prop where
  abs : Abs w s
  handler : s.handler.isSome
  room : s.buf.length + 2 * maxLen C + 1 ≤ capacity C

theorem poll_round (S : Setting C B user) (hq : Quiet user) (hn : NeverThrows user)
    (hne : C.messages ≠ []) (hf : capacity C < fuel) {port : List Byte → Receiver.Device}
    (hp : GoodPort port) {w : World C} {s : AState} (hb : Between C w s) (q : List Byte) :
    ∃ (n : Nat) (r : Receiver C) (w' : World C) (s' : AState) (ms : List Msg) (o : Outcome),
      w.rx.receiveFrom B (port q) = .ok (r, n) ∧ min (roundSize C) q.length ≤ n ∧ n ≤ q.length ∧
      ({ w with rx := r, fed := w.fed ++ q.take n } : World C).processMessages B user fuel =
        .ok (w', o) ∧
      Between C w' s' ∧ s'.fed = s.fed ++ q.take n ∧
      Run C (s.buf ++ q.take n) ms s'.buf ∧ Final C s'.buf ∧
      ∃ calls, s'.trace = s.trace ++ calls ∧ calls.map seen = ms.map (meaning C) := by
  have hlt := S.arith.lt64
  have hroom := hb.room
  let limit := min (port q).numAvailable.toNat (capacity C - s.buf.length)
  have hl255 : limit ≤ 255 := by
    have := UInt8.toNat_lt (port q).numAvailable
    simp only [limit]; omega
  have hrep := hp.reply q limit hl255
  have hg : GoodReply limit ((port q).receive (UInt8.ofNat limit)) := by
    rw [hrep]
    refine ⟨by simp; omega, ?_⟩
    show (UInt8.ofNat (q.take limit).length).toNat = (q.take limit).length
    rw [UInt8.toNat_ofNat']
    have : (q.take limit).length ≤ limit := by simp; omega
    omega
  obtain ⟨r, h1, h2⟩ := receiveFrom_ok hlt hb.abs (avail := (port q).numAvailable)
    (rcv := (port q).receive) (limit := limit) rfl hg
  rw [hrep] at h1 h2
  simp only at h1 h2
  have htk : q.take (q.take limit).length = q.take limit := by
    rw [List.length_take]
    rcases Nat.le_total limit q.length with hle | hle
    · rw [Nat.min_eq_left hle]
    · rw [Nat.min_eq_right hle, List.take_length, List.take_of_length_le hle]
  rcases processMessages_spec hlt S.benign fuel h2 hb.handler with
    ⟨hk, _⟩ | ⟨w', s', ms, th, h3, h4, h5, h6, _⟩
  · exfalso
    have := hk.quiet_le hq
    have hle := RB.Holds.length_le h2.buf
    rw [← capacity_eq] at hle
    simp only at this hle
    omega
  · have hth := h5.no_throw hn
    subst hth
    obtain ⟨app, calls, cms, a1, a2, a3, a4, a5, a6, a7, _⟩ := h5.sound
    have hfed := h5.quiet hq
    rw [a1] at hfed
    have happ : app = [] := by simpa using hfed
    subst happ
    rw [List.append_nil] at a3 a1
    have hlen := final_length_lt hne (a7 rfl).1
    refine ⟨(q.take limit).length, r, w', s', ms, .returned (UInt8.ofNat ms.length), ?_, ?_,
      by simp; omega, ?_, ⟨h4, h6, ?_⟩, ?_, ?_, (a7 rfl).1, calls, a2, ?_⟩
    · exact h1 B S.arith
    · have := hp.avail q
      rw [List.length_take]
      simp only [limit, roundSize]
      omega
    · rw [htk]; exact h3 B S.arith
    · unfold capacity; omega
    · rw [a1, htk]
    · rw [htk]; exact a3
    · rw [a4, (a7 rfl).2]

theorem poll_rounds (S : Setting C B user) (hq : Quiet user) (hn : NeverThrows user)
    (hne : C.messages ≠ []) (hf : capacity C < fuel) {port : List Byte → Receiver.Device}
    (hp : GoodPort port) (as : List (List Byte)) : ∀ {w : World C} {s : AState},
    Between C w s → ∀ (q : List Byte) (D : List Msg), Run C s.fed D s.buf →
    s.trace.map seen = D.map (meaning C) → Final C s.buf →
    ∃ (w' : World C) (s' : AState) (q' : List Byte) (ms : List Msg),
      poll B user fuel port w q as = .ok (w', q') ∧ Between C w' s' ∧
      s'.fed ++ q' = s.fed ++ q ++ as.flatten ∧ Run C s'.fed ms s'.buf ∧
      s'.trace.map seen = ms.map (meaning C) ∧ Final C s'.buf ∧
      q'.length ≤ (q ++ as.flatten).length ∧
      (as.flatten = [] → q'.length ≤ q.length - roundSize C * as.length) := by
  induction as with
  | nil =>
    intro w s hb q D hr ht hfin
    exact ⟨w, s, q, D, rfl, hb, by simp, hr, ht, hfin, by simp, by simp⟩
  | cons a as ih =>
    intro w s hb q D hr ht hfin
    obtain ⟨n, r, w1, s1, ms, o, h1, h2, h2', h3, h4, h5, h6, h7, calls, h8, h9⟩ :=
      poll_round S hq hn hne hf hp hb (q ++ a)
    have hr1 : Run C s1.fed (D ++ ms) s1.buf := by
      rw [h5]
      exact (hr.append _).trans h6
    have ht1 : s1.trace.map seen = (D ++ ms).map (meaning C) := by
      rw [h8, List.map_append, ht, h9, List.map_append]
    obtain ⟨w', s', q', ms', g1, g2, g3, g4, g5, g6, g7, g8⟩ :=
      ih h4 ((q ++ a).drop n) (D ++ ms) hr1 ht1 h7
    refine ⟨w', s', q', ms', ?_, g2, ?_, g4, g5, g6, ?_, ?_⟩
    · simp [poll, h1, h3, g1]
    · rw [g3, h5]
      simp only [List.append_assoc, List.flatten_cons]
      rw [← List.append_assoc ((q ++ a).take n), List.take_append_drop]
      simp
    · simp only [List.length_append, List.length_drop, List.flatten_cons] at g7 ⊢
      omega
    · intro hnil
      simp only [List.flatten_cons, List.append_eq_nil_iff] at hnil
      have := g8 hnil.2
      rw [hnil.1, List.append_nil] at this h2 h2'
      simp only [List.length_drop, List.length_cons, Nat.mul_succ] at this ⊢
      omega

theorem between_new (hne : C.messages ≠ []) (h : Handler) :
    Between C (withHandler C h) { AState.new with handler := some h } := by
  refine ⟨⟨(abs_new C).buf, rfl, rfl, rfl, rfl, rfl⟩, rfl, ?_⟩
  have : 5 ≤ maxLen C := by
    unfold maxLen
    cases hm : C.messages with
    | nil => exact absurd hm hne
    | cons t ts =>
      have := overhead_pos C.envelope
      simp only [List.map_cons, List.foldr_cons]
      omega
  show 0 + _ + 1 ≤ capacity C
  unfold capacity
  omega

theorem poll_append (port : List Byte → Receiver.Device) (as bs : List (List Byte)) :
    ∀ (w : World C) (q : List Byte), poll B user fuel port w q (as ++ bs) = (do
      let (w, q) ← poll B user fuel port w q as
      poll B user fuel port w q bs) := by
  induction as with
  | nil => intro w q; rfl
  | cons a as ih =>
    intro w q
    simp only [List.cons_append, poll]
    cases w.rx.receiveFrom B (port (q ++ a)) with
    | error f => rfl
    | ok x =>
      obtain ⟨r, n⟩ := x
      simp only [ok_bind]
      cases World.processMessages B user fuel
          { w with rx := r, fed := w.fed ++ (q ++ a).take n } with
      | error f => rfl
      | ok y => simp [ih]

/-- C54. A program that polls a port (VRPN or Arduino) never fails and never loses, repeats or
reorders a byte: after any number of rounds with any arrivals, what was fed to the receiver followed
by what still waits in the port is everything that arrived, and the calls made are the complete
decoding of what was fed. -/
theorem C54_polling (S : Setting C B user) (hq : Quiet user) (hn : NeverThrows user)
    (hne : C.messages ≠ []) (hf : capacity C < fuel) {port : List Byte → Receiver.Device}
    (hp : GoodPort port) (h : Handler) (as : List (List Byte)) :
    ∃ (w : World C) (q : List Byte) (ms : List Msg),
      poll B user fuel port (withHandler C h) [] as = .ok (w, q) ∧
      w.fed ++ q = as.flatten ∧ Decodes C w.fed ms (buffered w) ∧
      delivered w = ms.map (meaning C) := by
  obtain ⟨w', s', q', ms, h1, h2, h3, h4, h5, h6, _, _⟩ :=
    poll_rounds S hq hn hne hf hp as (between_new hne h) [] [] (Run.refl _) rfl (Or.inl rfl)
  refine ⟨w', q', ms, h1, ?_, ?_, by rw [h2.abs.delivered, h5]⟩
  · rw [h2.abs.fed, h3]; simp [AState.new]
  · rw [h2.abs.fed, h2.abs.buffered]; exact ⟨h4, h6⟩

/-- C54 for the VRPN port. -/
theorem C54_vrpn (S : Setting C B user) (hq : Quiet user) (hn : NeverThrows user)
    (hne : C.messages ≠ []) (hf : capacity C < fuel) (h : Handler) (as : List (List Byte)) :
    ∃ (w : World C) (q : List Byte) (ms : List Msg),
      poll B user fuel vrpnPort (withHandler C h) [] as = .ok (w, q) ∧
      w.fed ++ q = as.flatten ∧ Decodes C w.fed ms (buffered w) ∧
      delivered w = ms.map (meaning C) := C54_polling S hq hn hne hf goodPort_vrpn h as

/-- C54 for the Arduino port. -/
theorem C54_arduino (S : Setting C B user) (hq : Quiet user) (hn : NeverThrows user)
    (hne : C.messages ≠ []) (hf : capacity C < fuel) (h : Handler) (as : List (List Byte)) :
    ∃ (w : World C) (q : List Byte) (ms : List Msg),
      poll B user fuel arduinoPort (withHandler C h) [] as = .ok (w, q) ∧
      w.fed ++ q = as.flatten ∧ Decodes C w.fed ms (buffered w) ∧
      delivered w = ms.map (meaning C) := C54_polling S hq hn hne hf goodPort_arduino h as

/-- C55. Polling catches up: each round takes at least `min(255, 2 * longest message + 1)` bytes, so
after enough further rounds nothing waits in the port and everything that arrived has been
decoded. -/
theorem C55_drains (S : Setting C B user) (hq : Quiet user) (hn : NeverThrows user)
    (hne : C.messages ≠ []) (hf : capacity C < fuel) {port : List Byte → Receiver.Device}
    (hp : GoodPort port) (h : Handler) (as : List (List Byte)) (k : Nat)
    (hk : as.flatten.length ≤ min 255 (2 * maxLen C + 1) * k) :
    ∃ (w : World C) (ms : List Msg),
      poll B user fuel port (withHandler C h) [] (as ++ List.replicate k []) = .ok (w, []) ∧
      Decodes C as.flatten ms (buffered w) ∧ delivered w = ms.map (meaning C) := by
  obtain ⟨w1, s1, q1, ms1, h1, h2, h3, h4, h5, h6, h7, _⟩ :=
    poll_rounds S hq hn hne hf hp as (between_new hne h) [] [] (Run.refl _) rfl (Or.inl rfl)
  obtain ⟨w2, s2, q2, ms2, g1, g2, g3, g4, g5, g6, _, g8⟩ :=
    poll_rounds S hq hn hne hf hp (List.replicate k []) h2 q1 ms1 h4 h5 h6
  have hflat : (List.replicate k ([] : List Byte)).flatten = [] := by simp
  have hq2 := g8 hflat
  simp only [List.length_replicate, List.nil_append] at hq2 h7
  have hnil : q2 = [] := by
    apply List.eq_nil_of_length_eq_zero
    unfold roundSize at hq2
    omega
  subst hnil
  refine ⟨w2, ms2, ?_, ?_, by rw [g2.abs.delivered, g5]⟩
  · rw [poll_append, h1]; exact g1
  · rw [hflat, List.append_nil, List.append_nil, h3] at g3
    simp only [AState.new, List.nil_append] at g3
    rw [← g3, g2.abs.buffered]
    exact ⟨g4, g6⟩

/-- C55. One round: whatever came before and whatever arrives, `receiveFrom` takes at least
`min(255, 2 * longest message + 1)` of the waiting bytes, or all of them. -/
theorem C55_round (S : Setting C B user) (hq : Quiet user) (hn : NeverThrows user)
    (hne : C.messages ≠ []) (hf : capacity C < fuel) {port : List Byte → Receiver.Device}
    (hp : GoodPort port) (h : Handler) (as : List (List Byte)) (a : List Byte) :
    ∃ (w w' : World C) (q taken q' : List Byte),
      poll B user fuel port (withHandler C h) [] as = .ok (w, q) ∧
      poll B user fuel port (withHandler C h) [] (as ++ [a]) = .ok (w', q') ∧
      q ++ a = taken ++ q' ∧ w'.fed = w.fed ++ taken ∧
      min (min 255 (2 * maxLen C + 1)) (q ++ a).length ≤ taken.length := by
  obtain ⟨w1, s1, q1, ms1, h1, h2, h3, h4, h5, h6, h7, _⟩ :=
    poll_rounds S hq hn hne hf hp as (between_new hne h) [] [] (Run.refl _) rfl (Or.inl rfl)
  obtain ⟨n, r, w2, s2, ms, o, g1, g2, g3, g4, g5, g6, _⟩ := poll_round S hq hn hne hf hp h2 (q1 ++ a)
  refine ⟨w1, w2, q1, (q1 ++ a).take n, (q1 ++ a).drop n, h1, ?_, by simp, ?_, ?_⟩
  · rw [poll_append, h1]
    simp [poll, g1, g4]
  · rw [g5.abs.fed, g6, h2.abs.fed]
  · unfold roundSize at g2
    rw [List.length_take]
    omega

/-- C55 for the two ports of the library: how much a round takes. -/
theorem C55_shipped_round (S : Setting C B user) (hq : Quiet user) (hn : NeverThrows user)
    (hne : C.messages ≠ []) (hf : capacity C < fuel) {port : List Byte → Receiver.Device}
    (hp : port = vrpnPort ∨ port = arduinoPort) (h : Handler) (as : List (List Byte)) (a : List Byte) :
    ∃ (w w' : World C) (q taken q' : List Byte),
      poll B user fuel port (withHandler C h) [] as = .ok (w, q) ∧
      poll B user fuel port (withHandler C h) [] (as ++ [a]) = .ok (w', q') ∧
      q ++ a = taken ++ q' ∧ w'.fed = w.fed ++ taken ∧
      min (min 255 (2 * maxLen C + 1)) (q ++ a).length ≤ taken.length := by
  rcases hp with rfl | rfl
  · exact C55_round S hq hn hne hf goodPort_vrpn h as a
  · exact C55_round S hq hn hne hf goodPort_arduino h as a

/-- C55 for the two ports of the library: they are drained. -/
theorem C55_shipped_drains (S : Setting C B user) (hq : Quiet user) (hn : NeverThrows user)
    (hne : C.messages ≠ []) (hf : capacity C < fuel) {port : List Byte → Receiver.Device}
    (hp : port = vrpnPort ∨ port = arduinoPort) (h : Handler) (as : List (List Byte)) (k : Nat)
    (hk : as.flatten.length ≤ min 255 (2 * maxLen C + 1) * k) :
    ∃ (w : World C) (ms : List Msg),
      poll B user fuel port (withHandler C h) [] (as ++ List.replicate k []) = .ok (w, []) ∧
      Decodes C as.flatten ms (buffered w) ∧ delivered w = ms.map (meaning C) := by
  rcases hp with rfl | rfl
  · exact C55_drains S hq hn hne hf goodPort_vrpn h as k hk
  · exact C55_drains S hq hn hne hf goodPort_arduino h as k hk

/-- A burst of 100 bytes into a port, a buffer of 36 bytes: four rounds to drain. -/
example : Setting Sample.basic Sample.dbg Sample.passive ∧ Quiet Sample.passive ∧
    NeverThrows Sample.passive ∧ Sample.basic.messages ≠ [] ∧ capacity Sample.basic < 50 ∧
    GoodPort vrpnPort ∧ GoodPort arduinoPort ∧
    [frames .basic (List.replicate 20 Sample.mPing)].flatten.length ≤
      min 255 (2 * maxLen Sample.basic + 1) * 4 :=
  ⟨Sample.setting_basic, Sample.passive_quiet, Sample.passive_neverThrows, by decide,
    by decide +kernel, goodPort_vrpn, goodPort_arduino, by decide +kernel⟩

end TT.Properties
