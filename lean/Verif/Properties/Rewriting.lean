import Verif.Proofs.RewriteEnvelope
import Verif.Properties.CustomSend

/-!
# Property about envelopes whose check changes the bytes in the receive buffer: C106
-/

namespace TT.Properties
open Spec

variable {C : Custom} {B : Build} {look : Look} {idle : Option Byte → Prop} {fuel : Nat} {ops : List Custom.COp}
  {w : C.World} {os : List (Option Byte)}

/-! ### C106 -/

/-- What the envelope has to guarantee: its check, begun with no message reported, looks for messages in the way `look`; it
reports only messages that are then there as a whole; a second check right after it reports the message again; and decisions
are not revised when more bytes arrive. -/
structure GoodLook (C : Custom) (look : Look) (idle : Option Byte → Prop) : Prop where
  performs : Performs C look idle
  proper : ProperLook C look
  repeatable : Repeatable C look
  online : OnlineLook look

/-- C106, safety. No legal history leads to an undefined operation, a failed assertion or an endless loop. Decisions may be
revised, and without assertions the second check does not matter. -/
theorem C106_safe (hi : Performs C look idle) (hp : ProperLook C look) (ha : Arith B (customCapacity C))
    (hs : B.debug = true → Repeatable C look) (hf : customCapacity C < fuel)
    (hl : (Custom.World.new C).Legal B fuel ops) :
    ∃ (w : C.World) (os : List (Option Byte)), Custom.Reached B fuel ops w os := by
  rw [← Custom.capacity_eq] at ha hf
  obtain ⟨w, os, _, e, _⟩ := Custom.run_look ha hi hp hs hf ops (Custom.holds_new C) hi.start hl
  exact ⟨w, os, hl, e⟩

/-- C106, polls. Every call of `processMessages` with a handler delivers what repeated looks at the buffered bytes give,
keeps the rest, and reports the number of messages and the last id. -/
theorem C106_process (hi : Performs C look idle) (hp : ProperLook C look) (ha : Arith B (customCapacity C))
    (hs : B.debug = true → Repeatable C look) (hf : customCapacity C < fuel) (h : Custom.Reached B fuel ops w os)
    {hd : Handler} (hh : w.handler = some hd) :
    ∃ (w' : C.World) (ms : List Msg) (r : List Byte), Finds C look w.buffered ms r ∧
      w.processMessages B fuel = .ok (w', UInt8.ofNat ms.length) ∧ w'.buffered = r ∧
      w'.trace = w.trace ++ ms.map (customCall C hd) ∧ w'.handler = w.handler ∧
      w'.lastMessageId = (if ms = [] then w.lastMessageId else (ms.map Msg.id).getLast?) := by
  rw [← Custom.capacity_eq] at ha hf
  obtain ⟨w1, os1, xs, e, hb, hid⟩ := Custom.run_look ha hi hp hs hf ops (Custom.holds_new C) hi.start h.legal
  rw [h.run] at e
  cases e
  have := hb.length_le
  obtain ⟨ms, r, w', hpar, e, hb', _, hha, hfed, htr, hlast⟩ :=
    Custom.processLoop_look ha.lt64 hi hp hs fuel (h := hd) 0 hb hid hh (by omega)
  refine ⟨w', ms, r, by rw [Custom.buffered_eq hb]; exact hpar, ?_, Custom.buffered_eq hb', htr, hha, hlast⟩
  simp [Custom.World.processMessages, hh, e]

/-- C106, streams. What has been delivered after a poll depends on the bytes received alone, not on how they were cut into
pieces and when the receiver was polled. -/
theorem C106_stream (G : GoodLook C look idle) (ha : Arith B (customCapacity C)) (hf : customCapacity C < fuel)
    (h : Custom.Reached B fuel (ops ++ [.process]) w os) (hh : w.handler ≠ none) :
    ∃ ms, Finds C look w.fed ms w.buffered ∧ w.trace.map seen = ms.map (customMeaning C) ∧
      (∀ ms' r', Finds C look w.fed ms' r' → ms' = ms ∧ r' = w.buffered) := by
  rw [← Custom.capacity_eq] at ha hf
  obtain ⟨v, os1, o, hl, hr, hst⟩ := Custom.run_split ops _ _ h.legal h.run
  obtain ⟨xs, ms, ht⟩ := Custom.run_follows ha G.performs G.proper G.online (fun _ => G.repeatable) hf ops
    (Custom.follows_new G.performs) hl hr
  obtain ⟨w', o', e, hid, hst'⟩ := Custom.step_look ha G.performs G.proper (fun _ => G.repeatable) hf ht.holds ht.idle_
    .process trivial
  rw [hst] at e
  cases e
  obtain ⟨hfed, hha, hrest⟩ := hst'
  cases hw : v.handler with
  | none => exact absurd (hha.trans hw) hh
  | some hd =>
    simp only [hw] at hrest
    obtain ⟨ns, r, hpar, hb, htr, _⟩ := hrest
    have hall : Finds C look w.fed (ms ++ ns) r := by
      rw [hfed]
      have := ht.rest (ys := []) (ns := ns) (q := r) (by simpa using hpar)
      simpa using this
    rw [Custom.buffered_eq hb]
    refine ⟨ms ++ ns, hall, ?_, fun ms' r' h' => Custom.reads_unique h' hall⟩
    have hc := ht.calls
    rw [htr, List.map_append, List.map_append, List.map_map]
    exact congr (congrArg _ hc) rfl

/-- `bytes` is what `send` makes of these contents, and it is looked at as the message with these contents. -/
def SentAs (C : Custom) (look : Look) (S : SendSide) (r : MsgType × List Value) (bytes : List Byte) : Prop :=
  C.send S r.1 vectorBuffer [] r.2 = some (.ok bytes) ∧
  ∃ m, Shows C look bytes m ∧ customMeaning C m = (r.1, r.2.map (·.bytes))

/-- C106, whole transmissions. Messages sent by a program with an envelope of its own, through any transmitter that takes
what it is given, to a receiver with this envelope: the handler is called for all of them, in order, and for nothing else. -/
theorem C106_end_to_end (G : GoodLook C look idle) (ha : Arith B (customCapacity C)) (hf : customCapacity C < fuel)
    (S : SendSide) {σ : Type} {T : Tx σ} {log : σ → List Byte} (hT : Faithful T log)
    (rs : List (MsgType × List Value)) (hrs : ∀ r ∈ rs, ∃ b, SentAs C look S r b) (s : σ) :
    ∃ s' bytes, C.sendAll S T s rs = some (.ok s') ∧ log s' = log s ++ bytes ∧
      ∀ (ops : List Custom.COp) (w : C.World) (os : List (Option Byte)),
        Custom.Reached B fuel (ops ++ [.process]) w os → w.handler ≠ none → w.fed = bytes →
        w.trace.map seen = rs.map (fun r => (r.1, r.2.map (·.bytes))) ∧ w.buffered = [] := by
  have key : ∀ (rs : List (MsgType × List Value)), (∀ r ∈ rs, ∃ b, SentAs C look S r b) → ∀ s : σ,
      ∃ (s' : σ) (ps : List (List Byte × Msg)), C.sendAll S T s rs = some (.ok s') ∧
        log s' = log s ++ (ps.map (·.1)).flatten ∧ (∀ p ∈ ps, Shows C look p.1 p.2) ∧
        (ps.map (·.2)).map (customMeaning C) = rs.map (fun r => (r.1, r.2.map (·.bytes))) := by
    intro rs
    induction rs with
    | nil => intro _ s; exact ⟨s, [], rfl, by simp, by simp, rfl⟩
    | cons r rs ih =>
      intro hrs s
      obtain ⟨b, hb, m, hm, hmean⟩ := hrs r (by simp)
      obtain ⟨s1, e1, e2⟩ := C105_same S hb hT s
      obtain ⟨s2, ps, e3, e4, h1, h2⟩ := ih (fun r' hr' => hrs r' (by simp [hr'])) s1
      refine ⟨s2, (b, m) :: ps, by simp [Custom.sendAll, e1, e3], by rw [e4, e2]; simp, ?_, by simp [hmean]; simpa using h2⟩
      intro p hp
      rcases List.mem_cons.mp hp with rfl | hp
      · exact hm
      · exact h1 p hp
  obtain ⟨s', ps, e1, e2, h1, h2⟩ := key rs hrs s
  refine ⟨s', _, e1, e2, fun ops w os h hh hfed => ?_⟩
  obtain ⟨ms, _, htr, huniq⟩ := C106_stream G ha hf h hh
  have hread := Custom.reads_shown G.proper ps h1 (Finds.stop (Custom.look_nil G.proper))
  rw [List.append_nil, List.append_nil, ← hfed] at hread
  obtain ⟨rfl, hr⟩ := huniq _ _ hread
  exact ⟨by rw [htr, h2], hr.symm⟩

/-- Looking by scanning: the bytes skipped are dropped, and nothing else is changed. -/
def plainLook (scan : Scan) : Look := fun xs => (xs.drop (scan xs).1, (scan xs).2)

theorem plain_good {scan : Scan} (G : GoodEnvelope C scan) :
    GoodLook C (plainLook scan) (fun _ => True) ∧ ∀ s ms r, Finds C (plainLook scan) s ms r ↔ Parses C scan s ms r := by
  unfold plainLook
  refine ⟨⟨⟨trivial, ?_, ?_⟩, ⟨G.proper.overhead, G.proper.offset, ?_, ?_⟩, ?_,
    ⟨?_, ?_⟩⟩, ?_⟩
  · intro xs cur ys id hl _ hx
    simp only [Prod.mk.injEq] at hx
    obtain ⟨cur', e, hc⟩ := G.implements_ xs cur hl
    rw [hx.2] at e hc
    rw [e, hc rfl, hx.1]
    rfl
  · intro xs cur ys hl _ hx
    simp only [Prod.mk.injEq] at hx
    obtain ⟨cur', e, hc⟩ := G.implements_ xs cur hl
    rw [hx.2] at e
    exact ⟨cur', trivial, by rw [e, hx.1]; rfl⟩
  · intro xs
    simp
  · intro xs ys id hx
    simp only [Prod.mk.injEq] at hx
    obtain ⟨k, hk, hle⟩ := G.proper.whole xs (scan xs).1 id (Prod.ext rfl hx.2)
    exact ⟨k, hk, by rw [← hx.1]; simp; omega⟩
  · intro xs ys id hl hx
    simp only [Prod.mk.injEq] at hx
    have hset := G.settled xs (scan xs).1 id (Prod.ext rfl hx.2)
    rw [hx.1] at hset
    obtain ⟨cur', e, hc⟩ := G.implements_ ys (some id) (by rw [← hx.1]; simp; omega)
    rw [hset] at e hc
    refine ⟨ys, by rw [e, hc rfl]; simp, rfl, fun _ _ => rfl⟩
  · intro xs zs ys id hx
    simp only [Prod.mk.injEq] at hx
    have := G.online.found xs zs (scan xs).1 id (Prod.ext rfl hx.2)
    simp only [this, Prod.mk.injEq, and_true]
    rw [List.drop_append_of_le_length (G.proper.within xs), hx.1]
  · intro xs zs ys hx
    simp only [Prod.mk.injEq] at hx
    have := G.online.skipped xs zs (scan xs).1 (Prod.ext rfl hx.2)
    rw [hx.1] at this
    simp only [this, Prod.mk.injEq, and_true]
    rw [← List.drop_drop, List.drop_append_of_le_length (G.proper.within xs), hx.1]
  · intro s ms r
    constructor
    · intro h
      induction h with
      | stop hx =>
        simp only [Prod.mk.injEq] at hx
        rw [← hx.1]
        exact Parses.stop (Prod.ext rfl hx.2)
      | take hx ht _ ih =>
        simp only [Prod.mk.injEq] at hx
        rw [← hx.1, List.drop_drop] at ih ⊢
        exact Parses.take (Prod.ext rfl hx.2) ht ih
    · intro h
      induction h with
      | @stop s n hx => exact Finds.stop (by simp [hx])
      | @take s r n id t ms hx ht _ ih =>
        rw [← List.drop_drop] at ih ⊢
        exact Finds.take (by simp [hx]) ht ih

/-- C106, envelopes that do not change the bytes. Those of C84 are of this kind, and looking again and again gives the same
as scanning again and again. -/
theorem C106_plain {scan : Scan} (G : GoodEnvelope C scan) :
    ∃ look : Look, GoodLook C look (fun _ => True) ∧ ∀ s ms r, Finds C look s ms r ↔ Parses C scan s ms r :=
  ⟨plainLook scan, plain_good G⟩

/-- C106, every way of looking can be programmed. Whatever the message types and the way of looking, as long as it makes no
bytes, reports only whole messages and does not revise decisions: there is an envelope for it, which uses that the message id
stays set until the message is popped. -/
theorem C106_any (types : List MsgType) (overhead dataOffset : Nat)
    (hp : ProperLook ⟨types, overhead, dataOffset, Demo.decoding look⟩ look) (ho : OnlineLook look) :
    GoodLook ⟨types, overhead, dataOffset, Demo.decoding look⟩ look (· = none) :=
  ⟨Demo.decoding_performs rfl hp, hp, Demo.decoding_repeatable rfl, ho⟩

/-! #### Escaping -/

theorem stuffed_good (types : List MsgType) : GoodLook (Stuffed.envelope types) (Stuffed.look types) (· = none) :=
  ⟨Stuffed.envelope_performs types, Stuffed.look_proper types, Stuffed.envelope_repeatable types, Stuffed.look_online types⟩

/-- C106, escaping is possible. There is an envelope for every collection of message types which never sends the byte 0x7E
inside a message, and with which nothing that happened on the line before matters: after any bytes `g`, all messages sent
arrive, in order, after what is delivered for `g` alone. -/
theorem C106_escaping (types : List MsgType) (ha : Arith B (customCapacity (Stuffed.envelope types)))
    (hf : customCapacity (Stuffed.envelope types) < fuel) :
    (∀ m : Msg, ∃ rest, Stuffed.enc m = 0x7E :: rest ∧ 0x7E ∉ rest) ∧
    ∀ g : List Byte, ∃ old : List (MsgType × List (List Byte)),
      ∀ (ns : List Msg), (∀ m ∈ ns, ∃ t, types[m.id.toNat]? = some t ∧ m.payload.length = payloadSize t) →
      ∀ (ops : List Custom.COp) (w : (Stuffed.envelope types).World) (os : List (Option Byte)),
        Custom.Reached B fuel (ops ++ [.process]) w os → w.handler ≠ none → w.fed = g ++ (ns.map Stuffed.enc).flatten →
        w.trace.map seen = old ++ ns.map (customMeaning (Stuffed.envelope types)) := by
  refine ⟨fun m => ⟨_, rfl, Stuffed.flag_not_stuffed _⟩, fun g => ?_⟩
  obtain ⟨ms, r, hg⟩ := Custom.reads_exists (Stuffed.look_proper types) g
  refine ⟨ms.map (customMeaning (Stuffed.envelope types)), fun ns hns ops w os h hh hfed => ?_⟩
  obtain ⟨ks, _, htr, huniq⟩ := C106_stream (stuffed_good types) ha hf h hh
  have := Stuffed.reads_after types hg hns
  rw [← hfed] at this
  obtain ⟨rfl, -⟩ := huniq _ _ this
  rw [htr, List.map_append]

/-- The sending side of the stuffing envelope. -/
def stuffSend : SendSide where
  α := Unit
  own := ⟨fun _ _ => .ok (), fun _ _ => .ok (), fun _ => .ok ()⟩
  initial := ()
  code := fun id vs => .byte false 0x7E <| .block false ((id :: payloadOf vs).flatMap Stuffed.stuff) .done

theorem stuffed_sent (types : List MsgType) {r : MsgType × List Value} (hl : types.length ≤ 255) (ht : r.1 ∈ types)
    (hv : r.2.map (·.ty) = r.1.fields) (hfit : ∀ v ∈ r.2, Value.Fits v) :
    (Stuffed.envelope types).send stuffSend r.1 vectorBuffer [] r.2 =
      some (.ok (Stuffed.enc ⟨UInt8.ofNat (types.idxOf r.1), payloadOf r.2⟩)) ∧
    SentAs (Stuffed.envelope types) (Stuffed.look types) stuffSend r
      (Stuffed.enc ⟨UInt8.ofNat (types.idxOf r.1), payloadOf r.2⟩) := by
  obtain ⟨h1, h2⟩ := C105_call (C := Stuffed.envelope types) stuffSend r.1 vectorBuffer [] r.2
  have hsend : (Stuffed.envelope types).send stuffSend r.1 vectorBuffer [] r.2 =
      some (.ok (Stuffed.enc ⟨UInt8.ofNat (types.idxOf r.1), payloadOf r.2⟩)) := by
    rw [h2 (h1.mpr ⟨hl, ht, hv⟩)]
    rfl
  have hid : types[(UInt8.ofNat (types.idxOf r.1)).toNat]? = some r.1 := by
    have hlt := List.idxOf_lt_length_of_mem ht
    have e : (UInt8.ofNat (types.idxOf r.1)).toNat = types.idxOf r.1 := by simp; omega
    rw [e]
    simp [hlt]
  refine ⟨hsend, hsend, _, Stuffed.shows_enc (t := r.1) hid ?_, ?_⟩
  · show (payloadOf r.2).length = _
    unfold payloadOf payloadSize
    rw [← hv, List.length_flatten, List.map_map, List.map_map]
    congr 1
    exact List.map_congr_left fun v hvm => hfit v hvm
  · have hty : typeAt (Stuffed.envelope types) (UInt8.ofNat (types.idxOf r.1)) = some r.1 := hid
    simp only [customMeaning, hty, Option.getD_some]
    rw [← hv, splitFields_payloadOf hfit]

/-- C106, whole transmissions with escaping. Whatever values are sent with this envelope, through any transmitter that takes
what it is given, arrive, in order, and nothing else does. -/
theorem C106_escaped_transmission (types : List MsgType) (hl : types.length ≤ 255)
    (ha : Arith B (customCapacity (Stuffed.envelope types))) (hf : customCapacity (Stuffed.envelope types) < fuel)
    {σ : Type} {T : Tx σ} {log : σ → List Byte} (hT : Faithful T log) (rs : List (MsgType × List Value))
    (hrs : ∀ r ∈ rs, r.1 ∈ types ∧ r.2.map (·.ty) = r.1.fields ∧ ∀ v ∈ r.2, Value.Fits v) (s : σ) :
    ∃ s' bytes, (Stuffed.envelope types).sendAll stuffSend T s rs = some (.ok s') ∧ log s' = log s ++ bytes ∧
      ∀ (ops : List Custom.COp) (w : (Stuffed.envelope types).World) (os : List (Option Byte)),
        Custom.Reached B fuel (ops ++ [.process]) w os → w.handler ≠ none → w.fed = bytes →
        w.trace.map seen = rs.map (fun r => (r.1, r.2.map (·.bytes))) ∧ w.buffered = [] :=
  C106_end_to_end (stuffed_good types) ha hf stuffSend hT rs
    (fun r hr => ⟨_, (stuffed_sent types hl (hrs r hr).1 (hrs r hr).2.1 (hrs r hr).2.2).2⟩) s

/-- C106, joining in the middle. A receiver with this envelope that misses any number of bytes at the beginning gets exactly
the messages that begin after that, and no others. -/
theorem C106_join (types : List MsgType) (ha : Arith B (customCapacity (Stuffed.envelope types)))
    (hf : customCapacity (Stuffed.envelope types) < fuel) {ms : List Msg}
    (hms : ∀ m ∈ ms, ∃ t, types[m.id.toNat]? = some t ∧ m.payload.length = payloadSize t) {missed s : List Byte}
    (hcut : (ms.map Stuffed.enc).flatten = missed ++ s) :
    ∃ before after, ms = before ++ after ∧ missed.length ≤ (before.map Stuffed.enc).flatten.length ∧
      (before = [] ∨ (before.dropLast.map Stuffed.enc).flatten.length < missed.length) ∧
      ∀ (ops : List Custom.COp) (w : (Stuffed.envelope types).World) (os : List (Option Byte)),
        Custom.Reached B fuel (ops ++ [.process]) w os → w.handler ≠ none → w.fed = s →
        w.trace.map seen = after.map (customMeaning (Stuffed.envelope types)) ∧ w.buffered = [] := by
  have key : ∀ (ms : List Msg) (missed s : List Byte), (ms.map Stuffed.enc).flatten = missed ++ s →
      ∃ before after tail, ms = before ++ after ∧ missed.length ≤ (before.map Stuffed.enc).flatten.length ∧
        (before = [] ∨ (before.dropLast.map Stuffed.enc).flatten.length < missed.length) ∧
        s = tail ++ (after.map Stuffed.enc).flatten ∧ Stuffed.flag ∉ tail := by
    intro ms
    induction ms with
    | nil =>
      intro missed s h
      simp only [List.map_nil, List.flatten_nil] at h
      have h' := List.append_eq_nil_iff.mp h.symm
      exact ⟨[], [], [], rfl, by simp [h'.1], Or.inl rfl, by simp [h'.2], by simp⟩
    | cons m ms ih =>
      intro missed s h
      simp only [List.map_cons, List.flatten_cons] at h
      rcases Nat.eq_zero_or_pos missed.length with h0 | hpos
      · have hm : missed = [] := by simpa using h0
        subst hm
        exact ⟨[], m :: ms, [], rfl, by simp, Or.inl rfl, by simpa using h.symm, by simp⟩
      · by_cases hle : missed.length ≤ (Stuffed.enc m).length
        · have e1 : missed = (Stuffed.enc m).take missed.length := by
            have := congrArg (List.take missed.length) h
            rw [List.take_append_of_le_length hle] at this
            simpa using this.symm
          have e2 : s = (Stuffed.enc m).drop missed.length ++ (ms.map Stuffed.enc).flatten := by
            have := congrArg (List.drop missed.length) h
            rw [List.drop_append_of_le_length hle] at this
            simpa using this.symm
          refine ⟨[m], ms, _, rfl, by simpa using hle, Or.inr (by simpa using hpos), e2, ?_⟩
          obtain ⟨k, hk⟩ : ∃ k, missed.length = k + 1 := ⟨missed.length - 1, by omega⟩
          rw [hk, Stuffed.enc, List.drop_succ_cons]
          exact fun hin => Stuffed.flag_not_stuffed _ (List.mem_of_mem_drop hin)
        · have e1 : missed = Stuffed.enc m ++ missed.drop (Stuffed.enc m).length := by
            have := congrArg (List.take (Stuffed.enc m).length) h
            rw [List.take_left, List.take_append_of_le_length (by omega)] at this
            conv => lhs; rw [← List.take_append_drop (Stuffed.enc m).length missed]
            rw [← this]
          rw [e1, List.append_assoc, List.append_cancel_left_eq] at h
          obtain ⟨before, after, tail, k1, k2, k3, k4, k5⟩ := ih _ _ h
          refine ⟨m :: before, after, tail, by rw [k1]; rfl, ?_, Or.inr ?_, k4, k5⟩
          · rw [e1]
            simp only [List.length_append, List.map_cons, List.flatten_cons] at k2 ⊢
            omega
          · cases before with
            | nil => simp; omega
            | cons b bs =>
              rcases k3 with k3 | k3
              · cases k3
              · rw [e1]
                simp only [List.dropLast_cons_cons, List.map_cons, List.flatten_cons, List.length_append] at k3 ⊢
                omega
  obtain ⟨before, after, tail, k1, k2, k3, k4, k5⟩ := key ms missed s hcut
  refine ⟨before, after, k1, k2, k3, fun ops w os h hh hfed => ?_⟩
  obtain ⟨ks, _, htr, huniq⟩ := C106_stream (stuffed_good types) ha hf h hh
  have htail : Finds (Stuffed.envelope types) (Stuffed.look types) tail [] [] := by
    have := Stuffed.look_skip (types := types) k5 []
    rw [List.append_nil] at this
    exact Finds.stop (this.trans rfl)
  have := Stuffed.reads_after types htail (ns := after) (fun m hm => hms m (by rw [k1]; simp [hm]))
  rw [← k4, ← hfed] at this
  obtain ⟨rfl, hr⟩ := huniq _ _ this
  refine ⟨by rw [htr]; simp, ?_⟩
  rw [← hr]
  split <;> rfl

/-- C106, progress. After a poll with a handler there is room for at least one of the longest messages, whatever was
received, so that the receiver never gets stuck. -/
theorem C106_progress (types : List MsgType) (ha : Arith B (customCapacity (Stuffed.envelope types)))
    (hf : customCapacity (Stuffed.envelope types) < fuel) {ops : List Custom.COp} {w : (Stuffed.envelope types).World}
    {os : List (Option Byte)} (h : Custom.Reached B fuel (ops ++ [.process]) w os) (hh : w.handler ≠ none)
    {t : MsgType} (ht : t ∈ types) : w.buffered.length + (2 + payloadSize t) ≤ customCapacity (Stuffed.envelope types) := by
  obtain ⟨ms, hr, -, -⟩ := C106_stream (stuffed_good types) ha hf h hh
  have hlast : ∃ s, Stuffed.look types s = (w.buffered, none) := by
    generalize w.fed = f at hr
    generalize w.buffered = r at hr
    induction hr with
    | @stop s r hx => exact ⟨s, hx⟩
    | take _ _ _ ih => exact ih
  obtain ⟨s, hs⟩ := hlast
  have hmem : ∀ u ∈ types, 3 * (2 + payloadSize u) ≤ customCapacity (Stuffed.envelope types) := by
    intro u hu
    have : ∀ (l : List MsgType), u ∈ l → 2 + payloadSize u ≤ (l.map fun t => 2 + payloadSize t).foldr max 0 := by
      intro l
      induction l with
      | nil => intro h; cases h
      | cons a l ih =>
        intro h
        simp only [List.map_cons, List.foldr_cons]
        rcases List.mem_cons.mp h with rfl | h
        · exact Nat.le_max_left _ _
        · exact Nat.le_trans (ih h) (Nat.le_max_right _ _)
    have := this types hu
    show _ ≤ 3 * ((types.map fun t => 2 + payloadSize t).foldr max 0)
    omega
  have h1 := hmem t ht
  rcases Stuffed.look_rest hs with e | ⟨q, e, hq⟩
  · rw [e]; simp; omega
  · rw [e]
    obtain ⟨-, -, h2⟩ := Stuffed.message_need hq []
    simp only [List.length_cons]
    rcases h2 with h2 | ⟨u, hu, h2⟩
    · omega
    · have := hmem u hu
      by_cases hc : payloadSize u ≤ payloadSize t
      · omega
      · omega

/-! #### What goes wrong -/

/-- Stuffed messages with one field, decoded by a check that does not remember what it has decoded. -/
def forgetfulStuffed : Custom := ⟨[⟨0, [.uint8]⟩], 2, 2, Demo.forgetful (Stuffed.look [⟨0, [.uint8]⟩])⟩

/-- C106, decoding in place without remembering it. The check looks for messages as it should, reports only whole messages
and does not revise decisions, and messages arrive in builds without assertions. In builds with assertions `popMessage` calls
the check a second time, which takes the decoded contents for stuffed ones, and the program stops. -/
theorem C106_repeatable_witness :
    Performs forgetfulStuffed (Stuffed.look [⟨0, [.uint8]⟩]) (fun _ => True) ∧
    ProperLook forgetfulStuffed (Stuffed.look [⟨0, [.uint8]⟩]) ∧ OnlineLook (Stuffed.look [⟨0, [.uint8]⟩]) ∧
    ¬ Repeatable forgetfulStuffed (Stuffed.look [⟨0, [.uint8]⟩]) ∧
    Stuffed.enc ⟨0, [0x7E]⟩ = [0x7E, 0x00, 0x7D, 0x5E] ∧
    (∃ w os, Custom.Reached (C := forgetfulStuffed) ⟨false, 32⟩ 20
      [.setHandler ⟨.functor, 0⟩, .append [0x7E, 0x00, 0x7D, 0x5E], .process] w os ∧
      w.trace = [⟨⟨.functor, 0⟩, ⟨0, [.uint8]⟩, [[0x7E]]⟩]) ∧
    (Custom.World.new forgetfulStuffed).Legal ⟨true, 32⟩ 20
      [.setHandler ⟨.functor, 0⟩, .append [0x7E, 0x00, 0x7D, 0x5E], .process] ∧
    (Custom.World.new forgetfulStuffed).run ⟨true, 32⟩ 20
      [.setHandler ⟨.functor, 0⟩, .append [0x7E, 0x00, 0x7D, 0x5E], .process] = .error .abort := by
  have hp0 := Stuffed.look_proper [⟨0, [.uint8]⟩]
  have hp : ProperLook forgetfulStuffed (Stuffed.look [⟨0, [.uint8]⟩]) :=
    ⟨hp0.overhead, hp0.offset, hp0.shrinks, hp0.whole⟩
  refine ⟨Demo.forgetful_performs rfl hp, hp, Stuffed.look_online _, ?_, by decide +kernel, ?_,
    legalB_sound (by decide +kernel), ?_⟩
  · intro h
    obtain ⟨zs, e, -⟩ := h [0x7E, 0x00, 0x7D, 0x5E] [0x7E, 0x00, 0x7E] 0 (by decide +kernel) (by decide +kernel)
    have : effect forgetfulStuffed forgetfulStuffed.code [0x7E, 0x00, 0x7E] (some 0) = some ([0x7E], some 0, false) := by
      decide +kernel
    rw [this] at e
    cases e
  · obtain ⟨w, os, h, e⟩ := reachedB (C := forgetfulStuffed) (B := ⟨false, 32⟩) (fuel := 20)
      (ops := [.setHandler ⟨.functor, 0⟩, .append [0x7E, 0x00, 0x7D, 0x5E], .process])
      (fun w => decide (w.trace = [⟨⟨.functor, 0⟩, ⟨0, [.uint8]⟩, [[0x7E]]⟩])) (by decide +kernel)
    exact ⟨w, os, h, by simpa using e⟩
  · have h : (match (Custom.World.new forgetfulStuffed).run ⟨true, 32⟩ 20
        [.setHandler ⟨.functor, 0⟩, .append [0x7E, 0x00, 0x7D, 0x5E], .process] with
      | .error .abort => true
      | _ => false) = true := by decide +kernel
    revert h
    generalize (Custom.World.new forgetfulStuffed).run ⟨true, 32⟩ 20
      [.setHandler ⟨.functor, 0⟩, .append [0x7E, 0x00, 0x7D, 0x5E], .process] = x
    match x with
    | .ok _ => intro h; cases h
    | .error .ub => intro h; cases h
    | .error .diverge => intro h; cases h
    | .error .abort => intro _; rfl

/-- C106, handlers that throw. An envelope that removes a mask from the contents whenever it is called meets all the
conditions, so that with quiet handlers all is well in every build. If a handler throws, the message stays in the buffer with
its contents decoded; the next check decodes them again, and the handler gets contents that nobody sent. -/
theorem C106_throw_witness :
    GoodLook Demo.unmasking Demo.masked (fun _ => True) ∧
    ∀ d : Bool, ∃ (p : CPlay Demo.unmasking) (os : List (Option Outcome)), CPlayed ⟨d, 32⟩
      [.setHandler ⟨.functor, 0⟩, .append [0xAA, 0x00, 0x52], .process, .throw, .process, .finish] p os ∧
      p.world.trace.map seen = [(⟨0, [.uint8]⟩, [[0x07]]), (⟨0, [.uint8]⟩, [[0x52]])] ∧
      p.returned.map seen = [(⟨0, [.uint8]⟩, [[0x52]])] := by
  refine ⟨⟨Demo.forgetful_performs rfl Demo.masked_proper, Demo.masked_proper, Demo.masked_repeatable, Demo.masked_online⟩,
    fun d => ?_⟩
  obtain ⟨p, os, h, e⟩ := cplayed_check (C := Demo.unmasking) (B := ⟨d, 32⟩)
    (ms := [.setHandler ⟨.functor, 0⟩, .append [0xAA, 0x00, 0x52], .process, .throw, .process, .finish])
    (P := fun p _ => decide (p.world.trace.map seen = [(⟨0, [.uint8]⟩, [[0x07]]), (⟨0, [.uint8]⟩, [[0x52]])] ∧
      p.returned.map seen = [(⟨0, [.uint8]⟩, [[0x52]])])) (by cases d <;> decide +kernel)
  simp only [decide_eq_true_eq] at e
  exact ⟨p, os, h, e.1, e.2⟩

/-! #### Instances -/

/-- Two message types. -/
def stuffedTypes : List MsgType := [⟨0, [.uint8]⟩, ⟨1, [.uint8, .pod 0 2]⟩]

/-- The hypotheses of C106_escaped_transmission hold. -/
example : stuffedTypes.length ≤ 255 ∧
    ∀ r ∈ ([(⟨0, [.uint8]⟩, [⟨.uint8, [0x7E]⟩]), (⟨1, [.uint8, .pod 0 2]⟩, [⟨.uint8, [5]⟩, ⟨.pod 0 2, [0x7D, 7]⟩])] :
      List (MsgType × List Value)), r.1 ∈ stuffedTypes ∧ r.2.map (·.ty) = r.1.fields ∧ ∀ v ∈ r.2, Value.Fits v := by
  unfold Value.Fits
  decide +kernel

/-- The hypotheses of C106_end_to_end hold, for messages with flags and escapes in their contents. -/
example : GoodLook (Stuffed.envelope stuffedTypes) (Stuffed.look stuffedTypes) (· = none) ∧
    Arith ⟨true, 32⟩ (customCapacity (Stuffed.envelope stuffedTypes)) ∧ Faithful vectorBuffer (fun s => s) ∧
    ∀ r ∈ ([(⟨0, [.uint8]⟩, [⟨.uint8, [0x7E]⟩]), (⟨1, [.uint8, .pod 0 2]⟩, [⟨.uint8, [5]⟩, ⟨.pod 0 2, [0x7D, 7]⟩])] :
      List (MsgType × List Value)), ∃ b, SentAs (Stuffed.envelope stuffedTypes) (Stuffed.look stuffedTypes) stuffSend r b := by
  refine ⟨stuffed_good _, ⟨by decide +kernel, by decide +kernel⟩, vectorBuffer_faithful, ?_⟩
  intro r hr
  simp only [List.mem_cons, List.not_mem_nil, or_false] at hr
  rcases hr with rfl | rfl
  · exact ⟨[0x7E, 0, 0x7D, 0x5E], rfl, ⟨0, [0x7E]⟩, Stuffed.shows_enc (m := ⟨0, [0x7E]⟩) (t := ⟨0, [.uint8]⟩) rfl rfl, rfl⟩
  · exact ⟨[0x7E, 1, 5, 0x7D, 0x5D, 7], rfl, ⟨1, [5, 0x7D, 7]⟩,
      Stuffed.shows_enc (m := ⟨1, [5, 0x7D, 7]⟩) (t := ⟨1, [.uint8, .pod 0 2]⟩) rfl rfl, rfl⟩

/-- The hypotheses of C106_safe, C106_process, C106_stream, C106_escaping and C106_progress hold: a message cut off in its
middle, a message with a flag in its contents, and the beginning of another one, in pieces. -/
example : Arith ⟨true, 32⟩ (customCapacity (Stuffed.envelope stuffedTypes)) ∧
    customCapacity (Stuffed.envelope stuffedTypes) < 20 ∧
    ∃ (w : (Stuffed.envelope stuffedTypes).World) (os : List (Option Byte)),
    Custom.Reached ⟨true, 32⟩ 20 ([.setHandler ⟨.functor, 0⟩, .append [0x7E, 0x01, 0x05, 0x7D], .process,
      .append [0x7E, 0x00, 0x7D], .process, .append [0x5E, 0x7E, 0x01]] ++ [.process]) w os ∧ w.handler ≠ none ∧
    w.fed = [0x7E, 0x01, 0x05, 0x7D] ++ ([⟨0, [0x7E]⟩].map Stuffed.enc).flatten ++ [0x7E, 0x01] ∧
    w.trace.map seen = [(⟨0, [.uint8]⟩, [[0x7E]])] ∧ w.buffered = [0x7E, 0x01] := by
  refine ⟨⟨by decide +kernel, by decide +kernel⟩, by decide +kernel, ?_⟩
  obtain ⟨w, os, h, e⟩ := reachedB (C := Stuffed.envelope stuffedTypes) (B := ⟨true, 32⟩) (fuel := 20)
    (ops := [.setHandler ⟨.functor, 0⟩, .append [0x7E, 0x01, 0x05, 0x7D], .process,
      .append [0x7E, 0x00, 0x7D], .process, .append [0x5E, 0x7E, 0x01]] ++ [.process])
    (fun w => decide (w.handler ≠ none ∧ w.fed = [0x7E, 0x01, 0x05, 0x7D] ++ ([⟨0, [0x7E]⟩].map Stuffed.enc).flatten ++
      [0x7E, 0x01] ∧ w.trace.map seen = [(⟨0, [.uint8]⟩, [[0x7E]])] ∧ w.buffered = [0x7E, 0x01])) (by decide +kernel)
  exact ⟨w, os, h, of_decide_eq_true e⟩

/-- The hypotheses of C106_join hold: the first three bytes are missed. -/
example : (∀ m ∈ ([⟨1, [5, 0x7E, 7]⟩, ⟨0, [0x7D]⟩] : List Msg),
      ∃ t, stuffedTypes[m.id.toNat]? = some t ∧ m.payload.length = payloadSize t) ∧
    (([⟨1, [5, 0x7E, 7]⟩, ⟨0, [0x7D]⟩] : List Msg).map Stuffed.enc).flatten =
      [0x7E, 0x01, 0x05] ++ [0x7D, 0x5E, 0x07, 0x7E, 0x00, 0x7D, 0x5D] := by
  refine ⟨?_, by decide +kernel⟩
  intro m hm
  simp only [List.mem_cons, List.not_mem_nil, or_false] at hm
  rcases hm with rfl | rfl
  · exact ⟨⟨1, [.uint8, .pod 0 2]⟩, rfl, rfl⟩
  · exact ⟨⟨0, [.uint8]⟩, rfl, rfl⟩

/-- The hypotheses of C106_plain and C106_any hold. -/
example : GoodEnvelope (Demo.demo false false) (Demo.scan false false) ∧
    ProperLook ⟨stuffedTypes, 2, 2, Demo.decoding (Stuffed.look stuffedTypes)⟩ (Stuffed.look stuffedTypes) ∧
    OnlineLook (Stuffed.look stuffedTypes) := ⟨demo_good, Stuffed.look_proper _, Stuffed.look_online _⟩

end TT.Properties
