import Verif.Properties.Peers
import Verif.Properties.Receiver

/-!
# Property about which collections can be used on the two sides of a line: C101
-/

namespace TT.Properties
open Spec

variable {C C' : Collection} {B : Build}

/-! ### C101 -/

/-- Two lists of the same length, related element by element. -/
def Matches {α β : Type} (good : α → β → Prop) (xs : List α) (ys : List β) : Prop :=
  xs.length = ys.length ∧ ∀ (i : Nat) (x : α) (y : β), xs[i]? = some x → ys[i]? = some y → good x y

/-- Whatever messages are sent with `C`, a receiver with `C'` that is given their bytes, in any legal way, and then polled has
called its handler once for each of them, in order, with what `good` asks for. -/
def Understood (C C' : Collection) (B : Build) (good : Request → MsgType × List (List Byte) → Prop) : Prop :=
  ∀ (rs : List Request) (bytes : List Byte), (∀ r ∈ rs, r.Good C) → sendAll vectorBuffer [] rs = some (.ok bytes) →
    ∀ (user : UserCode) (fuel : Nat) (ops : List Op) (w : World C') (os : List Obs), BenignUser user → NeverThrows user →
      Reached B user fuel (ops ++ [.process]) w os → w.rx.hasHandler = true → w.fed = bytes → Matches good rs (delivered w)

/-- The types that `send` gives the same id in both collections are in the relation `ok`. -/
def Agree (C C' : Collection) (ok : MsgType → MsgType → Prop) : Prop :=
  C.envelope = C'.envelope ∧ ∀ t ∈ C.messages, ∃ t', C'.messages[C.messages.idxOf t]? = some t' ∧ ok t t'

theorem sent_bytes {rs : List Request} (hrs : ∀ r ∈ rs, r.Good C) {bytes : List Byte}
    (h : sendAll vectorBuffer [] rs = some (.ok bytes)) : bytes = frames C.envelope (rs.map Request.msg) := by
  obtain ⟨s', h1, h2⟩ := sendAll_faithful vectorBuffer_faithful rs hrs []
  rw [h] at h1
  cases h1
  simpa using h2

theorem idx_toNat {t : MsgType} (hl : C.messages.length ≤ 255) (ht : t ∈ C.messages) :
    (UInt8.ofNat (C.messages.idxOf t)).toNat = C.messages.idxOf t := by
  have := List.idxOf_lt_length_of_mem ht
  simp; omega

/-- If the ids and sizes agree, everything is delivered as what it is for the receiver. -/
theorem agree_arrives {ok : MsgType → MsgType → Prop} {good : Request → MsgType × List (List Byte) → Prop}
    (ha : Arith B (recvBufferSize C')) (h : Agree C C' ok) (hsz : ∀ t t', ok t t' → payloadSize t' = payloadSize t)
    (hg : ∀ (r : Request) (t' : MsgType), r.Good C → ok r.t t' → C'.messages[C.messages.idxOf r.t]? = some t' →
      good r (t', splitFields t'.fields (payloadOf r.vs))) : Understood C C' B good := by
  intro rs bytes hrs hs user fuel ops w os hu hn hr hh hf
  rw [sent_bytes hrs hs, h.1] at hf
  have key : ∀ r ∈ rs, IsMsg C' r.msg ∧ good r (meaning C' r.msg) := by
    intro r hmem
    have hgood := hrs r hmem
    obtain ⟨t', ht', hok⟩ := h.2 r.t hgood.2.1.2.1
    have hid : typeOf C' r.msg.id = some t' := by
      unfold typeOf Request.msg
      rw [hgood.1]
      simp only
      rw [idx_toNat hgood.2.1.1 hgood.2.1.2.1]
      exact ht'
    refine ⟨⟨t', hid, ?_⟩, ?_⟩
    · obtain ⟨t, h1, h2⟩ := hgood.isMsg
      have : t = r.t := by
        have := (idOf_idxOf hgood.2.1.1 hgood.2.1.2.1).1
        unfold typeOf Request.msg at h1
        rw [hgood.1] at h1
        simp only at h1
        rw [this] at h1
        exact (Option.some.inj h1).symm
      rw [h2, this, hsz _ _ hok]
    · have := hg r t' hgood hok ht'
      unfold meaning
      rw [hid]
      exact this
  have hd : Decodes C' w.fed (rs.map Request.msg) [] := by
    refine ⟨?_, .inl rfl⟩
    rw [hf]
    have := run_frames (C := C') (ms := rs.map Request.msg) (by
      intro m hm
      obtain ⟨r, hr, rfl⟩ := List.mem_map.mp hm
      exact (key r hr).1) []
    rwa [List.append_nil] at this
  rw [(polled_eq ⟨ha, hu⟩ hn hr hh hd).1]
  refine ⟨by simp, ?_⟩
  intro i r c h1 h2
  rw [List.map_map, List.getElem?_map, h1] at h2
  cases h2
  exact (key r (List.mem_of_getElem? h1)).2

/-- A message of type `t` with zeros in all its fields. -/
def zeros (C : Collection) (t : MsgType) : Request := ⟨C, t, t.fields.map fun f => ⟨f, List.replicate (fieldSize f) 0⟩⟩

theorem zeros_good (hl : C.messages.length ≤ 255) {t : MsgType} (ht : t ∈ C.messages) : (zeros C t).Good C := by
  refine ⟨rfl, ⟨hl, ht, ?_⟩, ?_⟩
  · simp only [zeros, List.map_map]
    exact List.map_id' _
  · intro v hv
    obtain ⟨f, _, rfl⟩ := List.mem_map.mp hv
    simp [Value.Fits]

theorem zeros_payload (t : MsgType) : ∃ n, payloadOf (zeros C t).vs = List.replicate n 0 := by
  unfold zeros payloadOf
  simp only [List.map_map]
  induction t.fields with
  | nil => exact ⟨0, rfl⟩
  | cons f fs ih =>
    obtain ⟨n, h⟩ := ih
    exact ⟨fieldSize f + n, by simp only [List.map_cons, List.flatten_cons, h]; simp [List.replicate_append_replicate]⟩

theorem byteSum_skip_zeros (n : Nat) (s : List Byte) : byteSum (List.replicate n 0 ++ s) = byteSum s := by
  induction n with
  | zero => rfl
  | succ n ih => simp [List.replicate_succ, byteSum, ih]

/-- A receiver that is given bytes one at a time. -/
theorem bytewise (ha : Arith B (recvBufferSize C')) (hne : C'.messages ≠ []) (bytes : List Byte) :
    ∃ (fuel : Nat) (ops : List Op) (w : World C') (os : List Obs),
      Reached B Sample.passive fuel (ops ++ [.process]) w os ∧ w.rx.hasHandler = true ∧ w.fed = bytes := by
  have S : Setting C' B Sample.passive := ⟨ha, Sample.passive_benign⟩
  have hl := C33_rounds_legal (fuel := capacity C' + 1) S Sample.passive_neverThrows hne Sample.h0
    ((bytes.map fun x => [x]) ++ [[]]) (by
      intro xs hxs
      rcases List.mem_append.mp hxs with h | h
      · obtain ⟨x, _, rfl⟩ := List.mem_map.mp h
        simp
      · simp at h; subst h; simp)
  have e : (.setHandler Sample.h0 :: rounds ((bytes.map fun x => [x]) ++ [[]]) : List Op) =
      (.setHandler Sample.h0 :: (rounds (bytes.map fun x => [x]) ++ [.append []])) ++ [.process] := by
    simp [rounds]
  rw [e] at hl
  obtain ⟨w, os, hr⟩ := C34_terminates S Sample.passive_quiet (by omega) _ hl
  have hreach : Reached B Sample.passive (capacity C' + 1) _ w os := ⟨hl, hr⟩
  refine ⟨_, _, w, os, hreach, ?_, ?_⟩
  · obtain ⟨s, ms, ha', he⟩ := hreach.exec S
    rw [ha'.hasHandler, exec_handler Sample.passive_keepsHandler he]
    have key : ∀ (cs : List (List Byte)) (h : Handler), handlerOf (some h) (rounds cs ++ [.append []] ++ [.process]) = some h := by
      intro cs h
      induction cs with
      | nil => rfl
      | cons c cs ih => exact ih
    simp only [List.cons_append, handlerOf]
    rw [key]
    rfl
  · rw [C25_fed_is_chunks S Sample.passive_quiet (by simp [rounds]) hreach]
    have key : ∀ xs : List Byte, chunks (rounds (xs.map fun x => [x]) ++ [.append []] ++ [.process]) = xs := by
      intro xs
      induction xs with
      | nil => rfl
      | cons x xs ih =>
        show [x] ++ chunks (rounds (xs.map fun x => [x]) ++ [.append []] ++ [.process]) = _
        rw [ih]; rfl
    simp only [List.cons_append, chunks]
    exact key bytes

theorem payloadOf_meaning {m : Msg} (h : IsMsg C m) : (meaning C m).2.flatten = m.payload := by
  obtain ⟨t, ht, hp⟩ := h
  obtain ⟨_, h2, _, h4⟩ := splitFields_sound t.fields m.payload hp
  unfold payloadOf at h4
  rw [h2] at h4
  simp only [meaning, ht, Option.getD_some]
  exact h4

/-- If the bytes of all messages arrive, the envelopes are the same, and a message with zeros is delivered as the message with its id. -/
theorem arrives_agree {good : Request → MsgType × List (List Byte) → Prop} (ha : Arith B (recvBufferSize C'))
    (hc : C.messages.length ≤ 255) (hn : C.messages ≠ []) (hn' : C'.messages ≠ []) (h : Understood C C' B good)
    (hg : ∀ r c, r.Good C → good r c → c.2.flatten = payloadOf r.vs) :
    C.envelope = C'.envelope ∧ ∀ t ∈ C.messages, IsMsg C' (zeros C t).msg ∧ good (zeros C t) (meaning C' (zeros C t).msg) := by
  have one : ∀ t ∈ C.messages, ∃ (m : Msg) (a b : List Byte), frame C.envelope (zeros C t).msg = a ++ frame C'.envelope m ++ b ∧
      IsMsg C' m ∧ m.payload = payloadOf (zeros C t).vs ∧ good (zeros C t) (meaning C' m) := by
    intro t ht
    have hz := zeros_good hc ht
    have hrs : ∀ r ∈ [zeros C t], r.Good C := by intro r hr; rw [List.mem_singleton.mp hr]; exact hz
    obtain ⟨bytes, hb, _⟩ := sendAll_faithful vectorBuffer_faithful [zeros C t] hrs []
    have hb' := sent_bytes hrs hb
    obtain ⟨fuel, ops, w, os, hr, hh, hf⟩ := bytewise (C' := C') (B := B) ha hn' bytes
    obtain ⟨hlen, hall⟩ := h _ bytes hrs hb _ _ _ w os Sample.passive_benign Sample.passive_neverThrows hr hh hf
    obtain ⟨ps, sk, e1, e2, e3⟩ := C19_sound ⟨ha, Sample.passive_benign⟩ Sample.passive_neverThrows hr
    rw [e3] at hlen hall
    match ps, hlen with
    | [p], _ =>
      have hm := e2 p (by simp)
      have hgo := hall 0 _ _ rfl rfl
      refine ⟨p.2, p.1, sk ++ buffered w, ?_, hm, ?_, hgo⟩
      · rw [hf, hb'] at e1
        simpa [frames, assemble] using e1
      · rw [← payloadOf_meaning hm]
        exact hg _ _ hz hgo
  have henv : C.envelope = C'.envelope := by
    obtain ⟨t, ht⟩ := List.exists_mem_of_ne_nil _ hn
    have h0 : ∃ t0 ts, C.messages = t0 :: ts := by
      cases hm : C.messages with
      | nil => exact absurd hm hn
      | cons t0 ts => exact ⟨t0, ts, rfl⟩
    obtain ⟨t0, ts, h0⟩ := h0
    obtain ⟨m, a, b, e, hm, hp, _⟩ := one t0 (by rw [h0]; simp)
    obtain ⟨n, hz⟩ := zeros_payload (C := C) t0
    have hmsg : (zeros C t0).msg = ⟨0, List.replicate n 0⟩ := by
      unfold Request.msg
      rw [hz]
      simp [zeros, h0]
    rw [hz] at hp
    rw [hmsg] at e
    obtain ⟨id, p⟩ := m
    simp only at hp
    subst hp
    cases he : C.envelope with
    | basic =>
      cases he' : C'.envelope with
      | basic => rfl
      | basicChecksum =>
        have := congrArg List.length e
        rw [he, he', List.length_append, List.length_append, frame_length, frame_length] at this
        simp [overhead] at this
        omega
    | basicChecksum =>
      cases he' : C'.envelope with
      | basicChecksum => rfl
      | basic =>
        exfalso
        have hlen := congrArg List.length e
        rw [he, he', List.length_append, List.length_append, frame_length, frame_length] at hlen
        simp [overhead] at hlen
        rw [he, he'] at e
        have hsum : byteSum ([0x01, 0, 0x02] ++ List.replicate n 0 ++ [0x03]) = 6 := by
          simp only [List.cons_append, List.nil_append, byteSum, byteSum_skip_zeros]
          decide
        unfold frame at e
        simp only [hsum] at e
        cases a with
        | nil => simp at e
        | cons x a =>
          have : a = [] := List.eq_nil_of_length_eq_zero (by simp at hlen; omega)
          subst this
          simp at e
  refine ⟨henv, fun t ht => ?_⟩
  obtain ⟨m, a, b, e, hm, hp, hgo⟩ := one t ht
  have hmp : (zeros C t).msg.payload = payloadOf (zeros C t).vs := rfl
  have hlen := congrArg List.length e
  rw [henv, List.length_append, List.length_append, frame_length, frame_length, hmp, hp] at hlen
  have ha0 : a = [] := List.eq_nil_of_length_eq_zero (by omega)
  have hb0 : b = [] := List.eq_nil_of_length_eq_zero (by omega)
  rw [ha0, hb0, henv] at e
  simp only [List.nil_append, List.append_nil] at e
  rw [frame_inj e]
  exact ⟨hm, hgo⟩

theorem zeros_type (hc : C.messages.length ≤ 255) {t : MsgType} (ht : t ∈ C.messages) {t' : MsgType} 
    (h : typeOf C' (zeros C t).msg.id = some t') : C'.messages[C.messages.idxOf t]? = some t' := by
  unfold typeOf Request.msg zeros at h
  simp only at h
  rwa [idx_toNat hc ht] at h

/-- C101, bytes. The contents of all messages arrive exactly if the envelopes are the same and for each type that is sent the
receiver has at its id a type of the same size. -/
theorem C101_bytes (ha : Arith B (recvBufferSize C')) (hc : C.messages.length ≤ 255) (hn : C.messages ≠ [])
    (hn' : C'.messages ≠ []) :
    Understood C C' B (fun r c => c.2.flatten = payloadOf r.vs) ↔ Agree C C' (fun t t' => payloadSize t' = payloadSize t) := by
  constructor
  · intro h
    obtain ⟨h1, h2⟩ := arrives_agree ha hc hn hn' h (fun _ _ _ h => h)
    refine ⟨h1, fun t ht => ?_⟩
    obtain ⟨⟨t', e1, e2⟩, _⟩ := h2 t ht
    refine ⟨t', zeros_type hc ht e1, ?_⟩
    obtain ⟨_, hs, hv⟩ := zeros_good hc ht
    have := isMsg_of_send hs (idOf_idxOf hc ht) hv
    obtain ⟨t2, h3, h4⟩ := this
    have h5 := (idOf_idxOf hc ht).1
    unfold typeOf at h3
    have h6 := h5.symm.trans h3
    cases h6
    show payloadSize t' = payloadSize t
    rw [← e2, ← h4]
    rfl
  · intro h
    refine agree_arrives ha h (fun _ _ h => h) ?_
    intro r t' hr hok ht'
    obtain ⟨_, h2, _, h4⟩ := splitFields_sound t'.fields (payloadOf r.vs) (by
      rw [payloadOf_length hr.2.2, hr.2.1.2.2]
      exact hok.symm)
    show (splitFields t'.fields (payloadOf r.vs)).flatten = payloadOf r.vs
    rw [← h2]
    exact h4

theorem splitFields_lengths : ∀ (fs : List FieldType) (p : List Byte), p.length = (fs.map fieldSize).sum →
    (splitFields fs p).map List.length = fs.map fieldSize := by
  intro fs
  induction fs with
  | nil => intro p _; rfl
  | cons f fs ih =>
    intro p h
    simp only [List.map_cons, List.sum_cons] at h
    simp only [splitFields, List.map_cons]
    rw [ih _ (by simp; omega)]
    simp; omega

theorem splitFields_sizes {fs fs' : List FieldType} (h : fs.map fieldSize = fs'.map fieldSize) :
    ∀ p, splitFields fs p = splitFields fs' p := by
  induction fs generalizing fs' with
  | nil =>
    intro p
    cases fs' with
    | nil => rfl
    | cons => simp at h
  | cons f fs ih =>
    intro p
    cases fs' with
    | nil => simp at h
    | cons f' fs' =>
      simp only [List.map_cons, List.cons.injEq] at h
      simp only [splitFields, h.1, ih h.2]

/-- C101, values. Each field of all messages arrives exactly if moreover the types at the same id have fields of the same sizes. -/
theorem C101_values (ha : Arith B (recvBufferSize C')) (hc : C.messages.length ≤ 255) (hn : C.messages ≠ [])
    (hn' : C'.messages ≠ []) :
    Understood C C' B (fun r c => c.2 = r.vs.map (·.bytes)) ↔
      Agree C C' (fun t t' => t'.fields.map fieldSize = t.fields.map fieldSize) := by
  constructor
  · intro h
    obtain ⟨h1, h2⟩ := arrives_agree ha hc hn hn' h (fun r c _ h => by rw [h]; rfl)
    refine ⟨h1, fun t ht => ?_⟩
    obtain ⟨⟨t', e1, e2⟩, e3⟩ := h2 t ht
    refine ⟨t', zeros_type hc ht e1, ?_⟩
    have hl := splitFields_lengths t'.fields _ e2
    unfold meaning at e3
    rw [e1] at e3
    simp only [Option.getD_some] at e3
    rw [e3] at hl
    show t'.fields.map fieldSize = t.fields.map fieldSize
    rw [← hl]
    simp [zeros]
  · intro h
    refine agree_arrives ha h (fun t t' h => by simp only [payloadSize, h]) ?_
    intro r t' hr hok ht'
    show splitFields _ _ = _
    rw [splitFields_sizes hok, ← hr.2.1.2.2, splitFields_payloadOf hr.2.2]

/-- C101, calls. All messages arrive as what they were sent as exactly if the envelopes are the same and every type has the same
id on both sides. -/
theorem C101_calls (ha : Arith B (recvBufferSize C')) (hc : C.messages.length ≤ 255) (hn : C.messages ≠ [])
    (hn' : C'.messages ≠ []) :
    Understood C C' B (fun r c => c = (r.t, r.vs.map (·.bytes))) ↔ Agree C C' (fun t t' => t' = t) := by
  constructor
  · intro h
    obtain ⟨h1, h2⟩ := arrives_agree ha hc hn hn' h (fun r c _ h => by rw [h]; rfl)
    refine ⟨h1, fun t ht => ?_⟩
    obtain ⟨⟨t', e1, e2⟩, e3⟩ := h2 t ht
    refine ⟨t', zeros_type hc ht e1, ?_⟩
    unfold meaning at e3
    rw [e1] at e3
    simp only [Option.getD_some, Prod.mk.injEq] at e3
    exact e3.1
  · intro h
    refine agree_arrives ha h (fun t t' h => by rw [h]) ?_
    rintro r t' hr rfl ht'
    show (_, _) = _
    rw [← splitFields_payloadOf hr.2.2, hr.2.1.2.2]

/-- C101, a type may be listed twice. With the same collection on both sides everything arrives, whether its types are distinct
or not: the id of the first entry is used. -/
theorem C101_same (ha : Arith B (recvBufferSize C)) (hc : C.messages.length ≤ 255) (hn : C.messages ≠ []) :
    Understood C C B (fun r c => c = (r.t, r.vs.map (·.bytes))) := by
  refine (C101_calls ha hc hn hn).mpr ⟨rfl, fun t ht => ⟨t, ?_, rfl⟩⟩
  have hlt := List.idxOf_lt_length_of_mem ht
  rw [List.getElem?_eq_getElem hlt, List.getElem_idxOf hlt]

/-- C101, distinct types. Then all messages arrive as what they were sent as exactly if the receiver's list of types is the
sender's, or the sender's with more types at the end. -/
theorem C101_prefix (ha : Arith B (recvBufferSize C')) (hc : C.messages.length ≤ 255) (hn : C.messages ≠ [])
    (hn' : C'.messages ≠ []) (hd : C.messages.Nodup) :
    Understood C C' B (fun r c => c = (r.t, r.vs.map (·.bytes))) ↔
      C.envelope = C'.envelope ∧ ∃ more, C'.messages = C.messages ++ more := by
  rw [C101_calls ha hc hn hn']
  refine and_congr_right fun _ => ⟨fun h => ⟨C'.messages.drop C.messages.length, ?_⟩, ?_⟩
  · apply List.ext_getElem?
    intro i
    by_cases hi : i < C.messages.length
    · obtain ⟨t', h1, rfl⟩ := h C.messages[i] (List.getElem_mem hi)
      rw [hd.idxOf_getElem i hi] at h1
      rw [h1, List.getElem?_append_left hi, List.getElem?_eq_getElem hi]
    · rw [List.getElem?_append_right (by omega), List.getElem?_drop]
      congr 1
      omega
  · rintro ⟨more, hm⟩ t ht
    have hlt := List.idxOf_lt_length_of_mem ht
    exact ⟨t, by rw [hm, List.getElem?_append_left hlt, List.getElem?_eq_getElem hlt, List.getElem_idxOf hlt], rfl⟩

/-! ### Concrete instances -/

/-- Two types, the first one listed twice. -/
private def twiceC : Collection := ⟨[⟨10, [.uint8]⟩, ⟨11, [.pod 2 4, .uint8]⟩, ⟨10, [.uint8]⟩], .basicChecksum⟩

/-- Other names for types and fields, and one type more. -/
private def renamedC : Collection := ⟨[⟨20, [.pod 1 1]⟩, ⟨21, [.pod 7 4, .uint8]⟩, ⟨22, []⟩], .basicChecksum⟩

/-- The second type has its fields in the other order. -/
private def regroupedC : Collection := ⟨[⟨10, [.uint8]⟩, ⟨11, [.uint8, .pod 2 4]⟩], .basicChecksum⟩

/-- The same types in another order. -/
private def reorderedC : Collection := ⟨[⟨11, [.pod 2 4, .uint8]⟩, ⟨10, [.uint8]⟩], .basicChecksum⟩

example : Understood twiceC twiceC Sample.dbg (fun r c => c = (r.t, r.vs.map (·.bytes))) :=
  C101_same ⟨by decide, by decide⟩ (by decide) (by decide)

example : Understood twiceC renamedC Sample.dbg (fun r c => c.2 = r.vs.map (·.bytes)) :=
  (C101_values ⟨by decide, by decide⟩ (by decide) (by decide) (by decide)).mpr ⟨rfl, by
    intro t ht
    simp only [twiceC, List.mem_cons, List.not_mem_nil, or_false] at ht
    rcases ht with rfl | rfl | rfl
    · exact ⟨⟨20, [.pod 1 1]⟩, rfl, rfl⟩
    · exact ⟨⟨21, [.pod 7 4, .uint8]⟩, rfl, rfl⟩
    · exact ⟨⟨20, [.pod 1 1]⟩, rfl, rfl⟩⟩

example : Understood twiceC regroupedC Sample.dbg (fun r c => c.2.flatten = payloadOf r.vs) :=
  (C101_bytes ⟨by decide, by decide⟩ (by decide) (by decide) (by decide)).mpr ⟨rfl, by
    intro t ht
    simp only [twiceC, List.mem_cons, List.not_mem_nil, or_false] at ht
    rcases ht with rfl | rfl | rfl
    · exact ⟨⟨10, [.uint8]⟩, rfl, rfl⟩
    · exact ⟨⟨11, [.uint8, .pod 2 4]⟩, rfl, rfl⟩
    · exact ⟨⟨10, [.uint8]⟩, rfl, rfl⟩⟩

example : ¬ Understood twiceC regroupedC Sample.dbg (fun r c => c.2 = r.vs.map (·.bytes)) := by
  rw [C101_values ⟨by decide, by decide⟩ (by decide) (by decide) (by decide)]
  rintro ⟨_, h⟩
  obtain ⟨t', h1, h2⟩ := h ⟨11, [.pod 2 4, .uint8]⟩ (by decide)
  cases h1
  revert h2
  decide

example : ¬ Understood reorderedC twiceC Sample.dbg (fun r c => c.2.flatten = payloadOf r.vs) := by
  rw [C101_bytes ⟨by decide, by decide⟩ (by decide) (by decide) (by decide)]
  rintro ⟨_, h⟩
  obtain ⟨t', h1, h2⟩ := h ⟨10, [.uint8]⟩ (by decide)
  cases h1
  revert h2
  decide

example : ¬ Understood regroupedC reorderedC Sample.dbg (fun r c => c = (r.t, r.vs.map (·.bytes))) := by
  rw [C101_prefix ⟨by decide, by decide⟩ (by decide) (by decide) (by decide) (by decide)]
  rintro ⟨_, more, h⟩
  simp [regroupedC, reorderedC] at h

end TT.Properties
