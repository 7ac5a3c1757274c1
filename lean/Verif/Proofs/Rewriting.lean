import Verif.Proofs.CustomEnvelope
import Verif.Spec.Rewriting

/-!
# Proofs about envelopes whose check changes the bytes in the receive buffer
-/

namespace TT
open Spec

namespace Custom
variable {C : Custom} {look : Look} {idle : Option Byte → Prop}

theorem lookLength_pos (hp : ProperLook C look) {id : Byte} {n : Nat} (h : lengthAt C id = some n) : 0 < n := by
  have := hp.overhead
  unfold lengthAt at h
  cases ht : typeAt C id with
  | none => simp [ht] at h
  | some t => simp [ht] at h; omega

/-- The check, as a function of the bytes in the buffer. -/
theorem check_found (hc : C.recvBufferSize < 2 ^ 64) (hi : Performs C look idle) {r : C.Buf} {xs ys : List Byte} {id : Byte}
    (h : r.buf.Holds xs) (hid : idle r.currentMessageId) (hx : look xs = (ys, some id)) :
    ∃ b : RB C.recvBufferSize, (∀ B, C.check B r = .ok (⟨some id, b⟩, true)) ∧ b.Holds ys := by
  obtain ⟨b, e, hh⟩ := exec_ok hc (agrees hc) C.code h
    (hi.found (by rw [← capacity_eq]; exact h.length_le) hid hx)
  exact ⟨b, e, hh⟩

theorem check_nothing (hc : C.recvBufferSize < 2 ^ 64) (hi : Performs C look idle) {r : C.Buf} {xs ys : List Byte}
    (h : r.buf.Holds xs) (hid : idle r.currentMessageId) (hx : look xs = (ys, none)) :
    ∃ r' : C.Buf, (∀ B, C.check B r = .ok (r', false)) ∧ r'.buf.Holds ys ∧ idle r'.currentMessageId := by
  obtain ⟨cur, hcur, he⟩ := hi.nothing (by rw [← capacity_eq]; exact h.length_le) hid hx
  obtain ⟨b, e, hh⟩ := exec_ok hc (agrees hc) C.code h he
  exact ⟨⟨cur, b⟩, e, hh, hcur⟩

theorem popMessage_look (hc : C.recvBufferSize < 2 ^ 64) (hp : ProperLook C look) {B : Build}
    (hs : B.debug = true → Repeatable C look) {b : RB C.recvBufferSize} {xs ys : List Byte} {k : Nat} {id : Byte}
    (hx : look xs = (ys, some id)) (hxl : xs.length ≤ C.recvBufferSize) (hk : lengthAt C id = some k)
    (hle : k ≤ ys.length) (h : b.Holds ys) :
    ∃ r' : C.Buf, C.popMessage B ⟨some id, b⟩ = .ok r' ∧ r'.buf.Holds (ys.drop k) ∧ r'.currentMessageId = none := by
  have hpos := lookLength_pos hp hk
  have key : ∀ (b : RB C.recvBufferSize) (zs : List Byte), b.Holds zs → k ≤ zs.length →
      ∃ r' : C.Buf, (do
        let m ← (⟨some id, b⟩ : C.Buf).getMessageLength B C.getMessageLength
        let (b, _) ← b.popFront B m
        return ({ currentMessageId := none, buf := b } : C.Buf)) = .ok r' ∧
        r'.buf.Holds (zs.drop k) ∧ r'.currentMessageId = none := by
    intro b zs h hle
    rw [getMessageLength_cur hc B rfl hk]
    cases zs with
    | nil => simp at hle; omega
    | cons y zs =>
      obtain ⟨e1, h1⟩ := h.popFront_ok hc (n := k) (by simpa using hle)
      exact ⟨_, by simp only [ok_bind, e1 B]; rfl, h1, rfl⟩
  unfold popMessage
  by_cases hb : B.debug = true
  · obtain ⟨zs, he, hzl, hzd⟩ := hs hb xs ys id (by rw [← capacity_eq]; exact hxl) hx
    obtain ⟨b1, e1, h1⟩ := exec_ok hc (agrees hc) C.code (r := (⟨some id, b⟩ : C.Buf)) h he
    have e1' : C.check B (⟨some id, b⟩ : C.Buf) = .ok (⟨some id, b1⟩, true) := e1 B
    obtain ⟨r2, e2, h2, h3⟩ := key b1 zs h1 (by omega)
    refine ⟨r2, ?_, by rw [← hzd k hk]; exact h2, h3⟩
    rw [if_pos hb, e1']
    simpa using e2
  · obtain ⟨r2, e2, h2, h3⟩ := key b ys h hle
    refine ⟨r2, ?_, h2, h3⟩
    rw [if_neg hb]
    exact e2

theorem invoke_look {w : C.World} {xs : List Byte} {id : Byte}
    {t : MsgType} {h : Handler} (ho : C.dataOffset ≤ C.overhead) (hb : w.recv.buf.Holds xs) (hh : w.handler = some h)
    (ht : typeAt C id = some t) (hle : C.overhead + payloadSize t ≤ xs.length) :
    w.invoke id = .ok (some (customCall C h ⟨id, (xs.drop C.dataOffset).take (payloadSize t)⟩)) := by
  unfold World.invoke
  rw [hh]
  simp only
  rw [applyAt_eq]
  have ht' : C.messages[id.toNat]? = some t := ht
  rw [ht']
  simp only
  obtain ⟨pre, post, hs, hpre⟩ := hb.split
  have hcont : w.recv.buf.contents = (pre ++ xs.take C.dataOffset) ++
      (xs.drop C.dataOffset).take (payloadSize t) ++
      ((xs.drop C.dataOffset).drop (payloadSize t) ++ post) := by
    rw [hs]
    have e1 : xs = xs.take C.dataOffset ++ xs.drop C.dataOffset := (List.take_append_drop _ _).symm
    have e2 : xs.drop C.dataOffset = (xs.drop C.dataOffset).take (payloadSize t) ++
        (xs.drop C.dataOffset).drop (payloadSize t) := (List.take_append_drop _ _).symm
    generalize (xs.drop C.dataOffset).take (payloadSize t) = p1 at e2 ⊢
    generalize (xs.drop C.dataOffset).drop (payloadSize t) = p2 at e2 ⊢
    rw [e2] at e1
    generalize xs.take C.dataOffset = p0 at e1 ⊢
    rw [e1]
    simp
  have hit : w.recv.buf.begin_ + C.dataOffset = (pre ++ xs.take C.dataOffset).length := by
    simp; omega
  rw [hcont, hit, deserialize_ok t.fields _ _ _ _ (by simp [payloadSize] at *; omega)]
  simp [customCall, ht]

theorem processLoop_look (hc : C.recvBufferSize < 2 ^ 64) (hi : Performs C look idle) (hp : ProperLook C look)
    {B : Build} (hs : B.debug = true → Repeatable C look) (fuel : Nat) :
    ∀ {w : C.World} {xs : List Byte} {h : Handler} (cnt : Byte), w.recv.buf.Holds xs → idle w.recv.currentMessageId →
      w.handler = some h → xs.length < fuel →
      ∃ ms rest w', Finds C look xs ms rest ∧
        w.processLoop B fuel cnt = .ok (w', cnt + UInt8.ofNat ms.length) ∧ w'.recv.buf.Holds rest ∧
        idle w'.recv.currentMessageId ∧
        w'.handler = w.handler ∧ w'.fed = w.fed ∧ w'.trace = w.trace ++ ms.map (customCall C h) ∧
        w'.lastMessageId = (if ms = [] then w.lastMessageId else (ms.map Msg.id).getLast?) := by
  induction fuel with
  | zero => intro w xs h cnt _ _ _ hlt; omega
  | succ fuel ih =>
    intro w xs h cnt hb hidle hh hlt
    cases hx : look xs with
    | mk ys found =>
      have hshr := hp.shrinks xs
      rw [hx] at hshr
      simp only at hshr
      cases found with
      | none =>
        obtain ⟨r1, e1, h1, c1⟩ := check_nothing hc hi hb hidle hx
        refine ⟨[], ys, { w with recv := r1 }, Finds.stop hx, ?_, h1, c1, rfl, rfl, by simp, by simp⟩
        unfold World.processLoop
        rw [e1 B]
        simp
      | some id =>
        obtain ⟨b1, e1, h1⟩ := check_found hc hi hb hidle hx
        obtain ⟨k, hk, hle⟩ := hp.whole xs ys id hx
        have hpos := lookLength_pos hp hk
        cases ht : typeAt C id with
        | none => simp [lengthAt, ht] at hk
        | some t =>
          have hkt : C.overhead + payloadSize t = k := by simpa [lengthAt, ht] using hk
          have hinv : ({ w with recv := ⟨some id, b1⟩, lastMessageId := some id } : C.World).invoke id =
              .ok (some (customCall C h ⟨id, (ys.drop C.dataOffset).take (payloadSize t)⟩)) :=
            invoke_look hp.offset h1 hh ht (by omega)
          obtain ⟨r2, e2, h2, h3⟩ := popMessage_look hc hp hs hx hb.length_le hk hle h1
          obtain ⟨ms, rest, w', hpar, hloop, hh', hid', hha, hfed, htr, hlast⟩ :=
            ih (w := { w with recv := r2, lastMessageId := some id, trace := w.trace ++
              [customCall C h ⟨id, (ys.drop C.dataOffset).take (payloadSize t)⟩] })
              (cnt + 1) h2 (by rw [show r2.currentMessageId = none from h3]; exact hi.start) hh (by simp; omega)
          refine ⟨_, rest, w', Finds.take hx ht (by rw [hkt]; exact hpar), ?_, hh', hid', hha, hfed, ?_, ?_⟩
          · unfold World.processLoop
            rw [e1 B]
            simp only [ok_bind, Bool.not_true, Bool.false_eq_true, if_false,
              CBuf.getCurrentMessageId, Option.isSome_some, assertMsg_true, hinv, e2, Option.toList]
            rw [hloop]
            congr 2
            simp only [List.length_cons]
            apply UInt8.toNat_inj.mp
            simp
            omega
          · rw [htr]; simp
          · rw [hlast]
            simp only [List.map_cons, reduceCtorEq, if_false]
            split
            · rename_i e; simp [e]
            · rename_i e
              cases ms with
              | nil => exact absurd rfl e
              | cons m ms => rfl

/-! ### Reading -/

theorem reads_exists (hp : ProperLook C look) (s : List Byte) : ∃ ms r, Finds C look s ms r := by
  generalize hn : s.length = k
  induction k using Nat.strongRecOn generalizing s with
  | ind k ih =>
    cases hx : look s with
    | mk ys found =>
      cases found with
      | none => exact ⟨[], _, Finds.stop hx⟩
      | some id =>
        obtain ⟨l, hl, hle⟩ := hp.whole s ys id hx
        have hpos := lookLength_pos hp hl
        have hshr := hp.shrinks s
        rw [hx] at hshr
        simp only at hshr
        cases ht : typeAt C id with
        | none => simp [lengthAt, ht] at hl
        | some t =>
          have hlt : C.overhead + payloadSize t = l := by simpa [lengthAt, ht] using hl
          obtain ⟨ms, r, h⟩ := ih _ (by simp; omega) (ys.drop (C.overhead + payloadSize t)) rfl
          exact ⟨_, r, Finds.take hx ht h⟩

theorem reads_unique {s r r' : List Byte} {ms ms' : List Msg} (h : Finds C look s ms r)
    (h' : Finds C look s ms' r') : ms = ms' ∧ r = r' := by
  induction h generalizing ms' r' with
  | stop hx =>
    cases h' with
    | stop hx' => rw [hx] at hx'; cases hx'; exact ⟨rfl, rfl⟩
    | take hx' _ _ => rw [hx] at hx'; cases hx'
  | take hx ht _ ih =>
    cases h' with
    | stop hx' => rw [hx] at hx'; cases hx'
    | take hx' ht' h' =>
      rw [hx] at hx'
      cases hx'
      rw [ht] at ht'
      cases ht'
      obtain ⟨rfl, rfl⟩ := ih h'
      exact ⟨rfl, rfl⟩

/-- What looking at `s` gives depends on the result of the first look only. -/
theorem reads_congr {s s' r : List Byte} {ms : List Msg} (e : look s = look s') (h : Finds C look s ms r) :
    Finds C look s' ms r := by
  cases h with
  | stop hx => exact Finds.stop (e ▸ hx)
  | take hx ht h => exact Finds.take (e ▸ hx) ht h

/-- With more bytes, looking goes on from where it stopped. -/
theorem reads_append (hp : ProperLook C look) (ho : OnlineLook look) {s r : List Byte} {ms : List Msg}
    (h : Finds C look s ms r) : ∀ {ys q : List Byte} {ns : List Msg}, Finds C look (r ++ ys) ns q →
    Finds C look (s ++ ys) (ms ++ ns) q := by
  induction h with
  | @stop s r hx =>
    intro ys q ns h'
    exact reads_congr (ho.nothing s ys r hx).symm h'
  | @take s zs r id t ms hx ht _ ih =>
    intro ys q ns h'
    obtain ⟨l, hl, hle⟩ := hp.whole s zs id hx
    have hlt : C.overhead + payloadSize t = l := by simpa [lengthAt, ht] using hl
    have hof := hp.offset
    have h2 := ih h'
    rw [← List.drop_append_of_le_length (by omega)] at h2
    have h3 := Finds.take (ho.found s ys zs id hx) ht h2
    rw [List.drop_append_of_le_length (by omega), List.take_append_of_le_length (by simp; omega)] at h3
    exact h3

/-! ### Histories -/

/-- One legal call: it succeeds, and does what it says. -/
theorem step_look {B : Build} (ha : Arith B C.recvBufferSize) (hi : Performs C look idle) (hp : ProperLook C look)
    (hs : B.debug = true → Repeatable C look) {fuel : Nat} (hf : C.recvBufferSize < fuel) {w : C.World}
    {xs : List Byte} (h : w.recv.buf.Holds xs) (hid : idle w.recv.currentMessageId) (op : COp)
    (hl : match op with
      | .append ys => ys.length ≤ w.space
      | _ => True) :
    ∃ w' o, w.step B fuel op = .ok (w', o) ∧ idle w'.recv.currentMessageId ∧
      match op with
      | .append ys => w'.recv.buf.Holds (xs ++ ys) ∧ w'.fed = w.fed ++ ys ∧ w'.trace = w.trace ∧
          w'.handler = w.handler ∧ w'.lastMessageId = w.lastMessageId ∧ o = none
      | .setHandler h => w'.recv.buf.Holds xs ∧ w'.fed = w.fed ∧ w'.trace = w.trace ∧
          w'.handler = some h ∧ w'.lastMessageId = w.lastMessageId ∧ o = none
      | .clearHandler => w'.recv.buf.Holds xs ∧ w'.fed = w.fed ∧ w'.trace = w.trace ∧
          w'.handler = none ∧ w'.lastMessageId = w.lastMessageId ∧ o = none
      | .process => w'.fed = w.fed ∧ w'.handler = w.handler ∧
          match w.handler with
          | none => w'.recv.buf.Holds xs ∧ w'.trace = w.trace ∧
              w'.lastMessageId = w.lastMessageId ∧ o = some 0
          | some h => ∃ ms r, Finds C look xs ms r ∧ w'.recv.buf.Holds r ∧
              w'.trace = w.trace ++ ms.map (customCall C h) ∧
              w'.lastMessageId = (if ms = [] then w.lastMessageId else (ms.map Msg.id).getLast?) ∧
              o = some (UInt8.ofNat ms.length) := by
  have hc := ha.lt64
  cases op with
  | append ys =>
    simp only at hl
    rw [space_eq hc h] at hl
    have := h.length_le
    obtain ⟨b, e, hh⟩ := h.pushBackRange_ok hc (ys := ys) (by omega)
    exact ⟨{ w with recv := { w.recv with buf := b }, fed := w.fed ++ ys }, none,
      by simp only [World.step, e B ha, ok_bind]; rfl, hid, hh, rfl, rfl, rfl, rfl, rfl⟩
  | process =>
    cases hh : w.handler with
    | none =>
      refine ⟨w, some 0, ?_, hid, rfl, hh, h, rfl, rfl, rfl⟩
      simp [World.step, World.processMessages, hh]
    | some hd =>
      have := h.length_le
      obtain ⟨ms, r, w', hpar, e, hb, hid', hha, hfed, htr, hlast⟩ :=
        processLoop_look hc hi hp hs fuel (h := hd) 0 h hid hh (by omega)
      refine ⟨w', some (UInt8.ofNat ms.length), ?_, hid', hfed, by rw [hha, hh], ms, r, hpar, hb, htr, hlast, rfl⟩
      simp [World.step, World.processMessages, hh, e]
  | setHandler hd => exact ⟨_, none, rfl, hid, h, rfl, rfl, rfl, rfl, rfl⟩
  | clearHandler => exact ⟨_, none, rfl, hid, h, rfl, rfl, rfl, rfl, rfl⟩

/-- Legal histories succeed and leave a valid buffer. -/
theorem run_look {B : Build} (ha : Arith B C.recvBufferSize) (hi : Performs C look idle) (hp : ProperLook C look)
    (hs : B.debug = true → Repeatable C look) {fuel : Nat} (hf : C.recvBufferSize < fuel) (ops : List COp) :
    ∀ {w : C.World} {xs : List Byte}, w.recv.buf.Holds xs → idle w.recv.currentMessageId → w.Legal B fuel ops →
    ∃ w' os ys, w.run B fuel ops = .ok (w', os) ∧ w'.recv.buf.Holds ys ∧ idle w'.recv.currentMessageId := by
  induction ops with
  | nil => intro w xs h hid _; exact ⟨w, [], xs, rfl, h, hid⟩
  | cons op ops ih =>
    intro w xs h hid hl
    obtain ⟨w1, o, e, hid1, hst⟩ := step_look ha hi hp hs hf h hid op (by
      have := hl.1
      cases op <;> simp_all)
    have hh : ∃ zs, w1.recv.buf.Holds zs := by
      cases op with
      | append ys => exact ⟨_, hst.1⟩
      | setHandler hd => exact ⟨_, hst.1⟩
      | clearHandler => exact ⟨_, hst.1⟩
      | process =>
        cases hw : w.handler with
        | none => simp only [hw] at hst; exact ⟨_, hst.2.2.1⟩
        | some hd =>
          simp only [hw] at hst
          obtain ⟨_, _, _, r, _, hb, _⟩ := hst
          exact ⟨r, hb⟩
    obtain ⟨zs, hh⟩ := hh
    obtain ⟨w', os, ys, e', hb, hid'⟩ := ih hh hid1 (hl.2 w1 o e)
    exact ⟨w', o :: os, ys, by simp [World.run, e, e'], hb, hid'⟩

/-- What has been delivered so far, and that the rest of the stream is read from what is buffered. -/
structure Follows (look : Look) (idle : Option Byte → Prop) (w : C.World) (xs : List Byte) (ms : List Msg) : Prop where
  holds : w.recv.buf.Holds xs
  idle_ : idle w.recv.currentMessageId
  calls : w.trace.map (fun i => (i.msg, i.args)) = ms.map (customMeaning C)
  rest : ∀ {ys q : List Byte} {ns : List Msg}, Finds C look (xs ++ ys) ns q →
    Finds C look (w.fed ++ ys) (ms ++ ns) q

theorem step_follows {B : Build} (ha : Arith B C.recvBufferSize) (hi : Performs C look idle)
    (hp : ProperLook C look) (ho : OnlineLook look) (hs : B.debug = true → Repeatable C look) {fuel : Nat}
    (hf : C.recvBufferSize < fuel) {w w1 : C.World} {xs : List Byte} {ms : List Msg} {op : COp} {o : Option Byte}
    (h : Follows look idle w xs ms) (hl : match op with
      | .append ys => ys.length ≤ w.space
      | _ => True) (e : w.step B fuel op = .ok (w1, o)) : ∃ ys ns, Follows look idle w1 ys ns := by
  obtain ⟨w2, o2, e2, hid, hst⟩ := step_look ha hi hp hs hf h.holds h.idle_ op hl
  rw [e] at e2
  cases e2
  cases op with
  | append ys =>
    obtain ⟨hb, hfed, htr, _⟩ := hst
    refine ⟨xs ++ ys, ms, hb, hid, by rw [htr, h.calls], fun {zs q ns} hpar => ?_⟩
    rw [hfed, List.append_assoc]
    rw [List.append_assoc] at hpar
    exact h.rest hpar
  | setHandler hd =>
    obtain ⟨hb, hfed, htr, _⟩ := hst
    exact ⟨xs, ms, hb, hid, by rw [htr, h.calls], fun hpar => by rw [hfed]; exact h.rest hpar⟩
  | clearHandler =>
    obtain ⟨hb, hfed, htr, _⟩ := hst
    exact ⟨xs, ms, hb, hid, by rw [htr, h.calls], fun hpar => by rw [hfed]; exact h.rest hpar⟩
  | process =>
    cases hw : w.handler with
    | none =>
      simp only [hw] at hst
      obtain ⟨hfed, _, hb, htr, _⟩ := hst
      exact ⟨xs, ms, hb, hid, by rw [htr, h.calls], fun hpar => by rw [hfed]; exact h.rest hpar⟩
    | some hd =>
      simp only [hw] at hst
      obtain ⟨hfed, _, ns, r, hpar, hb, htr, _⟩ := hst
      refine ⟨r, ms ++ ns, hb, hid, ?_, fun {zs q ks} hpar' => ?_⟩
      · rw [htr, List.map_append, h.calls, List.map_append, List.map_map]
        congr 1
      · rw [hfed, List.append_assoc]
        exact h.rest (reads_append hp ho hpar hpar')

theorem run_follows {B : Build} (ha : Arith B C.recvBufferSize) (hi : Performs C look idle)
    (hp : ProperLook C look) (ho : OnlineLook look) (hs : B.debug = true → Repeatable C look) {fuel : Nat}
    (hf : C.recvBufferSize < fuel) (ops : List COp) :
    ∀ {w w' : C.World} {os : List (Option Byte)} {xs : List Byte} {ms : List Msg}, Follows look idle w xs ms →
    w.Legal B fuel ops → w.run B fuel ops = .ok (w', os) → ∃ ys ns, Follows look idle w' ys ns := by
  induction ops with
  | nil =>
    intro w w' os xs ms h _ hr
    simp [World.run] at hr
    exact ⟨xs, ms, hr.1 ▸ h⟩
  | cons op ops ih =>
    intro w w' os xs ms h hl hr
    rw [World.run] at hr
    cases e : w.step B fuel op with
    | error f => simp [e] at hr
    | ok y =>
      obtain ⟨w1, o⟩ := y
      obtain ⟨ys, ns, hh⟩ := step_follows ha hi hp ho hs hf h (by
        have := hl.1
        cases op <;> simp_all) e
      simp only [e, ok_bind] at hr
      cases hr2 : w1.run B fuel ops with
      | error f => simp [hr2] at hr
      | ok y =>
        simp [hr2] at hr
        exact ih hh (hl.2 w1 o e) (hr2.trans (by rw [← hr.1]))

theorem follows_new (hi : Performs C look idle) : Follows look idle (World.new C) [] [] :=
  ⟨holds_new C, hi.start, rfl, fun h => h⟩

/-- A history that ends with a poll, cut before it. -/
theorem run_split {B : Build} {fuel : Nat} {w : C.World} : ∀ (ops : List COp) (v : C.World) (os : List (Option Byte)),
    v.Legal B fuel (ops ++ [.process]) → v.run B fuel (ops ++ [.process]) = .ok (w, os) →
    ∃ v1 os1 o, v.Legal B fuel ops ∧ v.run B fuel ops = .ok (v1, os1) ∧ v1.step B fuel .process = .ok (w, o) := by
  intro ops
  induction ops with
  | nil =>
    intro v os _ hr
    simp only [List.nil_append, World.run] at hr
    cases hst : v.step B fuel .process with
    | error f => simp [hst] at hr
    | ok y => simp [hst] at hr; exact ⟨v, [], y.2, trivial, rfl, by rw [hst, ← hr.1]⟩
  | cons op ops ih =>
    intro v os hl hr
    rw [List.cons_append] at hl hr
    rw [World.run] at hr
    cases hst : v.step B fuel op with
    | error f => simp [hst] at hr
    | ok y =>
      simp only [hst, ok_bind] at hr
      cases hr2 : y.1.run B fuel (ops ++ [.process]) with
      | error f => simp [hr2] at hr
      | ok z =>
        simp [hr2] at hr
        obtain ⟨v1, os1, o, hl1, hr1, hs1⟩ := ih y.1 z.2 (hl.2 y.1 y.2 hst) (by rw [hr2, ← hr.1])
        refine ⟨v1, y.2 :: os1, o, ⟨hl.1, fun w' o' e => ?_⟩, ?_, hs1⟩
        · rw [hst] at e
          cases e
          exact hl1
        · simp [World.run, hst, hr1]

/-! ### Streams -/

theorem look_nil (hp : ProperLook C look) : look [] = ([], none) := by
  have h1 := hp.shrinks []
  cases hx : look [] with
  | mk ys found =>
    rw [hx] at h1
    simp at h1
    subst h1
    cases found with
    | none => rfl
    | some id =>
      obtain ⟨k, hk, hle⟩ := hp.whole [] [] id hx
      have := lookLength_pos hp hk
      simp at hle
      omega

/-- Bytes that show messages are read as these. -/
theorem reads_shown (hp : ProperLook C look) : ∀ (ps : List (List Byte × Msg)), (∀ p ∈ ps, Shows C look p.1 p.2) →
    ∀ {s r : List Byte} {ns : List Msg}, Finds C look s ns r →
    Finds C look ((ps.map (·.1)).flatten ++ s) (ps.map (·.2) ++ ns) r := by
  intro ps
  induction ps with
  | nil => intro _ s r ns h; exact h
  | cons p ps ih =>
    intro hall s r ns h
    obtain ⟨plain, t, hf, ht, hlen, hpay⟩ := hall p (by simp)
    have ih := ih (fun q hq => hall q (by simp [hq])) h
    have hof := hp.offset
    simp only [List.map_cons, List.flatten_cons, List.cons_append, List.append_assoc]
    have := Finds.take (hf ((ps.map (·.1)).flatten ++ s)) ht (by
      rw [← hlen, List.drop_left]
      exact ih)
    rw [List.drop_append_of_le_length (by omega), List.take_append_of_le_length (by simp; omega), ← hpay] at this
    exact this

end Custom
end TT
