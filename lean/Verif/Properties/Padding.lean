import Verif.Model.Padding
import Verif.Properties.EndToEnd

/-!
# Property about fields with padding bytes: C113
-/

namespace TT.Properties
open Spec

variable {C : Collection} {B : Build} {user : UserCode} {fuel : Nat} {σ : Type}

/-! ### C113 -/

/-- Which bytes of a type are padding: number of the type, position. -/
abbrev Padding := Nat → Nat → Bool

/-- Two representations of the same value: they differ in padding at most. -/
def SameValue (P : Padding) : FieldType → List Byte → List Byte → Prop
  | .uint8, a, b => a = b
  | .pod ty _, a, b => a.length = b.length ∧ ∀ i, P ty i = false → a[i]? = b[i]?

/-- The same values one after the other. -/
def SameValues (P : Padding) : List FieldType → List (List Byte) → List (List Byte) → Prop
  | f :: fs, a :: as, b :: bs => SameValue P f a b ∧ SameValues P fs as bs
  | _, as, bs => as = bs

/-- The same messages with the same values. -/
def SameMessages (P : Padding) (as bs : List (MsgType × List (List Byte))) : Prop :=
  as.length = bs.length ∧ ∀ p ∈ as.zip bs, p.1.1 = p.2.1 ∧ SameValues P p.1.1.fields p.1.2 p.2.2

/-- Copies have the same value. -/
def KeepsValues (P : Padding) (K : Copier) : Prop :=
  ∀ i ty bs, (K i ty bs).length = bs.length ∧ ∀ j, P ty j = false → (K i ty bs)[j]? = bs[j]?

/-- User code that does not look at padding. -/
def Blind (P : Padding) (user : UserCode) : Prop :=
  ∀ calls calls' free, calls.length = calls'.length →
    (∀ p ∈ calls.zip calls', p.1.obj = p.2.obj ∧ p.1.msg = p.2.msg ∧ p.1.spread = p.2.spread ∧
      SameValues P p.1.msg.fields p.1.args p.2.args) →
    user calls free = user calls' free

theorem SameValue.refl (P : Padding) (f : FieldType) (a : List Byte) : SameValue P f a a := by
  cases f <;> simp [SameValue]

variable {P : Padding} {K : Copier}

theorem KeepsValues.field (h : KeepsValues P K) (i : Nat) (f : FieldType) (a : List Byte) :
    SameValue P f (K.field i f a) a := by
  cases f with
  | uint8 => rfl
  | pod ty n => exact ⟨(h i ty a).1, (h i ty a).2⟩

theorem SameValue.length {f : FieldType} {a b : List Byte} (h : SameValue P f a b) : a.length = b.length := by
  cases f with
  | uint8 => rw [h]
  | pod ty n => exact h.1

theorem fields_ty (K : Copier) : ∀ (vs : List Value) (i : Nat), (K.fields i vs).map (·.ty) = vs.map (·.ty) := by
  intro vs
  induction vs with
  | nil => intro i; rfl
  | cons v vs ih => intro i; simp [Copier.fields, ih]

theorem fields_same (h : KeepsValues P K) : ∀ (vs : List Value) (i : Nat),
    SameValues P (vs.map (·.ty)) ((K.fields i vs).map (·.bytes)) (vs.map (·.bytes)) := by
  intro vs
  induction vs with
  | nil => intro i; rfl
  | cons v vs ih => intro i; exact ⟨h.field i v.ty v.bytes, ih (i + 1)⟩

theorem fields_fit (h : KeepsValues P K) : ∀ (vs : List Value) (i : Nat), (∀ v ∈ vs, Value.Fits v) →
    ∀ v ∈ K.fields i vs, Value.Fits v := by
  intro vs
  induction vs with
  | nil => intro i _ v hv; cases hv
  | cons v vs ih =>
    intro i hv u hu
    rcases List.mem_cons.mp hu with rfl | hu
    · unfold Value.Fits
      rw [(h.field i v.ty v.bytes).length]
      exact hv v (by simp)
    · exact ih (i + 1) (fun x hx => hv x (by simp [hx])) u hu

/-- C113 (sending). Whatever the copies do to padding, one correct message is sent whose fields have the values given to
`send`; the checksum is right, and the length is always the same. A call compiles if and only if it does otherwise. -/
theorem C113_sent (hK : KeepsValues P K) (C : Collection) (t : MsgType) (vs : List Value) :
    (∀ id, Sendable C t vs → idOf C t id →
      ∃ us, us.map (·.ty) = t.fields ∧ SameValues P t.fields (us.map (·.bytes)) (vs.map (·.bytes)) ∧
        (payloadOf us).length = (payloadOf vs).length ∧
        ∀ (σ : Type) (T : Tx σ) (s : σ), sendCopied K C t T s vs = some (feed T s (script C.envelope id us))) ∧
    (¬ Sendable C t vs → ∀ (σ : Type) (T : Tx σ) (s : σ), sendCopied K C t T s vs = none) := by
  have hty := fields_ty K vs 0
  refine ⟨fun id hs hid => ⟨K.fields 0 vs, hty.trans hs.2.2, ?_, ?_, fun σ T s => ?_⟩, fun hs σ T s => ?_⟩
  · rw [← hs.2.2]; exact fields_same hK vs 0
  · have : ∀ (vs : List Value) (i : Nat), (payloadOf (K.fields i vs)).length = (payloadOf vs).length := by
      intro vs
      induction vs with
      | nil => intro i; rfl
      | cons v vs ih =>
        intro i
        have := ih (i + 1)
        unfold payloadOf at this ⊢
        simp only [Copier.fields, List.map_cons, List.flatten_cons, List.length_append, this,
          (hK.field i v.ty v.bytes).length]
    exact this vs 0
  · exact send_eq C t T s _ ⟨hs.1, hs.2.1, hty.trans hs.2.2⟩ hid
  · exact send_none C t T s _ fun h => hs ⟨h.1, h.2.1, hty.symm.trans h.2.2⟩

theorem fields_id (hK : KeepsValues P K) : ∀ (vs : List Value) (i : Nat), (∀ v ∈ vs, Value.Fits v) →
    (∀ ty n, FieldType.pod ty n ∈ vs.map (·.ty) → ∀ j < n, P ty j = false) → K.fields i vs = vs := by
  intro vs
  induction vs with
  | nil => intro i _ _; rfl
  | cons v vs ih =>
    intro i hv hp
    have h2 := ih (i + 1) (fun x hx => hv x (by simp [hx])) fun ty n hm => hp ty n (by simp at hm ⊢; exact .inr hm)
    have hfit : Value.Fits v := hv v (by simp)
    unfold Copier.fields
    rw [h2]
    obtain ⟨f, bs⟩ := v
    cases f with
    | uint8 => rfl
    | pod ty n =>
      have hlen : bs.length = n := hfit
      have : K i ty bs = bs := by
        apply List.ext_getElem?
        intro j
        by_cases hj : j < n
        · exact (hK i ty bs).2 j (hp ty n (by simp) j hj)
        · rw [List.getElem?_eq_none (by have := (hK i ty bs).1; omega), List.getElem?_eq_none (by omega)]
      simp [Copier.field, this]

/-- A compiler that changes one byte of each copy of one type. -/
def spoil (ty j : Nat) : Copier := fun _ ty' bs => if ty' = ty then bs.set j (bs.getD j 0 + 1) else bs

theorem spoil_keeps {ty j : Nat} (h : P ty j = true) : KeepsValues P (spoil ty j) := by
  intro i ty' bs
  unfold spoil
  split
  · rename_i e
    subst e
    refine ⟨by simp, fun k hk => ?_⟩
    rw [List.getElem?_set_ne]
    rintro rfl
    rw [h] at hk; cases hk
  · exact ⟨rfl, fun _ _ => rfl⟩

theorem spoil_changes {ty n j : Nat} : ∀ (vs : List Value) (i : Nat), (∀ v ∈ vs, Value.Fits v) →
    FieldType.pod ty n ∈ vs.map (·.ty) → j < n →
    ((spoil ty j).fields i vs).map (·.bytes) ≠ vs.map (·.bytes) := by
  intro vs
  induction vs with
  | nil => intro i _ hm; cases hm
  | cons v vs ih =>
    intro i hv hm hj e
    simp only [Copier.fields, List.map_cons, List.cons.injEq] at e
    rcases List.mem_cons.mp hm with hm | hm
    · have hm : FieldType.pod ty n = v.ty := hm
      have hlen : v.bytes.length = n := by have := hv v (by simp); rw [Value.Fits, ← hm] at this; exact this
      have e := e.1
      rw [← hm] at e
      simp only [Copier.field, spoil, if_true] at e
      have e := congrArg (·[j]?) e
      have hl : j < v.bytes.length := by omega
      simp [hl] at e
    · exact ih (i + 1) (fun x hx => hv x (by simp [hx])) hm hj e.2

/-- C113 (what is on the wire). The bytes sent are determined by the values if and only if no field has padding. -/
theorem C113_determined (C : Collection) (t : MsgType) (vs : List Value) (hs : Sendable C t vs)
    (hf : ∀ v ∈ vs, Value.Fits v) :
    (∀ K, KeepsValues P K → ∀ (σ : Type) (T : Tx σ) (s : σ), sendCopied K C t T s vs = send C t T s vs) ↔
      ∀ ty n, FieldType.pod ty n ∈ t.fields → ∀ j < n, P ty j = false := by
  constructor
  · intro h ty n hm j hj
    cases hp : P ty j with
    | false => rfl
    | true =>
      exfalso
      have hty := fields_ty (spoil ty j) vs 0
      have e : sendAll vectorBuffer [] [⟨C, t, (spoil ty j).fields 0 vs⟩] = sendAll vectorBuffer [] [⟨C, t, vs⟩] := by
        have := h (spoil ty j) (spoil_keeps hp) _ vectorBuffer []
        unfold sendCopied at this
        simp only [sendAll, this]
      rw [C06_vector_accumulates [] [⟨C, t, vs⟩] (by simpa using hs),
        C06_vector_accumulates [] [⟨C, t, (spoil ty j).fields 0 vs⟩]
          (by simpa using ⟨hs.1, hs.2.1, hty.trans hs.2.2⟩)] at e
      simp only [List.map_cons, List.map_nil, List.flatten_cons, List.flatten_nil, List.append_nil, List.nil_append,
        Option.some.injEq, Except.ok.injEq] at e
      have e := congrArg Msg.payload (frame_inj e)
      have e := congrArg (splitFields (vs.map (·.ty))) e
      simp only at e
      rw [splitFields_payloadOf hf, ← hty, splitFields_payloadOf (fields_fit (spoil_keeps hp) vs 0 hf)] at e
      rw [← hs.2.2] at hm
      exact spoil_changes vs 0 hf hm hj e
  · intro h K hK σ T s
    unfold sendCopied
    rw [fields_id hK vs 0 hf (by rw [hs.2.2]; exact h)]

theorem args_same (h : KeepsValues P K) : ∀ (fs : List FieldType) (as : List (List Byte)) (i : Nat),
    SameValues P fs (K.args i fs as) as := by
  intro fs
  induction fs with
  | nil => intro as i; simp [Copier.args, SameValues]
  | cons f fs ih =>
    intro as i
    cases as with
    | nil => simp [Copier.args, SameValues]
    | cons a as => exact ⟨h.field i f a, ih as (i + 1)⟩

theorem sees_same {Ks : Nat → Copier} (h : ∀ i, KeepsValues P (Ks i)) (calls : List UserCall) :
    (seesCopies Ks calls).length = calls.length ∧
    ∀ p ∈ (seesCopies Ks calls).zip calls, p.1.obj = p.2.obj ∧ p.1.msg = p.2.msg ∧ p.1.spread = p.2.spread ∧
      SameValues P p.1.msg.fields p.1.args p.2.args := by
  refine ⟨by simp [seesCopies], fun p hp => ?_⟩
  obtain ⟨i, hi, rfl⟩ := List.mem_iff_getElem.mp hp
  simp only [List.getElem_zip, seesCopies, List.getElem_mapIdx]
  exact ⟨rfl, rfl, rfl, args_same (h i) _ _ 0⟩

/-- C113 (receiving). Handlers are called with the same values, whatever the copies on the way do to padding. -/
theorem C113_seen {Ks : Nat → Copier} (hK : ∀ i, KeepsValues P (Ks i)) (w : World C) :
    (seesCopies Ks w.userCalls).map (fun c => (c.obj, c.msg, c.spread)) =
      w.userCalls.map (fun c => (c.obj, c.msg, c.spread)) ∧
    SameMessages P ((seesCopies Ks w.userCalls).map fun c => (c.msg, c.args)) (w.userCalls.map fun c => (c.msg, c.args)) := by
  obtain ⟨h1, h2⟩ := sees_same hK w.userCalls
  refine ⟨?_, by simp [h1], fun p hp => ?_⟩
  · apply List.ext_getElem (by simp [seesCopies])
    intro i _ _
    simp [seesCopies, Copier.call]
  · rw [List.zip_map] at hp
    obtain ⟨q, hq, rfl⟩ := List.mem_map.mp hp
    exact ⟨(h2 q hq).2.1, (h2 q hq).2.2.2⟩

/-- C113 (handlers). For handlers that do not look at padding, the copies make no difference at all: every history is what it
is without them. -/
theorem C113_blind (hb : Blind P user) {Ks : Nat → Copier} (hK : ∀ i, KeepsValues P (Ks i)) (w : World C) (ops : List Op) :
    w.run B (user.givenCopies Ks) fuel ops = w.run B user fuel ops := by
  have : user.givenCopies Ks = user := by
    funext calls free
    obtain ⟨h1, h2⟩ := sees_same hK calls
    exact hb _ _ free h1 h2
  rw [this]

theorem sendAllCopied_eq (T : Tx σ) : ∀ (rs : List (Copier × MsgType × List Value)) (s : σ),
    sendAllCopied C T s rs = sendAll T s (rs.map fun r => ⟨C, r.2.1, r.1.fields 0 r.2.2⟩) := by
  intro rs
  induction rs with
  | nil => intro s; rfl
  | cons r rs ih =>
    intro s
    obtain ⟨K, t, vs⟩ := r
    simp only [sendAllCopied, sendCopied, List.map_cons, sendAll]
    split <;> simp_all

/-- C113 (end to end). Messages with padding sent over a faithful line arrive with the values they were sent with, whatever
the copies at the sender and at the receiver do to padding. -/
theorem C113_round_trip {T : Tx σ} {log : σ → List Byte} (hT : Faithful T log) {Ks : Nat → Copier}
    (S : Setting C B (user.givenCopies Ks)) (hn : NeverThrows (user.givenCopies Ks))
    (rs : List (Copier × MsgType × List Value))
    (hrs : ∀ r ∈ rs, KeepsValues P r.1 ∧ Sendable C r.2.1 r.2.2 ∧ ∀ v ∈ r.2.2, Value.Fits v) (s s' : σ)
    (hsend : sendAllCopied C T s rs = some (.ok s')) {ops : List Op} {w : World C} {os : List Obs}
    (h : Reached B (user.givenCopies Ks) fuel (ops ++ [.process]) w os) (hh : w.rx.hasHandler = true)
    (hfed : log s' = log s ++ w.fed) :
    SameMessages P (delivered w) (rs.map fun r => (r.2.1, r.2.2.map (·.bytes))) := by
  rw [sendAllCopied_eq] at hsend
  have hd := (C25_round_trip hT S hn _ ?_ s s' hsend h hh hfed).1
  · rw [hd, List.map_map]
    refine ⟨by simp, fun p hp => ?_⟩
    rw [List.zip_map'] at hp
    obtain ⟨r, hr, rfl⟩ := List.mem_map.mp hp
    refine ⟨rfl, ?_⟩
    obtain ⟨hK, hs, -⟩ := hrs r hr
    simp only [Function.comp]
    rw [← hs.2.2]
    exact fields_same hK _ 0
  · intro q hq
    obtain ⟨r, hr, rfl⟩ := List.mem_map.mp hq
    obtain ⟨hK, hs, hf⟩ := hrs r hr
    exact ⟨rfl, ⟨hs.1, hs.2.1, (fields_ty _ _ _).trans hs.2.2⟩, fields_fit hK _ 0 hf⟩

/-- C113, witness. Two correct messages that differ in one padding byte: a program that compares the bytes sent, or the
checksums, takes equal values for different ones. -/
theorem C113_compare_witness :
    let t : MsgType := ⟨0, [.pod 5 4]⟩
    let C : Collection := ⟨[t], .basicChecksum⟩
    let P : Padding := fun ty i => ty == 5 && i == 1
    KeepsValues P (spoil 5 1) ∧
    send C t vectorBuffer [] [⟨.pod 5 4, [7, 0, 8, 9]⟩] = some (.ok [1, 0, 2, 7, 0, 8, 9, 3, 30, 4]) ∧
    sendCopied (spoil 5 1) C t vectorBuffer [] [⟨.pod 5 4, [7, 0, 8, 9]⟩] =
      some (.ok [1, 0, 2, 7, 1, 8, 9, 3, 31, 4]) :=
  ⟨spoil_keeps rfl, by decide +kernel, by decide +kernel⟩

/-- C113, witness. A handler that looks at padding (it throws if the second byte of the structure is not 0) throws or does not,
depending on the copies. -/
theorem C113_look_witness :
    let P : Padding := fun ty i => ty == 0 && i == 1
    let user : UserCode := fun calls _ => ⟨[], calls.getLast?.any fun c => (c.args.getD 1 []).getD 1 0 != 0⟩
    let ops : List Op := [.setHandler Sample.h0, .append [1, 2, 2, 9, 8, 0, 7, 6, 5, 4, 3, 4], .process]
    KeepsValues P (spoil 0 1) ∧
    ((World.new Sample.basic).run Sample.dbg user 50 ops).map (fun r => (delivered r.1, r.2.getLast?)) =
      .ok ([(Sample.pose, [[9], [8, 0, 7, 6], [5, 4]])], some (.processed (.returned 1))) ∧
    ((World.new Sample.basic).run Sample.dbg (user.givenCopies fun _ => spoil 0 1) 50 ops).map
      (fun r => (delivered r.1, r.2.getLast?)) =
      .ok ([(Sample.pose, [[9], [8, 0, 7, 6], [5, 4]])], some (.processed .threw)) :=
  ⟨spoil_keeps rfl, by decide +kernel, by decide +kernel⟩

/-- A structure of four bytes, of which the second is padding. -/
def samplePadding : Padding := fun ty i => ty == 0 && i == 1

example := C113_sent (spoil_keeps (P := samplePadding) (ty := 0) (j := 1) rfl) Sample.checked Sample.pose Sample.poseVals

/-- The message can be sent in several ways. -/
example : ¬ ∀ K, KeepsValues samplePadding K → ∀ (σ : Type) (T : Tx σ) (s : σ),
    sendCopied K Sample.checked Sample.pose T s Sample.poseVals = send Sample.checked Sample.pose T s Sample.poseVals := by
  rw [C113_determined Sample.checked Sample.pose Sample.poseVals (by decide) (by decide)]
  intro h
  exact absurd (h 0 4 (by decide) 1 (by decide)) (by decide)

/-- Copies at the sender and at the receiver: what is sent, the values received, and what the handler is given. -/
example : ∃ (w : World Sample.basic) (os : List Obs),
    Reached Sample.dbg (UserCode.givenCopies (fun _ => spoil 0 1) Sample.passive) 50
      ([.setHandler Sample.h0, .append [1, 2, 2, 1, 1, 1, 2, 3, 3, 4, 3, 4]] ++ [.process]) w os ∧
    SameMessages samplePadding (delivered w) [(Sample.pose, Sample.poseVals.map (·.bytes))] ∧
    (seesCopies (fun _ => spoil 0 1) w.userCalls).map (·.args) = [[[1], [1, 2, 2, 3], [3, 4]]] := by
  obtain ⟨w, os, h, hp⟩ := Sample.reached (C := Sample.basic) (B := Sample.dbg)
    (user := UserCode.givenCopies (fun _ => spoil 0 1) Sample.passive) (fuel := 50)
    (ops := [.setHandler Sample.h0, .append [1, 2, 2, 1, 1, 1, 2, 3, 3, 4, 3, 4]] ++ [.process])
    (fun w _ => w.rx.hasHandler && (seesCopies (fun _ => spoil 0 1) w.userCalls).map (·.args) ==
      [[[1], [1, 2, 2, 3], [3, 4]]]) (by decide +kernel)
  have hf := C25_fed_is_chunks Sample.setting_basic Sample.passive_quiet (by simp) h
  simp only [Bool.and_eq_true, beq_iff_eq] at hp
  refine ⟨w, os, h, C113_round_trip (T := vectorBuffer) (log := id) (user := Sample.passive)
    (Ks := fun _ => spoil 0 1) vectorBuffer_faithful Sample.setting_basic
    Sample.passive_neverThrows [(spoil 0 1, Sample.pose, Sample.poseVals)] ?_ []
    [1, 2, 2, 1, 1, 1, 2, 3, 3, 4, 3, 4] (by decide +kernel) h hp.1 ?_, hp.2⟩
  · intro r hr
    simp only [List.mem_cons, List.not_mem_nil, or_false] at hr
    subst hr
    exact ⟨spoil_keeps rfl, by decide, by decide⟩
  · rw [hf]; rfl

/-- A handler that throws if the first member of the structure is 9. -/
def checksFirst : UserCode := fun calls _ =>
  ⟨[], calls.getLast?.any fun c => c.msg = Sample.pose && c.args[1]?.any fun a => a[0]? == some 9⟩

theorem checksFirst_blind : Blind samplePadding checksFirst := by
  intro calls calls' free hl hc
  unfold checksFirst
  rcases List.eq_nil_or_concat calls with rfl | ⟨cs, c, rfl⟩
  · rw [List.eq_nil_of_length_eq_zero hl.symm]
  rcases List.eq_nil_or_concat calls' with rfl | ⟨cs', c', rfl⟩
  · simp at hl
  obtain ⟨-, hm, -, hv⟩ := hc (c, c') (by
    rw [List.concat_eq_append, List.concat_eq_append, List.zip_append (by simpa using hl)]
    simp)
  simp only [List.concat_eq_append, List.getLast?_append, List.getLast?_singleton, Option.some_or, Option.any_some,
    Reaction.mk.injEq, true_and]
  simp only at hm hv
  rw [← hm]
  by_cases hp : c.msg = Sample.pose
  · rw [hp] at hv
    have : c.args[1]?.bind (·[0]?) = c'.args[1]?.bind (·[0]?) := by
      revert hv
      cases c.args with
      | nil =>
        cases c'.args with
        | nil => intro _; rfl
        | cons b bs => intro hv; cases hv
      | cons a as =>
        cases c'.args with
        | nil => intro hv; cases hv
        | cons b bs =>
          rintro ⟨-, hv⟩
          cases as with
          | nil =>
            cases bs with
            | nil => rfl
            | cons b2 bs => cases hv
          | cons a2 as =>
            cases bs with
            | nil => cases hv
            | cons b2 bs =>
              have := hv.1.2 0 rfl
              simpa using this
    have key : ∀ o : Option (List Byte), (o.any fun a => a[0]? == some 9) = (o.bind (·[0]?) == some 9) := by
      intro o; cases o <;> rfl
    rw [key, key, this]
  · simp [hp]

example (w : World Sample.basic) (ops : List Op) :
    w.run Sample.dbg (checksFirst.givenCopies fun _ => spoil 0 1) 50 ops = w.run Sample.dbg checksFirst 50 ops :=
  C113_blind checksFirst_blind (fun _ => spoil_keeps rfl) w ops

end TT.Properties
