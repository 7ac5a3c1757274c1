import Verif.Model.References
import Verif.Properties.EndToEnd

/-!
# Property about compositions whose components are shared or destroyed: C115
-/

namespace TT.Properties
open Spec

variable {C : Collection} {B : Build} {user : UserCode} {fuel : Nat} {σ : Type}

/-! ### C115 -/

/-- In how many ways an object is reached. -/
def ways (i : Nat) : TRef → Nat
  | .obj j => if j = i then 1 else 0
  | .comp _ a b => ways i a + ways i b

/-- All objects that are reached: compositions and others. -/
def objects : TRef → List Nat
  | .obj i => [i]
  | .comp k a b => k :: (objects a ++ objects b)

/-- Each output `n` times. -/
def repeated (n : Nat) (os : List Out) : List Out := (os.map (List.replicate n)).flatten

/-- The calls object `i` gets when these are made on a transmitter: on the object itself, exactly these; through
compositions, each as often as there are ways to the object, but not `outputFinished`. -/
def callsFor (i : Nat) (r : TRef) (os : List Out) : List Out :=
  match r with
  | .obj j => if j = i then os else []
  | .comp _ _ _ => repeated (ways i r) (data os)

theorem repeated_zero (os : List Out) : repeated 0 os = [] := by
  induction os with
  | nil => rfl
  | cons o os ih => simp [repeated]

theorem repeated_one (os : List Out) : repeated 1 os = os := by
  induction os with
  | nil => rfl
  | cons o os ih =>
    have : repeated 1 (o :: os) = o :: repeated 1 os := by simp [repeated]
    rw [this, ih]

theorem put_eq {m : TMem σ} {i : Nat} {s : σ} {m' : TMem σ} :
    m.put i s = m' ↔ m' i = s ∧ ∀ j, j ≠ i → m' j = m j := by
  constructor
  · rintro rfl
    exact ⟨by simp [TMem.put], fun j hj => by simp [TMem.put, hj]⟩
  · rintro ⟨h1, h2⟩
    funext j
    by_cases hj : j = i
    · subst hj; simp [TMem.put, h1]
    · simp [TMem.put, hj, h2 j hj]

theorem obj_on (T : Nat → Tx σ) (dead : List Nat) (i : Nat) (m m' : TMem σ) (o : Out) :
    o.on (refTx T dead (.obj i)) m = .ok m' ↔
      i ∉ dead ∧ o.on (T i) (m i) = .ok (m' i) ∧ ∀ j, j ≠ i → m' j = m j := by
  have key : ∀ x : Res σ, (if i ∈ dead then (.error .ub : Res (TMem σ)) else
      (x >>= fun s => pure (m.put i s))) = .ok m' ↔ i ∉ dead ∧ x = .ok (m' i) ∧ ∀ j, j ≠ i → m' j = m j := by
    intro x
    by_cases hd : i ∈ dead
    · simp [hd]
    · rw [if_neg hd]
      cases x with
      | error f => simp [bind, Except.bind]
      | ok s =>
        have : ((Except.ok s : Res σ) >>= fun s => pure (m.put i s)) = (.ok (m.put i s) : Res (TMem σ)) := rfl
        rw [this]
        simp only [Except.ok.injEq, put_eq, hd, not_false_eq_true, true_and, eq_comm (a := s)]
  cases o with
  | byte b => exact key _
  | block bs => exact key _
  | finished => exact key _

theorem comp_on (T : Nat → Tx σ) (dead : List Nat) (k : Nat) (a b : TRef) (m : TMem σ) {o : Out}
    (ho : o ≠ .finished) :
    o.on (refTx T dead (.comp k a b)) m =
      if k ∈ dead then .error .ub else (o.on (refTx T dead a) m).bind fun m => o.on (refTx T dead b) m := by
  cases o with
  | byte b => rfl
  | block bs => rfl
  | finished => exact absurd rfl ho

/-- What is left of a state after outputs that may fail. -/
def after (T : Tx σ) (s : σ) (os : List Out) : σ :=
  match feed T s os with
  | .ok s' => s'
  | .error _ => s

theorem feed_two (T : Tx σ) (s s' : σ) (a b : List Out) :
    feed T s (a ++ b) = .ok s' ↔ ∃ s1, feed T s a = .ok s1 ∧ feed T s1 b = .ok s' := by
  rw [feed_append]
  cases feed T s a with
  | error f => simp [Except.bind]
  | ok s1 => simp [Except.bind]

theorem ref_on (T : Nat → Tx σ) (dead : List Nat) {o : Out} (ho : o ≠ .finished) : ∀ (r : TRef) (m m' : TMem σ),
    o.on (refTx T dead r) m = .ok m' ↔
      (∀ k ∈ objects r, k ∉ dead) ∧ ∀ i, feed (T i) (m i) (List.replicate (ways i r) o) = .ok (m' i) := by
  intro r
  induction r with
  | obj i =>
    intro m m'
    rw [obj_on]
    have h1 : ∀ s, feed (T i) s [o] = o.on (T i) s := by
      intro s; rw [feed_cons]; cases o.on (T i) s <;> rfl
    constructor
    · rintro ⟨hd, h, hj⟩
      refine ⟨by simpa [objects] using hd, fun j => ?_⟩
      by_cases hji : j = i
      · subst hji; simp only [ways, if_true, List.replicate_one]; rw [h1]; exact h
      · have : i ≠ j := fun e => hji e.symm
        simp only [ways, if_neg this, List.replicate_zero, feed]
        rw [hj j hji]
    · rintro ⟨hd, h⟩
      refine ⟨by simpa [objects] using hd, ?_, fun j hj => ?_⟩
      · have := h i
        simp only [ways, if_true, List.replicate_one] at this
        rw [h1] at this; exact this
      · have := h j
        simp only [ways, if_neg (Ne.symm hj), List.replicate_zero, feed, Except.ok.injEq] at this
        exact this.symm
  | comp k a b iha ihb =>
    intro m m'
    rw [comp_on T dead k a b m ho]
    simp only [objects, List.mem_cons, List.mem_append, ways, ← List.replicate_append_replicate, feed_two]
    by_cases hk : k ∈ dead
    · rw [if_pos hk]
      constructor
      · intro h; cases h
      · rintro ⟨h, _⟩; exact absurd hk (h k (Or.inl rfl))
    · rw [if_neg hk]
      constructor
      · intro h
        cases ha : o.on (refTx T dead a) m with
        | error f => rw [ha] at h; cases h
        | ok m1 =>
          rw [ha] at h
          obtain ⟨da, fa⟩ := (iha m m1).mp ha
          obtain ⟨db, fb⟩ := (ihb m1 m').mp h
          refine ⟨?_, fun i => ⟨m1 i, fa i, fb i⟩⟩
          rintro x (rfl | hx | hx)
          · exact hk
          · exact da x hx
          · exact db x hx
      · rintro ⟨hd, h⟩
        have ha : o.on (refTx T dead a) m = .ok fun i => after (T i) (m i) (List.replicate (ways i a) o) := by
          refine (iha _ _).mpr ⟨fun x hx => hd x (Or.inr (Or.inl hx)), fun i => ?_⟩
          obtain ⟨s1, h1, _⟩ := h i
          simp [after, h1]
        rw [ha]
        refine (ihb _ _).mpr ⟨fun x hx => hd x (Or.inr (Or.inr hx)), fun i => ?_⟩
        obtain ⟨s1, h1, h2⟩ := h i
        simp only [after, h1]
        exact h2

theorem ref_feed (T : Nat → Tx σ) (dead : List Nat) (r : TRef) : ∀ (os : List Out), (∀ o ∈ os, o ≠ .finished) →
    ∀ (m m' : TMem σ), feed (refTx T dead r) m os = .ok m' ↔
      (os ≠ [] → ∀ k ∈ objects r, k ∉ dead) ∧ ∀ i, feed (T i) (m i) (repeated (ways i r) os) = .ok (m' i) := by
  intro os
  induction os with
  | nil =>
    intro _ m m'
    simp only [feed, ne_eq, not_true_eq_false, false_implies, true_and, repeated, List.map_nil, List.flatten_nil,
      Except.ok.injEq]
    exact ⟨fun h i => by rw [h], funext⟩
  | cons o os ih =>
    intro ho m m'
    have hrep : ∀ i, repeated (ways i r) (o :: os) = List.replicate (ways i r) o ++ repeated (ways i r) os := by
      intro i; simp [repeated]
    simp only [hrep, feed_two]
    rw [feed_cons]
    have ih := ih fun o' h' => ho o' (by simp [h'])
    constructor
    · intro h
      cases h1 : o.on (refTx T dead r) m with
      | error f => rw [h1] at h; cases h
      | ok m1 =>
        rw [h1] at h
        obtain ⟨d1, f1⟩ := (ref_on T dead (ho o (by simp)) r m m1).mp h1
        obtain ⟨_, f2⟩ := (ih m1 m').mp h
        exact ⟨fun _ => d1, fun i => ⟨m1 i, f1 i, f2 i⟩⟩
    · rintro ⟨hd, h⟩
      have h1 : o.on (refTx T dead r) m = .ok fun i => after (T i) (m i) (List.replicate (ways i r) o) := by
        refine (ref_on T dead (ho o (by simp)) r _ _).mpr ⟨hd (by simp), fun i => ?_⟩
        obtain ⟨s1, e1, _⟩ := h i
        simp [after, e1]
      rw [h1]
      refine (ih _ _).mpr ⟨fun _ => hd (by simp), fun i => ?_⟩
      obtain ⟨s1, e1, e2⟩ := h i
      simp only [after, e1]
      exact e2

/-- A script is data and then `finished`. -/
theorem script_data (E : Envelope) (id : Byte) (vs : List Value) : ∃ ds, script E id vs = ds ++ [.finished] ∧
    data (script E id vs) = ds ∧ ds ≠ [] ∧ (∀ o ∈ ds, o ≠ .finished) ∧ ∃ rest, ds = .byte 0x01 :: rest := by
  have hv : ∀ v : Value, outField v ≠ .finished := by
    rintro ⟨ty, bs⟩
    cases ty with
    | uint8 => cases bs with
      | nil => simp [outField]
      | cons b bs => cases bs <;> simp [outField]
    | pod _ _ => simp [outField]
  have key : ∀ ds : List Out, (∀ o ∈ ds, o ≠ .finished) → data (ds ++ [.finished]) = ds := by
    intro ds h
    simp only [data, List.filter_append]
    rw [List.filter_eq_self.mpr (by simpa using h)]
    simp
  cases E with
  | basic =>
    refine ⟨_, rfl, key _ ?_, by simp, ?_, _, rfl⟩ <;>
    · intro o ho
      simp only [List.mem_append, List.mem_cons, List.mem_map, List.not_mem_nil, or_false] at ho
      rcases ho with ((rfl | rfl | rfl) | ⟨v, _, rfl⟩) | (rfl | rfl) <;> first | exact hv _ | simp
  | basicChecksum =>
    refine ⟨_, rfl, key _ ?_, by simp, ?_, _, rfl⟩ <;>
    · intro o ho
      simp only [List.mem_append, List.mem_cons, List.mem_map, List.not_mem_nil, or_false] at ho
      rcases ho with ((rfl | rfl | rfl) | ⟨v, _, rfl⟩) | (rfl | rfl | rfl) <;> first | exact hv _ | simp

/-- C115 (one message). Sending through any tree of references succeeds if and only if no object that is reached has been
destroyed, and each object accepts its calls: every output as often as there are ways to the object, whatever else is done
with the other objects. Its new state is the result. An object that is not reached keeps its state. -/
theorem C115_sent (T : Nat → Tx σ) (dead : List Nat) (r : TRef) {t : MsgType} {vs : List Value} {id : Byte}
    (hs : Sendable C t vs) (hid : idOf C t id) (m m' : TMem σ) :
    send C t (refTx T dead r) m vs = some (.ok m') ↔
      (∀ k ∈ objects r, k ∉ dead) ∧
        ∀ i, feed (T i) (m i) (callsFor i r (script C.envelope id vs)) = .ok (m' i) := by
  rw [send_eq C t _ m vs hs hid]
  obtain ⟨ds, he, hdata, hne, hnf, _⟩ := script_data C.envelope id vs
  simp only [Option.some.injEq]
  cases r with
  | obj j =>
    rw [he, feed_two]
    have hfin : ∀ (U : Tx (TMem σ)) s, feed U s [.finished] = Out.on U s .finished := by
      intro U s; rw [feed_cons]; cases Out.on U s .finished <;> rfl
    have hfin' : ∀ (U : Tx σ) s, feed U s [.finished] = Out.on U s .finished := by
      intro U s; rw [feed_cons]; cases Out.on U s .finished <;> rfl
    have hrep := repeated_one ds
    constructor
    · rintro ⟨m1, h1, h2⟩
      obtain ⟨hd, hf⟩ := (ref_feed T dead (.obj j) ds hnf m m1).mp h1
      refine ⟨hd hne, fun i => ?_⟩
      rw [hfin, obj_on] at h2
      have hfi := hf i
      by_cases hij : j = i
      · subst hij
        simp only [ways, if_true, hrep] at hfi
        simp only [callsFor, if_true]
        rw [feed_two]
        exact ⟨m1 j, hfi, by rw [hfin']; exact h2.2.1⟩
      · simp only [ways, if_neg hij] at hfi
        simp only [callsFor, if_neg hij, feed]
        rw [h2.2.2 i (Ne.symm hij)]
        have := repeated_zero ds
        rw [this] at hfi
        exact hfi
    · rintro ⟨hd, h⟩
      have hj := h j
      simp only [callsFor, if_true, feed_two] at hj
      obtain ⟨s1, h1, h2⟩ := hj
      refine ⟨m.put j s1, (ref_feed T dead (.obj j) ds hnf _ _).mpr ⟨fun _ => hd, fun i => ?_⟩, ?_⟩
      · by_cases hij : j = i
        · subst hij; simp only [ways, if_true, hrep, TMem.put]; exact h1
        · have := repeated_zero ds
          simp [ways, if_neg hij, this, TMem.put, Ne.symm hij, feed]
      · rw [hfin, obj_on]
        refine ⟨hd j (by simp [objects]), ?_, fun i hi => ?_⟩
        · rw [hfin'] at h2; simp only [TMem.put, if_true]; exact h2
        · have := h i
          simp only [callsFor, if_neg (Ne.symm hi), feed, Except.ok.injEq] at this
          simp [TMem.put, hi, this]
  | comp k a b =>
    have hf : ∀ i, callsFor i (.comp k a b) (script C.envelope id vs) = repeated (ways i (.comp k a b)) ds := by
      intro i; simp only [callsFor, hdata]
    simp only [hf]
    rw [he, feed_two]
    constructor
    · rintro ⟨m1, h1, h2⟩
      obtain ⟨hd, hf⟩ := (ref_feed T dead _ ds hnf m m1).mp h1
      have hk : k ∉ dead := hd hne k (by simp [objects])
      simp only [feed, Out.on, refTx, if_neg hk, defaultWriteFinished, Except.ok.injEq] at h2
      subst h2
      exact ⟨hd hne, hf⟩
    · rintro ⟨hd, h⟩
      have hk : k ∉ dead := hd k (by simp [objects])
      refine ⟨m', (ref_feed T dead _ ds hnf m m').mpr ⟨fun _ => hd, h⟩, ?_⟩
      simp only [feed, Out.on, refTx, if_neg hk, defaultWriteFinished]

/-- A checksum computer (object 0), a buffer (object 1); composition 2 of both, composition 3 of that and the buffer. -/
def diamond : TRef := .comp 3 (.comp 2 (.obj 0) (.obj 1)) (.obj 1)

example : ∃ m', send Sample.basic Sample.level (refTx (fun _ => vectorBuffer) [7] diamond) (fun _ => [])
      Sample.levelVals = some (.ok m') ∧
    m' 0 = [0x01, 1, 0x02, 0x2A, 0x03, 0x04] ∧
    m' 1 = [0x01, 0x01, 1, 1, 0x02, 0x02, 0x2A, 0x2A, 0x03, 0x03, 0x04, 0x04] ∧ m' 2 = [] := by
  refine ⟨fun i => after vectorBuffer [] (callsFor i diamond (script .basic 1 Sample.levelVals)), ?_,
    by decide +kernel, by decide +kernel, by decide +kernel⟩
  refine (C115_sent (C := Sample.basic) (fun _ => vectorBuffer) [7] diamond (id := 1) (by decide) (by decide) _ _).mpr
    ⟨by decide, fun i => ?_⟩
  obtain ⟨s', h, _⟩ := vectorBuffer_faithful.feed (callsFor i diamond (script .basic 1 Sample.levelVals)) []
  have he : Sample.basic.envelope = .basic := rfl
  simp only [he, after, h]

/-- C115 (destroyed objects). If an object that is reached has been destroyed, sending is undefined - also if it is only a
composition in between - with any transmitters that accept everything. -/
theorem C115_destroyed (T : Nat → Tx σ) (hT : ∀ i s o, ∃ s', Out.on (T i) s o = .ok s') (dead : List Nat) (r : TRef)
    {t : MsgType} {vs : List Value} (hs : Sendable C t vs) (h : ∃ k ∈ objects r, k ∈ dead) (m : TMem σ) :
    send C t (refTx T dead r) m vs = some (.error .ub) := by
  have hfeed : ∀ (os : List Out) i s, ∃ s', feed (T i) s os = .ok s' := by
    intro os
    induction os with
    | nil => intro i s; exact ⟨s, rfl⟩
    | cons o os ih =>
      intro i s
      obtain ⟨s1, h1⟩ := hT i s o
      obtain ⟨s2, h2⟩ := ih i s1
      exact ⟨s2, by rw [feed, h1]; exact h2⟩
  have key : ∀ (r : TRef) (m : TMem σ), (∃ k ∈ objects r, k ∈ dead) →
      Out.on (refTx T dead r) m (.byte 0x01) = .error .ub := by
    intro r
    induction r with
    | obj i =>
      rintro m ⟨k, hk, hd⟩
      simp only [objects, List.mem_singleton] at hk
      subst hk
      simp [Out.on, refTx, hd]
    | comp k a b iha ihb =>
      rintro m ⟨x, hx, hd⟩
      rw [comp_on T dead k a b m (by simp)]
      by_cases hk : k ∈ dead
      · rw [if_pos hk]
      · rw [if_neg hk]
        simp only [objects, List.mem_cons, List.mem_append] at hx
        by_cases ha : ∃ y ∈ objects a, y ∈ dead
        · rw [iha m ha]; rfl
        · have hb : ∃ y ∈ objects b, y ∈ dead := by
            rcases hx with rfl | hx | hx
            · exact absurd hd hk
            · exact absurd ⟨x, hx, hd⟩ ha
            · exact ⟨x, hx, hd⟩
          have : Out.on (refTx T dead a) m (.byte 0x01) = .ok fun i =>
              after (T i) (m i) (List.replicate (ways i a) (.byte 0x01)) := by
            refine (ref_on T dead (by simp) a _ _).mpr ⟨fun y hy hd => ha ⟨y, hy, hd⟩, fun i => ?_⟩
            obtain ⟨s', e⟩ := hfeed (List.replicate (ways i a) (.byte 0x01)) i (m i)
            simp [after, e]
          rw [this]
          exact ihb _ hb
  obtain ⟨id, hid⟩ := idOf_exists hs.1 hs.2.1
  rw [send_eq C t _ m vs hs hid]
  obtain ⟨ds, he, _, _, _, rest, hr⟩ := script_data C.envelope id vs
  rw [he, hr, List.cons_append, feed_cons, key r m h]
  rfl

example : send Sample.basic Sample.level (refTx (fun _ => vectorBuffer) [2] diamond) (fun _ => []) Sample.levelVals =
    some (.error .ub) :=
  C115_destroyed _ (by
    intro i s o
    cases o with
    | byte b => exact ⟨_, rfl⟩
    | block bs => exact ⟨_, rfl⟩
    | finished => exact ⟨_, rfl⟩) [2] diamond (by decide) ⟨2, by decide, by decide⟩ _

/-- C115 (copies). A copy of a composition is as good as the composition: it writes to the same objects. -/
theorem C115_copy (T : Nat → Tx σ) (dead : List Nat) (k k' : Nat) (a b : TRef) (hk : k ∉ dead) (hk' : k' ∉ dead)
    (t : MsgType) (vs : List Value) (m : TMem σ) :
    send C t (refTx T dead (.comp k a b)) m vs = send C t (refTx T dead (.comp k' a b)) m vs := by
  have : refTx T dead (.comp k a b) = refTx T dead (.comp k' a b) := by
    simp only [refTx, if_neg hk, if_neg hk']
  rw [this]

example : send Sample.basic Sample.level (refTx (fun _ => vectorBuffer) [3] (.comp 4 (.obj 0) (.obj 1))) (fun _ => [])
      Sample.levelVals =
    send Sample.basic Sample.level (refTx (fun _ => vectorBuffer) [3] (.comp 5 (.obj 0) (.obj 1))) (fun _ => [])
      Sample.levelVals :=
  C115_copy _ [3] 4 5 _ _ (by decide) (by decide) _ _ _

/-- No message is sent through an object destroyed before. -/
def NoDangling : List Nat → List ROp → Prop
  | _, [] => True
  | dead, .destroy k :: ops => NoDangling (k :: dead) ops
  | dead, .send r _ _ :: ops => (∀ k ∈ objects r, k ∉ dead) ∧ NoDangling dead ops

/-- All messages of a program can be sent. -/
def AllGood (C : Collection) (ops : List ROp) : Prop :=
  ∀ r t vs, ROp.send r t vs ∈ ops → Sendable C t vs ∧ ∀ v ∈ vs, Value.Fits v

/-- The bytes object `i` gets from a program. -/
def bytesFor (C : Collection) (i : Nat) : List ROp → List Byte
  | [] => []
  | .destroy _ :: ops => bytesFor C i ops
  | .send r t vs :: ops =>
    outBytes (repeated (ways i r) (script C.envelope (UInt8.ofNat (C.messages.idxOf t)) vs)) ++ bytesFor C i ops

theorem outBytes_data (os : List Out) : outBytes (data os) = outBytes os := by
  induction os with
  | nil => rfl
  | cons o os ih =>
    have hc : outBytes (o :: os) = o.bytes ++ outBytes os := by simp [outBytes]
    rw [hc]
    by_cases ho : o = .finished
    · subst ho
      have : data (.finished :: os) = data os := by simp [data]
      rw [this, ih]; rfl
    · have : data (o :: os) = o :: data os := by simp [data, ho]
      rw [this, ← ih]; simp [outBytes]

theorem outBytes_repeated_data (n : Nat) (os : List Out) :
    outBytes (repeated n (data os)) = outBytes (repeated n os) := by
  induction os with
  | nil => rfl
  | cons o os ih =>
    have hrep : ∀ (o : Out) os, repeated n (o :: os) = List.replicate n o ++ repeated n os := by
      intro o os; simp [repeated]
    have happ : ∀ a b : List Out, outBytes (a ++ b) = outBytes a ++ outBytes b := by intro a b; simp [outBytes]
    by_cases ho : o = .finished
    · subst ho
      have : data (.finished :: os) = data os := by simp [data]
      rw [this, ih, hrep, happ]
      have : outBytes (List.replicate n Out.finished) = [] := by simp [outBytes, Out.bytes]
      rw [this]; rfl
    · have : data (o :: os) = o :: data os := by simp [data, ho]
      rw [this, hrep, hrep, happ, happ, ih]

theorem outBytes_callsFor (i : Nat) (r : TRef) (os : List Out) :
    outBytes (callsFor i r os) = outBytes (repeated (ways i r) os) := by
  cases r with
  | obj j =>
    by_cases h : j = i
    · simp [callsFor, ways, h, repeated_one]
    · simp [callsFor, ways, h, repeated_zero]
  | comp k a b => exact outBytes_repeated_data _ _

/-- C115 (programs). A program that sends messages through any trees of references and destroys objects is defined if and
only if it never sends through a destroyed object; then every object has got exactly its share of each message, in order. -/
theorem C115_program (T : Nat → Tx σ) {log : σ → List Byte} (hT : ∀ i, Faithful (T i) log) (ops : List ROp)
    (hg : AllGood C ops) : ∀ (dead : List Nat) (m : TMem σ),
    (NoDangling dead ops → ∃ m', runRefs C T dead m ops = some (.ok m') ∧
      ∀ i, log (m' i) = log (m i) ++ bytesFor C i ops) ∧
    (¬ NoDangling dead ops → runRefs C T dead m ops = some (.error .ub)) := by
  induction ops with
  | nil => intro dead m; exact ⟨fun _ => ⟨m, rfl, fun i => by simp [bytesFor]⟩, fun h => absurd trivial h⟩
  | cons op ops ih =>
    have ih := ih fun r t vs h => hg r t vs (by simp [h])
    intro dead m
    cases op with
    | destroy k => exact ih (k :: dead) m
    | send r t vs =>
      obtain ⟨hs, _⟩ := hg r t vs (by simp)
      have hid := idOf_idxOf hs.1 hs.2.1
      by_cases hd : ∀ k ∈ objects r, k ∉ dead
      · obtain ⟨m1, h1, h2⟩ : ∃ m1, send C t (refTx T dead r) m vs = some (.ok m1) ∧ ∀ i, log (m1 i) = log (m i) ++
            outBytes (repeated (ways i r) (script C.envelope (UInt8.ofNat (C.messages.idxOf t)) vs)) := by
          refine ⟨fun i => after (T i) (m i) (callsFor i r (script C.envelope (UInt8.ofNat (C.messages.idxOf t)) vs)),
            (C115_sent T dead r hs hid _ _).mpr ⟨hd, fun i => ?_⟩, fun i => ?_⟩
          · obtain ⟨s', e, _⟩ := (hT i).feed
              (callsFor i r (script C.envelope (UInt8.ofNat (C.messages.idxOf t)) vs)) (m i)
            simp only [after, e]
          · obtain ⟨s', e, hl⟩ := (hT i).feed
              (callsFor i r (script C.envelope (UInt8.ofNat (C.messages.idxOf t)) vs)) (m i)
            simp only [after, e]
            rw [hl, outBytes_callsFor]
        obtain ⟨ih1, ih2⟩ := ih dead m1
        unfold runRefs
        simp only [h1]
        constructor
        · intro hn
          obtain ⟨m', e, hl⟩ := ih1 hn.2
          exact ⟨m', e, fun i => by rw [hl i, h2 i, List.append_assoc]; rfl⟩
        · intro hn
          exact ih2 fun h => hn ⟨hd, h⟩
      · refine ⟨fun hn => absurd hn.1 hd, fun _ => ?_⟩
        have hx : ∃ k ∈ objects r, k ∈ dead := by
          refine Classical.byContradiction fun hc => hd fun k hk hkd => hc ⟨k, hk, hkd⟩
        unfold runRefs
        rw [C115_destroyed T (fun i s o => by
          cases o with
          | byte b => obtain ⟨s', h, _⟩ := (hT i).byte s b; exact ⟨s', h⟩
          | block bs => obtain ⟨s', h, _⟩ := (hT i).block s bs; exact ⟨s', h⟩
          | finished => obtain ⟨s', h, _⟩ := (hT i).finished s; exact ⟨s', h⟩) dead r hs hx m]

/-- A program with two compositions that share a buffer, one of them destroyed after its last use. -/
def sharing : List ROp :=
  [.send (.comp 2 (.obj 0) (.obj 1)) Sample.level Sample.levelVals, .send (.obj 1) Sample.ping [], .destroy 2,
   .send (.comp 4 (.obj 1) (.obj 3)) Sample.pose Sample.poseVals]

example : ∃ m', runRefs Sample.checked (fun _ => vectorBuffer) [] (fun _ => []) sharing = some (.ok m') ∧
    ∀ i, m' i = bytesFor Sample.checked i sharing := by
  obtain ⟨m', h1, h2⟩ := (C115_program (C := Sample.checked) (fun _ => vectorBuffer) (fun _ => vectorBuffer_faithful)
    sharing (by
      intro r t vs h
      simp [sharing] at h
      rcases h with ⟨_, rfl, rfl⟩ | ⟨_, rfl, rfl⟩ | ⟨_, rfl, rfl⟩ <;> decide) [] fun _ => []).1
    (by simp [NoDangling, sharing, objects])
  exact ⟨m', h1, fun i => by simpa using h2 i⟩

/-- The messages an object gets: those sent through trees that reach it. -/
def messagesFor (i : Nat) : List ROp → List (MsgType × List (List Byte))
  | [] => []
  | .destroy _ :: ops => messagesFor i ops
  | .send r t vs :: ops => if ways i r = 0 then messagesFor i ops else (t, vs.map (·.bytes)) :: messagesFor i ops

theorem bytesFor_frames (i : Nat) (ops : List ROp) (hg : AllGood C ops)
    (h1 : ∀ r t vs, ROp.send r t vs ∈ ops → ways i r ≤ 1) :
    ∃ rs : List Request, (∀ r ∈ rs, r.Good C) ∧ bytesFor C i ops = frames C.envelope (rs.map Request.msg) ∧
      messagesFor i ops = rs.map (fun r => (r.t, r.vs.map (·.bytes))) := by
  induction ops with
  | nil => exact ⟨[], by simp, rfl, rfl⟩
  | cons op ops ih =>
    obtain ⟨rs, hrs, hb, hm⟩ := ih (fun r t vs h => hg r t vs (by simp [h])) fun r t vs h => h1 r t vs (by simp [h])
    cases op with
    | destroy k => exact ⟨rs, hrs, hb, hm⟩
    | send r t vs =>
      obtain ⟨hs, hv⟩ := hg r t vs (by simp)
      have hw := h1 r t vs (by simp)
      by_cases h0 : ways i r = 0
      · refine ⟨rs, hrs, ?_, by simp [messagesFor, h0, hm]⟩
        simp [bytesFor, h0, repeated_zero, outBytes, hb]
      · have hw1 : ways i r = 1 := by omega
        have hgood : Request.Good C ⟨C, t, vs⟩ := ⟨rfl, hs, hv⟩
        refine ⟨⟨C, t, vs⟩ :: rs, ?_, ?_, by simp [messagesFor, h0, hm]⟩
        · intro r' h'
          rcases List.mem_cons.mp h' with rfl | h'
          · exact hgood
          · exact hrs r' h'
        · rw [bytesFor, hw1, repeated_one, outBytes_script, hb, List.map_cons, frames_cons]
          rfl

/-- C115 (end to end). If there is at most one way to an object from each transmitter the program sends through, then a
receiver that is fed what the object got delivers exactly the messages sent through transmitters that reach it, in order. -/
theorem C115_round_trip (T : Nat → Tx σ) {log : σ → List Byte} (hT : ∀ i, Faithful (T i) log)
    (S : Setting C B user) (hn : NeverThrows user) (prog : List ROp) (hg : AllGood C prog) {dead : List Nat}
    {m m' : TMem σ} (hrun : runRefs C T dead m prog = some (.ok m')) (i : Nat)
    (h1 : ∀ r t vs, ROp.send r t vs ∈ prog → ways i r ≤ 1)
    {ops : List Op} {w : World C} {os : List Obs} (h : Reached B user fuel (ops ++ [.process]) w os)
    (hh : w.rx.hasHandler = true) (hfed : log (m' i) = log (m i) ++ w.fed) :
    delivered w = messagesFor i prog ∧ buffered w = [] := by
  obtain ⟨g1, g2⟩ := C115_program T hT prog hg dead m
  by_cases hd : NoDangling dead prog
  · obtain ⟨m2, e, hl⟩ := g1 hd
    rw [hrun] at e
    simp only [Option.some.injEq, Except.ok.injEq] at e
    subst e
    have hf : w.fed = bytesFor C i prog := List.append_cancel_left (hfed.symm.trans (hl i))
    obtain ⟨rs, hrs, hb, hm⟩ := bytesFor_frames i prog hg h1
    have hfeed : sendAll vectorBuffer [] rs = some (.ok w.fed) := by
      obtain ⟨s', e1, e2⟩ := sendAll_faithful vectorBuffer_faithful rs hrs []
      rw [e1, hf, hb]
      simpa using e2
    rw [hm]
    exact C25_round_trip vectorBuffer_faithful S hn rs hrs [] w.fed hfeed h hh (by simp)
  · rw [g2 hd] at hrun
    cases hrun

/-- What object 1 gets from `sharing`, received in two pieces. -/
def sharedPieces : List Op :=
  [.append ((bytesFor Sample.checked 1 sharing).take 9), .setHandler Sample.h0, .process,
   .append ((bytesFor Sample.checked 1 sharing).drop 9)]

example : ∃ (w : World Sample.checked) (os : List Obs),
    Reached Sample.dbg Sample.passive 50 (sharedPieces ++ [.process]) w os ∧
    delivered w = [(Sample.level, [[0x2A]]), (Sample.ping, []),
      (Sample.pose, [[0x01], [0x01, 0x00, 0x02, 0x03], [0x03, 0x04]])] ∧ buffered w = [] := by
  obtain ⟨w, os, h, hp⟩ := Sample.reached (C := Sample.checked) (B := Sample.dbg)
    (user := Sample.passive) (fuel := 50) (ops := sharedPieces ++ [.process])
    (fun w _ => w.rx.hasHandler) (by decide +kernel)
  have hf := C25_fed_is_chunks Sample.setting_checked Sample.passive_quiet (by simp [sharedPieces]) h
  have hg : AllGood Sample.checked sharing := by
    intro r t vs h
    simp [sharing] at h
    rcases h with ⟨_, rfl, rfl⟩ | ⟨_, rfl, rfl⟩ | ⟨_, rfl, rfl⟩ <;> decide
  obtain ⟨m', h1, h2⟩ := (C115_program (C := Sample.checked) (fun _ => vectorBuffer) (fun _ => vectorBuffer_faithful)
    sharing hg [] fun _ => []).1 (by simp [NoDangling, sharing, objects])
  exact ⟨w, os, h, C115_round_trip (fun _ => vectorBuffer) (fun _ => vectorBuffer_faithful) Sample.setting_checked
    Sample.passive_neverThrows sharing hg h1 1 (by
      intro r t vs h
      simp [sharing] at h
      rcases h with ⟨rfl, _⟩ | ⟨rfl, _⟩ | ⟨rfl, _⟩ <;> decide) h hp (by
      rw [hf]
      have := h2 1
      simp only [id_eq] at this
      rw [id_eq, this]
      decide +kernel)⟩

/-- C115 (shared twice). If a buffer is both components of a composition, every output is there twice and the message is
lost: a receiver fed with the buffer calls no handler and keeps at most some of the bytes. -/
theorem C115_twice_witness : ∃ m', send Sample.checked Sample.level
      (refTx (fun _ => vectorBuffer) [] (.comp 1 (.obj 0) (.obj 0))) (fun _ => []) Sample.levelVals = some (.ok m') ∧
    m' 0 = [0x01, 0x01, 1, 1, 0x02, 0x02, 0x2A, 0x2A, 0x03, 0x03, 0x31, 0x31, 0x04, 0x04] ∧
    ∃ (w : World Sample.checked) (os : List Obs),
      Reached Sample.dbg Sample.passive 50 ([.setHandler Sample.h0, .append (m' 0)] ++ [.process]) w os ∧
      delivered w = [] := by
  refine ⟨fun i => after vectorBuffer [] (callsFor i (.comp 1 (.obj 0) (.obj 0))
      (script .basicChecksum 1 Sample.levelVals)), ?_, by decide +kernel, ?_⟩
  · refine (C115_sent (C := Sample.checked) (fun _ => vectorBuffer) [] (.comp 1 (.obj 0) (.obj 0)) (id := 1) (by decide)
      (by decide) _ _).mpr ⟨by decide, fun i => ?_⟩
    obtain ⟨s', h, _⟩ := vectorBuffer_faithful.feed
      (callsFor i (.comp 1 (.obj 0) (.obj 0)) (script .basicChecksum 1 Sample.levelVals)) []
    have he : Sample.checked.envelope = .basicChecksum := rfl
    simp only [he, after, h]
  · obtain ⟨w, os, h, hp⟩ := Sample.reached (C := Sample.checked) (B := Sample.dbg)
      (user := Sample.passive) (fuel := 50) (ops := [.setHandler Sample.h0, .append
        (after vectorBuffer [] (callsFor 0 (.comp 1 (.obj 0) (.obj 0)) (script .basicChecksum 1 Sample.levelVals)))] ++
        [.process])
      (fun w _ => decide (delivered w = [])) (by decide +kernel)
    exact ⟨w, os, h, by simpa using hp⟩

/-- Three messages, two without fields and one with four bytes. -/
def forgeable : Collection := ⟨[⟨0, []⟩, ⟨1, [.pod 0 4]⟩, ⟨2, []⟩], .basic⟩

/-- C115 (shared twice, worse). A message written twice in this way can also be taken for another one: message 2 is sent,
message 1 is delivered. -/
theorem C115_forged_witness : ∃ m', send forgeable ⟨2, []⟩
      (refTx (fun _ => vectorBuffer) [] (.comp 1 (.obj 0) (.obj 0))) (fun _ => []) [] = some (.ok m') ∧
    ∃ (w : World forgeable) (os : List Obs),
      Reached Sample.dbg Sample.passive 50 ([.setHandler Sample.h0, .append (m' 0)] ++ [.process]) w os ∧
      delivered w = [(⟨1, [.pod 0 4]⟩, [[2, 2, 2, 3]])] := by
  refine ⟨fun i => after vectorBuffer [] (callsFor i (.comp 1 (.obj 0) (.obj 0)) (script .basic 2 [])), ?_, ?_⟩
  · refine (C115_sent (C := forgeable) (fun _ => vectorBuffer) [] (.comp 1 (.obj 0) (.obj 0)) (id := 2) (by decide)
      (by decide) _ _).mpr ⟨by decide, fun i => ?_⟩
    obtain ⟨s', h, _⟩ := vectorBuffer_faithful.feed
      (callsFor i (.comp 1 (.obj 0) (.obj 0)) (script .basic 2 [])) []
    have he : forgeable.envelope = .basic := rfl
    simp only [he, after, h]
  · obtain ⟨w, os, h, hp⟩ := Sample.reached (C := forgeable) (B := Sample.dbg)
      (user := Sample.passive) (fuel := 50) (ops := [.setHandler Sample.h0, .append
        (after vectorBuffer [] (callsFor 0 (.comp 1 (.obj 0) (.obj 0)) (script .basic 2 [])))] ++ [.process])
      (fun w _ => decide (delivered w = [(⟨1, [.pod 0 4]⟩, [[2, 2, 2, 3]])])) (by decide +kernel)
    exact ⟨w, os, h, by simpa using hp⟩

end TT.Properties
