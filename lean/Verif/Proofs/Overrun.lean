import Verif.Proofs.Process

/-!
# Helper lemmas: a release-build receiver whose buffer's begin has moved past its end

Used for C44. Such a receiver reads on through the array and ends in undefined behaviour.
-/

namespace TT
open Spec

variable {C : Collection}

/-- Undefined behaviour, or a value with property `P`. -/
def UbOr {α : Type} (r : Res α) (P : α → Prop) : Prop := r = .error .ub ∨ ∃ a, r = .ok a ∧ P a

theorem UbOr.bind {α β : Type} {r : Res α} {P : α → Prop} {f : α → Res β} {Q : β → Prop}
    (h : UbOr r P) (hf : ∀ a, P a → UbOr (f a) Q) : UbOr (r >>= f) Q := by
  rcases h with rfl | ⟨a, rfl, ha⟩
  · exact Or.inl rfl
  · exact hf a ha

theorem UbOr.ok {α : Type} {a : α} {P : α → Prop} (h : P a) : UbOr (.ok a) P := Or.inr ⟨a, rfl, h⟩

theorem assertMsg_release {B : Build} (h : B.debug = false) (p : Bool) :
    assertMsg B p = .ok () := by simp [assertMsg, h]

theorem rawGet_ubOr (l : List Byte) (i : Nat) : UbOr (RB.rawGet l i) fun _ => i < l.length := by
  unfold RB.rawGet
  cases h : l[i]? with
  | none => exact Or.inl rfl
  | some v => exact .ok (List.getElem?_eq_some_iff.mp h).1

/-- The begin of the buffer has moved past its end. -/
structure RB.Over {cap : Nat} (b : RB cap) : Prop where
  len : b.contents.length = cap
  past : b.pastEnd < b.begin_
  hi : b.begin_ < 2 ^ leastBits cap

theorem RB.Over.size_ge {cap : Nat} {b : RB cap} (h : b.Over) (h2 : 2 * cap ≤ 2 ^ leastBits cap)
    (hb : b.begin_ ≤ cap) : cap ≤ b.size := by
  have h1 := h.past
  have h3 := h.hi
  unfold RB.size subT
  rw [Nat.mod_eq_of_lt h3, Nat.mod_eq_of_lt (by omega)]
  omega

theorem RB.Over.not_empty {cap : Nat} {b : RB cap} (h : b.Over) : b.empty = false := by
  have := h.past
  simp [RB.empty]
  omega

theorem buffer_ubOr {B : Build} (hB : B.debug = false) (e : ERB C) (i : Nat) :
    UbOr (e.buffer B i) fun _ => True := by
  unfold ERB.buffer RB.get
  rw [assertMsg_release hB]
  rcases rawGet_ubOr e.buf.contents (e.buf.adjustedIndex i) with h | ⟨a, h, _⟩
  · exact Or.inl h
  · exact Or.inr ⟨a, h, trivial⟩

theorem front_ubOr {B : Build} (hB : B.debug = false) {cap : Nat} {b : RB cap} (h : b.Over) :
    UbOr (b.front B) fun _ => b.begin_ < cap := by
  unfold RB.front RB.get
  rw [assertMsg_release hB]
  have he : b.adjustedIndex 0 = b.begin_ := by
    unfold RB.adjustedIndex trunc
    exact Nat.mod_eq_of_lt h.hi
  rw [he]
  have := rawGet_ubOr b.contents b.begin_
  rw [h.len] at this
  exact this

theorem popFrontLoop_release {B : Build} (hB : B.debug = false) {cap : Nat} (n : Nat) :
    ∀ b : RB cap, b.begin_ + n < 2 ^ leastBits cap →
      RB.popFrontLoop B b n = .ok { b with begin_ := b.begin_ + n } := by
  induction n with
  | zero => intro b _; rfl
  | succ n ih =>
    intro b h
    have e : trunc cap (b.begin_ + 1) = b.begin_ + 1 := Nat.mod_eq_of_lt (by omega)
    unfold RB.popFrontLoop RB.incrementBegin
    rw [assertMsg_release hB]
    simp only [ok_bind, pure_eq_ok, e]
    rw [ih _ (by show b.begin_ + 1 + n < _; omega)]
    simp only [Except.ok.injEq, RB.mk.injEq, and_self, and_true]
    omega

/-- Popping in the overrun state. -/
theorem popFront_over {B : Build} (hB : B.debug = false)
    (h2 : 2 * recvBufferSize C ≤ 2 ^ leastBits (recvBufferSize C)) {e : ERB C} (h : e.buf.Over)
    {n : Nat} (hn : n ≤ recvBufferSize C) :
    UbOr (e.bufferPopFront B n) fun e' => e'.buf.Over ∧ e'.buf.begin_ = e.buf.begin_ + n ∧
      e'.currentMessageId = e.currentMessageId ∧ e.buf.begin_ < recvBufferSize C := by
  unfold ERB.bufferPopFront RB.popFront
  rcases front_ubOr hB h with hf | ⟨v, hf, hlt⟩
  · rw [hf]; exact Or.inl rfl
  · have hlt2 : e.buf.begin_ + n < 2 ^ leastBits (recvBufferSize C) := by omega
    rw [hf]
    simp only [ok_bind, popFrontLoop_release hB n e.buf hlt2, pure_eq_ok]
    refine .ok ⟨⟨h.len, ?_, hlt2⟩, rfl, rfl, hlt⟩
    have := h.past
    show e.buf.pastEnd < e.buf.begin_ + n
    omega

theorem skip_over {B : Build} (hB : B.debug = false)
    (h2 : 2 * recvBufferSize C ≤ 2 ^ leastBits (recvBufferSize C)) (fuel : Nat) :
    ∀ e : ERB C, e.buf.Over → recvBufferSize C ≤ fuel + e.buf.begin_ →
      UbOr (skipToSOH B (fuel + 1) e) fun e' => e'.buf.Over ∧ e.buf.begin_ ≤ e'.buf.begin_ ∧
        e'.currentMessageId = e.currentMessageId ∧ e'.buf.begin_ < recvBufferSize C := by
  induction fuel with
  | zero =>
    intro e h hf
    unfold skipToSOH
    rw [show e.bufferEmpty = false from h.not_empty]
    simp only [Bool.false_eq_true, if_false]
    rcases front_ubOr hB h with h3 | ⟨v, _, hlt⟩
    · left; unfold ERB.bufferFront; rw [h3]; rfl
    · omega
  | succ fuel ih =>
    intro e h hf
    unfold skipToSOH
    rw [show e.bufferEmpty = false from h.not_empty]
    simp only [Bool.false_eq_true, if_false]
    refine UbOr.bind (P := fun _ => e.buf.begin_ < recvBufferSize C) (front_ubOr hB h) ?_
    intro v hlt
    split
    · refine UbOr.bind (popFront_over hB h2 h (n := 1) (by omega)) ?_
      rintro e1 ⟨h3, h4, h5, _⟩
      rcases ih e1 h3 (by omega) with h6 | ⟨e2, h6, h7, h8, h9, h10⟩
      · exact Or.inl h6
      · exact Or.inr ⟨e2, h6, h7, by omega, by rw [h9, h5], h10⟩
    · exact .ok ⟨h, Nat.le_refl _, rfl, hlt⟩

theorem checksumLoop_ubOr {B : Build} (hB : B.debug = false) (e : ERB C) (n : Nat) :
    ∀ ck i, UbOr (checksumLoop B e ck i n) fun _ => True := by
  induction n with
  | zero => intro ck i; exact .ok trivial
  | succ n ih =>
    intro ck i
    unfold checksumLoop
    refine UbOr.bind (buffer_ubOr hB e i) ?_
    intro v _
    exact ih _ _

theorem trailer_ubOr {B : Build} (hB : B.debug = false) (e : ERB C) (n : Nat) :
    UbOr (trailerOk B e n) fun _ => True := by
  unfold trailerOk
  split
  · refine UbOr.bind (buffer_ubOr hB e _) ?_
    intro v _
    split
    · exact .ok trivial
    · refine UbOr.bind (buffer_ubOr hB e _) ?_
      intro v _
      exact .ok trivial
  · refine UbOr.bind (buffer_ubOr hB e _) ?_
    intro v _
    split
    · exact .ok trivial
    · refine UbOr.bind (buffer_ubOr hB e _) ?_
      intro v _
      split
      · exact .ok trivial
      · refine UbOr.bind (checksumLoop_ubOr hB e _ _ _) ?_
        intro v _
        refine UbOr.bind (buffer_ubOr hB e _) ?_
        intro v _
        exact .ok trivial

theorem announced_of_valid {id : Byte} (h : isIdValid C id = true) :
    ∃ n, announced C id = some n := by
  have := (isIdValid_iff C id).mp h
  unfold announced
  cases ht : typeOf C id with
  | none => exact absurd ht this
  | some t => exact ⟨_, rfl⟩

theorem retry_over {B : Build} (hB : B.debug = false)
    (h2 : 2 * recvBufferSize C ≤ 2 ^ leastBits (recvBufferSize C)) {e : ERB C} (h : e.buf.Over)
    (hlt : e.buf.begin_ < recvBufferSize C)
    {f : ERB C → Res (ERB C × Bool)} {Q : ERB C × Bool → Prop}
    (hf : ∀ e' : ERB C, e'.buf.Over → e'.buf.begin_ = e.buf.begin_ + 1 → UbOr (f e') Q) :
    UbOr (popAndRetry B f e) Q := by
  unfold popAndRetry
  rw [assertMsg_release hB, show e.bufferEmpty = false from h.not_empty]
  simp only [ok_bind, Bool.false_eq_true, if_false]
  refine UbOr.bind (popFront_over hB h2 h (n := 1) (by omega)) ?_
  rintro e1 ⟨h3, h4, _, _⟩
  exact hf e1 h3 h4

theorem check_over {B : Build} (hB : B.debug = false) (hc : recvBufferSize C < 2 ^ 64)
    (h2 : 2 * recvBufferSize C ≤ 2 ^ leastBits (recvBufferSize C)) (d : Nat) :
    ∀ e : ERB C, e.buf.Over → recvBufferSize C ≤ d + e.buf.begin_ →
      UbOr (checkG B (d + 1) e) fun x => x.2 = true ∧ x.1.buf.Over ∧
        e.buf.begin_ ≤ x.1.buf.begin_ ∧ x.1.buf.begin_ < recvBufferSize C ∧
        ∃ id n, x.1.currentMessageId = some id ∧ announced C id = some n := by
  induction d with
  | zero =>
    intro e h hd
    unfold checkG
    have hsk : UbOr (skipToSOH B (e.bufferSize + 1) e) _ :=
      skip_over hB h2 e.bufferSize e h (by omega)
    refine UbOr.bind hsk ?_
    rintro e1 ⟨_, _, _, _⟩
    omega
  | succ d ih =>
    intro e h hd
    unfold checkG
    have hsk : UbOr (skipToSOH B (e.bufferSize + 1) e) _ :=
      skip_over hB h2 e.bufferSize e h (by
        rcases Nat.le_total e.buf.begin_ (recvBufferSize C) with hle | hle
        · have := h.size_ge h2 hle
          unfold ERB.bufferSize
          omega
        · omega)
    refine UbOr.bind hsk ?_
    rintro e1 ⟨h3, h4, _, h5⟩
    have hsz := h3.size_ge h2 (Nat.le_of_lt h5)
    have hsz' : recvBufferSize C ≤ e1.bufferSize := hsz
    have hcap3 : 15 ≤ recvBufferSize C := by
      have : 0 < recvBufferSize C := by omega
      unfold recvBufferSize messageBufferSizeScale at this ⊢
      unfold maxMessageLength at this ⊢
      split at this
      · omega
      · rename_i t ts heq
        have := overhead_ge C.envelope
        rw [sizeofBound_eq]
        omega
    have hno : ∀ n, n ≤ recvBufferSize C → ¬ e1.bufferSize < n := by intro n hn; omega
    rw [if_neg (hno 2 (by omega))]
    refine UbOr.bind (buffer_ubOr hB e1 1) ?_
    intro idb _
    have weaken : ∀ e2 : ERB C, e2.buf = e1.buf →
        UbOr (popAndRetry B (checkG B (d + 1)) e2) fun x => x.2 = true ∧ x.1.buf.Over ∧
          e.buf.begin_ ≤ x.1.buf.begin_ ∧ x.1.buf.begin_ < recvBufferSize C ∧
          ∃ id n, x.1.currentMessageId = some id ∧ announced C id = some n := by
      intro e2 he2
      refine retry_over hB h2 (e := e2) (by rw [he2]; exact h3) (by rw [he2]; exact h5) ?_
      intro e' hov hb
      rw [he2] at hb
      rcases ih e' hov (by omega) with q | ⟨x, q0, q1, q2, q3, q4, q5⟩
      · exact Or.inl q
      · exact Or.inr ⟨x, q0, q1, q2, by omega, q4, q5⟩
    dsimp only
    cases hv : isIdValid C idb with
    | false =>
      have : (e1.setCurrentMessageId idb).isCurrentMessageIdValid = false := by
        simp [ERB.setCurrentMessageId, hv, ERB.isCurrentMessageIdValid]
      rw [this]
      exact weaken _ (by simp [ERB.setCurrentMessageId, hv])
    | true =>
      have hset : e1.setCurrentMessageId idb = { e1 with currentMessageId := some idb } := by
        simp [ERB.setCurrentMessageId, hv]
      rw [hset]
      obtain ⟨n, hn⟩ := announced_of_valid hv
      have hnle : n ≤ recvBufferSize C := by
        have := announced_le hn
        unfold recvBufferSize messageBufferSizeScale
        omega
      simp only [ERB.isCurrentMessageIdValid, Option.isSome_some, Bool.not_true, Bool.false_eq_true,
        if_false]
      rw [if_neg (show ¬ ERB.bufferSize { e1 with currentMessageId := some idb } < 3 from
        hno 3 (by omega))]
      refine UbOr.bind (buffer_ubOr hB _ 2) ?_
      intro c2 _
      split
      · exact weaken _ rfl
      · rw [getMessageLength_ok hc rfl hn]
        simp only [ok_bind]
        rw [if_neg (show ¬ ERB.bufferSize { e1 with currentMessageId := some idb } < n from
          hno n hnle)]
        refine UbOr.bind (trailer_ubOr hB _ n) ?_
        intro good _
        cases good with
        | false => exact weaken _ rfl
        | true => exact .ok ⟨rfl, h3, h4, h5, idb, n, rfl, hn⟩

theorem pop_over {B : Build} (hB : B.debug = false) (hc : recvBufferSize C < 2 ^ 64)
    (h2 : 2 * recvBufferSize C ≤ 2 ^ leastBits (recvBufferSize C)) {e : ERB C} (h : e.buf.Over)
    {id : Byte} {n : Nat} (hid : e.currentMessageId = some id) (hn : announced C id = some n) :
    UbOr (e.popMessage B) fun e' => e'.buf.Over ∧ e.buf.begin_ < e'.buf.begin_ := by
  unfold ERB.popMessage
  simp only [hB, Bool.false_eq_true, if_false, ok_bind]
  rw [getMessageLength_ok hc hid hn]
  simp only [ok_bind]
  have hnle : n ≤ recvBufferSize C := by
    have := announced_le hn
    unfold recvBufferSize messageBufferSizeScale
    omega
  have hge := announced_ge hn
  have := overhead_ge C.envelope
  refine UbOr.bind (popFront_over hB h2 h hnle) ?_
  rintro e1 ⟨h3, h4, _, _⟩
  exact .ok ⟨h3, by show e.buf.begin_ < e1.buf.begin_; omega⟩

theorem unbuffer_ubOr (l : List Byte) (it : Nat) (f : FieldType) :
    UbOr (unbuffer l it f) fun _ => True := by
  unfold unbuffer
  split
  · refine UbOr.bind (rawGet_ubOr l it) ?_
    intro v _
    exact .ok trivial
  · split
    · exact .ok trivial
    · exact Or.inl rfl

theorem deserialize_ubOr (l : List Byte) (fs : List FieldType) : ∀ it acc,
    UbOr (deserialize l it fs acc) fun _ => True := by
  induction fs with
  | nil => intro it acc; exact .ok trivial
  | cons f fs ih =>
    intro it acc
    unfold deserialize
    refine UbOr.bind (unbuffer_ubOr l it f) ?_
    rintro ⟨v, it'⟩ _
    exact ih _ _

theorem invoke_ubOr (r : Receiver C) (id : Byte) : UbOr (r.invoke id) fun _ => True := by
  unfold Receiver.invoke
  split
  · rw [applyAt_eq]
    split
    · refine UbOr.bind (deserialize_ubOr _ _ _ _) ?_
      intro v _
      exact .ok trivial
    · exact .ok trivial
  · exact Or.inl rfl

/-- User code that does nothing from call number `n` on. -/
def PassiveFrom (user : UserCode) (n : Nat) : Prop :=
  ∀ calls free, n < calls.length → user calls free = ⟨[], false⟩

/-- Handling messages in the overrun state: undefined behaviour. -/
theorem processLoop_over {B : Build} (hB : B.debug = false) (hc : recvBufferSize C < 2 ^ 64)
    (h2 : 2 * recvBufferSize C ≤ 2 ^ leastBits (recvBufferSize C)) {user : UserCode} {n0 : Nat}
    (hu : PassiveFrom user n0) (fuel : Nat) :
    ∀ (w : World C) (k : Byte), w.rx.recv.buf.Over →
      recvBufferSize C ≤ fuel + w.rx.recv.buf.begin_ → n0 ≤ w.userCalls.length →
      World.processLoop B user (fuel + 1) w k = .error .ub := by
  induction fuel with
  | zero =>
    intro w k h hf hn
    unfold World.processLoop ERB.checkBufferForMessage
    rw [checkDepth_eq]
    rcases check_over hB hc h2 w.rx.recv.bufferSize w.rx.recv h (by omega) with
      h1 | ⟨x, _, _, _, _, _, _⟩
    · rw [h1]; rfl
    · omega
  | succ fuel ih =>
    intro w k h hf hn
    unfold World.processLoop ERB.checkBufferForMessage
    rw [checkDepth_eq]
    rcases check_over hB hc h2 w.rx.recv.bufferSize w.rx.recv h (by
        rcases Nat.le_total w.rx.recv.buf.begin_ (recvBufferSize C) with hle | hle
        · have := h.size_ge h2 hle
          unfold ERB.bufferSize
          omega
        · omega) with
      h1 | ⟨⟨e, found⟩, h1, h3, h4, h5, h6, id, n, h7, h8⟩
    · rw [h1]; rfl
    · simp only at h3 h4 h5 h6 h7
      subst h3
      rw [h1]
      simp only [ok_bind, Bool.not_true, Bool.false_eq_true, if_false, ERB.getCurrentMessageId, h7,
        Option.isSome_some, assertMsg_true]
      rcases invoke_ubOr (C := C) { w.rx with recv := e, lastMessageId := some id } id with
        h9 | ⟨i?, h9, _⟩
      · rw [h9]; rfl
      · rw [h9]
        simp only [ok_bind]
        have hpop := pop_over hB hc h2 h4 h7 h8
        have rest : ∀ w2 : World C, w2.rx.recv = e → n0 ≤ w2.userCalls.length →
            (do
              let e ← w2.rx.recv.popMessage B
              World.processLoop B user (fuel + 1) { w2 with rx := { w2.rx with recv := e } } (k + 1))
              = .error .ub := by
          intro w2 he2 hn2
          rw [he2]
          rcases hpop with h10 | ⟨e', h10, h11, h12⟩
          · rw [h10]; rfl
          · rw [h10]
            simp only [ok_bind]
            exact ih _ _ h11 (by show _ ≤ fuel + e'.buf.begin_; omega) hn2
        cases i? with
        | none =>
          simp only [ok_bind, Bool.false_eq_true, if_false]
          exact rest ⟨{ w.rx with recv := e, lastMessageId := some id }, w.trace, w.fed⟩ rfl hn
        | some i =>
          simp only [World.callHandler]
          cases hd : dispatch i with
          | none =>
            simp only [ok_bind, pure_eq_ok, Bool.false_eq_true, if_false]
            refine rest ⟨{ w.rx with recv := e, lastMessageId := some id }, w.trace ++ [i], w.fed⟩
              rfl ?_
            simp only [World.userCalls, List.filterMap_append, List.length_append] at hn ⊢
            omega
          | some c =>
            simp only
            have hlen : ∀ (r : Receiver C) (fed : List Byte),
                n0 < (World.userCalls ⟨r, w.trace ++ [i], fed⟩).length := by
              intro r fed
              simp only [World.userCalls, List.filterMap_append, List.length_append,
                List.filterMap_cons_some hd, List.length_cons] at hn ⊢
              omega
            rw [hu _ _ (hlen _ _)]
            simp only [World.runActs, ok_bind, pure_eq_ok, Bool.or_false, Bool.false_eq_true,
              if_false]
            refine rest ⟨{ w.rx with recv := e, lastMessageId := some id }, w.trace ++ [i], w.fed⟩
              rfl ?_
            simp only [World.userCalls, List.filterMap_append, List.length_append] at hn ⊢
            omega

/-! ### The cached id -/

/-- The cached id, if any, is valid. -/
def IdOk (e : ERB C) : Prop := ∀ id, e.currentMessageId = some id → ∃ n, announced C id = some n

/-- The cached id, if any, announces more bytes than are buffered. -/
def IdShort (e : ERB C) : Prop :=
  ∀ id, e.currentMessageId = some id → ∃ n, announced C id = some n ∧ e.bufferSize < n

theorem IdShort.ok {e : ERB C} (h : IdShort e) : IdOk e := fun id hid =>
  let ⟨n, hn, _⟩ := h id hid
  ⟨n, hn⟩

theorem IdOk.short {e : ERB C} (h : IdOk e) (hs : e.bufferSize < 5) : IdShort e := by
  intro id hid
  obtain ⟨n, hn⟩ := h id hid
  have := announced_ge hn
  have := overhead_ge C.envelope
  exact ⟨n, hn, by omega⟩

theorem popFront_id {B : Build} {e e' : ERB C} {n : Nat} (h : e.bufferPopFront B n = .ok e') :
    e'.currentMessageId = e.currentMessageId := by
  unfold ERB.bufferPopFront at h
  cases hp : e.buf.popFront B n with
  | error f => rw [hp] at h; simp at h
  | ok x =>
    rw [hp] at h
    simp only [ok_bind, pure_eq_ok, Except.ok.injEq] at h
    rw [← h]

theorem skip_id {B : Build} (fuel : Nat) : ∀ {e e' : ERB C}, skipToSOH B fuel e = .ok e' →
    e'.currentMessageId = e.currentMessageId := by
  induction fuel with
  | zero => intro e e' h; simp [skipToSOH] at h
  | succ fuel ih =>
    intro e e' h
    unfold skipToSOH at h
    split at h
    · simp only [Except.ok.injEq] at h; rw [h]
    · cases hf : e.bufferFront B with
      | error f => rw [hf] at h; simp at h
      | ok c =>
        rw [hf] at h
        simp only [ok_bind] at h
        split at h
        · cases hp : e.bufferPopFront B 1 with
          | error f => rw [hp] at h; simp at h
          | ok e1 =>
            rw [hp] at h
            simp only [ok_bind] at h
            rw [ih h, popFront_id hp]
        · simp only [Except.ok.injEq] at h; rw [h]

theorem size_of_empty {e : ERB C} (h : e.bufferEmpty = true) : e.bufferSize = 0 := by
  unfold ERB.bufferEmpty RB.empty at h
  rw [beq_iff_eq] at h
  unfold ERB.bufferSize RB.size subT
  rw [h]
  have := Nat.mod_lt e.buf.pastEnd (Nat.two_pow_pos (leastBits (recvBufferSize C)))
  have h3 := Nat.mod_add_div e.buf.pastEnd (2 ^ leastBits (recvBufferSize C))
  have : e.buf.pastEnd + (2 ^ leastBits (recvBufferSize C) -
      e.buf.pastEnd % 2 ^ leastBits (recvBufferSize C)) =
      2 ^ leastBits (recvBufferSize C) *
        (e.buf.pastEnd / 2 ^ leastBits (recvBufferSize C) + 1) := by
    rw [Nat.mul_add]
    omega
  rw [this, Nat.mul_mod_right]

theorem retry_id {B : Build} {f : ERB C → Res (ERB C × Bool)} {e e' : ERB C} {found : Bool}
    (h : popAndRetry B f e = .ok (e', found)) (hid : IdOk e)
    (hf : ∀ e1 : ERB C, IdOk e1 → f e1 = .ok (e', found) →
      IdOk e' ∧ (found = false → IdShort e')) : IdOk e' ∧ (found = false → IdShort e') := by
  unfold popAndRetry at h
  cases ha : assertMsg B (!e.bufferEmpty) with
  | error _ => rw [ha] at h; simp at h
  | ok u =>
    rw [ha] at h
    simp only [ok_bind] at h
    cases hb : e.bufferEmpty with
    | true =>
      rw [hb] at h
      simp only [if_true, pure_eq_ok, Except.ok.injEq, Prod.mk.injEq] at h
      obtain ⟨rfl, rfl⟩ := h
      exact ⟨hid, fun _ => hid.short (by rw [size_of_empty hb]; omega)⟩
    | false =>
      rw [hb] at h
      simp only [Bool.false_eq_true, if_false] at h
      cases hp : e.bufferPopFront B 1 with
      | error _ => rw [hp] at h; simp at h
      | ok e1 =>
        rw [hp] at h
        simp only [ok_bind] at h
        exact hf e1 (by unfold IdOk; rw [popFront_id hp]; exact hid) h

theorem check_id (hc : recvBufferSize C < 2 ^ 64) {B : Build} (d : Nat) :
    ∀ {e e' : ERB C} {found : Bool},
    IdOk e → checkG B d e = .ok (e', found) → IdOk e' ∧ (found = false → IdShort e') := by
  induction d with
  | zero => intro e e' found _ h; simp [checkG] at h
  | succ d ih =>
    intro e e' found hid h
    unfold checkG at h
    cases hs : skipToSOH B (e.bufferSize + 1) e with
    | error _ => rw [hs] at h; simp at h
    | ok e1 =>
      rw [hs] at h
      simp only [ok_bind] at h
      have hid1 : IdOk e1 := by unfold IdOk; rw [skip_id _ hs]; exact hid
      split at h
      · simp only [pure_eq_ok, Except.ok.injEq, Prod.mk.injEq] at h
        obtain ⟨rfl, rfl⟩ := h
        exact ⟨hid1, fun _ => hid1.short (by omega)⟩
      · cases hb : e1.buffer B 1 with
        | error _ => rw [hb] at h; simp at h
        | ok idb =>
          rw [hb] at h
          simp only [ok_bind] at h
          have hid2 : IdOk (e1.setCurrentMessageId idb) := by
            intro id hid'
            unfold ERB.setCurrentMessageId at hid'
            split at hid'
            · rename_i hv
              simp only [Option.some.injEq] at hid'
              subst hid'
              exact announced_of_valid hv
            · simp at hid'
          generalize he2 : e1.setCurrentMessageId idb = e2 at h hid2
          split at h
          · exact retry_id h hid2 fun e1 h1 h2 => ih h1 h2
          · split at h
            · simp only [pure_eq_ok, Except.ok.injEq, Prod.mk.injEq] at h
              obtain ⟨rfl, rfl⟩ := h
              exact ⟨hid2, fun _ => hid2.short (by omega)⟩
            · rename_i hvalid _
              cases hb2 : e2.buffer B 2 with
              | error _ => rw [hb2] at h; simp at h
              | ok c2 =>
                rw [hb2] at h
                simp only [ok_bind] at h
                split at h
                · exact retry_id h hid2 fun e1 h1 h2 => ih h1 h2
                · obtain ⟨id, hid3⟩ : ∃ id, e2.currentMessageId = some id := by
                    simp only [ERB.isCurrentMessageIdValid, Bool.not_eq_true',
                      Bool.not_eq_false, Option.isSome_iff_exists] at hvalid
                    exact hvalid
                  obtain ⟨n, hn⟩ := hid2 id hid3
                  rw [getMessageLength_ok hc hid3 hn] at h
                  simp only [ok_bind] at h
                  split at h
                  · rename_i hsz
                    simp only [pure_eq_ok, Except.ok.injEq, Prod.mk.injEq] at h
                    obtain ⟨rfl, rfl⟩ := h
                    refine ⟨hid2, fun _ id' hid' => ?_⟩
                    rw [hid3] at hid'
                    simp only [Option.some.injEq] at hid'
                    subst hid'
                    exact ⟨n, hn, hsz⟩
                  · cases ht : trailerOk B e2 n with
                    | error _ => rw [ht] at h; simp at h
                    | ok good =>
                      rw [ht] at h
                      simp only [ok_bind] at h
                      split at h
                      · simp only [pure_eq_ok, Except.ok.injEq, Prod.mk.injEq] at h
                        obtain ⟨rfl, rfl⟩ := h
                        exact ⟨hid2, by simp⟩
                      · exact retry_id h hid2 fun e1 h1 h2 => ih h1 h2

theorem runActs_id {B : Build} {nested : World C → Res (World C × Outcome)}
    (hn : ∀ w w' o, IdOk w.rx.recv → nested w = .ok (w', o) → IdOk w'.rx.recv) (acts : List Act) :
    ∀ {w w' : World C} {t : Bool}, IdOk w.rx.recv → World.runActs B nested w acts = .ok (w', t) →
      IdOk w'.rx.recv := by
  induction acts with
  | nil =>
    intro w w' t h hr
    simp only [World.runActs, Except.ok.injEq, Prod.mk.injEq] at hr
    rw [← hr.1]; exact h
  | cons a as ih =>
    intro w w' t h hr
    cases a with
    | append xs =>
      simp only [World.runActs, World.append, Receiver.appendReceived, ERB.bufferAppend] at hr
      cases hp : w.rx.recv.buf.pushBackRange B xs with
      | error _ => rw [hp] at hr; simp at hr
      | ok b =>
        rw [hp] at hr
        simp only [ok_bind, pure_eq_ok] at hr
        exact ih (by exact h) hr
    | setHandler hd => exact ih (by exact h) hr
    | clearHandler => exact ih (by exact h) hr
    | process =>
      simp only [World.runActs] at hr
      cases hp : nested w with
      | error _ => rw [hp] at hr; simp at hr
      | ok x =>
        obtain ⟨w1, o⟩ := x
        rw [hp] at hr
        have h1 := hn w w1 o h hp
        cases o with
        | threw =>
          simp only [ok_bind, pure_eq_ok, Except.ok.injEq, Prod.mk.injEq] at hr
          rw [← hr.1]; exact h1
        | returned k => exact ih h1 hr

/-- After `processMessages` returned, the cached id announces more than is buffered. -/
theorem processLoop_id (hc : recvBufferSize C < 2 ^ 64) {B : Build} {user : UserCode} (fuel : Nat) :
    ∀ {w w' : World C} {k : Byte} {o : Outcome}, IdOk w.rx.recv →
      World.processLoop B user fuel w k = .ok (w', o) →
      IdOk w'.rx.recv ∧ (o ≠ .threw → IdShort w'.rx.recv) := by
  induction fuel with
  | zero => intro w w' k o _ h; simp [World.processLoop] at h
  | succ fuel ih =>
    intro w w' k o hid h
    unfold World.processLoop ERB.checkBufferForMessage at h
    rw [checkDepth_eq] at h
    cases hck : checkG B (w.rx.recv.bufferSize + 1) w.rx.recv with
    | error _ => rw [hck] at h; simp at h
    | ok x =>
      obtain ⟨e, found⟩ := x
      obtain ⟨q1, q2⟩ := check_id hc _ hid hck
      rw [hck] at h
      simp only [ok_bind] at h
      cases found with
      | false =>
        simp only [Bool.not_false, if_true, pure_eq_ok, Except.ok.injEq, Prod.mk.injEq] at h
        rw [← h.1]
        exact ⟨q1, fun _ => q2 rfl⟩
      | true =>
        simp only [Bool.not_true, Bool.false_eq_true, if_false] at h
        cases hg : e.getCurrentMessageId B with
        | error _ => rw [hg] at h; simp at h
        | ok id =>
          rw [hg] at h
          simp only [ok_bind] at h
          cases hi : Receiver.invoke { w.rx with recv := e, lastMessageId := some id } id with
          | error _ => rw [hi] at h; simp at h
          | ok i? =>
            rw [hi] at h
            simp only [ok_bind] at h
            have rest : ∀ {w2 : World C} {t : Bool}, IdOk w2.rx.recv →
                (if t = true then (pure (w2, Outcome.threw) : Res (World C × Outcome)) else do
                  let e ← w2.rx.recv.popMessage B
                  World.processLoop B user fuel { w2 with rx := { w2.rx with recv := e } } (k + 1))
                  = .ok (w', o) → IdOk w'.rx.recv ∧ (o ≠ .threw → IdShort w'.rx.recv) := by
              intro w2 t hid2 hr
              cases t with
              | true =>
                simp only [if_true, pure_eq_ok, Except.ok.injEq, Prod.mk.injEq] at hr
                obtain ⟨rfl, rfl⟩ := hr
                exact ⟨hid2, by simp⟩
              | false =>
                simp only [Bool.false_eq_true, if_false] at hr
                cases hp : w2.rx.recv.popMessage B with
                | error _ => rw [hp] at hr; simp at hr
                | ok e' =>
                  rw [hp] at hr
                  simp only [ok_bind] at hr
                  refine ih ?_ hr
                  have : e'.currentMessageId = none := by
                    unfold ERB.popMessage at hp
                    revert hp
                    generalize (if B.debug = true then (do
                      let (r, ok) ← w2.rx.recv.checkBufferForMessage B
                      assertMsg B ok
                      return r) else (.ok w2.rx.recv : Res (ERB C))) = r0
                    intro hp
                    cases r0 with
                    | error _ => simp at hp
                    | ok r =>
                      simp only [ok_bind] at hp
                      cases hl : r.getMessageLength B with
                      | error _ => rw [hl] at hp; simp at hp
                      | ok n =>
                        rw [hl] at hp
                        simp only [ok_bind] at hp
                        cases hpp : r.bufferPopFront B n with
                        | error _ => rw [hpp] at hp; simp at hp
                        | ok r' =>
                          rw [hpp] at hp
                          simp only [ok_bind, pure_eq_ok, Except.ok.injEq] at hp
                          rw [← hp]
                  intro id' hid'
                  simp only [this] at hid'
                  simp at hid'
            cases i? with
            | none =>
              simp only [ok_bind] at h
              exact rest (w2 := { w with rx := { w.rx with recv := e, lastMessageId := some id } })
                (t := false) q1 h
            | some i =>
              simp only [World.callHandler] at h
              cases hd : dispatch i with
              | none =>
                rw [hd] at h
                simp only [ok_bind, pure_eq_ok] at h
                exact rest (t := false) (w2 := { w with
                  rx := { w.rx with recv := e, lastMessageId := some id },
                  trace := w.trace ++ [i] }) q1 h
              | some c =>
                rw [hd] at h
                simp only at h
                revert h
                generalize hw1 : ({ w with
                  rx := { w.rx with recv := e, lastMessageId := some id },
                  trace := w.trace ++ [i] } : World C) = w1
                intro h
                have hidw1 : IdOk w1.rx.recv := by rw [← hw1]; exact q1
                generalize (user w1.userCalls _) = re at h
                cases hra : World.runActs B (fun w => if !w.rx.hasHandler then .ok (w, .returned 0)
                      else World.processLoop B user fuel w 0) w1 re.acts with
                | error _ => rw [hra] at h; simp at h
                | ok x =>
                  obtain ⟨w2, t⟩ := x
                  rw [hra] at h
                  simp only [ok_bind, pure_eq_ok] at h
                  have hidw2 : IdOk w2.rx.recv := by
                    refine runActs_id ?_ _ hidw1 hra
                    intro wa wb o' ha hb
                    split at hb
                    · simp only [Except.ok.injEq, Prod.mk.injEq] at hb
                      rw [← hb.1]; exact ha
                    · exact (ih ha hb).1
                  exact rest hidw2 h

end TT
