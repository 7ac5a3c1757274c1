import Verif.Model.Cost
import Verif.Proofs.History

/-!
# Helper lemmas: the counting functions compute the same, and how much they count
-/

namespace TT
open Spec Counted

variable {C : Collection} {α β : Type}

/-- `m` computes what `x` computes, and `P a k` holds of the result `a` and the cost `k`. -/
def Costs (m : Counted α) (x : Res α) (P : α → Nat → Prop) : Prop :=
  (∀ a, x = .ok a → ∃ k, P a k ∧ ∀ c, m.run c = .ok (a, c + k)) ∧
  (∀ f, x = .error f → ∀ c, m.run c = .error f)

theorem Costs.mono {m : Counted α} {x : Res α} {P Q : α → Nat → Prop} (h : Costs m x P)
    (hpq : ∀ a k, x = .ok a → P a k → Q a k) : Costs m x Q := by
  refine ⟨fun a ha => ?_, h.2⟩
  obtain ⟨k, h1, h2⟩ := h.1 a ha
  exact ⟨k, hpq a k ha h1, h2⟩

theorem costs_call (n : Nat) (x : Res α) {P : α → Nat → Prop} (h : ∀ a, x = .ok a → P a n) :
    Costs (call n x) x P :=
  ⟨fun a ha => ⟨n, h a ha, fun c => by subst ha; rfl⟩, fun f hf c => by subst hf; rfl⟩

theorem run_bind (m : Counted α) (f : α → Counted β) (c : Nat) :
    (m >>= f).run c = match m.run c with
      | .ok (a, c) => (f a).run c
      | .error e => .error e := rfl

theorem Costs.bind {m : Counted α} {x : Res α} {P : α → Nat → Prop} {f : α → Counted β}
    {g : α → Res β} {Q : β → Nat → Prop} (h : Costs m x P)
    (h' : ∀ a k, x = .ok a → P a k → Costs (f a) (g a) (fun b k' => Q b (k + k'))) :
    Costs (m >>= f) (x >>= g) Q := by
  cases x with
  | error e =>
    refine ⟨fun a ha => by simp at ha, fun f' hf c => ?_⟩
    simp only [error_bind, Except.error.injEq] at hf
    subst hf
    rw [run_bind, h.2 e rfl c]
  | ok a =>
    obtain ⟨k, h1, h2⟩ := h.1 a rfl
    have h3 := h' a k rfl h1
    simp only [ok_bind]
    refine ⟨fun b hb => ?_, fun e he c => ?_⟩
    · obtain ⟨k', h4, h5⟩ := h3.1 b hb
      refine ⟨k + k', h4, fun c => ?_⟩
      rw [run_bind, h2 c]
      simp only
      rw [h5, Nat.add_assoc]
    · rw [run_bind, h2 c]
      exact h3.2 e he _

/-- A counted call whose result is known. -/
theorem Costs.call_bind {n : Nat} {x : Res α} {f : α → Counted β} {g : α → Res β}
    {Q : β → Nat → Prop} (h' : ∀ a, x = .ok a → Costs (f a) (g a) (fun b k' => Q b (n + k'))) :
    Costs (call n x >>= f) (x >>= g) Q :=
  Costs.bind (P := fun _ k => k = n) (costs_call n x (fun _ _ => rfl))
    (fun a k ha hk => by subst hk; exact h' a ha)

/-- A counted call of something that is just a value. -/
theorem Costs.val_bind {n : Nat} {a : α} {f : α → Counted β} {y : Res β}
    {Q : β → Nat → Prop} (h' : Costs (f a) y (fun b k' => Q b (n + k'))) :
    Costs (call n (.ok a) >>= f) y Q := by
  have := Costs.call_bind (n := n) (x := .ok a) (f := f) (g := fun _ => y) (Q := Q)
    (fun b hb => by cases hb; exact h')
  exact this

theorem costs_ite {p : Prop} [Decidable p] {m m' : Counted α} {x x' : Res α} {P : α → Nat → Prop}
    (h : p → Costs m x P) (h' : ¬ p → Costs m' x' P) :
    Costs (if p then m else m') (if p then x else x') P := by
  split
  · exact h ‹_›
  · exact h' ‹_›

/-! ### The search -/

theorem ERB.pop_one {e e' : ERB C} {xs : List Byte} (hc : recvBufferSize C < 2 ^ 64)
    (h : e.Holds xs) (hne : e.bufferEmpty = false) {B : Build}
    (hp : e.bufferPopFront B 1 = .ok e') :
    ∃ x zs, xs = x :: zs ∧ e'.Holds zs ∧ e'.currentMessageId = e.currentMessageId := by
  cases xs with
  | nil => simp [h.empty_eq] at hne
  | cons x zs =>
    obtain ⟨e1, h1, hh1, hi, _⟩ := h.pop_ok hc (n := 1) (by omega)
    rw [h1 B] at hp
    cases hp
    exact ⟨x, zs, rfl, by simpa using hh1, hi⟩

theorem skip_costs (hc : recvBufferSize C < 2 ^ 64) (B : Build) (fuel : Nat) :
    ∀ (e : ERB C) (xs : List Byte), e.Holds xs →
    Costs (skipToSOHCounted B fuel e) (skipToSOH B fuel e) (fun e' k => ∃ ys, e'.Holds ys ∧
      ys.length ≤ xs.length ∧ k ≤ 4 * (xs.length - ys.length) + 2) := by
  induction fuel with
  | zero => intro e xs _; exact costs_call _ _ (by simp)
  | succ fuel ih =>
    intro e xs h
    unfold skipToSOHCounted skipToSOH
    apply Costs.val_bind
    refine costs_ite (fun _ => costs_call _ _ ?_) (fun hne => ?_)
    · intro a ha; cases ha; exact ⟨xs, h, Nat.le_refl _, by omega⟩
    · refine Costs.call_bind (fun c hcc => ?_)
      refine costs_ite (fun _ => ?_) (fun _ => costs_call _ _ ?_)
      · refine Costs.call_bind (fun e1 he1 => ?_)
        obtain ⟨x, zs, rfl, hh, _⟩ := ERB.pop_one hc h (by simpa using hne) he1
        refine (ih e1 zs hh).mono (fun a k _ hP => ?_)
        obtain ⟨ys, h1, h2, h3⟩ := hP
        exact ⟨ys, h1, by simp; omega, by simp; omega⟩
      · intro a ha; cases ha; exact ⟨xs, h, Nat.le_refl _, by omega⟩

theorem checksumLoop_costs (B : Build) (r : ERB C) (n : Nat) : ∀ (ck : Byte) (i : Nat),
    Costs (checksumLoopCounted B r ck i n) (checksumLoop B r ck i n) (fun _ k => k = n) := by
  induction n with
  | zero => intro ck i; exact costs_call _ _ (by simp)
  | succ n ih =>
    intro ck i
    unfold checksumLoopCounted checksumLoop
    refine Costs.call_bind (fun v _ => Costs.call_bind (fun ck' _ => ?_))
    exact (ih ck' (i + 1)).mono (fun _ _ _ h => by omega)

theorem trailer_costs (B : Build) (r : ERB C) (n : Nat) :
    Costs (trailerCounted B r n) (trailerOk B r n) (fun _ k => k ≤ n + 3) := by
  unfold trailerCounted trailerOk
  cases C.envelope with
  | basic =>
    refine Costs.call_bind (fun e2 _ => costs_ite (fun _ => costs_call _ _ ?_) (fun _ => ?_))
    · intro a _; omega
    · exact Costs.call_bind (fun e1 _ => costs_call _ _ (fun a _ => by omega))
  | basicChecksum =>
    refine Costs.call_bind (fun e2 _ => costs_ite (fun _ => costs_call _ _ ?_) (fun _ => ?_))
    · intro a _; omega
    · refine Costs.call_bind (fun e1 _ => costs_ite (fun _ => costs_call _ _ ?_) (fun _ => ?_))
      · intro a _; omega
      · refine Costs.bind (checksumLoop_costs B r (n - 2) _ _) (fun ck k _ hk => ?_)
        exact Costs.call_bind (fun fm _ => costs_call _ _ (fun a _ => by omega))

theorem setId_holds {e : ERB C} {xs : List Byte} (h : e.Holds xs) (id : Byte) :
    (e.setCurrentMessageId id).Holds xs := by
  unfold ERB.setCurrentMessageId
  split <;> exact h

theorem getMessageLength_le (hc : recvBufferSize C < 2 ^ 64) {e : ERB C} {id : Byte} {n : Nat}
    {B : Build} (hv : (e.setCurrentMessageId id).isCurrentMessageIdValid = true)
    (h : (e.setCurrentMessageId id).getMessageLength B = .ok n) : n ≤ maxLen C := by
  unfold ERB.setCurrentMessageId at hv h
  split at hv
  · rename_i hid
    rw [if_pos hid] at h
    have ht := (isIdValid_iff C id).mp hid
    cases hty : typeOf C id with
    | none => exact absurd hty ht
    | some ty =>
      have ha : announced C id = some (overhead C.envelope + payloadSize ty) := by
        simp [announced, hty]
      rw [getMessageLength_ok hc rfl ha B] at h
      cases h
      rw [maxLen_eq]
      exact announced_le ha
  · simp [ERB.isCurrentMessageIdValid] at hv

theorem check_costs (hc : recvBufferSize C < 2 ^ 64) (B : Build) (depth : Nat) :
    ∀ (e : ERB C) (xs : List Byte), e.Holds xs →
    Costs (checkCounted B depth e) (checkG B depth e) (fun a k => ∃ ys, a.1.Holds ys ∧
      ys.length ≤ xs.length ∧ k ≤ (maxLen C + 17) * (xs.length - ys.length + 1)) := by
  induction depth with
  | zero => intro e xs _; exact costs_call _ _ (by simp)
  | succ depth ih =>
    intro e xs h
    unfold checkCounted checkG
    refine Costs.bind (skip_costs hc B _ e xs h) (fun e1 k1 _ hP => ?_)
    obtain ⟨ys, hh1, hl1, hk1⟩ := hP
    -- stopping after `k` more calls
    have stop : ∀ {r : ERB C} {b : Bool} {k : Nat}, r.Holds ys → k ≤ maxLen C + 15 →
        ∃ zs, r.Holds zs ∧ zs.length ≤ xs.length ∧
          k1 + k ≤ (maxLen C + 17) * (xs.length - zs.length + 1) := by
      intro r b k hr hk
      refine ⟨ys, hr, hl1, ?_⟩
      rw [Nat.mul_add, Nat.mul_one]
      have : 4 * (xs.length - ys.length) ≤ (maxLen C + 17) * (xs.length - ys.length) :=
        Nat.mul_le_mul_right _ (by omega)
      omega
    -- giving up the start code after `k` more calls
    have retry : ∀ {r : ERB C} {k : Nat}, r.Holds ys → k ≤ maxLen C + 11 →
        Costs (popAndRetryCounted B (checkCounted B depth) r) (popAndRetry B (checkG B depth) r)
          (fun a k' => ∃ zs, a.1.Holds zs ∧ zs.length ≤ xs.length ∧
            k1 + (k + k') ≤ (maxLen C + 17) * (xs.length - zs.length + 1)) := by
      intro r k hr hk
      unfold popAndRetryCounted popAndRetry
      refine Costs.call_bind (fun _ _ => Costs.val_bind ?_)
      refine costs_ite (fun _ => costs_call _ _ ?_) (fun hne => ?_)
      · intro a ha
        cases ha
        have := stop (b := false) (k := k + ((if B.debug then 1 else 0) + (1 + 0))) hr
          (by split <;> omega)
        exact this
      · refine Costs.call_bind (fun e2 he2 => ?_)
        obtain ⟨x, zs, rfl, hh2, _⟩ := ERB.pop_one hc hr (by simpa using hne) he2
        refine (ih e2 zs hh2).mono (fun a k3 _ hP => ?_)
        obtain ⟨ws, h1, h2, h3⟩ := hP
        simp only [List.length_cons] at hl1 hk1
        refine ⟨ws, h1, by omega, ?_⟩
        have hd : (if B.debug then 1 else 0) ≤ 1 := by split <;> omega
        obtain ⟨d, hd'⟩ : ∃ d, xs.length = d + (zs.length + 1) :=
          ⟨xs.length - (zs.length + 1), by omega⟩
        obtain ⟨d2, hd2⟩ : ∃ d, zs.length = d + ws.length := ⟨zs.length - ws.length, by omega⟩
        have e1 : xs.length - ws.length + 1 = d + (d2 + 1) + 1 := by omega
        have e2 : zs.length - ws.length + 1 = d2 + 1 := by omega
        have e3 : xs.length - (zs.length + 1) = d := by omega
        rw [e2] at h3
        rw [e3] at hk1
        rw [e1, Nat.mul_add _ _ 1, Nat.mul_add _ d, Nat.mul_one]
        have : 4 * d ≤ (maxLen C + 17) * d := Nat.mul_le_mul_right _ (by omega)
        omega
    apply Costs.val_bind
    refine costs_ite (fun _ => costs_call _ _ ?_) (fun _ => ?_)
    · intro a ha; cases ha; exact stop (b := false) hh1 (by omega)
    refine Costs.call_bind (fun id _ => ?_)
    have hh2 := setId_holds hh1 id
    apply Costs.val_bind
    apply Costs.val_bind
    refine costs_ite (fun _ => ?_) (fun hv => ?_)
    · exact (retry (k := 4) hh2 (by omega)).mono (fun a k _ hP => by
        obtain ⟨zs, h1, h2, h3⟩ := hP; exact ⟨zs, h1, h2, by omega⟩)
    have hv' : (e1.setCurrentMessageId id).isCurrentMessageIdValid = true := by simpa using hv
    apply Costs.val_bind
    refine costs_ite (fun _ => costs_call _ _ ?_) (fun _ => ?_)
    · intro a ha; cases ha; exact stop (b := false) hh2 (by omega)
    refine Costs.call_bind (fun c2 _ => ?_)
    refine costs_ite (fun _ => ?_) (fun _ => ?_)
    · exact (retry (k := 6) hh2 (by omega)).mono (fun a k _ hP => by
        obtain ⟨zs, h1, h2, h3⟩ := hP; exact ⟨zs, h1, h2, by omega⟩)
    refine Costs.call_bind (fun n hn => ?_)
    have hnl := getMessageLength_le hc hv' hn
    apply Costs.val_bind
    refine costs_ite (fun _ => costs_call _ _ ?_) (fun _ => ?_)
    · intro a ha; cases ha; exact stop (b := false) hh2 (by omega)
    refine Costs.bind (trailer_costs B _ n) (fun good k2 _ hk2 => ?_)
    refine costs_ite (fun _ => costs_call _ _ ?_) (fun _ => ?_)
    · intro a ha; cases ha
      have := stop (b := true) (k := 8 + k2) hh2 (by omega)
      obtain ⟨zs, h1, h2, h3⟩ := this
      exact ⟨zs, h1, h2, by omega⟩
    · exact (retry (k := 8 + k2) hh2 (by omega)).mono (fun a k _ hP => by
        obtain ⟨zs, h1, h2, h3⟩ := hP; exact ⟨zs, h1, h2, by omega⟩)

/-! ### Nothing to do -/

/-- On a buffer that cannot be processed further the search makes at most ten calls. -/
theorem check_costs_final (hc : recvBufferSize C < 2 ^ 64) (B : Build) {e : ERB C} {xs : List Byte}
    (h : e.Holds xs) (hf : Final C xs) :
    Costs (e.checkBufferForMessageCounted B) (checkG B (e.bufferSize + 1) e) (fun _ k => k ≤ 10) := by
  have hsz := h.size_eq hc
  have hskip : ∀ n (P : ERB C → Nat → Prop), (n = e.bufferSize + 1) → P e (if xs = [] then 1 else 2) →
      Costs (skipToSOHCounted B n e) (skipToSOH B n e) (fun a k => a = e ∧ P a k) := by
    intro n P hn hP
    subst hn
    unfold skipToSOHCounted skipToSOH
    apply Costs.val_bind
    refine costs_ite (fun he => costs_call _ _ ?_) (fun hne => ?_)
    · intro a ha; cases ha
      rw [h.empty_eq] at he
      have : xs = [] := by simpa using he
      simpa [this] using hP
    · rw [h.empty_eq] at hne
      cases xs with
      | nil => simp at hne
      | cons x xs =>
        have hx : x = 0x01 := by
          rcases hf with e0 | e0 | ⟨_, _, e0⟩ | ⟨_, _, _, _, e0, _⟩ <;> simp at e0 <;> exact e0.1
        refine Costs.call_bind (fun c hcc => ?_)
        have : c = x := by
          simp only [ERB.bufferFront, RB.Holds.front_ok hc h] at hcc
          exact (Except.ok.inj hcc).symm
        have hsoh : ¬ c ≠ SOH := by rw [this, hx]; decide
        rw [if_neg hsoh, if_neg hsoh]
        refine costs_call _ _ ?_
        intro a ha; cases ha
        simpa using hP
  unfold ERB.checkBufferForMessageCounted checkCounted checkG
  refine Costs.bind (hskip _ (fun _ k => k ≤ 2) rfl (by split <;> omega)) ?_
  rintro e1 k1 - ⟨rfl, hk1⟩
  apply Costs.val_bind
  refine costs_ite (fun _ => costs_call _ _ (by intro a _; omega)) (fun h2 => ?_)
  rw [hsz] at h2
  obtain ⟨id, rest, hxs, hty⟩ : ∃ id rest, xs = 0x01 :: id :: rest ∧ typeOf C id ≠ none := by
    rcases hf with e0 | e0 | ⟨id, ht, e0⟩ | ⟨id, rest, n, ha, e0, _⟩
    · simp [e0] at h2
    · simp [e0] at h2
    · exact ⟨id, [], e0, ht⟩
    · refine ⟨id, _, e0, fun hn => ?_⟩
      simp [announced, hn] at ha
  subst hxs
  refine Costs.call_bind (fun id' hid => ?_)
  have : id' = id := by
    have := RB.Holds.get_ok hc h B (i := 1) (by simp)
    unfold ERB.buffer at hid
    rw [this] at hid
    exact (Except.ok.inj hid).symm
  subst this
  have hv : isIdValid C id' = true := (isIdValid_iff C id').mpr hty
  have hval : (e1.setCurrentMessageId id').isCurrentMessageIdValid = true := by
    simp [ERB.setCurrentMessageId, hv, ERB.isCurrentMessageIdValid]
  have hcur : (e1.setCurrentMessageId id').currentMessageId = some id' := by
    simp [ERB.setCurrentMessageId, hv]
  have hh := setId_holds h id'
  apply Costs.val_bind
  apply Costs.val_bind
  have hval' : ¬ (!(e1.setCurrentMessageId id').isCurrentMessageIdValid) = true := by
    rw [hval]; decide
  rw [if_neg hval', if_neg hval']
  apply Costs.val_bind
  refine costs_ite (fun _ => costs_call _ _ (by intro a _; omega)) (fun h3 => ?_)
  rw [hh.size_eq hc] at h3
  obtain ⟨rest', n, ha, hr, hlt⟩ : ∃ rest' n, announced C id' = some n ∧ rest = 0x02 :: rest' ∧
      rest'.length + 3 < n := by
    rcases hf with e0 | e0 | ⟨id, ht, e0⟩ | ⟨id, rest, n, ha, e0, hl⟩
    · simp at e0
    · simp at e0
    · simp at e0; simp [e0] at h3
    · simp only [List.cons.injEq, true_and] at e0
      obtain ⟨rfl, e0⟩ := e0
      refine ⟨rest, n, ha, e0, ?_⟩
      subst e0
      simpa using hl
  subst hr
  refine Costs.call_bind (fun c hcc => ?_)
  have hcc' : c = 0x02 := by
    have := RB.Holds.get_ok hc hh B (i := 2) (by simp)
    unfold ERB.buffer at hcc
    rw [this] at hcc
    exact (Except.ok.inj hcc).symm
  have hstx : ¬ c ≠ STX := by rw [hcc']; decide
  rw [if_neg hstx, if_neg hstx]
  refine Costs.call_bind (fun n' hn => ?_)
  rw [getMessageLength_ok hc hcur ha B] at hn
  cases hn
  apply Costs.val_bind
  have hwait : (e1.setCurrentMessageId id').bufferSize < n := by
    rw [hh.size_eq hc]; simpa using hlt
  rw [if_pos hwait, if_pos hwait]
  exact costs_call _ _ (by intro a _; omega)

/-! ### Removing a message -/

theorem popMessage_costs (hc : recvBufferSize C < 2 ^ 64) (B : Build) {e : ERB C} {m : Msg}
    {t : List Byte} (hm : IsMsg C m) (h : e.Holds (frame C.envelope m ++ t))
    (hid : e.currentMessageId = some m.id) :
    Costs (e.popMessageCounted B) (e.popMessage B) (fun _ k => k ≤ 2 * maxLen C + 19) := by
  have hlen : (frame C.envelope m).length ≤ maxLen C := by
    have := announced_le hm.announced
    rw [maxLen_eq]; exact this
  have hcurr : { e with currentMessageId := some m.id } = e := by rw [← hid]
  unfold ERB.popMessageCounted ERB.popMessage
  refine Costs.bind (P := fun a k => a = e ∧ k ≤ maxLen C + 17) ?_ ?_
  · refine costs_ite (fun _ => ?_) (fun _ => costs_call _ _ ?_)
    · have h0 : Costs (e.checkBufferForMessageCounted B) (e.checkBufferForMessage B)
          (fun a k => a = (e, true) ∧ k ≤ maxLen C + 17) := by
        have h1 := check_costs hc B (e.bufferSize + 1) e _ h
        rw [← checkDepth_eq] at h1
        refine h1.mono (fun a k ha hP => ?_)
        change e.checkBufferForMessage B = .ok a at ha
        rw [check_at_frame hc hm h, hcurr] at ha
        cases ha
        obtain ⟨ys, hy1, hy2, hy3⟩ := hP
        refine ⟨rfl, ?_⟩
        have e1 := hy1.size_eq hc
        rw [h.size_eq hc] at e1
        rw [← e1] at hy3
        simpa using hy3
      refine Costs.bind h0 ?_
      rintro a k - ⟨rfl, hk⟩
      refine Costs.call_bind (fun _ _ => costs_call _ _ ?_)
      intro a ha; cases ha
      exact ⟨rfl, by omega⟩
    · intro a ha; cases ha; exact ⟨rfl, by omega⟩
  · rintro a k - ⟨rfl, hk⟩
    refine Costs.call_bind (fun n hn => ?_)
    rw [getMessageLength_ok hc hid hm.announced] at hn
    cases hn
    exact Costs.call_bind (fun _ _ => costs_call _ _ (fun _ _ => by omega))

/-! ### The handler call -/

theorem runActs_costs (B : Build) {nested : World C → Res (World C × Outcome)}
    {nestedC : World C → Counted (World C × Outcome)} (acts : List Act) :
    ∀ w : World C, (∀ a ∈ acts, a ≠ .process) →
    Costs (World.runActsCounted B nestedC w acts) (World.runActs B nested w acts)
      (fun _ k => k = 0) := by
  induction acts with
  | nil => intro w _; exact costs_call _ _ (by simp)
  | cons a acts ih =>
    intro w hno
    have hno' : ∀ a ∈ acts, a ≠ Act.process := fun a ha => hno a (by simp [ha])
    cases a with
    | append xs =>
      unfold World.runActsCounted World.runActs
      exact Costs.call_bind (fun w1 _ => (ih w1 hno').mono (by intros; omega))
    | setHandler h => exact ih _ hno'
    | clearHandler => exact ih _ hno'
    | process => exact absurd rfl (hno .process (by simp))

theorem callHandler_costs (B : Build) {user : UserCode} (hu : BenignUser user)
    {nested : World C → Res (World C × Outcome)}
    {nestedC : World C → Counted (World C × Outcome)} (w : World C) (i : Invocation) :
    Costs (World.callHandlerCounted B user nestedC w i) (World.callHandler B user nested w i)
      (fun _ k => k = 0) := by
  unfold World.callHandlerCounted World.callHandler
  cases dispatch i with
  | none => exact costs_call _ _ (by simp)
  | some c =>
    refine Costs.bind (runActs_costs B _ _ (fun a ha => ((hu _ _).1 a ha).2)) ?_
    rintro ⟨w1, th⟩ k - hk
    exact costs_call _ _ (by intro a _; omega)

theorem splitFields_sum (fs : List FieldType) : ∀ p : List Byte,
    p.length = (fs.map fieldSize).sum → ((splitFields fs p).map List.length).sum = p.length := by
  induction fs with
  | nil => intro p h; simp at h; simp [splitFields, h]
  | cons f fs ih =>
    intro p h
    simp only [List.map_cons, List.sum_cons] at h
    simp only [splitFields, List.map_cons, List.sum_cons]
    rw [ih _ (by simp; omega)]
    simp; omega

theorem copied_callOf {m : Msg} (hm : IsMsg C m) (h : Handler) :
    World.copied (some (callOf C h m)) + overhead C.envelope ≤ maxLen C := by
  have hlen : (frame C.envelope m).length ≤ maxLen C := by
    have := announced_le hm.announced
    rw [maxLen_eq]; exact this
  rw [frame_length] at hlen
  obtain ⟨ty, hty, hl⟩ := hm
  have e : World.copied (some (callOf C h m)) = m.payload.length := by
    simp only [World.copied, callOf, hty, Option.getD_some]
    exact splitFields_sum _ _ hl
  omega

/-! ### The loop -/

theorem loop_costs (hc : recvBufferSize C < 2 ^ 64) {B : Build} (hA : Arith B (recvBufferSize C))
    {user : UserCode} (hu : BenignUser user) (fuel : Nat) : ∀ (w : World C) (s : AState) (n : Byte),
    Abs w s → s.handler.isSome →
    Costs (World.processLoopCounted B user fuel w n) (World.processLoop B user fuel w n)
      (fun a k => ∃ s', Abs a.1 s' ∧ s.fed.length ≤ s'.fed.length ∧
        k + (maxLen C + 17) * (s.fed.length + s'.buf.length) ≤
          (maxLen C + 17) * (s'.fed.length + s.buf.length +
            (match a.2 with | .threw => 2 | .returned _ => 1))) := by
  induction fuel with
  | zero => intro w s n _ _; exact costs_call _ _ (by simp)
  | succ fuel ih =>
    intro w s n hw hh
    obtain ⟨h, hh⟩ := Option.isSome_iff_exists.mp hh
    obtain ⟨e1, found, ys, h1, _, hh1, hr1, _, ht1, hf1⟩ := check_spec hc hw.buf
    unfold World.processLoopCounted World.processLoop
    have h0 : Costs (w.rx.recv.checkBufferForMessageCounted B) (w.rx.recv.checkBufferForMessage B)
        (fun a k => a = (e1, found) ∧ ys.length ≤ s.buf.length ∧
          k ≤ (maxLen C + 17) * (s.buf.length - ys.length + 1)) := by
      have h2 := check_costs hc B (w.rx.recv.bufferSize + 1) _ _ hw.buf
      rw [← checkDepth_eq] at h2
      refine h2.mono (fun a k ha hP => ?_)
      change w.rx.recv.checkBufferForMessage B = .ok a at ha
      rw [h1 B] at ha
      cases ha
      obtain ⟨zs, hz1, hz2, hz3⟩ := hP
      have e2 := hz1.size_eq hc
      rw [hh1.size_eq hc] at e2
      exact ⟨rfl, by omega, by rw [e2]; exact hz3⟩
    refine Costs.bind h0 ?_
    rintro _ k0 - ⟨rfl, hle, hk0⟩
    obtain ⟨d, hd⟩ : ∃ d, s.buf.length = d + ys.length := ⟨s.buf.length - ys.length, by omega⟩
    rw [hd, Nat.add_sub_cancel] at hk0
    cases found with
    | false =>
      refine costs_call _ _ ?_
      intro a ha
      cases ha
      refine ⟨{ s with buf := ys }, ⟨hh1, hw.invoker, hw.functor, hw.last, hw.trace, hw.fed⟩,
        Nat.le_refl _, ?_⟩
      simp only
      rw [show s.fed.length + s.buf.length + 1 = (s.fed.length + ys.length) + (d + 1) by omega,
        Nat.mul_add _ (s.fed.length + ys.length)]
      omega
    | true =>
      obtain ⟨m, t, hm, rfl, hid⟩ := ht1 rfl
      simp only [Bool.not_true, Bool.false_eq_true, if_false]
      refine Costs.call_bind (fun id hide => ?_)
      simp only [ERB.getCurrentMessageId, hid, Option.isSome_some, assertMsg_true, ok_bind,
        Except.ok.injEq] at hide
      subst hide
      let w1 : World C := { w with rx := { w.rx with recv := e1, lastMessageId := some m.id } }
      let s1 : AState := { s with buf := frame C.envelope m ++ t, last := some m.id }
      have hw1 : Abs w1 s1 := ⟨hh1, hw.invoker, hw.functor, rfl, hw.trace, hw.fed⟩
      have hinv : w1.rx.invoke m.id = .ok (some (callOf C h m)) :=
        invoke_ok (k := h.kind) (o := h.obj) hm hh1 (by simp [w1, hw.invoker, hh])
          (by simp [w1, hw.functor, hh])
      refine Costs.call_bind (fun i? hi => ?_)
      have hi' : i? = some (callOf C h m) := by
        change w1.rx.invoke m.id = _ at hi
        rw [hinv] at hi
        exact (Except.ok.inj hi).symm
      subst hi'
      apply Costs.val_bind
      have hcop := copied_callOf hm h
      have hov := overhead_pos C.envelope
      obtain ⟨w2, h2, ha2, hi2⟩ := callHandler_from hc (n0 := 0) (fun calls free _ => hu calls free)
        hw1 (h := h) (m := m) (t := t) (Nat.zero_le _) hh rfl rfl
      refine Costs.bind (callHandler_costs B hu w1 (callOf C h m)) ?_
      rintro ⟨w2', th⟩ k1 hk1 rfl
      change World.callHandler B user _ w1 (callOf C h m) = _ at hk1
      rw [h2 B _ hA] at hk1
      simp only [Except.ok.injEq, Prod.mk.injEq] at hk1
      obtain ⟨rfl, rfl⟩ := hk1
      -- sizes after the call
      generalize happ : appended (reaction user s1.trace (callOf C h m)
        (capacity C - (frame C.envelope m ++ t).length)).acts = app
      have hb2 : (afterCall C user s1 h m t).1.buf = frame C.envelope m ++ (t ++ app) := by
        simp only [afterCall, happ, List.append_assoc]
      have hf2 : (afterCall C user s1 h m t).1.fed = s.fed ++ app := by
        simp only [afterCall, happ]; rfl
      have hfl : overhead C.envelope ≤ (frame C.envelope m).length := by rw [frame_length]; omega
      simp only [List.length_append] at hd
      refine costs_ite (fun hth => costs_call _ _ ?_) (fun hth => ?_)
      · intro a ha
        cases ha
        refine ⟨_, ha2, by rw [hf2]; simp, ?_⟩
        rw [hb2, hf2]
        simp only [List.length_append]
        rw [show s.fed.length + app.length + s.buf.length + 2 =
          (s.fed.length + ((frame C.envelope m).length + (t.length + app.length))) + (d + 1) + 1 by
            omega, Nat.mul_add _ _ 1, Nat.mul_add _ _ (d + 1)]
        omega
      · have hb3 := ha2.buf
        rw [hb2] at hb3
        obtain ⟨e3, h3, hh3, _⟩ := popMessage_ok hc hm hb3 (by rw [hi2]; exact hid)
        refine Costs.bind (popMessage_costs hc B hm hb3 (by rw [hi2]; exact hid)) ?_
        intro e3' k3 he3 hk3
        rw [h3 B] at he3
        cases he3
        have ha3 : Abs { w2 with rx := { w2.rx with recv := e3 } }
            { (afterCall C user s1 h m t).1 with buf := t ++ app } :=
          ⟨hh3, ha2.invoker, ha2.functor, ha2.last, ha2.trace, ha2.fed⟩
        have hsome : ({ (afterCall C user s1 h m t).1 with buf := t ++ app } :
              AState).handler.isSome := by
          obtain ⟨h', e'⟩ := handlerAfter_isSome
            (reaction user s1.trace (callOf C h m)
              (capacity C - (frame C.envelope m ++ t).length)).acts
            (capacity C - (frame C.envelope m ++ t).length) h
            (reaction_benign hu _ _ _)
          simp only [afterCall, e', Option.isSome_some]
        refine (ih _ _ (n + 1) ha3 hsome).mono (fun a k4 _ hP => ?_)
        obtain ⟨s4, ha4, hle4, hk4⟩ := hP
        simp only [hf2, List.length_append] at hle4 hk4
        refine ⟨s4, ha4, by omega, ?_⟩
        generalize (match a.2 with | .threw => 2 | .returned _ => 1) = q at hk4 ⊢
        have key : (maxLen C + 17) * (s4.fed.length + s.buf.length + q) +
            (maxLen C + 17) * (s.fed.length + app.length + s4.buf.length) =
            (maxLen C + 17) * (s4.fed.length + (t.length + app.length) + q) +
            (maxLen C + 17) * (s.fed.length + s4.buf.length) +
            (maxLen C + 17) * (d + 1) + (maxLen C + 17) * ((frame C.envelope m).length - 1) := by
          rw [← Nat.mul_add, ← Nat.mul_add, ← Nat.mul_add, ← Nat.mul_add]
          congr 1
          omega
        have key2 : (maxLen C + 17) * 4 ≤ (maxLen C + 17) * ((frame C.envelope m).length - 1) :=
          Nat.mul_le_mul_left _ (by omega)
        omega

/-! ### Counting changes nothing, whatever the state and the user code -/

/-- `m` computes what `x` computes. -/
abbrev Erases (m : Counted α) (x : Res α) : Prop := Costs m x (fun _ _ => True)

theorem erase_call (n : Nat) (x : Res α) : Erases (call n x) x := costs_call n x (fun _ _ => trivial)

theorem erase_bind {m : Counted α} {x : Res α} {f : α → Counted β} {g : α → Res β}
    (h : Erases m x) (h' : ∀ a, Erases (f a) (g a)) : Erases (m >>= f) (x >>= g) :=
  Costs.bind h (fun a _ _ _ => h' a)

theorem erase_val {n : Nat} {a : α} {f : α → Counted β} {y : Res β} (h : Erases (f a) y) :
    Erases (call n (.ok a) >>= f) y := Costs.val_bind h

theorem erase_ite {p : Prop} [Decidable p] {m m' : Counted α} {x x' : Res α} (h : Erases m x)
    (h' : Erases m' x') : Erases (if p then m else m') (if p then x else x') :=
  costs_ite (fun _ => h) (fun _ => h')

theorem skip_erase (B : Build) (fuel : Nat) :
    ∀ e : ERB C, Erases (skipToSOHCounted B fuel e) (skipToSOH B fuel e) := by
  induction fuel with
  | zero => intro e; exact erase_call _ _
  | succ fuel ih =>
    intro e
    exact erase_val (erase_ite (erase_call _ _) (erase_bind (erase_call _ _) (fun _ =>
      erase_ite (erase_bind (erase_call _ _) (fun _ => ih _)) (erase_call _ _))))

theorem popAndRetry_erase (B : Build) {f : ERB C → Counted (ERB C × Bool)}
    {g : ERB C → Res (ERB C × Bool)} (h : ∀ e, Erases (f e) (g e)) (e : ERB C) :
    Erases (popAndRetryCounted B f e) (popAndRetry B g e) :=
  erase_bind (erase_call _ _) (fun _ => erase_val (erase_ite (erase_call _ _)
    (erase_bind (erase_call _ _) (fun _ => h _))))

theorem check_erase (B : Build) (depth : Nat) :
    ∀ e : ERB C, Erases (checkCounted B depth e) (checkG B depth e) := by
  induction depth with
  | zero => intro e; exact erase_call _ _
  | succ depth ih =>
    intro e
    refine erase_bind (skip_erase B _ e) (fun e1 => erase_val (erase_ite (erase_call _ _) ?_))
    refine erase_bind (erase_call _ _) (fun id => erase_val (erase_val (erase_ite
      (popAndRetry_erase B ih _) ?_)))
    refine erase_val (erase_ite (erase_call _ _) ?_)
    refine erase_bind (erase_call _ _) (fun c => erase_ite (popAndRetry_erase B ih _) ?_)
    refine erase_bind (erase_call _ _) (fun n => erase_val (erase_ite (erase_call _ _) ?_))
    exact erase_bind ((trailer_costs B _ n).mono (fun _ _ _ _ => trivial)) (fun g =>
      erase_ite (erase_call _ _) (popAndRetry_erase B ih _))

theorem checkBuffer_erase (B : Build) (e : ERB C) :
    Erases (e.checkBufferForMessageCounted B) (e.checkBufferForMessage B) := by
  unfold ERB.checkBufferForMessage
  rw [checkDepth_eq]
  exact check_erase B _ e

theorem popMessage_erase (B : Build) (e : ERB C) :
    Erases (e.popMessageCounted B) (e.popMessage B) := by
  refine erase_bind (erase_ite (erase_bind (checkBuffer_erase B e) (fun a =>
    erase_bind (erase_call _ _) (fun _ => erase_call _ _))) (erase_call _ _)) (fun e1 => ?_)
  exact erase_bind (erase_call _ _) (fun n => erase_bind (erase_call _ _) (fun _ => erase_call _ _))

theorem runActs_erase (B : Build) {nested : World C → Res (World C × Outcome)}
    {nestedC : World C → Counted (World C × Outcome)} (hn : ∀ w, Erases (nestedC w) (nested w))
    (acts : List Act) : ∀ w : World C,
    Erases (World.runActsCounted B nestedC w acts) (World.runActs B nested w acts) := by
  induction acts with
  | nil => intro w; exact erase_call _ _
  | cons a acts ih =>
    intro w
    cases a with
    | append xs => exact erase_bind (erase_call _ _) (fun w1 => ih w1)
    | setHandler h => exact ih _
    | clearHandler => exact ih _
    | process =>
      refine erase_bind (hn w) ?_
      rintro ⟨w1, o⟩
      cases o with
      | threw => exact erase_call _ _
      | returned n => exact ih w1

theorem callHandler_erase (B : Build) {user : UserCode} {nested : World C → Res (World C × Outcome)}
    {nestedC : World C → Counted (World C × Outcome)} (hn : ∀ w, Erases (nestedC w) (nested w))
    (w : World C) (i : Invocation) :
    Erases (World.callHandlerCounted B user nestedC w i) (World.callHandler B user nested w i) := by
  unfold World.callHandlerCounted World.callHandler
  cases dispatch i with
  | none => exact erase_call _ _
  | some c => exact erase_bind (runActs_erase B hn _ _) (fun _ => erase_call _ _)

theorem processLoop_erase (B : Build) (user : UserCode) (fuel : Nat) : ∀ (w : World C) (n : Byte),
    Erases (World.processLoopCounted B user fuel w n) (World.processLoop B user fuel w n) := by
  induction fuel with
  | zero => intro w n; exact erase_call _ _
  | succ fuel ih =>
    intro w n
    refine erase_bind (checkBuffer_erase B _) (fun a => erase_ite (erase_call _ _) ?_)
    refine erase_bind (erase_call _ _) (fun id => erase_bind (erase_call _ _) (fun i? =>
      erase_val ?_))
    refine erase_bind ?_ (fun a => erase_ite (erase_call _ _)
      (erase_bind (popMessage_erase B _) (fun _ => ih _ _)))
    cases i? with
    | none => exact erase_call _ _
    | some i => exact callHandler_erase B (fun w => erase_ite (erase_call _ _) (ih w 0)) _ i

theorem processMessages_erase (B : Build) (user : UserCode) (fuel : Nat) (w : World C) :
    Erases (w.processMessagesCounted B user fuel) (w.processMessages B user fuel) :=
  erase_ite (erase_call _ _) (processLoop_erase B user fuel w 0)

theorem run_erase (B : Build) (user : UserCode) (fuel : Nat) (ops : List Op) : ∀ w : World C,
    Erases (w.runCounted B user fuel ops) (w.run B user fuel ops) := by
  induction ops with
  | nil => intro w; exact erase_call _ _
  | cons op ops ih =>
    intro w
    refine erase_bind ?_ (fun a => erase_bind (ih a.1) (fun _ => erase_call _ _))
    cases op with
    | process => exact erase_bind (processMessages_erase B user fuel w) (fun _ => erase_call _ _)
    | _ => exact erase_call _ _

end TT
