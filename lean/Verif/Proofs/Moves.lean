import Verif.Model.Moves
import Verif.Proofs.Deliver

/-!
# Helper lemmas: what `processMessages` and appending do to the positions in the array
-/

namespace TT
open Spec

variable {C : Collection} {B : Build} {user : UserCode} {α β : Type}

/-- If `x` succeeds, its result satisfies `P`. -/
def Ens (x : Res α) (P : α → Prop) : Prop := ∀ a, x = .ok a → P a

theorem Ens.bind {x : Res α} {f : α → Res β} {P : α → Prop} {Q : β → Prop} (h : Ens x P)
    (h' : ∀ a, P a → Ens (f a) Q) : Ens (x >>= f) Q := by
  intro b hb
  cases x with
  | error e => simp at hb
  | ok a => exact h' a (h a rfl) b hb

theorem Ens.any (x : Res α) : Ens x (fun _ => True) := fun _ _ => trivial

theorem ens_ok {a : α} {P : α → Prop} (h : P a) : Ens (.ok a) P := by
  intro b hb; cases hb; exact h

theorem ens_error {e : Fault} {P : α → Prop} : Ens (.error e : Res α) P := by
  intro b hb; cases hb

theorem popFrontLoop_popped {cap : Nat} (n : Nat) : ∀ b : RB cap, Ens (b.popFrontLoop B n)
    (fun b' => b'.contents = b.contents ∧ b'.pastEnd = b.pastEnd) := by
  induction n with
  | zero => intro b; exact ens_ok ⟨rfl, rfl⟩
  | succ n ih =>
    intro b
    unfold RB.popFrontLoop
    refine Ens.bind (P := fun b' => b'.contents = b.contents ∧ b'.pastEnd = b.pastEnd) ?_
      (fun b1 h1 => ?_)
    · unfold RB.incrementBegin
      exact Ens.bind (Ens.any _) fun _ _ => ens_ok ⟨rfl, rfl⟩
    · rw [← h1.1, ← h1.2]; exact ih b1

theorem bufferPopFront_popped (e : ERB C) (n : Nat) : Ens (e.bufferPopFront B n) e.Popped := by
  unfold ERB.bufferPopFront RB.popFront
  refine Ens.bind (P := fun x => x.1.contents = e.buf.contents ∧ x.1.pastEnd = e.buf.pastEnd) ?_
    (fun x hx => ens_ok (P := e.Popped) (by exact hx))
  refine Ens.bind (Ens.any _) fun _ _ => ?_
  exact Ens.bind (popFrontLoop_popped n e.buf) fun b hb => ens_ok hb

theorem skip_popped (fuel : Nat) : ∀ e : ERB C, Ens (skipToSOH B fuel e) e.Popped := by
  induction fuel with
  | zero => intro e; exact ens_error
  | succ fuel ih =>
    intro e
    unfold skipToSOH
    split
    · exact ens_ok (.refl e)
    · refine Ens.bind (Ens.any _) fun c _ => ?_
      split
      · refine Ens.bind (bufferPopFront_popped e 1) fun e1 h1 => ?_
        exact fun a ha => h1.trans (ih e1 a ha)
      · exact ens_ok (.refl e)

theorem retry_popped {f : ERB C → Res (ERB C × Bool)} {e0 e : ERB C} (h0 : e0.Popped e)
    (hf : ∀ e, Ens (f e) (fun x => e.Popped x.1)) :
    Ens (popAndRetry B f e) (fun x => e0.Popped x.1) := by
  unfold popAndRetry
  refine Ens.bind (Ens.any _) fun _ _ => ?_
  split
  · exact ens_ok h0
  · refine Ens.bind (bufferPopFront_popped e 1) fun e1 h1 => ?_
    exact fun a ha => (h0.trans h1).trans (hf e1 a ha)

theorem check_popped (d : Nat) : ∀ e : ERB C, Ens (checkG B d e) (fun x => e.Popped x.1) := by
  induction d with
  | zero => intro e; exact ens_error
  | succ d ih =>
    intro e
    unfold checkG
    refine Ens.bind (skip_popped _ e) fun e1 h1 => ?_
    split
    · exact ens_ok h1
    · refine Ens.bind (Ens.any _) fun idb _ => ?_
      have h2 : e.Popped (e1.setCurrentMessageId idb) := by
        unfold ERB.setCurrentMessageId
        split <;> exact h1
      simp only
      split
      · exact retry_popped h2 ih
      · split
        · exact ens_ok h2
        · refine Ens.bind (Ens.any _) fun c2 _ => ?_
          split
          · exact retry_popped h2 ih
          · refine Ens.bind (Ens.any _) fun n _ => ?_
            split
            · exact ens_ok h2
            · refine Ens.bind (Ens.any _) fun good _ => ?_
              split
              · exact ens_ok h2
              · exact retry_popped h2 ih

theorem checkBuffer_popped (e : ERB C) :
    Ens (e.checkBufferForMessage B) (fun x => e.Popped x.1) := by
  unfold ERB.checkBufferForMessage
  rw [checkDepth_eq]
  exact check_popped _ e

theorem popMessage_popped (e : ERB C) : Ens (e.popMessage B) e.Popped := by
  unfold ERB.popMessage
  refine Ens.bind (P := e.Popped) ?_ (fun e1 h1 => ?_)
  · split
    · refine Ens.bind (checkBuffer_popped e) fun x hx => ?_
      exact Ens.bind (Ens.any _) fun _ _ => ens_ok hx
    · exact ens_ok (.refl e)
  · refine Ens.bind (Ens.any _) fun n _ => ?_
    refine Ens.bind (bufferPopFront_popped e1 n) fun e2 h2 => ?_
    exact ens_ok (h1.trans h2)

theorem runActs_popped {nested : World C → Res (World C × Outcome)}
    (hn : ∀ w, Ens (nested w) (fun x => w.rx.recv.Popped x.1.rx.recv)) (acts : List Act)
    (hacts : ∀ xs, Act.append xs ∉ acts) :
    ∀ w : World C, Ens (World.runActs B nested w acts) (fun x => w.rx.recv.Popped x.1.rx.recv) := by
  induction acts with
  | nil => intro w; exact ens_ok (.refl _)
  | cons a as ih =>
    have has : ∀ xs, Act.append xs ∉ as := fun xs hx => hacts xs (List.mem_cons_of_mem _ hx)
    intro w
    cases a with
    | append xs => exact absurd (List.mem_cons_self) (hacts xs)
    | setHandler h => exact ih has _
    | clearHandler => exact ih has _
    | process =>
      unfold World.runActs
      refine Ens.bind (hn w) fun x hx => ?_
      obtain ⟨w1, o⟩ := x
      cases o with
      | threw => exact ens_ok hx
      | returned n => exact fun a ha => hx.trans (ih has w1 a ha)

/-- If handlers do not append, `processMessages` only removes from the front: neither the array nor the
end of the contents changes. -/
theorem processLoop_popped (hu : NeverAppends user) (fuel : Nat) : ∀ (w : World C) (k : Byte),
    Ens (World.processLoop B user fuel w k) (fun x => w.rx.recv.Popped x.1.rx.recv) := by
  induction fuel with
  | zero => intro w k; exact ens_error
  | succ fuel ih =>
    intro w k
    unfold World.processLoop
    refine Ens.bind (checkBuffer_popped _) fun x hx => ?_
    obtain ⟨e, found⟩ := x
    simp only at hx ⊢
    split
    · exact ens_ok hx
    · refine Ens.bind (Ens.any _) fun id _ => ?_
      refine Ens.bind (Ens.any _) fun i? _ => ?_
      refine Ens.bind (P := fun x => w.rx.recv.Popped x.1.rx.recv) ?_ (fun x hx => ?_)
      · cases i? with
        | none => exact ens_ok hx
        | some i =>
          simp only
          unfold World.callHandler
          simp only
          split
          · exact ens_ok hx
          · refine Ens.bind (P := fun x => w.rx.recv.Popped x.1.rx.recv) ?_
              (fun x hx => ens_ok hx)
            intro a ha
            refine hx.trans (runActs_popped ?_ _ (hu _ _) _ a ha)
            intro w1
            split
            · exact ens_ok (.refl _)
            · exact ih w1 0
      · obtain ⟨w1, thrown⟩ := x
        simp only at hx ⊢
        split
        · exact ens_ok hx
        · refine Ens.bind (popMessage_popped _) fun e1 h1 => ?_
          exact fun a ha => (hx.trans h1).trans (ih _ _ a ha)

theorem processMessages_popped (hu : NeverAppends user) (fuel : Nat) (w : World C) :
    Ens (w.processMessages B user fuel) (fun x => w.rx.recv.Popped x.1.rx.recv) := by
  unfold World.processMessages
  split
  · exact ens_ok (.refl _)
  · exact processLoop_popped hu fuel w 0

/-- What `ensure_space` does to the positions. -/
theorem ensureSpace_positions {cap : Nat} (hc : cap < 2 ^ 64) (ha : Arith B cap) {b b' : RB cap}
    {xs : List Byte} (h : b.Holds xs) {n : Nat} (hn : xs.length + n ≤ cap)
    (hb : b.ensureSpace B n = .ok b') :
    (b.movedBy B n = 0 ∧ (b' = b ∨ (b'.begin_ = 0 ∧ b'.pastEnd = 0 ∧ xs = []))) ∨
    (b.movedBy B n = xs.length ∧ cap < b.pastEnd + n ∧ b.begin_ ≠ 0 ∧ b'.begin_ = 0 ∧
      b'.pastEnd = xs.length) := by
  have hpe := h.pe
  have hple := h.pastEnd_le
  by_cases hx : xs = []
  · subst hx
    unfold RB.ensureSpace at hb
    unfold RB.movedBy
    simp only [h.empty_eq, List.isEmpty_nil, if_true] at hb ⊢
    simp at hn
    have hp : promAdd B cap 0 n = n := by
      rcases Nat.eq_zero_or_pos n with h0 | h0
      · subst h0; simp [promAdd]
      · rw [promAdd_of_lt ha (by omega)]; simp
    rw [hp] at hb ⊢
    rw [if_pos hn] at hb ⊢
    cases hb
    exact .inl ⟨rfl, .inr ⟨rfl, rfl, trivial⟩⟩
  · unfold RB.ensureSpace at hb
    unfold RB.movedBy
    have he : b.empty = false := by
      rw [h.empty_eq]
      cases xs with
      | nil => exact absurd rfl hx
      | cons x xs => rfl
    simp only [he, Bool.false_eq_true, if_false] at hb ⊢
    by_cases hle : b.pastEnd + n ≤ cap
    · have hlt : b.pastEnd + n < 2 * cap := by
        have : 0 < xs.length := List.length_pos_iff.mpr hx
        omega
      rw [promAdd_of_lt ha hlt, if_pos hle] at hb ⊢
      cases hb
      exact .inl ⟨rfl, .inl rfl⟩
    · have hlt : b.pastEnd + n < 2 * cap := by
        have : 0 < xs.length := List.length_pos_iff.mpr hx
        omega
      rw [promAdd_of_lt ha hlt, if_neg hle] at hb ⊢
      have hb0 : 0 < b.begin_ := by omega
      obtain ⟨b1, e1, hh1, hz⟩ := h.slide_ok hc (Or.inl hb0)
      rw [h.size_eq hc, promAdd_of_lt ha (by omega), assertMsg_of (by simpa using hn)] at hb
      simp only [ok_bind] at hb
      rw [e1] at hb
      cases hb
      refine .inr ⟨by omega, by omega, by omega, hz, ?_⟩
      rw [hh1.pe, hz, Nat.zero_add]

/-- What `ensure_space` followed by storing `k` bytes does to the positions, `b2` being the result. -/
def Grown {cap : Nat} (B : Build) (b : RB cap) (xs : List Byte) (n k : Nat) (b2 : RB cap) : Prop :=
  (b.movedBy B n = 0 ∧ ((b2.begin_ = b.begin_ ∧ b2.pastEnd = b.pastEnd + k) ∨
    (b2.begin_ = 0 ∧ b2.pastEnd = k))) ∨
  (b.movedBy B n = xs.length ∧ cap < b.pastEnd + n ∧ b.begin_ ≠ 0 ∧ b2.begin_ = 0 ∧
    b2.pastEnd = xs.length + k)

theorem grown_of {cap : Nat} (hc : cap < 2 ^ 64) (ha : Arith B cap) {b b1 b2 : RB cap}
    {xs : List Byte} (h : b.Holds xs) {n k : Nat} (hn : xs.length + n ≤ cap)
    (hb : b.ensureSpace B n = .ok b1) (h1 : b2.begin_ = b1.begin_)
    (h2 : b2.pastEnd = b1.pastEnd + k) : Grown B b xs n k b2 := by
  rcases ensureSpace_positions hc ha h hn hb with ⟨h3, rfl | ⟨h4, h5, rfl⟩⟩ | ⟨h3, h4, h5, h6, h7⟩
  · exact .inl ⟨h3, .inl ⟨h1, h2⟩⟩
  · exact .inl ⟨h3, .inr ⟨by omega, by omega⟩⟩
  · exact .inr ⟨h3, h4, h5, by omega, by omega⟩

theorem pushBackRange_grown {cap : Nat} (hc : cap < 2 ^ 64) (ha : Arith B cap) {b b' : RB cap}
    {xs ys : List Byte} (h : b.Holds xs) (hn : xs.length + ys.length ≤ cap)
    (hb : b.pushBackRange B ys = .ok b') :
    Grown B b xs (trunc cap ys.length) ys.length b' := by
  obtain ⟨b1, e1, hh1, hs1⟩ := h.ensureSpace_ok hc hn
  have ht : trunc cap ys.length = ys.length := trunc_of_le hc (by omega)
  rw [ht]
  unfold RB.pushBackRange at hb
  rw [ht, e1 B ha] at hb
  simp only [ok_bind] at hb
  cases hw : RB.writeAt b1.contents b1.pastEnd ys with
  | error f => rw [hw] at hb; simp at hb
  | ok l =>
    rw [hw] at hb
    simp only [ok_bind] at hb
    generalize hv : RB.verifyInvariants B
      ({ begin_ := b1.begin_, pastEnd := trunc cap (b1.pastEnd + ys.length), contents := l } : RB cap)
      = v at hb
    cases v with
    | error f => simp at hb
    | ok u =>
      simp only [ok_bind, pure_eq_ok, Except.ok.injEq] at hb
      subst hb
      exact grown_of hc ha h hn (e1 B ha) rfl (trunc_of_le hc hs1)

theorem functor_grown {cap : Nat} (hc : cap < 2 ^ 64) (ha : Arith B cap) {b b' : RB cap}
    {xs : List Byte} (h : b.Holds xs) {n k : Nat} {f : Byte → RB.DeviceReply}
    (hk : (f (UInt8.ofNat (min n (cap - xs.length)))).ret.toNat ≤ min n (cap - xs.length))
    (hb : b.bufferFromExternalFunctorRef B f n = .ok (b', k)) :
    Grown B b xs (min n (subT cap cap b.size)) k b' := by
  have hl := h.length_le
  have hsub : subT cap cap b.size = cap - xs.length := by
    rw [h.size_eq hc, subT_of_le hc (Nat.le_refl _) hl]
  rw [hsub]
  have ho : xs.length + min n (cap - xs.length) ≤ cap := by omega
  obtain ⟨b1, e1, hh1, hs1⟩ := h.ensureSpace_ok hc ho
  unfold RB.bufferFromExternalFunctorRef at hb
  simp only [hsub] at hb
  rw [e1 B ha] at hb
  simp only [ok_bind] at hb
  generalize f (UInt8.ofNat (min n (cap - xs.length))) = reply at hb hk
  cases hw : RB.writeAt b1.contents b1.pastEnd reply.written with
  | error e => rw [hw] at hb; simp at hb
  | ok l =>
    rw [hw] at hb
    simp only [ok_bind] at hb
    generalize hv : RB.verifyInvariants B
      ({ begin_ := b1.begin_, pastEnd := trunc cap (b1.pastEnd + reply.ret.toNat), contents := l } :
        RB cap) = v at hb
    cases v with
    | error e => simp at hb
    | ok u =>
      simp only [ok_bind, pure_eq_ok, Except.ok.injEq, Prod.mk.injEq] at hb
      obtain ⟨rfl, rfl⟩ := hb
      exact grown_of hc ha h ho (e1 B ha) rfl (trunc_of_le hc (by omega))

/-- The account kept in a history: `len` bytes waiting, `req` bytes asked for, `fed` received, `moved`
moved, `fresh` received since messages were last looked for. -/
structure Account {cap : Nat} (L : Nat) (b : RB cap) (len req fed moved fresh : Nat) : Prop where
  short : len ≤ L + fresh
  paid : 2 * moved + b.pastEnd + (if b.begin_ = 0 then 0 else 3 * fresh) ≤ req + 4 * fed

theorem Account.grow {cap L : Nat} (hcap : cap = 3 * L) {b b2 : RB cap} {xs : List Byte}
    (h : b.Holds xs) {req fed moved fresh n k m : Nat} (hm : n ≤ m) (hk : k ≤ m)
    (hacc : Account L b xs.length req fed moved fresh) (hg : Grown B b xs n k b2) :
    Account L b2 (xs.length + k) (req + m) (fed + k) (moved + b.movedBy B n) (fresh + k) := by
  obtain ⟨h1, h2⟩ := hacc
  have hpe := h.pe
  refine ⟨by omega, ?_⟩
  rcases hg with ⟨h3, ⟨h4, h5⟩ | ⟨h4, h5⟩⟩ | ⟨h3, h4, h5, h6, h7⟩
  · rw [h3, h4, h5]
    split at h2 <;> rename_i hz <;> simp only [hz, if_true, if_false] <;> omega
  · rw [h3, h4, h5, if_pos rfl]; omega
  · rw [if_neg h5] at h2
    rw [h3, h6, h7, if_pos rfl]; omega

end TT
