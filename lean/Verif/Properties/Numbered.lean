import Verif.Properties.HurtRoutes
import Verif.Properties.Forever

/-!
# Property C138: numbered messages, repeated until they are acknowledged

Two programs, a line to each of them, both lines damage messages.
-/

namespace TT.Properties
open Spec

/-- How two programs have agreed to number their messages: there are `K` numbers; `data i` is the `i`-th message, in which
the receiving program finds a number with `num`; `ack n` is the answer to a message with number `n`, in which the sending
program finds that number with `ackNum`. -/
structure Numbering where
  K : Nat
  C : Collection
  D : Collection
  data : Nat → Request
  num : Call → Nat
  ack : Nat → Request
  ackNum : Call → Nat

/-- The messages can be sent, and contain their numbers. -/
structure Numbering.Ok (P : Numbering) : Prop where
  two : 2 ≤ P.K
  data : ∀ i, (P.data i).Good P.C
  num : ∀ i, P.num (P.data i).call = i % P.K
  ack : ∀ n < P.K, (P.ack n).Good P.D
  ackNum : ∀ n < P.K, P.ackNum (P.ack n).call = n

/-- The messages the receiving program takes for new ones: those with the number of the next one. -/
def Numbering.taken (P : Numbering) (cs : List Call) : List Call :=
  cs.foldl (fun acc c => if P.num c = acc.length % P.K then acc ++ [c] else acc) []

/-- How many messages the sending program takes for delivered: it goes on to the next one when it receives the number of the
present one. -/
def Numbering.done (P : Numbering) (cs : List Call) : Nat :=
  cs.foldl (fun i c => if P.ackNum c = i % P.K then i + 1 else i) 0

/-- What has happened: the messages transmitted so far and whether they arrive whole; what has been handled by the receiving
program; whether its answers arrive whole; and what has been handled by the sending program. -/
structure Exchange where
  tx : List Nat
  fb : List Bool
  hb : List Call
  fa : List Bool
  ha : List Call

/-- What may happen next. The sending program may at any time transmit the present message, once more or for the first time.
Some of what has been transmitted arrives at the receiving program, a program `X` that has not handled less than
before, and for everything handled an answer is sent. Some of the answers arrive at the sending program, `Y`. -/
inductive Numbering.Next (P : Numbering) : Exchange → Exchange → Prop
  | transmit {s : Exchange} (whole : Bool) : P.Next s { s with tx := s.tx ++ [P.done s.ha], fb := s.fb ++ [whole] }
  | receive {s : Exchange} {X : Station} {bytes : List Byte} {more : List Bool} (hX : X.Ok) (hC : X.C = P.C)
      (hb : Carried (s.tx.map P.data) bytes) (hf : Link.PartFed ⟨X, s.fb⟩ bytes)
      (hl : s.hb.length + more.length = (delivered X.w).length) :
      P.Next s { s with hb := delivered X.w, fa := s.fa ++ more }
  | answer {s : Exchange} {Y : Station} {bytes : List Byte} (hY : Y.Ok) (hD : Y.C = P.D)
      (hb : Carried (s.hb.map fun c => P.ack (P.num c)) bytes) (hf : Link.PartFed ⟨Y, s.fa⟩ bytes)
      (hl : s.ha.length ≤ (delivered Y.w).length) : P.Next s { s with ha := delivered Y.w }

/-- Nothing has happened yet. -/
def Exchange.none : Exchange := ⟨[], [], [], [], []⟩

/-- The exchange, after any number of steps. -/
inductive Numbering.Goes (P : Numbering) : Exchange → Prop
  | start : P.Goes .none
  | next {s s' : Exchange} (h : P.Goes s) (hn : P.Next s s') : P.Goes s'

theorem Numbering.Goes.receive {P : Numbering} {s : Exchange} (h : P.Goes s) {X : Station} {bytes : List Byte} {more : List Bool}
    (hX : X.Ok) (hC : X.C = P.C) (hb : Carried (s.tx.map P.data) bytes) (hf : Link.PartFed ⟨X, s.fb⟩ bytes)
    (hl : s.hb.length + more.length = (delivered X.w).length) : P.Goes { s with hb := delivered X.w, fa := s.fa ++ more } :=
  h.next (.receive hX hC hb hf hl)

theorem Numbering.Goes.answer {P : Numbering} {s : Exchange} (h : P.Goes s) {Y : Station} {bytes : List Byte} (hY : Y.Ok)
    (hD : Y.C = P.D) (hb : Carried (s.hb.map fun c => P.ack (P.num c)) bytes) (hf : Link.PartFed ⟨Y, s.fa⟩ bytes)
    (hl : s.ha.length ≤ (delivered Y.w).length) : P.Goes { s with ha := delivered Y.w } :=
  h.next (.answer hY hD hb hf hl)

/-- An exchange that goes on forever. -/
structure Numbering.Endless (P : Numbering) (st : Nat → Exchange) : Prop where
  start : st 0 = .none
  next : ∀ n, P.Next (st n) (st (n + 1))

/-! ### Sequences of numbers that rise by at most one -/

/-- How far the numbers 0, 1, 2, … have come up in order. -/
def risen (l : List Nat) : Nat := l.foldl (fun i a => if a = i then i + 1 else i) 0

/-- Each number is the next one or the one before. -/
def Rising (l : List Nat) : Prop := ∀ p a q, l = p ++ a :: q → a ≤ risen p ∧ risen p ≤ a + 1

theorem risen_snoc (l : List Nat) (a : Nat) : risen (l ++ [a]) = if a = risen l then risen l + 1 else risen l := by
  unfold risen
  rw [List.foldl_append]
  rfl

theorem list_snoc_induction {α : Type} {p : List α → Prop} (h0 : p []) (hs : ∀ l a, p l → p (l ++ [a])) (l : List α) : p l := by
  rw [← List.reverse_reverse l]
  induction l.reverse with
  | nil => exact h0
  | cons a l ih => rw [List.reverse_cons]; exact hs _ _ ih

theorem risen_mono (p q : List Nat) : risen p ≤ risen (p ++ q) := by
  induction q using list_snoc_induction with
  | h0 => simp
  | hs q a ih =>
    rw [← List.append_assoc, risen_snoc]
    split <;> omega

theorem risen_mem (l : List Nat) : risen l = 0 ∨ risen l - 1 ∈ l := by
  induction l using list_snoc_induction with
  | h0 => exact Or.inl rfl
  | hs l a ih =>
    rw [risen_snoc]
    split
    · right; simp; omega
    · rcases ih with h | h
      · exact Or.inl h
      · right; simp [h]

theorem Rising.prefix {p q : List Nat} (h : Rising (p ++ q)) : Rising p := by
  intro p' a q' e
  exact h p' a (q' ++ q) (by rw [e]; simp)

theorem Rising.snoc {p : List Nat} {a : Nat} (h : Rising p) (h1 : a ≤ risen p) (h2 : risen p ≤ a + 1) : Rising (p ++ [a]) := by
  intro p' b q e
  cases q using list_snoc_induction with
  | h0 =>
    obtain ⟨rfl, e2⟩ := List.append_inj' e rfl
    simp at e2
    subst e2
    exact ⟨h1, h2⟩
  | hs q c =>
    rw [← List.cons_append, ← List.append_assoc] at e
    obtain ⟨rfl, _⟩ := List.append_inj' e rfl
    exact h p' b q rfl

theorem Rising.last {p : List Nat} {a : Nat} (h : Rising (p ++ [a])) : a ≤ risen p ∧ risen p ≤ a + 1 := h p a [] rfl

theorem Rising.lt {l : List Nat} (h : Rising l) {k : Nat} (hk : k ∈ l) : k < risen l := by
  obtain ⟨p, q, rfl⟩ := List.append_of_mem hk
  have h1 := (h p k q rfl).1
  have h2 := risen_mono (p ++ [k]) q
  rw [risen_snoc] at h2
  rw [show p ++ k :: q = p ++ [k] ++ q by simp]
  split at h2 <;> omega

/-- Numbers in order that have all come up or come up next keep rising. -/
theorem Rising.append {p q : List Nat} (h : Rising p) (hs : (p ++ q).Pairwise (· ≤ ·)) (hq : ∀ a ∈ q, a ≤ risen p) : Rising (p ++ q) := by
  induction q using list_snoc_induction with
  | h0 => simpa using h
  | hs q a ih =>
    rw [← List.append_assoc] at hs ⊢
    obtain ⟨s1, _, s3⟩ := List.pairwise_append.mp hs
    have ih := ih s1 fun b hb => hq b (by simp [hb])
    refine ih.snoc (Nat.le_trans (hq a (by simp)) (risen_mono p q)) ?_
    rcases risen_mem (p ++ q) with e | e
    · omega
    · have := s3 _ e a (by simp)
      omega

theorem mod_next {K : Nat} (hK : 2 ≤ K) (a : Nat) : a % K ≠ (a + 1) % K := by
  intro e
  have := Nat.sub_mod_eq_zero_of_mod_eq e.symm
  rw [Nat.add_sub_cancel_left, Nat.mod_eq_of_lt (by omega)] at this
  omega

/-- Two numbers are enough to tell the next one from the one before. -/
theorem next_iff {K a c : Nat} (hK : 2 ≤ K) (h1 : a ≤ c) (h2 : c ≤ a + 1) : a % K = c % K ↔ a = c := by
  constructor
  · intro e
    by_cases h : a = c
    · exact h
    · have : c = a + 1 := by omega
      subst this
      exact absurd e (mod_next hK a)
  · rintro rfl; rfl

theorem Numbering.Ok.taken_eq {P : Numbering} (hP : P.Ok) {l : List Nat} (h : Rising l) :
    P.taken (l.map fun i => (P.data i).call) = (List.range (risen l)).map fun i => (P.data i).call := by
  induction l using list_snoc_induction with
  | h0 => rfl
  | hs l a ih =>
    have ih := ih h.prefix
    obtain ⟨h1, h2⟩ := h.last
    have e : P.taken ((l ++ [a]).map fun i => (P.data i).call) =
        if P.num (P.data a).call = (P.taken (l.map fun i => (P.data i).call)).length % P.K then
          P.taken (l.map fun i => (P.data i).call) ++ [(P.data a).call] else P.taken (l.map fun i => (P.data i).call) := by
      unfold Numbering.taken
      rw [List.map_append, List.foldl_append]
      rfl
    rw [e, ih, List.length_map, List.length_range, hP.num, risen_snoc]
    by_cases he : a = risen l
    · rw [if_pos ((next_iff hP.two h1 h2).2 he), if_pos he, List.range_succ, List.map_append, List.map_singleton, he]
    · rw [if_neg fun e => he ((next_iff hP.two h1 h2).1 e), if_neg he]

theorem Numbering.Ok.done_eq {P : Numbering} (hP : P.Ok) {l : List Nat} (h : Rising l) :
    P.done (l.map fun i => (P.ack (i % P.K)).call) = risen l := by
  induction l using list_snoc_induction with
  | h0 => rfl
  | hs l a ih =>
    have ih := ih h.prefix
    obtain ⟨h1, h2⟩ := h.last
    have e : P.done ((l ++ [a]).map fun i => (P.ack (i % P.K)).call) =
        if P.ackNum (P.ack (a % P.K)).call = P.done (l.map fun i => (P.ack (i % P.K)).call) % P.K then
          P.done (l.map fun i => (P.ack (i % P.K)).call) + 1 else P.done (l.map fun i => (P.ack (i % P.K)).call) := by
      unfold Numbering.done
      rw [List.map_append, List.foldl_append]
      rfl
    have hK := hP.two
    rw [e, ih, hP.ackNum _ (Nat.mod_lt _ (by omega)), risen_snoc]
    by_cases he : a = risen l
    · rw [if_pos ((next_iff hP.two h1 h2).2 he), if_pos he]
    · rw [if_neg fun e => he ((next_iff hP.two h1 h2).1 e), if_neg he]

/-! ### The invariant -/

/-- Which messages have been handled, and which answers. -/
structure Numbering.Inv (P : Numbering) (s : Exchange) (h r : List Nat) : Prop where
  fb : s.fb.length = s.tx.length
  fa : s.fa.length = h.length
  hb : s.hb = h.map fun i => (P.data i).call
  ha : s.ha = r.map fun i => (P.ack (i % P.K)).call
  hp : h <+: pick s.fb s.tx
  rp : r <+: pick s.fa h
  sorted : s.tx.Pairwise (· ≤ ·)
  low : ∀ t ∈ s.tx, t ≤ risen r
  hRising : Rising h
  rRising : Rising r

theorem pick_append {α : Type} : ∀ (fl fl' : List Bool) (l l' : List α), fl.length = l.length →
    pick (fl ++ fl') (l ++ l') = pick fl l ++ pick fl' l'
  | [], _, [], _, _ => rfl
  | [], _, _ :: _, _, h => by simp at h
  | _ :: _, _, [], _, h => by simp at h
  | true :: fl, fl', a :: l, l', h => by simp [pick, pick_append fl fl' l l' (by simpa using h)]
  | false :: fl, fl', a :: l, l', h => by simp [pick, pick_append fl fl' l l' (by simpa using h)]

theorem prefix_map {α β : Type} {f : α → β} {cs : List β} {l : List α} (h : cs <+: l.map f) :
    cs = (l.take cs.length).map f := by
  rw [List.map_take, ← List.prefix_iff_eq_take]
  exact h

theorem prefix_of_le {α : Type} {l l' L : List α} (h : l <+: L) (h' : l' <+: L) (hl : l.length ≤ l'.length) : l <+: l' :=
  List.prefix_of_prefix_length_le h h' hl

theorem Numbering.inv_none (P : Numbering) : P.Inv .none [] [] := by
  refine ⟨rfl, rfl, rfl, rfl, List.nil_prefix, List.nil_prefix, List.Pairwise.nil, by simp [Exchange.none], ?_, ?_⟩ <;>
    · intro p a q e
      simp at e

theorem Numbering.Next.inv {P : Numbering} (hP : P.Ok) {s s' : Exchange} {h r : List Nat} (I : P.Inv s h r) (hn : P.Next s s') :
    ∃ h' r', P.Inv s' h' r' ∧ r <+: r' := by
  cases hn with
  | transmit whole =>
    have hd : P.done s.ha = risen r := by rw [I.ha, hP.done_eq I.rRising]
    refine ⟨h, r, ⟨?_, I.fa, I.hb, I.ha, ?_, I.rp, ?_, ?_, I.hRising, I.rRising⟩, List.prefix_rfl⟩
    · simp [I.fb]
    · exact I.hp.trans (by rw [pick_append _ _ _ _ I.fb]; exact List.prefix_append _ _)
    · refine List.pairwise_append.mpr ⟨I.sorted, by simp, fun t ht b hb => ?_⟩
      simp only [List.mem_singleton] at hb
      rw [hb, hd]
      exact I.low t ht
    · intro t ht
      rcases List.mem_append.mp ht with ht | ht
      · exact I.low t ht
      · simp only [List.mem_singleton] at ht
        rw [ht, hd]
        exact Nat.le_refl _
  | @receive X bytes more hX hC hb hf hl =>
    have hgood : ∀ q ∈ s.tx.map P.data, q.Good X.C := by
      intro q hq
      obtain ⟨i, _, rfl⟩ := List.mem_map.mp hq
      rw [hC]
      exact hP.data i
    have hp := Link.soFar (k := ⟨X, s.fb⟩) hX hgood hb hf
    rw [List.map_map, pick_map] at hp
    have hp' := prefix_map hp
    generalize hh : (pick s.fb s.tx).take (delivered X.w).length = h' at hp'
    have hpre : h' <+: pick s.fb s.tx := by rw [← hh]; exact List.take_prefix _ _
    have hlen : h'.length = (delivered X.w).length := by rw [hp', List.length_map]
    have hlh : s.hb.length = h.length := by rw [I.hb, List.length_map]
    obtain ⟨q, rfl⟩ := prefix_of_le I.hp hpre (by omega)
    have hsub := hpre.sublist.trans (pick_sublist s.fb s.tx)
    have hin : ∀ a ∈ q, a ≤ risen h := by
      intro a ha
      have h1 := I.low a (hsub.subset (by simp [ha]))
      rcases risen_mem r with e | e
      · omega
      · have h2 := I.hRising.lt ((I.rp.sublist.trans (pick_sublist s.fa h)).subset e)
        omega
    refine ⟨h ++ q, r, ⟨I.fb, ?_, hp', I.ha, hpre, ?_, I.sorted, I.low, I.hRising.append (I.sorted.sublist hsub) hin, I.rRising⟩, List.prefix_rfl⟩
    · have := I.fa
      simp only [List.length_append] at hlen ⊢
      omega
    · rw [pick_append _ _ _ _ I.fa]
      exact I.rp.trans (List.prefix_append _ _)
  | @answer Y bytes hY hD hb hf hl =>
    have hK := hP.two
    have e : (s.hb.map fun c => P.ack (P.num c)) = h.map fun i => P.ack (i % P.K) := by
      rw [I.hb, List.map_map]
      exact List.map_congr_left fun i _ => by simp only [Function.comp, hP.num]
    rw [e] at hb
    have hgood : ∀ q ∈ h.map (fun i => P.ack (i % P.K)), q.Good Y.C := by
      intro q hq
      obtain ⟨i, _, rfl⟩ := List.mem_map.mp hq
      rw [hD]
      exact hP.ack _ (Nat.mod_lt _ (by omega))
    have hp := Link.soFar (k := ⟨Y, s.fa⟩) hY hgood hb hf
    rw [List.map_map, pick_map] at hp
    have hp' := prefix_map hp
    generalize hh : (pick s.fa h).take (delivered Y.w).length = r' at hp'
    have hpre : r' <+: pick s.fa h := by rw [← hh]; exact List.take_prefix _ _
    have hlen : r'.length = (delivered Y.w).length := by rw [hp', List.length_map]
    have hlr : s.ha.length = r.length := by rw [I.ha, List.length_map]
    obtain ⟨q, rfl⟩ := prefix_of_le I.rp hpre (by omega)
    have hsub := hpre.sublist.trans (pick_sublist s.fa h)
    have hsub2 := hsub.trans (I.hp.sublist.trans (pick_sublist s.fb s.tx))
    exact ⟨h, r ++ q, ⟨I.fb, I.fa, I.hb, hp', I.hp, hpre, I.sorted, fun t ht => Nat.le_trans (I.low t ht) (risen_mono r q), I.hRising,
      I.rRising.append (I.sorted.sublist hsub2) fun a ha => I.low a (hsub2.subset (by simp [ha]))⟩, List.prefix_append _ _⟩

theorem Numbering.Goes.inv {P : Numbering} (hP : P.Ok) {s : Exchange} (hg : P.Goes s) : ∃ h r, P.Inv s h r := by
  induction hg with
  | start => exact ⟨[], [], P.inv_none⟩
  | next _ hn ih =>
    obtain ⟨h, r, I⟩ := ih
    obtain ⟨h', r', I', _⟩ := hn.inv hP I
    exact ⟨h', r', I'⟩

theorem Numbering.Inv.between {P : Numbering} {s : Exchange} {h r : List Nat} (I : P.Inv s h r) :
    risen r ≤ risen h ∧ risen h ≤ risen r + 1 := by
  constructor
  · rcases risen_mem r with e | e
    · omega
    · have := I.hRising.lt ((I.rp.sublist.trans (pick_sublist s.fa h)).subset e)
      omega
  · rcases risen_mem h with e | e
    · omega
    · have := I.low _ ((I.hp.sublist.trans (pick_sublist s.fb s.tx)).subset e)
      omega

/-- C138. At any time the receiving program has taken for new exactly the first so many messages, once each and in order, namely
those which the sending program takes for delivered and at most one more. -/
theorem C138_once {P : Numbering} (hP : P.Ok) {s : Exchange} (hg : P.Goes s) :
    ∃ n, P.taken s.hb = (List.range n).map (fun i => (P.data i).call) ∧ P.done s.ha ≤ n ∧ n ≤ P.done s.ha + 1 := by
  obtain ⟨h, r, I⟩ := hg.inv hP
  obtain ⟨h1, h2⟩ := I.between
  refine ⟨risen h, ?_, ?_, ?_⟩
  · rw [I.hb, hP.taken_eq I.hRising]
  · rwa [I.ha, hP.done_eq I.rRising]
  · rwa [I.ha, hP.done_eq I.rRising]

theorem pick_last {α : Type} {fl : List Bool} {l : List α} (hl : fl.length = l.length) {a : α} (ha : l.getLast? = some a)
    (hf : fl.getLast? = some true) : a ∈ pick fl l := by
  obtain ⟨l', rfl⟩ : ∃ l', l = l' ++ [a] := by
    rw [List.getLast?_eq_some_iff] at ha
    exact ha
  obtain ⟨fl', rfl⟩ : ∃ fl', fl = fl' ++ [true] := by
    rw [List.getLast?_eq_some_iff] at hf
    exact hf
  rw [pick_append _ _ _ _ (by simpa using hl)]
  simp [pick]

/-- C138. Each message is done when one transmission of it and the answer to that arrive whole: if the last transmission does,
everything that arrives has been handled, and the last answer arrives whole and has been handled too, then the message last
transmitted counts as delivered. -/
theorem C138_progress {P : Numbering} (hP : P.Ok) {s : Exchange} (hg : P.Goes s) {i : Nat} (hi : s.tx.getLast? = some i)
    (h1 : s.fb.getLast? = some true) (h2 : s.hb.length = (pick s.fb s.tx).length) (h3 : s.fa.getLast? = some true)
    (h4 : s.ha.length = (pick s.fa s.hb).length) : i < P.done s.ha := by
  obtain ⟨h, r, I⟩ := hg.inv hP
  rw [I.ha, hP.done_eq I.rRising]
  have e1 : h = pick s.fb s.tx := I.hp.eq_of_length (by rw [← h2, I.hb, List.length_map])
  have e2 : r = pick s.fa h := I.rp.eq_of_length (by
    have : s.ha.length = r.length := by rw [I.ha, List.length_map]
    rw [← this, h4, I.hb, pick_map, List.length_map])
  have hlast : h.getLast? = some i := by
    obtain ⟨l', hl'⟩ := List.getLast?_eq_some_iff.mp hi
    obtain ⟨f', hf'⟩ := List.getLast?_eq_some_iff.mp h1
    have := I.fb
    rw [hl', hf'] at this
    rw [e1, hl', hf', pick_append _ _ _ _ (by simpa using this)]
    simp [pick]
  refine I.rRising.lt ?_
  rw [e2]
  exact pick_last I.fa hlast h3

/-- C138. When everything that arrives has come in and been processed, everything that arrives whole has been handled. -/
theorem C138_handled {X : Station} {fl : List Bool} {bytes : List Byte} {rs : List Request} (hX : X.Ok) (hi : X.Idle)
    (hrs : ∀ r ∈ rs, r.Good X.C) (hb : Carried rs bytes) (hf : Link.Fed ⟨X, fl⟩ bytes) :
    (delivered X.w).length = (pick fl rs).length := by
  rw [(Link.got (k := ⟨X, fl⟩) hX hi hrs hb hf).1, pick_map, List.length_map]

/-! ### An exchange that goes on forever -/

theorem Numbering.Endless.goes {P : Numbering} {st : Nat → Exchange} (h : P.Endless st) (n : Nat) : P.Goes (st n) := by
  induction n with
  | zero => rw [h.start]; exact .start
  | succ n ih => exact ih.next (h.next n)

/-- What is transmitted later is not before the present message. -/
theorem Numbering.Endless.later {P : Numbering} (hP : P.Ok) {st : Nat → Exchange} (he : P.Endless st) {n : Nat} {h r : List Nat}
    (I : P.Inv (st n) h r) (d : Nat) : ∃ h' r' new, P.Inv (st (n + d)) h' r' ∧ r <+: r' ∧ (st (n + d)).tx = (st n).tx ++ new ∧
      ∀ a ∈ new, risen r ≤ a := by
  induction d with
  | zero => exact ⟨h, r, [], I, List.prefix_rfl, by simp, by simp⟩
  | succ d ih =>
    obtain ⟨h', r', new, I', hr, hx, hnew⟩ := ih
    have hn := he.next (n + d)
    obtain ⟨h2, r2, I2, hr2⟩ := hn.inv hP I'
    have htx : ∃ new', (st (n + d + 1)).tx = (st n).tx ++ new' ∧ ∀ a ∈ new', risen r ≤ a := by
      generalize st (n + d + 1) = s2 at hn
      cases hn with
      | transmit whole =>
        refine ⟨new ++ [P.done (st (n + d)).ha], by simp [hx], fun a ha => ?_⟩
        rcases List.mem_append.mp ha with ha | ha
        · exact hnew a ha
        · rw [List.mem_singleton.mp ha, I'.ha, hP.done_eq I'.rRising]
          obtain ⟨t, rfl⟩ := hr
          exact risen_mono r t
      | receive _ _ _ _ _ => exact ⟨new, hx, hnew⟩
      | answer _ _ _ _ _ => exact ⟨new, hx, hnew⟩
    obtain ⟨new', e1, e2⟩ := htx
    exact ⟨h2, r2, new', I2, hr.trans hr2, e1, e2⟩

/-- One message more. -/
theorem Numbering.Endless.more {P : Numbering} (hP : P.Ok) {st : Nat → Exchange} (he : P.Endless st)
    (hf : ∀ n, ∃ k, n ≤ (st k).ha.length) (n : Nat) : ∃ d, P.done (st n).ha < P.done (st (n + d)).ha := by
  obtain ⟨h, r, I⟩ := (he.goes n).inv hP
  obtain ⟨k, hk⟩ := hf ((st n).tx.length + (st n).ha.length + 1)
  have hmono : ∀ d, (st k).ha.length ≤ (st (k + d)).ha.length := by
    obtain ⟨h1, r1, I1⟩ := (he.goes k).inv hP
    intro d
    obtain ⟨_, r2, _, I2, hp, _, _⟩ := he.later hP I1 d
    rw [I1.ha, I2.ha, List.length_map, List.length_map]
    exact hp.length_le
  obtain ⟨h', r', new, I', hr, hx, hnew⟩ := he.later hP I k
  refine ⟨k, ?_⟩
  rw [I.ha, I'.ha, hP.done_eq I.rRising, hP.done_eq I'.rRising]
  have hlen : (st n).tx.length < r'.length := by
    have h1 := hmono n
    rw [Nat.add_comm k n, I'.ha, List.length_map] at h1
    omega
  have hsub : r'.Sublist (st (n + k)).tx :=
    (I'.rp.sublist.trans (pick_sublist _ _)).trans (I'.hp.sublist.trans (pick_sublist _ _))
  have hdrop := hsub.drop (st n).tx.length
  rw [hx, List.drop_left] at hdrop
  obtain ⟨a, ha⟩ : ∃ a, a ∈ r'.drop (st n).tx.length := by
    refine List.exists_mem_of_length_pos ?_
    rw [List.length_drop]
    omega
  have h1 := hnew a (hdrop.subset ha)
  have h2 := I'.rRising.lt (List.mem_of_mem_drop ha)
  omega

/-- C138. If the sending program handles ever more answers, it goes on forever, and every message is taken for new at some time,
in its place. -/
theorem C138_eventually {P : Numbering} (hP : P.Ok) {st : Nat → Exchange} (he : P.Endless st)
    (hf : ∀ n, ∃ k, n ≤ (st k).ha.length) (i : Nat) :
    ∃ n, ∀ k, n ≤ k → i < P.done (st k).ha ∧ (P.taken (st k).hb)[i]? = some (P.data i).call := by
  obtain ⟨n, hn⟩ : ∃ n, i < P.done (st n).ha := by
    induction i with
    | zero =>
      obtain ⟨d, hd⟩ := he.more hP hf 0
      exact ⟨0 + d, by omega⟩
    | succ i ih =>
      obtain ⟨n, hn⟩ := ih
      obtain ⟨d, hd⟩ := he.more hP hf n
      exact ⟨n + d, by omega⟩
  refine ⟨n, fun k hk => ?_⟩
  obtain ⟨d, rfl⟩ := Nat.exists_eq_add_of_le hk
  have h1 : i < P.done (st (n + d)).ha := by
    obtain ⟨h, r, I⟩ := (he.goes n).inv hP
    obtain ⟨_, r', _, I', ⟨t, ht⟩, _, _⟩ := he.later hP I d
    rw [I.ha, hP.done_eq I.rRising] at hn
    rw [I'.ha, hP.done_eq I'.rRising, ← ht]
    exact Nat.lt_of_lt_of_le hn (risen_mono r t)
  obtain ⟨j, e, h2, _⟩ := C138_once hP (he.goes (n + d))
  refine ⟨h1, ?_⟩
  rw [e, List.getElem?_map, List.getElem?_range (by omega)]
  rfl

/-! ### An exchange -/

/-- The number is the only field; two numbers are used. -/
def twoNumbers : Numbering where
  K := 2
  C := Sample.checked
  D := Sample.basic
  data i := ⟨Sample.checked, Sample.level, [⟨.uint8, [UInt8.ofNat (i % 2)]⟩]⟩
  num c := match c.2 with
    | [[b]] => b.toNat
    | _ => 2
  ack n := ⟨Sample.basic, Sample.level, [⟨.uint8, [UInt8.ofNat n]⟩]⟩
  ackNum c := match c.2 with
    | [[b]] => b.toNat
    | _ => 2

theorem twoNumbers_ok : twoNumbers.Ok where
  two := Nat.le_refl 2
  data i := by
    show Request.Good Sample.checked ⟨Sample.checked, Sample.level, [⟨.uint8, [UInt8.ofNat (i % 2)]⟩]⟩
    rcases Nat.mod_two_eq_zero_or_one i with e | e <;> rw [e] <;> decide +kernel
  num i := by
    show (UInt8.ofNat (i % 2)).toNat = i % 2
    rcases Nat.mod_two_eq_zero_or_one i with e | e <;> rw [e] <;> rfl
  ack n hn := by
    have : n = 0 ∨ n = 1 := by have : n < 2 := hn; omega
    rcases this with rfl | rfl <;> decide +kernel
  ackNum n hn := by
    have : n = 0 ∨ n = 1 := by have : n < 2 := hn; omega
    rcases this with rfl | rfl <;> rfl

/-- The station and what it has been fed, in the examples. -/
theorem partFed_of {C : Collection} {w : World C} {B : Build} {user : UserCode} {fuel : Nat} {ops : List Op} {os : List Obs}
    {fl : List Bool} (sent : List Msg) (hs : ∀ m ∈ sent, IsMsg C m) {x : List Byte} (hl : Line C [] sent x (pick fl sent))
    (hf : w.fed = x) : Link.PartFed ⟨⟨C, B, user, fuel, ops, w, os⟩, fl⟩ (frames C.envelope sent) :=
  ⟨sent, w.fed, [], hs, rfl, by rw [List.append_nil, hf]; exact hl, List.prefix_rfl⟩

/-- The first transmission of message 0 is damaged, then the answer to the second one; the third one arrives, and so does its
answer; at this moment the conditions of `C138_progress` are met. Then message 1 is transmitted. Three messages have been
handled, of which two are new. -/
example : (∃ s : Exchange, twoNumbers.Goes s ∧ s.tx.getLast? = some 0 ∧ s.fb.getLast? = some true ∧
      s.hb.length = (pick s.fb s.tx).length ∧ s.fa.getLast? = some true ∧ s.ha.length = (pick s.fa s.hb).length) ∧
    ∃ s : Exchange, twoNumbers.Goes s ∧ s.hb.length = 3 ∧ twoNumbers.done s.ha = 1 ∧
    twoNumbers.taken s.hb = [(Sample.level, [[0]]), (Sample.level, [[1]])] := by
  let m0 : Msg := ⟨1, [0]⟩
  let m1 : Msg := ⟨1, [1]⟩
  -- the receiving program, three times
  obtain ⟨w1, os1, k1, p1, f1⟩ := station_of Sample.setting_checked (by decide)
    ([.setHandler Sample.h0, .append ((frame .basicChecksum m0).set 3 9), .append (frame .basicChecksum m0)] ++ [.process]) (by simp)
    (fun w => decide (delivered w = [(Sample.level, [[0]])])) (Sample.reached (fun w _ => _) (by decide +kernel))
  obtain ⟨w2, os2, k2, p2, f2⟩ := station_of Sample.setting_checked (by decide)
    ([.setHandler Sample.h0, .append ((frame .basicChecksum m0).set 3 9), .append (frame .basicChecksum m0), .process,
      .append (frame .basicChecksum m0)] ++ [.process]) (by simp)
    (fun w => decide (delivered w = [(Sample.level, [[0]]), (Sample.level, [[0]])])) (Sample.reached (fun w _ => _) (by decide +kernel))
  obtain ⟨w3, os3, k3, p3, f3⟩ := station_of Sample.setting_checked (by decide)
    ([.setHandler Sample.h0, .append ((frame .basicChecksum m0).set 3 9), .append (frame .basicChecksum m0), .process,
      .append (frame .basicChecksum m0), .process, .append (frame .basicChecksum m1)] ++ [.process]) (by simp)
    (fun w => decide (delivered w = [(Sample.level, [[0]]), (Sample.level, [[0]]), (Sample.level, [[1]])]))
    (Sample.reached (fun w _ => _) (by decide +kernel))
  -- the sending program
  obtain ⟨w4, os4, k4, p4, f4⟩ := station_of Sample.setting_basic (by decide)
    ([.setHandler Sample.h0, .append ((frame .basic m0).set 2 9), .append (frame .basic m0)] ++ [.process]) (by simp)
    (fun w => decide (delivered w = [(Sample.level, [[0]])])) (Sample.reached (fun w _ => _) (by decide +kernel))
  simp only [decide_eq_true_eq] at p1 p2 p3 p4
  have i0 : IsMsg Sample.checked m0 := by decide +kernel
  have i1 : IsMsg Sample.checked m1 := by decide +kernel
  have hw : Wrong Sample.checked m0 ((frame .basicChecksum m0).set 3 9) :=
    ⟨by decide +kernel, by decide +kernel, fun m' => set_ne_frame m0 m' (x := 0) (by decide +kernel) (by decide)⟩
  have g2 : twoNumbers.Goes ⟨[0, 0], [false, true], [], [], []⟩ := (Numbering.Goes.start.next (.transmit false)).next (.transmit true)
  have g3 : twoNumbers.Goes ⟨[0, 0], [false, true], delivered w1, [false], []⟩ := g2.receive (bytes := frames .basicChecksum [m0, m0]) (more := [false]) k1 rfl (carried_vector (by decide +kernel))
    (partFed_of [m0, m0] (by simp [i0]) (.wrong i0 hw (by decide +kernel) (.whole i0 .nil)) (f1.trans (by decide +kernel))) (by
      show 0 + 1 = (delivered w1).length
      rw [p1]; rfl)
  have g4 : twoNumbers.Goes ⟨[0, 0, 0], [false, true, true], delivered w1, [false], []⟩ := g3.next (.transmit true)
  have g5 : twoNumbers.Goes ⟨[0, 0, 0], [false, true, true], delivered w2, [false, true], []⟩ := g4.receive (bytes := frames .basicChecksum [m0, m0, m0]) (more := [true]) k2 rfl (carried_vector (by
      show sendAll vectorBuffer [] ([0, 0, 0].map twoNumbers.data) = _
      decide +kernel))
    (partFed_of [m0, m0, m0] (by simp [i0]) (.wrong i0 hw (by decide +kernel) (.whole i0 (.whole i0 .nil))) (f2.trans (by decide +kernel))) (by
      show (delivered w1).length + 1 = (delivered w2).length
      rw [p1, p2]; rfl)
  have b0 : IsMsg Sample.basic m0 := by decide +kernel
  have hw' : Wrong Sample.basic m0 ((frame .basic m0).set 2 9) :=
    C136_code (by decide +kernel) (by decide +kernel) (j := 2) (Or.inr (Or.inl rfl)) (by decide +kernel)
  have g6 : twoNumbers.Goes ⟨[0, 0, 0], [false, true, true], delivered w2, [false, true], delivered w4⟩ := g5.answer (bytes := frames .basic [m0, m0]) k4 rfl (carried_vector (by
      show sendAll vectorBuffer [] ((delivered w2).map fun c => twoNumbers.ack (twoNumbers.num c)) = _
      rw [p2]; decide +kernel))
    (partFed_of [m0, m0] (by simp [b0]) (.wrong b0 hw' (by decide +kernel) (.whole b0 .nil)) (f4.trans (by decide +kernel))) (Nat.zero_le _)
  have hdone : twoNumbers.done (delivered w4) = 1 := by rw [p4]; decide +kernel
  have g7 : twoNumbers.Goes ⟨[0, 0, 0, twoNumbers.done (delivered w4)], [false, true, true, true], delivered w2, [false, true],
    delivered w4⟩ := g6.next (.transmit true)
  rw [hdone] at g7
  have g8 : twoNumbers.Goes ⟨[0, 0, 0, 1], [false, true, true, true], delivered w3, [false, true, true], delivered w4⟩ := g7.receive (bytes := frames .basicChecksum [m0, m0, m0, m1]) (more := [true]) k3 rfl (carried_vector (by
      show sendAll vectorBuffer [] ([0, 0, 0, 1].map twoNumbers.data) = _
      decide +kernel))
    (partFed_of [m0, m0, m0, m1] (by simp [i0, i1]) (.wrong i0 hw (by decide +kernel) (.whole i0 (.whole i0 (.whole i1 .nil)))) (f3.trans (by decide +kernel))) (by
      show (delivered w2).length + 1 = (delivered w3).length
      rw [p2, p3]; rfl)
  refine ⟨⟨_, g6, rfl, rfl, ?_, rfl, ?_⟩, _, g8, ?_, hdone, ?_⟩
  · show (delivered w2).length = 2
    rw [p2]; rfl
  · show (delivered w4).length = (pick [false, true] (delivered w2)).length
    rw [p4, p2]; rfl
  · show (delivered w3).length = 3
    rw [p3]; rfl
  · show twoNumbers.taken (delivered w3) = _
    rw [p3]; decide +kernel

/-- Of two messages the first is damaged, one is handled. -/
example : ∃ X : Station, X.Ok ∧ X.Idle ∧ (delivered X.w).length = (pick [false, true] [twoNumbers.data 0, twoNumbers.data 1]).length := by
  obtain ⟨w, os, k, p, f⟩ := station_of Sample.setting_checked (by decide)
    ([.setHandler Sample.h0, .append ((frame .basicChecksum ⟨1, [0]⟩).set 3 9), .append (frame .basicChecksum ⟨1, [1]⟩)] ++ [.process])
    (by simp) (fun w => w.rx.hasHandler) (Sample.reached (fun w _ => _) (by decide +kernel))
  have i0 : IsMsg Sample.checked ⟨1, [0]⟩ := by decide +kernel
  have i1 : IsMsg Sample.checked ⟨1, [1]⟩ := by decide +kernel
  have hw : Wrong Sample.checked ⟨1, [0]⟩ ((frame .basicChecksum ⟨1, [0]⟩).set 3 9) :=
    ⟨by decide +kernel, by decide +kernel, fun m' => set_ne_frame ⟨1, [0]⟩ m' (x := 0) (by decide +kernel) (by decide)⟩
  have hl : Line Sample.checked [] [⟨1, [0]⟩, ⟨1, [1]⟩] _ [⟨1, [1]⟩] := .wrong i0 hw (by decide +kernel) (.whole i1 .nil)
  refine ⟨_, k, ⟨⟨_, rfl⟩, p⟩, C138_handled k ⟨⟨_, rfl⟩, p⟩ ?_ (bytes := frames .basicChecksum [⟨1, [0]⟩, ⟨1, [1]⟩]) (carried_vector (by decide +kernel))
    ⟨[⟨1, [0]⟩, ⟨1, [1]⟩], by simp [i0, i1], rfl, ?_⟩⟩
  · intro r hr
    simp only [List.mem_cons, List.not_mem_nil, or_false] at hr
    rcases hr with rfl | rfl
    · exact twoNumbers_ok.data 0
    · exact twoNumbers_ok.data 1
  · show Line Sample.checked [] _ w.fed _
    rw [f]
    exact hl

/-! ### It is possible -/

/-- Nothing is damaged. -/
theorem line_of_all {C : Collection} : ∀ {sent : List Msg}, (∀ m ∈ sent, IsMsg C m) → Line C [] sent (frames C.envelope sent) sent
  | [], _ => .nil
  | m :: sent, h => by
    rw [frames_cons]
    exact .whole (h m (by simp)) (line_of_all fun x hx => h x (by simp [hx]))

theorem pick_all {α : Type} : ∀ (l : List α) (n : Nat), pick (List.replicate n true) l = l
  | _, 0 => by simp [pick]
  | [], _ + 1 => by simp [pick, List.replicate_succ]
  | a :: l, n + 1 => by
    rw [List.replicate_succ]
    unfold pick
    rw [pick_all l n]

theorem risen_range (n : Nat) : risen (List.range n) = n := by
  induction n with
  | zero => rfl
  | succ n ih => rw [List.range_succ, risen_snoc, ih, if_pos rfl]

theorem rising_range (n : Nat) : Rising (List.range n) := by
  induction n with
  | zero =>
    intro p a q e
    simp at e
  | succ n ih =>
    rw [List.range_succ]
    exact ih.snoc (by rw [risen_range]; exact Nat.le_refl _) (by rw [risen_range]; omega)

/-- A program that receives one message after the other, undamaged. -/
theorem stations {C : Collection} {B : Build} {user : UserCode} {fuel : Nat} (S : Setting C B user) (hq : Quiet user)
    (hn : NeverThrows user) (hids : C.messages.length ≤ 255) (hf : capacity C < fuel) (h : Handler) {rs : Nat → Request}
    (hr : ∀ i, (rs i).Good C) (n : Nat) : ∃ X : Station, X.Ok ∧ X.C = C ∧ X.user = user ∧ X.B = B ∧
      delivered X.w = (List.range n).map (fun i => (rs i).call) ∧
      ∃ bytes, Carried ((List.range n).map rs) bytes ∧ Link.PartFed ⟨X, List.replicate n true⟩ bytes := by
  have hm : ∀ i, IsMsg C (rs i).msg := fun i => (hr i).isMsg
  have hne : C.messages ≠ [] := fun e => by
    have := (hr 0).2.1.2.1
    rw [e] at this
    exact absurd this (by simp)
  obtain ⟨E, _, hfed, hd⟩ := C123_loop_messages S hq hn hne hf h hm
  have hall : ∀ m ∈ (List.range n).map fun i => (rs i).msg, IsMsg C m := by
    intro m h1
    obtain ⟨i, _, rfl⟩ := List.mem_map.mp h1
    exact hm i
  refine ⟨⟨C, B, user, fuel, _, E.state (2 * n + 1), E.observed (2 * n + 1)⟩, ⟨S, hn, E.reached _, hids⟩, rfl, rfl, rfl, ?_,
    frames C.envelope ((List.range n).map fun i => (rs i).msg), ?_, ?_⟩
  · show delivered (E.state (2 * n + 1)) = _
    rw [hd]
    exact List.map_congr_left fun i _ => (hr i).meaning
  · obtain ⟨s', h1, h2⟩ := sendAll_faithful (C := C) vectorBuffer_faithful ((List.range n).map rs) (by
      intro r h1
      obtain ⟨i, _, rfl⟩ := List.mem_map.mp h1
      exact hr i) []
    refine ⟨_, vectorBuffer, id, [], s', vectorBuffer_faithful, h1, ?_⟩
    rw [h2, List.map_map]
    rfl
  · refine partFed_of _ hall ?_ (hfed n)
    rw [pick_all]
    exact line_of_all hall

/-- C138. For every numbering, and every pair of programs whose handlers neither throw nor append, there is an exchange that
goes on forever, in which the sending program handles ever more answers. -/
theorem C138_possible {P : Numbering} (hP : P.Ok) {B B' : Build} {user user' : UserCode} (S : Setting P.C B user)
    (S' : Setting P.D B' user') (hq : Quiet user) (hq' : Quiet user') (hn : NeverThrows user) (hn' : NeverThrows user')
    (hi : P.C.messages.length ≤ 255) (hi' : P.D.messages.length ≤ 255) (h : Handler) :
    ∃ st, P.Endless st ∧ ∀ n, n ≤ (st (3 * n)).ha.length := by
  have hK : ∀ i, i % P.K < P.K := fun i => Nat.mod_lt _ (by have := hP.two; omega)
  let st : Nat → Exchange := fun n => ⟨List.range ((n + 2) / 3), List.replicate ((n + 2) / 3) true,
    (List.range ((n + 1) / 3)).map (fun i => (P.data i).call), List.replicate ((n + 1) / 3) true,
    (List.range (n / 3)).map (fun i => (P.ack (i % P.K)).call)⟩
  refine ⟨st, ⟨rfl, fun n => ?_⟩, fun n => ?_⟩
  · obtain ⟨q, e⟩ : ∃ q, n = 3 * q ∨ n = 3 * q + 1 ∨ n = 3 * q + 2 := ⟨n / 3, by omega⟩
    rcases e with rfl | rfl | rfl
    · have e1 : (3 * q + 2) / 3 = q := by omega
      have e2 : (3 * q + 1 + 2) / 3 = q + 1 := by omega
      have e3 : (3 * q + 1) / 3 = q := by omega
      have e4 : 3 * q / 3 = q := by omega
      have := Numbering.Next.transmit (P := P) (s := st (3 * q)) true
      have hd : P.done (st (3 * q)).ha = q := by
        simp only [st, hP.done_eq (rising_range _), risen_range, e4]
      rw [hd] at this
      simp only [st, e1, e2, e3, e4, List.range_succ, List.replicate_succ'] at this ⊢
      exact this
    · have e1 : (3 * q + 1 + 2) / 3 = q + 1 := by omega
      have e2 : (3 * q + 1 + 1 + 2) / 3 = q + 1 := by omega
      have e3 : (3 * q + 1 + 1) / 3 = q := by omega
      have e5 : (3 * q + 1) / 3 = q := by omega
      obtain ⟨X, hX, hC, _, _, hdel, bytes, hb, hf⟩ := stations S hq hn hi (Nat.lt_succ_self _) h hP.data (q + 1)
      have := Numbering.Next.receive (P := P) (s := st (3 * q + 1)) (more := [true]) hX hC (bytes := bytes)
        (by simp only [st, e1]; exact hb) (by simp only [st, e1]; exact hf) (by simp [st, hdel, e3])
      simp only [st, e1, e2, e3, e5, hdel, List.replicate_succ'] at this ⊢
      exact this
    · have e1 : (3 * q + 2 + 2) / 3 = q + 1 := by omega
      have e2 : (3 * q + 2 + 1 + 2) / 3 = q + 1 := by omega
      have e3 : (3 * q + 2 + 1) / 3 = q + 1 := by omega
      have e5 : (3 * q + 2) / 3 = q := by omega
      obtain ⟨Y, hY, hD, _, _, hdel, bytes, hb, hf⟩ := stations S' hq' hn' hi' (Nat.lt_succ_self _) h
        (rs := fun i => P.ack (i % P.K)) (fun i => hP.ack _ (hK i)) (q + 1)
      have := Numbering.Next.answer (P := P) (s := st (3 * q + 2)) hY hD (bytes := bytes)
        (by
          simp only [st, e3, List.map_map]
          rw [show ((fun c => P.ack (P.num c)) ∘ fun i => (P.data i).call) = fun i => P.ack (i % P.K) from
            funext fun i => by simp [hP.num]]
          exact hb) (by simp only [st, e3]; exact hf) (by simp [st, hdel, e5])
      simp only [st, e1, e2, e3, e5, hdel] at this ⊢
      exact this
  · simp [st]

/-- With two numbers; the conditions of `C138_possible` and those of `C138_eventually` are met, and message 7 is taken. -/
example : ∃ st, twoNumbers.Endless st ∧ ∃ k, (twoNumbers.taken (st k).hb)[7]? = some (Sample.level, [[1]]) := by
  obtain ⟨st, he, hf⟩ := C138_possible twoNumbers_ok (B := Sample.dbg) (B' := Sample.dbg) Sample.setting_checked Sample.setting_basic
    Sample.passive_quiet Sample.passive_quiet Sample.passive_neverThrows Sample.passive_neverThrows (by decide) (by decide) Sample.h0
  obtain ⟨k, hk⟩ := C138_eventually twoNumbers_ok he (fun n => ⟨3 * n, hf n⟩) 7
  exact ⟨st, he, k, (hk k (Nat.le_refl _)).2.trans (by rfl)⟩

/-- Without numbers: the messages count on, but nothing of that is sent. -/
def noNumbers : Numbering where
  K := 1
  C := Sample.checked
  D := Sample.basic
  data i := ⟨Sample.checked, Sample.level, [⟨.uint8, [UInt8.ofNat i]⟩]⟩
  num _ := 0
  ack _ := ⟨Sample.basic, Sample.ping, []⟩
  ackNum _ := 0

/-- C138. One number is not enough: a message that is sent again because its answer is late is taken for the next one. -/
theorem C138_numbers_needed : (∀ i, (noNumbers.data i).Good noNumbers.C ∧ noNumbers.num (noNumbers.data i).call = i % noNumbers.K) ∧
    (∀ n < noNumbers.K, (noNumbers.ack n).Good noNumbers.D ∧ noNumbers.ackNum (noNumbers.ack n).call = n) ∧
    ∃ s, noNumbers.Goes s ∧ ∀ n, noNumbers.taken s.hb ≠ (List.range n).map fun i => (noNumbers.data i).call := by
  refine ⟨fun i => ⟨⟨rfl, ⟨by decide, show Sample.level ∈ Sample.checked.messages by decide, rfl⟩, ?_⟩, (Nat.mod_one i).symm⟩, fun n hn => ?_, ?_⟩
  · intro v hv
    simp only [noNumbers, List.mem_singleton] at hv
    subst hv
    rfl
  · have : n = 0 := by have : n < 1 := hn; omega
    subst this
    exact ⟨by decide +kernel, rfl⟩
  · let m0 : Msg := ⟨1, [0]⟩
    have i0 : IsMsg Sample.checked m0 := by decide +kernel
    obtain ⟨w1, os1, k1, p1, f1⟩ := station_of Sample.setting_checked (by decide)
      ([.setHandler Sample.h0, .append (frame .basicChecksum m0), .append (frame .basicChecksum m0)] ++ [.process]) (by simp)
      (fun w => decide (delivered w = [(Sample.level, [[0]]), (Sample.level, [[0]])])) (Sample.reached (fun w _ => _) (by decide +kernel))
    simp only [decide_eq_true_eq] at p1
    have g1 : noNumbers.Goes ⟨[0, 0], [true, true], [], [], []⟩ := (Numbering.Goes.start.next (.transmit true)).next (.transmit true)
    have g2 : noNumbers.Goes ⟨[0, 0], [true, true], delivered w1, [true, true], []⟩ := g1.receive (bytes := frames .basicChecksum [m0, m0]) (more := [true, true]) k1 rfl (carried_vector (by decide +kernel))
      (partFed_of [m0, m0] (by simp [i0]) (.whole i0 (.whole i0 .nil)) (f1.trans (by decide +kernel))) (by
        show 0 + 2 = (delivered w1).length
        rw [p1]; rfl)
    refine ⟨_, g2, fun n e => ?_⟩
    have e : noNumbers.taken (delivered w1) = (List.range n).map fun i => (noNumbers.data i).call := e
    rw [p1] at e
    have hl := congrArg List.length e
    rw [List.length_map, List.length_range] at hl
    rw [← hl] at e
    exact absurd e (by decide +kernel)

end TT.Properties
