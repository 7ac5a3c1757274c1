import Verif.Properties.Buffer
import Verif.Proofs.Place
import Verif.Model.BufferMore

/-!
# Iterators into a receive buffer, pushing a range onto itself, `at`: C53, C85
-/

namespace TT.Properties
open Spec

variable {B : Build} {cap : Nat}

theorem runCall_place (ha : Arith B cap) {b b' : RB cap} {xs ys : List Byte} (h : b.Holds xs) {c : BufCall}
    {r : BufRet} (hs : c.spec cap xs = some (ys, r)) (e : runCall B b c = .ok (b', r)) :
    b'.begin_ = c.place cap b.begin_ xs := by
  have hc := ha.lt64
  cases c with
  | pushBack x =>
    simp only [BufCall.spec] at hs
    split at hs <;> simp at hs
    obtain ⟨b1, e1, _⟩ := h.pushBack_ok hc (x := x) (by omega)
    simp only [runCall, e1 B ha, ok_bind, pure_eq_ok, Except.ok.injEq, Prod.mk.injEq] at e
    rw [← e.1]
    exact h.pushBack_place ha (by omega) (e1 B ha)
  | pushRange zs =>
    simp only [BufCall.spec] at hs
    split at hs <;> simp at hs
    obtain ⟨b1, e1, _⟩ := h.pushBackRange_ok hc (ys := zs) (by omega)
    simp only [runCall, e1 B ha, ok_bind, pure_eq_ok, Except.ok.injEq, Prod.mk.injEq] at e
    rw [← e.1]
    exact h.pushBackRange_place ha (by omega) (e1 B ha)
  | popFront n =>
    simp only [BufCall.spec] at hs
    cases xs with
    | nil => simp at hs
    | cons x xs =>
      simp only [List.head?_cons] at hs
      split at hs <;> simp only [Option.some.injEq, Prod.mk.injEq, reduceCtorEq] at hs
      obtain ⟨e1, _⟩ := h.popFront_ok hc (n := n) (by simpa using ‹_›)
      simp only [runCall, e1 B, ok_bind, pure_eq_ok, Except.ok.injEq, Prod.mk.injEq] at e
      rw [← e.1]
      rfl
  | popBack n =>
    simp only [BufCall.spec] at hs
    rcases List.eq_nil_or_concat xs with hx | ⟨zs, z, hx⟩
    · subst hx; simp at hs
    · rw [List.concat_eq_append] at hx
      subst hx
      simp only [List.getLast?_concat] at hs
      split at hs <;> simp only [Option.some.injEq, Prod.mk.injEq, reduceCtorEq] at hs
      rename_i hn
      obtain ⟨b1, e1, _, hb⟩ := h.popBack_ok hc (n := n) (by simpa using hn)
      simp only [runCall, e1 B, ok_bind, pure_eq_ok, Except.ok.injEq, Prod.mk.injEq] at e
      rw [← e.1]
      exact hb
  | erase i j =>
    simp only [BufCall.spec] at hs
    split at hs <;> simp only [Option.some.injEq, Prod.mk.injEq, reduceCtorEq] at hs
    rename_i hij
    obtain ⟨b1, e1, _⟩ := h.erase_ok hc hij.1 hij.2
    simp only [runCall, e1 B, ok_bind, pure_eq_ok, Except.ok.injEq, Prod.mk.injEq] at e
    rw [← e.1]
    exact h.erase_place hc hij.1 hij.2 (e1 B)
  | eraseOne i =>
    simp only [BufCall.spec] at hs
    split at hs <;> simp only [Option.some.injEq, Prod.mk.injEq, reduceCtorEq] at hs
    rename_i hi
    obtain ⟨b1, e1, _⟩ := h.erase_ok hc (Nat.lt_succ_self i) hi
    have e2 := h.erase_place hc (Nat.lt_succ_self i) hi (e1 B)
    have e' := e1 B
    rw [show b.begin_ + i.succ = b.begin_ + i + 1 from rfl] at e'
    simp only [runCall, RB.eraseOne, e', ok_bind, pure_eq_ok, Except.ok.injEq, Prod.mk.injEq] at e
    rw [← e.1, e2]
    simp only [BufCall.place]
    by_cases h0 : i = 0 <;> simp [h0]
  | clear =>
    simp only [runCall, Except.ok.injEq, Prod.mk.injEq] at e
    rw [← e.1]
    rfl
  | ensureSpace n =>
    simp only [BufCall.spec] at hs
    split at hs <;> simp at hs
    obtain ⟨b1, e1, _⟩ := h.ensureSpace_ok hc (n := n) (by omega)
    simp only [runCall, e1 B ha, ok_bind, pure_eq_ok, Except.ok.injEq, Prod.mk.injEq] at e
    rw [← e.1]
    exact h.ensureSpace_place ha (by omega) (e1 B ha)
  | set i x =>
    simp only [BufCall.spec] at hs
    split at hs <;> simp at hs
    obtain ⟨b1, e1, _, hb, _⟩ := h.set_ok hc ‹_› x
    simp only [runCall, e1 B, ok_bind, pure_eq_ok, Except.ok.injEq, Prod.mk.injEq] at e
    rw [← e.1]
    exact hb
  | copy =>
    obtain ⟨b1, e1, _, hb⟩ := h.copyConstruct_ok hc
    simp only [runCall, e1, ok_bind, pure_eq_ok, Except.ok.injEq, Prod.mk.injEq] at e
    rw [← e.1]
    exact hb
  | assignTo former =>
    simp only [BufCall.spec] at hs
    split at hs <;> simp at hs
    obtain ⟨t, e1, ht⟩ := (RB.holds_new cap).pushBackRange_ok hc (ys := former) (by simpa using ‹_›)
    obtain ⟨b1, e2, _, hb⟩ := RB.holds_idealContentsCopy hc h ht.len
    simp only [runCall, RB.fromRange, e1 B ha, RB.assign, e2, ok_bind, pure_eq_ok, Except.ok.injEq,
      Prod.mk.injEq] at e
    rw [← e.1]
    exact hb

theorem runCalls_place (ha : Arith B cap) (cs : List BufCall) :
    ∀ {b : RB cap} {xs ys : List Byte}, b.Holds xs → ∀ {rs : List BufRet},
    specCalls cap xs cs = some (ys, rs) →
    ∃ b' : RB cap, runCalls B b cs = .ok (b', rs) ∧ b'.Holds ys ∧ b'.begin_ = places cap b.begin_ xs cs := by
  induction cs with
  | nil =>
    intro b xs ys h rs hs
    simp only [specCalls, Option.some.injEq, Prod.mk.injEq] at hs
    obtain ⟨rfl, rfl⟩ := hs
    exact ⟨b, rfl, h, rfl⟩
  | cons c cs ih =>
    intro b xs ys h rs hs
    simp only [specCalls] at hs
    split at hs
    · simp at hs
    · rename_i zs r hz
      split at hs
      · simp at hs
      · rename_i ws rs' hw
        simp only [Option.some.injEq, Prod.mk.injEq] at hs
        obtain ⟨rfl, rfl⟩ := hs
        obtain ⟨b1, e1, hh1⟩ := runCall_ok ha.lt64 h hz
        obtain ⟨b2, e2, hh2, hp⟩ := ih hh1 hw
        refine ⟨b2, by simp [runCalls, e1 B ha, e2], hh2, ?_⟩
        rw [hp, runCall_place ha h hz (e1 B ha)]
        simp only [places, hz]

/-- C85. After any calls in contract the elements stand side by side, element `i` at `begin() + i`, and
`begin()` is where the rule says: it moves with what is removed at the front, and jumps to the front of the
array when a call needs room that is not there behind the elements. -/
theorem C85_place (ha : Arith B cap) (cs : List BufCall) (xs : List Byte) (rs : List BufRet)
    (h : specCalls cap [] cs = some (xs, rs)) :
    ∃ s : RB cap, runCalls B (RB.new cap) cs = .ok (s, rs) ∧ s.begin_ = places cap 0 [] cs ∧
      s.pastEnd = places cap 0 [] cs + xs.length ∧
      ∀ i x, xs[i]? = some x → s.contents[s.begin_ + i]? = some x := by
  obtain ⟨s, e, hh, hp⟩ := runCalls_place ha cs (RB.holds_new cap) h
  refine ⟨s, e, hp, by rw [hh.pe, hp]; rfl, fun i x hx => ?_⟩
  obtain ⟨hi, e⟩ := List.getElem?_eq_some_iff.mp hx
  rw [hh.getElem? hi, e]

theorem stable_aux (ds : List BufCall) : ∀ (start : Nat) (xs ys : List Byte) (rd : List BufRet),
    specCalls cap xs ds = some (ys, rd) → (∀ d ∈ ds, d.InPlace) → NeverEmpty cap xs ds →
    start + xs.length + (ds.map BufCall.asks).sum ≤ cap →
    places cap start xs ds = start + (ds.map BufCall.taken).sum := by
  induction ds with
  | nil => intro start xs ys rd _ _ _ _; simp [places]
  | cons d ds ih =>
    intro start xs ys rd hs hi hne hroom
    simp only [specCalls] at hs
    split at hs
    · simp at hs
    · rename_i zs r hz
      split at hs
      · simp at hs
      · rename_i ws rs' hw
        obtain ⟨hx, hne2⟩ := hne
        have hpos : 0 < xs.length := List.length_pos_iff.mpr hx
        have hi0 := hi d (by simp)
        simp only [List.map_cons, List.sum_cons] at hroom ⊢
        have key : d.place cap start xs = start + d.taken ∧
            start + d.taken + zs.length ≤ start + xs.length + d.asks := by
          cases d <;> simp only [BufCall.place, BufCall.taken, BufCall.asks, BufCall.spec, BufCall.InPlace,
            placeFor] at *
          case pushBack x =>
            split at hz <;> simp at hz
            obtain ⟨rfl, rfl⟩ := hz
            rw [if_neg (by simp only [hx, false_or]; omega)]
            simp; omega
          case pushRange xs' =>
            split at hz <;> simp at hz
            obtain ⟨rfl, rfl⟩ := hz
            rw [if_neg (by simp only [hx, false_or]; omega)]
            simp; omega
          case popFront n =>
            split at hz <;> try (simp at hz; done)
            split at hz <;> simp at hz
            obtain ⟨rfl, rfl⟩ := hz
            simp; omega
          case popBack n =>
            split at hz <;> try (simp at hz; done)
            split at hz <;> simp at hz
            obtain ⟨rfl, rfl⟩ := hz
            simp
          case erase i j =>
            split at hz <;> simp only [Option.some.injEq, Prod.mk.injEq, reduceCtorEq] at hz
            obtain ⟨rfl, rfl⟩ := hz
            by_cases h0 : i = 0
            · simp [h0]; omega
            · simp [h0]; omega
          case eraseOne i =>
            split at hz <;> simp only [Option.some.injEq, Prod.mk.injEq, reduceCtorEq] at hz
            obtain ⟨rfl, rfl⟩ := hz
            rename_i hi'
            rw [List.length_eraseIdx_of_lt hi']
            by_cases h0 : i = 0
            · simp [h0]; omega
            · simp [h0]
          case ensureSpace n =>
            split at hz <;> simp at hz
            obtain ⟨rfl, rfl⟩ := hz
            rw [if_neg (by simp only [hx, false_or]; omega)]
            simp
          case set i x =>
            split at hz <;> simp at hz
            obtain ⟨rfl, rfl⟩ := hz
            simp
        have := ih (d.place cap start xs) zs ws rs' hw (fun d' hd' => hi d' (by simp [hd']))
          (hne2 zs r hz) (by omega)
        simp only [places, hz]
        rw [this]
        omega

theorem specCalls_append (cs ds : List BufCall) : ∀ (xs : List Byte) (p : List Byte × List BufRet),
    specCalls cap xs (cs ++ ds) = some p → ∃ ys rs rd, specCalls cap xs cs = some (ys, rs) ∧
      specCalls cap ys ds = some (p.1, rd) ∧ p.2 = rs ++ rd := by
  induction cs with
  | nil => intro xs p h; exact ⟨xs, [], p.2, rfl, h, rfl⟩
  | cons c cs ih =>
    intro xs p h
    simp only [List.cons_append, specCalls] at h ⊢
    split at h
    · simp at h
    · rename_i zs r hz
      split at h
      · simp at h
      · rename_i ws rs' hw
        simp only [Option.some.injEq] at h
        obtain ⟨ys, rs, rd, h1, h2, h3⟩ := ih zs (ws, rs') hw
        refine ⟨ys, r :: rs, rd, ?_, ?_, ?_⟩
        · simp [h1]
        · rw [← h]; exact h2
        · rw [← h]; simp at h3 ⊢; exact h3

/-- C85. As long as the buffer does not become empty and the room behind its elements suffices for
everything that is pushed, no element moves: `begin()` advances by exactly what is removed at the front, so
iterators to elements that stay in the buffer stay valid. -/
theorem C85_stable (ha : Arith B cap) (cs ds : List BufCall) (xs ys : List Byte) (rs rd : List BufRet)
    (hs : specCalls cap [] cs = some (xs, rs)) (hd : specCalls cap xs ds = some (ys, rd))
    (hi : ∀ d ∈ ds, d.InPlace) (hne : NeverEmpty cap xs ds) :
    ∃ s t : RB cap, runCalls B (RB.new cap) cs = .ok (s, rs) ∧ runCalls B s ds = .ok (t, rd) ∧
      (s.pastEnd + (ds.map BufCall.asks).sum ≤ cap →
        t.begin_ = s.begin_ + (ds.map BufCall.taken).sum) := by
  obtain ⟨s, e, hh, _⟩ := runCalls_place ha cs (RB.holds_new cap) hs
  obtain ⟨t, e2, hh2, hp2⟩ := runCalls_place ha ds hh hd
  refine ⟨s, t, e, e2, fun hroom => ?_⟩
  rw [hp2]
  exact stable_aux ds _ _ _ _ hd hi hne (by have := hh.pe; omega)

/-- Elements of a buffer end no later in the array than what was asked for since it was last empty. -/
theorem extent_aux (ds : List BufCall) : ∀ (start k : Nat) (xs ys : List Byte) (rd : List BufRet),
    specCalls cap xs ds = some (ys, rd) → (∀ d ∈ ds, d.InPlace) →
    (xs = [] ∨ start + xs.length ≤ k) → k + (ds.map BufCall.asks).sum ≤ cap →
    ys = [] ∨ places cap start xs ds + ys.length ≤ k + (ds.map BufCall.asks).sum := by
  induction ds with
  | nil =>
    intro start k xs ys rd hs _ h _
    simp only [specCalls, Option.some.injEq, Prod.mk.injEq] at hs
    obtain ⟨rfl, rfl⟩ := hs
    simpa [places] using h
  | cons d ds ih =>
    intro start k xs ys rd hs hi hk hroom
    simp only [specCalls] at hs
    split at hs
    · simp at hs
    · rename_i zs r hz
      split at hs
      · simp at hs
      · rename_i ws rs' hw
        simp only [Option.some.injEq, Prod.mk.injEq] at hs
        obtain ⟨rfl, rfl⟩ := hs
        have hi0 := hi d (by simp)
        simp only [List.map_cons, List.sum_cons] at hroom ⊢
        have key : zs = [] ∨ d.place cap start xs + zs.length ≤ k + d.asks := by
          by_cases hx : xs = []
          · subst hx
            cases d <;> simp only [BufCall.place, BufCall.asks, BufCall.spec, BufCall.InPlace, placeFor,
              true_or, if_true] at *
            case pushBack x =>
              split at hz <;> simp at hz
              obtain ⟨rfl, rfl⟩ := hz
              right; simp
            case pushRange xs' =>
              split at hz <;> simp at hz
              obtain ⟨rfl, rfl⟩ := hz
              right; simp
            case popFront n => simp at hz
            case popBack n => simp at hz
            case erase i j =>
              split at hz
              · rename_i h; simp at h; omega
              · simp at hz
            case eraseOne i => simp at hz
            case ensureSpace n =>
              split at hz <;> simp at hz
              exact Or.inl hz.1
            case set i x => simp at hz
          · have hk' : start + xs.length ≤ k := hk.resolve_left hx
            have hpos : 0 < xs.length := List.length_pos_iff.mpr hx
            right
            cases d <;> simp only [BufCall.place, BufCall.asks, BufCall.spec, BufCall.InPlace,
              placeFor] at *
            case pushBack x =>
              split at hz <;> simp at hz
              obtain ⟨rfl, rfl⟩ := hz
              split <;> simp <;> omega
            case pushRange xs' =>
              split at hz <;> simp at hz
              obtain ⟨rfl, rfl⟩ := hz
              split <;> simp <;> omega
            case popFront n =>
              split at hz <;> try (simp at hz; done)
              split at hz <;> simp at hz
              obtain ⟨rfl, rfl⟩ := hz
              simp; omega
            case popBack n =>
              split at hz <;> try (simp at hz; done)
              split at hz <;> simp at hz
              obtain ⟨rfl, rfl⟩ := hz
              simp; omega
            case erase i j =>
              split at hz <;> simp only [Option.some.injEq, Prod.mk.injEq, reduceCtorEq] at hz
              obtain ⟨rfl, rfl⟩ := hz
              by_cases h0 : i = 0
              · simp [h0]; omega
              · simp [h0]; omega
            case eraseOne i =>
              split at hz <;> simp only [Option.some.injEq, Prod.mk.injEq, reduceCtorEq] at hz
              obtain ⟨rfl, rfl⟩ := hz
              rename_i hi'
              rw [List.length_eraseIdx_of_lt hi']
              by_cases h0 : i = 0
              · simp [h0]; omega
              · simp [h0]; omega
            case ensureSpace n =>
              split at hz <;> simp at hz
              obtain ⟨rfl, rfl⟩ := hz
              split <;> omega
            case set i x =>
              split at hz <;> simp at hz
              obtain ⟨rfl, rfl⟩ := hz
              simp; omega
        have := ih (d.place cap start xs) (k + d.asks) zs ws rs' hw (fun d' hd' => hi d' (by simp [hd']))
          key (by omega)
        simp only [places, hz]
        rcases this with h | h
        · exact Or.inl h
        · exact Or.inr (by omega)

/-- C85. In particular from an empty buffer on: if not more than `CAPACITY` elements are pushed altogether
(whatever is removed in between), then between any two points with the buffer never empty in between no
element has moved. -/
theorem C85_from_empty (ha : Arith B cap) (cs ds es : List BufCall) (ys zs : List Byte)
    (rs rd re : List BufRet) (hs : specCalls cap [] cs = some ([], rs))
    (hd : specCalls cap [] ds = some (ys, rd)) (he : specCalls cap ys es = some (zs, re))
    (hi : ∀ d ∈ ds ++ es, d.InPlace) (hne : NeverEmpty cap ys es)
    (hroom : ((ds ++ es).map BufCall.asks).sum ≤ cap) :
    ∃ s t u : RB cap, runCalls B (RB.new cap) cs = .ok (s, rs) ∧ runCalls B s ds = .ok (t, rd) ∧
      runCalls B t es = .ok (u, re) ∧ u.begin_ = t.begin_ + (es.map BufCall.taken).sum := by
  obtain ⟨s, e, hh, _⟩ := runCalls_place ha cs (RB.holds_new cap) hs
  obtain ⟨t, e2, hh2, hp2⟩ := runCalls_place ha ds hh hd
  obtain ⟨u, e3, hh3, hp3⟩ := runCalls_place ha es hh2 he
  refine ⟨s, t, u, e, e2, e3, ?_⟩
  rw [List.map_append, List.sum_append] at hroom
  rw [hp3]
  rcases extent_aux ds s.begin_ 0 [] ys rd hd (fun d hd' => hi d (by simp [hd'])) (Or.inl rfl) (by omega)
    with h | h
  · subst h
    cases es with
    | nil => simp [places]
    | cons d es => exact absurd rfl hne.1
  · exact stable_aux es _ _ _ _ he (fun d hd' => hi d (by simp [hd'])) hne (by rw [hp2]; omega)

/-- C85. When a push needs more room than there is behind the elements, every element moves: an iterator to
element `i` from before is now one to element `i + begin() - array`, never to the same one. -/
theorem C85_push_moves (ha : Arith B cap) (cs : List BufCall) (xs zs : List Byte) (rs : List BufRet)
    (hs : specCalls cap [] cs = some (xs, rs)) (hx : xs ≠ []) (hfit : xs.length + zs.length ≤ cap) :
    ∃ s t : RB cap, runCalls B (RB.new cap) cs = .ok (s, rs) ∧ s.pushBackRange B zs = .ok t ∧
      (t.begin_ = s.begin_ ↔ s.pastEnd + zs.length ≤ cap) ∧
      (cap < s.pastEnd + zs.length → t.begin_ = 0 ∧ 0 < s.begin_) := by
  obtain ⟨s, e, hh, _⟩ := runCalls_place ha cs (RB.holds_new cap) hs
  obtain ⟨t, e2, _⟩ := hh.pushBackRange_ok ha.lt64 (ys := zs) hfit
  have hp := hh.pushBackRange_place ha hfit (e2 B ha)
  have hpe := hh.pe
  unfold placeFor at hp
  simp only [hx, false_or] at hp
  refine ⟨s, t, e, e2 B ha, ?_, ?_⟩
  · rw [hp]
    split <;> omega
  · intro h
    rw [if_pos (by omega)] at hp
    exact ⟨hp, by omega⟩

/-- C85. `at` on platforms without exceptions: elements as by index; no check beyond the assertion; and the
index counts modulo the range of `size_type`, so that `at` with an index far outside gives an element. -/
theorem C85_at (ha : Arith B cap) (cs : List BufCall) (xs : List Byte) (rs : List BufRet)
    (hs : specCalls cap [] cs = some (xs, rs)) :
    ∃ s : RB cap, runCalls B (RB.new cap) cs = .ok (s, rs) ∧
      (∀ i x, xs[i]? = some x → s.at_ B i = .ok x) ∧
      (∀ i, s.at_ B (i + 2 ^ leastBits cap) = s.at_ B i) ∧
      (∀ i, xs.length ≤ i → i < 2 ^ leastBits cap → B.debug = true → s.at_ B i = .error .abort) := by
  obtain ⟨s, e, hh, _⟩ := runCalls_place ha cs (RB.holds_new cap) hs
  have hlt := lt_two_pow_leastBits ha.lt64
  have hl := hh.length_le
  refine ⟨s, e, fun i x hx => ?_, fun i => ?_, fun i h1 h2 hb => ?_⟩
  · obtain ⟨hi, e⟩ := List.getElem?_eq_some_iff.mp hx
    unfold RB.at_
    rw [trunc_of_le ha.lt64 (by omega), hh.get_ok ha.lt64 B hi, e]
  · unfold RB.at_ trunc
    rw [Nat.add_mod_right]
  · unfold RB.at_ trunc RB.get
    rw [Nat.mod_eq_of_lt h2, hh.size_eq ha.lt64]
    simp [assertMsg, hb, Nat.not_lt.mpr h1]

/-! ### C53 for ranges -/

/-- C53. Pushing a range of the buffer onto itself, `buf.push_back(buf.begin() + i, buf.begin() + i + n)`: right
as long as the contents need not be moved. If they have to be moved, then either the range lies behind the
place where the moved contents end, and the right elements are pushed; or it lies before it, and other elements
are pushed; or the place is within the range, and the call is undefined. -/
theorem C53_range (ha : Arith B cap) (cs : List BufCall) (xs : List Byte) (rs : List BufRet)
    (hs : specCalls cap [] cs = some (xs, rs)) (i n : Nat) (hn : 0 < n) (hi : i + n ≤ xs.length)
    (hfit : xs.length + n ≤ cap) :
    ∃ s : RB cap, runCalls B (RB.new cap) cs = .ok (s, rs) ∧
      (s.pastEnd + n ≤ cap → ∃ t, s.pushBackOwnRange B i n = .ok t ∧
        Shows B t (xs ++ (xs.drop i).take n)) ∧
      (cap < s.pastEnd + n → 0 < s.begin_ ∧
        (xs.length < s.begin_ + i → ∃ t, s.pushBackOwnRange B i n = .ok t ∧
          Shows B t (xs ++ (xs.drop i).take n)) ∧
        (s.begin_ + i + n ≤ xs.length → ∃ t, s.pushBackOwnRange B i n = .ok t ∧
          Shows B t (xs ++ (xs.drop (s.begin_ + i)).take n)) ∧
        (s.begin_ + i ≤ xs.length → xs.length < s.begin_ + i + n →
          s.pushBackOwnRange B i n = .error .ub)) := by
  have hc := ha.lt64
  obtain ⟨s, e, hh, _⟩ := runCalls_place ha cs (RB.holds_new cap) hs
  have h1 := hh.pastEnd_le
  have h2 := hh.pe
  have h3 := hh.len
  have hx : xs ≠ [] := by rintro rfl; simp at hi; omega
  have hemp : s.empty = false := by rw [hh.empty_eq]; simpa using hx
  have slice : (s.contents.drop (s.begin_ + i)).take n = (xs.drop i).take n := by
    obtain ⟨pre, post, hsp, hp⟩ := hh.split
    rw [hsp, ← hp, List.append_assoc, List.drop_length_add_append,
      List.drop_append_of_le_length (by omega), List.take_append_of_le_length (by simp; omega)]
  have ht : trunc cap n = n := trunc_of_le hc (by omega)
  refine ⟨s, e, fun hroom => ?_, fun hroom => ?_⟩
  · have he : s.ensureSpace B n = .ok s := by
      unfold RB.ensureSpace
      simp only [hemp, Bool.false_eq_true, if_false]
      rw [promAdd_of_lt ha (by omega), if_pos hroom]
    have hcopy : RB.copyWithin s.contents (s.begin_ + i) (s.begin_ + i + n) s.pastEnd =
        RB.writeAt s.contents s.pastEnd ((xs.drop i).take n) := by
      unfold RB.copyWithin
      rw [if_neg (by omega), if_neg (by omega), Nat.add_sub_cancel_left,
        RB.copyLoop_behind _ _ _ _ (by omega) (by omega), slice,
        RB.writeAt_ok _ _ _ (by simp; omega)]
      have : ((xs.drop i).take n).length = n := by simp; omega
      rw [this]
    have hlen : ((xs.drop i).take n).length = n := by simp; omega
    obtain ⟨l, e2, hh2⟩ := hh.writeAt_pastEnd hc (ys := (xs.drop i).take n) (by omega)
      (Nat.le_refl _)
    rw [List.take_length, hlen] at hh2
    refine ⟨_, ?_, shows_of_holds hc hh2 B⟩
    unfold RB.pushBackOwnRange
    simp only [ht, he, ok_bind, hcopy, e2, hh2.verifyInvariants_ok, pure_eq_ok]
  · have hb : 0 < s.begin_ := by omega
    have he : s.ensureSpace B n = .ok ⟨0, xs.length, xs ++ s.contents.drop xs.length⟩ := by
      unfold RB.ensureSpace
      simp only [hemp, Bool.false_eq_true, if_false]
      rw [promAdd_of_lt ha (by omega), if_neg (by omega), hh.size_eq hc, promAdd_of_lt ha (by omega),
        assertMsg_of (by simpa using hfit)]
      simpa using hh.slide_eq hc hb hx
    have hh1 : (⟨0, xs.length, xs ++ s.contents.drop xs.length⟩ : RB cap).Holds xs :=
      ⟨⟨[], s.contents.drop xs.length, by simp, rfl⟩, by simp, by simp; omega⟩
    -- what is pushed, if the copy is defined
    have push : ∀ zs : List Byte, zs.length = n →
        RB.copyWithin (xs ++ s.contents.drop xs.length) (s.begin_ + i) (s.begin_ + i + n) xs.length =
          RB.writeAt (xs ++ s.contents.drop xs.length) xs.length zs →
        ∃ t, s.pushBackOwnRange B i n = .ok t ∧ Shows B t (xs ++ zs) := by
      intro zs hz hcopy
      obtain ⟨l, e2, hh2⟩ := hh1.writeAt_pastEnd hc (ys := zs) (by simp; omega) (Nat.le_refl _)
      rw [List.take_length, hz] at hh2
      refine ⟨_, ?_, shows_of_holds hc hh2 B⟩
      unfold RB.pushBackOwnRange
      simp only [ht, he, ok_bind, hcopy, e2, hh2.verifyInvariants_ok, pure_eq_ok]
    have hlen1 : (xs ++ s.contents.drop xs.length).length = cap := by simp; omega
    refine ⟨hb, fun hfar => ?_, fun hnear => ?_, fun h4 h5 => ?_⟩
    · have hl : ((xs.drop i).take n).length = n := by simp; omega
      refine push _ hl ?_
      have src : ((xs ++ s.contents.drop xs.length).drop (s.begin_ + i)).take n = (xs.drop i).take n := by
        rw [List.drop_append, List.drop_eq_nil_of_le (by omega), List.nil_append, List.drop_drop,
          show xs.length + (s.begin_ + i - xs.length) = s.begin_ + i by omega, slice]
      unfold RB.copyWithin
      rw [if_neg (by omega), if_neg (by omega), Nat.add_sub_cancel_left,
        RB.copyLoop_ok _ _ _ _ (by omega) (by omega), src, RB.writeAt_ok _ _ _ (by omega), hl]
    · have hl : ((xs.drop (s.begin_ + i)).take n).length = n := by simp; omega
      refine push _ hl ?_
      have src : ((xs ++ s.contents.drop xs.length).drop (s.begin_ + i)).take n =
          (xs.drop (s.begin_ + i)).take n := by
        rw [List.drop_append_of_le_length (by omega), List.take_append_of_le_length (by simp; omega)]
      unfold RB.copyWithin
      rw [if_neg (by omega), if_neg (by omega), Nat.add_sub_cancel_left,
        RB.copyLoop_behind _ _ _ _ (by omega) (by omega), src, RB.writeAt_ok _ _ _ (by omega), hl]
    · unfold RB.pushBackOwnRange
      simp only [ht, he, ok_bind]
      unfold RB.copyWithin
      rw [if_neg (by omega), if_pos (by omega)]
      rfl

/-! ### Examples -/

/-- 4 5 stand at the places 3 and 4 of 5; pushing 6 lets them move to the front. -/
example : ∃ s t : RB 5, runCalls Sample.dbg (RB.new 5) [.pushRange [1, 2, 3, 4, 5], .popFront 3] =
    .ok (s, [.unit, .elem 1]) ∧ s.begin_ = 3 ∧ s.pushBackRange Sample.dbg [6] = .ok t ∧ t.begin_ = 0 := by
  obtain ⟨s, t, h1, h2, h3, h4⟩ := C85_push_moves (B := Sample.dbg) (cap := 5) ⟨by decide, by decide⟩
    [.pushRange [1, 2, 3, 4, 5], .popFront 3] [4, 5] [6] [.unit, .elem 1] (by decide) (by decide) (by decide)
  obtain ⟨s', e, hp, hq, _⟩ := C85_place (B := Sample.dbg) (cap := 5) ⟨by decide, by decide⟩
    [.pushRange [1, 2, 3, 4, 5], .popFront 3] [4, 5] [.unit, .elem 1] (by decide)
  rw [h1] at e
  cases e
  have hp' : s.begin_ = 3 := by rw [hp]; decide
  have hq' : s.pastEnd = 5 := by rw [hq]; decide
  exact ⟨s, t, h1, hp', h2, (h4 (by rw [hq']; decide)).1⟩

example := C85_stable (B := Sample.dbg) (cap := 7) ⟨by decide, by decide⟩ [.pushRange [1, 2, 3]]
  [.popFront 1, .pushBack 4, .erase 0 1, .pushRange [5, 6]] [1, 2, 3] [3, 4, 5, 6] [.unit]
  [.elem 1, .unit, .pos 0, .unit] (by decide) (by decide)
  (by intro d hd; simp at hd; rcases hd with rfl | rfl | rfl | rfl <;> trivial)
  (by simp [NeverEmpty, BufCall.spec])

example := C85_from_empty (B := Sample.dbg) (cap := 7) ⟨by decide, by decide⟩
  [.pushRange [1, 2, 3, 4, 5, 6], .popFront 6] [.pushRange [1, 2, 3]]
  [.popFront 1, .pushBack 4, .erase 0 1, .pushRange [5, 6]] [1, 2, 3] [3, 4, 5, 6] [.unit, .elem 1] [.unit]
  [.elem 1, .unit, .pos 0, .unit] (by decide) (by decide) (by decide)
  (by intro d hd; simp at hd; rcases hd with rfl | rfl | rfl | rfl | rfl <;> trivial)
  (by simp [NeverEmpty, BufCall.spec]) (by decide)

/-- An index 256 too large is not noticed by `at` when `size_type` has 8 bits. -/
example : ∃ s : RB 5, runCalls Sample.dbg (RB.new 5) [.pushRange [1, 2, 3]] = .ok (s, [.unit]) ∧
    s.at_ Sample.dbg 257 = .ok 2 := by
  obtain ⟨s, e, h1, h2, _⟩ := C85_at (B := Sample.dbg) (cap := 5) ⟨by decide, by decide⟩
    [.pushRange [1, 2, 3]] [1, 2, 3] [.unit] (by decide)
  exact ⟨s, e, by rw [show 257 = 1 + 2 ^ leastBits 5 by decide, h2]; exact h1 1 2 (by decide)⟩

/-- All four cases of `C53_range`. -/
example : ∃ (s1 t1 : RB 8) (s2 t2 : RB 8) (s3 t3 : RB 8) (s4 : RB 8),
    runCalls Sample.dbg (RB.new 8) [.pushRange [1, 2, 3]] = .ok (s1, [.unit]) ∧
    s1.pushBackOwnRange Sample.dbg 1 2 = .ok t1 ∧ Shows Sample.dbg t1 [1, 2, 3, 2, 3] ∧
    runCalls Sample.dbg (RB.new 8) [.pushRange [1, 2, 3, 4, 5, 6, 7, 8], .popFront 6] = .ok (s2, [.unit, .elem 1]) ∧
    s2.pushBackOwnRange Sample.dbg 0 2 = .ok t2 ∧ Shows Sample.dbg t2 [7, 8, 7, 8] ∧
    runCalls Sample.dbg (RB.new 8) [.pushRange [1, 2, 3, 4, 5, 6, 7, 8], .popFront 2] = .ok (s3, [.unit, .elem 1]) ∧
    s3.pushBackOwnRange Sample.dbg 0 2 = .ok t3 ∧ Shows Sample.dbg t3 [3, 4, 5, 6, 7, 8, 5, 6] ∧
    runCalls Sample.dbg (RB.new 8) [.pushRange [1, 2, 3, 4, 5, 6, 7, 8], .popFront 3] = .ok (s4, [.unit, .elem 1]) ∧
    s4.pushBackOwnRange Sample.dbg 1 2 = .error .ub := by
  have a : Arith Sample.dbg 8 := ⟨by decide, by decide⟩
  obtain ⟨s1, e1, h1, _⟩ := C53_range a [.pushRange [1, 2, 3]] [1, 2, 3] [.unit] (by decide) 1 2 (by decide)
    (by decide) (by decide)
  obtain ⟨s2, e2, _, h2⟩ := C53_range a [.pushRange [1, 2, 3, 4, 5, 6, 7, 8], .popFront 6] [7, 8]
    [.unit, .elem 1] (by decide) 0 2 (by decide) (by decide) (by decide)
  obtain ⟨s3, e3, _, h3⟩ := C53_range a [.pushRange [1, 2, 3, 4, 5, 6, 7, 8], .popFront 2] [3, 4, 5, 6, 7, 8]
    [.unit, .elem 1] (by decide) 0 2 (by decide) (by decide) (by decide)
  obtain ⟨s4, e4, _, h4⟩ := C53_range a [.pushRange [1, 2, 3, 4, 5, 6, 7, 8], .popFront 3] [4, 5, 6, 7, 8]
    [.unit, .elem 1] (by decide) 1 2 (by decide) (by decide) (by decide)
  have p1 : s1.pastEnd = 3 := by
    obtain ⟨s, e, _, hq, _⟩ := C85_place a [.pushRange [1, 2, 3]] [1, 2, 3] [.unit] (by decide)
    rw [e1] at e; cases e; rw [hq]; decide
  have p2 : s2.begin_ = 6 ∧ s2.pastEnd = 8 := by
    obtain ⟨s, e, hp, hq, _⟩ := C85_place a [.pushRange [1, 2, 3, 4, 5, 6, 7, 8], .popFront 6] [7, 8]
      [.unit, .elem 1] (by decide)
    rw [e2] at e; cases e; rw [hp, hq]; decide
  have p3 : s3.begin_ = 2 ∧ s3.pastEnd = 8 := by
    obtain ⟨s, e, hp, hq, _⟩ := C85_place a [.pushRange [1, 2, 3, 4, 5, 6, 7, 8], .popFront 2]
      [3, 4, 5, 6, 7, 8] [.unit, .elem 1] (by decide)
    rw [e3] at e; cases e; rw [hp, hq]; decide
  have p4 : s4.begin_ = 3 ∧ s4.pastEnd = 8 := by
    obtain ⟨s, e, hp, hq, _⟩ := C85_place a [.pushRange [1, 2, 3, 4, 5, 6, 7, 8], .popFront 3]
      [4, 5, 6, 7, 8] [.unit, .elem 1] (by decide)
    rw [e4] at e; cases e; rw [hp, hq]; decide
  obtain ⟨t1, f1, g1⟩ := h1 (by rw [p1]; decide)
  obtain ⟨t2, f2, g2⟩ := (h2 (by rw [p2.2]; decide)).2.1 (by rw [p2.1]; decide)
  obtain ⟨t3, f3, g3⟩ := (h3 (by rw [p3.2]; decide)).2.2.1 (by rw [p3.1]; decide)
  have f4 := (h4 (by rw [p4.2]; decide)).2.2.2 (by rw [p4.1]; decide) (by rw [p4.1]; decide)
  rw [p3.1] at g3
  exact ⟨s1, t1, s2, t2, s3, t3, s4, e1, f1, g1, e2, f2, g2, e3, f3, g3, e4, f4⟩

end TT.Properties
