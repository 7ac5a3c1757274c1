import Verif.Proofs.AnyBuffer
import Verif.Properties.Samples

/-!
# Property about `ReceiveBuffer` with other element types, whose copies may throw: C100
-/

namespace TT.Properties
open GB (Call)

variable {α : Type} {cap : Nat} {B : Build}

/-! ### C100 -/

/-- What is read from `begin()` to `end()`. -/
def elements (b : GB α cap) : List α := (b.contents.drop b.begin_).take (b.pastEnd - b.begin_)

/-- The rules for calls on a buffer with the elements `xs`. -/
def CallFits (cap : Nat) (xs : List α) : Call α → Prop
  | .clear => True
  | .pushBack _ => xs.length + 1 ≤ cap
  | .pushBackRange ys => xs.length + ys.length ≤ cap
  | .popBack n => xs ≠ [] ∧ n ≤ xs.length
  | .popFront n => xs ≠ [] ∧ n ≤ xs.length
  | .erase i j => i < j ∧ j ≤ xs.length
  | .ensureSpace n => xs.length + n ≤ cap

/-- The elements after a call that returned. -/
def afterCall (xs : List α) : Call α → List α
  | .clear => []
  | .pushBack x => xs ++ [x]
  | .pushBackRange ys => xs ++ ys
  | .popBack n => xs.take (xs.length - n)
  | .popFront n => xs.drop n
  | .erase i j => xs.take i ++ xs.drop j
  | .ensureSpace _ => xs

/-- What a call returns. -/
def answerOf (xs : List α) : Call α → Option α
  | .popBack _ => xs.getLast?
  | .popFront _ => xs.head?
  | _ => none

/-- Some elements at the front are lost, overwritten with elements from further back; the number of elements is the same. -/
def FrontOverwritten (xs zs : List α) : Prop :=
  zs = xs ∨ ∃ d k, 0 < d ∧ 0 < k ∧ d + k < xs.length ∧ zs = (xs.drop d).take k ++ xs.drop k

/-- The elements `zs` after a call that threw. -/
def AfterThrow (xs zs : List α) : Call α → Prop
  | .clear => False
  | .pushBack _ => FrontOverwritten xs zs ∨ ∃ y, zs = xs ++ [y]
  | .pushBackRange _ => FrontOverwritten xs zs
  | .popBack _ => zs = xs
  | .popFront _ => zs = xs
  | .erase i j => zs = xs ∨ ∃ k, 0 < i ∧ j + k < xs.length ∧ zs = xs.take i ++ (xs.drop j).take k ++ xs.drop (i + k)
  | .ensureSpace _ => FrontOverwritten xs zs

/-- What happens to the elements in a program: `Accounts xs cs rs zs` if the calls `cs` on a buffer with the elements `xs` end
with the results `rs` (`none` for an exception) and leave the elements `zs`. -/
inductive Accounts : List α → List (Call α × Option Nat) → List (Option (Option α)) → List α → Prop
  | nil {xs : List α} : Accounts xs [] [] xs
  | returned {xs zs : List α} {c : Call α} {k : Option Nat} {cs rs} (h : Accounts (afterCall xs c) cs rs zs) :
      Accounts xs ((c, k) :: cs) (some (answerOf xs c) :: rs) zs
  | threw {xs ys zs : List α} {c : Call α} {k : Nat} {cs rs} (h : AfterThrow xs ys c) (h' : Accounts ys cs rs zs) :
      Accounts xs ((c, some k) :: cs) (none :: rs) zs

/-- Each call keeps the rules in the state in which it is made. -/
def Fitting (B : Build) : GB α cap → List (Call α × Option Nat) → Prop
  | _, [] => True
  | b, (c, k) :: cs => CallFits cap (elements b) c ∧ ∀ s r, GB.call B c ⟨b, k⟩ = .ok (s, r) → Fitting B s.buf cs

theorem elements_eq {b : GB α cap} {xs : List α} (h : b.Holds xs) : elements b = xs := by
  have := h.pe
  apply List.ext_getElem?
  intro i
  simp only [elements, List.getElem?_take, List.getElem?_drop]
  by_cases hi : i < xs.length
  · rw [if_pos (by omega), h.at_ i hi]
  · rw [if_neg (by omega), List.getElem?_eq_none (by omega)]

theorem call_accounts (ha : Arith B cap) {b : GB α cap} {xs : List α} (h : b.Holds xs) {c : Call α} (hf : CallFits cap xs c)
    (k : Option Nat) : ∃ s r, GB.call B c ⟨b, k⟩ = .ok (s, r) ∧
      ((r = some (answerOf xs c) ∧ s.buf.Holds (afterCall xs c)) ∨
        (r = none ∧ k ≠ none ∧ ∃ zs, AfterThrow xs zs c ∧ s.buf.Holds zs)) := by
  have hc := ha.lt64
  cases c with
  | clear => exact ⟨⟨⟨0, 0, b.contents⟩, k⟩, some none, rfl, .inl ⟨rfl, ⟨rfl, h.len, by simp, by simp [afterCall]⟩⟩⟩
  | pushBack x =>
    obtain ⟨s, r, h1, h2⟩ := GB.pushBack_ok ha (s := ⟨b, k⟩) (x := x) h hf
    rcases h2 with ⟨rfl, h3⟩ | ⟨rfl, h3, h4⟩
    · exact ⟨s, some none, GB.bind_some h1, .inl ⟨rfl, h3⟩⟩
    · refine ⟨s, none, GB.bind_none h1, .inr ⟨rfl, h3, ?_⟩⟩
      rcases h4 with ⟨zs, h5, _, h6⟩ | ⟨y, h5⟩
      · exact ⟨zs, .inl h5, h6⟩
      · exact ⟨_, .inr ⟨y, rfl⟩, h5⟩
  | pushBackRange ys =>
    obtain ⟨s, r, h1, h2⟩ := GB.pushBackRange_ok ha (s := ⟨b, k⟩) (ys := ys) h hf
    rcases h2 with ⟨rfl, h3⟩ | ⟨rfl, h3, zs, h4, _, h5⟩
    · exact ⟨s, some none, GB.bind_some h1, .inl ⟨rfl, h3⟩⟩
    · exact ⟨s, none, GB.bind_none h1, .inr ⟨rfl, h3, zs, h4, h5⟩⟩
  | popBack n =>
    obtain ⟨v, hv⟩ : ∃ v, xs.getLast? = some v := by
      cases hg : xs.getLast? with
      | some v => exact ⟨v, rfl⟩
      | none => exact (hf.1 (List.getLast?_eq_none_iff.mp hg)).elim
    obtain ⟨s, r, h1, _, h2⟩ := GB.popBack_ok (B := B) hc (s := ⟨b, k⟩) h hv hf.2
    rcases h2 with ⟨rfl, h3⟩ | ⟨rfl, h3, rfl⟩
    · exact ⟨s, some (some v), GB.bind_some h1, .inl ⟨by rw [answerOf, hv], h3⟩⟩
    · exact ⟨_, none, GB.bind_none h1, .inr ⟨rfl, h3, xs, rfl, h⟩⟩
  | popFront n =>
    obtain ⟨v, hv⟩ : ∃ v, xs.head? = some v := by
      cases hg : xs.head? with
      | some v => exact ⟨v, rfl⟩
      | none => exact (hf.1 (List.head?_eq_none_iff.mp hg)).elim
    obtain ⟨s, r, h1, _, h2⟩ := GB.popFront_ok (B := B) hc (s := ⟨b, k⟩) h hv hf.2
    rcases h2 with ⟨rfl, h3⟩ | ⟨rfl, h3, rfl⟩
    · exact ⟨s, some (some v), GB.bind_some h1, .inl ⟨by rw [answerOf, hv], h3⟩⟩
    · exact ⟨_, none, GB.bind_none h1, .inr ⟨rfl, h3, xs, rfl, h⟩⟩
  | erase i j =>
    obtain ⟨s, r, h1, h2⟩ := GB.erase_ok (B := B) hc (s := ⟨b, k⟩) h hf.1 hf.2
    rcases h2 with ⟨rfl, h3⟩ | ⟨rfl, h3, m, h4, h5, h6⟩
    · refine ⟨s, some none, ?_, .inl ⟨rfl, h3⟩⟩
      unfold GB.call
      simp only [GB.this_bind]
      exact GB.bind_some h1
    · refine ⟨s, none, ?_, .inr ⟨rfl, h3, _, ?_, h6⟩⟩
      · unfold GB.call
        simp only [GB.this_bind]
        exact GB.bind_none h1
      · by_cases hm : m = 0
        · subst hm
          exact .inl (by simp)
        · exact .inr ⟨m, by omega, by omega, rfl⟩
  | ensureSpace n =>
    obtain ⟨s, r, h1, h2⟩ := GB.ensureSpace_ok ha (s := ⟨b, k⟩) (n := n) h hf
    rcases h2 with ⟨rfl, h3, _⟩ | ⟨rfl, h3, _, zs, h4, h5⟩
    · exact ⟨s, some none, GB.bind_some h1, .inl ⟨rfl, h3⟩⟩
    · exact ⟨s, none, GB.bind_none h1, .inr ⟨rfl, h3, zs, h4, h5⟩⟩

theorem program_accounts (ha : Arith B cap) : ∀ {cs : List (Call α × Option Nat)} {b : GB α cap} {xs : List α}, b.Holds xs →
    Fitting B b cs → ∃ b' rs zs, GB.program B b cs = .ok (b', rs) ∧ b'.Holds zs ∧ Accounts xs cs rs zs := by
  intro cs
  induction cs with
  | nil => intro b xs h _; exact ⟨b, [], xs, rfl, h, .nil⟩
  | cons c cs ih =>
    obtain ⟨c, k⟩ := c
    intro b xs h hf
    rw [Fitting, elements_eq h] at hf
    obtain ⟨s, r, h1, h2⟩ := call_accounts ha h hf.1 k
    rcases h2 with ⟨rfl, h3⟩ | ⟨rfl, h3, ys, h4, h5⟩
    · obtain ⟨b', rs, zs, k1, k2, k3⟩ := ih h3 (hf.2 _ _ h1)
      exact ⟨b', _, zs, by simp [GB.program, h1, k1], k2, .returned k3⟩
    · obtain ⟨b', rs, zs, k1, k2, k3⟩ := ih h5 (hf.2 _ _ h1)
      obtain ⟨k, rfl⟩ := Option.ne_none_iff_exists'.mp h3
      exact ⟨b', _, zs, by simp [GB.program, h1, k1], k2, .threw h4 k3⟩

/-- C100, any element type, any exceptions. A program that keeps the rules never gets to undefined behaviour or a failed
assertion, whatever copies of elements throw, and `Accounts` tells what its calls return and what the buffer holds: each call
that returns does what it does with a list, and each one that throws leaves a valid buffer. -/
theorem C100_program (ha : Arith B cap) (d : α) {cs : List (Call α × Option Nat)} (h : Fitting B (GB.new cap d) cs) :
    ∃ b' rs, GB.program B (GB.new cap d) cs = .ok (b', rs) ∧ Accounts [] cs rs (elements b') := by
  obtain ⟨b', rs, zs, h1, h2, h3⟩ := program_accounts ha (GB.holds_new cap d) h
  exact ⟨b', rs, h1, by rwa [elements_eq h2]⟩

/-- What the calls return if nothing throws. -/
def answersOf : List α → List (Call α) → List (Option α)
  | _, [] => []
  | xs, c :: cs => answerOf xs c :: answersOf (afterCall xs c) cs

theorem accounts_quiet : ∀ {cs : List (Call α)} {xs zs : List α} {rs : List (Option (Option α))},
    Accounts xs (cs.map fun c => (c, none)) rs zs → zs = cs.foldl afterCall xs ∧ rs = (answersOf xs cs).map some := by
  intro cs
  induction cs with
  | nil => intro xs zs rs h; cases h; exact ⟨rfl, rfl⟩
  | cons c cs ih =>
    intro xs zs rs h
    cases h with
    | returned h => obtain ⟨h1, h2⟩ := ih h; exact ⟨h1, by simp [answersOf, h2]⟩

/-- C100, without exceptions the buffer is a list, for any element type. -/
theorem C100_list (ha : Arith B cap) (d : α) {cs : List (Call α)}
    (h : Fitting B (GB.new cap d) (cs.map fun c => (c, none))) :
    ∃ b', GB.program B (GB.new cap d) (cs.map fun c => (c, none)) = .ok (b', (answersOf [] cs).map some) ∧
      elements b' = cs.foldl afterCall [] := by
  obtain ⟨b', rs, h1, h2⟩ := C100_program ha d h
  obtain ⟨h3, h4⟩ := accounts_quiet h2
  exact ⟨b', by rw [h1, h4], h3⟩

theorem fitting_reach (ha : Arith B cap) {d : α} {cs : List (Call α × Option Nat)} (h : Fitting B (GB.new cap d) cs)
    {b : GB α cap} {rs : List (Option (Option α))} (hp : GB.program B (GB.new cap d) cs = .ok (b, rs)) :
    b.Holds (elements b) := by
  obtain ⟨b', rs', zs, h1, h2, _⟩ := program_accounts ha (GB.holds_new cap d) h
  rw [hp] at h1
  cases h1
  rwa [elements_eq h2]

/-- C100, reading. `operator[]` reads the elements. -/
theorem C100_read (ha : Arith B cap) {d : α} {cs : List (Call α × Option Nat)} (h : Fitting B (GB.new cap d) cs)
    {b : GB α cap} {rs : List (Option (Option α))} (hp : GB.program B (GB.new cap d) cs = .ok (b, rs)) :
    b.size = (elements b).length ∧ b.empty = (elements b).isEmpty ∧
      ∀ i v, (elements b)[i]? = some v → b.get B i = .ok v := by
  have hh := fitting_reach ha h hp
  exact ⟨hh.size_eq ha.lt64, hh.empty_eq, fun i v hv => hh.get_ok ha.lt64 hv⟩

/-- C100, how to append safely. After `ensure_space(n)` returned, appending a range of at most `n` elements either succeeds or
throws and leaves the elements as they were. -/
theorem C100_reserve (ha : Arith B cap) {d : α} {cs : List (Call α × Option Nat)} (h : Fitting B (GB.new cap d) cs)
    {b : GB α cap} {rs : List (Option (Option α))} (hp : GB.program B (GB.new cap d) cs = .ok (b, rs)) {n : Nat}
    (hn : (elements b).length + n ≤ cap) {k k' : Option Nat} {s : GB.State α cap}
    (h1 : GB.call B (.ensureSpace n) ⟨b, k⟩ = .ok (s, some none)) {ys : List α} (hy : ys.length ≤ n) :
    ∃ s' r, GB.call B (.pushBackRange ys) ⟨s.buf, k'⟩ = .ok (s', r) ∧
      ((r = some none ∧ elements s'.buf = elements b ++ ys) ∨ (r = none ∧ elements s'.buf = elements b)) := by
  have hh := fitting_reach ha h hp
  obtain ⟨s1, r1, e1, e2⟩ := GB.ensureSpace_ok ha (s := ⟨b, k⟩) (n := n) hh hn
  rcases e2 with ⟨rfl, h3, h4, _⟩ | ⟨rfl, _⟩
  · have : GB.call B (.ensureSpace n) ⟨b, k⟩ = .ok (s1, some none) := GB.bind_some e1
    rw [this] at h1
    cases h1
    obtain ⟨s2, r2, e3, e4⟩ := GB.pushBackRange_ok ha (s := ⟨s.buf, k'⟩) (ys := ys) h3 (by omega)
    rcases e4 with ⟨rfl, h5⟩ | ⟨rfl, _, zs, _, h5, h6⟩
    · exact ⟨s2, some none, GB.bind_some e3, .inl ⟨rfl, elements_eq h5⟩⟩
    · refine ⟨s2, none, GB.bind_none e3, .inr ⟨rfl, ?_⟩⟩
      rw [elements_eq h6, h5 (by simp only; omega)]
  · have : GB.call B (.ensureSpace n) ⟨b, k⟩ = .ok (s1, none) := GB.bind_none e1
    rw [this] at h1
    cases h1

/-- C100, assignment. It copies the elements; if a copy throws, the target keeps its number of elements, and some of them are
overwritten with elements of the source. -/
theorem C100_assign (ha : Arith B cap) {d d' : α} {cs cs' : List (Call α × Option Nat)} (h : Fitting B (GB.new cap d) cs)
    {b b' : GB α cap} {rs rs' : List (Option (Option α))} (hp : GB.program B (GB.new cap d) cs = .ok (b, rs))
    (h' : Fitting B (GB.new cap d') cs') (hp' : GB.program B (GB.new cap d') cs' = .ok (b', rs')) (k : Option Nat) :
    ∃ s r, GB.assign b' ⟨b, k⟩ = .ok (s, r) ∧
      ((r = some () ∧ elements s.buf = elements b') ∨
        (r = none ∧ k ≠ none ∧ ∃ e i, i < (elements b').length ∧
          elements s.buf = (((elements b').take i).drop e).take (elements b).length ++ (elements b).drop (i - e))) := by
  obtain ⟨s, r, h1, h2⟩ := GB.assign_ok ha.lt64 (s := ⟨b, k⟩) (fitting_reach ha h hp) (fitting_reach ha h' hp')
  refine ⟨s, r, h1, ?_⟩
  rcases h2 with ⟨rfl, h3⟩ | ⟨rfl, h3, e, i, h4, h5⟩
  · exact .inl ⟨rfl, elements_eq h3⟩
  · exact .inr ⟨rfl, h3, e, i, h4, elements_eq h5⟩

/-- C100, popped elements live on. Removing elements from the ends or all of them destroys none: the array keeps them until
others are stored in their places. -/
theorem C100_retained (ha : Arith B cap) {d : α} {cs : List (Call α × Option Nat)} (h : Fitting B (GB.new cap d) cs)
    {b : GB α cap} {rs : List (Option (Option α))} (hp : GB.program B (GB.new cap d) cs = .ok (b, rs)) {c : Call α}
    (hc : c = .clear ∨ ∃ n, c = .popFront n ∨ c = .popBack n) (hf : CallFits cap (elements b) c) (k : Option Nat) :
    ∃ s r, GB.call B c ⟨b, k⟩ = .ok (s, r) ∧ s.buf.contents = b.contents := by
  have hh := fitting_reach ha h hp
  rcases hc with rfl | ⟨n, rfl | rfl⟩
  · exact ⟨_, _, rfl, rfl⟩
  · obtain ⟨v, hv⟩ : ∃ v, (elements b).head? = some v := by
      cases hg : (elements b).head? with
      | some v => exact ⟨v, rfl⟩
      | none => exact (hf.1 (List.head?_eq_none_iff.mp hg)).elim
    obtain ⟨s, r, h1, h2, h3⟩ := GB.popFront_ok (B := B) ha.lt64 (s := ⟨b, k⟩) hh hv hf.2
    rcases h3 with ⟨rfl, _⟩ | ⟨rfl, _⟩
    · exact ⟨s, _, GB.bind_some h1, h2⟩
    · exact ⟨s, _, GB.bind_none h1, h2⟩
  · obtain ⟨v, hv⟩ : ∃ v, (elements b).getLast? = some v := by
      cases hg : (elements b).getLast? with
      | some v => exact ⟨v, rfl⟩
      | none => exact (hf.1 (List.getLast?_eq_none_iff.mp hg)).elim
    obtain ⟨s, r, h1, h2, h3⟩ := GB.popBack_ok (B := B) ha.lt64 (s := ⟨b, k⟩) hh hv hf.2
    rcases h3 with ⟨rfl, _⟩ | ⟨rfl, _⟩
    · exact ⟨s, _, GB.bind_some h1, h2⟩
    · exact ⟨s, _, GB.bind_none h1, h2⟩

/-- Whether calls keep the rules, and what they lead to. -/
def fittingCheck (B : Build) : GB α cap → List (Call α × Option Nat) → Bool
  | _, [] => true
  | b, (c, k) :: cs =>
    (match c with
      | .clear => true
      | .pushBack _ => decide ((elements b).length + 1 ≤ cap)
      | .pushBackRange ys => decide ((elements b).length + ys.length ≤ cap)
      | .popBack n => !(elements b).isEmpty && decide (n ≤ (elements b).length)
      | .popFront n => !(elements b).isEmpty && decide (n ≤ (elements b).length)
      | .erase i j => decide (i < j) && decide (j ≤ (elements b).length)
      | .ensureSpace n => decide ((elements b).length + n ≤ cap)) &&
    match GB.call B c ⟨b, k⟩ with
    | .ok (s, _) => fittingCheck B s.buf cs
    | .error _ => true

theorem fittingCheck_ok : ∀ {cs : List (Call α × Option Nat)} {b : GB α cap}, fittingCheck B b cs = true → Fitting B b cs := by
  intro cs
  induction cs with
  | nil => intro b _; trivial
  | cons c cs ih =>
    obtain ⟨c, k⟩ := c
    intro b h
    simp only [fittingCheck, Bool.and_eq_true] at h
    refine ⟨?_, fun s r e => ih ?_⟩
    · have h1 := h.1
      cases c <;> simp_all [CallFits]
    · have h2 := h.2
      rw [e] at h2
      exact h2

/-- C100, `push_back` of one element has no strong guarantee: if the assignment throws, the buffer has one more element, here
one that was removed long ago. A range with one element is appended safely. -/
theorem C100_push_back_witness :
    Fitting (cap := 4) ⟨true, 32⟩ (GB.new 4 0)
      [(.pushBackRange [7, 8], none), (.popBack 1, none), (.pushBack 9, some 0)] ∧
    (GB.program (cap := 4) ⟨true, 32⟩ (GB.new 4 0)
      [(.pushBackRange [7, 8], none), (.popBack 1, none), (.pushBack 9, some 0)]).map
        (fun p => (elements p.1, p.2)) = .ok ([7, 8], [some none, some (some 8), none]) ∧
    (GB.program (cap := 4) ⟨true, 32⟩ (GB.new 4 0)
      [(.pushBackRange [7, 8], none), (.popBack 1, none), (.pushBackRange [9], some 0)]).map
        (fun p => (elements p.1, p.2)) = .ok ([7], [some none, some (some 8), none]) := by
  refine ⟨fittingCheck_ok (by decide +kernel), by decide +kernel, by decide +kernel⟩

/-- C100, appending a range has no strong guarantee if elements have to be moved to make room: an element is lost and another
one is there twice. -/
theorem C100_range_witness :
    Fitting (cap := 4) ⟨true, 32⟩ (GB.new 4 0)
      [(.pushBackRange [6, 7, 8, 9], none), (.popFront 1, none), (.pushBackRange [5], some 2)] ∧
    (GB.program (cap := 4) ⟨true, 32⟩ (GB.new 4 0)
      [(.pushBackRange [6, 7, 8, 9], none), (.popFront 1, none), (.pushBackRange [5], some 2)]).map
        (fun p => (elements p.1, p.2)) = .ok ([8, 8, 9], [some none, some (some 6), none]) := by
  refine ⟨fittingCheck_ok (by decide +kernel), by decide +kernel⟩

/-! The model with bytes is the instance in which nothing throws. -/

/-- A buffer of bytes. -/
def ofRB (b : RB cap) : GB Byte cap := ⟨b.begin_, b.pastEnd, b.contents⟩

/-- What code does on a buffer of bytes if nothing throws. -/
def Same100 {β : Type} (m : GB.Code Byte cap β) (b : RB cap) (r : Res (RB cap × β)) : Prop :=
  m ⟨ofRB b, none⟩ = r.map fun p => (⟨ofRB p.1, none⟩, some p.2)

theorem bind_fault {β γ : Type} {m : GB.Code α cap β} {k : β → GB.Code α cap γ} {s : GB.State α cap} {f : Fault}
    (h : m s = .error f) : (m >>= k) s = .error f := by
  simp only [bind, h]

theorem Same100.step {β γ : Type} {m : GB.Code Byte cap β} {b : RB cap} {r : Res (RB cap × β)} {k : β → GB.Code Byte cap γ}
    {t : Res (RB cap × γ)} (h : Same100 m b r) (he : ∀ f, r = .error f → t = .error f)
    (ho : ∀ b' v, r = .ok (b', v) → Same100 (k v) b' t) : Same100 (m >>= k) b t := by
  unfold Same100 at *
  cases r with
  | error f => rw [he f rfl]; exact bind_fault h
  | ok p => rw [GB.bind_some h]; exact ho p.1 p.2 rfl

theorem Same100.this {γ : Type} {b : RB cap} {k : GB Byte cap → GB.Code Byte cap γ} {t : Res (RB cap × γ)}
    (h : Same100 (k (ofRB b)) b t) : Same100 (GB.this >>= k) b t := h

theorem Same100.change {γ : Type} {b b' : RB cap} {k : Unit → GB.Code Byte cap γ} {t : Res (RB cap × γ)} {g : GB Byte cap}
    (hg : g = ofRB b') (h : Same100 (k ()) b' t) : Same100 (GB.change g >>= k) b t := by
  subst hg
  exact h

theorem Same100.copy {γ : Type} {b : RB cap} {k : Unit → GB.Code Byte cap γ} {t : Res (RB cap × γ)}
    (h : Same100 (k ()) b t) : Same100 (GB.copyElement >>= k) b t := h

theorem Same100.pure {β : Type} {b : RB cap} {v : β} : Same100 (pure v) b (.ok (b, v)) := rfl

theorem Same100.lift {β γ : Type} {b : RB cap} {r : Res β} {k : β → GB.Code Byte cap γ} {q : β → Res (RB cap × γ)}
    (h : ∀ v, r = .ok v → Same100 (k v) b (q v)) : Same100 (GB.lift r >>= k) b (r >>= q) := by
  cases r with
  | error f => exact bind_fault rfl
  | ok v => exact h v rfl

/-- Steps that give no value. -/
def unit100 (r : Res (RB cap)) : Res (RB cap × Unit) := r.map fun b => (b, ())

theorem Same100.next {γ : Type} {m : GB.Code Byte cap Unit} {b : RB cap} {r : Res (RB cap)} {k : Unit → GB.Code Byte cap γ}
    {q : RB cap → Res (RB cap × γ)} (h : Same100 m b (unit100 r)) (h' : ∀ b', r = .ok b' → Same100 (k ()) b' (q b')) :
    Same100 (m >>= k) b (r >>= q) := by
  cases r with
  | error f => exact bind_fault h
  | ok p => 
    refine h.step (by intro f h; cases h) ?_
    intro b' v hv
    cases hv
    exact h' p rfl

theorem unit_bind {β : Type} (r : Res β) (q : β → Res (RB cap)) : unit100 (r >>= q) = r >>= fun v => unit100 (q v) := by
  cases r <;> rfl

theorem rawGet_eq (l : List Byte) (i : Nat) : GB.rawGet l i = RB.rawGet l i := by
  unfold GB.rawGet RB.rawGet
  cases l[i]? <;> rfl

/-- The buffer with another array. -/
def withArray (b : RB cap) (l : List Byte) : RB cap := { b with contents := l }

/-- The result for a step that changes the array. -/
def array100 (b : RB cap) (r : Res (List Byte)) : Res (RB cap) := r.map (withArray b)

theorem same_assignAt (b : RB cap) (i : Nat) (v : Byte) :
    Same100 (GB.assignAt i v) b (unit100 (array100 b (RB.rawSet b.contents i v))) := by
  unfold GB.assignAt RB.rawSet
  refine Same100.this ?_
  by_cases h : i < b.contents.length
  · rw [if_pos h, if_pos (show i < (ofRB b).contents.length from h)]; rfl
  · rw [if_neg h, if_neg (show ¬ i < (ofRB b).contents.length from h)]; rfl

theorem array_bind (b : RB cap) (r : Res (List Byte)) (q : List Byte → Res (List Byte)) :
    array100 b (r >>= q) = array100 b r >>= fun b' => array100 b' (q b'.contents) := by
  cases r with
  | error f => rfl
  | ok l =>
    show (q l).map (withArray b) = (q l).map (withArray (withArray b l))
    rfl

theorem same_copyLoop : ∀ (n : Nat) (b : RB cap) (src dst : Nat),
    Same100 (GB.copyLoop src dst n) b (unit100 (array100 b (RB.copyLoop b.contents src dst n))) := by
  intro n
  induction n with
  | zero => intro b src dst; rfl
  | succ n ih =>
    intro b src dst
    unfold GB.copyLoop RB.copyLoop
    refine Same100.this ?_
    rw [rawGet_eq]
    have : unit100 (array100 b (RB.rawGet b.contents src >>= fun v => RB.rawSet b.contents dst v >>= fun l =>
        RB.copyLoop l (src + 1) (dst + 1) n)) = RB.rawGet b.contents src >>= fun v =>
        array100 b (RB.rawSet b.contents dst v) >>= fun b' => unit100 (array100 b' (RB.copyLoop b'.contents (src + 1) (dst + 1) n)) := by
      cases RB.rawGet b.contents src with
      | error f => rfl
      | ok v =>
        simp only [ok_bind]
        rw [array_bind, unit_bind]
    rw [this]
    refine Same100.lift fun v _ => Same100.next (same_assignAt b dst v) fun b' _ => ih b' _ _

theorem same_writeAt : ∀ (xs : List Byte) (b : RB cap) (i : Nat),
    Same100 (GB.writeAt i xs) b (unit100 (array100 b (RB.writeAt b.contents i xs))) := by
  intro xs
  induction xs with
  | nil => intro b i; rfl
  | cons x xs ih =>
    intro b i
    unfold GB.writeAt RB.writeAt
    rw [array_bind, unit_bind]
    exact Same100.next (same_assignAt b i x) fun b' _ => ih b' _

theorem same_copyWithin (b : RB cap) (f l d : Nat) :
    Same100 (GB.copyWithin f l d) b (unit100 (array100 b (RB.copyWithin b.contents f l d))) := by
  unfold GB.copyWithin RB.copyWithin
  by_cases h1 : l < f
  · rw [if_pos h1, if_pos h1]; rfl
  · rw [if_neg h1, if_neg h1]
    by_cases h2 : f ≤ d ∧ d < l
    · rw [if_pos h2, if_pos h2]; rfl
    · rw [if_neg h2, if_neg h2]
      exact same_copyLoop _ b f d

theorem array_then {γ : Type} (b : RB cap) (r : Res (List Byte)) (q : List Byte → Res γ) :
    (r >>= q) = array100 b r >>= fun b' => q b'.contents := by
  cases r <;> rfl

theorem array_kept {b b' : RB cap} {r : Res (List Byte)} (h : array100 b r = .ok b') :
    b'.begin_ = b.begin_ ∧ b'.pastEnd = b.pastEnd := by
  cases r with
  | error f => cases h
  | ok l => cases h; exact ⟨rfl, rfl⟩

theorem same_slide (b : RB cap) : Same100 GB.slideContentsForward b (unit100 b.slideContentsForward) := by
  unfold GB.slideContentsForward RB.slideContentsForward
  rw [unit_bind, array_then b]
  refine Same100.this (Same100.next (same_copyWithin b _ _ _) fun b' h => ?_)
  have := array_kept h
  refine Same100.this ?_
  simp only [ofRB, GB.size, RB.size, this.1, this.2]
  rfl

theorem same_ensureSpace (b : RB cap) (n : Nat) : Same100 (GB.ensureSpace B n) b (unit100 (b.ensureSpace B n)) := by
  unfold GB.ensureSpace RB.ensureSpace
  refine Same100.this ?_
  refine Same100.change (b' := if b.empty then { b with begin_ := 0, pastEnd := 0 } else b) ?_ ?_
  · have he : (ofRB b).empty = b.empty := rfl
    rw [he]
    cases b.empty <;> rfl
  · have he : (if (ofRB b).empty then { ofRB b with begin_ := 0, pastEnd := 0 } else ofRB b) =
        ofRB (if b.empty then { b with begin_ := 0, pastEnd := 0 } else b) := by
      have he : (ofRB b).empty = b.empty := rfl
      rw [he]
      cases b.empty <;> rfl
    rw [he]
    generalize (if b.empty then ({ b with begin_ := 0, pastEnd := 0 } : RB cap) else b) = b'
    by_cases h : promAdd B cap b'.pastEnd n ≤ cap
    · rw [if_pos h, if_pos (show promAdd B cap (ofRB b').pastEnd n ≤ cap from h)]; rfl
    · rw [if_neg h, if_neg (show ¬ promAdd B cap (ofRB b').pastEnd n ≤ cap from h), unit_bind]
      exact Same100.lift fun _ _ => same_slide b'

theorem same_verify (b : RB cap) : Same100 (GB.verifyInvariants B) b ((b.verifyInvariants B).map fun _ => (b, ())) := by
  unfold GB.verifyInvariants RB.verifyInvariants
  refine Same100.this ?_
  show Same100 (GB.lift (assertMsg B (decide (b.begin_ ≤ b.pastEnd))) >>= fun _ =>
    GB.lift (assertMsg B (decide (b.pastEnd ≤ cap)))) b _
  cases assertMsg B (decide (b.begin_ ≤ b.pastEnd)) with
  | error f => rfl
  | ok u =>
    cases assertMsg B (decide (b.pastEnd ≤ cap)) <;> rfl

theorem same_pushBack (b : RB cap) (x : Byte) : Same100 (GB.pushBack B x) b (unit100 (b.pushBack B x)) := by
  unfold GB.pushBack RB.pushBack
  rw [unit_bind]
  have h1 : Same100 (GB.incrementPastEnd B) b (unit100 (b.incrementPastEnd B)) := by
    unfold GB.incrementPastEnd RB.incrementPastEnd
    rw [unit_bind]
    refine Same100.next (same_ensureSpace b 1) fun b' _ => Same100.this ?_
    refine Same100.change (b' := { b' with pastEnd := trunc cap (b'.pastEnd + 1) }) rfl ?_
    show Same100 (GB.lift (assertMsg B (decide (trunc cap (b'.pastEnd + 1) ≤ cap)))) _ _
    cases h : assertMsg B (decide (trunc cap (b'.pastEnd + 1) ≤ cap)) <;> simp only [h] <;> rfl
  refine Same100.next h1 fun b' _ => Same100.this ?_
  unfold RB.set GB.place
  rw [unit_bind]
  show Same100 (GB.lift (assertMsg B (decide (subT cap b'.size 1 < b'.size)) >>= fun _ =>
    pure (b'.adjustedIndex (subT cap b'.size 1))) >>= fun p => GB.assignAt p x) b' _
  cases assertMsg B (decide (subT cap b'.size 1 < b'.size)) with
  | error f => rfl
  | ok u =>
    simp only [ok_bind]
    refine Same100.lift (r := .ok (b'.adjustedIndex (subT cap b'.size 1)))
      (q := fun p => unit100 (RB.rawSet b'.contents p x >>= fun l => pure { b' with contents := l })) fun v _ => ?_
    have : (RB.rawSet b'.contents v x >>= fun l => (pure { b' with contents := l } : Res (RB cap))) =
        array100 b' (RB.rawSet b'.contents v x) := by cases RB.rawSet b'.contents v x <;> rfl
    rw [this]
    exact same_assignAt b' v x

theorem same_pushBackRange (b : RB cap) (xs : List Byte) :
    Same100 (GB.pushBackRange B xs) b (unit100 (b.pushBackRange B xs)) := by
  unfold GB.pushBackRange RB.pushBackRange
  rw [unit_bind]
  refine Same100.next (same_ensureSpace b _) fun b' _ => Same100.this ?_
  rw [unit_bind, array_then b']
  refine Same100.next (same_writeAt xs b' _) fun b2 h => Same100.this ?_
  have hk := array_kept h
  refine Same100.change (b' := { b2 with pastEnd := trunc cap (b2.pastEnd + xs.length) }) rfl ?_
  have e : (RB.mk b'.begin_ (trunc cap (b'.pastEnd + xs.length)) b2.contents : RB cap) =
      { b2 with pastEnd := trunc cap (b2.pastEnd + xs.length) } := by rw [← hk.1, ← hk.2]
  simp only [e]
  have := same_verify (cap := cap) (B := B) { b2 with pastEnd := trunc cap (b2.pastEnd + xs.length) }
  refine Eq.trans this ?_
  cases RB.verifyInvariants B { b2 with pastEnd := trunc cap (b2.pastEnd + xs.length) } <;> rfl

theorem same_decrement : ∀ (n : Nat) (b : RB cap), Same100 (GB.decrementLoop B n) b (unit100 (RB.popBackLoop B b n)) := by
  intro n
  induction n with
  | zero => intro b; rfl
  | succ n ih =>
    intro b
    unfold GB.decrementLoop RB.popBackLoop RB.decrementPastEnd
    refine Same100.this ?_
    rw [unit_bind, bind_assoc]
    refine Same100.lift fun _ _ => ?_
    exact Same100.change (b' := { b with pastEnd := subT cap b.pastEnd 1 }) rfl (ih _)

theorem same_increment : ∀ (n : Nat) (b : RB cap), Same100 (GB.incrementLoop B n) b (unit100 (RB.popFrontLoop B b n)) := by
  intro n
  induction n with
  | zero => intro b; rfl
  | succ n ih =>
    intro b
    unfold GB.incrementLoop RB.popFrontLoop RB.incrementBegin
    refine Same100.this ?_
    rw [unit_bind, bind_assoc]
    refine Same100.lift fun _ _ => ?_
    exact Same100.change (b' := { b with begin_ := trunc cap (b.begin_ + 1) }) rfl (ih _)

theorem get_ofRB (b : RB cap) (i : Nat) : (ofRB b).get B i = b.get B i := by
  unfold GB.get GB.place RB.get
  show (assertMsg B (decide (i < b.size)) >>= fun _ => _) >>= _ = assertMsg B (decide (i < b.size)) >>= _
  cases assertMsg B (decide (i < b.size)) with
  | error f => rfl
  | ok u => exact rawGet_eq _ _

theorem same_popBack (b : RB cap) (n : Nat) : Same100 (GB.popBack B n) b (b.popBack B n) := by
  unfold GB.popBack RB.popBack
  refine Same100.this ?_
  have : (ofRB b).get B (subT cap (ofRB b).size 1) = b.back B := get_ofRB b _
  rw [this]
  refine Same100.lift fun v _ => ?_
  exact Same100.copy (Same100.next (same_decrement n b) fun b' _ => Same100.pure)

theorem same_popFront (b : RB cap) (n : Nat) : Same100 (GB.popFront B n) b (b.popFront B n) := by
  unfold GB.popFront RB.popFront
  refine Same100.this ?_
  have : (ofRB b).get B 0 = b.front B := get_ofRB b _
  rw [this]
  refine Same100.lift fun v _ => ?_
  exact Same100.copy (Same100.next (same_increment n b) fun b' _ => Same100.pure)

theorem same_erase (b : RB cap) (first last : Nat) : Same100 (GB.erase B first last) b (b.erase B first last) := by
  unfold GB.erase RB.erase
  refine Same100.this ?_
  refine Same100.lift fun _ _ => ?_
  show Same100 (if subT cap (subT cap last b.begin_) (subT cap first b.begin_) = 0 then _ else _) b _
  by_cases h0 : subT cap (subT cap last b.begin_) (subT cap first b.begin_) = 0
  · rw [if_pos h0, if_pos h0]; exact Same100.pure
  · rw [if_neg h0, if_neg h0]
    refine Same100.lift fun _ _ => ?_
    by_cases h1 : subT cap first b.begin_ = 0
    · rw [if_pos h1, if_pos (show subT cap first (ofRB b).begin_ = 0 from h1)]
      have := same_popFront (B := B) b (subT cap (subT cap last b.begin_) (subT cap first b.begin_))
      refine this.step ?_ ?_
      · intro f h; rw [h]; rfl
      · intro b' v h; rw [h]; rfl
    · rw [if_neg h1, if_neg (show ¬ subT cap first (ofRB b).begin_ = 0 from h1)]
      by_cases h2 : last = b.pastEnd
      · rw [if_pos h2, if_pos (show last = (ofRB b).pastEnd from h2)]
        have := same_popBack (B := B) b (subT cap (subT cap last b.begin_) (subT cap first b.begin_))
        refine this.step ?_ ?_
        · intro f h; rw [h]; rfl
        · intro b' v h; rw [h]; rfl
      · rw [if_neg h2, if_neg (show ¬ last = (ofRB b).pastEnd from h2)]
        refine Same100.lift fun _ _ => ?_
        refine Same100.lift fun _ _ => ?_
        rw [array_then b]
        refine Same100.next (same_copyWithin b _ _ _) fun b' h => ?_
        have hk := array_kept h
        have e : (RB.mk b.begin_ b.pastEnd b'.contents : RB cap) = b' := by rw [← hk.1, ← hk.2]
        simp only [e]
        exact Same100.next (same_decrement _ b') fun b' _ => rfl

/-- The same call in the model with bytes. -/
def callRB (B : Build) (b : RB cap) : Call Byte → Res (RB cap × Option Byte)
  | .clear => .ok (b.clear, none)
  | .pushBack x => do let b ← b.pushBack B x; return (b, none)
  | .pushBackRange xs => do let b ← b.pushBackRange B xs; return (b, none)
  | .popBack n => do let (b, v) ← b.popBack B n; return (b, some v)
  | .popFront n => do let (b, v) ← b.popFront B n; return (b, some v)
  | .erase i j => do let (b, _) ← b.erase B (b.begin_ + i) (b.begin_ + j); return (b, none)
  | .ensureSpace n => do let b ← b.ensureSpace B n; return (b, none)

/-- C100, relation to the other properties. For bytes, whose copies do not throw, this model is the one used everywhere else, in
every state and for calls that break the rules too. -/
theorem C100_model (b : RB cap) (c : Call Byte) :
    GB.call B c ⟨ofRB b, none⟩ = (callRB B b c).map fun p => (⟨ofRB p.1, none⟩, some p.2) := by
  show Same100 (GB.call B c) b (callRB B b c)
  cases c with
  | clear => rfl
  | pushBack x => exact Same100.next (same_pushBack b x) fun b' _ => Same100.pure
  | pushBackRange xs => exact Same100.next (same_pushBackRange b xs) fun b' _ => Same100.pure
  | popBack n =>
    refine (same_popBack b n).step ?_ ?_
    · intro f h; simp only [callRB, h]; rfl
    · intro b' v h; simp only [callRB, h]; exact Same100.pure
  | popFront n =>
    refine (same_popFront b n).step ?_ ?_
    · intro f h; simp only [callRB, h]; rfl
    · intro b' v h; simp only [callRB, h]; exact Same100.pure
  | erase i j =>
    refine Same100.this ((same_erase b (b.begin_ + i) (b.begin_ + j)).step ?_ ?_)
    · intro f h; simp only [callRB, h]; rfl
    · intro b' v h; simp only [callRB, h]; exact Same100.pure
  | ensureSpace n => exact Same100.next (same_ensureSpace b n) fun b' _ => Same100.pure

/-! ### Concrete instances -/

/-- A build with assertions. -/
private def build100 : Build := ⟨true, 32⟩

private theorem arith100 : Arith build100 4 := ⟨by decide, by decide⟩

/-- Strings in a buffer; the copies in two of the calls throw. -/
private def calls100 : List (Call String × Option Nat) :=
  [(.pushBackRange ["a", "b", "c"], none), (.popFront 1, none), (.pushBackRange ["d", "e"], some 1),
    (.pushBackRange ["f"], some 0), (.erase 0 1, none), (.ensureSpace 2, none), (.popBack 1, some 0), (.clear, none)]

private theorem fitting100 : Fitting build100 (GB.new 4 "") calls100 := fittingCheck_ok (by decide +kernel)

example := C100_program arith100 "" fitting100

example : (GB.program build100 (GB.new 4 "") (calls100.take 7)).map (fun p => (elements p.1, p.2)) =
    .ok (["c"], [some none, some (some "a"), none, none, some none, some none, none]) := by decide +kernel

example := C100_list arith100 "" (cs := [.pushBackRange ["a", "b", "c"], .erase 1 2, .pushBack "d", .popFront 2])
  (fittingCheck_ok (by decide +kernel))

/-- The buffer after the first seven calls. -/
private def buf100 : GB String 4 := ⟨0, 1, ["c", "b", "c", ""]⟩

private theorem prefix100 : Fitting build100 (GB.new 4 "") (calls100.take 7) := fittingCheck_ok (by decide +kernel)

private theorem reached100 : GB.program build100 (GB.new 4 "") (calls100.take 7) =
    .ok (buf100, [some none, some (some "a"), none, none, some none, some none, none]) := by decide +kernel

example : buf100.size = 1 ∧ buf100.empty = false ∧ buf100.get build100 0 = .ok "c" :=
  have h := C100_read arith100 prefix100 reached100
  ⟨h.1, h.2.1, h.2.2 0 "c" (by decide)⟩

example := C100_reserve arith100 prefix100 reached100 (n := 3) (k := some 5) (k' := some 1)
  (s := ⟨buf100, some 5⟩) (by decide) (by decide +kernel) (ys := ["x", "y"]) (by decide)

example : (GB.call build100 (.pushBackRange ["x", "y"]) ⟨buf100, some 1⟩).map (fun p => (elements p.1.buf, p.2)) =
    .ok (["c"], none) := by decide +kernel

example := C100_assign arith100 prefix100 reached100 (d' := "z") (cs' := [(.pushBackRange ["p", "q"], none)])
  (b' := ⟨0, 2, ["p", "q", "z", "z"]⟩) (rs' := [some none]) (fittingCheck_ok (by decide +kernel)) (by decide +kernel) (some 1)

example := C100_retained arith100 prefix100 reached100 (c := .popFront 1) (.inr ⟨1, .inl rfl⟩) ⟨by decide, by decide⟩ none

end TT.Properties
