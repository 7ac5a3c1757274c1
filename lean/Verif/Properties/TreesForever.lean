import Verif.Properties.TreesAny
import Verif.Properties.Forever

/-!
# Property C131: trees of programs that run forever
-/

namespace TT.Properties
open Spec

/-- A program that runs forever: after `clock t` calls at the moment `t`. -/
structure LiveStation where
  C : Collection
  B : Build
  user : UserCode
  fuel : Nat
  calls : Nat → Op
  run : Execution C B user fuel calls
  clock : Nat → Nat

/-- The program at some moment. -/
def LiveStation.now (x : LiveStation) (t : Nat) : Station :=
  ⟨x.C, x.B, x.user, x.fuel, firstCalls x.calls (x.clock t), x.run.state (x.clock t), x.run.observed (x.clock t)⟩

/-- It keeps the rules, its handlers do not throw, it calls `processMessages` with a handler again and again, and never
stops. -/
structure LiveStation.Ok (x : LiveStation) : Prop where
  setting : Setting x.C x.B x.user
  calm : NeverThrows x.user
  ids : x.C.messages.length ≤ 255
  polls : PollsForever x.run
  onward : ∀ t, x.clock t ≤ x.clock (t + 1)
  unbounded : ∀ n, ∃ t, n ≤ x.clock t

/-- The messages on a line, if these have had their turns. -/
def onLine (D : Collection) (below : List (Nat → Tree)) (turns : List (Nat × Nat)) (t : Nat) : List (List Byte) :=
  turns.filterMap (turnOf (below.map fun T => ((T t).output D).map fun r => wire r.C r.t r.vs))

/-- A line that several share, message by message. Each of them is through with all that they have sent by some moment at
some later one, and whatever is on the line arrives. -/
structure FairLine (D : Collection) (below : List (Nat → Tree)) (turns : Nat → List (Nat × Nat)) (fed : Nat → List Byte) :
    Prop where
  grows : ∀ t, turns t <+: turns (t + 1)
  known : ∀ t, ∀ q ∈ turns t, q.1 < below.length
  order : ∀ t i T, below[i]? = some T →
    ∃ k, k ≤ ((T t).output D).length ∧ ((turns t).filter fun q => q.1 == i).map (·.2) = List.range k
  fair : ∀ t i T, below[i]? = some T → ∃ t', ((T t).output D).length ≤ ((turns t').filter fun q => q.1 == i).length
  arrived : ∀ t, fed t <+: (onLine D below (turns t) t).flatten
  arrives : ∀ t, ∃ t', (onLine D below (turns t) t).flatten.length ≤ (fed t').length

/-- A tree of senders, who send more and more, and programs that run forever. -/
inductive TreeRuns : (Nat → Tree) → Prop where
  | source {rs : Nat → List Request} : (∀ t, rs t <+: rs (t + 1)) → TreeRuns fun t => .source (rs t)
  | station {x : LiveStation} {below : List (Nat → Tree)} {turns : Nat → List (Nat × Nat)} : x.Ok →
      (∀ T ∈ below, ∀ t rs, T t = .source rs → ∀ r ∈ rs, r.Good x.C) →
      (∀ T ∈ below, TreeRuns T) →
      FairLine x.C below turns (fun t => (x.now t).w.fed) →
      TreeRuns fun t => .station (x.now t) (below.map fun T => T t)

/-! ### Lists that grow -/

theorem grows_later {α : Type} {f : Nat → List α} (h : ∀ t, f t <+: f (t + 1)) {t t' : Nat} (ht : t ≤ t') : f t <+: f t' := by
  obtain ⟨d, rfl⟩ := Nat.exists_eq_add_of_le ht
  induction d with
  | zero => exact List.prefix_refl _
  | succ d ih => exact (ih (by omega)).trans (h (t + d))

theorem clock_later {f : Nat → Nat} (h : ∀ t, f t ≤ f (t + 1)) {t t' : Nat} (ht : t ≤ t') : f t ≤ f t' := by
  obtain ⟨d, rfl⟩ := Nat.exists_eq_add_of_le ht
  induction d with
  | zero => exact Nat.le_refl _
  | succ d ih => exact Nat.le_trans (ih (by omega)) (h (t + d))

theorem common_time {α : Type} (l : List α) (P : Nat → α → Nat → Prop) (hm : ∀ i a t t', t ≤ t' → P i a t → P i a t')
    (h : ∀ (i : Nat) a, l[i]? = some a → ∃ t, P i a t) : ∃ t, ∀ (i : Nat) a, l[i]? = some a → P i a t := by
  induction l generalizing P with
  | nil => exact ⟨0, by simp⟩
  | cons a l ih =>
    obtain ⟨t1, h1⟩ := h 0 a rfl
    obtain ⟨t2, h2⟩ := ih (fun i => P (i + 1)) (fun i => hm (i + 1)) fun i b hb => h (i + 1) b (by simpa using hb)
    refine ⟨max t1 t2, ?_⟩
    intro i b hb
    cases i with
    | zero =>
      simp only [List.getElem?_cons_zero, Option.some.injEq] at hb
      subst hb
      exact hm _ _ _ _ (Nat.le_max_left _ _) h1
    | succ i => exact hm _ _ _ _ (Nat.le_max_right _ _) (h2 i b (by simpa using hb))

/-- These turns are among what there is. -/
def InTurn {α : Type} (M : List (List α)) (l : List (Nat × Nat)) : Prop :=
  (∀ q ∈ l, q.1 < M.length) ∧
  ∀ (i : Nat) xs, M[i]? = some xs → ∃ k, k ≤ xs.length ∧ (l.filter fun q => q.1 == i).map (·.2) = List.range k

theorem InTurn.take {α : Type} {M : List (List α)} {l l' : List (Nat × Nat)} (h : InTurn M l) (hp : l' <+: l) : InTurn M l' := by
  refine ⟨fun q hq => h.1 q (hp.subset hq), ?_⟩
  intro i xs hi
  obtain ⟨k, h1, h2⟩ := h.2 i xs hi
  have hpre : (l'.filter fun q => q.1 == i).map (·.2) <+: List.range k := by
    rw [← h2]
    exact (hp.filter _).map _
  have e := List.prefix_iff_eq_take.mp hpre
  have hle := hpre.length_le
  rw [List.take_range, Nat.min_eq_left (by simpa using hle)] at e
  exact ⟨_, by simp only [List.length_map, List.length_range] at hle ⊢; omega, e⟩

theorem InTurn.some {α : Type} {M : List (List α)} {l : List (Nat × Nat)} (h : InTurn M l) {q : Nat × Nat} (hq : q ∈ l) :
    ∃ xs a, M[q.1]? = some xs ∧ xs[q.2]? = some a := by
  have h1 := h.1 q hq
  obtain ⟨k, h2, h3⟩ := h.2 q.1 M[q.1] (List.getElem?_eq_getElem h1)
  have : q.2 ∈ (l.filter fun p => p.1 == q.1).map (·.2) :=
    List.mem_map.mpr ⟨q, List.mem_filter.mpr ⟨hq, by simp⟩, rfl⟩
  rw [h3, List.mem_range] at this
  exact ⟨_, _, List.getElem?_eq_getElem h1, List.getElem?_eq_getElem (show q.2 < M[q.1].length by omega)⟩

theorem InTurn.map_some {α : Type} {M : List (List α)} {l : List (Nat × Nat)} (h : InTurn M l) :
    (l.filterMap (turnOf M)).map Option.some = l.map (turnOf M) := by
  have : ∀ q ∈ l, ∃ a, turnOf M q = Option.some a := by
    intro q hq
    obtain ⟨xs, a, h1, h2⟩ := h.some hq
    exact ⟨a, by simp [turnOf, h1, h2]⟩
  clear h
  induction l with
  | nil => rfl
  | cons q l ih =>
    obtain ⟨a, ha⟩ := this q (by simp)
    rw [List.filterMap_cons_some ha, List.map_cons, List.map_cons, ha, ih fun q hq => this q (by simp [hq])]

theorem InTurn.length {α : Type} {M : List (List α)} {l : List (Nat × Nat)} (h : InTurn M l) :
    (l.filterMap (turnOf M)).length = l.length := by
  simpa using congrArg List.length h.map_some

theorem InTurn.interleaved {α : Type} {M : List (List α)} {l : List (Nat × Nat)} (h : InTurn M l) :
    Interleaved (M.mapIdx fun i xs => xs.take (l.filter fun q => q.1 == i).length) (l.filterMap (turnOf M)) := by
  refine ⟨l, ⟨fun q hq => by simpa using h.1 q hq, ?_⟩, ?_⟩
  · intro i n hn
    rw [List.getElem?_map, List.getElem?_mapIdx] at hn
    cases hx : M[i]? with
    | none => rw [hx] at hn; simp at hn
    | some xs =>
      rw [hx] at hn
      obtain ⟨k, h1, h2⟩ := h.2 i xs hx
      have hk : (l.filter fun q => q.1 == i).length = k := by simpa using congrArg List.length h2
      simp only [Option.map_some, List.length_take, Option.some.injEq, hk] at hn
      rw [Nat.min_eq_left h1] at hn
      rw [h2, hn]
  · rw [h.map_some]
    refine List.map_congr_left fun q hq => ?_
    unfold turnOf
    rw [List.getElem?_mapIdx]
    cases hx : M[q.1]? with
    | none => rfl
    | some xs =>
      obtain ⟨k, h1, h2⟩ := h.2 q.1 xs hx
      have hk : (l.filter fun p => p.1 == q.1).length = k := by simpa using congrArg List.length h2
      have : q.2 ∈ (l.filter fun p => p.1 == q.1).map (·.2) :=
        List.mem_map.mpr ⟨q, List.mem_filter.mpr ⟨hq, by simp⟩, rfl⟩
      rw [h2, List.mem_range] at this
      simp only [Option.map_some, Option.bind_some]
      rw [hk, List.getElem?_take_of_lt this]

theorem filterMap_same {α β : Type} {f g : α → Option β} : ∀ {l : List α}, (∀ a ∈ l, f a = g a) → l.filterMap f = l.filterMap g
  | [], _ => rfl
  | a :: l, h => by
    rw [List.filterMap_cons, List.filterMap_cons, h a (by simp), filterMap_same fun b hb => h b (by simp [hb])]

/-- More of everything does not change what has had its turn. -/
theorem InTurn.same {α : Type} {M M' : List (List α)} {l : List (Nat × Nat)} (h : InTurn M l)
    (hM : ∀ (i : Nat) xs, M[i]? = Option.some xs → ∃ ys, M'[i]? = Option.some ys ∧ xs <+: ys) :
    l.filterMap (turnOf M') = l.filterMap (turnOf M) := by
  refine filterMap_same fun q hq => ?_
  obtain ⟨xs, a, h1, h2⟩ := h.some hq
  obtain ⟨ys, h3, h4⟩ := hM _ _ h1
  simp only [turnOf, h1, h3, Option.bind_some, h2]
  obtain ⟨zs, rfl⟩ := h4
  rw [List.getElem?_append_left (List.getElem?_eq_some_iff.mp h2).1, h2]

theorem turns_map {α β : Type} (f : α → β) (M : List (List α)) (l : List (Nat × Nat)) :
    l.filterMap (turnOf (M.map (List.map f))) = (l.filterMap (turnOf M)).map f := by
  rw [List.map_filterMap]
  exact filterMap_same fun q _ => turnOf_map f M q

/-! ### Programs that run forever -/

theorem LiveStation.Ok.now {x : LiveStation} (h : x.Ok) (t : Nat) : (x.now t).Ok :=
  ⟨h.setting, h.calm, x.run.reached _, h.ids⟩

theorem LiveStation.Ok.later {x : LiveStation} (h : x.Ok) {t t' : Nat} (ht : t ≤ t') :
    (x.now t).w.fed <+: (x.now t').w.fed ∧ delivered (x.now t).w <+: delivered (x.now t').w :=
  execution_later h.setting h.calm x.run (clock_later h.onward ht)

theorem TreeRuns.calls_grow {T : Nat → Tree} (h : TreeRuns T) (t : Nat) : (T t).calls <+: (T (t + 1)).calls := by
  cases h with
  | source h => exact (h t).map _
  | station hx => exact (hx.later (Nat.le_succ t)).2

theorem TreeRuns.output {T : Nat → Tree} (h : TreeRuns T) {D : Collection} (hl : D.messages.length ≤ 255) (t : Nat)
    (hg : ∀ rs, T t = .source rs → ∀ r ∈ rs, r.Good D) :
    (∀ r ∈ (T t).output D, r.Good D) ∧
      ((T t).output D).map Request.call = (T t).calls.filter fun c => decide (c.1 ∈ D.messages) := by
  cases h with
  | @source rs h =>
    refine ⟨hg _ rfl, ?_⟩
    show (rs t).map Request.call = _
    symm
    rw [Tree.calls, List.filter_eq_self]
    intro c hc
    obtain ⟨r, hr, rfl⟩ := List.mem_map.mp hc
    exact decide_eq_true (hg _ rfl r hr).2.1.2.1
  | station hx => exact (hx.now t).passedOn_good hl

/-- How a message looks on the line. -/
def callWire (D : Collection) (c : Call) : List Byte :=
  frame D.envelope ⟨UInt8.ofNat (D.messages.idxOf c.1), c.2.flatten⟩

theorem good_wire {D : Collection} {r : Request} (h : r.Good D) : wire r.C r.t r.vs = callWire D r.call := by
  rw [h.wire]
  obtain ⟨rfl, _⟩ := h
  simp [callWire, Request.call, Request.msg, payloadOf]

theorem InTurn.map {α β : Type} {f : α → β} {M : List (List α)} {l : List (Nat × Nat)} (h : InTurn M l) :
    InTurn (M.map (List.map f)) l := by
  refine ⟨by simpa using h.1, ?_⟩
  intro i xs hi
  rw [List.getElem?_map] at hi
  obtain ⟨ys, h1, rfl⟩ := Option.map_eq_some_iff.mp hi
  simpa using h.2 i ys h1

theorem InTurn.of_map {α β : Type} {f : α → β} {M : List (List α)} {l : List (Nat × Nat)}
    (h : InTurn (M.map (List.map f)) l) : InTurn M l := by
  refine ⟨by simpa using h.1, ?_⟩
  intro i xs hi
  simpa using h.2 i (xs.map f) (by simp [hi])

theorem InTurn.take_eq {α : Type} {M : List (List α)} {l : List (Nat × Nat)} (h : InTurn M l) (n : Nat) :
    (l.take n).filterMap (turnOf M) = (l.filterMap (turnOf M)).take n := by
  have e1 := (h.take (List.take_prefix n l)).map_some
  have e2 := congrArg (List.take n) h.map_some
  rw [← List.map_take, ← List.map_take, ← e1] at e2
  exact (List.map_inj_right (fun _ _ => Option.some.inj) |>.mp e2).symm

theorem expected_step {x : Station} {below : List Tree} {i : Nat} {T : Tree} (h : below[i]? = some T) (p : List Nat) :
    Tree.expected (.station x below) (i :: p) = (T.expected p).filter fun c => decide (c.1 ∈ x.C.messages) := by
  simp only [Tree.expected, Tree.at, h, Option.bind_some]
  cases T.at p with
  | none => rfl
  | some q =>
    simp only [Option.map_some]
    rw [List.filter_map, List.filter_filter]
    rfl

theorem expected_none {x : Station} {below : List Tree} {i : Nat} (h : below[i]? = none) (p : List Nat) :
    Tree.expected (.station x below) (i :: p) = [] := by
  simp [Tree.expected, Tree.at, h]

theorem filter_path (D : Collection) (i : Nat) (p : List Nat) (L : List (List Nat × Call)) :
    (((L.filter fun e => decide (e.2.1 ∈ D.messages)).map fun e => (i :: e.1, e.2)).filter fun e => e.1 == i :: p).map (·.2) =
      ((L.filter fun e => e.1 == p).map (·.2)).filter fun c => decide (c.1 ∈ D.messages) := by
  rw [List.filter_map, List.filter_map, List.map_map, List.filter_filter, List.filter_filter]
  have : (L.filter fun a => ((fun e : List Nat × Call => e.1 == i :: p) ∘ fun e : List Nat × Call => (i :: e.1, e.2)) a &&
      decide (a.2.1 ∈ D.messages)) =
      L.filter fun a => ((fun c : Call => decide (c.1 ∈ D.messages)) ∘ fun e : List Nat × Call => e.2) a && a.1 == p := by
    apply List.filter_congr
    intro a _
    simp only [Function.comp]
    rw [Bool.and_comm]
    congr 1
    by_cases ha : a.1 = p <;> simp [ha]
  rw [this]
  rfl

/-- Where calls come from, at all moments at once. -/
structure Traced (T : Nat → Tree) (L : Nat → List (List Nat × Call)) : Prop where
  calls : ∀ t, (L t).map (·.2) = (T t).calls
  grows : ∀ t, L t <+: L (t + 1)
  safe : ∀ t p, ((L t).filter fun e => e.1 == p).map (·.2) <+: (T t).expected p
  live : ∀ t, ∃ t', ∀ p, (T t).expected p <+: ((L t').filter fun e => e.1 == p).map (·.2)

theorem TreeRuns.traced {T : Nat → Tree} (h : TreeRuns T) : ∃ L, Traced T L := by
  induction h with
  | @source rs hrs =>
    have key : ∀ t p, (((rs t).map Request.call |>.map fun c => (([] : List Nat), c)).filter fun e => e.1 == p).map (·.2) =
        Tree.expected (.source (rs t)) p := by
      intro t p
      cases p with
      | nil => simp [Tree.expected, Tree.at, Function.comp_def, List.filter_map, shared]
      | cons i p => simp [Tree.expected, Tree.at, Function.comp_def, List.filter_map]
    refine ⟨fun t => ((rs t).map Request.call).map fun c => ([], c), ?_, ?_, ?_, ?_⟩
    · intro t; simp [Tree.calls, Function.comp_def]
    · intro t; exact ((hrs t).map _).map _
    · intro t p; rw [key]; exact List.prefix_refl _
    · intro t; exact ⟨t, fun p => by rw [key]; exact List.prefix_refl _⟩
  | @station x below turns hx hg hs F ih =>
    obtain ⟨Ls, hlen, hL⟩ := lists_of_all ih
    -- numbers of programs below
    have hLs : ∀ (i : Nat) T, below[i]? = some T → ∃ L, Ls[i]? = some L ∧ Traced T L := by
      intro i T hi
      have hi2 : i < Ls.length := by
        have := (List.getElem?_eq_some_iff.mp hi).1
        omega
      exact ⟨Ls[i], List.getElem?_eq_getElem hi2, hL i T Ls[i] hi (List.getElem?_eq_getElem hi2)⟩
    have hLs' : ∀ (i : Nat) L, Ls[i]? = some L → ∃ T, below[i]? = some T ∧ Traced T L := by
      intro i L hi
      have hi2 : i < below.length := by
        have := (List.getElem?_eq_some_iff.mp hi).1
        omega
      exact ⟨below[i], List.getElem?_eq_getElem hi2, hL i below[i] L (List.getElem?_eq_getElem hi2) hi⟩
    have hout := fun T (hT : T ∈ below) t => (hs T hT).output hx.ids t (hg T hT t)
    -- what there is to be sent, as `send` calls and with paths
    let out : Nat → List (List Request) := fun t => below.map fun T => (T t).output x.C
    let M : Nat → List (List (List Nat × Call)) := fun t => Ls.mapIdx fun i L =>
      ((L t).filter fun e => decide (e.2.1 ∈ x.C.messages)).map fun e => (i :: e.1, e.2)
    have hM : ∀ t, (M t).map (List.map (·.2)) = (out t).map (List.map Request.call) := by
      intro t
      apply List.ext_getElem?
      intro i
      simp only [M, out, List.getElem?_map, List.getElem?_mapIdx]
      cases hb : below[i]? with
      | none =>
        have : Ls[i]? = none := by
          rw [List.getElem?_eq_none_iff] at hb ⊢
          omega
        rw [this]; rfl
      | some T =>
        obtain ⟨L, h1, h2⟩ := hLs i T hb
        rw [h1]
        simp only [Option.map_some, Option.some.injEq, List.map_map]
        rw [(hout T (List.mem_of_getElem? hb) t).2, ← h2.calls t, List.filter_map]
        rfl
    have hMgrow : ∀ {t t'}, t ≤ t' → ∀ (i : Nat) xs, (M t)[i]? = some xs → ∃ ys, (M t')[i]? = some ys ∧ xs <+: ys := by
      intro t t' htt i xs hi
      simp only [M, List.getElem?_mapIdx] at hi ⊢
      obtain ⟨L, h1, rfl⟩ := Option.map_eq_some_iff.mp hi
      obtain ⟨T, _, h2⟩ := hLs' i L h1
      exact ⟨_, by rw [h1]; rfl, ((grows_later h2.grows htt).filter _).map _⟩
    have hin : ∀ t, InTurn (out t) (turns t) := by
      intro t
      refine ⟨by simpa [out] using F.known t, ?_⟩
      intro i xs hi
      simp only [out, List.getElem?_map] at hi
      obtain ⟨T, h1, rfl⟩ := Option.map_eq_some_iff.mp hi
      exact F.order t i T h1
    have hinM : ∀ t, InTurn (M t) (turns t) := by
      intro t
      have := (hin t).map (f := Request.call)
      rw [← hM t] at this
      exact this.of_map
    -- the line
    let rl : Nat → List Request := fun t => (turns t).filterMap (turnOf (out t))
    have hrl : ∀ t, ∀ r ∈ rl t, r.Good x.C := by
      intro t r hr
      obtain ⟨q, hq, he⟩ := List.mem_filterMap.mp hr
      obtain ⟨rs, h1, h2⟩ := Option.bind_eq_some_iff.mp he
      simp only [out, List.getElem?_map] at h1
      obtain ⟨T, h3, rfl⟩ := Option.map_eq_some_iff.mp h1
      exact (hout T (List.mem_of_getElem? h3) t).1 r (List.mem_of_getElem? h2)
    have hline : ∀ t, (onLine x.C below (turns t) t).flatten = frames x.C.envelope ((rl t).map Request.msg) := by
      intro t
      have : onLine x.C below (turns t) t = (rl t).map fun r => wire r.C r.t r.vs := by
        show _ = (List.filterMap _ _).map _
        rw [← turns_map]
        simp only [onLine, out, List.map_map]
        rfl
      rw [this, frames, List.map_map]
      exact congrArg List.flatten (List.map_congr_left fun r hr => (hrl t r hr).wire)
    have hms : ∀ t, ∀ m ∈ (rl t).map Request.msg, IsMsg x.C m := by
      intro t m hm
      obtain ⟨r, hr, rfl⟩ := List.mem_map.mp hm
      exact (hrl t r hr).isMsg
    have hdel : ∀ t, delivered (x.now t).w <+: (rl t).map Request.call := by
      intro t
      obtain ⟨ms, k1, k2⟩ := (hx.now t).reached.partly (hx.now t).setting (hx.now t).calm
      have hf := F.arrived t
      rw [hline t] at hf
      rw [k2, ← map_meaning (hrl t)]
      exact (run_clean (hms t) k1 hf).map _
    have hrlc : ∀ t, (rl t).map Request.call = ((turns t).filterMap (turnOf (M t))).map (·.2) := by
      intro t
      rw [← turns_map, ← hM t, turns_map]
    have hfr : ∀ t, frames x.C.envelope ((rl t).map Request.msg) = (((rl t).map Request.call).map (callWire x.C)).flatten := by
      intro t
      rw [frames, List.map_map, List.map_map]
      refine congrArg List.flatten (List.map_congr_left fun r hr => ?_)
      exact (hrl t r hr).wire.symm.trans (good_wire (hrl t r hr))
    have hturn : ∀ {t t'}, t ≤ t' → turns t <+: turns t' := fun h => grows_later F.grows h
    have hdl : ∀ t, (delivered (x.now t).w).length ≤ (turns t).length := by
      intro t
      have := (hdel t).length_le
      rw [List.length_map, (hin t).length] at this
      exact this
    let l : Nat → List (Nat × Nat) := fun t => (turns t).take (delivered (x.now t).w).length
    have hl : ∀ t, InTurn (M t) (l t) := fun t => (hinM t).take (List.take_prefix _ _)
    have hlgrow : ∀ t, l t <+: l (t + 1) := by
      intro t
      refine List.prefix_of_prefix_length_le ((List.take_prefix _ _).trans (hturn (Nat.le_succ t)))
        (List.take_prefix _ _) ?_
      have := (hx.later (show t ≤ t + 1 by omega)).2.length_le
      have := hdl t
      have := hdl (t + 1)
      simp only [l, List.length_take]
      omega
    -- what comes from one of those below
    have hone : ∀ t i p, ((((l t).filterMap (turnOf (M t))).filter fun e => e.1 == i :: p)) =
        (((M t)[i]?.getD []).take ((l t).filter fun q => q.1 == i).length).filter fun e => e.1 == i :: p := by
      intro t i p
      rw [(hl t).interleaved.filter_one (fun e => e.1 == i :: p) i]
      · rw [List.getElem?_mapIdx]
        cases (M t)[i]? with
        | none => simp
        | some xs => rfl
      · intro k xs hk hki a ha
        rw [List.getElem?_mapIdx] at hk
        obtain ⟨ys, h1, rfl⟩ := Option.map_eq_some_iff.mp hk
        have ha := List.mem_of_mem_take ha
        simp only [M, List.getElem?_mapIdx] at h1
        obtain ⟨L, _, rfl⟩ := Option.map_eq_some_iff.mp h1
        obtain ⟨b, _, rfl⟩ := List.mem_map.mp ha
        simp [hki]
    refine ⟨fun t => (l t).filterMap (turnOf (M t)), ?_, ?_, ?_, ?_⟩
    · intro t
      show ((l t).filterMap (turnOf (M t))).map (·.2) = delivered (x.now t).w
      rw [(hinM t).take_eq, List.map_take, ← hrlc t]
      exact (List.prefix_iff_eq_take.mp (hdel t)).symm
    · intro t
      show (l t).filterMap (turnOf (M t)) <+: (l (t + 1)).filterMap (turnOf (M (t + 1)))
      rw [← (hl t).same (hMgrow (Nat.le_succ t))]
      exact (hlgrow t).filterMap _
    · intro t p
      show (((l t).filterMap (turnOf (M t))).filter fun e => e.1 == p).map (·.2) <+: _
      cases p with
      | nil =>
        have : (((l t).filterMap (turnOf (M t))).filter fun e => e.1 == []) = [] := by
          rw [List.filter_eq_nil_iff]
          intro a ha
          obtain ⟨q, hq, he⟩ := List.mem_filterMap.mp ha
          obtain ⟨xs, h1, h2⟩ := Option.bind_eq_some_iff.mp he
          simp only [M, List.getElem?_mapIdx] at h1
          obtain ⟨L, _, rfl⟩ := Option.map_eq_some_iff.mp h1
          obtain ⟨b, _, rfl⟩ := List.mem_map.mp (List.mem_of_getElem? h2)
          simp
        rw [this]
        exact List.nil_prefix
      | cons i p =>
        rw [hone t i p]
        cases hb : below[i]? with
        | none =>
          have : (M t)[i]? = none := by
            rw [List.getElem?_eq_none_iff] at hb ⊢
            simp only [M, List.length_mapIdx]
            omega
          rw [this]
          simp
        | some T =>
          obtain ⟨L, h1, h2⟩ := hLs i T hb
          rw [expected_step (T := T t) (by simp [hb])]
          have e : (M t)[i]? = some (((L t).filter fun e => decide (e.2.1 ∈ x.C.messages)).map fun e => (i :: e.1, e.2)) := by
            simp [M, h1]
          rw [e, Option.getD_some]
          refine (((List.take_prefix _ _).filter _).map _).trans ?_
          rw [filter_path]
          exact (h2.safe t p).filter _
    · intro t
      -- those below have handled it,
      obtain ⟨t1, h1⟩ := common_time below
        (fun i T t' => t ≤ t' ∧ ∀ L, Ls[i]? = some L → ∀ p, (T t).expected p <+: ((L t').filter fun e => e.1 == p).map (·.2))
        (by
          intro i T a b hab ⟨h0, h⟩
          refine ⟨by omega, fun L hLi p => (h L hLi p).trans ?_⟩
          obtain ⟨_, _, h2⟩ := hLs' i L hLi
          exact ((grows_later h2.grows hab).filter _).map _)
        (by
          intro i T hb
          obtain ⟨L, h1, h2⟩ := hLs i T hb
          obtain ⟨t', h3⟩ := h2.live t
          refine ⟨max t t', Nat.le_max_left _ _, ?_⟩
          intro L' hL' p
          rw [h1] at hL'
          obtain rfl := Option.some.inj hL'
          exact (h3 p).trans (((grows_later h2.grows (Nat.le_max_right _ _)).filter _).map _))
      -- and got it onto the line,
      obtain ⟨t2, h2⟩ := common_time below
        (fun i T t' => ((T t1).output x.C).length ≤ ((turns t').filter fun q => q.1 == i).length)
        (by
          intro i T a b hab h
          exact Nat.le_trans h ((hturn hab).filter _).length_le)
        (fun i T hb => F.fair t1 i T hb)
      -- and it has arrived,
      obtain ⟨t3, h3⟩ := F.arrives (max t1 t2)
      -- and been processed
      obtain ⟨k, hk, hop, hh⟩ := hx.polls (x.clock (max (max t1 t2) t3))
      obtain ⟨t4, h4⟩ := hx.unbounded (k + 1)
      let t5 := max (max (max t1 t2) t3) t4
      have hd5 : (rl (max t1 t2)).map Request.call <+: delivered (x.now t5).w := by
        have hr : Reached x.B x.user x.fuel (firstCalls x.calls k ++ [.process]) (x.run.state (k + 1)) (x.run.observed (k + 1)) := by
          rw [← hop, ← firstCalls_succ]
          exact x.run.reached (k + 1)
        obtain ⟨ms', hd', e⟩ := hr.polled hx.setting hx.calm hh
        have hfed : frames x.C.envelope ((rl (max t1 t2)).map Request.msg) <+: (x.run.state (k + 1)).fed := by
          have a1 : (x.now t3).w.fed <+: (x.now (max (max t1 t2) t3)).w.fed := (hx.later (Nat.le_max_right _ _)).1
          have a2 : (x.now (max (max t1 t2) t3)).w.fed <+: (x.run.state (k + 1)).fed :=
            (execution_later hx.setting hx.calm x.run (show x.clock (max (max t1 t2) t3) ≤ k + 1 by omega)).1
          have a3 := F.arrived (max (max t1 t2) t3)
          rw [hline] at a3
          have a4 : frames x.C.envelope ((rl (max t1 t2)).map Request.msg) <+:
              frames x.C.envelope ((rl (max (max t1 t2) t3)).map Request.msg) := by
            rw [hfr, hfr, hrlc, hrlc, ← (hinM (max t1 t2)).same (hMgrow (Nat.le_max_left (max t1 t2) t3))]
            obtain ⟨z, hz⟩ := (((hturn (Nat.le_max_left (max t1 t2) t3)).filterMap
              (turnOf (M (max (max t1 t2) t3)))).map (·.2)).map (callWire x.C)
            exact ⟨z.flatten, by rw [← hz, List.flatten_append]⟩
          have a5 := h3
          rw [hline] at a5
          exact (List.prefix_of_prefix_length_le a4 a3 (Nat.le_trans a5 a1.length_le)).trans a2
        have hdec : Decodes x.C (frames x.C.envelope ((rl (max t1 t2)).map Request.msg)) ((rl (max t1 t2)).map Request.msg) [] := by
          refine ⟨?_, Or.inl rfl⟩
          have := run_frames (hms (max t1 t2)) []
          rwa [List.append_nil] at this
        obtain ⟨z, hz⟩ := hfed
        rw [← hz] at hd'
        have := (decodes_grows hdec hd').map (meaning x.C)
        rw [map_meaning (hrl _), ← e] at this
        exact this.trans (execution_later hx.setting hx.calm x.run
          (Nat.le_trans h4 (clock_later hx.onward (Nat.le_max_right _ _)))).2
      refine ⟨t5, ?_⟩
      intro p
      cases p with
      | nil => exact List.nil_prefix
      | cons i p =>
        show _ <+: (((l t5).filterMap (turnOf (M t5))).filter fun e => e.1 == i :: p).map (·.2)
        cases hb : below[i]? with
        | none =>
          rw [expected_none (by simp [hb])]
          exact List.nil_prefix
        | some T =>
          obtain ⟨L, g1, g2⟩ := hLs i T hb
          have ht5 : t1 ≤ t5 := by show t1 ≤ max (max (max t1 t2) t3) t4; omega
          have ht5' : max t1 t2 ≤ t5 := by show max t1 t2 ≤ max (max (max t1 t2) t3) t4; omega
          rw [expected_step (T := T t) (by simp [hb]), hone t5 i p]
          have e5 : ∀ t, (M t)[i]? = some (((L t).filter fun e => decide (e.2.1 ∈ x.C.messages)).map fun e => (i :: e.1, e.2)) := by
            intro t
            simp [M, g1]
          refine List.IsPrefix.trans (((h1 i T hb).2 L g1 p).filter _) ?_
          rw [← filter_path, e5 t5, Option.getD_some]
          refine List.IsPrefix.map _ (List.IsPrefix.filter _ ?_)
          refine List.prefix_of_prefix_length_le (((grows_later g2.grows ht5).filter _).map _) (List.take_prefix _ _) ?_
          -- enough turns
          have c1 : ((T t1).output x.C).length =
              (((L t1).filter fun e => decide (e.2.1 ∈ x.C.messages)).map fun e => (i :: e.1, e.2)).length := by
            have := congrArg List.length (hout T (List.mem_of_getElem? hb) t1).2
            rw [← g2.calls t1, List.filter_map, List.length_map, List.length_map] at this
            rw [this, List.length_map]
            rfl
          have c2 : turns (max t1 t2) <+: l t5 := by
            refine List.prefix_of_prefix_length_le (hturn ht5') (List.take_prefix _ _) ?_
            have := hd5.length_le
            rw [List.length_map, (hin _).length] at this
            have := hdl t5
            simp only [l, List.length_take]
            omega
          have c3 : ((T t1).output x.C).length ≤ ((l t5).filter fun q => q.1 == i).length :=
            Nat.le_trans (h2 i T hb) (((hturn (Nat.le_max_right t1 t2)).trans c2).filter _).length_le
          have c4 : (((L t1).filter fun e => decide (e.2.1 ∈ x.C.messages)).map fun e => (i :: e.1, e.2)).length ≤
              (((L t5).filter fun e => decide (e.2.1 ∈ x.C.messages)).map fun e => (i :: e.1, e.2)).length :=
            (((grows_later g2.grows ht5).filter _).map _).length_le
          rw [List.length_take]
          exact Nat.le_min.mpr ⟨Nat.le_trans (Nat.le_of_eq c1.symm) c3, c4⟩

/-- C131. Senders send more and more; programs that run forever collect messages and pass them on, towards one program at
the root. Where each call of the program at the root has come from can be said once and for all: at each moment the calls
that have come from one sender are the first ones of the messages that this sender has sent by then and whose types all
programs on the path have, in order and with the contents sent; and after some time they include all of these. -/
theorem C131_tree {x : LiveStation} {below : List (Nat → Tree)}
    (h : TreeRuns fun t => .station (x.now t) (below.map fun T => T t)) :
    ∃ L : Nat → List (List Nat × Call), (∀ t, (L t).map (·.2) = delivered (x.now t).w) ∧ (∀ t, L t <+: L (t + 1)) ∧
      (∀ t p, ((L t).filter fun e => e.1 == p).map (·.2) <+:
        Tree.expected (.station (x.now t) (below.map fun T => T t)) p) ∧
      ∀ t, ∃ t', ∀ p, Tree.expected (.station (x.now t) (below.map fun T => T t)) p <+:
        ((L t').filter fun e => e.1 == p).map (·.2) := by
  obtain ⟨L, hL⟩ := h.traced
  exact ⟨L, hL.calls, hL.grows, hL.safe, hL.live⟩

/-- C131. In particular, each message of a type that all programs on its path have is handled at the root at some time. -/
theorem C131_message {x : LiveStation} {below : List (Nat → Tree)}
    (h : TreeRuns fun t => .station (x.now t) (below.map fun T => T t)) {t : Nat} {p : List Nat} {ys : List Station}
    {rs : List Request} (hp : Tree.at (.station (x.now t) (below.map fun T => T t)) p = some (ys, rs)) {r : Request}
    (hr : r ∈ rs) (hsh : ∀ y ∈ ys, r.t ∈ y.C.messages) :
    ∃ t', ∀ t'', t' ≤ t'' → (r.t, r.vs.map (·.bytes)) ∈ delivered (x.now t'').w := by
  obtain ⟨L, h1, h2, _, h4⟩ := C131_tree h
  obtain ⟨t', h5⟩ := h4 t
  refine ⟨t', fun t'' ht => ?_⟩
  rw [← h1 t'']
  have hmem : r.call ∈ Tree.expected (.station (x.now t) (below.map fun T => T t)) p := by
    rw [Tree.expected, hp]
    refine List.mem_map_of_mem (List.mem_filter.mpr ⟨hr, ?_⟩)
    simpa [shared] using hsh
  obtain ⟨e, he, hc⟩ := List.mem_map.mp ((h5 p).subset hmem)
  exact List.mem_map.mpr ⟨e, (grows_later h2 ht).subset (List.mem_filter.mp he).1, hc⟩

/-! ### It happens -/

/-- One who sends the same message over and over, with a line of their own. -/
theorem single_line {D : Collection} {T : Nat → Tree} {r : Request} {fed : Nat → List Byte}
    (ho : ∀ t, (T t).output D = List.replicate t r)
    (hf : ∀ t, fed t = (List.replicate t (wire r.C r.t r.vs)).flatten) :
    FairLine D [T] (fun t => (List.range t).map fun j => (0, j)) fed := by
  have hline : ∀ t, onLine D [T] ((List.range t).map fun j => (0, j)) t = List.replicate t (wire r.C r.t r.vs) := by
    intro t
    unfold onLine
    rw [List.filterMap_map]
    have : (List.range t).filterMap (turnOf ([T].map fun T => ((T t).output D).map fun r => wire r.C r.t r.vs) ∘ fun j => (0, j)) =
        (List.range t).filterMap fun _ => some (wire r.C r.t r.vs) := by
      refine filterMap_same fun j hj => ?_
      have hj := List.mem_range.mp hj
      simp [turnOf, ho, hj]
    rw [this]
    simp [List.map_const']
  have hfilter : ∀ t : Nat, (((List.range t).map fun j => ((0 : Nat), j)).filter fun q => q.1 == 0) =
      (List.range t).map fun j => (0, j) := by
    intro t
    rw [List.filter_eq_self]
    simp
  refine ⟨?_, ?_, ?_, ?_, ?_, ?_⟩
  · intro t
    rw [List.range_succ, List.map_append]
    exact List.prefix_append _ _
  · intro t q hq
    obtain ⟨j, _, rfl⟩ := List.mem_map.mp hq
    simp
  · intro t i T' hi
    obtain ⟨hi0, rfl⟩ : i = 0 ∧ T = T' := by
      cases i with
      | zero => simpa using hi
      | succ i => simp at hi
    subst hi0
    exact ⟨t, by simp [ho], by rw [hfilter]; simp [Function.comp_def]⟩
  · intro t i T' hi
    obtain ⟨hi0, rfl⟩ : i = 0 ∧ T = T' := by
      cases i with
      | zero => simpa using hi
      | succ i => simp at hi
    subst hi0
    exact ⟨t, by rw [hfilter]; simp [ho]⟩
  · intro t
    rw [hline, hf]
    exact List.prefix_refl _
  · intro t
    exact ⟨t, by rw [hline, hf]; exact Nat.le_refl _⟩

/-- A program that appends one message and processes it, over and over. -/
theorem repeating {C : Collection} (S : Setting C Sample.dbg Sample.passive) (hne : C.messages ≠ []) (hl : C.messages.length ≤ 255)
    (hc : capacity C < 50) {r : Request} (hr : r.Good C) (hlen : (wire r.C r.t r.vs).length ≤ 2 * maxLen C + 1) :
    ∃ x : LiveStation, x.C = C ∧ x.Ok ∧ (∀ t, (x.now t).w.fed = (List.replicate t (wire r.C r.t r.vs)).flatten) ∧
      ∀ t, delivered (x.now t).w = List.replicate t r.call := by
  obtain ⟨E, h1, h2⟩ := C123_loop (fuel := 50) S Sample.passive_quiet Sample.passive_neverThrows hne hc Sample.h0
    (parts := fun _ => wire r.C r.t r.vs) (fun _ => hlen)
  have hfed : ∀ t, (E.state (2 * t + 1)).fed = (List.replicate t (wire r.C r.t r.vs)).flatten := by
    intro t
    rw [(h2 t).2, List.map_const', List.length_range]
  have hfr : ∀ t, (List.replicate t (wire r.C r.t r.vs)).flatten = frames C.envelope ((List.replicate t r).map Request.msg) := by
    intro t
    rw [frames, List.map_map, List.map_replicate]
    rw [hr.wire]
    rfl
  have hgood : ∀ t, ∀ r' ∈ List.replicate t r, r'.Good C := by
    intro t r' h'
    rw [List.eq_of_mem_replicate h']
    exact hr
  have hcall : ∀ t, (List.replicate t r).map Request.call = List.replicate t r.call := fun t => List.map_replicate
  refine ⟨⟨C, Sample.dbg, Sample.passive, 50, _, E, fun t => 2 * t + 1⟩, rfl,
    ⟨S, Sample.passive_neverThrows, hl, h1, fun t => by show 2 * t + 1 ≤ 2 * (t + 1) + 1; omega,
      fun n => ⟨n, by show n ≤ 2 * n + 1; omega⟩⟩, hfed, ?_⟩
  intro t
  show delivered (E.state (2 * t + 1)) = _
  cases t with
  | zero =>
    obtain ⟨ms, k1, k2⟩ := (E.reached (2 * 0 + 1)).partly S Sample.passive_neverThrows
    have : ms <+: [] := run_clean (ms0 := []) (by simp) k1 (by rw [hfed]; exact List.prefix_refl _)
    rw [k2, List.prefix_nil.mp this]
    rfl
  | succ t =>
    have e : firstCalls (loopCalls Sample.h0 fun _ => wire r.C r.t r.vs) (2 * (t + 1) + 1) =
        firstCalls (loopCalls Sample.h0 fun _ => wire r.C r.t r.vs) (2 * t + 2) ++ [.process] := by
      rw [show 2 * (t + 1) + 1 = (2 * t + 2) + 1 by omega, firstCalls_succ]
      congr 2
      show (if (2 * t + 1) % 2 = 0 then _ else _) = _
      rw [if_neg (by omega)]
    have hreach := E.reached (2 * (t + 1) + 1)
    rw [e] at hreach
    have := (arrives_frames (hgood (t + 1)) Sample.dbg Sample.passive 50 _ _ _ S Sample.passive_neverThrows hreach (h2 (t + 1)).1
      (by rw [hfed, hfr])).1
    rw [this]
    exact hcall (t + 1)

/-- Somebody sends a message over and over to a program that passes it on to another one, with another id in the other
envelope. All of this goes on forever. -/
example : ∃ x y : LiveStation, x.C = Sample.checked ∧ y.C = otherSide ∧
    TreeRuns (fun t => .station (y.now t) [.station (x.now t) [.source (List.replicate t ⟨Sample.checked, Sample.ping, []⟩)]]) ∧
    ∀ t, (delivered (y.now t).w).length = t := by
  have hr0 : (Request.mk Sample.checked Sample.ping []).Good Sample.checked := by decide +kernel
  have hr1 : (Request.mk otherSide Sample.ping []).Good otherSide := by decide +kernel
  obtain ⟨x, hxC, hx, hxf, hxd⟩ := repeating Sample.setting_checked (by decide) (by decide) (by decide +kernel) hr0 (by decide +kernel)
  obtain ⟨y, hyC, hy, hyf, hyd⟩ := repeating setting_other (by decide) (by decide) (by decide +kernel) hr1 (by decide +kernel)
  refine ⟨x, y, hxC, hyC, ?_, fun t => by rw [hyd]; simp⟩
  refine TreeRuns.station (x := y) (below := [fun t => .station (x.now t) [.source (List.replicate t ⟨Sample.checked, Sample.ping, []⟩)]])
    (turns := fun t => (List.range t).map fun j => (0, j)) hy ?_ ?_ ?_
  · intro T hT t rs e
    rw [List.mem_singleton.mp hT] at e
    cases e
  · intro T hT
    rw [List.mem_singleton.mp hT]
    refine TreeRuns.station (x := x) (below := [fun t => .source (List.replicate t ⟨Sample.checked, Sample.ping, []⟩)])
      (turns := fun t => (List.range t).map fun j => (0, j)) hx ?_ ?_ ?_
    · intro T hT t rs e
      rw [List.mem_singleton.mp hT] at e
      cases e
      intro r hr
      rw [List.eq_of_mem_replicate hr, hxC]
      exact hr0
    · intro T hT
      rw [List.mem_singleton.mp hT]
      refine TreeRuns.source fun t => ?_
      rw [List.replicate_succ']
      exact List.prefix_append _ _
    · exact single_line (fun t => rfl) hxf
  · refine single_line (r := ⟨otherSide, Sample.ping, []⟩) (fun t => ?_) hyf
    show (x.now t).passedOn y.C = _
    rw [hyC]
    obtain ⟨g1, g2⟩ := (hx.now t).passedOn_good (D := otherSide) (by decide)
    rw [hxd] at g2
    have e : (List.replicate t (Request.call ⟨Sample.checked, Sample.ping, []⟩)).filter (fun c => decide (c.1 ∈ otherSide.messages)) =
        List.replicate t (Sample.ping, []) := by
      rw [List.filter_eq_self.mpr]
      · rfl
      · intro c hc
        rw [List.eq_of_mem_replicate hc]
        decide +kernel
    rw [e] at g2
    have hlen := congrArg List.length g2
    simp only [List.length_map, List.length_replicate] at hlen
    refine List.eq_replicate_iff.mpr ⟨hlen, ?_⟩
    intro r hr
    have hm : r.call ∈ List.replicate t (Sample.ping, ([] : List (List Byte))) := by
      rw [← g2]
      exact List.mem_map_of_mem hr
    have hc := List.eq_of_mem_replicate hm
    have hC := (g1 r hr).1
    obtain ⟨rC, rt, rvs⟩ := r
    simp only [Request.call, Prod.mk.injEq, List.map_eq_nil_iff] at hc
    obtain ⟨rfl, rfl⟩ := hc
    rw [← hC]

end TT.Properties
