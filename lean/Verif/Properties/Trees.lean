import Verif.Properties.Routes
import Verif.Properties.ManySenders

/-!
# Property C129: trees of programs that collect messages
-/

namespace TT.Properties
open Spec

/-- Where messages come from: somebody who has made these `send` calls, or a program that passes on what it receives from
several others, who share a line. -/
inductive Tree where
  | source (rs : List Request)
  | station (x : Station) (below : List Tree)

/-- The `send` calls made towards a program with the collection `D`. -/
def Tree.output (D : Collection) : Tree → List Request
  | .source rs => rs
  | .station x _ => x.passedOn D

/-- The types and contents of all messages sent or handled at the root. -/
def Tree.calls : Tree → List Call
  | .source rs => rs.map Request.call
  | .station x _ => delivered x.w

/-- Everything has arrived everywhere and been processed. The messages of those below a program have got onto its line one
at a time, in some order. -/
inductive TreeDone : Tree → Prop where
  | source {rs : List Request} : TreeDone (.source rs)
  | station {x : Station} {below : List Tree} {line : List (List Byte)} : x.Ok → x.Idle →
      (∀ rs, Tree.source rs ∈ below → ∀ r ∈ rs, r.Good x.C) →
      (∀ t ∈ below, TreeDone t) →
      Interleaved (below.map fun t => (t.output x.C).map fun r => wire r.C r.t r.vs) line →
      x.w.fed = line.flatten → TreeDone (.station x below)

/-- Who is at the end of this path, and which programs are on the way. -/
def Tree.at : Tree → List Nat → Option (List Station × List Request)
  | .source rs, [] => some ([], rs)
  | .source _, _ :: _ => none
  | .station _ _, [] => none
  | .station x below, i :: p => below[i]?.bind fun t => (t.at p).map fun q => (x :: q.1, q.2)

/-- What should come from there: the messages of types that all programs on the way have. -/
def Tree.expected (t : Tree) (p : List Nat) : List Call :=
  match t.at p with
  | some q => (q.2.filter fun r => shared q.1 r.t).map Request.call
  | none => []

/-- An element that only one of the lists can have: the order is that of this list. -/
theorem Interleaved.filter_one {α : Type} {xss : List (List α)} {zs : List α} (h : Interleaved xss zs) (q : α → Bool)
    (i : Nat) (hq : ∀ k xs, xss[k]? = some xs → k ≠ i → ∀ x ∈ xs, q x = false) :
    zs.filter q = (xss[i]?.getD []).filter q := by
  obtain ⟨l, ⟨h1, h2⟩, h3⟩ := h
  let q' : Option α → Bool := fun o => o.any q
  have e1 : ∀ ys : List α, (ys.filter q).map some = (ys.map some).filter q' := by
    intro ys
    rw [List.filter_map]
    rfl
  have hinj : ∀ a b : List α, a.map some = b.map some → a = b := by
    intro a b hab
    exact List.map_inj_right (fun _ _ => Option.some.inj) |>.mp hab
  apply hinj
  rw [e1, h3, e1]
  have e2 : (l.map (turnOf xss)).filter q' = ((l.filter fun p => p.1 == i).map (turnOf xss)).filter q' := by
    rw [List.filter_map, List.filter_map, List.filter_filter]
    congr 1
    apply List.filter_congr
    intro p _
    by_cases hp : p.1 = i
    · simp [hp]
    · have : q' (turnOf xss p) = false := by
        unfold turnOf
        cases hx : xss[p.1]? with
        | none => rfl
        | some xs =>
          show q' (xs[p.2]?) = false
          cases hx2 : xs[p.2]? with
          | none => rfl
          | some x => exact hq p.1 xs hx hp x (List.mem_of_getElem? hx2)
      simp [this]
  rw [e2]
  congr 1
  cases hx : xss[i]? with
  | none =>
    have : (l.filter fun p => p.1 == i) = [] := by
      rw [List.filter_eq_nil_iff]
      intro p hp hpi
      have := h1 p hp
      rw [List.length_map] at this
      rw [List.getElem?_eq_none_iff] at hx
      have : p.1 = i := by simpa using hpi
      omega
    rw [this]
    rfl
  | some xs =>
    have e3 : (l.filter fun p => p.1 == i).map (turnOf xss) = ((l.filter fun p => p.1 == i).map (·.2)).map (xs[·]?) := by
      rw [List.map_map]
      refine List.map_congr_left fun p hp => ?_
      have : p.1 = i := by simpa using (List.mem_filter.mp hp).2
      simp [turnOf, this, hx]
    rw [e3, h2 i xs.length (by simp [hx])]
    show _ = xs.map some
    apply List.ext_getElem?
    intro j
    simp only [List.getElem?_map]
    by_cases hj : j < xs.length
    · simp [hj]
    · simp [hj]

/-- Calls with the paths they have come along. -/
def Attributed (t : Tree) (cs : List Call) : Prop :=
  ∃ l : List (List Nat × Call), l.map (·.2) = cs ∧ ∀ p, (l.filter fun e => e.1 == p).map (·.2) = t.expected p

theorem lists_of_all {α β : Type} {P : α → β → Prop} : ∀ {l : List α}, (∀ a ∈ l, ∃ b, P a b) →
    ∃ bs : List β, bs.length = l.length ∧ ∀ (i : Nat) (a : α) (b : β), l[i]? = some a → bs[i]? = some b → P a b
  | [], _ => ⟨[], rfl, by simp⟩
  | a :: l, h => by
    obtain ⟨b, hb⟩ := h a (by simp)
    obtain ⟨bs, h1, h2⟩ := lists_of_all (l := l) (P := P) fun a' h' => h a' (by simp [h'])
    refine ⟨b :: bs, by simp [h1], ?_⟩
    intro i a' b' ha hb'
    cases i with
    | zero =>
      simp only [List.getElem?_cons_zero, Option.some.injEq] at ha hb'
      rw [← ha, ← hb']; exact hb
    | succ i => exact h2 i a' b' (by simpa using ha) (by simpa using hb')

theorem output_calls {x : Station} (hx : x.Ok) {t : Tree} (ht : TreeDone t)
    (hg : ∀ rs, t = .source rs → ∀ r ∈ rs, r.Good x.C) :
    (∀ r ∈ t.output x.C, r.Good x.C) ∧
      (t.output x.C).map Request.call = t.calls.filter fun c => decide (c.1 ∈ x.C.messages) := by
  cases t with
  | source rs =>
    refine ⟨hg rs rfl, ?_⟩
    show rs.map Request.call = _
    symm
    rw [Tree.calls, List.filter_eq_self]
    intro c hc
    obtain ⟨r, hr, rfl⟩ := List.mem_map.mp hc
    exact decide_eq_true (hg rs rfl r hr).2.1.2.1
  | station y below =>
    cases ht with
    | station hy => exact hy.passedOn_good hx.ids

theorem TreeDone.attributed {t : Tree} (h : TreeDone t) : Attributed t t.calls := by
  induction h with
  | @source rs =>
    refine ⟨(rs.map Request.call).map fun c => ([], c), by simp [Tree.calls, Function.comp_def], ?_⟩
    intro p
    cases p with
    | nil => simp [Tree.expected, Tree.at, Function.comp_def, List.filter_map, shared]
    | cons i p => simp [Tree.expected, Tree.at, Function.comp_def, List.filter_map]
  | @station x below line hx hi hg hs hline hfed ih =>
    obtain ⟨Ls, hlen, hL⟩ := lists_of_all ih
    have hout := fun t (ht : t ∈ below) => output_calls hx (hs t ht) fun rs e => hg rs (e ▸ ht)
    -- what this program has handled
    have hd : Interleaved (below.map fun t => (t.output x.C).map Request.call) (delivered x.w) := by
      obtain ⟨C, B, user, fuel, ops, w, os⟩ := x
      obtain ⟨⟨ops', rfl⟩, hh⟩ := hi
      have := (C92_many hx.setting hx.calm (below.map fun t => t.output C)
        (by
          intro rs hrs r hr
          obtain ⟨t, ht, rfl⟩ := List.mem_map.mp hrs
          exact (hout t ht).1 r hr)
        (by rw [List.map_map]; exact hline) hx.reached hh hfed).1
      rw [List.map_map] at this
      exact this
    -- the same with paths
    let M : List (List (List Nat × Call)) := Ls.mapIdx fun i L =>
      (L.filter fun e => decide (e.2.1 ∈ x.C.messages)).map fun e => (i :: e.1, e.2)
    have hM : (below.map fun t => (t.output x.C).map Request.call) = M.map (List.map (·.2)) := by
      apply List.ext_getElem?
      intro i
      simp only [M, List.getElem?_map, List.getElem?_mapIdx]
      cases hb : below[i]? with
      | none =>
        have : Ls[i]? = none := by
          rw [List.getElem?_eq_none_iff] at hb ⊢
          omega
        rw [this]; rfl
      | some t =>
        have hi2 : i < Ls.length := by
          have := (List.getElem?_eq_some_iff.mp hb).1
          omega
        have hb2 : Ls[i]? = some Ls[i] := List.getElem?_eq_getElem hi2
        obtain ⟨e1, _⟩ := hL i t Ls[i] hb hb2
        rw [hb2]
        simp only [Option.map_some, Option.some.injEq, List.map_map]
        rw [(hout t (List.mem_of_getElem? hb)).2, ← e1, List.filter_map]
        rfl
    rw [hM] at hd
    obtain ⟨ws, hw, e⟩ := Interleaved.of_map _ hd
    refine ⟨ws, e.symm, ?_⟩
    intro p
    cases p with
    | nil =>
      have : (ws.filter fun e => e.1 == []) = [] := by
        rw [List.filter_eq_nil_iff]
        intro a ha
        obtain ⟨xs, h1, h2⟩ := hw.mem ha
        obtain ⟨i, hi3, rfl⟩ := List.mem_mapIdx.mp h1
        obtain ⟨b, _, rfl⟩ := List.mem_map.mp h2
        simp
      rw [this]
      rfl
    | cons i p =>
      rw [hw.filter_one (fun e => e.1 == i :: p) i]
      · simp only [M, List.getElem?_mapIdx]
        cases hb : below[i]? with
        | none =>
          have : Ls[i]? = none := by
            rw [List.getElem?_eq_none_iff] at hb ⊢
            omega
          rw [this]
          simp [Tree.expected, Tree.at, hb]
        | some t =>
          have hi2 : i < Ls.length := by
            have := (List.getElem?_eq_some_iff.mp hb).1
            omega
          have hb2 : Ls[i]? = some Ls[i] := List.getElem?_eq_getElem hi2
          obtain ⟨_, e2⟩ := hL i t Ls[i] hb hb2
          rw [hb2]
          simp only [Option.map_some, Option.getD_some, List.filter_map, List.map_map, List.filter_filter]
          have e3 : (Ls[i].filter fun a => ((fun e => e.1 == i :: p) ∘ fun e : List Nat × Call => (i :: e.1, e.2)) a &&
              decide (a.2.1 ∈ x.C.messages)) =
              (Ls[i].filter fun a => a.1 == p).filter fun a => decide (a.2.1 ∈ x.C.messages) := by
            rw [List.filter_filter]
            apply List.filter_congr
            intro a _
            simp only [Function.comp]
            rw [Bool.and_comm]
            congr 1
            by_cases ha : a.1 = p <;> simp [ha]
          rw [e3]
          have e4 := congrArg (List.filter fun c : Call => decide (c.1 ∈ x.C.messages)) (e2 p)
          rw [List.filter_map] at e4
          refine Eq.trans ?_ (e4.trans ?_)
          · rfl
          · simp only [Tree.expected, Tree.at, hb, Option.bind_some]
            cases ht : t.at p with
            | none => rfl
            | some q =>
              simp only [Option.map_some]
              rw [List.filter_map, List.filter_filter]
              rfl
      · intro k xs hk hki a ha
        simp only [M, List.getElem?_mapIdx] at hk
        cases hb2 : Ls[k]? with
        | none => rw [hb2] at hk; simp at hk
        | some L =>
          rw [hb2] at hk
          simp only [Option.map_some, Option.some.injEq] at hk
          subst hk
          obtain ⟨b, _, rfl⟩ := List.mem_map.mp ha
          simp [hki]

/-- C129. Programs collect messages from senders and from other programs and pass them on, towards one program at the root,
each with a collection, envelope, build, transmitter and way of polling of its own; those who send to the same program
share a line message by message. When everything has arrived and been processed, each call the program at the root has
made can be traced back along a path to a sender, so that those that come from one sender are exactly that sender's
messages of types that all programs on the path have, each once, in the order sent and with the contents sent. -/
theorem C129_tree {x : Station} {below : List Tree} (h : TreeDone (.station x below)) :
    ∃ l : List (List Nat × Call), l.map (·.2) = delivered x.w ∧
      ∀ p, (l.filter fun e => e.1 == p).map (·.2) = Tree.expected (.station x below) p := h.attributed

/-- C129. No program in the tree keeps any bytes. -/
theorem C129_empty {x : Station} {below : List Tree} (h : TreeDone (.station x below)) : buffered x.w = [] := by
  cases h with
  | @station _ _ line hx hi hg hs hline hfed =>
    have hout := fun t (ht : t ∈ below) => output_calls hx (hs t ht) fun rs e => hg rs (e ▸ ht)
    obtain ⟨C, B, user, fuel, ops, w, os⟩ := x
    obtain ⟨⟨ops', rfl⟩, hh⟩ := hi
    exact (C92_many hx.setting hx.calm (below.map fun t => t.output C)
      (by
        intro rs hrs r hr
        obtain ⟨t, ht, rfl⟩ := List.mem_map.mp hrs
        exact (hout t ht).1 r hr)
      (by rw [List.map_map]; exact hline) hx.reached hh hfed).2

/-- What another sender sends to the first program. -/
def otherSender : List Request :=
  [⟨Sample.checked, Sample.level, [⟨.uint8, [9]⟩]⟩, ⟨Sample.checked, Sample.ping, []⟩]

/-- What somebody sends to the second program. -/
def lateSender : List Request := [⟨otherSide, Sample.ping, []⟩]

/-- The line of the first program. -/
def firstLine : List (List Byte) :=
  [(0, 0), (1, 0), (0, 1), (1, 1), (0, 2)].filterMap
    (turnOf [requests3.map fun r => wire r.C r.t r.vs, otherSender.map fun r => wire r.C r.t r.vs])

/-- What the first program passes on. -/
def passedThere : List (List Byte) := [frame .basic ⟨2, []⟩, frame .basic ⟨1, Sample.mPose.payload⟩, frame .basic ⟨2, []⟩]

/-- The line of the second program. -/
def secondLine : List (List Byte) :=
  [(1, 0), (0, 0), (1, 1), (1, 2)].filterMap (turnOf [lateSender.map fun r => wire r.C r.t r.vs, passedThere])

theorem turns_two {a b : Nat} {l : List (Nat × Nat)} (h0 : ∀ p ∈ l, p.1 < 2)
    (h1 : (l.filter fun p => p.1 == 0).map (·.2) = List.range a)
    (h2 : (l.filter fun p => p.1 == 1).map (·.2) = List.range b) : Turns [a, b] l := by
  refine ⟨h0, ?_⟩
  intro i n h
  match i, h with
  | 0, h => obtain rfl : a = n := by simpa using h
            exact h1
  | 1, h => obtain rfl : b = n := by simpa using h
            exact h2
  | i + 2, h => simp at h

/-- It happens: two senders share the line of one program; a third one shares the line on which that program passes on what
it can. -/
example : ∃ x y : Station,
    TreeDone (.station y [.source lateSender, .station x [.source requests3, .source otherSender]]) ∧
    (delivered x.w).length = 5 ∧ (delivered y.w).length = 4 := by
  obtain ⟨w1, os1, k1, p1, f1⟩ := station_of Sample.setting_checked (by decide)
    ([.setHandler Sample.h0, .append (firstLine.flatten.take 20), .process, .append (firstLine.flatten.drop 20)] ++ [.process])
    (by simp)
    (fun w => w.rx.hasHandler && decide ((delivered w).length = 5) && decide (
      (((w.trace.filter fun i => i.msg ∈ otherSide.messages).map (forward otherSide)).map fun r => wire r.C r.t r.vs) =
        passedThere)) (Sample.reached (fun w _ => _) (by decide +kernel))
  obtain ⟨w2, os2, k2, p2, f2⟩ := station_of setting_other (by decide)
    ([.setHandler Sample.h0, .append secondLine.flatten] ++ [.process]) (by simp)
    (fun w => w.rx.hasHandler && decide ((delivered w).length = 4)) (Sample.reached (fun w _ => _) (by decide +kernel))
  simp only [Bool.and_eq_true, decide_eq_true_eq] at p1 p2
  refine ⟨⟨Sample.checked, Sample.dbg, Sample.passive, 50,
    [.setHandler Sample.h0, .append (firstLine.flatten.take 20), .process, .append (firstLine.flatten.drop 20)] ++ [.process],
    w1, os1⟩, ⟨_, _, _, _, _, w2, os2⟩, .station (line := secondLine) k2 ⟨⟨_, rfl⟩, p2.1⟩ ?_ ?_ ?_ ?_, p1.1.2, p2.2⟩
  · intro rs hrs
    simp only [List.mem_cons, Tree.source.injEq, reduceCtorEq, List.not_mem_nil, or_false] at hrs
    subst hrs
    show ∀ r ∈ lateSender, r.Good otherSide
    decide +kernel
  · intro t ht
    simp only [List.mem_cons, List.not_mem_nil, or_false] at ht
    rcases ht with rfl | rfl
    · exact .source
    · refine .station (line := firstLine) k1 ⟨⟨_, rfl⟩, p1.1.1⟩ ?_ ?_ ?_ ?_
      · intro rs hrs
        simp only [List.mem_cons, Tree.source.injEq, List.not_mem_nil, or_false] at hrs
        rcases hrs with rfl | rfl
        · show ∀ r ∈ requests3, r.Good Sample.checked
          decide +kernel
        · show ∀ r ∈ otherSender, r.Good Sample.checked
          decide +kernel
      · intro t ht
        simp only [List.mem_cons, List.not_mem_nil, or_false] at ht
        rcases ht with rfl | rfl <;> exact .source
      · show Interleaved [requests3.map fun r => wire r.C r.t r.vs, otherSender.map fun r => wire r.C r.t r.vs] firstLine
        exact ⟨[(0, 0), (1, 0), (0, 1), (1, 1), (0, 2)], turns_two (by decide) (by decide) (by decide), by decide +kernel⟩
      · show w1.fed = _
        rw [f1]; decide +kernel
  · refine ⟨[(1, 0), (0, 0), (1, 1), (1, 2)], ?_, ?_⟩
    · show Turns [1, (((w1.trace.filter fun i => i.msg ∈ otherSide.messages).map (forward otherSide)).map
        fun r => wire r.C r.t r.vs).length] _
      rw [p1.2]
      exact turns_two (by decide) (by decide) (by decide)
    · show _ = List.map (turnOf [lateSender.map fun r => wire r.C r.t r.vs,
        ((w1.trace.filter fun i => i.msg ∈ otherSide.messages).map (forward otherSide)).map fun r => wire r.C r.t r.vs]) _
      rw [p1.2]
      decide +kernel
  · show w2.fed = _
    rw [f2]; decide +kernel

end TT.Properties
