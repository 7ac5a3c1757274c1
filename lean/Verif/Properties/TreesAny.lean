import Verif.Properties.Trees

/-!
# Properties C92 and C129 at any time
-/

namespace TT.Properties
open Spec

variable {C : Collection} {B : Build} {user : UserCode} {fuel : Nat}

/-- `zs` consists of the first few elements of each of the lists in `xss`, those of each list in their order. -/
def Begun {α : Type} (xss : List (List α)) (zs : List α) : Prop :=
  ∃ yss : List (List α), yss.length = xss.length ∧
    (∀ (i : Nat) ys xs, yss[i]? = some ys → xss[i]? = some xs → ys <+: xs) ∧ Interleaved yss zs

theorem Interleaved.begun {α : Type} {xss : List (List α)} {zs zs' : List α} (h : Interleaved xss zs) (hp : zs' <+: zs) :
    Begun xss zs' := by
  obtain ⟨l, ⟨h1, h2⟩, h3⟩ := h
  have hz : zs' = zs.take zs'.length := (List.prefix_iff_eq_take.mp hp)
  generalize zs'.length = n at hz
  subst hz
  have hcount : ∀ i xs, xss[i]? = some xs →
      (((l.take n).filter fun p => p.1 == i).map (·.2)) = List.range ((l.take n).filter fun p => p.1 == i).length ∧
      ((l.take n).filter fun p => p.1 == i).length ≤ xs.length := by
    intro i xs hi
    have e := h2 i xs.length (by simp [hi])
    have hpre : ((l.take n).filter fun p => p.1 == i).map (·.2) <+: List.range xs.length := by
      rw [← e]
      exact ((List.take_prefix n l).filter _).map _
    have hle : ((l.take n).filter fun p => p.1 == i).length ≤ xs.length := by
      simpa using hpre.length_le
    refine ⟨?_, hle⟩
    have := List.prefix_iff_eq_take.mp hpre
    rw [List.length_map, List.take_range, Nat.min_eq_left hle] at this
    exact this
  refine ⟨xss.mapIdx fun i xs => xs.take ((l.take n).filter fun p => p.1 == i).length, by simp, ?_, l.take n, ⟨?_, ?_⟩, ?_⟩
  · intro i ys xs hy hx
    rw [List.getElem?_mapIdx, hx] at hy
    obtain rfl := Option.some.inj hy
    exact List.take_prefix _ _
  · intro p hp'
    have := h1 p (List.mem_of_mem_take hp')
    simpa using this
  · intro i k hi
    rw [List.getElem?_map, List.getElem?_mapIdx] at hi
    cases hx : xss[i]? with
    | none => rw [hx] at hi; simp at hi
    | some xs =>
      rw [hx] at hi
      obtain ⟨a, b⟩ := hcount i xs hx
      simp only [Option.map_some, List.length_take, Option.some.injEq] at hi
      rw [Nat.min_eq_left b] at hi
      rw [a, hi]
  · rw [List.map_take, h3, ← List.map_take]
    refine List.map_congr_left fun p hp' => ?_
    unfold turnOf
    rw [List.getElem?_mapIdx]
    cases hx : xss[p.1]? with
    | none => rfl
    | some xs =>
      obtain ⟨a, b⟩ := hcount p.1 xs hx
      simp only [Option.map_some, Option.bind_some]
      have : p.2 ∈ (((l.take n).filter fun q => q.1 == p.1).map (·.2)) :=
        List.mem_map.mpr ⟨p, List.mem_filter.mpr ⟨hp', by simp⟩, rfl⟩
      rw [a, List.mem_range] at this
      rw [List.getElem?_take_of_lt this]

theorem Begun.begun {α : Type} {xss : List (List α)} {zs zs' : List α} (h : Begun xss zs) (hp : zs' <+: zs) :
    Begun xss zs' := by
  obtain ⟨yss, h1, h2, h3⟩ := h
  obtain ⟨us, k1, k2, k3⟩ := h3.begun hp
  refine ⟨us, k1.trans h1, ?_, k3⟩
  intro i u xs hu hx
  have hi : i < yss.length := by
    have := (List.getElem?_eq_some_iff.mp hu).1
    omega
  exact (k2 i u yss[i] hu (List.getElem?_eq_getElem hi)).trans (h2 i yss[i] xs (List.getElem?_eq_getElem hi) hx)

theorem Begun.map {α β : Type} (f : α → β) {xss : List (List α)} {zs : List α} (h : Begun xss zs) :
    Begun (xss.map (List.map f)) (zs.map f) := by
  obtain ⟨yss, h1, h2, h3⟩ := h
  refine ⟨yss.map (List.map f), by simpa using h1, ?_, h3.map f⟩
  intro i ys xs hy hx
  rw [List.getElem?_map] at hy hx
  obtain ⟨ys', a, rfl⟩ := Option.map_eq_some_iff.mp hy
  obtain ⟨xs', b, rfl⟩ := Option.map_eq_some_iff.mp hx
  exact (h2 i ys' xs' a b).map f

theorem Begun.of_map {α β : Type} (f : α → β) {xss : List (List α)} {zs : List β}
    (h : Begun (xss.map (List.map f)) zs) : ∃ ws, Begun xss ws ∧ zs = ws.map f := by
  obtain ⟨yss, h1, h2, h3⟩ := h
  have e : yss = (xss.mapIdx fun i xs => xs.take (yss[i]?.getD []).length).map (List.map f) := by
    apply List.ext_getElem?
    intro i
    rw [List.getElem?_map, List.getElem?_mapIdx]
    cases hx : xss[i]? with
    | none =>
      simp only [Option.map_none]
      rw [List.getElem?_eq_none_iff] at hx ⊢
      simp only [List.length_map] at h1
      omega
    | some xs =>
      have hi : i < yss.length := by
        have := (List.getElem?_eq_some_iff.mp hx).1
        simp only [List.length_map] at h1
        omega
      rw [List.getElem?_eq_getElem hi]
      simp only [Option.map_some, Option.getD_some, Option.some.injEq]
      have := h2 i yss[i] (xs.map f) (List.getElem?_eq_getElem hi) (by simp [hx])
      rw [List.map_take]
      exact List.prefix_iff_eq_take.mp this
  rw [e] at h3
  obtain ⟨ws, h4, h5⟩ := Interleaved.of_map f h3
  refine ⟨ws, ⟨_, by simp, ?_, h4⟩, h5⟩
  intro i ys xs hy hx
  rw [List.getElem?_mapIdx, hx] at hy
  obtain rfl := Option.some.inj hy
  exact List.take_prefix _ _

theorem Begun.mem {α : Type} {xss : List (List α)} {zs : List α} (h : Begun xss zs) {z : α} (hz : z ∈ zs) :
    ∃ xs ∈ xss, z ∈ xs := by
  obtain ⟨yss, h1, h2, h3⟩ := h
  obtain ⟨ys, hy, hzy⟩ := h3.mem hz
  obtain ⟨i, hi, rfl⟩ := List.mem_iff_getElem.mp hy
  have hi2 : i < xss.length := by omega
  exact ⟨xss[i], List.getElem_mem hi2,
    (h2 i _ _ (List.getElem?_eq_getElem hi) (List.getElem?_eq_getElem hi2)).subset hzy⟩

/-- C92, at any time, for any number of senders: whatever has been sent, has got onto the line, has arrived and has been
processed by now, the handler calls are the first few messages of each sender, in the order sent, and nothing else. -/
theorem C92_any_time (S : Setting C B user) (hn : NeverThrows user) (rss : List (List Request))
    (hrs : ∀ rs ∈ rss, ∀ r ∈ rs, r.Good C) {line : List (List Byte)}
    (hline : Begun (rss.map fun rs => rs.map fun r => wire r.C r.t r.vs) line)
    {ops : List Op} {w : World C} {os : List Obs} (h : Reached B user fuel ops w os) (hfed : w.fed <+: line.flatten) :
    Begun (rss.map fun rs => rs.map fun r => (r.t, r.vs.map (·.bytes))) (delivered w) := by
  obtain ⟨ws, hm, rfl⟩ := Begun.of_map (fun r : Request => wire r.C r.t r.vs) hline
  have hws : ∀ r ∈ ws, r.Good C := fun r hr => by
    obtain ⟨rs, h1, h2⟩ := hm.mem hr
    exact hrs rs h1 r h2
  obtain ⟨ms, k1, k2⟩ := h.partly S hn
  have hfr : (ws.map fun r => wire r.C r.t r.vs).flatten = frames C.envelope (ws.map Request.msg) := by
    rw [frames, List.map_map]
    exact congrArg List.flatten (List.map_congr_left fun r hr => (hws r hr).wire)
  rw [hfr] at hfed
  have hm2 : ∀ m ∈ ws.map Request.msg, IsMsg C m := by
    intro m h
    obtain ⟨r, hr, rfl⟩ := List.mem_map.mp h
    exact (hws r hr).isMsg
  have hpre : delivered w <+: ws.map Request.call := by
    rw [k2, ← map_meaning hws]
    exact (run_clean hm2 k1 hfed).map _
  exact (hm.map Request.call).begun hpre

/-- At some moment: what those below a program have sent so far is on its way, the first few messages of each of them have
got onto its line, and a part of the bytes on the line has arrived. -/
inductive TreeAt : Tree → Prop where
  | source {rs : List Request} : TreeAt (.source rs)
  | station {x : Station} {below : List Tree} {line : List (List Byte)} : x.Ok →
      (∀ rs, Tree.source rs ∈ below → ∀ r ∈ rs, r.Good x.C) →
      (∀ t ∈ below, TreeAt t) →
      Begun (below.map fun t => (t.output x.C).map fun r => wire r.C r.t r.vs) line →
      x.w.fed <+: line.flatten → TreeAt (.station x below)

theorem output_calls_at {x : Station} (hx : x.Ok) {t : Tree} (ht : TreeAt t)
    (hg : ∀ rs, t = .source rs → ∀ r ∈ rs, r.Good x.C) :
    (∀ r ∈ t.output x.C, r.Good x.C) ∧
      (t.output x.C).map Request.call = t.calls.filter fun c => decide (c.1 ∈ x.C.messages) := by
  cases t with
  | source rs =>
    refine ⟨hg rs rfl, ?_⟩
    show rs.map Request.call = _
    symm
    rw [Tree.calls, List.filter_eq_self]
    intro c hc
    obtain ⟨r, hr, rfl⟩ := List.mem_map.mp hc
    exact decide_eq_true (hg rs rfl r hr).2.1.2.1
  | station y below =>
    cases ht with
    | station hy => exact hy.passedOn_good hx.ids

theorem TreeAt.attributed {t : Tree} (h : TreeAt t) : ∃ l : List (List Nat × Call), l.map (·.2) = t.calls ∧
    ∀ p, (l.filter fun e => e.1 == p).map (·.2) <+: t.expected p := by
  induction h with
  | @source rs =>
    refine ⟨(rs.map Request.call).map fun c => ([], c), by simp [Tree.calls, Function.comp_def], ?_⟩
    intro p
    cases p with
    | nil => simp [Tree.expected, Tree.at, Function.comp_def, List.filter_map, shared]
    | cons i p => simp [Tree.expected, Tree.at, Function.comp_def, List.filter_map]
  | @station x below line hx hg hs hline hfed ih =>
    obtain ⟨Ls, hlen, hL⟩ := lists_of_all ih
    have hout := fun t (ht : t ∈ below) => output_calls_at hx (hs t ht) fun rs e => hg rs (e ▸ ht)
    have hd : Begun (below.map fun t => (t.output x.C).map Request.call) (delivered x.w) := by
      have := C92_any_time hx.setting hx.calm (below.map fun t => t.output x.C)
        (by
          intro rs hrs r hr
          obtain ⟨t, ht, rfl⟩ := List.mem_map.mp hrs
          exact (hout t ht).1 r hr)
        (by rw [List.map_map]; exact hline) hx.reached hfed
      rw [List.map_map] at this
      exact this
    let M : List (List (List Nat × Call)) := Ls.mapIdx fun i L =>
      (L.filter fun e => decide (e.2.1 ∈ x.C.messages)).map fun e => (i :: e.1, e.2)
    have hM : (below.map fun t => (t.output x.C).map Request.call) = M.map (List.map (·.2)) := by
      apply List.ext_getElem?
      intro i
      simp only [M, List.getElem?_map, List.getElem?_mapIdx]
      cases hb : below[i]? with
      | none =>
        have : Ls[i]? = none := by
          rw [List.getElem?_eq_none_iff] at hb ⊢
          omega
        rw [this]; rfl
      | some t =>
        have hi2 : i < Ls.length := by
          have := (List.getElem?_eq_some_iff.mp hb).1
          omega
        have hb2 : Ls[i]? = some Ls[i] := List.getElem?_eq_getElem hi2
        obtain ⟨e1, _⟩ := hL i t Ls[i] hb hb2
        rw [hb2]
        simp only [Option.map_some, Option.some.injEq, List.map_map]
        rw [(hout t (List.mem_of_getElem? hb)).2, ← e1, List.filter_map]
        rfl
    rw [hM] at hd
    obtain ⟨ws, ⟨yss, hy1, hy2, hw⟩, e⟩ := Begun.of_map _ hd
    -- every list of the interleaving, with its number
    have hyM : ∀ (k : Nat) ys, yss[k]? = some ys → ∃ L : List (List Nat × Call), Ls[k]? = some L ∧
        ys <+: (L.filter fun e => decide (e.2.1 ∈ x.C.messages)).map fun e => (k :: e.1, e.2) := by
      intro k ys hk
      have hk2 : k < M.length := by
        have := (List.getElem?_eq_some_iff.mp hk).1
        omega
      have hk3 : k < Ls.length := by simpa [M] using hk2
      refine ⟨Ls[k], List.getElem?_eq_getElem hk3, ?_⟩
      have := hy2 k ys M[k] hk (List.getElem?_eq_getElem hk2)
      simpa [M] using this
    refine ⟨ws, e.symm, ?_⟩
    intro p
    cases p with
    | nil =>
      have : (ws.filter fun e => e.1 == []) = [] := by
        rw [List.filter_eq_nil_iff]
        intro a ha
        obtain ⟨ys, h1, h2⟩ := hw.mem ha
        obtain ⟨k, hk⟩ := List.getElem?_of_mem h1
        obtain ⟨L, _, hp⟩ := hyM k ys hk
        obtain ⟨b, _, rfl⟩ := List.mem_map.mp (hp.subset h2)
        simp
      rw [this]
      exact List.nil_prefix
    | cons i p =>
      rw [hw.filter_one (fun e => e.1 == i :: p) i]
      · cases hy : yss[i]? with
        | none => exact List.nil_prefix
        | some ys =>
          obtain ⟨L, hb2, hpre⟩ := hyM i ys hy
          have hi3 : i < below.length := by
            have := (List.getElem?_eq_some_iff.mp hb2).1
            omega
          have hb : below[i]? = some below[i] := List.getElem?_eq_getElem hi3
          obtain ⟨_, e2⟩ := hL i below[i] L hb hb2
          refine ((hpre.filter _).map _).trans ?_
          simp only [List.filter_map, List.map_map, List.filter_filter]
          have e3 : (L.filter fun a => ((fun e => e.1 == i :: p) ∘ fun e : List Nat × Call => (i :: e.1, e.2)) a &&
              decide (a.2.1 ∈ x.C.messages)) =
              (L.filter fun a => a.1 == p).filter fun a => decide (a.2.1 ∈ x.C.messages) := by
            rw [List.filter_filter]
            apply List.filter_congr
            intro a _
            simp only [Function.comp]
            rw [Bool.and_comm]
            congr 1
            by_cases ha : a.1 = p <;> simp [ha]
          rw [e3]
          have e4 := (e2 p).filter fun c : Call => decide (c.1 ∈ x.C.messages)
          rw [List.filter_map] at e4
          refine List.IsPrefix.trans (l₂ := List.filter (fun c : Call => decide (c.1 ∈ x.C.messages)) (below[i].expected p)) e4 ?_
          simp only [Tree.expected, Tree.at, hb, Option.bind_some]
          cases ht : below[i].at p with
          | none => exact List.nil_prefix
          | some q =>
            simp only [Option.map_some]
            rw [List.filter_map, List.filter_filter]
            exact List.prefix_refl _
      · intro k ys hk hki a ha
        obtain ⟨L, _, hpre⟩ := hyM k ys hk
        obtain ⟨b, _, rfl⟩ := List.mem_map.mp (hpre.subset ha)
        simp [hki]

/-- C129, at any time. Whatever has got onto which line, has arrived and has been processed where by now: each call that the
program at the root has made can be traced back along a path to a sender, so that those that come from one sender are the
first ones of that sender's messages of types that all programs on the path have, each once, in the order sent and with the
contents sent. -/
theorem C129_any_time {x : Station} {below : List Tree} (h : TreeAt (.station x below)) :
    ∃ l : List (List Nat × Call), l.map (·.2) = delivered x.w ∧
      ∀ p, (l.filter fun e => e.1 == p).map (·.2) <+: Tree.expected (.station x below) p := h.attributed

theorem Interleaved.whole {α : Type} {xss : List (List α)} {zs : List α} (h : Interleaved xss zs) : Begun xss zs :=
  h.begun (List.prefix_refl _)

/-- Two messages to the second program, from different sides. -/
def earlyLine : List (List Byte) := [frame .basic ⟨2, []⟩, frame .basic ⟨2, []⟩]

/-- It happens: the first program has got twenty bytes, handled two messages and passed on one; of the two messages on the
line of the second one, seven bytes have arrived. -/
example : ∃ x y : Station,
    TreeAt (.station y [.source lateSender, .station x [.source requests3, .source otherSender]]) ∧
    (delivered x.w).length = 2 ∧ (delivered y.w).length = 1 := by
  obtain ⟨w1, os1, k1, p1, f1⟩ := station_of Sample.setting_checked (by decide)
    ([.setHandler Sample.h0, .append (firstLine.flatten.take 20)] ++ [.process]) (by simp)
    (fun w => decide ((delivered w).length = 2) && decide (
      (((w.trace.filter fun i => i.msg ∈ otherSide.messages).map (forward otherSide)).map fun r => wire r.C r.t r.vs) =
        [frame .basic ⟨2, []⟩])) (Sample.reached (fun w _ => _) (by decide +kernel))
  obtain ⟨w2, os2, k2, p2, f2⟩ := station_of setting_other (by decide)
    ([.setHandler Sample.h0, .append (earlyLine.flatten.take 7)] ++ [.process]) (by simp)
    (fun w => decide ((delivered w).length = 1)) (Sample.reached (fun w _ => _) (by decide +kernel))
  simp only [Bool.and_eq_true, decide_eq_true_eq] at p1 p2
  refine ⟨⟨Sample.checked, Sample.dbg, Sample.passive, 50,
    [.setHandler Sample.h0, .append (firstLine.flatten.take 20)] ++ [.process],
    w1, os1⟩, ⟨_, _, _, _, _, w2, os2⟩, .station (line := earlyLine) k2 ?_ ?_ ?_ ?_, p1.1, p2⟩
  · intro rs hrs
    simp only [List.mem_cons, Tree.source.injEq, reduceCtorEq, List.not_mem_nil, or_false] at hrs
    subst hrs
    show ∀ r ∈ lateSender, r.Good otherSide
    decide +kernel
  · intro t ht
    simp only [List.mem_cons, List.not_mem_nil, or_false] at ht
    rcases ht with rfl | rfl
    · exact .source
    · refine .station (line := firstLine) k1 ?_ ?_ ?_ ?_
      · intro rs hrs
        simp only [List.mem_cons, Tree.source.injEq, List.not_mem_nil, or_false] at hrs
        rcases hrs with rfl | rfl
        · show ∀ r ∈ requests3, r.Good Sample.checked
          decide +kernel
        · show ∀ r ∈ otherSender, r.Good Sample.checked
          decide +kernel
      · intro t ht
        simp only [List.mem_cons, List.not_mem_nil, or_false] at ht
        rcases ht with rfl | rfl <;> exact .source
      · refine Interleaved.whole ?_
        show Interleaved [requests3.map fun r => wire r.C r.t r.vs, otherSender.map fun r => wire r.C r.t r.vs] firstLine
        exact ⟨[(0, 0), (1, 0), (0, 1), (1, 1), (0, 2)], turns_two (by decide) (by decide) (by decide), by decide +kernel⟩
      · show w1.fed <+: _
        rw [f1]
        exact ⟨firstLine.flatten.drop 20, by simp [chunks]⟩
  · refine Interleaved.whole ⟨[(1, 0), (0, 0)], ?_, ?_⟩
    · show Turns [1, (((w1.trace.filter fun i => i.msg ∈ otherSide.messages).map (forward otherSide)).map
        fun r => wire r.C r.t r.vs).length] _
      rw [p1.2]
      exact turns_two (by decide) (by decide) (by decide)
    · show _ = List.map (turnOf [lateSender.map fun r => wire r.C r.t r.vs,
        ((w1.trace.filter fun i => i.msg ∈ otherSide.messages).map (forward otherSide)).map fun r => wire r.C r.t r.vs]) _
      rw [p1.2]
      decide +kernel
  · show w2.fed <+: _
    rw [f2]
    exact ⟨earlyLine.flatten.drop 7, by simp [chunks]⟩

end TT.Properties
