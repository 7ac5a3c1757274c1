import Verif.Properties.HurtRoutes

/-!
# Property C140: messages that spread to any number of programs
-/

namespace TT.Properties
open Spec

/-- A program and those below it, to which it passes on what it handles. -/
inductive Spread
  | node (k : Link) (below : List Spread)

/-- The program at the top. -/
def Spread.top : Spread → Link
  | .node k _ => k

/-- The programs from the top down to one of them. -/
inductive Spread.Path : Spread → List Link → Prop
  | here (k : Link) (below : List Spread) : Spread.Path (.node k below) [k]
  | down {k : Link} {below : List Spread} {t : Spread} {p : List Link} (h : t ∈ below) (hp : t.Path p) :
      Spread.Path (.node k below) (k :: p)

/-- `bytes` have been written for the program at the top. Each program has passed on what it has handled so far to each of
those below it, some of which has arrived; the lines may have damaged messages. -/
inductive Spread.SoFar : List Byte → Spread → Prop
  | node {bytes : List Byte} {k : Link} {below : List Spread} (hx : k.x.Ok) (hf : k.PartFed bytes) (written : Spread → List Byte)
      (hc : ∀ t ∈ below, Carried (k.x.passedOn t.top.x.C) (written t)) (h : ∀ t ∈ below, Spread.SoFar (written t) t) :
      Spread.SoFar bytes (.node k below)

/-- The same when all that has been sent has arrived, or been damaged, and has been processed. -/
inductive Spread.Done : List Byte → Spread → Prop
  | node {bytes : List Byte} {k : Link} {below : List Spread} (hx : k.x.Ok) (hi : k.x.Idle) (hf : k.Fed bytes)
      (written : Spread → List Byte) (hc : ∀ t ∈ below, Carried (k.x.passedOn t.top.x.C) (written t))
      (h : ∀ t ∈ below, Spread.Done (written t) t) : Spread.Done bytes (.node k below)

theorem Spread.Path.head {t : Spread} {p : List Link} (h : t.Path p) : ∃ ks, p = t.top :: ks := by
  cases h with
  | here k below => exact ⟨[], rfl⟩
  | @down k below t p h hp => exact ⟨p, rfl⟩

/-- Every way down is a route. -/
theorem Spread.SoFar.route {t : Spread} {bytes : List Byte} (h : t.SoFar bytes) {p : List Link} (hp : t.Path p) : HurtSoFar bytes p := by
  induction hp generalizing bytes with
  | here k below =>
    cases h with
    | node hx hf _ _ _ => exact ⟨hx, hf⟩
  | @down k below t p ht hp ih =>
    cases h with
    | node hx hf written hc h =>
      obtain ⟨ks, rfl⟩ := hp.head
      exact ⟨hx, hf, written t, hc t ht, ih (h t ht)⟩

theorem Spread.Done.route {t : Spread} {bytes : List Byte} (h : t.Done bytes) {p : List Link} (hp : t.Path p) : HurtRoute bytes p := by
  induction hp generalizing bytes with
  | here k below =>
    cases h with
    | node hx hi hf _ _ _ => exact ⟨hx, hi, hf⟩
  | @down k below t p ht hp ih =>
    cases h with
    | node hx hi hf written hc h =>
      obtain ⟨ks, rfl⟩ := hp.head
      exact ⟨hx, hi, hf, written t, hc t ht, ih (h t ht)⟩

/-- What holds at any time holds in the end. -/
theorem Spread.Done.soFar {t : Spread} {bytes : List Byte} (h : t.Done bytes) : t.SoFar bytes := by
  induction h with
  | node hx _ hf written hc _ ih =>
    obtain ⟨sent, h1, h2, h3⟩ := hf
    exact .node hx ⟨sent, _, [], h1, h2, by rw [List.append_nil]; exact h3, List.prefix_rfl⟩ written hc ih

/-! ### Several lines at once -/

/-- A composition loses nothing if its components do not: neither what goes to the first nor what goes to the second. -/
theorem Faithful.composed {σ τ : Type} {T : Tx σ} {U : Tx τ} {lt : σ → List Byte} {lu : τ → List Byte} (hT : Faithful T lt)
    (hU : Faithful U lu) : Faithful (composition T U) (fun p => lt p.1) ∧ Faithful (composition T U) (fun p => lu p.2) := by
  have hb : ∀ (s : σ × τ) b, ∃ s', (composition T U).writeByte s b = .ok s' ∧ lt s'.1 = lt s.1 ++ [b] ∧ lu s'.2 = lu s.2 ++ [b] := by
    intro s b
    obtain ⟨s1, e1, l1⟩ := hT.byte s.1 b
    obtain ⟨u1, e2, l2⟩ := hU.byte s.2 b
    exact ⟨(s1, u1), by simp [composition, e1, e2, bind, Except.bind, pure, Except.pure], l1, l2⟩
  have hw : ∀ (s : σ × τ) bs, ∃ s', (composition T U).write s bs = .ok s' ∧ lt s'.1 = lt s.1 ++ bs ∧ lu s'.2 = lu s.2 ++ bs := by
    intro s bs
    obtain ⟨s1, e1, l1⟩ := hT.block s.1 bs
    obtain ⟨u1, e2, l2⟩ := hU.block s.2 bs
    exact ⟨(s1, u1), by simp [composition, e1, e2, bind, Except.bind, pure, Except.pure], l1, l2⟩
  refine ⟨⟨fun s b => ?_, fun s bs => ?_, fun s => ⟨s, rfl, rfl⟩⟩, ⟨fun s b => ?_, fun s bs => ?_, fun s => ⟨s, rfl, rfl⟩⟩⟩
  · obtain ⟨s', e, l, _⟩ := hb s b
    exact ⟨s', e, l⟩
  · obtain ⟨s', e, l, _⟩ := hw s bs
    exact ⟨s', e, l⟩
  · obtain ⟨s', e, _, l⟩ := hb s b
    exact ⟨s', e, l⟩
  · obtain ⟨s', e, _, l⟩ := hw s bs
    exact ⟨s', e, l⟩

/-- C140. With one call of `send` for each message, a composition carries the same bytes to both components; as the components may be
compositions, this goes for any number of lines. -/
theorem C140_composition {C : Collection} {σ τ : Type} {T : Tx σ} {U : Tx τ} {lt : σ → List Byte} {lu : τ → List Byte} (hT : Faithful T lt)
    (hU : Faithful U lu) {rs : List Request} (hrs : ∀ r ∈ rs, r.Good C) (s : σ) (u : τ) :
    ∃ s' u' bytes, sendAll (composition T U) (s, u) rs = some (.ok (s', u')) ∧ Carried rs bytes ∧
      lt s' = lt s ++ bytes ∧ lu u' = lu u ++ bytes := by
  obtain ⟨h1, h2⟩ := Faithful.composed hT hU
  obtain ⟨⟨s', u'⟩, e1, l1⟩ := sendAll_faithful h1 rs hrs (s, u)
  obtain ⟨p, e2, l2⟩ := sendAll_faithful h2 rs hrs (s, u)
  rw [e1] at e2
  simp only [Option.some.injEq, Except.ok.injEq] at e2
  subst e2
  exact ⟨s', u', _, e1, ⟨_, _, _, _, _, h1, e1, l1⟩, l1, l2⟩

/-! ### What the programs have handled -/

/-- C140. At any time every program has handled the first ones of the messages whose types all programs on the way to it have and
which arrive whole everywhere on that way. -/
theorem C140_any_time {rs : List Request} {bytes : List Byte} {t : Spread} {ys : List Link} {z : Link} (hp : t.Path (ys ++ [z]))
    (hrs : ∀ r ∈ rs, r.Good t.top.x.C) (hb : Carried rs bytes) (h : t.SoFar bytes) :
    delivered z.x.w <+: survivors (rs.map fun r => (r.t, r.vs.map (·.bytes))) (ys ++ [z]) := by
  obtain ⟨ks, e⟩ := hp.head
  have hr := h.route hp
  rw [e] at hr
  exact C137_any_time (zs := []) e.symm hrs hb hr

/-- C140. In the end every program has handled exactly these messages. -/
theorem C140_exactly {rs : List Request} {bytes : List Byte} {t : Spread} {ys : List Link} {z : Link} (hp : t.Path (ys ++ [z]))
    (hrs : ∀ r ∈ rs, r.Good t.top.x.C) (hb : Carried rs bytes) (h : t.Done bytes) :
    delivered z.x.w = survivors (rs.map fun r => (r.t, r.vs.map (·.bytes))) (ys ++ [z]) ∧ buffered z.x.w = [] := by
  obtain ⟨ks, e⟩ := hp.head
  have hr := h.route hp
  rw [e] at hr
  exact C137_exactly (zs := []) e.symm hrs hb hr

theorem no_swap {α : Type} {a b : α} : ∀ {l : List α}, l.Nodup → [a, b].Sublist l → ¬ [b, a].Sublist l
  | [], _, h, _ => by simp at h
  | x :: l, hn, h1, h2 => by
    obtain ⟨hx, hn'⟩ := List.nodup_cons.mp hn
    cases h1 with
    | cons _ h1 =>
      cases h2 with
      | cons _ h2 => exact no_swap hn' h1 h2
      | cons_cons _ h2 => exact hx (h1.subset (by simp))
    | cons_cons _ h1 =>
      cases h2 with
      | cons _ h2 => exact hx (h2.subset (by simp))
      | cons_cons _ h2 => exact hx (h1.subset (by simp))

/-- C140. If the messages sent are all different, no two programs ever have handled two of them in different orders, whatever the
lines have damaged and wherever the programs are. They may be in trees of their own, reached by lines of their own. -/
theorem C140_order {rs : List Request} {bytes bytes' : List Byte} {t t' : Spread} {p p' : List Link} {z z' : Link}
    (hp : t.Path (p ++ [z])) (hp' : t'.Path (p' ++ [z'])) (hrs : ∀ r ∈ rs, r.Good t.top.x.C) (hrs' : ∀ r ∈ rs, r.Good t'.top.x.C)
    (hb : Carried rs bytes) (hb' : Carried rs bytes') (h : t.SoFar bytes) (h' : t'.SoFar bytes')
    (hd : (rs.map fun r => (r.t, r.vs.map (·.bytes))).Nodup) {a b : Call} (hab : [a, b].Sublist (delivered z.x.w)) :
    ¬ [b, a].Sublist (delivered z'.x.w) := by
  have h1 := (C140_any_time hp hrs hb h).sublist.trans ((survivors_sublist _ _).trans List.filter_sublist)
  have h2 := (C140_any_time hp' hrs' hb' h').sublist.trans ((survivors_sublist _ _).trans List.filter_sublist)
  exact fun hba => no_swap hd (hab.trans h1) (hba.trans h2)

theorem survivors_all {ks : List Link} (h : ∀ k ∈ ks, false ∉ k.fate) (cs : List Call) :
    survivors cs ks = cs.filter fun c => ks.all fun k => decide (c.1 ∈ k.x.C.messages) := by
  refine (survivors_sublist ks cs).eq_of_length_le ?_
  have h0 : damages ks = 0 := by
    induction ks with
    | nil => rfl
    | cons k ks ih =>
      have e2 : damages (k :: ks) = k.fate.countP (!·) + damages ks := by simp [damages]
      rw [e2, ih fun k' hk' => h k' (by simp [hk']), Nat.add_zero]
      refine List.countP_eq_zero.mpr fun b hb => ?_
      cases b with
      | true => simp
      | false => exact absurd hb (h k (by simp))
  have := survivors_length ks cs
  omega

/-- C140. If the lines damage nothing, then at any time one of any two programs has handled, of the messages whose types all
programs on the two ways have, the first ones of those the other has handled. -/
theorem C140_agree {rs : List Request} {bytes bytes' : List Byte} {t t' : Spread} {p p' : List Link} {z z' : Link}
    (hp : t.Path (p ++ [z])) (hp' : t'.Path (p' ++ [z'])) (hrs : ∀ r ∈ rs, r.Good t.top.x.C) (hrs' : ∀ r ∈ rs, r.Good t'.top.x.C)
    (hb : Carried rs bytes) (hb' : Carried rs bytes') (h : t.SoFar bytes) (h' : t'.SoFar bytes')
    (hw : ∀ k ∈ p ++ [z], false ∉ k.fate) (hw' : ∀ k ∈ p' ++ [z'], false ∉ k.fate) :
    let shared : Call → Bool := fun c => ((p ++ [z]) ++ (p' ++ [z'])).all fun k => decide (c.1 ∈ k.x.C.messages)
    (delivered z.x.w).filter shared <+: (delivered z'.x.w).filter shared ∨
      (delivered z'.x.w).filter shared <+: (delivered z.x.w).filter shared := by
  intro shared
  have h1 := (C140_any_time hp hrs hb h).filter shared
  have h2 := (C140_any_time hp' hrs' hb' h').filter shared
  rw [survivors_all hw, List.filter_filter] at h1
  rw [survivors_all hw', List.filter_filter] at h2
  have e1 : ∀ c : Call, (shared c && (p ++ [z]).all fun k => decide (c.1 ∈ k.x.C.messages)) = shared c := by
    intro c
    show ((((p ++ [z]) ++ (p' ++ [z'])).all fun k => decide (c.1 ∈ k.x.C.messages)) && _) = ((p ++ [z]) ++ (p' ++ [z'])).all _
    rw [List.all_append]
    cases (p ++ [z]).all fun k => decide (c.1 ∈ k.x.C.messages) <;> simp
  have e2 : ∀ c : Call, (shared c && (p' ++ [z']).all fun k => decide (c.1 ∈ k.x.C.messages)) = shared c := by
    intro c
    show ((((p ++ [z]) ++ (p' ++ [z'])).all fun k => decide (c.1 ∈ k.x.C.messages)) && _) = ((p ++ [z]) ++ (p' ++ [z'])).all _
    rw [List.all_append]
    cases (p' ++ [z']).all fun k => decide (c.1 ∈ k.x.C.messages) <;> simp
  simp only [e1] at h1
  simp only [e2] at h2
  exact List.prefix_or_prefix_of_prefix h1 h2

/-- Two vectors. -/
example := C140_composition (C := Sample.checked) (rs := requests3) vectorBuffer_faithful vectorBuffer_faithful (by decide +kernel) [7] []

/-- Three messages are sent to the first program; the third one arrives with a wrong byte. The other two are passed on to two
programs with other ids in the other envelope. The first of them loses its end code on the way to one of these programs,
which handles one message; the other one handles two. -/
theorem spread_sample : ∃ (bytes : List Byte) (k l l' : Link), (∀ r ∈ requests3, r.Good k.x.C) ∧ Carried requests3 bytes ∧
    (Spread.node k [.node l [], .node l' []]).Done bytes ∧ (Spread.node k [.node l [], .node l' []]).Path [k, l'] ∧
    (delivered k.x.w).length = 2 ∧ (delivered l.x.w).length = 1 ∧ (delivered l'.x.w).length = 2 := by
  obtain ⟨w1, os1, k1, p1, f1⟩ := station_of Sample.setting_checked (by decide)
    ([.setHandler Sample.h0, .append (frames .basicChecksum [⟨0, []⟩, Sample.mPose]), .process,
      .append ((frame .basicChecksum ⟨1, [0x2A]⟩).set 3 0x99)] ++ [.process]) (by simp)
    (fun w => w.rx.hasHandler && decide ((delivered w).length = 2) && decide (
      sendAll vectorBuffer [] ((w.trace.filter fun i => i.msg ∈ otherSide.messages).map (forward otherSide)) =
        some (.ok (frames .basic [⟨2, []⟩, ⟨1, Sample.mPose.payload⟩])))) (Sample.reached (fun w _ => _) (by decide +kernel))
  obtain ⟨w2, os2, k2, p2, f2⟩ := station_of setting_other (by decide)
    ([.setHandler Sample.h0, .append ((frame .basic ⟨2, []⟩).eraseIdx 4), .process,
      .append (frame .basic ⟨1, Sample.mPose.payload⟩)] ++ [.process]) (by simp)
    (fun w => w.rx.hasHandler && decide ((delivered w).length = 1)) (Sample.reached (fun w _ => _) (by decide +kernel))
  obtain ⟨w3, os3, k3, p3, f3⟩ := station_of setting_other (by decide)
    ([.setHandler Sample.h0, .append (frame .basic ⟨2, []⟩), .append (frame .basic ⟨1, Sample.mPose.payload⟩)] ++ [.process]) (by simp)
    (fun w => w.rx.hasHandler && decide ((delivered w).length = 2)) (Sample.reached (fun w _ => _) (by decide +kernel))
  simp only [Bool.and_eq_true, decide_eq_true_eq] at p1 p2 p3
  have l1 : Line Sample.checked [] [⟨0, []⟩, Sample.mPose, ⟨1, [0x2A]⟩] (frame .basicChecksum ⟨0, []⟩ ++
      (frame .basicChecksum Sample.mPose ++ ((frame .basicChecksum ⟨1, [0x2A]⟩).set 3 0x99 ++ []))) [⟨0, []⟩, Sample.mPose] := by
    refine .whole (by decide +kernel) (.whole (by decide +kernel) (.wrong (by decide +kernel) ⟨by decide +kernel, by decide +kernel,
      fun m' => ?_⟩ (by decide +kernel) .nil))
    exact set_ne_frame ⟨1, [0x2A]⟩ m' (x := 0x2A) (by decide +kernel) (by decide)
  have l2 : Line otherSide [] [⟨2, []⟩, ⟨1, Sample.mPose.payload⟩] ((frame .basic ⟨2, []⟩).eraseIdx 4 ++
      (frame .basic ⟨1, Sample.mPose.payload⟩ ++ [])) [⟨1, Sample.mPose.payload⟩] :=
    .lost (b := 1) (j := 4) (by decide +kernel) (by decide) (by decide +kernel) (by decide) (by decide +kernel)
      (.whole (m := ⟨1, Sample.mPose.payload⟩) (by decide +kernel) .nil)
  have l3 : Line otherSide [] [⟨2, []⟩, ⟨1, Sample.mPose.payload⟩] (frame .basic ⟨2, []⟩ ++
      (frame .basic ⟨1, Sample.mPose.payload⟩ ++ [])) [⟨2, []⟩, ⟨1, Sample.mPose.payload⟩] :=
    .whole (m := ⟨2, []⟩) (by decide +kernel) (.whole (m := ⟨1, Sample.mPose.payload⟩) (by decide +kernel) .nil)
  have i2 : ∀ m ∈ [⟨2, []⟩, ⟨1, Sample.mPose.payload⟩], IsMsg otherSide m := by decide +kernel
  obtain ⟨y2, c2, n2, d2⟩ : ∃ y : Link, y.x.C = otherSide ∧ (delivered y.x.w).length = 1 ∧
      (Spread.node y []).Done (frames .basic [⟨2, []⟩, ⟨1, Sample.mPose.payload⟩]) :=
    ⟨⟨⟨_, _, _, _, _, w2, os2⟩, [false, true]⟩, rfl, p2.2, .node k2 ⟨⟨_, rfl⟩, p2.1⟩ ⟨[⟨2, []⟩, ⟨1, Sample.mPose.payload⟩], i2, rfl, by
      show Line otherSide [] _ w2.fed _
      rw [f2]; exact l2⟩ (fun _ => []) (by simp) (by simp)⟩
  obtain ⟨y3, c3, n3, d3⟩ : ∃ y : Link, y.x.C = otherSide ∧ (delivered y.x.w).length = 2 ∧
      (Spread.node y []).Done (frames .basic [⟨2, []⟩, ⟨1, Sample.mPose.payload⟩]) :=
    ⟨⟨⟨_, _, _, _, _, w3, os3⟩, []⟩, rfl, p3.2, .node k3 ⟨⟨_, rfl⟩, p3.1⟩ ⟨[⟨2, []⟩, ⟨1, Sample.mPose.payload⟩], i2, rfl, by
      show Line otherSide [] _ w3.fed _
      rw [f3]; exact l3⟩ (fun _ => []) (by simp) (by simp)⟩
  refine ⟨frames .basicChecksum [⟨0, []⟩, Sample.mPose, ⟨1, [0x2A]⟩], ⟨⟨_, _, _, _, _, w1, os1⟩, [true, true, false]⟩, y2, y3, ?_,
    carried_vector (by decide +kernel), .node k1 ⟨⟨_, rfl⟩, p1.1.1⟩ ⟨[⟨0, []⟩, Sample.mPose, ⟨1, [0x2A]⟩], ?_, rfl, ?_⟩
      (fun _ => frames .basic [⟨2, []⟩, ⟨1, Sample.mPose.payload⟩]) ?_ ?_, .down (t := .node _ []) (by simp) (.here _ _), p1.1.2, n2, n3⟩
  · show ∀ r ∈ requests3, r.Good Sample.checked
    decide +kernel
  · show ∀ m ∈ [⟨0, []⟩, Sample.mPose, ⟨1, [0x2A]⟩], IsMsg Sample.checked m
    decide +kernel
  · show Line Sample.checked [] _ w1.fed _
    rw [f1]; exact l1
  · intro t ht
    simp only [List.mem_cons, List.not_mem_nil, or_false] at ht
    rcases ht with rfl | rfl
    · show Carried (Station.passedOn _ y2.x.C) _
      rw [c2]; exact carried_vector p1.2
    · show Carried (Station.passedOn _ y3.x.C) _
      rw [c3]; exact carried_vector p1.2
  · intro t ht
    simp only [List.mem_cons, List.not_mem_nil, or_false] at ht
    rcases ht with rfl | rfl
    · exact d2
    · exact d3

/-- The hypotheses of `C140_order` hold for the first and the last of these programs, which have handled two messages each. -/
example : ∃ (bytes : List Byte) (k l' : Link) (t : Spread) (a b : Call), (∀ r ∈ requests3, r.Good t.top.x.C) ∧
    Carried requests3 bytes ∧ t.SoFar bytes ∧ t.Path ([] ++ [k]) ∧ t.Path ([k] ++ [l']) ∧
    (requests3.map fun r => (r.t, r.vs.map (·.bytes))).Nodup ∧ [a, b].Sublist (delivered k.x.w) ∧ ¬ [b, a].Sublist (delivered l'.x.w) ∧
    (delivered l'.x.w).length = 2 := by
  obtain ⟨bytes, k, l, l', h1, h2, h3, h4, h5, _, h6⟩ := spread_sample
  obtain ⟨a, b, e⟩ : ∃ a b, delivered k.x.w = [a, b] := by
    match delivered k.x.w, h5 with
    | [a, b], _ => exact ⟨a, b, rfl⟩
  have hd : (requests3.map fun r => (r.t, r.vs.map (·.bytes))).Nodup := by decide +kernel
  have hs : [a, b].Sublist (delivered k.x.w) := by rw [e]; exact List.Sublist.refl _
  exact ⟨bytes, k, l', .node k [.node l [], .node l' []], a, b, h1, h2, h3.soFar, .here _ _, h4, hd, hs,
    C140_order (p := []) (p' := [k]) (.here _ _) h4 h1 h1 h2 h2 h3.soFar h3.soFar hd hs, h6⟩

/-- The hypotheses of `C140_agree` hold for two programs one of which has handled one of two messages and the other both. -/
example : ∃ (bytes : List Byte) (k l : Link) (rs : List Request), (∀ r ∈ rs, r.Good k.x.C) ∧ (∀ r ∈ rs, r.Good l.x.C) ∧ Carried rs bytes ∧
    (Spread.node k []).SoFar bytes ∧ (Spread.node l []).SoFar bytes ∧ false ∉ k.fate ∧ false ∉ l.fate ∧
    (delivered k.x.w).length = 1 ∧ (delivered l.x.w).length = 2 := by
  let m0 : Msg := ⟨1, [0]⟩
  obtain ⟨w1, os1, k1, p1, f1⟩ := station_of Sample.setting_checked (by decide)
    ([.setHandler Sample.h0, .append (frame .basicChecksum m0)] ++ [.process]) (by simp)
    (fun w => decide ((delivered w).length = 1)) (Sample.reached (fun w _ => _) (by decide +kernel))
  obtain ⟨w2, os2, k2, p2, f2⟩ := station_of Sample.setting_checked (by decide)
    ([.setHandler Sample.h0, .append (frame .basicChecksum m0), .append (frame .basicChecksum m0)] ++ [.process]) (by simp)
    (fun w => decide ((delivered w).length = 2)) (Sample.reached (fun w _ => _) (by decide +kernel))
  simp only [decide_eq_true_eq] at p1 p2
  have i0 : IsMsg Sample.checked m0 := by decide +kernel
  have hl : Line Sample.checked [] [m0, m0] (frames .basicChecksum [m0, m0] ++ []) [m0, m0] := by
    have := Line.whole i0 (Line.whole i0 (Line.nil (e := [])))
    rw [List.append_nil] at this ⊢
    exact this
  have hg : ∀ r ∈ List.replicate 2 (⟨Sample.checked, Sample.level, [⟨.uint8, [0]⟩]⟩ : Request), r.Good Sample.checked := by decide +kernel
  refine ⟨frames .basicChecksum [m0, m0], ⟨⟨_, _, _, _, _, w1, os1⟩, []⟩, ⟨⟨_, _, _, _, _, w2, os2⟩, []⟩,
    List.replicate 2 ⟨Sample.checked, Sample.level, [⟨.uint8, [0]⟩]⟩, hg, hg, carried_vector (by decide +kernel),
    .node k1 ⟨[m0, m0], _, [], by simp [i0], rfl, hl, ?_⟩ (fun _ => []) (by simp) (by simp),
    .node k2 ⟨[m0, m0], _, [], by simp [i0], rfl, hl, ?_⟩ (fun _ => []) (by simp) (by simp), by simp, by simp, p1, p2⟩
  · show w1.fed <+: _
    rw [f1]; decide +kernel
  · show w2.fed <+: _
    rw [f2]; decide +kernel

end TT.Properties
