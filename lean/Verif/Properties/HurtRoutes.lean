import Verif.Properties.Casualties
import Verif.Properties.Routes

/-!
# Property C137: messages that travel through any number of programs, over lines that damage some of them
-/

namespace TT.Properties
open Spec

/-- The elements at whose places the flags do not say `false`. -/
def pick {α : Type} : List Bool → List α → List α
  | [], l => l
  | _ :: _, [] => []
  | true :: fl, a :: l => a :: pick fl l
  | false :: fl, _ :: l => pick fl l

/-- A program, and for each message sent to it whether it arrives whole. -/
structure Link where
  x : Station
  fate : List Bool

/-- Bytes were written for a program; what arrives there is what the line makes of the messages these bytes consist of. -/
def Link.Fed (k : Link) (bytes : List Byte) : Prop :=
  ∃ sent, (∀ m ∈ sent, IsMsg k.x.C m) ∧ bytes = frames k.x.C.envelope sent ∧ Line k.x.C [] sent k.x.w.fed (pick k.fate sent)

/-- Programs one behind the other, each passing on what it has handled; everything that arrives anywhere has been processed. -/
def HurtRoute : List Byte → List Link → Prop
  | _, [] => True
  | bytes, [k] => k.x.Ok ∧ k.x.Idle ∧ k.Fed bytes
  | bytes, k :: l :: ks => k.x.Ok ∧ k.x.Idle ∧ k.Fed bytes ∧ ∃ bytes', Carried (k.x.passedOn l.x.C) bytes' ∧ HurtRoute bytes' (l :: ks)

/-- The same while only a part of what has been sent has arrived; `e` is what may follow. -/
def Link.PartFed (k : Link) (bytes : List Byte) : Prop :=
  ∃ sent x e, (∀ m ∈ sent, IsMsg k.x.C m) ∧ bytes = frames k.x.C.envelope sent ∧
    Line k.x.C e sent (x ++ e) (pick k.fate sent) ∧ k.x.w.fed <+: x

/-- Programs one behind the other, each passing on what it has handled so far. -/
def HurtSoFar : List Byte → List Link → Prop
  | _, [] => True
  | bytes, [k] => k.x.Ok ∧ k.PartFed bytes
  | bytes, k :: l :: ks => k.x.Ok ∧ k.PartFed bytes ∧ ∃ bytes', Carried (k.x.passedOn l.x.C) bytes' ∧ HurtSoFar bytes' (l :: ks)

/-- What is left of the calls of `send` at the end of a route: each program is sent those of its types, and gets those that
arrive whole. -/
def survivors (cs : List Call) : List Link → List Call
  | [] => cs
  | k :: ks => survivors (pick k.fate (cs.filter fun c => decide (c.1 ∈ k.x.C.messages))) ks

/-- How many messages are damaged on the way to these programs. -/
def damages (ks : List Link) : Nat := (ks.map fun k => k.fate.countP (!·)).sum

theorem pick_map {α β : Type} (f : α → β) : ∀ (fl : List Bool) (l : List α), pick fl (l.map f) = (pick fl l).map f
  | [], _ => rfl
  | _ :: _, [] => rfl
  | true :: fl, a :: l => by simp [pick, pick_map f fl l]
  | false :: fl, _ :: l => by simp [pick, pick_map f fl l]

theorem pick_sublist {α : Type} : ∀ (fl : List Bool) (l : List α), (pick fl l).Sublist l
  | [], l => List.Sublist.refl l
  | _ :: _, [] => List.Sublist.refl []
  | true :: fl, _ :: l => (pick_sublist fl l).cons_cons _
  | false :: fl, _ :: l => (pick_sublist fl l).cons _

theorem pick_length {α : Type} (p : α → Bool) : ∀ (fl : List Bool) (l : List α),
    (l.filter p).length ≤ ((pick fl l).filter p).length + fl.countP (!·)
  | [], l => by simp [pick]
  | _ :: _, [] => by simp
  | true :: fl, a :: l => by
    have := pick_length p fl l
    simp only [pick, List.filter_cons]
    split <;> simp <;> omega
  | false :: fl, a :: l => by
    have := pick_length p fl l
    simp only [pick, List.filter_cons]
    split <;> simp <;> omega

theorem pick_prefix {α : Type} : ∀ (fl : List Bool) {l l' : List α}, l <+: l' → pick fl l <+: pick fl l'
  | [], _, _, h => h
  | _ :: _, [], _, _ => List.nil_prefix
  | true :: fl, a :: l, [], h => by simp at h
  | false :: fl, a :: l, [], h => by simp at h
  | true :: fl, a :: l, a' :: l', h => by
    have h' := List.cons_prefix_cons.mp h
    rw [h'.1]
    exact List.cons_prefix_cons.mpr ⟨rfl, pick_prefix fl h'.2⟩
  | false :: fl, a :: l, a' :: l', h => pick_prefix fl (List.cons_prefix_cons.mp h).2

theorem survivors_prefix (ks : List Link) : ∀ {cs cs' : List Call}, cs <+: cs' → survivors cs ks <+: survivors cs' ks := by
  induction ks with
  | nil => intro _ _ h; exact h
  | cons k ks ih => intro cs cs' h; exact ih (pick_prefix _ (h.filter _))

theorem sent_eq {C : Collection} {rs : List Request} (hrs : ∀ r ∈ rs, r.Good C) {sent : List Msg} (hs : ∀ m ∈ sent, IsMsg C m)
    (hb : Carried rs (frames C.envelope sent)) : sent = rs.map Request.msg := by
  have hm : ∀ m ∈ rs.map Request.msg, IsMsg C m := by
    intro m h
    obtain ⟨r, hr, rfl⟩ := List.mem_map.mp h
    exact (hrs r hr).isMsg
  have h1 := run_frames hs []
  have h2 := run_frames hm []
  rw [List.append_nil] at h1 h2
  rw [carried_frames hrs hb] at h1
  exact (Decodes.unique (C := C) ⟨h1, Or.inl rfl⟩ ⟨h2, Or.inl rfl⟩).1

/-- One program. -/
theorem Link.got {k : Link} (hx : k.x.Ok) (hi : k.x.Idle) {rs : List Request} (hrs : ∀ r ∈ rs, r.Good k.x.C) {bytes : List Byte}
    (hb : Carried rs bytes) (hf : k.Fed bytes) : delivered k.x.w = pick k.fate (rs.map Request.call) ∧ buffered k.x.w = [] := by
  obtain ⟨sent, hs, rfl, hl⟩ := hf
  have e := sent_eq hrs hs hb
  subst e
  obtain ⟨⟨C, B, user, fuel, ops, w, os⟩, fl⟩ := k
  obtain ⟨⟨ops', rfl⟩, hh⟩ := hi
  obtain ⟨e1, e2⟩ := C136_unharmed hx.setting hx.calm hx.reached hh hl
  refine ⟨?_, e2⟩
  rw [← map_meaning hrs, pick_map]
  exact e1

/-- One program, at any time. -/
theorem Link.soFar {k : Link} (hx : k.x.Ok) {rs : List Request} (hrs : ∀ r ∈ rs, r.Good k.x.C) {bytes : List Byte}
    (hb : Carried rs bytes) (hf : k.PartFed bytes) : delivered k.x.w <+: pick k.fate (rs.map Request.call) := by
  obtain ⟨sent, x, e, hs, rfl, hl, hp⟩ := hf
  have := sent_eq hrs hs hb
  subst this
  rw [← map_meaning hrs, pick_map]
  exact C136_any_time hx.setting hx.calm hx.reached hl hp

theorem HurtRoute.head {bytes : List Byte} {k : Link} {ks : List Link} (h : HurtRoute bytes (k :: ks)) :
    k.x.Ok ∧ k.x.Idle ∧ k.Fed bytes := by
  cases ks with
  | nil => exact h
  | cons l ks => exact ⟨h.1, h.2.1, h.2.2.1⟩

theorem HurtSoFar.head {bytes : List Byte} {k : Link} {ks : List Link} (h : HurtSoFar bytes (k :: ks)) : k.x.Ok ∧ k.PartFed bytes := by
  cases ks with
  | nil => exact h
  | cons l ks => exact ⟨h.1, h.2.1⟩

theorem filter_own {k : Link} {rs : List Request} (hrs : ∀ r ∈ rs, r.Good k.x.C) :
    ((rs.map Request.call).filter fun c => decide (c.1 ∈ k.x.C.messages)) = rs.map Request.call := by
  rw [List.filter_eq_self]
  intro c hc
  obtain ⟨r, hr, rfl⟩ := List.mem_map.mp hc
  exact decide_eq_true (hrs r hr).2.1.2.1

/-- C137. Programs pass on what they receive, one to the next, over lines each of which may damage any number of messages: by
wrong bytes or the loss of a byte, and with other bytes in between. Each program has handled exactly those messages sent to
the first one whose types all programs up to it have and which have arrived whole everywhere up to it, in order and
with the contents sent. -/
theorem C137_exactly {rs : List Request} {bytes : List Byte} {ys zs : List Link} {z k : Link} {ks : List Link}
    (e : k :: ks = ys ++ z :: zs) (hrs : ∀ r ∈ rs, r.Good k.x.C) (hb : Carried rs bytes) (h : HurtRoute bytes (k :: ks)) :
    delivered z.x.w = survivors (rs.map fun r => (r.t, r.vs.map (·.bytes))) (ys ++ [z]) ∧ buffered z.x.w = [] := by
  show delivered z.x.w = survivors (rs.map Request.call) (ys ++ [z]) ∧ buffered z.x.w = []
  induction ys generalizing rs bytes k ks with
  | nil =>
    simp only [List.nil_append, List.cons.injEq] at e
    obtain ⟨rfl, rfl⟩ := e
    obtain ⟨h1, h2, h3⟩ := h.head
    simp only [List.nil_append, survivors, filter_own hrs]
    exact Link.got h1 h2 hrs hb h3
  | cons y ys ih =>
    simp only [List.cons_append, List.cons.injEq] at e
    obtain ⟨rfl, rfl⟩ := e
    obtain ⟨u, us, hu⟩ : ∃ u us, ys ++ z :: zs = u :: us := by
      cases ys with
      | nil => exact ⟨_, _, rfl⟩
      | cons u us => exact ⟨_, _, rfl⟩
    rw [hu] at h
    obtain ⟨h1, hi, h2, bytes', h3, h4⟩ := h
    obtain ⟨g1, g2⟩ := h1.passedOn_good h4.head.1.ids
    have := ih hu.symm g1 h3 h4
    obtain ⟨vs, hv⟩ : ∃ vs, ys ++ [z] = u :: vs := by
      cases ys with
      | nil => simp at hu; exact ⟨[], by rw [hu.1]; rfl⟩
      | cons u' us' => simp at hu; exact ⟨us' ++ [z], by rw [hu.1]; rfl⟩
    rw [hv, g2, (Link.got h1 hi hrs hb h2).1] at this
    rw [List.cons_append, hv]
    simp only [survivors, filter_own hrs] at this ⊢
    rw [List.filter_filter] at this
    simpa using this

/-- C137, at any time: each program has handled the first ones of these messages. -/
theorem C137_any_time {rs : List Request} {bytes : List Byte} {ys zs : List Link} {z k : Link} {ks : List Link}
    (e : k :: ks = ys ++ z :: zs) (hrs : ∀ r ∈ rs, r.Good k.x.C) (hb : Carried rs bytes) (h : HurtSoFar bytes (k :: ks)) :
    delivered z.x.w <+: survivors (rs.map fun r => (r.t, r.vs.map (·.bytes))) (ys ++ [z]) := by
  show delivered z.x.w <+: survivors (rs.map Request.call) (ys ++ [z])
  induction ys generalizing rs bytes k ks with
  | nil =>
    simp only [List.nil_append, List.cons.injEq] at e
    obtain ⟨rfl, rfl⟩ := e
    simp only [List.nil_append, survivors, filter_own hrs]
    exact Link.soFar h.head.1 hrs hb h.head.2
  | cons y ys ih =>
    simp only [List.cons_append, List.cons.injEq] at e
    obtain ⟨rfl, rfl⟩ := e
    obtain ⟨u, us, hu⟩ : ∃ u us, ys ++ z :: zs = u :: us := by
      cases ys with
      | nil => exact ⟨_, _, rfl⟩
      | cons u us => exact ⟨_, _, rfl⟩
    rw [hu] at h
    obtain ⟨h1, h2, bytes', h3, h4⟩ := h
    obtain ⟨g1, g2⟩ := h1.passedOn_good h4.head.1.ids
    have := ih hu.symm g1 h3 h4
    obtain ⟨vs, hv⟩ : ∃ vs, ys ++ [z] = u :: vs := by
      cases ys with
      | nil => simp at hu; exact ⟨[], by rw [hu.1]; rfl⟩
      | cons u' us' => simp at hu; exact ⟨us' ++ [z], by rw [hu.1]; rfl⟩
    rw [hv, g2] at this
    rw [List.cons_append, hv]
    simp only [survivors, filter_own hrs] at this ⊢
    rw [List.filter_filter] at this
    simp only [Bool.and_self] at this
    exact this.trans (survivors_prefix _ (pick_prefix _ ((Link.soFar h1 hrs hb h2).filter _)))

theorem filter_links_nil (cs : List Call) :
    (cs.filter fun c => ([] : List Link).all fun k => decide (c.1 ∈ k.x.C.messages)) = cs :=
  List.filter_eq_self.mpr fun _ _ => rfl

theorem filter_links_cons (k : Link) (ks : List Link) (cs : List Call) :
    (cs.filter fun c => (k :: ks).all fun k => decide (c.1 ∈ k.x.C.messages)) =
      cs.filter fun c => (ks.all fun k => decide (c.1 ∈ k.x.C.messages)) && decide (c.1 ∈ k.x.C.messages) :=
  List.filter_congr fun c _ => by rw [List.all_cons, Bool.and_comm]

theorem survivors_sublist (ks : List Link) : ∀ cs : List Call,
    (survivors cs ks).Sublist (cs.filter fun c => ks.all fun k => decide (c.1 ∈ k.x.C.messages)) := by
  induction ks with
  | nil =>
    intro cs
    rw [filter_links_nil]
    exact List.Sublist.refl _
  | cons k ks ih =>
    intro cs
    refine (ih _).trans ?_
    refine ((pick_sublist k.fate _).filter _).trans ?_
    rw [List.filter_filter]
    rw [filter_links_cons]
    exact List.Sublist.refl _

theorem survivors_length (ks : List Link) : ∀ cs : List Call,
    (cs.filter fun c => ks.all fun k => decide (c.1 ∈ k.x.C.messages)).length ≤ (survivors cs ks).length + damages ks := by
  induction ks with
  | nil =>
    intro cs
    rw [filter_links_nil]
    exact Nat.le_add_right _ _
  | cons k ks ih =>
    intro cs
    have h1 := ih (pick k.fate (cs.filter fun c => decide (c.1 ∈ k.x.C.messages)))
    have h2 := pick_length (fun c : Call => ks.all fun k => decide (c.1 ∈ k.x.C.messages)) k.fate
      (cs.filter fun c => decide (c.1 ∈ k.x.C.messages))
    rw [List.filter_filter] at h2
    rw [filter_links_cons]
    have e2 : damages (k :: ks) = k.fate.countP (!·) + damages ks := by simp [damages]
    simp only [survivors]
    omega

/-- C137. Nothing is delivered that was not sent, nothing twice and nothing out of order, and there are at most as many messages
missing as were damaged. -/
theorem C137_bounds {rs : List Request} {bytes : List Byte} {ys zs : List Link} {z k : Link} {ks : List Link}
    (e : k :: ks = ys ++ z :: zs) (hrs : ∀ r ∈ rs, r.Good k.x.C) (hb : Carried rs bytes) (h : HurtRoute bytes (k :: ks)) :
    (delivered z.x.w).Sublist ((rs.map fun r => (r.t, r.vs.map (·.bytes))).filter
        fun c => (ys ++ [z]).all fun k => decide (c.1 ∈ k.x.C.messages)) ∧
      ((rs.map fun r => (r.t, r.vs.map (·.bytes))).filter
        fun c => (ys ++ [z]).all fun k => decide (c.1 ∈ k.x.C.messages)).length ≤
        (delivered z.x.w).length + damages (ys ++ [z]) := by
  rw [(C137_exactly e hrs hb h).1]
  exact ⟨survivors_sublist _ _, survivors_length _ _⟩

/-- Three messages are sent to the first program; the third one arrives with a wrong byte. The other two are passed on with other
ids in the other envelope, and the first of these loses its end code: the second program handles one message. -/
example : ∃ (bytes : List Byte) (k l : Link), (∀ r ∈ requests3, r.Good k.x.C) ∧ Carried requests3 bytes ∧
    HurtRoute bytes [k, l] ∧ (delivered k.x.w).length = 2 ∧ (delivered l.x.w).length = 1 ∧ damages [k, l] = 2 := by
  obtain ⟨w1, os1, k1, p1, f1⟩ := station_of Sample.setting_checked (by decide)
    ([.setHandler Sample.h0, .append (frames .basicChecksum [⟨0, []⟩, Sample.mPose]), .process,
      .append ((frame .basicChecksum ⟨1, [0x2A]⟩).set 3 0x99)] ++ [.process]) (by simp)
    (fun w => w.rx.hasHandler && decide ((delivered w).length = 2) && decide (
      sendAll vectorBuffer [] ((w.trace.filter fun i => i.msg ∈ otherSide.messages).map (forward otherSide)) =
        some (.ok (frames .basic [⟨2, []⟩, ⟨1, Sample.mPose.payload⟩])))) (Sample.reached (fun w _ => _) (by decide +kernel))
  obtain ⟨w2, os2, k2, p2, f2⟩ := station_of setting_other (by decide)
    ([.setHandler Sample.h0, .append ((frame .basic ⟨2, []⟩).eraseIdx 4), .process,
      .append (frame .basic ⟨1, Sample.mPose.payload⟩)] ++ [.process]) (by simp)
    (fun w => w.rx.hasHandler && decide ((delivered w).length = 1)) (Sample.reached (fun w _ => _) (by decide +kernel))
  simp only [Bool.and_eq_true, decide_eq_true_eq] at p1 p2
  have l1 : Line Sample.checked [] [⟨0, []⟩, Sample.mPose, ⟨1, [0x2A]⟩] (frame .basicChecksum ⟨0, []⟩ ++
      (frame .basicChecksum Sample.mPose ++ ((frame .basicChecksum ⟨1, [0x2A]⟩).set 3 0x99 ++ []))) [⟨0, []⟩, Sample.mPose] := by
    refine .whole (by decide +kernel) (.whole (by decide +kernel) (.wrong (by decide +kernel) ⟨by decide +kernel, by decide +kernel,
      fun m' => ?_⟩ (by decide +kernel) .nil))
    exact set_ne_frame ⟨1, [0x2A]⟩ m' (x := 0x2A) (by decide +kernel) (by decide)
  have l2 : Line otherSide [] [⟨2, []⟩, ⟨1, Sample.mPose.payload⟩] ((frame .basic ⟨2, []⟩).eraseIdx 4 ++
      (frame .basic ⟨1, Sample.mPose.payload⟩ ++ [])) [⟨1, Sample.mPose.payload⟩] :=
    .lost (b := 1) (j := 4) (by decide +kernel) (by decide) (by decide +kernel) (by decide) (by decide +kernel)
      (.whole (m := ⟨1, Sample.mPose.payload⟩) (by decide +kernel) .nil)
  refine ⟨frames .basicChecksum [⟨0, []⟩, Sample.mPose, ⟨1, [0x2A]⟩], ⟨⟨_, _, _, _, _, w1, os1⟩, [true, true, false]⟩, ⟨⟨_, _, _, _, _, w2, os2⟩, [false, true]⟩, ?_,
    carried_vector (by decide +kernel), ⟨k1, ⟨⟨_, rfl⟩, p1.1.1⟩, ⟨[⟨0, []⟩, Sample.mPose, ⟨1, [0x2A]⟩], ?_, rfl, ?_⟩, _,
      carried_vector p1.2, k2, ⟨⟨_, rfl⟩, p2.1⟩, ⟨[⟨2, []⟩, ⟨1, Sample.mPose.payload⟩], ?_, rfl, ?_⟩⟩, p1.1.2, p2.2, ?_⟩
  · show ∀ r ∈ requests3, r.Good Sample.checked
    decide +kernel
  · show ∀ m ∈ [⟨0, []⟩, Sample.mPose, ⟨1, [0x2A]⟩], IsMsg Sample.checked m
    decide +kernel
  · show Line Sample.checked [] _ w1.fed _
    rw [f1]; exact l1
  · show ∀ m ∈ [⟨2, []⟩, ⟨1, Sample.mPose.payload⟩], IsMsg otherSide m
    decide +kernel
  · show Line otherSide [] _ w2.fed _
    rw [f2]; exact l2
  · rfl

/-- The third message has lost its end code and is held back by the first program. -/
example : ∃ (bytes : List Byte) (k : Link), (∀ r ∈ requests3, r.Good k.x.C) ∧ Carried requests3 bytes ∧
    HurtSoFar bytes [k] ∧ (delivered k.x.w).length = 2 ∧ buffered k.x.w ≠ [] := by
  obtain ⟨w1, os1, k1, p1, f1⟩ := station_of Sample.setting_checked (by decide)
    ([.setHandler Sample.h0, .append (frames .basicChecksum [⟨0, []⟩, Sample.mPose]), .process,
      .append ((frame .basicChecksum ⟨1, [0x2A]⟩).eraseIdx 6)] ++ [.process]) (by simp)
    (fun w => decide ((delivered w).length = 2) && decide (buffered w ≠ [])) (Sample.reached (fun w _ => _) (by decide +kernel))
  simp only [Bool.and_eq_true, decide_eq_true_eq] at p1
  have l1 : Line Sample.checked [1] [⟨0, []⟩, Sample.mPose, ⟨1, [0x2A]⟩] (frame .basicChecksum ⟨0, []⟩ ++
      (frame .basicChecksum Sample.mPose ++ ((frame .basicChecksum ⟨1, [0x2A]⟩).eraseIdx 6 ++ [1]))) [⟨0, []⟩, Sample.mPose] :=
    .whole (by decide +kernel) (.whole (by decide +kernel) (.lost (by decide +kernel) (by decide) (by decide +kernel) (by decide)
      (by decide +kernel) .nil))
  refine ⟨frames .basicChecksum [⟨0, []⟩, Sample.mPose, ⟨1, [0x2A]⟩], ⟨⟨_, _, _, _, _, w1, os1⟩, [true, true, false]⟩, ?_,
    carried_vector (by decide +kernel), ⟨k1, [⟨0, []⟩, Sample.mPose, ⟨1, [0x2A]⟩], w1.fed, [1], ?_, rfl, ?_, List.prefix_rfl⟩, p1.1, p1.2⟩
  · show ∀ r ∈ requests3, r.Good Sample.checked
    decide +kernel
  · show ∀ m ∈ [⟨0, []⟩, Sample.mPose, ⟨1, [0x2A]⟩], IsMsg Sample.checked m
    decide +kernel
  · show Line Sample.checked [1] _ (w1.fed ++ [1]) _
    rw [f1]; exact l1

end TT.Properties
