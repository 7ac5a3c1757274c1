import Verif.Spec.Includes

/-!
# Including headers: proofs
-/

namespace TT.Inc

/-- How deeply the includes of a header are nested. -/
def rank : Header → Nat
  | .boundMessageType => 2
  | .boundMessageTypeFwd => 0
  | .messageCollection => 0
  | .messageType => 0
  | .parameterHandlerBase => 8
  | .partialHandlerBase => 9
  | .receiver => 7
  | .receiverFwd => 0
  | .send => 3
  | .envelopeBase => 2
  | .envelopeBaseFwd => 0
  | .receiveAdapterBase => 2
  | .receiveAdapterBaseFwd => 0
  | .serializerBase => 2
  | .transmitterBase => 2
  | .transmitterBaseFwd => 0
  | .arityConfig => 0
  | .controlCodes => 1
  | .messageBufferSizeScale => 0
  | .computeReceiveBufferSize => 4
  | .deserializeAndInvoke => 2
  | .deserializeToFusion => 1
  | .isIdValid => 2
  | .maxMessageLength => 3
  | .messageArity => 0
  | .messageCount => 0
  | .messageCountFwd => 0
  | .messageLength => 5
  | .sendOverloads => 1
  | .sizeof => 1
  | .sizeofFwd => 0
  | .envelopeReceiveBuffer => 6
  | .integralTypes => 1
  | .messageIdType => 1
  | .messageSizeType => 4
  | .messageSizeTypeFwd => 0
  | .basic => 4
  | .basicChecksum => 4
  | .envelopesFwd => 0
  | .arduinoSerialAdapter => 3
  | .vrpnSerialAdapter => 3
  | .bitwiseCopySerialization => 3
  | .arduinoI2C => 4
  | .arduinoSerialTransmitter => 3
  | .autosizedBoostArrayBuffer => 4
  | .boostArrayBuffer => 3
  | .checksumComputer => 3
  | .transmitterComposition => 2
  | .vectorBuffer => 4
  | .vrpnSerialTransmitter => 3
  | .boostAssertMsg => 0
  | .mplApplyAt => 0
  | .mplFindIndex => 0
  | .receiveBuffer => 1
  | .vectorSimulator => 0
  | .booststdint => 0

theorem rank_check (h : Header) :
    ((body h).all fun | .include h' => decide (rank h' < rank h) | _ => true) = true := by
  cases h <;> decide

theorem rank_lt (h : Header) (d : Directive) (hd : d ∈ body h) (h' : Header) (e : d = .include h') : rank h' < rank h := by
  have := List.all_eq_true.1 (rank_check h) d hd
  subst e
  exact of_decide_eq_true this

/-- Whether reading `h` defines `m`, looking `n` levels deep. -/
def supplies : Nat → Header → Macro → Bool
  | 0, _, _ => false
  | n + 1, h, m => (body h).any fun
    | .include h' => supplies n h' m
    | .default m' _ => m' = m
    | _ => false

/-- Whether the macros needed by lines are defined by earlier lines of the same header. -/
def needsMet : List Macro → List Directive → Bool
  | _, [] => true
  | known, .include h' :: ds =>
    needsMet ([Macro.listSize, .invokeArity, .testMessage].filter (supplies 10 h') ++ known) ds
  | known, .fusion _ :: ds => known.contains .listSize && known.contains .invokeArity && needsMet known ds
  | known, .default m _ :: ds => needsMet (m :: known) ds
  | known, .use m :: ds => known.contains m && needsMet known ds

theorem needsMet_body (h : Header) : needsMet [] (body h) = true := by
  cases h <;> decide

theorem default_wanted : ∀ h : Header, ∀ d ∈ body h, ∀ m v, d = .default m v → v = wanted m := by
  intro h
  cases h <;> simp [body, wanted]

/-- What holds between lines, whatever the user includes. -/
structure Inv (ms : Macro → Option Nat) (s : State) : Prop where
  deep : s.tooDeep = false
  readGuards : ∀ h ∈ s.read, h ∈ s.guards
  nodup : s.read.Nodup
  ordered : ∀ pre h post, s.read = pre ++ h :: post → ∀ h', .include h' ∈ body h → h' ∈ pre
  defs : ∀ h ∈ s.read, ∀ m v, .default m v ∈ body h → (s.macros m).isSome
  uses : ∀ u ∈ s.uses, u.2.2.isSome
  kept : ∀ m v, ms m = some v → s.macros m = some v
  fixed : ∀ m v, s.fixed m = some v → s.macros m = some v
  message : ∀ v, s.macros .testMessage = some v → v = limit ms .testMessage
  messages : ∀ u ∈ s.uses, u.2.1 = .testMessage → u.2.2 = some (limit ms .testMessage)

/-- The limits are those the user or the library asked for. -/
structure Values (ms : Macro → Option Nat) (s : State) : Prop where
  macros : ∀ m v, s.macros m = some v → v = limit ms m
  uses : ∀ u ∈ s.uses, u.2.2 = some (limit ms u.2.1)

/-- How a state can follow another one. -/
structure Ext (s s' : State) : Prop where
  read : ∀ h ∈ s.read, h ∈ s'.read
  guards : ∀ h ∈ s.guards, h ∈ s'.guards
  new : ∀ h ∈ s'.guards, h ∈ s.guards ∨ h ∈ s'.read
  fresh : ∀ h ∈ s'.read, h ∈ s.read ∨ h ∉ s.guards
  macros : ∀ m v, s.macros m = some v → s'.macros m = some v
  fixed : ∀ m v, s.fixed m = some v → s'.fixed m = some v

theorem Ext.refl (s : State) : Ext s s :=
  ⟨fun _ h => h, fun _ h => h, fun _ h => .inl h, fun _ h => .inl h, fun _ _ h => h, fun _ _ h => h⟩

theorem Ext.trans {a b c : State} (h : Ext a b) (k : Ext b c) : Ext a c where
  read x hx := k.read x (h.read x hx)
  guards x hx := k.guards x (h.guards x hx)
  new x hx := by
    rcases k.new x hx with hb | hc
    · rcases h.new x hb with ha | hb
      · exact .inl ha
      · exact .inr (k.read x hb)
    · exact .inr hc
  fresh x hx := by
    rcases k.fresh x hx with hb | hc
    · exact h.fresh x hb
    · exact .inr fun ha => hc (h.guards x ha)
  macros m v e := k.macros m v (h.macros m v e)
  fixed m v e := k.fixed m v (h.fixed m v e)

theorem Ext.isSome {s s' : State} (h : Ext s s') {m : Macro} (e : (s.macros m).isSome) : (s'.macros m).isSome := by
  obtain ⟨v, hv⟩ := Option.isSome_iff_exists.1 e
  rw [h.macros m v hv]; rfl

/-- A step that changes macros only. -/
theorem setDefault_ok {ms : Macro → Option Nat} {s : State} {m : Macro} {v : Nat} (hi : Inv ms s)
    (hm : m = .testMessage → v = wanted m) :
    Inv ms (setDefault m v s) ∧ Ext s (setDefault m v s) ∧ ((setDefault m v s).macros m).isSome ∧
      (v = wanted m → Values ms s → Values ms (setDefault m v s)) := by
  unfold setDefault
  cases e : s.macros m with
  | some w => exact ⟨hi, Ext.refl s, by simp [e], fun _ h => h⟩
  | none =>
    have hms : ms m = none := by
      cases e' : ms m with
      | none => rfl
      | some w => rw [hi.kept m w e'] at e; cases e
    have mono : ∀ m' w, s.macros m' = some w → (if m' = m then some v else s.macros m') = some w := by
      intro m' w hw
      by_cases em : m' = m
      · subst em; rw [e] at hw; cases hw
      · simp [em, hw]
    refine ⟨⟨hi.deep, hi.readGuards, hi.nodup, hi.ordered, ?_, hi.uses, fun m' w hw => mono m' w (hi.kept m' w hw),
      fun m' w hw => mono m' w (hi.fixed m' w hw), ?_, hi.messages⟩, ⟨fun _ h => h, fun _ h => h, fun _ h => .inl h,
      fun _ h => .inl h, mono, fun _ _ h => h⟩, by simp, ?_⟩
    · intro h hh m' w hw
      obtain ⟨x, hx⟩ := Option.isSome_iff_exists.1 (hi.defs h hh m' w hw)
      simp only [mono m' x hx, Option.isSome_some]
    · intro w hw
      by_cases em : Macro.testMessage = m
      · subst em
        simp only [if_true, Option.some.injEq] at hw
        simp [← hw, hm rfl, limit, hms]
      · simp only [em, if_false] at hw
        exact hi.message w hw
    · intro hv hval
      refine ⟨fun m' w hw => ?_, hval.uses⟩
      by_cases em : m' = m
      · subst em
        simp only [if_true, Option.some.injEq] at hw
        simp [← hw, hv, limit, hms]
      · simp only [em, if_false] at hw
        exact hval.macros m' w hw

theorem fixMacro_ok {ms : Macro → Option Nat} {boost : Boost} {f : Fusion} {s : State} {m : Macro} (hi : Inv ms s)
    (hm : m ≠ .testMessage) :
    Inv ms (fixMacro boost f s m) ∧ Ext s (fixMacro boost f s m) ∧
      ((s.macros m).isSome → Values ms s → Values ms (fixMacro boost f s m)) ∧
      (fixMacro boost f s m).read = s.read ∧
      (∀ d, boost.fixes f m = some d → ∃ v, (fixMacro boost f s m).fixed m = some v) := by
  unfold fixMacro
  cases e : boost.fixes f m with
  | none => exact ⟨hi, Ext.refl s, fun _ h => h, rfl, fun _ h => by cases h⟩
  | some d =>
    obtain ⟨hi', he, hs, -⟩ := setDefault_ok (v := d) hi (fun h => absurd h hm)
    have hread : (setDefault m d s).read = s.read := by unfold setDefault; cases s.macros m <;> rfl
    have hval : (s.macros m).isSome → setDefault m d s = s := by
      intro h
      obtain ⟨w, hw⟩ := Option.isSome_iff_exists.1 h
      simp [setDefault, hw]
    dsimp only
    cases ef : (setDefault m d s).fixed m with
    | some w =>
      exact ⟨hi', he, fun h k => by rw [hval h]; exact k, hread, fun _ _ => ⟨w, ef⟩⟩
    | none =>
      dsimp only
      refine ⟨⟨hi'.deep, hi'.readGuards, hi'.nodup, hi'.ordered, hi'.defs, hi'.uses, hi'.kept, ?_, hi'.message,
        hi'.messages⟩, ⟨he.read, he.guards, he.new, he.fresh, he.macros, ?_⟩, ?_, hread, ?_⟩
      · intro m' v hv
        by_cases em : m' = m
        · subst em; simpa using hv
        · simp only [em, if_false] at hv
          exact hi'.fixed m' v hv
      · intro m' v hv
        by_cases em : m' = m
        · subst em; rw [he.fixed m' v hv] at ef; cases ef
        · simpa [em] using he.fixed m' v hv
      · intro h k
        have k' : Values ms (setDefault m d s) := by rw [hval h]; exact k
        exact ⟨k'.macros, k'.uses⟩
      · intro _ _
        obtain ⟨w, hw⟩ := Option.isSome_iff_exists.1 hs
        exact ⟨w, by simp [hw]⟩

theorem readFusion_ok {ms : Macro → Option Nat} {boost : Boost} {f : Fusion} {s : State} (hi : Inv ms s) :
    Inv ms (readFusion boost f s) ∧ Ext s (readFusion boost f s) ∧
      ((s.macros .listSize).isSome → (s.macros .invokeArity).isSome → Values ms s → Values ms (readFusion boost f s)) := by
  obtain ⟨a1, a2, a3, -⟩ := fixMacro_ok (boost := boost) (f := f) (m := .listSize) hi (by decide)
  obtain ⟨b1, b2, b3, -⟩ := fixMacro_ok (boost := boost) (f := f) (m := .invokeArity) a1 (by decide)
  exact ⟨b1, a2.trans b2, fun h k v => b3 (a2.isSome k) (a3 h v)⟩

/-- Everything a header that was read defines is defined. -/
theorem Inv.supplied {ms : Macro → Option Nat} {s : State} (hi : Inv ms s) :
    ∀ n h m, h ∈ s.read → supplies n h m = true → (s.macros m).isSome
  | 0, _, _, _, h => by cases h
  | n + 1, h, m, hr, hs => by
    simp only [supplies, List.any_eq_true] at hs
    obtain ⟨d, hd, hs⟩ := hs
    cases d with
    | «include» h' =>
      obtain ⟨pre, post, e⟩ := List.append_of_mem hr
      refine Inv.supplied hi n h' m ?_ hs
      rw [e]
      exact List.mem_append_left _ (hi.ordered pre h post e h' hd)
    | fusion _ => cases hs
    | «default» m' v =>
      have e : m' = m := by simpa using hs
      subst e
      exact hi.defs h hr m' v hd
    | use _ => cases hs

/-- What reading a header achieves. -/
def Reads (ms : Macro → Option Nat) (rd : Header → State → State) (r : Nat) : Prop :=
  ∀ h s, rank h < r → Inv ms s → (∀ g ∈ s.guards, rank g ≤ rank h → g ∈ s.read) →
    Inv ms (rd h s) ∧ Ext s (rd h s) ∧ h ∈ (rd h s).read ∧ (Values ms s → Values ms (rd h s))

theorem readLines_ok {ms : Macro → Option Nat} {boost : Boost} {rd : Header → State → State} {h : Header}
    (hrd : Reads ms rd (rank h)) :
    ∀ (ds done : List Directive) (known : List Macro) (s : State), body h = done ++ ds → needsMet known ds = true →
      Inv ms s → (∀ m ∈ known, (s.macros m).isSome) → (∀ g ∈ s.guards, rank g < rank h → g ∈ s.read) →
      (∀ h', .include h' ∈ done → h' ∈ s.read) → (∀ m v, .default m v ∈ done → (s.macros m).isSome) →
      let s' := readLines boost rd h ds s
      Inv ms s' ∧ Ext s s' ∧ (∀ h', .include h' ∈ body h → h' ∈ s'.read) ∧
        (∀ m v, .default m v ∈ body h → (s'.macros m).isSome) ∧ (Values ms s → Values ms s')
  | [], done, known, s, hb, _, hi, _, _, hinc, hdef => by
    rw [List.append_nil] at hb
    rw [hb]
    exact ⟨hi, Ext.refl s, hinc, hdef, fun v => v⟩
  | d :: ds, done, known, s, hb, hn, hi, hk, hg, hinc, hdef => by
    have hb' : body h = (done ++ [d]) ++ ds := by simp [hb]
    have hmem : d ∈ body h := by simp [hb]
    -- one line, then the rest
    have go : ∀ (known' : List Macro) (t : State), needsMet known' ds = true → Inv ms t → Ext s t →
        (∀ m ∈ known', (t.macros m).isSome) → (∀ h', d = .include h' → h' ∈ t.read) →
        (∀ m v, d = .default m v → (t.macros m).isSome) → (Values ms s → Values ms t) →
        let s' := readLines boost rd h ds t
        Inv ms s' ∧ Ext s s' ∧ (∀ h', .include h' ∈ body h → h' ∈ s'.read) ∧
          (∀ m v, .default m v ∈ body h → (s'.macros m).isSome) ∧ (Values ms s → Values ms s') := by
      intro known' t hn' hi' he hk' hI hD hV
      obtain ⟨a, b, c, e, f⟩ := readLines_ok hrd ds (done ++ [d]) known' t hb' hn' hi' hk'
        (by
          intro g hgt hr
          rcases he.new g hgt with h1 | h2
          · exact he.read g (hg g h1 hr)
          · exact h2)
        (by
          intro h' hm
          rcases List.mem_append.1 hm with h1 | h2
          · exact he.read h' (hinc h' h1)
          · exact hI h' (List.mem_singleton.1 h2).symm)
        (by
          intro m v hm
          rcases List.mem_append.1 hm with h1 | h2
          · exact he.isSome (hdef m v h1)
          · exact hD m v (List.mem_singleton.1 h2).symm)
      exact ⟨a, he.trans b, c, e, fun v => f (hV v)⟩
    cases d with
    | «include» h' =>
      have hlt := rank_lt h _ hmem h' rfl
      obtain ⟨a, b, c, e⟩ := hrd h' s hlt hi (fun g hgg hr => hg g hgg (by omega))
      refine go _ (rd h' s) hn a b ?_ ?_ (by intro _ _ x; cases x) e
      · intro m hm
        rcases List.mem_append.1 hm with h1 | h2
        · exact a.supplied 10 h' m c (List.mem_filter.1 h1).2
        · exact b.isSome (hk m h2)
      · intro k e; cases e; exact c
    | fusion f =>
      simp only [needsMet, Bool.and_eq_true, List.contains_iff_mem] at hn
      obtain ⟨a, b, c⟩ := readFusion_ok (boost := boost) (f := f) hi
      exact go known _ hn.2 a b (fun m hm => b.isSome (hk m hm)) (by intro _ x; cases x) (by intro _ _ x; cases x)
        (c (hk _ hn.1.1) (hk _ hn.1.2))
    | «default» m v =>
      have hv := default_wanted h _ hmem m v rfl
      obtain ⟨a, b, c, e⟩ := setDefault_ok (v := v) hi (fun _ => hv)
      refine go (m :: known) _ hn a b ?_ (by intro _ x; cases x) ?_ (e hv)
      · intro m' hm
        rcases List.mem_cons.1 hm with h1 | h2
        · rw [h1]; exact c
        · exact b.isSome (hk m' h2)
      · intro m' v' x; cases x; exact c
    | use m =>
      simp only [needsMet, Bool.and_eq_true, List.contains_iff_mem] at hn
      obtain ⟨w, hw⟩ := Option.isSome_iff_exists.1 (hk m hn.1)
      refine go known { s with uses := s.uses ++ [(h, m, s.macros m)] } hn.2 ?_ ?_ hk (by intro _ x; cases x)
        (by intro _ _ x; cases x) ?_
      · refine ⟨hi.deep, hi.readGuards, hi.nodup, hi.ordered, hi.defs, ?_, hi.kept, hi.fixed, hi.message, ?_⟩
        · intro u hu
          rcases List.mem_append.1 hu with h1 | h2
          · exact hi.uses u h1
          · rw [List.mem_singleton.1 h2]; simp [hw]
        · intro u hu
          rcases List.mem_append.1 hu with h1 | h2
          · exact hi.messages u h1
          · rw [List.mem_singleton.1 h2]
            intro e
            have e : m = .testMessage := e
            subst e
            simp only [hw, hi.message w hw]
      · exact ⟨fun _ h => h, fun _ h => h, fun _ h => .inl h, fun _ h => .inl h, fun _ _ h => h, fun _ _ h => h⟩
      · intro hv
        refine ⟨hv.macros, ?_⟩
        intro u hu
        rcases List.mem_append.1 hu with h1 | h2
        · exact hv.uses u h1
        · rw [List.mem_singleton.1 h2]
          simp only [hw, hv.macros m w hw]

theorem readHeader_ok (ms : Macro → Option Nat) (boost : Boost) :
    ∀ depth, Reads ms (readHeader boost depth) depth
  | 0 => fun h _ hr => absurd hr (Nat.not_lt_zero _)
  | depth + 1 => by
    intro h s hr hi hg
    rw [readHeader]
    by_cases hgu : h ∈ s.guards
    · rw [if_pos hgu]
      exact ⟨hi, Ext.refl s, hg h hgu (Nat.le_refl _), fun v => v⟩
    · rw [if_neg hgu]
      have hnr : h ∉ s.read := fun x => hgu (hi.readGuards h x)
      have hrd : Reads ms (readHeader boost depth) (rank h) := by
        intro h' t hr' hi' hg'
        exact readHeader_ok ms boost depth h' t (by omega) hi' hg'
      have hi0 : Inv ms { s with guards := h :: s.guards } :=
        ⟨hi.deep, fun x hx => List.mem_cons_of_mem _ (hi.readGuards x hx), hi.nodup, hi.ordered, hi.defs, hi.uses, hi.kept,
          hi.fixed, hi.message, hi.messages⟩
      obtain ⟨a, b, c, d, e⟩ := readLines_ok (boost := boost) hrd (body h) [] [] { s with guards := h :: s.guards } rfl
        (needsMet_body h) hi0 (by intro _ hm; cases hm)
        (by
          intro g hgg hrr
          rcases List.mem_cons.1 hgg with h1 | h2
          · subst h1; omega
          · exact hg g h2 (by omega))
        (by intro _ hm; cases hm) (by intro _ _ hm; cases hm)
      generalize hs' : readLines boost (readHeader boost depth) h (body h) { s with guards := h :: s.guards } = s' at a b c d e
      have hnr' : h ∉ s'.read := by
        intro hx
        rcases b.fresh h hx with h1 | h2
        · exact hnr h1
        · exact h2 (List.mem_cons_self ..)
      have hgs' : h ∈ s'.guards := b.guards h (List.mem_cons_self ..)
      dsimp only
      refine ⟨⟨a.deep, ?_, ?_, ?_, ?_, a.uses, a.kept, a.fixed, a.message, a.messages⟩, ⟨?_, ?_, ?_, ?_, b.macros, b.fixed⟩,
        by simp, fun v => ?_⟩
      · intro x hx
        rcases List.mem_append.1 hx with h1 | h2
        · exact a.readGuards x h1
        · rw [List.mem_singleton.1 h2]; exact hgs'
      · refine List.nodup_append.2 ⟨a.nodup, by simp, ?_⟩
        intro x hx y hy e
        rw [List.mem_singleton.1 hy] at e
        exact hnr' (e ▸ hx)
      · intro pre k post e h' hh'
        rcases List.eq_nil_or_concat post with hp | ⟨post', z, hp⟩
        · subst hp
          obtain ⟨e1, e2⟩ := List.append_inj' e rfl
          simp only [List.cons.injEq, and_true] at e2
          subst e2
          rw [← e1]
          exact c h' hh'
        · subst hp
          have e' : s'.read ++ [h] = (pre ++ k :: post') ++ [z] := by simpa using e
          obtain ⟨e1, -⟩ := List.append_inj' e' rfl
          exact a.ordered pre k post' e1 h' hh'
      · intro x hx m v hm
        rcases List.mem_append.1 hx with h1 | h2
        · exact a.defs x h1 m v hm
        · rw [List.mem_singleton.1 h2] at hm
          exact d m v hm
      · exact fun x hx => List.mem_append_left _ (b.read x hx)
      · exact fun x hx => b.guards x (List.mem_cons_of_mem _ hx)
      · intro x hx
        rcases b.new x hx with h1 | h2
        · rcases List.mem_cons.1 h1 with h3 | h4
          · exact .inr (by simp [h3])
          · exact .inl h4
        · exact .inr (List.mem_append_left _ h2)
      · intro x hx
        rcases List.mem_append.1 hx with h1 | h2
        · rcases b.fresh x h1 with h3 | h4
          · exact .inl h3
          · exact .inr fun hh => h4 (List.mem_cons_of_mem _ hh)
        · rw [List.mem_singleton.1 h2]
          exact .inr hgu
      · have := e ⟨v.macros, v.uses⟩
        exact ⟨this.macros, this.uses⟩

theorem rank_small (h : Header) : rank h < depthLimit := by
  cases h <;> decide

/-- The state between the lines of the user. -/
structure Between (ms : Macro → Option Nat) (s : State) : Prop where
  inv : Inv ms s
  closed : ∀ g ∈ s.guards, g ∈ s.read

theorem between_start (ms : Macro → Option Nat) : Between ms { macros := ms } := by
  refine ⟨⟨rfl, by simp, by simp, ?_, by simp, by simp, fun _ _ h => h, ?_, ?_, by simp⟩, by simp⟩
  · intro pre h post e
    cases pre <;> cases e
  · intro m v h; cases h
  · intro v h
    have h : ms .testMessage = some v := h
    simp [limit, h]

theorem values_start (ms : Macro → Option Nat) : Values ms { macros := ms } := by
  refine ⟨?_, by simp⟩
  intro m v h
  have h : ms m = some v := h
  simp [limit, h]

theorem readItem_ok {ms : Macro → Option Nat} {boost : Boost} {s : State} (hb : Between ms s) (i : Item) :
    Between ms (readItem boost s i) ∧ Ext s (readItem boost s i) ∧ (∀ h, i = .lib h → h ∈ (readItem boost s i).read) := by
  cases i with
  | lib h =>
    obtain ⟨a, b, c, -⟩ := readHeader_ok ms boost depthLimit h s (rank_small h) hb.inv (fun g hg _ => hb.closed g hg)
    refine ⟨⟨a, fun g hg => ?_⟩, b, fun k e => by cases e; exact c⟩
    rcases b.new g hg with h1 | h2
    · exact b.read g (hb.closed g h1)
    · exact h2
  | fusion f =>
    obtain ⟨a, b, -⟩ := readFusion_ok (boost := boost) (f := f) hb.inv
    refine ⟨⟨a, fun g hg => ?_⟩, b, fun k e => by cases e⟩
    rcases b.new g hg with h1 | h2
    · exact b.read g (hb.closed g h1)
    · exact h2

theorem readItems_ok {ms : Macro → Option Nat} {boost : Boost} :
    ∀ (items : List Item) (s : State), Between ms s →
      Between ms (items.foldl (readItem boost) s) ∧ Ext s (items.foldl (readItem boost) s) ∧
        (∀ h, .lib h ∈ items → h ∈ (items.foldl (readItem boost) s).read)
  | [], s, hb => ⟨hb, Ext.refl s, by simp⟩
  | i :: items, s, hb => by
    obtain ⟨a, b, c⟩ := readItem_ok (boost := boost) hb i
    obtain ⟨d, e, f⟩ := readItems_ok items _ a
    refine ⟨d, b.trans e, fun h hm => ?_⟩
    rcases List.mem_cons.1 hm with h1 | h2
    · exact e.read h (c h h1.symm)
    · exact f h h2

/-- The headers a header that was read includes were read as well. -/
theorem Inv.includes {ms : Macro → Option Nat} {s : State} (hi : Inv ms s) {h k : Header} (hik : Includes h k) :
    h ∈ s.read → k ∈ s.read := by
  induction hik with
  | self h => exact id
  | step hm _ ih =>
    intro hr
    obtain ⟨pre, post, e⟩ := List.append_of_mem hr
    refine ih ?_
    rw [e]
    exact List.mem_append_left _ (hi.ordered pre _ post e _ hm)

theorem Inv.configured {ms : Macro → Option Nat} {s : State} (hi : Inv ms s) {h : Header} (hr : h ∈ s.read)
    (hc : Configures h) : (s.macros .listSize).isSome ∧ (s.macros .invokeArity).isSome := by
  have := hi.includes hc hr
  exact ⟨hi.defs _ this .listSize 9 (by simp [body]), hi.defs _ this .invokeArity 10 (by simp [body])⟩

theorem readItems_values {ms : Macro → Option Nat} {boost : Boost} :
    ∀ (items done : List Item) (s : State), Between ms s → Values ms s → (∀ h, .lib h ∈ done → h ∈ s.read) →
      (∀ pre f post, items = pre ++ .fusion f :: post → ∃ h, .lib h ∈ done ++ pre ∧ Configures h) →
      Values ms (items.foldl (readItem boost) s)
  | [], _, _, _, hv, _, _ => hv
  | i :: items, done, s, hb, hv, hd, hc => by
    obtain ⟨a, b, c⟩ := readItem_ok (boost := boost) hb i
    refine readItems_values items (done ++ [i]) (readItem boost s i) a ?_ ?_ ?_
    · cases i with
      | lib h =>
        exact (readHeader_ok ms boost depthLimit h s (rank_small h) hb.inv (fun g hg _ => hb.closed g hg)).2.2.2 hv
      | fusion f =>
        obtain ⟨h, hh, hconf⟩ := hc [] f items rfl
        rw [List.append_nil] at hh
        obtain ⟨x, y⟩ := hb.inv.configured (hd h hh) hconf
        exact (readFusion_ok (boost := boost) (f := f) hb.inv).2.2 x y hv
    · intro h hh
      rcases List.mem_append.1 hh with h1 | h2
      · exact b.read h (hd h h1)
      · exact c h (List.mem_singleton.1 h2).symm
    · intro pre f post e
      obtain ⟨h, hh, hconf⟩ := hc (i :: pre) f post (by simp [e])
      exact ⟨h, by simpa using hh, hconf⟩

/-! ### Nothing else is read -/

theorem read_setDefault (m : Macro) (v : Nat) (s : State) : (setDefault m v s).read = s.read := by
  unfold setDefault; cases s.macros m <;> rfl

theorem read_fixMacro (boost : Boost) (f : Fusion) (s : State) (m : Macro) : (fixMacro boost f s m).read = s.read := by
  unfold fixMacro
  cases boost.fixes f m with
  | none => rfl
  | some d =>
    dsimp only
    cases (setDefault m d s).fixed m <;> exact read_setDefault m d s

theorem read_readFusion (boost : Boost) (f : Fusion) (s : State) : (readFusion boost f s).read = s.read := by
  unfold readFusion; rw [read_fixMacro, read_fixMacro]

theorem read_readLines {boost : Boost} {rd : Header → State → State} {h : Header}
    (hrd : ∀ h' s x, x ∈ (rd h' s).read → x ∈ s.read ∨ Includes h' x) :
    ∀ (ds : List Directive) (s : State) x, (∀ d ∈ ds, d ∈ body h) → x ∈ (readLines boost rd h ds s).read →
      x ∈ s.read ∨ Includes h x
  | [], _, _, _, hx => .inl hx
  | d :: ds, s, x, hm, hx => by
    have hm' : ∀ d ∈ ds, d ∈ body h := fun d hd => hm d (List.mem_cons_of_mem _ hd)
    cases d with
    | «include» h' =>
      rcases read_readLines hrd ds _ x hm' hx with h1 | h2
      · rcases hrd h' s x h1 with h3 | h4
        · exact .inl h3
        · exact .inr (.step (hm _ (List.mem_cons_self ..)) h4)
      · exact .inr h2
    | fusion f =>
      rcases read_readLines hrd ds _ x hm' hx with h1 | h2
      · rw [read_readFusion] at h1; exact .inl h1
      · exact .inr h2
    | «default» m v =>
      rcases read_readLines hrd ds _ x hm' hx with h1 | h2
      · rw [read_setDefault] at h1; exact .inl h1
      · exact .inr h2
    | use m =>
      rcases read_readLines hrd ds _ x hm' hx with h1 | h2
      · exact .inl h1
      · exact .inr h2

theorem read_readHeader (boost : Boost) : ∀ depth h s x, x ∈ (readHeader boost depth h s).read → x ∈ s.read ∨ Includes h x
  | 0, _, _, _, hx => .inl hx
  | depth + 1, h, s, x, hx => by
    rw [readHeader] at hx
    by_cases hg : h ∈ s.guards
    · rw [if_pos hg] at hx; exact .inl hx
    · rw [if_neg hg] at hx
      rcases List.mem_append.1 hx with h1 | h2
      · exact read_readLines (read_readHeader boost depth) (body h) { s with guards := h :: s.guards } x (fun _ h => h) h1
      · rw [List.mem_singleton.1 h2]; exact .inr (.self h)

theorem read_readItems (boost : Boost) :
    ∀ (items : List Item) (s : State) x, x ∈ (items.foldl (readItem boost) s).read →
      x ∈ s.read ∨ ∃ k, .lib k ∈ items ∧ Includes k x
  | [], _, _, hx => .inl hx
  | i :: items, s, x, hx => by
    rcases read_readItems boost items _ x hx with h1 | ⟨k, hk, hi⟩
    · cases i with
      | lib h =>
        rcases read_readHeader boost _ h s x h1 with h2 | h3
        · exact .inl h2
        · exact .inr ⟨h, List.mem_cons_self .., h3⟩
      | fusion f =>
        have h1 : x ∈ (readFusion boost f s).read := h1
        rw [read_readFusion] at h1; exact .inl h1
    · exact .inr ⟨k, List.mem_cons_of_mem _ hk, hi⟩

/-- Which headers include `k`, by search `n` levels deep. -/
def includesB : Nat → Header → Header → Bool
  | 0, _, _ => false
  | n + 1, h, k => h = k || (body h).any fun | .include h' => includesB n h' k | _ => false

theorem includes_iff {h k : Header} : ∀ n, rank h < n → (includesB n h k = true ↔ Includes h k) := by
  intro n
  induction n generalizing h with
  | zero => intro h; omega
  | succ n ih =>
    intro hr
    simp only [includesB, Bool.or_eq_true, decide_eq_true_eq, List.any_eq_true]
    constructor
    · rintro (e | ⟨d, hd, hs⟩)
      · subst e; exact .self h
      · cases d with
        | «include» h' =>
          have := rank_lt h _ hd h' rfl
          exact .step hd ((ih (by omega)).1 hs)
        | fusion _ => cases hs
        | «default» _ _ => cases hs
        | use _ => cases hs
    · intro hi
      cases hi with
      | self => exact .inl rfl
      | step hm hi =>
        have := rank_lt h _ hm _ rfl
        exact .inr ⟨_, hm, (ih (by omega)).2 hi⟩

end TT.Inc
