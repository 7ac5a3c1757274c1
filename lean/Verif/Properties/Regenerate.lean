import Verif.Model.Regenerate

/-!
# C112: regenerating the headers
-/

namespace TT.Properties
open TT.Gen

variable {st : Settings} {writable : Text → Bool}

/-- Where the header of a data file goes. -/
def headerPath (d : DataFile) : Option Text := (query d).map (strip false)

/-- The text of a header that depends on the arity: heading with the name of the source, the lines for each arity, ending. -/
def headerText (before name after middle ending : Text) : Text :=
  before ++ (chars! "variadicGenerate.lua on input ") ++ name ++ after ++ ['\n'] ++ middle ++ ['\n'] ++ ending ++ ['\n']

/-! ### Helpers -/

/-- What the script does to the files when all goes well, whatever they were. -/
theorem generateAll_true : ∀ (ds : List (Text × DataFile)) (fs fs' : Files),
    generateAll st writable ds fs = (fs', true) → ∃ new : Files,
      (∀ gs, generateAll st writable ds gs = (fun p => (new p).or (gs p), true)) ∧
      (∀ path, (∀ x ∈ ds, headerPath x.2 ≠ some path) → new path = none) ∧
      ∀ pre x post path, ds = pre ++ x :: post → headerPath x.2 = some path → (∀ y ∈ post, headerPath y.2 ≠ some path) →
        ∃ t, runGenerator st x.2 (sourceName x.1) = some t ∧ new path = some t := by
  intro ds
  induction ds with
  | nil => intro fs fs' _; exact ⟨fun _ => none, fun gs => by simp [generateAll], by simp, by simp⟩
  | cons x ds ih =>
    intro fs fs' h
    obtain ⟨name, d⟩ := x
    unfold generateAll at h
    cases hq : query d with
    | none => simp [hq] at h
    | some q =>
      simp only [hq] at h
      cases hr : redirect st writable (strip false q) name d fs with
      | mk fs1 b =>
        rw [hr] at h
        cases b with
        | false => simp at h
        | true =>
          simp only at h
          unfold redirect at hr
          split at hr
          · rename_i hw
            cases ht : runGenerator st d (sourceName name) with
            | none => simp [ht] at hr
            | some t =>
              simp only [ht, Prod.mk.injEq, and_true] at hr
              subst hr
              obtain ⟨new, h1, h2, h3⟩ := ih _ _ h
              refine ⟨fun p => (new p).or (if p = strip false q then some t else none), ?_, ?_, ?_⟩
              · intro gs
                unfold generateAll
                simp only [hq, redirect, hw, ht, if_true, h1]
                congr 1
                funext p
                unfold Files.set
                split <;> cases new p <;> rfl
              · intro path hp
                have ha := hp (name, d) (by simp)
                simp only [headerPath, hq, Option.map_some, ne_eq, Option.some.injEq] at ha
                show (new path).or _ = _
                rw [h2 path fun x hx => hp x (by simp [hx]), if_neg (fun e => ha e.symm)]
                rfl
              · intro pre x post path e hx hp
                cases pre with
                | nil =>
                  simp only [List.nil_append, List.cons.injEq] at e
                  obtain ⟨rfl, rfl⟩ := e
                  simp only [headerPath, hq, Option.map_some, Option.some.injEq] at hx
                  refine ⟨t, ht, ?_⟩
                  show (new path).or _ = _
                  rw [h2 path fun y hy => hp y hy, if_pos hx.symm]
                  rfl
                | cons y pre =>
                  simp only [List.cons_append, List.cons.injEq] at e
                  obtain ⟨t', h4, h5⟩ := h3 pre x post path e.2 hx hp
                  exact ⟨t', h4, by show (new path).or _ = _; rw [h5]; rfl⟩
          · simp at hr

/-- Formatting a text in which there is nothing to format. -/
theorem format_plain {t : Text} (h : '%' ∉ t) (a : Option Text) : format t a = some t := by
  induction t with
  | nil => simp [format]
  | cons c t ih =>
    simp only [List.mem_cons, not_or] at h
    unfold format
    rw [if_neg fun e => h.1 e.symm, ih h.2]
    rfl

theorem format_once {b a : Text} (hb : '%' ∉ b) (ha : '%' ∉ a) (x : Text) :
    format (b ++ '%' :: 's' :: a) (some x) = some (b ++ x ++ a) := by
  induction b with
  | nil => simp [format, format_plain ha]
  | cons c b ih =>
    simp only [List.mem_cons, not_or] at hb
    rw [List.cons_append]
    unfold format
    rw [if_neg fun e => hb.1 e.symm, ih hb.2]
    rfl

theorem cat_ends {ls : List Text} (h : ls ≠ []) (p e sep : Text) :
    cat ([p] ++ ls ++ [e]) sep = p ++ sep ++ cat ls sep ++ sep ++ e := by
  cases ls with
  | nil => exact absurd rfl h
  | cons l ls =>
    have : ∀ (ls : List Text) (l : Text), cat (l :: ls ++ [e]) sep = cat (l :: ls) sep ++ sep ++ e := by
      intro ls
      induction ls with
      | nil => intro l; simp [cat]
      | cons m ls ih => intro l; simp only [List.cons_append] at ih; simp [cat, ih]
    have := this ls l
    simp only [List.cons_append, List.nil_append, cat] at this ⊢
    rw [this]
    simp

theorem digit_plain (n : Nat) : digit n ≠ '%' := by
  unfold digit
  split <;> decide

theorem decimalGo_plain : ∀ (k n : Nat) (acc : Text), '%' ∉ acc → '%' ∉ decimalGo k n acc := by
  intro k
  induction k with
  | zero => intro n acc h; exact h
  | succ k ih =>
    intro n acc h
    have hc : ∀ m, '%' ∉ digit m :: acc := fun m => by
      simp only [List.mem_cons, not_or]
      exact ⟨fun e => digit_plain m e.symm, h⟩
    unfold decimalGo
    split
    · exact hc _
    · exact ih _ _ (hc _)

theorem decimal_plain (n : Nat) : '%' ∉ decimal n := decimalGo_plain _ _ _ (by simp)

theorem mapM_some {α β : Type} (f : α → β) (xs : List α) : (xs.mapM fun x => some (f x)) = some (xs.map f) := by
  induction xs with
  | nil => rfl
  | cons x xs ih => simp [List.mapM_cons, ih]

/-- A data file whose table is there and whose `generate` raises no error. -/
theorem runGenerator_ok {d : DataFile} {data : Data} (hd : d st = some data) {before after name : Text}
    (hh : data.heading = before ++ chars! "%s" ++ after) (hb : '%' ∉ before) (ha : '%' ∉ after) {lo hi : Nat}
    (hlo : data.minArity = some lo) (hhi : data.maxArity = some hi) (hle : lo ≤ hi) {g : Nat → List Text}
    (hg : ∀ n, data.generate n = some (g n)) (hne : ∀ n, g n ≠ []) :
    runGenerator st d (sourceName name) = some (headerText before name after (body g lo hi) data.ending) := by
  unfold runGenerator
  have hf : format data.heading (some (sourceName name)) = some (before ++ sourceName name ++ after) := by
    rw [hh, List.append_assoc]
    exact format_once hb ha _
  simp only [hd, hf, hlo, hhi, Option.bind_eq_bind, Option.bind_some, hg, mapM_some, Option.pure_def]
  rw [cat_ends]
  · unfold headerText sourceName body
    simp only [List.flatMap_def, List.append_assoc]
  · intro e
    have : (g (lo + 0)) = [] := by
      have := List.flatten_eq_nil_iff.mp e (g (lo + 0)) (List.mem_map.mpr ⟨0, by simp; omega, rfl⟩)
      exact this
    exact hne _ this

/-! ### The property -/

/-- C112 (success). If the script ends well, every file has the contents generated from the last data file that names it,
and all files that no data file names are as they were. -/
theorem C112_success {ds : List (Text × DataFile)} {fs fs' : Files}
    (h : generateAll st writable ds fs = (fs', true)) (path : Text) :
    ((∀ x ∈ ds, headerPath x.2 ≠ some path) → fs' path = fs path) ∧
    ∀ pre x post, ds = pre ++ x :: post → headerPath x.2 = some path → (∀ y ∈ post, headerPath y.2 ≠ some path) →
      ∃ t, runGenerator st x.2 (sourceName x.1) = some t ∧ fs' path = some t := by
  obtain ⟨new, h1, h2, h3⟩ := generateAll_true ds fs fs' h
  have e := h1 fs
  rw [h] at e
  simp only [Prod.mk.injEq, and_true] at e
  subst e
  refine ⟨fun hp => by simp only [h2 path hp]; rfl, fun pre x post hd hx hp => ?_⟩
  obtain ⟨t, h4, h5⟩ := h3 pre x post path hd hx hp
  exact ⟨t, h4, by simp only [h5]; rfl⟩

/-- C112 (again). Running the script again after it has ended well changes nothing; and the headers do not depend on what
was in them before. -/
theorem C112_again {ds : List (Text × DataFile)} {fs fs' : Files}
    (h : generateAll st writable ds fs = (fs', true)) :
    generateAll st writable ds fs' = (fs', true) ∧
    ∀ gs, ∃ gs', generateAll st writable ds gs = (gs', true) ∧
      ∀ path, (∃ x ∈ ds, headerPath x.2 = some path) → gs' path = fs' path := by
  obtain ⟨new, h1, h2, h3⟩ := generateAll_true ds fs fs' h
  have e := h1 fs
  rw [h] at e
  simp only [Prod.mk.injEq, and_true] at e
  subst e
  refine ⟨by rw [h1]; congr 1; funext p; cases new p <;> rfl, fun gs => ⟨_, h1 gs, fun path hp => ?_⟩⟩
  have : ∀ ds : List (Text × DataFile), (∃ x ∈ ds, headerPath x.2 = some path) →
      ∃ pre x post, ds = pre ++ x :: post ∧ headerPath x.2 = some path ∧ ∀ y ∈ post, headerPath y.2 ≠ some path := by
    intro ds
    induction ds with
    | nil => simp
    | cons z ds ih =>
      rintro ⟨x, hx, hx'⟩
      by_cases hl : ∃ x ∈ ds, headerPath x.2 = some path
      · obtain ⟨pre, x, post, rfl, h4, h5⟩ := ih hl
        exact ⟨z :: pre, x, post, rfl, h4, h5⟩
      · rcases List.mem_cons.mp hx with rfl | hx
        · exact ⟨[], x, ds, rfl, hx', fun y hy e => hl ⟨y, hy, e⟩⟩
        · exact absurd ⟨x, hx, hx'⟩ hl
  obtain ⟨pre, x, post, e1, e2, e3⟩ := this ds hp
  obtain ⟨t, _, h5⟩ := h3 pre x post path e1 e2 e3
  simp only [h5]
  rfl

/-- C112 (failure). If the script fails, it does so at one data file: those before it have been dealt with, and either
nothing else has changed or the header of that data file has been emptied, because the generator failed. -/
theorem C112_failure {ds : List (Text × DataFile)} {fs fs' : Files}
    (h : generateAll st writable ds fs = (fs', false)) :
    ∃ pre x post fs1, ds = pre ++ x :: post ∧ generateAll st writable pre fs = (fs1, true) ∧
      (fs' = fs1 ∧ (headerPath x.2 = none ∨ ∃ path, headerPath x.2 = some path ∧ writable path = false) ∨
        ∃ path, headerPath x.2 = some path ∧ runGenerator st x.2 (sourceName x.1) = none ∧
          ∀ p, fs' p = if p = path then some [] else fs1 p) := by
  induction ds generalizing fs with
  | nil => simp [generateAll] at h
  | cons x ds ih =>
    obtain ⟨name, d⟩ := x
    unfold generateAll at h
    cases hq : query d with
    | none =>
      simp only [hq, Prod.mk.injEq, and_true] at h
      exact ⟨[], _, ds, fs, rfl, rfl, Or.inl ⟨h.symm, Or.inl (by simp [headerPath, hq])⟩⟩
    | some q =>
      simp only [hq] at h
      have ht : headerPath d = some (strip false q) := by simp [headerPath, hq]
      cases hw : writable (strip false q) with
      | false =>
        simp only [redirect, hw, Bool.false_eq_true, if_false, Prod.mk.injEq, and_true] at h
        exact ⟨[], _, ds, fs, rfl, rfl, Or.inl ⟨h.symm, Or.inr ⟨_, ht, hw⟩⟩⟩
      | true =>
        cases hr : runGenerator st d (sourceName name) with
        | none =>
          simp only [redirect, hw, if_true, hr, Prod.mk.injEq, and_true] at h
          exact ⟨[], _, ds, fs, rfl, rfl, Or.inr ⟨_, ht, hr, fun p => by rw [← h]; rfl⟩⟩
        | some t =>
          simp only [redirect, hw, if_true, hr] at h
          obtain ⟨pre, x, post, fs1, rfl, h1, h2⟩ := ih h
          exact ⟨(name, d) :: pre, x, post, fs1, rfl, by simp [generateAll, hq, redirect, hw, hr, h1], h2⟩

/-- C112 (the data files as they are). For all arities, the script ends well if the three headers can be written. They
consist of a heading that names the script, the text generated for the arities, and an ending; no other file changes. The
query for the name of the header works although the arities are not known to it. -/
theorem C112_shipped (receiveMin receiveMax sendMin sendMax : Nat) (hr : receiveMin ≤ receiveMax)
    (hs : sendMin ≤ sendMax) (hw : ∀ x ∈ dataFiles, ∀ path, headerPath x.2 = some path → writable path = true)
    (fs : Files) :
    ∃ fs' : Files, generateAll ⟨receiveMin, receiveMax, sendMin, sendMax⟩ writable dataFiles fs = (fs', true) ∧
      fs' (chars! "detail/constants/ArityConfig.h") = some (headerText ArityConfig.before (chars! "ArityConfig.gen.lua")
        ArityConfig.after (cat (ArityConfig.generate sendMax receiveMax) ['\n']) ArityConfig.suffix) ∧
      fs' (chars! "PartialHandlerBase.h") = some (headerText PartialHandler.before
        (chars! "PartialHandlerBase.gen.lua") PartialHandler.after (body PartialHandler.generate receiveMin receiveMax)
        PartialHandler.suffix) ∧
      fs' (chars! "detail/operations/SendOverloads_Generated.h") = some (headerText SendOverloads.before
        (chars! "SendOverloads.gen.lua") (SendOverloads.after ++ decimal sendMax ++ SendOverloads.afterArity)
        (body SendOverloads.generate sendMin sendMax) SendOverloads.suffix) ∧
      ∀ path, path ≠ (chars! "detail/constants/ArityConfig.h") → path ≠ (chars! "PartialHandlerBase.h") →
        path ≠ (chars! "detail/operations/SendOverloads_Generated.h") → fs' path = fs path := by
  let st : Settings := ⟨receiveMin, receiveMax, sendMin, sendMax⟩
  have t1 : headerPath arityConfigFile = some (chars! "detail/constants/ArityConfig.h") := by decide +kernel
  have t2 : headerPath partialHandlerFile = some (chars! "PartialHandlerBase.h") := by decide +kernel
  have t3 : headerPath sendOverloadsFile = some (chars! "detail/operations/SendOverloads_Generated.h") := by
    decide +kernel
  have g1 := runGenerator_ok (st := st) (d := arityConfigFile) (name := chars! "ArityConfig.gen.lua") rfl rfl
    (by decide +kernel) (by decide +kernel) rfl rfl (Nat.le_refl 0) (g := fun _ => ArityConfig.generate sendMax receiveMax)
    (fun _ => rfl) (fun _ => by simp [ArityConfig.generate])
  have g2 := runGenerator_ok (st := st) (d := partialHandlerFile) (name := chars! "PartialHandlerBase.gen.lua") rfl rfl
    (by decide +kernel) (by decide +kernel) rfl rfl hr (g := PartialHandler.generate)
    (fun _ => rfl) (fun _ => by simp [PartialHandler.generate])
  have hp : '%' ∉ SendOverloads.after ++ decimal sendMax ++ SendOverloads.afterArity := by
    have h1 : '%' ∉ SendOverloads.after := by decide +kernel
    have h2 : '%' ∉ SendOverloads.afterArity := by decide +kernel
    simp [h1, h2, decimal_plain]
  have g3 := runGenerator_ok (st := st) (d := sendOverloadsFile) (name := chars! "SendOverloads.gen.lua") rfl
    (before := SendOverloads.before) (after := SendOverloads.after ++ decimal sendMax ++ SendOverloads.afterArity)
    (by simp only [List.append_assoc]; rfl) (by decide +kernel) hp rfl rfl hs (g := SendOverloads.generate)
    (fun _ => rfl) (fun _ => by simp [SendOverloads.generate])
  have one : ∀ {name path text : Text} {d : DataFile} {ds : List (Text × DataFile)} {fs : Files},
      (name, d) ∈ dataFiles → headerPath d = some path → runGenerator st d (sourceName name) = some text →
      generateAll st writable ((name, d) :: ds) fs = generateAll st writable ds (fs.set path text) := by
    intro name path text d ds fs hm ht hg
    have hwr := hw (name, d) hm path ht
    unfold headerPath at ht
    cases hq : query d with
    | none => simp [hq] at ht
    | some q =>
      simp only [hq, Option.map_some, Option.some.injEq] at ht
      simp only [generateAll, hq, redirect, ht, hwr, if_true, hg]
  refine ⟨_, by
    rw [show dataFiles = [(chars! "ArityConfig.gen.lua", arityConfigFile),
      (chars! "PartialHandlerBase.gen.lua", partialHandlerFile), (chars! "SendOverloads.gen.lua", sendOverloadsFile)]
      from rfl, one (by simp [dataFiles]) t1 g1, one (by simp [dataFiles]) t2 g2, one (by simp [dataFiles]) t3 g3]
    rfl, ?_, ?_, ?_, ?_⟩
  · simp [Files.set, body]
  · simp [Files.set]
  · simp [Files.set]
  · intro path n1 n2 n3
    simp [Files.set, n1, n2, n3]

theorem format_after {b : Text} (hb : '%' ∉ b) (t : Text) (x : Option Text) :
    format (b ++ t) x = (format t x).map (b ++ ·) := by
  induction b with
  | nil => cases h : format t x <;> simp [h]
  | cons c b ih =>
    simp only [List.mem_cons, not_or] at hb
    rw [List.cons_append]
    have : format (c :: (b ++ t)) x = (format (b ++ t) x).map (c :: ·) := by
      conv => lhs; unfold format
      rw [if_neg fun e => hb.1 e.symm]
    rw [this, ih hb.2, Option.map_map]
    rfl

/-- C112 (headings). A percent sign in a heading must be doubled: a heading with a single one other than the first `%s`
makes the generator fail, so that the header ends up empty; a doubled one gives one. -/
theorem C112_heading {d : DataFile} {data : Data} (hd : d st = some data) {b m a : Text} (hb : '%' ∉ b) (hm : '%' ∉ m)
    (name : Text) :
    (data.heading = b ++ chars! "%s" ++ m ++ '%' :: a → a.head? ≠ some '%' →
      runGenerator st d (sourceName name) = none) ∧
    (data.heading = b ++ chars! "%s" ++ m ++ chars! "%%" ++ a → '%' ∉ a →
      format data.heading (some (sourceName name)) = some (b ++ sourceName name ++ m ++ '%' :: a)) := by
  have first : ∀ t, format (b ++ chars! "%s" ++ m ++ t) (some (sourceName name)) =
      ((format t none).map (m ++ ·)).map fun u => b ++ (sourceName name ++ u) := by
    intro t
    rw [List.append_assoc, List.append_assoc, format_after hb]
    have : format (chars! "%s" ++ (m ++ t)) (some (sourceName name)) =
        (format (m ++ t) none).map (sourceName name ++ ·) := by
      simp [format]
    rw [this, format_after hm, Option.map_map]
    rfl
  refine ⟨fun e hne => ?_, fun e ha => ?_⟩
  · unfold runGenerator
    have : format ('%' :: a) none = none := by
      cases a with
      | nil => simp [format]
      | cons c a =>
        have hc : c ≠ '%' := by simpa using hne
        simp [format, hc]
    have hf := first ('%' :: a)
    rw [this, ← e] at hf
    simp only [Option.map_none] at hf
    simp [hd, hf]
  · have h2 : format (chars! "%%" ++ a) none = some ('%' :: a) := by
      simp [format, format_plain ha]
    rw [e, List.append_assoc, first, h2]
    simp

/-- C112 (by the build system). Building the target with all headers out of date does what the script does, if every data
file can be queried and no name of a header ends in white space. -/
theorem C112_cmake_all {ds : List (Text × DataFile)} (fs : Files)
    (hq : ∀ x ∈ ds, ∃ q, query x.2 = some q ∧ strip true q = strip false q) :
    cmakeBuild st writable (fun _ => true) (cmakeRules ds) fs = generateAll st writable ds fs := by
  induction ds generalizing fs with
  | nil => rfl
  | cons x ds ih =>
    obtain ⟨name, d⟩ := x
    obtain ⟨q, h1, h2⟩ := hq (name, d) (by simp)
    have ih := fun fs => ih fs fun x hx => hq x (by simp [hx])
    simp only at h1
    simp only [cmakeRules, List.filterMap_cons, h1, Option.map_some, generateAll, cmakeBuild, if_true, h2]
    split
    · simp
    · exact ih _

/-- C112 (build only what is out of date). If the headers that are up to date contain what would be generated, the
headers are those of the script also if only the others are generated. Needs different names for the headers. -/
theorem C112_cmake_some {ds : List (Text × DataFile)} {outdated : Text → Bool} {fs fs' : Files}
    (hq : ∀ x ∈ ds, ∃ q, query x.2 = some q ∧ strip true q = strip false q)
    (hnd : (ds.map fun x => headerPath x.2).Nodup)
    (hu : ∀ x ∈ ds, ∀ path, headerPath x.2 = some path → outdated path = false →
      fs path ≠ none ∧ fs path = runGenerator st x.2 (sourceName x.1))
    (h : generateAll st writable ds fs = (fs', true)) :
    cmakeBuild st writable outdated (cmakeRules ds) fs = (fs', true) := by
  induction ds generalizing fs with
  | nil => exact h
  | cons x ds ih =>
    obtain ⟨name, d⟩ := x
    obtain ⟨q, h1, h2⟩ := hq (name, d) (by simp)
    simp only at h1
    have ht : headerPath d = some (strip false q) := by simp [headerPath, h1]
    simp only [List.map_cons, List.nodup_cons, List.mem_map, not_exists, not_and] at hnd
    unfold generateAll at h
    simp only [h1] at h
    simp only [cmakeRules, List.filterMap_cons, h1, Option.map_some, cmakeBuild, h2]
    cases hr : redirect st writable (strip false q) name d fs with
    | mk fs1 b =>
      rw [hr] at h
      cases b with
      | false => simp at h
      | true =>
        simp only at h
        have hset : ∃ t, runGenerator st d (sourceName name) = some t ∧ fs1 = fs.set (strip false q) t := by
          unfold redirect at hr
          split at hr
          · cases hg : runGenerator st d (sourceName name) with
            | none => simp [hg] at hr
            | some t =>
              simp only [hg, Prod.mk.injEq, and_true] at hr
              exact ⟨t, rfl, hr.symm⟩
          · simp at hr
        obtain ⟨t, hg, rfl⟩ := hset
        have next : ∀ x ∈ ds, ∀ path, headerPath x.2 = some path → outdated path = false →
            (fs.set (strip false q) t) path ≠ none ∧
            (fs.set (strip false q) t) path = runGenerator st x.2 (sourceName x.1) := by
          intro x hx path hp ho
          have hne : path ≠ strip false q := fun e => hnd.1 x hx (by rw [hp, e]; exact ht.symm)
          simp only [Files.set, if_neg hne]
          exact hu x (by simp [hx]) path hp ho
        have := ih (fun x hx => hq x (by simp [hx])) hnd.2 next h
        cases ho : outdated (strip false q) with
        | true => simp only [if_true]; exact this
        | false =>
          simp only [Bool.false_eq_true, if_false]
          obtain ⟨_, e⟩ := hu (name, d) (by simp) _ ht ho
          rw [hg] at e
          have : fs.set (strip false q) t = fs := by
            funext p
            unfold Files.set
            split
            · rename_i hp; rw [hp]; exact e.symm
            · rfl
          rw [this] at next h
          exact ih (fun x hx => hq x (by simp [hx])) hnd.2 next h

/-- The data files as they are can be used with both. -/
theorem C112_cmake_shipped (fs : Files) :
    cmakeBuild st writable (fun _ => true) (cmakeRules dataFiles) fs = generateAll st writable dataFiles fs ∧
    (dataFiles.map fun x => headerPath x.2).Nodup := by
  have h : ∀ x ∈ dataFiles, (query x.2).isSome = true ∧
      strip true ((query x.2).getD []) = strip false ((query x.2).getD []) := by decide +kernel
  refine ⟨C112_cmake_all fs fun x hx => ?_, by decide +kernel⟩
  obtain ⟨h1, h2⟩ := h x hx
  obtain ⟨q, e⟩ := Option.isSome_iff_exists.mp h1
  exact ⟨q, e, by rw [e] at h2; exact h2⟩

/-- C112 (witness: a setting that is missing). If the line that sets `ReceiveMaxArity` is removed, the script fails, the header with
the limits is empty and the other two headers are still those of before: they no longer fit together. -/
theorem C112_missing_setting (fs : Files) :
    generateAll ⟨some 0, none, some 0, some 9⟩ (fun _ => true) dataFiles fs =
      (fs.set (chars! "detail/constants/ArityConfig.h") [], false) := by
  have h1 : query arityConfigFile = some (chars! "detail/constants/ArityConfig.h\n") := by decide +kernel
  have h2 : strip false (chars! "detail/constants/ArityConfig.h\n") = chars! "detail/constants/ArityConfig.h" := by
    decide +kernel
  have h3 : runGenerator ⟨some 0, none, some 0, some 9⟩ arityConfigFile (sourceName (chars! "ArityConfig.gen.lua")) =
      none := by decide +kernel
  simp only [dataFiles, generateAll, h1, redirect, h2, if_true, h3]

/-- C112 (witness: a name that is missing). A data file without `outFile` goes unnoticed: the script ends well and the
header is in a file called `nil`. -/
theorem C112_nil {d : DataFile} {name : Text} {data : Data}
    (hd : d ⟨none, none, none, none⟩ = some data) (hn : data.outFile = none) {t : Text}
    (ht : runGenerator st d (sourceName name) = some t) (hw : writable (chars! "nil") = true) (fs : Files) :
    generateAll st writable [(name, d)] fs = (fs.set (chars! "nil") t, true) := by
  have h1 : query d = some (chars! "nil\n") := by simp [query, hd, hn]
  have h2 : strip false (chars! "nil\n") = chars! "nil" := by decide
  simp only [generateAll, h1, redirect, h2, hw, if_true, ht]

/-- C112. With the settings as they are, the headers are those for up to nine parameters, of handlers and of `send`. -/
theorem C112_settings (hw : ∀ x ∈ dataFiles, ∀ path, headerPath x.2 = some path → writable path = true) (fs : Files) :
    ∃ fs' : Files, generateAll settings writable dataFiles fs = (fs', true) ∧
      fs' (chars! "detail/constants/ArityConfig.h") = some (headerText ArityConfig.before (chars! "ArityConfig.gen.lua")
        ArityConfig.after (cat (ArityConfig.generate 9 9) ['\n']) ArityConfig.suffix) ∧
      fs' (chars! "PartialHandlerBase.h") = some (headerText PartialHandler.before
        (chars! "PartialHandlerBase.gen.lua") PartialHandler.after (body PartialHandler.generate 0 9)
        PartialHandler.suffix) ∧
      fs' (chars! "detail/operations/SendOverloads_Generated.h") = some (headerText SendOverloads.before
        (chars! "SendOverloads.gen.lua") (SendOverloads.after ++ chars! "9" ++ SendOverloads.afterArity)
        (body SendOverloads.generate 0 9) SendOverloads.suffix) := by
  obtain ⟨fs', h1, h2, h3, h4, _⟩ := C112_shipped 0 9 0 9 (by decide) (by decide) hw fs
  exact ⟨fs', h1, h2, h3, h4⟩

/-! ### Examples -/

/-- The settings as they are, in an empty directory. -/
example : ∃ fs' : Files, generateAll settings (fun _ => true) dataFiles (fun _ => none) = (fs', true) ∧
    fs' (chars! "PartialHandlerBase.h") = some (headerText PartialHandler.before
        (chars! "PartialHandlerBase.gen.lua") PartialHandler.after (body PartialHandler.generate 0 9)
        PartialHandler.suffix) ∧ generateAll settings (fun _ => true) dataFiles fs' = (fs', true) := by
  obtain ⟨fs', h, _, h2, _⟩ := C112_shipped (writable := fun _ => true) 0 9 0 9 (by decide) (by decide) (by simp) fun _ => none
  exact ⟨fs', h, h2, (C112_again h).1⟩

/-- A script that fails at the second data file, because its header cannot be written. -/
example : ∃ fs' : Files, generateAll settings (fun p => p != chars! "PartialHandlerBase.h") dataFiles (fun _ => none) =
    (fs', false) ∧ fs' (chars! "PartialHandlerBase.h") = none ∧
    (fs' (chars! "detail/constants/ArityConfig.h")).isSome = true :=
  have h : ∀ r : Files × Bool, r.2 = false → r = (r.1, false) := fun r e => by rw [← e]
  ⟨_, h _ (by decide +kernel), by decide +kernel, by decide +kernel⟩

/-- A heading that mentions percents. -/
example : runGenerator settings (fun _ => some ⟨none, chars! "// %s: 5% of", [], some 0, some 0, fun _ => some []⟩)
    (sourceName (chars! "x")) = none :=
  (C112_heading rfl (b := chars! "// ") (m := chars! ": 5") (a := chars! " of") (by decide) (by decide) _).1 rfl
    (by decide)

/-- Two of three headers are up to date. -/
example : ∃ fs fs' : Files, generateAll settings (fun _ => true) dataFiles fs = (fs', true) ∧
    fs' (chars! "PartialHandlerBase.h") ≠ fs (chars! "PartialHandlerBase.h") ∧
    cmakeBuild settings (fun _ => true) (fun p => p == chars! "PartialHandlerBase.h") (cmakeRules dataFiles) fs =
      (fs', true) := by
  obtain ⟨fs0, h0, ha, hb, hc, _⟩ := C112_shipped (writable := fun _ => true) 0 9 0 9 (by decide) (by decide) (by simp)
    fun _ => none
  have e := generateAll_true dataFiles _ _ h0
  obtain ⟨new, h1, _, h3⟩ := e
  let fs : Files := fs0.set (chars! "PartialHandlerBase.h") []
  obtain ⟨fs', h2, _, hb', _⟩ := C112_shipped (writable := fun _ => true) 0 9 0 9 (by decide) (by decide) (by simp) fs
  refine ⟨fs, fs', h2, ?_, C112_cmake_some ?_ (C112_cmake_shipped (st := settings) (writable := fun _ => true) fs).2 ?_ h2⟩
  · rw [hb']
    simp [fs, Files.set, headerText, PartialHandler.before]
  · have h : ∀ x ∈ dataFiles, (query x.2).isSome = true ∧
      strip true ((query x.2).getD []) = strip false ((query x.2).getD []) := by decide +kernel
    intro x hx
    obtain ⟨h1, h2⟩ := h x hx
    obtain ⟨q, e⟩ := Option.isSome_iff_exists.mp h1
    exact ⟨q, e, by rw [e] at h2; exact h2⟩
  · intro x hx path hp ho
    have hne : path ≠ chars! "PartialHandlerBase.h" := by simpa using ho
    have hnd := (C112_cmake_shipped (st := settings) (writable := fun _ => true) fs).2
    obtain ⟨pre, post, e⟩ := List.append_of_mem hx
    have hlast : ∀ y ∈ post, headerPath y.2 ≠ some path := by
      intro y hy hy'
      rw [e, List.map_append, List.map_cons] at hnd
      have := (List.nodup_cons.mp (List.nodup_append.mp hnd).2.1).1
      exact this (List.mem_map.mpr ⟨y, hy, hy'.trans hp.symm⟩)
    obtain ⟨t, ht1, ht2⟩ := (C112_success h0 path).2 pre x post e hp hlast
    simp only [fs, Files.set, if_neg hne]
    exact ⟨by rw [ht2]; simp, ht2.trans ht1.symm⟩

/-- A small data file without `outFile`. -/
def namelessFile : DataFile := fun st => some
  { outFile := none, heading := chars! "// by %s", ending := chars! "// end", minArity := st.sendMin, maxArity := st.sendMax,
    generate := fun n => some [decimal n] }

example : generateAll ⟨none, none, some 1, some 2⟩ (fun _ => true) [(chars! "a.gen.lua", namelessFile)] (fun _ => none) =
    (Files.set (fun _ => none) (chars! "nil")
      (chars! "// by variadicGenerate.lua on input a.gen.lua\n1\n2\n// end\n"), true) :=
  C112_nil (d := namelessFile) rfl rfl (by decide +kernel) rfl _

end TT.Properties
