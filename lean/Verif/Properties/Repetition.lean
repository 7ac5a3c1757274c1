import Verif.Properties.Disturbances

/-!
# Property C125: repeating a message
-/

namespace TT.Properties
open Spec

variable {C : Collection} {B : Build} {user : UserCode} {fuel : Nat}

/-- A line on which one message is sent over and over: bytes that are not what was sent, then so many undamaged copies of
the message, and so on. -/
def overAndOver (E : Envelope) (m : Msg) (line : List (List Byte × Nat)) : List Byte :=
  line.flatMap fun p => p.1 ++ frames E (List.replicate p.2 m)

/-- The number of undamaged copies. -/
def copies (line : List (List Byte × Nat)) : Nat := (line.map (·.2)).sum

theorem frames_replicate_length (E : Envelope) (m : Msg) (n : Nat) :
    (frames E (List.replicate n m)).length = n * (frame E m).length := by
  induction n with
  | zero => simp [frames]
  | succ n ih => rw [List.replicate_succ, frames_cons, List.length_append, ih, Nat.add_mul]; omega

theorem run_repeated {m : Msg} (hm : IsMsg C m) (hp : Solid C m) {k : Nat} (hk : 0 < k)
    (hlen : maxLen C ≤ k * (frame C.envelope m).length + 1) (line : List (List Byte × Nat)) :
    ∀ acc : List Byte, ∃ ds rest, Run C (acc ++ overAndOver C.envelope m line) ds rest ∧
      copies line ≤ ds.count m + line.length * k := by
  induction line with
  | nil => intro acc; exact ⟨[], acc, by simpa [overAndOver] using Run.refl acc, by simp [copies]⟩
  | cons p line ih =>
    intro acc
    obtain ⟨g, n⟩ := p
    have e : acc ++ overAndOver C.envelope m ((g, n) :: line) =
        (acc ++ g) ++ frames C.envelope (List.replicate n m) ++ overAndOver C.envelope m line := by
      simp [overAndOver]
    have ec : copies ((g, n) :: line) = n + copies line := by simp [copies]
    have el : ((g, n) :: line).length * k = line.length * k + k := by simp [Nat.add_mul]
    rw [e, ec, el]
    by_cases hn : n < k
    · obtain ⟨ds, rest, h1, h2⟩ := ih ((acc ++ g) ++ frames C.envelope (List.replicate n m))
      exact ⟨ds, rest, h1, by omega⟩
    · obtain ⟨fs, j, h1, h2, h3⟩ := run_garbage (C := C) (ms := List.replicate n m)
        (by simp; omega)
        (by intro m' hm'; rw [List.eq_of_mem_replicate hm']; exact hm)
        (by intro m' hm'; rw [List.eq_of_mem_replicate hm']; exact hp)
        (by
          rw [frames_replicate_length]
          have : k * (frame C.envelope m).length ≤ n * (frame C.envelope m).length := Nat.mul_le_mul_right _ (by omega)
          omega) _ (acc ++ g) (Nat.le_refl _)
      obtain ⟨ds, rest, h4, h5⟩ := ih []
      refine ⟨(fs ++ (List.replicate n m).drop j) ++ ds, rest, ?_, ?_⟩
      · have := h1.append (overAndOver C.envelope m line)
        exact Run.trans this h4
      · have hj : j ≤ k := by
          rcases h3 with rfl | h3
          · omega
          · rw [List.take_replicate, frames_replicate_length] at h3
            apply Decidable.byContradiction
            intro hjk
            rw [List.length_replicate] at h2
            have : k * (frame C.envelope m).length ≤ min (j - 1) n * (frame C.envelope m).length :=
              Nat.mul_le_mul_right _ (by omega)
            omega
        rw [List.drop_replicate, List.count_append, List.count_append, List.count_replicate_self]
        omega

/-- C125. A message within which no other begins is sent over and over, on a line that is disturbed any number of times, at
any places and by any bytes. If `k` copies of it are together at least as long as the longest message minus one, all but
`k` undamaged copies arrive for each disturbance. -/
theorem C125_count (S : Setting C B user) (hn : NeverThrows user) {ops : List Op} {w : World C} {os : List Obs}
    (h : Reached B user fuel (ops ++ [.process]) w os) (hh : w.rx.hasHandler = true) {m : Msg} (hm : IsMsg C m)
    (hp : Solid C m) {k : Nat} (hk : 0 < k) (hlen : maxLen C ≤ k * (frame C.envelope m).length + 1)
    {line : List (List Byte × Nat)} {after : List Byte} (hfed : w.fed = overAndOver C.envelope m line ++ after) :
    copies line ≤ (delivered w).count (meaning C m) + line.length * k := by
  obtain ⟨ds, rest, h1, h2⟩ := run_repeated hm hp hk hlen line []
  obtain ⟨es, r, hd⟩ := decodes_exists C (rest ++ after)
  have e := (polled_eq S hn h hh (ms := ds ++ es) (r := r) ⟨by
    rw [hfed]
    exact (h1.append after).trans hd.1, hd.2⟩).1
  rw [e, List.map_append, List.count_append]
  have := List.count_le_count_map (f := meaning C) (l := ds) (x := m)
  omega

/-- C125. So a message arrives at least once in spite of `d` disturbances if more than `d * k` copies are undamaged. -/
theorem C125_arrives (S : Setting C B user) (hn : NeverThrows user) {ops : List Op} {w : World C} {os : List Obs}
    (h : Reached B user fuel (ops ++ [.process]) w os) (hh : w.rx.hasHandler = true) {m : Msg} (hm : IsMsg C m)
    (hp : Solid C m) {k : Nat} (hk : 0 < k) (hlen : maxLen C ≤ k * (frame C.envelope m).length + 1)
    {line : List (List Byte × Nat)} {after : List Byte} (hfed : w.fed = overAndOver C.envelope m line ++ after)
    (hc : line.length * k < copies line) : meaning C m ∈ delivered w := by
  have := C125_count S hn h hh hm hp hk hlen hfed
  exact List.count_pos_iff.mp (by omega)

/-! ### The number cannot be improved -/

/-- One message type with four bytes. -/
def four : Collection := ⟨[⟨0, [.pod 0 4]⟩], .basic⟩

/-- A message with the end codes in its contents. -/
def endsInside : Msg := ⟨0, [9, 3, 4, 9]⟩

/-- What is taken for a message when only the start of one stands before it. -/
def falselyTaken : Msg := ⟨0, [1, 0, 2, 9]⟩

theorem run_tight (d : Nat) :
    Run four (overAndOver .basic endsInside (List.replicate d ([1, 0, 2], 1))) (List.replicate d falselyTaken) [] := by
  induction d with
  | zero => exact Run.refl _
  | succ d ih =>
    have h2 : Run four ([9, 3, 4] ++ overAndOver .basic endsInside (List.replicate d ([1, 0, 2], 1)))
        (List.replicate d falselyTaken) [] := run_noise (by decide) ih
    exact Run.take (m := falselyTaken) ⟨⟨0, [.pod 0 4]⟩, by decide, by decide⟩ h2

/-- C125. With one copy for each disturbance, of a message of the longest type (`k = 1`), it may be that none arrives: each
disturbance puts the start of a message before a copy, and for each a message nobody sent is delivered. -/
theorem C125_tight {B : Build} {user : UserCode} (S : Setting four B user) (hn : NeverThrows user) {ops : List Op}
    {w : World four} {os : List Obs} (h : Reached B user fuel (ops ++ [.process]) w os) (hh : w.rx.hasHandler = true)
    (d : Nat) (hfed : w.fed = overAndOver .basic endsInside (List.replicate d ([1, 0, 2], 1))) :
    copies (List.replicate d (([1, 0, 2], 1) : List Byte × Nat)) = d ∧ maxLen four ≤ 1 * (frame .basic endsInside).length + 1 ∧
    delivered w = List.replicate d (meaning four falselyTaken) ∧ meaning four endsInside ∉ delivered w := by
  have e := (polled_eq S hn h hh (ms := List.replicate d falselyTaken) (r := []) ⟨by
    rw [hfed]; exact run_tight d, Or.inl rfl⟩).1
  rw [List.map_replicate] at e
  refine ⟨by simp [copies], by decide +kernel, e, ?_⟩
  rw [e]
  intro hmem
  have := List.eq_of_mem_replicate hmem
  revert this
  decide +kernel

/-! ### The hypotheses can be met -/

/-- Two disturbances: the first copies are preceded by the start of a long message, the last ones by one cut off. -/
def noisyPoses : List (List Byte × Nat) := [([1, 2, 2, 9], 2), ([1, 1, 2], 3)]

example : ∃ (w : World Sample.basic) (os : List Obs),
    Reached Sample.dbg Sample.passive 50
      ([.setHandler Sample.h0, .append [1, 2, 2, 9], .append (frames .basic [⟨2, [9, 1, 9, 1, 1, 9, 9]⟩]), .process,
        .append (frames .basic [⟨2, [9, 1, 9, 1, 1, 9, 9]⟩]), .process, .append [1, 1, 2],
        .append (frames .basic [⟨2, [9, 1, 9, 1, 1, 9, 9]⟩]), .process,
        .append (frames .basic (List.replicate 2 ⟨2, [9, 1, 9, 1, 1, 9, 9]⟩))] ++ [.process]) w os ∧
    meaning Sample.basic ⟨2, [9, 1, 9, 1, 1, 9, 9]⟩ ∈ delivered w := by
  obtain ⟨w, os, h, hp⟩ := Sample.reached (C := Sample.basic) (B := Sample.dbg) (user := Sample.passive) (fuel := 50)
    (ops := [.setHandler Sample.h0, .append [1, 2, 2, 9], .append (frames .basic [⟨2, [9, 1, 9, 1, 1, 9, 9]⟩]), .process,
        .append (frames .basic [⟨2, [9, 1, 9, 1, 1, 9, 9]⟩]), .process, .append [1, 1, 2],
        .append (frames .basic [⟨2, [9, 1, 9, 1, 1, 9, 9]⟩]), .process,
        .append (frames .basic (List.replicate 2 ⟨2, [9, 1, 9, 1, 1, 9, 9]⟩))] ++ [.process])
    (fun w _ => w.rx.hasHandler) (by decide +kernel)
  have hf := C25_fed_is_chunks Sample.setting_basic Sample.passive_quiet (by simp) h
  exact ⟨w, os, h, C125_arrives (k := 1) (line := noisyPoses) (after := []) Sample.setting_basic
    Sample.passive_neverThrows h hp ⟨Sample.pose, by decide, by decide⟩ (by decide +kernel) (by decide)
    (by decide +kernel) (by rw [hf]; decide +kernel) (by decide)⟩

/-- Two copies that do not arrive. -/
example : ∃ (w : World four) (os : List Obs),
    Reached Sample.dbg Sample.passive 50
      ([.setHandler Sample.h0, .append ([1, 0, 2] ++ frames .basic [endsInside]), .process,
        .append ([1, 0, 2] ++ frames .basic [endsInside])] ++ [.process]) w os ∧
    delivered w = List.replicate 2 (meaning four falselyTaken) ∧ meaning four endsInside ∉ delivered w := by
  obtain ⟨w, os, h, hp⟩ := Sample.reached (C := four) (B := Sample.dbg) (user := Sample.passive) (fuel := 50)
    (ops := [.setHandler Sample.h0, .append ([1, 0, 2] ++ frames .basic [endsInside]), .process,
        .append ([1, 0, 2] ++ frames .basic [endsInside])] ++ [.process])
    (fun w _ => w.rx.hasHandler) (by decide +kernel)
  have S : Setting four Sample.dbg Sample.passive := ⟨⟨by decide, by decide⟩, Sample.passive_benign⟩
  have hf := C25_fed_is_chunks S Sample.passive_quiet (by simp) h
  exact ⟨w, os, h, (C125_tight S Sample.passive_neverThrows h hp 2 (by rw [hf]; decide +kernel)).2.2⟩

end TT.Properties
