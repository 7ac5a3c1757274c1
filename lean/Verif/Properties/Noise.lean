import Verif.Properties.Odds

/-!
# How often noise is taken for messages: C82
-/

namespace TT.Properties
open Spec

variable {C : Collection} {B : Build} {user : UserCode} {fuel : Nat}

/-! ### C82 -/

theorem sum_le_of_forall {α : Type} {l : List α} {f : α → Nat} {n : Nat} (h : ∀ a ∈ l, f a ≤ n) :
    (l.map f).sum ≤ l.length * n := by
  induction l with
  | nil => simp
  | cons a l ih =>
    have := h a (by simp)
    have := ih fun a ha => h a (by simp [ha])
    simp [Nat.succ_mul]
    omega

theorem sum_all {α : Type} {l : List α} {f : α → Nat} {n : Nat} (h : ∀ a ∈ l, f a = n) :
    (l.map f).sum = l.length * n := by
  induction l with
  | nil => simp
  | cons a l ih =>
    have := h a (by simp)
    have := ih fun a ha => h a (by simp [ha])
    simp [Nat.succ_mul]
    omega

/-- The strings of length `n` with a message with the given id at the given position. -/
def hitsAt (C : Collection) (n p : Nat) (id : Nat) : List (List Byte) :=
  match C.messages[id]? with
  | none => []
  | some t =>
    if p + (overhead C.envelope + payloadSize t) ≤ n then
      (strings p).flatMap fun a => (strings (payloadSize t)).flatMap fun pl =>
        (strings (n - (p + (overhead C.envelope + payloadSize t)))).map fun b =>
          a ++ frame C.envelope ⟨UInt8.ofNat id, pl⟩ ++ b
    else []

theorem hitsAt_length (n p id : Nat) :
    (hitsAt C n p id).length ≤ 256 ^ (n - overhead C.envelope) := by
  unfold hitsAt
  cases C.messages[id]? with
  | none => simp
  | some t =>
    simp only
    split
    · rename_i h
      rw [List.length_flatMap, sum_all (n := 256 ^ payloadSize t *
        256 ^ (n - (p + (overhead C.envelope + payloadSize t))))]
      · rw [strings_length, ← Nat.pow_add, ← Nat.pow_add]
        exact Nat.pow_le_pow_right (by omega) (by omega)
      · intro a _
        rw [List.length_flatMap, sum_all (n := 256 ^ (n - (p + (overhead C.envelope + payloadSize t))))]
        · rw [strings_length]
        · intro b _
          rw [List.length_map, strings_length]
    · simp

/-- The strings of length `n` with a message somewhere. -/
def hits (C : Collection) (n : Nat) : List (List Byte) :=
  (List.range (n + 1 - overhead C.envelope)).flatMap fun p =>
    (List.range C.messages.length).flatMap fun id => hitsAt C n p id

theorem mem_hits {s a b : List Byte} {m : Msg} (hm : IsMsg C m) (hs : s = a ++ frame C.envelope m ++ b) :
    s ∈ hits C s.length := by
  obtain ⟨t, ht, hp⟩ := hm
  have hl : s.length = a.length + (overhead C.envelope + payloadSize t) + b.length := by
    rw [hs]; simp [frame_length, hp]; omega
  have hid : m.id.toNat < C.messages.length := by
    unfold typeOf at ht
    exact (List.getElem?_eq_some_iff.mp ht).1
  refine List.mem_flatMap.mpr ⟨a.length, List.mem_range.mpr (by omega), ?_⟩
  refine List.mem_flatMap.mpr ⟨m.id.toNat, List.mem_range.mpr hid, ?_⟩
  unfold hitsAt
  unfold typeOf at ht
  rw [ht]
  simp only
  rw [if_pos (by omega)]
  refine List.mem_flatMap.mpr ⟨a, (mem_strings _ _).mpr rfl, ?_⟩
  refine List.mem_flatMap.mpr ⟨m.payload, (mem_strings _ _).mpr hp, ?_⟩
  refine List.mem_map.mpr ⟨b, (mem_strings _ _).mpr (by omega), ?_⟩
  rw [UInt8.ofNat_toNat]
  exact hs.symm

/-- C82. Of the `256 ^ n` strings of `n` bytes, at most `(n - overhead + 1) * messages * 256 ^ (n - overhead)`
can make a receiver call its handler: noise of `n` bytes forges a message with a probability of at most
`(n - 4) * messages / 256 ^ 5`, with the checksum `(n - 5) * messages / 256 ^ 6`. -/
theorem C82_bound (S : Setting C B user) (n : Nat) :
    ∃ bad : List (List Byte),
      bad.length ≤ (n + 1 - overhead C.envelope) * (C.messages.length * 256 ^ (n - overhead C.envelope)) ∧
      ∀ s : List Byte, s.length = n → s ∉ bad →
        ∀ (ops : List Op) (w : World C) (os : List Obs), Reached B user fuel ops w os → w.fed = s →
          delivered w = [] := by
  refine ⟨hits C n, ?_, ?_⟩
  · unfold hits
    rw [List.length_flatMap]
    refine Nat.le_trans (sum_le_of_forall (n := C.messages.length * 256 ^ (n - overhead C.envelope))
      fun p _ => ?_) (by rw [List.length_range]; exact Nat.le_refl _)
    rw [List.length_flatMap]
    refine Nat.le_trans (sum_le_of_forall (n := 256 ^ (n - overhead C.envelope))
      fun id _ => hitsAt_length n p id) (by rw [List.length_range]; exact Nat.le_refl _)
  · intro s hl hs ops w os h hfed
    cases ht : w.trace with
    | nil => simp [delivered, ht]
    | cons i is =>
      obtain ⟨D, m, post, hm, hr, _⟩ := reached_onPath S h i (by rw [ht]; simp)
      obtain ⟨pre, hp⟩ := hr.suffix
      rw [hfed] at hp
      have := mem_hits hm (a := pre) (b := post) (hp.trans (List.append_assoc ..).symm)
      rw [hl] at this
      exact absurd this hs

/-- C82. The estimate is exact for a message in as many bytes as it has: of the strings of that length exactly
one in `256 ^ overhead` is taken for the message with the given id. -/
theorem C82_exact (S : Setting C B user) (hn : NeverThrows user) (hnd : C.messages.Nodup) {id : Byte}
    {t : MsgType} (ht : typeOf C id = some t) :
    ∃ good : List (List Byte), good.Nodup ∧ good.length = 256 ^ payloadSize t ∧
      ∀ (ops : List Op) (w : World C) (os : List Obs), Reached B user fuel (ops ++ [.process]) w os →
        w.rx.hasHandler = true → w.fed.length = overhead C.envelope + payloadSize t →
        ((∃ p, p.length = payloadSize t ∧ delivered w = [meaning C ⟨id, p⟩]) ↔ w.fed ∈ good) := by
  have hinj : ∀ p q, frame C.envelope ⟨id, p⟩ = frame C.envelope ⟨id, q⟩ → p = q := by
    intro p q e
    have hl := congrArg List.length e
    rw [frame_length, frame_length] at hl
    simp only at hl
    have : p.length = q.length := by omega
    cases hE : C.envelope with
    | basic =>
      rw [hE] at e
      simp only [frame, List.cons_append, List.nil_append, List.cons.injEq, true_and] at e
      exact (List.append_inj e this).1
    | basicChecksum =>
      rw [hE] at e
      simp only [frame, List.cons_append, List.nil_append, List.cons.injEq, true_and,
        List.append_assoc] at e
      exact (List.append_inj e this).1
  refine ⟨(strings (payloadSize t)).map fun p => frame C.envelope ⟨id, p⟩, ?_, ?_, ?_⟩
  · exact List.Pairwise.map _ (fun p q hpq e => hpq (hinj p q e)) (strings_nodup _)
  · rw [List.length_map, strings_length]
  · intro ops w os h hh hl
    obtain ⟨ms, hd, e⟩ := h.polled S hn hh
    constructor
    · rintro ⟨p, hp, hdel⟩
      rw [e] at hdel
      obtain ⟨m, rfl, hmm⟩ : ∃ m, ms = [m] ∧ meaning C m = meaning C ⟨id, p⟩ := by
        cases ms with
        | nil => simp at hdel
        | cons m ms => cases ms with
          | nil => exact ⟨m, rfl, by simpa using hdel⟩
          | cons _ _ => simp at hdel
      obtain ⟨t', ht', hp'⟩ := hd.1.isMsg m (by simp)
      have htt : t' = t := by
        have := congrArg Prod.fst hmm
        simp only [meaning, ht', ht] at this
        simpa using this
      subst htt
      have hidd : m.id = id := by
        unfold typeOf at ht ht'
        obtain ⟨l1, e1⟩ := List.getElem?_eq_some_iff.mp ht
        obtain ⟨l2, e2⟩ := List.getElem?_eq_some_iff.mp ht'
        have := (List.getElem_inj (h₀ := l2) (h₁ := l1) hnd).mp (e2.trans e1.symm)
        exact UInt8.toNat_inj.mp this
      obtain ⟨a, b, hab⟩ := hd.1.piece m (by simp)
      have hlen := congrArg List.length hab
      simp only [List.length_append, frame_length, hp', hl] at hlen
      have ha : a = [] := List.eq_nil_of_length_eq_zero (by omega)
      have hb : b = [] := List.eq_nil_of_length_eq_zero (by omega)
      refine List.mem_map.mpr ⟨m.payload, (mem_strings _ _).mpr hp', ?_⟩
      rw [hab, ha, hb, ← hidd]
      simp
    · intro hg
      obtain ⟨p, hp, hpe⟩ := List.mem_map.mp hg
      rw [mem_strings] at hp
      refine ⟨p, hp, ?_⟩
      have hm : IsMsg C ⟨id, p⟩ := ⟨t, ht, hp⟩
      have hd' : Decodes C w.fed [⟨id, p⟩] [] := by
        refine ⟨?_, Or.inl rfl⟩
        have := Run.take hm (Run.refl (C := C) [])
        rw [List.append_nil, hpe] at this
        exact this
      obtain ⟨rfl, _⟩ := hd.unique hd'
      rw [e]
      rfl

/-- A single `ping` in five bytes: one string in `256 ^ 5`. -/
example : typeOf Sample.basic 0 = some Sample.ping ∧ payloadSize Sample.ping = 0 ∧
    Sample.basic.messages.Nodup ∧ Setting Sample.basic Sample.dbg Sample.passive ∧
    ∃ (w : World Sample.basic) (os : List Obs), Reached Sample.dbg Sample.passive 50
      ([.setHandler Sample.h0, .append [1, 0, 2, 3, 4]] ++ [.process]) w os ∧
      delivered w = [meaning Sample.basic ⟨0, []⟩] := by
  refine ⟨rfl, rfl, by decide, Sample.setting_basic, ?_⟩
  obtain ⟨w, os, h, hp⟩ := Sample.reached (C := Sample.basic) (B := Sample.dbg)
    (user := Sample.passive) (fuel := 50) (ops := [.setHandler Sample.h0, .append [1, 0, 2, 3, 4]] ++ [.process])
    (fun w _ => delivered w == [meaning Sample.basic ⟨0, []⟩]) (by decide +kernel)
  exact ⟨w, os, h, by simpa using hp⟩

/-- The strings of five bytes with a message in the sample collection. -/
example : hits Sample.basic 5 = [[1, 0, 2, 3, 4]] := by decide +kernel

/-- Noise of 30 bytes with most of a message in it, not among the bad strings: no call. -/
example : ∃ (w : World Sample.basic) (os : List Obs), Reached Sample.dbg Sample.passive 50
      ([.setHandler Sample.h0, .append ([9, 1, 0, 2, 4, 4, 1, 1, 2, 7, 3] ++ List.replicate 19 1)] ++
        [.process]) w os ∧ delivered w = [] ∧ w.fed.length = 30 := by
  obtain ⟨w, os, h, hp⟩ := Sample.reached (C := Sample.basic) (B := Sample.dbg)
    (user := Sample.passive) (fuel := 50)
    (ops := [.setHandler Sample.h0, .append ([9, 1, 0, 2, 4, 4, 1, 1, 2, 7, 3] ++ List.replicate 19 1)] ++
        [.process])
    (fun w _ => delivered w == [] && w.fed.length == 30) (by decide +kernel)
  simp only [Bool.and_eq_true, beq_iff_eq] at hp
  exact ⟨w, os, h, hp⟩

end TT.Properties
