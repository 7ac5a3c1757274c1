import Verif.Model.Integers
import Verif.Spec.Integers
import Verif.Properties.EndToEnd

/-!
# Property of integer arguments: C80
-/

namespace TT.Properties
open Spec

variable {C : Collection} {B : Build} {user : UserCode} {fuel : Nat}

/-! ### C80 -/

theorem lowBytes_length (n : Nat) (x : Int) : (lowBytes n x).length = n := by
  induction n generalizing x with
  | zero => rfl
  | succ n ih => simp [lowBytes, ih]

theorem objectRep_length (mach : Machine) (n : Nat) (x : Int) : (objectRep mach n x).length = n := by
  cases mach <;> simp [objectRep, lowBytes_length]

theorem pow_succ_int (n : Nat) : ((256 ^ (n + 1) : Nat) : Int) = 256 * (256 ^ n : Nat) := by
  rw [Nat.pow_succ, Int.natCast_mul, Int.mul_comm]; rfl

theorem lowValue_lowBytes (n : Nat) (x : Int) : lowValue (lowBytes n x) = x % (256 ^ n : Nat) := by
  induction n generalizing x with
  | zero => simp [lowBytes, lowValue, Int.emod_one]
  | succ n ih =>
    simp only [lowBytes, lowValue, ih]
    have h1 : (UInt8.ofNat (x % 256).toNat).toNat = (x % 256).toNat := by
      rw [UInt8.toNat_ofNat']
      exact Nat.mod_eq_of_lt (by omega)
    rw [h1, pow_succ_int, Int.toNat_of_nonneg (by omega)]
    have hp : (0 : Int) < (256 ^ n : Nat) := Int.natCast_pos.mpr (Nat.pow_pos (by decide))
    generalize hP : ((256 ^ n : Nat) : Int) = P at *
    have e1 := Int.emod_add_mul_ediv x 256
    have e2 := Int.emod_add_mul_ediv (x / 256) P
    have b1 := Int.emod_nonneg (x / 256) (b := P) (by omega)
    have b2 := Int.emod_lt_of_pos (x / 256) hp
    have b3 := Int.emod_nonneg x (b := 256) (by omega)
    have b4 := Int.emod_lt_of_pos x (b := 256) (by omega)
    have e3 : x = (x % 256 + 256 * (x / 256 % P)) + 256 * P * (x / 256 / P) := by
      rw [Int.mul_assoc, Int.add_assoc, ← Int.mul_add, e2, e1]
    have : (x % 256 + 256 * (x / 256 % P)) % (256 * P) = x % 256 + 256 * (x / 256 % P) :=
      Int.emod_eq_of_lt (by omega) (by omega)
    rw [← this]
    conv => rhs; rw [e3]
    rw [Int.add_mul_emod_self_left]

theorem readInt_objectRep (mach : Machine) (signed : Bool) (n : Nat) (x : Int) :
    readInt mach signed (objectRep mach n x) = convertInt signed n x := by
  have hv : (match mach with
      | .littleEndian => lowValue (objectRep mach n x)
      | .bigEndian => lowValue (objectRep mach n x).reverse) = x % (256 ^ n : Nat) := by
    cases mach <;> simp [objectRep, lowValue_lowBytes]
  unfold readInt convertInt
  simp only [objectRep_length]
  cases mach <;> simp only [objectRep, List.reverse_reverse, lowValue_lowBytes]

theorem pow_two (n : Nat) : ((256 ^ n : Nat) : Int) = 2 ^ (8 * n) := by
  rw [Int.natCast_pow, Int.pow_mul]; rfl

theorem half (n : Nat) (hn : n ≠ 0) : (2 : Int) ^ (8 * n) = 2 * 2 ^ (8 * n - 1) := by
  obtain ⟨k, rfl⟩ : ∃ k, n = k + 1 := ⟨n - 1, by omega⟩
  have : 8 * (k + 1) = 8 * (k + 1) - 1 + 1 := by omega
  conv => lhs; rw [this]
  rw [Int.pow_succ, Int.mul_comm]

theorem pow_pos' (n : Nat) : (0 : Int) < 2 ^ n := Int.pow_pos (by decide)

theorem narrowed_convert (signed : Bool) (n : Nat) (x : Int) :
    Narrowed signed n x (convertInt signed n x) := by
  have hp := pow_pos' (8 * n)
  have e := Int.emod_add_mul_ediv x (2 ^ (8 * n))
  have b1 := Int.emod_nonneg x (b := 2 ^ (8 * n)) (by omega)
  have b2 := Int.emod_lt_of_pos x hp
  unfold convertInt Narrowed Representable
  simp only [pow_two]
  generalize hq : x / 2 ^ (8 * n) = q at e
  cases signed with
  | false => exact ⟨⟨b1, b2⟩, q, by simp; rw [Int.mul_comm]; exact e.symm⟩
  | true =>
    simp only [Bool.true_and, decide_eq_true_eq]
    rcases Nat.eq_zero_or_pos n with rfl | hn
    · simp only [Nat.mul_zero, Int.pow_zero] at *
      rw [if_neg (by omega)]
      exact ⟨⟨by simp <;> omega, by simp <;> omega⟩, q, by omega⟩
    · have h2 := half n (by omega)
      generalize (2 : Int) ^ (8 * n - 1) = H at *
      split
      · refine ⟨⟨by omega, by omega⟩, q + 1, ?_⟩
        rw [Int.add_mul, Int.mul_comm q]; omega
      · refine ⟨⟨by omega, by omega⟩, q, ?_⟩
        rw [Int.mul_comm q]; omega

/-- C80. What is left of an integer in a type is determined (types have at least one byte). -/
theorem C80_unique {signed : Bool} {n : Nat} (hn : n ≠ 0) {x y y' : Int}
    (h : Narrowed signed n x y) (h' : Narrowed signed n x y') : y = y' := by
  obtain ⟨hr, k, hk⟩ := h
  obtain ⟨hr', k', hk'⟩ := h'
  have hp := pow_pos' (8 * n)
  have h2 := half n hn
  have hd : y - y' = (k' - k) * 2 ^ (8 * n) := by rw [Int.sub_mul]; omega
  have hb : -2 ^ (8 * n) < y - y' ∧ y - y' < 2 ^ (8 * n) := by
    unfold Representable at hr hr'
    cases signed <;> simp only at hr hr' <;> omega
  generalize (2 : Int) ^ (8 * n) = P at *
  have : k' - k = 0 := by
    rcases Int.lt_trichotomy (k' - k) 0 with hlt | heq | hgt
    · exfalso
      have := Int.mul_le_mul_of_nonneg_right (show k' - k ≤ -1 by omega) (Int.le_of_lt hp)
      omega
    · exact heq
    · exfalso
      have := Int.mul_le_mul_of_nonneg_right (show 1 ≤ k' - k by omega) (Int.le_of_lt hp)
      omega
  rw [this] at hd
  omega

/-- C80. An integer survives in a type iff the type can represent it. -/
theorem C80_survives {signed : Bool} {n : Nat} (hn : n ≠ 0) {x y : Int}
    (h : Narrowed signed n x y) : y = x ↔ Representable signed n x := by
  constructor
  · rintro rfl; exact h.1
  · intro hr
    exact C80_unique hn h ⟨hr, 0, by simp⟩

/-- The `send` request with the contents that the overload makes of integer arguments. -/
def intRequest (mach : Machine) (sg : Signs) (C : Collection) (c : MsgType × List Int) : Request :=
  ⟨C, c.1, List.zipWith Value.mk c.1.fields (intArgs mach sg c.1.fields c.2)⟩

theorem zip_ty (fs : List FieldType) (as : List (List Byte)) (h : as.length = fs.length) :
    (List.zipWith Value.mk fs as).map (·.ty) = fs := by
  induction fs generalizing as with
  | nil => simp
  | cons f fs ih =>
    cases as with
    | nil => simp at h
    | cons a as => simp at h; simp [ih as h]

theorem zip_bytes (fs : List FieldType) (as : List (List Byte)) (h : as.length = fs.length) :
    (List.zipWith Value.mk fs as).map (·.bytes) = as := by
  induction fs generalizing as with
  | nil => cases as <;> simp at h ⊢
  | cons f fs ih =>
    cases as with
    | nil => simp at h
    | cons a as => simp at h; simp [ih as h]

theorem intArgs_length (mach : Machine) (sg : Signs) {fs : List FieldType} {xs : List Int}
    (h : xs.length = fs.length) : (intArgs mach sg fs xs).length = fs.length := by
  simp [intArgs, h]

theorem intArgs_fits (mach : Machine) (sg : Signs) (fs : List FieldType) (xs : List Int) :
    ∀ v ∈ List.zipWith Value.mk fs (intArgs mach sg fs xs), Value.Fits v := by
  induction fs generalizing xs with
  | nil => simp
  | cons f fs ih =>
    cases xs with
    | nil => simp [intArgs]
    | cons x xs =>
      intro v hv
      simp only [intArgs, List.zipWith_cons_cons, List.mem_cons] at hv
      rcases hv with rfl | hv
      · unfold Value.Fits
        rw [objectRep_length]
        cases f <;> rfl
      · exact ih xs v hv

/-- A send with integer arguments that compiles is a good request. -/
theorem sendInts_good {σ : Type} {mach : Machine} {sg : Signs} {T : Tx σ} {s : σ}
    {c : MsgType × List Int} {r : Res σ} (h : sendInts mach sg C c.1 T s c.2 = some r) :
    (intRequest mach sg C c).Good C ∧ c.2.length = c.1.fields.length ∧
      send C c.1 T s (intRequest mach sg C c).vs = some r := by
  unfold sendInts at h
  split at h
  · rename_i hl
    unfold sendOverload at h
    split at h
    · refine ⟨⟨rfl, ?_, intArgs_fits mach sg c.1.fields c.2⟩, hl, h⟩
      unfold send at h
      split at h
      · rename_i hc
        simp only [Collection.compiles, contentsMatch, Bool.and_eq_true, decide_eq_true_eq] at hc
        refine ⟨hc.1.2, ?_, hc.2⟩
        apply findIndex_isSome.mp
        have e : (intRequest mach sg C c).t = c.1 := rfl
        rw [e]
        cases hf : findIndex C.messages c.1 with
        | none => simp [messageId, hf] at h
        | some i => rfl
      · cases h
    · cases h
  · cases h

theorem sendAllInts_eq {σ : Type} {mach : Machine} {sg : Signs} {T : Tx σ}
    (cs : List (MsgType × List Int)) : ∀ {s s' : σ}, sendAllInts mach sg C T s cs = some (.ok s') →
    sendAll T s (cs.map (intRequest mach sg C)) = some (.ok s') ∧
      ∀ c ∈ cs, (intRequest mach sg C c).Good C ∧ c.2.length = c.1.fields.length := by
  induction cs with
  | nil => intro s s' h; exact ⟨h, by simp⟩
  | cons c cs ih =>
    intro s s' h
    unfold sendAllInts at h
    cases hs : sendInts mach sg C c.1 T s c.2 with
    | none => rw [hs] at h; cases h
    | some r =>
      obtain ⟨hg, hl, he⟩ := sendInts_good hs
      rw [hs] at h
      cases r with
      | error e => cases h
      | ok s1 =>
        obtain ⟨h1, h2⟩ := ih h
        refine ⟨?_, ?_⟩
        · rw [List.map_cons]
          unfold sendAll
          have e : (intRequest mach sg C c).C = C := rfl
          have e' : (intRequest mach sg C c).t = c.1 := rfl
          rw [e, e', he]
          exact h1
        · intro c' hc'
          rcases List.mem_cons.mp hc' with rfl | hc'
          · exact ⟨hg, hl⟩
          · exact h2 c' hc'

/-- What the handler sees of the arguments of one call. -/
theorem seen_getElem? (mach : Machine) (sg : Signs) (fs : List FieldType) (xs : List Int) {i : Nat}
    {f : FieldType} {x y : Int} (hf : fs[i]? = some f) (hx : xs[i]? = some x)
    (hy : (List.zipWith (fun f bs => readInt mach (f.signed sg) bs) fs
      (intArgs mach sg fs xs))[i]? = some y) :
    y = convertInt (f.signed sg) f.sizeof (convertInt (f.signed sg) f.sizeof x) := by
  unfold intArgs at hy
  rw [List.getElem?_zipWith, List.getElem?_zipWith, hf, hx] at hy
  simp only [Option.some.injEq] at hy
  rw [← hy, readInt_objectRep]

theorem convert_convert (signed : Bool) (n : Nat) (x : Int) :
    convertInt signed n (convertInt signed n x) = convertInt signed n x := by
  obtain ⟨_, k, hk⟩ := narrowed_convert signed n x
  generalize hy : convertInt signed n x = y at *
  have : x % (256 ^ n : Nat) = y % (256 ^ n : Nat) := by
    rw [hk, ← pow_two, Int.add_mul_emod_self_right]
  rw [← hy]
  unfold convertInt
  rw [← hy] at this
  unfold convertInt at this
  rw [← this]

theorem signed_eq (sg : Signs) (f : FieldType) : f.signed sg = signedType sg f := by
  cases f <;> rfl

theorem sizeof_eq (f : FieldType) : f.sizeof = fieldSize f := by
  cases f <;> rfl

/-- C80. A program sends messages with integer arguments of any size through the parameter overloads,
the receiver runs on a machine of the same byte order. The handler is called for the same messages in
the same order and sees of each argument what is left of it in the type of the field. -/
theorem C80_seen {σ : Type} {T : Tx σ} {log : σ → List Byte} (hT : Faithful T log)
    (S : Setting C B user) (hn : NeverThrows user) (mach : Machine) (sg : Signs)
    (cs : List (MsgType × List Int)) (s s' : σ)
    (hsend : sendAllInts mach sg C T s cs = some (.ok s'))
    {ops : List Op} {w : World C} {os : List Obs}
    (h : Reached B user fuel (ops ++ [.process]) w os) (hh : w.rx.hasHandler = true)
    (hfed : log s' = log s ++ w.fed) :
    Matches (signedType sg) cs ((delivered w).map fun c => (c.1, seenInts mach sg c.1 c.2)) := by
  obtain ⟨h1, h2⟩ := sendAllInts_eq cs hsend
  obtain ⟨hd, _⟩ := C25_round_trip hT S hn (cs.map (intRequest mach sg C)) (by
    intro r hr
    obtain ⟨c, hc, rfl⟩ := List.mem_map.mp hr
    exact (h2 c hc).1) s s' h1 h hh hfed
  rw [hd]
  clear hd h1 hsend
  induction cs with
  | nil => exact .nil
  | cons c cs ih =>
    have hl := (h2 c (by simp)).2
    refine .cons hl ?_ ?_ (ih fun c' hc' => h2 c' (by simp [hc']))
    · simp [seenInts, intRequest, intArgs_length, hl]
    · intro i f x y hf hx hy
      simp only [seenInts, intRequest, zip_bytes _ _ (intArgs_length mach sg hl)] at hy
      rw [seen_getElem? mach sg _ _ hf hx hy, convert_convert]
      rw [signed_eq, sizeof_eq]
      exact narrowed_convert _ _ _

/-- C80. The handler sees exactly the integers that were given to `send` iff the type of each field can
represent its argument. -/
theorem C80_exact {σ : Type} {T : Tx σ} {log : σ → List Byte} (hT : Faithful T log)
    (S : Setting C B user) (hn : NeverThrows user) (mach : Machine) (sg : Signs)
    (hsize : ∀ m ∈ C.messages, ∀ f ∈ m.fields, fieldSize f ≠ 0)
    (cs : List (MsgType × List Int)) (s s' : σ)
    (hsend : sendAllInts mach sg C T s cs = some (.ok s'))
    {ops : List Op} {w : World C} {os : List Obs}
    (h : Reached B user fuel (ops ++ [.process]) w os) (hh : w.rx.hasHandler = true)
    (hfed : log s' = log s ++ w.fed) :
    (delivered w).map (fun c => (c.1, seenInts mach sg c.1 c.2)) = cs ↔
      ∀ c ∈ cs, ∀ (i : Nat) (f : FieldType) (x : Int), c.1.fields[i]? = some f → c.2[i]? = some x →
        Representable (signedType sg f) (fieldSize f) x := by
  have hm := C80_seen hT S hn mach sg cs s s' hsend h hh hfed
  have h2 := (sendAllInts_eq cs hsend).2
  have hsz : ∀ c ∈ cs, ∀ f ∈ c.1.fields, fieldSize f ≠ 0 := fun c hc f hf =>
    hsize c.1 (h2 c hc).1.2.1.2.1 f hf
  clear hsend hfed h2
  generalize (delivered w).map (fun c => (c.1, seenInts mach sg c.1 c.2)) = ds at hm
  induction hm with
  | nil => simp
  | @cons t xs ys cs ds hx hy hall hs ih =>
    have ih := ih fun c hc => hsz c (by simp [hc])
    have key : ys = xs ↔ ∀ (i : Nat) (f : FieldType) (x : Int), t.fields[i]? = some f →
        xs[i]? = some x → Representable (signedType sg f) (fieldSize f) x := by
      constructor
      · rintro rfl i f x hf hx'
        exact (hall i f x x hf hx' hx').1
      · intro hr
        apply List.ext_getElem?
        intro i
        rcases Nat.lt_or_ge i t.fields.length with hi | hi
        · have e1 : t.fields[i]? = some t.fields[i] := List.getElem?_eq_getElem hi
          have e2 : xs[i]? = some (xs[i]'(by omega)) := List.getElem?_eq_getElem (by omega)
          have e3 : ys[i]? = some (ys[i]'(by omega)) := List.getElem?_eq_getElem (by omega)
          rw [e2, e3]
          congr 1
          exact (C80_survives (hsz (t, xs) (by simp) _ (List.getElem_mem hi))
            (hall i _ _ _ e1 e2 e3)).mpr (hr i _ _ e1 e2)
        · rw [List.getElem?_eq_none (by omega), List.getElem?_eq_none (by omega)]
    simp only [List.cons.injEq, Prod.mk.injEq, true_and, List.forall_mem_cons]
    exact and_congr key ih

example : Narrowed false 1 300 44 ∧ Narrowed true 2 40000 (-25536) ∧ ¬ Representable true 2 40000 :=
  ⟨⟨by decide, 1, by decide⟩, ⟨by decide, 1, by decide⟩, by decide⟩
example := C80_unique (signed := true) (n := 2) (by decide) (x := 40000) (y := -25536)
  ⟨by decide, 1, by decide⟩ (y' := convertInt true 2 40000) (narrowed_convert _ _ _)
example := C80_survives (signed := false) (n := 1) (by decide) (x := 300) (y := 44)
  ⟨by decide, 1, by decide⟩

/-- The 4-byte type of the samples is unsigned, the 2-byte type signed. -/
def sampleSigns : Signs := fun ty => ty == 1

/-- Arguments that fit, and arguments that do not: 300 in a byte, -1 in an unsigned type, 40000 in a signed
2-byte type. -/
def intCalls : List (MsgType × List Int) :=
  [(Sample.pose, [7, 70000, -2]), (Sample.level, [300]), (Sample.pose, [200, -1, 40000])]

/-- The receiver of `intCalls`, on a big-endian machine. -/
def intSession : List Op :=
  [.append [1, 2, 2, 7, 0, 1, 17, 112, 255, 254, 3, 4, 1, 1], .setHandler Sample.h0, .process,
   .append [2, 44, 3, 4, 1, 2, 2, 200, 255, 255, 255, 255, 156, 64, 3, 4]]

example : ∃ (w : World Sample.basic) (os : List Obs),
    Reached Sample.dbg Sample.passive 50 (intSession ++ [.process]) w os ∧
    sendAllInts .bigEndian sampleSigns Sample.basic vectorBuffer [] intCalls =
      some (.ok (chunks (intSession ++ [.process]))) ∧
    Matches (signedType sampleSigns) intCalls
      ((delivered w).map fun c => (c.1, seenInts .bigEndian sampleSigns c.1 c.2)) ∧
    (delivered w).map (fun c => (c.1, seenInts .bigEndian sampleSigns c.1 c.2)) ≠ intCalls ∧
    (delivered w).map (fun c => (c.1, seenInts .bigEndian sampleSigns c.1 c.2)) =
      [(Sample.pose, [7, 70000, -2]), (Sample.level, [44]),
       (Sample.pose, [200, 4294967295, -25536])] := by
  obtain ⟨w, os, h, hp⟩ := Sample.reached (C := Sample.basic) (B := Sample.dbg)
    (user := Sample.passive) (fuel := 50) (ops := intSession ++ [.process])
    (fun w _ => w.rx.hasHandler &&
      decide ((delivered w).map (fun c => (c.1, seenInts .bigEndian sampleSigns c.1 c.2)) =
        [(Sample.pose, [7, 70000, -2]), (Sample.level, [44]),
         (Sample.pose, [200, 4294967295, -25536])])) (by decide +kernel)
  simp only [Bool.and_eq_true, decide_eq_true_eq] at hp
  have hs : sendAllInts .bigEndian sampleSigns Sample.basic vectorBuffer [] intCalls =
      some (.ok (chunks (intSession ++ [.process]))) := by decide +kernel
  have hf := C25_fed_is_chunks Sample.setting_basic Sample.passive_quiet
    (by simp [intSession]) h
  refine ⟨w, os, h, hs, C80_seen vectorBuffer_faithful Sample.setting_basic
    Sample.passive_neverThrows .bigEndian sampleSigns intCalls [] _ hs h hp.1 (by rw [hf]; rfl),
    fun e => ?_, hp.2⟩
  have := (C80_exact vectorBuffer_faithful Sample.setting_basic
    Sample.passive_neverThrows .bigEndian sampleSigns (by decide +kernel) intCalls [] _ hs h hp.1
    (by rw [hf]; rfl)).mp e (Sample.level, [300]) (by decide +kernel) 0 .uint8 300 rfl rfl
  exact absurd this (by decide)

end TT.Properties
