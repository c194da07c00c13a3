import Verif.Core.Ulid

/-!
# C99: trace IDs
-/

set_option linter.unusedVariables false
set_option linter.unusedSimpArgs false

namespace Trc.Ulid

open Trc

/-! ## Strings -/

theorem digits_length (k n : Nat) : (digits k n).length = k := by
  induction k generalizing n with
  | zero => rfl
  | succ k ih => simp [digits, ih]

theorem digits_lt (k n : Nat) (h : n < 32 ^ k) : ∀ d ∈ digits k n, d < 32 := by
  induction k generalizing n with
  | zero => simp [digits]
  | succ k ih =>
    intro d hd
    simp only [digits, List.mem_cons] at hd
    rcases hd with rfl | hd
    · rw [Nat.pow_succ, Nat.mul_comm] at h
      exact Nat.div_lt_of_lt_mul (by rw [Nat.mul_comm] at h; exact h)
    · exact ih _ (Nat.mod_lt _ (Nat.pow_pos (by decide))) d hd

theorem alphabet_lt {i j : Nat} (hj : j < 32) (h : i < j) : alphabet.getD i '0' < alphabet.getD j '0' := by
  have : ∀ j : Fin 32, ∀ i : Fin 32, i.1 < j.1 → alphabet.getD i.1 '0' < alphabet.getD j.1 '0' := by decide +kernel
  exact this ⟨j, hj⟩ ⟨i, by omega⟩ h

theorem alphabet_mem {i : Nat} (h : i < 32) : alphabet.getD i '0' ∈ alphabet := by
  have : ∀ i : Fin 32, alphabet.getD i.1 '0' ∈ alphabet := by decide +kernel
  exact this ⟨i, h⟩

theorem digits_mono (k : Nat) {a b : Nat} (hb : b < 32 ^ k) (h : a < b) :
    (digits k a).map (fun d => alphabet.getD d '0') < (digits k b).map (fun d => alphabet.getD d '0') := by
  induction k generalizing a b with
  | zero => simp at hb; omega
  | succ k ih =>
    have hp : 0 < 32 ^ k := Nat.pow_pos (by decide)
    have hd : b / 32 ^ k < 32 := digits_lt (k + 1) b hb _ (by simp [digits])
    simp only [digits, List.map_cons]
    have ha := Nat.div_add_mod a (32 ^ k)
    have hbb := Nat.div_add_mod b (32 ^ k)
    rw [List.cons_lt_cons_iff]
    rcases Nat.lt_trichotomy (a / 32 ^ k) (b / 32 ^ k) with hlt | heq | hgt
    · exact .inl (alphabet_lt hd hlt)
    · refine .inr ⟨by rw [heq], ih (Nat.mod_lt _ hp) ?_⟩
      rw [heq] at ha
      omega
    · have := Nat.div_le_div_right (c := 32 ^ k) (Nat.le_of_lt h)
      omega

theorem str_mono {a b : Nat} (hb : b < 2 ^ 128) (h : a < b) : str a < str b := by
  have := digits_mono 26 (a := a) (b := b) (by omega) h
  unfold str
  show (String.ofList _).toList < (String.ofList _).toList
  simpa using this

/-! ## The reader -/

/-- The milliseconds since 1970. -/
def millis (t : Time) : Int := (t.wall - unixEpoch) / 1000000

/-- A time as the clock gives it: from the year 1 to the end of the 64-bit milliseconds. -/
def Sane (t : Time) : Prop := 0 ≤ t.wall ∧ millis t < 2 ^ 64

theorem timestamp_eq {t : Time} (h : Sane t) (hm : timestamp t ≤ maxTime) : (timestamp t : Int) = millis t := by
  obtain ⟨h1, h2⟩ := h
  unfold timestamp maxTime at *
  unfold millis at *
  have : -62135596800000 ≤ (t.wall - unixEpoch) / 1000000 := by unfold unixEpoch; omega
  generalize (t.wall - unixEpoch) / 1000000 = m at *
  omega

theorem new_spec {m m' : Reader} {ms n : Nat} {r : Random} (h : m.new ms r = some (m', n)) (hr : r.Valid) :
    ms ≤ maxTime ∧ ∃ e, n = ms * 2 ^ 80 + e ∧ e < 2 ^ 80 ∧ m' = { ms := ms, entropy := e } ∧
      (m.ms = ms → m.entropy ≠ 0 → m.entropy < e) ∧ (¬ (m.ms = ms ∧ m.entropy ≠ 0) → e = r.bits) := by
  unfold Reader.new at h
  split at h
  · cases h
  · rename_i hm
    simp only [Option.map_eq_some_iff, Prod.mk.injEq] at h
    obtain ⟨⟨m1, e⟩, h1, rfl, rfl⟩ := h
    refine ⟨by omega, e, rfl, ?_⟩
    unfold Reader.read at h1
    split at h1
    · rename_i hc
      split at h1
      · rename_i hlt
        simp only [Option.some.injEq, Prod.mk.injEq] at h1
        obtain ⟨rfl, rfl⟩ := h1
        have := hr.inc.1
        exact ⟨hlt, by rw [hc.2], fun _ _ => by omega, fun hn => absurd ⟨hc.2, hc.1⟩ hn⟩
      · cases h1
    · rename_i hc
      simp only [Option.some.injEq, Prod.mk.injEq] at h1
      obtain ⟨rfl, rfl⟩ := h1
      exact ⟨hr.bits, rfl, fun a b => absurd ⟨b, a⟩ hc, fun _ => rfl⟩

/-- Every random number of the execution is as it is meant to be. -/
def RandomOK (ex : List Ev) : Prop := ∀ g r, Ev.id g r ∈ ex → r.Valid

/-- Every clock reading of the execution is in range. -/
def ClockOK (ex : List Ev) : Prop := ∀ g t, Ev.clock g t ∈ ex → Sane t

/-- What is true of the traces made: their IDs are those of numbers with their start time and some entropy. -/
structure Inv (s : St) : Prop where
  sane : ∀ g t, s.now g = some t → Sane t
  made : ∀ p ∈ s.made, Sane p.1 ∧ timestamp p.1 ≤ maxTime ∧ ∃ e, e < 2 ^ 80 ∧ p.2 = str (timestamp p.1 * 2 ^ 80 + e)

theorem inv_step {s s' : St} {e : Ev} (h : step s e = some s') (hi : Inv s) (hr : RandomOK [e]) (hc : ClockOK [e]) : Inv s' := by
  cases e with
  | clock g t =>
    simp only [step, Option.some.injEq] at h
    subst h
    refine ⟨fun g' t' ht => ?_, hi.made⟩
    simp only at ht
    split at ht
    · cases ht; exact hc g t (by simp)
    · exact hi.sane g' t' ht
  | id g r =>
    simp only [step] at h
    split at h
    · cases h; exact hi
    · rename_i t ht
      simp only [Option.map_eq_some_iff] at h
      obtain ⟨⟨m', n⟩, h1, rfl⟩ := h
      obtain ⟨k1, e, rfl, k3, rfl, -, -⟩ := new_spec h1 (hr g r (by simp))
      refine ⟨fun g' t' ht' => ?_, fun p hp => ?_⟩
      · simp only at ht'
        split at ht'
        · cases ht'
        · exact hi.sane g' t' ht'
      · simp only [List.mem_append, List.mem_singleton] at hp
        rcases hp with hp | rfl
        · exact hi.made p hp
        · exact ⟨hi.sane g t ht, k1, e, k3, rfl⟩

theorem inv_run {s s' : St} {ex : List Ev} (h : run s ex = some s') (hi : Inv s) (hr : RandomOK ex) (hc : ClockOK ex) : Inv s' := by
  induction ex generalizing s with
  | nil => cases h; exact hi
  | cons e ex ih =>
    simp only [run, Option.bind_eq_some_iff] at h
    obtain ⟨s1, h1, h2⟩ := h
    exact ih h2 (inv_step h1 hi (fun g r hm => hr g r (by simp at hm; simp [hm])) fun g t hm => hc g t (by simp at hm; simp [hm]))
      (fun g r hm => hr g r (by simp [hm])) fun g t hm => hc g t (by simp [hm])

theorem inv_init : Inv {} := ⟨by simp, by simp⟩

/-! ## C99 -/

/-- **C99** An ID is a string of 26 characters of the alphabet. -/
theorem C99_format {ex : List Ev} {s : St} (h : run {} ex = some s) (hr : RandomOK ex) (hc : ClockOK ex) :
    ∀ p ∈ s.made, p.2.length = 26 ∧ ∀ c ∈ p.2.toList, c ∈ "0123456789ABCDEFGHJKMNPQRSTVWXYZ".toList := by
  intro p hp
  obtain ⟨-, h1, e, h2, h3⟩ := (inv_run h inv_init hr hc).made p hp
  unfold maxTime at h1
  rw [h3]
  unfold str
  refine ⟨by simp [digits_length], fun c hc => ?_⟩
  simp only [String.toList_ofList, List.mem_map] at hc
  obtain ⟨d, hd, rfl⟩ := hc
  exact alphabet_mem (digits_lt 26 _ (by omega) d hd)

/-- **C99** Whatever goroutines do at the same time: of two traces that started in different milliseconds, the one that started earlier
has the smaller ID. -/
theorem C99_by_time {ex : List Ev} {s : St} (h : run {} ex = some s) (hr : RandomOK ex) (hc : ClockOK ex) :
    ∀ p ∈ s.made, ∀ q ∈ s.made, millis p.1 < millis q.1 → p.2 < q.2 := by
  intro p hp q hq hlt
  have hi := inv_run h inv_init hr hc
  obtain ⟨p0, p1, e, p2, p3⟩ := hi.made p hp
  obtain ⟨q0, q1, f, q2, q3⟩ := hi.made q hq
  rw [← timestamp_eq p0 p1, ← timestamp_eq q0 q1] at hlt
  unfold maxTime at *
  rw [p3, q3]
  exact str_mono (by omega) (by omega)

/-- What the reader remembers is the last ID, and IDs have been increasing, as long as the times have. -/
structure Inc (s : St) : Prop where
  last : ∀ p, s.made.getLast? = some p → s.reader.ms = timestamp p.1 ∧ p.2 = str (s.reader.ms * 2 ^ 80 + s.reader.entropy) ∧
    s.reader.entropy ≠ 0 ∧ s.reader.entropy < 2 ^ 80
  sorted : s.made.Pairwise (fun p q => timestamp p.1 ≤ timestamp q.1) → s.made.Pairwise (fun p q => p.2 < q.2)

theorem str_trans {a b c : String} (h : a < b) (k : b < c) : a < c := List.lt_trans h k

theorem pairwise_last {α : Type} {R : α → α → Prop} (ht : ∀ a b c, R a b → R b c → R a c) {l : List α} (h : l.Pairwise R) {y : α}
    (hl : ∀ x, l.getLast? = some x → R x y) : (l ++ [y]).Pairwise R := by
  rw [List.pairwise_append]
  refine ⟨h, by simp, fun a ha b hb => ?_⟩
  rw [List.mem_singleton.mp hb]
  rcases List.eq_nil_or_concat l with rfl | ⟨l', z, rfl⟩
  · simp at ha
  · rw [List.concat_eq_append] at *
    have hz := hl z (by simp)
    rcases List.mem_append.mp ha with ha | ha
    · exact ht _ _ _ ((List.pairwise_append.mp h).2.2 a ha z (by simp)) hz
    · rw [List.mem_singleton.mp ha]; exact hz

theorem inc_step {s s' : St} {e : Ev} (h : step s e = some s') (hi : Inc s) (hr : ∀ g r, e = .id g r → r.Valid ∧ r.bits ≠ 0) : Inc s' := by
  cases e with
  | clock g t =>
    simp only [step, Option.some.injEq] at h
    subst h
    exact ⟨hi.last, hi.sorted⟩
  | id g r =>
    simp only [step] at h
    split at h
    · cases h; exact hi
    · rename_i t ht
      simp only [Option.map_eq_some_iff] at h
      obtain ⟨⟨m', n⟩, h1, rfl⟩ := h
      obtain ⟨hv, hb⟩ := hr g r rfl
      obtain ⟨k1, e, rfl, k3, rfl, k4, k5⟩ := new_spec h1 hv
      have he : e ≠ 0 := by
        by_cases hsame : s.reader.ms = timestamp t ∧ s.reader.entropy ≠ 0
        · have := k4 hsame.1 hsame.2; omega
        · rw [k5 hsame]; exact hb
      refine ⟨fun p hp => ?_, fun hs => ?_⟩
      · simp only [List.getLast?_concat, Option.some.injEq] at hp
        subst hp
        exact ⟨rfl, rfl, he, k3⟩
      · have hs' := (List.pairwise_append.mp hs)
        refine pairwise_last (R := fun p q : Time × String => p.2 < q.2) (fun _ _ _ => str_trans) (hi.sorted hs'.1) fun p hp => ?_
        obtain ⟨l1, l2, l3, l4⟩ := hi.last p hp
        have hle := hs'.2.2 p (List.mem_of_getLast? hp) _ (List.mem_singleton.mpr rfl)
        simp only at hle
        rw [l2]
        unfold maxTime at k1
        refine str_mono (by omega) ?_
        by_cases hsame : s.reader.ms = timestamp t
        · have := k4 hsame l3; omega
        · omega

theorem inc_run {s s' : St} {ex : List Ev} (h : run s ex = some s') (hi : Inc s)
    (hr : ∀ g r, Ev.id g r ∈ ex → r.Valid ∧ r.bits ≠ 0) : Inc s' := by
  induction ex generalizing s with
  | nil => cases h; exact hi
  | cons e ex ih =>
    simp only [run, Option.bind_eq_some_iff] at h
    obtain ⟨s1, h1, h2⟩ := h
    exact ih h2 (inc_step h1 hi fun g r hm => hr g r (by simp [hm])) fun g r hm => hr g r (by simp [hm])

/-- **C99**, in part: if traces get their IDs in the order of their start times, to the millisecond, and the random bits are never all zero, then the
IDs increase strictly, so all of them are different, also within a millisecond.  Full statement: whatever goroutines do at the same time, see
`C99_order_violated` and `C99_distinct_violated`. -/
theorem C99_increasing_partial {ex : List Ev} {s : St} (h : run {} ex = some s) (hr : RandomOK ex) (hc : ClockOK ex)
    (hz : ∀ g r, Ev.id g r ∈ ex → r.bits ≠ 0) (ht : s.made.Pairwise (fun p q => millis p.1 ≤ millis q.1)) :
    s.made.Pairwise (fun p q => p.2 < q.2) ∧ (s.made.map Prod.snd).Nodup := by
  have hi := inv_run h inv_init hr hc
  have h1 : s.made.Pairwise (fun p q => p.2 < q.2) := by
    refine (inc_run h ⟨by simp, by simp⟩ fun g r hm => ⟨hr g r hm, hz g r hm⟩).sorted (ht.imp_of_mem fun {p q} hp hq hle => ?_)
    obtain ⟨p0, p1, -⟩ := hi.made p hp
    obtain ⟨q0, q1, -⟩ := hi.made q hq
    rw [← timestamp_eq p0 p1, ← timestamp_eq q0 q1] at hle
    omega
  refine ⟨h1, ?_⟩
  unfold List.Nodup
  rw [List.pairwise_map]
  exact h1.imp fun {p q} hlt heq => by rw [heq] at hlt; exact List.lt_irrefl _ hlt

/-- A trace is created without interruption. -/
def create (c : Nat × Time × Random) : List Ev := [.clock c.1 c.2.1, .id c.1 c.2.2]

theorem run_append (s : St) (a b : List Ev) : run s (a ++ b) = (run s a).bind fun s' => run s' b := by
  induction a generalizing s with
  | nil => rfl
  | cons e a ih =>
    simp only [List.cons_append, run]
    cases step s e with
    | none => rfl
    | some s1 => exact ih s1

theorem create_made {s s' : St} (cs : List (Nat × Time × Random)) (h : run s (cs.flatMap create) = some s') :
    s'.made.map Prod.fst = s.made.map Prod.fst ++ cs.map fun c => c.2.1 := by
  induction cs generalizing s with
  | nil => cases h; simp
  | cons c cs ih =>
    obtain ⟨g, t, r⟩ := c
    rw [List.flatMap_cons, run_append, Option.bind_eq_some_iff] at h
    obtain ⟨s1, h1, h2⟩ := h
    rw [ih h2]
    simp only [create, run, step, Option.bind_some, if_true, Option.bind_eq_some_iff, Option.map_eq_some_iff] at h1
    obtain ⟨s2, ⟨q, -, rfl⟩, h3⟩ := h1
    cases h3
    simp

/-- **C99** Traces that are created one after the other, by any goroutines, while the clock does not go back: the IDs
increase strictly. -/
theorem C99_sequential (cs : List (Nat × Time × Random)) {s : St} (h : run {} (cs.flatMap create) = some s)
    (hr : ∀ c ∈ cs, c.2.2.Valid ∧ c.2.2.bits ≠ 0) (hc : ∀ c ∈ cs, Sane c.2.1)
    (ht : cs.Pairwise fun c d => c.2.1.wall ≤ d.2.1.wall) :
    s.made.map Prod.fst = cs.map (fun c => c.2.1) ∧ s.made.Pairwise (fun p q => p.2 < q.2) := by
  have hm := create_made cs h
  simp only [List.map_nil, List.nil_append] at hm
  refine ⟨hm, (C99_increasing_partial h ?_ ?_ ?_ ?_).1⟩
  · intro g r he
    obtain ⟨c, hc', he⟩ := List.mem_flatMap.mp he
    simp only [create, List.mem_cons, reduceCtorEq, Ev.id.injEq, List.not_mem_nil, or_false, false_or] at he
    rw [he.2]; exact (hr c hc').1
  · intro g t he
    obtain ⟨c, hc', he⟩ := List.mem_flatMap.mp he
    simp only [create, List.mem_cons, reduceCtorEq, Ev.clock.injEq, List.not_mem_nil, or_false] at he
    rw [he.2]; exact hc c hc'
  · intro g r he
    obtain ⟨c, hc', he⟩ := List.mem_flatMap.mp he
    simp only [create, List.mem_cons, reduceCtorEq, Ev.id.injEq, List.not_mem_nil, or_false, false_or] at he
    rw [he.2]; exact (hr c hc').2
  · have : (s.made.map Prod.fst).Pairwise fun t u => t.wall ≤ u.wall := by rw [hm, List.pairwise_map]; exact ht
    rw [List.pairwise_map] at this
    exact this.imp fun {p q} hle => by unfold millis; omega

/-- How many IDs are asked for. -/
def asked : List Ev → Nat
  | [] => 0
  | .id _ _ :: ex => asked ex + 1
  | .clock _ _ :: ex => asked ex

theorem no_panic {s : St} {ex : List Ev} (hr : RandomOK ex) (hc : ∀ g t, Ev.clock g t ∈ ex → timestamp t ≤ maxTime)
    (hn : ∀ g t, s.now g = some t → timestamp t ≤ maxTime)
    (hb : ∀ g r, Ev.id g r ∈ ex → r.bits + 2 ^ 32 * asked ex < 2 ^ 80) (hs : s.reader.entropy + 2 ^ 32 * asked ex < 2 ^ 80) :
    (run s ex).isSome = true := by
  induction ex generalizing s with
  | nil => rfl
  | cons e ex ih =>
    have hr' : RandomOK ex := fun g r hm => hr g r (by simp [hm])
    have hc' : ∀ g t, Ev.clock g t ∈ ex → timestamp t ≤ maxTime := fun g t hm => hc g t (by simp [hm])
    cases e with
    | clock g t =>
      simp only [run, step, Option.bind_some]
      refine ih hr' hc' ?_ (fun g r hm => hb g r (by simp [hm])) hs
      intro g' t' ht
      simp only at ht
      split at ht
      · cases ht; exact hc g t (by simp)
      · exact hn g' t' ht
    | id g r =>
      simp only [asked] at hs hb
      have hb' : ∀ g r, Ev.id g r ∈ ex → r.bits + 2 ^ 32 * asked ex < 2 ^ 80 := fun g r hm => by
        have := hb g r (by simp [hm]); omega
      simp only [run, step]
      split
      · exact ih hr' hc' hn hb' (by omega)
      · rename_i t ht
        have hv := hr g r (by simp)
        have hbr := hb g r (by simp)
        have hinc := hv.inc.2
        have hm := hn g t ht
        have hn' : ∀ g' t', (if g' = g then none else s.now g') = some t' → timestamp t' ≤ maxTime := by
          intro g' t' ht'
          split at ht'
          · cases ht'
          · exact hn g' t' ht'
        unfold Reader.new
        rw [if_neg (by omega)]
        unfold Reader.read
        split
        · rw [if_pos (by omega)]
          exact ih hr' hc' hn' hb' (by simp only; omega)
        · exact ih hr' hc' hn' hb' (by simp only; omega)

/-- **C99**, in part: getting the ID does not make the program panic, if the times are from 1970 on and not beyond the year 10889, and the random bits stay
below the largest possible value by enough for all IDs asked for.  Full statement: for all random bits, see
`C99_panic_violated`. -/
theorem C99_no_panic_partial {ex : List Ev} (hr : RandomOK ex)
    (hc : ∀ g t, Ev.clock g t ∈ ex → 0 ≤ millis t ∧ millis t < 2 ^ 48)
    (hb : ∀ g r, Ev.id g r ∈ ex → r.bits + 2 ^ 32 * asked ex < 2 ^ 80) (hn : asked ex < 2 ^ 48) :
    (run {} ex).isSome = true := by
  refine no_panic hr ?_ (by simp) hb ?_
  · intro g t hm
    have := hc g t hm
    unfold timestamp maxTime
    unfold millis at this
    omega
  · show 0 + _ < _
    omega

/-! ## Witnesses -/

namespace Example

/-- Some millisecond of 2023, and nanoseconds after it. -/
def at_ (n : Int) : Time := { wall := unixEpoch + 1700000000000 * 1000000 + n, mono := some n }

/-- Three goroutines: the first one creates a trace; then the second one reads the clock; a millisecond later the third one
creates a trace; then the second one gets its ID. -/
def ex (bits : Nat) : List Ev :=
  [.clock 1 (at_ 0), .id 1 ⟨10, 1⟩, .clock 2 (at_ 1), .clock 3 (at_ 1000000), .id 3 ⟨5, 1⟩, .id 2 ⟨bits, 1⟩]

def ids (bits : Nat) : Option (List String) := (run {} (ex bits)).map fun s => s.made.map Prod.snd

theorem ex_ok (bits : Nat) (h : bits < 2 ^ 80) : RandomOK (ex bits) ∧ ClockOK (ex bits) := by
  constructor
  · intro g r hm
    simp only [ex, List.mem_cons, reduceCtorEq, Ev.id.injEq, List.not_mem_nil, or_false, false_or] at hm
    rcases hm with ⟨_, rfl⟩ | ⟨_, rfl⟩ | ⟨_, rfl⟩
    · exact ⟨by decide, by decide⟩
    · exact ⟨by decide, by decide⟩
    · exact ⟨h, show 0 < 1 ∧ 1 < 2 ^ 32 by decide⟩
  · intro g t hm
    simp only [ex, List.mem_cons, reduceCtorEq, Ev.clock.injEq, List.not_mem_nil, or_false, false_or] at hm
    rcases hm with ⟨_, rfl⟩ | ⟨_, rfl⟩ | ⟨_, rfl⟩ <;> exact ⟨by decide, by decide⟩

/-- **C99** is violated: the second trace was created after the first one, in the same millisecond, and has the
smaller ID. -/
theorem C99_order_violated : RandomOK (ex 3) ∧ ClockOK (ex 3) ∧ ∃ a b c, ids 3 = some [a, c, b] ∧ b < a :=
  ⟨(ex_ok 3 (by decide)).1, (ex_ok 3 (by decide)).2, _, _, _, rfl, by decide +kernel⟩

/-- **C99** is violated: that the IDs are different is not guaranteed, but only to be expected from 80 random bits. -/
theorem C99_distinct_violated : RandomOK (ex 10) ∧ ClockOK (ex 10) ∧ ∃ a c, ids 10 = some [a, c, a] :=
  ⟨(ex_ok 10 (by decide)).1, (ex_ok 10 (by decide)).2, _, _, rfl⟩

/-- **C99** is violated: creating a trace can panic, when the random bits of the millisecond's first trace are close to the largest possible. -/
theorem C99_panic_violated : ∃ cs : List (Nat × Time × Random), (∀ c ∈ cs, c.2.2.Valid ∧ Sane c.2.1) ∧ run {} (cs.flatMap create) = none := by
  refine ⟨[(1, at_ 0, ⟨2 ^ 80 - 1, 1⟩), (1, at_ 1, ⟨0, 1⟩)], ?_, by decide +kernel⟩
  intro c hc
  simp only [List.mem_cons, List.not_mem_nil, or_false] at hc
  rcases hc with rfl | rfl <;> exact ⟨⟨by decide, by decide⟩, by decide, by decide⟩

/-- Three traces within a millisecond, and one in the next one. -/
def four : List (Nat × Time × Random) :=
  [(1, at_ 0, ⟨10, 1⟩), (2, at_ 1, ⟨3, 7⟩), (1, at_ 2, ⟨10, 100⟩), (3, at_ 1000000, ⟨5, 1⟩)]

/-- The hypotheses of the theorems are met. -/
example : (∀ c ∈ four, c.2.2.Valid ∧ c.2.2.bits ≠ 0) ∧ (∀ c ∈ four, Sane c.2.1) ∧ four.Pairwise (fun c d => c.2.1.wall ≤ d.2.1.wall) ∧
    (run {} (four.flatMap create)).map (fun s => s.made.map Prod.snd) =
      some ["01HF7YAT00000000000000000A", "01HF7YAT00000000000000000H", "01HF7YAT00000000000000003N", "01HF7YAT010000000000000005"] := by
  refine ⟨?_, ?_, by decide, by decide +kernel⟩
  · intro c hc
    simp only [four, List.mem_cons, List.not_mem_nil, or_false] at hc
    rcases hc with rfl | rfl | rfl | rfl <;> exact ⟨⟨by decide, by decide⟩, by decide⟩
  · intro c hc
    simp only [four, List.mem_cons, List.not_mem_nil, or_false] at hc
    rcases hc with rfl | rfl | rfl | rfl <;> exact ⟨by decide, by decide⟩

example : RandomOK (ex 3) ∧ ClockOK (ex 3) ∧ (∀ g t, Ev.clock g t ∈ ex 3 → 0 ≤ millis t ∧ millis t < 2 ^ 48) ∧
    ∀ g r, Ev.id g r ∈ ex 3 → r.bits + 2 ^ 32 * asked (ex 3) < 2 ^ 80 := by
  refine ⟨(ex_ok 3 (by decide)).1, (ex_ok 3 (by decide)).2, ?_, ?_⟩
  · intro g t hm
    simp only [ex, List.mem_cons, reduceCtorEq, Ev.clock.injEq, List.not_mem_nil, or_false, false_or] at hm
    rcases hm with ⟨_, rfl⟩ | ⟨_, rfl⟩ | ⟨_, rfl⟩ <;> exact ⟨by decide, by decide⟩
  · intro g r hm
    simp only [ex, List.mem_cons, reduceCtorEq, Ev.id.injEq, List.not_mem_nil, or_false, false_or] at hm
    rcases hm with ⟨_, rfl⟩ | ⟨_, rfl⟩ | ⟨_, rfl⟩ <;> decide

end Example

end Trc.Ulid
