import Verif.Lock.Model

/-!
# C75: no deadlocks
-/

set_option linter.unusedVariables false
set_option linter.unusedSimpArgs false

namespace Trc.Lock

/-- The order in which locks are taken. -/
def Lock.rank : Lock → Nat
  | .set _ => 0
  | .ring _ => 1
  | .broker _ => 2
  | .trace _ => 3

/-- `k` can be done by somebody having the locks `held`: they take locks of higher rank only, release
the last one they took, wait for nothing else while having locks, and in the end have none. -/
def Disc : List Lock → List Op → Prop
  | held, [] => held = []
  | held, .acq l :: k => (∀ h ∈ held, h.rank < l.rank) ∧ Disc (l :: held) k
  | held, .rel l :: k => ∃ t, held = l :: t ∧ Disc t k
  | held, .pause :: k => held = [] ∧ Disc [] k

/-- The same for a piece of code: whatever comes after it can be done by somebody having the same
locks. -/
def Piece (held : List Lock) (a : List Op) : Prop := ∀ k, Disc held k → Disc held (a ++ k)

theorem piece_nil (held : List Lock) : Piece held [] := fun _ h => h

theorem piece_append {held : List Lock} {a b : List Op} (ha : Piece held a) (hb : Piece held b) : Piece held (a ++ b) := by
  intro k hk
  rw [List.append_assoc]
  exact ha _ (hb _ hk)

theorem piece_locked {held : List Lock} {l : Lock} {body : List Op} (hr : ∀ h ∈ held, h.rank < l.rank)
    (hb : Piece (l :: held) body) : Piece held (locked l body) := by
  intro k hk
  unfold locked
  rw [List.cons_append, List.cons_append, List.append_assoc]
  exact ⟨hr, hb _ ⟨held, rfl, hk⟩⟩

theorem piece_pause {a : List Op} (ha : Piece [] a) : Piece [] (.pause :: a) := fun k hk => ⟨rfl, ha k hk⟩

/-- No trace is locked. -/
def NoTrace (held : List Lock) : Prop := ∀ h ∈ held, h.rank < 3

theorem noTrace_nil : NoTrace [] := by simp [NoTrace]

theorem piece_coreCall {held : List Lock} (h : NoTrace held) (t : Nat) : Piece held (coreCall t) :=
  piece_locked h (piece_nil _)

theorem piece_getters {held : List Lock} (h : NoTrace held) (t n : Nat) : Piece held (getters t n) := by
  induction n with
  | zero => exact piece_nil _
  | succ n ih => exact piece_append (piece_coreCall h t) ih

theorem piece_publish (b t n : Nat) : Piece [] (publish b t n) :=
  piece_locked (by simp) (piece_getters (by simp [NoTrace, Lock.rank]) t n)

theorem piece_event (t n : Nat) : (ws : List Wrapper) → Piece [] (event t n ws)
  | [] => piece_coreCall noTrace_nil t
  | .log :: ws => piece_event t n ws
  | .pub b :: ws => piece_append (piece_event t n ws) (piece_publish b t n)
  | .prefix :: ws => piece_event t n ws

theorem piece_finish (t n : Nat) : (ws : List Wrapper) → Piece [] (finish t n ws)
  | [] => piece_coreCall noTrace_nil t
  | .log :: ws => piece_append (piece_finish t n ws) (piece_append (piece_coreCall noTrace_nil t) (piece_coreCall noTrace_nil t))
  | .pub b :: ws => piece_append (piece_finish t n ws) (piece_publish b t n)
  | .prefix :: ws => piece_finish t n ws

theorem piece_freeAll (ts : List Nat) : Piece [] (freeAll ts) := by
  induction ts with
  | nil => exact piece_nil _
  | cons t ts ih => exact piece_append (piece_coreCall noTrace_nil t) ih

theorem piece_resizeAll (c : Nat) (rs : List Nat) : Piece [.set c] (resizeAll rs) := by
  induction rs with
  | nil => exact piece_nil _
  | cons r rs ih => exact piece_append (piece_locked (by simp [Lock.rank]) (piece_nil _)) ih

theorem piece_candidates (r : Nat) (cs : List (Nat × Nat)) : Piece [.ring r] (candidates cs) := by
  induction cs with
  | nil => exact piece_nil _
  | cons p cs ih => exact piece_append (piece_getters (by simp [NoTrace, Lock.rank]) _ _) ih

theorem piece_walks (ws : List (Nat × List (Nat × Nat))) : Piece [] (walks ws) := by
  induction ws with
  | nil => exact piece_nil _
  | cons p ws ih => exact piece_append (piece_locked (by simp) (piece_candidates _ _)) ih

theorem piece_ops (c : Call) : Piece [] c.ops := by
  have hl : ∀ l, Piece [] (locked l []) := fun l => piece_locked (by simp) (piece_nil _)
  cases c with
  | get t => exact piece_coreCall noTrace_nil _
  | event t n => exact piece_event _ _ _
  | finish t n => exact piece_finish _ _ _
  | free t => exact piece_coreCall noTrace_nil _
  | newTraceOld t n => exact piece_event _ _ _
  | newTrace c b r t n d => exact piece_append (piece_publish _ _ _) (piece_append (hl _) (piece_append (hl _) (piece_freeAll _)))
  | setCategorySize c rs d => exact piece_append (piece_locked (by simp) (piece_resizeAll _ _)) (piece_freeAll _)
  | search c ws t n => exact piece_append (hl _) (piece_append (piece_walks _) (piece_event _ _ _))
  | multiSearch t n => exact piece_append (piece_event _ _ _) (piece_pause (piece_event _ _ _))
  | stream b => exact piece_append (hl _) (piece_pause (hl _))
  | streamAgain b => exact hl _
  | streamStats b => exact hl _
  | publish b t n => exact piece_publish _ _ _

/-- Every call is done with locks in order. -/
theorem disc_ops (c : Call) : Disc [] c.ops := by
  have := piece_ops c [] rfl
  rwa [List.append_nil] at this

/-! ## The invariant -/

/-- `held i` are the locks goroutine `i` has. -/
structure Inv (s : St) (held : Nat → List Lock) : Prop where
  disc : ∀ i, Disc (held i) (s.code i)
  owner : ∀ i l, s.owner l = some i ↔ l ∈ held i
  sorted : ∀ i, (held i).Pairwise (fun a b => b.rank < a.rank)

theorem upd_same {α β : Type} [DecidableEq α] (f : α → β) (a : α) (b : β) : upd f a b a = b := by simp [upd]
theorem upd_other {α β : Type} [DecidableEq α] (f : α → β) {a x : α} (b : β) (h : x ≠ a) : upd f a b x = f x := by simp [upd, h]

theorem inv_step {s t : St} {held : Nat → List Lock} (h : Inv s held) (st : Step s t) : ∃ held', Inv t held' := by
  cases st with
  | call i c hc =>
    have h0 : held i = [] := by have := h.disc i; rw [hc] at this; exact this
    refine ⟨held, ?_, h.owner, h.sorted⟩
    intro j
    by_cases hj : j = i
    · subst hj; simp only [upd_same, h0]; exact disc_ops c
    · simp only [upd_other _ _ hj]; exact h.disc j
  | acq i l k hc hf =>
    have hd := h.disc i
    rw [hc] at hd
    have hnot : ∀ j, l ∉ held j := by
      intro j hj
      rw [← h.owner j l, hf] at hj; cases hj
    refine ⟨upd held i (l :: held i), ?_, ?_, ?_⟩
    · intro j
      by_cases hj : j = i
      · subst hj; simp only [upd_same]; exact hd.2
      · simp only [upd_other _ _ hj]; exact h.disc j
    · intro j l'
      by_cases hj : j = i
      · subst hj
        simp only [upd_same, List.mem_cons]
        by_cases hl : l' = l
        · subst hl; simp [upd_same]
        · simp only [upd_other _ _ hl, hl, false_or]; exact h.owner j l'
      · simp only [upd_other _ _ hj]
        by_cases hl : l' = l
        · subst hl
          simp only [upd_same, Option.some.injEq]
          exact ⟨fun e => absurd e.symm hj, fun e => absurd e (hnot j)⟩
        · simp only [upd_other _ _ hl]; exact h.owner j l'
    · intro j
      by_cases hj : j = i
      · subst hj; simp only [upd_same]; exact List.pairwise_cons.2 ⟨hd.1, h.sorted j⟩
      · simp only [upd_other _ _ hj]; exact h.sorted j
  | rel i l k hc =>
    have hd := h.disc i
    rw [hc] at hd
    obtain ⟨tl, ht, hd⟩ := hd
    have hs := h.sorted i
    rw [ht] at hs
    have hnot : l ∉ tl := by
      intro hm
      have := (List.pairwise_cons.1 hs).1 l hm
      omega
    have ho : s.owner l = some i := by rw [h.owner, ht]; exact List.mem_cons_self
    refine ⟨upd held i tl, ?_, ?_, ?_⟩
    · intro j
      by_cases hj : j = i
      · subst hj; simp only [upd_same]; exact hd
      · simp only [upd_other _ _ hj]; exact h.disc j
    · intro j l'
      by_cases hj : j = i
      · subst hj
        simp only [upd_same]
        by_cases hl : l' = l
        · subst hl; simp [upd_same, hnot]
        · simp only [upd_other _ _ hl]
          rw [h.owner, ht]; simp [hl]
      · simp only [upd_other _ _ hj]
        by_cases hl : l' = l
        · subst hl
          simp only [upd_same]
          refine ⟨fun e => (nomatch e), fun e => ?_⟩
          rw [← h.owner, ho] at e
          exact absurd (Option.some.inj e).symm hj
        · simp only [upd_other _ _ hl]; exact h.owner j l'
    · intro j
      by_cases hj : j = i
      · subst hj; simp only [upd_same]; exact (List.pairwise_cons.1 hs).2
      · simp only [upd_other _ _ hj]; exact h.sorted j
  | pause i k hc =>
    have hd := h.disc i
    rw [hc] at hd
    refine ⟨held, ?_, h.owner, h.sorted⟩
    intro j
    by_cases hj : j = i
    · subst hj; simp only [upd_same, hd.1]; exact hd.2
    · simp only [upd_other _ _ hj]; exact h.disc j

theorem inv_reach {s : St} (h : Reach s) : ∃ held, Inv s held := by
  unfold Reach at h
  generalize hi : St.init = s0 at h
  induction h with
  | refl =>
    subst hi
    exact ⟨fun _ => [], fun _ => rfl, fun i l => by simp [St.init], fun _ => List.Pairwise.nil⟩
  | tail _ st ih => obtain ⟨held, h⟩ := ih; exact inv_step h st

/-- Somebody having a lock can go on, or waits for somebody having a lock of higher rank; so at last
somebody can. -/
theorem holder_can_step {s : St} {held : Nat → List Lock} (h : Inv s held) :
    ∀ (n : Nat) (l : Lock) (i : Nat), 3 - l.rank = n → s.owner l = some i →
      ∃ j l', s.owner l' = some j ∧ l.rank ≤ l'.rank ∧ s.CanStep j := by
  intro n
  induction n using Nat.strongRecOn with
  | ind n ih =>
    intro l i hn ho
    have hm := (h.owner i l).1 ho
    have hd := h.disc i
    cases hc : s.code i with
    | nil => rw [hc] at hd; rw [show held i = [] from hd] at hm; cases hm
    | cons op k =>
      rw [hc] at hd
      cases op with
      | pause => rw [hd.1] at hm; cases hm
      | rel l' => exact ⟨i, l, ho, Nat.le_refl _, Or.inr ⟨l', k, hc⟩⟩
      | acq l' =>
        cases ho' : s.owner l' with
        | none => exact ⟨i, l, ho, Nat.le_refl _, Or.inl ⟨l', k, hc, ho'⟩⟩
        | some j =>
          have hr := hd.1 l hm
          have hb : l'.rank ≤ 3 := by cases l' <;> simp [Lock.rank]
          obtain ⟨j', l'', h1, h2, h3⟩ := ih (3 - l'.rank) (by omega) l' j rfl ho'
          exact ⟨j', l'', h1, by omega, h3⟩

/-! ## C75 -/

/-- **C75**.  Whenever somebody waits for a lock, somebody who has a lock can go on. -/
theorem C75_no_deadlock (s : St) (h : Reach s) (i : Nat) (l : Lock) (hw : s.Waiting i l) :
    ∃ j l', s.owner l' = some j ∧ s.CanStep j := by
  obtain ⟨held, hi⟩ := inv_reach h
  cases ho : s.owner l with
  | none => exact absurd ho hw.2
  | some j =>
    obtain ⟨j', l', h1, _, h3⟩ := holder_can_step hi _ l j rfl ho
    exact ⟨j', l', h1, h3⟩

/-- A set of goroutines waiting for each other: each waits for a lock that one of them has. -/
def Deadlock (s : St) (g : Nat → Prop) : Prop :=
  (∃ i, g i) ∧ ∀ i, g i → ∃ l k j, s.code i = .acq l :: k ∧ s.owner l = some j ∧ g j

/-- **C75**.  No set of goroutines wait for each other. -/
theorem C75_no_cycle (s : St) (h : Reach s) (g : Nat → Prop) : ¬ Deadlock s g := by
  obtain ⟨held, hi⟩ := inv_reach h
  rintro ⟨⟨i, hg⟩, hall⟩
  -- the rank of the lock waited for grows along the chain
  have key : ∀ n l k i, g i → s.code i = .acq l :: k → 3 - l.rank = n → False := by
    intro n
    induction n using Nat.strongRecOn with
    | ind n ih =>
      intro l k i hg hc hn
      obtain ⟨l1, k1, j, hc1, ho, hj⟩ := hall i hg
      rw [hc] at hc1; cases hc1
      obtain ⟨l2, k2, j2, hc2, _, _⟩ := hall j hj
      have hd := hi.disc j
      rw [hc2] at hd
      have hr := hd.1 l ((hi.owner j l).1 ho)
      have hb : l2.rank ≤ 3 := by cases l2 <;> simp [Lock.rank]
      exact ih (3 - l2.rank) (by omega) l2 k2 j hj hc2 rfl
  obtain ⟨l, k, j, hc, _, _⟩ := hall i hg
  exact key _ l k i hg hc rfl

/-- Only finitely many goroutines are in a call. -/
def Bounded (s : St) (n : Nat) : Prop := ∀ i, n ≤ i → s.code i = []

theorem bounded_reach {s : St} (h : Reach s) : ∃ n, Bounded s n := by
  unfold Reach at h
  generalize hi : St.init = s0 at h
  induction h with
  | refl => subst hi; exact ⟨0, fun _ _ => rfl⟩
  | tail _ st ih =>
    obtain ⟨n, hn⟩ := ih
    have key : ∀ (c : Nat → List Op) (i : Nat) (k : List Op), (∀ j, n ≤ j → c j = []) →
        ∀ j, max n (i + 1) ≤ j → upd c i k j = [] := by
      intro c i k hc j hj
      rw [upd_other _ _ (by omega)]
      exact hc j (by omega)
    cases st with
    | call i c _ => exact ⟨_, key _ i _ hn⟩
    | acq i l k _ _ => exact ⟨_, key _ i _ hn⟩
    | rel i l k _ => exact ⟨_, key _ i _ hn⟩
    | pause i k _ => exact ⟨_, key _ i _ hn⟩

/-- How much the goroutines below `n` have to do. -/
def total (c : Nat → List Op) : Nat → Nat
  | 0 => 0
  | n + 1 => total c n + (c n).length

theorem total_upd (c : Nat → List Op) (i : Nat) (op : Op) (k : List Op) (hc : c i = op :: k) :
    ∀ n, (i < n → total (upd c i k) n + 1 = total c n) ∧ (n ≤ i → total (upd c i k) n = total c n) := by
  intro n
  induction n with
  | zero => exact ⟨fun h => absurd h (Nat.not_lt_zero _), fun _ => rfl⟩
  | succ n ih =>
    simp only [total]
    constructor
    · intro h
      by_cases hi : i = n
      · subst hi
        rw [ih.2 (Nat.le_refl _), upd_same, hc, List.length_cons]; omega
      · rw [upd_other _ _ (Ne.symm hi), ← ih.1 (by omega)]; omega
    · intro h
      rw [ih.2 (by omega), upd_other _ _ (by omega)]

theorem steps_trans {s t u : St} (h : Steps s t) (h' : Steps t u) : Steps s u := by
  induction h' with
  | refl => exact h
  | tail _ st ih => exact .tail ih st

/-- Taking or releasing a lock. -/
inductive LockStep : St → St → Prop where
  | acq {s : St} (i : Nat) (l : Lock) (k : List Op) : s.code i = .acq l :: k → s.owner l = none →
      LockStep s ⟨upd s.owner l (some i), upd s.code i k⟩
  | rel {s : St} (i : Nat) (l : Lock) (k : List Op) : s.code i = .rel l :: k →
      LockStep s ⟨upd s.owner l none, upd s.code i k⟩

inductive LockSteps : St → St → Prop where
  | refl (s : St) : LockSteps s s
  | head {s t u : St} : LockStep s t → LockSteps t u → LockSteps s u

theorem LockStep.step {s t : St} (h : LockStep s t) : Step s t := by
  cases h with
  | acq i l k h1 h2 => exact .acq i l k h1 h2
  | rel i l k h1 => exact .rel i l k h1

/-- **C75**.  At any time, the goroutines can go on, by taking and releasing locks only, until nobody
has a lock: no call keeps a lock while it waits for something else. -/
theorem C75_releases (s : St) (h : Reach s) : ∃ t, LockSteps s t ∧ ∀ l, t.owner l = none := by
  obtain ⟨n, hn⟩ := bounded_reach h
  obtain ⟨held, hi⟩ := inv_reach h
  have key : ∀ m s held, Inv s held → Bounded s n → total s.code n = m → ∃ t, LockSteps s t ∧ ∀ l, t.owner l = none := by
    intro m
    induction m using Nat.strongRecOn with
    | ind m ih =>
      intro s held hi hn hm
      by_cases hall : ∀ l, s.owner l = none
      · exact ⟨s, .refl s, hall⟩
      · obtain ⟨l, hl⟩ := Classical.not_forall.1 hall
        cases ho : s.owner l with
        | none => exact absurd ho hl
        | some i =>
          obtain ⟨j, l', _, _, hcan⟩ := holder_can_step hi _ l i rfl ho
          have fin : ∀ t op k, s.code j = op :: k → t.code = upd s.code j k → LockStep s t →
              ∃ t', LockSteps s t' ∧ ∀ l, t'.owner l = none := by
            intro t op k hc ht st
            have hj : j < n := by
              apply Classical.byContradiction
              intro hge
              rw [hn j (by omega)] at hc; cases hc
            obtain ⟨held', hi'⟩ := inv_step hi st.step
            have htot := (total_upd s.code j op k hc n).1 hj
            obtain ⟨t', h1, h2⟩ := ih (total t.code n) (by rw [ht]; omega) t held' hi'
              (by
                intro x hx
                rw [ht, upd_other _ _ (by omega)]
                exact hn x hx) rfl
            exact ⟨t', .head st h1, h2⟩
          rcases hcan with ⟨la, k, hc, hf⟩ | ⟨la, k, hc⟩
          · exact fin _ _ k hc rfl (.acq j la k hc hf)
          · exact fin _ _ k hc rfl (.rel j la k hc)
  exact key _ s held hi hn rfl

/-- Somebody else's lock steps leave a goroutine where it is until it gets its lock. -/
theorem waiting_gets {s t : St} (h : LockSteps s t) (i : Nat) (l : Lock) (k : List Op) (hc : s.code i = .acq l :: k)
    (hfree : ∀ l, t.owner l = none) :
    ∃ u v, LockSteps s u ∧ u.code i = .acq l :: k ∧ LockStep u v ∧ v.owner l = some i ∧ v.code i = k := by
  induction h with
  | refl s => exact ⟨s, _, .refl s, hc, .acq i l k hc (hfree l), upd_same _ _ _, upd_same _ _ _⟩
  | head st hs ih =>
    cases st with
    | acq j l' k' hj hf =>
      by_cases hij : i = j
      · subst hij
        rw [hc] at hj; cases hj
        exact ⟨_, _, .refl _, hc, .acq i l k hc hf, upd_same _ _ _, upd_same _ _ _⟩
      · obtain ⟨u, v, h1, h2⟩ := ih (by simp only [upd_other _ _ hij]; exact hc) hfree
        exact ⟨u, v, .head (.acq j l' k' hj hf) h1, h2⟩
    | rel j l' k' hj =>
      by_cases hij : i = j
      · subst hij; rw [hc] at hj; cases hj
      · obtain ⟨u, v, h1, h2⟩ := ih (by simp only [upd_other _ _ hij]; exact hc) hfree
        exact ⟨u, v, .head (.rel j l' k' hj) h1, h2⟩

/-- **C75**.  Everybody waiting for a lock can get it. -/
theorem C75_waiting_gets_lock (s : St) (h : Reach s) (i : Nat) (l : Lock) (k : List Op) (hc : s.code i = .acq l :: k) :
    ∃ u v, LockSteps s u ∧ LockStep u v ∧ v.owner l = some i ∧ v.code i = k := by
  obtain ⟨t, ht, hfree⟩ := C75_releases s h
  obtain ⟨u, v, h1, _, h3, h4, h5⟩ := waiting_gets ht i l k hc hfree
  exact ⟨u, v, h1, h3, h4, h5⟩

/-! ## What C75 does not cover -/

/-- Formatting an argument whose `String` method calls a getter of the trace, inside of `Tracef`. -/
def reentrant (t : Nat) : List Op := locked (.trace t) (coreCall t)

/-- An argument whose `String` method uses the trace it is an argument of makes the goroutine wait for itself
forever: `Tracef` formats the event while it has the lock. -/
theorem C75_reentrant_argument_deadlocks (t i : Nat) (s : St) (hc : s.code i = reentrant t) (hf : s.owner (.trace t) = none) :
    ∃ s', Step s s' ∧ Deadlock s' (· = i) := by
  refine ⟨_, .acq i (.trace t) (coreCall t ++ [.rel (.trace t)]) (by rw [hc]; rfl) hf, ⟨i, rfl⟩, ?_⟩
  rintro j rfl
  exact ⟨.trace t, [.rel (.trace t)] ++ [.rel (.trace t)], j, by simp only [upd_same]; rfl, by simp only [upd_same], rfl⟩

/-! ## Examples -/

/-- A goroutine searches and has a buffer's lock, waiting for a trace that another one writes to, while
a third waits for the buffer. -/
example : ∃ s, Reach s ∧ s.Waiting 0 (.trace 5) ∧ s.Waiting 2 (.ring 1) ∧ s.owner (.ring 1) = some 0 := by
  have h0 : Reach St.init := .refl _
  have h1 := Steps.tail h0 (.call 0 (.search 0 [(1, [(5, 1)])] ⟨9, []⟩ 0) rfl)
  have h2 := Steps.tail h1 (.acq 0 (.set 0) _ rfl rfl)
  have h3 := Steps.tail h2 (.rel 0 (.set 0) _ rfl)
  have h4 := Steps.tail h3 (.acq 0 (.ring 1) _ rfl rfl)
  have h5 := Steps.tail h4 (.call 1 (.event ⟨5, [.pub 0]⟩ 3) rfl)
  have h6 := Steps.tail h5 (.acq 1 (.trace 5) _ rfl rfl)
  have h7 := Steps.tail h6 (.call 2 (.setCategorySize 0 [1] []) rfl)
  have h8 := Steps.tail h7 (.acq 2 (.set 0) _ rfl rfl)
  refine ⟨_, h8, ⟨⟨_, rfl⟩, ?_⟩, ⟨⟨_, rfl⟩, ?_⟩, rfl⟩
  · decide
  · decide

/-- The hypotheses of `C75_reentrant_argument_deadlocks`. -/
example : ∃ s : St, s.code 0 = reentrant 3 ∧ s.owner (.trace 3) = none :=
  ⟨⟨fun _ => none, fun _ => reentrant 3⟩, rfl, rfl⟩

end Trc.Lock
