import Mathlib.Data.List.Perm.Basic
import Mathlib.Data.List.Nodup
import Verif.Search.Gather

/-!
# A multi-search waits for each of its searchers, and for nothing else (C108)
-/

namespace Trc.Gather

variable {Answer : Type}

/-! ## Specification -/

/-- The searchers that have returned, with what they have returned, in this order. -/
def answers : List (Label Answer) → List (Nat × Answer)
  | [] => []
  | .answer i x :: ls => (i, x) :: answers ls
  | _ :: ls => answers ls

/-- Steps other than cancelling the context. -/
def work : List (Label Answer) → Nat
  | [] => 0
  | .cancel :: ls => work ls
  | _ :: ls => work ls + 1

/-- A step of the search itself: not one of a searcher, or of its caller. -/
def Label.own : Label Answer → Bool
  | .answer _ _ => false
  | .panics _ => false
  | .cancel => false
  | _ => true

/-! ## Lemmas -/

theorem answers_append (a b : List (Label Answer)) : answers (a ++ b) = answers a ++ answers b := by
  induction a with
  | nil => rfl
  | cons l a ih => cases l <;> simp [answers, ih]

theorem work_append (a b : List (Label Answer)) : work (a ++ b) = work a + work b := by
  induction a with
  | nil => simp [work]
  | cons l a ih => cases l <;> simp [work, ih] <;> omega

/-- The invariant of a search that has not crashed. -/
structure Inv (n : Nat) (ls : List (Label Answer)) (s : State Answer) : Prop where
  le : s.started ≤ n
  answered : (s.received ++ s.chan ++ s.sending).Perm (answers ls)
  all : ((answers ls).map (·.1) ++ s.searching).Perm (List.range s.started)
  scattering : s.phase = .scatter → s.received = []
  gathering : s.phase ≠ .scatter → s.started = n
  returned : s.phase = .returned → s.received.length = n

theorem Inv.count {n : Nat} {ls : List (Label Answer)} {s : State Answer} (h : Inv n ls s) :
    s.received.length + s.chan.length + s.sending.length + s.searching.length = s.started := by
  have h1 := h.answered.length_eq
  have h2 := h.all.length_eq
  simp only [List.length_append, List.length_map, List.length_range] at h1 h2
  omega

theorem inv_step {n : Nat} {ls : List (Label Answer)} {s s' : State Answer} {l : Label Answer} (h : Inv n ls s) (hs : Step n s l s') :
    Inv n (ls ++ [l]) s' := by
  have hc := h.count
  have ha := answers_append ls [l]
  cases hs with
  | start h1 h2 h3 =>
    simp only [answers, List.append_nil] at ha
    refine ⟨h3, by rw [ha]; exact h.answered, ?_, h.scattering, fun h' => absurd h2 h', fun h' => h.returned h'⟩
    rw [ha]
    simp only [← List.append_assoc, List.range_succ]
    exact h.all.append_right _
  | @answer i x h1 h2 =>
    simp only [answers] at ha
    refine ⟨h.le, ?_, ?_, h.scattering, h.gathering, h.returned⟩
    · rw [ha]
      simp only [← List.append_assoc]
      exact (h.answered.append_right _)
    · rw [ha]
      refine List.Perm.trans ?_ h.all
      simp only [List.map_append, List.map_cons, List.map_nil, List.append_assoc, List.singleton_append]
      exact List.Perm.append_left _ (List.perm_cons_erase h2).symm
  | panics h1 h2 =>
    simp only [answers, List.append_nil] at ha
    exact ⟨h.le, by rw [ha]; exact h.answered, by rw [ha]; exact h.all, h.scattering, h.gathering, h.returned⟩
  | @send i x a b h1 h2 h3 =>
    simp only [answers, List.append_nil] at ha
    refine ⟨h.le, ?_, by rw [ha]; exact h.all, h.scattering, h.gathering, h.returned⟩
    rw [ha]
    refine List.Perm.trans ?_ h.answered
    rw [h2]
    simp only [List.append_assoc]
    refine List.Perm.append_left _ (List.Perm.append_left _ ?_)
    simp only [List.singleton_append]
    exact List.perm_middle.symm
  | scattered h1 h2 h3 =>
    simp only [answers, List.append_nil] at ha
    exact ⟨h.le, by rw [ha]; exact h.answered, by rw [ha]; exact h.all, fun h' => (by cases h'), fun _ => h3, fun h' => (by cases h')⟩
  | @receive x c h1 h2 h3 h4 =>
    simp only [answers, List.append_nil] at ha
    refine ⟨h.le, ?_, by rw [ha]; exact h.all, fun h' => (by rw [h2] at h'; cases h'), h.gathering, fun h' => (by rw [h2] at h'; cases h')⟩
    rw [ha]
    have := h.answered
    rw [h4] at this
    simpa using this
  | finish h1 h2 h3 =>
    simp only [answers, List.append_nil] at ha
    exact ⟨h.le, by rw [ha]; exact h.answered, by rw [ha]; exact h.all, fun h' => (by cases h'),
      fun _ => h.gathering (by rw [h2]; decide), fun _ => h3⟩
  | cancel h1 =>
    simp only [answers, List.append_nil] at ha
    exact ⟨h.le, by rw [ha]; exact h.answered, by rw [ha]; exact h.all, h.scattering, h.gathering, h.returned⟩

theorem inv_steps {n : Nat} {ls : List (Label Answer)} {s : State Answer} (h : Steps n {} ls s) : Inv n ls s := by
  induction h with
  | nil => exact ⟨Nat.zero_le _, .nil, .nil, fun _ => rfl, fun h => absurd rfl h, fun h => (by cases h)⟩
  | cons h1 h2 ih => exact inv_step ih h2

/-- How far a search is. -/
def State.progress (s : State Answer) : Nat :=
  s.started + s.received.length * 3 + s.chan.length * 2 + s.sending.length +
    (match s.phase with | .scatter => 0 | .gather => 1 | .returned => 2) + (if s.crashed then 1 else 0)

theorem progress_step {n : Nat} {s s' : State Answer} {l : Label Answer} (hs : Step n s l s') :
    s'.progress = s.progress + work [l] := by
  cases hs with
  | start h1 h2 h3 => simp [State.progress, work]; omega
  | answer h1 h2 => simp [State.progress, work]; omega
  | panics h1 h2 => simp [State.progress, work, h1]
  | send h1 h2 h3 => simp [State.progress, work, h2]; omega
  | scattered h1 h2 h3 => simp [State.progress, work, h2]; omega
  | receive h1 h2 h3 h4 => simp [State.progress, work, h4]; omega
  | finish h1 h2 h3 => simp [State.progress, work, h2]; omega
  | cancel h1 => simp [State.progress, work]

theorem progress_steps {n : Nat} {s0 : State Answer} {ls : List (Label Answer)} {s : State Answer} (h : Steps n s0 ls s) :
    s.progress = s0.progress + work ls := by
  induction h with
  | nil => simp [work]
  | cons h1 h2 ih => rw [progress_step h2, ih, work_append]; omega

/-! ## Theorems -/

/-- **C108** When a multi-search returns, each of its searchers has returned, once; what it has gathered is what they have returned,
each answer once. -/
theorem C108_gathers {n : Nat} {ls : List (Label Answer)} {s : State Answer} (h : Steps n {} ls s) (hr : s.phase = .returned) :
    s.received.Perm (answers ls) ∧ ((answers ls).map (·.1)).Perm (List.range n) := by
  have hi := inv_steps h
  have hc := hi.count
  have hn := hi.gathering (by rw [hr]; decide)
  have hl := hi.returned hr
  have h1 : s.chan = [] := List.eq_nil_of_length_eq_zero (by omega)
  have h2 : s.sending = [] := List.eq_nil_of_length_eq_zero (by omega)
  have h3 : s.searching = [] := List.eq_nil_of_length_eq_zero (by omega)
  have ha := hi.answered
  have hb := hi.all
  simp only [h1, h2, h3, hn, List.append_nil] at ha hb
  exact ⟨ha, hb⟩

/-- **C108** A searcher that has returned can send its answer at once: its goroutine ends, whatever the caller and the other searchers do.
When the search returns, none of its goroutines is left. -/
theorem C108_no_goroutine_left {n : Nat} {ls : List (Label Answer)} {s : State Answer} (h : Steps n {} ls s) (hc : s.crashed = false) :
    (∀ p ∈ s.sending, ∃ s', Step n s (.send p.1 p.2) s') ∧
    (s.phase = .returned → s.searching = [] ∧ s.sending = [] ∧ s.chan = []) := by
  have hi := inv_steps h
  have hcount := hi.count
  have hle := hi.le
  constructor
  · intro p hp
    obtain ⟨a, b, hab⟩ := List.append_of_mem hp
    refine ⟨_, Step.send (a := a) (b := b) hc hab ?_⟩
    have : 0 < s.sending.length := List.length_pos_of_mem hp
    omega
  · intro hr
    have hl := hi.returned hr
    have hn := hi.gathering (by rw [hr]; decide)
    exact ⟨List.eq_nil_of_length_eq_zero (by omega), List.eq_nil_of_length_eq_zero (by omega), List.eq_nil_of_length_eq_zero (by omega)⟩

/-- **C108** A search returns once its searchers have: unless it has returned, or a searcher is still searching, the search can go on by itself,
and it goes on for no more than `4 n + 2` steps, however the goroutines are scheduled. -/
theorem C108_returns {n : Nat} {ls : List (Label Answer)} {s : State Answer} (h : Steps n {} ls s) (hc : s.crashed = false) :
    (s.phase = .returned ∨ s.searching ≠ [] ∨ ∃ l s', l.own = true ∧ Step n s l s') ∧ work ls ≤ 4 * n + 2 := by
  have hi := inv_steps h
  have hcount := hi.count
  have hle := hi.le
  constructor
  · cases hp : s.phase with
    | returned => exact .inl rfl
    | scatter =>
      refine .inr (.inr ?_)
      by_cases hs : s.started < n
      · exact ⟨.start, _, rfl, .start hc hp hs⟩
      · exact ⟨.scattered, _, rfl, .scattered hc hp (by omega)⟩
    | gather =>
      by_cases hs : s.searching = []
      · refine .inr (.inr ?_)
        have hn := hi.gathering (by rw [hp]; decide)
        rw [hs] at hcount
        simp only [List.length_nil] at hcount
        by_cases hr : s.received.length = n
        · exact ⟨.finish, _, rfl, .finish hc hp hr⟩
        · cases hch : s.chan with
          | cons x c => exact ⟨.receive, _, rfl, .receive hc hp (by omega) hch⟩
          | nil =>
            rw [hch] at hcount
            simp only [List.length_nil] at hcount
            cases hse : s.sending with
            | nil => rw [hse] at hcount; simp at hcount; omega
            | cons p b => exact ⟨.send p.1 p.2, _, rfl, .send (a := []) (b := b) hc hse (by rw [hch]; simp; omega)⟩
      · exact .inr (.inl hs)
  · have hp := progress_steps h
    have h0 : (({} : State Answer)).progress = 0 := rfl
    rw [h0, Nat.zero_add] at hp
    rw [← hp]
    simp only [State.progress, hc]
    have : (match s.phase with | .scatter => 0 | .gather => 1 | .returned => 2) ≤ 2 := by cases s.phase <;> decide
    simp only [Bool.false_eq_true, if_false]
    omega

/-- **C108** It does not return before: a searcher that does not return keeps it, whatever the others do and whether or not the context is
cancelled. -/
theorem C108_one_hangs {n i : Nat} (hi : i < n) {ls : List (Label Answer)} (hl : ∀ x, Label.answer i x ∉ ls) {s : State Answer}
    (h : Steps n {} ls s) : s.phase ≠ .returned := by
  intro hr
  have hp := (C108_gathers h hr).2
  have hm : i ∈ (answers ls).map (·.1) := hp.mem_iff.2 (List.mem_range.2 hi)
  have key : ∀ ls : List (Label Answer), i ∈ (answers ls).map (·.1) → ∃ x, Label.answer i x ∈ ls := by
    intro ls
    induction ls with
    | nil => intro h; simp [answers] at h
    | cons l ls ih =>
      intro h
      cases l with
      | answer j x =>
        simp only [answers, List.map_cons, List.mem_cons] at h
        rcases h with h | h
        · subst h; exact ⟨x, by simp⟩
        · obtain ⟨x, hx⟩ := ih h; exact ⟨x, by simp [hx]⟩
      | _ =>
        obtain ⟨x, hx⟩ := ih h; exact ⟨x, by simp [hx]⟩
  obtain ⟨x, hx⟩ := key ls hm
  exact hl x hx

/-- **C108** A searcher that panics ends the program: nothing recovers it. -/
theorem C108_one_panics {n i : Nat} {ls : List (Label Answer)} {s : State Answer} (h : Steps n {} ls s) (hl : Label.panics i ∈ ls) :
    s.crashed = true ∧ ∀ l s', ¬ Step n s l s' := by
  have key : s.crashed = true := by
    generalize ({} : State Answer) = s0 at h
    induction h with
    | nil => cases hl
    | @cons ls s' l s'' h1 h2 ih =>
      rcases List.mem_append.1 hl with hl | hl
      · have hc := ih hl
        cases h2 <;> simp_all
      · simp only [List.mem_singleton] at hl
        subst hl
        cases h2
        rfl
  refine ⟨key, fun l s' hs => ?_⟩
  cases hs <;> simp_all

/-- The steps of a search in which all searchers are started, and then return one after the other. -/
theorem start_all (n : Nat) : ∀ k, k ≤ n → Steps n ({} : State Answer) (List.replicate k .start)
    { started := k, searching := List.range k } := by
  intro k hk
  induction k with
  | zero => exact .nil _
  | succ k ih =>
    rw [List.replicate_succ']
    have := Steps.cons (ih (by omega)) (Step.start rfl rfl hk)
    simpa [List.range_succ] using this

theorem steps_trans {n : Nat} {s s' s'' : State Answer} {ls ls' : List (Label Answer)} (h : Steps n s ls s') (h' : Steps n s' ls' s'') :
    Steps n s (ls ++ ls') s'' := by
  induction h' with
  | nil => simpa using h
  | cons h1 h2 ih => rw [← List.append_assoc]; exact .cons ih h2

theorem one_by_one (n : Nat) (order : List (Nat × Answer)) : ∀ (rest : List Nat) (got : List (Nat × Answer)),
    (order.map (·.1)).Perm rest → got.length + order.length = n →
    ∃ ls, Steps n ({ phase := .gather, started := n, searching := rest, received := got } : State Answer) ls
      { phase := .gather, started := n, searching := [], received := got ++ order } := by
  induction order with
  | nil =>
    intro rest got hp hl
    have : rest = [] := by simpa using hp.symm.eq_nil
    subst this
    exact ⟨[], by simpa using Steps.nil _⟩
  | cons p order ih =>
    intro rest got hp hl
    obtain ⟨i, x⟩ := p
    simp only [List.map_cons, List.length_cons] at hp hl
    have hm : i ∈ rest := hp.mem_iff.1 (by simp)
    have hp' : (order.map (·.1)).Perm (rest.erase i) := by
      have := hp.erase i
      simpa using this
    obtain ⟨ls, hls⟩ := ih (rest.erase i) (got ++ [(i, x)]) hp' (by simp; omega)
    have s1 := Steps.cons (n := n) (Steps.nil ({ phase := .gather, started := n, searching := rest, received := got } : State Answer))
      (Step.answer (i := i) (x := x) rfl hm)
    have s2 := Steps.cons s1 (Step.send (a := []) (b := []) rfl rfl (by simp; omega))
    have s3 := Steps.cons s2 (Step.receive rfl rfl (by simp; omega) rfl)
    refine ⟨_, steps_trans (ls' := ls) s3 ?_⟩
    simpa using hls

/-- **C108** Every order of arrival can happen, with whatever the searchers return. -/
theorem C108_any_order (n : Nat) (order : List (Nat × Answer)) (h : (order.map (·.1)).Perm (List.range n)) :
    ∃ ls s, Steps n {} ls s ∧ s.phase = .returned ∧ s.received = order := by
  have hl : order.length = n := by simpa using h.length_eq
  have s1 := Steps.cons (start_all (Answer := Answer) n n (Nat.le_refl n)) (Step.scattered rfl rfl rfl)
  obtain ⟨ls, s2⟩ := one_by_one n order (List.range n) [] h (by simpa using hl)
  have s3 := Steps.cons (steps_trans s1 s2) (Step.finish rfl rfl (by simpa using hl))
  exact ⟨_, _, s3, rfl, by simp⟩

/-! ## Cases -/

/-- Of two searchers the second is faster. -/
example : ∃ ls s, Steps 2 ({} : State Bool) ls s ∧ s.phase = .returned ∧ s.received = [(1, true), (0, false)] :=
  C108_any_order 2 _ (by decide)

/-- One has returned, the other has not, the context is cancelled, and the search waits. -/
example : ∃ ls s, Steps 2 ({} : State Bool) ls s ∧ (∀ x, Label.answer 0 x ∉ ls) ∧ Label.cancel ∈ ls ∧ s.received = [(1, true)] := by
  have s1 := Steps.cons (start_all (Answer := Bool) 2 2 (Nat.le_refl 2)) (Step.scattered rfl rfl rfl)
  have s2 := Steps.cons s1 (Step.answer (i := 1) (x := true) rfl (by decide))
  have s3 := Steps.cons s2 (Step.send (a := []) (b := []) rfl rfl (by decide))
  have s4 := Steps.cons s3 (Step.receive rfl rfl (by decide) rfl)
  have s5 := Steps.cons s4 (Step.cancel rfl)
  exact ⟨_, _, s5, by simp, by simp, rfl⟩

/-- No searchers at all. -/
example : ∃ ls s, Steps 0 ({} : State Bool) ls s ∧ s.phase = .returned ∧ s.received = [] := C108_any_order 0 [] (by decide)

/-- A searcher panics. -/
example : ∃ s, Steps 1 ({} : State Bool) [.start, .panics 0] s :=
  ⟨_, Steps.cons (Steps.cons (.nil _) (Step.start rfl rfl (by decide))) (Step.panics (i := 0) rfl (by decide))⟩

end Trc.Gather
