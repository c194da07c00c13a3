import Verif.Props.Broker

/-!
# C118: subscribers do not affect each other

A broker with many subscribers behaves as brokers for some of them each, which only have the same publishes: the
histories with all of them are exactly the interleavings of histories with each part, in which the publishes
coincide.
-/

set_option linter.unusedVariables false
set_option linter.unusedSimpArgs false

namespace Trc.Broker

/-- The channel that a label is about. -/
def Label.chan : Label → Option Ch
  | .subscribed _ ch _ => some ch
  | .refused _ ch => some ch
  | .cancel _ => none
  | .returned _ ch _ => some ch
  | .programmerError _ ch => some ch
  | .stats ch _ => some ch
  | .publish _ => none
  | .visited ch _ _ => some ch
  | .release => none
  | .recv _ ch _ => some ch
  | .wait _ ch => some ch
  | .abandon _ ch => some ch

/-- The beginning or the end of a publish. -/
def Label.common : Label → Bool
  | .publish _ => true
  | .release => true
  | _ => false

/-- The history is about some channels only. -/
def About (P : Ch → Bool) (h : List Label) : Prop := ∀ l ∈ h, ∀ ch, l.chan = some ch → P ch = true

/-- Interleavings of two histories that publish the same at the same times. -/
inductive Together : List Label → List Label → List Label → Prop
  | nil : Together [] [] []
  | left {l h₁ h₂ h} : l.common = false → Together h₁ h₂ h → Together (l :: h₁) h₂ (l :: h)
  | right {l h₁ h₂ h} : l.common = false → Together h₁ h₂ h → Together h₁ (l :: h₂) (l :: h)
  | both {l h₁ h₂ h} : l.common = true → Together h₁ h₂ h → Together (l :: h₁) (l :: h₂) (l :: h)

theorem Together.snoc_left {l : Label} {h₁ h₂ h : List Label} (hl : l.common = false) (t : Together h₁ h₂ h) :
    Together (h₁ ++ [l]) h₂ (h ++ [l]) := by
  induction t with
  | nil => exact .left hl .nil
  | left a _ ih => exact .left a ih
  | right a _ ih => exact .right a ih
  | both a _ ih => exact .both a ih

theorem Together.snoc_right {l : Label} {h₁ h₂ h : List Label} (hl : l.common = false) (t : Together h₁ h₂ h) :
    Together h₁ (h₂ ++ [l]) (h ++ [l]) := by
  induction t with
  | nil => exact .right hl .nil
  | left a _ ih => exact .left a ih
  | right a _ ih => exact .right a ih
  | both a _ ih => exact .both a ih

theorem Together.snoc_both {l : Label} {h₁ h₂ h : List Label} (hl : l.common = true) (t : Together h₁ h₂ h) :
    Together (h₁ ++ [l]) (h₂ ++ [l]) (h ++ [l]) := by
  induction t with
  | nil => exact .both hl .nil
  | left a _ ih => exact .left a ih
  | right a _ ih => exact .right a ih
  | both a _ ih => exact .both a ih

/-- The channel a goroutine streams to. -/
def Thread.chan : Thread → Option Ch
  | .idle => none
  | .streaming ch => some ch
  | .cancelled ch => some ch

/-- The lock in the parts and in the whole. -/
def LockParts (P : Ch → Bool) : Option (Static × List Ch) → Option (Static × List Ch) → Option (Static × List Ch) → Prop
  | none, none, none => True
  | some (x₁, todo₁), some (x₂, todo₂), some (x, todo) =>
    x₁ = x ∧ x₂ = x ∧ todo₁ = todo.filter P ∧ todo₂ = todo.filter (fun ch => !P ch)
  | _, _, _ => False

/-- The state of the whole, and of the parts. -/
structure Parts (P : Ch → Bool) (s₁ s₂ s : St) : Prop where
  subs₁ : ∀ ch, P ch = true → s.subs ch = s₁.subs ch ∧ s.chans ch = s₁.chans ch ∧ s₂.subs ch = none
  subs₂ : ∀ ch, P ch = false → s.subs ch = s₂.subs ch ∧ s.chans ch = s₂.chans ch ∧ s₁.subs ch = none
  threads : ∀ t, (s₁.threads t = .idle ∧ s.threads t = s₂.threads t) ∨ (s₂.threads t = .idle ∧ s.threads t = s₁.threads t)
  on₁ : ∀ t ch, (s₁.threads t).chan = some ch → P ch = true
  on₂ : ∀ t ch, (s₂.threads t).chan = some ch → P ch = false
  lock : LockParts P s₁.lock s₂.lock s.lock

/-- The parts the other way round. -/
theorem LockParts.swap {P : Ch → Bool} {a b c : Option (Static × List Ch)} (h : LockParts P a b c) :
    LockParts (fun ch => !P ch) b a c := by
  cases a with
  | none => cases b <;> cases c <;> first | exact h | exact h.elim
  | some a =>
    obtain ⟨x₁, t₁⟩ := a
    cases b with
    | none => cases c <;> exact h.elim
    | some b =>
      obtain ⟨x₂, t₂⟩ := b
      cases c with
      | none => exact h.elim
      | some c =>
        obtain ⟨x, t⟩ := c
        exact ⟨h.2.1, h.1, h.2.2.2, by rw [h.2.2.1]; simp⟩

theorem Parts.swap {P : Ch → Bool} {s₁ s₂ s : St} (h : Parts P s₁ s₂ s) : Parts (fun ch => !P ch) s₂ s₁ s where
  subs₁ ch hc := h.subs₂ ch (by simpa using hc)
  subs₂ ch hc := h.subs₁ ch (by simpa using hc)
  threads t := (h.threads t).symm
  on₁ t ch hc := by simp [h.on₂ t ch hc]
  on₂ t ch hc := by simp [h.on₁ t ch hc]
  lock := h.lock.swap

theorem Together.swap {h₁ h₂ h : List Label} (t : Together h₁ h₂ h) : Together h₂ h₁ h := by
  induction t with
  | nil => exact .nil
  | left a _ ih => exact .right a ih
  | right a _ ih => exact .left a ih
  | both a _ ih => exact .both a ih

theorem Parts.init (P : Ch → Bool) : Parts P {} {} {} where
  subs₁ _ _ := ⟨rfl, rfl, rfl⟩
  subs₂ _ _ := ⟨rfl, rfl, rfl⟩
  threads _ := .inl ⟨rfl, rfl⟩
  on₁ _ _ h := by cases h
  on₂ _ _ h := by cases h
  lock := trivial

theorem LockParts.none_iff {P : Ch → Bool} {a b c : Option (Static × List Ch)} (h : LockParts P a b c) :
    (a = none ↔ c = none) ∧ (b = none ↔ c = none) := by
  cases a <;> cases b <;> cases c <;> simp_all [LockParts]

section
variable (compile : Compile) (cap : Ch → Nat)

/-- A step of the first part is one of the whole, if its goroutine does nothing in the other part, and a
visit is of the next subscriber. -/
theorem step_left {P : Ch → Bool} {s₁ s₁' s₂ s : St} {l : Label} (hp : Parts P s₁ s₂ s) (hl : l.common = false)
    (ha : ∀ ch, l.chan = some ch → P ch = true)
    (ht : ∀ t, (∃ ch f, l = .subscribed t ch f) ∨ (∃ ch, l = .refused t ch) → s₂.threads t = .idle)
    (hv : ∀ ch str v, l = .visited ch str v → ∃ x rest, s.lock = some (x, ch :: rest))
    (st : Step compile cap s₁ l s₁') :
    ∃ s', Step compile cap s l s' ∧ Parts P s₁' s₂ s' ∧
      ((∀ ch str v, l ≠ .visited ch str v) → s'.lock = s.lock) ∧
      (∀ ch str v x rest, l = .visited ch str v → s.lock = some (x, ch :: rest) → s'.lock = some (x, rest)) := by
  have free : ∀ t, s₂.threads t = .idle → s.threads t = s₁.threads t := by
    intro t h
    rcases hp.threads t with ⟨h1, h2⟩ | ⟨_, h2⟩
    · rw [h2, h, h1]
    · exact h2
  have busy : ∀ t ch, (s₁.threads t).chan = some ch → s.threads t = s₁.threads t ∧ s₂.threads t = .idle := by
    intro t ch h
    rcases hp.threads t with ⟨h1, h2⟩ | ⟨h1, h2⟩
    · rw [h1] at h; cases h
    · exact ⟨h2, h1⟩
  have lock0 : s₁.lock = none → s.lock = none := fun h => hp.lock.none_iff.1.mp h
  cases st with
  | @subscribe t ch f subs' h1 h2 h3 =>
    have hP : P ch = true := ha ch rfl
    have hi := ht t (.inl ⟨ch, f, rfl⟩)
    have e := (hp.subs₁ ch hP).1
    have hr : s₁.subs ch = none ∧ subs' = upd s₁.subs ch (some { filter := f }) := by
      unfold register at h3
      cases hc : s₁.subs ch with
      | none => rw [hc] at h3; exact ⟨rfl, by cases h3; rfl⟩
      | some _ => rw [hc] at h3; cases h3
    refine ⟨_, .subscribe (t := t) (ch := ch) (f := f) (lock0 h1) (by rw [free t hi, h2]) (by unfold register; rw [e, hr.1]), ?_, fun _ => rfl, ?_⟩
    · refine ⟨fun c hc => ?_, fun c hc => ?_, fun u => ?_, fun u c hu => ?_, hp.on₂, hp.lock⟩
      · refine ⟨?_, (hp.subs₁ c hc).2⟩
        show upd s.subs ch _ c = subs' c
        rw [hr.2]
        unfold upd
        by_cases hcc : c = ch
        · rw [if_pos hcc, if_pos hcc]
        · rw [if_neg hcc, if_neg hcc]; exact (hp.subs₁ c hc).1
      · have hcc : c ≠ ch := by rintro rfl; rw [hP] at hc; cases hc
        refine ⟨?_, (hp.subs₂ c hc).2.1, ?_⟩
        · show upd s.subs ch _ c = _
          unfold upd; rw [if_neg hcc]; exact (hp.subs₂ c hc).1
        · show subs' c = none
          rw [hr.2]; unfold upd; rw [if_neg hcc]; exact (hp.subs₂ c hc).2.2
      · show (upd s₁.threads t _ u = _ ∧ upd s.threads t _ u = _) ∨ (_ ∧ upd s.threads t _ u = upd s₁.threads t _ u)
        unfold upd
        by_cases hu : u = t
        · subst hu; exact .inr ⟨hi, by simp⟩
        · simp only [if_neg hu]; exact hp.threads u
      · have hu : (upd s₁.threads t (.streaming ch) u).chan = some c := hu
        unfold upd at hu
        by_cases hut : u = t
        · rw [if_pos hut] at hu; cases hu; exact hP
        · rw [if_neg hut] at hu; exact hp.on₁ u c hu
    · intro ch' str v x rest e; cases e
  | @refuse t ch f h1 h2 h3 =>
    have hP : P ch = true := ha ch rfl
    have hi := ht t (.inr ⟨ch, rfl⟩)
    refine ⟨s, .refuse (f := f) (lock0 h1) (by rw [free t hi, h2]) ?_, hp, fun _ => rfl, fun _ _ _ _ _ e => by cases e⟩
    unfold register at h3 ⊢
    rw [(hp.subs₁ ch hP).1]
    cases hc : s₁.subs ch with
    | none => rw [hc] at h3; cases h3
    | some _ => rfl
  | @cancel t ch h1 =>
    obtain ⟨hb, hi⟩ := busy t ch (by rw [h1]; rfl)
    have hP := hp.on₁ t ch (by rw [h1]; rfl)
    refine ⟨_, .cancel (t := t) (ch := ch) (by rw [hb, h1]), ?_, fun _ => rfl, fun _ _ _ _ _ e => by cases e⟩
    refine ⟨hp.subs₁, hp.subs₂, fun u => ?_, fun u c hu => ?_, hp.on₂, hp.lock⟩
    · show (upd s₁.threads t _ u = _ ∧ upd s.threads t _ u = _) ∨ (_ ∧ upd s.threads t _ u = upd s₁.threads t _ u)
      unfold upd
      by_cases hu : u = t
      · subst hu; exact .inr ⟨hi, by simp⟩
      · simp only [if_neg hu]; exact hp.threads u
    · have hu : (upd s₁.threads t (.cancelled ch) u).chan = some c := hu
      unfold upd at hu
      by_cases hut : u = t
      · rw [if_pos hut] at hu; cases hu; exact hP
      · rw [if_neg hut] at hu; exact hp.on₁ u c hu
  | @finish t ch subs' st' h1 h2 h3 =>
    have hP : P ch = true := ha ch rfl
    obtain ⟨hb, hi⟩ := busy t ch (by rw [h2]; rfl)
    unfold unregister at h3
    simp only [Prod.mk.injEq] at h3
    refine ⟨_, .finish (t := t) (ch := ch) (subs' := upd s.subs ch none) (st := st') (lock0 h1) (by rw [hb, h2])
      (by unfold unregister; rw [(hp.subs₁ ch hP).1, h3.2]), ?_, fun _ => rfl, fun _ _ _ _ _ e => by cases e⟩
    refine ⟨fun c hc => ?_, fun c hc => ?_, fun u => ?_, fun u c hu => ?_, hp.on₂, hp.lock⟩
    · refine ⟨?_, (hp.subs₁ c hc).2⟩
      show upd s.subs ch _ c = subs' c
      rw [← h3.1]
      unfold upd
      by_cases hcc : c = ch
      · rw [if_pos hcc, if_pos hcc]
      · rw [if_neg hcc, if_neg hcc]; exact (hp.subs₁ c hc).1
    · have hcc : c ≠ ch := by rintro rfl; rw [hP] at hc; cases hc
      refine ⟨?_, (hp.subs₂ c hc).2.1, ?_⟩
      · show upd s.subs ch _ c = _
        unfold upd; rw [if_neg hcc]; exact (hp.subs₂ c hc).1
      · show subs' c = none
        rw [← h3.1]; unfold upd; rw [if_neg hcc]; exact (hp.subs₂ c hc).2.2
    · show (upd s₁.threads t _ u = _ ∧ upd s.threads t _ u = _) ∨ (_ ∧ upd s.threads t _ u = upd s₁.threads t _ u)
      unfold upd
      by_cases hu : u = t
      · subst hu; exact .inr ⟨hi, by simp⟩
      · simp only [if_neg hu]; exact hp.threads u
    · have hu : (upd s₁.threads t .idle u).chan = some c := hu
      unfold upd at hu
      by_cases hut : u = t
      · rw [if_pos hut] at hu; cases hu
      · rw [if_neg hut] at hu; exact hp.on₁ u c hu
  | @lost t ch subs' h1 h2 h3 =>
    have hP : P ch = true := ha ch rfl
    obtain ⟨hb, hi⟩ := busy t ch (by rw [h2]; rfl)
    unfold unregister at h3
    simp only [Prod.mk.injEq] at h3
    refine ⟨_, .lost (t := t) (ch := ch) (subs' := upd s.subs ch none) (lock0 h1) (by rw [hb, h2])
      (by unfold unregister; rw [(hp.subs₁ ch hP).1, h3.2]), ?_, fun _ => rfl, fun _ _ _ _ _ e => by cases e⟩
    refine ⟨fun c hc => ?_, fun c hc => ?_, fun u => ?_, fun u c hu => ?_, hp.on₂, hp.lock⟩
    · refine ⟨?_, (hp.subs₁ c hc).2⟩
      show upd s.subs ch _ c = subs' c
      rw [← h3.1]
      unfold upd
      by_cases hcc : c = ch
      · rw [if_pos hcc, if_pos hcc]
      · rw [if_neg hcc, if_neg hcc]; exact (hp.subs₁ c hc).1
    · have hcc : c ≠ ch := by rintro rfl; rw [hP] at hc; cases hc
      refine ⟨?_, (hp.subs₂ c hc).2.1, ?_⟩
      · show upd s.subs ch _ c = _
        unfold upd; rw [if_neg hcc]; exact (hp.subs₂ c hc).1
      · show subs' c = none
        rw [← h3.1]; unfold upd; rw [if_neg hcc]; exact (hp.subs₂ c hc).2.2
    · show (upd s₁.threads t _ u = _ ∧ upd s.threads t _ u = _) ∨ (_ ∧ upd s.threads t _ u = upd s₁.threads t _ u)
      unfold upd
      by_cases hu : u = t
      · subst hu; exact .inr ⟨hi, by simp⟩
      · simp only [if_neg hu]; exact hp.threads u
    · have hu : (upd s₁.threads t .idle u).chan = some c := hu
      unfold upd at hu
      by_cases hut : u = t
      · rw [if_pos hut] at hu; cases hu
      · rw [if_neg hut] at hu; exact hp.on₁ u c hu
  | @stats ch h1 =>
    have hP : P ch = true := ha ch rfl
    have e : streamStats s₁.subs ch = streamStats s.subs ch := by unfold streamStats; rw [(hp.subs₁ ch hP).1]
    rw [e]
    exact ⟨s, .stats (lock0 h1), hp, fun _ => rfl, fun _ _ _ _ _ e => by cases e⟩
  | publish => cases hl
  | release => cases hl
  | @visit str ch rest sub sub' c' v h1 h2 h3 =>
    have hP : P ch = true := ha ch rfl
    obtain ⟨x, rest', hx⟩ := hv ch str v rfl
    have hlk := hp.lock
    rw [h1, hx] at hlk
    cases h2' : s₂.lock with
    | none => rw [h2'] at hlk; exact hlk.elim
    | some q =>
      obtain ⟨x₂, todo₂⟩ := q
      rw [h2'] at hlk
      obtain ⟨e1, e2, e3, e4⟩ := hlk
      subst e1
      rw [List.filter_cons, if_pos hP] at e3
      rw [List.filter_cons, if_neg (by simp [hP])] at e4
      refine ⟨_, .visit (ch := ch) (rest := rest') (sub := sub) hx (by rw [(hp.subs₁ ch hP).1, h2])
        (by rw [(hp.subs₁ ch hP).2.1]; exact h3), ?_, fun h => absurd rfl (h ch str v), ?_⟩
      · refine ⟨fun c hc => ?_, fun c hc => ?_, hp.threads, hp.on₁, hp.on₂, ?_⟩
        · refine ⟨?_, ?_, (hp.subs₁ c hc).2.2⟩
          · show upd s.subs ch _ c = upd s₁.subs ch _ c
            unfold upd
            by_cases hcc : c = ch
            · rw [if_pos hcc, if_pos hcc]
            · rw [if_neg hcc, if_neg hcc]; exact (hp.subs₁ c hc).1
          · show upd s.chans ch _ c = upd s₁.chans ch _ c
            unfold upd
            by_cases hcc : c = ch
            · rw [if_pos hcc, if_pos hcc]
            · rw [if_neg hcc, if_neg hcc]; exact (hp.subs₁ c hc).2.1
        · have hcc : c ≠ ch := by rintro rfl; rw [hP] at hc; cases hc
          refine ⟨?_, ?_, ?_⟩
          · show upd s.subs ch _ c = _
            unfold upd; rw [if_neg hcc]; exact (hp.subs₂ c hc).1
          · show upd s.chans ch _ c = _
            unfold upd; rw [if_neg hcc]; exact (hp.subs₂ c hc).2.1
          · show upd s₁.subs ch _ c = none
            unfold upd; rw [if_neg hcc]; exact (hp.subs₂ c hc).2.2
        · show LockParts P (some (str, rest)) s₂.lock (some (str, rest'))
          rw [h2']
          exact ⟨rfl, e2, (List.cons.inj e3).2, e4⟩
      · intro ch' str' v' y r e ey
        cases e
        rw [hx] at ey
        cases ey
        rfl
  | @recv r ch x xs h1 =>
    have hP : P ch = true := ha ch rfl
    have e := (hp.subs₁ ch hP).2.1
    refine ⟨_, .recv (r := r) (ch := ch) (by rw [e]; exact h1), ?_, fun _ => rfl, fun _ _ _ _ _ e => by cases e⟩
    refine ⟨fun c hc => ⟨(hp.subs₁ c hc).1, ?_, (hp.subs₁ c hc).2.2⟩, fun c hc => ⟨(hp.subs₂ c hc).1, ?_, (hp.subs₂ c hc).2.2⟩,
      hp.threads, hp.on₁, hp.on₂, hp.lock⟩
    · show upd s.chans ch _ c = upd s₁.chans ch _ c
      unfold upd
      by_cases hcc : c = ch
      · rw [if_pos hcc, if_pos hcc, e]
      · rw [if_neg hcc, if_neg hcc]; exact (hp.subs₁ c hc).2.1
    · have hcc : c ≠ ch := by rintro rfl; rw [hP] at hc; cases hc
      show upd s.chans ch _ c = _
      unfold upd; rw [if_neg hcc]; exact (hp.subs₂ c hc).2.1
  | @wait r ch h1 =>
    have hP : P ch = true := ha ch rfl
    have e := (hp.subs₁ ch hP).2.1
    refine ⟨_, .wait (r := r) (ch := ch) (by rw [e]; exact h1), ?_, fun _ => rfl, fun _ _ _ _ _ e => by cases e⟩
    refine ⟨fun c hc => ⟨(hp.subs₁ c hc).1, ?_, (hp.subs₁ c hc).2.2⟩, fun c hc => ⟨(hp.subs₂ c hc).1, ?_, (hp.subs₂ c hc).2.2⟩,
      hp.threads, hp.on₁, hp.on₂, hp.lock⟩
    · show upd s.chans ch _ c = upd s₁.chans ch _ c
      unfold upd
      by_cases hcc : c = ch
      · rw [if_pos hcc, if_pos hcc, e]
      · rw [if_neg hcc, if_neg hcc]; exact (hp.subs₁ c hc).2.1
    · have hcc : c ≠ ch := by rintro rfl; rw [hP] at hc; cases hc
      show upd s.chans ch _ c = _
      unfold upd; rw [if_neg hcc]; exact (hp.subs₂ c hc).2.1
  | @abandon r ch h1 =>
    have hP : P ch = true := ha ch rfl
    have e := (hp.subs₁ ch hP).2.1
    refine ⟨_, .abandon (r := r) (ch := ch) (by rw [e]; exact h1), ?_, fun _ => rfl, fun _ _ _ _ _ e => by cases e⟩
    refine ⟨fun c hc => ⟨(hp.subs₁ c hc).1, ?_, (hp.subs₁ c hc).2.2⟩, fun c hc => ⟨(hp.subs₂ c hc).1, ?_, (hp.subs₂ c hc).2.2⟩,
      hp.threads, hp.on₁, hp.on₂, hp.lock⟩
    · show upd s.chans ch _ c = upd s₁.chans ch _ c
      unfold upd
      by_cases hcc : c = ch
      · rw [if_pos hcc, if_pos hcc, e]
      · rw [if_neg hcc, if_neg hcc]; exact (hp.subs₁ c hc).2.1
    · have hcc : c ≠ ch := by rintro rfl; rw [hP] at hc; cases hc
      show upd s.chans ch _ c = _
      unfold upd; rw [if_neg hcc]; exact (hp.subs₂ c hc).2.1
/-- A step of the whole is one of the first part, if it is about it. -/
theorem step_back {P : Ch → Bool} {s₁ s₂ s s' : St} {l : Label} (hp : Parts P s₁ s₂ s) (hl : l.common = false)
    (ha : ∀ ch, l.chan = some ch → P ch = true) (hcan : ∀ t, l = .cancel t → s₂.threads t = .idle)
    (st : Step compile cap s l s') : ∃ s₁', Step compile cap s₁ l s₁' ∧ Parts P s₁' s₂ s' := by
  have idle : ∀ t, s.threads t = .idle → s₁.threads t = .idle ∧ s₂.threads t = .idle := by
    intro t h
    rcases hp.threads t with ⟨h1, h2⟩ | ⟨h1, h2⟩
    · exact ⟨h1, by rw [← h2, h]⟩
    · exact ⟨by rw [← h2, h], h1⟩
  have mine : ∀ t ch, P ch = true → (s.threads t).chan = some ch → s₁.threads t = s.threads t ∧ s₂.threads t = .idle := by
    intro t ch hP h
    rcases hp.threads t with ⟨h1, h2⟩ | ⟨h1, h2⟩
    · rw [h2] at h
      have := hp.on₂ t ch h
      rw [hP] at this; cases this
    · exact ⟨h2.symm, h1⟩
  have lock0 : s.lock = none → s₁.lock = none := fun h => hp.lock.none_iff.1.mpr h
  cases st with
  | @subscribe t ch f subs' h1 h2 h3 =>
    have hP : P ch = true := ha ch rfl
    obtain ⟨hb, hi⟩ := idle t h2
    have e := (hp.subs₁ ch hP).1
    have hr : s₁.subs ch = none ∧ subs' = upd s.subs ch (some { filter := f }) := by
      unfold register at h3
      rw [← e]
      cases hc : s.subs ch with
      | none => rw [hc] at h3; exact ⟨rfl, by cases h3; rfl⟩
      | some _ => rw [hc] at h3; cases h3
    refine ⟨{ s₁ with subs := upd s₁.subs ch (some { filter := f }), threads := upd s₁.threads t (.streaming ch) },
      .subscribe (t := t) (ch := ch) (f := f) (lock0 h1) hb (by unfold register; rw [hr.1]), ?_⟩
    · refine ⟨fun c hc => ?_, fun c hc => ?_, fun u => ?_, fun u c hu => ?_, hp.on₂, hp.lock⟩
      · refine ⟨?_, (hp.subs₁ c hc).2⟩
        show subs' c = upd s₁.subs ch _ c
        rw [hr.2]
        unfold upd
        by_cases hcc : c = ch
        · rw [if_pos hcc, if_pos hcc]
        · rw [if_neg hcc, if_neg hcc]; exact (hp.subs₁ c hc).1
      · have hcc : c ≠ ch := by rintro rfl; rw [hP] at hc; cases hc
        refine ⟨?_, (hp.subs₂ c hc).2.1, ?_⟩
        · show subs' c = _
          rw [hr.2]; unfold upd; rw [if_neg hcc]; exact (hp.subs₂ c hc).1
        · show upd s₁.subs ch _ c = none
          unfold upd; rw [if_neg hcc]; exact (hp.subs₂ c hc).2.2
      · show (upd s₁.threads t _ u = _ ∧ upd s.threads t _ u = _) ∨ (_ ∧ upd s.threads t _ u = upd s₁.threads t _ u)
        unfold upd
        by_cases hu : u = t
        · subst hu; exact .inr ⟨hi, by simp⟩
        · simp only [if_neg hu]; exact hp.threads u
      · have hu : (upd s₁.threads t (.streaming ch) u).chan = some c := hu
        unfold upd at hu
        by_cases hut : u = t
        · rw [if_pos hut] at hu; cases hu; exact hP
        · rw [if_neg hut] at hu; exact hp.on₁ u c hu
  | @refuse t ch f h1 h2 h3 =>
    have hP : P ch = true := ha ch rfl
    obtain ⟨hb, hi⟩ := idle t h2
    refine ⟨s₁, .refuse (f := f) (lock0 h1) hb ?_, hp⟩
    unfold register at h3 ⊢
    rw [← (hp.subs₁ ch hP).1]
    cases hc : s.subs ch with
    | none => rw [hc] at h3; cases h3
    | some _ => rfl
  | @cancel t ch h1 =>
    have hi := hcan t rfl
    have hb : s₁.threads t = s.threads t := by
      rcases hp.threads t with ⟨_, h2⟩ | ⟨_, h2⟩
      · rw [h2, hi] at h1; cases h1
      · exact h2.symm
    have hP := hp.on₁ t ch (by rw [hb, h1]; rfl)
    refine ⟨_, .cancel (t := t) (ch := ch) (by rw [hb, h1]), ?_⟩
    refine ⟨hp.subs₁, hp.subs₂, fun u => ?_, fun u c hu => ?_, hp.on₂, hp.lock⟩
    · show (upd s₁.threads t _ u = _ ∧ upd s.threads t _ u = _) ∨ (_ ∧ upd s.threads t _ u = upd s₁.threads t _ u)
      unfold upd
      by_cases hu : u = t
      · subst hu; exact .inr ⟨hi, by simp⟩
      · simp only [if_neg hu]; exact hp.threads u
    · have hu : (upd s₁.threads t (.cancelled ch) u).chan = some c := hu
      unfold upd at hu
      by_cases hut : u = t
      · rw [if_pos hut] at hu; cases hu; exact hP
      · rw [if_neg hut] at hu; exact hp.on₁ u c hu
  | @finish t ch subs' st' h1 h2 h3 =>
    have hP : P ch = true := ha ch rfl
    obtain ⟨hb, hi⟩ := mine t ch hP (by rw [h2]; rfl)
    unfold unregister at h3
    simp only [Prod.mk.injEq] at h3
    refine ⟨_, .finish (t := t) (ch := ch) (subs' := upd s₁.subs ch none) (st := st') (lock0 h1) (by rw [hb, h2])
      (by unfold unregister; rw [← (hp.subs₁ ch hP).1, h3.2]), ?_⟩
    refine ⟨fun c hc => ?_, fun c hc => ?_, fun u => ?_, fun u c hu => ?_, hp.on₂, hp.lock⟩
    · refine ⟨?_, (hp.subs₁ c hc).2⟩
      show subs' c = upd s₁.subs ch _ c
      rw [← h3.1]
      unfold upd
      by_cases hcc : c = ch
      · rw [if_pos hcc, if_pos hcc]
      · rw [if_neg hcc, if_neg hcc]; exact (hp.subs₁ c hc).1
    · have hcc : c ≠ ch := by rintro rfl; rw [hP] at hc; cases hc
      refine ⟨?_, (hp.subs₂ c hc).2.1, ?_⟩
      · show subs' c = _
        rw [← h3.1]; unfold upd; rw [if_neg hcc]; exact (hp.subs₂ c hc).1
      · show upd s₁.subs ch _ c = none
        unfold upd; rw [if_neg hcc]; exact (hp.subs₂ c hc).2.2
    · show (upd s₁.threads t _ u = _ ∧ upd s.threads t _ u = _) ∨ (_ ∧ upd s.threads t _ u = upd s₁.threads t _ u)
      unfold upd
      by_cases hu : u = t
      · subst hu; exact .inr ⟨hi, by simp⟩
      · simp only [if_neg hu]; exact hp.threads u
    · have hu : (upd s₁.threads t .idle u).chan = some c := hu
      unfold upd at hu
      by_cases hut : u = t
      · rw [if_pos hut] at hu; cases hu
      · rw [if_neg hut] at hu; exact hp.on₁ u c hu
  | @lost t ch subs' h1 h2 h3 =>
    have hP : P ch = true := ha ch rfl
    obtain ⟨hb, hi⟩ := mine t ch hP (by rw [h2]; rfl)
    unfold unregister at h3
    simp only [Prod.mk.injEq] at h3
    refine ⟨_, .lost (t := t) (ch := ch) (subs' := upd s₁.subs ch none) (lock0 h1) (by rw [hb, h2])
      (by unfold unregister; rw [← (hp.subs₁ ch hP).1, h3.2]), ?_⟩
    refine ⟨fun c hc => ?_, fun c hc => ?_, fun u => ?_, fun u c hu => ?_, hp.on₂, hp.lock⟩
    · refine ⟨?_, (hp.subs₁ c hc).2⟩
      show subs' c = upd s₁.subs ch _ c
      rw [← h3.1]
      unfold upd
      by_cases hcc : c = ch
      · rw [if_pos hcc, if_pos hcc]
      · rw [if_neg hcc, if_neg hcc]; exact (hp.subs₁ c hc).1
    · have hcc : c ≠ ch := by rintro rfl; rw [hP] at hc; cases hc
      refine ⟨?_, (hp.subs₂ c hc).2.1, ?_⟩
      · show subs' c = _
        rw [← h3.1]; unfold upd; rw [if_neg hcc]; exact (hp.subs₂ c hc).1
      · show upd s₁.subs ch _ c = none
        unfold upd; rw [if_neg hcc]; exact (hp.subs₂ c hc).2.2
    · show (upd s₁.threads t _ u = _ ∧ upd s.threads t _ u = _) ∨ (_ ∧ upd s.threads t _ u = upd s₁.threads t _ u)
      unfold upd
      by_cases hu : u = t
      · subst hu; exact .inr ⟨hi, by simp⟩
      · simp only [if_neg hu]; exact hp.threads u
    · have hu : (upd s₁.threads t .idle u).chan = some c := hu
      unfold upd at hu
      by_cases hut : u = t
      · rw [if_pos hut] at hu; cases hu
      · rw [if_neg hut] at hu; exact hp.on₁ u c hu
  | @stats ch h1 =>
    have hP : P ch = true := ha ch rfl
    have e : streamStats s.subs ch = streamStats s₁.subs ch := by unfold streamStats; rw [(hp.subs₁ ch hP).1]
    rw [e]
    exact ⟨s₁, .stats (lock0 h1), hp⟩
  | publish => cases hl
  | release => cases hl
  | @visit str ch rest sub sub' c' v h1 h2 h3 =>
    have hP : P ch = true := ha ch rfl
    have hlk := hp.lock
    rw [h1] at hlk
    cases h1' : s₁.lock with
    | none => rw [h1'] at hlk; cases h2' : s₂.lock <;> rw [h2'] at hlk <;> exact hlk.elim
    | some q₁ =>
    obtain ⟨x₁, todo₁⟩ := q₁
    rw [h1'] at hlk
    cases h2' : s₂.lock with
    | none => rw [h2'] at hlk; exact hlk.elim
    | some q =>
      obtain ⟨x₂, todo₂⟩ := q
      rw [h2'] at hlk
      obtain ⟨e1, e2, e3, e4⟩ := hlk
      subst e1
      rw [List.filter_cons, if_pos hP] at e3
      rw [List.filter_cons, if_neg (by simp [hP])] at e4
      refine ⟨_, .visit (ch := ch) (rest := rest.filter P) (sub := sub) (by rw [h1', e3]) (by rw [← (hp.subs₁ ch hP).1, h2])
        (by rw [← (hp.subs₁ ch hP).2.1]; exact h3), ?_⟩
      · refine ⟨fun c hc => ?_, fun c hc => ?_, hp.threads, hp.on₁, hp.on₂, ?_⟩
        · refine ⟨?_, ?_, (hp.subs₁ c hc).2.2⟩
          · show upd s.subs ch _ c = upd s₁.subs ch _ c
            unfold upd
            by_cases hcc : c = ch
            · rw [if_pos hcc, if_pos hcc]
            · rw [if_neg hcc, if_neg hcc]; exact (hp.subs₁ c hc).1
          · show upd s.chans ch _ c = upd s₁.chans ch _ c
            unfold upd
            by_cases hcc : c = ch
            · rw [if_pos hcc, if_pos hcc]
            · rw [if_neg hcc, if_neg hcc]; exact (hp.subs₁ c hc).2.1
        · have hcc : c ≠ ch := by rintro rfl; rw [hP] at hc; cases hc
          refine ⟨?_, ?_, ?_⟩
          · show upd s.subs ch _ c = _
            unfold upd; rw [if_neg hcc]; exact (hp.subs₂ c hc).1
          · show upd s.chans ch _ c = _
            unfold upd; rw [if_neg hcc]; exact (hp.subs₂ c hc).2.1
          · show upd s₁.subs ch _ c = none
            unfold upd; rw [if_neg hcc]; exact (hp.subs₂ c hc).2.2
        · show LockParts P (some (_, rest.filter P)) s₂.lock (some (_, rest))
          rw [h2']
          exact ⟨rfl, e2, rfl, e4⟩
  | @recv r ch x xs h1 =>
    have hP : P ch = true := ha ch rfl
    have e := (hp.subs₁ ch hP).2.1
    refine ⟨_, .recv (r := r) (ch := ch) (by rw [← e]; exact h1), ?_⟩
    refine ⟨fun c hc => ⟨(hp.subs₁ c hc).1, ?_, (hp.subs₁ c hc).2.2⟩, fun c hc => ⟨(hp.subs₂ c hc).1, ?_, (hp.subs₂ c hc).2.2⟩,
      hp.threads, hp.on₁, hp.on₂, hp.lock⟩
    · show upd s.chans ch _ c = upd s₁.chans ch _ c
      unfold upd
      by_cases hcc : c = ch
      · rw [if_pos hcc, if_pos hcc, e]
      · rw [if_neg hcc, if_neg hcc]; exact (hp.subs₁ c hc).2.1
    · have hcc : c ≠ ch := by rintro rfl; rw [hP] at hc; cases hc
      show upd s.chans ch _ c = _
      unfold upd; rw [if_neg hcc]; exact (hp.subs₂ c hc).2.1
  | @wait r ch h1 =>
    have hP : P ch = true := ha ch rfl
    have e := (hp.subs₁ ch hP).2.1
    refine ⟨_, .wait (r := r) (ch := ch) (by rw [← e]; exact h1), ?_⟩
    refine ⟨fun c hc => ⟨(hp.subs₁ c hc).1, ?_, (hp.subs₁ c hc).2.2⟩, fun c hc => ⟨(hp.subs₂ c hc).1, ?_, (hp.subs₂ c hc).2.2⟩,
      hp.threads, hp.on₁, hp.on₂, hp.lock⟩
    · show upd s.chans ch _ c = upd s₁.chans ch _ c
      unfold upd
      by_cases hcc : c = ch
      · rw [if_pos hcc, if_pos hcc, e]
      · rw [if_neg hcc, if_neg hcc]; exact (hp.subs₁ c hc).2.1
    · have hcc : c ≠ ch := by rintro rfl; rw [hP] at hc; cases hc
      show upd s.chans ch _ c = _
      unfold upd; rw [if_neg hcc]; exact (hp.subs₂ c hc).2.1
  | @abandon r ch h1 =>
    have hP : P ch = true := ha ch rfl
    have e := (hp.subs₁ ch hP).2.1
    refine ⟨_, .abandon (r := r) (ch := ch) (by rw [← e]; exact h1), ?_⟩
    refine ⟨fun c hc => ⟨(hp.subs₁ c hc).1, ?_, (hp.subs₁ c hc).2.2⟩, fun c hc => ⟨(hp.subs₂ c hc).1, ?_, (hp.subs₂ c hc).2.2⟩,
      hp.threads, hp.on₁, hp.on₂, hp.lock⟩
    · show upd s.chans ch _ c = upd s₁.chans ch _ c
      unfold upd
      by_cases hcc : c = ch
      · rw [if_pos hcc, if_pos hcc, e]
      · rw [if_neg hcc, if_neg hcc]; exact (hp.subs₁ c hc).2.1
    · have hcc : c ≠ ch := by rintro rfl; rw [hP] at hc; cases hc
      show upd s.chans ch _ c = _
      unfold upd; rw [if_neg hcc]; exact (hp.subs₂ c hc).2.1

/-! ## Taking apart -/

theorem filter_enumerates {P : Ch → Bool} {order : List Ch} {subs subs₁ : Subs} (ho : Enumerates order subs)
    (h1 : ∀ ch, P ch = true → subs ch = subs₁ ch) (h2 : ∀ ch, P ch = false → subs₁ ch = none) :
    Enumerates (order.filter P) subs₁ := by
  refine ⟨ho.nodup.filter _, fun ch => ?_⟩
  rw [List.mem_filter, ho.keys]
  cases hP : P ch with
  | true => rw [h1 ch hP]; simp
  | false => rw [h2 ch hP]; simp

/-- A publish begins in the parts. -/
theorem publish_apart {P : Ch → Bool} {s₁ s₂ s s' : St} {x : Static} (hp : Parts P s₁ s₂ s)
    (st : Step compile cap s (.publish x) s') :
    ∃ s₁' s₂', Step compile cap s₁ (.publish x) s₁' ∧ Step compile cap s₂ (.publish x) s₂' ∧ Parts P s₁' s₂' s' := by
  cases st with
  | @publish _ order h1 h2 =>
    refine ⟨_, _, .publish (order := order.filter P) (hp.lock.none_iff.1.mpr h1) ?_,
      .publish (order := order.filter fun ch => !P ch) (hp.lock.none_iff.2.mpr h1) ?_, ?_⟩
    · exact filter_enumerates h2 (fun ch h => (hp.subs₁ ch h).1) (fun ch h => (hp.subs₂ ch h).2.2)
    · exact filter_enumerates h2 (fun ch h => (hp.subs₂ ch (by simpa using h)).1) (fun ch h => (hp.subs₁ ch (by simpa using h)).2.2)
    · exact ⟨hp.subs₁, hp.subs₂, hp.threads, hp.on₁, hp.on₂, ⟨rfl, rfl, rfl, rfl⟩⟩

/-- A publish ends in the parts. -/
theorem release_apart {P : Ch → Bool} {s₁ s₂ s s' : St} (hp : Parts P s₁ s₂ s) (st : Step compile cap s .release s') :
    ∃ s₁' s₂', Step compile cap s₁ .release s₁' ∧ Step compile cap s₂ .release s₂' ∧ Parts P s₁' s₂' s' := by
  cases st with
  | @release str h1 =>
    have hlk := hp.lock
    rw [h1] at hlk
    cases h1' : s₁.lock with
    | none => rw [h1'] at hlk; cases h2' : s₂.lock <;> rw [h2'] at hlk <;> exact hlk.elim
    | some q₁ =>
    obtain ⟨x₁, todo₁⟩ := q₁
    rw [h1'] at hlk
    cases h2' : s₂.lock with
    | none => rw [h2'] at hlk; exact hlk.elim
    | some q =>
      obtain ⟨x₂, todo₂⟩ := q
      rw [h2'] at hlk
      obtain ⟨e1, e2, e3, e4⟩ := hlk
      refine ⟨_, _, .release (by rw [h1', e3]; rfl), .release (by rw [h2', e4]; rfl), ?_⟩
      exact ⟨hp.subs₁, hp.subs₂, hp.threads, hp.on₁, hp.on₂, trivial⟩

theorem About.snoc {P : Ch → Bool} {h : List Label} {l : Label} (ha : About P h) (hl : ∀ ch, l.chan = some ch → P ch = true) :
    About P (h ++ [l]) := by
  intro l' hl'
  rcases List.mem_append.mp hl' with h' | h'
  · exact ha l' h'
  · obtain rfl := List.mem_singleton.mp h'; exact hl

theorem run_apart (P : Ch → Bool) {h : List Label} {s : St} (hr : Run compile cap h s) :
    ∃ h₁ s₁ h₂ s₂, Run compile cap h₁ s₁ ∧ Run compile cap h₂ s₂ ∧ About P h₁ ∧ About (fun ch => !P ch) h₂ ∧
      Together h₁ h₂ h ∧ Parts P s₁ s₂ s := by
  induction hr with
  | init =>
    exact ⟨[], {}, [], {}, .init, .init, fun _ h => (by cases h), fun _ h => (by cases h), .nil, Parts.init P⟩
  | @step h s l s' _ st ih =>
    obtain ⟨h₁, s₁, h₂, s₂, r1, r2, a1, a2, tg, hp⟩ := ih
    have left : l.common = false → (∀ ch, l.chan = some ch → P ch = true) → (∀ t, l = .cancel t → s₂.threads t = .idle) →
        ∃ h₁ s₁ h₂ s₂, Run compile cap h₁ s₁ ∧ Run compile cap h₂ s₂ ∧ About P h₁ ∧ About (fun ch => !P ch) h₂ ∧
          Together h₁ h₂ (h ++ [l]) ∧ Parts P s₁ s₂ s' := by
      intro hl ha hc
      obtain ⟨s₁', st', hp'⟩ := step_back compile cap hp hl ha hc st
      exact ⟨_, _, _, _, r1.step st', r2, a1.snoc ha, a2, tg.snoc_left hl, hp'⟩
    have right : l.common = false → (∀ ch, l.chan = some ch → P ch = false) → (∀ t, l = .cancel t → s₁.threads t = .idle) →
        ∃ h₁ s₁ h₂ s₂, Run compile cap h₁ s₁ ∧ Run compile cap h₂ s₂ ∧ About P h₁ ∧ About (fun ch => !P ch) h₂ ∧
          Together h₁ h₂ (h ++ [l]) ∧ Parts P s₁ s₂ s' := by
      intro hl ha hc
      obtain ⟨s₂', st', hp'⟩ := step_back compile cap hp.swap hl (fun ch hch => by simp [ha ch hch]) hc st
      refine ⟨_, _, _, _, r1, r2.step st', a1, a2.snoc (fun ch hch => by simp [ha ch hch]), tg.snoc_right hl, ?_⟩
      have := hp'.swap
      simpa using this
    have sides : l.common = false → (∀ t, l ≠ .cancel t) → ∀ ch, l.chan = some ch →
        ∃ h₁ s₁ h₂ s₂, Run compile cap h₁ s₁ ∧ Run compile cap h₂ s₂ ∧ About P h₁ ∧ About (fun ch => !P ch) h₂ ∧
          Together h₁ h₂ (h ++ [l]) ∧ Parts P s₁ s₂ s' := by
      intro hl hc ch hch
      cases hP : P ch with
      | true => exact left hl (fun c e => by rw [hch] at e; cases e; exact hP) (fun t e => absurd e (hc t))
      | false => exact right hl (fun c e => by rw [hch] at e; cases e; exact hP) (fun t e => absurd e (hc t))
    cases l with
    | publish x =>
      obtain ⟨s₁', s₂', st1, st2, hp'⟩ := publish_apart compile cap hp st
      exact ⟨_, _, _, _, r1.step st1, r2.step st2, a1.snoc (fun _ e => by cases e), a2.snoc (fun _ e => by cases e), tg.snoc_both rfl, hp'⟩
    | release =>
      obtain ⟨s₁', s₂', st1, st2, hp'⟩ := release_apart compile cap hp st
      exact ⟨_, _, _, _, r1.step st1, r2.step st2, a1.snoc (fun _ e => by cases e), a2.snoc (fun _ e => by cases e), tg.snoc_both rfl, hp'⟩
    | cancel t =>
      rcases hp.threads t with ⟨h1, _⟩ | ⟨h1, _⟩
      · exact right rfl (fun _ e => by cases e) (fun u e => by cases e; exact h1)
      · exact left rfl (fun _ e => by cases e) (fun u e => by cases e; exact h1)
    | subscribed t ch f => exact sides rfl (fun _ e => by cases e) ch rfl
    | refused t ch => exact sides rfl (fun _ e => by cases e) ch rfl
    | returned t ch st' => exact sides rfl (fun _ e => by cases e) ch rfl
    | programmerError t ch => exact sides rfl (fun _ e => by cases e) ch rfl
    | stats ch st' => exact sides rfl (fun _ e => by cases e) ch rfl
    | visited ch str v => exact sides rfl (fun _ e => by cases e) ch rfl
    | recv r ch x => exact sides rfl (fun _ e => by cases e) ch rfl
    | wait r ch => exact sides rfl (fun _ e => by cases e) ch rfl
    | abandon r ch => exact sides rfl (fun _ e => by cases e) ch rfl

/-! ## Putting together -/

/-- The subscribers that the publish going on deals with, up to its end. -/
def upcoming : List Label → List Ch
  | [] => []
  | .release :: _ => []
  | .visited ch _ _ :: h => ch :: upcoming h
  | .subscribed .. :: h => upcoming h
  | .refused .. :: h => upcoming h
  | .cancel .. :: h => upcoming h
  | .returned .. :: h => upcoming h
  | .programmerError .. :: h => upcoming h
  | .stats .. :: h => upcoming h
  | .publish .. :: h => upcoming h
  | .recv .. :: h => upcoming h
  | .wait .. :: h => upcoming h
  | .abandon .. :: h => upcoming h

theorem upcoming_prefix {s s' : St} {h : List Label} (st : Steps compile cap s h s') {x : Static} {todo : List Ch}
    (hl : s.lock = some (x, todo)) : upcoming h <+: todo := by
  induction st generalizing todo with
  | nil => exact List.nil_prefix
  | cons a _ ih =>
    cases a with
    | subscribe h1 | refuse h1 | finish h1 | lost h1 | stats h1 | publish h1 => rw [hl] at h1; cases h1
    | cancel | recv | wait | abandon => exact ih hl
    | visit h1 h2 h3 =>
      rw [hl] at h1
      cases h1
      exact (List.prefix_cons_inj _).mpr (ih rfl)
    | release => exact List.nil_prefix

theorem upcoming_together {P : Ch → Bool} {h₁ h₂ h : List Label} (t : Together h₁ h₂ h) (a1 : About P h₁)
    (a2 : About (fun ch => !P ch) h₂) :
    (upcoming h).filter P = upcoming h₁ ∧ (upcoming h).filter (fun ch => !P ch) = upcoming h₂ := by
  induction t with
  | nil => exact ⟨rfl, rfl⟩
  | @left l g₁ g₂ g hl _ ih =>
    have ih := ih (fun l hl => a1 l (.tail _ hl)) a2
    have hc := a1 l (.head _)
    cases l <;> first | exact ih | (exact absurd hl (by decide)) | skip
    rename_i ch str v
    have hP := hc ch rfl
    simp only [upcoming]
    rw [List.filter_cons, if_pos hP, List.filter_cons, if_neg (by simp [hP]), ih.1]
    exact ⟨rfl, ih.2⟩
  | @right l g₁ g₂ g hl _ ih =>
    have ih := ih a1 (fun l hl => a2 l (.tail _ hl))
    have hc := a2 l (.head _)
    cases l <;> first | exact ih | (exact absurd hl (by decide)) | skip
    rename_i ch str v
    have hP := hc ch rfl
    have hP' : P ch = false := by simpa using hP
    simp only [upcoming]
    rw [List.filter_cons, if_neg (by simp [hP']), List.filter_cons, if_pos hP, ih.2]
    exact ⟨ih.1, rfl⟩
  | @both l g₁ g₂ g hl _ ih =>
    have ih := ih (fun l hl => a1 l (.tail _ hl)) (fun l hl => a2 l (.tail _ hl))
    cases l <;> first | cases hl; done | exact ih | exact ⟨rfl, rfl⟩

/-- The goroutine that called `Stream`. -/
def Label.caller : Label → Option Tid
  | .subscribed t _ _ => some t
  | .refused t _ => some t
  | _ => none

theorem step_idle {s s' : St} {l : Label} (st : Step compile cap s l s') {t : Tid} (hc : l.caller ≠ some t)
    (hi : s.threads t = .idle) : s'.threads t = .idle := by
  cases st with
  | @subscribe u ch f subs' _ _ _ =>
    have : t ≠ u := by rintro rfl; exact hc rfl
    show upd s.threads u _ t = _
    unfold upd; rw [if_neg this]; exact hi
  | @cancel u ch h1 =>
    have : t ≠ u := by rintro rfl; rw [hi] at h1; cases h1
    show upd s.threads u _ t = _
    unfold upd; rw [if_neg this]; exact hi
  | @finish u ch subs' st' _ _ _ =>
    show upd s.threads u _ t = _
    unfold upd; split
    · rfl
    · exact hi
  | @lost u ch subs' _ _ _ =>
    show upd s.threads u _ t = _
    unfold upd; split
    · rfl
    · exact hi
  | refuse | stats | publish | visit | release | recv | wait | abandon => exact hi

theorem both_enumerate {P : Ch → Bool} {order : List Ch} {subs₁ subs₂ subs : Subs}
    (h1 : ∀ ch, P ch = true → subs ch = subs₁ ch ∧ subs₂ ch = none)
    (h2 : ∀ ch, P ch = false → subs ch = subs₂ ch ∧ subs₁ ch = none)
    (e1 : Enumerates (order.filter P) subs₁) (e2 : Enumerates (order.filter fun ch => !P ch) subs₂) :
    Enumerates order subs := by
  constructor
  · refine (List.filter_append_perm P order).nodup_iff.mp ?_
    rw [List.nodup_append]
    refine ⟨e1.nodup, e2.nodup, ?_⟩
    rintro a ha b hb rfl
    have := (List.mem_filter.mp ha).2
    have h' := (List.mem_filter.mp hb).2
    simp [this] at h'
  · intro ch
    cases hP : P ch with
    | true => rw [(h1 ch hP).1, ← e1.keys, List.mem_filter]; simp [hP]
    | false => rw [(h2 ch hP).1, ← e2.keys, List.mem_filter]; simp [hP]

theorem steps_together {P : Ch → Bool} {T : Tid → Bool} {h₁ h₂ h : List Label} (tg : Together h₁ h₂ h)
    (a1 : About P h₁) (a2 : About (fun ch => !P ch) h₂)
    (c1 : ∀ l ∈ h₁, ∀ t, l.caller = some t → T t = true) (c2 : ∀ l ∈ h₂, ∀ t, l.caller = some t → T t = false)
    {s₁ s₁' s₂ s₂' s : St} (st1 : Steps compile cap s₁ h₁ s₁') (st2 : Steps compile cap s₂ h₂ s₂')
    (hp : Parts P s₁ s₂ s) (i1 : ∀ t, T t = false → s₁.threads t = .idle) (i2 : ∀ t, T t = true → s₂.threads t = .idle)
    (hu : ∀ x todo, s.lock = some (x, todo) → upcoming h <+: todo) :
    ∃ s', Steps compile cap s h s' ∧ Parts P s₁' s₂' s' := by
  induction tg generalizing s₁ s₂ s with
  | nil => cases st1; cases st2; exact ⟨s, .nil, hp⟩
  | @left l g₁ g₂ g hl tg ih =>
    cases st1 with
    | @cons _ _ m _ _ a rest =>
    have hv : ∀ ch str v, l = .visited ch str v → ∃ x rest, s.lock = some (x, ch :: rest) := by
      rintro ch str v rfl
      cases hlk : s.lock with
      | none =>
        cases a with
        | visit h1 _ _ => rw [hp.lock.none_iff.1.mpr hlk] at h1; cases h1
      | some q =>
        obtain ⟨x, todo⟩ := q
        obtain ⟨r, hr⟩ := hu x todo hlk
        exact ⟨x, upcoming g ++ r, by rw [← hr]; rfl⟩
    have ht : ∀ t, (∃ ch f, l = .subscribed t ch f) ∨ (∃ ch, l = .refused t ch) → s₂.threads t = .idle := by
      rintro t (⟨ch, f, rfl⟩ | ⟨ch, rfl⟩)
      · exact i2 t (c1 _ (.head _) t rfl)
      · exact i2 t (c1 _ (.head _) t rfl)
    obtain ⟨s', st, hp', e1, e2⟩ := step_left compile cap hp hl (a1 l (.head _)) ht hv a
    obtain ⟨s'', st', hp''⟩ := ih (fun l hl => a1 l (.tail _ hl)) a2 (fun l hl => c1 l (.tail _ hl)) c2 rest st2 hp'
      (fun t h => step_idle compile cap a (fun e => by rw [c1 _ (.head _) t e] at h; cases h) (i1 t h)) i2 (by
        intro x todo hx
        by_cases hvis : ∃ ch str v, l = .visited ch str v
        · obtain ⟨ch, str, v, rfl⟩ := hvis
          obtain ⟨y, r, hy⟩ := hv ch str v rfl
          have := e2 ch str v y r rfl hy
          rw [this] at hx
          cases hx
          exact (List.prefix_cons_inj ch).mp (hu _ _ hy)
        · have hn : ∀ ch str v, l ≠ .visited ch str v := fun ch str v e => hvis ⟨ch, str, v, e⟩
          rw [e1 hn] at hx
          have := hu x todo hx
          cases l <;> first | exact this | (exact absurd hl (by decide)) | exact absurd rfl (hn _ _ _))
    exact ⟨s'', .cons st st', hp''⟩
  | @right l g₁ g₂ g hl tg ih =>
    cases st2 with
    | @cons _ _ m _ _ a rest =>
    have hv : ∀ ch str v, l = .visited ch str v → ∃ x rest, s.lock = some (x, ch :: rest) := by
      rintro ch str v rfl
      cases hlk : s.lock with
      | none =>
        cases a with
        | visit h1 _ _ => rw [hp.lock.none_iff.2.mpr hlk] at h1; cases h1
      | some q =>
        obtain ⟨x, todo⟩ := q
        obtain ⟨r, hr⟩ := hu x todo hlk
        exact ⟨x, upcoming g ++ r, by rw [← hr]; rfl⟩
    have ht : ∀ t, (∃ ch f, l = .subscribed t ch f) ∨ (∃ ch, l = .refused t ch) → s₁.threads t = .idle := by
      rintro t (⟨ch, f, rfl⟩ | ⟨ch, rfl⟩)
      · exact i1 t (c2 _ (.head _) t rfl)
      · exact i1 t (c2 _ (.head _) t rfl)
    obtain ⟨s', st, hp', e1, e2⟩ := step_left compile cap hp.swap hl (a2 l (.head _)) ht hv a
    have hp' := hp'.swap
    simp only [Bool.not_not] at hp'
    obtain ⟨s'', st', hp''⟩ := ih a1 (fun l hl => a2 l (.tail _ hl)) c1 (fun l hl => c2 l (.tail _ hl)) st1 rest hp' i1
      (fun t h => step_idle compile cap a (fun e => by rw [c2 _ (.head _) t e] at h; cases h) (i2 t h)) (by
        intro x todo hx
        by_cases hvis : ∃ ch str v, l = .visited ch str v
        · obtain ⟨ch, str, v, rfl⟩ := hvis
          obtain ⟨y, r, hy⟩ := hv ch str v rfl
          have := e2 ch str v y r rfl hy
          rw [this] at hx
          cases hx
          exact (List.prefix_cons_inj ch).mp (hu _ _ hy)
        · have hn : ∀ ch str v, l ≠ .visited ch str v := fun ch str v e => hvis ⟨ch, str, v, e⟩
          rw [e1 hn] at hx
          have := hu x todo hx
          cases l <;> first | exact this | (exact absurd hl (by decide)) | exact absurd rfl (hn _ _ _))
    exact ⟨s'', .cons st st', hp''⟩
  | @both l g₁ g₂ g hl tg ih =>
    cases st1 with
    | @cons _ _ m₁ _ _ b1 rest1 =>
    cases st2 with
    | @cons _ _ m₂ _ _ b2 rest2 =>
    have j1 : ∀ t, T t = false → m₁.threads t = .idle := fun t h =>
      step_idle compile cap b1 (fun e => by rw [c1 _ (.head _) t e] at h; cases h) (i1 t h)
    have j2 : ∀ t, T t = true → m₂.threads t = .idle := fun t h =>
      step_idle compile cap b2 (fun e => by rw [c2 _ (.head _) t e] at h; cases h) (i2 t h)
    have d1 : About P g₁ := fun l hl => a1 l (.tail _ hl)
    have d2 : About (fun ch => !P ch) g₂ := fun l hl => a2 l (.tail _ hl)
    cases l with
    | publish x =>
      cases b1 with
      | @publish _ order₁ h1 o1 =>
      cases b2 with
      | @publish _ order₂ h2 o2 =>
      obtain ⟨u1, u2⟩ := upcoming_together tg d1 d2
      obtain ⟨r₁, hr₁⟩ := upcoming_prefix compile cap rest1 rfl
      obtain ⟨r₂, hr₂⟩ := upcoming_prefix compile cap rest2 rfl
      have m1 : ∀ ch ∈ order₁, P ch = true := by
        intro ch hm
        cases hP : P ch with
        | true => rfl
        | false => have := (o1.keys ch).mp hm; rw [(hp.subs₂ ch hP).2.2] at this; cases this
      have m2 : ∀ ch ∈ order₂, P ch = false := by
        intro ch hm
        cases hP : P ch with
        | false => rfl
        | true => have := (o2.keys ch).mp hm; rw [(hp.subs₁ ch hP).2.2] at this; cases this
      have k1 : r₁.filter P = r₁ := List.filter_eq_self.mpr fun ch hm => m1 ch (by rw [← hr₁]; exact List.mem_append_right _ hm)
      have k1' : r₁.filter (fun ch => !P ch) = [] := List.filter_eq_nil_iff.mpr fun ch hm => by
        simp [m1 ch (by rw [← hr₁]; exact List.mem_append_right _ hm)]
      have k2 : r₂.filter (fun ch => !P ch) = r₂ := List.filter_eq_self.mpr fun ch hm => by
        simp [m2 ch (by rw [← hr₂]; exact List.mem_append_right _ hm)]
      have k2' : r₂.filter P = [] := List.filter_eq_nil_iff.mpr fun ch hm => by
        simp [m2 ch (by rw [← hr₂]; exact List.mem_append_right _ hm)]
      have f1 : (upcoming g ++ r₁ ++ r₂).filter P = order₁ := by
        rw [List.filter_append, List.filter_append, u1, k1, k2', List.append_nil, hr₁]
      have f2 : (upcoming g ++ r₁ ++ r₂).filter (fun ch => !P ch) = order₂ := by
        rw [List.filter_append, List.filter_append, u2, k1', k2, List.append_nil, hr₂]
      have en : Enumerates (upcoming g ++ r₁ ++ r₂) s.subs :=
        both_enumerate (fun ch h => ⟨(hp.subs₁ ch h).1, (hp.subs₁ ch h).2.2⟩) (fun ch h => ⟨(hp.subs₂ ch h).1, (hp.subs₂ ch h).2.2⟩)
          (by rw [f1]; exact o1) (by rw [f2]; exact o2)
      obtain ⟨s', st', hp'⟩ := ih d1 d2 (fun l hl => c1 l (.tail _ hl)) (fun l hl => c2 l (.tail _ hl)) rest1 rest2
        (s := { s with lock := some (x, upcoming g ++ r₁ ++ r₂) })
        ⟨hp.subs₁, hp.subs₂, hp.threads, hp.on₁, hp.on₂, ⟨rfl, rfl, f1.symm, f2.symm⟩⟩ j1 j2 (by
          intro y todo e
          cases e
          exact ⟨r₁ ++ r₂, by simp⟩)
      exact ⟨s', .cons (.publish (hp.lock.none_iff.1.mp h1) en) st', hp'⟩
    | release =>
      cases b1 with
      | @release x₁ h1 =>
      cases b2 with
      | @release x₂ h2 =>
      have hlk := hp.lock
      rw [h1, h2] at hlk
      cases hs : s.lock with
      | none => rw [hs] at hlk; exact hlk.elim
      | some q =>
        obtain ⟨x, todo⟩ := q
        rw [hs] at hlk
        obtain ⟨e1, e2, e3, e4⟩ := hlk
        have : todo = [] := by
          cases todo with
          | nil => rfl
          | cons ch todo =>
            cases hP : P ch with
            | true => rw [List.filter_cons, if_pos hP] at e3; cases e3
            | false => rw [List.filter_cons, if_pos (by simp [hP])] at e4; cases e4
        subst this
        obtain ⟨s', st', hp'⟩ := ih d1 d2 (fun l hl => c1 l (.tail _ hl)) (fun l hl => c2 l (.tail _ hl)) rest1 rest2
          (s := { s with lock := none })
          ⟨hp.subs₁, hp.subs₂, hp.threads, hp.on₁, hp.on₂, trivial⟩ j1 j2 (by intro y todo e; cases e)
        exact ⟨s', .cons (.release hs) st', hp'⟩
    | subscribed | refused | cancel | returned | programmerError | stats | visited | recv | wait | abandon => cases hl

theorem run_steps {h : List Label} {s : St} (hr : Run compile cap h s) : Steps compile cap {} h s := by
  have app : ∀ {s h s' l s''}, Steps compile cap s h s' → Step compile cap s' l s'' → Steps compile cap s (h ++ [l]) s'' := by
    intro s h s' l s'' a b
    induction a with
    | nil => exact .cons b .nil
    | cons c _ ih => exact .cons c (ih b)
  induction hr with
  | init => exact .nil
  | step _ st ih => exact app ih st

theorem steps_run {h₀ h : List Label} {s₀ s : St} (hr : Run compile cap h₀ s₀) (st : Steps compile cap s₀ h s) :
    Run compile cap (h₀ ++ h) s := by
  induction st generalizing h₀ with
  | nil => rw [List.append_nil]; exact hr
  | @cons _ l _ ls _ a _ ih =>
    have := ih (hr.step a)
    rwa [List.append_assoc] at this

/-! ## C118 -/

/-- What concerns a channel in a history: who subscribes it and is refused, what is published to it with which
verdict, who receives what, and the statistics. -/
def seen (ch : Ch) (h : List Label) : List Label := h.filter fun l => l.chan == some ch

/-- The publishes of a history. -/
def publishes (h : List Label) : List Label := h.filter Label.common

theorem Together.exists {h₁ h₂ : List Label} (e : publishes h₁ = publishes h₂) : ∃ h, Together h₁ h₂ h := by
  induction h₁ generalizing h₂ with
  | nil =>
    induction h₂ with
    | nil => exact ⟨[], .nil⟩
    | cons l h₂ ih =>
      cases hl : l.common with
      | true => unfold publishes at e; rw [List.filter_cons, if_pos hl] at e; cases e
      | false =>
        unfold publishes at e; rw [List.filter_cons, if_neg (by simp [hl])] at e
        obtain ⟨h, t⟩ := ih e
        exact ⟨l :: h, .right hl t⟩
  | cons l h₁ ih =>
    cases hl : l.common with
    | false =>
      unfold publishes at e; rw [List.filter_cons, if_neg (by simp [hl])] at e
      obtain ⟨h, t⟩ := ih e
      exact ⟨l :: h, .left hl t⟩
    | true =>
      unfold publishes at e
      rw [List.filter_cons, if_pos hl] at e
      induction h₂ with
      | nil => cases e
      | cons k h₂ ih₂ =>
        cases hk : k.common with
        | false =>
          rw [List.filter_cons, if_neg (by simp [hk])] at e
          obtain ⟨h, t⟩ := ih₂ e
          exact ⟨k :: h, .right hk t⟩
        | true =>
          rw [List.filter_cons, if_pos hk] at e
          obtain ⟨rfl, e'⟩ := List.cons.inj e
          obtain ⟨h, t⟩ := ih e'
          exact ⟨l :: h, .both hl t⟩

theorem Together.seen {P : Ch → Bool} {h₁ h₂ h : List Label} (t : Together h₁ h₂ h) (a1 : About P h₁)
    (a2 : About (fun ch => !P ch) h₂) (ch : Ch) : seen ch h = if P ch = true then seen ch h₁ else seen ch h₂ := by
  unfold Broker.seen
  induction t with
  | nil => split <;> rfl
  | @left l g₁ g₂ g hl _ ih =>
    have ih := ih (fun l hl => a1 l (.tail _ hl)) a2
    have hc := a1 l (.head _)
    rw [List.filter_cons, List.filter_cons (xs := g₁), ih]
    by_cases e : l.chan = some ch
    · have := hc ch e
      simp [e, this]
    · simp [e]
  | @right l g₁ g₂ g hl _ ih =>
    have ih := ih a1 (fun l hl => a2 l (.tail _ hl))
    have hc := a2 l (.head _)
    rw [List.filter_cons, List.filter_cons (xs := g₂), ih]
    by_cases e : l.chan = some ch
    · have : P ch = false := by simpa using hc ch e
      simp [e, this]
    · simp [e]
  | @both l g₁ g₂ g hl _ ih =>
    have ih := ih (fun l hl => a1 l (.tail _ hl)) (fun l hl => a2 l (.tail _ hl))
    have e : ¬ l.chan = some ch := by cases l <;> first | (cases hl; done) | (intro e; cases e)
    rw [List.filter_cons, List.filter_cons (xs := g₁), List.filter_cons (xs := g₂), ih]
    simp [e]

theorem Together.publishes {h₁ h₂ h : List Label} (t : Together h₁ h₂ h) :
    publishes h = publishes h₁ ∧ publishes h = publishes h₂ := by
  unfold Broker.publishes
  induction t with
  | nil => exact ⟨rfl, rfl⟩
  | left hl _ ih => simp only [List.filter_cons, hl]; exact ih
  | right hl _ ih => simp only [List.filter_cons, hl]; exact ih
  | both hl _ ih => simp only [List.filter_cons, hl, if_true]; exact ⟨by rw [ih.1], by rw [ih.2]⟩

/-- **C118** Whatever happens on a broker with any subscribers could happen, to some of them, on a broker with none
but these, with the same publishes: what concerns their channels is the same, including what they get, what
is dropped, and the statistics. -/
theorem C118_alone {h : List Label} {s : St} (hr : Run compile cap h s) (P : Ch → Bool) :
    ∃ h' s', Run compile cap h' s' ∧ About P h' ∧ publishes h' = publishes h ∧
      ∀ ch, P ch = true → seen ch h' = seen ch h ∧ s'.subs ch = s.subs ch ∧ s'.chans ch = s.chans ch := by
  obtain ⟨h₁, s₁, h₂, s₂, r1, r2, a1, a2, tg, hp⟩ := run_apart compile cap P hr
  refine ⟨h₁, s₁, r1, a1, tg.publishes.1.symm, fun ch hP => ⟨?_, ((hp.subs₁ ch hP).1).symm, ((hp.subs₁ ch hP).2.1).symm⟩⟩
  rw [tg.seen a1 a2, if_pos hP]

/-- **C118** Whatever can happen to some subscribers alone can happen to them while others do whatever they could do
without the first, if the publishes are the same: neither is affected by the others being there. -/
theorem C118_together {P : Ch → Bool} {T : Tid → Bool} {h₁ h₂ : List Label} {s₁ s₂ : St} (r1 : Run compile cap h₁ s₁)
    (r2 : Run compile cap h₂ s₂) (a1 : About P h₁) (a2 : About (fun ch => !P ch) h₂)
    (c1 : ∀ l ∈ h₁, ∀ t, l.caller = some t → T t = true) (c2 : ∀ l ∈ h₂, ∀ t, l.caller = some t → T t = false)
    (e : publishes h₁ = publishes h₂) :
    (∃ h, Together h₁ h₂ h) ∧
    ∀ h, Together h₁ h₂ h → ∃ s, Run compile cap h s ∧ publishes h = publishes h₁ ∧
      (∀ ch, P ch = true → seen ch h = seen ch h₁ ∧ s.subs ch = s₁.subs ch ∧ s.chans ch = s₁.chans ch) ∧
      (∀ ch, P ch = false → seen ch h = seen ch h₂ ∧ s.subs ch = s₂.subs ch ∧ s.chans ch = s₂.chans ch) := by
  refine ⟨Together.exists e, fun h tg => ?_⟩
  obtain ⟨s, st, hp⟩ := steps_together compile cap tg a1 a2 c1 c2 (run_steps compile cap r1) (run_steps compile cap r2)
    (Parts.init P) (fun _ _ => rfl) (fun _ _ => rfl) (by intro x todo e; cases e)
  refine ⟨s, by simpa using steps_run compile cap .init st, tg.publishes.1, fun ch hP => ?_, fun ch hP => ?_⟩
  · exact ⟨by rw [tg.seen a1 a2, if_pos hP], (hp.subs₁ ch hP).1, (hp.subs₁ ch hP).2.1⟩
  · exact ⟨by rw [tg.seen a1 a2, if_neg (by simp [hP])], (hp.subs₂ ch hP).1, (hp.subs₂ ch hP).2.1⟩

end

namespace Witness

/-- A subscriber that never receives, with the publishes of `labels`. -/
def sleeper : List Label :=
  [.subscribed 5 9 {}, .publish (tr "a"), .visited 9 (tr "a") (.sent none), .release,
   .publish (tr "b"), .visited 9 (tr "b") .dropped, .release,
   .publish (tr "d"), .visited 9 (tr "d") .dropped, .release,
   .publish (tr "e" true), .visited 9 (tr "e" true) .dropped, .release]

theorem enum9 (sub : Sub) (m : Subs) (h : m 9 = some sub) (h' : ∀ c, c ≠ 9 → m c = none) : Enumerates [9] m := by
  refine ⟨by decide, fun ch => ?_⟩
  by_cases e : ch = 9
  · subst e; simp [h]
  · simp [e, h' ch e]

theorem slept : ∃ s, Run compile cap sleeper s := by
  have r0 := Run.init (compile := compile) (cap := cap)
  have r1 := Run.step r0 (.subscribe (t := 5) (ch := 9) (f := {}) rfl rfl rfl)
  have r2 := Run.step r1 (.publish (str := tr "a") rfl (enum9 _ _ rfl (by intro c hc; simp [upd, hc])))
  have r3 := Run.step r2 (.visit rfl rfl rfl)
  have r4 := Run.step r3 (.release rfl)
  have r5 := Run.step r4 (.publish (str := tr "b") rfl (enum9 _ _ rfl (by intro c hc; simp [upd, hc])))
  have r6 := Run.step r5 (.visit rfl rfl rfl)
  have r7 := Run.step r6 (.release rfl)
  have r8 := Run.step r7 (.publish (str := tr "d") rfl (enum9 _ _ rfl (by intro c hc; simp [upd, hc])))
  have r9 := Run.step r8 (.visit rfl rfl rfl)
  have r10 := Run.step r9 (.release rfl)
  have r11 := Run.step r10 (.publish (str := tr "e" true) rfl (enum9 _ _ rfl (by intro c hc; simp [upd, hc])))
  have r12 := Run.step r11 (.visit rfl rfl rfl)
  have r13 := Run.step r12 (.release rfl)
  exact ⟨_, r13⟩

/-- The subscriber of `labels` gets the same with the sleeper beside it. -/
example : ∃ h s, Run compile cap h s ∧ seen 7 h = seen 7 labels ∧ seen 9 h = seen 9 sleeper ∧ (seen 9 h).length = 5 := by
  obtain ⟨s₁, r1⟩ := ran
  obtain ⟨s₂, r2⟩ := slept
  obtain ⟨⟨h, t⟩, all⟩ := C118_together compile cap (P := fun ch => ch == 7) (T := fun t => t == 1 || t == 2) r1 r2
    (by intro l hl; simp only [labels, List.mem_cons, List.not_mem_nil, or_false] at hl; rcases hl with rfl | rfl | rfl | rfl | rfl | rfl | rfl | rfl | rfl | rfl | rfl | rfl | rfl | rfl | rfl | rfl | rfl | rfl <;> (intro ch e; cases e; try rfl))
    (by intro l hl; simp only [sleeper, List.mem_cons, List.not_mem_nil, or_false] at hl; rcases hl with rfl | rfl | rfl | rfl | rfl | rfl | rfl | rfl | rfl | rfl | rfl | rfl | rfl <;> (intro ch e; cases e; try rfl))
    (by intro l hl; simp only [labels, List.mem_cons, List.not_mem_nil, or_false] at hl; rcases hl with rfl | rfl | rfl | rfl | rfl | rfl | rfl | rfl | rfl | rfl | rfl | rfl | rfl | rfl | rfl | rfl | rfl | rfl <;> (intro ch e; cases e; try rfl))
    (by intro l hl; simp only [sleeper, List.mem_cons, List.not_mem_nil, or_false] at hl; rcases hl with rfl | rfl | rfl | rfl | rfl | rfl | rfl | rfl | rfl | rfl | rfl | rfl | rfl <;> (intro ch e; cases e; try rfl))
    rfl
  obtain ⟨s, r, -, x, y⟩ := all h t
  exact ⟨h, s, r, (x 7 rfl).1, (y 9 rfl).1, by rw [(y 9 rfl).1]; rfl⟩

end Witness

end Trc.Broker
