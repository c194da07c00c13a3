import Verif.Lock.Fair
import Verif.Props.LockUser

/-!
# C149: every call returns, however busy the others are
-/

set_option linter.unusedVariables false

namespace Trc.Lock

section
variable {P : UCall → Prop} {r : Run P}

/-- A property that holds at some time holds at a first time. -/
theorem first_time (q : Nat → Prop) (n m : Nat) (h : n ≤ m) (hn : ¬ q n) (hm : q m) :
    ∃ j, n ≤ j ∧ j < m ∧ ¬ q j ∧ q (j + 1) := by
  induction m with
  | zero => have : n = 0 := by omega
            subst this; exact absurd hm hn
  | succ m ih =>
    by_cases hq : q m
    · by_cases hnm : n ≤ m
      · obtain ⟨j, h1, h2, h3⟩ := ih hnm hq
        exact ⟨j, h1, by omega, h3⟩
      · have : n = m + 1 := by omega
        subst this; exact absurd hm hn
    · by_cases hnm : n ≤ m
      · exact ⟨m, hnm, by omega, hq, hm⟩
      · have : n = m + 1 := by omega
        subst this; exact absurd hm hn

/-- What a goroutine in a call does next is the next operation of the call. -/
theorem code_step {s t : St} (st : UStep P s t) {i : Nat} {op : Op} {k : List Op} (hc : s.code i = op :: k) :
    t.code i = op :: k ∨ t.code i = k := by
  cases st with
  | call j c hp hj =>
    by_cases h : i = j
    · subst h; rw [hc] at hj; cases hj
    · left; simp only [upd_other _ _ h]; exact hc
  | acq j l k' hj hf =>
    by_cases h : i = j
    · subst h; rw [hc] at hj; cases hj; right; simp only [upd_same]
    · left; simp only [upd_other _ _ h]; exact hc
  | rel j l k' hj =>
    by_cases h : i = j
    · subst h; rw [hc] at hj; cases hj; right; simp only [upd_same]
    · left; simp only [upd_other _ _ h]; exact hc

/-- Who goes on has one operation less to do. -/
theorem moved (r : Run P) {i n m : Nat} {op : Op} {k : List Op} (hc : (r.st n).code i = op :: k) (h : n ≤ m)
    (hm : (r.st m).code i ≠ op :: k) : ∃ m', n ≤ m' ∧ (r.st m').code i = k := by
  obtain ⟨j, h1, h2, h3, h4⟩ := first_time (fun x => (r.st x).code i ≠ op :: k) n m h (by simpa using hc) hm
  have h3 : (r.st j).code i = op :: k := by simpa using h3
  rcases r.step j with e | st
  · rw [e] at h4; exact absurd h3 h4
  · rcases code_step st h3 with e | e
    · exact absurd e h4
    · exact ⟨j + 1, by omega, e⟩

variable {ρ : Nat → Nat}

theorem run_inv (r : Run (UCall.Ok ρ)) (n : Nat) : ∃ held, UInv (Up ρ) (r.st n) held := by
  induction n with
  | zero => rw [r.init]; exact ⟨_, uinv_init _⟩
  | succ n ih =>
    obtain ⟨held, h⟩ := ih
    rcases r.step n with e | st
    · rw [e]; exact ⟨held, h⟩
    · exact uinv_step (fun c hc => related_ok c hc) h st

/-- Only who has a lock can release it. -/
theorem owner_step {s t : St} {held : Nat → List Lock} (h : UInv (Up ρ) s held) (st : UStep P s t) {l : Lock} {i : Nat}
    (ho : s.owner l = some i) : t.owner l = some i ∨ t.owner l = none := by
  cases st with
  | call j c hp hj => exact .inl ho
  | acq j l' k' hj hf =>
    by_cases hl : l = l'
    · subst hl; rw [ho] at hf; cases hf
    · left; simp only [upd_other _ _ hl]; exact ho
  | rel j l' k' hj =>
    by_cases hl : l = l'
    · subst hl; right; simp only [upd_same]
    · left; simp only [upd_other _ _ hl]; exact ho

theorem level_le {M : Nat} (hM : ∀ t, ρ t ≤ M) (l : Lock) : level ρ l ≤ 3 + M := by
  cases l with
  | set _ => simp [level]
  | ring _ => simp [level]; omega
  | broker _ => simp [level]; omega
  | trace t => have := hM t; simp only [level]; omega

/-- Every lock is free again and again. -/
theorem freed {M : Nat} (hM : ∀ t, ρ t ≤ M) (r : Run (UCall.Ok ρ)) (hf : r.Fair) :
    ∀ (d : Nat) (l : Lock), 3 + M - level ρ l = d → ∀ n, ∃ m, n ≤ m ∧ (r.st m).owner l = none := by
  intro d
  induction d using Nat.strongRecOn with
  | ind d ih =>
    intro l hd n
    apply Classical.byContradiction
    intro hne
    have hown : ∀ m, n ≤ m → ∃ j, (r.st m).owner l = some j := by
      intro m hm
      cases ho : (r.st m).owner l with
      | none => exact absurd ⟨m, hm, ho⟩ hne
      | some j => exact ⟨j, rfl⟩
    obtain ⟨i, hi⟩ := hown n (Nat.le_refl _)
    -- the same goroutine has it forever
    have hall : ∀ e, (r.st (n + e)).owner l = some i := by
      intro e
      induction e with
      | zero => exact hi
      | succ e ihe =>
        obtain ⟨held, hinv⟩ := run_inv r (n + e)
        rcases r.step (n + e) with h | st
        · show (r.st (n + e + 1)).owner l = some i
          rw [h]; exact ihe
        · rcases owner_step hinv st ihe with h | h
          · exact h
          · exact absurd ⟨n + e + 1, by omega, h⟩ hne
    have hall' : ∀ m, n ≤ m → (r.st m).owner l = some i := by
      intro m hm
      have := hall (m - n)
      rwa [show n + (m - n) = m by omega] at this
    -- it has less and less to do, and never nothing
    have key : ∀ (c m : Nat), n ≤ m → ((r.st m).code i).length = c → False := by
      intro c
      induction c using Nat.strongRecOn with
      | ind c ihc =>
        intro m hm hlen
        obtain ⟨held, hinv⟩ := run_inv r m
        have hmem := (hinv.owner i l).1 (hall' m hm)
        have hnest := hinv.nest i
        cases hc : (r.st m).code i with
        | nil => rw [hc] at hnest; rw [show held i = [] from hnest] at hmem; cases hmem
        | cons op k =>
          rw [hc] at hnest hlen
          have next : (∃ m', m ≤ m' ∧ (r.st m').code i ≠ op :: k) → False := by
            rintro ⟨m', h1, h2⟩
            obtain ⟨m'', h3, h4⟩ := moved r hc h1 h2
            exact ihc k.length (by simp at hlen; omega) m'' (by omega) (by rw [h4])
          cases op with
          | pause => exact hnest
          | rel l' => exact next (hf.unlock i m l' k hc)
          | acq l' =>
            have hlt : level ρ l < level ρ l' := hnest.1 l hmem
            have hle := level_le hM l'
            exact next (hf.lock i m l' k hc (fun x _ => ih (3 + M - level ρ l') (by omega) l' rfl x))
    exact key _ n (Nat.le_refl _) rfl

end

/-- **C149**.  In every fair execution every call returns, though others make calls forever: whenever a goroutine is in a
call, it will be out of it.  The values that are logged may use plain traces of higher levels while they are formatted. -/
theorem C149_returns {ρ : Nat → Nat} {M : Nat} (hM : ∀ t, ρ t ≤ M) (r : Run (UCall.Ok ρ)) (hf : r.Fair) (i n : Nat) :
    ∃ m, n ≤ m ∧ (r.st m).code i = [] := by
  have key : ∀ (c n : Nat), ((r.st n).code i).length = c → ∃ m, n ≤ m ∧ (r.st m).code i = [] := by
    intro c
    induction c using Nat.strongRecOn with
    | ind c ih =>
      intro n hlen
      cases hc : (r.st n).code i with
      | nil => exact ⟨n, Nat.le_refl _, hc⟩
      | cons op k =>
        rw [hc] at hlen
        have next : (∃ m', n ≤ m' ∧ (r.st m').code i ≠ op :: k) → ∃ m, n ≤ m ∧ (r.st m).code i = [] := by
          rintro ⟨m', h1, h2⟩
          obtain ⟨m'', h3, h4⟩ := moved r hc h1 h2
          obtain ⟨m, h5, h6⟩ := ih k.length (by simp at hlen; omega) m'' (by rw [h4])
          exact ⟨m, by omega, h6⟩
        cases op with
        | pause =>
          obtain ⟨held, hinv⟩ := run_inv r n
          have := hinv.nest i
          rw [hc] at this; exact this.elim
        | rel l => exact next (hf.unlock i n l k hc)
        | acq l => exact next (hf.lock i n l k hc (fun x _ => freed hM r hf _ l rfl x))
  exact key _ n rfl

/-- **C149**.  And every lock is free again and again. -/
theorem C149_free {ρ : Nat → Nat} {M : Nat} (hM : ∀ t, ρ t ≤ M) (r : Run (UCall.Ok ρ)) (hf : r.Fair) (l : Lock) (n : Nat) :
    ∃ m, n ≤ m ∧ (r.st m).owner l = none := freed hM r hf _ l rfl n

/-! ## Examples -/

namespace FairExample

/-- Goroutines 0 and 1 have to do `a` and `b`; the trace 5 is locked as `o` says. -/
def mk (a b : List Op) (o : Option Nat) : St :=
  ⟨fun l => if l = .trace 5 then o else none, fun i => if i = 0 then a else if i = 1 then b else []⟩

def look : UCall := .get ⟨5, []⟩ .done

theorem mk_init : mk [] [] none = St.init := by
  simp only [mk, St.init, St.mk.injEq]
  exact ⟨by funext l; simp, by funext i; simp⟩

theorem mk_call0 (b : List Op) (o : Option Nat) (P : UCall → Prop) (hP : P look) :
    UStep P (mk [] b o) (mk [.acq (.trace 5), .rel (.trace 5)] b o) := by
  have := UStep.call (P := P) (s := mk [] b o) 0 look hP rfl
  have e : { mk [] b o with code := upd (mk [] b o).code 0 look.code.ops } = mk [.acq (.trace 5), .rel (.trace 5)] b o := by
    simp only [mk, St.mk.injEq, true_and]
    funext i; by_cases h : i = 0 <;> simp [upd, h, look, UCall.code, method, Code.ops, locked]
  rwa [e] at this

theorem mk_call1 (a : List Op) (o : Option Nat) (P : UCall → Prop) (hP : P look) :
    UStep P (mk a [] o) (mk a [.acq (.trace 5), .rel (.trace 5)] o) := by
  have := UStep.call (P := P) (s := mk a [] o) 1 look hP rfl
  have e : { mk a [] o with code := upd (mk a [] o).code 1 look.code.ops } = mk a [.acq (.trace 5), .rel (.trace 5)] o := by
    simp only [mk, St.mk.injEq, true_and]
    funext i
    by_cases h : i = 1
    · subst h; simp [upd, look, UCall.code, method, Code.ops, locked]
    · simp [upd, h]
  rwa [e] at this

theorem mk_acq0 (a b : List Op) (P : UCall → Prop) : UStep P (mk (.acq (.trace 5) :: a) b none) (mk a b (some 0)) := by
  have := UStep.acq (P := P) (s := mk (.acq (.trace 5) :: a) b none) 0 (.trace 5) a rfl rfl
  have e : (⟨upd (mk (.acq (.trace 5) :: a) b none).owner (.trace 5) (some 0), upd (mk (.acq (.trace 5) :: a) b none).code 0 a⟩ : St)
      = mk a b (some 0) := by
    simp only [mk, St.mk.injEq]
    refine ⟨?_, ?_⟩
    · funext l; by_cases h : l = .trace 5 <;> simp [upd, h]
    · funext i; by_cases h : i = 0 <;> simp [upd, h]
  rwa [e] at this

theorem mk_acq1 (a b : List Op) (P : UCall → Prop) : UStep P (mk a (.acq (.trace 5) :: b) none) (mk a b (some 1)) := by
  have := UStep.acq (P := P) (s := mk a (.acq (.trace 5) :: b) none) 1 (.trace 5) b rfl rfl
  have e : (⟨upd (mk a (.acq (.trace 5) :: b) none).owner (.trace 5) (some 1), upd (mk a (.acq (.trace 5) :: b) none).code 1 b⟩ : St)
      = mk a b (some 1) := by
    simp only [mk, St.mk.injEq]
    refine ⟨?_, ?_⟩
    · funext l; by_cases h : l = .trace 5 <;> simp [upd, h]
    · funext i
      by_cases h : i = 1
      · subst h; simp [upd]
      · simp [upd, h]
  rwa [e] at this

theorem mk_rel0 (a b : List Op) (o : Option Nat) (P : UCall → Prop) : UStep P (mk (.rel (.trace 5) :: a) b o) (mk a b none) := by
  have := UStep.rel (P := P) (s := mk (.rel (.trace 5) :: a) b o) 0 (.trace 5) a rfl
  have e : (⟨upd (mk (.rel (.trace 5) :: a) b o).owner (.trace 5) none, upd (mk (.rel (.trace 5) :: a) b o).code 0 a⟩ : St)
      = mk a b none := by
    simp only [mk, St.mk.injEq]
    refine ⟨?_, ?_⟩
    · funext l; by_cases h : l = .trace 5 <;> simp [upd, h]
    · funext i; by_cases h : i = 0 <;> simp [upd, h]
  rwa [e] at this

theorem mk_rel1 (a b : List Op) (o : Option Nat) (P : UCall → Prop) : UStep P (mk a (.rel (.trace 5) :: b) o) (mk a b none) := by
  have := UStep.rel (P := P) (s := mk a (.rel (.trace 5) :: b) o) 1 (.trace 5) b rfl
  have e : (⟨upd (mk a (.rel (.trace 5) :: b) o).owner (.trace 5) none, upd (mk a (.rel (.trace 5) :: b) o).code 1 b⟩ : St)
      = mk a b none := by
    simp only [mk, St.mk.injEq]
    refine ⟨?_, ?_⟩
    · funext l; by_cases h : l = .trace 5 <;> simp [upd, h]
    · funext i
      by_cases h : i = 1
      · subst h; simp [upd]
      · simp [upd, h]
  rwa [e] at this

/-- Two goroutines look at a trace, again and again; the second has to wait for the first each time. -/
def around : Nat → St
  | 0 => mk [] [] none
  | 1 => mk [.acq (.trace 5), .rel (.trace 5)] [] none
  | 2 => mk [.rel (.trace 5)] [] (some 0)
  | 3 => mk [.rel (.trace 5)] [.acq (.trace 5), .rel (.trace 5)] (some 0)
  | 4 => mk [] [.acq (.trace 5), .rel (.trace 5)] none
  | 5 => mk [] [.rel (.trace 5)] (some 1)
  | n + 6 => around n

theorem around_step (P : UCall → Prop) (hP : P look) : ∀ n, UStep P (around n) (around (n + 1))
  | 0 => mk_call0 _ _ P hP
  | 1 => mk_acq0 _ _ P
  | 2 => mk_call1 _ _ P hP
  | 3 => mk_rel0 _ _ _ P
  | 4 => mk_acq1 _ _ P
  | 5 => mk_rel1 _ _ _ P
  | n + 6 => around_step P hP n

/-- Every goroutine is out of its call at some time after `n`. -/
theorem around_idle (i : Nat) : ∀ n, ∃ m, n ≤ m ∧ (around m).code i = []
  | 0 => ⟨0, Nat.le_refl _, by unfold around mk; simp⟩
  | n + 1 => by
    obtain ⟨m, h1, h2⟩ := around_idle i n
    by_cases h : n + 1 ≤ m
    · exact ⟨m, h, h2⟩
    · exact ⟨m + 6, by omega, h2⟩

/-- There is a fair execution of this kind, in which a goroutine has to wait. -/
example : ∃ r : Run (UCall.Ok fun _ => 0), r.Fair ∧ (r.st 3).Waiting 1 (.trace 5) := by
  have ok : UCall.Ok (fun _ => 0) look := by simp [UCall.Ok, look, Plain]
  refine ⟨⟨around, mk_init, fun n => .inr (around_step _ ok n)⟩, ⟨?_, ?_⟩, ⟨_, rfl⟩, by show (around 3).owner (.trace 5) ≠ none; decide⟩
  · intro i n l k hc
    obtain ⟨m, h1, h2⟩ := around_idle i n
    exact ⟨m, h1, by rw [show (around m).code i = [] from h2]; simp⟩
  · intro i n l k hc _
    obtain ⟨m, h1, h2⟩ := around_idle i n
    exact ⟨m, h1, by rw [show (around m).code i = [] from h2]; simp⟩

/-- One goroutine waits while another one looks at the trace again and again. -/
def ahead : Nat → St
  | 0 => mk [.acq (.trace 5), .rel (.trace 5)] [] none
  | 1 => mk [.acq (.trace 5), .rel (.trace 5)] [.acq (.trace 5), .rel (.trace 5)] none
  | 2 => mk [.acq (.trace 5), .rel (.trace 5)] [.rel (.trace 5)] (some 1)
  | n + 3 => ahead n

theorem ahead_step (P : UCall → Prop) (hP : P look) : ∀ n, UStep P (ahead n) (ahead (n + 1))
  | 0 => mk_call1 _ _ P hP
  | 1 => mk_acq1 _ _ P
  | 2 => mk_rel1 _ _ _ P
  | n + 3 => ahead_step P hP n

theorem ahead_zero : ∀ n, (ahead n).code 0 = [.acq (.trace 5), .rel (.trace 5)]
  | 0 => rfl
  | 1 => rfl
  | 2 => rfl
  | n + 3 => ahead_zero n

theorem ahead_other (i : Nat) (hi : i ≠ 0) : ∀ n, ∃ m, n ≤ m ∧ (ahead m).code i = []
  | 0 => ⟨0, Nat.le_refl _, by unfold ahead mk; simp [hi]⟩
  | n + 1 => by
    obtain ⟨m, h1, h2⟩ := ahead_other i hi n
    by_cases h : n + 1 ≤ m
    · exact ⟨m, h, h2⟩
    · exact ⟨m + 3, by omega, h2⟩

/-- Fairness of mutexes is needed: if a mutex may be given to others forever, a call need not return, though
everybody else goes on. -/
theorem unfair_starves : ∃ r : Run (UCall.Ok fun _ => 0),
    (∀ i n l k, (r.st n).code i = .rel l :: k → ∃ m, n ≤ m ∧ (r.st m).code i ≠ .rel l :: k) ∧
    (∀ n, 1 ≤ n → (r.st n).code 0 ≠ []) ∧ ∀ i, i ≠ 0 → ∀ n, ∃ m, n ≤ m ∧ (r.st m).code i = [] := by
  have ok : UCall.Ok (fun _ => 0) look := by simp [UCall.Ok, look, Plain]
  refine ⟨⟨fun n => match n with | 0 => St.init | n + 1 => ahead n, rfl, ?_⟩, ?_, ?_, ?_⟩
  · intro n
    cases n with
    | zero => right; rw [← mk_init]; exact mk_call0 _ _ _ ok
    | succ n => exact .inr (ahead_step _ ok n)
  · intro i n l k hc
    cases n with
    | zero => cases hc
    | succ n =>
      by_cases hi : i = 0
      · subst hi
        have : (ahead n).code 0 = .rel l :: k := hc
        rw [ahead_zero] at this; cases this
      · obtain ⟨m, h1, h2⟩ := ahead_other i hi n
        exact ⟨m + 1, by omega, by show (ahead m).code i ≠ _; rw [h2]; simp⟩
  · intro n hn
    cases n with
    | zero => omega
    | succ n => show (ahead n).code 0 ≠ []; rw [ahead_zero]; simp
  · intro i hi n
    obtain ⟨m, h1, h2⟩ := ahead_other i hi n
    exact ⟨m + 1, by omega, h2⟩

end FairExample

end Trc.Lock
