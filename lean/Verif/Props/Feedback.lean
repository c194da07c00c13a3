import Verif.Web.Feedback

/-!
# C136: streams that watch each other do not keep each other busy
-/

namespace Trc.Web.Feedback

/-! ## Lemmas -/

/-- How many lines of its own a stream may have logged. -/
def used (x : Stream) : Nat :=
  (match x.pc with
    | .setup k => k
    | .ready => 5
    | .loop true => 6
    | .loop false => 7
    | .ended => 8) +
  match x.g with
    | .done => 1
    | _ => 0

def total (n : Nat) (f : Nat → Nat) : Nat := ((List.range n).map f).sum

theorem total_succ (n : Nat) (f : Nat → Nat) : total (n + 1) f = total n f + f n := by
  simp [total, List.range_succ]

theorem total_le {n : Nat} {f : Nat → Nat} {c : Nat} (h : ∀ i, i < n → f i ≤ c) : total n f ≤ c * n := by
  induction n with
  | zero => simp [total]
  | succ n ih =>
    rw [total_succ, Nat.mul_succ]
    exact Nat.add_le_add (ih fun i hi => h i (by omega)) (h n (by omega))

theorem total_mono {n : Nat} {f g : Nat → Nat} (h : ∀ i, i < n → f i ≤ g i) : total n f ≤ total n g := by
  induction n with
  | zero => simp [total]
  | succ n ih =>
    rw [total_succ, total_succ]
    exact Nat.add_le_add (ih fun i hi => h i (by omega)) (h n (by omega))

/-- One of them has grown. -/
theorem total_grow {n i d : Nat} {f g : Nat → Nat} (hi : i < n) (h : ∀ j, j < n → j ≠ i → f j ≤ g j) (hg : f i + d ≤ g i) :
    total n f + d ≤ total n g := by
  induction n with
  | zero => omega
  | succ n ih =>
    rw [total_succ, total_succ]
    by_cases he : i = n
    · subst he
      have := total_mono (n := i) (f := f) (g := g) fun j hj => h j (by omega) (by omega)
      omega
    · have := ih (by omega) fun j hj hne => h j (by omega) hne
      have := h n (by omega) (by omega)
      omega

theorem total_eq {n : Nat} {f g : Nat → Nat} (h : ∀ i, i < n → f i = g i) : total n f = total n g :=
  Nat.le_antisymm (total_mono fun i hi => Nat.le_of_eq (h i hi)) (total_mono fun i hi => Nat.le_of_eq (h i hi).symm)

/-- What is published changes queues only, and by at most the message. -/
theorem published_spec {cfg : Cfg} {mt : Nat → Bool} {m : Msg} {a b : Nat → Stream} (h : Published cfg mt m a b) (i : Nat) :
    (b i).pc = (a i).pc ∧ (b i).g = (a i).g ∧
      ((b i).queue = (a i).queue ∨ (b i).queue = (a i).queue ++ [m] ∧ mt i = true) := by
  rcases h i with ⟨e, -, hm, -⟩ | ⟨e, -⟩
  · rw [e]; exact ⟨rfl, rfl, .inr ⟨rfl, hm⟩⟩
  · rw [e]; exact ⟨rfl, rfl, .inl rfl⟩

theorem published_used {cfg : Cfg} {mt : Nat → Bool} {m : Msg} {a b : Nat → Stream} (h : Published cfg mt m a b) (i : Nat) :
    used (b i) = used (a i) := by
  obtain ⟨h1, h2, -⟩ := published_spec h i
  unfold used
  rw [h1, h2]

/-- Messages about others than the stream. -/
def foreign (i : Nat) (l : List Msg) : Nat := l.countP fun m => decide (m ≠ some i)

theorem foreign_append (i : Nat) (a b : List Msg) : foreign i (a ++ b) = foreign i a + foreign i b := List.countP_append

theorem foreign_cons_le (i : Nat) (m : Msg) (l : List Msg) : foreign i l ≤ foreign i (m :: l) := by
  unfold foreign
  rw [List.countP_cons]
  omega

theorem published_foreign {cfg : Cfg} {mt : Nat → Bool} {m : Msg} {a b : Nat → Stream} (h : Published cfg mt m a b) (i : Nat) :
    foreign i (b i).queue ≤ foreign i (a i).queue + foreign i [m] := by
  rcases (published_spec h i).2.2 with e | ⟨e, -⟩
  · rw [e]; omega
  · rw [e, foreign_append]; omega

/-- Those of the stream itself. -/
def own (i : Nat) (l : List Msg) : Nat := l.countP fun m => decide (m = some i)

theorem own_append (i : Nat) (a b : List Msg) : own i (a ++ b) = own i a + own i b := List.countP_append

theorem own_foreign (i : Nat) (l : List Msg) : own i l + foreign i l = l.length := by
  induction l with
  | nil => rfl
  | cons m l ih =>
    have e1 : own i (m :: l) = own i l + if m = some i then 1 else 0 := by
      unfold own; rw [List.countP_cons]; simp
    have e2 : foreign i (m :: l) = foreign i l + if m ≠ some i then 1 else 0 := by
      unfold foreign; rw [List.countP_cons]; simp
    rw [e1, e2, List.length_cons]
    by_cases h : m = some i
    · rw [if_pos h, if_neg (by simp [h])]; omega
    · rw [if_neg h, if_pos h]; omega

structure Inv (cfg : Cfg) (s : S) : Prop where
  /-- Lines in the beginning come one after the other. -/
  early : ∀ i, used (s.streams i) ≤ 9
  /-- All that is published is accounted for. -/
  all : s.log.length ≤ s.ext + total cfg.n (fun i => used (s.streams i)) + s.ticks + total cfg.n s.fails
  /-- What cannot be written, and what is still to be read, was published by others. -/
  from_ : ∀ i, s.fails i + foreign i (s.streams i).queue ≤ foreign i s.log
  /-- Each failure is published. -/
  told : ∀ i, s.fails i ≤ own i s.log
  /-- There are no others than these. -/
  idle : ∀ i, cfg.n ≤ i → s.fails i = 0
  k4 : ∀ i k, (s.streams i).pc = .setup k → k ≤ 4

theorem used_le {x : Stream} (h : ∀ k, x.pc = .setup k → k ≤ 4) : used x ≤ 9 := by
  obtain ⟨pc, g, q⟩ := x
  simp only at h
  unfold used
  cases pc with
  | setup k => have := h k rfl; cases g <;> simp only <;> omega
  | ready => cases g <;> simp
  | loop b => cases b <;> cases g <;> simp
  | ended => cases g <;> simp

theorem set_same {f : Nat → Stream} {i : Nat} {x : Stream} : set f i x i = x := by simp [set]
theorem set_other {f : Nat → Stream} {i j : Nat} {x : Stream} (h : j ≠ i) : set f i x j = f j := by simp [set, h]

/-- A stream changes without logging. -/
theorem inv_silent {cfg : Cfg} {s : S} (h : Inv cfg s) {i : Nat} (hi : i < cfg.n) {x : Stream}
    (hu : used (s.streams i) ≤ used x) (hk : ∀ k, x.pc = .setup k → k ≤ 4) (hq : foreign i x.queue ≤ foreign i (s.streams i).queue) :
    Inv cfg { s with streams := set s.streams i x } := by
  have hk' : ∀ j k, (set s.streams i x j).pc = .setup k → k ≤ 4 := by
    intro j k hp
    by_cases e : j = i
    · subst e; rw [set_same] at hp; exact hk k hp
    · rw [set_other e] at hp; exact h.k4 j k hp
  refine ⟨fun j => used_le (hk' j), ?_, ?_, h.told, h.idle, hk'⟩
  · have hm : total cfg.n (fun j => used (s.streams j)) ≤ total cfg.n (fun j => used (set s.streams i x j)) := by
      refine total_mono fun j _ => ?_
      by_cases e : j = i
      · subst e; rw [set_same]; exact hu
      · rw [set_other e]; exact Nat.le_refl _
    have := h.all
    show s.log.length ≤ s.ext + total cfg.n (fun j => used (set s.streams i x j)) + s.ticks + total cfg.n s.fails
    omega
  · intro j
    have := h.from_ j
    show s.fails j + foreign j (set s.streams i x j).queue ≤ foreign j s.log
    by_cases e : j = i
    · subst e; rw [set_same]; omega
    · rw [set_other e]; exact this

/-- A stream changes and logs a line of its own. -/
theorem inv_line {cfg : Cfg} {s : S} (h : Inv cfg s) {i : Nat} (hi : i < cfg.n) {x : Stream} {b : Nat → Stream}
    (hl : Logs cfg i (set s.streams i x) b) (hu : used (s.streams i) + 1 ≤ used x) (hk : ∀ k, x.pc = .setup k → k ≤ 4)
    (hq : x.queue = (s.streams i).queue) : Inv cfg { s with streams := b, log := s.log ++ [some i] } := by
  have hk' : ∀ j k, (b j).pc = .setup k → k ≤ 4 := by
    intro j k hp
    rw [(published_spec hl j).1] at hp
    by_cases e : j = i
    · subst e; rw [set_same] at hp; exact hk k hp
    · rw [set_other e] at hp; exact h.k4 j k hp
  refine ⟨fun j => used_le (hk' j), ?_, ?_, ?_, h.idle, hk'⟩
  · have hm : total cfg.n (fun j => used (s.streams j)) + 1 ≤ total cfg.n (fun j => used (b j)) := by
      refine total_grow hi (fun j _ e => ?_) ?_
      · rw [published_used hl, set_other e]; exact Nat.le_refl _
      · rw [published_used hl, set_same]; exact hu
    have := h.all
    show (s.log ++ [some i]).length ≤ s.ext + total cfg.n (fun j => used (b j)) + s.ticks + total cfg.n s.fails
    rw [List.length_append, List.length_singleton]
    omega
  · intro j
    have h1 := h.from_ j
    have h2 := published_foreign hl j
    show s.fails j + foreign j (b j).queue ≤ foreign j (s.log ++ [some i])
    rw [foreign_append]
    have h3 : (set s.streams i x j).queue = (s.streams j).queue := by
      by_cases e : j = i
      · subst e; rw [set_same, hq]
      · rw [set_other e]
    rw [h3] at h2
    omega
  · intro j
    have := h.told j
    show s.fails j ≤ own j (s.log ++ [some i])
    rw [own_append]
    omega

theorem inv_step {cfg : Cfg} {s s' : S} (h : Inv cfg s) (hs : Step cfg s s') : Inv cfg s' := by
  cases hs with
  | @other m mt b hp =>
    have hk' : ∀ j k, (b j).pc = .setup k → k ≤ 4 := by
      intro j k hq
      rw [(published_spec hp j).1] at hq
      exact h.k4 j k hq
    refine ⟨fun j => used_le (hk' j), ?_, ?_, ?_, h.idle, hk'⟩
    · have e : total cfg.n (fun j => used (b j)) = total cfg.n (fun j => used (s.streams j)) := total_eq fun j _ => published_used hp j
      have := h.all
      show (s.log ++ [m]).length ≤ s.ext + 1 + total cfg.n (fun j => used (b j)) + s.ticks + total cfg.n s.fails
      rw [e, List.length_append, List.length_singleton]
      omega
    · intro j
      have h1 := h.from_ j
      have h2 := published_foreign hp j
      show s.fails j + foreign j (b j).queue ≤ foreign j (s.log ++ [m])
      rw [foreign_append]
      omega
    · intro j
      have := h.told j
      show s.fails j ≤ own j (s.log ++ [m])
      rw [own_append]
      omega
  | @filter i hi hp =>
    refine inv_silent h hi ?_ (by intro k e; simp at e; omega) (Nat.le_refl _)
    unfold used; rw [hp]; simp
  | @filterFails i b hi hp hl =>
    refine inv_line h hi hl ?_ (by intro k e; simp at e; omega) rfl
    unfold used; rw [hp]; simp only; omega
  | @refused i hi hp =>
    refine inv_silent h hi ?_ (by intro k e; simp at e) (Nat.le_refl _)
    unfold used; rw [hp]; simp only; split <;> omega
  | @setup i k b hi hp h1 h2 hl =>
    refine inv_line h hi hl ?_ ?_ rfl
    · unfold used
      rw [hp]
      by_cases e : k = 4
      · simp only [e, if_true]; omega
      · simp only [if_neg e]; omega
    · intro k' e
      by_cases e' : k = 4
      · simp [e'] at e
      · simp only [if_neg e', PC.setup.injEq] at e; omega
  | @subscribe i hi hg hp =>
    refine inv_silent h hi ?_ (by intro k e; exact h.k4 i k e) (Nat.le_refl _)
    unfold used; rw [hg]; exact Nat.le_refl _
  | @unsubscribe i hi hg hp =>
    refine inv_silent h hi ?_ (by intro k e; exact h.k4 i k e) (Nat.le_refl _)
    unfold used
    rcases hg with hg | hg <;> rw [hg] <;> exact Nat.le_refl _
  | @returned i b hi hg hl =>
    refine inv_line h hi hl ?_ (by intro k e; exact h.k4 i k e) rfl
    unfold used; rw [hg]; simp
  | @ready i b hi hp hl =>
    refine inv_line h hi hl ?_ (by intro k e; simp at e) rfl
    unfold used; rw [hp]; simp only; omega
  | @init i hi hp =>
    refine inv_silent h hi ?_ (by intro k e; simp at e) (Nat.le_refl _)
    unfold used; rw [hp]; simp only; omega
  | @initFails i b hi hp hl =>
    refine inv_line h hi hl ?_ (by intro k e; simp at e) rfl
    unfold used; rw [hp]; simp only; omega
  | @tick i init b hi hp hl =>
    have hk' : ∀ j k, (b j).pc = .setup k → k ≤ 4 := by
      intro j k hq
      rw [(published_spec hl j).1] at hq
      exact h.k4 j k hq
    refine ⟨fun j => used_le (hk' j), ?_, ?_, ?_, h.idle, hk'⟩
    · have e : total cfg.n (fun j => used (b j)) = total cfg.n (fun j => used (s.streams j)) := total_eq fun j _ => published_used hl j
      have := h.all
      show (s.log ++ [some i]).length ≤ s.ext + total cfg.n (fun j => used (b j)) + (s.ticks + 1) + total cfg.n s.fails
      rw [e, List.length_append, List.length_singleton]
      omega
    · intro j
      have h1 := h.from_ j
      have h2 := published_foreign hl j
      show s.fails j + foreign j (b j).queue ≤ foreign j (s.log ++ [some i])
      rw [foreign_append]
      omega
    · intro j
      have := h.told j
      show s.fails j ≤ own j (s.log ++ [some i])
      rw [own_append]
      omega
  | @receive i init m q hi hp hq =>
    refine inv_silent h hi (Nat.le_refl _) (by intro k e; exact h.k4 i k e) ?_
    rw [hq]
    exact foreign_cons_le i m q
  | @receiveFails i init m q b hi hp hq hm hl =>
    have hk' : ∀ j k, (b j).pc = .setup k → k ≤ 4 := by
      intro j k hq'
      rw [(published_spec hl j).1] at hq'
      by_cases e : j = i
      · subst e; rw [set_same] at hq'; exact h.k4 j k hq'
      · rw [set_other e] at hq'; exact h.k4 j k hq'
    refine ⟨fun j => used_le (hk' j), ?_, ?_, ?_, ?_, hk'⟩
    · have e : total cfg.n (fun j => used (b j)) = total cfg.n (fun j => used (s.streams j)) := by
        refine total_eq fun j _ => ?_
        rw [published_used hl]
        by_cases e : j = i
        · subst e; rw [set_same]; rfl
        · rw [set_other e]
      have hg : total cfg.n s.fails + 1 ≤ total cfg.n (fun j => if j = i then s.fails i + 1 else s.fails j) := by
        refine total_grow hi (fun j _ e => ?_) ?_
        · rw [if_neg e]; exact Nat.le_refl _
        · rw [if_pos rfl]; exact Nat.le_refl _
      have := h.all
      show (s.log ++ [some i]).length ≤ s.ext + total cfg.n (fun j => used (b j)) + s.ticks +
        total cfg.n (fun j => if j = i then s.fails i + 1 else s.fails j)
      rw [e, List.length_append, List.length_singleton]
      omega
    · intro j
      have h1 := h.from_ j
      have h2 := published_foreign hl j
      show (if j = i then s.fails i + 1 else s.fails j) + foreign j (b j).queue ≤ foreign j (s.log ++ [some i])
      rw [foreign_append]
      by_cases e : j = i
      · subst e
        rw [if_pos rfl]
        rw [set_same] at h2
        have e1 : foreign j [some j] = 0 := by simp [foreign]
        have e2 : foreign j (s.streams j).queue = foreign j q + 1 := by
          rw [hq]
          unfold foreign
          rw [List.countP_cons, if_pos (by simp [hm])]
        simp only at h2
        omega
      · rw [if_neg e]
        rw [set_other e] at h2
        omega
    · intro j
      have := h.told j
      show (if j = i then s.fails i + 1 else s.fails j) ≤ own j (s.log ++ [some i])
      rw [own_append]
      by_cases e : j = i
      · subst e
        have e1 : own j [some j] = 1 := by simp [own]
        rw [if_pos rfl]
        omega
      · rw [if_neg e]; omega
    · intro j hj
      show (if j = i then s.fails i + 1 else s.fails j) = 0
      rw [if_neg (by omega)]
      exact h.idle j hj
  | @stop i init b hi hp hl =>
    refine inv_line h hi hl ?_ (by intro k e; simp at e) rfl
    unfold used; rw [hp]; cases init <;> simp only <;> omega

theorem inv {cfg : Cfg} {s : S} (h : Reach cfg s) : Inv cfg s := by
  unfold Reach at h
  generalize hx : ({} : S) = s₀ at h
  induction h with
  | refl =>
    subst hx
    refine ⟨fun _ => by simp [used], by simp, fun _ => by simp [foreign], fun _ => by simp, fun _ _ => rfl, ?_⟩
    intro i k e
    simp at e
    omega
  | snoc _ hs ih => exact inv_step ih hs

theorem total_single {n i : Nat} {f : Nat → Nat} (h : ∀ j, j ≠ i → f j = 0) : total n f ≤ f i := by
  induction n with
  | zero => simp [total]
  | succ n ih =>
    rw [total_succ]
    by_cases e : n = i
    · subst e
      have : total n f = 0 := by
        have := total_le (n := n) (f := f) (c := 0) fun j hj => by rw [h j (by omega)]; exact Nat.le_refl 0
        omega
      omega
    · rw [h n e]; omega

/-! ## Theorems -/

/-- **C136**, what is true.  If streams can write what they receive, then streams cause no more to be published than nine lines each, and one per tick; and
if there is one stream that can't, all in all at most twice as much is published.  (Partial: see `C136_storm_violated` for two.) -/
theorem C136_bounded_partial {cfg : Cfg} {s : S} (h : Reach cfg s) :
    ((∀ i, s.fails i = 0) → s.log.length ≤ s.ext + 9 * cfg.n + s.ticks) ∧
    ∀ i, (∀ j, j ≠ i → s.fails j = 0) → s.log.length ≤ 2 * (s.ext + 9 * cfg.n + s.ticks) := by
  have hi := inv h
  have hu : total cfg.n (fun i => used (s.streams i)) ≤ 9 * cfg.n := total_le fun i _ => hi.early i
  have hall := hi.all
  refine ⟨fun hn => ?_, fun i hn => ?_⟩
  · have : total cfg.n s.fails ≤ 0 * cfg.n := total_le fun i _ => Nat.le_of_eq (hn i)
    omega
  · have h1 := total_single (n := cfg.n) hn
    have h2 := hi.from_ i
    have h3 := hi.told i
    have h4 := own_foreign i s.log
    omega

/-- A stream's events are for no other one. -/
structure FInv (cfg : Cfg) (s : S) : Prop where
  got : ∀ i, s.fails i + foreign i (s.streams i).queue ≤ s.ext

theorem finv {cfg : Cfg} (hc : ∀ i j, i ≠ j → cfg.accepts i j = false) {s : S} (h : Reach cfg s) : FInv cfg s := by
  have hlog : ∀ (i j : Nat) (a b : Nat → Stream), Logs cfg i a b → foreign j (b j).queue ≤ foreign j (a j).queue := by
    intro i j a b hl
    rcases (published_spec hl j).2.2 with e | ⟨e, hm⟩
    · rw [e]; exact Nat.le_refl _
    · by_cases hj : j = i
      · subst hj
        rw [e, foreign_append]
        have : foreign j [some j] = 0 := by simp [foreign]
        omega
      · simp only [hc j i hj] at hm
        cases hm
  unfold Reach at h
  generalize hx : ({} : S) = s₀ at h
  induction h with
  | refl => subst hx; exact ⟨fun _ => by simp [foreign]⟩
  | @snoc s₁ s₂ _ hs ih =>
    have hsil : ∀ (i : Nat) (x : Stream), x.queue = (s₁.streams i).queue → ∀ j, foreign j (set s₁.streams i x j).queue = foreign j (s₁.streams j).queue := by
      intro i x hq j
      by_cases e : j = i
      · subst e; rw [set_same, hq]
      · rw [set_other e]
    have hpub : ∀ (i : Nat) (x : Stream) (b : Nat → Stream), x.queue = (s₁.streams i).queue → Logs cfg i (set s₁.streams i x) b →
        ∀ j, s₁.fails j + foreign j (b j).queue ≤ s₁.ext := by
      intro i x b hq hl j
      have h1 := hlog i j _ _ hl
      rw [hsil i x hq j] at h1
      have := ih.got j
      omega
    cases hs with
    | @other m mt b hp =>
      refine ⟨fun j => ?_⟩
      have h1 := published_foreign hp j
      have h2 := ih.got j
      have h3 : foreign j [m] ≤ 1 := by
        have := own_foreign j [m]
        simp only [List.length_singleton] at this
        omega
      show s₁.fails j + foreign j (b j).queue ≤ s₁.ext + 1
      omega
    | filter | refused | subscribe | unsubscribe | init =>
      refine ⟨fun j => ?_⟩
      show s₁.fails j + foreign j (set s₁.streams _ _ j).queue ≤ s₁.ext
      rw [hsil _ _ ?_]
      · exact ih.got j
      · rfl
    | filterFails _ _ hl | setup _ _ _ _ hl | returned _ _ hl | ready _ _ hl | initFails _ _ hl | stop _ _ hl =>
      exact ⟨hpub _ _ _ (by rfl) hl⟩
    | @tick i init b hi hp hl =>
      refine ⟨fun j => ?_⟩
      have h1 := hlog i j _ _ hl
      have := ih.got j
      show s₁.fails j + foreign j (b j).queue ≤ s₁.ext
      omega
    | @receive i init m q hi hp hq =>
      refine ⟨fun j => ?_⟩
      have := ih.got j
      show s₁.fails j + foreign j (set s₁.streams i _ j).queue ≤ s₁.ext
      by_cases e : j = i
      · subst e
        rw [set_same]
        rw [hq] at this
        have := foreign_cons_le j m q
        simp only
        omega
      · rw [set_other e]; exact this
    | @receiveFails i init m q b hi hp hq hm hl =>
      refine ⟨fun j => ?_⟩
      have h1 := hlog i j _ _ hl
      have h2 := ih.got j
      show (if j = i then s₁.fails i + 1 else s₁.fails j) + foreign j (b j).queue ≤ s₁.ext
      by_cases e : j = i
      · subst e
        rw [set_same] at h1
        rw [if_pos rfl]
        have e2 : foreign j (s₁.streams j).queue = foreign j q + 1 := by
          rw [hq]
          unfold foreign
          rw [List.countP_cons, if_pos (by simp [hm])]
        simp only at h1
        omega
      · rw [if_neg e]
        rw [set_other e] at h1
        omega

/-- **C136**, for streams whose filters match no events of other streams' requests, such as those for finished traces: each stream can at most once be
unable to write for everything that others publish. -/
theorem C136_apart_partial {cfg : Cfg} (hc : ∀ i j, i ≠ j → cfg.accepts i j = false) {s : S} (h : Reach cfg s) :
    s.log.length ≤ s.ext + 9 * cfg.n + s.ticks + s.ext * cfg.n := by
  have hi := inv h
  have hu : total cfg.n (fun i => used (s.streams i)) ≤ 9 * cfg.n := total_le fun i _ => hi.early i
  have hall := hi.all
  have hf : total cfg.n s.fails ≤ s.ext * cfg.n := total_le fun i _ => by have := (finv hc h).got i; omega
  omega

theorem Steps.trans {cfg : Cfg} {a b c : S} (h : Steps cfg a b) (h' : Steps cfg b c) : Steps cfg a c := by
  induction h' with
  | refl => exact h
  | snoc _ hs ih => exact .snoc ih hs

/-- Where nobody is subscribed, what is published goes nowhere. -/
theorem published_idle {cfg : Cfg} {mt : Nat → Bool} {m : Msg} {a : Nat → Stream} (h : ∀ i, (a i).g ≠ .streaming) : Published cfg mt m a a :=
  fun i => .inr ⟨rfl, .inl (h i)⟩

theorem set_set {f : Nat → Stream} {i : Nat} {x y : Stream} : set (set f i x) i y = set f i y := by
  funext j
  by_cases e : j = i <;> simp [set, e]

/-- A stream that has come to its loop, before anyone has subscribed. -/
theorem to_loop {cfg : Cfg} {s : S} {i : Nat} (hi : i < cfg.n) (h0 : s.streams i = {}) (hg : ∀ j, (s.streams j).g ≠ .streaming) :
    ∃ s', Steps cfg s s' ∧ s'.streams = set s.streams i { pc := .loop false } ∧ s'.ext = s.ext ∧ s'.ticks = s.ticks ∧
      s'.log.length = s.log.length + 5 ∧ s'.fails = s.fails := by
  have hset : ∀ x : Stream, x.g ≠ .streaming → ∀ j, (set s.streams i x j).g ≠ .streaming := by
    intro x hx j
    by_cases e : j = i
    · subst e; rw [set_same]; exact hx
    · rw [set_other e]; exact hg j
  have s1 : Steps cfg s { s with streams := set s.streams i { pc := .setup 1 } } := by
    have := Step.filter (cfg := cfg) (s := s) hi (by rw [h0])
    rw [h0] at this
    exact .snoc .refl this
  have step : ∀ (k : Nat) (log : List Msg), 1 ≤ k → k ≤ 4 →
      Step cfg { s with streams := set s.streams i { pc := .setup k }, log := log }
        { s with streams := set s.streams i { pc := if k = 4 then .ready else .setup (k + 1) }, log := log ++ [some i] } := by
    intro k log h1 h2
    refine Step.setup (cfg := cfg) (s := { s with streams := set s.streams i { pc := .setup k }, log := log }) hi (by simp only [set_same]) h1 h2 ?_
    simp only [set_same, set_set]
    exact published_idle (hset _ (by simp))
  have s2 := (((s1.snoc (step 1 _ (by omega) (by omega))).snoc (step 2 _ (by omega) (by omega))).snoc (step 3 _ (by omega) (by omega))).snoc
    (step 4 _ (by omega) (by omega))
  simp only [if_true] at s2
  have s3 := s2.snoc (Step.ready (b := set s.streams i { pc := .loop true }) hi (by simp only [set_same]) (by
    simp only [set_same, set_set]
    exact published_idle (hset _ (by simp))))
  have s4 := s3.snoc (Step.init hi (by simp only [set_same]))
  refine ⟨_, s4, ?_, rfl, rfl, by simp, rfl⟩
  simp only [set_same, set_set]

/-! ## Storms -/

/-- All streams are in their loops, with these messages to read. -/
def running (n : Nat) (q : Nat → List Msg) : Nat → Stream :=
  fun k => if k < n then { pc := .loop false, g := .streaming, queue := q k } else {}

theorem running_at {n i : Nat} (hi : i < n) (q : Nat → List Msg) : running n q i = { pc := .loop false, g := .streaming, queue := q i } := by
  simp [running, hi]

theorem running_set {n i : Nat} (hi : i < n) (q : Nat → List Msg) (l : List Msg) :
    set (running n q) i { running n q i with queue := l } = running n (fun k => if k = i then l else q k) := by
  funext k
  by_cases e : k = i
  · subst e; simp [set, running, hi]
  · simp [set, running, e]

theorem publish_all {cfg : Cfg} {mt : Nat → Bool} {m : Msg} {q : Nat → List Msg} (hq : ∀ k, q k = []) :
    Published cfg mt m (running cfg.n q) (running cfg.n fun k => if mt k = true then [m] else []) := by
  intro k
  show Offered (cfg.cap k) (mt k) m (running cfg.n q k) (running cfg.n (fun k => if mt k = true then [m] else []) k)
  by_cases hk : k < cfg.n
  · rw [running_at hk, running_at hk]
    by_cases hm : mt k = true
    · rw [if_pos hm, hq k]
      exact .inl ⟨rfl, rfl, hm, by show 0 < max (cfg.cap k) 1; omega⟩
    · rw [if_neg hm, hq k]
      exact .inr ⟨rfl, .inr (.inl (by simpa using hm))⟩
  · have e : ∀ q', running cfg.n q' k = {} := fun q' => by simp [running, hk]
    rw [e, e]
    exact .inr ⟨rfl, .inl (by simp)⟩

/-- All streams but one write what they have received. -/
theorem drained {cfg : Cfg} (j : Nat) (x : Msg) (q : Nat → List Msg) (hq : ∀ k, q k = [] ∨ q k = [x]) (s : S) (hs : s.streams = running cfg.n q)
    (m : Nat) (hm : m ≤ cfg.n) :
    ∃ s', Steps cfg s s' ∧ s'.streams = running cfg.n (fun k => if k < m ∧ k ≠ j then [] else q k) ∧ s'.log = s.log ∧ s'.ext = s.ext ∧ s'.ticks = s.ticks := by
  induction m with
  | zero => exact ⟨s, .refl, by rw [hs]; exact congrArg _ (by funext k; simp), rfl, rfl, rfl⟩
  | succ m ih =>
    obtain ⟨s1, h1, e1, l1, x1, t1⟩ := ih (by omega)
    have hfun : ∀ y : List Msg, (m = j ∨ y = []) → (m = j → y = q m) →
        (fun k => if k = m then y else if k < m ∧ k ≠ j then [] else q k) = fun k => if k < m + 1 ∧ k ≠ j then [] else q k := by
      intro y hy hy'
      funext k
      by_cases e : k = m
      · subst e
        rw [if_pos rfl]
        by_cases ej : k = j
        · rw [if_neg (by simp [ej])]; exact hy' ej
        · rw [if_pos ⟨by omega, ej⟩]; exact hy.resolve_left ej
      · rw [if_neg e]
        by_cases hk : k < m ∧ k ≠ j
        · rw [if_pos hk, if_pos ⟨by omega, hk.2⟩]
        · rw [if_neg hk, if_neg (by rintro ⟨h, h'⟩; exact hk ⟨by omega, h'⟩)]
    by_cases ej : m = j
    · refine ⟨s1, h1, ?_, l1, x1, t1⟩
      rw [e1]
      congr 1
      rw [← hfun (q m) (.inl ej) fun _ => rfl]
      funext k
      by_cases e : k = m
      · subst e; simp
      · rw [if_neg e]
    · rcases hq m with e | e
      · refine ⟨s1, h1, ?_, l1, x1, t1⟩
        rw [e1]
        congr 1
        rw [← hfun [] (.inr rfl) fun h => absurd h ej]
        funext k
        by_cases e' : k = m
        · subst e'; simp [e]
        · rw [if_neg e']
      · have hc : s1.streams m = { pc := .loop false, g := .streaming, queue := [x] } := by
          rw [e1, running_at (by omega)]
          simp [e]
        have st := Step.receive (cfg := cfg) (s := s1) (i := m) (init := false) (m := x) (q := []) (by omega) (by rw [hc]) (by rw [hc])
        refine ⟨_, h1.snoc st, ?_, l1, x1, t1⟩
        show set s1.streams m { s1.streams m with queue := [] } = _
        rw [e1, running_set (by omega), hfun [] (.inr rfl) fun h => absurd h ej]

/-- One stream has something to read, which is not about itself. -/
def Token (cfg : Cfg) (i : Nat) (s : S) : Prop := ∃ m : Msg, m ≠ some i ∧ s.streams = running cfg.n fun k => if k = i then [m] else []

/-- What the stream can't write makes it log, and that is something to read for the next one. -/
theorem pass {cfg : Cfg} {i j : Nat} (hi : i < cfg.n) (hj : j < cfg.n) (hij : j ≠ i) (ha : cfg.accepts j i = true) {s : S} (h : Token cfg i s) :
    ∃ s', Steps cfg s s' ∧ Token cfg j s' ∧ s'.log.length = s.log.length + 1 ∧ s'.ext = s.ext ∧ s'.ticks = s.ticks := by
  obtain ⟨m, hm, hs⟩ := h
  have hc : s.streams i = { pc := .loop false, g := .streaming, queue := [m] } := by
    rw [hs, running_at hi]; simp
  have hset : set s.streams i { s.streams i with queue := [] } = running cfg.n fun _ => [] := by
    rw [hs, running_set hi]
    congr 1
    funext k
    by_cases e : k = i <;> simp [e]
  have st := Step.receiveFails (cfg := cfg) (s := s) (i := i) (init := false) (m := m) (q := [])
    (b := running cfg.n fun k => if cfg.accepts k i = true then [some i] else []) hi (by rw [hc]) (by rw [hc]) hm (by
      rw [hset]
      exact publish_all fun _ => rfl)
  obtain ⟨s2, h2, e2, l2, x2, t2⟩ := drained (cfg := cfg) j (some i) (fun k => if cfg.accepts k i = true then [some i] else [])
    (by intro k; by_cases e : cfg.accepts k i = true <;> simp [e])
    { s with streams := running cfg.n fun k => if cfg.accepts k i = true then [some i] else [], log := s.log ++ [some i], fails := fun k => if k = i then s.fails i + 1 else s.fails k } rfl cfg.n (Nat.le_refl _)
  refine ⟨s2, (Steps.refl.snoc st).trans h2, ⟨some i, by simpa using Ne.symm hij, ?_⟩, by rw [l2]; simp, by rw [x2], by rw [t2]⟩
  rw [e2]
  funext k
  by_cases hk : k < cfg.n
  · rw [running_at hk, running_at hk]
    by_cases e : k = j
    · subst e; simp [ha]
    · simp [e, hk]
  · simp [running, hk]

/-- All streams can come to their loops, and subscribe, before anything else is published. -/
theorem all_running (cfg : Cfg) : ∃ s, Reach cfg s ∧ s.streams = running cfg.n (fun _ => []) ∧ s.ext = 0 ∧ s.ticks = 0 := by
  have h1 : ∀ m, m ≤ cfg.n → ∃ s, Reach cfg s ∧ s.streams = (fun k => if k < m then { pc := .loop false } else {}) ∧ s.ext = 0 ∧ s.ticks = 0 := by
    intro m hm
    induction m with
    | zero => exact ⟨{}, .refl, by funext k; simp, rfl, rfl⟩
    | succ m ih =>
      obtain ⟨s, h, e, x, t⟩ := ih (by omega)
      obtain ⟨s', h', e', x', t', -, -⟩ := to_loop (cfg := cfg) (s := s) (i := m) (by omega) (by rw [e]; simp) (by
        intro j; rw [e]; by_cases hj : j < m <;> simp [hj])
      refine ⟨s', h.trans h', ?_, by rw [x', x], by rw [t', t]⟩
      rw [e', e]
      funext k
      by_cases hk : k = m
      · subst hk; simp [set]
      · have : k < m + 1 ↔ k < m := by omega
        simp [set, hk, this]
  have h2 : ∀ m, m ≤ cfg.n → ∃ s, Reach cfg s ∧
      s.streams = (fun k => if k < m then { pc := .loop false, g := .streaming } else if k < cfg.n then { pc := .loop false } else {}) ∧ s.ext = 0 ∧ s.ticks = 0 := by
    intro m hm
    induction m with
    | zero =>
      obtain ⟨s, h, e, x, t⟩ := h1 cfg.n (Nat.le_refl _)
      exact ⟨s, h, by rw [e]; funext k; simp, x, t⟩
    | succ m ih =>
      obtain ⟨s, h, e, x, t⟩ := ih (by omega)
      have hc : s.streams m = { pc := .loop false } := by rw [e]; simp; omega
      have st := Step.subscribe (cfg := cfg) (s := s) (i := m) (by omega) (by rw [hc]) (by intro k; rw [hc]; simp)
      refine ⟨_, Steps.snoc h st, ?_, x, t⟩
      show set s.streams m { s.streams m with g := .streaming } = _
      rw [hc, e]
      funext k
      by_cases hk : k = m
      · subst hk; simp [set]
      · have : k < m + 1 ↔ k < m := by omega
        simp [set, hk, this]
  obtain ⟨s, h, e, x, t⟩ := h2 cfg.n (Nat.le_refl _)
  refine ⟨s, h, ?_, x, t⟩
  rw [e]
  funext k
  by_cases hk : k < cfg.n <;> simp [running, hk]

/-- There is a way from stream to stream without end, on which each one matches the requests of the one before. -/
def Endless (cfg : Cfg) : Prop := ∃ f : Nat → Nat, ∀ k, f k < cfg.n ∧ f (k + 1) ≠ f k ∧ cfg.accepts (f (k + 1)) (f k) = true

theorem storm {cfg : Cfg} (h : Endless cfg) (n : Nat) : ∃ s, Reach cfg s ∧ s.ext = 1 ∧ s.ticks = 0 ∧ n ≤ s.log.length := by
  obtain ⟨f, hf⟩ := h
  obtain ⟨s, hs, e, x, t⟩ := all_running cfg
  have hp : Published cfg (fun k => decide (k = f 0)) none s.streams (running cfg.n fun k => if k = f 0 then [none] else []) := by
    rw [e]
    have := publish_all (cfg := cfg) (mt := fun k => decide (k = f 0)) (m := none) (q := fun _ => []) fun _ => rfl
    simpa using this
  have h0 := Steps.snoc hs (Step.other hp)
  have hstep : ∀ m, ∃ s', Reach cfg s' ∧ Token cfg (f m) s' ∧ s'.ext = 1 ∧ s'.ticks = 0 ∧ m ≤ s'.log.length := by
    intro m
    induction m with
    | zero => exact ⟨_, h0, ⟨none, by simp, rfl⟩, by simp [x], t, Nat.zero_le _⟩
    | succ m ih =>
      obtain ⟨s1, r1, k1, x1, t1, l1⟩ := ih
      obtain ⟨s2, r2, k2, l2, x2, t2⟩ := pass (hf m).1 (hf (m + 1)).1 (hf m).2.1 (hf m).2.2 k1
      exact ⟨s2, Steps.trans r1 r2, k2, by rw [x2, x1], by rw [t2, t1], by omega⟩
  obtain ⟨s', r, -, x', t', l⟩ := hstep n
  exact ⟨s', r, x', t', l⟩

/-- **C136** is violated by any two streams whose filters match each other's requests: once they can't write, which the handler takes for an
error to log and go on, a single event that is published makes them log to each other without end. -/
theorem C136_storm_violated (cfg : Cfg) (i j : Nat) (hij : i ≠ j) (hi : i < cfg.n) (hj : j < cfg.n) (hji : cfg.accepts j i = true)
    (hij' : cfg.accepts i j = true) (n : Nat) : ∃ s, Reach cfg s ∧ s.ext = 1 ∧ s.ticks = 0 ∧ n ≤ s.log.length := by
  refine storm ⟨fun k => if k % 2 = 0 then i else j, fun k => ?_⟩ n
  rcases Nat.mod_two_eq_zero_or_one k with e | e
  · have e' : (k + 1) % 2 = 1 := by omega
    simp [e, e', hi, hji, Ne.symm hij]
  · have e' : (k + 1) % 2 = 0 := by omega
    simp [e, e', hj, hij', hij]

/-- Two streams of everything. -/
example : ∃ cfg : Cfg, cfg.n = 2 ∧ cfg.accepts 1 0 = true ∧ cfg.accepts 0 1 = true ∧ cfg.cap 0 = 100 ∧ cfg.cap 1 = 100 :=
  ⟨⟨2, fun _ => 100, fun _ _ => true⟩, rfl, rfl, rfl, rfl, rfl⟩

/-- One stream for which nothing can be written: it goes through all its lines, fails for one event of another request, and gets its own. -/
example : ∃ s, Reach ⟨1, fun _ => 100, fun _ _ => true⟩ s ∧ s.ext = 1 ∧ s.fails 0 = 1 ∧ s.log.length = 7 ∧ (s.streams 0).queue = [some 0] := by
  let cfg : Cfg := ⟨1, fun _ => 100, fun _ _ => true⟩
  obtain ⟨s1, h1, e1, x1, t1, l1, f1⟩ := to_loop (cfg := cfg) (s := {}) (i := 0) (by decide) rfl (by intro k; simp)
  have e0 : s1.streams 0 = { pc := .loop false } := by rw [e1, set_same]
  have s2 := h1.snoc (Step.subscribe (i := 0) (by decide) (by rw [e0]) (by intro k; rw [e0]; simp))
  rw [e0, e1] at s2
  let st (q : List Msg) : Nat → Stream := set (fun _ => {}) 0 { pc := .loop false, g := .streaming, queue := q }
  have hst : ∀ q, set (set (fun _ => {}) 0 { pc := .loop false }) 0 { pc := .loop false, g := .streaming, queue := q } = st q := fun q => set_set
  have hpub : ∀ m, Published cfg (fun _ => true) m (st []) (st [m]) := by
    intro m k
    by_cases e : k = 0
    · subst e
      exact .inl ⟨by simp [st, set], by simp [st, set], rfl, by simp [st, set, cfg]⟩
    · exact .inr ⟨by simp [st, set, e], .inl (by simp [st, set, e])⟩
  have s3 := s2.snoc (Step.other (m := none) (matches_ := fun _ => true) (b := st [none]) (by
    simp only [hst]
    exact hpub none))
  have s4 := s3.snoc (Step.receiveFails (i := 0) (init := false) (m := none) (q := []) (b := st [some 0]) (by decide) (by simp [st, set_same])
    (by simp [st, set_same]) (by simp) (by
      have : set (st [none]) 0 { st [none] 0 with queue := [] } = st [] := by
        simp only [st, set_same, set_set]
      simp only [this]
      exact hpub (some 0)))
  refine ⟨_, s4, ?_, ?_, ?_, ?_⟩
  · show s1.ext + 1 = 1; rw [x1]
  · show s1.fails 0 + 1 = 1; rw [f1]
  · simp [l1]
  · simp [st, set_same]

end Trc.Web.Feedback
