import Verif.Lock.User
import Verif.Props.Lock

/-!
# C148: values that are logged may use the library while they are formatted
-/

set_option linter.unusedVariables false
set_option linter.unusedSimpArgs false

namespace Trc.Lock

/-! ## Sections -/

theorem ops_andThen (c d : Code) : (c.andThen d).ops = c.ops ++ d.ops := by
  induction c with
  | done => rfl
  | lock l b n _ ih => simp only [Code.andThen, Code.ops, ih, List.append_assoc]

/-- `k` can be done by somebody having the locks `held`: each lock is taken by somebody to whose locks it is related by
`R`, the last one taken is released first, and in the end they have none. -/
def Nest (R : Lock → Lock → Prop) : List Lock → List Op → Prop
  | held, [] => held = []
  | held, .acq l :: k => (∀ h ∈ held, R h l) ∧ Nest R (l :: held) k
  | held, .rel l :: k => ∃ t, held = l :: t ∧ Nest R t k
  | _, .pause :: _ => False

/-- The same for a piece of code. -/
def NPiece (R : Lock → Lock → Prop) (held : List Lock) (a : List Op) : Prop := ∀ k, Nest R held k → Nest R held (a ++ k)

/-- Every lock that `c` takes is related to those it has. -/
def Code.Related (R : Lock → Lock → Prop) : List Lock → Code → Prop
  | _, .done => True
  | held, .lock l b n => (∀ h ∈ held, R h l) ∧ b.Related R (l :: held) ∧ n.Related R held

theorem npiece_of_related {R : Lock → Lock → Prop} : ∀ (c : Code) (held : List Lock), c.Related R held → NPiece R held c.ops
  | .done, held, _ => fun k hk => hk
  | .lock l b n, held, h => by
    intro k hk
    have h1 := npiece_of_related n held h.2.2 k hk
    have h2 := npiece_of_related b (l :: held) h.2.1 (.rel l :: (n.ops ++ k)) ⟨held, rfl, h1⟩
    show Nest R held ((Op.acq l :: (b.ops ++ [Op.rel l]) ++ n.ops) ++ k)
    have : (Op.acq l :: (b.ops ++ [Op.rel l]) ++ n.ops) ++ k = Op.acq l :: (b.ops ++ (Op.rel l :: (n.ops ++ k))) := by
      simp
    rw [this]
    exact ⟨h.1, h2⟩

theorem nest_of_related {R : Lock → Lock → Prop} {c : Code} (h : c.Related R []) : Nest R [] c.ops := by
  have := npiece_of_related c [] h [] rfl
  rwa [List.append_nil] at this

theorem related_true (c : Code) : ∀ held, c.Related (fun _ _ => True) held := by
  induction c with
  | done => intro _; trivial
  | lock l b n ihb ihn => intro held; exact ⟨fun _ _ => trivial, ihb _, ihn _⟩

theorem related_andThen {R : Lock → Lock → Prop} {held : List Lock} (c d : Code) :
    (c.andThen d).Related R held ↔ c.Related R held ∧ d.Related R held := by
  induction c with
  | done => simp [Code.andThen, Code.Related]
  | lock l b n _ ih => simp only [Code.andThen, Code.Related, ih, and_assoc]

/-! ## The invariant -/

structure UInv (R : Lock → Lock → Prop) (s : St) (held : Nat → List Lock) : Prop where
  nest : ∀ i, Nest R (held i) (s.code i)
  owner : ∀ i l, s.owner l = some i ↔ l ∈ held i
  nodup : ∀ i, (held i).Nodup

theorem uinv_init (R : Lock → Lock → Prop) : UInv R St.init (fun _ => []) :=
  ⟨fun _ => rfl, fun i l => by simp [St.init], fun _ => List.nodup_nil⟩

/-- The invariant goes on; `held` changes for the goroutine that does something with a lock only. -/
theorem uinv_acq {R : Lock → Lock → Prop} {s : St} {held : Nat → List Lock} (h : UInv R s held) {i : Nat} {l : Lock} {k : List Op}
    (hc : s.code i = .acq l :: k) (hf : s.owner l = none) :
    UInv R ⟨upd s.owner l (some i), upd s.code i k⟩ (upd held i (l :: held i)) := by
  have hd := h.nest i
  rw [hc] at hd
  have hnot : ∀ j, l ∉ held j := by
    intro j hj
    rw [← h.owner j l, hf] at hj; cases hj
  refine ⟨?_, ?_, ?_⟩
  · intro j
    by_cases hj : j = i
    · subst hj; simp only [upd_same]; exact hd.2
    · simp only [upd_other _ _ hj]; exact h.nest j
  · intro j l'
    by_cases hj : j = i
    · subst hj
      simp only [upd_same, List.mem_cons]
      by_cases hl : l' = l
      · subst hl; simp [upd_same]
      · simp only [upd_other _ _ hl, hl, false_or]; exact h.owner j l'
    · simp only [upd_other _ _ hj]
      by_cases hl : l' = l
      · subst hl
        simp only [upd_same, Option.some.injEq]
        exact ⟨fun e => absurd e.symm hj, fun e => absurd e (hnot j)⟩
      · simp only [upd_other _ _ hl]; exact h.owner j l'
  · intro j
    by_cases hj : j = i
    · subst hj; simp only [upd_same]; exact List.nodup_cons.2 ⟨hnot j, h.nodup j⟩
    · simp only [upd_other _ _ hj]; exact h.nodup j

theorem uinv_rel {R : Lock → Lock → Prop} {s : St} {held : Nat → List Lock} (h : UInv R s held) {i : Nat} {l : Lock} {k : List Op}
    (hc : s.code i = .rel l :: k) :
    ∃ tl, held i = l :: tl ∧ UInv R ⟨upd s.owner l none, upd s.code i k⟩ (upd held i tl) := by
  have hd := h.nest i
  rw [hc] at hd
  obtain ⟨tl, ht, hd⟩ := hd
  have hs := h.nodup i
  rw [ht] at hs
  have hnot : l ∉ tl := (List.nodup_cons.1 hs).1
  have ho : s.owner l = some i := by rw [h.owner, ht]; exact List.mem_cons_self
  refine ⟨tl, ht, ?_, ?_, ?_⟩
  · intro j
    by_cases hj : j = i
    · subst hj; simp only [upd_same]; exact hd
    · simp only [upd_other _ _ hj]; exact h.nest j
  · intro j l'
    by_cases hj : j = i
    · subst hj
      simp only [upd_same]
      by_cases hl : l' = l
      · subst hl; simp [upd_same, hnot]
      · simp only [upd_other _ _ hl]
        rw [h.owner, ht]; simp [hl]
    · simp only [upd_other _ _ hj]
      by_cases hl : l' = l
      · subst hl
        simp only [upd_same]
        refine ⟨fun e => (nomatch e), fun e => ?_⟩
        rw [← h.owner, ho] at e
        exact absurd (Option.some.inj e).symm hj
      · simp only [upd_other _ _ hl]; exact h.owner j l'
  · intro j
    by_cases hj : j = i
    · subst hj; simp only [upd_same]; exact (List.nodup_cons.1 hs).2
    · simp only [upd_other _ _ hj]; exact h.nodup j

theorem uinv_call {R : Lock → Lock → Prop} {s : St} {held : Nat → List Lock} (h : UInv R s held) {i : Nat} {c : Code}
    (hi : s.code i = []) (hc : c.Related R []) : UInv R { s with code := upd s.code i c.ops } held := by
  have h0 : held i = [] := by have := h.nest i; rw [hi] at this; exact this
  refine ⟨?_, h.owner, h.nodup⟩
  intro j
  by_cases hj : j = i
  · subst hj; simp only [upd_same, h0]; exact nest_of_related hc
  · simp only [upd_other _ _ hj]; exact h.nest j

theorem uinv_step {R : Lock → Lock → Prop} {P : UCall → Prop} (hP : ∀ c, P c → c.code.Related R []) {s t : St}
    {held : Nat → List Lock} (h : UInv R s held) (st : UStep P s t) : ∃ held', UInv R t held' := by
  cases st with
  | call i c hp hc => exact ⟨held, uinv_call h hc (hP c hp)⟩
  | acq i l k hc hf => exact ⟨_, uinv_acq h hc hf⟩
  | rel i l k hc => obtain ⟨tl, _, h'⟩ := uinv_rel h hc; exact ⟨_, h'⟩

theorem uinv_steps {R : Lock → Lock → Prop} {P : UCall → Prop} (hP : ∀ c, P c → c.code.Related R []) {s t : St}
    {held : Nat → List Lock} (h : UInv R s held) (st : USteps P s t) : ∃ held', UInv R t held' := by
  induction st generalizing held with
  | refl => exact ⟨held, h⟩
  | head st _ ih => obtain ⟨held', h'⟩ := uinv_step hP h st; exact ih h'

/-! ## One goroutine -/

/-- Nothing is locked within itself. -/
def Code.Fresh : List Lock → Code → Prop
  | _, .done => True
  | held, .lock l b n => l ∉ held ∧ b.Fresh (l :: held) ∧ n.Fresh held

/-- The same for operations. -/
def FreshOps : List Lock → List Op → Prop
  | _, [] => True
  | held, .acq l :: k => l ∉ held ∧ FreshOps (l :: held) k
  | held, .rel _ :: k => FreshOps held.tail k
  | held, .pause :: k => FreshOps held k

theorem freshOps_append (c : Code) : ∀ (held : List Lock) (k : List Op),
    FreshOps held (c.ops ++ k) ↔ c.Fresh held ∧ FreshOps held k := by
  induction c with
  | done => intro held k; simp [Code.ops, Code.Fresh]
  | lock l b n ihb ihn =>
    intro held k
    have : (Code.lock l b n).ops ++ k = Op.acq l :: (b.ops ++ (Op.rel l :: (n.ops ++ k))) := by
      simp [Code.ops, locked]
    rw [this]
    simp only [FreshOps, ihb, ihn, List.tail_cons, Code.Fresh, and_assoc]

theorem freshOps_ops (c : Code) : FreshOps [] c.ops ↔ c.Fresh [] := by
  have := freshOps_append c [] []
  rw [List.append_nil] at this
  simpa [FreshOps] using this

/-- Whoever gets to the end never locked what they had. -/
theorem fresh_of_end {P : UCall → Prop} {s t : St} (st : USteps P s t) {held : Nat → List Lock}
    (h : UInv (fun _ _ => True) s held) {i : Nat} (he : t.code i = []) : FreshOps (held i) (s.code i) := by
  induction st generalizing held with
  | refl => rw [he]; trivial
  | head st _ ih =>
    cases st with
    | call j c hp hc =>
      have h' := uinv_call h hc (related_true c.code [])
      have := ih h' he
      by_cases hj : i = j
      · subst hj; rw [hc]; trivial
      · simpa only [upd_other _ _ hj] using this
    | acq j l k hc hf =>
      have h' := uinv_acq h hc hf
      have := ih h' he
      by_cases hj : i = j
      · subst hj
        simp only [upd_same] at this
        rw [hc]
        refine ⟨?_, this⟩
        intro hm
        rw [← h.owner, hf] at hm; cases hm
      · simpa only [upd_other _ _ hj] using this
    | rel j l k hc =>
      obtain ⟨tl, ht, h'⟩ := uinv_rel h hc
      have := ih h' he
      by_cases hj : i = j
      · subst hj
        simp only [upd_same] at this
        rw [hc, ht]
        exact this
      · simpa only [upd_other _ _ hj] using this

/-- A goroutine that is the only one to have locks, and never locks what it has, gets to the end. -/
theorem end_of_fresh {P : UCall → Prop} (i : Nat) : ∀ (k : List Op) (s : St) (held : Nat → List Lock),
    UInv (fun _ _ => True) s held → s.code i = k → (∀ j, j ≠ i → held j = []) → FreshOps (held i) k →
    ∃ t, USteps P s t ∧ t.code i = [] ∧ ∀ l, t.owner l = none := by
  intro k
  induction k with
  | nil =>
    intro s held h hc ho _
    refine ⟨s, .refl s, hc, ?_⟩
    intro l
    cases hl : s.owner l with
    | none => rfl
    | some j =>
      have hm := (h.owner j l).1 hl
      by_cases hj : j = i
      · have hn := h.nest i
        rw [hc] at hn
        rw [hj, show held i = [] from hn] at hm; cases hm
      · rw [ho j hj] at hm; cases hm
  | cons op k ih =>
    intro s held h hc ho hf
    cases op with
    | acq l =>
      have hfree : s.owner l = none := by
        cases hl : s.owner l with
        | none => rfl
        | some j =>
          have hm := (h.owner j l).1 hl
          by_cases hj : j = i
          · subst hj; exact absurd hm hf.1
          · rw [ho j hj] at hm; cases hm
      have h' := uinv_acq h hc hfree
      obtain ⟨t, h1, h2⟩ := ih _ _ h' (upd_same _ _ _) (fun j hj => by rw [upd_other _ _ hj]; exact ho j hj)
        (by rw [upd_same]; exact hf.2)
      exact ⟨t, .head (.acq i l k hc hfree) h1, h2⟩
    | rel l =>
      obtain ⟨tl, ht, h'⟩ := uinv_rel h hc
      obtain ⟨t, h1, h2⟩ := ih _ _ h' (upd_same _ _ _) (fun j hj => by rw [upd_other _ _ hj]; exact ho j hj)
        (by rw [upd_same]; rw [ht] at hf; exact hf)
      exact ⟨t, .head (.rel i l k hc) h1, h2⟩
    | pause => have hn := h.nest i; rw [hc] at hn; exact hn.elim

/-! ## The specification -/

/-- Somebody doing `c` locks `l`. -/
def Code.Takes (c : Code) (l : Lock) : Prop := Op.acq l ∈ c.ops

/-- Goroutine `i` begins with `c`, and it can be that `c` comes to its end. -/
def Returns (P : UCall → Prop) (s : St) (i : Nat) (c : Code) : Prop :=
  ∃ t, USteps P { s with code := upd s.code i c.ops } t ∧ t.code i = []

/-- Nobody has a lock and the goroutine is in no call: what it begins with does not depend on anybody else. -/
structure Quiet (P : UCall → Prop) (s : St) (i : Nat) : Prop where
  reach : UReach P s
  free : ∀ l, s.owner l = none
  idle : s.code i = []

theorem returns_iff {P : UCall → Prop} {s : St} {i : Nat} (h : Quiet P s i) (c : Code) : Returns P s i c ↔ c.Fresh [] := by
  obtain ⟨held, hi⟩ := uinv_steps (R := fun _ _ => True) (fun c _ => related_true c.code []) (uinv_init _) h.reach
  have h0 : ∀ j, held j = [] := by
    intro j
    cases hj : held j with
    | nil => rfl
    | cons l tl =>
      have := (hi.owner j l).2 (by rw [hj]; exact List.mem_cons_self)
      rw [h.free] at this; cases this
  have h' := uinv_call hi h.idle (related_true c [])
  rw [← freshOps_ops]
  constructor
  · rintro ⟨t, st, he⟩
    have := fresh_of_end st h' he
    simpa only [h0, upd_same] using this
  · intro hf
    obtain ⟨t, h1, h2, _⟩ := end_of_fresh (P := P) i c.ops _ held h' (upd_same _ _ _) (fun j _ => h0 j) (by rw [h0]; exact hf)
    exact ⟨t, h1, h2⟩

theorem takes_lock {l l' : Lock} {b n : Code} : (Code.lock l b n).Takes l' ↔ l' = l ∨ b.Takes l' ∨ n.Takes l' := by
  simp [Code.Takes, Code.ops, locked]

theorem takes_done {l : Lock} : ¬ Code.done.Takes l := by simp [Code.Takes, Code.ops]

/-- Having another lock matters if it is taken. -/
theorem fresh_cons (c : Code) : ∀ (held : List Lock) (l : Lock), c.Fresh (l :: held) ↔ ¬ c.Takes l ∧ c.Fresh held := by
  induction c with
  | done => intro held l; simp [Code.Fresh, takes_done]
  | lock l' b n ihb ihn =>
    intro held l
    have hb : b.Fresh (l' :: l :: held) ↔ ¬ b.Takes l' ∧ ¬ b.Takes l ∧ b.Fresh held := by rw [ihb, ihb]
    simp only [Code.Fresh, hb, ihb, ihn, takes_lock, List.mem_cons, not_or, ne_eq]
    constructor
    · rintro ⟨⟨a, b⟩, ⟨c, d, e⟩, f, g⟩; exact ⟨⟨fun e => a e.symm, d, f⟩, b, ⟨c, e⟩, g⟩
    · rintro ⟨⟨a, d, f⟩, b, ⟨c, e⟩, g⟩; exact ⟨⟨fun e => a e.symm, b⟩, ⟨c, d, e⟩, f, g⟩

theorem fresh_andThen (c d : Code) (held : List Lock) : (c.andThen d).Fresh held ↔ c.Fresh held ∧ d.Fresh held := by
  induction c with
  | done => simp [Code.andThen, Code.Fresh]
  | lock l b n _ ih => simp only [Code.andThen, Code.Fresh, ih, and_assoc]

theorem fresh_method (t : Nat) (f : Code) (held : List Lock) :
    (method t f).Fresh held ↔ .trace t ∉ held ∧ ¬ f.Takes (.trace t) ∧ f.Fresh held := by
  simp [method, Code.Fresh, fresh_cons]

/-- Looking at a trace: only what is formatted matters, unless the trace is locked already. -/
theorem fresh_looks (t : Nat) (held : List Lock) (ht : .trace t ∉ held) : ∀ fs : List Code,
    (looks t fs).Fresh held ↔ ∀ f ∈ fs, ¬ f.Takes (.trace t) ∧ f.Fresh held
  | [] => by simp [looks, Code.Fresh]
  | f :: fs => by
    simp only [looks, fresh_andThen, fresh_method, fresh_looks t held ht fs, List.forall_mem_cons, ht, not_false_eq_true, true_and]

theorem fresh_published (b t : Nat) (fs : List Code) :
    (published b t fs).Fresh [] ↔ ∀ f ∈ fs, ¬ f.Takes (.trace t) ∧ ¬ f.Takes (.broker b) ∧ f.Fresh [] := by
  simp only [published, Code.Fresh, List.not_mem_nil, not_false_eq_true, true_and, and_true]
  rw [fresh_looks t _ (by simp)]
  simp only [fresh_cons]

theorem fresh_logged (t : Nat) (fmt : Code) (fs : Nat → List Code) : ∀ ws : List Wrapper,
    (logged t fmt fs ws).Fresh [] ↔ (¬ fmt.Takes (.trace t) ∧ fmt.Fresh []) ∧
      ∀ b, Wrapper.pub b ∈ ws → ∀ f ∈ fs b, ¬ f.Takes (.trace t) ∧ ¬ f.Takes (.broker b) ∧ f.Fresh []
  | [] => by simp [logged, fresh_method]
  | .log :: ws => by simp [logged, fresh_logged t fmt fs ws]
  | .prefix :: ws => by simp [logged, fresh_logged t fmt fs ws]
  | .pub b :: ws => by
    simp only [logged, fresh_andThen, fresh_logged t fmt fs ws, fresh_published, List.mem_cons, Wrapper.pub.injEq]
    constructor
    · rintro ⟨⟨h1, h2⟩, h3⟩
      refine ⟨h1, ?_⟩
      rintro b' (rfl | hb)
      · exact h3
      · exact h2 b' hb
    · rintro ⟨h1, h2⟩
      exact ⟨⟨h1, fun b' hb => h2 b' (.inr hb)⟩, h2 b (.inl rfl)⟩

theorem fresh_seen (held : List Lock) : ∀ cs : List (Nat × List Code), (∀ t, Lock.trace t ∉ held) →
    ((seen cs).Fresh held ↔ ∀ p ∈ cs, ∀ f ∈ p.2, ¬ f.Takes (.trace p.1) ∧ f.Fresh held)
  | [], _ => by simp [seen, Code.Fresh]
  | (t, fs) :: cs, h => by
    simp only [seen, fresh_andThen, fresh_looks t held (h t), fresh_seen held cs h, List.forall_mem_cons]

theorem fresh_walked : ∀ ws : List (Nat × List (Nat × List Code)),
    (walked ws).Fresh [] ↔ ∀ w ∈ ws, ∀ p ∈ w.2, ∀ f ∈ p.2, ¬ f.Takes (.trace p.1) ∧ ¬ f.Takes (.ring w.1) ∧ f.Fresh []
  | [] => by simp [walked, Code.Fresh]
  | (r, cs) :: ws => by
    simp only [walked, Code.Fresh, List.not_mem_nil, not_false_eq_true, true_and, fresh_walked ws, List.forall_mem_cons]
    rw [fresh_seen _ _ (by simp)]
    simp only [fresh_cons]

/-! ## C148: one goroutine -/

/-- **C148**.  Looking at a trace returns if and only if what it formats does not use the trace that is looked at, and
returns when it is run on its own. -/
theorem C148_get_exact {P : UCall → Prop} {s : St} {i : Nat} (h : Quiet P s i) (t : Tr) (fmt : Code) :
    Returns P s i (UCall.get t fmt).code ↔ ¬ fmt.Takes (.trace t.core) ∧ Returns P s i fmt := by
  simp [returns_iff h, UCall.code, fresh_method]

/-- **C148**.  Logging returns if and only if the values of the event do not use the trace, and those that are formatted
for the subscribers neither use the trace nor publish at the same broker, and all of them return when they are run on
their own. -/
theorem C148_event_exact {P : UCall → Prop} {s : St} {i : Nat} (h : Quiet P s i) (t : Tr) (fmt : Code) (fs : Nat → List Code) :
    Returns P s i (UCall.event t fmt fs).code ↔
      (¬ fmt.Takes (.trace t.core) ∧ Returns P s i fmt) ∧
      ∀ b, Wrapper.pub b ∈ t.wrappers → ∀ f ∈ fs b, ¬ f.Takes (.trace t.core) ∧ ¬ f.Takes (.broker b) ∧ Returns P s i f := by
  simp only [returns_iff h, UCall.code, fresh_logged, List.mem_reverse]

/-- **C148**.  A search returns if and only if the values that it formats do not use the trace they were logged to, nor
the buffer that is walked through, and return when they are run on their own; and the same as for any event for the event it logs. -/
theorem C148_search_exact {P : UCall → Prop} {s : St} {i : Nat} (h : Quiet P s i) (c : Nat)
    (ws : List (Nat × List (Nat × List Code))) (t : Tr) (fs : Nat → List Code) :
    Returns P s i (UCall.search c ws t fs).code ↔
      (∀ r cs, (r, cs) ∈ ws → ∀ t' gs, (t', gs) ∈ cs → ∀ f ∈ gs,
        ¬ f.Takes (.trace t') ∧ ¬ f.Takes (.ring r) ∧ Returns P s i f) ∧
      ∀ b, Wrapper.pub b ∈ t.wrappers → ∀ f ∈ fs b, ¬ f.Takes (.trace t.core) ∧ ¬ f.Takes (.broker b) ∧ Returns P s i f := by
  simp only [returns_iff h, UCall.code, Code.Fresh, fresh_andThen, fresh_walked, fresh_logged, List.mem_reverse,
    List.not_mem_nil, not_false_eq_true, true_and, takes_done, Prod.forall]

/-- Logging a value that uses its own trace never returns, and neither does `LazyTracef` of a value that logs to a trace
which is published at the same broker, if there is a subscriber; whatever else happens. -/
theorem C148_values_violated : ∃ (t : Tr) (fmt : Code), (∀ P s i, Quiet P s i → Returns P s i fmt) ∧
    ∀ P s i, Quiet P s i → ¬ Returns P s i (UCall.event t fmt fun _ => []).code := by
  refine ⟨⟨1, []⟩, (UCall.get ⟨1, []⟩ .done).code, ?_, ?_⟩
  · intro P s i h
    rw [C148_get_exact h]
    exact ⟨takes_done, (returns_iff h _).2 trivial⟩
  · intro P s i h hr
    exact ((C148_event_exact h _ _ _).1 hr).1.1 (by simp [Code.Takes, UCall.code, method, Code.ops, locked])

theorem C148_lazy_violated : ∃ (t t' : Tr) (fmt : Code), t.core ≠ t'.core ∧ fmt = (UCall.event t' .done fun _ => [.done]).code ∧
    (∀ P s i, Quiet P s i → Returns P s i fmt) ∧
    ∀ P s i, Quiet P s i → ¬ Returns P s i (UCall.event t .done fun _ => [fmt]).code := by
  refine ⟨⟨1, [.pub 7]⟩, ⟨2, [.pub 7]⟩, _, by decide, rfl, ?_, ?_⟩
  · intro P s i h
    rw [C148_event_exact h]
    refine ⟨⟨takes_done, (returns_iff h _).2 trivial⟩, ?_⟩
    intro b _ f hf
    rw [List.mem_singleton.1 hf]
    exact ⟨takes_done, takes_done, (returns_iff h _).2 trivial⟩
  · intro P s i h hr
    have := ((C148_event_exact h _ _ _).1 hr).2 7 (by simp) _ (List.mem_singleton.2 rfl)
    exact this.2.1 (by simp [Code.Takes, UCall.code, logged, published, looks, method, Code.andThen, Code.ops, locked])

/-- A search never returns if a value that was logged lazily makes a trace of its own category. -/
theorem C148_search_violated : ∃ (r : Nat) (fmt : Code), fmt = (UCall.newTrace 0 7 r 2 0 []).code ∧
    (∀ P s i, Quiet P s i → Returns P s i fmt) ∧
    ∀ P s i, Quiet P s i → ¬ Returns P s i (UCall.search 0 [(r, [(1, [fmt])])] ⟨9, []⟩ fun _ => []).code := by
  refine ⟨3, _, rfl, ?_, ?_⟩
  · intro P s i h
    rw [returns_iff h]
    simp [UCall.code, published, looks, Code.andThen, frees, Code.Fresh]
  · intro P s i h hr
    have := ((C148_search_exact h _ _ _ _).1 hr).1 3 _ (List.mem_singleton.2 rfl) 1 _ (List.mem_singleton.2 rfl) _
      (List.mem_singleton.2 rfl)
    exact this.2.1 (by simp [Code.Takes, UCall.code, published, looks, Code.andThen, frees, Code.ops, locked])

/-! ## C148: many goroutines -/

/-- The values of a trace of level `n` use only plain traces of higher levels (through methods of core traces, without
publishing), and so do the values that are formatted by this. -/
def Plain (ρ : Nat → Nat) : Nat → Code → Prop
  | _, .done => True
  | n, .lock (.trace t) f nx => n < ρ t ∧ Plain ρ (ρ t) f ∧ Plain ρ n nx
  | _, .lock _ _ _ => False

/-- All values that a call formats are such. -/
def UCall.Ok (ρ : Nat → Nat) : UCall → Prop
  | .get t fmt => Plain ρ (ρ t.core) fmt
  | .event t fmt fs => Plain ρ (ρ t.core) fmt ∧ ∀ b, ∀ f ∈ fs b, Plain ρ (ρ t.core) f
  | .finish t fs => ∀ b, ∀ f ∈ fs b, Plain ρ (ρ t.core) f
  | .free _ => True
  | .newTrace _ _ _ _ _ _ => True
  | .setCategorySize _ _ _ => True
  | .search _ ws t fs => (∀ w ∈ ws, ∀ p ∈ w.2, ∀ f ∈ p.2, Plain ρ (ρ p.1) f) ∧ ∀ b, ∀ f ∈ fs b, Plain ρ (ρ t.core) f
  | .stream _ => True
  | .publish _ t fs => ∀ f ∈ fs, Plain ρ (ρ t) f

/-- The order of the locks. -/
def level (ρ : Nat → Nat) : Lock → Nat
  | .set _ => 0
  | .ring _ => 1
  | .broker _ => 2
  | .trace t => 3 + ρ t

def Up (ρ : Nat → Nat) (h l : Lock) : Prop := level ρ h < level ρ l

theorem related_plain (ρ : Nat → Nat) : ∀ (c : Code) (n : Nat) (held : List Lock), Plain ρ n c →
    (∀ h ∈ held, level ρ h ≤ 3 + n) → c.Related (Up ρ) held
  | .done, _, _, _, _ => trivial
  | .lock (.trace t) f nx, n, held, h, hh => by
    obtain ⟨h1, h2, h3⟩ := h
    have hlt : ∀ h ∈ held, Up ρ h (.trace t) := fun x hx => by
      have := hh x hx
      simp only [Up, level] at *; omega
    refine ⟨hlt, related_plain ρ f (ρ t) _ h2 ?_, related_plain ρ nx n held h3 hh⟩
    intro x hx
    rcases List.mem_cons.1 hx with rfl | hx
    · exact Nat.le_refl _
    · have := hlt x hx
      simp only [Up, level] at *; omega
  | .lock (.set _) _ _, _, _, h, _ => h.elim
  | .lock (.ring _) _ _, _, _, h, _ => h.elim
  | .lock (.broker _) _ _, _, _, h, _ => h.elim

theorem related_method {ρ : Nat → Nat} {held : List Lock} (hh : ∀ h ∈ held, level ρ h < 3) {t : Nat} {f : Code}
    (hf : Plain ρ (ρ t) f) : (method t f).Related (Up ρ) held := by
  have hlt : ∀ h ∈ held, Up ρ h (.trace t) := fun x hx => by
    have := hh x hx
    simp only [Up, level] at *; omega
  refine ⟨hlt, related_plain ρ f (ρ t) _ hf ?_, trivial⟩
  intro x hx
  rcases List.mem_cons.1 hx with rfl | hx
  · exact Nat.le_refl _
  · have := hh x hx; omega

theorem related_looks {ρ : Nat → Nat} {held : List Lock} (hh : ∀ h ∈ held, level ρ h < 3) {t : Nat} : ∀ fs : List Code,
    (∀ f ∈ fs, Plain ρ (ρ t) f) → (looks t fs).Related (Up ρ) held
  | [], _ => trivial
  | f :: fs, h => (related_andThen _ _).2 ⟨related_method hh (h f List.mem_cons_self),
      related_looks hh fs (fun g hg => h g (List.mem_cons_of_mem _ hg))⟩

theorem related_published {ρ : Nat → Nat} {b t : Nat} {fs : List Code} (h : ∀ f ∈ fs, Plain ρ (ρ t) f) :
    (published b t fs).Related (Up ρ) [] :=
  ⟨by simp, related_looks (by simp [level]) fs h, trivial⟩

theorem related_logged {ρ : Nat → Nat} {t : Nat} {fmt : Code} {fs : Nat → List Code} (h1 : Plain ρ (ρ t) fmt)
    (h2 : ∀ b, ∀ f ∈ fs b, Plain ρ (ρ t) f) : ∀ ws, (logged t fmt fs ws).Related (Up ρ) []
  | [] => related_method (by simp) h1
  | .log :: ws => related_logged h1 h2 ws
  | .prefix :: ws => related_logged h1 h2 ws
  | .pub b :: ws => (related_andThen _ _).2 ⟨related_logged h1 h2 ws, related_published (h2 b)⟩

theorem related_finished {ρ : Nat → Nat} {t : Nat} {fs : Nat → List Code}
    (h2 : ∀ b, ∀ f ∈ fs b, Plain ρ (ρ t) f) : ∀ ws, (finished t fs ws).Related (Up ρ) []
  | [] => related_method (by simp) trivial
  | .log :: ws => (related_andThen _ _).2 ⟨related_finished h2 ws,
      (related_andThen _ _).2 ⟨related_method (by simp) trivial, related_method (by simp) trivial⟩⟩
  | .prefix :: ws => related_finished h2 ws
  | .pub b :: ws => (related_andThen _ _).2 ⟨related_finished h2 ws, related_published (h2 b)⟩

theorem related_frees (ρ : Nat → Nat) : ∀ ts, (frees ts).Related (Up ρ) []
  | [] => trivial
  | t :: ts => (related_andThen _ _).2 ⟨related_method (by simp) trivial, related_frees ρ ts⟩

theorem related_resizes (ρ : Nat → Nat) (c : Nat) : ∀ rs, (resizes rs).Related (Up ρ) [.set c]
  | [] => trivial
  | r :: rs => ⟨by simp [Up, level], trivial, related_resizes ρ c rs⟩

theorem related_seen {ρ : Nat → Nat} (r : Nat) : ∀ cs : List (Nat × List Code), (∀ p ∈ cs, ∀ f ∈ p.2, Plain ρ (ρ p.1) f) →
    (seen cs).Related (Up ρ) [.ring r]
  | [], _ => trivial
  | (t, fs) :: cs, h => (related_andThen _ _).2 ⟨related_looks (by simp [level]) fs (h (t, fs) List.mem_cons_self),
      related_seen r cs (fun p hp => h p (List.mem_cons_of_mem _ hp))⟩

theorem related_walked {ρ : Nat → Nat} : ∀ ws : List (Nat × List (Nat × List Code)),
    (∀ w ∈ ws, ∀ p ∈ w.2, ∀ f ∈ p.2, Plain ρ (ρ p.1) f) → (walked ws).Related (Up ρ) []
  | [], _ => trivial
  | (r, cs) :: ws, h => ⟨by simp, related_seen r cs (h (r, cs) List.mem_cons_self),
      related_walked ws (fun w hw => h w (List.mem_cons_of_mem _ hw))⟩

theorem related_ok {ρ : Nat → Nat} (c : UCall) (h : c.Ok ρ) : c.code.Related (Up ρ) [] := by
  cases c with
  | get t fmt => exact related_method (by simp) h
  | event t fmt fs => exact related_logged h.1 h.2 _
  | finish t fs => exact related_finished h _
  | free t => exact related_method (by simp) trivial
  | newTrace c b r t n d =>
    refine (related_andThen _ _).2 ⟨related_published ?_, by simp, trivial, by simp, trivial, related_frees ρ d⟩
    intro f hf
    rw [List.eq_of_mem_replicate hf]; trivial
  | setCategorySize c rs d => exact ⟨by simp, related_resizes ρ c rs, related_frees ρ d⟩
  | search c ws t fs =>
    exact ⟨by simp, trivial, (related_andThen _ _).2 ⟨related_walked ws h.1, related_logged (fmt := .done) True.intro h.2 _⟩⟩
  | stream b => exact ⟨by simp, trivial, trivial⟩
  | publish b t fs => exact related_published h

/-- Only finitely many goroutines are in a call. -/
theorem ubounded {P : UCall → Prop} {s t : St} (st : USteps P s t) (n : Nat) (hn : Bounded s n) : ∃ n, Bounded t n := by
  induction st generalizing n with
  | refl => exact ⟨n, hn⟩
  | head st _ ih =>
    have key : ∀ (c : Nat → List Op) (i : Nat) (k : List Op), (∀ j, n ≤ j → c j = []) →
        ∀ j, max n (i + 1) ≤ j → upd c i k j = [] := by
      intro c i k hc j hj
      rw [upd_other _ _ (by omega)]
      exact hc j (by omega)
    cases st with
    | call i c _ _ => exact ih _ (key _ i _ hn)
    | acq i l k _ _ => exact ih _ (key _ i _ hn)
    | rel i l k _ => exact ih _ (key _ i _ hn)

/-- The levels of all locks that are still to be taken are bounded. -/
theorem level_bound (ρ : Nat → Nat) (code : Nat → List Op) : ∀ n, ∃ M, ∀ i, i < n → ∀ l, Op.acq l ∈ code i → level ρ l ≤ M
  | 0 => ⟨0, fun i hi => absurd hi (Nat.not_lt_zero _)⟩
  | n + 1 => by
    obtain ⟨M, hM⟩ := level_bound ρ code n
    have h1 : ∀ k : List Op, ∃ M, ∀ l, Op.acq l ∈ k → level ρ l ≤ M := by
      intro k
      induction k with
      | nil => exact ⟨0, by simp⟩
      | cons op k ih =>
        obtain ⟨M, hM⟩ := ih
        cases op with
        | acq l =>
          refine ⟨max M (level ρ l), ?_⟩
          intro l' hl'
          rcases List.mem_cons.1 hl' with e | hl'
          · cases e; omega
          · have := hM l' hl'; omega
        | rel l => exact ⟨M, fun l' hl' => hM l' (by simpa using hl')⟩
        | pause => exact ⟨M, fun l' hl' => hM l' (by simpa using hl')⟩
    obtain ⟨M', hM'⟩ := h1 (code n)
    refine ⟨max M M', ?_⟩
    intro i hi l hl
    by_cases hin : i = n
    · subst hin; have := hM' l hl; omega
    · have := hM i (by omega) l hl; omega

/-- Somebody having a lock can go on, or waits for somebody having a lock of a higher level. -/
theorem uholder_can_step {ρ : Nat → Nat} {s : St} {held : Nat → List Lock} (h : UInv (Up ρ) s held) {n M : Nat}
    (hb : Bounded s n) (hM : ∀ i, i < n → ∀ l, Op.acq l ∈ s.code i → level ρ l ≤ M) :
    ∀ (m : Nat) (l : Lock) (i : Nat), M - level ρ l = m → s.owner l = some i → ∃ j l', s.owner l' = some j ∧ s.CanStep j := by
  intro m
  induction m using Nat.strongRecOn with
  | ind m ih =>
    intro l i hm ho
    have hmem := (h.owner i l).1 ho
    have hd := h.nest i
    cases hc : s.code i with
    | nil => rw [hc] at hd; rw [show held i = [] from hd] at hmem; cases hmem
    | cons op k =>
      rw [hc] at hd
      cases op with
      | pause => exact hd.elim
      | rel l' => exact ⟨i, l, ho, Or.inr ⟨l', k, hc⟩⟩
      | acq l' =>
        cases ho' : s.owner l' with
        | none => exact ⟨i, l, ho, Or.inl ⟨l', k, hc, ho'⟩⟩
        | some j =>
          have hr : level ρ l < level ρ l' := hd.1 l hmem
          have hi : i < n := by
            apply Classical.byContradiction
            intro hge
            rw [hb i (by omega)] at hc; cases hc
          have hl := hM i hi l' (by rw [hc]; exact List.mem_cons_self)
          exact ih (M - level ρ l') (by omega) l' j rfl ho'

theorem lockStep_ustep {P : UCall → Prop} {s t : St} (h : LockStep s t) : UStep P s t := by
  cases h with
  | acq i l k h1 h2 => exact .acq i l k h1 h2
  | rel i l k h1 => exact .rel i l k h1

/-- The goroutines can go on until nobody has a lock. -/
theorem ureleases {ρ : Nat → Nat} {s : St} {held : Nat → List Lock} (hi : UInv (Up ρ) s held) {n : Nat} (hn : Bounded s n) :
    ∃ t, LockSteps s t ∧ ∀ l, t.owner l = none := by
  have key : ∀ m s held, UInv (Up ρ) s held → Bounded s n → total s.code n = m → ∃ t, LockSteps s t ∧ ∀ l, t.owner l = none := by
    intro m
    induction m using Nat.strongRecOn with
    | ind m ih =>
      intro s held hi hn hm
      by_cases hall : ∀ l, s.owner l = none
      · exact ⟨s, .refl s, hall⟩
      · obtain ⟨l, hl⟩ := Classical.not_forall.1 hall
        cases ho : s.owner l with
        | none => exact absurd ho hl
        | some i =>
          obtain ⟨M, hM⟩ := level_bound ρ s.code n
          obtain ⟨j, l', _, hcan⟩ := uholder_can_step hi hn hM _ l i rfl ho
          have fin : ∀ t op k, s.code j = op :: k → t.code = upd s.code j k → LockStep s t → (∃ held', UInv (Up ρ) t held') →
              ∃ t', LockSteps s t' ∧ ∀ l, t'.owner l = none := by
            intro t op k hc ht st hinv
            have hj : j < n := by
              apply Classical.byContradiction
              intro hge
              rw [hn j (by omega)] at hc; cases hc
            obtain ⟨held', hi'⟩ := hinv
            have htot := (total_upd s.code j op k hc n).1 hj
            obtain ⟨t', h1, h2⟩ := ih (total t.code n) (by rw [ht]; omega) t held' hi'
              (by
                intro x hx
                rw [ht, upd_other _ _ (by omega)]
                exact hn x hx) rfl
            exact ⟨t', .head st h1, h2⟩
          rcases hcan with ⟨la, k, hc, hf⟩ | ⟨la, k, hc⟩
          · exact fin _ _ k hc rfl (.acq j la k hc hf) ⟨_, uinv_acq hi hc hf⟩
          · exact fin _ _ k hc rfl (.rel j la k hc) (by obtain ⟨tl, _, h'⟩ := uinv_rel hi hc; exact ⟨_, h'⟩)
  exact key _ s held hi hn rfl

/-- **C148**.  If traces have levels, and the values logged to a trace use only plain traces of higher levels while they
are formatted, then everybody waiting for a lock can get it, whatever calls are made by whomever. -/
theorem C148_levels_partial (ρ : Nat → Nat) (s : St) (h : UReach (UCall.Ok ρ) s) (i : Nat) (l : Lock) (k : List Op)
    (hc : s.code i = .acq l :: k) : ∃ u v, LockSteps s u ∧ LockStep u v ∧ v.owner l = some i ∧ v.code i = k := by
  obtain ⟨held, hi⟩ := uinv_steps (fun c hc => related_ok c hc) (uinv_init _) h
  obtain ⟨n, hn⟩ := ubounded h 0 (fun _ _ => rfl)
  obtain ⟨t, ht, hfree⟩ := ureleases hi hn
  obtain ⟨u, v, h1, _, h3, h4, h5⟩ := waiting_gets ht i l k hc hfree
  exact ⟨u, v, h1, h3, h4, h5⟩

/-- **C148**.  And no goroutines wait for each other. -/
theorem C148_no_cycle_partial (ρ : Nat → Nat) (s : St) (h : UReach (UCall.Ok ρ) s) (g : Nat → Prop) : ¬ Deadlock s g := by
  obtain ⟨held, hi⟩ := uinv_steps (fun c hc => related_ok c hc) (uinv_init _) h
  obtain ⟨n, hn⟩ := ubounded h 0 (fun _ _ => rfl)
  obtain ⟨M, hM⟩ := level_bound ρ s.code n
  rintro ⟨⟨i, hg⟩, hall⟩
  have key : ∀ m l k i, g i → s.code i = .acq l :: k → M - level ρ l = m → False := by
    intro m
    induction m using Nat.strongRecOn with
    | ind m ih =>
      intro l k i hg hc hm
      obtain ⟨l1, k1, j, hc1, ho, hj⟩ := hall i hg
      rw [hc] at hc1; cases hc1
      obtain ⟨l2, k2, j2, hc2, _, _⟩ := hall j hj
      have hd := hi.nest j
      rw [hc2] at hd
      have hr : level ρ l < level ρ l2 := hd.1 l ((hi.owner j l).1 ho)
      have hjn : j < n := by
        apply Classical.byContradiction
        intro hge
        rw [hn j (by omega)] at hc2; cases hc2
      have hl2 := hM j hjn l2 (by rw [hc2]; exact List.mem_cons_self)
      exact ih (M - level ρ l2) (by omega) l2 k2 j hj hc2 rfl
  obtain ⟨l, k, j, hc, _, _⟩ := hall i hg
  exact key _ l k i hg hc rfl

/-- Both calls return when nobody else does anything. -/
def Harmless (c : UCall) : Prop := ∀ P s i, Quiet P s i → Returns P s i c.code

/-- Two goroutines can wait for each other forever: values of a trace that look at another one, and values of that which
look at the first one. -/
theorem C148_mutual_violated : ∃ c d : UCall,
    c = .event ⟨1, []⟩ (UCall.get ⟨2, []⟩ .done).code (fun _ => []) ∧ d = .event ⟨2, []⟩ (UCall.get ⟨1, []⟩ .done).code (fun _ => []) ∧
    Harmless c ∧ Harmless d ∧ ∃ s, UReach (fun x => x = c ∨ x = d) s ∧ Deadlock s (fun i => i = 0 ∨ i = 1) := by
  refine ⟨_, _, rfl, rfl, ?_, ?_, ?_⟩
  · intro P s i h
    rw [returns_iff h]
    simp [UCall.code, logged, method, Code.Fresh]
  · intro P s i h
    rw [returns_iff h]
    simp [UCall.code, logged, method, Code.Fresh]
  · refine ⟨_, .head (.call 0 (.event ⟨1, []⟩ (UCall.get ⟨2, []⟩ .done).code (fun _ => [])) (.inl rfl) rfl)
      (.head (.call 1 (.event ⟨2, []⟩ (UCall.get ⟨1, []⟩ .done).code (fun _ => [])) (.inr rfl) rfl)
      (.head (.acq 0 (.trace 1) _ rfl rfl) (.head (.acq 1 (.trace 2) _ rfl rfl) (.refl _)))), ⟨0, .inl rfl⟩, ?_⟩
    rintro i (rfl | rfl)
    · exact ⟨.trace 2, _, 1, rfl, rfl, .inr rfl⟩
    · exact ⟨.trace 1, _, 0, rfl, rfl, .inl rfl⟩

/-- And so can `Tracef` to a trace of a collector, of a value that logs to another trace of that collector, and the
`Publish` after another event of the first trace. -/
theorem C148_publish_violated : ∃ c d : UCall,
    c = .event ⟨1, [.pub 7]⟩ (UCall.event ⟨2, [.pub 7]⟩ .done fun _ => [.done]).code (fun _ => [.done]) ∧
    d = .event ⟨1, [.pub 7]⟩ .done (fun _ => [.done]) ∧
    Harmless c ∧ Harmless d ∧ ∃ s, UReach (fun x => x = c ∨ x = d) s ∧ Deadlock s (fun i => i = 0 ∨ i = 1) := by
  refine ⟨_, _, rfl, rfl, ?_, ?_, ?_⟩
  · intro P s i h
    rw [returns_iff h]
    simp [UCall.code, logged, published, looks, Code.andThen, method, Code.Fresh]
  · intro P s i h
    rw [returns_iff h]
    simp [UCall.code, logged, published, looks, Code.andThen, method, Code.Fresh]
  · refine ⟨_, .head (.call 1 (.event ⟨1, [.pub 7]⟩ .done (fun _ => [.done])) (.inr rfl) rfl)
      (.head (.acq 1 (.trace 1) _ rfl rfl) (.head (.rel 1 (.trace 1) _ rfl)
      (.head (.call 0 (.event ⟨1, [.pub 7]⟩ (UCall.event ⟨2, [.pub 7]⟩ .done fun _ => [.done]).code (fun _ => [.done])) (.inl rfl) rfl)
      (.head (.acq 0 (.trace 1) _ rfl rfl) (.head (.acq 0 (.trace 2) _ rfl rfl) (.head (.rel 0 (.trace 2) _ rfl)
      (.head (.acq 1 (.broker 7) _ rfl rfl) (.refl _)))))))), ⟨0, .inl rfl⟩, ?_⟩
    rintro i (rfl | rfl)
    · exact ⟨.broker 7, _, 1, rfl, rfl, .inr rfl⟩
    · exact ⟨.trace 1, _, 0, rfl, rfl, .inl rfl⟩

/-! ## Examples -/

/-- The beginning is quiet. -/
example (P : UCall → Prop) (i : Nat) : Quiet P St.init i := ⟨.refl _, fun _ => rfl, rfl⟩

/-- Values of a trace in a collector that log to a plain trace, while a search formats them and somebody else logs. -/
example : ∃ (ρ : Nat → Nat) (s : St) (k : List Op), UReach (UCall.Ok ρ) s ∧ s.code 0 = .acq (.trace 5) :: k ∧
    s.owner (.ring 1) = some 0 ∧ s.owner (.trace 4) = some 0 ∧ s.owner (.trace 5) = some 1 := by
  refine ⟨id, _, _, .head (.call 0 (.search 0 [(1, [(4, [(UCall.event ⟨5, []⟩ .done fun _ => []).code])])] ⟨9, []⟩ fun _ => []) ?_ rfl)
    (.head (.acq 0 (.set 0) _ rfl rfl) (.head (.rel 0 (.set 0) _ rfl) (.head (.acq 0 (.ring 1) _ rfl rfl)
    (.head (.acq 0 (.trace 4) _ rfl rfl)
    (.head (.call 1 (.event ⟨5, []⟩ (UCall.get ⟨6, []⟩ .done).code fun _ => []) ?_ rfl)
    (.head (.acq 1 (.trace 5) _ rfl rfl) (.refl _))))))), rfl, rfl, rfl, rfl⟩
  · simp [UCall.Ok, UCall.code, logged, method, Plain]
  · simp [UCall.Ok, UCall.code, logged, method, Plain]

end Trc.Lock
