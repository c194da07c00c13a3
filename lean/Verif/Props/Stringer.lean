import Verif.Stringer.Model
import Verif.Props.Core

/-! # Property C14: lazy formatting -/

set_option linter.unusedSectionVars false
set_option linter.unusedVariables false
set_option linter.unusedSimpArgs false

namespace Trc.StringerConc

open Trc.Core

variable {W A : Type} [Sys W A]

/-- `v` was formatted in the run, by a reader that had found no text: at some step of `acts`
reader `i` formatted, with memory as it was then, and `v` is the result. -/
def FormattedDuring (f : String) (args : List A) (s₀ : St W) (acts : List (Action W)) (v : String) : Prop :=
  ∃ pre i post s, acts = pre ++ .reader i :: post ∧ Exec f args s₀ pre s ∧ s.pc i = .loaded ∧
    v = Sys.sprintf s.mem f args

theorem FormattedDuring.snoc {f : String} {args : List A} {s₀ : St W} {acts : List (Action W)} {v : String}
    (h : FormattedDuring f args s₀ acts v) (a : Action W) : FormattedDuring f args s₀ (acts ++ [a]) v := by
  obtain ⟨pre, i, post, s, rfl, h1, h2, h3⟩ := h
  exact ⟨pre, i, post ++ [a], s, by simp, h1, h2, h3⟩

structure Inv (f : String) (args : List A) (s₀ : St W) (acts : List (Action W)) (s : St W) : Prop where
  results : ∀ p ∈ s.results, s.str.valid = true ∧ p.2 = s.str.value
  lost : ∀ i, s.pc i = .lost → s.str.valid = true
  panicked : ∀ i, s.pc i ≠ .panicked
  invalid : s.str.valid = false → s.str = zeroNullString
  formatted : ∀ i v, s.pc i = .formatted v → FormattedDuring f args s₀ acts v
  text : s.str.valid = true → s.str = s₀.str ∨ FormattedDuring f args s₀ acts s.str.value

theorem inv_init (f : String) (args : List A) (z : Stringer A) (w : W)
    (hz : z.str.valid = false → z.str = zeroNullString) :
    Inv f args (St.init z w) [] (St.init z w) := by
  constructor
  · intro p hp; simp [St.init] at hp
  · intro i h; simp [St.init] at h
  · intro i h; simp [St.init] at h
  · exact hz
  · intro i v h; simp [St.init] at h
  · intro _; exact Or.inl rfl

theorem inv_exec {f : String} {args : List A} {s₀ : St W} (h₀ : Inv f args s₀ [] s₀)
    {acts : List (Action W)} {s : St W} (h : Exec f args s₀ acts s) : Inv f args s₀ acts s := by
  induction h with
  | nil => exact h₀
  | @snoc acts s a hx ih =>
    have hfmt : ∀ v, FormattedDuring f args s₀ acts v → FormattedDuring f args s₀ (acts ++ [a]) v :=
      fun v h => h.snoc a
    have htext : s.str.valid = true → s.str = s₀.str ∨ FormattedDuring f args s₀ (acts ++ [a]) s.str.value :=
      fun hv => (ih.text hv).imp _root_.id (hfmt _)
    cases a with
    | mutate w =>
      exact ⟨ih.results, ih.lost, ih.panicked, ih.invalid, fun i v h => hfmt v (ih.formatted i v h), htext⟩
    | reader i =>
      simp only [St.step]
      cases hpc : s.pc i with
      | idle =>
        by_cases hv : s.str.valid = true
        · simp only [hv, if_true]
          constructor
          · intro p hp
            simp only [St.ret, St.setPC, List.mem_append, List.mem_singleton] at hp ⊢
            rcases hp with hp | rfl
            · exact ih.results p hp
            · exact ⟨hv, rfl⟩
          · intro j hj; exact hv
          · intro j hj
            simp only [St.ret, St.setPC] at hj
            split at hj
            · simp at hj
            · exact ih.panicked j hj
          · exact ih.invalid
          · intro j v hj
            simp only [St.ret, St.setPC] at hj
            split at hj
            · simp at hj
            · exact hfmt v (ih.formatted j v hj)
          · exact htext
        · simp only [hv, Bool.false_eq_true, if_false]
          constructor
          · exact ih.results
          · intro j hj
            simp only [St.setPC] at hj
            split at hj
            · simp at hj
            · exact ih.lost j hj
          · intro j hj
            simp only [St.setPC] at hj
            split at hj
            · simp at hj
            · exact ih.panicked j hj
          · exact ih.invalid
          · intro j v hj
            simp only [St.setPC] at hj
            split at hj
            · simp at hj
            · exact hfmt v (ih.formatted j v hj)
          · exact htext
      | loaded =>
        simp only
        constructor
        · exact ih.results
        · intro j hj
          simp only [St.setPC] at hj
          split at hj
          · simp at hj
          · exact ih.lost j hj
        · intro j hj
          simp only [St.setPC] at hj
          split at hj
          · simp at hj
          · exact ih.panicked j hj
        · exact ih.invalid
        · intro j v hj
          simp only [St.setPC] at hj
          split at hj
          · simp only [PC.formatted.injEq] at hj
            exact ⟨acts, i, [], s, rfl, hx, hpc, hj.symm⟩
          · exact hfmt v (ih.formatted j v hj)
        · exact htext
      | formatted v =>
        simp only
        by_cases hz : s.str = zeroNullString
        · rw [if_pos hz]
          have hnv : s.str.valid = false := by rw [hz]; rfl
          constructor
          · intro p hp
            simp only [St.ret, St.setPC, List.mem_append, List.mem_singleton] at hp ⊢
            rcases hp with hp | rfl
            · have := (ih.results p hp).1; rw [hnv] at this; simp at this
            · simp
          · intro j hj; rfl
          · intro j hj
            simp only [St.ret, St.setPC] at hj
            split at hj
            · simp at hj
            · exact ih.panicked j hj
          · intro h; simp [St.ret, St.setPC] at h
          · intro j v hj
            simp only [St.ret, St.setPC] at hj
            split at hj
            · simp at hj
            · exact hfmt v (ih.formatted j v hj)
          · intro _; exact Or.inr (hfmt v (ih.formatted i v hpc))
        · rw [if_neg hz]
          have hv : s.str.valid = true := by
            cases h : s.str.valid with
            | true => rfl
            | false => exact absurd (ih.invalid h) hz
          constructor
          · exact ih.results
          · intro j hj; exact hv
          · intro j hj
            simp only [St.setPC] at hj
            split at hj
            · simp at hj
            · exact ih.panicked j hj
          · exact ih.invalid
          · intro j v hj
            simp only [St.setPC] at hj
            split at hj
            · simp at hj
            · exact hfmt v (ih.formatted j v hj)
          · exact htext
      | lost =>
        have hv := ih.lost i hpc
        simp only [hv, if_true]
        constructor
        · intro p hp
          simp only [St.ret, St.setPC, List.mem_append, List.mem_singleton] at hp ⊢
          rcases hp with hp | rfl
          · exact ih.results p hp
          · exact ⟨hv, rfl⟩
        · intro j hj; exact hv
        · intro j hj
          simp only [St.ret, St.setPC] at hj
          split at hj
          · simp at hj
          · exact ih.panicked j hj
        · exact ih.invalid
        · intro j v hj
          simp only [St.ret, St.setPC] at hj
          split at hj
          · simp at hj
          · exact hfmt v (ih.formatted j v hj)
        · exact htext
      | panicked => exact absurd hpc (ih.panicked i)

/-- For every interleaving of any number of readers with each other and with changes of
the arguments: no reader of a lazy stringer panics, all reads that return, return the
same text, and that text is the formatting of the arguments as they were at one moment
during a read. -/
theorem C14_lazy_concurrent (f : String) (args : List A) (w : W) (acts : List (Action W)) (s : St W)
    (h : Exec f args (St.init (newLazyStringer f args) w) acts s) :
    (∀ i, s.pc i ≠ .panicked) ∧
    (∀ p ∈ s.results, ∀ q ∈ s.results, p.2 = q.2) ∧
    (∀ p ∈ s.results, FormattedDuring f args (St.init (newLazyStringer f args) w) acts p.2) := by
  have inv := inv_exec (inv_init f args (newLazyStringer f args) w (fun _ => rfl)) h
  refine ⟨inv.panicked, ?_, ?_⟩
  · intro p hp q hq
    rw [(inv.results p hp).2, (inv.results q hq).2]
  · intro p hp
    obtain ⟨hv, he⟩ := inv.results p hp
    rcases inv.text hv with ht | ht
    · rw [ht] at hv; simp [St.init, newLazyStringer, zeroNullString] at hv
    · rw [he]; exact ht

/-- The text, once returned by any read, is returned by every later read, whatever happens
to the arguments in between. -/
theorem C14_lazy_stable (f : String) (args : List A) (w : W)
    (acts : List (Action W)) (s : St W)
    (h : Exec f args (St.init (newLazyStringer f args) w) acts s) (i : Nat) (v : String)
    (hret : (i, v) ∈ s.results) (acts' : List (Action W)) (s' : St W)
    (h' : Exec f args s acts' s') : s'.str = { valid := true, value := v } ∧ ∀ q ∈ s'.results, q.2 = v := by
  have inv := inv_exec (inv_init f args (newLazyStringer f args) w (fun _ => rfl)) h
  have h2 : ∀ acts' s', Exec f args s acts' s' →
      Exec f args (St.init (newLazyStringer f args) w) (acts ++ acts') s' ∧ (i, v) ∈ s'.results := by
    intro acts' s' h'
    induction h' with
    | nil => exact ⟨by simpa using h, hret⟩
    | @snoc acts' s a hx ih =>
      refine ⟨by rw [← List.append_assoc]; exact .snoc a ih.1, ?_⟩
      cases a with
      | mutate w => exact ih.2
      | reader j =>
        simp only [St.step]
        cases s.pc j with
        | idle => simp only; split <;> simp [St.ret, St.setPC, ih.2]
        | loaded => exact ih.2
        | formatted v => simp only; split <;> simp [St.ret, St.setPC, ih.2]
        | lost => simp only; split <;> simp [St.ret, St.setPC, ih.2]
        | panicked => exact ih.2
  obtain ⟨hx, hmem⟩ := h2 acts' s' h'
  have inv' := inv_exec (inv_init f args (newLazyStringer f args) w (fun _ => rfl)) hx
  obtain ⟨hv, he⟩ := inv'.results _ hmem
  refine ⟨?_, fun q hq => by rw [(inv'.results q hq).2]; exact he.symm⟩
  simp only at he
  rw [he, ← hv]

/-- A normal stringer never re-formats: all readers get the text computed at creation. -/
theorem C14_normal_concurrent (f : String) (args : List A) (w₀ w : W) (acts : List (Action W)) (s : St W)
    (h : Exec f args (St.init (newNormalStringer w₀ f args) w) acts s) :
    (∀ i, s.pc i ≠ .panicked) ∧ ∀ p ∈ s.results, p.2 = Sys.sprintf w₀ f args := by
  have inv := inv_exec (inv_init f args (newNormalStringer w₀ f args) w (by simp [newNormalStringer])) h
  refine ⟨inv.panicked, ?_⟩
  have hs : s.str = { valid := true, value := Sys.sprintf w₀ f args } ∧
      ∀ i, s.pc i = .idle := by
    clear inv
    induction h with
    | nil => exact ⟨rfl, fun _ => rfl⟩
    | @snoc acts s a hx ih =>
      obtain ⟨ih1, ih2⟩ := ih
      cases a with
      | mutate w => exact ⟨ih1, ih2⟩
      | reader i =>
        simp only [St.step, ih2 i, ih1, if_true]
        refine ⟨by simpa [St.ret, St.setPC] using ih1, ?_⟩
        intro j; simp [St.ret, St.setPC, ih2 j]
  intro p hp
  rw [(inv.results p hp).2, hs.1]

/-- On a trace: the text of a lazily logged event read for the first time (no read between
the call and this one) is the formatting of its arguments in the memory as it is at
that read. -/
theorem C14_lazy_first_read (settings : List Setting) (start : Time) (id source category : String)
    (old : CoreTrace A) (h : Hist W A)
    (hlim : ((Spec.logged h).length : Int) ≤ (Globals.after settings).traceMaxEvents)
    (hlims : ∀ m ∈ Spec.limitsSet (Spec.active h), ((Spec.logged h).length : Int) ≤ m)
    (hnoread : ∀ p ∈ h, ∀ n s, p.2 ≠ .read n s) (env : Env W) :
    ∃ tr evs, (fresh settings start id source category old).run h = some tr ∧
      tr.events' env = some evs ∧
      ∀ (i : Nat) ev e, evs[i]? = some ev → (Spec.logged h)[i]? = some e → Spec.isLazy e.kind = true →
        ev.what = Sys.sprintf env.w e.format e.args := by
  rw [fresh_run]
  refine ⟨_, _, rfl, events'_conc _ _ env, ?_⟩
  obtain ⟨h1, h2⟩ := run_stored_all (a := Abs.new (Globals.after settings).traceMaxEvents) rfl
    (Spec.logged h).length h hlims hlim (by simp [Abs.new]) rfl
  have hfr : ∀ (h : Hist W A) (a : Abs W A), (∀ p ∈ h, ∀ n s, p.2 ≠ .read n s) →
      (∀ s ∈ a.stored, s.firstRead = none) → ∀ s ∈ (a.run h).stored, s.firstRead = none := by
    intro h
    induction h with
    | nil => intro a _ ha; exact ha
    | cons p h ih =>
      intro a hp ha
      obtain ⟨env, c⟩ := p
      simp only [Abs.run]
      apply ih _ (fun p' hp' => hp p' (List.mem_cons_of_mem _ hp'))
      cases c with
      | read n s => exact absurd rfl (hp (env, .read n s) (List.mem_cons_self ..) n s)
      | setMaxEvents m => exact ha
      | finish => simp only [Abs.step]; split <;> exact ha
      | log k f x cs =>
        simp only [Abs.step, Abs.log]
        split
        · exact ha
        · split
          · exact ha
          · intro s hs
            simp only [List.mem_append, List.mem_singleton] at hs
            rcases hs with hs | rfl
            · exact ha s hs
            · rfl
  have hf := hfr h (Abs.new (Globals.after settings).traceMaxEvents) hnoread (by simp [Abs.new])
  generalize (Abs.new (Globals.after settings).traceMaxEvents : Abs W A).run h = a at h1 h2 hf ⊢
  simp only [Abs.new, List.map_nil, List.nil_append] at h1
  rw [read_all]
  simp only [h2, Nat.lt_irrefl, gt_iff_lt, if_false]
  intro i ev e hev he hl
  rw [← h1] at he
  simp only [List.getElem?_map, Option.map_eq_some_iff] at hev he
  obtain ⟨s, hs, rfl⟩ := hev
  obtain ⟨s', hs', rfl⟩ := he
  rw [hs] at hs'
  obtain rfl := Option.some.inj hs'
  simp [Stored.event, Stored.text, hl, hf s (List.mem_of_getElem? hs)]

/-- On a trace: every read after a read shows the same text for all events of that read,
whatever is called and whatever the memory is. -/
theorem C14_lazy_later_reads (settings : List Setting) (start : Time) (id source category : String)
    (old : CoreTrace A) (h₁ h₂ : Hist W A) (env env' : Env W) :
    ∃ tr evs tr₁ tr₂ evs₂, (fresh settings start id source category old).run h₁ = some tr ∧
      tr.eventsDetail env (-1) true = some (evs, tr₁) ∧ tr₁.run h₂ = some tr₂ ∧
      tr₂.events' env' = some evs₂ ∧
      (tr₂.truncated = 0 → evs <+: evs₂) := by
  rw [fresh_run]
  generalize freshBase settings start id source category = b
  generalize (Abs.new (Globals.after settings).traceMaxEvents : Abs W A).run h₁ = a
  refine ⟨_, _, _, _, _, rfl, detail_conc b a env (-1) true, run_conc b _ h₂, events'_conc b _ env', ?_⟩
  -- reads are for ever: the events shown by a marked prefix do not change
  have key : ∀ (h : Hist W A) (a' : Abs W A) (l : List (Stored W A)),
      (∀ s ∈ l, s.firstRead.isSome ∧ s.stackRead = true) → l <+: a'.stored →
      l <+: (a'.run h).stored ∧ a'.trunc ≤ (a'.run h).trunc := by
    intro h
    induction h with
    | nil => intro a' l _ hl; exact ⟨hl, Nat.le_refl _⟩
    | cons p h ih =>
      intro a' l hm hl
      obtain ⟨e, c⟩ := p
      have hstep : l <+: (a'.step e c).stored ∧ a'.trunc ≤ (a'.step e c).trunc := by
        cases c with
        | log k f x cs =>
          simp only [Abs.step, Abs.log]
          split
          · exact ⟨hl, Nat.le_refl _⟩
          · split
            · exact ⟨hl, Nat.le_succ _⟩
            · exact ⟨hl.trans (List.prefix_append _ _), Nat.le_refl _⟩
        | finish => simp only [Abs.step]; split <;> exact ⟨hl, Nat.le_refl _⟩
        | setMaxEvents m => exact ⟨hl, Nat.le_refl _⟩
        | read n st =>
          refine ⟨?_, Nat.le_refl _⟩
          simp only [Abs.step]
          obtain ⟨r, hr⟩ := hl
          have hmark : l.map (fun s => s.mark e.w st) = l := by
            conv => rhs; rw [← List.map_id l]
            apply List.map_congr_left
            intro s hs
            obtain ⟨h1, h2⟩ := hm s hs
            obtain ⟨e', fr, sr⟩ := s
            cases fr with
            | none => simp at h1
            | some w => simp at h2; subst h2; simp [Stored.mark]
          generalize a'.stored.length - window a'.stored.length n = k
          rw [← hr]
          by_cases hk : k ≤ l.length
          · rw [List.take_append_of_le_length hk, List.drop_append_of_le_length hk, List.map_append]
            refine ⟨r.map (fun s => s.mark e.w st), ?_⟩
            rw [← List.append_assoc]
            congr 1
            conv => lhs; rw [← List.take_append_drop k l]
            congr 1
            rw [List.map_drop, hmark]
          · have hk' : l.length ≤ k := by omega
            rw [List.take_append, List.take_of_length_le hk', List.append_assoc]
            exact List.prefix_append _ _
      obtain ⟨i1, i2⟩ := ih (a'.step e c) l hm hstep.1
      exact ⟨i1, Nat.le_trans hstep.2 i2⟩
  generalize ha₁ : a.step env (.read (-1) true) = a₁
  have hs₁ : a₁.stored = a.stored.map (fun s => s.mark env.w true) := by
    rw [← ha₁]; simp [Abs.step, window]
  have ht₁ : a₁.trunc = a.trunc := by rw [← ha₁]; rfl
  obtain ⟨k1, k2⟩ := key h₂ a₁ a₁.stored (by
    intro s hs
    rw [hs₁, List.mem_map] at hs
    obtain ⟨s', _, rfl⟩ := hs
    simp [Stored.mark]) List.prefix_rfl
  intro ht
  have ht2 : (a₁.run h₂).trunc = 0 := by
    have : ((a₁.run h₂).trunc : Int) = 0 := ht
    omega
  have ht0 : a.trunc = 0 := by omega
  rw [read_all, read_all, ht2, ht0]
  simp only [Nat.lt_irrefl, gt_iff_lt, if_false]
  have hev : a₁.stored.map (fun s => s.event b env'.w true) =
      a.stored.map (fun s => s.event b env.w true) := by
    rw [hs₁, List.map_map]
    apply List.map_congr_left
    intro s _
    simp only [Function.comp, Stored.event, Stored.mark, Stored.text]
    cases s.firstRead <;> rfl
  rw [← hev]
  exact k1.map _

/-! ## Non-vacuity -/

/-- Two readers racing while the argument changes from 1 to 2: both formatted different
texts, the second one's swap came first, both return the second one's text. -/
example : ∃ s : St (Nat → Nat),
    Exec "x" [0] (St.init (newLazyStringer "x" [0]) (fun _ => 1))
      [.reader 0, .reader 1, .reader 0, .mutate (fun _ => 2), .reader 1, .reader 1, .reader 0, .reader 0] s ∧
    s.results = [(1, "x[2]"), (0, "x[2]")] := by
  have e0 : Exec (W := Nat → Nat) "x" [0] (St.init (newLazyStringer "x" [0]) (fun _ => 1)) [] _ := .nil
  have e := ((((((((e0.snoc (.reader 0)).snoc (.reader 1)).snoc (.reader 0)).snoc
    (.mutate (fun _ => 2))).snoc (.reader 1)).snoc (.reader 1)).snoc (.reader 0)).snoc (.reader 0))
  exact ⟨_, e, rfl⟩

end Trc.StringerConc
