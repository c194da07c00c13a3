import Verif.Cmd.Stream
import Verif.Props.StreamClient

/-!
# C83: `trc stream` streams until told to stop, and cleans up
-/

namespace Trc.Cmd

open Trc.Web

variable {interval : Int}

/-! ## Specification -/

/-- A call of `Stream` that is over: it has returned, and its context is done, which closes its
connection. -/
def Ended (c : CSt) : Prop := (∃ r, c.pc = .returned r) ∧ c.ctx = true

/-- The traces that each call of `Stream` has handed to the channel. -/
def handed (s : RSt) : List (List Static) := s.streams.map (·.sent)

/-! ## Lemmas -/

theorem cancelLast_snoc (a : List CSt) (c : CSt) : cancelLast (a ++ [c]) = a ++ [CSt.done c] := by
  induction a with
  | nil => rfl
  | cons x a ih =>
    cases a with
    | nil => rfl
    | cons y a =>
      rw [List.cons_append, List.cons_append, cancelLast]
      · rw [← List.cons_append, ih]; rfl
      · intro h; simp at h

theorem ended_step {c c' : CSt} (h : CStep c c') (hc : c'.ctx = c.ctx) (he : Ended c) : Ended c' := by
  obtain ⟨⟨r, hr⟩, h2⟩ := he
  exact ⟨⟨r, (C81_final hr (.snoc .refl h)).1⟩, by rw [hc, h2]⟩

theorem ended_done {c : CSt} (he : Ended c) : Ended (CSt.done c) := ⟨he.1, rfl⟩

/-- Streams other than the last one. -/
theorem mem_dropLast_mid {a b : List CSt} {c c' e : CSt} (h : e ∈ (a ++ c' :: b).dropLast) :
    e ∈ (a ++ c :: b).dropLast ∨ (e = c' ∧ c ∈ (a ++ c :: b).dropLast) := by
  cases b with
  | nil =>
    rw [List.dropLast_concat] at h ⊢
    exact .inl h
  | cons x b =>
    rw [List.dropLast_append_of_ne_nil (by simp), List.dropLast_cons_of_ne_nil (by simp)] at h ⊢
    simp only [List.mem_append, List.mem_cons] at h ⊢
    rcases h with h | h | h
    · exact .inl (.inl h)
    · exact .inr ⟨h, by simp⟩
    · exact .inl (.inr (.inr h))

/-- Positions at which no call of `Stream` is going on. -/
def quiet : RPC → Bool
  | .select | .stopping | .crashed => false
  | _ => true

structure RInv (s : RSt) : Prop where
  reach : ∀ c ∈ s.streams, CReach c
  ctx : s.ctx = true → ∀ c ∈ s.streams, c.ctx = true
  before : ∀ c ∈ s.streams.dropLast, Ended c
  quiet : quiet s.pc = true → ∀ c ∈ s.streams, Ended c
  some : s.pc = .select ∨ s.pc = .stopping → s.streams ≠ []
  stop : s.pc = .stopping ∨ s.pc = .leaving ∨ s.pc = .returned → s.ctx = true
  sub : s.pc = .select → s.ctx = false → ∀ a c, s.streams = a ++ [c] → c.ctx = false
  rep : s.pc = .returned → s.rep = .done
  unborn : s.rep = .unborn → s.pc = .start
  started : s.rep ≠ .unborn → s.pc ≠ .start

theorem rinv_init : RInv {} :=
  ⟨by simp, by simp, by simp, by simp, by simp, by simp, by simp, by simp, by simp, by simp⟩

theorem creach_done {c : CSt} (h : CReach c) : CReach (CSt.done c) := .snoc h .cancel

theorem rinv_step {s s' : RSt} (h : RStep interval s s') (hi : RInv s) : RInv s' := by
  cases h with
  | parentDone =>
    refine ⟨fun c hc => ?_, fun _ c hc => ?_, fun c hc => ?_, fun hq c hc => ?_, fun hp => ?_, fun _ => rfl, by simp, hi.rep, hi.unborn, hi.started⟩
    · obtain ⟨d, hd, rfl⟩ := List.mem_map.mp hc; exact creach_done (hi.reach d hd)
    · obtain ⟨d, hd, rfl⟩ := List.mem_map.mp hc; rfl
    · simp only [← List.map_dropLast] at hc
      obtain ⟨d, hd, rfl⟩ := List.mem_map.mp hc; exact ended_done (hi.before d hd)
    · obtain ⟨d, hd, rfl⟩ := List.mem_map.mp hc; exact ended_done (hi.quiet hq d hd)
    · simpa using hi.some hp
  | @client a c c' b he hs hc =>
    have hm : ∀ d, d ∈ a ++ c' :: b → d ∈ s.streams ∨ d = c' := by
      intro d hd
      rw [he]
      simp only [List.mem_append, List.mem_cons] at hd ⊢
      rcases hd with h | h | h
      · exact .inl (.inl h)
      · exact .inr h
      · exact .inl (.inr (.inr h))
    have hcm : c ∈ s.streams := by rw [he]; simp
    refine ⟨fun d hd => ?_, fun hx d hd => ?_, fun d hd => ?_, fun hq d hd => ?_, fun hp => by simp, hi.stop, fun hp hx a' d hd => ?_, hi.rep, hi.unborn, hi.started⟩
    · rcases hm d hd with h | rfl
      · exact hi.reach d h
      · exact .snoc (hi.reach c hcm) hs
    · rcases hm d hd with h | rfl
      · exact hi.ctx hx d h
      · rw [hc]; exact hi.ctx hx c hcm
    · have hb := hi.before
      rw [he] at hb
      rcases mem_dropLast_mid (c := c) hd with h | ⟨rfl, h⟩
      · exact hb d h
      · exact ended_step hs hc (hb c h)
    · rcases hm d hd with h | rfl
      · exact hi.quiet hq d h
      · exact ended_step hs hc (hi.quiet hq c hcm)
    · have hsub := hi.sub hp hx
      rcases List.eq_nil_or_concat b with rfl | ⟨b', l, rfl⟩
      · have : d = c' := by
          have := List.append_inj_right' hd rfl
          simpa using this.symm
        rw [this, hc]
        exact hsub a c he
      · have e : (a ++ c' :: b') ++ [l] = a' ++ [d] := by rw [← hd]; simp
        have : d = l := by
          have := List.append_inj_right' e rfl
          simpa using this.symm
        rw [this]
        exact hsub (a ++ c :: b') l (by rw [he]; simp)
  | spawn hp =>
    have hq := hi.quiet (by rw [hp]; rfl)
    exact ⟨hi.reach, hi.ctx, hi.before, fun _ => hq, by simp, by simp, by simp, by simp, by simp, by simp⟩
  | ticker hr hp =>
    exact ⟨hi.reach, hi.ctx, hi.before, hi.quiet, hi.some, hi.stop, hi.sub,
      fun hq => (by rw [hi.rep hq] at hr; cases hr), by simp, fun _ => hi.started (by rw [hr]; simp)⟩
  | tickerPanics hr hp =>
    exact ⟨hi.reach, hi.ctx, hi.before, by simp [quiet], by simp, by simp, by simp, by simp, fun h => (by have h : s.rep = .unborn := h; rw [hr] at h; cases h), by simp⟩
  | reporterDone hr hp =>
    exact ⟨hi.reach, hi.ctx, hi.before, hi.quiet, hi.some, hi.stop, hi.sub, fun _ => rfl, by simp, fun _ => hi.started (by rw [hr]; simp)⟩
  | begin hp hc =>
    have hq := hi.quiet (by rw [hp]; rfl)
    refine ⟨fun c hm => ?_, fun hx => ?_, fun c hm => ?_, by simp [quiet], by simp, by simp, fun _ _ a c hs => ?_, by simp,
      fun h => ?_, by simp⟩
    · simp only [List.mem_append, List.mem_singleton] at hm
      rcases hm with h | rfl
      · exact hi.reach c h
      · exact .refl
    · simp only at hx; rw [hc] at hx; cases hx
    · rw [List.dropLast_concat] at hm; exact hq c hm
    · have := List.append_inj_right' hs rfl
      simp only [List.cons.injEq, and_true] at this
      rw [← this]
    · have := hi.unborn h; rw [hp] at this; cases this
  | exit hp hc =>
    have hq := hi.quiet (by rw [hp]; rfl)
    exact ⟨hi.reach, hi.ctx, hi.before, fun _ => hq, by simp, fun _ => hc, by simp, by simp,
      fun h => (by have := hi.unborn h; rw [hp] at this; cases this), by simp⟩
  | @subctxDone a c hp he hc =>
    have hctx : s.ctx = true := by
      cases hx : s.ctx with
      | true => rfl
      | false => rw [hi.sub hp hx a c he] at hc; cases hc
    have hb := hi.before
    rw [he, List.dropLast_concat] at hb
    refine ⟨fun d hd => ?_, fun hx d hd => ?_, fun d hd => ?_, by simp [quiet], fun _ => ?_, fun _ => hctx, by simp, by simp,
      fun h => (by have := hi.unborn h; rw [hp] at this; cases this), by simp⟩
    · simp only [he, cancelLast_snoc, List.mem_append, List.mem_singleton] at hd
      rcases hd with h | rfl
      · exact hi.reach d (by rw [he]; simp [h])
      · exact creach_done (hi.reach c (by rw [he]; simp))
    · simp only [he, cancelLast_snoc, List.mem_append, List.mem_singleton] at hd
      rcases hd with h | rfl
      · exact (hb d h).2
      · rfl
    · simp only [he, cancelLast_snoc, List.dropLast_concat] at hd
      exact hb d hd
    · simp [he, cancelLast_snoc]
  | @stopped a c r hp he hr =>
    have hctx := hi.stop (.inl hp)
    have hb := hi.before
    rw [he, List.dropLast_concat] at hb
    refine ⟨hi.reach, hi.ctx, hi.before, fun _ d hd => ?_, by simp, fun _ => hctx, by simp, by simp,
      fun h => (by have := hi.unborn h; rw [hp] at this; cases this), by simp⟩
    simp only [he, List.mem_append, List.mem_singleton] at hd
    rcases hd with h | rfl
    · exact hb d h
    · exact ⟨⟨r, hr⟩, hi.ctx hctx d (by rw [he]; simp)⟩
  | @failed a c r hp he hr =>
    have hb := hi.before
    rw [he, List.dropLast_concat] at hb
    have hall : ∀ d ∈ cancelLast s.streams, Ended d := by
      intro d hd
      simp only [he, cancelLast_snoc, List.mem_append, List.mem_singleton] at hd
      rcases hd with h | rfl
      · exact hb d h
      · exact ⟨⟨r, hr⟩, rfl⟩
    refine ⟨fun d hd => ?_, fun hx d hd => (hall d hd).2, fun d hd => hall d (List.dropLast_subset _ hd), fun _ => hall, by simp, by simp,
      by simp, by simp, fun h => (by have := hi.unborn h; rw [hp] at this; cases this), by simp⟩
    simp only [he, cancelLast_snoc, List.mem_append, List.mem_singleton] at hd
    rcases hd with h | rfl
    · exact hi.reach d (by rw [he]; simp [h])
    · exact creach_done (hi.reach c (by rw [he]; simp))
  | wake hp =>
    have hq := hi.quiet (by rw [hp]; rfl)
    exact ⟨hi.reach, hi.ctx, hi.before, fun _ => hq, by simp, by simp, by simp, by simp,
      fun h => (by have := hi.unborn h; rw [hp] at this; cases this), by simp⟩
  | leave hp hr =>
    have hq := hi.quiet (by rw [hp]; rfl)
    have hctx := hi.stop (.inr (.inl hp))
    exact ⟨hi.reach, hi.ctx, hi.before, fun _ => hq, by simp, fun _ => hctx, by simp, fun _ => hr,
      fun h => (by have := hi.unborn h; rw [hp] at this; cases this), by simp⟩

theorem rreach_inv {s : RSt} (h : RReach interval s) : RInv s := by
  induction h with
  | refl => exact rinv_init
  | snoc _ h ih => exact rinv_step h ih

theorem RSteps.trans {a b c : RSt} (h : RSteps interval a b) (k : RSteps interval b c) : RSteps interval a c := by
  induction k with
  | refl => exact h
  | snoc _ st ih => exact .snoc ih st

/-! ## C83 -/

/-- **C83** At most one `Stream` is going on: all but the last one have returned, with their contexts
cancelled, so that their connections get closed (compare C82). -/
theorem C83_one_at_a_time {s : RSt} (h : RReach interval s) {a b : List CSt} {c : CSt} (hs : s.streams = a ++ c :: b) (hb : b ≠ []) :
    Ended c := by
  apply (rreach_inv h).before
  rw [hs, List.dropLast_append_of_ne_nil (by simp), List.dropLast_cons_of_ne_nil hb]
  simp

/-- **C83** It returns only when told to, and leaves nothing behind: every `Stream` has returned, its
context is cancelled, and the reporter has ended. -/
theorem C83_cleans_up {s : RSt} (h : RReach interval s) (hp : s.pc = .returned) :
    s.ctx = true ∧ s.rep = .done ∧ ∀ c ∈ s.streams, Ended c := by
  have hi := rreach_inv h
  exact ⟨hi.stop (.inr (.inr hp)), hi.rep hp, hi.quiet (by rw [hp]; rfl)⟩

theorem client_steps {s : RSt} {a : List CSt} {c c' : CSt} (h : CSteps c c') (hs : s.streams = a ++ [c]) (hc : c.ctx = true) :
    c'.ctx = true ∧ RSteps interval s { s with streams := a ++ [c'] } := by
  induction h with
  | refl =>
    refine ⟨hc, ?_⟩
    rw [← hs]
    exact .refl
  | @snoc d e _ st ih =>
    obtain ⟨h1, h2⟩ := ih
    have h3 : e.ctx = true := by cases st <;> simp [h1]
    exact ⟨h3, .snoc h2 (.client (a := a) (c := d) (b := []) rfl st (by rw [h3, h1]))⟩

theorem reporter_ends {s : RSt} (hr : s.rep ≠ .unborn) (hc : s.ctx = true) (hi : 0 < interval) :
    RSteps interval s { s with rep := .done } := by
  obtain ⟨ctx, pc, rep, streams⟩ := s
  cases rep with
  | unborn => exact absurd rfl hr
  | born => exact .snoc (.snoc .refl (.ticker rfl hi)) (.reporterDone rfl hc)
  | running => exact .snoc .refl (.reporterDone rfl hc)
  | done => exact .refl

/-- **C83** Told to stop, it can return whatever it is doing, even if nobody receives from the channel of
traces. -/
theorem C83_can_return {s : RSt} (h : RReach interval s) (hc : s.ctx = true) (hi : 0 < interval) (hp : s.pc ≠ .crashed) :
    ∃ s', RSteps interval s s' ∧ s'.pc = .returned ∧ handed s' = handed s := by
  have inv := rreach_inv h
  have leaving : ∀ s : RSt, s.pc = .leaving → s.ctx = true → s.rep ≠ .unborn → ∃ s', RSteps interval s s' ∧ s'.pc = .returned ∧ handed s' = handed s :=
    fun s hp hc hr => ⟨_, .snoc (reporter_ends hr hc hi) (.leave hp rfl), rfl, rfl⟩
  have top : ∀ s : RSt, s.pc = .top → s.ctx = true → s.rep ≠ .unborn → ∃ s', RSteps interval s s' ∧ s'.pc = .returned ∧ handed s' = handed s := by
    intro s hp hc hr
    obtain ⟨s', h1, h2, h3⟩ := leaving { s with pc := .leaving } rfl hc hr
    exact ⟨s', RSteps.trans (.snoc .refl (.exit hp hc)) h1, h2, h3⟩
  have stopping : ∀ s : RSt, s.pc = .stopping → s.ctx = true → s.rep ≠ .unborn → ∀ a c, s.streams = a ++ [c] → c.ctx = true →
      ∃ s', RSteps interval s s' ∧ s'.pc = .returned ∧ handed s' = handed s := by
    intro s hp hc hr a c hs hcc
    by_cases hret : ∃ r, c.pc = .returned r
    · obtain ⟨r, hret⟩ := hret
      obtain ⟨s', h1, h2, h3⟩ := leaving { s with pc := .leaving } rfl hc hr
      exact ⟨s', RSteps.trans (.snoc .refl (.stopped hp hs hret)) h1, h2, h3⟩
    · obtain ⟨c', h1, h2, hsent⟩ := C81_can_return hcc (fun r hr => hret ⟨r, hr⟩)
      obtain ⟨_, h4⟩ := client_steps (interval := interval) h1 hs hcc
      obtain ⟨s', h5, h6, h7⟩ := leaving { s with streams := a ++ [c'], pc := .leaving } rfl hc hr
      exact ⟨s', RSteps.trans (.snoc h4 (.stopped hp rfl h2)) h5, h6, h7.trans (by simp [handed, hs, hsent])⟩
  cases hpc : s.pc with
  | start =>
    obtain ⟨s', h1, h2, h3⟩ := top { s with pc := .top, rep := .born } rfl hc (by simp)
    exact ⟨s', RSteps.trans (.snoc .refl (.spawn hpc)) h1, h2, h3⟩
  | top => exact top s hpc hc (fun e => by have := inv.unborn e; rw [hpc] at this; cases this)
  | sleeping =>
    obtain ⟨s', h1, h2, h3⟩ := top { s with pc := .top } rfl hc (fun e => by have := inv.unborn e; rw [hpc] at this; cases this)
    exact ⟨s', RSteps.trans (.snoc .refl (.wake hpc)) h1, h2, h3⟩
  | leaving => exact leaving s hpc hc (fun e => by have := inv.unborn e; rw [hpc] at this; cases this)
  | returned => exact ⟨s, .refl, hpc, rfl⟩
  | crashed => exact absurd hpc hp
  | select =>
    have hr : s.rep ≠ .unborn := fun e => by have := inv.unborn e; rw [hpc] at this; cases this
    rcases List.eq_nil_or_concat s.streams with h0 | ⟨a, c, h0⟩
    · exact absurd h0 (inv.some (.inl hpc))
    · rw [List.concat_eq_append] at h0
      have hcc := inv.ctx hc c (by rw [h0]; simp)
      obtain ⟨s', h1, h2, h3⟩ := stopping { s with pc := .stopping, streams := cancelLast s.streams } rfl hc hr a (CSt.done c)
        (by simp only [h0, cancelLast_snoc]) rfl
      exact ⟨s', RSteps.trans (.snoc .refl (.subctxDone hpc h0 hcc)) h1, h2, h3.trans (by simp [handed, h0, cancelLast_snoc, CSt.done])⟩
  | stopping =>
    have hr : s.rep ≠ .unborn := fun e => by have := inv.unborn e; rw [hpc] at this; cases this
    rcases List.eq_nil_or_concat s.streams with h0 | ⟨a, c, h0⟩
    · exact absurd h0 (inv.some (.inr hpc))
    · rw [List.concat_eq_append] at h0
      exact stopping s hpc hc hr a c h0 (inv.ctx hc c (by rw [h0]; simp))

/-- **C83** Not told to stop, it does not give up: whenever no `Stream` is going on, it can start another
one, and the next thing that `runStream` does can only be on the way to that. -/
theorem C83_retries {s : RSt} (h : RReach interval s) (hc : s.ctx = false) (hp : s.pc ≠ .crashed)
    (hd : ∀ c ∈ s.streams, ∃ r, c.pc = .returned r) :
    (s.pc = .start ∨ s.pc = .top ∨ s.pc = .select ∨ s.pc = .sleeping) ∧
    ∃ s', RSteps interval s s' ∧ s'.pc = .select ∧ s'.streams.length = s.streams.length + 1 := by
  have inv := rreach_inv h
  have hn : ∀ p, s.pc = p → p = .stopping ∨ p = .leaving ∨ p = .returned → False := by
    intro p h1 h2
    rw [← h1] at h2
    rw [inv.stop h2] at hc
    cases hc
  cases hpc : s.pc with
  | start => exact ⟨by simp, _, .snoc (.snoc .refl (.spawn hpc)) (.begin rfl hc), rfl, by simp⟩
  | top => exact ⟨by simp, _, .snoc .refl (.begin hpc hc), rfl, by simp⟩
  | sleeping => exact ⟨by simp, _, .snoc (.snoc .refl (.wake hpc)) (.begin rfl hc), rfl, by simp⟩
  | select =>
    rcases List.eq_nil_or_concat s.streams with h0 | ⟨a, c, h0⟩
    · exact absurd h0 (inv.some (.inl hpc))
    · rw [List.concat_eq_append] at h0
      obtain ⟨r, hr⟩ := hd c (by rw [h0]; simp)
      refine ⟨by simp, _, .snoc (.snoc (.snoc .refl (.failed hpc h0 hr)) (.wake rfl)) (.begin rfl hc), rfl, ?_⟩
      simp [h0, cancelLast_snoc]
  | stopping => exact (hn _ hpc (.inl rfl)).elim
  | leaving => exact (hn _ hpc (.inr (.inl rfl))).elim
  | returned => exact (hn _ hpc (.inr (.inr rfl))).elim
  | crashed => exact absurd hpc hp

/-- **C83** It crashes only for a stats interval of zero or less. -/
theorem C83_no_crash {s : RSt} (h : RReach interval s) (hi : 0 < interval) : s.pc ≠ .crashed := by
  induction h with
  | refl => simp
  | snoc _ st ih =>
    cases st with
    | tickerPanics _ h => omega
    | parentDone | client | ticker | reporterDone => exact ih
    | _ => simp

/-- **C83** What each `Stream` does is what C81 says. -/
theorem C83_streams {s : RSt} (h : RReach interval s) : ∀ c ∈ s.streams, CReach c := (rreach_inv h).reach

/-- A stream that fails, another one, and the end. -/
example : ∃ s, RReach 1 s ∧ s.pc = .returned ∧ s.streams.length = 2 := by
  have h1 : RReach 1 _ := .snoc (.snoc (.snoc .refl (.spawn rfl)) (.begin rfl rfl))
    (.client (a := []) (b := []) rfl (.readFails rfl) rfl)
  obtain ⟨_, s2, h3, h4, h5⟩ := C83_retries h1 rfl (by simp) (by simp)
  have h6 : RReach 1 _ := .snoc (RSteps.trans h1 h3) .parentDone
  obtain ⟨s', h7, h8, _⟩ := C83_can_return h6 rfl (by decide) (by simp [h4])
  have key : ∀ {a b : RSt}, RSteps 1 a b → a.ctx = true → b.ctx = true ∧ b.streams.length = a.streams.length := by
    intro a b h ha
    induction h with
    | refl => exact ⟨ha, rfl⟩
    | snoc _ st ih =>
      obtain ⟨i1, i2⟩ := ih
      cases st with
      | parentDone => exact ⟨rfl, by simpa using i2⟩
      | client he => exact ⟨i1, by rw [← i2, he]; simp⟩
      | begin _ hc => rw [i1] at hc; cases hc
      | subctxDone _ he => exact ⟨i1, by rw [← i2, he, cancelLast_snoc]; simp⟩
      | failed _ he => exact ⟨i1, by rw [← i2, he, cancelLast_snoc]; simp⟩
      | _ => exact ⟨i1, i2⟩
  exact ⟨s', RSteps.trans h6 h7, h8, by rw [(key h7 rfl).2]; simp [h5]⟩

end Trc.Cmd
