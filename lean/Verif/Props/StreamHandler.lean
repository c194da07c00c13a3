import Verif.Web.StreamHandler
import Verif.Props.Broker

/-!
# C69: the stream handler
-/

set_option linter.unusedVariables false
set_option linter.unusedSimpArgs false

namespace Trc.Web

open Trc.Broker

/-- The traces sent to the client, in order. -/
def tracesOut (out : List Out) : List Static :=
  out.filterMap fun | .trace x => some x | _ => none

/-- A received trace that is still to be dealt with. -/
def pcVal : PC → List Static
  | .got x => [x]
  | _ => []

section
variable (compile : Compile) (cap : Ch → Nat) (k : HCfg)

/-- What other goroutines can do to the channel and to the stream's goroutine. -/
theorem foreign_frame {h : List Label} {b b' : St} {l : Label} (hr : Run compile cap h b)
    (hsub : ∀ t f, Label.subscribed t k.c f ∈ h → t = k.g) (hf : foreign k l)
    (hs : Step compile cap b l b') :
    b'.threads k.g = b.threads k.g ∧ (b'.subs k.c).isSome = (b.subs k.c).isSome ∧
    ((∃ x r rs, l = .visited k.c x (.sent (some r)) ∧ (b.chans k.c).waiting = r :: rs ∧
        (b'.chans k.c).waiting = rs) ∨
      ((∀ x r, l ≠ .visited k.c x (.sent (some r))) ∧ (b'.chans k.c).waiting = (b.chans k.c).waiting ∧
        ∀ r x, l ≠ .recv r k.c x)) := by
  have hi := run_inv compile cap hr
  cases hs with
  | @subscribe t ch f subs' a bb c =>
    obtain ⟨h1, h2⟩ := hf
    refine ⟨upd_ne _ _ (Ne.symm h1), ?_, .inr ⟨by simp, rfl, by simp⟩⟩
    unfold register at c
    split at c
    · cases c
    · cases c; simp only [upd_ne _ _ (Ne.symm h2)]
  | refuse => exact ⟨rfl, rfl, .inr ⟨by simp, rfl, by simp⟩⟩
  | cancel => exact ⟨upd_ne _ _ (Ne.symm hf), rfl, .inr ⟨by simp, rfl, by simp⟩⟩
  | @finish t ch subs' st a bb c =>
    refine ⟨upd_ne _ _ (Ne.symm hf), ?_, .inr ⟨by simp, rfl, by simp⟩⟩
    have hne : k.c ≠ ch := by
      rintro e
      have hh : (b.threads t).holds k.c = true := by rw [bb, e]; simp [Thread.holds]
      obtain ⟨sub, h0⟩ := Option.isSome_iff_exists.mp (hi.threads t _ hh)
      obtain ⟨t', f, seg, x, y, z⟩ := hi.open_ _ sub h0
      have h1 := (z t).mp hh
      obtain ⟨⟨h₁, e'⟩, -, -⟩ := x
      have := hsub t' f (by rw [e']; simp)
      exact hf (by rw [h1, this])
    unfold unregister at c
    simp only [Prod.mk.injEq] at c
    rw [← c.1]; simp only [upd_ne _ _ hne]
  | @lost t ch subs' a bb c =>
    exfalso
    have hh : (b.threads t).holds ch = true := by rw [bb]; simp [Thread.holds]
    have := hi.threads t _ hh
    unfold unregister at c
    simp only [Prod.mk.injEq, Option.map_eq_none_iff] at c
    rw [c.2] at this; simp at this
  | stats => exact ⟨rfl, rfl, .inr ⟨by simp, rfl, by simp⟩⟩
  | publish => exact ⟨rfl, rfl, .inr ⟨by simp, rfl, by simp⟩⟩
  | release => exact ⟨rfl, rfl, .inr ⟨by simp, rfl, by simp⟩⟩
  | @visit str ch rest sub sub' c' v a bb c =>
    refine ⟨rfl, ?_, ?_⟩
    · by_cases e : k.c = ch
      · rw [e]; simp [upd, bb]
      · simp only [upd_ne _ _ e]
    · by_cases e : k.c = ch
      · subst e
        have hu : (upd b.chans k.c c') k.c = c' := by simp [upd]
        obtain ⟨-, h | ⟨-, ⟨r, rs, h1, h2, h3, -⟩ | ⟨h1, h2, h3, h4, -⟩ | ⟨h1, h2, h3, h4, -⟩⟩⟩ := visit_cases compile (f := k.f) c
        · refine .inr ⟨by simp [h.1], ?_, by simp⟩
          simp only [hu]; rw [h.2.2.1]
        · refine .inl ⟨str, r, rs, by rw [h1], h2, ?_⟩
          simp only [hu]; rw [h3]
        · refine .inr ⟨by simp [h1], ?_, by simp⟩
          simp only [hu]; rw [h4]
        · refine .inr ⟨by simp [h1], ?_, by simp⟩
          simp only [hu]; rw [h4]
      · refine .inr ⟨fun x r h => ?_, ?_, by simp⟩
        · simp only [Label.visited.injEq] at h; exact e h.1.symm
        · simp only [upd_ne _ _ e]
  | @recv r ch x xs a =>
    refine ⟨rfl, rfl, .inr ⟨by simp, ?_, ?_⟩⟩
    · simp only [upd_ne _ _ (Ne.symm hf)]
    · intro r x h; simp only [Label.recv.injEq] at h; exact hf h.2.1
  | wait => exact ⟨rfl, rfl, .inr ⟨by simp, by simp only [upd_ne _ _ (Ne.symm hf)], by simp⟩⟩
  | abandon => exact ⟨rfl, rfl, .inr ⟨by simp, by simp only [upd_ne _ _ (Ne.symm hf)], by simp⟩⟩

/-- Whether the stream's goroutine is in `Stream`. -/
def GPC.inStream : GPC → Bool
  | .streaming => true
  | _ => false

/-- The invariant of a request. -/
structure J (s : HSt) : Prop where
  run : Run compile cap s.hist s.b
  subs : ∀ t f, Label.subscribed t k.c f ∈ s.hist → t = k.g ∧ f = k.f
  away : s.go.inStream = false → s.b.threads k.g = .idle ∧ (s.b.subs k.c).isSome = false
  within : s.go.inStream = true → s.b.threads k.g = .streaming k.c ∨ s.b.threads k.g = .cancelled k.c
  wait : (s.b.chans k.c).waiting = if s.pc = .blocked then [k.m] else []
  ret : s.pc = .returned → s.go = .closed
  born : s.pc = .start → s.go = .unborn
  unborn : s.go = .unborn → s.pc = .start
  out : ∃ done, received k.c s.hist = done ++ pcVal s.pc ∧
    (tracesOut s.out).Sublist (done.filter fun x => x.id ≠ k.own) ∧
    (s.failed = false → tracesOut s.out = done.filter fun x => x.id ≠ k.own)

theorem j_init : J compile cap k {} :=
  ⟨.init, by simp, fun _ => ⟨rfl, rfl⟩, by simp [GPC.inStream], rfl, by simp, fun _ => rfl, fun _ => rfl,
    [], rfl, List.Sublist.refl _, fun _ => rfl⟩

theorem J.nosub {s : HSt} (hj : J compile cap k s) (h : s.go.inStream = false) : s.b.subs k.c = none := by
  have := (hj.away h).2
  cases h0 : s.b.subs k.c with
  | none => rfl
  | some x => rw [h0] at this; simp at this

theorem tracesOut_emit (ok : Bool) (o : Out) (out : List Out) (ho : ∀ x, o ≠ .trace x) :
    tracesOut (emit ok o out) = tracesOut out := by
  unfold emit
  cases ok with
  | false => rfl
  | true =>
    simp only [if_true, tracesOut, List.filterMap_append, List.filterMap_cons, List.filterMap_nil]
    cases o with
    | trace x => exact absurd rfl (ho x)
    | init => simp
    | stats => simp

theorem received_other {c : Ch} {h : List Label} {l : Label} (h1 : ∀ r x, l ≠ .recv r c x)
    (h2 : ∀ x r, l ≠ .visited c x (.sent (some r))) : received c (h ++ [l]) = received c h := by
  rw [received_append]
  have : received c [l] = [] := by
    unfold received
    rw [List.filterMap_cons]
    split
    · rfl
    · rename_i x e
      split at e
      · rename_i r c' y
        split at e
        · rename_i hc; subst hc; exact absurd rfl (h1 r y)
        · cases e
      · rename_i c' y r
        split at e
        · rename_i hc; subst hc; exact absurd rfl (h2 y r)
        · cases e
      · cases e
  rw [this, List.append_nil]

theorem subs_snoc {h : List Label} {l : Label} {c : Ch} {g : Tid} {f : Filter}
    (hs : ∀ t f', Label.subscribed t c f' ∈ h → t = g ∧ f' = f)
    (hl : ∀ t f', l = .subscribed t c f' → t = g ∧ f' = f) :
    ∀ t f', Label.subscribed t c f' ∈ h ++ [l] → t = g ∧ f' = f := by
  intro t f' hm
  rcases List.mem_append.mp hm with hm | hm
  · exact hs t f' hm
  · exact hl t f' (List.mem_singleton.mp hm).symm

theorem j_step {s s' : HSt} (hj : J compile cap k s) (hs : HStep compile cap k s s') : J compile cap k s' := by
  have hi := run_inv compile cap hj.run
  cases hs with
  | @env l b' hf hs =>
    obtain ⟨h1, h2, h3⟩ := foreign_frame compile cap k hj.run (fun t f h => (hj.subs t f h).1) hf hs
    obtain ⟨done, o1, o2, o3⟩ := hj.out
    have hsub := subs_snoc (l := l) hj.subs (by
      rintro t f rfl; exact absurd rfl hf.2)
    rcases h3 with ⟨x, r, rs, e, e2, e3⟩ | ⟨e, e2, e3⟩
    · have hw := hj.wait
      rw [e2] at hw
      have hb : s.pc = .blocked := by
        apply Classical.byContradiction; intro h; rw [if_neg h] at hw; cases hw
      rw [if_pos hb] at hw
      simp only [List.cons.injEq] at hw
      obtain ⟨rfl, rfl⟩ := hw
      have hwk : wake k l s.pc = .got x := by simp [wake, handover, e]
      refine ⟨.step hj.run hs, hsub, ?_, ?_, ?_, ?_, ?_, ?_, done, ?_, o2, o3⟩
      · intro h; simp only; rw [h1, h2]; exact hj.away h
      · intro h; simp only; rw [h1]; exact hj.within h
      · simp only [hwk, e3]; rfl
      · simp [hwk]
      · simp [hwk]
      · intro h; exact absurd (hj.unborn h) (by rw [hb]; simp)
      · simp only [hwk, pcVal]
        rw [received_append, o1, hb, e]
        simp [received, pcVal]
    · have hwk : wake k l s.pc = s.pc := by
        have : handover k l = none := by
          unfold handover
          split
          · rename_i ch x r
            rw [if_neg]
            rintro ⟨rfl, rfl⟩
            exact e x _ rfl
          · rfl
        simp [wake, this]
      refine ⟨.step hj.run hs, hsub, ?_, ?_, ?_, ?_, ?_, ?_, done, ?_, o2, o3⟩
      · intro h; simp only; rw [h1, h2]; exact hj.away h
      · intro h; simp only; rw [h1]; exact hj.within h
      · simp only [hwk, e2]; exact hj.wait
      · simp only [hwk]; exact hj.ret
      · simp only [hwk]; exact hj.born
      · simp only [hwk]; exact hj.unborn
      · simp only [hwk]; rw [received_other e3 e]; exact o1
  | ctxDone => exact ⟨hj.run, hj.subs, hj.away, hj.within, hj.wait, hj.ret, hj.born, hj.unborn, hj.out⟩
  | stopSignal => exact ⟨hj.run, hj.subs, hj.away, hj.within, hj.wait, hj.ret, hj.born, hj.unborn, hj.out⟩
  | spawn hp =>
    have hg := hj.born hp
    refine ⟨hj.run, hj.subs, fun _ => hj.away (by rw [hg]; rfl), by simp [GPC.inStream], ?_, by simp, by simp, by simp, ?_⟩
    · rw [hj.wait, hp]; rfl
    · have := hj.out; rw [hp] at this; exact this
  | enter hp _ =>
    refine ⟨hj.run, hj.subs, hj.away, hj.within, ?_, by simp, by simp, ?_, ?_⟩
    · rw [hj.wait, hp]; rfl
    · intro h; exact absurd (hj.unborn h) (by rw [hp]; simp)
    · have := hj.out; rw [hp] at this; exact this
  | tickerPanic hp _ =>
    refine ⟨hj.run, hj.subs, hj.away, hj.within, ?_, by simp, by simp, ?_, ?_⟩
    · rw [hj.wait, hp]; rfl
    · intro h; exact absurd (hj.unborn h) (by rw [hp]; simp)
    · have := hj.out; rw [hp] at this; exact this
  | notAcceptable hp =>
    refine ⟨hj.run, hj.subs, hj.away, hj.within, ?_, by simp, by simp, ?_, ?_⟩
    · rw [hj.wait, hp]; rfl
    · intro h; exact absurd (hj.unborn h) (by rw [hp]; simp)
    · have := hj.out; rw [hp] at this; exact this
  | @subscribe b' hg hs =>
    have hrun := Run.step hj.run hs
    cases hs with
    | @subscribe _ _ _ subs' a bb c =>
      refine ⟨hrun, subs_snoc hj.subs ?_, by simp [GPC.inStream], fun _ => .inl (by simp [upd]), hj.wait, ?_, ?_, by simp, ?_⟩
      · intro t f e; cases e; exact ⟨rfl, rfl⟩
      · intro h; have := hj.ret h; rw [hg] at this; cases this
      · intro h; have := hj.born h; rw [hg] at this; cases this
      · simp only; rw [received_other (by simp) (by simp)]; exact hj.out
  | @refused b' hg hs =>
    have hrun := Run.step hj.run hs
    cases hs with
    | refuse a bb c =>
      refine ⟨hrun, subs_snoc hj.subs (by simp), fun _ => hj.away (by rw [hg]; rfl), by simp [GPC.inStream], hj.wait, ?_, ?_, by simp, ?_⟩
      · intro h; have := hj.ret h; rw [hg] at this; cases this
      · intro h; have := hj.born h; rw [hg] at this; cases this
      · simp only; rw [received_other (by simp) (by simp)]; exact hj.out
  | @cancelled b' hg hc hs =>
    have hrun := Run.step hj.run hs
    cases hs with
    | @cancel _ ch a =>
      refine ⟨hrun, subs_snoc hj.subs (by simp), by simp [hg, GPC.inStream], ?_, hj.wait, hj.ret, hj.born, hj.unborn, ?_⟩
      · intro h
        right
        have := hj.within h
        rw [a] at this
        simp only [Thread.streaming.injEq, reduceCtorEq, or_false] at this
        simp [upd, this]
      · simp only; rw [received_other (by simp) (by simp)]; exact hj.out
  | @streamReturns b' st hg hs =>
    have hrun := Run.step hj.run hs
    cases hs with
    | @finish _ _ subs' _ a bb c =>
      unfold unregister at c
      simp only [Prod.mk.injEq] at c
      refine ⟨hrun, subs_snoc hj.subs (by simp), fun _ => ⟨by simp [upd], by simp only; rw [← c.1]; simp [upd]⟩,
        by simp [GPC.inStream], hj.wait, ?_, ?_, by simp, ?_⟩
      · intro h; have := hj.ret h; rw [hg] at this; cases this
      · intro h; have := hj.born h; rw [hg] at this; cases this
      · simp only; rw [received_other (by simp) (by simp)]; exact hj.out
  | @streamFails b' hg hs =>
    exfalso
    have := C53_no_programmer_error compile cap (Run.step hj.run hs) k.g k.c
    exact this (by simp)
  | close hg =>
    refine ⟨hj.run, hj.subs, fun _ => hj.away (by rw [hg]; rfl), by simp [GPC.inStream], hj.wait, fun _ => rfl, ?_, by simp, hj.out⟩
    intro h; have := hj.born h; rw [hg] at this; cases this
  | @wait b' hp hc hst hin hs =>
    have hrun := Run.step hj.run hs
    cases hs with
    | wait a =>
      refine ⟨hrun, subs_snoc hj.subs (by simp), hj.away, hj.within, ?_, by simp, by simp, ?_, ?_⟩
      · have := hj.wait; rw [hp] at this
        simp only [upd, if_true, this]; rfl
      · intro h; exact absurd (hj.unborn h) (by rw [hp]; simp)
      · simp only; rw [received_other (by simp) (by simp)]; have := hj.out; rw [hp] at this; exact this
  | @unblock b' hp hs =>
    have hrun := Run.step hj.run hs
    cases hs with
    | abandon a =>
      refine ⟨hrun, subs_snoc hj.subs (by simp), hj.away, hj.within, ?_, by simp, by simp, ?_, ?_⟩
      · have := hj.wait; rw [hp] at this
        simp only [upd, if_true, this]; simp
      · intro h; exact absurd (hj.unborn h) (by rw [hp]; simp)
      · simp only; rw [received_other (by simp) (by simp)]; have := hj.out; rw [hp] at this; exact this
  | init hp hin =>
    refine ⟨hj.run, hj.subs, hj.away, hj.within, hj.wait, hj.ret, hj.born, hj.unborn, ?_⟩
    simp only [tracesOut_emit _ (.init k.f (cap k.c)) _ (by simp)]; exact hj.out
  | @tick b' st ok hp hs =>
    have hrun := Run.step hj.run hs
    have hb : b' = s.b := by
      generalize ho : some st = o at hs
      cases hs; rfl
    subst hb
    refine ⟨hrun, subs_snoc hj.subs (by simp), hj.away, hj.within, hj.wait, hj.ret, hj.born, hj.unborn, ?_⟩
    simp only [tracesOut_emit _ (.stats st) _ (by simp)]
    rw [received_other (by simp) (by simp)]; exact hj.out
  | @tickError b' hp hs =>
    have hrun := Run.step hj.run hs
    have hb : b' = s.b := by
      generalize ho : (none : Option StreamStats) = o at hs
      cases hs; rfl
    subst hb
    refine ⟨hrun, subs_snoc hj.subs (by simp), hj.away, hj.within, hj.wait, hj.ret, hj.born, hj.unborn, ?_⟩
    simp only
    rw [received_other (by simp) (by simp)]; exact hj.out
  | @recv b' x hp hs =>
    have hrun := Run.step hj.run hs
    cases hs with
    | @recv _ _ _ xs a =>
      refine ⟨hrun, subs_snoc hj.subs (by simp), hj.away, hj.within, ?_, by simp, by simp, ?_, ?_⟩
      · have := hj.wait; rw [hp] at this
        simp only [upd, if_true, this]; rfl
      · intro h; exact absurd (hj.unborn h) (by rw [hp]; simp)
      · obtain ⟨done, o1, o2, o3⟩ := hj.out
        refine ⟨done, ?_, o2, o3⟩
        simp only
        rw [received_append, o1, hp]
        simp [received, pcVal]
  | @skip x hp he =>
    refine ⟨hj.run, hj.subs, hj.away, hj.within, ?_, by simp, by simp, ?_, ?_⟩
    · rw [hj.wait, hp]; rfl
    · intro h; exact absurd (hj.unborn h) (by rw [hp]; simp)
    · obtain ⟨done, o1, o2, o3⟩ := hj.out
      rw [hp] at o1
      refine ⟨done ++ [x], by simpa [pcVal] using o1, ?_, ?_⟩
      · simpa [List.filter_append, he] using o2
      · simpa [List.filter_append, he] using o3
  | @forward x hp he =>
    refine ⟨hj.run, hj.subs, hj.away, hj.within, ?_, by simp, by simp, ?_, ?_⟩
    · rw [hj.wait, hp]; rfl
    · intro h; exact absurd (hj.unborn h) (by rw [hp]; simp)
    · obtain ⟨done, o1, o2, o3⟩ := hj.out
      rw [hp] at o1
      have ht : tracesOut (s.out ++ [.trace x]) = tracesOut s.out ++ [x] := by simp [tracesOut]
      refine ⟨done ++ [x], by simpa [pcVal] using o1, ?_, ?_⟩
      · rw [ht, List.filter_append]
        simpa [he] using o2
      · intro hf; rw [ht, List.filter_append, o3 hf]; simp [he]
  | @forwardFails x hp he =>
    refine ⟨hj.run, hj.subs, hj.away, hj.within, ?_, by simp, by simp, ?_, ?_⟩
    · rw [hj.wait, hp]; rfl
    · intro h; exact absurd (hj.unborn h) (by rw [hp]; simp)
    · obtain ⟨done, o1, o2, o3⟩ := hj.out
      rw [hp] at o1
      refine ⟨done ++ [x], by simpa [pcVal] using o1, ?_, by simp⟩
      rw [List.filter_append]
      exact o2.trans (List.sublist_append_left _ _)
  | done hp hc =>
    refine ⟨hj.run, hj.subs, hj.away, hj.within, ?_, by simp, by simp, ?_, ?_⟩
    · rw [hj.wait, hp]; rfl
    · intro h; exact absurd (hj.unborn h) (by rw [hp]; simp)
    · have := hj.out; rw [hp] at this; exact this
  | stopped hp hc =>
    refine ⟨hj.run, hj.subs, hj.away, hj.within, ?_, by simp, by simp, ?_, ?_⟩
    · rw [hj.wait, hp]; rfl
    · intro h; exact absurd (hj.unborn h) (by rw [hp]; simp)
    · have := hj.out; rw [hp] at this; exact this
  | leave hp hg =>
    refine ⟨hj.run, hj.subs, hj.away, hj.within, ?_, fun _ => hg, by simp, ?_, ?_⟩
    · rw [hj.wait, hp]; rfl
    · intro h; exact absurd (hj.unborn h) (by rw [hp]; simp)
    · have := hj.out; rw [hp] at this; exact this

theorem steps_j {s s' : HSt} (hs : HSteps compile cap k s s') (hj : J compile cap k s) : J compile cap k s' := by
  induction hs with
  | refl => exact hj
  | snoc _ h ih => exact j_step compile cap k ih h

theorem reach_j {s : HSt} (hr : HReach compile cap k s) : J compile cap k s :=
  steps_j compile cap k hr (j_init compile cap k)

/-! ## C69 -/

/-- **C69**.  Once the handler has returned, its channel is not subscribed, the goroutine it
started is over, and at no later time is anything done for the channel: whatever happens after
the return, the broker's history has no further entry for it. -/
theorem C69_unsubscribed {s s' : HSt} (hr : HReach compile cap k s) (hp : s.pc = .returned)
    (hs : HSteps compile cap k s s') :
    s'.pc = .returned ∧ s'.go = .closed ∧ s'.b.subs k.c = none ∧ Closed k.c s'.hist ∧
    verdicts k.c s'.hist = verdicts k.c s.hist := by
  have key : s'.pc = .returned ∧ verdicts k.c s'.hist = verdicts k.c s.hist := by
    induction hs with
    | refl => exact ⟨hp, rfl⟩
    | @snoc s' s'' hs h ih =>
      obtain ⟨i1, i2⟩ := ih
      have hj := steps_j compile cap k hs (reach_j compile cap k hr)
      have hg := hj.ret i1
      have h0 := hj.nosub compile cap k (by rw [hg]; rfl)
      cases h with
      | @env l b' hf h =>
        have hv : verdicts k.c [l] = [] := by
          generalize hl : l = l'
          cases l' with
          | visited ch x v =>
            subst hl
            cases h with
            | visit a b c =>
              have : ch ≠ k.c := by rintro rfl; rw [h0] at b; cases b
              simp [verdicts, this]
          | _ => rfl
        have hw : handover k l = none := by
          generalize hl : l = l'
          cases l' with
          | visited ch x v =>
            have : ch ≠ k.c := by rintro rfl; simp [verdicts, hl] at hv
            unfold handover
            split
            · rename_i e; cases e; rw [if_neg]; exact fun h => this h.1
            · rfl
          | _ => rfl
        refine ⟨by simp only [wake, hw]; exact i1, ?_⟩
        simp only
        rw [verdicts_append, hv, List.append_nil, i2]
      | ctxDone => exact ⟨i1, i2⟩
      | stopSignal => exact ⟨i1, i2⟩
      | spawn hp' | enter hp' | tickerPanic hp' | notAcceptable hp' | wait hp' | unblock hp' | init hp' | tick hp'
      | tickError hp' | recv hp' | skip hp' | forward hp' | forwardFails hp' | done hp' | stopped hp' | leave hp' =>
        rw [i1] at hp'; cases hp'
      | subscribe hg' | refused hg' | cancelled hg' | streamReturns hg' | streamFails hg' | close hg' =>
        rw [hg] at hg'; cases hg'
  have hj := steps_j compile cap k hs (reach_j compile cap k hr)
  have hg := hj.ret key.1
  have h0 := hj.nosub compile cap k (by rw [hg]; rfl)
  exact ⟨key.1, hg, h0, (run_inv compile cap hj.run).closed _ h0, key.2⟩

/-- **C69**.  The handler never forwards events of its own trace. -/
theorem C69_not_own {s : HSt} (hr : HReach compile cap k s) {x : Static} (hx : .trace x ∈ s.out) :
    x.id ≠ k.own := by
  obtain ⟨done, -, o2, -⟩ := (reach_j compile cap k hr).out
  have : x ∈ tracesOut s.out := by
    unfold tracesOut
    rw [List.mem_filterMap]
    exact ⟨_, hx, rfl⟩
  have := o2.subset this
  simpa using (List.mem_filter.mp this).2

/-- **C69**.  What the client gets are traces received from the channel, in the order received, and
what is received is what the broker has sent to the channel, in the order sent; unless encoding
failed, the client gets all of them, but for the request's own and the one just being handled. -/
theorem C69_in_order {s : HSt} (hr : HReach compile cap k s) :
    ∃ done, received k.c s.hist = done ++ pcVal s.pc ∧
      received k.c s.hist ++ (s.b.chans k.c).buf = sentTo k.c s.hist ∧
      (tracesOut s.out).Sublist (done.filter fun x => x.id ≠ k.own) ∧
      (s.failed = false → tracesOut s.out = done.filter fun x => x.id ≠ k.own) := by
  have hj := reach_j compile cap k hr
  obtain ⟨done, o1, o2, o3⟩ := hj.out
  exact ⟨done, o1, (C50_received compile cap hj.run k.c).1, o2, o3⟩

/-- Everything the client gets was published while the handler was subscribed, and satisfies the
filter of the request. -/
theorem C69_filtered {s : HSt} (hr : HReach compile cap k s) (hf : k.f.Fresh compile) {x : Static}
    (hx : .trace x ∈ s.out) : k.f.Sat compile x ∧ x ∈ published s.hist := by
  have hj := reach_j compile cap k hr
  obtain ⟨done, o1, o2, o3⟩ := C69_in_order compile cap k hr
  have hm : x ∈ tracesOut s.out := by
    unfold tracesOut
    rw [List.mem_filterMap]
    exact ⟨_, hx, rfl⟩
  have h1 : x ∈ sentTo k.c s.hist := by
    rw [← o2, o1]
    have := (List.mem_filter.mp (o3.1.subset hm)).1
    simp [this]
  refine ⟨?_, (C50_sublist compile cap hj.run k.c).subset h1⟩
  unfold sentTo verdicts at h1
  simp only [List.mem_filterMap] at h1
  obtain ⟨⟨y, v⟩, ⟨l, hl, e⟩, e2⟩ := h1
  cases l with
  | visited c str v' =>
    simp only at e
    split at e
    · rename_i hc
      simp only [Option.some.injEq, Prod.mk.injEq] at e
      obtain ⟨rfl, rfl⟩ := e
      cases v' with
      | sent to =>
        simp only [Option.some.injEq] at e2
        subst e2 hc
        obtain ⟨h₁, h₂, e⟩ := List.append_of_mem hl
        obtain ⟨t, f, seg, hs, hsat, -⟩ := C51_verdict compile cap hj.run e
        obtain ⟨⟨h₀, e0⟩, -, -⟩ := hs
        obtain ⟨-, rfl⟩ := hj.subs t f (by rw [e, e0]; simp)
        have := hsat hf
        simp only [reduceCtorEq, false_iff] at this
        exact Classical.byContradiction this
      | skipped => cases e2
      | dropped => cases e2
    · cases e
  | _ => cases e

theorem HSteps.trans {s s' s'' : HSt} (h : HSteps compile cap k s s') (h' : HSteps compile cap k s' s'') :
    HSteps compile cap k s s'' := by
  induction h' with
  | refl => exact h
  | snoc _ a ih => exact .snoc ih a

theorem HSteps.one {s s' : HSt} (h : HStep compile cap k s s') : HSteps compile cap k s s' := .snoc .refl h

/-- The publishes in progress can complete. -/
theorem unlock {b b' : St} {ls : List Label} (hs : Steps compile cap b ls b') :
    ∀ {s : HSt}, s.b = b → (∀ l ∈ ls, l.publishing = true) →
    ∃ s', HSteps compile cap k s s' ∧ s'.b = b' ∧ s'.ctx = s.ctx ∧ (s'.go = s.go) := by
  induction hs with
  | nil => intro s e _; exact ⟨s, .refl, e, rfl, rfl⟩
  | @cons b l b1 ls b2 h _ ih =>
    intro s e hl
    subst e
    have hf : foreign k l := by
      have := hl l (List.mem_cons_self ..)
      cases l <;> simp_all [Label.publishing, foreign]
    obtain ⟨s', h1, h2, h3, h4⟩ := ih (s := { s with b := b1, hist := s.hist ++ [l], pc := wake k l s.pc }) rfl
      (fun l h => hl l (List.mem_cons_of_mem _ h))
    exact ⟨s', (HSteps.one compile cap k (.env hf h)).trans compile cap k h1, h2, h3, h4⟩

/-- **C69**.  Once the request's context is done, the handler can return, wherever it and its goroutine
are: nothing else needs to happen than that the publish holding the broker, if any, completes. -/
theorem C69_returns {s : HSt} (hr : HReach compile cap k s) (hc : s.ctx = true) (hp : s.pc ≠ .returned) :
    ∃ s', HSteps compile cap k s s' ∧ s'.pc = .returned := by
  have hj := reach_j compile cap k hr
  -- the lock
  obtain ⟨s₁, a1, a2, a3⟩ : ∃ s₁, HSteps compile cap k s s₁ ∧ s₁.b.lock = none ∧ s₁.ctx = true := by
    cases hl : s.b.lock with
    | none => exact ⟨s, .refl, hl, hc⟩
    | some p =>
      obtain ⟨str, todo⟩ := p
      obtain ⟨ls, b', h1, -, h2, h3⟩ := C51_publish_completes compile cap hj.run hl
      obtain ⟨s', x, y, z, -⟩ := unlock compile cap k h1 (s := s) rfl h2
      exact ⟨s', x, by rw [y]; exact h3, by rw [z]; exact hc⟩
  have hj₁ := steps_j compile cap k a1 hj
  -- the `go` statement
  obtain ⟨s₂, b1, b2, b3, b4⟩ : ∃ s₂, HSteps compile cap k s₁ s₂ ∧ s₂.b.lock = none ∧ s₂.ctx = true ∧ s₂.go ≠ .unborn := by
    by_cases h : s₁.go = .unborn
    · exact ⟨_, HSteps.one compile cap k (.spawn (hj₁.unborn h)), a2, a3, by simp⟩
    · exact ⟨s₁, .refl, a2, a3, h⟩
  have hj₂ := steps_j compile cap k b1 hj₁
  -- the stream's goroutine
  have close : ∀ s : HSt, J compile cap k s → s.go = .streamed →
      ∃ s', HSteps compile cap k s s' ∧ s'.ctx = s.ctx ∧ s'.go = .closed :=
    fun s _ h => ⟨_, HSteps.one compile cap k (.close h), rfl, rfl⟩
  have fin : ∀ s : HSt, J compile cap k s → s.go = .streaming → s.b.threads k.g = .cancelled k.c → s.b.lock = none →
      ∃ s', HSteps compile cap k s s' ∧ s'.ctx = s.ctx ∧ s'.go = .closed := by
    intro s hj hg ht hl
    obtain ⟨st, b', h⟩ := C53_returns compile cap hj.run ht hl
    have h1 := HStep.streamReturns (compile := compile) (cap := cap) (k := k) hg h
    obtain ⟨s', c1, c2, c3⟩ := close _ (j_step compile cap k hj h1) rfl
    exact ⟨s', (HSteps.one compile cap k h1).trans compile cap k c1, c2, c3⟩
  have str : ∀ s : HSt, J compile cap k s → s.go = .streaming → s.ctx = true → s.b.lock = none →
      ∃ s', HSteps compile cap k s s' ∧ s'.ctx = s.ctx ∧ s'.go = .closed := by
    intro s hj hg hc hl
    rcases hj.within (by rw [hg]; rfl) with h | h
    · have h1 := HStep.cancelled (compile := compile) (cap := cap) (k := k) hg hc (.cancel h)
      obtain ⟨s', c1, c2, c3⟩ := fin _ (j_step compile cap k hj h1) hg (by simp [upd]) hl
      exact ⟨s', (HSteps.one compile cap k h1).trans compile cap k c1, c2, c3⟩
    · exact fin s hj hg h hl
  obtain ⟨s₃, c1, c2, c3⟩ : ∃ s₃, HSteps compile cap k s₂ s₃ ∧ s₃.ctx = true ∧ s₃.go = .closed := by
    cases hg : s₂.go with
    | unborn => exact absurd hg b4
    | born =>
      have h1 := HStep.subscribe (compile := compile) (cap := cap) (k := k) hg
        (.subscribe b2 (hj₂.away (by rw [hg]; rfl)).1
          (by unfold register; rw [hj₂.nosub compile cap k (by rw [hg]; rfl)]))
      obtain ⟨s', d1, d2, d3⟩ := str _ (j_step compile cap k hj₂ h1) rfl b3 b2
      exact ⟨s', (HSteps.one compile cap k h1).trans compile cap k d1, by rw [d2]; exact b3, d3⟩
    | streaming =>
      obtain ⟨s', d1, d2, d3⟩ := str s₂ hj₂ hg b3 b2
      exact ⟨s', d1, by rw [d2]; exact b3, d3⟩
    | streamed =>
      obtain ⟨s', d1, d2, d3⟩ := close s₂ hj₂ hg
      exact ⟨s', d1, by rw [d2]; exact b3, d3⟩
    | closed => exact ⟨s₂, .refl, b3, hg⟩
  have hj₃ := steps_j compile cap k c1 hj₂
  -- the handler's goroutine
  have lv : ∀ s : HSt, s.pc = .leaving → s.go = .closed → ∃ s', HSteps compile cap k s s' ∧ s'.pc = .returned :=
    fun s h h' => ⟨_, HSteps.one compile cap k (.leave h h'), rfl⟩
  have lp : ∀ s : HSt, s.pc = .loop → s.go = .closed → s.ctx = true → ∃ s', HSteps compile cap k s s' ∧ s'.pc = .returned := by
    intro s h h' hc
    obtain ⟨s', e1, e2⟩ := lv { s with pc := .leaving } rfl h'
    exact ⟨s', (HSteps.one compile cap k (.done h hc)).trans compile cap k e1, e2⟩
  obtain ⟨s', d1, d2⟩ : ∃ s', HSteps compile cap k s₃ s' ∧ s'.pc = .returned := by
    cases hpc : s₃.pc with
    | start => have := hj₃.born hpc; rw [c3] at this; cases this
    | serving =>
      by_cases hi : 0 < k.interval
      · obtain ⟨s', e1, e2⟩ := lp { s₃ with pc := .loop } rfl c3 c2
        exact ⟨s', (HSteps.one compile cap k (.enter hpc hi)).trans compile cap k e1, e2⟩
      · obtain ⟨s', e1, e2⟩ := lv { s₃ with pc := .leaving } rfl c3
        exact ⟨s', (HSteps.one compile cap k (.tickerPanic hpc (by omega))).trans compile cap k e1, e2⟩
    | loop => exact lp s₃ hpc c3 c2
    | blocked =>
      have h1 := HStep.unblock (compile := compile) (cap := cap) (k := k) (s := s₃) hpc
        (.abandon (by rw [hj₃.wait, hpc]; simp))
      obtain ⟨t, t1, t2, t3, t4⟩ : ∃ t, HStep compile cap k s₃ t ∧ t.pc = .loop ∧ t.go = s₃.go ∧ t.ctx = s₃.ctx :=
        ⟨_, h1, rfl, rfl, rfl⟩
      obtain ⟨s', e1, e2⟩ := lp t t2 (by rw [t3]; exact c3) (by rw [t4]; exact c2)
      exact ⟨s', (HSteps.one compile cap k t1).trans compile cap k e1, e2⟩
    | got x =>
      by_cases hx : x.id = k.own
      · obtain ⟨s', e1, e2⟩ := lp { s₃ with pc := .loop } rfl c3 c2
        exact ⟨s', (HSteps.one compile cap k (.skip hpc hx)).trans compile cap k e1, e2⟩
      · obtain ⟨s', e1, e2⟩ := lp { s₃ with pc := .loop, out := s₃.out ++ [.trace x] } rfl c3 c2
        exact ⟨s', (HSteps.one compile cap k (.forward hpc hx)).trans compile cap k e1, e2⟩
    | leaving => exact lv s₃ hpc c3
    | returned => exact ⟨s₃, .refl, hpc⟩
  exact ⟨s', ((a1.trans compile cap k b1).trans compile cap k c1).trans compile cap k d1, d2⟩

theorem ctx_mono {s s' : HSt} (h : HStep compile cap k s s') (hc : s'.ctx = false) : s.ctx = false := by
  cases h <;> first | exact hc | cases hc

/-- The handler is stuck: it has left the event loop, but its stream goes on. -/
def Stuck (s : HSt) : Prop :=
  s.pc = .leaving ∧ s.go = .streaming ∧ s.b.threads k.g = .streaming k.c

/-- In the loop of the function that serves the events. -/
def PC.inLoop : PC → Bool
  | .loop => true
  | .blocked => true
  | .got _ => true
  | _ => false

/-- **C69**.  The stop signal is enough to end the loop, and the loop is never left but with the context
done: the subscription does not wait for the client to go away. -/
theorem C69_stops {s : HSt} (hl : s.pc.inLoop = true) :
    (s.pc = .loop → s.stop = true → ∃ s', HStep compile cap k s s' ∧ s'.pc = .leaving ∧ s'.ctx = true) ∧
    ∀ s', HSteps compile cap k s s' → s'.pc.inLoop = true ∨ s'.ctx = true := by
  refine ⟨fun h1 h2 => ⟨_, .stopped h1 h2, rfl, rfl⟩, ?_⟩
  intro s' hs
  induction hs with
  | refl => exact .inl hl
  | @snoc s' s'' hs h ih =>
    cases h with
    | @env l b' hf h =>
      rcases ih with ih | ih
      · refine .inl ?_
        show (wake k l s'.pc).inLoop = true
        unfold wake
        cases handover k l with
        | some x => rfl
        | none => exact ih
      · exact .inr ih
    | ctxDone => exact .inr rfl
    | stopped => exact .inr rfl
    | leave => exact .inr rfl
    | done _ hc => exact .inr hc
    | _ => simp_all [PC.inLoop]

/-- **C69 does not extend to** ending by itself.  When a request asks for statistics at an interval
that is not positive (`?stats=0s`), `time.NewTicker` panics, and the deferred wait comes before the
deferred cancel: the handler neither returns nor passes the panic on, and stays subscribed without
ever reading its channel, until the client goes away. -/
theorem C69_zero_interval_hangs (hi : k.interval ≤ 0) :
    ∃ s, HReach compile cap k s ∧ Stuck k s ∧
      ∀ s', HSteps compile cap k s s' → s'.ctx = false →
        s'.pc = .leaving ∧ (s'.b.subs k.c).isSome ∧ s'.out = [] := by
  let s0 : HSt := {}
  let s1 : HSt := { s0 with pc := .serving, go := .born }
  let s2 : HSt := { s1 with
    b := { s1.b with subs := upd s1.b.subs k.c (some { filter := k.f })
                     threads := upd s1.b.threads k.g (.streaming k.c) }
    hist := s1.hist ++ [.subscribed k.g k.c k.f], go := .streaming }
  have h1 : HStep compile cap k s0 s1 := .spawn rfl
  have h2 : HStep compile cap k s1 s2 := .subscribe rfl (.subscribe rfl rfl rfl)
  have h3 : HStep compile cap k s2 { s2 with pc := .leaving } := .tickerPanic rfl hi
  have hr : HReach compile cap k { s2 with pc := .leaving } := .snoc (.snoc (.snoc .refl h1) h2) h3
  refine ⟨_, hr, ⟨rfl, rfl, by simp [s2, upd]⟩, ?_⟩
  intro s' hs hc
  have key : Stuck k s' ∧ s'.out = [] := by
    induction hs with
    | refl => exact ⟨⟨rfl, rfl, by simp [s2, upd]⟩, rfl⟩
    | @snoc s' s'' hs h ih =>
      obtain ⟨⟨i1, i2, i3⟩, i4⟩ := ih (ctx_mono compile cap k h hc)
      have hj := steps_j compile cap k hs (reach_j compile cap k hr)
      cases h with
      | @env l b' hf h =>
        obtain ⟨f1, f2, f3⟩ := foreign_frame compile cap k hj.run (fun t f h => (hj.subs t f h).1) hf h
        have hw : wake k l s'.pc = s'.pc := by
          have hwt := hj.wait
          rw [i1] at hwt
          simp only [reduceCtorEq, if_false] at hwt
          rcases f3 with ⟨x, r, rs, -, e, -⟩ | ⟨e, -, -⟩
          · rw [hwt] at e; cases e
          · have : handover k l = none := by
              unfold handover
              split
              · rename_i ch x r
                rw [if_neg]
                rintro ⟨rfl, rfl⟩
                exact e x _ rfl
              · rfl
            simp [wake, this]
        exact ⟨⟨by simp only [hw]; exact i1, i2, by simp only [f1]; exact i3⟩, i4⟩
      | ctxDone => cases hc
      | stopSignal => exact ⟨⟨i1, i2, i3⟩, i4⟩
      | spawn hp' | enter hp' | tickerPanic hp' | notAcceptable hp' | wait hp' | unblock hp' | init hp' | tick hp'
      | tickError hp' | recv hp' | skip hp' | forward hp' | forwardFails hp' | done hp' | stopped hp' =>
        rw [i1] at hp'; cases hp'
      | leave hp' hg' => rw [i2] at hg'; cases hg'
      | subscribe hg' | refused hg' | close hg' => rw [i2] at hg'; cases hg'
      | cancelled hg' hc' => have : s'.ctx = false := hc; rw [hc'] at this; cases this
      | streamReturns hg' h =>
        cases h with
        | finish a b c => rw [i3] at b; cases b
      | streamFails hg' h =>
        cases h with
        | lost a b c => rw [i3] at b; cases b
  obtain ⟨⟨i1, i2, i3⟩, i4⟩ := key
  have hj := steps_j compile cap k hs (reach_j compile cap k hr)
  exact ⟨i1, (run_inv compile cap hj.run).threads k.g k.c (by rw [i3]; simp [Thread.holds]), i4⟩

end

/-! ## Witnesses -/

namespace Example

def compile : Compile := fun _ => .error "no"
def cap : Ch → Nat := fun _ => 0
def k : HCfg := { c := 7, g := 1, m := 2, f := {}, own := "me", interval := 1 }

def tr (id : String) : Static :=
  { source := "s", id, category := "c", started := .zero, finished := true, errored := false, duration := 5, events := [] }

def s1 : HSt := { pc := .serving, go := .born }
def s2 : HSt := { s1 with pc := .loop }
def s3 : HSt := { s2 with initc := false, out := [.init k.f 0] }
def s4 : HSt := { s3 with
  b := { subs := upd (fun _ => none) 7 (some { filter := k.f }), threads := upd (fun _ => .idle) 1 (.streaming 7) }
  hist := [.subscribed 1 7 k.f], go := .streaming }
def s5 : HSt := { s4 with
  b := { s4.b with chans := upd (fun _ => {}) 7 { waiting := [2] } }
  hist := [.subscribed 1 7 k.f, .wait 2 7], pc := .blocked }
def s6 : HSt := { s5 with
  b := { s5.b with lock := some (tr "x", [7]) }
  hist := [.subscribed 1 7 k.f, .wait 2 7, .publish (tr "x")] }

/-- A trace published while the handler is blocked in the `select` gets to the client, although the
channel has no buffer. -/
theorem example_run : ∃ s, HReach compile cap k s ∧ s.out = [.init k.f (cap k.c), .trace (tr "x")] ∧ s.failed = false := by
  have h1 : HStep compile cap k {} s1 := .spawn rfl
  have h2 : HStep compile cap k s1 s2 := .enter rfl (by decide)
  have h3 : HStep compile cap k s2 s3 := .init (ok := true) rfl rfl
  have h4 : HStep compile cap k s3 s4 := .subscribe rfl (.subscribe rfl rfl rfl)
  have h5 : HStep compile cap k s4 s5 := .wait rfl rfl rfl rfl (.wait (s := s4.b) (r := 2) (ch := 7) rfl)
  have h6 : HStep compile cap k s5 s6 := .env (l := .publish (tr "x")) trivial (.publish (s := s5.b) rfl
    ⟨by simp, fun ch => by
      by_cases e : ch = 7
      · subst e; simp [s5, s4, upd]
      · simp [s5, s4, upd, e]⟩)
  obtain ⟨sub', c', v, hv⟩ : ∃ sub' c' v, visit compile (cap 7) { filter := k.f } (s6.b.chans 7) (tr "x") = (sub', c', v) :=
    ⟨_, _, _, rfl⟩
  have hv2 : v = .sent (some 2) := by
    have : (visit compile (cap 7) { filter := k.f } (s6.b.chans 7) (tr "x")).2.2 = .sent (some 2) := by rfl
    rw [hv] at this; exact this
  subst hv2
  have h7 := HStep.env (compile := compile) (cap := cap) (k := k) (s := s6)
    (l := .visited 7 (tr "x") (.sent (some 2))) trivial (.visit (s := s6.b) (rest := []) rfl rfl hv)
  refine ⟨_, .snoc (.snoc (.snoc (.snoc (.snoc (.snoc (.snoc (.snoc .refl h1) h2) h3) h4) h5) h6) h7)
    (.forward (x := tr "x") rfl (by decide)), rfl, rfl⟩

example : ∃ s, HReach compile cap k s ∧ .trace (tr "x") ∈ s.out ∧ s.failed = false := by
  obtain ⟨s, h, ho, hf⟩ := example_run
  exact ⟨s, h, by rw [ho]; simp, hf⟩

/-- A request whose context is done can return: the hypotheses of `C69_returns` are met. -/
example : ∃ s, HReach compile cap k s ∧ s.ctx = true ∧ s.pc = .returned := by
  have h : HReach compile cap k { ctx := true } := .snoc .refl .ctxDone
  obtain ⟨s', h1, h2⟩ := C69_returns compile cap k h rfl (by simp)
  refine ⟨s', HSteps.trans compile cap k h h1, ?_, h2⟩
  have : ∀ s, HSteps compile cap k { ctx := true } s → s.ctx = true := by
    intro s hs
    induction hs with
    | refl => rfl
    | @snoc s s' _ a ih =>
      cases hc : s'.ctx with
      | true => rfl
      | false => rw [ctx_mono compile cap k a hc] at ih; cases ih
  exact this s' h1

/-- A handler in its loop that gets the stop signal: the hypotheses of `C69_stops` are met. -/
example : ∃ s, HReach compile cap k s ∧ s.pc.inLoop = true ∧ s.pc = .loop ∧ s.stop = true :=
  ⟨_, .snoc (.snoc (.snoc .refl (.spawn rfl)) (.enter rfl (by decide))) .stopSignal, rfl, rfl, rfl⟩

end Example

end Trc.Web
