import Verif.Props.Broker

/-!
# Further cases for C49–C53

Two channels, the statistics of a stream while it runs and after it has ended, and a channel that is subscribed again.
-/

namespace Trc.Broker.Witness

/-- Channel 7 is subscribed by 1 and channel 8 by 2; a trace is published to both; 7 is cancelled, returns, and is subscribed
again, by 3, with another filter; an errored trace is published; the map was ranged over in different orders. -/
def twoLabels : List Label :=
  [.stats 7 none, .subscribed 1 7 f, .subscribed 2 8 {}, .stats 7 (some {}),
   .publish (tr "a"), .visited 8 (tr "a") (.sent none), .visited 7 (tr "a") (.sent none), .release,
   .stats 7 (some { sends := 1 }), .cancel 1, .returned 1 7 { sends := 1 }, .stats 7 none,
   .subscribed 3 7 { isErrored := true }, .recv 4 7 (tr "a"),
   .publish (tr "b" true), .visited 7 (tr "b" true) (.sent none), .visited 8 (tr "b" true) .dropped, .release,
   .stats 8 (some { sends := 1, drops := 1 }), .cancel 2]

theorem enum2 (order : List Ch) (ho : order = [7, 8] ∨ order = [8, 7]) (m : Subs) (h7 : (m 7).isSome) (h8 : (m 8).isSome)
    (h' : ∀ c, c ≠ 7 → c ≠ 8 → m c = none) : Enumerates order m := by
  refine ⟨by rcases ho with rfl | rfl <;> decide, fun ch => ?_⟩
  by_cases e : ch = 7
  · subst e; rcases ho with rfl | rfl <;> simp [h7]
  · by_cases e' : ch = 8
    · subst e'; rcases ho with rfl | rfl <;> simp [h8]
    · rcases ho with rfl | rfl <;> simp [e, e', h' ch e e']

theorem ranTwo : ∃ s, Run compile cap twoLabels s ∧ s.lock = none ∧ s.threads 2 = .cancelled 8 ∧ s.threads 1 = .idle := by
  have r0 := Run.init (compile := compile) (cap := cap)
  have r1 := Run.step r0 (.stats (ch := 7) rfl)
  have r2 := Run.step r1 (.subscribe (t := 1) (ch := 7) (f := f) rfl rfl rfl)
  have r3 := Run.step r2 (.subscribe (t := 2) (ch := 8) (f := {}) rfl rfl rfl)
  have r4 := Run.step r3 (.stats (ch := 7) rfl)
  have r5 := Run.step r4 (.publish (str := tr "a") (order := [8, 7]) rfl
    (enum2 _ (.inr rfl) _ rfl rfl (by intro c h h'; simp [upd, h, h'])))
  have r6 := Run.step r5 (.visit rfl rfl rfl)
  have r7 := Run.step r6 (.visit rfl rfl rfl)
  have r8 := Run.step r7 (.release rfl)
  have r9 := Run.step r8 (.stats (ch := 7) rfl)
  have r10 := Run.step r9 (.cancel (t := 1) rfl)
  have r11 := Run.step r10 (.finish (t := 1) (ch := 7) rfl rfl rfl)
  have r12 := Run.step r11 (.stats (ch := 7) rfl)
  have r13 := Run.step r12 (.subscribe (t := 3) (ch := 7) (f := { isErrored := true }) rfl rfl rfl)
  have r14 := Run.step r13 (.recv (r := 4) (ch := 7) rfl)
  have r15 := Run.step r14 (.publish (str := tr "b" true) (order := [7, 8]) rfl
    (enum2 _ (.inl rfl) _ rfl rfl (by intro c h h'; simp [upd, h, h'])))
  have r16 := Run.step r15 (.visit rfl rfl rfl)
  have r17 := Run.step r16 (.visit rfl rfl rfl)
  have r18 := Run.step r17 (.release rfl)
  have r19 := Run.step r18 (.stats (ch := 8) rfl)
  have r20 := Run.step r19 (.cancel (t := 2) rfl)
  exact ⟨_, r20, rfl, rfl, rfl⟩

/-- C49: the statistics asked for while the stream runs; and asked for before and after it. -/
example : (∃ t f seg, Session 7 (twoLabels.take 8) t f seg ∧ Accounts compile 7 f seg { sends := 1 }) ∧
    Closed 7 [] ∧ Closed 7 (twoLabels.take 11) := by
  obtain ⟨s, hr, -⟩ := ranTwo
  exact ⟨C49_stream_stats compile cap hr (h₁ := twoLabels.take 8) (h₂ := twoLabels.drop 9) rfl,
    (C49_not_subscribed compile cap hr (h₁ := []) (h₂ := twoLabels.drop 1) rfl).mp rfl,
    (C49_not_subscribed compile cap hr (h₁ := twoLabels.take 11) (h₂ := twoLabels.drop 12) rfl).mp rfl⟩

/-- C52: subscribed again after the stream has ended. -/
example : Closed 7 (twoLabels.take 12) := by
  obtain ⟨s, hr, -⟩ := ranTwo
  exact C52_granted compile cap hr (h₁ := twoLabels.take 12) (h₂ := twoLabels.drop 13) rfl

/-- C52: with both channels subscribed, one more call is refused for 7 and granted for 9. -/
example : ∃ s, Run compile cap twoLabels s ∧ Step compile cap s (.refused 1 7) s ∧
    ∃ s', Step compile cap s (.subscribed 1 9 f) s' := by
  obtain ⟨s, hr, hl, -, ht⟩ := ranTwo
  refine ⟨s, hr, ?_, ?_⟩
  · rcases C52_called compile cap hr hl ht 7 f with h | ⟨hc, -⟩
    · exact h.2.1
    · exfalso
      rcases hc with hc | ⟨h₁, t, st, seg, he, hc⟩
      · have := hc (.subscribed 1 7 f) (by simp [twoLabels])
        simp [Label.turns] at this
      · have hlast : (twoLabels.filter (Label.turns 7)).getLast? = some (.returned t 7 st) := by
          rw [he, List.filter_append, List.filter_cons]
          have : seg.filter (Label.turns 7) = [] := List.filter_eq_nil_iff.mpr fun l hl => by simp [hc l hl]
          simp [Label.turns, this]
        simp [twoLabels, Label.turns] at hlast
  · rcases C52_called compile cap hr hl ht 9 f with ⟨⟨t', f', seg, hs⟩, -⟩ | h
    · exfalso
      obtain ⟨h₁, he⟩ := hs.split
      have : Label.subscribed t' 9 f' ∈ twoLabels := by rw [he]; simp
      simp [twoLabels] at this
    · exact h.2.1

/-- C53: a channel is visited after a stream of it has returned, and it was subscribed in between; a cancelled stream
returns, and the other one stays. -/
example : (∃ t' f', Label.subscribed t' 7 f' ∈ (twoLabels.drop 11).take 4) ∧
    ∃ s st s', Run compile cap twoLabels s ∧ Step compile cap s (.returned 2 8 st) s' ∧
      ∃ seg, Session 7 (twoLabels ++ [.returned 2 8 st]) 3 { isErrored := true } seg := by
  obtain ⟨s, hr, hl, ht, -⟩ := ranTwo
  refine ⟨C53_nothing_after_return compile cap hr (h₁ := twoLabels.take 10) (h₂ := (twoLabels.drop 11).take 4)
    (h₃ := twoLabels.drop 16) (t := 1) (ch := 7) (st := { sends := 1 }) (str := tr "b" true) (v := .sent none) rfl, ?_⟩
  obtain ⟨st, s', hs⟩ := C53_returns compile cap hr ht hl
  refine ⟨s, st, s', hr, hs, _, (C53_others_stay compile cap hr hs (ch' := 7) (by decide) (t' := 3)
    (f := { isErrored := true }) (seg := twoLabels.drop 13) ⟨⟨twoLabels.take 12, rfl⟩, ?_, ?_⟩).1⟩
  · simp [twoLabels, Label.turns]
  · simp [twoLabels, Label.by]

/-- C51: in the middle of a publish the lock is held and there is work to do, and the publish completes. -/
example : ∃ h s str todo, Run compile cap h s ∧ s.lock = some (str, todo) ∧ todo = [8, 7] := by
  have r0 := Run.init (compile := compile) (cap := cap)
  have r2 := Run.step r0 (.subscribe (t := 1) (ch := 7) (f := f) rfl rfl rfl)
  have r3 := Run.step r2 (.subscribe (t := 2) (ch := 8) (f := {}) rfl rfl rfl)
  have r5 := Run.step r3 (.publish (str := tr "a") (order := [8, 7]) rfl
    (enum2 _ (.inr rfl) _ rfl rfl (by intro c h h'; simp [upd, h, h'])))
  exact ⟨_, _, _, _, r5, rfl, rfl⟩

end Trc.Broker.Witness
