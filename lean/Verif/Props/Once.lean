import Verif.Props.Publish

/-!
# C87: the end of a trace, as subscribers see it
-/

set_option linter.unusedSectionVars false
set_option linter.unusedVariables false
set_option linter.unusedSimpArgs false

namespace Trc.Wrap

open Core Core.Spec

variable {W A : Type} [Sys W A] [Arg A] [Humanize]

/-- The action finishes the trace. -/
def finishes (a : Nat) : Act A → Bool
  | .call b .finish => b == a
  | _ => false

/-- How often a trace is published after the first `Finish`. -/
def publishedAfter (a : Nat) : Bool → List (Act A) → Nat
  | _, [] => 0
  | fin, .call b c :: l => publishedAfter a (fin || finishes a (.call b c)) l
  | fin, .publish tr :: l => (if fin && tr.root == a then 1 else 0) + publishedAfter a fin l
  | fin, _ :: l => publishedAfter a fin l

theorem publishedAfter_touching (a : Nat) (fin : Bool) (l : List (Act A)) :
    publishedAfter a fin (l.filter (touches a)) = publishedAfter a fin l := by
  induction l generalizing fin with
  | nil => rfl
  | cons act l ih =>
    cases act with
    | call b c =>
      by_cases h : touches a (Act.call b c) = true
      · rw [List.filter_cons, if_pos h]; exact ih _
      · rw [List.filter_cons, if_neg h, ih]
        simp only [touches, Bool.and_eq_true, beq_iff_eq, Bool.not_eq_true', not_and, Bool.not_eq_false] at h
        simp only [publishedAfter]
        congr 1
        cases c with
        | finish =>
          by_cases hb : b = a
          · simp [isRead] at h; exact absurd hb h
          · simp [hb, finishes]
        | _ => simp [finishes]
    | publish tr =>
      by_cases h : touches a (Act.publish tr) = true
      · rw [List.filter_cons, if_pos h]
        simp only [publishedAfter, ih]
      · rw [List.filter_cons, if_neg h, ih]
        simp only [touches] at h
        simp [publishedAfter, h]
    | _ => simp only [List.filter_cons, touches, Bool.false_eq_true, if_false, publishedAfter]; exact ih _

/-- The end of a trace: when it was finished, and whether it had an error then. -/
structure Ended (b : Base) (errored : Bool) (entries : List (Entry W A)) (trunc : Nat) (fin : Time) (x : Abs W A) : Prop where
  fin : x.fin = some fin
  errored : x.errored = errored
  entries : x.stored.map Stored.entry = entries
  trunc : x.trunc = trunc

theorem Ended.step {b : Base} {e : Bool} {es : List (Entry W A)} {n : Nat} {t : Time} {x : Abs W A} (h : Ended b e es n t x)
    (env : Env W) (c : Call A) : Ended b e es n t (x.step env c) := by
  obtain ⟨h1, h2, h3, h4⟩ := run_fin h.fin [(env, c)]
  exact ⟨h1, h2.trans h.errored, h4.trans h.entries, h3.trans h.trunc⟩

theorem moments_ended {b : Base} {e : Bool} {es : List (Entry W A)} {n : Nat} {t : Time} {x : Abs W A} (h : Ended b e es n t x)
    (l : List (Env W × Act A)) : ∀ z ∈ moments x l, Ended b e es n t z := by
  induction l generalizing x with
  | nil => intro z hz; cases hz
  | cons p l ih =>
    obtain ⟨env, act⟩ := p
    cases act with
    | call _ c => exact ih (h.step env c)
    | publish tr =>
      intro z hz
      rcases List.mem_cons.mp hz with rfl | hz
      · exact h
      · exact ih h z hz
    | _ => exact ih h

theorem moments_count (a : Nat) (x : Abs W A) (l : List (Env W × Act A)) (hl : ∀ p ∈ l, touches a p.2 = true) (hx : x.fin.isSome = true) :
    (moments x l).length = publishedAfter a true (l.map Prod.snd) := by
  induction l generalizing x with
  | nil => rfl
  | cons p l ih =>
    obtain ⟨env, act⟩ := p
    have hl' : ∀ p ∈ l, touches a p.2 = true := fun p hp => hl p (List.mem_cons_of_mem _ hp)
    cases act with
    | call _ c =>
      refine ih _ hl' ?_
      obtain ⟨t, ht⟩ := Option.isSome_iff_exists.mp hx
      rw [(run_fin ht [(env, c)]).1 |> fun h => (h : (x.step env c).fin = some t)]
      rfl
    | publish tr =>
      have := hl _ List.mem_cons_self
      simp only [touches] at this
      simp only [moments, List.length_cons, List.map_cons, publishedAfter, this, Bool.and_self, if_true, ih x hl' hx]
      omega
    | _ => exact absurd (hl _ List.mem_cons_self) (by simp [touches])

/-- The moments at which a trace is published: first active ones, then ended ones. -/
theorem moments_split (a : Nat) (b : Base) (x : Abs W A) (l : List (Env W × Act A)) (hl : ∀ p ∈ l, touches a p.2 = true) (hx : x.fin = none) :
    ∃ zs es, moments x l = zs ++ es ∧ (∀ z ∈ zs, z.fin = none) ∧
      (∃ e n t ens, ∀ z ∈ es, Ended b e ens n t z) ∧
      es.length = publishedAfter a false (l.map Prod.snd) := by
  induction l generalizing x with
  | nil => exact ⟨[], [], rfl, by simp, ⟨false, 0, ⟨0, none⟩, [], by simp⟩, rfl⟩
  | cons p l ih =>
    obtain ⟨env, act⟩ := p
    have hl' : ∀ p ∈ l, touches a p.2 = true := fun p hp => hl p (List.mem_cons_of_mem _ hp)
    cases act with
    | call b' c =>
      have hb := hl _ List.mem_cons_self
      simp only [touches, Bool.and_eq_true, beq_iff_eq] at hb
      cases c with
      | finish =>
        have hfin : (x.step env .finish).fin = some env.now := by simp [Abs.step, hx]
        refine ⟨[], moments (x.step env .finish) l, rfl, by simp, ⟨_, _, _, _, moments_ended ⟨hfin, rfl, rfl, rfl⟩ l⟩, ?_⟩
        rw [moments_count a _ l hl' (by rw [hfin]; rfl)]
        simp [publishedAfter, finishes, hb.1]
      | log kind f as st =>
        have hf : (x.step env (.log kind f as st)).fin = none := by
          simp only [Abs.step, Abs.log, hx, Option.isSome_none, Bool.false_eq_true, if_false]
          split <;> simp [hx]
        obtain ⟨zs, es, h1, h2, h3, h4⟩ := ih _ hl' hf
        exact ⟨zs, es, h1, h2, h3, by rw [h4]; simp [publishedAfter, finishes]⟩
      | setMaxEvents m =>
        obtain ⟨zs, es, h1, h2, h3, h4⟩ := ih (x.step env (.setMaxEvents m)) hl' hx
        exact ⟨zs, es, h1, h2, h3, by rw [h4]; simp [publishedAfter, finishes]⟩
      | read n s => simp [isRead] at hb
    | publish tr =>
      obtain ⟨zs, es, h1, h2, h3, h4⟩ := ih x hl' hx
      refine ⟨x :: zs, es, by simp [moments, h1], ?_, h3, by rw [h4]; simp [publishedAfter]⟩
      intro z hz
      rcases List.mem_cons.mp hz with rfl | hz
      · exact hx
      · exact h2 z hz
    | _ => exact absurd (hl _ List.mem_cons_self) (by simp [touches])

/-- **C87**, with as many final messages as there are publications after the first `Finish`.  Whatever is
called on a collector's trace, through any wrappers, by any goroutines in any interleaving, and read
meanwhile: the messages about it say first that it is active, and then that it is finished, and never
again that it is active; all of the latter report the same duration, outcome and number of events. -/
theorem C87_finished_partial (settings : List Setting) (start : Time) (id source category : String) (old : CoreTrace A)
    (w w' : World A) (ex : List (AEnv W × Act A)) (a : Nat)
    (hpub : ∀ p ∈ ex, ∀ tr, p.2 = .publish tr → tr.root = a → tr = .core a ∧ p.1.subscribed = true)
    (hm : ∀ p ∈ ex, notMake a p.2) (hrun : w.run ex = some w')
    (ht : w.traces a = some (fresh settings start id source category old)) :
    ∃ actives finals, messages a w' = messages a w ++ actives ++ finals ∧
      (∀ st ∈ actives, st.finished = false) ∧
      (∃ duration errored count, ∀ st ∈ finals, st.finished = true ∧ st.duration = duration ∧ st.errored = errored ∧
        st.events.length = count) ∧
      finals.length = publishedAfter a false (ex.map Prod.snd) := by
  rw [fresh_conc (W := W)] at ht
  obtain ⟨y, msgs, r1, r2, r3, r4⟩ := run_messages hrun ht hm hpub
  generalize hl : ((ex.map fun p => (p.1.toEnv, p.2)).filter fun p => touches a p.2) = l at r4
  have htl : ∀ p ∈ l, touches a p.2 = true := by rw [← hl]; intro p hp; exact (List.mem_filter.mp hp).2
  obtain ⟨zs, es, h1, h2, ⟨e, n, t, ens, h3⟩, h4⟩ := moments_split a (freshBase settings start id source category)
    (Abs.new (Globals.after settings).traceMaxEvents : Abs W A) l htl rfl
  rw [h1] at r4
  refine ⟨msgs.take zs.length, msgs.drop zs.length, by rw [List.append_assoc, List.take_append_drop, r2], ?_, ?_, ?_⟩
  · intro st hst
    obtain ⟨i, hi, hget⟩ := List.mem_iff_getElem.mp hst
    rw [List.getElem_take] at hget
    have hi' : i < zs.length := by have := hi; rw [List.length_take] at this; omega
    have him : i < msgs.length := by have := hi; rw [List.length_take] at this; omega
    obtain ⟨z, env, hz, rfl⟩ := r4.2 i st zs[i] (by rw [List.getElem?_eq_getElem him, hget])
      (by rw [List.getElem?_append_left hi', List.getElem?_eq_getElem hi'])
    show z.fin.isSome = false
    rw [hz.fin, h2 _ (List.getElem_mem hi')]
    rfl
  · refine ⟨t.sub start, e, (if n > 0 then (ens.length - 1) + (if ens.isEmpty then 0 else 1) else ens.length), fun st hst => ?_⟩
    obtain ⟨i, hi, hget⟩ := List.mem_iff_getElem.mp hst
    rw [List.getElem_drop] at hget
    have him : zs.length + i < msgs.length := by have := hi; rw [List.length_drop] at this; omega
    have hie : i < es.length := by have := r4.1; rw [List.length_append] at this; omega
    obtain ⟨z, env, hz, rfl⟩ := r4.2 (zs.length + i) st es[i] (by rw [List.getElem?_eq_getElem him, hget])
      (by rw [List.getElem?_append_right (by omega)]; simp [List.getElem?_eq_getElem hie])
    have he := h3 _ (List.getElem_mem hie)
    have hzf : z.fin = some t := by rw [hz.fin, he.fin]
    refine ⟨?_, ?_, ?_, ?_⟩
    · show z.fin.isSome = true
      rw [hzf]; rfl
    · show (z.conc _).durationAt env.now = _
      simp only [CoreTrace.durationAt, Abs.conc, hzf]
      rfl
    · show z.errored = e
      rw [hz.errored, he.errored]
    · show (z.read _ env (if z.fin.isSome then -1 else 1) false).length = _
      have hlen : ens.length = z.stored.length := by rw [← he.entries, ← hz.entries, List.length_map]
      have htr : z.trunc = n := by rw [hz.trunc, he.trunc]
      rw [hzf]
      simp only [Option.isSome_some, if_true]
      rw [read_all, htr]
      split
      · simp only [List.length_append, List.length_drop, List.length_map, hlen]
        have : z.stored.isEmpty = ens.isEmpty := by
          cases hs : z.stored <;> cases hn : ens <;> simp_all
        rw [this]
        split <;> simp
      · simp [hlen]
  · rw [List.length_drop, r4.1, List.length_append, Nat.add_sub_cancel_left, h4]
    have : l.map Prod.snd = (ex.map Prod.snd).filter (touches a) := by
      rw [← hl, List.filter_map, List.filter_map, List.map_map]; rfl
    rw [this, publishedAfter_touching]

theorem publishedAfter_append (a : Nat) (fin : Bool) (l l' : List (Act A)) :
    publishedAfter a fin (l ++ l') = publishedAfter a fin l + publishedAfter a (fin || l.any (finishes a)) l' := by
  induction l generalizing fin with
  | nil => simp [publishedAfter]
  | cons act l ih =>
    cases act with
    | call b c =>
      simp only [List.cons_append, publishedAfter, ih, List.any_cons, Bool.or_assoc]
    | publish tr => simp only [List.cons_append, publishedAfter, ih, List.any_cons, finishes, Bool.false_or]; omega
    | _ => simp only [List.cons_append, publishedAfter, ih, List.any_cons, finishes, Bool.false_or]

/-- **C87**, if nobody calls the trace after, or while, it is being finished, and it is finished once:
there is exactly one final message about it, and it is the last. -/
theorem C87_once_partial (settings : List Setting) (start : Time) (id source category : String) (old : CoreTrace A)
    (w w' : World A) (ex : List (AEnv W × Act A)) (a : Nat) (before : List (Act A)) (trF : Tr A) (hcF : Collected a trF)
    (hex : (ex.map Prod.snd).filter (touches a) = before ++ trF.finishActs.filter (touches a))
    (hbefore : ∀ act ∈ before, act ≠ .call a .finish)
    (hpub : ∀ p ∈ ex, ∀ tr, p.2 = .publish tr → tr.root = a → tr = .core a ∧ p.1.subscribed = true)
    (hm : ∀ p ∈ ex, notMake a p.2) (hrun : w.run ex = some w')
    (ht : w.traces a = some (fresh settings start id source category old)) :
    ∃ actives final, messages a w' = messages a w ++ actives ++ [final] ∧
      (∀ st ∈ actives, st.finished = false) ∧ final.finished = true := by
  obtain ⟨actives, finals, h1, h2, ⟨d, e, c, h3⟩, h4⟩ :=
    C87_finished_partial settings start id source category old w w' ex a hpub hm hrun ht
  rw [← publishedAfter_touching, hex, collected_finish hcF, publishedAfter_append] at h4
  have hz : ∀ (l : List (Act A)), (∀ act ∈ l, act ≠ .call a .finish) → publishedAfter a false l = 0 ∧
      (l.any (finishes a)) = false := by
    intro l
    induction l with
    | nil => intro _; exact ⟨rfl, rfl⟩
    | cons act l ih =>
      intro hl
      obtain ⟨i1, i2⟩ := ih fun act h => hl act (List.mem_cons_of_mem _ h)
      have hact := hl act List.mem_cons_self
      cases act with
      | call b c =>
        have hc : ¬ (b = a ∧ c = .finish) := by rintro ⟨rfl, rfl⟩; exact hact rfl
        have hf : finishes a (Act.call b c) = false := by
          cases c with
          | finish => simp only [finishes, beq_eq_false_iff_ne]; exact fun hb => hc ⟨hb, rfl⟩
          | _ => rfl
        simp [publishedAfter, hf, i1, i2]
      | _ => simp [publishedAfter, i1, i2, finishes]
  obtain ⟨z1, z2⟩ := hz before hbefore
  rw [z1, z2] at h4
  have : publishedAfter a false [(.call a .finish : Act A), .publish (.core a)] = 1 := by simp [publishedAfter, Tr.root, finishes]
  simp only [Bool.false_or, this] at h4
  obtain ⟨final, rfl⟩ := List.length_eq_one_iff.mp h4
  exact ⟨actives, final, h1, h2, (h3 final List.mem_cons_self).1⟩

/-- **C87**, the other half: if `Finish` was called through the collector's trace and has returned, there is
a final message. -/
theorem C87_told (settings : List Setting) (start : Time) (id source category : String) (old : CoreTrace A)
    (w w' : World A) (ex : List (AEnv W × Act A)) (a : Nat) (trF : Tr A) (hcF : Collected a trF)
    (hex : trF.finishActs.Sublist (ex.map Prod.snd))
    (hpub : ∀ p ∈ ex, ∀ tr, p.2 = .publish tr → tr.root = a → tr = .core a ∧ p.1.subscribed = true)
    (hm : ∀ p ∈ ex, notMake a p.2) (hrun : w.run ex = some w')
    (ht : w.traces a = some (fresh settings start id source category old)) :
    ∃ st, (messages a w').getLast? = some st ∧ st.finished = true := by
  obtain ⟨actives, finals, h1, h2, ⟨d, e, c, h3⟩, h4⟩ :=
    C87_finished_partial settings start id source category old w w' ex a hpub hm hrun ht
  have hsub := hex.filter (touches a)
  rw [collected_finish hcF] at hsub
  have hpos : 0 < publishedAfter a false ((ex.map Prod.snd).filter (touches a)) := by
    have key : ∀ (l : List (Act A)) (fin : Bool), (if fin then [(.publish (.core a) : Act A)] else [.call a .finish, .publish (.core a)]).Sublist l →
        0 < publishedAfter a fin l := by
      intro l
      induction l with
      | nil => intro fin h; cases fin <;> simp at h
      | cons act l ih =>
        intro fin h
        cases fin with
        | true =>
          simp only [if_true] at h
          rcases List.sublist_cons_iff.mp h with h' | ⟨r, hr, h'⟩
          · have := ih true (by simpa using h')
            cases act with
            | call b c => simpa [publishedAfter] using this
            | publish tr => simp only [publishedAfter]; omega
            | _ => exact this
          · simp only [List.cons.injEq] at hr
            obtain ⟨rfl, _⟩ := hr
            simp only [publishedAfter, Tr.root, beq_self_eq_true, Bool.and_self, if_true]
            omega
        | false =>
          simp only [Bool.false_eq_true, if_false] at h
          rcases List.sublist_cons_iff.mp h with h' | ⟨r, hr, h'⟩
          · have i := ih false (by simpa using h')
            have i' := ih true (by
              simp only [if_true]
              exact (List.sublist_cons_self _ _).trans h')
            cases act with
            | call b c =>
              simp only [publishedAfter, Bool.false_or]
              cases (finishes a (Act.call b c))
              · exact i
              · exact i'
            | publish tr => simp only [publishedAfter]; omega
            | _ => exact i
          · simp only [List.cons.injEq] at hr
            obtain ⟨rfl, rfl⟩ := hr
            have i' := ih true (by simpa using h')
            simpa [publishedAfter, finishes] using i'
    exact key _ false (by simpa using hsub)
  rw [publishedAfter_touching, ← h4] at hpos
  have hne : finals ≠ [] := List.ne_nil_of_length_pos hpos
  refine ⟨finals.getLast hne, ?_, (h3 _ (List.getLast_mem hne)).1⟩
  rw [h1, List.getLast?_append, List.getLast?_eq_some_getLast hne]
  rfl

end Trc.Wrap

namespace Trc.Wrap.Witness

open Core Core.Spec Fmt

/-- C87: two goroutines log and finish, interleaved, with the finishing one first: there are two final messages. -/
theorem C87_once_violated : texts (.make 0 "s" "c" :: tr.logActs .tracef "a" [] [] ++ tr.finishActs ++ tr.logActs .tracef "b" [] []) =
    some [(["a"], false), (["a"], true), (["a"], true)] := rfl

/-- A run of `C87_once_partial`. -/
example : texts (.make 0 "s" "c" :: tr.logActs .tracef "a" [] [] ++ tr.logActs .errorf "b" [] [] ++ tr.finishActs) =
    some [(["a"], false), (["b"], false), (["a", "b"], true)] ∧
    Collected 0 tr ∧
    (tr.logActs .tracef "a" [] [] ++ tr.logActs .errorf "b" [] [] ++ tr.finishActs).filter (touches 0) =
      (tr.logActs .tracef "a" [] [] ++ tr.logActs .errorf "b" [] []).filter (touches 0) ++ tr.finishActs.filter (touches 0) :=
  ⟨rfl, .log "id" 1 .base, rfl⟩

end Trc.Wrap.Witness
