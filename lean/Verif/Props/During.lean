import Mathlib.Data.List.Infix
import Mathlib.Data.List.Nodup
import Verif.Search.During
import Verif.Props.Search
import Verif.Props.Ring

/-!
# C88: searching while traces come and go
-/

set_option linter.unusedSectionVars false
set_option linter.unusedVariables false
set_option linter.unusedSimpArgs false

namespace Trc.Ring

variable {α : Type} [Inhabited α]

/-- The traces added, with their categories. -/
def addsOf (ops : List (MOp α)) : List (String × α) :=
  ops.filterMap fun | .add k v => some (k, v) | _ => none

/-- What is shown by some category. -/
def Retains (s : RBs α) (v : α) : Prop := ∃ k items, s.contents k = some items ∧ v ∈ items

/-! ## Buffers are made by their own operations -/

/-- The buffer was made by `NewRingBuffer`, `Add` and `Resize`. -/
def Made (rb : RB α) : Prop := ∃ (cap : Nat) (ops : List (Op α)) (outs : List (List α)), exec (cap : Int) ops = some (rb, outs)

theorem ring_run_append (rb : RB α) (l l' : List (Op α)) :
    run rb (l ++ l') = (run rb l).bind fun p => (run p.1 l').map fun q => (q.1, p.2 ++ q.2) := by
  induction l generalizing rb with
  | nil => simp only [List.nil_append, run, Option.bind_some, List.nil_append]; cases run rb l' <;> rfl
  | cons op l ih =>
    simp only [List.cons_append, run, bind, pure]
    cases step rb op with
    | none => rfl
    | some p =>
      simp only [Option.bind_some, ih]
      cases run p.1 l with
      | none => rfl
      | some q =>
        simp only [Option.bind_some]
        cases run q.1 l' <;> rfl

theorem Made.step {rb rb' : RB α} (h : Made rb) {op : Op α} {d : List α} (hs : Ring.step rb op = some (rb', d)) : Made rb' := by
  obtain ⟨cap, ops, outs, he⟩ := h
  refine ⟨cap, ops ++ [op], outs ++ [d], ?_⟩
  unfold exec at he ⊢
  cases hn : (newRB (cap : Int) : Option (RB α)) with
  | none => simp [hn] at he
  | some rb₀ =>
    simp only [hn, bind, Option.bind_some] at he ⊢
    rw [ring_run_append, he]
    simp [run, hs]

theorem made_insert {m : Assoc (RB α)} (h : ∀ k rb, m.find k = some rb → Made rb) {k : String} {rb : RB α} (hr : Made rb) :
    ∀ k' rb', (m.insert k rb).find k' = some rb' → Made rb' := by
  intro k' rb' hk
  rw [Assoc.find_insert] at hk
  split at hk
  · obtain rfl := Option.some.inj hk; exact hr
  · exact h _ _ hk

theorem made_step {s s' : RBs α} {f : Spec.Family α} {op : MOp α} {d : List α} (hf : FRep s f) (h : ∀ k rb, s.bufs.find k = some rb → Made rb)
    (hs : s.step op = some (s', d)) : ∀ k rb, s'.bufs.find k = some rb → Made rb := by
  cases op with
  | getOrCreate c =>
    simp only [RBs.step] at hs
    split at hs
    · simp only [Option.some.injEq, Prod.mk.injEq] at hs; obtain ⟨rfl, _⟩ := hs; exact h
    · unfold RBs.getOrCreate at hs
      split at hs
      · simp only [bind, Option.bind_some, pure, Option.some.injEq, Prod.mk.injEq] at hs; obtain ⟨rfl, _⟩ := hs; exact h
      · cases hn : (newRB s.cap : Option (RB α)) with
        | none => simp [hn] at hs
        | some rb =>
          simp only [hn, bind, Option.bind_some, pure, Option.some.injEq, Prod.mk.injEq] at hs
          obtain ⟨rfl, _⟩ := hs
          refine made_insert h ⟨f.cap, [], [], ?_⟩
          rw [← hf.hcap]
          simp [exec, hn, run]
  | add c v =>
    simp only [RBs.step] at hs
    split at hs
    · simp only [Option.some.injEq, Prod.mk.injEq] at hs; obtain ⟨rfl, _⟩ := hs; exact h
    · rename_i rb hfind
      cases ha : add rb v with
      | none => simp [ha] at hs
      | some p =>
        simp only [ha, bind, Option.bind_some, pure, Option.some.injEq, Prod.mk.injEq] at hs
        obtain ⟨rfl, _⟩ := hs
        exact made_insert h ((h _ _ hfind).step (op := .add v) (d := p.2.toList) (by simp [Ring.step, ha]))
  | beginResize c order =>
    simp only [RBs.step] at hs
    split at hs
    · simp only [Option.some.injEq, Prod.mk.injEq] at hs; obtain ⟨rfl, _⟩ := hs; exact h
    · split at hs
      · simp only [Option.some.injEq, Prod.mk.injEq] at hs; obtain ⟨rfl, _⟩ := hs; exact h
      · split at hs <;>
        · simp only [Option.some.injEq, Prod.mk.injEq] at hs; obtain ⟨rfl, _⟩ := hs; exact h
  | resizeNext =>
    simp only [RBs.step] at hs
    split at hs
    · simp only [Option.some.injEq, Prod.mk.injEq] at hs; obtain ⟨rfl, _⟩ := hs; exact h
    · simp only [Option.some.injEq, Prod.mk.injEq] at hs; obtain ⟨rfl, _⟩ := hs; exact h
    · split at hs
      · simp only [Option.some.injEq, Prod.mk.injEq] at hs; obtain ⟨rfl, _⟩ := hs; exact h
      · rename_i rb hfind
        cases ha : resize rb s.cap with
        | none => simp [ha] at hs
        | some p =>
          simp only [ha, bind, Option.bind_some, pure, Option.some.injEq, Prod.mk.injEq] at hs
          obtain ⟨rfl, _⟩ := hs
          exact made_insert h ((h _ _ hfind).step (op := .resize s.cap) (d := p.2) (by simp [Ring.step, ha]))

/-! ## What is retained was added -/

theorem addsOf_append (l l' : List (MOp α)) : addsOf (l ++ l') = addsOf l ++ addsOf l' := List.filterMap_append ..

/-- The traces added to a category, newest first. -/
def addsTo (k : String) (ops : List (MOp α)) : List α := (((addsOf ops).filter (·.1 = k)).map (·.2)).reverse

theorem addsTo_append (k : String) (l l' : List (MOp α)) : addsTo k (l ++ l') = addsTo k l' ++ addsTo k l := by
  simp [addsTo, addsOf_append]

theorem items_upd (f : Spec.Family α) (k k' : String) (r : Spec.Recent α) (g : Spec.Family α) (hg : g.cat = f.upd k r) :
    g.items k' = if k = k' then r.items else f.items k' := by
  unfold Spec.Family.items
  rw [hg]
  unfold Spec.Family.upd
  by_cases h : k = k' <;> simp [h]

theorem items_step (f : Spec.Family α) (op : MOp α) (k : String) :
    ((f.step op).1.items k).Sublist (addsTo k [op] ++ f.items k) := by
  cases op with
  | getOrCreate c =>
    simp only [Spec.Family.step]
    split
    · rename_i hr hc
      rw [items_upd f c k { cap := f.cap, items := [] } _ rfl]
      split
      · exact List.nil_sublist _
      · exact List.sublist_append_right _ _
    · exact List.sublist_append_right _ _
  | add c v =>
    simp only [Spec.Family.step]
    split
    · exact List.sublist_append_right _ _
    · rename_i r hc
      rw [items_upd f c k (r.add v).1 _ rfl]
      split
      · rename_i hck
        subst hck
        have h1 : f.items c = r.items := by simp [Spec.Family.items, hc]
        have h2 : addsTo c [MOp.add c v] = [v] := by simp [addsTo, addsOf]
        rw [h1, h2]
        exact List.take_sublist _ _
      · exact List.sublist_append_right _ _
  | beginResize c order =>
    simp only [Spec.Family.step]
    split <;> exact List.sublist_append_right _ _
  | resizeNext =>
    simp only [Spec.Family.step]
    split
    · exact List.sublist_append_right _ _
    · exact List.sublist_append_right _ _
    · split
      · exact List.sublist_append_right _ _
      · rename_i c rest hr _ r hc
        rw [items_upd f c k (r.resize f.cap).1 _ rfl]
        split
        · rename_i hck
          subst hck
          have h1 : f.items c = r.items := by simp [Spec.Family.items, hc]
          rw [h1]
          refine List.Sublist.trans ?_ (List.sublist_append_right _ _)
          unfold Spec.Recent.resize
          split
          · exact List.Sublist.refl _
          · exact List.take_sublist _ _
        · exact List.sublist_append_right _ _

/-- A state that was reached, and the steps up to it. -/
structure After (hist : List (MOp α)) (s : RBs α) : Prop where
  frep : ∃ f, FRep s f ∧ ∀ k, (f.items k).Sublist (addsTo k hist)
  made : ∀ k rb, s.bufs.find k = some rb → Made rb

theorem After.step {hist : List (MOp α)} {s : RBs α} (h : After hist s) (op : MOp α) :
    ∃ s' d, s.step op = some (s', d) ∧ After (hist ++ [op]) s' ∧ ∀ k, (s.bufs.find k).isSome → (s'.bufs.find k).isSome := by
  obtain ⟨f, hf, hsub⟩ := h.frep
  obtain ⟨s', he, hf'⟩ := frep_step hf op
  refine ⟨s', _, he, ⟨⟨_, hf', fun k => ?_⟩, made_step hf h.made he⟩, fun k hk => ?_⟩
  · rw [addsTo_append]
    exact (items_step f op k).trans ((List.Sublist.refl _).append (hsub k))
  · have hins : ∀ (c : String) (rb : RB α), ((s.bufs.insert c rb).find k).isSome := by
      intro c rb
      rw [Assoc.find_insert]
      split
      · rfl
      · exact hk
    cases op with
    | getOrCreate c =>
      simp only [RBs.step] at he
      split at he
      · simp only [Option.some.injEq, Prod.mk.injEq] at he; obtain ⟨rfl, _⟩ := he; exact hk
      · unfold RBs.getOrCreate at he
        split at he
        · simp only [bind, Option.bind_some, pure, Option.some.injEq, Prod.mk.injEq] at he; obtain ⟨rfl, _⟩ := he; exact hk
        · cases hn : (newRB s.cap : Option (RB α)) with
          | none => simp [hn] at he
          | some rb =>
            simp only [hn, bind, Option.bind_some, pure, Option.some.injEq, Prod.mk.injEq] at he
            obtain ⟨rfl, _⟩ := he
            exact hins c rb
    | add c v =>
      simp only [RBs.step] at he
      split at he
      · simp only [Option.some.injEq, Prod.mk.injEq] at he; obtain ⟨rfl, _⟩ := he; exact hk
      · rename_i rb hfind
        cases ha : add rb v with
        | none => simp [ha] at he
        | some p =>
          simp only [ha, bind, Option.bind_some, pure, Option.some.injEq, Prod.mk.injEq] at he
          obtain ⟨rfl, _⟩ := he
          exact hins c p.1
    | beginResize c order =>
      simp only [RBs.step] at he
      split at he
      · simp only [Option.some.injEq, Prod.mk.injEq] at he; obtain ⟨rfl, _⟩ := he; exact hk
      · split at he
        · simp only [Option.some.injEq, Prod.mk.injEq] at he; obtain ⟨rfl, _⟩ := he; exact hk
        · split at he <;>
          · simp only [Option.some.injEq, Prod.mk.injEq] at he; obtain ⟨rfl, _⟩ := he; exact hk
    | resizeNext =>
      simp only [RBs.step] at he
      split at he
      · simp only [Option.some.injEq, Prod.mk.injEq] at he; obtain ⟨rfl, _⟩ := he; exact hk
      · simp only [Option.some.injEq, Prod.mk.injEq] at he; obtain ⟨rfl, _⟩ := he; exact hk
      · split at he
        · simp only [Option.some.injEq, Prod.mk.injEq] at he; obtain ⟨rfl, _⟩ := he; exact hk
        · rename_i c rest hr _ rb hfind
          cases ha : resize rb s.cap with
          | none => simp [ha] at he
          | some p =>
            simp only [ha, bind, Option.bind_some, pure, Option.some.injEq, Prod.mk.injEq] at he
            obtain ⟨rfl, _⟩ := he
            exact hins c p.1

theorem After.run {hist : List (MOp α)} {s : RBs α} (h : After hist s) (ops : List (MOp α)) :
    ∃ s' d, s.run ops = some (s', d) ∧ After (hist ++ ops) s' ∧ ∀ k, (s.bufs.find k).isSome → (s'.bufs.find k).isSome := by
  induction ops generalizing hist s with
  | nil => exact ⟨s, [], rfl, by simpa using h, fun k hk => hk⟩
  | cons op ops ih =>
    obtain ⟨s₁, d₁, e₁, r₁, k₁⟩ := h.step op
    obtain ⟨s₂, d₂, e₂, r₂, k₂⟩ := ih r₁
    refine ⟨s₂, d₁ ++ d₂, by simp [RBs.run, e₁, e₂], by simpa using r₂, fun k hk => k₂ k (k₁ k hk)⟩

theorem reached_new (cap : Nat) : After [] (newRBs (cap : Int) : RBs α) :=
  ⟨⟨_, frep_new cap, fun k => by simp [Spec.Family.items, Spec.Family.new]⟩, by simp [newRBs, Assoc.find_nil]⟩

theorem After.shows {hist : List (MOp α)} {s : RBs α} (h : After hist s) (k : String) :
    ∃ items, s.contents k = some items ∧ items.Sublist (addsTo k hist) := by
  obtain ⟨f, hf, hsub⟩ := h.frep
  exact ⟨_, hf.contents k, hsub k⟩

/-- `RBs.run` in two parts. -/
theorem rbs_run_append (s : RBs α) (l l' : List (MOp α)) :
    s.run (l ++ l') = (s.run l).bind fun p => (p.1.run l').map fun q => (q.1, p.2 ++ q.2) := by
  induction l generalizing s with
  | nil => simp only [List.nil_append, RBs.run, Option.bind_some]; cases s.run l' <;> rfl
  | cons op l ih =>
    simp only [List.cons_append, RBs.run, bind, pure]
    cases s.step op with
    | none => rfl
    | some p =>
      simp only [Option.bind_some, ih]
      cases p.1.run l with
      | none => rfl
      | some q =>
        simp only [Option.bind_some]
        cases q.1.run l' with
        | none => rfl
        | some r => simp

end Trc.Ring

namespace Trc.Search

open Ring

variable {α : Type} [Inhabited α]

/-- The collector is in the state at some time during the steps. -/
def Sometime (s : RBs α) (ops : List (MOp α)) (s' : RBs α) : Prop := ∃ p d, p <+: ops ∧ s.run p = some (s', d)

/-- The steps of others up to the last walk. -/
def Plan.steps (plan : Plan α) : List (MOp α) := plan.flatMap (·.1)

theorem addsTo_mem {k : String} {ops : List (MOp α)} {v : α} (h : v ∈ addsTo k ops) : (k, v) ∈ addsOf ops := by
  unfold addsTo at h
  rw [List.mem_reverse, List.mem_map] at h
  obtain ⟨⟨k', v'⟩, hm, rfl⟩ := h
  obtain ⟨h1, h2⟩ := List.mem_filter.mp hm
  obtain rfl := of_decide_eq_true h2
  exact h1

theorem addsTo_prefix {k : String} {l l' : List (MOp α)} (h : l <+: l') : (addsTo k l).Sublist (addsTo k l') := by
  obtain ⟨t, rfl⟩ := h
  rw [addsTo_append]
  exact List.sublist_append_right _ _

/-- The walks: what each of them sees. -/
theorem ringsDuring_spec {hist : List (MOp α)} {s : RBs α} (h : After hist s) (plan : Plan α)
    (hk : ∀ k ∈ plan.map Prod.snd, (s.bufs.find k).isSome) :
    ∃ rings contents, ringsDuring s plan = some rings ∧ Buffers rings contents ∧ contents.length = plan.length ∧
      ∀ (i : Nat) ops k items, plan[i]? = some (ops, k) → contents[i]? = some items →
        ∃ s', Sometime s (Plan.steps plan) s' ∧ s'.contents k = some items ∧ items.Sublist (addsTo k (hist ++ Plan.steps plan)) := by
  induction plan generalizing hist s with
  | nil => exact ⟨[], [], rfl, ⟨rfl, by simp⟩, rfl, by simp⟩
  | cons p plan ih =>
    obtain ⟨ops, k⟩ := p
    obtain ⟨s₁, d, e₁, r₁, k₁⟩ := h.run ops
    obtain ⟨rings, contents, i1, i2, i3, i4⟩ := ih r₁ (fun k' hk' => k₁ k' (hk k' (by simp at hk' ⊢; exact Or.inr hk')))
    obtain ⟨rb, hrb⟩ := Option.isSome_iff_exists.mp (k₁ k (hk k (by simp)))
    obtain ⟨items, c1, c2⟩ := r₁.shows k
    have hw : walkAll rb = some items := by
      have := c1
      unfold RBs.contents RBs.buf at this
      rw [hrb] at this
      exact this
    refine ⟨rb :: rings, items :: contents, ?_, ⟨?_, ?_⟩, by simp [i3], ?_⟩
    · simp only [ringsDuring, e₁, bind, Option.bind_some, RBs.buf, hrb, i1, pure]
    · simp [hw, i2.walk]
    · intro rb' hm
      rcases List.mem_cons.mp hm with rfl | hm
      · exact r₁.made k _ hrb
      · exact i2.made rb' hm
    · intro i ops' k' items' hp hc
      cases i with
      | zero =>
        simp only [List.getElem?_cons_zero, Option.some.injEq, Prod.mk.injEq] at hp hc
        obtain ⟨rfl, rfl⟩ := hp
        subst hc
        refine ⟨s₁, ⟨ops, d, ⟨Plan.steps plan, by simp [Plan.steps]⟩, e₁⟩, c1, c2.trans (addsTo_prefix ⟨Plan.steps plan, by simp [Plan.steps]⟩)⟩
      | succ i =>
        simp only [List.getElem?_cons_succ] at hp hc
        obtain ⟨s', ⟨q, d', ⟨t, ht⟩, hq⟩, h2, h3⟩ := i4 i ops' k' items' hp hc
        refine ⟨s', ⟨ops ++ q, d ++ d', ⟨t, ?_⟩, ?_⟩, h2, ?_⟩
        · simp only [Plan.steps, List.flatMap_cons] at ht ⊢
          rw [List.append_assoc, ht]
        · rw [rbs_run_append, e₁]
          simp [hq]
        · rw [List.append_assoc] at h3
          exact h3

/-- **C88** A collector is searched while traces, each added once, are added to it, categories are created and
resized.  The search succeeds, and there are traces `visited`, none twice, that it counts and from which it
selects: it returns copies of some of them, newest first, at most the limit, that satisfy the filter.  Every trace that is
retained all the time is visited; if fewer than the limit are returned, its copy is returned if it
satisfies the filter; and every trace visited is retained at some time during the search. -/
theorem C88_concurrent (compile : Compile) (srt : List Static → List Static) (hs : SortOK srt)
    (source : String) (req : SearchRequest) (hf : req.filter.Fresh compile) (view : α → Look → Static)
    (size : Nat) (hist : List (MOp α)) (s : RBs α) (d : List α) (plan : Plan α)
    (hhist : (newRBs (size : Int)).run hist = some (s, d))
    (horder : (plan.map Prod.snd).Perm s.bufs.keys)
    (honce : ((addsOf (hist ++ Plan.steps plan)).map (·.2)).Nodup)
    (clock : Bool) (hc : ∀ v, (∃ s', Sometime s (Plan.steps plan) s' ∧ Retains s' v) → (view v .copy).started.mono.isSome = clock) :
    ∃ (res : SearchResponse) (visited : List α), searchDuring compile srt source req view s plan = some res ∧ visited.Nodup ∧
      res.totalCount = (visited.length : Int) ∧
      (∀ v, (∀ s', Sometime s (Plan.steps plan) s' → Retains s' v) → v ∈ visited) ∧
      (∀ v ∈ visited, ∃ s', Sometime s (Plan.steps plan) s' ∧ Retains s' v) ∧
      ∃ cs : List α, res.traces = cs.map (copyOf req view) ∧ cs.Nodup ∧ (cs.length : Int) ≤ limitOf req ∧ NewestFirst res.traces ∧
        (∀ c ∈ cs, c ∈ visited ∧ req.filter.Sat compile (view c .filter)) ∧
        ((cs.length : Int) < limitOf req → ∀ v ∈ visited, req.filter.Sat compile (view v .filter) → v ∈ cs) := by
  obtain ⟨s₀, d₀, e₀, r₀, -⟩ := (reached_new (α := α) size).run hist
  rw [hhist] at e₀
  simp only [Option.some.injEq, Prod.mk.injEq] at e₀
  obtain ⟨rfl, rfl⟩ := e₀
  rw [List.nil_append] at r₀
  have hfind : ∀ k, k ∈ s.bufs.keys → (s.bufs.find k).isSome := by
    intro k hk
    cases h : s.bufs.find k with
    | some _ => rfl
    | none => exact absurd hk ((Assoc.find_none_iff _ _).mp h)
  have hnk : (plan.map Prod.snd).Nodup := by
    obtain ⟨f, hfr, -⟩ := r₀.frep
    exact horder.nodup_iff.mpr hfr.hnd
  obtain ⟨rings, contents, g1, g2, g3, g4⟩ := ringsDuring_spec r₀ plan (fun k hk => hfind k (horder.mem_iff.mp hk))
  -- one category for each trace
  have hone : ∀ k k' v, v ∈ addsTo k (hist ++ Plan.steps plan) → v ∈ addsTo k' (hist ++ Plan.steps plan) → k = k' := by
    intro k k' v h1 h2
    have := List.inj_on_of_nodup_map honce (addsTo_mem h1) (addsTo_mem h2) rfl
    exact (Prod.mk.inj this).1
  have hnodup : ∀ k, (addsTo k (hist ++ Plan.steps plan)).Nodup := by
    intro k
    unfold addsTo
    rw [List.nodup_reverse]
    exact honce.sublist (List.filter_sublist.map _)
  have hvis : ∀ v ∈ contents.flatten, ∃ (i : Nat) (ops : List (MOp α)) (k : String) (items : List α), plan[i]? = some (ops, k) ∧ contents[i]? = some items ∧ v ∈ items := by
    intro v hv
    obtain ⟨items, hi, hv⟩ := List.mem_flatten.mp hv
    obtain ⟨i, hlt, hget⟩ := List.mem_iff_getElem.mp hi
    have hlt' : i < plan.length := by omega
    exact ⟨i, plan[i].1, plan[i].2, items, by rw [List.getElem?_eq_getElem hlt'], by rw [List.getElem?_eq_getElem hlt, hget], hv⟩
  have hnd : contents.flatten.Nodup := by
    rw [List.nodup_flatten]
    constructor
    · intro items hi
      obtain ⟨i, hlt, hget⟩ := List.mem_iff_getElem.mp hi
      have hlt' : i < plan.length := by omega
      obtain ⟨s', _, _, hsub⟩ := g4 i plan[i].1 plan[i].2 items (by rw [List.getElem?_eq_getElem hlt']) (by rw [List.getElem?_eq_getElem hlt, hget])
      exact (hnodup _).sublist hsub
    · rw [List.pairwise_iff_getElem]
      intro i j hi hj hij v h1 h2
      have hi' : i < plan.length := by omega
      have hj' : j < plan.length := by omega
      obtain ⟨_, _, _, sub1⟩ := g4 i plan[i].1 plan[i].2 contents[i] (by rw [List.getElem?_eq_getElem hi']) (by rw [List.getElem?_eq_getElem hi])
      obtain ⟨_, _, _, sub2⟩ := g4 j plan[j].1 plan[j].2 contents[j] (by rw [List.getElem?_eq_getElem hj']) (by rw [List.getElem?_eq_getElem hj])
      have := hone _ _ v (sub1.subset h1) (sub2.subset h2)
      have hne := (List.nodup_iff_injective_getElem.mp hnk)
      have := @hne ⟨i, by simpa using hi'⟩ ⟨j, by simpa using hj'⟩ (by simpa using this)
      simp only [Fin.mk.injEq] at this
      omega
  have hsome : ∀ v ∈ contents.flatten, ∃ s', Sometime s (Plan.steps plan) s' ∧ Retains s' v := by
    intro v hv
    obtain ⟨i, ops, k, items, h1, h2, h3⟩ := hvis v hv
    obtain ⟨s', t1, t2, _⟩ := g4 i ops k items h1 h2
    exact ⟨s', t1, k, items, t2, h3⟩
  obtain ⟨req', problems, res, sel, h1, h2, hl, l1, l2, h5, p1, p2, h6, h7, h8, h9⟩ :=
    search_chosen compile srt hs source req hf view rings contents g2
  have hcmp : Comparable (contents.flatten.map fun c => (view c .copy).started) := by
    refine ⟨clock, fun t ht => ?_⟩
    obtain ⟨v, hv, rfl⟩ := List.mem_map.mp ht
    exact hc v (hsome v hv)
  obtain ⟨res', q1, q2, q3, q4, q5, q6⟩ := C25_response compile srt hs source req hf view rings contents g2 hnd hcmp
  rw [h2] at q1
  obtain rfl := Option.some.inj q1
  have hsub := flatMap_selected_sublist compile req' view contents
  refine ⟨res, contents.flatten, by simp [searchDuring, g1, h2], hnd, h7, ?_, hsome, sel.take (limitOf req).toNat, h6,
    ?_, ?_, q5, ?_, ?_⟩
  · intro v hv
    have h0 := hv s ⟨[], [], List.nil_prefix, rfl⟩
    obtain ⟨k, items, hk, hvi⟩ := h0
    obtain ⟨items', hk', hsub'⟩ := r₀.shows k
    rw [hk] at hk'
    obtain rfl := Option.some.inj hk'
    have hadd : v ∈ addsTo k (hist ++ Plan.steps plan) := (hsub'.trans (addsTo_prefix ⟨_, rfl⟩)).subset hvi
    have hkey : k ∈ plan.map Prod.snd := by
      refine horder.mem_iff.mpr ?_
      apply Classical.byContradiction
      intro hn
      have := (Assoc.find_none_iff _ _).mpr hn
      simp only [RBs.contents, RBs.buf, this, Option.some.injEq] at hk
      subst hk
      cases hvi
    obtain ⟨i, hi, hget⟩ := List.mem_iff_getElem.mp hkey
    have hi' : i < plan.length := by simpa using hi
    have hic : i < contents.length := by omega
    obtain ⟨s', t1, t2, t3⟩ := g4 i plan[i].1 plan[i].2 contents[i] (by rw [List.getElem?_eq_getElem hi']) (by rw [List.getElem?_eq_getElem hic])
    have hget' : plan[i].2 = k := by simpa using hget
    obtain ⟨k₂, items₂, hk₂, hv₂⟩ := hv s' t1
    obtain ⟨p, d', ⟨t, ht⟩, hrun⟩ := t1
    obtain ⟨s₃, d₃, e₃, r₃, _⟩ := r₀.run p
    rw [hrun] at e₃
    simp only [Option.some.injEq, Prod.mk.injEq] at e₃
    obtain ⟨rfl, rfl⟩ := e₃
    obtain ⟨items₃, hk₃, hsub₃⟩ := r₃.shows k₂
    rw [hk₂] at hk₃
    obtain rfl := Option.some.inj hk₃
    have hadd₂ : v ∈ addsTo k₂ (hist ++ Plan.steps plan) :=
      (hsub₃.trans (addsTo_prefix ⟨t, by rw [List.append_assoc, ht]⟩)).subset hv₂
    obtain rfl := hone _ _ _ hadd hadd₂
    rw [hget', hk₂] at t2
    obtain rfl := (Option.some.inj t2)
    exact List.mem_flatten.mpr ⟨_, List.getElem_mem hic, hv₂⟩
  · exact ((p1.nodup_iff.mpr (hnd.sublist hsub)).sublist (List.take_sublist _ _))
  · rw [List.length_take]; omega
  · intro c hcm
    have hm := p1.mem_iff.mp ((List.take_sublist _ _).subset hcm)
    refine ⟨hsub.subset hm, ?_⟩
    obtain ⟨items, hi, hm⟩ := List.mem_flatMap.mp hm
    exact (selected_sat hf h5).mp (List.mem_filter.mp ((List.take_sublist _ _).subset hm)).2
  · intro hlt v hv hsat
    rw [List.length_take] at hlt
    have hall : sel.take (limitOf req).toNat = sel := List.take_of_length_le (by omega)
    rw [hall]
    refine p1.mem_iff.mpr ?_
    obtain ⟨items, hi, hvi⟩ := List.mem_flatten.mp hv
    refine List.mem_flatMap.mpr ⟨items, hi, ?_⟩
    have hle : (selected compile req' view items).length ≤ sel.length := by
      rw [p1.length_eq]
      obtain ⟨a, b, rfl⟩ := List.append_of_mem hi
      simp only [List.flatMap_append, List.flatMap_cons]
      exact ((List.sublist_append_left _ _).trans (List.sublist_append_right _ _)).length_le
    unfold selected at hle ⊢
    rw [List.length_take] at hle
    rw [List.take_of_length_le (by omega)]
    exact List.mem_filter.mpr ⟨hvi, (selected_sat hf h5).mpr hsat⟩

/-- Two traces of category a, none of b. -/
private def history : List (MOp Nat) := [.getOrCreate "a", .getOrCreate "b", .add "a" 1, .add "a" 2]

/-- Category a is walked; then the size becomes one, so that trace 1 is dropped, and trace 3 is added to category b, which is walked
last. -/
private def busy : Plan Nat := [([], "a"), ([.beginResize 1 ["a", "b"], .resizeNext, .resizeNext, .resizeNext, .add "b" 3], "b")]

private def looks (n : Nat) (_ : Look) : Static := sampleTrace "x" n true false 0

/-- The traces visited need not have been retained at the same time. -/
theorem C88_not_an_instant : ∃ (s : RBs Nat) (res : SearchResponse), (newRBs 2).run history = some (s, []) ∧
    (busy.map Prod.snd).Perm s.bufs.keys ∧ ((addsOf (history ++ Plan.steps busy)).map (·.2)).Nodup ∧
    searchDuring (fun _ => .error "") sortNewest "s" {} looks s busy = some res ∧ res.totalCount = 3 ∧
    ∀ s', Sometime s (Plan.steps busy) s' → ∃ a b, s'.contents "a" = some a ∧ s'.contents "b" = some b ∧ a.length + b.length ≤ 2 := by
  refine ⟨_, _, rfl, List.Perm.refl _, by decide, rfl, rfl, ?_⟩
  rintro s' ⟨p, d, hp, hr⟩
  have hall : p ∈ (Plan.steps busy).inits := (List.mem_inits _ _).mpr hp
  simp only [busy, Plan.steps, List.flatMap_cons, List.flatMap_nil, List.nil_append, List.append_nil, List.inits, List.map_cons, List.map_nil,
    List.mem_cons, List.not_mem_nil, or_false] at hall
  rcases hall with rfl | rfl | rfl | rfl | rfl | rfl <;>
  · obtain ⟨rfl, rfl⟩ := Prod.mk.inj (Option.some.inj hr)
    exact ⟨_, _, rfl, rfl, by decide⟩

/-- The theorem is about such searches. -/
example : ∃ s d res visited, (newRBs ((2 : Nat) : Int)).run history = some (s, d) ∧
    searchDuring (fun _ => .error "") sortNewest "s" {} looks s busy = some res ∧ res.totalCount = (visited.length : Int) ∧
    ∀ v, (∀ s', Sometime s (Plan.steps busy) s' → Retains s' v) → v ∈ (visited : List Nat) := by
  obtain ⟨s, res, h1, h2, h3, -⟩ := C88_not_an_instant
  obtain ⟨res, visited, r1, r2, r3, r4, -⟩ := C88_concurrent (fun _ => .error "") sortNewest sortNewest_ok "s" {} (by intro re h; cases h) looks 2 history s [] busy h1 h2 h3 false
    (fun v _ => rfl)
  exact ⟨s, [], res, visited, h1, r1, r3, r4⟩

end Trc.Search
