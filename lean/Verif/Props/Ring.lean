import Verif.Ring.ManyLemmas

/-!
# Properties C01–C07: ring buffers

`exec cap ops` runs a history on a new buffer (`none` = a panic); it returns the final
buffer and, per call, the values the call handed back.  `walkAll` is what a `Walk` with
a collecting callback shows.
-/

set_option linter.unusedSectionVars false
set_option linter.unusedVariables false

namespace Trc.Ring

variable {α : Type} [Inhabited α]

/-! ## C01 -/

/-- After any history, `Walk` shows exactly the "most recent" list. -/
theorem C01_walk_is_most_recent (cap : Nat) (ops : List (Op α)) :
    ∃ rb outs, exec (cap : Int) ops = some (rb, outs) ∧
      walkAll rb = some (Spec.recent cap ops).1.items := by
  obtain ⟨rb, he, hr⟩ := rep_exec cap ops
  exact ⟨rb, _, he, walkAll_spec hr⟩

theorem recent_adds (vs : List α) (r : Spec.Recent α) :
    (r.run (vs.map .add)).1 = { r with items := (r.run (vs.map .add)).1.items } := by
  induction vs generalizing r with
  | nil => rfl
  | cons v vs ih =>
    simp only [List.map_cons, Spec.Recent.run, Spec.Recent.step]
    rw [ih]
    rfl

theorem recent_adds_items (vs : List α) (r : Spec.Recent α) (h : r.items.length ≤ r.cap) :
    (r.run (vs.map .add)).1.items = (vs.reverse ++ r.items).take r.cap := by
  induction vs generalizing r with
  | nil => simp [Spec.Recent.run, List.take_of_length_le h]
  | cons v vs ih =>
    simp only [List.map_cons, Spec.Recent.run, Spec.Recent.step]
    rw [ih _ (Recent_add_len r v)]
    simp only [Spec.Recent.add, List.reverse_cons, List.append_assoc, List.singleton_append]
    rw [List.take_append, List.take_append (l₁ := vs.reverse), List.take_take]
    congr 2
    omega

/-- With a constant capacity these are the last `min cap (number added)` values. -/
theorem C01_constant_capacity (cap : Nat) (vs : List α) :
    ∃ rb outs, exec (cap : Int) (vs.map .add) = some (rb, outs) ∧
      walkAll rb = some (vs.reverse.take cap) := by
  obtain ⟨rb, outs, he, hw⟩ := C01_walk_is_most_recent cap (vs.map .add)
  refine ⟨rb, outs, he, hw.trans ?_⟩
  have := recent_adds_items vs ({ cap, items := [] } : Spec.Recent α) (by simp)
  simp only [List.append_nil] at this
  simp only [Spec.recent, this]

example : (exec 3 [.add 1, .add 2, .add 3, .add 4, .resize 2, .add 5, .resize 4, .add 6]).bind
    (fun p => walkAll p.1) = some [6, 5, 4] := by decide

/-! ## C02 -/

/-- No call ever panics, after any history, on a buffer made with capacity ≥ 0. -/
theorem C02_never_panics (cap : Int) (hcap : 0 ≤ cap) (ops : List (Op α)) :
    ∃ rb outs, exec cap ops = some (rb, outs) ∧
      (∀ op, (step rb op).isSome) ∧
      (∀ (σ ε : Type) (fn : σ → α → σ × Option ε) (s : σ), (walk rb fn s).isSome) ∧
      (stats rb).isSome := by
  obtain ⟨n, rfl⟩ := Int.eq_ofNat_of_zero_le hcap
  obtain ⟨rb, he, hr⟩ := rep_exec n ops
  refine ⟨rb, _, he, ?_, ?_, ?_⟩
  · intro op
    obtain ⟨_, _, h, _⟩ := rep_step hr op
    simp [h]
  · intro σ ε fn s
    simp [walk_spec hr]
  · simp [stats_spec hr]

/-- The hypothesis on the capacity is needed: `make` panics on a negative length. -/
theorem C02_negative_capacity (cap : Int) : newRB (α := α) cap = none ↔ cap < 0 := by
  unfold newRB Go.make
  by_cases h : cap < 0 <;> simp [h]

example : (exec 0 [.add 1, .resize (-1), .add 2, .resize 2, .add 3]).isSome := by decide

/-! ## C03 -/

/-- A buffer in a state some history reaches, with its capacity and contents. -/
structure Reached (rb : RB α) (cap : Nat) (items : List α) : Prop where
  hist : ∃ (cap₀ : Nat) (ops : List (Op α)) (outs : List (List α)),
    exec (cap₀ : Int) ops = some (rb, outs)
  hcap : rb.buf.length = cap
  hitems : walkAll rb = some items

theorem Reached.rep {rb : RB α} {cap items} (h : Reached rb cap items) :
    Rep rb { cap, items } := by
  obtain ⟨⟨c, ops, outs, he⟩, hc, hi⟩ := h
  obtain ⟨rb', he', hr⟩ := rep_exec c ops
  rw [he] at he'
  obtain ⟨rfl, rfl⟩ := Prod.mk.inj (Option.some.inj he')
  have h1 := walkAll_spec hr
  rw [hi] at h1
  have h2 := hr.hcap
  have e : (Spec.recent c ops).1 = { cap, items } := by
    cases hx : (Spec.recent c ops).1
    rw [hx] at h1 h2
    simp_all
  rw [← e]; exact hr

theorem run_append (rb : RB α) (a b : List (Op α)) :
    run rb (a ++ b) = (run rb a).bind fun p => (run p.1 b).map fun q => (q.1, p.2 ++ q.2) := by
  induction a generalizing rb with
  | nil => simp [run]
  | cons op a ih =>
    simp only [List.cons_append, run]
    cases h : step rb op with
    | none => simp
    | some p =>
      simp only [bind, pure, Option.bind_some, ih]
      cases h2 : run p.1 a with
      | none => simp
      | some q => simp; cases run q.1 b <;> simp

theorem Reached.step {rb rb' : RB α} {cap items d} (op : Op α) (h : Reached rb cap items)
    (he : step rb op = some (rb', d)) :
    Reached rb' (Spec.Recent.step { cap, items } op).1.cap (Spec.Recent.step { cap, items } op).1.items := by
  obtain ⟨rb₁, d₁, h₁, hr, _⟩ := rep_step h.rep op
  rw [he] at h₁
  obtain ⟨rfl, rfl⟩ := Prod.mk.inj (Option.some.inj h₁)
  refine ⟨?_, hr.hcap, walkAll_spec hr⟩
  obtain ⟨⟨c, ops, outs, hx⟩, _, _⟩ := h
  refine ⟨c, ops ++ [op], outs ++ [d], ?_⟩
  unfold exec at hx ⊢
  cases hn : newRB (α := α) (c : Int) with
  | none => rw [hn] at hx; simp at hx
  | some rb₀ =>
    rw [hn] at hx
    simp only [bind, Option.bind_some] at hx ⊢
    rw [run_append, hx]
    simp [run, he]

/-- `Add` on a full buffer hands back the oldest value, otherwise nothing. -/
theorem C03_add_hands_back_oldest (rb : RB α) (cap : Nat) (items : List α)
    (h : Reached rb cap items) (hpos : 0 < cap) (v : α) :
    ∃ rb', add rb v = some (rb', if items.length < cap then none else items.getLast?) ∧
      Reached rb' cap (v :: if items.length < cap then items else items.dropLast) := by
  have hr := h.rep
  obtain ⟨rb', d, he, hr', hd⟩ := rep_add hr v
  have hle := hr.hle
  simp only at hle
  have hd' : d = if items.length < cap then none else items.getLast? := by
    have hc : cap ≠ 0 := by omega
    simp only [Spec.Recent.add, hc, if_false] at hd
    split
    · rename_i hlt
      have : (v :: items).drop cap = [] := by simp; omega
      rw [this] at hd
      cases d <;> simp_all
    · rename_i hlt
      have hl : items.length = cap := by omega
      obtain ⟨c, rfl⟩ : ∃ c, cap = c + 1 := ⟨cap - 1, by omega⟩
      simp only [List.drop_succ_cons] at hd
      rw [List.getLast?_eq_getElem?, hl]
      have hi : c < items.length := by omega
      rw [List.drop_eq_getElem_cons hi] at hd
      have : items.drop (c+1) = [] := by simp; omega
      rw [this] at hd
      cases d with
      | none => simp at hd
      | some x => simp at hd ⊢; simp [hd, List.getElem?_eq_getElem hi]
  refine ⟨rb', hd' ▸ he, ?_⟩
  have hst : step rb (.add v) = some (rb', d.toList) := by simp [step, he]
  have hR := h.step (.add v) hst
  simp only [Spec.Recent.step, Spec.Recent.add] at hR
  have : (v :: items).take cap = v :: if items.length < cap then items else items.dropLast := by
    obtain ⟨c, rfl⟩ : ∃ c, cap = c + 1 := ⟨cap - 1, by omega⟩
    rw [List.take_succ_cons]
    split
    · rw [List.take_of_length_le (by omega)]
    · rw [List.dropLast_eq_take]; congr 2; omega
  rw [this] at hR
  exact hR

/-- `Resize` hands back exactly the oldest values that do not fit, newest of them first. -/
theorem C03_resize_hands_back_rest (rb : RB α) (cap : Nat) (items : List α)
    (h : Reached rb cap items) (c : Nat) (hc : 0 < c) :
    ∃ rb' d, resize rb (c : Int) = some (rb', d) ∧ Reached rb' c (items.take c) ∧
      items = items.take c ++ d := by
  obtain ⟨rb', d, he, hr', hd⟩ := rep_resize h.rep (c : Int)
  have hR := h.step (.resize (c : Int)) he
  have hx := Recent_resize_pos ({ cap, items } : Spec.Recent α) c hc
  simp only [Spec.Recent.step, hx] at hR
  refine ⟨rb', d, he, hR, ?_⟩
  have : ¬ ((c : Int) ≤ 0) := by omega
  simp only [Spec.Recent.resize, this, if_false, Int.toNat_natCast] at hd
  rw [hd, List.take_append_drop]

theorem conservation (r : Spec.Recent α) (h : 0 < r.cap) (ops : List (Op α)) :
    ((r.run ops).2.flatten ++ (r.run ops).1.items).Perm (Spec.added ops ++ r.items) := by
  induction ops generalizing r with
  | nil => simp [Spec.Recent.run, Spec.added]
  | cons op ops ih =>
    simp only [Spec.Recent.run, List.flatten_cons, List.append_assoc]
    have hpos : 0 < (r.step op).1.cap := by
      cases op with
      | add v => exact h
      | resize c =>
        simp only [Spec.Recent.step, Spec.Recent.resize]
        split
        · exact h
        · simp; omega
    have key : ((r.step op).2 ++ (r.step op).1.items).Perm (Spec.added [op] ++ r.items) := by
      cases op with
      | add v =>
        have hc : r.cap ≠ 0 := by omega
        simp only [Spec.Recent.step, Spec.Recent.add, hc, if_false, Spec.added, List.filterMap_cons,
          List.filterMap_nil, List.singleton_append]
        refine List.perm_append_comm.trans ?_
        rw [List.take_append_drop]
      | resize c =>
        simp only [Spec.Recent.step, Spec.Recent.resize, Spec.added, List.filterMap_cons,
          List.filterMap_nil, List.nil_append]
        split
        · simp
        · refine List.perm_append_comm.trans ?_
          rw [List.take_append_drop]
    have e : Spec.added (op :: ops) = Spec.added [op] ++ Spec.added ops := by
      simp only [Spec.added]
      rw [← List.filterMap_append]; rfl
    rw [e]
    refine ((ih _ hpos).append_left _).trans ?_
    refine (List.perm_append_comm_assoc _ _ _).trans ?_
    refine (key.append_left _).trans ?_
    rw [← List.append_assoc]
    exact (List.perm_append_comm).append_right _

/-- What was handed back plus what is still there is what was added, with multiplicity. -/
theorem C03_conservation (cap : Nat) (hpos : 0 < cap) (ops : List (Op α)) :
    ∃ rb outs items, exec (cap : Int) ops = some (rb, outs) ∧ walkAll rb = some items ∧
      (outs.flatten ++ items).Perm (Spec.added ops) := by
  obtain ⟨rb, he, hr⟩ := rep_exec cap ops
  refine ⟨rb, _, _, he, walkAll_spec hr, ?_⟩
  have := conservation ({ cap, items := [] } : Spec.Recent α) hpos ops
  simpa [Spec.recent] using this

example : (exec 2 [.add 1, .add 2, .add 3, .resize 1, .add 4]).map Prod.snd
    = some [[], [], [1], [2], [3]] := by decide

/-! ## C04 -/

/-- A capacity ≤ 0 changes and drops nothing. -/
theorem C04_nonpositive_ignored (rb : RB α) (cap : Nat) (items : List α)
    (h : Reached rb cap items) (c : Int) (hc : c ≤ 0) : resize rb c = some (rb, []) := by
  simp [resize, hc]

/-- A capacity at least the number of items drops nothing and keeps the order. -/
theorem C04_enough_room (rb : RB α) (cap : Nat) (items : List α)
    (h : Reached rb cap items) (c : Nat) (hc : 0 < c) (hle : items.length ≤ c) :
    ∃ rb', resize rb (c : Int) = some (rb', []) ∧ Reached rb' c items := by
  obtain ⟨rb', d, he, hR, hd⟩ := C03_resize_hands_back_rest rb cap items h c hc
  rw [List.take_of_length_le hle] at hR hd
  have : d = [] := by
    have := congrArg List.length hd
    simp at this
    exact this
  subst this
  exact ⟨rb', he, hR⟩

/-- Shrinking and growing back keeps exactly the newest items that fitted. -/
theorem C04_shrink_then_grow (rb : RB α) (cap : Nat) (items : List α)
    (h : Reached rb cap items) (small big : Nat) (hs : 0 < small) (hb : small ≤ big) :
    ∃ rb₁ rb₂ d, resize rb (small : Int) = some (rb₁, d) ∧ resize rb₁ (big : Int) = some (rb₂, []) ∧
      Reached rb₂ big (items.take small) := by
  obtain ⟨rb₁, d, he, hR, _⟩ := C03_resize_hands_back_rest rb cap items h small hs
  obtain ⟨rb₂, he₂, hR₂⟩ := C04_enough_room rb₁ small _ hR big (by omega) (by simp; omega)
  exact ⟨rb₁, rb₂, d, he, he₂, hR₂⟩

/-- The hypothesis `Reached` is met by a buffer that has wrapped around. -/
example : Reached ({ buf := [4, 2, 3], cur := 1, len := 3 } : RB Nat) 3 [4, 3, 2] :=
  ⟨⟨3, [.add 1, .add 2, .add 3, .add 4], [[], [], [], [1]], by rfl⟩, rfl, by decide⟩

/-! ## C05 -/

/-- With no error: every item exactly once, newest first, and `nil` is returned. -/
theorem C05_walk_visits_all {σ ε : Type} (rb : RB α) (cap : Nat) (items : List α)
    (h : Reached rb cap items) (fn : σ → α → σ × Option ε) (s : σ)
    (hok : ∀ s x, (fn s x).2 = none) :
    walk rb fn s = some (items.foldl (fun s x => (fn s x).1) s, none) := by
  rw [walk_spec h.rep]
  congr 1
  show Spec.visit fn items s = _
  generalize items = l
  induction l generalizing s with
  | nil => rfl
  | cons x xs ih =>
    simp only [Spec.visit, List.foldl_cons]
    have := hok s x
    cases hf : fn s x with
    | mk s' e =>
      rw [hf] at this; simp only at this; subst this
      simp only [ih]

/-- With an error: exactly the items up to the first error were visited, in order. -/
theorem C05_walk_stops_at_error {σ ε : Type} (rb : RB α) (cap : Nat) (items : List α)
    (h : Reached rb cap items) (fn : σ → α → σ × Option ε) (s : σ)
    (pre : List α) (x : α) (post : List α) (hi : items = pre ++ x :: post) (e : ε)
    (hpre : ∀ p y q, pre = p ++ y :: q → (fn (p.foldl (fun s x => (fn s x).1) s) y).2 = none)
    (hx : (fn (pre.foldl (fun s x => (fn s x).1) s) x).2 = some e) :
    walk rb fn s = some ((pre ++ [x]).foldl (fun s x => (fn s x).1) s, some e) := by
  rw [walk_spec h.rep]
  congr 1
  show Spec.visit fn items s = _
  subst hi
  clear h
  induction pre generalizing s with
  | nil =>
    simp only [List.nil_append, List.foldl_nil, List.foldl_cons, Spec.visit] at *
    cases hf : fn s x with
    | mk s' e' => rw [hf] at hx; simp only at hx; subst hx; rfl
  | cons y pre ih =>
    simp only [List.cons_append, List.foldl_cons, Spec.visit] at *
    have h0 := hpre [] y pre rfl
    simp only [List.foldl_nil] at h0
    cases hf : fn s y with
    | mk s' e' =>
      rw [hf] at h0 hx
      simp only at h0 hx; subst h0
      simp only
      apply ih
      · intro p z q hpq
        have := hpre (y :: p) z q (by rw [hpq]; rfl)
        simpa [hf] using this
      · exact hx

example : (walk ({ buf := [4, 2, 3], cur := 1, len := 3 } : RB Nat)
    (fun (s : List Nat) x => (s ++ [x], if x = 3 then some "stop" else none)) []) =
    some ([4, 3], some "stop") := by decide

/-! ## C06 -/

/-- `Stats` is the first and last item `Walk` shows and their number, zero values if there
are none, and the number is within the capacity. -/
theorem C06_stats (rb : RB α) (cap : Nat) (items : List α) (h : Reached rb cap items) :
    stats rb = some (items.head?.getD default, items.getLast?.getD default, (items.length : Int)) ∧
      items.length ≤ cap := by
  have := stats_spec h.rep
  simp only [List.headD_eq_head?_getD, List.getLastD_eq_getLast?] at this
  exact ⟨this, h.rep.hle⟩

example : stats ({ buf := [4, 2, 3], cur := 1, len := 3 } : RB Nat) = some (4, 2, 3) := by decide

/-! ## C07 -/

/-- Under every interleaving of creations, additions and size changes nothing panics, and
every category shows exactly what its own "most recent" list holds. -/
theorem C07_family (cap : Nat) (ops : List (MOp α)) :
    ∃ s ds, (newRBs (cap : Int)).run ops = some (s, ds) ∧
      ∀ k, s.contents k = some (((Spec.Family.new cap).run ops).1.items k) := by
  obtain ⟨s, he, hr⟩ := frep_run (frep_new (α := α) cap) ops
  exact ⟨s, _, he, fun k => hr.contents k⟩

/-- Does the step belong to a category other than `k`, or create some category? -/
def MOp.elsewhere (k : String) : MOp α → Prop
  | .getOrCreate _ => True
  | .add k' _ => k' ≠ k
  | _ => False

/-- Steps in other categories never change what a category shows. -/
theorem C07_isolated (cap : Nat) (before after : List (MOp α)) (k : String)
    (hk : ∀ op ∈ after, op.elsewhere k) :
    ∃ s s' ds ds', (newRBs (cap : Int)).run before = some (s, ds) ∧ s.run after = some (s', ds') ∧
      s'.contents k = s.contents k := by
  obtain ⟨s, he, hr⟩ := frep_run (frep_new (α := α) cap) before
  obtain ⟨s', he', hr'⟩ := frep_run hr after
  refine ⟨s, s', _, _, he, he', ?_⟩
  rw [hr.contents, hr'.contents]
  congr 1
  generalize ((Spec.Family.new cap).run before).1 = f
  clear hr hr' he he'
  induction after generalizing f with
  | nil => rfl
  | cons op ops ih =>
    simp only [Spec.Family.run]
    rw [ih (fun o ho => hk o (List.mem_cons_of_mem _ ho))]
    have := hk op (List.mem_cons_self ..)
    cases op with
    | getOrCreate k' =>
      simp only [Spec.Family.step]
      split
      · rename_i hn
        unfold Spec.Family.items Spec.Family.upd
        by_cases e : k' = k
        · subst e; simp [hn]
        · simp [e]
      · rfl
    | add k' v =>
      simp only [MOp.elsewhere] at this
      simp only [Spec.Family.step]
      cases f.cat k' with
      | none => rfl
      | some r => simp [Spec.Family.items, Spec.Family.upd, this]
    | beginResize => exact this.elim
    | resizeNext => exact this.elim

/-- Under every interleaving: as long as no size change is in progress, every category
holds at most the configured size. -/
theorem C07_bounded (cap : Nat) (ops : List (MOp α)) (s : RBs α) (ds : List α)
    (he : (newRBs (cap : Int)).run ops = some (s, ds)) (hidle : s.resizing = none)
    (k : String) (items : List α) (hk : s.contents k = some items) :
    (items.length : Int) ≤ s.cap := by
  obtain ⟨s', he', hr⟩ := frep_run (frep_new (α := α) cap) ops
  rw [he] at he'
  obtain ⟨rfl, _⟩ := Prod.mk.inj (Option.some.inj he')
  have hc := capInv_run (capInv_new (α := α) cap) ops
  rw [hr.contents] at hk
  have hk' := Option.some.inj hk
  unfold Spec.Family.items at hk'
  rw [hr.hcap]
  cases hx : ((Spec.Family.new cap).run ops).1.cat k with
  | none => rw [hx] at hk'; subst hk'; simp
  | some r =>
    rw [hx] at hk'; simp only at hk'; subst hk'
    have h1 := hc.hlen k r hx
    have h2 := hc.hcap k r hx
    rw [← hr.hres, hidle] at h2
    simp only at h2
    omega

/-- During a size change the categories it has already reached, and those it will not
have to reach, are within the new size. -/
theorem C07_bounded_during_resize (cap : Nat) (ops : List (MOp α)) (s : RBs α) (ds : List α)
    (he : (newRBs (cap : Int)).run ops = some (s, ds)) (todo : List String)
    (hbusy : s.resizing = some todo)
    (k : String) (hk₀ : k ∉ todo) (items : List α) (hk : s.contents k = some items) :
    (items.length : Int) ≤ s.cap := by
  obtain ⟨s', he', hr⟩ := frep_run (frep_new (α := α) cap) ops
  rw [he] at he'
  obtain ⟨rfl, _⟩ := Prod.mk.inj (Option.some.inj he')
  have hc := capInv_run (capInv_new (α := α) cap) ops
  rw [hr.contents] at hk
  have hk' := Option.some.inj hk
  unfold Spec.Family.items at hk'
  rw [hr.hcap]
  cases hx : ((Spec.Family.new cap).run ops).1.cat k with
  | none => rw [hx] at hk'; subst hk'; simp
  | some r =>
    rw [hx] at hk'; simp only at hk'; subst hk'
    have h1 := hc.hlen k r hx
    have h2 := hc.hcap k r hx
    rw [← hr.hres, hbusy] at h2
    simp only [hk₀, false_or] at h2
    omega

/-- The configured size is the last positive size asked for while no other change was
under way; sizes ≤ 0 change nothing at all. -/
theorem C07_nonpositive_ignored (s : RBs α) (c : Int) (order : List String) (hc : c ≤ 0) :
    s.step (.beginResize c order) = some (s, []) := by
  simp [RBs.step, hc]

/-- A size change that has yet to reach some categories cuts those and no other. -/
theorem Family_resize_loop (todo : List String) : ∀ (f : Spec.Family α), f.resizing = some todo → todo.Nodup → 0 < f.cap →
    (f.run (List.replicate (todo.length + 1) .resizeNext)).1.resizing = none ∧
    (f.run (List.replicate (todo.length + 1) .resizeNext)).1.cap = f.cap ∧
    (∀ k, (f.run (List.replicate (todo.length + 1) .resizeNext)).1.items k =
      if k ∈ todo then (f.items k).take f.cap else f.items k) ∧
    (f.run (List.replicate (todo.length + 1) .resizeNext)).2 = todo.flatMap fun k => (f.items k).drop f.cap := by
  induction todo with
  | nil =>
    intro f hf _ _
    simp only [List.length_nil, List.replicate_succ, List.replicate_zero, Spec.Family.run, Spec.Family.step, hf]
    exact ⟨trivial, trivial, fun k => by simp [Spec.Family.items], rfl⟩
  | cons k₀ rest ih =>
    intro f hf hnd hpos
    have hk₀ : k₀ ∉ rest := (List.nodup_cons.1 hnd).1
    rw [List.length_cons, List.replicate_succ]
    simp only [Spec.Family.run]
    cases hk : f.cat k₀ with
    | none =>
      have e : f.step .resizeNext = ({ f with resizing := some rest }, []) := by simp only [Spec.Family.step, hf, hk]
      rw [e]
      obtain ⟨h1, h2, h3, h4⟩ := ih { f with resizing := some rest } rfl (List.nodup_cons.1 hnd).2 hpos
      have hi : ∀ k, Spec.Family.items { f with resizing := some rest } k = f.items k := fun k => rfl
      have h0 : f.items k₀ = [] := by simp [Spec.Family.items, hk]
      refine ⟨h1, h2, fun k => ?_, ?_⟩
      · rw [h3 k, hi]
        by_cases ek : k = k₀
        · subst ek; simp [h0]
        · simp [ek]
      · rw [h4, List.flatMap_cons, h0]
        simp [hi]
    | some r =>
      have e : f.step .resizeNext = ({ f with cat := f.upd k₀ (r.resize f.cap).1, resizing := some rest }, (r.resize f.cap).2) := by
        simp only [Spec.Family.step, hf, hk]
      have hd : (r.resize f.cap).2 = r.items.drop f.cap := by
        unfold Spec.Recent.resize
        rw [if_neg (by omega)]
        simp
      rw [e]
      obtain ⟨h1, h2, h3, h4⟩ := ih { f with cat := f.upd k₀ (r.resize f.cap).1, resizing := some rest } rfl
        (List.nodup_cons.1 hnd).2 hpos
      have hr : r.resize f.cap = ({ cap := f.cap, items := r.items.take f.cap }, r.items.drop f.cap) := by
        unfold Spec.Recent.resize
        rw [if_neg (by omega)]
        simp
      have hi : ∀ k, Spec.Family.items { f with cat := f.upd k₀ (r.resize f.cap).1, resizing := some rest } k =
          if k = k₀ then (f.items k).take f.cap else f.items k := by
        intro k
        by_cases ek : k = k₀
        · subst ek; simp [Spec.Family.items, Spec.Family.upd, hk, hr]
        · simp [Spec.Family.items, Spec.Family.upd, ek, Ne.symm ek]
      have h0 : f.items k₀ = r.items := by simp [Spec.Family.items, hk]
      refine ⟨h1, h2, fun k => ?_, ?_⟩
      · rw [h3 k, hi]
        by_cases ek : k = k₀
        · subst ek; simp [hk₀]
        · simp [ek]
      · rw [h4, List.flatMap_cons, h0, hd]
        congr 1
        rw [List.flatMap_def, List.flatMap_def]
        congr 1
        refine List.map_congr_left fun k hm => ?_
        rw [hi, if_neg (fun ek : k = k₀ => hk₀ (ek ▸ hm))]

/-- Changing the size, in whichever order the categories are visited, leaves the newest of each category and gives back all the others. -/
theorem C07_resize (cap : Nat) (ops : List (MOp α)) (s : RBs α) (ds : List α)
    (he : (newRBs (cap : Int)).run ops = some (s, ds)) (hidle : s.resizing = none)
    (c : Nat) (hc : 0 < c) (order : List String) (horder : order.Perm s.bufs.keys) :
    ∃ s' dropped, s.resizeAll c order = some (s', dropped) ∧ s'.resizing = none ∧ s'.cap = c ∧
      ∃ contents : String → List α, (∀ k, s.contents k = some (contents k)) ∧
        (∀ k, s'.contents k = some ((contents k).take c)) ∧
        dropped = order.flatMap fun k => (contents k).drop c := by
  obtain ⟨s₀, he', hr⟩ := frep_run (frep_new (α := α) cap) ops
  rw [he] at he'
  obtain ⟨rfl, _⟩ := Prod.mk.inj (Option.some.inj he')
  have hci := capInv_run (capInv_new (α := α) cap) ops
  generalize ((Spec.Family.new cap).run ops).1 = f at hr hci
  obtain ⟨s', he₁, hr₁⟩ := frep_run hr (.beginResize c order :: List.replicate (order.length + 1) .resizeNext)
  have hp : order.isPerm f.keys = true := List.isPerm_iff.2 (hr.hkeys ▸ horder)
  have hres : f.resizing = none := hr.hres ▸ hidle
  have e : f.step (.beginResize c order) = ({ f with cap := c, resizing := some order }, []) := by
    simp only [Spec.Family.step]
    rw [if_neg (by simp [hp, hres]; omega)]
    simp
  simp only [Spec.Family.run, e] at he₁ hr₁
  obtain ⟨h1, h2, h3, h4⟩ := Family_resize_loop order { f with cap := c, resizing := some order } rfl
    (horder.nodup_iff.2 hr.hnd) hc
  refine ⟨s', _, he₁, hr₁.hres.trans h1, hr₁.hcap.trans (by rw [h2]), f.items, fun k => hr.contents k, fun k => ?_, ?_⟩
  · rw [hr₁.contents, h3 k]
    have hi : Spec.Family.items { f with cap := c, resizing := some order } k = f.items k := rfl
    rw [hi]
    split
    · rfl
    · rename_i hk
      have : f.items k = [] := by
        unfold Spec.Family.items
        cases hx : f.cat k with
        | none => rfl
        | some r => exact absurd (horder.mem_iff.2 (hr.hkeys ▸ hci.hkeys k r hx)) hk
      simp [this]
  · rw [h4]
    rfl

example : ((newRBs 3).run [.getOrCreate "a", .getOrCreate "b", .add "a" 1, .add "b" 2, .add "a" 3, .add "a" 4]).bind
    (fun p => (p.1.resizeAll 1 ["b", "a"]).bind fun q => (q.1.contents "a").map fun l => (l, q.2)) = some ([4], [3, 1]) := by decide

/-- The traces put into the categories, in order. -/
def pushAll (s : RBs α) : List (String × α) → Option (RBs α)
  | [] => some s
  | (k, v) :: rest => do
    let (s', _) ← s.push k v
    pushAll s' rest

theorem Family_push_items (f : Spec.Family α) (hc : CapInv f) (hr : f.resizing = none) (k k' : String) (v : α) :
    (f.run [.getOrCreate k, .add k v]).1.items k' =
      (if k = k' then (v :: f.items k').take f.cap else f.items k') ∧
    (f.run [.getOrCreate k, .add k v]).1.resizing = none ∧
    (f.run [.getOrCreate k, .add k v]).1.cap = f.cap := by
  simp only [Spec.Family.run, Spec.Family.step, hr]
  cases hk : f.cat k with
  | none =>
    simp only [Spec.Family.upd, if_true]
    refine ⟨?_, by simp [hr], by simp⟩
    unfold Spec.Family.items
    by_cases e : k = k'
    · subst e; simp [hk, Spec.Family.upd, Spec.Recent.add]
    · simp [e, Spec.Family.upd]
  | some r =>
    have h1 := hc.hcap k r hk
    rw [hr] at h1
    simp only [hk]
    refine ⟨?_, by simp [hr], by simp⟩
    unfold Spec.Family.items
    by_cases e : k = k'
    · subst e; simp [hk, Spec.Family.upd, Spec.Recent.add, h1]
    · simp [e, Spec.Family.upd]

/-- Without size changes a category shows the newest `cap` traces created in it. -/
theorem C07_category_contents (cap : Nat) (pushes : List (String × α)) :
    ∃ s, pushAll (newRBs (cap : Int)) pushes = some s ∧ ∀ k,
      s.contents k = some ((((pushes.filter (·.1 == k)).map Prod.snd).reverse).take cap) := by
  suffices H : ∀ (pushes : List (String × α)) (s : RBs α) (f : Spec.Family α), FRep s f → CapInv f →
      f.resizing = none → f.cap = cap →
      ∃ s', pushAll s pushes = some s' ∧ ∀ k, s'.contents k =
        some (((((pushes.filter (·.1 == k)).map Prod.snd).reverse) ++ f.items k).take cap) by
    obtain ⟨s, h1, h2⟩ := H pushes _ _ (frep_new cap) (capInv_new cap) rfl rfl
    refine ⟨s, h1, fun k => ?_⟩
    rw [h2 k]
    simp [Spec.Family.items, Spec.Family.new]
  intro pushes
  induction pushes with
  | nil =>
    intro s f hf hc hr hcap
    refine ⟨s, rfl, fun k => ?_⟩
    rw [hf.contents]
    simp only [List.filter_nil, List.map_nil, List.reverse_nil, List.nil_append, Option.some.injEq]
    rw [List.take_of_length_le]
    unfold Spec.Family.items
    cases hk : f.cat k with
    | none => simp
    | some r =>
      have h1 := hc.hlen k r hk
      have h2 := hc.hcap k r hk
      rw [hr] at h2
      simp only at h2 ⊢
      omega
  | cons p rest ih =>
    obtain ⟨k₀, v⟩ := p
    intro s f hf hc hr hcap
    obtain ⟨s₁, he₁, hf₁⟩ := frep_run hf [.getOrCreate k₀, .add k₀ v]
    have hp := Family_push_items f hc hr k₀
    obtain ⟨s₂, he₂, h₂⟩ := ih s₁ _ hf₁ (capInv_run hc _) (hp k₀ v).2.1
      ((hp k₀ v).2.2.trans hcap)
    refine ⟨s₂, ?_, fun k => ?_⟩
    · simp [pushAll, RBs.push, he₁, he₂]
    · rw [h₂ k, (hp k v).1]
      by_cases e : k₀ = k
      · subst e
        simp only [List.filter_cons, beq_self_eq_true, if_true, List.map_cons,
          List.reverse_cons, List.append_assoc, List.singleton_append, hcap, Option.some.injEq]
        rw [List.take_append, List.take_append (i := cap) (l₁ := ((rest.filter _).map _).reverse),
          List.take_take]
        congr 2
        omega
      · simp [e]

example : ((newRBs 2).run [.getOrCreate "a", .getOrCreate "b", .add "a" 1, .add "b" 2,
      .add "a" 3, .add "a" 4, .beginResize 1 ["b", "a"], .resizeNext, .add "a" 5, .resizeNext,
      .resizeNext]).bind (fun p => p.1.contents "a") = some [5] := by decide

end Trc.Ring
