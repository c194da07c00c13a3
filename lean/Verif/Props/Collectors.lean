import Verif.Props.Memory
import Verif.Props.Looking

/-!
# C130: the collectors of a program do not get in each other's way

Any number of collectors share the pools of traces, events and stringers, so that a trace that one of them dropped
can be the next trace of another.  Theorems are about `St.run` from program start, for every list of steps.
-/

set_option linter.unusedSectionVars false
set_option linter.unusedVariables false
set_option linter.unusedSimpArgs false

namespace Trc.Heap

open Trc.Core Trc.Core.Spec
open Trc.Ring (RBs MOp FRep FamOK)

variable {W A : Type} [Sys W A]

/-- A call of `NewTrace`: the collector it was made on, and what the trace was made with. -/
structure Creation where
  collector : Nat
  now : Time
  id : String
  source : String
  category : String
deriving DecidableEq

/-- The traces that a program creates, in order. -/
def creations : List (Act W A) → List Creation
  | [] => []
  | .new k now id source category _ :: acts => ⟨k, now, id, source, category⟩ :: creations acts
  | _ :: acts => creations acts

theorem creations_append (x y : List (Act W A)) : creations (x ++ y) = creations x ++ creations y := by
  induction x with
  | nil => rfl
  | cons act x ih => cases act <;> simp [creations, ih]

/-! ## What a step puts into a category -/

theorem ring_inflight {s t : St W A} {k : Nat} {op : MOp Handle} (h : s.ring k op = some t) : t.inflight = s.inflight := by
  unfold St.ring at h
  split at h
  · simp only [Option.some.injEq] at h; subst h; rfl
  · simp only [Option.bind_eq_bind, Option.bind_eq_some_iff] at h
    obtain ⟨p, hp, h⟩ := h
    simp only [Option.pure_def, Option.some.injEq] at h
    subst h; rfl

theorem items_sub {f : Ring.Spec.Family Handle} (h : FamOK f) (op : MOp Handle) {c : String} {hd : Handle}
    (hh : hd ∈ (f.step op).1.items c) : hd ∈ f.items c ∨ op = .add c hd := by
  cases op with
  | getOrCreate k' =>
    simp only [Ring.Spec.Family.step] at hh
    split at hh
    · unfold Ring.Spec.Family.items Ring.Spec.Family.upd at hh
      by_cases hkk : k' = c
      · simp [hkk] at hh
      · simp only [hkk, if_false] at hh; exact .inl hh
    · exact .inl hh
  | add k' v =>
    simp only [Ring.Spec.Family.step] at hh
    split at hh
    · exact .inl hh
    · rename_i r hr
      unfold Ring.Spec.Family.items Ring.Spec.Family.upd at hh
      by_cases hkk : k' = c
      · subst hkk
        simp only [if_true, Ring.Spec.Recent.add] at hh
        rcases List.mem_cons.mp (List.mem_of_mem_take hh) with rfl | hm
        · exact .inr rfl
        · left; unfold Ring.Spec.Family.items; rw [hr]; exact hm
      · simp only [hkk, if_false] at hh; exact .inl hh
  | beginResize c' order =>
    simp only [Ring.Spec.Family.step] at hh
    split at hh <;> exact .inl hh
  | resizeNext =>
    simp only [Ring.Spec.Family.step] at hh
    split at hh
    · exact .inl hh
    · exact .inl hh
    · rename_i k' rest _
      split at hh
      · exact .inl hh
      · rename_i r hr
        unfold Ring.Spec.Family.items Ring.Spec.Family.upd at hh
        by_cases hkk : k' = c
        · subst hkk
          simp only [if_true] at hh
          rw [Ring.Recent_resize_pos r f.cap h.cap] at hh
          left; unfold Ring.Spec.Family.items; rw [hr]; exact List.mem_of_mem_take hh
        · simp only [hkk, if_false] at hh; exact .inl hh

/-- A step of the ring buffers of one collector. -/
theorem ring_items {s s₀ t : St W A} {f : List (Ring.Spec.Family Handle)} (h : Inv s f) (e : s₀.rings = s.rings) {j : Nat}
    {op : MOp Handle} (hs : s₀.ring j op = some t) :
    (∀ k, k ≠ j → t.rings[k]? = s.rings[k]?) ∧
    ∀ k c hd, hd ∈ inCategory t k c → hd ∈ inCategory s k c ∨ (k = j ∧ op = .add c hd) := by
  unfold St.ring at hs
  rw [e] at hs
  split at hs
  · simp only [Option.some.injEq] at hs
    subst hs
    exact ⟨fun k _ => by rw [e], fun k c hd hh => .inl (by unfold inCategory at hh ⊢; rw [← e]; exact hh)⟩
  · rename_i rbs hj
    simp only [Option.bind_eq_bind, Option.bind_eq_some_iff] at hs
    obtain ⟨p, hp, hs⟩ := hs
    simp only [Option.pure_def, Option.some.injEq] at hs
    subst hs
    refine ⟨fun k hk => by simp [List.getElem?_set, Ne.symm hk], ?_⟩
    intro k c hd hh
    have hlt : j < s.rings.length := (List.getElem?_eq_some_iff.mp hj).1
    by_cases hjk : k = j
    · subst hjk
      obtain ⟨g, hg, hfr, hfo⟩ := h.rep hj
      obtain ⟨r', h1, h2⟩ := Ring.frep_step hfr op
      rw [hp] at h1
      obtain rfl := Option.some.inj h1
      rw [inCategory_eq (r := r') (by simp [List.getElem?_set, hlt]) h2] at hh
      rw [inCategory_eq hj hfr]
      rcases items_sub hfo op hh with q | q
      · exact .inl q
      · exact .inr ⟨rfl, q⟩
    · left
      unfold inCategory at hh ⊢
      simp only [List.getElem?_set, Ne.symm hjk, if_false] at hh
      exact hh

/-! ## Where every trace comes from -/

/-- The `n`-th trace was created as the object, the collector and the category say. -/
structure Made (cr : List Creation) (s : St W A) : Prop where
  len : s.heap.n.traceNew = cr.length
  inflight : ∀ hd k c, (hd, k, c) ∈ s.inflight → ∃ x, cr[hd.cid]? = some x ∧ x.collector = k ∧ x.category = c
  retained : ∀ hd k c, hd ∈ inCategory s k c → ∃ x, cr[hd.cid]? = some x ∧ x.collector = k ∧ x.category = c
  ghost : ∀ a gh, s.ghost a = some gh → ∃ x, cr[gh.cid]? = some x ∧ x.now = gh.start ∧ x.id = gh.id ∧ x.source = gh.source ∧
    x.category = gh.category

theorem made_step {s t : St W A} {f : List (Ring.Spec.Family Handle)} {cr : List Creation} (hi : Inv s f) (m : Made cr s)
    {act : Act W A} (h : s.step act = some t) : Made (cr ++ creations [act]) t := by
  -- steps that create nothing
  have keep : creations [act] = [] → t.heap.n.traceNew = s.heap.n.traceNew → (∀ x ∈ t.inflight, x ∈ s.inflight) →
      (∀ hd k c, hd ∈ inCategory t k c → hd ∈ inCategory s k c ∨ (hd, k, c) ∈ s.inflight) →
      (∀ a gh, t.ghost a = some gh → ∃ gh', s.ghost a = some gh' ∧ gh'.cid = gh.cid ∧ gh'.start = gh.start ∧
        gh'.id = gh.id ∧ gh'.source = gh.source ∧ gh'.category = gh.category) → Made (cr ++ creations [act]) t := by
    intro e0 e1 e2 e3 e4
    rw [e0, List.append_nil]
    refine ⟨e1.trans m.len, fun hd k c hm => m.inflight hd k c (e2 _ hm), ?_, ?_⟩
    · intro hd k c hm
      rcases e3 hd k c hm with q | q
      · exact m.retained hd k c q
      · exact m.inflight hd k c q
    · intro a gh hg
      obtain ⟨gh', g1, g2, g3, g4, g5, g6⟩ := e4 a gh hg
      obtain ⟨x, x1, x2⟩ := m.ghost a gh' g1
      rw [g2, g3, g4, g5, g6] at *
      exact ⟨x, x1, x2⟩
  have same : t.ghost = s.ghost → ∀ a gh, t.ghost a = some gh → ∃ gh', s.ghost a = some gh' ∧ gh'.cid = gh.cid ∧
      gh'.start = gh.start ∧ gh'.id = gh.id ∧ gh'.source = gh.source ∧ gh'.category = gh.category := by
    intro e a gh hg
    exact ⟨gh, e ▸ hg, rfl, rfl, rfl, rfl, rfl⟩
  have ring : ∀ {j : Nat} {op : MOp Handle}, creations [act] = [] → s.ring j op = some t → (∀ c hd, op ≠ .add c hd) →
      Made (cr ++ creations [act]) t := by
    intro j op e0 hr hop
    obtain ⟨r1, r2, r3, r4⟩ := ring_same hr
    have ri := ring_inflight hr
    refine keep e0 (by rw [r2]) (by rw [ri]; exact fun x hx => hx) ?_ (same r1)
    intro hd k c hm
    rcases (ring_items hi rfl hr).2 k c hd hm with q | ⟨-, q⟩
    · exact .inl q
    · exact absurd q (hop c hd)
  cases act with
  | set x => simp [St.step] at h; subst h; exact keep rfl rfl (fun x hx => hx) (fun hd k c hm => .inl hm) (same rfl)
  | newCollector size =>
    simp only [St.step, Option.some.injEq] at h; subst h
    refine keep rfl rfl (fun x hx => hx) ?_ (same rfl)
    intro hd k c hm
    left
    unfold inCategory at hm ⊢
    by_cases hlt : k < s.rings.length
    · simp only [List.getElem?_append_left hlt] at hm
      exact hm
    · exfalso
      simp only [List.getElem?_append_right (Nat.le_of_not_lt hlt)] at hm
      generalize k - s.rings.length = j at hm
      cases j with
      | zero => simp [Ring.newRBs, RBs.contents, RBs.buf, Ring.Assoc.find_nil] at hm
      | succ j => simp at hm
  | new k now id source category ch =>
    simp only [St.step, Option.some.injEq] at h
    have n := newCoreTrace_spec hi.mem (fun a ha => hi.dead a (hi.tpDead a ha).2)
      (fun a ha => hi.dead a (by
        cases hg : s.ghost a with
        | none => rfl
        | some gh => have := hi.lt a gh hg; omega)) s.globals ch.trace now id source category
    have old : ∀ {i : Nat} {x : Creation}, cr[i]? = some x → (cr ++ [⟨k, now, id, source, category⟩])[i]? = some x := by
      intro i x hx
      rw [List.getElem?_append_left (List.getElem?_eq_some_iff.mp hx).1]
      exact hx
    have new : (cr ++ [(⟨k, now, id, source, category⟩ : Creation)])[s.heap.n.traceNew]? =
        some ⟨k, now, id, source, category⟩ := by
      rw [m.len]; simp
    subst h
    show Made (cr ++ [⟨k, now, id, source, category⟩]) _
    refine ⟨?_, ?_, ?_, ?_⟩
    · simp only [List.length_append, List.length_singleton]
      rw [n.counters.1, m.len]
    · intro hd k' c' hm
      simp only [List.mem_append, List.mem_singleton] at hm
      rcases hm with hm | hm
      · obtain ⟨x, h1, h2⟩ := m.inflight hd k' c' hm
        exact ⟨x, old h1, h2⟩
      · obtain ⟨rfl, rfl, rfl⟩ := hm
        exact ⟨_, new, rfl, rfl⟩
    · intro hd k' c' hm
      obtain ⟨x, h1, h2⟩ := m.retained hd k' c' hm
      exact ⟨x, old h1, h2⟩
    · intro a gh hg
      simp only [upd] at hg
      split at hg
      · obtain rfl := Option.some.inj hg
        exact ⟨_, new, rfl, rfl, rfl, rfl⟩
      · obtain ⟨x, h1, h2⟩ := m.ghost a gh hg
        exact ⟨x, old h1, h2⟩
  | getOrCreate k category => exact ring rfl h (fun c hd e => by cases e)
  | add i =>
    simp only [St.step] at h
    split at h
    · simp only [Option.some.injEq] at h; subst h; exact keep rfl rfl (fun x hx => hx) (fun hd k c hm => .inl hm) (same rfl)
    · rename_i hd₀ k₀ c₀ hi₀
      split at h
      · simp only [Option.some.injEq] at h; subst h; exact keep rfl rfl (fun x hx => hx) (fun hd k c hm => .inl hm) (same rfl)
      · split at h
        · obtain ⟨r1, r2, r3, r4⟩ := ring_same h
          have ri := ring_inflight h
          refine keep rfl (by rw [r2]) (by rw [ri]; exact fun x hx => List.mem_of_mem_eraseIdx hx) ?_ (same r1)
          intro hd k c hm
          rcases (ring_items hi (s₀ := { s with inflight := s.inflight.eraseIdx i }) rfl h).2 k c hd hm with q | ⟨rfl, q⟩
          · exact .inl q
          · cases q
            exact .inr (List.mem_of_getElem? hi₀)
        · simp only [Option.some.injEq] at h; subst h; exact keep rfl rfl (fun x hx => hx) (fun hd k c hm => .inl hm) (same rfl)
  | beginResize k cap order => exact ring rfl h (fun c hd e => by cases e)
  | resizeNext k => exact ring rfl h (fun c hd e => by cases e)
  | free i =>
    simp only [St.step] at h
    cases hp : s.pending[i]? with
    | none =>
      rw [hp] at h; simp only [Option.some.injEq] at h; subst h
      exact keep rfl rfl (fun x hx => hx) (fun hd k c hm => .inl hm) (same rfl)
    | some hd =>
      rw [hp] at h
      simp only at h
      by_cases hfin : (s.heap.traces hd.addr).finished = true
      · obtain ⟨h', hf, fr⟩ := free_spec hi.mem hd.addr hfin
        simp only [hf, Option.bind_eq_bind, Option.bind_some, Option.pure_def, Option.some.injEq, hfin, if_true] at h
        subst h
        refine keep rfl fr.counters.1 (fun x hx => hx) (fun hd k c hm => .inl hm) ?_
        intro a gh hg
        simp only [upd] at hg
        split at hg
        · cases hg
        · exact ⟨gh, hg, rfl, rfl, rfl, rfl, rfl⟩
      · have hf' : (s.heap.traces hd.addr).finished = false := by simpa using hfin
        simp [Heap.free, hf'] at h
        subst h
        exact keep rfl rfl (fun x hx => hx) (fun hd k c hm => .inl hm) (same rfl)
  | call b env c ch =>
    by_cases hb : b < s.heap.nextT
    · obtain ⟨s₁, p, h1, h2, _, h5, h6, _, h7⟩ := inv_call hi b env c ch hb
      rw [h1] at h
      obtain rfl := Option.some.inj h
      have h8 : s₁.rings = s.rings ∧ s₁.inflight = s.inflight := by
        simp only [St.step, if_pos hb, Option.bind_eq_bind, Option.bind_eq_some_iff] at h1
        obtain ⟨q, _, h1⟩ := h1
        simp only [Option.pure_def, Option.some.injEq] at h1
        subst h1
        exact ⟨rfl, rfl⟩
      refine keep rfl (by rw [h5, h6.counters.1]) (by rw [h8.2]; exact fun x hx => hx)
        (fun hd k c hm => .inl (by unfold inCategory at hm ⊢; rw [← h8.1]; exact hm)) ?_
      intro a gh hg
      rw [h7] at hg
      simp only [upd] at hg
      split at hg
      · rename_i hab
        subst hab
        cases hs : s.ghost a with
        | none => rw [hs] at hg; cases hg
        | some gh' =>
          rw [hs] at hg
          obtain rfl := Option.some.inj hg
          exact ⟨gh', rfl, rfl, rfl, rfl, rfl, rfl⟩
      · exact ⟨gh, hg, rfl, rfl, rfl, rfl, rfl⟩
    · simp only [St.step, if_neg hb, Option.some.injEq] at h
      subst h
      exact keep rfl rfl (fun x hx => hx) (fun hd k c hm => .inl hm) (same rfl)
  | gcTrace i => simp [St.step] at h; subst h; exact keep rfl rfl (fun x hx => hx) (fun hd k c hm => .inl hm) (same rfl)
  | gcEvent i => simp [St.step] at h; subst h; exact keep rfl rfl (fun x hx => hx) (fun hd k c hm => .inl hm) (same rfl)
  | gcStr i => simp [St.step] at h; subst h; exact keep rfl rfl (fun x hx => hx) (fun hd k c hm => .inl hm) (same rfl)

theorem made_run {s t : St W A} {f : List (Ring.Spec.Family Handle)} {cr : List Creation} (hi : Inv s f) (m : Made cr s)
    (acts : List (Act W A)) (h : s.run acts = some t) : Made (cr ++ creations acts) t := by
  induction acts generalizing s f cr with
  | nil => simp only [St.run, Option.some.injEq] at h; subst h; simpa [creations] using m
  | cons act acts ih =>
    obtain ⟨u, f', hu, hi'⟩ := inv_step hi act
    simp only [St.run, hu, Option.bind_eq_bind, Option.bind_some] at h
    have := ih hi' (made_step hi m hu) h
    rw [List.append_assoc, ← creations_append] at this
    exact this

/-- **C130**: what a category of a collector has was put there by a `NewTrace` on that collector for that category, and
shows the identity given in that call. Whichever collector used the object before, nothing of it is left. -/
theorem C130_made_for (acts : List (Act W A)) (s : St W A) (hr : St.init.run acts = some s) (k : Nat) (c : String)
    (hd : Handle) (hm : hd ∈ inCategory s k c) :
    ∃ now id source, (creations acts)[hd.cid]? = some ⟨k, now, id, source, c⟩ ∧
      (s.heap.traces hd.addr).id = id ∧ (s.heap.traces hd.addr).source = source ∧
      (s.heap.traces hd.addr).category = c ∧ (s.heap.traces hd.addr).start = now := by
  obtain ⟨f, hi⟩ := init_inv_run hr
  have m : Made (creations acts) s := by
    have := made_run inv_init (cr := []) ⟨rfl, by simp [St.init], by simp [St.init, inCategory], by simp [St.init]⟩ acts hr
    simpa using this
  obtain ⟨x, x1, x2, x3⟩ := m.retained hd k c hm
  have hh : hd ∈ places s f := by
    rw [← held_eq hi]
    simp only [held, List.mem_append]
    refine .inl (.inr ?_)
    rw [allRetained_eq]
    unfold inCategory at hm
    cases hk : s.rings[k]? with
    | none => simp [hk] at hm
    | some r =>
      refine List.mem_flatMap.mpr ⟨r, List.mem_of_getElem? hk, ?_⟩
      rw [hk, Option.bind_some] at hm
      refine List.mem_flatMap.mpr ⟨c, ?_, hm⟩
      apply Classical.byContradiction
      intro hn
      have := (Ring.Assoc.find_none_iff _ _).mpr hn
      simp [RBs.contents, RBs.buf, this] at hm
  obtain ⟨gh, g1, g2⟩ := hi.plive hd hh
  obtain ⟨y, y1, y2, y3, y4, y5⟩ := m.ghost _ gh g1
  rw [g2, x1] at y1
  obtain rfl := Option.some.inj y1
  obtain ⟨-, u2, u3, u4, u5⟩ := run_unfinished _ _ _ _ _ _ (hi.live _ gh g1)
  refine ⟨x.now, x.id, x.source, ?_, ?_, ?_, ?_, ?_⟩
  · rw [x1]; cases x; simp only at x2 x3; subst x2 x3; rfl
  · rw [y3]; exact u2
  · rw [y4]; exact u3
  · rw [← x3, y5]; exact u4
  · rw [y2]; exact u5

/-- **C130**: no trace object is in two collectors. -/
theorem C130_apart (acts : List (Act W A)) (s : St W A) (hr : St.init.run acts = some s) (j k : Nat) (hjk : j ≠ k)
    (x y : Handle) (hx : x ∈ retainedBy s j) (hy : y ∈ retainedBy s k) : x.addr ≠ y.addr := by
  have hnd := (C20_held_distinct acts s hr).1
  have hsub : List.Sublist ((allRetained s).map Handle.addr) ((held s).map Handle.addr) := by
    refine List.Sublist.map _ ?_
    unfold held
    exact (List.sublist_append_right _ _).trans (List.sublist_append_left _ _)
  have hnd := hnd.sublist hsub
  have lt : ∀ {i : Nat} {z : Handle}, z ∈ retainedBy s i → i < s.rings.length := by
    intro i z hz
    unfold retainedBy at hz
    cases hi : s.rings[i]? with
    | none => simp [hi] at hz
    | some r => exact (List.getElem?_eq_some_iff.mp hi).1
  unfold allRetained at hnd
  rw [List.map_flatMap] at hnd
  have hp := (List.nodup_flatMap.mp hnd).2
  have key : ∀ {i i' : Nat} {z z' : Handle}, i < i' → z ∈ retainedBy s i → z' ∈ retainedBy s i' → z.addr ≠ z'.addr := by
    intro i i' z z' hlt hz hz' e
    have h1 := List.pairwise_iff_getElem.mp hp i i' (by simpa using lt hz) (by simpa using lt hz') hlt
    simp only [List.getElem_range] at h1
    exact h1 (List.mem_map_of_mem hz) (e ▸ List.mem_map_of_mem hz')
  rcases Nat.lt_or_gt_of_ne hjk with h | h
  · exact key h hx hy
  · exact fun e => key h hy hx e.symm

/-- A step that is not made on the `k`-th collector. -/
def NotOn (k : Nat) : Act W A → Prop
  | .new j _ _ _ _ _ => j ≠ k
  | .getOrCreate j _ => j ≠ k
  | .beginResize j _ _ => j ≠ k
  | .resizeNext j => j ≠ k
  | _ => True

theorem rings_step {s t : St W A} {f : List (Ring.Spec.Family Handle)} (hi : Inv s f) {act : Act W A} (h : s.step act = some t)
    {k : Nat} (hk : k < s.rings.length) (hn : NotOn k act) (hin : ∀ x ∈ s.inflight, x.2.1 ≠ k) :
    t.rings[k]? = s.rings[k]? ∧ ∀ x ∈ t.inflight, x.2.1 ≠ k := by
  have ring : ∀ {s₀ : St W A} {j : Nat} {op : MOp Handle}, s₀.rings = s.rings → (∀ x ∈ s₀.inflight, x.2.1 ≠ k) →
      s₀.ring j op = some t → j ≠ k → t.rings[k]? = s.rings[k]? ∧ ∀ x ∈ t.inflight, x.2.1 ≠ k := by
    intro s₀ j op e0 e1 hr hj
    exact ⟨(ring_items hi e0 hr).1 k (Ne.symm hj), by rw [ring_inflight hr]; exact e1⟩
  cases act with
  | set x => simp [St.step] at h; subst h; exact ⟨rfl, hin⟩
  | newCollector size =>
    simp only [St.step, Option.some.injEq] at h; subst h
    exact ⟨by simp only [List.getElem?_append_left hk], hin⟩
  | new j now id source category ch =>
    simp only [St.step, Option.some.injEq] at h; subst h
    refine ⟨rfl, ?_⟩
    intro x hx
    simp only [List.mem_append, List.mem_singleton] at hx
    rcases hx with hx | rfl
    · exact hin x hx
    · exact hn
  | getOrCreate j category => exact ring rfl hin h hn
  | add i =>
    simp only [St.step] at h
    split at h
    · simp only [Option.some.injEq] at h; subst h; exact ⟨rfl, hin⟩
    · rename_i hd₀ k₀ c₀ hi₀
      split at h
      · simp only [Option.some.injEq] at h; subst h; exact ⟨rfl, hin⟩
      · split at h
        · exact ring (s₀ := { s with inflight := s.inflight.eraseIdx i }) rfl
            (fun x hx => hin x (List.mem_of_mem_eraseIdx hx)) h (hin _ (List.mem_of_getElem? hi₀))
        · simp only [Option.some.injEq] at h; subst h; exact ⟨rfl, hin⟩
  | beginResize j cap order => exact ring rfl hin h hn
  | resizeNext j => exact ring rfl hin h hn
  | free i =>
    simp only [St.step] at h
    split at h
    · simp only [Option.some.injEq] at h; subst h; exact ⟨rfl, hin⟩
    · simp only [Option.bind_eq_bind, Option.bind_eq_some_iff] at h
      obtain ⟨h', hf, h⟩ := h
      simp only [Option.pure_def, Option.some.injEq] at h
      subst h
      exact ⟨rfl, hin⟩
  | call b env c ch =>
    simp only [St.step] at h
    split at h
    · simp only [Option.bind_eq_bind, Option.bind_eq_some_iff] at h
      obtain ⟨p, hp, h⟩ := h
      simp only [Option.pure_def, Option.some.injEq] at h
      subst h
      exact ⟨rfl, hin⟩
    · simp only [Option.some.injEq] at h; subst h; exact ⟨rfl, hin⟩
  | gcTrace i => simp [St.step] at h; subst h; exact ⟨rfl, hin⟩
  | gcEvent i => simp [St.step] at h; subst h; exact ⟨rfl, hin⟩
  | gcStr i => simp [St.step] at h; subst h; exact ⟨rfl, hin⟩

theorem rings_others {s t : St W A} {f : List (Ring.Spec.Family Handle)} (hi : Inv s f) (acts : List (Act W A))
    (h : s.run acts = some t) {k : Nat} (hk : k < s.rings.length) (hn : ∀ act ∈ acts, NotOn k act)
    (hin : ∀ x ∈ s.inflight, x.2.1 ≠ k) : t.rings[k]? = s.rings[k]? := by
  induction acts generalizing s f with
  | nil => simp only [St.run, Option.some.injEq] at h; subst h; rfl
  | cons act acts ih =>
    obtain ⟨u, f', hu, hi'⟩ := inv_step hi act
    simp only [St.run, hu, Option.bind_eq_bind, Option.bind_some] at h
    obtain ⟨h1, h2⟩ := rings_step hi hu hk (hn act (by simp)) hin
    rw [ih hi' h (Nat.lt_of_lt_of_le hk (step_rings hu).1) (fun a ha => hn a (by simp [ha])) h2, h1]

/-- **C130**: whatever a program does with its other collectors, however it fills, resizes and recycles them, a
collector that is left alone keeps every trace in its place, and those of its traces that are left alone read as before. -/
theorem C130_untouched (before after : List (Act W A)) (s t : St W A) (hs : St.init.run before = some s)
    (ht : s.run after = some t) (k : Nat) (hk : k < s.rings.length) (hin : ∀ x ∈ s.inflight, x.2.1 ≠ k)
    (hn : ∀ act ∈ after, NotOn k act) :
    retainedBy t k = retainedBy s k ∧ (∀ c, inCategory t k c = inCategory s k c) ∧
    ∀ hd ∈ retainedBy s k, (∀ env c ch, .call hd.addr env c ch ∉ after) →
      absTrace t.heap hd.addr = absTrace s.heap hd.addr ∧
      ∀ env n stacks ch ch', shownAt t hd.addr env n stacks ch' = shownAt s hd.addr env n stacks ch := by
  obtain ⟨f, hi⟩ := init_inv_run hs
  have hr := rings_others hi after ht hk hn hin
  have h1 : retainedBy t k = retainedBy s k := by unfold retainedBy; rw [hr]
  refine ⟨h1, fun c => by unfold inCategory; rw [hr], ?_⟩
  intro hd hh hcall
  obtain ⟨t', f', ht', hi'⟩ := inv_run hi after
  rw [ht] at ht'
  obtain rfl := Option.some.inj ht'
  have mem : ∀ {u : St W A} {g : List (Ring.Spec.Family Handle)}, Inv u g → k < u.rings.length → hd ∈ retainedBy u k → hd ∈ places u g := by
    intro u g hu hlt hm
    rw [← held_eq hu]
    simp only [held, List.mem_append]
    exact .inl (.inr (List.mem_flatMap.mpr ⟨k, List.mem_range.mpr hlt, hm⟩))
  obtain ⟨gh, g1, g2⟩ := hi.plive hd (mem hi hk hh)
  obtain ⟨gh', g1', g2'⟩ := hi'.plive hd (mem hi' (Nat.lt_of_lt_of_le hk (run_rings ht).1) (h1 ▸ hh))
  obtain ⟨e1, e2⟩ := live_run hi after ht g1 g1' (g2'.trans g2.symm)
  have e3 : callsAt hd.addr after = [] := by
    clear ht hn hr e2
    induction after with
    | nil => rfl
    | cons act acts ih =>
      have ih' := ih (fun env c ch hm => hcall env c ch (by simp [hm]))
      cases act with
      | call b env c ch =>
        have hb : b ≠ hd.addr := by
          rintro rfl
          exact hcall env c ch (by simp)
        simp [callsAt, hb, ih']
      | _ => exact ih'
  rw [e3, List.append_nil] at e2
  have e4 : absTrace t.heap hd.addr = absTrace s.heap hd.addr := by
    have l1 := hi.live _ gh g1
    have l2 := hi'.live _ gh' g1'
    rw [e1, e2, l1] at l2
    exact (Option.some.inj l2).symm
  refine ⟨e4, ?_⟩
  intro env n stacks ch ch'
  obtain ⟨sns, u, q1, -, q3, -⟩ := call_spec hi.mem hd.addr ch env (.read n stacks)
  obtain ⟨sns', u', q1', -, q3', -⟩ := call_spec hi'.mem hd.addr ch' env (.read n stacks)
  rw [e4, q3] at q3'
  have := (Prod.mk.inj (Option.some.inj q3')).2
  simp only [shownAt, q1, q1', Option.map_some, this]

/-! ## A case: an object goes from one collector to another -/

private instance : Sys Unit Nat := ⟨fun _ fmt _ => fmt⟩

private def exAt : Env Unit := { now := ⟨0, none⟩, w := () }

/-- Two collectors, of one trace and of two per category. The first trace of the first collector is finished and
dropped for the second; its object then becomes a trace of the second collector. -/
private def exTwo : List (Act Unit Nat) :=
  [.newCollector 1, .newCollector 2,
   .new 0 exAt.now "A" "src" "a" {}, .getOrCreate 0 "a", .add 0, .call 0 exAt (.log .tracef "one" [] []) {}, .call 0 exAt .finish {},
   .new 0 exAt.now "B" "src" "a" {}, .getOrCreate 0 "a", .add 0, .call 1 exAt (.log .tracef "two" [] []) {}, .free 0]

private def exThen : List (Act Unit Nat) :=
  [.new 1 exAt.now "C" "src" "a" { trace := some 0, event := some 0 }, .getOrCreate 1 "a", .add 0,
   .call 0 exAt (.log .tracef "three" [] []) { event := some 0, str := some 0 }]

/-- The trace of the second collector is in the object that the first collector had, with an event that it had; the other
trace is where it was and reads the same. -/
example : (St.init.run (exTwo ++ exThen)).map (fun s => (inCategory s 0 "a", inCategory s 1 "a",
      (s.heap.traces 0).id, shownAt s 0 exAt (-1) false {} |>.map (·.map Event.what),
      shownAt s 1 exAt (-1) false {} |>.map (·.map Event.what))) =
    some ([⟨1, 1⟩], [⟨0, 2⟩], "C", some ["three"], some ["two"]) ∧
    (creations (exTwo ++ exThen)).map (fun x => (x.collector, x.id)) = [(0, "A"), (0, "B"), (1, "C")] ∧
    (∀ act ∈ exThen, NotOn 0 act) := by
  refine ⟨rfl, rfl, ?_⟩
  intro act h
  simp only [exThen, List.mem_cons, List.not_mem_nil, or_false] at h
  rcases h with rfl | rfl | rfl | rfl <;> simp [NotOn]

end Trc.Heap
