import Verif.Ring.Many

set_option linter.unusedSectionVars false
set_option linter.unusedVariables false

namespace Trc.Ring

namespace Assoc
variable {V : Type}

theorem find_nil (k : String) : find ([] : Assoc V) k = none := rfl

theorem find_cons (k k' : String) (v : V) (m : Assoc V) :
    find ((k', v) :: m) k = if k' = k then some v else find m k := by
  unfold find
  by_cases h : k' = k
  · simp [h]
  · have : (k' == k) = false := by simpa using h
    simp [List.find?_cons, this, h]

theorem find_insert (m : Assoc V) (k k' : String) (v : V) :
    find (insert m k v) k' = if k = k' then some v else find m k' := by
  induction m with
  | nil => simp [insert, find_cons, find_nil]
  | cons p m ih =>
    obtain ⟨a, b⟩ := p
    simp only [insert]
    by_cases h : a = k
    · subst h; simp only [if_true, find_cons]; split <;> rfl
    · simp only [h, if_false, find_cons, ih]
      by_cases h2 : a = k'
      · subst h2; simp [Ne.symm h]
      · simp [h2]

theorem keys_insert (m : Assoc V) (k : String) (v : V) :
    (insert m k v).keys = if k ∈ m.keys then m.keys else m.keys ++ [k] := by
  induction m with
  | nil => simp [insert, keys]
  | cons p m ih =>
    obtain ⟨a, b⟩ := p
    simp only [insert]
    by_cases h : a = k
    · subst h; simp [keys]
    · simp only [h, if_false]
      have : (k ∈ keys ((a, b) :: m)) ↔ k ∈ keys m := by
        simp [keys, Ne.symm h]
      simp only [this]
      have e1 : keys ((a, b) :: insert m k v) = a :: keys (insert m k v) := rfl
      have e2 : keys ((a, b) :: m) = a :: keys m := rfl
      rw [e1, e2, ih]
      split <;> simp

theorem find_none_iff (m : Assoc V) (k : String) : find m k = none ↔ k ∉ m.keys := by
  induction m with
  | nil => simp [find_nil, keys]
  | cons p m ih =>
    obtain ⟨a, b⟩ := p
    rw [find_cons]
    by_cases h : a = k
    · simp [h, keys]
    · simp [h, keys, Ne.symm h] at *
      exact ih

theorem find_mem {m : Assoc V} {k : String} {v : V} (h : find m k = some v) : (k, v) ∈ m := by
  induction m with
  | nil => simp [find_nil] at h
  | cons p m ih =>
    obtain ⟨a, b⟩ := p
    rw [find_cons] at h
    split at h
    · rename_i h1; subst h1; simp at h; subst h; simp
    · exact List.mem_cons_of_mem _ (ih h)

theorem mem_find {m : Assoc V} {k : String} {v : V} (hn : m.keys.Nodup) (h : (k, v) ∈ m) :
    find m k = some v := by
  induction m with
  | nil => simp at h
  | cons p m ih =>
    obtain ⟨a, b⟩ := p
    rw [find_cons]
    simp only [keys, List.map_cons, List.nodup_cons] at hn
    rcases List.mem_cons.mp h with h1 | h1
    · cases h1; simp
    · have : a ≠ k := by
        intro e; subst e
        exact hn.1 (List.mem_map.mpr ⟨_, h1, rfl⟩)
      simp [this]
      exact ih hn.2 h1

theorem nodup_insert {m : Assoc V} (hn : m.keys.Nodup) (k : String) (v : V) :
    (insert m k v).keys.Nodup := by
  rw [keys_insert]
  split
  · exact hn
  · rename_i h
    rw [List.nodup_append]
    refine ⟨hn, by simp, ?_⟩
    intro a ha b hb
    simp at hb; subst hb
    intro e; subst e; exact h ha

end Assoc

variable {α : Type} [Inhabited α]

/-- The invariant "represents": the concrete maps and buffers stand for the family. -/
structure FRep (s : RBs α) (f : Spec.Family α) : Prop where
  hcap : s.cap = f.cap
  hnd : s.bufs.keys.Nodup
  hkeys : s.bufs.keys = f.keys
  hres : s.resizing = f.resizing
  hcat : ∀ k, match s.bufs.find k, f.cat k with
    | none, none => True
    | some rb, some r => Rep rb r
    | _, _ => False

theorem frep_new (cap : Nat) : FRep (newRBs (cap : Int) : RBs α) (Spec.Family.new cap) := by
  constructor <;> simp [newRBs, Assoc.keys, Assoc.find_nil, Spec.Family.new]

theorem FRep.isNone {s : RBs α} {f : Spec.Family α} (h : FRep s f) {k} (hk : s.bufs.find k = none) :
    f.cat k = none := by
  have := h.hcat k
  rw [hk] at this
  cases hf : f.cat k with
  | none => rfl
  | some r => rw [hf] at this; exact this.elim

theorem FRep.isSome {s : RBs α} {f : Spec.Family α} (h : FRep s f) {k rb} (hk : s.bufs.find k = some rb) :
    ∃ r, f.cat k = some r ∧ Rep rb r := by
  have := h.hcat k
  rw [hk] at this
  cases hf : f.cat k with
  | none => rw [hf] at this; exact this.elim
  | some r => rw [hf] at this; exact ⟨r, rfl, this⟩

theorem FRep.upd {s : RBs α} {f : Spec.Family α} (h : FRep s f) {k rb r} (hr : Rep rb r) :
    ∀ k', match (s.bufs.insert k rb).find k', f.upd k r k' with
    | none, none => True
    | some rb, some r => Rep rb r
    | _, _ => False := by
  intro k'
  rw [Assoc.find_insert]
  unfold Spec.Family.upd
  by_cases hk : k = k'
  · simp [hk, hr]
  · simp only [hk, if_false]; exact h.hcat k'

theorem keys_insert_of_some {V : Type} {m : Assoc V} {k : String} {v w : V}
    (h : m.find k = some w) : (m.insert k v).keys = m.keys := by
  rw [Assoc.keys_insert, if_pos]
  apply Classical.byContradiction
  intro hc
  rw [← Assoc.find_none_iff, h] at hc
  cases hc

theorem keys_insert_of_none {V : Type} {m : Assoc V} {k : String} {v : V}
    (h : m.find k = none) : (m.insert k v).keys = m.keys ++ [k] := by
  rw [Assoc.keys_insert, if_neg ((Assoc.find_none_iff _ _).mp h)]

theorem frep_step {s : RBs α} {f : Spec.Family α} (h : FRep s f) (op : MOp α) :
    ∃ s', s.step op = some (s', (f.step op).2) ∧ FRep s' (f.step op).1 := by
  cases op with
  | getOrCreate k =>
    simp only [RBs.step, Spec.Family.step, ← h.hres]
    cases hr : s.resizing with
    | some _ => exact ⟨s, by simp, by simpa using h⟩
    | none =>
      simp only [RBs.getOrCreate]
      cases hk : s.bufs.find k with
      | some rb =>
        obtain ⟨r, hr', _⟩ := h.isSome hk
        refine ⟨s, by simp [hr'], by simpa [hr'] using h⟩
      | none =>
        have hn := h.isNone hk
        obtain ⟨rb, he, hrep⟩ := rep_new (α := α) f.cap
        refine ⟨{ s with bufs := s.bufs.insert k rb }, ?_, ?_⟩
        · simp [h.hcap, he, hn]
        · simp only [hn]
          refine ⟨h.hcap, Assoc.nodup_insert h.hnd _ _, ?_, hr, h.upd hrep⟩
          show (s.bufs.insert k rb).keys = f.keys ++ [k]
          rw [keys_insert_of_none hk, h.hkeys]
  | add k v =>
    simp only [RBs.step, Spec.Family.step]
    cases hk : s.bufs.find k with
    | none => simp only [h.isNone hk]; exact ⟨s, rfl, h⟩
    | some rb =>
      obtain ⟨r, hr, hrep⟩ := h.isSome hk
      obtain ⟨rb', d, he, hrep', hd⟩ := rep_add hrep v
      refine ⟨{ s with bufs := s.bufs.insert k rb' }, ?_, ?_⟩
      · simp [he, hr, hd]
      · simp only [hr]
        exact ⟨h.hcap, Assoc.nodup_insert h.hnd _ _, (keys_insert_of_some hk).trans h.hkeys,
          h.hres, h.upd hrep'⟩
  | beginResize c order =>
    simp only [RBs.step, Spec.Family.step, ← h.hres, ← h.hkeys]
    by_cases hc : c ≤ 0
    · simp only [hc, if_true, true_or]; exact ⟨s, rfl, h⟩
    · simp only [hc, if_false, false_or]
      cases hr : s.resizing with
      | some _ => simp only [Option.isSome_some, true_or, if_true]; exact ⟨s, rfl, h⟩
      | none =>
        simp only [Option.isSome_none]
        by_cases ho : order.isPerm s.bufs.keys
        · simp only [ho, if_true]
          refine ⟨_, rfl, ?_⟩
          simp
          constructor
          · simp; omega
          · exact h.hnd
          · exact rfl
          · rfl
          · exact h.hcat
        · simp only [ho]
          refine ⟨s, by simp, by simpa using h⟩
  | resizeNext =>
    simp only [RBs.step, Spec.Family.step, ← h.hres]
    cases hr : s.resizing with
    | none => exact ⟨s, rfl, h⟩
    | some l =>
      cases l with
      | nil => exact ⟨_, rfl, ⟨h.hcap, h.hnd, h.hkeys, rfl, h.hcat⟩⟩
      | cons k rest =>
        simp only []
        cases hk : s.bufs.find k with
        | none =>
          simp only [h.isNone hk]
          exact ⟨_, rfl, ⟨h.hcap, h.hnd, h.hkeys, rfl, h.hcat⟩⟩
        | some rb =>
          obtain ⟨r, hr', hrep⟩ := h.isSome hk
          obtain ⟨rb', d, he, hrep', hd⟩ := rep_resize hrep s.cap
          rw [h.hcap] at he hrep' hd
          refine ⟨{ s with bufs := s.bufs.insert k rb', resizing := some rest }, ?_, ?_⟩
          · simp [h.hcap, he, hr', hd]
          · simp only [hr']
            exact ⟨h.hcap, Assoc.nodup_insert h.hnd _ _, (keys_insert_of_some hk).trans h.hkeys,
              rfl, h.upd hrep'⟩

/-- Every interleaving runs without panic and represents the family it describes. -/
theorem frep_run {s : RBs α} {f : Spec.Family α} (h : FRep s f) (ops : List (MOp α)) :
    ∃ s', s.run ops = some (s', (f.run ops).2) ∧ FRep s' (f.run ops).1 := by
  induction ops generalizing s f with
  | nil => exact ⟨s, rfl, h⟩
  | cons op ops ih =>
    obtain ⟨s₁, he, h₁⟩ := frep_step h op
    obtain ⟨s₂, he₂, h₂⟩ := ih h₁
    exact ⟨s₂, by simp [RBs.run, he, he₂, Spec.Family.run], h₂⟩

theorem FRep.contents {s : RBs α} {f : Spec.Family α} (h : FRep s f) (k : String) :
    s.contents k = some (f.items k) := by
  unfold RBs.contents RBs.buf Spec.Family.items
  cases hk : s.bufs.find k with
  | none => simp [h.isNone hk]
  | some rb =>
    obtain ⟨r, hr, hrep⟩ := h.isSome hk
    simp [hr, walkAll_spec hrep]

/-- The capacity invariant: every existing category has the configured capacity,
except those an in-progress resize has not reached yet. -/
structure CapInv (f : Spec.Family α) : Prop where
  hkeys : ∀ k r, f.cat k = some r → k ∈ f.keys
  hlen : ∀ k r, f.cat k = some r → r.items.length ≤ r.cap
  hcap : ∀ k r, f.cat k = some r →
    match f.resizing with
    | none => r.cap = f.cap
    | some l => k ∈ l ∨ r.cap = f.cap
  hpos : f.resizing.isSome → 0 < f.cap

theorem Family_upd_some {f : Spec.Family α} {k k' : String} {r r' : Spec.Recent α}
    (h : f.upd k r k' = some r') : (k = k' ∧ r' = r) ∨ (k ≠ k' ∧ f.cat k' = some r') := by
  unfold Spec.Family.upd at h
  split at h
  · rename_i hk; simp at h; exact .inl ⟨hk, h.symm⟩
  · rename_i hk; exact .inr ⟨hk, h⟩

theorem capInv_new (cap : Nat) : CapInv (Spec.Family.new cap : Spec.Family α) := by
  constructor <;> simp [Spec.Family.new]

theorem Recent_add_cap (r : Spec.Recent α) (v : α) : (r.add v).1.cap = r.cap := rfl

theorem Recent_add_len (r : Spec.Recent α) (v : α) :
    (r.add v).1.items.length ≤ (r.add v).1.cap := by
  simp only [Spec.Recent.add, List.length_take]; omega

theorem Recent_resize_pos (r : Spec.Recent α) (c : Nat) (h : 0 < c) :
    (r.resize c).1 = { cap := c, items := r.items.take c } := by
  have : ¬ ((c : Int) ≤ 0) := by omega
  simp only [Spec.Recent.resize, this, if_false, Int.toNat_natCast]

theorem capInv_step {f : Spec.Family α} (h : CapInv f) (op : MOp α) : CapInv (f.step op).1 := by
  obtain ⟨hkeys, hlen, hcap, hpos⟩ := h
  cases op with
  | getOrCreate k =>
    simp only [Spec.Family.step]
    split
    · rename_i hr hk
      rw [hr] at hcap
      refine ⟨?_, ?_, ?_, ?_⟩
      · intro k' r h
        rcases Family_upd_some h with ⟨rfl, rfl⟩ | ⟨_, h⟩
        · simp
        · simp [hkeys _ _ h]
      · intro k' r h
        rcases Family_upd_some h with ⟨rfl, rfl⟩ | ⟨_, h⟩
        · simp
        · exact hlen _ _ h
      · intro k' r h
        simp only [hr]
        rcases Family_upd_some h with ⟨rfl, rfl⟩ | ⟨_, h⟩
        · rfl
        · exact hcap _ _ h
      · simp [hr]
    · exact ⟨hkeys, hlen, hcap, hpos⟩
  | add k v =>
    simp only [Spec.Family.step]
    cases hk : f.cat k with
    | none => exact ⟨hkeys, hlen, hcap, hpos⟩
    | some r₀ =>
      refine ⟨?_, ?_, ?_, hpos⟩
      · intro k' r h
        rcases Family_upd_some h with ⟨rfl, rfl⟩ | ⟨_, h⟩
        · exact hkeys _ _ hk
        · exact hkeys _ _ h
      · intro k' r h
        rcases Family_upd_some h with ⟨rfl, rfl⟩ | ⟨_, h⟩
        · exact Recent_add_len _ _
        · exact hlen _ _ h
      · intro k' r h
        rcases Family_upd_some h with ⟨rfl, rfl⟩ | ⟨_, h⟩
        · have := hcap _ _ hk
          simpa only [Recent_add_cap] using this
        · exact hcap _ _ h
  | beginResize c order =>
    simp only [Spec.Family.step]
    split
    · exact ⟨hkeys, hlen, hcap, hpos⟩
    · rename_i hc
      simp only [not_or, Decidable.not_not] at hc
      obtain ⟨hc1, _, hp⟩ := hc
      refine ⟨hkeys, hlen, ?_, ?_⟩
      · intro k r h
        exact .inl ((List.isPerm_iff.mp hp).mem_iff.mpr (hkeys k r h))
      · intro _; simp; omega
  | resizeNext =>
    simp only [Spec.Family.step]
    cases hr : f.resizing with
    | none => exact ⟨hkeys, hlen, hcap, hpos⟩
    | some l =>
      rw [hr] at hcap
      cases l with
      | nil =>
        refine ⟨hkeys, hlen, ?_, by simp⟩
        intro k r h
        simpa using hcap k r h
      | cons k₀ rest =>
        simp only []
        have hp := hpos (by simp [hr])
        cases hk : f.cat k₀ with
        | none =>
          refine ⟨hkeys, hlen, ?_, fun _ => hp⟩
          intro k r h
          rcases hcap k r h with h1 | h1
          · rcases List.mem_cons.mp h1 with rfl | h2
            · rw [hk] at h; cases h
            · exact .inl h2
          · exact .inr h1
        | some r₀ =>
          refine ⟨?_, ?_, ?_, fun _ => hp⟩
          · intro k' r h
            rcases Family_upd_some h with ⟨rfl, rfl⟩ | ⟨_, h⟩
            · exact hkeys _ _ hk
            · exact hkeys _ _ h
          · intro k' r h
            rcases Family_upd_some h with ⟨rfl, rfl⟩ | ⟨_, h⟩
            · rw [Recent_resize_pos _ _ hp]; simp; omega
            · exact hlen _ _ h
          · intro k' r h
            rcases Family_upd_some h with ⟨rfl, rfl⟩ | ⟨hne, h⟩
            · right; rw [Recent_resize_pos _ _ hp]
            · rcases hcap k' r h with h1 | h1
              · rcases List.mem_cons.mp h1 with rfl | h2
                · exact absurd rfl hne
                · exact .inl h2
              · exact .inr h1

theorem capInv_run {f : Spec.Family α} (h : CapInv f) (ops : List (MOp α)) :
    CapInv (f.run ops).1 := by
  induction ops generalizing f with
  | nil => exact h
  | cons op ops ih => exact ih (capInv_step h op)

end Trc.Ring
