import Verif.Race.Lemmas

/-!
# Accesses of one lifetime are ordered
-/

set_option linter.unusedVariables false
set_option linter.unusedSimpArgs false

namespace Trc.Race

open Trc.Lock (Lock upd)

/-- Accesses to the location that are ordered. -/
def Comparable : Loc → Nat → Nat → Prop
  | .imm _, g, g' => g = g'
  | .var _, g, g' => g = g'
  | .frames _, g, g' => g = g'
  | .args _, _, _ => False
  | _, _, _ => True

/-- The locks that a goroutine holds. -/
def St.held (s : St) (t : Tid) : Lock → Bool := fun m => decide (s.owner m = some t)

structure Inv (s : St) : Prop where
  lock : ∀ m t, s.owner m = some t → ∃ k : Nat, s.tr[k]? = some (t, Ev.lock m) ∧ ∀ (u : Nat) t', s.tr[u]? = some (t', Ev.unlock m) → u < k
  code : ∀ t, Ok (s.held t) (s.code t)
  tok : ∀ p, s.Has p → 1 ≤ p.2 ∧ p.2 ≤ s.gens p.1 ∧ ∀ e, p.1 = .part e → p.2 = s.gens p.1 → s.filled e = true
  raw : ∀ t p, p ∈ s.raw t → p.1.isPart = false ∧ 1 ≤ p.2 ∧ p.2 ≤ s.gens p.1 ∧ ¬ s.Has p ∧ ∀ t', p ∈ s.raw t' → t' = t
  ring : ∀ r, s.gens (.ring r) ≤ 1 ∧ s.pooled (.ring r) = false
  home : ∀ e a, s.home e = some a → 1 ≤ s.gens (.part e) ∧ s.pooled (.part e) = false
  acc : ∀ (i : Nat) t w l g, s.tr[i]? = some (t, .acc w l g) → Covered s i w l g
  ordered : ∀ (i j : Nat) t t' w w' l g g', s.tr[i]? = some (t, .acc w l g) → s.tr[j]? = some (t', .acc w' l g') → i < j →
    (w = true ∨ w' = true) → Comparable l g g' → HB s.tr i j

/-- Who has the lock knows what is safe. -/
theorem Safe.owner {s : St} (hi : Inv s) {i : Nat} {m : Lock} {t : Tid} (h : Safe s i m) (ho : s.owner m = some t) : Knows s.tr i t := by
  rcases h with ⟨t', ho', k⟩ | ⟨u, t', hu, b⟩
  · rw [ho] at ho'; cases ho'; exact k
  · obtain ⟨k, hk, hlt⟩ := hi.lock m t ho
    refine ⟨k, _, hk, .inr (b.edge ?_)⟩
    unfold edge
    rw [hu, hk]
    simp [hlt u t' hu, synchronizes]

theorem held_owner {s : St} {t : Tid} {m : Lock} (h : s.held t m = true) : s.owner m = some t := by
  simpa [St.held] using h

/-! ## Locks -/

theorem held_lock {s : St} {m : Lock} {t t' : Tid} (h : s.owner m = none) :
    (fun x => decide (upd s.owner m (some t) x = some t')) = if t' = t then upd (s.held t) m true else s.held t' := by
  funext x
  by_cases hx : x = m
  · subst hx
    by_cases ht : t' = t
    · subst ht; simp [upd_same]
    · simp [upd_same, ht, St.held, h]; exact fun e => ht e.symm
  · by_cases ht : t' = t
    · subst ht; simp [upd_ne _ _ hx, St.held]
    · simp [upd_ne _ _ hx, ht, St.held]

theorem held_unlock {s : St} {m : Lock} {t t' : Tid} (h : s.owner m = some t) :
    (fun x => decide (upd s.owner m none x = some t')) = if t' = t then upd (s.held t) m false else s.held t' := by
  funext x
  by_cases hx : x = m
  · subst hx
    by_cases ht : t' = t
    · subst ht; simp [upd_same]
    · simp [upd_same, ht, St.held, h]; exact fun e => ht e.symm
  · by_cases ht : t' = t
    · subst ht; simp [upd_ne _ _ hx, St.held]
    · simp [upd_ne _ _ hx, ht, St.held]

/-- What an operation adds to the history. -/
theorem exec_tr {s s' : St} {t : Tid} {i : Instr} (h : exec s t i = some s') :
    (s'.tr = s.tr ∨ ∃ e, s'.tr = s.tr ++ [(t, e)]) ∧ s'.code = s.code := by
  cases i <;> simp only [exec] at h <;> (try split at h) <;> (try cases h) <;>
    first
    | exact ⟨.inl rfl, rfl⟩
    | exact ⟨.inr ⟨_, rfl⟩, rfl⟩

theorem get_snoc {tr : Trace} {x y : Tid × Ev} {i : Nat} (h : (tr ++ [x])[i]? = some y) : tr[i]? = some y ∨ i = tr.length ∧ y = x := by
  by_cases hi : i < tr.length
  · rw [List.getElem?_append_left hi] at h; exact .inl h
  · rw [List.getElem?_append_right (by omega)] at h
    have : i - tr.length = 0 := by
      have := (List.getElem?_eq_some_iff.mp h).1
      simp at this; omega
    rw [this] at h
    simp at h
    exact .inr ⟨by omega, h.symm⟩

theorem lock_keep {s s' : St} {t : Tid} {e : Ev} (hi : Inv s) (ho : s'.owner = s.owner)
    (ht : s'.tr = s.tr ∨ ∃ e, s'.tr = s.tr ++ [(t, e)] ∧ ∀ m, e ≠ Ev.unlock m) :
    ∀ m t, s'.owner m = some t → ∃ k : Nat, s'.tr[k]? = some (t, Ev.lock m) ∧ ∀ (u : Nat) t', s'.tr[u]? = some (t', Ev.unlock m) → u < k := by
  intro m t₁ hm
  rw [ho] at hm
  obtain ⟨k, hk, hl⟩ := hi.lock m t₁ hm
  rcases ht with ht | ⟨e, ht, hne⟩
  · rw [ht]; exact ⟨k, hk, hl⟩
  · rw [ht]
    refine ⟨k, get_mono hk, fun u t' hu => ?_⟩
    rcases get_snoc hu with h | ⟨_, h⟩
    · exact hl u t' h
    · cases h; exact absurd rfl (hne m)

theorem exec_lock {s s' : St} {t : Tid} {i : Instr} (hi : Inv s) (h : exec s t i = some s') :
    ∀ m t, s'.owner m = some t → ∃ k : Nat, s'.tr[k]? = some (t, Ev.lock m) ∧ ∀ (u : Nat) t', s'.tr[u]? = some (t', Ev.unlock m) → u < k := by
  cases i with
  | lock m =>
    simp only [exec] at h; split at h <;> cases h
    intro m' t' hm'
    show ∃ k : Nat, (s.tr ++ [(t, Ev.lock m)])[k]? = _ ∧ ∀ (u : Nat) t', (s.tr ++ [(t, Ev.lock m)])[u]? = _ → _
    have hm'' : upd s.owner m (some t) m' = some t' := hm'
    by_cases hx : m' = m
    · subst hx
      rw [upd_same] at hm''; cases hm''
      refine ⟨_, get_last _ _, fun u t' hu => ?_⟩
      rcases get_snoc hu with h | ⟨_, h⟩
      · exact lt_of_get h
      · cases h
    · rw [upd_ne _ _ hx] at hm''
      obtain ⟨k, hk, hl⟩ := hi.lock m' t' hm''
      refine ⟨k, get_mono hk, fun u t' hu => ?_⟩
      rcases get_snoc hu with h | ⟨_, h⟩
      · exact hl u t' h
      · cases h
  | unlock m =>
    simp only [exec] at h; split at h <;> cases h
    intro m' t' hm'
    show ∃ k : Nat, (s.tr ++ [(t, Ev.unlock m)])[k]? = _ ∧ ∀ (u : Nat) t', (s.tr ++ [(t, Ev.unlock m)])[u]? = _ → _
    have hm'' : upd s.owner m none m' = some t' := hm'
    by_cases hx : m' = m
    · subst hx
      rw [upd_same] at hm''; cases hm''
    · rw [upd_ne _ _ hx] at hm''
      obtain ⟨k, hk, hl⟩ := hi.lock m' t' hm''
      refine ⟨k, get_mono hk, fun u t' hu => ?_⟩
      rcases get_snoc hu with h | ⟨_, h⟩
      · exact hl u t' h
      · cases h; exact absurd rfl hx
  | _ =>
    simp only [exec] at h <;> (try split at h) <;> (try cases h) <;>
      first
      | exact lock_keep (t := t) (e := .send 0) hi rfl (.inl rfl)
      | exact lock_keep (t := t) (e := .send 0) hi rfl (.inr ⟨_, rfl, fun _ => by simp⟩)

theorem exec_code {s s' : St} {t : Tid} {i : Instr} {rest : List Instr} (hi : Inv s) (hc : s.code t = i :: rest)
    (h : exec s t i = some s') : ∀ t', Ok (fun m => decide (s'.owner m = some t')) (upd s'.code t rest t') := by
  have hok := hi.code t
  rw [hc] at hok
  obtain ⟨_, hrest⟩ := hok
  have key : ∀ t', (fun m => decide (s'.owner m = some t')) = if t' = t then i.after (s.held t) else s.held t' := by
    intro t'
    cases i with
    | lock m => simp only [exec] at h; split at h <;> cases h; exact held_lock (by assumption)
    | unlock m => simp only [exec] at h; split at h <;> cases h; exact held_unlock (by assumption)
    | _ =>
      simp only [exec] at h <;> (try split at h) <;> (try cases h) <;>
        (by_cases ht : t' = t
         · subst ht; simp only [if_true]; rfl
         · rw [if_neg ht]; rfl)
  intro t'
  rw [key, (exec_tr h).2]
  by_cases ht : t' = t
  · subst ht; rw [upd_same, if_pos rfl]; exact hrest
  · rw [upd_ne _ _ ht, if_neg ht]; exact hi.code t'

/-! ## Pointers -/

theorem has_keep {s s' : St} (h1 : s'.has = s.has) (h2 : s'.store = s.store) (h3 : s'.msgs = s.msgs) (p : Token) : s'.Has p ↔ s.Has p := by
  unfold St.Has; rw [h1, h2, h3]

/-- Where pointers come from. -/
theorem exec_has {s s' : St} {t : Tid} {i : Instr} (h : exec s t i = some s') (p : Token) (hp : s'.Has p) :
    s.Has p ∨ p ∈ s.raw t ∧ i = .ready p.1 p.2 ∨ ∃ a e, i = .snap a e p.2 ∧ p.1 = .part e := by
  cases i with
  | ready o g =>
    simp only [exec] at h; split at h <;> cases h
    rename_i hr
    rcases hp with ⟨t', hp⟩ | hp | hp
    · have hp : p ∈ upd s.has t ((o, g) :: s.has t) t' := hp
      by_cases ht : t' = t
      · subst ht; rw [upd_same] at hp
        rcases List.mem_cons.mp hp with rfl | hp
        · exact .inr (.inl ⟨hr, rfl⟩)
        · exact .inl (.inl ⟨t', hp⟩)
      · rw [upd_ne _ _ ht] at hp; exact .inl (.inl ⟨t', hp⟩)
    · exact .inl (.inr (.inl hp))
    · exact .inl (.inr (.inr hp))
  | snap a e g =>
    simp only [exec] at h; split at h <;> cases h
    rcases hp with ⟨t', hp⟩ | hp | hp
    · have hp : p ∈ upd s.has t ((.part e, g) :: s.has t) t' := hp
      by_cases ht : t' = t
      · subst ht; rw [upd_same] at hp
        rcases List.mem_cons.mp hp with rfl | hp
        · exact .inr (.inr ⟨a, e, rfl, rfl⟩)
        · exact .inl (.inl ⟨t', hp⟩)
      · rw [upd_ne _ _ ht] at hp; exact .inl (.inl ⟨t', hp⟩)
    · exact .inl (.inr (.inl hp))
    · exact .inl (.inr (.inr hp))
  | stash m q =>
    simp only [exec] at h; split at h <;> cases h
    rename_i hq
    rcases hp with hp | ⟨m', hp⟩ | hp
    · exact .inl (.inl hp)
    · have hp : p ∈ upd s.store m (q :: s.store m) m' := hp
      by_cases hm : m' = m
      · subst hm; rw [upd_same] at hp
        rcases List.mem_cons.mp hp with rfl | hp
        · exact .inl (.inl ⟨t, hq⟩)
        · exact .inl (.inr (.inl ⟨m', hp⟩))
      · rw [upd_ne _ _ hm] at hp; exact .inl (.inr (.inl ⟨m', hp⟩))
    · exact .inl (.inr (.inr hp))
  | fetch m q =>
    simp only [exec] at h; split at h <;> cases h
    rename_i hq
    rcases hp with ⟨t', hp⟩ | hp | hp
    · have hp : p ∈ upd s.has t (q :: s.has t) t' := hp
      by_cases ht : t' = t
      · subst ht; rw [upd_same] at hp
        rcases List.mem_cons.mp hp with rfl | hp
        · exact .inl (.inr (.inl ⟨m, hq⟩))
        · exact .inl (.inl ⟨t', hp⟩)
      · rw [upd_ne _ _ ht] at hp; exact .inl (.inl ⟨t', hp⟩)
    · exact .inl (.inr (.inl hp))
    · exact .inl (.inr (.inr hp))
  | drop m q =>
    simp only [exec] at h; split at h <;> cases h
    rename_i hq
    rcases hp with ⟨t', hp⟩ | ⟨m', hp⟩ | hp
    · have hp : p ∈ upd s.has t (q :: s.has t) t' := hp
      by_cases ht : t' = t
      · subst ht; rw [upd_same] at hp
        rcases List.mem_cons.mp hp with rfl | hp
        · exact .inl (.inr (.inl ⟨m, hq⟩))
        · exact .inl (.inl ⟨t', hp⟩)
      · rw [upd_ne _ _ ht] at hp; exact .inl (.inl ⟨t', hp⟩)
    · have hp : p ∈ upd s.store m ((s.store m).erase q) m' := hp
      by_cases hm : m' = m
      · subst hm; rw [upd_same] at hp
        exact .inl (.inr (.inl ⟨m', List.mem_of_mem_erase hp⟩))
      · rw [upd_ne _ _ hm] at hp; exact .inl (.inr (.inl ⟨m', hp⟩))
    · exact .inl (.inr (.inr hp))
  | send k ps =>
    simp only [exec] at h; split at h <;> cases h
    rename_i hq
    rcases hp with hp | hp | ⟨k', qs, hk, hp⟩
    · exact .inl (.inl hp)
    · exact .inl (.inr (.inl hp))
    · have hk : upd s.msgs k (some ps) k' = some qs := hk
      by_cases hkk : k' = k
      · subst hkk; rw [upd_same] at hk; cases hk; exact .inl (.inl ⟨t, hq.2 p hp⟩)
      · rw [upd_ne _ _ hkk] at hk; exact .inl (.inr (.inr ⟨k', qs, hk, hp⟩))
  | recv k ps =>
    simp only [exec] at h; split at h <;> cases h
    rename_i hq
    rcases hp with ⟨t', hp⟩ | hp | hp
    · have hp : p ∈ upd s.has t (ps ++ s.has t) t' := hp
      by_cases ht : t' = t
      · subst ht; rw [upd_same] at hp
        rcases List.mem_append.mp hp with hp | hp
        · exact .inl (.inr (.inr ⟨k, ps, hq, hp⟩))
        · exact .inl (.inl ⟨t', hp⟩)
      · rw [upd_ne _ _ ht] at hp; exact .inl (.inl ⟨t', hp⟩)
    · exact .inl (.inr (.inl hp))
    · exact .inl (.inr (.inr hp))
  | _ =>
    simp only [exec] at h <;> (try split at h) <;> (try cases h) <;> exact .inl hp

theorem le_upd {α : Type} [DecidableEq α] (f : α → Nat) (a : α) (n : Nat) (h : f a ≤ n) (x : α) : f x ≤ upd f a n x := by
  by_cases hx : x = a
  · subst hx; rw [upd_same]; exact h
  · rw [upd_ne _ _ hx]; exact Nat.le_refl _

theorem exec_gens {s s' : St} {t : Tid} {i : Instr} (h : exec s t i = some s') (o : Obj) : s.gens o ≤ s'.gens o := by
  cases i with
  | get o' g =>
    simp only [exec] at h; split at h <;> cases h
    rename_i hg
    exact le_upd _ _ _ (by omega) o
  | take a e =>
    simp only [exec] at h; split at h <;> cases h
    exact le_upd _ _ _ (by omega) o
  | _ => simp only [exec] at h <;> (try split at h) <;> (try cases h) <;> exact Nat.le_refl _

/-- The events are as they were, or a new one has begun. -/
theorem exec_parts {s s' : St} {t : Tid} {i : Instr} (h : exec s t i = some s') (e : Nat) :
    (s'.gens (.part e) = s.gens (.part e) ∧ (s.filled e = true → s'.filled e = true) ∧ (s'.home e = s.home e ∨ s'.home e = none)) ∨
      s.gens (.part e) < s'.gens (.part e) := by
  cases i with
  | get o' g =>
    simp only [exec] at h; split at h <;> cases h
    rename_i hg
    refine .inl ⟨?_, id, .inl rfl⟩
    show upd s.gens o' g (.part e) = _
    exact upd_ne _ _ (by rintro rfl; simp [Obj.isPart] at hg)
  | take a e' =>
    simp only [exec] at h; split at h <;> cases h
    by_cases he : e = e'
    · subst he
      refine .inr ?_
      show s.gens (.part e) < upd s.gens (.part e) _ (.part e)
      rw [upd_same]; omega
    · refine .inl ⟨upd_ne _ _ (by simpa using he), ?_, .inl (upd_ne _ _ he)⟩
      show _ → upd s.filled e' false e = true
      rw [upd_ne _ _ he]; exact id
  | putPart a e' =>
    simp only [exec] at h; split at h <;> cases h
    refine .inl ⟨rfl, id, ?_⟩
    show upd s.home e' none e = _ ∨ upd s.home e' none e = _
    by_cases he : e = e'
    · subst he; exact .inr (upd_same _ _ _)
    · exact .inl (upd_ne _ _ he)
  | fill a e' =>
    simp only [exec] at h; split at h <;> cases h
    refine .inl ⟨rfl, ?_, .inl rfl⟩
    show _ → upd s.filled e' true e = true
    by_cases he : e = e'
    · subst he; intro _; exact upd_same _ _ _
    · rw [upd_ne _ _ he]; exact id
  | _ => simp only [exec] at h <;> (try split at h) <;> (try cases h) <;> exact .inl ⟨rfl, id, .inl rfl⟩

theorem exec_tok {s s' : St} {t : Tid} {i : Instr} (hi : Inv s) (h : exec s t i = some s') (p : Token) (hp : s'.Has p) :
    1 ≤ p.2 ∧ p.2 ≤ s'.gens p.1 ∧ ∀ e, p.1 = .part e → p.2 = s'.gens p.1 → s'.filled e = true := by
  rcases exec_has h p hp with hp | ⟨hp, rfl⟩ | ⟨a, e, rfl, he⟩
  · obtain ⟨h1, h2, h3⟩ := hi.tok p hp
    refine ⟨h1, Nat.le_trans h2 (exec_gens h _), fun e he hg => ?_⟩
    rw [he] at hg h2 h3
    rcases exec_parts h e with ⟨hs, hf, _⟩ | hlt
    · exact hf (h3 e rfl (by rw [hg, hs]))
    · omega
  · obtain ⟨h1, h2, h3, _⟩ := hi.raw t p hp
    refine ⟨h2, Nat.le_trans h3 (exec_gens h _), fun e he => ?_⟩
    rw [he] at h1; simp [Obj.isPart] at h1
  · simp only [exec] at h; split at h <;> cases h
    rename_i hh
    have hg := (hi.home e a hh.1).1
    obtain ⟨o, g⟩ := p
    simp only at he hh ⊢
    subst he
    refine ⟨by omega, Nat.le_of_eq hh.2.2, fun e' he _ => ?_⟩
    cases he
    exact hh.2.1

theorem exec_rawTok {s s' : St} {t : Tid} {i : Instr} (hi : Inv s) (h : exec s t i = some s') (t₁ : Tid) (p : Token) (hp : p ∈ s'.raw t₁) :
    p.1.isPart = false ∧ 1 ≤ p.2 ∧ p.2 ≤ s'.gens p.1 ∧ ¬ s'.Has p ∧ ∀ t', p ∈ s'.raw t' → t' = t₁ := by
  have keep : s'.raw = s.raw → (∀ o g, i ≠ .ready o g) →
      p.1.isPart = false ∧ 1 ≤ p.2 ∧ p.2 ≤ s'.gens p.1 ∧ ¬ s'.Has p ∧ ∀ t', p ∈ s'.raw t' → t' = t₁ := by
    intro hr hn
    rw [hr] at hp ⊢
    obtain ⟨h1, h2, h3, h4, h5⟩ := hi.raw t₁ p hp
    refine ⟨h1, h2, Nat.le_trans h3 (exec_gens h _), fun hh => ?_, h5⟩
    rcases exec_has h p hh with hh | ⟨_, hh⟩ | ⟨a, e, _, he⟩
    · exact h4 hh
    · exact hn _ _ hh
    · rw [he] at h1; simp [Obj.isPart] at h1
  cases i with
  | get o g =>
    have h0 := h
    simp only [exec] at h; split at h <;> cases h
    rename_i hg
    have hp : p ∈ upd s.raw t ((o, g) :: s.raw t) t₁ := hp
    have old : ∀ t₂, p ∈ s.raw t₂ → p ≠ (o, g) := by
      rintro t₂ h' rfl
      have := (hi.raw t₂ _ h').2.2.1
      simp only at this; omega
    have nh : ¬ s.Has (o, g) := fun h' => by
      have := (hi.tok _ h').2.1
      simp only at this; omega
    by_cases hx : p = (o, g)
    · subst hx
      have ht : ∀ t₂, (o, g) ∈ upd s.raw t ((o, g) :: s.raw t) t₂ → t₂ = t := by
        intro t₂ h'
        by_cases ht : t₂ = t
        · exact ht
        · rw [upd_ne _ _ ht] at h'; exact absurd rfl (old t₂ h')
      refine ⟨hg.1, by simp only; omega, ?_, nh, fun t' h' => by rw [ht t' h', ht t₁ hp]⟩
      show g ≤ upd s.gens o g o
      rw [upd_same]; exact Nat.le_refl _
    · have ho : ∀ t₂, p ∈ upd s.raw t ((o, g) :: s.raw t) t₂ → p ∈ s.raw t₂ := by
        intro t₂ h'
        by_cases ht : t₂ = t
        · subst ht; rw [upd_same] at h'
          exact (List.mem_cons.mp h').resolve_left hx
        · rwa [upd_ne _ _ ht] at h'
      obtain ⟨h1, h2, h3, h4, h5⟩ := hi.raw t₁ p (ho t₁ hp)
      exact ⟨h1, h2, Nat.le_trans h3 (exec_gens h0 _), h4, fun t' h' => h5 t' (ho t' h')⟩
  | ready o g =>
    simp only [exec] at h; split at h <;> cases h
    rename_i hg
    have ho : ∀ t₂, p ∈ upd s.raw t ((s.raw t).filter (· ≠ (o, g))) t₂ → p ∈ s.raw t₂ ∧ (t₂ = t → p ≠ (o, g)) := by
      intro t₂ h'
      by_cases ht : t₂ = t
      · subst ht; rw [upd_same] at h'
        simp only [List.mem_filter, decide_eq_true_eq] at h'
        exact ⟨h'.1, fun _ => h'.2⟩
      · rw [upd_ne _ _ ht] at h'; exact ⟨h', fun e => absurd e ht⟩
    obtain ⟨hm, hne⟩ := ho t₁ hp
    obtain ⟨h1, h2, h3, h4, h5⟩ := hi.raw t₁ p hm
    have hne' : p ≠ (o, g) := by
      rintro rfl
      exact hne (h5 t hg).symm rfl
    refine ⟨h1, h2, h3, fun hh => ?_, fun t' h' => h5 t' (ho t' h').1⟩
    rcases hh with ⟨t', hh⟩ | hh | hh
    · have hh : p ∈ upd s.has t ((o, g) :: s.has t) t' := hh
      by_cases ht : t' = t
      · subst ht; rw [upd_same] at hh
        exact h4 (.inl ⟨t', (List.mem_cons.mp hh).resolve_left hne'⟩)
      · rw [upd_ne _ _ ht] at hh; exact h4 (.inl ⟨t', hh⟩)
    · exact h4 (.inr (.inl hh))
    · exact h4 (.inr (.inr hh))
  | _ =>
    refine keep ?_ (by simp)
    simp only [exec] at h <;> (try split at h) <;> (try cases h) <;> rfl

theorem exec_ring {s s' : St} {t : Tid} {i : Instr} (hi : Inv s) (h : exec s t i = some s') (r : Nat) :
    s'.gens (.ring r) ≤ 1 ∧ s'.pooled (.ring r) = false := by
  obtain ⟨h1, h2⟩ := hi.ring r
  cases i with
  | get o g =>
    simp only [exec] at h; split at h <;> cases h
    rename_i hg
    show upd s.gens o g (.ring r) ≤ 1 ∧ upd s.pooled o false (.ring r) = false
    by_cases ho : Obj.ring r = o
    · subst ho
      rw [upd_same, upd_same]
      have := hg.2.1
      simp only [St.available, h2, Bool.or_false, beq_iff_eq] at this
      exact ⟨by omega, rfl⟩
    · rw [upd_ne _ _ ho, upd_ne _ _ ho]; exact ⟨h1, h2⟩
  | take a e =>
    simp only [exec] at h; split at h <;> cases h
    show upd s.gens (.part e) (s.gens (.part e) + 1) (.ring r) ≤ 1 ∧ upd s.pooled (.part e) false (.ring r) = false
    rw [upd_ne _ _ (by simp), upd_ne _ _ (by simp)]; exact ⟨h1, h2⟩
  | putPart a e =>
    simp only [exec] at h; split at h <;> cases h
    refine ⟨h1, ?_⟩
    show upd s.pooled (.part e) true (.ring r) = false
    rw [upd_ne _ _ (by simp)]; exact h2
  | put a g =>
    simp only [exec] at h; split at h <;> cases h
    refine ⟨h1, ?_⟩
    show upd s.pooled (.trace a) true (.ring r) = false
    rw [upd_ne _ _ (by simp)]; exact h2
  | _ => simp only [exec] at h <;> (try split at h) <;> (try cases h) <;> exact ⟨h1, h2⟩

theorem exec_home {s s' : St} {t : Tid} {i : Instr} (hi : Inv s) (h : exec s t i = some s') (e a : Nat) (he : s'.home e = some a) :
    1 ≤ s'.gens (.part e) ∧ s'.pooled (.part e) = false := by
  have old := hi.home e a
  cases i with
  | get o g =>
    simp only [exec] at h; split at h <;> cases h
    rename_i hg
    show 1 ≤ upd s.gens o g _ ∧ upd s.pooled o false _ = false
    have : Obj.part e ≠ o := by rintro rfl; simp [Obj.isPart] at hg
    rw [upd_ne _ _ this, upd_ne _ _ this]; exact old he
  | take a' e' =>
    simp only [exec] at h; split at h <;> cases h
    have he : upd s.home e' (some a') e = some a := he
    show 1 ≤ upd s.gens _ _ _ ∧ upd s.pooled _ false _ = false
    by_cases hx : e = e'
    · subst hx; rw [upd_same, upd_same]; exact ⟨by omega, rfl⟩
    · rw [upd_ne _ _ hx] at he
      rw [upd_ne _ _ (by simpa using hx), upd_ne _ _ (by simpa using hx)]; exact old he
  | putPart a' e' =>
    simp only [exec] at h; split at h <;> cases h
    have he : upd s.home e' none e = some a := he
    by_cases hx : e = e'
    · subst hx; rw [upd_same] at he; cases he
    · rw [upd_ne _ _ hx] at he
      refine ⟨(old he).1, ?_⟩
      show upd s.pooled _ true _ = false
      rw [upd_ne _ _ (by simpa using hx)]; exact (old he).2
  | put a' g =>
    simp only [exec] at h; split at h <;> cases h
    refine ⟨(old he).1, ?_⟩
    show upd s.pooled (.trace a') true (.part e) = false
    rw [upd_ne _ _ (by simp)]; exact (old he).2
  | _ => simp only [exec] at h <;> (try split at h) <;> (try cases h) <;> exact old he

/-! ## Knowledge is kept -/

theorem exec_pre {s s' : St} {t : Tid} {i : Instr} (h : exec s t i = some s') : ∃ ys, s'.tr = s.tr ++ ys := by
  rcases (exec_tr h).1 with h | ⟨e, h⟩
  · exact ⟨[], by rw [h, List.append_nil]⟩
  · exact ⟨_, h⟩

theorem exec_knows {s s' : St} {t t' : Tid} {i : Instr} {n : Nat} (h : exec s t i = some s') (k : Knows s.tr n t') : Knows s'.tr n t' := by
  obtain ⟨ys, h⟩ := exec_pre h
  rw [h]; exact k.mono

theorem exec_until {s s' : St} {t : Tid} {i : Instr} {n : Nat} {e : Ev} (h : exec s t i = some s') (k : Until s.tr n e) : Until s'.tr n e := by
  obtain ⟨ys, h⟩ := exec_pre h
  rw [h]; exact k.mono

theorem exec_safe {s s' : St} {t : Tid} {i : Instr} {n : Nat} {m : Lock} (h : exec s t i = some s') (k : Safe s n m) : Safe s' n m := by
  rcases k with ⟨t', ho, k⟩ | k
  · cases i with
    | lock m' =>
      have h0 := h
      simp only [exec] at h; split at h <;> cases h
      rename_i hn
      refine .inl ⟨t', ?_, exec_knows h0 k⟩
      show upd s.owner m' (some t) m = some t'
      rw [upd_ne]
      · exact ho
      · rintro rfl; rw [hn] at ho; cases ho
    | unlock m' =>
      have h0 := h
      simp only [exec] at h; split at h <;> cases h
      rename_i hn
      by_cases hm : m = m'
      · subst hm
        rw [hn] at ho; cases ho
        exact .inr (k.until _)
      · refine .inl ⟨t', ?_, exec_knows h0 k⟩
        show upd s.owner m' none m = some t'
        rw [upd_ne _ _ hm]; exact ho
    | _ =>
      refine .inl ⟨t', ?_, exec_knows h k⟩
      simp only [exec] at h <;> (try split at h) <;> (try cases h) <;> exact ho
  · exact .inr (exec_until h k)

theorem exec_every {s s' : St} {t : Tid} {i : Instr} {rest : List Instr} {n : Nat} {p : Token} (hi : Inv s) (hc : s.code t = i :: rest)
    (h : exec s t i = some s') (hg : p.2 ≤ s.gens p.1)
    (hs : ∀ e a, p.1 = .part e → p.2 = s.gens p.1 → s.home e = some a → Safe s n (.trace a))
    (k : Everyone s n p) : Everyone s' n p := by
  have hok := hi.code t
  rw [hc] at hok
  have hok := hok.1
  have kk : ∀ t', Knows s.tr n t' → Knows s'.tr n t' := fun t' => exec_knows h
  have ku : ∀ e, Until s.tr n e → Until s'.tr n e := fun e => exec_until h
  have ks : ∀ m, Safe s n m → Safe s' n m := fun m => exec_safe h
  have h0 := h
  -- a goroutine that gets the pointer must know the operation
  have newHas : ∀ (qs : List Token), s'.has = upd s.has t (qs ++ s.has t) → (p ∈ qs → Knows s'.tr n t) →
      ∀ t', p ∈ s'.has t' → Knows s'.tr n t' := by
    intro qs he hq t' hp
    rw [he] at hp
    by_cases ht : t' = t
    · subst ht; rw [upd_same] at hp
      rcases List.mem_append.mp hp with hp | hp
      · exact hq hp
      · exact kk _ (k.has _ hp)
    · rw [upd_ne _ _ ht] at hp; exact kk _ (k.has _ hp)
  cases i with
  | get o g =>
    simp only [exec] at h; split at h <;> cases h
    rename_i hg'
    refine ⟨fun t' hp => kk _ (k.has _ hp), fun t' hp => ?_, fun m hp => ks _ (k.store _ hp), fun j ps hj hp => ku _ (k.msgs j ps hj hp)⟩
    have hp : p ∈ upd s.raw t ((o, g) :: s.raw t) t' := hp
    by_cases ht : t' = t
    · subst ht; rw [upd_same] at hp
      rcases List.mem_cons.mp hp with rfl | hp
      · simp only at hg; omega
      · exact kk _ (k.raw _ hp)
    · rw [upd_ne _ _ ht] at hp; exact kk _ (k.raw _ hp)
  | ready o g =>
    simp only [exec] at h; split at h <;> cases h
    rename_i hr
    refine ⟨newHas [(o, g)] rfl fun hp => ?_, fun t' hp => ?_, fun m hp => ks _ (k.store _ hp), fun j ps hj hp => ku _ (k.msgs j ps hj hp)⟩
    · rw [List.mem_singleton] at hp; subst hp; exact kk _ (k.raw _ hr)
    · have hp : p ∈ upd s.raw t ((s.raw t).filter (· ≠ (o, g))) t' := hp
      by_cases ht : t' = t
      · subst ht; rw [upd_same] at hp; exact kk _ (k.raw _ (List.mem_filter.mp hp).1)
      · rw [upd_ne _ _ ht] at hp; exact kk _ (k.raw _ hp)
  | snap a e g =>
    simp only [exec] at h; split at h <;> cases h
    rename_i hh
    refine ⟨newHas [(.part e, g)] rfl fun hp => ?_, fun t' hp => kk _ (k.raw _ hp), fun m hp => ks _ (k.store _ hp),
      fun j ps hj hp => ku _ (k.msgs j ps hj hp)⟩
    rw [List.mem_singleton] at hp; subst hp
    exact kk _ ((hs e a rfl hh.2.2 hh.1).owner hi (held_owner hok))
  | stash m q =>
    simp only [exec] at h; split at h <;> cases h
    rename_i hq
    refine ⟨fun t' hp => kk _ (k.has _ hp), fun t' hp => kk _ (k.raw _ hp), fun m' hp => ?_, fun j ps hj hp => ku _ (k.msgs j ps hj hp)⟩
    have hp : p ∈ upd s.store m (q :: s.store m) m' := hp
    by_cases hm : m' = m
    · subst hm; rw [upd_same] at hp
      rcases List.mem_cons.mp hp with rfl | hp
      · exact .inl ⟨t, held_owner hok, kk _ (k.has _ hq)⟩
      · exact ks _ (k.store _ hp)
    · rw [upd_ne _ _ hm] at hp; exact ks _ (k.store _ hp)
  | fetch m q =>
    simp only [exec] at h; split at h <;> cases h
    rename_i hq
    refine ⟨newHas [q] rfl fun hp => ?_, fun t' hp => kk _ (k.raw _ hp), fun m hp => ks _ (k.store _ hp),
      fun j ps hj hp => ku _ (k.msgs j ps hj hp)⟩
    rw [List.mem_singleton] at hp; subst hp
    exact kk _ ((k.store _ hq).owner hi (held_owner hok))
  | drop m q =>
    simp only [exec] at h; split at h <;> cases h
    rename_i hq
    refine ⟨newHas [q] rfl fun hp => ?_, fun t' hp => kk _ (k.raw _ hp), fun m' hp => ?_, fun j ps hj hp => ku _ (k.msgs j ps hj hp)⟩
    · rw [List.mem_singleton] at hp; subst hp
      exact kk _ ((k.store _ hq).owner hi (held_owner hok))
    · have hp : p ∈ upd s.store m ((s.store m).erase q) m' := hp
      by_cases hm : m' = m
      · subst hm; rw [upd_same] at hp; exact ks _ (k.store _ (List.mem_of_mem_erase hp))
      · rw [upd_ne _ _ hm] at hp; exact ks _ (k.store _ hp)
  | send j qs =>
    simp only [exec] at h; split at h <;> cases h
    rename_i hq
    refine ⟨fun t' hp => kk _ (k.has _ hp), fun t' hp => kk _ (k.raw _ hp), fun m hp => ks _ (k.store _ hp), fun j' ps hj hp => ?_⟩
    have hj : upd s.msgs j (some qs) j' = some ps := hj
    by_cases he : j' = j
    · subst he; rw [upd_same] at hj; cases hj
      exact (k.has _ (hq.2 p hp)).until _
    · rw [upd_ne _ _ he] at hj; exact ku _ (k.msgs j' ps hj hp)
  | recv j qs =>
    simp only [exec] at h; split at h <;> cases h
    rename_i hq
    refine ⟨newHas qs rfl fun hp => ?_, fun t' hp => kk _ (k.raw _ hp), fun m hp => ks _ (k.store _ hp),
      fun j ps hj hp => ku _ (k.msgs j ps hj hp)⟩
    exact (k.msgs j qs hq hp).now (by simp [synchronizes])
  | _ =>
    simp only [exec] at h <;> (try split at h) <;> (try cases h) <;>
      exact ⟨fun t' hp => kk _ (k.has _ hp), fun t' hp => kk _ (k.raw _ hp), fun m hp => ks _ (k.store _ hp),
        fun j ps hj hp => ku _ (k.msgs j ps hj hp)⟩

theorem exec_rawK {s s' : St} {t t' : Tid} {i : Instr} {p : Token} (h : exec s t i = some s') (hg : p.2 ≤ s.gens p.1)
    (hp : p ∈ s'.raw t') : p ∈ s.raw t' := by
  cases i with
  | get o g =>
    simp only [exec] at h; split at h <;> cases h
    have hp : p ∈ upd s.raw t ((o, g) :: s.raw t) t' := hp
    by_cases ht : t' = t
    · subst ht; rw [upd_same] at hp
      rcases List.mem_cons.mp hp with rfl | hp
      · simp only at hg; omega
      · exact hp
    · rwa [upd_ne _ _ ht] at hp
  | ready o g =>
    simp only [exec] at h; split at h <;> cases h
    have hp : p ∈ upd s.raw t ((s.raw t).filter (· ≠ (o, g))) t' := hp
    by_cases ht : t' = t
    · subst ht; rw [upd_same] at hp; exact (List.mem_filter.mp hp).1
    · rwa [upd_ne _ _ ht] at hp
  | _ => simp only [exec] at h <;> (try split at h) <;> (try cases h) <;> exact hp

theorem exec_part {s s' : St} {t : Tid} {i : Instr} {rest : List Instr} {n e : Nat} {w : Bool} {g : Nat} (hi : Inv s)
    (hc : s.code t = i :: rest) (h : exec s t i = some s') (k : Covered s n w (.part e) g) : Covered s' n w (.part e) g := by
  have hok := hi.code t
  rw [hc] at hok
  have hok := hok.1
  obtain ⟨k1, k2, k3⟩ := k
  have hg := Nat.le_trans k1 (exec_gens h (.part e))
  have ku : ∀ e, Until s.tr n e → Until s'.tr n e := fun e => exec_until h
  have ks : ∀ m, Safe s n m → Safe s' n m := fun m => exec_safe h
  refine ⟨hg, ?_⟩
  cases i with
  | get o g =>
    simp only [exec] at h; split at h <;> cases h
    rename_i hg'
    refine ⟨fun a ha => ks _ (k2 a ha), fun hp => ?_⟩
    have hp : upd s.pooled o false (.part e) = true := hp
    rw [upd_ne _ _ (by rintro rfl; simp [Obj.isPart] at hg')] at hp
    exact ku _ (k3 hp)
  | take a' e' =>
    simp only [exec] at h; split at h <;> cases h
    rename_i hav
    show (∀ a, upd s.home e' (some a') e = some a → _) ∧ (upd s.pooled (.part e') false (.part e) = true → _)
    by_cases he : e = e'
    · subst he
      rw [upd_same, upd_same]
      refine ⟨fun a ha => ?_, by simp⟩
      cases ha
      have : s.pooled (.part e) = true := by
        simp only [St.available, Bool.or_eq_true, beq_iff_eq] at hav
        rcases hav with hav | hav
        · omega
        · exact hav
      exact .inl ⟨t, held_owner hok, (k3 this).now (by simp [synchronizes])⟩
    · rw [upd_ne _ _ he, upd_ne _ _ (by simpa using he)]
      exact ⟨fun a ha => ks _ (k2 a ha), fun hp => ku _ (k3 hp)⟩
  | putPart a' e' =>
    simp only [exec] at h; split at h <;> cases h
    rename_i hh
    show (∀ a, upd s.home e' none e = some a → _) ∧ (upd s.pooled (.part e') true (.part e) = true → _)
    by_cases he : e = e'
    · subst he
      rw [upd_same, upd_same]
      exact ⟨by simp, fun _ => ((k2 a' hh).owner hi (held_owner hok)).until _⟩
    · rw [upd_ne _ _ he, upd_ne _ _ (by simpa using he)]
      exact ⟨fun a ha => ks _ (k2 a ha), fun hp => ku _ (k3 hp)⟩
  | put a' g =>
    simp only [exec] at h; split at h <;> cases h
    refine ⟨fun a ha => ks _ (k2 a ha), fun hp => ?_⟩
    have hp : upd s.pooled (.trace a') true (.part e) = true := hp
    rw [upd_ne _ _ (by simp)] at hp
    exact ku _ (k3 hp)
  | _ =>
    simp only [exec] at h <;> (try split at h) <;> (try cases h) <;>
      exact ⟨fun a ha => ks _ (k2 a ha), fun hp => ku _ (k3 hp)⟩

/-- What is known of earlier accesses is known after an operation. -/
theorem exec_covered {s s' : St} {t : Tid} {i : Instr} {rest : List Instr} {n : Nat} {w : Bool} {l : Loc} {g : Nat} (hi : Inv s)
    (hc : s.code t = i :: rest) (h : exec s t i = some s') (k : Covered s n w l g) : Covered s' n w l g := by
  have noPart : ∀ {p : Token}, p.1.isPart = false →
      ∀ e a, p.1 = .part e → p.2 = s.gens p.1 → s.home e = some a → Safe s n (.trace a) := by
    intro p hp e a he
    rw [he] at hp; simp [Obj.isPart] at hp
  cases l with
  | imm a =>
    obtain ⟨k1, k2, k3, k4⟩ := k
    exact ⟨k1, Nat.le_trans k2 (exec_gens h _), fun t' hp => exec_knows h (k3 t' (exec_rawK h k2 hp)),
      fun hw => exec_every hi hc h k2 (noPart rfl) (k4 hw)⟩
  | var a =>
    obtain ⟨k1, k2, k3, k4⟩ := k
    exact ⟨k1, Nat.le_trans k2 (exec_gens h _), fun t' hp => exec_knows h (k3 t' (exec_rawK h k2 hp)),
      k4.elim (fun k => .inl (exec_every hi hc h k2 (noPart rfl) k)) fun k => .inr (exec_safe h k)⟩
  | ring r =>
    obtain ⟨k1, k2, k3, k4⟩ := k
    exact ⟨k1, Nat.le_trans k2 (exec_gens h _), fun t' hp => exec_knows h (k3 t' (exec_rawK h k2 hp)),
      k4.elim (fun k => .inl (exec_every hi hc h k2 (noPart rfl) k)) fun k => .inr (exec_safe h k)⟩
  | set j => exact exec_safe h k
  | broker b => exact exec_safe h k
  | part e => exact exec_part hi hc h k
  | frames e =>
    obtain ⟨k1, k2, k3, k4⟩ := k
    refine ⟨k1, Nat.le_trans k2 (exec_gens h _), ?_, fun hw => ⟨?_, ?_⟩⟩
    · rcases exec_parts h e with ⟨hs, hf, _⟩ | hlt
      · rw [hs]; exact fun hg => hf (k3 hg)
      · omega
    · refine exec_every hi hc h k2 (fun e' a he hg ha => ?_) (k4 hw).1
      cases he
      exact (k4 hw).2 hg a ha
    · rcases exec_parts h e with ⟨hs, hf, hh⟩ | hlt
      · rw [hs]
        intro hg a ha
        rcases hh with hh | hh
        · rw [hh] at ha; exact exec_safe h ((k4 hw).2 hg a ha)
        · rw [hh] at ha; cases ha
      · omega
  | args p => trivial

/-! ## New accesses -/

theorem usable_token {s : St} {t : Tid} {l : Loc} {p : Token} (h : s.usable t l (some p) = true) : l.obj = some p.1 ∧ p ∈ s.has t := by
  simpa [St.usable] using h

/-- Whoever makes an access knows the earlier ones. -/
theorem acc_knows {s s' : St} {t : Tid} {i : Instr} {rest : List Instr} (hi : Inv s) (hc : s.code t = i :: rest) (h : exec s t i = some s')
    {w : Bool} {l : Loc} {g : Nat} (he : s'.tr = s.tr ++ [(t, .acc w l g)]) {n : Nat} {t₀ : Tid} {w₀ : Bool} {g₀ : Nat}
    (h₀ : s.tr[n]? = some (t₀, .acc w₀ l g₀)) (hw : w₀ = true ∨ w = true) (hcomp : Comparable l g₀ g) : Knows s.tr n t := by
  have hok := hi.code t
  rw [hc] at hok
  have hok := hok.1
  have hcov := hi.acc _ _ _ _ _ h₀
  cases i with
  | init l' o g' =>
    simp only [exec] at h; split at h <;> cases h
    rename_i hl
    have he : Ev.acc true l' g' = .acc w l g := by simpa [St.emit] using he
    cases he
    obtain ⟨ho, hr⟩ := hl
    have hraw := hi.raw _ _ hr
    cases l with
    | imm a => cases ho; cases hcomp; exact hcov.2.2.1 t hr
    | var a => cases ho; cases hcomp; exact hcov.2.2.1 t hr
    | ring r =>
      cases ho
      have : g₀ = g := by
        have h1 := (hi.ring r).1
        have h2 := hcov.1
        have h3 := hcov.2.1
        have h4 := hraw.2.1
        have h5 := hraw.2.2.1
        simp only at h4 h5
        omega
      subst this
      exact hcov.2.2.1 t hr
    | frames e => cases ho; have := hraw.1; simp [Obj.isPart] at this
    | part e => simp [Loc.obj] at ho
    | set j => simp [Loc.obj] at ho
    | broker b => simp [Loc.obj] at ho
    | args p => simp [Loc.obj] at ho
  | acc w' l' p =>
    simp only [exec] at h; split at h <;> cases h
    rename_i hu
    have he : Ev.acc w' l' (genOf p) = .acc w l g := by simpa [St.emit] using he
    cases he
    cases p with
    | none =>
      cases l with
      | set j => exact hcov.owner hi (held_owner hok)
      | broker b => exact hcov.owner hi (held_owner hok)
      | _ => simp [St.usable] at hu
    | some p =>
      obtain ⟨ho, hp⟩ := usable_token hu
      obtain ⟨o, g'⟩ := p
      have htok := hi.tok _ (.inl ⟨t, hp⟩)
      cases l with
      | imm a =>
        cases ho; cases hcomp
        have : w = false := hok
        exact (hcov.2.2.2 (by simpa [this] using hw)).has t hp
      | var a =>
        cases ho; cases hcomp
        rcases hcov.2.2.2 with k | k
        · exact k.has t hp
        · exact k.owner hi (held_owner hok)
      | ring r =>
        cases ho
        have : g₀ = g' := by
          have h1 := (hi.ring r).1
          have h2 := hcov.1
          have h3 := hcov.2.1
          have h4 := htok.1
          have h5 := htok.2.1
          simp only at h4 h5
          omega
        subst this
        rcases hcov.2.2.2 with k | k
        · exact k.has t hp
        · exact k.owner hi (held_owner hok)
      | frames e =>
        cases ho; cases hcomp
        have : w = false := hok
        exact (hcov.2.2.2 (by simpa [this] using hw)).1.has t hp
      | part e => simp [Loc.obj] at ho
      | set j => simp [Loc.obj] at ho
      | broker b => simp [Loc.obj] at ho
      | args p => simp [Loc.obj] at ho
  | accPart w' a e =>
    simp only [exec] at h; split at h <;> cases h
    rename_i hh
    have he : Ev.acc w' (.part e) 0 = .acc w l g := by simpa [St.emit] using he
    cases he
    exact (hcov.2.1 a hh).owner hi (held_owner hok)
  | fill a e =>
    simp only [exec] at h; split at h <;> cases h
    rename_i hh
    have he : Ev.acc true (.frames e) (s.gens (.part e)) = .acc w l g := by simpa [St.emit] using he
    cases he
    cases hcomp
    have := hcov.2.2.1 rfl
    rw [hh.2] at this; cases this
  | append p =>
    simp only [exec] at h; cases h
    have he : Ev.acc true (.args p) 0 = .acc w l g := by simpa [St.emit] using he
    cases he
    cases hcomp
  | _ =>
    simp only [exec] at h <;> (try split at h) <;> (try cases h) <;> simp [St.emit] at he

/-- What is known of a new access. -/
theorem acc_covered {s s' : St} {t : Tid} {i : Instr} {rest : List Instr} (hi : Inv s) (hc : s.code t = i :: rest) (h : exec s t i = some s')
    {w : Bool} {l : Loc} {g : Nat} (he : s'.tr = s.tr ++ [(t, .acc w l g)]) : Covered s' s.tr.length w l g := by
  have hok := hi.code t
  rw [hc] at hok
  have hok := hok.1
  cases i with
  | init l' o g' =>
    simp only [exec] at h; split at h <;> cases h
    rename_i hl
    have he : Ev.acc true l' g' = .acc w l g := by simpa [St.emit] using he
    cases he
    obtain ⟨ho, hr⟩ := hl
    obtain ⟨r1, r2, r3, r4, r5⟩ := hi.raw _ _ hr
    have own : ∀ t', (o, g) ∈ s.raw t' → Knows (s.tr ++ [(t, Ev.acc true l g)]) s.tr.length t' := fun t' h' => by
      rw [r5 t' h']; exact knows_own _ _ _
    have ev : Everyone (s.emit t (.acc true l g)) s.tr.length (o, g) :=
      ⟨fun t' h' => absurd (.inl ⟨t', h'⟩) r4, own, fun m h' => absurd (.inr (.inl ⟨m, h'⟩)) r4,
        fun k ps hk h' => absurd (.inr (.inr ⟨k, ps, hk, h'⟩)) r4⟩
    cases l with
    | imm a => cases ho; exact ⟨r2, r3, own, fun _ => ev⟩
    | var a => cases ho; exact ⟨r2, r3, own, .inl ev⟩
    | ring r => cases ho; exact ⟨r2, r3, own, .inl ev⟩
    | frames e => cases ho; simp [Obj.isPart] at r1
    | part e => simp [Loc.obj] at ho
    | set j => simp [Loc.obj] at ho
    | broker b => simp [Loc.obj] at ho
    | args p => simp [Loc.obj] at ho
  | acc w' l' p =>
    simp only [exec] at h; split at h <;> cases h
    rename_i hu
    have he : Ev.acc w' l' (genOf p) = .acc w l g := by simpa [St.emit] using he
    cases he
    cases p with
    | none =>
      cases l with
      | set j => exact .inl ⟨t, held_owner hok, knows_own _ _ _⟩
      | broker b => exact .inl ⟨t, held_owner hok, knows_own _ _ _⟩
      | _ => simp [St.usable] at hu
    | some p =>
      obtain ⟨ho, hp⟩ := usable_token hu
      obtain ⟨o, g'⟩ := p
      have hh : s.Has (o, g') := .inl ⟨t, hp⟩
      obtain ⟨h1, h2, h3⟩ := hi.tok _ hh
      have own : ∀ tr t', (o, g') ∈ s.raw t' → Knows tr s.tr.length t' := fun tr t' h' => absurd hh (hi.raw _ _ h').2.2.2.1
      cases l with
      | imm a =>
        cases ho
        have : w = false := hok
        exact ⟨h1, h2, own _, by simp [this]⟩
      | var a => cases ho; exact ⟨h1, h2, own _, .inr (.inl ⟨t, held_owner hok, knows_own _ _ _⟩)⟩
      | ring r => cases ho; exact ⟨h1, h2, own _, .inr (.inl ⟨t, held_owner hok, knows_own _ _ _⟩)⟩
      | frames e =>
        cases ho
        have : w = false := hok
        exact ⟨h1, h2, h3 e rfl, by simp [this]⟩
      | part e => simp [Loc.obj] at ho
      | set j => simp [Loc.obj] at ho
      | broker b => simp [Loc.obj] at ho
      | args p => simp [Loc.obj] at ho
  | accPart w' a e =>
    simp only [exec] at h; split at h <;> cases h
    rename_i hh
    have he : Ev.acc w' (.part e) 0 = .acc w l g := by simpa [St.emit] using he
    cases he
    obtain ⟨h1, h2⟩ := hi.home e a hh
    refine ⟨h1, fun a' ha => ?_, fun hp => ?_⟩
    · have ha : s.home e = some a' := ha
      rw [hh] at ha; cases ha
      exact .inl ⟨t, held_owner hok, knows_own _ _ _⟩
    · have hp : s.pooled (.part e) = true := hp
      rw [h2] at hp; cases hp
  | fill a e =>
    simp only [exec] at h; split at h <;> cases h
    rename_i hh
    have he : Ev.acc true (.frames e) (s.gens (.part e)) = .acc w l g := by simpa [St.emit] using he
    cases he
    obtain ⟨h1, h2⟩ := hi.home e a hh.1
    have no : ¬ s.Has (.part e, s.gens (.part e)) := fun h' => by
      have := (hi.tok _ h').2.2 e rfl rfl
      rw [hh.2] at this; cases this
    refine ⟨h1, Nat.le_refl _, fun _ => upd_same _ _ _, fun _ => ⟨⟨fun t' h' => absurd (.inl ⟨t', h'⟩) no, fun t' h' => ?_,
      fun m h' => absurd (.inr (.inl ⟨m, h'⟩)) no, fun k ps hk h' => absurd (.inr (.inr ⟨k, ps, hk, h'⟩)) no⟩, fun _ a' ha => ?_⟩⟩
    · have := (hi.raw _ _ h').1
      simp [Obj.isPart] at this
    · have ha : s.home e = some a' := ha
      rw [hh.1] at ha; cases ha
      exact .inl ⟨t, held_owner hok, knows_own _ _ _⟩
  | append p =>
    simp only [exec] at h; cases h
    have he : Ev.acc true (.args p) 0 = .acc w l g := by simpa [St.emit] using he
    cases he
    trivial
  | _ =>
    simp only [exec] at h <;> (try split at h) <;> (try cases h) <;> simp [St.emit] at he

theorem Everyone.code {s : St} {n : Nat} {p : Token} (c : Tid → List Instr) (k : Everyone s n p) : Everyone { s with code := c } n p :=
  ⟨k.has, k.raw, k.store, k.msgs⟩

theorem covered_code {s : St} {n : Nat} {w : Bool} {l : Loc} {g : Nat} (c : Tid → List Instr) (k : Covered s n w l g) :
    Covered { s with code := c } n w l g := by
  cases l with
  | imm a => exact ⟨k.1, k.2.1, k.2.2.1, fun hw => (k.2.2.2 hw).code c⟩
  | var a => exact ⟨k.1, k.2.1, k.2.2.1, k.2.2.2.imp (·.code c) id⟩
  | ring r => exact ⟨k.1, k.2.1, k.2.2.1, k.2.2.2.imp (·.code c) id⟩
  | frames e => exact ⟨k.1, k.2.1, k.2.2.1, fun hw => ⟨(k.2.2.2 hw).1.code c, (k.2.2.2 hw).2⟩⟩
  | _ => exact k

theorem Inv.run {s s' : St} {t : Tid} {i : Instr} {rest : List Instr} (hi : Inv s) (hc : s.code t = i :: rest) (h : exec s t i = some s') :
    Inv { s' with code := upd s'.code t rest } where
  lock := fun m t' ho => exec_lock hi h m t' ho
  code := exec_code hi hc h
  tok := fun p hp => exec_tok hi h p hp
  raw := fun t' p hp => exec_rawTok hi h t' p hp
  ring := fun r => exec_ring hi h r
  home := fun e a he => exec_home hi h e a he
  acc := by
    intro n t' w l g hn
    apply covered_code
    have hn : s'.tr[n]? = _ := hn
    rcases (exec_tr h).1 with ht | ⟨e, ht⟩
    · rw [ht] at hn; exact exec_covered hi hc h (hi.acc _ _ _ _ _ hn)
    · have hn' := hn
      rw [ht] at hn'
      rcases get_snoc hn' with hn' | ⟨rfl, he⟩
      · exact exec_covered hi hc h (hi.acc _ _ _ _ _ hn')
      · cases he; exact acc_covered hi hc h ht
  ordered := by
    intro n m t₁ t₂ w w' l g g' hn hm hlt hw hcomp
    have hn : s'.tr[n]? = _ := hn
    have hm : s'.tr[m]? = _ := hm
    show HB s'.tr n m
    rcases (exec_tr h).1 with ht | ⟨e, ht⟩
    · rw [ht] at hn hm ⊢; exact hi.ordered n m _ _ _ _ _ _ _ hn hm hlt hw hcomp
    · rw [ht] at hn hm
      rcases get_snoc hm with hm | ⟨rfl, he⟩
      · rcases get_snoc hn with hn | ⟨rfl, _⟩
        · rw [ht]; exact (hi.ordered n m _ _ _ _ _ _ _ hn hm hlt hw hcomp).mono
        · have := lt_of_get hm; omega
      · rcases get_snoc hn with hn₀ | ⟨rfl, _⟩
        · cases he
          have := (acc_knows hi hc h ht hn₀ hw hcomp).now (e := .acc w' l g')
          rwa [ht]
        · omega

theorem inv_init : Inv {} where
  lock := by intro m t h; cases h
  code := fun _ _ => rfl
  tok := by rintro p (⟨t, h⟩ | ⟨m, h⟩ | ⟨k, ps, h, _⟩) <;> cases h
  raw := by intro t p h; cases h
  ring := fun _ => ⟨Nat.zero_le _, rfl⟩
  home := by intro e a h; cases h
  acc := by intro i t w l g h; simp at h
  ordered := by intro i j t t' w w' l g g' h; simp at h

theorem Inv.call {s : St} {t : Tid} (hi : Inv s) (c : Call) (hc : s.code t = []) : Inv { s with code := upd s.code t c.code } where
  lock := hi.lock
  code := by
    intro t'
    show Ok (s.held t') (upd s.code t c.code t')
    by_cases ht : t' = t
    · subst ht
      have h0 := hi.code t'
      rw [hc] at h0
      have h0 : ∀ m, s.held t' m = false := h0
      have : s.held t' = free := funext h0
      rw [upd_same, this]
      have := fits_call c [] fun _ => rfl
      rwa [List.append_nil] at this
    · rw [upd_ne _ _ ht]; exact hi.code t'
  tok := hi.tok
  raw := hi.raw
  ring := hi.ring
  home := hi.home
  acc := fun i t w l g h => covered_code _ (hi.acc i t w l g h)
  ordered := hi.ordered

theorem inv_reach {s : St} (h : Reach s) : Inv s := by
  induction h with
  | init => exact inv_init
  | step _ hs ih =>
    cases hs with
    | call t c hc => exact ih.call c hc
    | run t i rest hc he => exact ih.run hc he

end Trc.Race
