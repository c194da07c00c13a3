import Verif.Search.Shared
import Verif.Props.Filter

/-!
# C97: a request that many searchers use at once
-/

set_option linter.unusedVariables false
set_option linter.unusedSimpArgs false

namespace Trc.Shared

theorem set_same {β : Type} (f : Nat → β) (a : Nat) (b : β) : set f a b a = b := by simp [set]
theorem set_ne {β : Type} (f : Nat → β) {a x : Nat} (b : β) (h : x ≠ a) : set f a b x = f x := by simp [set, h]

theorem inOrder_iff (l : List Duration) : inOrder l = true ↔ l.Pairwise (· ≤ ·) := by
  induction l with
  | nil => simp [inOrder]
  | cons x l ih =>
    cases l with
    | nil => simp [inOrder]
    | cons y l =>
      simp only [inOrder, Bool.and_eq_true, decide_eq_true_eq, ih]
      constructor
      · rintro ⟨h1, h2⟩
        refine List.pairwise_cons.mpr ⟨fun z hz => ?_, h2⟩
        rcases List.mem_cons.mp hz with rfl | hz
        · exact h1
        · exact Int.le_trans h1 ((List.pairwise_cons.mp h2).1 z hz)
      · intro h
        exact ⟨(List.pairwise_cons.mp h).1 y (.head _), (List.pairwise_cons.mp h).2⟩

theorem default_inOrder : inOrder defaultBucketing = true := by decide +kernel

section
variable (compile : Compile)

/-- What a statement does to existing arrays: it may sort one. -/
theorem exec_arrays (h : Heap) (t : Nat) (s : Stage) (a : Nat) (ha : a < h.next) :
    (exec compile h t s).1.arrays a = h.arrays a ∨
      (inOrder (h.arrays a) = false ∧ (exec compile h t s).1.arrays a = sortDurations (h.arrays a)) := by
  cases s with
  | default r => refine .inl ?_; simp only [exec]; split <;> rfl
  | sort r =>
    simp only [exec]
    cases (h.reqs r).arr with
    | none => exact .inl rfl
    | some a' =>
      simp only
      split
      · exact .inl rfl
      · rename_i hn
        show set h.arrays a' _ a = _ ∨ _ ∧ set h.arrays a' _ a = _
        by_cases he : a = a'
        · subst he; rw [set_same]; exact .inr ⟨by simpa using hn, rfl⟩
        · rw [set_ne _ _ he]; exact .inl rfl
  | zero r =>
    simp only [exec]
    cases h.buckets r with
    | nil => exact .inl rfl
    | cons b bs =>
      simp only
      split
      · exact .inl (set_ne _ _ (by omega))
      · exact .inl rfl
  | query r => refine .inl ?_; simp only [exec]; split <;> rfl
  | limit r => refine .inl ?_; simp only [exec]; split <;> rfl
  | look r => exact .inl rfl

theorem exec_next (h : Heap) (t : Nat) (s : Stage) : h.next ≤ (exec compile h t s).1.next := by
  cases s with
  | sort r =>
    simp only [exec]
    cases (h.reqs r).arr with
    | none => exact Nat.le_refl _
    | some a => simp only; split <;> exact Nat.le_refl _
  | zero r =>
    simp only [exec]
    cases h.buckets r with
    | nil => exact Nat.le_refl _
    | cons b bs =>
      simp only
      split
      · exact Nat.le_succ _
      · exact Nat.le_refl _
  | look r => exact Nat.le_refl _
  | _ => simp only [exec]; split <;> exact Nat.le_refl _

/-- Statements about other requests leave a request alone. -/
theorem exec_other (h : Heap) (t : Nat) (s : Stage) (r : Nat) (hr : s.req ≠ r) : (exec compile h t s).1.reqs r = h.reqs r := by
  have hn : r ≠ s.req := fun e => hr e.symm
  cases s with
  | default r' => simp only [exec]; split; exact set_ne _ _ hn; rfl
  | sort r' =>
    simp only [exec]
    cases (h.reqs r').arr with
    | none => rfl
    | some a => simp only; split <;> rfl
  | zero r' =>
    simp only [exec]
    cases h.buckets r' with
    | nil => rfl
    | cons b bs =>
      simp only
      split
      · exact set_ne _ _ hn
      · rfl
  | query r' => simp only [exec]; split; rfl; exact set_ne _ _ hn
  | limit r' => simp only [exec]; split; exact set_ne _ _ hn; rfl
  | look r' => rfl

theorem exec_wf {h : Heap} (hw : h.WF) (t : Nat) (s : Stage) : (exec compile h t s).1.WF := by
  refine ⟨?_, Nat.le_trans hw.next (exec_next compile h t s), ?_⟩
  · rcases exec_arrays compile h t s 0 (by have := hw.next; omega) with h' | ⟨h', _⟩
    · rw [h']; exact hw.default
    · rw [hw.default, default_inOrder] at h'; cases h'
  · intro r a ha
    by_cases hr : s.req = r
    · have hnext := hw.next
      have old := hw.arr r a
      cases s with
      | default r' =>
        cases hr
        simp only [exec] at ha ⊢
        split at ha
        · rename_i h'
          rw [if_pos h']
          have ha : (set h.reqs r' _ r').arr = some a := ha
          rw [set_same] at ha
          cases ha
          exact hnext
        · rename_i h'
          rw [if_neg h']
          exact old ha
      | sort r' =>
        cases hr
        simp only [exec] at ha ⊢
        cases h1 : (h.reqs r').arr with
        | none =>
          have h2 : (h.reqs r').arr = some a := by rw [h1] at ha; exact ha
          rw [h1] at h2; cases h2
        | some a' =>
          simp only [h1] at ha ⊢
          split at ha <;> rename_i h' <;> simp only [h'] <;> exact old ha
      | zero r' =>
        cases hr
        simp only [exec] at ha ⊢
        cases h1 : h.buckets r' with
        | nil => simp only [h1] at ha ⊢; exact old ha
        | cons b bs =>
          simp only [h1] at ha ⊢
          split at ha
          · rename_i h'
            rw [if_pos h']
            have ha : (set h.reqs r' _ r').arr = some a := ha
            rw [set_same] at ha
            cases ha
            exact Nat.lt_succ_self _
          · rename_i h'
            rw [if_neg h']
            exact old ha
      | query r' =>
        cases hr
        simp only [exec] at ha ⊢
        split at ha <;> rename_i h'
        · rw [if_pos h']; exact old ha
        · rw [if_neg h']
          have ha : (set h.reqs r' _ r').arr = some a := ha
          rw [set_same] at ha
          exact old ha
      | limit r' =>
        cases hr
        simp only [exec] at ha ⊢
        split at ha <;> rename_i h'
        · rw [if_pos h']
          have ha : (set h.reqs r' _ r').arr = some a := ha
          rw [set_same] at ha
          exact old ha
        · rw [if_neg h']; exact old ha
      | look r' => exact old ha
    · rw [exec_other compile h t s r hr] at ha
      exact Nat.lt_of_lt_of_le (hw.arr r a ha) (exec_next compile h t s)

/-- An array that is in order is not written. -/
theorem exec_sorted {h : Heap} {a : Nat} (ha : a < h.next) (ho : inOrder (h.arrays a) = true) (t : Nat) (s : Stage) :
    (exec compile h t s).1.arrays a = h.arrays a ∧ ∀ x ∈ (exec compile h t s).2, x.l = .array a → x.write = false := by
  refine ⟨?_, ?_⟩
  · rcases exec_arrays compile h t s a ha with h' | ⟨h', _⟩
    · exact h'
    · rw [ho] at h'; cases h'
  · have hb : ∀ r, ∀ x ∈ readBuckets h t r, x.write = false := by
      intro r x hx
      unfold readBuckets at hx
      cases h1 : (h.reqs r).arr with
      | none => simp [h1] at hx; subst hx; rfl
      | some a' => simp [h1] at hx; rcases hx with rfl | rfl <;> rfl
    intro x hx hl
    cases s with
    | default r =>
      simp only [exec] at hx
      split at hx <;> simp at hx
      · rcases hx with rfl | rfl <;> cases hl
      · subst hx; cases hl
    | sort r =>
      simp only [exec] at hx
      cases h1 : (h.reqs r).arr with
      | none => simp only [h1] at hx; exact hb r x hx
      | some a' =>
        simp only [h1] at hx
        split at hx
        · exact hb r x hx
        · rename_i hn
          rcases List.mem_append.mp hx with hx | hx
          · exact hb r x hx
          · rw [List.mem_singleton] at hx; subst hx; cases hl
            rw [ho] at hn; exact absurd rfl hn
    | zero r =>
      simp only [exec] at hx
      cases h1 : h.buckets r with
      | nil => simp only [h1] at hx; exact hb r x hx
      | cons b bs =>
        simp only [h1] at hx
        split at hx
        · rcases List.mem_append.mp hx with hx | hx
          · exact hb r x hx
          · simp at hx
            rcases hx with rfl | rfl
            · cases hl; omega
            · cases hl
        · exact hb r x hx
    | query r =>
      simp only [exec] at hx
      split at hx <;> simp at hx
      · subst hx; cases hl
      · rcases hx with rfl | rfl <;> cases hl
    | limit r =>
      simp only [exec] at hx
      split at hx <;> simp at hx
      · rcases hx with rfl | rfl <;> cases hl
      · subst hx; cases hl
    | look r =>
      simp only [exec] at hx
      rcases List.mem_append.mp hx with hx | hx
      · exact hb r x hx
      · simp at hx; rcases hx with rfl | rfl <;> cases hl

theorem run_append (h : Heap) (l l' : List (Nat × Stage)) :
    run compile h (l ++ l') = ((run compile (run compile h l).1 l').1, (run compile h l).2 ++ (run compile (run compile h l).1 l').2) := by
  induction l generalizing h with
  | nil => simp [run]
  | cons x l ih => obtain ⟨t, s⟩ := x; simp [run, ih]

theorem run_wf {h : Heap} (hw : h.WF) (l : List (Nat × Stage)) : (run compile h l).1.WF := by
  induction l generalizing h with
  | nil => exact hw
  | cons x l ih => obtain ⟨t, s⟩ := x; exact ih (exec_wf compile hw t s)

theorem run_next (h : Heap) (l : List (Nat × Stage)) : h.next ≤ (run compile h l).1.next := by
  induction l generalizing h with
  | nil => exact Nat.le_refl _
  | cons x l ih => obtain ⟨t, s⟩ := x; exact Nat.le_trans (exec_next compile h t s) (ih _)

theorem run_sorted {h : Heap} {a : Nat} (ha : a < h.next) (ho : inOrder (h.arrays a) = true) (l : List (Nat × Stage)) :
    (run compile h l).1.arrays a = h.arrays a ∧ ∀ x ∈ (run compile h l).2, x.l = .array a → x.write = false := by
  induction l generalizing h with
  | nil => exact ⟨rfl, by simp [run]⟩
  | cons x l ih =>
    obtain ⟨t, s⟩ := x
    obtain ⟨h1, h2⟩ := exec_sorted compile ha ho t s
    obtain ⟨h3, h4⟩ := ih (Nat.lt_of_lt_of_le ha (exec_next compile h t s)) (by rw [h1]; exact ho)
    refine ⟨by show (run compile (exec compile h t s).1 l).1.arrays a = _; rw [h3, h1], fun x hx hl => ?_⟩
    rcases List.mem_append.mp (show x ∈ (exec compile h t s).2 ++ _ from hx) with hx | hx
    · exact h2 x hx hl
    · exact h4 x hx hl

/-- Nothing is left to normalize. -/
structure Settled (h : Heap) (r a : Nat) : Prop where
  arr : (h.reqs r).arr = some a
  lt : a < h.next
  sorted : inOrder (h.arrays a) = true
  zero : ∃ l, h.arrays a = 0 :: l
  query : (h.reqs r).filter.regexp.isSome = true ∨ (h.reqs r).filter.query = ""
  limit : 1 ≤ (h.reqs r).limit ∧ (h.reqs r).limit ≤ 250

/-- Locations of a request. -/
def Loc.Of (r a : Nat) (l : Loc) : Prop := l = .bucketing r ∨ l = .filter r ∨ l = .limit r ∨ l = .array a

theorem exec_settled {h : Heap} {r a : Nat} (hs : Settled h r a) (t : Nat) (s : Stage) :
    Settled (exec compile h t s).1 r a ∧ (exec compile h t s).1.reqs r = h.reqs r ∧ (exec compile h t s).1.arrays a = h.arrays a ∧
      ∀ x ∈ (exec compile h t s).2, x.l.Of r a → x.write = false := by
  obtain ⟨ha, hacc⟩ := exec_sorted compile hs.lt hs.sorted t s
  have hb : ∀ r, ∀ x ∈ readBuckets h t r, x.write = false := by
    intro r x hx
    unfold readBuckets at hx
    cases h1 : (h.reqs r).arr with
    | none => simp [h1] at hx; subst hx; rfl
    | some a' => simp [h1] at hx; rcases hx with rfl | rfl <;> rfl
  have hbk : h.buckets r = h.arrays a := by unfold Heap.buckets; rw [hs.arr]
  obtain ⟨bs, hz⟩ := hs.zero
  have key : (exec compile h t s).1.reqs r = h.reqs r ∧ ∀ x ∈ (exec compile h t s).2, x.l.Of r a → x.write = false := by
    by_cases hr : s.req = r
    · cases s with
      | default r' =>
        cases hr
        simp only [exec]
        rw [if_neg (by rw [show h.buckets r' = 0 :: bs from hbk.trans hz]; simp)]
        exact ⟨rfl, by simp⟩
      | sort r' =>
        cases hr
        simp only [exec]
        have : (h.reqs r').arr = some a := hs.arr
        rw [this]
        simp only [hs.sorted, if_true]
        exact ⟨trivial, fun x hx _ => hb r' x hx⟩
      | zero r' =>
        cases hr
        simp only [exec]
        have : h.buckets r' = 0 :: bs := hbk.trans hz
        rw [this]
        simp only [ne_eq, not_true_eq_false, if_false]
        exact ⟨trivial, fun x hx _ => hb r' x hx⟩
      | query r' =>
        cases hr
        simp only [exec]
        rw [if_pos (show (h.reqs r').filter.regexp.isSome = true ∨ (h.reqs r').filter.query = "" from hs.query)]
        exact ⟨rfl, by simp⟩
      | limit r' =>
        cases hr
        simp only [exec]
        have := hs.limit
        rw [if_neg (by
          show ¬ ((h.reqs r').limit ≤ 0 ∨ (h.reqs r').limit < 1 ∨ (h.reqs r').limit > 250)
          have h1 : 1 ≤ (h.reqs r').limit := this.1
          have h2 : (h.reqs r').limit ≤ 250 := this.2
          omega)]
        exact ⟨rfl, by simp⟩
      | look r' =>
        refine ⟨rfl, fun x hx _ => ?_⟩
        rcases List.mem_append.mp hx with hx | hx
        · exact hb _ x hx
        · simp at hx; rcases hx with rfl | rfl <;> rfl
    · refine ⟨exec_other compile h t s r hr, fun x hx hl => ?_⟩
      rcases hl with hl | hl | hl | hl
      case inr.inr.inr => exact hacc x hx hl
      all_goals
        cases s with
        | default r' =>
          simp only [exec] at hx
          split at hx <;> simp at hx
          · rcases hx with rfl | rfl
            · rfl
            · cases hl <;> exact absurd rfl hr
          · subst hx; rfl
        | sort r' =>
          simp only [exec] at hx
          cases h1 : (h.reqs r').arr with
          | none => simp only [h1] at hx; exact hb r' x hx
          | some a' =>
            simp only [h1] at hx
            split at hx
            · exact hb r' x hx
            · rcases List.mem_append.mp hx with hx | hx
              · exact hb r' x hx
              · rw [List.mem_singleton] at hx; subst hx; cases hl
        | zero r' =>
          simp only [exec] at hx
          cases h1 : h.buckets r' with
          | nil => simp only [h1] at hx; exact hb r' x hx
          | cons b bs =>
            simp only [h1] at hx
            split at hx
            · rcases List.mem_append.mp hx with hx | hx
              · exact hb r' x hx
              · simp at hx
                rcases hx with rfl | rfl
                · cases hl
                · cases hl <;> exact absurd rfl hr
            · exact hb r' x hx
        | query r' =>
          simp only [exec] at hx
          split at hx <;> simp at hx
          · subst hx; rfl
          · rcases hx with rfl | rfl
            · rfl
            · cases hl <;> exact absurd rfl hr
        | limit r' =>
          simp only [exec] at hx
          split at hx <;> simp at hx
          · rcases hx with rfl | rfl
            · rfl
            · cases hl <;> exact absurd rfl hr
          · subst hx; rfl
        | look r' =>
          simp only [exec] at hx
          rcases List.mem_append.mp hx with hx | hx
          · exact hb r' x hx
          · simp at hx; rcases hx with rfl | rfl <;> rfl
  exact ⟨⟨by rw [key.1]; exact hs.arr, Nat.lt_of_lt_of_le hs.lt (exec_next compile h t s), by rw [ha]; exact hs.sorted,
    by rw [ha]; exact hs.zero, by rw [key.1]; exact hs.query, by rw [key.1]; exact hs.limit⟩, key.1, ha, key.2⟩

theorem run_settled {h : Heap} {r a : Nat} (hs : Settled h r a) (l : List (Nat × Stage)) :
    Settled (run compile h l).1 r a ∧ (run compile h l).1.reqs r = h.reqs r ∧ (run compile h l).1.arrays a = h.arrays a ∧
      ∀ x ∈ (run compile h l).2, x.l.Of r a → x.write = false := by
  induction l generalizing h with
  | nil => exact ⟨hs, rfl, rfl, by simp [run]⟩
  | cons x l ih =>
    obtain ⟨t, s⟩ := x
    obtain ⟨h1, h2, h3, h4⟩ := exec_settled compile hs t s
    obtain ⟨i1, i2, i3, i4⟩ := ih h1
    refine ⟨i1, i2.trans h2, i3.trans h3, fun x hx hl => ?_⟩
    rcases List.mem_append.mp (show x ∈ (exec compile h t s).2 ++ _ from hx) with hx | hx
    · exact h4 x hx hl
    · exact i4 x hx hl

/-! ## Normalizing while others do -/

/-- What others can do to a request: sort its buckets. -/
structure Others (h h' : Heap) (r : Nat) : Prop where
  req : h'.reqs r = h.reqs r
  next : h.next ≤ h'.next
  arrays : ∀ a, a < h.next → h'.arrays a = h.arrays a ∨ h'.arrays a = sortDurations (h.arrays a)

theorem sort_sort (l : List Duration) : sortDurations (sortDurations l) = sortDurations l :=
  sortDurations_of_sorted _ (sortDurations_sorted l)

theorem run_others (h : Heap) (r : Nat) (l : List (Nat × Stage)) (hl : ∀ x ∈ l, x.2.req ≠ r) : Others h (run compile h l).1 r := by
  induction l generalizing h with
  | nil => exact ⟨rfl, Nat.le_refl _, fun a _ => .inl rfl⟩
  | cons x l ih =>
    obtain ⟨t, s⟩ := x
    obtain ⟨i1, i2, i3⟩ := ih (exec compile h t s).1 (fun y hy => hl y (.tail _ hy))
    refine ⟨i1.trans (exec_other compile h t s r (hl _ (.head _))), Nat.le_trans (exec_next compile h t s) i2, fun a ha => ?_⟩
    have e : (exec compile h t s).1.arrays a = h.arrays a ∨ (exec compile h t s).1.arrays a = sortDurations (h.arrays a) :=
      (exec_arrays compile h t s a ha).imp id (·.2)
    show (run compile (exec compile h t s).1 l).1.arrays a = _ ∨ (run compile (exec compile h t s).1 l).1.arrays a = _
    rcases i3 a (Nat.lt_of_lt_of_le ha (exec_next compile h t s)) with i | i <;> rcases e with e | e <;> rw [i, e]
    · exact .inl rfl
    · exact .inr rfl
    · exact .inr rfl
    · rw [sort_sort]; exact .inr rfl

theorem Others.buckets {h h' : Heap} {r : Nat} (o : Others h h' r) (hw : h.WF) :
    h'.buckets r = h.buckets r ∨ h'.buckets r = sortDurations (h.buckets r) := by
  unfold Heap.buckets
  rw [o.req]
  cases ha : (h.reqs r).arr with
  | none => exact .inl rfl
  | some a => exact o.arrays a (hw.arr r a ha)

/-- The request as a value. -/
def Heap.value (h : Heap) (r : Nat) : SearchRequest :=
  { bucketing := h.buckets r, filter := (h.reqs r).filter, limit := (h.reqs r).limit }

/-- A request whose buckets are in order. -/
structure Phase (h : Heap) (r a : Nat) (l : List Duration) (f : Filter) (n : Int) : Prop where
  wf : h.WF
  req : h.reqs r = ⟨some a, f, n⟩
  array : h.arrays a = l
  sorted : inOrder l = true

theorem Phase.others {h : Heap} {r a : Nat} {l : List Duration} {f : Filter} {n : Int} (p : Phase h r a l f n)
    (o : List (Nat × Stage)) (ho : ∀ x ∈ o, x.2.req ≠ r) : Phase (run compile h o).1 r a l f n := by
  have hlt := p.wf.arr r a (by rw [p.req])
  exact ⟨run_wf compile p.wf o, by rw [(run_others compile h r o ho).req, p.req],
    by rw [(run_sorted compile hlt (by rw [p.array]; exact p.sorted) o).1, p.array], p.sorted⟩

theorem normalize_phase {h : Heap} (hw : h.WF) {r : Nat} (hneg : ∀ d ∈ h.buckets r, 0 ≤ d)
    (pre : List (Nat × Stage)) (hpre : (pre.filter (fun x => decide (x.2.req = r))).map (·.2) = normalize r) :
    ∃ a l, normalizeBucketing (h.buckets r) = some l ∧ (∃ l', l = 0 :: l') ∧
      Phase (run compile h pre).1 r a l ((h.reqs r).filter.initializeQueryRegexp compile).1 (normalizeLimit (h.reqs r).limit) := by
  have next : ∀ (pre : List (Nat × Stage)) (s : Stage) (ss : List Stage),
      (pre.filter (fun x => decide (x.2.req = r))).map (·.2) = s :: ss →
      ∃ o t rest, pre = o ++ (t, s) :: rest ∧ (∀ x ∈ o, x.2.req ≠ r) ∧
        (rest.filter (fun x => decide (x.2.req = r))).map (·.2) = ss := by
    intro pre s ss he
    obtain ⟨x, xs, h1, h2, h3⟩ := List.map_eq_cons_iff.mp he
    obtain ⟨l1, l2, e, h4, h5, h6⟩ := List.filter_eq_cons_iff.mp h1
    obtain ⟨t, s'⟩ := x
    cases h2
    exact ⟨l1, t, l2, e, fun x hx => by simpa using h4 x hx, by rw [h6]; exact h3⟩
  obtain ⟨o0, t0, r0, e0, n0, hpre⟩ := next _ _ _ hpre
  obtain ⟨o1, t1, r1, e1, n1, hpre⟩ := next _ _ _ hpre
  obtain ⟨o2, t2, r2, e2, n2, hpre⟩ := next _ _ _ hpre
  obtain ⟨o3, t3, r3, e3, n3, hpre⟩ := next _ _ _ hpre
  obtain ⟨o4, t4, o5, e4, n4, hpre⟩ := next _ _ _ hpre
  have n5 : ∀ x ∈ o5, x.2.req ≠ r := by
    intro x hx hr
    have : x ∈ o5.filter (fun x => decide (x.2.req = r)) := List.mem_filter.mpr ⟨hx, by simpa using hr⟩
    rw [List.map_eq_nil_iff.mp hpre] at this
    cases this
  subst e4 e3 e2 e1 e0
  simp only [run_append, run]
  -- the default buckets
  have w0 := run_wf compile hw o0
  have b0 := (run_others compile h r o0 n0).buckets hw
  have q0 := (run_others compile h r o0 n0).req
  generalize (run compile h o0).1 = h0 at w0 b0 q0 ⊢
  have w1 := exec_wf compile w0 t0 (.default r)
  obtain ⟨D, hD⟩ : ∃ D, D = if h.buckets r = [] then defaultBucketing else h.buckets r := ⟨_, rfl⟩
  have hDne : D ≠ [] := by rw [hD]; split; decide; assumption
  have sortNil : ∀ l : List Duration, sortDurations l = [] ↔ l = [] := fun l =>
    ⟨fun e => by have := sortDurations_perm l; rw [e] at this; exact this.symm.eq_nil, fun e => by rw [e]; rfl⟩
  have k1 : ∃ a, (exec compile h0 t0 (.default r)).1.reqs r = ⟨some a, (h.reqs r).filter, (h.reqs r).limit⟩ ∧
      ((exec compile h0 t0 (.default r)).1.arrays a = D ∨ (exec compile h0 t0 (.default r)).1.arrays a = sortDurations D) := by
    by_cases hb : h0.buckets r = []
    · have hB : h.buckets r = [] := by
        rcases b0 with b | b <;> rw [hb] at b
        · exact b.symm
        · exact (sortNil _).mp b.symm
      rw [if_pos hB] at hD
      refine ⟨0, ?_, .inl ?_⟩
      · simp only [exec, if_pos hb, set_same, q0]
      · simp only [exec, if_pos hb, w0.default, hD]
    · have hB : h.buckets r ≠ [] := by
        intro hB
        rcases b0 with b | b <;> rw [hB] at b <;> exact hb b
      rw [if_neg hB] at hD
      simp only [exec, if_neg hb]
      cases ha : (h0.reqs r).arr with
      | none => exact absurd (by unfold Heap.buckets; rw [ha]) hb
      | some a =>
        refine ⟨a, ?_, ?_⟩
        · rw [← q0, ← ha]
        · have : h0.buckets r = h0.arrays a := by unfold Heap.buckets; rw [ha]
          rw [← this, hD]; exact b0
  generalize (exec compile h0 t0 (.default r)).1 = h1 at w1 k1 ⊢
  obtain ⟨a, q1, a1⟩ := k1
  -- sorting
  have w2 := run_wf compile w1 o1
  have q2 := (run_others compile h1 r o1 n1).req
  have a2 : (run compile h1 o1).1.arrays a = D ∨ (run compile h1 o1).1.arrays a = sortDurations D := by
    rcases (run_others compile h1 r o1 n1).arrays a (w1.arr r a (by rw [q1])) with i | i <;> rcases a1 with e | e <;> rw [i, e]
    · exact .inl rfl
    · exact .inr rfl
    · exact .inr rfl
    · rw [sort_sort]; exact .inr rfl
  rw [q1] at q2
  generalize (run compile h1 o1).1 = h2 at w2 q2 a2 ⊢
  have srt : inOrder (sortDurations D) = true := (inOrder_iff _).mpr (sortDurations_sorted D)
  have p3 : Phase (exec compile h2 t1 (.sort r)).1 r a (sortDurations D) (h.reqs r).filter (h.reqs r).limit := by
    refine ⟨exec_wf compile w2 t1 _, ?_, ?_, srt⟩
    · by_cases hi : inOrder (h2.arrays a) = true <;> simp [exec, q2, hi]
    · by_cases hi : inOrder (h2.arrays a) = true
      · simp only [exec, q2, hi, if_true]
        rcases a2 with e | e
        · rw [e] at hi ⊢; exact (sortDurations_of_sorted D ((inOrder_iff D).mp hi)).symm
        · exact e
      · simp only [exec, q2, hi, if_false]
        show set h2.arrays a _ a = _
        rw [set_same]
        rcases a2 with e | e <;> rw [e]
        exact sort_sort D
  have p4 := p3.others compile o2 n2
  generalize (run compile (exec compile h2 t1 (.sort r)).1 o2).1 = h4 at p4 ⊢
  -- the zero
  obtain ⟨b, bs, hS⟩ : ∃ b bs, sortDurations D = b :: bs := by
    cases hs : sortDurations D with
    | nil => exact absurd ((sortNil D).mp hs) hDne
    | cons b bs => exact ⟨b, bs, rfl⟩
  have hN : normalizeBucketing (h.buckets r) = some (if b ≠ 0 then 0 :: b :: bs else b :: bs) := by
    have : (if ((h.buckets r).length : Int) ≤ 0 then defaultBucketing else h.buckets r) = D := by
      rw [hD]
      cases h.buckets r with
      | nil => rfl
      | cons x l => rw [if_neg (by simp only [List.length_cons]; omega), if_neg (by simp)]
    unfold normalizeBucketing
    simp only [this, hS]
  have hnn : ∀ d ∈ b :: bs, 0 ≤ d := by
    intro d hd
    rw [← hS] at hd
    have hd := (sortDurations_perm D).mem_iff.mp hd
    rw [hD] at hd
    split at hd
    · exact (show ∀ d ∈ defaultBucketing, 0 ≤ d by decide) d hd
    · exact hneg d hd
  have bk4 : h4.buckets r = b :: bs := by unfold Heap.buckets; rw [p4.req]; simp only; rw [p4.array, hS]
  have p5 : ∃ a', Phase (exec compile h4 t2 (.zero r)).1 r a' (if b ≠ 0 then 0 :: b :: bs else b :: bs) (h.reqs r).filter (h.reqs r).limit := by
    by_cases hb : b = 0
    · refine ⟨a, exec_wf compile p4.wf t2 _, ?_, ?_, ?_⟩
      · simp [exec, bk4, hb, p4.req]
      · simp [exec, bk4, hb, p4.array, hS]
      · rw [if_neg (by simpa using hb), ← hS]; exact srt
    · refine ⟨h4.next, exec_wf compile p4.wf t2 _, ?_, ?_, ?_⟩
      · simp [exec, bk4, hb, p4.req, set_same]
      · simp [exec, bk4, hb, set_same]
      · rw [if_pos hb]
        refine (inOrder_iff _).mpr (List.pairwise_cons.mpr ⟨hnn, ?_⟩)
        rw [← hS]; exact sortDurations_sorted D
  obtain ⟨a', p5⟩ := p5
  have p6 := p5.others compile o3 n3
  generalize (run compile (exec compile h4 t2 (.zero r)).1 o3).1 = h6 at p6 ⊢
  -- the query
  have p7 : Phase (exec compile h6 t3 (.query r)).1 r a' (if b ≠ 0 then 0 :: b :: bs else b :: bs)
      ((h.reqs r).filter.initializeQueryRegexp compile).1 (h.reqs r).limit := by
    by_cases hq : (h.reqs r).filter.regexp.isSome = true ∨ (h.reqs r).filter.query = ""
    · have he : ((h.reqs r).filter.initializeQueryRegexp compile).1 = (h.reqs r).filter := by
        unfold Filter.initializeQueryRegexp
        rcases hq with hq | hq
        · rw [if_pos hq]
        · by_cases hq' : (h.reqs r).filter.regexp.isSome = true
          · rw [if_pos hq']
          · rw [if_neg hq', if_pos hq]
      rw [he]
      refine ⟨exec_wf compile p6.wf t3 _, ?_, ?_, p6.sorted⟩
      · simp only [exec, p6.req, if_pos hq]
      · simp only [exec, p6.req, if_pos hq, p6.array]
    · refine ⟨exec_wf compile p6.wf t3 _, ?_, ?_, p6.sorted⟩
      · simp only [exec, p6.req, if_neg hq, set_same]
      · simp only [exec, p6.req, if_neg hq, p6.array]
  have p8 := p7.others compile o4 n4
  generalize (run compile (exec compile h6 t3 (.query r)).1 o4).1 = h8 at p8 ⊢
  -- the limit
  have p9 : Phase (exec compile h8 t4 (.limit r)).1 r a' (if b ≠ 0 then 0 :: b :: bs else b :: bs)
      ((h.reqs r).filter.initializeQueryRegexp compile).1 (normalizeLimit (h.reqs r).limit) := by
    by_cases hq : (h.reqs r).limit ≤ 0 ∨ (h.reqs r).limit < searchLimitMin ∨ (h.reqs r).limit > searchLimitMax
    · refine ⟨exec_wf compile p8.wf t4 _, ?_, ?_, p8.sorted⟩
      · simp only [exec, p8.req, if_pos hq, set_same]
      · simp only [exec, p8.req, if_pos hq, p8.array]
    · have he : normalizeLimit (h.reqs r).limit = (h.reqs r).limit := by
        unfold normalizeLimit
        rw [if_neg (fun e => hq (.inl e)), if_neg (fun e => hq (.inr (.inl e))), if_neg (fun e => hq (.inr (.inr e)))]
      rw [he]
      refine ⟨exec_wf compile p8.wf t4 _, ?_, ?_, p8.sorted⟩
      · simp only [exec, p8.req, if_neg hq]
      · simp only [exec, p8.req, if_neg hq, p8.array]
  refine ⟨a', _, hN, ?_, p9.others compile o5 n5⟩
  by_cases hb : b = 0
  · rw [if_neg (by simpa using hb), hb]; exact ⟨_, rfl⟩
  · rw [if_pos hb]; exact ⟨_, rfl⟩

theorem settled_of_phase {h : Heap} {r a : Nat} {l : List Duration} {f : Filter} {n : Int} (hz : ∃ l', l = 0 :: l')
    (p : Phase h r a l (f.initializeQueryRegexp compile).1 (normalizeLimit n)) : Settled h r a := by
  have hlim : 1 ≤ normalizeLimit n ∧ normalizeLimit n ≤ 250 := by
    unfold normalizeLimit searchLimitDefault searchLimitMin searchLimitMax
    split
    · decide
    · split
      · decide
      · split
        · decide
        · omega
  have hq : (f.initializeQueryRegexp compile).1.regexp.isSome = true ∨
      (f.initializeQueryRegexp compile).1.query = "" := by
    unfold Filter.initializeQueryRegexp
    split
    · exact .inl ‹_›
    · split
      · exact .inr ‹_›
      · split
        · exact .inr rfl
        · exact .inl rfl
  exact ⟨by rw [p.req], p.wf.arr r a (by rw [p.req]), by rw [p.array]; exact p.sorted, by rw [p.array]; exact hz,
      by rw [p.req]; exact hq, by rw [p.req]; exact hlim⟩

/-- Whatever is done with such a request only reads. -/
theorem run_own {h : Heap} {r a : Nat} (hs : Settled h r a) (l : List (Nat × Stage)) (hl : ∀ s ∈ l, s.2.req = r) :
    ∀ x ∈ (run compile h l).2, x.write = false := by
  induction l generalizing h with
  | nil => simp [run]
  | cons x l ih =>
    obtain ⟨t, s⟩ := x
    intro x hx
    rcases List.mem_append.mp (show x ∈ (exec compile h t s).2 ++ _ from hx) with hx | hx
    · have hr : s.req = r := hl _ (.head _)
      by_cases hw : x.write = false
      · exact hw
      · refine (exec_settled compile hs t s).2.2.2 x hx ?_
        have hw : x.write = true := by simpa using hw
        have hb : ∀ r, ∀ x ∈ readBuckets h t r, x.write = false := by
          intro r x hx
          unfold readBuckets at hx
          cases h1 : (h.reqs r).arr with
          | none => simp [h1] at hx; subst hx; rfl
          | some a' => simp [h1] at hx; rcases hx with rfl | rfl <;> rfl
        have nob : ∀ r, x ∉ readBuckets h t r := fun r hx => by rw [hb r x hx] at hw; cases hw
        have hbk : h.buckets r = h.arrays a := by unfold Heap.buckets; rw [hs.arr]
        obtain ⟨bs, hz⟩ := hs.zero
        subst hr
        cases s with
        | default r' =>
          simp only [exec] at hx
          split at hx <;> simp at hx
          · rcases hx with rfl | rfl <;> exact .inl rfl
          · subst hx; exact .inl rfl
        | sort r' =>
          simp only [exec] at hx
          have h1 : (h.reqs r').arr = some a := hs.arr
          simp only [h1, hs.sorted, if_true] at hx
          exact absurd hx (nob _)
        | zero r' =>
          simp only [exec] at hx
          have h1 : h.buckets r' = 0 :: bs := hbk.trans hz
          simp only [h1, ne_eq, not_true_eq_false, if_false] at hx
          exact absurd hx (nob _)
        | query r' =>
          simp only [exec] at hx
          split at hx <;> simp at hx
          · subst hx; exact .inr (.inl rfl)
          · rcases hx with rfl | rfl <;> exact .inr (.inl rfl)
        | limit r' =>
          simp only [exec] at hx
          split at hx <;> simp at hx
          · rcases hx with rfl | rfl <;> exact .inr (.inr (.inl rfl))
          · subst hx; exact .inr (.inr (.inl rfl))
        | look r' =>
          simp only [exec] at hx
          rcases List.mem_append.mp hx with hx | hx
          · exact absurd hx (nob _)
          · simp at hx; rcases hx with rfl | rfl <;> cases hw
    · exact ih (exec_settled compile hs t s).1 (fun s hs => hl s (.tail _ hs)) x hx

/-! ## C97 -/

/-- Two goroutines access the same location, and one of them writes. -/
def Conflict (x y : Acc) : Prop := x.t ≠ y.t ∧ x.l = y.l ∧ (x.write = true ∨ y.write = true)

/-- Once a request without negative buckets has been normalized — whatever was done to other requests meanwhile, also to some
that use the same buckets — nothing that is done with it or with other requests, by any goroutines, writes to it or to its buckets. It
stays what `Normalize` has made of it. -/
theorem C97_read_only_partial {h : Heap} (hw : h.WF) {r : Nat} (hneg : ∀ d ∈ h.buckets r, 0 ≤ d)
    (pre : List (Nat × Stage)) (hpre : (pre.filter (fun x => decide (x.2.req = r))).map (·.2) = normalize r)
    (post : List (Nat × Stage)) :
    ∃ a, ((run compile h pre).1.reqs r).arr = some a ∧
      (∀ x ∈ (run compile (run compile h pre).1 post).2,
        x.l = .bucketing r ∨ x.l = .filter r ∨ x.l = .limit r ∨ x.l = .array a → x.write = false) ∧
      (run compile (run compile h pre).1 post).1.value r = (run compile h pre).1.value r ∧
      ((h.value r).normalize compile).map (·.1) = some ((run compile h pre).1.value r) := by
  obtain ⟨a, l, hN, hz, p⟩ := normalize_phase compile hw hneg pre hpre
  have st := settled_of_phase compile hz p
  obtain ⟨s1, s2, s3, s4⟩ := run_settled compile st post
  refine ⟨a, st.arr, s4, ?_, ?_⟩
  · unfold Heap.value Heap.buckets
    rw [s2, st.arr]
    simp only [s3]
  · unfold Heap.value Heap.buckets
    rw [p.req]
    simp only [p.array]
    unfold Heap.buckets at hN
    unfold SearchRequest.normalize Filter.normalize
    simp only [hN]
    rfl

/-- Such searchers do not conflict over the request. -/
theorem C97_no_conflict_partial {h : Heap} (hw : h.WF) {r : Nat} (hneg : ∀ d ∈ h.buckets r, 0 ≤ d)
    (pre : List (Nat × Stage)) (hpre : (pre.filter (fun x => decide (x.2.req = r))).map (·.2) = normalize r)
    (post : List (Nat × Stage)) (hpost : ∀ s ∈ post, s.2.req = r) :
    ∀ x ∈ (run compile (run compile h pre).1 post).2, ∀ y ∈ (run compile (run compile h pre).1 post).2, ¬ Conflict x y := by
  obtain ⟨a', l, hN, hz, p⟩ := normalize_phase compile hw hneg pre hpre
  have key : ∀ x ∈ (run compile (run compile h pre).1 post).2, x.write = false := by
    have st := settled_of_phase compile hz p
    exact run_own compile st post hpost
  intro x hx y hy ⟨_, _, hc⟩
  rw [key x hx, key y hy] at hc
  rcases hc with hc | hc <;> cases hc

/-- `DefaultBucketing`, which all requests without buckets share, is never written. -/
theorem C97_default_buckets {h : Heap} (hw : h.WF) (l : List (Nat × Stage)) :
    (∀ x ∈ (run compile h l).2, x.l = .array 0 → x.write = false) ∧ (run compile h l).1.arrays 0 = defaultBucketing := by
  obtain ⟨h1, h2⟩ := run_sorted compile (a := 0) (Nat.lt_of_lt_of_le Nat.zero_lt_one hw.next) (by rw [hw.default]; exact default_inOrder) l
  exact ⟨h2, h1.trans hw.default⟩

end

/-! ### Negative buckets -/

/-- The request has a negative bucket. -/
def Heap.Negative (h : Heap) (r : Nat) : Prop := ∃ d ∈ h.buckets r, d < 0

section
variable (compile : Compile)

theorem exec_negative {h : Heap} (hw : h.WF) {r : Nat} (hn : h.Negative r) (t : Nat) (s : Stage) : (exec compile h t s).1.Negative r := by
  have hs : ∀ l : List Duration, (∃ d ∈ l, d < 0) → ∃ d ∈ sortDurations l, d < 0 := fun l ⟨d, hd, hd'⟩ =>
    ⟨d, (sortDurations_perm l).mem_iff.mpr hd, hd'⟩
  -- the array of the request, if the request keeps it
  have keep : (exec compile h t s).1.reqs r = h.reqs r ∨ ((exec compile h t s).1.reqs r).arr = (h.reqs r).arr →
      (exec compile h t s).1.Negative r := by
    intro hk
    have hk : ((exec compile h t s).1.reqs r).arr = (h.reqs r).arr := by
      rcases hk with hk | hk
      · rw [hk]
      · exact hk
    unfold Heap.Negative Heap.buckets at hn ⊢
    rw [hk]
    cases ha : (h.reqs r).arr with
    | none => simp [ha] at hn
    | some a =>
      simp only [ha] at hn ⊢
      rcases exec_arrays compile h t s a (hw.arr r a ha) with e | ⟨_, e⟩
      · rw [e]; exact hn
      · rw [e]; exact hs _ hn
  by_cases hr : s.req = r
  · cases s with
    | default r' =>
      cases hr
      refine keep (.inl ?_)
      simp only [exec]
      rw [if_neg]
      intro he
      obtain ⟨d, hd, _⟩ := hn
      rw [show h.buckets (Stage.default r').req = [] from he] at hd
      cases hd
    | sort r' =>
      refine keep (.inl ?_)
      simp only [exec]
      cases (h.reqs r').arr with
      | none => rfl
      | some a => simp only; split <;> rfl
    | zero r' =>
      cases hr
      have hr' : (Stage.zero r').req = r' := rfl
      rw [hr'] at hn keep ⊢
      cases hb : h.buckets r' with
      | nil => refine keep (.inl ?_); simp only [exec, hb]
      | cons b bs =>
        by_cases h0 : b ≠ 0
        · obtain ⟨d, hd, hd'⟩ := hn
          refine ⟨d, ?_, hd'⟩
          have e : (exec compile h t (.zero r')).1.buckets r' = 0 :: b :: bs := by
            simp only [exec, hb, if_pos h0]
            simp only [Heap.buckets, set_same]
          rw [e, ← hb]
          exact List.mem_cons_of_mem _ hd
        · refine keep (.inl ?_)
          simp only [exec, hb, if_neg h0]
    | query r' =>
      refine keep (.inr ?_)
      cases hr
      simp only [exec, Stage.req]
      split
      · rfl
      · show (set h.reqs r' _ r').arr = _
        rw [set_same]
    | limit r' =>
      refine keep (.inr ?_)
      cases hr
      simp only [exec, Stage.req]
      split
      · show (set h.reqs r' _ r').arr = _
        rw [set_same]
      · rfl
    | look r' => exact keep (.inl rfl)
  · exact keep (.inl (exec_other compile h t s r hr))

theorem run_negative {h : Heap} (hw : h.WF) {r : Nat} (hn : h.Negative r) (l : List (Nat × Stage)) :
    (run compile h l).1.Negative r := by
  induction l generalizing h with
  | nil => exact hn
  | cons x l ih => obtain ⟨t, s⟩ := x; exact ih (exec_wf compile hw t s) (exec_negative compile hw hn t s)

/-- Normalizing a request with a negative bucket writes to it. -/
theorem normalize_writes {h : Heap} (hw : h.WF) {r : Nat} (hn : h.Negative r) (t : Nat) :
    (⟨t, true, .bucketing r⟩ : Acc) ∈ (run compile h ((normalize r).map (t, ·))).2 := by
  have hne : ¬ h.buckets r = [] := by
    intro he
    obtain ⟨d, hd, _⟩ := hn
    rw [he] at hd
    cases hd
  obtain ⟨a, ha⟩ : ∃ a, (h.reqs r).arr = some a := by
    cases h1 : (h.reqs r).arr with
    | none => exact absurd (by simp [Heap.buckets, h1]) hne
    | some a => exact ⟨a, rfl⟩
  have e1 : (exec compile h t (.default r)).1 = h := by simp only [exec]; rw [if_neg hne]
  -- after sorting
  have hn2 := exec_negative compile hw hn t (.sort r)
  have e2 : ((exec compile h t (.sort r)).1.buckets r).Pairwise (· ≤ ·) := by
    simp only [exec, ha]
    split
    · rename_i ho
      simp only [Heap.buckets, ha]
      exact (inOrder_iff _).mp ho
    · simp only [Heap.buckets, ha, set_same]
      exact sortDurations_sorted _
  have e3 : (⟨t, true, .bucketing r⟩ : Acc) ∈ (exec compile (exec compile h t (.sort r)).1 t (.zero r)).2 := by
    generalize (exec compile h t (.sort r)).1 = h2 at *
    obtain ⟨d, hd, hd'⟩ := hn2
    cases hb : h2.buckets r with
    | nil => rw [hb] at hd; cases hd
    | cons b bs =>
      have hb0 : b ≠ 0 := by
        rw [hb] at hd e2
        rcases List.mem_cons.mp hd with rfl | hd
        · exact Int.ne_of_lt hd'
        · exact Int.ne_of_lt (Int.lt_of_le_of_lt ((List.pairwise_cons.mp e2).1 d hd) hd')
      simp only [exec, hb, if_pos hb0]
      simp
  simp only [normalize, List.map_cons, List.map_nil, run, e1]
  exact List.mem_append_right _ (List.mem_append_right _ (List.mem_append_left _ e3))

/-- C97 fails for every request with a negative bucket: whatever was done before, and however often it was normalized, two
searchers that normalize it one after the other both write to it. -/
theorem C97_negative_always_violated {h : Heap} (hw : h.WF) {r : Nat} (hn : h.Negative r) (pre between : List (Nat × Stage))
    (t t' : Nat) (ht : t ≠ t') :
    ∃ x ∈ (run compile (run compile h pre).1 ((normalize r).map (t, ·) ++ between ++ (normalize r).map (t', ·))).2,
    ∃ y ∈ (run compile (run compile h pre).1 ((normalize r).map (t, ·) ++ between ++ (normalize r).map (t', ·))).2,
      Conflict x y ∧ x.write = true ∧ y.write = true ∧ x.l = .bucketing r := by
  have hw1 := run_wf compile hw pre
  have hn1 := run_negative compile hw hn pre
  refine ⟨⟨t, true, .bucketing r⟩, ?_, ⟨t', true, .bucketing r⟩, ?_, ⟨ht, rfl, .inl rfl⟩, rfl, rfl, rfl⟩
  · rw [run_append, run_append]
    exact List.mem_append_left _ (List.mem_append_left _ (normalize_writes compile hw1 hn1 t))
  · rw [run_append]
    exact List.mem_append_right _ (normalize_writes compile (run_wf compile hw1 _) (run_negative compile hw1 hn1 _) t')

end

/-! ### Cases -/

/-- Compiles nothing. -/
def noCompile : Compile := fun _ => .error "no"

/-- Statements by a goroutine. -/
def does (t : Nat) (l : List Stage) : List (Nat × Stage) := l.map (t, ·)

/-- Requests 0 and 1 have the same slice, in which the buckets are not in order; request 2 has none; request 3 has a negative bucket. -/
def someHeap : Heap :=
  { arrays := fun a => if a = 0 then defaultBucketing else if a = 1 then [5000000, 1000000] else [-1000000000, 1000000000]
    reqs := fun r => if r < 2 then { arr := some 1, filter := { query := "x" } } else if r = 2 then {} else { arr := some 2 }
    next := 3 }

theorem someHeap_wf : someHeap.WF := by
  refine ⟨rfl, by decide, ?_⟩
  intro r a ha
  unfold someHeap at ha ⊢
  simp only at ha ⊢
  split at ha
  · cases ha; decide
  · split at ha
    · cases ha
    · cases ha; decide

/-- Request 0 is normalized while request 1, with the same buckets, is too; then two searchers use request 0. -/
def sharing : List (Nat × Stage) :=
  [(0, .default 0), (9, .default 1), (9, .sort 1), (0, .sort 0), (0, .zero 0), (9, .zero 1), (0, .query 0), (0, .limit 0)]

/-- The hypotheses of `C97_read_only_partial` and `C97_no_conflict_partial` hold, and there are accesses. -/
example : (sharing.filter (fun x => decide (x.2.req = 0))).map (·.2) = normalize 0 ∧ (∀ d ∈ someHeap.buckets 0, 0 ≤ d) ∧
    (run noCompile someHeap sharing).1.buckets 0 = [0, 1000000, 5000000] ∧
    (∀ s ∈ does 1 (normalize 0 ++ [.look 0]) ++ does 2 (normalize 0), s.2.req = 0) ∧
    (run noCompile (run noCompile someHeap sharing).1 (does 1 (normalize 0 ++ [.look 0]) ++ does 2 (normalize 0))).2.length > 10 :=
  ⟨rfl, by decide +kernel, by decide +kernel, by
    intro s hs
    simp [does, normalize] at hs
    rcases hs with h | h | h | h | h | h | h | h | h | h | h <;> subst h <;> rfl, by decide +kernel⟩

/-- Many requests use `DefaultBucketing`, and it is read. -/
example : (⟨7, false, .array 0⟩ : Acc) ∈ (run noCompile someHeap (does 7 (normalize 2))).2 := by decide +kernel

/-- With a negative bucket, each searcher normalizes again: it sorts the buckets and puts another zero before them. Two searchers of a
`MultiSearcher`, which has normalized the request, both write to it, and the second sorts buckets that the first has put there. -/
theorem C97_negative_violated :
    someHeap.buckets 3 = [-1000000000, 1000000000] ∧
    ∃ x ∈ (run noCompile (run noCompile someHeap (does 0 (normalize 3))).1 (does 1 (normalize 3) ++ does 2 (normalize 3))).2,
    ∃ y ∈ (run noCompile (run noCompile someHeap (does 0 (normalize 3))).1 (does 1 (normalize 3) ++ does 2 (normalize 3))).2,
      Conflict x y ∧ x.write = true ∧ y.write = true ∧ x.l = .bucketing 3 := by
  refine ⟨by decide +kernel, ⟨1, true, .bucketing 3⟩, by decide +kernel, ⟨2, true, .bucketing 3⟩, by decide +kernel, ?_, rfl, rfl, rfl⟩
  exact ⟨by decide, rfl, .inl rfl⟩

/-- The hypotheses of `C97_negative_always_violated` are met by it. -/
example : someHeap.WF ∧ someHeap.Negative 3 := ⟨someHeap_wf, -1000000000, by decide +kernel, by decide⟩

/-- What it comes to: three zeros, after three times. -/
example : (run noCompile someHeap (does 0 (normalize 3) ++ does 1 (normalize 3) ++ does 2 (normalize 3))).1.buckets 3 =
    [0, -1000000000, 0, 0, 1000000000] := by decide +kernel

end Trc.Shared
