import Verif.Props.Ring
import Verif.Ring.ManyLemmas

/-!
# C154: a category refers to what it retains and to nothing else

What a garbage collector sees of a buffer is its array.  A slot that still had a value that was handed back would keep
that value, and all that it refers to, in memory.
-/

namespace Trc.Ring

variable {α : Type} [Inhabited α]

/-- The slots that are not in use are zero. -/
def Tidy (rb : RB α) : Prop := ∀ j : Nat, rb.len ≤ j → j < rb.buf.length → rb.buf[j]? = some default

theorem tidy_new {cap : Int} {rb : RB α} (h : newRB cap = some rb) : Tidy rb := by
  unfold newRB Go.make at h
  by_cases hc : cap < 0
  · simp [hc] at h
  · simp only [hc, if_false, Option.bind_eq_bind, Option.bind_some, pure, Option.some.injEq] at h
    subst h
    intro j _ hj
    simp only [List.length_replicate] at hj
    simp [hj]

theorem tidy_add {rb rb' : RB α} {r : Spec.Recent α} (h : Rep rb r) (ht : Tidy rb) {v : α} {d : Option α}
    (he : add rb v = some (rb', d)) : Tidy rb' := by
  obtain ⟨hcap, hlen, hle, hcur0, hcur, hnf, hval⟩ := h
  unfold add at he
  by_cases hc : (rb.buf.length : Int) ≤ 0
  · rw [if_pos hc] at he
    cases he
    exact ht
  · rw [if_neg hc] at he
    have hset : Go.set rb.buf rb.cur v = some (rb.buf.set rb.cur.toNat v) := by
      unfold Go.set; rw [if_pos]; omega
    cases ho : overwritten rb with
    | none => simp [ho] at he
    | some o =>
      simp only [ho, hset, Option.bind_eq_bind, Option.bind_some, pure, Option.some.injEq, Prod.mk.injEq] at he
      obtain ⟨rfl, -⟩ := he
      intro j hj hjl
      simp only [List.length_set] at hj hjl ⊢
      by_cases hf : rb.len < rb.buf.length
      · rw [if_pos hf] at hj
        have := hnf (by omega)
        rw [List.getElem?_set_ne (by omega)]
        exact ht j (by omega) hjl
      · rw [if_neg hf] at hj
        omega

omit [Inhabited α] in
theorem copyLoop_keep {old : List α} : ∀ (w : Nat) (rd : Int) (buf buf' : List α) (rd' : Int),
    copyLoop old w rd buf = some (buf', rd') → buf'.length = buf.length ∧ ∀ j, w ≤ j → buf'[j]? = buf[j]? := by
  intro w
  induction w with
  | zero => intro rd buf buf' rd' h; cases h; exact ⟨rfl, fun _ _ => rfl⟩
  | succ w ih =>
    intro rd buf buf' rd' h
    unfold copyLoop at h
    cases hg : Go.get old rd with
    | none => simp [hg] at h
    | some x =>
      cases hs : Go.set buf (w : Int) x with
      | none => simp [hg, hs] at h
      | some b =>
        simp only [hg, hs, Option.bind_eq_bind, Option.bind_some] at h
        obtain ⟨h1, h2⟩ := ih _ _ _ _ h
        unfold Go.set at hs
        split at hs
        · cases hs
          simp only [Int.toNat_natCast, List.length_set] at h1 h2
          exact ⟨h1, fun j hj => by rw [h2 j (by omega), List.getElem?_set_ne (by omega)]⟩
        · cases hs

theorem tidy_resize {rb rb' : RB α} (hl : 0 ≤ rb.len) (ht : Tidy rb) {c : Int} {d : List α}
    (he : resize rb c = some (rb', d)) : Tidy rb' := by
  unfold resize at he
  by_cases hc : c ≤ 0
  · rw [if_pos hc] at he
    cases he
    exact ht
  · rw [if_neg hc] at he
    have hmake : (Go.make c : Option (List α)) = some (List.replicate c.toNat default) := by
      unfold Go.make; rw [if_neg (by omega)]
    simp only [hmake, Option.bind_eq_bind, Option.bind_some] at he
    generalize hfill : (if rb.len > c then c else rb.len) = fill at he
    have h0 : 0 ≤ fill := by rw [← hfill]; split <;> omega
    generalize hrd : (if rb.cur - 1 < 0 then rb.cur - 1 + rb.len else rb.cur - 1) = rd at he
    cases hcp : copyLoop rb.buf fill.toNat rd (List.replicate c.toNat default) with
    | none => simp [hcp] at he
    | some p =>
      obtain ⟨buf', rd'⟩ := p
      simp only [hcp, Option.bind_some] at he
      cases hd : dropLoop rb.buf (rb.len - c).toNat rd' [] with
      | none => simp [hd] at he
      | some ds =>
        simp only [hd, Option.bind_some, pure, Option.some.injEq, Prod.mk.injEq] at he
        obtain ⟨rfl, -⟩ := he
        obtain ⟨h1, h2⟩ := copyLoop_keep _ _ _ _ _ hcp
        intro j hj hjl
        simp only at hj hjl ⊢
        simp only [List.length_replicate] at h1
        rw [h2 j (by omega), List.getElem?_replicate]
        simp
        omega

/-- The slots are the values shown and zeros. -/
theorem slots {rb : RB α} {r : Spec.Recent α} (h : Rep rb r) (ht : Tidy rb) :
    rb.buf.Perm (r.items ++ List.replicate (rb.buf.length - r.items.length) default) := by
  obtain ⟨hcap, hlen, hle, hcur0, hcur, hnf, hval⟩ := h
  by_cases hf : r.items.length < r.cap
  · have hc := hnf hf
    have : rb.buf = r.items.reverse ++ List.replicate (rb.buf.length - r.items.length) default := by
      apply List.ext_getElem?
      intro j
      by_cases hj : j < r.items.length
      · rw [List.getElem?_append_left (by simpa using hj), List.getElem?_reverse hj]
        have hv := hval (r.items.length - 1 - j) (by omega)
        have hx : ridx rb (r.items.length - 1 - j) = (j : Int) := by
          unfold ridx; split <;> omega
        rw [hx, get_some_of_lt (by omega) (by omega), Int.toNat_natCast] at hv
        exact hv
      · rw [List.getElem?_append_right (by simp; omega)]
        by_cases hjl : j < rb.buf.length
        · rw [ht j (by omega) hjl, List.getElem?_replicate]
          simp
          omega
        · rw [List.getElem?_eq_none (by omega), List.getElem?_replicate]
          simp
          omega
    exact (List.Perm.of_eq this).trans ((List.reverse_perm _).append_right _)
  · have hfull : r.items.length = rb.buf.length := by omega
    rw [hfull, Nat.sub_self, List.replicate_zero, List.append_nil]
    have : r.items = (rb.buf.take rb.cur.toNat).reverse ++ (rb.buf.drop rb.cur.toNat).reverse := by
      apply List.ext_getElem?
      intro i
      by_cases hi : i < r.items.length
      · have hv := hval i hi
        rw [← hv]
        have hcl : rb.cur.toNat < rb.buf.length := by omega
        by_cases hic : i < rb.cur.toNat
        · rw [List.getElem?_append_left (by simp; omega), List.getElem?_reverse (by simp; omega)]
          have hx : ridx rb i = ((rb.cur.toNat - 1 - i : Nat) : Int) := by unfold ridx; split <;> omega
          rw [hx, get_some_of_lt (by omega) (by omega), Int.toNat_natCast, List.getElem?_take_of_lt (by simp; omega)]
          congr 1
          simp
          omega
        · rw [List.getElem?_append_right (by simp; omega), List.getElem?_reverse (by simp; omega)]
          have hx : ridx rb i = ((rb.cur.toNat + rb.buf.length - 1 - i : Nat) : Int) := by unfold ridx; split <;> omega
          rw [hx, get_some_of_lt (by omega) (by omega), Int.toNat_natCast, List.getElem?_drop]
          congr 1
          simp
          omega
      · rw [List.getElem?_eq_none (by omega), List.getElem?_eq_none (by simp; omega)]
    rw [this]
    have h2 := (List.perm_append_comm (l₁ := (rb.buf.take rb.cur.toNat).reverse) (l₂ := (rb.buf.drop rb.cur.toNat).reverse))
    refine List.Perm.trans ?_ h2.symm
    rw [← List.reverse_append, List.take_append_drop]
    exact (List.reverse_perm _).symm

/-! ## Histories of all categories -/

/-- All buffers are tidy. -/
def AllTidy (s : RBs α) : Prop := ∀ k rb, s.bufs.find k = some rb → Tidy rb

theorem allTidy_insert {s : RBs α} {k : String} {rb : RB α} (h : AllTidy s) (ht : Tidy rb) :
    ∀ k' rb', (s.bufs.insert k rb).find k' = some rb' → Tidy rb' := by
  intro k' rb' he
  rw [Assoc.find_insert] at he
  by_cases hk : k = k'
  · simp only [hk, if_true, Option.some.injEq] at he
    exact he ▸ ht
  · simp only [hk, if_false] at he
    exact h k' rb' he

theorem allTidy_step {s s' : RBs α} {f : Spec.Family α} (hf : FRep s f) (h : AllTidy s) {op : MOp α} {d : List α}
    (he : s.step op = some (s', d)) : AllTidy s' := by
  cases op with
  | getOrCreate k =>
    simp only [RBs.step] at he
    cases hr : s.resizing with
    | some _ => simp only [hr] at he; cases he; exact h
    | none =>
      simp only [hr, RBs.getOrCreate] at he
      cases hk : s.bufs.find k with
      | some rb => simp only [hk, Option.bind_eq_bind, Option.bind_some] at he; cases he; exact h
      | none =>
        cases hn : (newRB s.cap : Option (RB α)) with
        | none => simp [hk, hn] at he
        | some rb =>
          simp only [hk, hn, Option.bind_eq_bind, Option.bind_some, pure] at he
          cases he
          exact allTidy_insert h (tidy_new hn)
  | add k v =>
    simp only [RBs.step] at he
    cases hk : s.bufs.find k with
    | none => simp only [hk] at he; cases he; exact h
    | some rb =>
      obtain ⟨r, -, hrep⟩ := hf.isSome hk
      cases ha : add rb v with
      | none => simp [hk, ha] at he
      | some p =>
        obtain ⟨rb', o⟩ := p
        simp only [hk, ha, Option.bind_eq_bind, Option.bind_some, pure] at he
        cases he
        exact allTidy_insert h (tidy_add hrep (h k rb hk) ha)
  | beginResize c order =>
    simp only [RBs.step] at he
    split at he
    · cases he; exact h
    · split at he
      · cases he; exact h
      · split at he
        · cases he; exact h
        · cases he; exact h
  | resizeNext =>
    simp only [RBs.step] at he
    split at he
    · cases he; exact h
    · cases he; exact h
    · rename_i k rest hr
      cases hk : s.bufs.find k with
      | none => simp only [hk] at he; cases he; exact h
      | some rb =>
        obtain ⟨r, -, hrep⟩ := hf.isSome hk
        cases ha : resize rb s.cap with
        | none => simp [hk, ha] at he
        | some p =>
          obtain ⟨rb', o⟩ := p
          simp only [hk, ha, Option.bind_eq_bind, Option.bind_some, pure] at he
          cases he
          exact allTidy_insert h (tidy_resize (by rw [hrep.hlen]; omega) (h k rb hk) ha)

theorem allTidy_run : ∀ {ops : List (MOp α)} {s s' : RBs α} {f : Spec.Family α}, FRep s f → AllTidy s →
    ∀ {d}, s.run ops = some (s', d) → AllTidy s' ∧ FRep s' (f.run ops).1 := by
  intro ops
  induction ops with
  | nil => intro s s' f hf h d he; cases he; exact ⟨h, hf⟩
  | cons op ops ih =>
    intro s s' f hf h d he
    obtain ⟨s₁, e1, hf1⟩ := frep_step hf op
    simp only [RBs.run, e1, Option.bind_eq_bind, Option.bind_some] at he
    cases hr : s₁.run ops with
    | none => simp [hr] at he
    | some p =>
      simp only [hr, Option.bind_some, pure] at he
      cases he
      exact ih hf1 (allTidy_step hf h e1) hr

/-! ## The theorems -/

/-- **C154** However creations of categories, additions, and resizings of any sizes are interleaved: the slots of
the array of a category are what the category shows, each in one slot, and zeros. -/
theorem C154_slots (cap : Nat) (ops : List (MOp α)) :
    ∃ s outs, (newRBs (cap : Int) : RBs α).run ops = some (s, outs) ∧
      ∀ k rb, s.buf k = some rb → ∃ items, s.contents k = some items ∧
        rb.buf.Perm (items ++ List.replicate (rb.buf.length - items.length) default) := by
  obtain ⟨s, he, hf⟩ := frep_run (frep_new (α := α) cap) ops
  refine ⟨s, _, he, ?_⟩
  intro k rb hk
  obtain ⟨ht, -⟩ := allTidy_run (frep_new (α := α) cap)
    (by intro k rb h; simp [newRBs, Assoc.find_nil] at h) he
  obtain ⟨r, hr, hrep⟩ := hf.isSome hk
  refine ⟨r.items, ?_, slots hrep (ht k rb hk)⟩
  rw [hf.contents k]
  simp [Spec.Family.items, hr]

example : ((newRBs 2 : RBs Nat).run [.getOrCreate "a", .add "a" 1, .add "a" 2, .add "a" 3, .getOrCreate "b", .add "b" 7,
      .beginResize 4 ["b", "a"], .resizeNext, .add "a" 4, .resizeNext, .add "a" 5, .resizeNext]).map
      (fun p => ((p.1.buf "a").map RB.buf, p.1.contents "a", (p.1.buf "b").map RB.buf, p.2))
    = some (some [3, 4, 5, 0], some [5, 4, 3], some [7, 0, 0, 0], [1, 2]) := by decide

theorem tidy_step {rb rb' : RB α} {r : Spec.Recent α} (h : Rep rb r) (ht : Tidy rb) {op : Op α} {d : List α}
    (he : step rb op = some (rb', d)) : Tidy rb' := by
  cases op with
  | add v =>
    cases ha : add rb v with
    | none => simp [step, ha] at he
    | some p =>
      simp only [step, ha, Option.bind_eq_bind, Option.bind_some, pure, Option.some.injEq, Prod.mk.injEq] at he
      exact he.1 ▸ tidy_add (rb' := p.1) (d := p.2) h ht ha
  | resize c => exact tidy_resize (by rw [h.hlen]; omega) ht he

theorem tidy_run : ∀ (ops : List (Op α)) {rb rb' : RB α} {r : Spec.Recent α} {outs : List (List α)}, Rep rb r → Tidy rb →
    run rb ops = some (rb', outs) → Tidy rb' := by
  intro ops
  induction ops with
  | nil => intro rb rb' r outs _ ht he; cases he; exact ht
  | cons op ops ih =>
    intro rb rb' r outs hr ht he
    obtain ⟨rb₁, d, e1, hr1, -⟩ := rep_step hr op
    obtain ⟨rb₂, e2, -⟩ := rep_run hr1 ops
    simp only [run, e1, e2, Option.bind_eq_bind, Option.bind_some, pure, Option.some.injEq, Prod.mk.injEq] at he
    exact ih hr1 (tidy_step hr ht e1) (he.1 ▸ e2)

/-- **C154** A value that a buffer handed back, from `Add` or from `Resize`, is in no slot of its array: when no value
is added twice, and none is the zero value (they are pointers to traces). -/
theorem C154_lets_go (cap : Nat) (hpos : 0 < cap) (ops : List (Op α)) (hd : (Spec.added ops).Nodup)
    (h0 : default ∉ Spec.added ops) :
    ∃ rb outs, exec (cap : Int) ops = some (rb, outs) ∧ ∀ d ∈ outs, ∀ v ∈ d, v ∉ rb.buf := by
  obtain ⟨rb, outs, items, he, hw, hp⟩ := C03_conservation cap hpos ops
  refine ⟨rb, outs, he, ?_⟩
  obtain ⟨rb₀, h₀, hr₀⟩ := rep_new (α := α) cap
  obtain ⟨rb', he', hr⟩ := rep_exec cap ops
  rw [he, Option.some.injEq, Prod.mk.injEq] at he'
  obtain ⟨rfl, -⟩ := he'
  rw [walkAll_spec hr, Option.some.injEq] at hw
  subst hw
  simp only [exec, h₀, Option.bind_eq_bind, Option.bind_some] at he
  have hs := slots hr (tidy_run ops hr₀ (tidy_new h₀) he)
  intro d hdo v hv hb
  have hvo : v ∈ outs.flatten := List.mem_flatten.mpr ⟨d, hdo, hv⟩
  rcases List.mem_append.mp (hs.mem_iff.mp hb) with h | h
  · exact (List.nodup_append.mp (hp.nodup_iff.mpr hd)).2.2 v hvo v h rfl
  · rw [List.eq_of_mem_replicate h] at hvo
    exact h0 (hp.mem_iff.mp (List.mem_append_left _ hvo))

example : (exec 3 [.add 1, .add 2, .add 3, .add 4, .resize 2, .resize 4, .add 5]).map (fun p => (p.1.buf, p.2))
    = some ([3, 4, 5, 0], [[], [], [], [1], [2], [], []]) := by decide

end Trc.Ring
