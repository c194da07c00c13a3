import Verif.Ring.Spec

set_option linter.unusedSectionVars false
set_option linter.unusedVariables false

namespace Trc.Ring

variable {α : Type} [Inhabited α]

/-- Where `Walk` reads its `i`-th value. -/
def ridx (rb : RB α) (i : Nat) : Int :=
  if rb.cur - 1 - i < 0 then rb.cur - 1 - i + rb.buf.length else rb.cur - 1 - i

/-- Representation invariant: `rb` stores the newest-first list `items`. -/
structure Rep (rb : RB α) (r : Spec.Recent α) : Prop where
  hcap : rb.buf.length = r.cap
  hlen : rb.len = r.items.length
  hle : r.items.length ≤ r.cap
  hcur0 : 0 ≤ rb.cur
  hcur : rb.cur < r.cap ∨ (r.cap = 0 ∧ rb.cur = 0)
  hnf : r.items.length < r.cap → rb.cur = r.items.length
  hval : ∀ i, i < r.items.length → Go.get rb.buf (ridx rb i) = r.items[i]?

theorem rep_new (cap : Nat) :
    ∃ rb : RB α, newRB (cap : Int) = some rb ∧ Rep rb { cap, items := [] } := by
  refine ⟨{ buf := List.replicate cap default, cur := 0, len := 0 }, ?_, ?_⟩
  · have : ¬ ((cap : Int) < 0) := by omega
    simp [newRB, Go.make, this]
  · constructor <;> simp
    omega

theorem get_some_of_lt {l : List α} {i : Int} (h0 : 0 ≤ i) (h : i < l.length) :
    Go.get l i = l[i.toNat]? := by
  unfold Go.get
  split <;> first | omega | rfl

theorem get_set_ne {l : List α} {i j : Int} {v : α} (h0 : 0 ≤ i) (hij : i ≠ j) (hj : 0 ≤ j) :
    Go.get (l.set i.toNat v) j = Go.get l j := by
  unfold Go.get
  have : ¬ j < 0 := by omega
  simp only [this, if_false]
  rw [List.getElem?_set_ne]
  omega

theorem get_set_eq {l : List α} {i : Int} {v : α} (h0 : 0 ≤ i) (h : i < l.length) :
    Go.get (l.set i.toNat v) i = some v := by
  unfold Go.get
  have h1 : ¬ i < 0 := by omega
  simp only [h1, if_false]
  rw [List.getElem?_set_self]
  omega

theorem rep_add {rb : RB α} {r : Spec.Recent α} (h : Rep rb r) (v : α) :
    ∃ rb' d, add rb v = some (rb', d) ∧ Rep rb' (r.add v).1 ∧ d.toList = (r.add v).2 := by
  obtain ⟨hcap, hlen, hle, hcur0, hcur, hnf, hval⟩ := h
  by_cases hc : r.cap = 0
  · refine ⟨rb, none, ?_, ?_, ?_⟩
    · simp [add, hcap, hc]
    · have : r.items = [] := by
        apply List.eq_nil_of_length_eq_zero; omega
      simp only [Spec.Recent.add, hc, List.take_zero]
      constructor <;> simp_all
    · simp [Spec.Recent.add, hc]
  · have hcur' : rb.cur < r.cap := by omega
    have hcl : ¬ (rb.buf.length : Int) ≤ 0 := by omega
    have hset : Go.set rb.buf rb.cur v = some (rb.buf.set rb.cur.toNat v) := by
      unfold Go.set; rw [if_pos]; omega
    have hdr : ∃ d : Option α,
        overwritten rb = some d ∧ d.toList = (r.add v).2 := by
      by_cases hf : r.items.length < r.cap
      · refine ⟨none, ?_, ?_⟩
        · unfold overwritten; rw [if_neg]; omega
        · simp only [Spec.Recent.add, hc, if_false]
          rw [List.drop_eq_nil_of_le]
          · rfl
          · simp; omega
      · have hl : r.items.length - 1 < r.items.length := by omega
        have hv := hval (r.items.length - 1) hl
        have hidx : ridx rb (r.items.length - 1) = rb.cur := by
          unfold ridx; split <;> omega
        rw [hidx] at hv
        have hge : rb.len ≥ rb.buf.length := by omega
        refine ⟨some r.items[r.items.length - 1], ?_, ?_⟩
        · unfold overwritten; rw [if_pos hge, hv, List.getElem?_eq_getElem hl]; rfl
        · simp only [Spec.Recent.add, hc, if_false, Option.toList]
          have : r.cap = (r.items.length - 1) + 1 := by omega
          rw [this, List.drop_succ_cons]
          rw [List.drop_eq_getElem_cons hl]
          rw [List.drop_eq_nil_of_le (by omega)]
    obtain ⟨d, hd, hdl⟩ := hdr
    refine ⟨⟨rb.buf.set rb.cur.toNat v,
              if rb.cur + 1 ≥ (rb.buf.length : Int) then rb.cur + 1 - rb.buf.length else rb.cur + 1,
              if rb.len < rb.buf.length then rb.len + 1 else rb.len⟩, d, ?_, ?_, hdl⟩
    · unfold add
      rw [if_neg hcl, hd, hset]
      simp
    · have hsplit : (r.add v).1.cap = r.cap := rfl
      constructor
      · simp [Spec.Recent.add, hcap]
      · simp [Spec.Recent.add]; split <;> omega
      · simp [Spec.Recent.add]; omega
      · simp only []; split <;> omega
      · simp only [Spec.Recent.add]; left; split <;> omega
      · simp only [Spec.Recent.add, List.length_take, List.length_cons]
        intro hlt
        have := hnf (by omega)
        split <;> omega
      · intro i hi
        simp only [Spec.Recent.add, List.length_take, List.length_cons] at hi
        simp only [Spec.Recent.add]
        rw [List.getElem?_take_of_lt (by omega)]
        cases i with
        | zero =>
          have : ridx (⟨rb.buf.set rb.cur.toNat v,
              if rb.cur + 1 ≥ (rb.buf.length : Int) then rb.cur + 1 - rb.buf.length else rb.cur + 1,
              if rb.len < rb.buf.length then rb.len + 1 else rb.len⟩ : RB α) 0 = rb.cur := by
            unfold ridx
            simp only [List.length_set]
            split <;> split <;> omega
          rw [this, get_set_eq hcur0 (by omega)]
          rfl
        | succ j =>
          have hidx : ridx (⟨rb.buf.set rb.cur.toNat v,
              if rb.cur + 1 ≥ (rb.buf.length : Int) then rb.cur + 1 - rb.buf.length else rb.cur + 1,
              if rb.len < rb.buf.length then rb.len + 1 else rb.len⟩ : RB α) (j+1) = ridx rb j := by
            unfold ridx
            simp only [List.length_set]
            split <;> split <;> split <;> omega
          rw [hidx, get_set_ne hcur0]
          · rw [hval j (by omega)]; rfl
          · unfold ridx; split <;> omega
          · unfold ridx; split <;> omega

/-- One step of the backwards read cursor. -/
theorem copyLoop_spec {old : List α} {r : Spec.Recent α} {rb : RB α} (h : Rep rb r)
    (hold : old = rb.buf) :
    ∀ (w k : Nat) (buf : List α) (rd : Int), w + k ≤ r.items.length →
      (0 < w → rd = ridx rb k) → w ≤ buf.length →
      ∃ buf' rd', copyLoop old w rd buf = some (buf', rd') ∧
        buf'.length = buf.length ∧
        (∀ j, j < w → buf'[j]? = r.items[k + (w - 1 - j)]?) ∧
        (∀ j, w ≤ j → buf'[j]? = buf[j]?) ∧
        (w + k < r.items.length → rd = ridx rb k → rd' = ridx rb (k + w)) := by
  intro w
  subst hold
  obtain ⟨hcap, hlen, hle, hcur0, hcur, hnf, hval⟩ := h
  induction w with
  | zero =>
    intro k buf rd hk hrd hw
    refine ⟨buf, rd, rfl, rfl, ?_, ?_, ?_⟩
    · intro j hj; omega
    · intro j _; rfl
    · intro _ h2; simpa using h2
  | succ w ih =>
    intro k buf rd hk hrd hw
    have hrd' := hrd (by omega)
    have hg := hval k (by omega)
    rw [List.getElem?_eq_getElem (by omega)] at hg
    have hset : Go.set buf (w : Int) (r.items[k]'(by omega)) = some (buf.set w (r.items[k]'(by omega))) := by
      unfold Go.set; rw [if_pos (by omega)]; simp
    have hnext : w + (k + 1) ≤ r.items.length := by omega
    have hrdn : (0 < w → (if rd - 1 < 0 then rd - 1 + rb.buf.length else rd - 1) = ridx rb (k+1)) := by
      intro hw0
      rw [hrd']; unfold ridx
      split <;> split <;> split <;> omega
    obtain ⟨buf', rd', he, hl, hv1, hv2, hv3⟩ := ih (k+1) (buf.set w (r.items[k]'(by omega)))
      (if rd - 1 < 0 then rd - 1 + rb.buf.length else rd - 1) hnext hrdn (by simp; omega)
    refine ⟨buf', rd', ?_, ?_, ?_, ?_, ?_⟩
    · simp only [copyLoop]
      rw [hrd', hg]
      simp only [Option.bind_eq_bind, Option.bind_some]
      rw [hset]
      simp only [Option.bind_some]
      rw [hrd'] at he
      exact he
    · simpa using hl
    · intro j hj
      by_cases hjw : j = w
      · subst hjw
        rw [hv2 j (by omega)]
        rw [List.getElem?_set_self (by omega)]
        rw [List.getElem?_eq_getElem (by omega)]
        congr 2; omega
      · rw [hv1 j (by omega)]
        congr 1; omega
    · intro j hj
      rw [hv2 j (by omega), List.getElem?_set_ne (by omega)]
    · intro hlt _
      have := hv3 (by omega) (by
        rw [hrd']; unfold ridx
        split <;> split <;> split <;> omega)
      rw [this]; congr 1; omega

theorem dropLoop_spec {r : Spec.Recent α} {rb : RB α} (h : Rep rb r) :
    ∀ (n k : Nat) (acc : List α) (rd : Int), n + k = r.items.length →
      (0 < n → rd = ridx rb k) →
      dropLoop rb.buf n rd acc = some (acc ++ r.items.drop k) := by
  intro n
  obtain ⟨hcap, hlen, hle, hcur0, hcur, hnf, hval⟩ := h
  induction n with
  | zero =>
    intro k acc rd hk _
    simp only [dropLoop]
    rw [List.drop_eq_nil_of_le (by omega)]; simp
  | succ n ih =>
    intro k acc rd hk hrd
    have hrd' := hrd (by omega)
    have hg := hval k (by omega)
    rw [List.getElem?_eq_getElem (by omega)] at hg
    simp only [dropLoop]
    rw [hrd', hg]
    simp only [Option.bind_eq_bind, Option.bind_some]
    rw [ih (k+1) _ _ (by omega)]
    · rw [List.drop_eq_getElem_cons (by omega : k < r.items.length)]
      simp
    · intro hn
      unfold ridx
      split <;> split <;> split <;> omega

theorem rep_resize {rb : RB α} {r : Spec.Recent α} (h : Rep rb r) (c : Int) :
    ∃ rb' d, resize rb c = some (rb', d) ∧ Rep rb' (r.resize c).1 ∧ d = (r.resize c).2 := by
  have h' := h
  obtain ⟨hcap, hlen, hle, hcur0, hcur, hnf, hval⟩ := h
  by_cases hc : c ≤ 0
  · refine ⟨rb, [], ?_, ?_, ?_⟩ <;> simp [resize, Spec.Recent.resize, hc, h']
  · have hmake : (Go.make c : Option (List α)) = some (List.replicate c.toNat default) := by
      unfold Go.make; rw [if_neg (by omega)]
    let fill : Nat := min r.items.length c.toNat
    have hfill : (if rb.len > c then c else rb.len) = (fill : Int) := by
      split <;> omega
    let rd : Int := if rb.cur - 1 < 0 then rb.cur - 1 + rb.len else rb.cur - 1
    have hrd : 0 < r.items.length → rd = ridx rb 0 := by
      intro h0
      simp only [rd]; unfold ridx
      split <;> split <;> omega
    obtain ⟨buf', rd', he, hl, hv1, hv2, hv3⟩ := copyLoop_spec h' rfl fill 0
      (List.replicate c.toNat default) rd (by omega) (fun h => hrd (by omega)) (by simp; omega)
    have hdrop := dropLoop_spec h' (rb.len - c).toNat fill [] rd'
    by_cases hbig : (c.toNat) < r.items.length
    · have hd := hdrop (by omega) (fun _ => by
        have := hv3 (by omega) (hrd (by omega)); simpa using this)
      refine ⟨⟨buf', if (fill : Int) ≥ c then fill - c else fill, fill⟩, r.items.drop fill, ?_, ?_, ?_⟩
      · unfold resize
        rw [if_neg hc]
        simp only [hfill, hmake, Option.bind_eq_bind, Option.bind_some, Int.toNat_natCast]
        rw [he]
        simp only [Option.bind_some]
        rw [hd]
        simp
      · simp only [Spec.Recent.resize, hc, if_false]
        simp at hl
        constructor
        · simp [hl]
        · simp; omega
        · simp; omega
        · simp only []; split <;> omega
        · simp only []; left; split <;> omega
        · simp only [List.length_take]; omega
        · intro i hi
          simp only [List.length_take] at hi
          rw [List.getElem?_take_of_lt (by omega)]
          have hx : ridx (⟨buf', if (fill : Int) ≥ c then fill - c else fill, fill⟩ : RB α) i
              = ((fill - 1 - i : Nat) : Int) := by
            unfold ridx; simp only [hl]; split <;> split <;> omega
          rw [hx, get_some_of_lt (by omega) (by simp only [hl]; omega), Int.toNat_natCast, hv1 _ (by omega)]
          congr 1; omega
      · simp only [Spec.Recent.resize, hc, if_false]
        congr 1; omega
    · have hd0 : (rb.len - c).toNat = 0 := by omega
      refine ⟨⟨buf', if (fill : Int) ≥ c then fill - c else fill, fill⟩, [], ?_, ?_, ?_⟩
      · unfold resize
        rw [if_neg hc]
        simp only [hfill, hmake, Option.bind_eq_bind, Option.bind_some, Int.toNat_natCast]
        rw [he]
        simp only [Option.bind_some, hd0, dropLoop]
        simp
      · simp only [Spec.Recent.resize, hc, if_false]
        simp at hl
        constructor
        · simp [hl]
        · simp; omega
        · simp; omega
        · simp only []; split <;> omega
        · simp only []; left; split <;> omega
        · simp only [List.length_take]; intro _; split <;> omega
        · intro i hi
          simp only [List.length_take] at hi
          rw [List.getElem?_take_of_lt (by omega)]
          have hx : ridx (⟨buf', if (fill : Int) ≥ c then fill - c else fill, fill⟩ : RB α) i
              = ((fill - 1 - i : Nat) : Int) := by
            unfold ridx; simp only [hl]; split <;> split <;> omega
          rw [hx, get_some_of_lt (by omega) (by simp only [hl]; omega), Int.toNat_natCast, hv1 _ (by omega)]
          congr 1; omega
      · simp only [Spec.Recent.resize, hc, if_false]
        rw [List.drop_eq_nil_of_le (by omega)]

theorem rep_step {rb : RB α} {r : Spec.Recent α} (h : Rep rb r) (op : Op α) :
    ∃ rb' d, step rb op = some (rb', d) ∧ Rep rb' (r.step op).1 ∧ d = (r.step op).2 := by
  cases op with
  | add v =>
    obtain ⟨rb', d, he, hr, hd⟩ := rep_add h v
    exact ⟨rb', d.toList, by simp [step, he], hr, hd⟩
  | resize c => exact rep_resize h c

theorem rep_run {rb : RB α} {r : Spec.Recent α} (h : Rep rb r) (ops : List (Op α)) :
    ∃ rb', run rb ops = some (rb', (r.run ops).2) ∧ Rep rb' (r.run ops).1 := by
  induction ops generalizing rb r with
  | nil => exact ⟨rb, rfl, h⟩
  | cons op ops ih =>
    obtain ⟨rb₁, d, he, hr, hd⟩ := rep_step h op
    obtain ⟨rb₂, he₂, hr₂⟩ := ih hr
    refine ⟨rb₂, ?_, hr₂⟩
    simp [run, he, he₂, Spec.Recent.run, hd]

theorem rep_exec (cap : Nat) (ops : List (Op α)) :
    ∃ rb, exec (cap : Int) ops = some (rb, (Spec.recent cap ops).2) ∧
      Rep rb (Spec.recent cap ops).1 := by
  obtain ⟨rb, he, hr⟩ := rep_new (α := α) cap
  obtain ⟨rb', he', hr'⟩ := rep_run hr ops
  exact ⟨rb', by simp only [exec, he]; exact he', hr'⟩

theorem walkLoop_spec {σ ε : Type} {rb : RB α} {r : Spec.Recent α} (h : Rep rb r)
    (fn : σ → α → σ × Option ε) :
    ∀ (n k : Nat) (s : σ), n + k = r.items.length →
      walkLoop rb fn n k s = some (Spec.visit fn (r.items.drop k) s) := by
  intro n
  induction n with
  | zero =>
    intro k s hk
    rw [List.drop_eq_nil_of_le (by omega)]; rfl
  | succ n ih =>
    intro k s hk
    have hg := h.hval k (by omega)
    rw [List.getElem?_eq_getElem (by omega)] at hg
    rw [List.drop_eq_getElem_cons (by omega : k < r.items.length)]
    unfold ridx at hg
    simp only [walkLoop, hg, Option.bind_eq_bind, Option.bind_some, Spec.visit]
    rcases hfn : fn s (r.items[k]'(by omega)) with ⟨s', _ | e⟩
    · simp only []; exact ih (k+1) s' (by omega)
    · rfl

theorem walk_spec {σ ε : Type} {rb : RB α} {r : Spec.Recent α} (h : Rep rb r)
    (fn : σ → α → σ × Option ε) (s : σ) :
    walk rb fn s = some (Spec.visit fn r.items s) := by
  unfold walk
  rw [walkLoop_spec h fn]
  · simp
  · have := h.hlen; omega

theorem visit_collect (l acc : List α) :
    Spec.visit (fun (acc : List α) x => (acc ++ [x], (none : Option Unit))) l acc = (acc ++ l, none) := by
  induction l generalizing acc with
  | nil => simp [Spec.visit]
  | cons x xs ih => simp only [Spec.visit]; rw [ih]; simp

theorem walkAll_spec {rb : RB α} {r : Spec.Recent α} (h : Rep rb r) :
    walkAll rb = some r.items := by
  unfold walkAll
  rw [walk_spec h, visit_collect]
  simp

theorem stats_spec {rb : RB α} {r : Spec.Recent α} (h : Rep rb r) :
    stats rb = some (r.items.headD default, r.items.getLastD default, (r.items.length : Int)) := by
  have hlen := h.hlen
  have hle := h.hle
  have hcap := h.hcap
  have hcur := h.hcur
  have hcur0 := h.hcur0
  have hnf := h.hnf
  by_cases h0 : r.items = []
  · simp [stats, hlen, h0]
  · have hpos : 0 < r.items.length := List.length_pos_iff.mpr h0
    have hg0 := h.hval 0 hpos
    have hg1 := h.hval (r.items.length - 1) (by omega)
    rw [List.getElem?_eq_getElem (by omega)] at hg0 hg1
    unfold stats
    rw [if_neg (by omega)]
    have e0 : (if rb.cur - 1 < 0 then rb.cur - 1 + (rb.buf.length : Int) else rb.cur - 1) = ridx rb 0 := by
      unfold ridx; split <;> split <;> omega
    have e1 : (if ridx rb 0 - rb.len + 1 < 0 then ridx rb 0 - rb.len + 1 + (rb.buf.length : Int)
        else ridx rb 0 - rb.len + 1) = ridx rb (r.items.length - 1) := by
      unfold ridx; split <;> split <;> split <;> omega
    simp only [e0, e1, hg0, hg1, Option.bind_eq_bind, Option.bind_some]
    have a0 : r.items.headD default = r.items[0] := by
      rw [List.headD_eq_head?_getD, List.head?_eq_getElem?, List.getElem?_eq_getElem hpos]
      rfl
    have a1 : r.items.getLastD default = r.items[r.items.length - 1] := by
      rw [List.getLastD_eq_getLast?, List.getLast?_eq_getElem?, List.getElem?_eq_getElem (by omega)]
      rfl
    rw [a0, a1, hlen]
    rfl

end Trc.Ring
