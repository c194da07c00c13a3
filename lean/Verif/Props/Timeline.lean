import Verif.Web.Timeline
import Verif.Web.JSON
import Verif.Props.Render
import Verif.Props.Publish
import Mathlib.Algebra.Order.Field.Rat
import Mathlib.Tactic.Ring
import Mathlib.Tactic.FieldSimp
import Mathlib.Tactic.Linarith
import Mathlib.Data.Rat.Floor

/-!
# C115: the events of a trace are shown between its start and its end
-/

namespace Trc.Web

open Core (Event Frame)

/-! ## Specification -/

/-- What a clock reading says: the monotonic one if there is one. -/
def reading (t : Time) : Int := t.mono.getD t.wall

/-- The elements of a timeline for shares of 100: a whole number from 1 to 100 for each, off by at most one. -/
def Bars (bars : List (Option Int)) (shares : List Rat) : Prop :=
  bars.length = shares.length ∧
  ∀ (i : Nat) (r : Rat), shares[i]? = some r → ∃ k : Int, bars[i]? = some (some k) ∧ 1 ≤ k ∧ k ≤ 100 ∧ (k : Rat) ≤ r + 1 ∧ r ≤ k + 1

/-- A trace is shown from its start to its end: nothing takes a negative time, nothing happens before the start or after
the end, and the shares of the duration, if there is one, add up to 100. -/
structure InOrder (st : Static) : Prop where
  deltas : ∀ m ∈ renderEvents st, 0 ≤ m.delta
  within : ∀ m ∈ renderEvents st, 0 ≤ m.cumulative ∧ m.cumulative ≤ st.duration
  shares : st.duration ≠ 0 → ∃ shares : List Rat, (timeline st).map (deltaPercent st) = shares.map .num ∧
    shares.length = st.events.length + 1 ∧ (∀ r ∈ shares, 0 ≤ r ∧ r ≤ 100) ∧ shares.sum = 100 ∧
    Bars ((timeline st).map fun m => flexGrowPercent (deltaPercent st m)) shares

/-! ## Rendering -/

theorem sub_reading {a b : Time} (h : a.mono.isSome = b.mono.isSome) : subI a b = reading a - reading b := by
  obtain ⟨aw, am⟩ := a
  obtain ⟨bw, bm⟩ := b
  cases am <;> cases bm <;> simp_all [subI, Time.sub, reading]

theorem reading_add (t : Time) (d : Duration) : reading (addTime t d) = reading t + (show Int from d) := by
  obtain ⟨w, m⟩ := t
  cases m <;> rfl

/-- The deltas of times after `prev`. -/
def steps (prev : Int) : List Int → List Int
  | [] => []
  | t :: l => (t - prev) :: steps t l

theorem steps_nonneg (l : List Int) (prev : Int) : (∀ d ∈ steps prev l, 0 ≤ d) ↔ (prev :: l).Pairwise (· ≤ ·) := by
  induction l generalizing prev with
  | nil => simp [steps]
  | cons t l ih =>
    simp only [steps, List.mem_cons, forall_eq_or_imp, ih]
    constructor
    · rintro ⟨h1, h2⟩
      refine List.pairwise_cons.2 ⟨fun x hx => ?_, h2⟩
      rcases List.mem_cons.1 hx with rfl | hx
      · omega
      · have := (List.pairwise_cons.1 h2).1 x hx
        omega
    · intro h
      have := (List.pairwise_cons.1 h).1 t (by simp)
      exact ⟨by omega, (List.pairwise_cons.1 h).2⟩

/-- All deltas but the start's are the steps from each time to the next. -/
theorem render_steps (st : Static) (h : OneClock st) :
    ((renderEvents st).tail.map RenderEvent.delta : List Int) =
      steps (reading st.started) (st.events.map (fun e => reading e.when_) ++ [reading st.started + (show Int from st.duration)]) := by
  have key : ∀ (evs : List Event) (i : Int) (prev : Time), (∀ ev ∈ evs, ev.when_.mono.isSome = st.started.mono.isSome) →
      prev.mono.isSome = st.started.mono.isSome →
      ((renderLoop st.started i prev evs).1.map RenderEvent.delta : List Int) ++
          [subI (addTime st.started st.duration) (renderLoop st.started i prev evs).2] =
        steps (reading prev) (evs.map (fun e => reading e.when_) ++ [reading st.started + (show Int from st.duration)]) := by
    intro evs
    induction evs with
    | nil =>
      intro i prev _ hp
      simp only [renderLoop, List.map_nil, List.nil_append, steps]
      rw [sub_reading (by rw [hp]; cases hm : st.started.mono <;> simp [addTime, hm]), reading_add]
    | cons e evs ih =>
      intro i prev hev hp
      have he := hev e (by simp)
      have := ih (i + 1) e.when_ (fun ev hm => hev ev (by simp [hm])) he
      simp only [renderLoop, List.map_cons, List.cons_append, steps]
      rw [this]
      congr 1
      exact sub_reading (he.trans hp.symm)
  have := key st.events 0 st.started h rfl
  rw [← this]
  unfold renderEvents
  simp only [List.cons_append, List.tail_cons, List.map_append, List.map_cons, List.map_nil]
  rfl

theorem render_cons (st : Static) : ∃ m, renderEvents st = m :: (renderEvents st).tail ∧ m.delta = 0 ∧ m.cumulative = 0 ∧ m.index = -1 :=
  ⟨_, rfl, rfl, rfl, rfl⟩

/-- The times of a trace: its start, its events and its end. -/
def times (st : Static) : List Int :=
  reading st.started :: (st.events.map (fun e => reading e.when_) ++ [reading st.started + (show Int from st.duration)])

theorem deltas_iff (st : Static) (h : OneClock st) :
    (∀ m ∈ renderEvents st, 0 ≤ m.delta) ↔ (times st).Pairwise (· ≤ ·) := by
  unfold times
  rw [← steps_nonneg, ← render_steps st h]
  obtain ⟨m, hm, hd, _, _⟩ := render_cons st
  constructor
  · intro hall d hd'
    obtain ⟨m', hm', rfl⟩ := List.mem_map.1 hd'
    exact hall m' (List.mem_of_mem_tail hm')
  · intro hall m' hm'
    rw [hm] at hm'
    rcases List.mem_cons.1 hm' with rfl | hm'
    · rw [hd]
    · exact hall _ (List.mem_map.2 ⟨m', hm', rfl⟩)

theorem timeline_eq (st : Static) : timeline st = (renderEvents st).tail := by
  have key : ∀ (evs : List Event) (i : Int) (prev : Time), 0 ≤ i →
      ∀ m ∈ (renderLoop st.started i prev evs).1, ¬ (m.index < 0) := by
    intro evs
    induction evs with
    | nil => intro i prev _ m hm; simp [renderLoop] at hm
    | cons e evs ih =>
      intro i prev hi m hm
      simp only [renderLoop, List.mem_cons] at hm
      rcases hm with rfl | hm
      · show ¬ (i < 0); omega
      · exact ih (i + 1) _ (by omega) m hm
  unfold timeline renderEvents
  simp only [List.cons_append, List.tail_cons]
  rw [List.filter_cons_of_neg (by simp)]
  rw [List.filter_eq_self]
  intro m hm
  simp only [Bool.not_eq_true', decide_eq_false_iff_not]
  rcases List.mem_append.1 hm with hm | hm
  · exact key _ 0 _ (by omega) m hm
  · obtain rfl := List.mem_singleton.1 hm
    simp

theorem tail_notStart (st : Static) : ∀ m ∈ (renderEvents st).tail, m.isStart = false := by
  have key : ∀ (evs : List Event) (i : Int) (prev : Time), ∀ m ∈ (renderLoop st.started i prev evs).1, m.isStart = false := by
    intro evs
    induction evs with
    | nil => intro i prev m hm; simp [renderLoop] at hm
    | cons e evs ih =>
      intro i prev m hm
      simp only [renderLoop, List.mem_cons] at hm
      rcases hm with rfl | hm
      · rfl
      · exact ih (i + 1) _ m hm
  intro m hm
  unfold renderEvents at hm
  simp only [List.cons_append, List.tail_cons] at hm
  rcases List.mem_append.1 hm with hm | hm
  · exact key _ 0 _ m hm
  · obtain rfl := List.mem_singleton.1 hm
    rfl

theorem tail_length (st : Static) : (renderEvents st).tail.length = st.events.length + 1 := by
  obtain ⟨a, mid, b, h, _, _, _, _, _, _, _, _, _, _, hl, _⟩ := C67_shape st
  rw [h]
  simp [hl]

/-- The shares of a list of deltas. -/
theorem shares_sum (l : List Int) (d : Int) : ((l.map fun (n : Int) => 100 * (n : Rat) / (d : Rat)).sum : Rat) =
    100 * ((l.sum : Int) : Rat) / (d : Rat) := by
  induction l with
  | nil => simp
  | cons n l ih =>
    rw [List.map_cons, List.sum_cons, ih, List.sum_cons]
    push_cast
    ring

theorem deltaSum_eq (l : List RenderEvent) : deltaSum l = (l.map RenderEvent.delta : List Int).sum := by
  unfold deltaSum
  rw [List.sum_eq_foldr]

theorem le_sum {l : List Int} (h : ∀ d ∈ l, 0 ≤ d) : ∀ d ∈ l, d ≤ l.sum ∧ 0 ≤ l.sum := by
  induction l with
  | nil => intro d hd; simp at hd
  | cons n l ih =>
    have hn := h n (by simp)
    have hs : 0 ≤ l.sum := by
      cases l with
      | nil => simp
      | cons m l => exact (ih (fun d hd => h d (by simp [hd])) m (by simp)).2
    intro d hd
    rw [List.sum_cons]
    rcases List.mem_cons.1 hd with rfl | hd
    · omega
    · have := (ih (fun d hd => h d (by simp [hd])) d hd).1
      omega

theorem bar_spec {r : Rat} (h0 : 0 ≤ r) (h1 : r ≤ 100) :
    ∃ k : Int, flexGrowPercent (.num r) = some k ∧ 1 ≤ k ∧ k ≤ 100 ∧ (k : Rat) ≤ r + 1 ∧ r ≤ k + 1 := by
  unfold flexGrowPercent
  by_cases h : r < 1
  · refine ⟨1, by simp [h], by omega, by omega, ?_, ?_⟩ <;> push_cast <;> linarith
  · have h' : ¬ (100 < r) := by linarith
    refine ⟨r.floor, by simp [h, h'], ?_, ?_, ?_, ?_⟩
    · rw [Rat.le_floor_iff]; push_cast; linarith
    · have := Rat.floor_le r
      have h2 : ((r.floor : Int) : Rat) ≤ ((100 : Int) : Rat) := by push_cast; linarith
      exact_mod_cast h2
    · have := Rat.floor_le r
      linarith
    · have := Rat.lt_floor_add_one r
      push_cast at this
      linarith

/-- A trace whose times are on one clock is shown from its start to its end exactly if its times are in order. -/
theorem inOrder_iff (st : Static) (h : OneClock st) : InOrder st ↔ (times st).Pairwise (· ≤ ·) := by
  constructor
  · intro hi; exact (deltas_iff st h).1 hi.deltas
  · intro hp
    have hd := (deltas_iff st h).2 hp
    have hsum := (C67_deltas_partial st h).2
    obtain ⟨m₀, hm₀, hd₀, hc₀, _⟩ := render_cons st
    have hnn : ∀ d ∈ ((renderEvents st).tail.map RenderEvent.delta : List Int), 0 ≤ d := by
      intro d hd'
      obtain ⟨m', hm', rfl⟩ := List.mem_map.1 hd'
      exact hd m' (List.mem_of_mem_tail hm')
    have htot : ((renderEvents st).tail.map RenderEvent.delta : List Int).sum = st.duration := by
      rw [deltaSum_eq, hm₀, List.map_cons, List.sum_cons, hd₀] at hsum
      rw [← hsum]
      exact (Int.zero_add _).symm
    refine ⟨hd, ?_, ?_⟩
    · intro m hm
      obtain ⟨i, hi⟩ := List.getElem?_of_mem hm
      have hcum := (C67_deltas_partial st h).1 i m hi
      rw [deltaSum_eq] at hcum hsum
      have hall : ∀ d ∈ ((renderEvents st).map RenderEvent.delta : List Int), 0 ≤ d := by
        intro d hd'
        obtain ⟨m', hm', rfl⟩ := List.mem_map.1 hd'
        exact hd m' hm'
      have hsplit : ((renderEvents st).map RenderEvent.delta : List Int).sum =
          ((renderEvents st).take (i + 1) |>.map RenderEvent.delta : List Int).sum +
            ((renderEvents st).drop (i + 1) |>.map RenderEvent.delta : List Int).sum := by
        rw [← List.sum_append, ← List.map_append, List.take_append_drop]
      have nonneg : ∀ l : List Int, (∀ d ∈ l, 0 ≤ d) → 0 ≤ l.sum := by
        intro l hl
        cases l with
        | nil => simp
        | cons x l => exact (le_sum hl x (by simp)).2
      have h1 := nonneg ((renderEvents st).take (i + 1) |>.map RenderEvent.delta) (by
        intro d hd'
        obtain ⟨m', hm', rfl⟩ := List.mem_map.1 hd'
        exact hd m' (List.mem_of_mem_take hm'))
      have h2 := nonneg ((renderEvents st).drop (i + 1) |>.map RenderEvent.delta) (by
        intro d hd'
        obtain ⟨m', hm', rfl⟩ := List.mem_map.1 hd'
        exact hd m' (List.mem_of_mem_drop hm'))
      rw [hcum] at h1 hsplit
      rw [hsum] at hsplit
      refine ⟨h1, ?_⟩
      rw [hsplit]
      exact Int.le_add_of_nonneg_right h2
    · intro hne
      rw [timeline_eq]
      have hpos : (0 : Int) < st.duration := by
        have : (0 : Int) ≤ st.duration := by
          rw [← htot]
          cases hl : ((renderEvents st).tail.map RenderEvent.delta : List Int) with
          | nil => simp
          | cons x l => exact (le_sum (hl ▸ hnn) x (by simp)).2
        exact lt_of_le_of_ne this (Ne.symm hne)
      have hposR : (0 : Rat) < ((st.duration : Int) : Rat) := by exact_mod_cast hpos
      have hpct : (renderEvents st).tail.map (deltaPercent st) =
          (((renderEvents st).tail.map RenderEvent.delta : List Int).map fun (n : Int) => 100 * (n : Rat) / ((st.duration : Int) : Rat)).map .num := by
        rw [List.map_map, List.map_map]
        refine List.map_congr_left fun m hm => ?_
        unfold deltaPercent percentOf
        rw [tail_notStart st m hm, if_neg (by simp), if_neg hne]
        rfl
      have hrange : ∀ r ∈ (((renderEvents st).tail.map RenderEvent.delta : List Int).map fun (n : Int) => 100 * (n : Rat) / ((st.duration : Int) : Rat)),
          0 ≤ r ∧ r ≤ 100 := by
        intro r hr
        obtain ⟨n, hn, rfl⟩ := List.mem_map.1 hr
        have h1 := hnn n hn
        have h2 := (le_sum hnn n hn).1
        rw [htot] at h2
        have h1' : (0 : Rat) ≤ (n : Rat) := by exact_mod_cast h1
        have h2' : (n : Rat) ≤ ((st.duration : Int) : Rat) := by exact_mod_cast h2
        refine ⟨div_nonneg (by linarith) (le_of_lt hposR), ?_⟩
        rw [div_le_iff₀ hposR]
        linarith
      refine ⟨_, hpct, by rw [List.length_map, List.length_map, tail_length], hrange, ?_, ?_⟩
      · rw [shares_sum, htot]
        field_simp
      · refine ⟨by rw [List.length_map, List.length_map, List.length_map], fun i r hr => ?_⟩
        obtain ⟨k, hk, h1, h2, h3, h4⟩ := bar_spec (hrange r (List.mem_of_getElem? hr)).1 (hrange r (List.mem_of_getElem? hr)).2
        refine ⟨k, ?_, h1, h2, h3, h4⟩
        have : ((renderEvents st).tail.map fun m => flexGrowPercent (deltaPercent st m)) =
            ((renderEvents st).tail.map (deltaPercent st)).map flexGrowPercent := by
          rw [List.map_map]; rfl
        rw [this, hpct, List.getElem?_map, List.getElem?_map, hr]
        exact congrArg some hk

end Trc.Web

namespace Trc.Wrap

open Core Core.Spec Web

variable {W A : Type} [Sys W A]

/-! ## The times of the events of a trace -/

/-- The readings of a clock: all of one kind, and never less than before. -/
def OnTime (ts : List Time) : Prop :=
  (∀ t ∈ ts, ∀ u ∈ ts, t.mono.isSome = u.mono.isSome) ∧ (ts.map reading).Pairwise (· ≤ ·)

/-- The clock readings of a history. -/
def nows (h : Hist W A) : List Time := h.map fun p => p.1.now

/-- All clock readings of the life of a trace, `h`, and of a copy being made of it at `now`, with calls of others, `h'`,
until the events are read at `last`. -/
def readings (start : Time) (h : Hist W A) (now : Time) (h' : Hist W A) (last : Time) : List Time :=
  start :: (nows h ++ now :: (nows h' ++ [last]))

theorem logs_nows (h : Hist W A) : ((logs h).map fun e => e.env.now).Sublist (nows h) := by
  induction h with
  | nil => exact List.Sublist.refl _
  | cons p h ih =>
    obtain ⟨env, c⟩ := p
    cases c with
    | log => exact ih.cons_cons _
    | finish => exact ih.cons _
    | setMaxEvents => exact ih.cons _
    | read => exact ih.cons _

theorem active_sublist (h : Hist W A) : (active h).Sublist h := by
  induction h with
  | nil => exact List.Sublist.refl _
  | cons p h ih =>
    obtain ⟨env, c⟩ := p
    cases c with
    | finish => exact List.nil_sublist _
    | log => exact ih.cons_cons _
    | setMaxEvents => exact ih.cons_cons _
    | read => exact ih.cons_cons _

theorem logged_nows (h : Hist W A) : ((logged h).map fun e => e.env.now).Sublist (nows h) :=
  (logs_nows _).trans ((active_sublist h).map _)

/-- What was logged, was logged before the trace was finished. -/
theorem logged_finished (h : Hist W A) (f : Time) (hf : finishedAt h = some f) :
    (((logged h).map fun e => e.env.now) ++ [f]).Sublist (nows h) := by
  induction h with
  | nil => simp [finishedAt] at hf
  | cons p h ih =>
    obtain ⟨env, c⟩ := p
    cases c with
    | finish =>
      simp only [finishedAt, Option.some.injEq] at hf
      subst hf
      exact (List.nil_sublist _).cons_cons _
    | log => exact (ih hf).cons_cons _
    | setMaxEvents => exact (ih hf).cons _
    | read => exact (ih hf).cons _

theorem read_entries (a : Abs W A) (env : Env W) (n : Int) (s : Bool) :
    (a.step env (.read n s)).stored.map Stored.entry = a.stored.map Stored.entry := by
  simp only [Abs.step]
  rw [List.map_append, List.map_map]
  have : (Stored.entry ∘ fun s' : Stored W A => s'.mark env.w s) = Stored.entry := rfl
  rw [this, ← List.map_append, List.take_append_drop]

/-- What is stored was logged, in that order. -/
theorem stored_logged {a : Abs W A} (h : a.fin = none) (hist : Hist W A) :
    ((a.run hist).stored.map Stored.entry).Sublist (a.stored.map Stored.entry ++ logged hist) := by
  induction hist generalizing a with
  | nil => simp [Abs.run, logged, active, logs]
  | cons p hist ih =>
    obtain ⟨env, c⟩ := p
    cases c with
    | log kind f x cs =>
      have h1 : (a.step env (.log kind f x cs)).fin = none := by
        simp only [Abs.step, Abs.log, h, Option.isSome_none, Bool.false_eq_true, if_false]
        split <;> simp [h]
      refine (ih h1).trans ?_
      simp only [Abs.step, Abs.log, h, Option.isSome_none, Bool.false_eq_true, if_false]
      split
      · exact List.Sublist.append (List.Sublist.refl _) (List.sublist_cons_self _ _)
      · simp [logged, active, logs]
    | finish =>
      obtain ⟨_, _, _, h4⟩ := run_fin (a := a.step env .finish) (t := env.now) (by simp [Abs.step, h]) hist
      simp only [Abs.run]
      rw [h4]
      have : (a.step env .finish).stored = a.stored := by simp [Abs.step, h]
      rw [this]
      exact List.sublist_append_left _ _
    | setMaxEvents m => exact ih (a := a.step env (.setMaxEvents m)) h
    | read n s =>
      have := ih (a := a.step env (.read n s)) h
      rw [read_entries] at this
      exact this

/-- Limits are at least 10, so that something is stored before anything is left out. -/
theorem stored_first {a : Abs W A} (hist : Hist W A) (hl : 10 ≤ a.limit) (ht : 0 < a.trunc → a.stored ≠ []) :
    10 ≤ (a.run hist).limit ∧ (0 < (a.run hist).trunc → (a.run hist).stored ≠ []) := by
  induction hist generalizing a with
  | nil => exact ⟨hl, ht⟩
  | cons p hist ih =>
    obtain ⟨env, c⟩ := p
    cases c with
    | log kind f x cs =>
      refine ih (a := a.step env (.log kind f x cs)) ?_ ?_
      · simp only [Abs.step, Abs.log]
        split
        · exact hl
        · split <;> exact hl
      · simp only [Abs.step, Abs.log]
        split
        · exact ht
        · split
          · next hge =>
            intro _ he
            simp only at he hge
            rw [he] at hge
            simp at hge
            omega
          · intro _ he
            simp at he
    | finish =>
      refine ih (a := a.step env .finish) ?_ ?_
      · simp only [Abs.step]; split <;> exact hl
      · simp only [Abs.step]; split <;> exact ht
    | setMaxEvents m =>
      refine ih (a := a.step env (.setMaxEvents m)) ?_ ht
      simp only [Abs.step, clamp]
      split
      · omega
      · split <;> omega
    | read n s =>
      refine ih (a := a.step env (.read n s)) hl ?_
      intro h0 he
      have := read_entries a env n s
      rw [he] at this
      exact ht h0 (List.map_eq_nil_iff.1 this.symm)

/-- The times of the events that `Events` returns. -/
theorem shown_times (b : Base) (a : Abs W A) (env : Env W) :
    (a.read b env (-1) true).map Event.when_ =
      if 0 < a.trunc then ((a.stored.map fun s => s.entry.env.now).drop 1) ++ (if a.stored = [] then [] else [env.now])
      else a.stored.map fun s => s.entry.env.now := by
  have hw : window a.stored.length (-1) = a.stored.length := by simp [window]
  simp only [Abs.read, hw, Nat.sub_self, List.drop_zero, gt_iff_lt]
  have hm : ((a.stored.map fun s => s.event b env.w true).map Event.when_) = a.stored.map fun s => s.entry.env.now := by
    rw [List.map_map]; rfl
  split
  · rw [List.map_append, List.map_drop, hm]
    congr 1
    cases a.stored with
    | nil => rfl
    | cons s l => rfl
  · exact hm

theorem pairwise_snoc {l : List Int} (x : Int) (h : l.Pairwise (· ≤ ·)) :
    (l ++ [x]).Pairwise (· ≤ ·) ↔ ∀ y, l.getLast? = some y → y ≤ x := by
  rw [List.pairwise_append]
  constructor
  · rintro ⟨_, _, h'⟩ y hy
    exact h' y (List.mem_of_getLast? hy) x (by simp)
  · intro h'
    refine ⟨h, List.pairwise_singleton _ _, fun y hy z hz => ?_⟩
    obtain rfl := List.mem_singleton.1 hz
    obtain ⟨l', w, rfl⟩ : ∃ l' w, l = l' ++ [w] := by
      refine ⟨l.dropLast, l.getLast (List.ne_nil_of_mem hy), (List.dropLast_append_getLast _).symm⟩
    have hw := h' w (by simp)
    rcases List.mem_append.1 hy with hy | hy
    · exact Int.le_trans ((List.pairwise_append.1 h).2.2 y hy w (by simp)) hw
    · obtain rfl := List.mem_singleton.1 hy
      exact hw

/-- What a copy of a trace is made of. -/
theorem copy_times (settings : List Setting) (start : Time) (id source category : String) (old : CoreTrace A)
    (h h₁ h₂ h₃ : Hist W A) (now : Time) (env : Env W) (t : CoreTrace A) (st : Static)
    (hr : (fresh settings start id source category old).run h = some t)
    (hs : newSearchTrace t now h₁ h₂ h₃ env = some st) :
    ∃ a : Abs W A, a = (Abs.new (Globals.after settings).traceMaxEvents : Abs W A).run (h ++ (h₁ ++ h₂ ++ h₃)) ∧
      st.started = start ∧ st.duration = ((finishedAt h).getD now).sub start ∧
      st.events = a.read (freshBase settings start id source category) env (-1) true := by
  obtain ⟨t', ht', hd⟩ := C15_duration settings start id source category old h now
  rw [hr] at ht'
  obtain rfl := Option.some.inj ht'
  rw [fresh_run] at hr
  obtain rfl := Option.some.inj hr
  simp only [newSearchTrace, run_conc, bind, Option.bind_some, events'_conc, pure, Option.some.injEq] at hs
  subst hs
  refine ⟨_, rfl, rfl, hd, ?_⟩
  simp only [run_append]

/-- The times that are shown of a copy. -/
theorem copy_clock (settings : List Setting) (start : Time) (id source category : String) (old : CoreTrace A)
    (h h₁ h₂ h₃ : Hist W A) (now : Time) (env : Env W) (t : CoreTrace A) (st : Static)
    (hr : (fresh settings start id source category old).run h = some t)
    (hs : newSearchTrace t now h₁ h₂ h₃ env = some st)
    (hc : OnTime (readings start h now (h₁ ++ h₂ ++ h₃) env.now)) :
    st.started = start ∧ OneClock st ∧
      reading st.started + (show Int from st.duration) = reading ((finishedAt h).getD now) ∧
      (reading start :: st.events.map fun e => reading e.when_).Pairwise (· ≤ ·) ∧
      reading start ≤ reading ((finishedAt h).getD now) := by
  obtain ⟨a, ha, h1, h2, h3⟩ := copy_times settings start id source category old h h₁ h₂ h₃ now env t st hr hs
  obtain ⟨hk, hp⟩ := hc
  -- what is stored, by the time of the call
  have hsub : (a.stored.map fun s => s.entry.env.now).Sublist (nows h ++ nows (h₁ ++ h₂ ++ h₃)) := by
    have e := stored_logged (a := (Abs.new (Globals.after settings).traceMaxEvents : Abs W A)) rfl (h ++ (h₁ ++ h₂ ++ h₃))
    rw [← ha] at e
    have e' := (e.map fun e => e.env.now).trans (by
      simp only [Abs.new, List.map_nil, List.nil_append]
      exact logged_nows (h ++ (h₁ ++ h₂ ++ h₃)))
    rw [List.map_map] at e'
    unfold nows at e' ⊢
    rw [← List.map_append]
    exact e'
  have hev : (st.events.map Event.when_).Sublist (nows h ++ nows (h₁ ++ h₂ ++ h₃) ++ [env.now]) := by
    rw [h3, shown_times]
    split
    · refine List.Sublist.append ((List.drop_sublist _ _).trans hsub) ?_
      split
      · exact List.nil_sublist _
      · exact List.Sublist.refl _
    · exact hsub.trans (List.sublist_append_left _ _)
  have hall : (start :: st.events.map Event.when_).Sublist (readings start h now (h₁ ++ h₂ ++ h₃) env.now) := by
    refine (hev.trans ?_).cons_cons _
    rw [List.append_assoc]
    exact List.Sublist.append (List.Sublist.refl _) (List.sublist_cons_self _ _)
  have hmem : (finishedAt h).getD now ∈ readings start h now (h₁ ++ h₂ ++ h₃) env.now := by
    cases hf : finishedAt h with
    | none => simp [readings]
    | some f =>
      have := (logged_finished h f hf).subset (show f ∈ _ by simp)
      simp [readings, this]
  have hs0 : start ∈ readings start h now (h₁ ++ h₂ ++ h₃) env.now := by simp [readings]
  refine ⟨h1, ?_, ?_, ?_, ?_⟩
  · intro ev hm
    rw [h1]
    exact hk _ (hall.subset (List.mem_cons_of_mem _ (List.mem_map.2 ⟨ev, hm, rfl⟩))) _ hs0
  · rw [h1, h2]
    have := sub_reading (hk _ hmem _ hs0)
    show reading start + subI ((finishedAt h).getD now) start = _
    rw [this]
    omega
  · have := hp.sublist (hall.map reading)
    rw [List.map_cons, List.map_map] at this
    exact this
  · have h' := hp
    simp only [readings, List.map_cons] at h'
    simp only [readings, List.mem_cons] at hmem
    rcases hmem with e | hmem
    · rw [e]
    · exact (List.pairwise_cons.1 h').1 _ (List.mem_map.2 ⟨_, hmem, rfl⟩)

/-- **C115**, exactly: of a copy of a trace, whatever others do meanwhile, everything is in order up to the last event,
and so is the whole if and only if the last event is not later than the end of the trace, which is when it was finished
or else when the copy was begun. -/
theorem C115_exact (settings : List Setting) (start : Time) (id source category : String) (old : CoreTrace A)
    (h h₁ h₂ h₃ : Hist W A) (now : Time) (env : Env W) (t : CoreTrace A) (st : Static)
    (hr : (fresh settings start id source category old).run h = some t)
    (hs : newSearchTrace t now h₁ h₂ h₃ env = some st)
    (hc : OnTime (readings start h now (h₁ ++ h₂ ++ h₃) env.now)) :
    (∀ m ∈ (renderEvents st).dropLast, 0 ≤ m.delta) ∧
    (InOrder st ↔ ∀ ev, st.events.getLast? = some ev → reading ev.when_ ≤ reading ((finishedAt h).getD now)) := by
  obtain ⟨h1, h2, h3, h4, h5⟩ := copy_clock settings start id source category old h h₁ h₂ h₃ now env t st hr hs hc
  constructor
  · -- the deltas before the last are the steps between the events
    have hst := render_steps st h2
    obtain ⟨m₀, hm₀, hd₀, _, _⟩ := render_cons st
    have hne : (renderEvents st).tail ≠ [] := by
      intro e
      have := tail_length st
      rw [e] at this
      simp at this
    have hdl : ∀ (l : List Int) (p x : Int), (steps p (l ++ [x])).dropLast = steps p l := by
      intro l
      induction l with
      | nil => intro p x; rfl
      | cons y l ih =>
        intro p x
        simp only [List.cons_append, steps]
        rw [List.dropLast_cons_of_ne_nil, ih]
        cases l <;> simp [steps]
    intro m hm
    rw [hm₀, List.dropLast_cons_of_ne_nil hne] at hm
    rcases List.mem_cons.1 hm with rfl | hm
    · rw [hd₀]
    · have : m.delta ∈ ((renderEvents st).tail.map RenderEvent.delta : List Int).dropLast := by
        rw [← List.map_dropLast]
        exact List.mem_map.2 ⟨m, hm, rfl⟩
      rw [hst, hdl] at this
      exact (steps_nonneg _ _).2 (h1 ▸ h4) _ this
  · rw [inOrder_iff st h2]
    unfold times
    rw [h3, h1, ← List.cons_append, pairwise_snoc _ h4]
    constructor
    · intro hy ev hev
      refine hy _ ?_
      rw [List.getLast?_cons, List.getLast?_map, hev]
      rfl
    · intro hy y hlast
      rw [List.getLast?_cons, List.getLast?_map] at hlast
      cases hl : st.events.getLast? with
      | none =>
        rw [hl] at hlast
        simp at hlast
        omega
      | some ev =>
        rw [hl] at hlast
        simp at hlast
        have := hy ev hl
        omega

/-- **C115** (partial) A trace is shown from its start to its end if all that was logged is shown, and nothing was
logged while it was being copied, as is the case if it was finished.  Full statement: for all copies of traces, see
`C115_truncated_violated` and `C115_late_violated`. -/
theorem C115_in_order_partial (settings : List Setting) (start : Time) (id source category : String) (old : CoreTrace A)
    (h h₁ h₂ h₃ : Hist W A) (now : Time) (env : Env W) (t : CoreTrace A) (st : Static)
    (hr : (fresh settings start id source category old).run h = some t)
    (hs : newSearchTrace t now h₁ h₂ h₃ env = some st)
    (hc : OnTime (readings start h now (h₁ ++ h₂ ++ h₃) env.now))
    (hall : st.events.length = (logged h).length)
    (hq : logged (h ++ (h₁ ++ h₂ ++ h₃)) = logged h) : InOrder st := by
  refine (C115_exact settings start id source category old h h₁ h₂ h₃ now env t st hr hs hc).2.2 fun ev hev => ?_
  obtain ⟨a, ha, h1, h2, h3⟩ := copy_times settings start id source category old h h₁ h₂ h₃ now env t st hr hs
  obtain ⟨hk, hp⟩ := hc
  have hcount := run_count (a := (Abs.new (Globals.after settings).traceMaxEvents : Abs W A)) rfl (h ++ (h₁ ++ h₂ ++ h₃))
  rw [← ha, hq] at hcount
  have hsub := stored_logged (a := (Abs.new (Globals.after settings).traceMaxEvents : Abs W A)) rfl (h ++ (h₁ ++ h₂ ++ h₃))
  rw [← ha, hq] at hsub
  simp only [Abs.new, List.map_nil, List.nil_append, List.length_nil] at hsub hcount
  have hlen : st.events.length = a.stored.length := by
    have := congrArg List.length (shown_times (freshBase settings start id source category) a env)
    rw [← h3, List.length_map] at this
    rw [this]
    have hfirst := (stored_first (a := (Abs.new (Globals.after settings).traceMaxEvents : Abs W A)) (h ++ (h₁ ++ h₂ ++ h₃))
      (globals_range settings).1 (by simp [Abs.new])).2
    rw [← ha] at hfirst
    split
    · next h0 =>
      rw [if_neg (hfirst h0)]
      have := List.length_pos_iff.2 (hfirst h0)
      simp
      omega
    · simp
  have htr : a.trunc = 0 := by omega
  -- the last event is one that was logged
  have hlog : ev.when_ ∈ (logged h).map fun e => e.env.now := by
    have hm : ev.when_ ∈ st.events.map Event.when_ := List.mem_map.2 ⟨ev, List.mem_of_getLast? hev, rfl⟩
    rw [h3, shown_times, htr, if_neg (by omega)] at hm
    obtain ⟨s, hs', he⟩ := List.mem_map.1 hm
    exact List.mem_map.2 ⟨s.entry, hsub.subset (List.mem_map.2 ⟨s, hs', rfl⟩), he⟩
  have hle : (((logged h).map fun e => e.env.now) ++ [(finishedAt h).getD now]).Sublist
      (readings start h now (h₁ ++ h₂ ++ h₃) env.now) := by
    refine List.Sublist.cons _ ?_
    cases hf : finishedAt h with
    | none => exact (logged_nows h).append ((List.nil_sublist _).cons_cons _)
    | some f => exact (logged_finished h f hf).trans (List.sublist_append_left _ _)
  have := hp.sublist (hle.map reading)
  rw [List.map_append, List.pairwise_append] at this
  exact this.2.2 _ (List.mem_map.2 ⟨_, hlog, rfl⟩) _ (by simp)

/-- **C115** is violated by every trace of which not all that was logged is shown, once it is finished: the notice that
events were left out is shown at the time of the search, so that the end of the trace is shown as that much before
it. -/
theorem C115_truncated_violated (settings : List Setting) (start : Time) (id source category : String) (old : CoreTrace A)
    (h h₁ h₂ h₃ : Hist W A) (now : Time) (env : Env W) (t : CoreTrace A) (st : Static)
    (hr : (fresh settings start id source category old).run h = some t)
    (hs : newSearchTrace t now h₁ h₂ h₃ env = some st)
    (hc : OnTime (readings start h now (h₁ ++ h₂ ++ h₃) env.now))
    (f : Time) (hf : finishedAt h = some f) (hlater : reading f < reading env.now)
    (hmiss : st.events.length ≠ (logged h).length) :
    ¬ InOrder st ∧ ∃ m, (renderEvents st).getLast? = some m ∧ m.isEnd = true ∧ m.delta = reading f - reading env.now := by
  have hex := (C115_exact settings start id source category old h h₁ h₂ h₃ now env t st hr hs hc).2
  obtain ⟨c1, c2, c3, _, _⟩ := copy_clock settings start id source category old h h₁ h₂ h₃ now env t st hr hs hc
  obtain ⟨a, ha, h1, h2, h3⟩ := copy_times settings start id source category old h h₁ h₂ h₃ now env t st hr hs
  have hfin : logged (h ++ (h₁ ++ h₂ ++ h₃)) = logged h := by
    have : ∀ (h : Hist W A), finishedAt h = some f → ∀ h', active (h ++ h') = active h := by
      intro h
      induction h with
      | nil => intro hf; simp [finishedAt] at hf
      | cons p h ih =>
        obtain ⟨e, c⟩ := p
        intro hf h'
        cases c with
        | finish => rfl
        | log => exact congrArg (_ :: ·) (ih hf h')
        | setMaxEvents => exact congrArg (_ :: ·) (ih hf h')
        | read => exact congrArg (_ :: ·) (ih hf h')
    unfold logged
    rw [this h hf]
  have hcount := run_count (a := (Abs.new (Globals.after settings).traceMaxEvents : Abs W A)) rfl (h ++ (h₁ ++ h₂ ++ h₃))
  rw [← ha, hfin] at hcount
  simp only [Abs.new, List.length_nil] at hcount
  have hfirst := (stored_first (a := (Abs.new (Globals.after settings).traceMaxEvents : Abs W A)) (h ++ (h₁ ++ h₂ ++ h₃))
      (globals_range settings).1 (by simp [Abs.new])).2
  rw [← ha] at hfirst
  have htr : 0 < a.trunc := by
    refine Nat.pos_of_ne_zero fun h0 => hmiss ?_
    have := congrArg List.length (shown_times (freshBase settings start id source category) a env)
    rw [← h3, List.length_map, h0, if_neg (by omega), List.length_map] at this
    omega
  have hlast : ∃ ev, st.events.getLast? = some ev ∧ ev.when_ = env.now := by
    have := shown_times (freshBase settings start id source category) a env
    rw [← h3, if_pos htr, if_neg (hfirst htr)] at this
    have := congrArg List.getLast? this
    rw [List.getLast?_map, List.getLast?_append, List.getLast?_singleton] at this
    simpa using this
  obtain ⟨ev, hev, hw⟩ := hlast
  constructor
  · intro hin
    have := hex.1 hin ev hev
    rw [hf, hw] at this
    simp at this
    omega
  · have hrs := render_steps st c2
    rw [c3, hf] at hrs
    -- the last step
    have hls : ∀ (l : List Int) (p x y : Int), l.getLast? = some y → (steps p (l ++ [x])).getLast? = some (x - y) := by
      intro l
      induction l with
      | nil => intro p x y hy; simp at hy
      | cons z l ih =>
        intro p x y hy
        cases l with
        | nil =>
          simp at hy
          subst hy
          simp [steps]
        | cons w l =>
          have := ih z x y (by simpa using hy)
          simp only [List.cons_append, steps] at this ⊢
          rw [List.getLast?_cons_cons]
          exact this
    have hd := hls (st.events.map fun e => reading e.when_) (reading st.started) (reading ((some f).getD now)) (reading env.now)
      (by rw [List.getLast?_map, hev]; exact congrArg (fun x => some (reading x)) hw)
    rw [← hrs, List.getLast?_map] at hd
    obtain ⟨s, mid, e, hsh, _, _, _, _, _, hend, _⟩ := C67_shape st
    have hl : (renderEvents st).getLast? = some e := by rw [hsh]; exact List.getLast?_concat ..
    have ht : (renderEvents st).tail.getLast? = some e := by rw [hsh]; simp
    rw [ht] at hd
    simp only [Option.map_some, Option.some.injEq] at hd
    exact ⟨e, hl, hend, hd⟩

/-! ## Traces without a duration, and traces of other servers -/

end Trc.Wrap

namespace Trc.Web

open Core (Event Frame)

/-- **C115** is violated by every trace without a duration, as a coarse clock makes them: no share is a number, and how
long an element of the timeline is depends on the implementation. -/
theorem C115_no_duration_violated (st : Static) (h : OneClock st) (hd : st.duration = 0)
    (hev : ∀ ev ∈ st.events, reading ev.when_ = reading st.started) :
    InOrder st ∧ ∀ m ∈ timeline st, deltaPercent st m = .nan ∧ flexGrowPercent (deltaPercent st m) = none := by
  have hz : ∀ (l : List Int) (p : Int), (∀ x ∈ l, x = p) → ∀ d ∈ steps p l, d = 0 := by
    intro l
    induction l with
    | nil => intro p _ d hd; simp [steps] at hd
    | cons x l ih =>
      intro p hl d hd
      simp only [steps, List.mem_cons] at hd
      have hx := hl x (by simp)
      rcases hd with rfl | hd
      · omega
      · exact ih x (fun y hy => (hl y (by simp [hy])).trans hx.symm) d hd
  have hall : ∀ x ∈ st.events.map (fun e => reading e.when_) ++ [reading st.started + (show Int from st.duration)],
      x = reading st.started := by
    intro x hx
    rcases List.mem_append.1 hx with hx | hx
    · obtain ⟨ev, hm, rfl⟩ := List.mem_map.1 hx
      exact hev ev hm
    · obtain rfl := List.mem_singleton.1 hx
      rw [hd]
      exact Int.add_zero _
  have hst := hz _ _ hall
  rw [← render_steps st h] at hst
  constructor
  · rw [inOrder_iff st h]
    unfold times
    rw [← steps_nonneg, ← render_steps st h]
    intro d hd'
    rw [hst d hd']
  · intro m hm
    rw [timeline_eq] at hm
    have h0 : m.delta = 0 := hst _ (List.mem_map.2 ⟨m, hm, rfl⟩)
    have : deltaPercent st m = .nan := by
      unfold deltaPercent percentOf
      rw [tail_notStart st m hm, if_neg (by simp), if_pos hd, if_pos h0]
    exact ⟨this, by rw [this]; rfl⟩

/-- The wall clock ran in step with the monotonic clock, as seen by the times of the trace. -/
def InStep (st : Static) : Prop :=
  ∀ ev ∈ st.events, ev.when_.wall - st.started.wall = reading ev.when_ - reading st.started

/-- **C115** A trace of another server is shown like the same trace by the server it belongs to, if its wall clock ran
in step with its monotonic clock. -/
theorem C115_remote (st : Static) (h : OneClock st) (hw : InStep st) : InOrder (wireStatic st) ↔ InOrder st := by
  have hwire : OneClock (wireStatic st) := by
    intro ev hm
    obtain ⟨e, _, rfl⟩ := List.mem_map.1 hm
    rfl
  rw [inOrder_iff _ h, inOrder_iff _ hwire]
  have e : times st = (times (wireStatic st)).map (· + (reading st.started - st.started.wall)) := by
    unfold times wireStatic
    simp only [List.map_cons, List.map_append, List.map_map, List.map_nil]
    have e1 : reading st.started.onWire = st.started.wall := rfl
    rw [e1]
    refine congrArg₂ List.cons (by omega) (congrArg₂ (· ++ ·) (List.map_congr_left fun ev hm => ?_) (by
      congr 1; omega))
    have e2 : reading (wireEvent ev).when_ = ev.when_.wall := rfl
    have := hw ev hm
    show reading ev.when_ = reading (wireEvent ev).when_ + _
    rw [e2]
    omega
  rw [e, List.pairwise_map]
  simp only [Int.add_le_add_iff_right]

end Trc.Web

namespace Trc.Wrap.Witness

open Core Core.Spec Fmt Web

/-- **C115** is violated by a trace that is being used while it is searched: an event that is logged after the duration
was read is shown after the end of the trace. -/
theorem C115_late_violated :
    ∃ st, newSearchTrace two ⟨9, none⟩ [] [] [((env 14).toEnv, .log .tracef "c" [] [])] (env 15).toEnv = some st ∧
      ¬ InOrder st ∧ ((renderEvents st).map RenderEvent.delta).getLast? = some (-5) ∧
      ((timeline st).map (deltaPercent st)).getLast? = some (.num (-500 / 8)) := by
  refine ⟨_, rfl, ?_, by decide +kernel, by decide +kernel⟩
  intro h
  have := h.deltas
  revert this
  decide +kernel

/-- A life of `n` events, each a nanosecond after the other, and a last nanosecond. -/
def life (n : Nat) : Hist Unit String :=
  (List.range n).map (fun i => ((env (2 + i)).toEnv, Call.log .tracef "x" [] [])) ++ [((env (2 + n)).toEnv, Call.finish)]

/-- The hypotheses of `C115_in_order_partial`: three events, copied much later. -/
example : ∃ t st, (fresh [] ⟨1, none⟩ "id" "s" "c" zeroTrace : CoreTrace String).run (life 3) = some t ∧
    newSearchTrace t ⟨50, none⟩ [] [] [] (env 60).toEnv = some st ∧
    OnTime (readings ⟨1, none⟩ (life 3) ⟨50, none⟩ ([] ++ [] ++ []) (env 60).toEnv.now) ∧
    st.events.length = (logged (life 3)).length ∧ logged (life 3 ++ ([] ++ [] ++ [])) = logged (life 3) ∧
    ((timeline st).map (deltaPercent st)) = [.num 25, .num 25, .num 25, .num 25] := by
  refine ⟨_, _, rfl, rfl, ⟨by decide, by decide⟩, rfl, rfl, by decide +kernel⟩

/-- The hypotheses of `C115_truncated_violated`: eleven events of a trace that keeps ten.  Its end, a nanosecond after
the eleventh, is shown 48 nanoseconds before the notice. -/
example : ∃ t st, (fresh [.maxEvents 10] ⟨1, none⟩ "id" "s" "c" zeroTrace : CoreTrace String).run (life 11) = some t ∧
    newSearchTrace t ⟨50, none⟩ [] [] [] (env 61).toEnv = some st ∧
    OnTime (readings ⟨1, none⟩ (life 11) ⟨50, none⟩ ([] ++ [] ++ []) (env 61).toEnv.now) ∧
    finishedAt (life 11) = some ⟨13, none⟩ ∧ st.events.length ≠ (logged (life 11)).length ∧
    ((renderEvents st).map RenderEvent.delta).getLast? = some (-48) := by
  refine ⟨_, _, rfl, rfl, ⟨by decide, by decide⟩, rfl, by decide, by decide +kernel⟩

end Trc.Wrap.Witness

namespace Trc.Web

/-- A copy of a trace without a duration, of a clock that did not move, meets the hypotheses of
`C115_no_duration_violated`; and one whose clocks ran in step those of `C115_remote`. -/
example : OneClock { (default : Static) with
      started := { wall := 100, mono := some 7 }
      events := [{ when_ := { wall := 100, mono := some 7 }, what := "x", stack := [], isError := false }] } ∧
    OneClock { (default : Static) with
      started := { wall := 100, mono := some 7 }
      events := [{ when_ := { wall := 103, mono := some 10 }, what := "x", stack := [], isError := false }] } ∧
    InStep { (default : Static) with
      started := { wall := 100, mono := some 7 }
      events := [{ when_ := { wall := 103, mono := some 10 }, what := "x", stack := [], isError := false }] } := by
  unfold OneClock InStep
  decide

end Trc.Web
