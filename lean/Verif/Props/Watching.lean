import Verif.Cmd.Watching
import Verif.Web.Client
import Verif.Props.CmdStream

/-!
# C143: what the debug log of `trc stream` says about a server
-/

set_option linter.unusedVariables false
set_option linter.unusedSimpArgs false

namespace Trc.Cmd

open Trc.Web

/-! ## Specification -/

/-- When something arrived. -/
def arrivals : List WEv → List Int
  | [] => []
  | .arrives t _ :: h => t :: arrivals h
  | _ :: h => arrivals h

/-- The types of what arrived. -/
def arrivedTypes : List WEv → List String
  | [] => []
  | .arrives _ ty :: h => ty :: arrivedTypes h
  | _ :: h => arrivedTypes h

/-- The results after which the log says that there will be another try. -/
def retries : List WEv → List CRes
  | [] => []
  | .line _ (.retrying r) :: h => r :: retries h
  | _ :: h => retries h

/-- The lines of the log. -/
def linesOf : List WEv → List WLine
  | [] => []
  | .line _ l :: h => l :: linesOf h
  | _ :: h => linesOf h

/-- What an element of the history has to do with what was before it, and with what came after it. -/
def Fits (interval : Int) (pre : List WEv) (x : WEv) (post : List WEv) : Prop :=
  match x with
  | .arrives t ty => ty = "init" → ∃ p, post = .line t .connected :: p
  | .checks ts =>
    (arrivals pre = [] → ∃ t p, post = .line t .noData :: p) ∧
    ∀ q a, arrivals pre = q ++ [a] → 2 * interval < ts - a → ∃ t d p, post = .line t (.silent d) :: p
  | .line t .connected => ∃ p, pre = p ++ [.arrives t "init"]
  | .line t .noData => ∃ p ts, pre = p ++ [.checks ts] ∧ ts ≤ t ∧ arrivals p = []
  | .line t (.silent d) => ∃ p ts q a, pre = p ++ [.checks ts] ∧ ts ≤ t ∧ arrivals p = q ++ [a] ∧ 2 * interval < ts - a ∧
      100000000 ∣ d ∧ d ≤ ts - a ∧ ts - a < d + 100000000
  | .line _ _ => True

/-- Every element of the history fits. -/
def Told (interval : Int) (h : List WEv) : Prop := ∀ pre x post, h = pre ++ x :: post → Fits interval pre x post

/-- Whenever the reporter looks, something has arrived at most `gap` before. -/
def Heard (gap : Int) (h : List WEv) : Prop := ∀ pre ts post, h = pre ++ .checks ts :: post → ∃ a ∈ arrivals pre, ts - a ≤ gap

/-- The lines of the reporter. -/
def WLine.alarm : WLine → Prop
  | .noData | .silent _ => True
  | _ => False

/-- What a `Stream` has returned. -/
def resultOf (c : CSt) : Option CRes :=
  match c.pc with
  | .returned r => some r
  | _ => none

/-! ## Histories -/

theorem arrivals_append (h e : List WEv) : arrivals (h ++ e) = arrivals h ++ arrivals e := by
  induction h with
  | nil => rfl
  | cons x h ih => cases x <;> simp [arrivals, ih]

theorem arrivedTypes_append (h e : List WEv) : arrivedTypes (h ++ e) = arrivedTypes h ++ arrivedTypes e := by
  induction h with
  | nil => rfl
  | cons x h ih => cases x <;> simp [arrivedTypes, ih]

theorem linesOf_append (h e : List WEv) : linesOf (h ++ e) = linesOf h ++ linesOf e := by
  induction h with
  | nil => rfl
  | cons x h ih => cases x <;> simp [linesOf, ih]

theorem retries_append (h e : List WEv) : retries (h ++ e) = retries h ++ retries e := by
  induction h with
  | nil => rfl
  | cons x h ih =>
    cases x with
    | line t l => cases l <;> simp [retries, ih]
    | _ => simp [retries, ih]

theorem mem_linesOf {h : List WEv} {l : WLine} : l ∈ linesOf h ↔ ∃ t, WEv.line t l ∈ h := by
  induction h with
  | nil => simp [linesOf]
  | cons x h ih =>
    cases x with
    | line t l' =>
      simp only [linesOf, List.mem_cons, ih, WEv.line.injEq]
      constructor
      · rintro (rfl | ⟨t', h'⟩)
        · exact ⟨t, .inl ⟨rfl, rfl⟩⟩
        · exact ⟨t', .inr h'⟩
      · rintro ⟨t', ⟨_, rfl⟩ | h'⟩
        · exact .inl rfl
        · exact .inr ⟨t', h'⟩
    | _ => simp [linesOf, ih]

theorem split_append {α : Type} {h e pre post : List α} {x : α} (he : h ++ e = pre ++ x :: post) :
    (∃ m, pre = h ++ m ∧ e = m ++ x :: post) ∨ (∃ p, h = pre ++ x :: p ∧ post = p ++ e) := by
  rcases List.append_eq_append_iff.mp he with ⟨m, h1, h2⟩ | ⟨m, h1, h2⟩
  · exact .inl ⟨m, h1, h2⟩
  · cases m with
    | nil => exact .inl ⟨[], by simpa using h1.symm, by simpa using h2.symm⟩
    | cons y m =>
      simp only [List.cons_append, List.cons.injEq] at h2
      obtain ⟨rfl, h2⟩ := h2
      exact .inr ⟨m, h1, h2⟩

theorem fits_append {interval : Int} {pre post : List WEv} {x : WEv} (e : List WEv) (h : Fits interval pre x post) :
    Fits interval pre x (post ++ e) := by
  cases x with
  | arrives t ty =>
    intro hi
    obtain ⟨p, rfl⟩ := h hi
    exact ⟨p ++ e, rfl⟩
  | checks ts =>
    refine ⟨fun hn => ?_, fun q a hq hd => ?_⟩
    · obtain ⟨t, p, rfl⟩ := h.1 hn
      exact ⟨t, p ++ e, rfl⟩
    · obtain ⟨t, d, p, rfl⟩ := h.2 q a hq hd
      exact ⟨t, d, p ++ e, rfl⟩
  | line t l => cases l <;> exact h

theorem told_append {interval : Int} {h e : List WEv} (ht : Told interval h)
    (he : ∀ m x p, e = m ++ x :: p → Fits interval (h ++ m) x p) : Told interval (h ++ e) := by
  intro pre x post hs
  rcases split_append hs with ⟨m, rfl, hm⟩ | ⟨p, hp, rfl⟩
  · exact he m x post hm
  · exact fits_append e (ht pre x p hp)

/-! ## The invariant -/

section
variable {interval : Int}

theorem wreach_rreach {s : WSt} (h : WReach interval s) : RReach interval s.r := by
  induction h with
  | refl => exact .refl
  | snoc _ st ih =>
    cases st with
    | pass _ => exact ih
    | goes hr _ => exact .snoc ih hr
    | @reads a c b ev hs hp => exact .snoc ih (.client hs (.readEvent hp) rfl)
    | fires _ _ _ _ => exact ih
    | checks _ _ => exact ih

structure WInv (interval : Int) (s : WSt) : Prop where
  told : Told interval s.hist
  last : s.last = (arrivals s.hist).getLast?
  due : ∀ ts, s.due = some ts → ts ≤ s.now
  running : s.r.rep = .running → 0 < interval
  types : arrivedTypes s.hist = s.r.reads.map (·.type)
  order : ∀ a ∈ arrivals s.hist, a ≤ s.now
  sorted : (arrivals s.hist).Pairwise (· ≤ ·)

theorem told_line {h : List WEv} {t : Int} {l : WLine} (ht : Told interval h) (h1 : l ≠ .connected) (h2 : ¬l.alarm) :
    Told interval (h ++ [.line t l]) := by
  refine told_append ht fun m x p he => ?_
  obtain ⟨rfl, rfl, rfl⟩ : m = [] ∧ x = .line t l ∧ p = [] := by
    cases m with
    | nil => simp at he; exact ⟨rfl, he.1.symm, he.2⟩
    | cons y m => simp at he
  cases l <;> first | exact trivial | exact absurd rfl h1 | exact absurd trivial h2

theorem lineOf_plain {r r' : RSt} {l : WLine} (h : lineOf r r' = some l) : l ≠ .connected ∧ ¬l.alarm := by
  unfold lineOf at h
  split at h
  · cases h; exact ⟨by simp, id⟩
  · cases h; exact ⟨by simp, id⟩
  · cases hx : r.result with
    | none => rw [hx] at h; cases h
    | some x => rw [hx] at h; cases h; exact ⟨by simp, id⟩
  · cases h; exact ⟨by simp, id⟩
  · cases h; exact ⟨by simp, id⟩
  · cases h

theorem running_pos {r r' : RSt} (st : RStep interval r r') (h : r.rep = .running → 0 < interval) :
    r'.rep = .running → 0 < interval := by
  intro h'
  cases st <;> first | exact h h' | assumption | cases h'

theorem two_of {α : Type} {m p : List α} {a b x : α} (h : [a, b] = m ++ x :: p) :
    m = [] ∧ x = a ∧ p = [b] ∨ m = [a] ∧ x = b ∧ p = [] := by
  match m, h with
  | [], h => simp at h; exact .inl ⟨rfl, h.1.symm, h.2.symm⟩
  | [y], h => simp at h; obtain ⟨rfl, rfl, rfl⟩ := h; exact .inr ⟨rfl, rfl, rfl⟩
  | y :: z :: m, h => simp at h

theorem one_of {α : Type} {m p : List α} {a x : α} (h : [a] = m ++ x :: p) : m = [] ∧ x = a ∧ p = [] := by
  match m, h with
  | [], h => simp at h; exact ⟨rfl, h.1.symm, h.2⟩
  | y :: m, h => simp at h

theorem truncated {d : Int} (hd : 0 ≤ d) : (100000000 : Int) ∣ Util.truncate d 100000000 ∧ Util.truncate d 100000000 ≤ d ∧
    d < Util.truncate d 100000000 + 100000000 := by
  have h1 : Util.truncate d 100000000 = d - d.tmod 100000000 := by simp [Util.truncate]
  have h2 : d.tmod 100000000 = d % 100000000 := Int.tmod_eq_emod_of_nonneg hd
  rw [h1, h2]
  omega

theorem told_checks {h : List WEv} {now ts : Int} (hi : 0 < interval) (ht : Told interval h) (hd : ts ≤ now) :
    Told interval (h ++ .checks ts :: (report interval (arrivals h).getLast? ts).toList.map (.line now)) := by
  refine told_append ht fun m x p he => ?_
  cases hl : (arrivals h).getLast? with
  | none =>
    have hn : arrivals h = [] := List.getLast?_eq_none_iff.mp hl
    rw [hl] at he
    rcases two_of he with ⟨rfl, rfl, rfl⟩ | ⟨rfl, rfl, rfl⟩
    · refine ⟨fun _ => ⟨now, [], rfl⟩, fun q a hq => ?_⟩
      rw [List.append_nil, hn] at hq
      simp at hq
    · exact ⟨h, ts, rfl, hd, hn⟩
  | some a =>
    obtain ⟨q, hq⟩ : ∃ q, arrivals h = q ++ [a] := by
      obtain ⟨q, hq⟩ := List.getLast?_eq_some_iff.mp hl
      exact ⟨q, hq⟩
    rw [hl] at he
    by_cases hc : ts - a > 2 * interval
    · simp only [report, hc, if_true, Option.toList, List.map] at he
      rcases two_of he with ⟨rfl, rfl, rfl⟩ | ⟨rfl, rfl, rfl⟩
      · refine ⟨fun hn => ?_, fun _ _ _ _ => ⟨now, _, [], rfl⟩⟩
        rw [List.append_nil, hq] at hn
        simp at hn
      · obtain ⟨h1, h2, h3⟩ := truncated (d := ts - a) (by omega)
        exact ⟨h, ts, q, a, rfl, hd, hq, hc, h1, h2, h3⟩
    · simp only [report, hc, if_false, Option.toList, List.map] at he
      obtain ⟨rfl, rfl, rfl⟩ := one_of he
      refine ⟨fun hn => ?_, fun q' a' hq' hc' => ?_⟩
      · rw [List.append_nil, hq] at hn
        simp at hn
      · rw [List.append_nil, hq] at hq'
        have := (List.append_inj' hq' rfl).2
        simp only [List.cons.injEq, and_true] at this
        subst this
        exact absurd hc' hc

theorem reads_one {r : RSt} (h : RReach interval r) {a b : List CSt} {c : CSt} (hs : r.streams = a ++ c :: b)
    (hp : c.pc = .reading) : b = [] := by
  cases b with
  | nil => rfl
  | cons d b =>
    obtain ⟨⟨x, hx⟩, _⟩ := C83_one_at_a_time h hs (by simp)
    rw [hx] at hp
    cases hp

theorem winv {s : WSt} (h : WReach interval s) : WInv interval s := by
  induction h with
  | refl =>
    exact ⟨fun pre x post he => by simp at he, rfl, by simp, by simp, rfl, by simp [arrivals], by simp [arrivals]⟩
  | @snoc s s'' hs st ih =>
    cases st with
    | @pass t ht =>
      exact ⟨ih.told, ih.last, fun ts h => Int.le_trans (ih.due ts h) ht, ih.running, ih.types,
        fun a ha => Int.le_trans (ih.order a ha) ht, ih.sorted⟩
    | @goes r' hr hq =>
      have ha : arrivals (s.hist ++ (lineOf s.r r').toList.map (.line s.now)) = arrivals s.hist := by
        rw [arrivals_append]
        cases lineOf s.r r' <;> simp [arrivals]
      refine ⟨?_, ?_, ih.due, running_pos hr ih.running, ?_, ?_, ?_⟩
      · cases hl : lineOf s.r r' with
        | none => simpa using ih.told
        | some l => exact told_line ih.told (lineOf_plain hl).1 (lineOf_plain hl).2
      · simp only [ha]
        exact ih.last
      · show arrivedTypes (s.hist ++ (lineOf s.r r').toList.map (.line s.now)) = r'.reads.map (·.type)
        rw [arrivedTypes_append, hq, ← ih.types]
        cases lineOf s.r r' <;> simp [arrivedTypes]
      · simp only [ha]
        exact ih.order
      · simp only [ha]
        exact ih.sorted
    | @reads a c b ev he hp =>
      have hb := reads_one (wreach_rreach hs) he hp
      subst hb
      have hl : arrivals (WEv.arrives s.now ev.type :: (if ev.type = "init" then [.line s.now .connected] else [])) = [s.now] := by
        split <;> rfl
      have hl' : arrivedTypes (WEv.arrives s.now ev.type :: (if ev.type = "init" then [.line s.now .connected] else [])) = [ev.type] := by
        split <;> rfl
      refine ⟨?_, ?_, ih.due, ih.running, ?_, ?_, ?_⟩
      · refine told_append ih.told fun m x p hm => ?_
        by_cases hi : ev.type = "init"
        · rw [if_pos hi] at hm
          rcases two_of hm with ⟨rfl, rfl, rfl⟩ | ⟨rfl, rfl, rfl⟩
          · exact fun _ => ⟨[], rfl⟩
          · exact ⟨s.hist, by rw [hi]⟩
        · rw [if_neg hi] at hm
          obtain ⟨rfl, rfl, rfl⟩ := one_of hm
          exact fun h => absurd h hi
      · show some s.now = (arrivals (s.hist ++ _)).getLast?
        rw [arrivals_append, hl]
        simp
      · show arrivedTypes (s.hist ++ _) = List.map (·.type) (RSt.reads _)
        rw [arrivedTypes_append, hl', ih.types]
        simp [RSt.reads, he]
      · intro x hx
        rw [show ({ s with
            r := { s.r with streams := a ++ [{ c with pc := dispatch ev, read := c.read ++ [ev] }] }
            last := some s.now
            hist := s.hist ++ .arrives s.now ev.type :: (if ev.type = "init" then [.line s.now .connected] else []) } : WSt).hist =
            s.hist ++ .arrives s.now ev.type :: (if ev.type = "init" then [.line s.now .connected] else []) from rfl,
          arrivals_append, hl] at hx
        rcases List.mem_append.mp hx with hx | hx
        · exact ih.order x hx
        · rw [List.mem_singleton.mp hx]
          exact Int.le_refl _
      · show (arrivals (s.hist ++ _)).Pairwise (· ≤ ·)
        rw [arrivals_append, hl, List.pairwise_append]
        exact ⟨ih.sorted, by simp, fun x hx y hy => by rw [List.mem_singleton.mp hy]; exact ih.order x hx⟩
    | @fires t hr hn h1 h2 =>
      refine ⟨ih.told, ih.last, ?_, ih.running, ih.types, ih.order, ih.sorted⟩
      intro ts hts
      cases hd : s.due with
      | none => rw [hd] at hts; cases hts; exact Int.le_refl _
      | some x => rw [hd] at hts; cases hts; exact ih.due _ hd
    | @checks ts hr hd =>
      have hl : arrivals (WEv.checks ts :: (report interval s.last ts).toList.map (.line s.now)) = [] := by
        cases report interval s.last ts <;> rfl
      have hl' : arrivedTypes (WEv.checks ts :: (report interval s.last ts).toList.map (.line s.now)) = [] := by
        cases report interval s.last ts <;> rfl
      refine ⟨?_, ?_, by simp, ih.running, ?_, ?_, ?_⟩
      · show Told interval (s.hist ++ .checks ts :: (report interval s.last ts).toList.map (.line s.now))
        rw [ih.last]
        exact told_checks (ih.running hr) ih.told (ih.due ts hd)
      · show s.last = (arrivals (s.hist ++ _)).getLast?
        rw [arrivals_append, hl, List.append_nil]
        exact ih.last
      · show arrivedTypes (s.hist ++ _) = s.r.reads.map (·.type)
        rw [arrivedTypes_append, hl', List.append_nil]
        exact ih.types
      · intro x hx
        have hx' : x ∈ arrivals (s.hist ++ .checks ts :: (report interval s.last ts).toList.map (.line s.now)) := hx
        rw [arrivals_append, hl, List.append_nil] at hx'
        exact ih.order x hx'
      · show (arrivals (s.hist ++ _)).Pairwise (· ≤ ·)
        rw [arrivals_append, hl, List.append_nil]
        exact ih.sorted

/-! ### The streams -/

theorem returned_stays {c c' : CSt} {r : CRes} (st : CStep c c') (h : c.pc = .returned r) : c'.pc = .returned r := by
  cases st <;> simp_all

theorem cancelLast_results (l : List CSt) : (cancelLast l).map resultOf = l.map resultOf := by
  induction l with
  | nil => rfl
  | cons c l ih =>
    cases l with
    | nil => rfl
    | cons d l => simpa [cancelLast] using ih

/-- How many streams have been ended by the end of the context. -/
def doneLines (h : List WEv) : Nat := (linesOf h).count .streamDone

structure SInv (s : WSt) : Prop where
  results : (s.r.streams.map resultOf).take (retries s.hist).length = (retries s.hist).map some
  length : s.r.streams.length = (retries s.hist).length + doneLines s.hist + (if s.r.pc = .select then 1 else 0)
  done : doneLines s.hist ≤ 1
  going : (s.r.pc = .start ∨ s.r.pc = .top ∨ s.r.pc = .select ∨ s.r.pc = .sleeping) → doneLines s.hist = 0
  ended : doneLines s.hist = 1 → s.r.ctx = true
  stopped : .stopped ∈ linesOf s.hist → s.r.pc = .leaving ∨ s.r.pc = .returned
  once : (linesOf s.hist).count .stopped ≤ 1

theorem take_results_of_forall {α β : Type} {f : α → Option β} : ∀ {l l' : List α} {R : List β}, l.length = l'.length →
    (∀ i (h : i < l.length) (h' : i < l'.length) r, f l[i] = some r → f l'[i] = some r) →
    (l.map f).take R.length = R.map some → (l'.map f).take R.length = R.map some
  | [], [], R, _, _, h => h
  | c :: l, d :: l', [], _, _, _ => rfl
  | c :: l, d :: l', r :: R, hl, hf, h => by
    simp only [List.map_cons, List.length_cons, List.take_succ_cons, List.cons.injEq] at h ⊢
    refine ⟨hf 0 (by simp) (by simp) r h.1, take_results_of_forall (by simpa using hl) (fun i h1 h2 x hx => ?_) h.2⟩
    exact hf (i + 1) (by simpa using h1) (by simpa using h2) x hx

theorem client_results {r : RSt} {a b : List CSt} {c c' : CSt} {R : List CRes} (he : r.streams = a ++ c :: b) (st : CStep c c')
    (h : (r.streams.map resultOf).take R.length = R.map some) : ((a ++ c' :: b).map resultOf).take R.length = R.map some := by
  rw [he] at h
  refine take_results_of_forall (by simp) (fun i h1 h2 x hx => ?_) h
  by_cases hi : i < a.length
  · rw [List.getElem_append_left hi] at hx ⊢
    exact hx
  · rw [List.getElem_append_right (by omega)] at hx ⊢
    by_cases h0 : i - a.length = 0
    · simp only [h0, List.getElem_cons_zero] at hx ⊢
      have : c.pc = .returned x := by
        unfold resultOf at hx
        split at hx
        · next r hr => cases hx; exact hr
        · cases hx
      simp [resultOf, returned_stays st this]
    · obtain ⟨k, hk⟩ : ∃ k, i - a.length = k + 1 := ⟨i - a.length - 1, by omega⟩
      simp only [hk, List.getElem_cons_succ] at hx ⊢
      exact hx

theorem lineOf_same {r r' : RSt} (h : r'.pc = r.pc) : lineOf r r' = none := by
  unfold lineOf
  rw [h]
  cases r.pc <;> rfl

theorem result_of_last {r : RSt} {a : List CSt} {c : CSt} {x : CRes} (he : r.streams = a ++ [c]) (hp : c.pc = .returned x) :
    r.result = some x := by
  obtain ⟨ctx, closed, gone, pc, read, sent⟩ := c
  simp only at hp
  subst hp
  simp [RSt.result, he]

/-- A step of one of the goroutines that writes nothing. -/
theorem sinv_quiet {s : WSt} {r' : RSt} {next : Int} (ih : SInv s) (hp : r'.pc = s.r.pc) (hc : s.r.ctx = true → r'.ctx = true)
    (hl : r'.streams.length = s.r.streams.length)
    (hr : (r'.streams.map resultOf).take (retries s.hist).length = (retries s.hist).map some) :
    SInv { s with r := r', next := next, hist := s.hist ++ (lineOf s.r r').toList.map (.line s.now) } := by
  have e : s.hist ++ (lineOf s.r r').toList.map (.line s.now) = s.hist := by simp [lineOf_same hp]
  refine ⟨?_, ?_, ?_, ?_, ?_, ?_, ?_⟩ <;> simp only [e]
  · exact hr
  · rw [hl, hp]; exact ih.length
  · exact ih.done
  · rw [hp]; exact ih.going
  · exact fun h => hc (ih.ended h)
  · rw [hp]; exact ih.stopped
  · exact ih.once

theorem sinv {s : WSt} (hi : 0 < interval) (h : WReach interval s) : SInv s := by
  induction h with
  | refl => exact ⟨rfl, rfl, by decide, by simp [doneLines, linesOf], by simp [doneLines, linesOf], by simp [linesOf], by decide⟩
  | @snoc s s'' hs st ih =>
    have hri := rreach_inv (wreach_rreach hs)
    cases st with
    | pass _ => exact ⟨ih.1, ih.2, ih.3, ih.4, ih.5, ih.6, ih.7⟩
    | fires _ _ _ _ => exact ⟨ih.1, ih.2, ih.3, ih.4, ih.5, ih.6, ih.7⟩
    | @reads a c b ev he hp =>
      have e1 : retries (s.hist ++ .arrives s.now ev.type :: (if ev.type = "init" then [.line s.now .connected] else [])) = retries s.hist := by
        rw [retries_append]; split <;> simp [retries]
      have e2 : ∀ l, l ≠ .connected → (linesOf (s.hist ++ .arrives s.now ev.type :: (if ev.type = "init" then [.line s.now .connected] else []))).count l =
          (linesOf s.hist).count l := by
        intro l hl
        rw [linesOf_append]; split <;> simp [linesOf, List.count_cons, Ne.symm hl]
      have e3 : doneLines (s.hist ++ .arrives s.now ev.type :: (if ev.type = "init" then [.line s.now .connected] else [])) = doneLines s.hist :=
        e2 _ (by simp)
      refine ⟨?_, ?_, ?_, ?_, ?_, ?_, ?_⟩
      · simp only [e1]
        exact client_results he (.readEvent hp) ih.results
      · have := ih.length
        simp only [e1, e3]
        rw [he] at this
        simpa using this
      · simp only [e3]; exact ih.done
      · simp only [e3]; exact ih.going
      · simp only [e3]; exact ih.ended
      · intro hm
        apply ih.stopped
        rw [← List.count_pos_iff] at hm ⊢
        simpa [e2] using hm
      · simp only [e2 WLine.stopped (by simp)]; exact ih.once
    | @checks ts hr hd =>
      have e1 : retries (s.hist ++ .checks ts :: (report interval s.last ts).toList.map (.line s.now)) = retries s.hist := by
        rw [retries_append]
        unfold report
        split
        · simp [retries]
        · split <;> simp [retries]
      have e2 : ∀ l, ¬l.alarm → (linesOf (s.hist ++ .checks ts :: (report interval s.last ts).toList.map (.line s.now))).count l =
          (linesOf s.hist).count l := by
        intro l hl
        rw [linesOf_append]
        unfold report
        split
        · have : WLine.noData ≠ l := fun h => hl (h ▸ trivial)
          simp [linesOf, List.count_cons, this]
        · next t _ =>
          split
          · have : WLine.silent (Util.truncate (ts - t) 100000000) ≠ l := fun h => hl (h ▸ trivial)
            simp [linesOf, List.count_cons, this]
          · simp [linesOf]
      have e3 : doneLines (s.hist ++ .checks ts :: (report interval s.last ts).toList.map (.line s.now)) = doneLines s.hist := e2 _ id
      refine ⟨?_, ?_, ?_, ?_, ?_, ?_, ?_⟩
      · simp only [e1]; exact ih.results
      · simp only [e1, e3]; exact ih.length
      · simp only [e3]; exact ih.done
      · simp only [e3]; exact ih.going
      · simp only [e3]; exact ih.ended
      · intro hm
        apply ih.stopped
        rw [← List.count_pos_iff] at hm ⊢
        simpa [e2 WLine.stopped id] using hm
      · simp only [e2 WLine.stopped id]; exact ih.once
    | @goes r' hr hq =>
      cases hr with
      | parentDone =>
        refine sinv_quiet ih rfl (fun _ => rfl) (by simp) ?_
        have : (s.r.streams.map CSt.done).map resultOf = s.r.streams.map resultOf := by
          rw [List.map_map]; rfl
        rw [this]
        exact ih.results
      | @client a c c' b he st hc =>
        exact sinv_quiet ih rfl id (by simp [he]) (client_results he st ih.results)
      | ticker hb _ => exact sinv_quiet ih rfl id rfl ih.results
      | tickerPanics _ h => exact absurd h (by omega)
      | reporterDone _ _ => exact sinv_quiet ih rfl id rfl ih.results
      | spawn hp => 
        have hl : lineOf s.r { s.r with pc := .top, rep := .born } = some .starting := by simp [lineOf, hp]
        have h0 := ih.going (.inl hp)
        have hn := ih.length
        rw [hp] at hn
        rw [hl]
        have hst : WLine.stopped ∉ linesOf s.hist := fun h => by have := ih.stopped h; rw [hp] at this; rcases this with h | h <;> cases h
        refine ⟨?_, ?_, ?_, ?_, ?_, ?_, ?_⟩
        · simpa [retries_append, retries] using ih.results
        · simpa [retries_append, retries, doneLines, linesOf_append, linesOf] using hn
        · simpa [doneLines, linesOf_append, linesOf] using ih.done
        · intro _; simpa [doneLines, linesOf_append, linesOf] using h0
        · simpa [doneLines, linesOf_append, linesOf] using ih.ended
        · intro h; simp [linesOf_append, linesOf] at h; exact absurd h hst
        · simpa [linesOf_append, linesOf] using ih.once
      | begin hp hc =>
        have hl : lineOf s.r { s.r with pc := .select, streams := s.r.streams ++ [{}] } = none := by simp [lineOf, hp]
        have h0 := ih.going (.inr (.inl hp))
        have hn := ih.length
        rw [hp] at hn
        rw [hl]
        have hst : WLine.stopped ∉ linesOf s.hist := fun h => by have := ih.stopped h; rw [hp] at this; rcases this with h | h <;> cases h
        have hlen : (retries s.hist).length ≤ (s.r.streams.map resultOf).length := by rw [List.length_map]; omega
        refine ⟨?_, ?_, ?_, ?_, ?_, ?_, ?_⟩ <;> simp only [Option.toList, List.map_nil, List.append_nil]
        · rw [List.map_append, List.take_append_of_le_length hlen]; exact ih.results
        · simp at hn ⊢; omega
        · exact ih.done
        · intro _; exact h0
        · exact ih.ended
        · exact fun h => absurd h hst
        · exact ih.once
      | exit hp hc =>
        have hl : lineOf s.r { s.r with pc := .leaving } = some .stopped := by simp [lineOf, hp]
        have h0 := ih.going (.inr (.inl hp))
        have hn := ih.length
        rw [hp] at hn
        rw [hl]
        have hst : WLine.stopped ∉ linesOf s.hist := fun h => by have := ih.stopped h; rw [hp] at this; rcases this with h | h <;> cases h
        refine ⟨?_, ?_, ?_, ?_, ?_, ?_, ?_⟩
        · simpa [retries_append, retries] using ih.results
        · simpa [retries_append, retries, doneLines, linesOf_append, linesOf] using hn
        · simpa [doneLines, linesOf_append, linesOf] using ih.done
        · simp
        · simpa [doneLines, linesOf_append, linesOf] using ih.ended
        · exact fun _ => .inl rfl
        · simp [linesOf_append, linesOf, List.count_eq_zero.mpr hst]
      | @subctxDone a c hp he hc =>
        have hl : lineOf s.r { s.r with pc := .stopping, streams := cancelLast s.r.streams } = some .streamDone := by simp [lineOf, hp]
        have h0 := ih.going (.inr (.inr (.inl hp)))
        have hn := ih.length
        rw [hp] at hn
        rw [hl]
        have hst : WLine.stopped ∉ linesOf s.hist := fun h => by have := ih.stopped h; rw [hp] at this; rcases this with h | h <;> cases h
        have hctx : s.r.ctx = true := by
          cases hx : s.r.ctx with
          | true => rfl
          | false => rw [hri.sub hp hx a c he] at hc; cases hc
        have hcl : (cancelLast s.r.streams).length = s.r.streams.length := by
          have := congrArg List.length (cancelLast_results s.r.streams)
          simpa using this
        refine ⟨?_, ?_, ?_, ?_, ?_, ?_, ?_⟩
        · simpa [retries_append, retries, cancelLast_results] using ih.results
        · simp [retries_append, retries, doneLines, linesOf_append, linesOf, hcl] at hn ⊢; omega
        · simp [doneLines, linesOf_append, linesOf] at h0 ⊢; omega
        · simp
        · exact fun _ => hctx
        · intro h; simp [linesOf_append, linesOf] at h; exact absurd h hst
        · simpa [linesOf_append, linesOf] using ih.once
      | @stopped a c x hp he hx =>
        have hl : lineOf s.r { s.r with pc := .leaving } = some .stopped := by simp [lineOf, hp]
        have hn := ih.length
        rw [hp] at hn
        rw [hl]
        have hst : WLine.stopped ∉ linesOf s.hist := fun h => by have := ih.stopped h; rw [hp] at this; rcases this with h | h <;> cases h
        refine ⟨?_, ?_, ?_, ?_, ?_, ?_, ?_⟩
        · simpa [retries_append, retries] using ih.results
        · simpa [retries_append, retries, doneLines, linesOf_append, linesOf] using hn
        · simpa [doneLines, linesOf_append, linesOf] using ih.done
        · simp
        · simpa [doneLines, linesOf_append, linesOf] using ih.ended
        · exact fun _ => .inl rfl
        · simp [linesOf_append, linesOf, List.count_eq_zero.mpr hst]
      | @failed a c x hp he hx =>
        have hl : lineOf s.r { s.r with pc := .sleeping, streams := cancelLast s.r.streams } = some (.retrying x) := by
          simp [lineOf, hp, result_of_last he hx]
        have h0 := ih.going (.inr (.inr (.inl hp)))
        have hn := ih.length
        rw [hp] at hn
        rw [hl]
        have hst : WLine.stopped ∉ linesOf s.hist := fun h => by have := ih.stopped h; rw [hp] at this; rcases this with h | h <;> cases h
        have hcl : (cancelLast s.r.streams).length = s.r.streams.length := by
          have := congrArg List.length (cancelLast_results s.r.streams)
          simpa using this
        have hlen : a.length = (retries s.hist).length := by
          rw [he] at hn; simp [h0] at hn; omega
        refine ⟨?_, ?_, ?_, ?_, ?_, ?_, ?_⟩
        · have h1 := ih.results
          simp only [Option.toList, List.map_cons, List.map_nil, retries_append, retries, cancelLast_results, List.length_append,
            List.length_singleton, List.map_append]
          rw [he, List.map_append, List.take_append_of_le_length (by simp [hlen])] at h1
          rw [List.take_of_length_le (by simp [hlen])] at h1
          rw [List.take_of_length_le (by simp [he, hlen]), he, List.map_append, h1]
          simp [resultOf, hx]
        · simp [retries_append, retries, doneLines, linesOf_append, linesOf, hcl] at hn ⊢; omega
        · simpa [doneLines, linesOf_append, linesOf] using ih.done
        · intro _; simpa [doneLines, linesOf_append, linesOf] using h0
        · simpa [doneLines, linesOf_append, linesOf] using ih.ended
        · intro h; simp [linesOf_append, linesOf] at h; exact absurd h hst
        · simpa [linesOf_append, linesOf] using ih.once
      | wake hp =>
        have hl : lineOf s.r { s.r with pc := .top } = none := by simp [lineOf, hp]
        have h0 := ih.going (.inr (.inr (.inr hp)))
        have hn := ih.length
        rw [hp] at hn
        rw [hl]
        have hst : WLine.stopped ∉ linesOf s.hist := fun h => by have := ih.stopped h; rw [hp] at this; rcases this with h | h <;> cases h
        refine ⟨?_, ?_, ?_, ?_, ?_, ?_, ?_⟩ <;> simp only [Option.toList, List.map_nil, List.append_nil]
        · exact ih.results
        · simpa using hn
        · exact ih.done
        · intro _; exact h0
        · exact ih.ended
        · exact fun h => absurd h hst
        · exact ih.once
      | leave hp hrep =>
        have hl : lineOf s.r { s.r with pc := .returned } = none := by simp [lineOf, hp]
        have hn := ih.length
        rw [hp] at hn
        rw [hl]
        refine ⟨?_, ?_, ?_, ?_, ?_, ?_, ?_⟩ <;> simp only [Option.toList, List.map_nil, List.append_nil]
        · exact ih.results
        · simpa using hn
        · exact ih.done
        · simp
        · exact ih.ended
        · exact fun _ => .inr trivial
        · exact ih.once

theorem WSteps.trans {a b c : WSt} (h : WSteps interval a b) (k : WSteps interval b c) : WSteps interval a c := by
  induction k with
  | refl => exact h
  | snoc _ st ih => exact .snoc ih st

theorem lineOf_stopped {r r' : RSt} (st : RStep interval r r') (hp : r.pc = .leaving ∨ r.pc = .returned) : lineOf r r' = none := by
  cases st <;> first | exact lineOf_same rfl | (simp_all [lineOf]; done) | (rcases hp with h | h <;> simp_all [lineOf])

/-- After `stopped` there are only lines of the reporter. -/
def Last (h : List WEv) : Prop := ∀ pre t post, h = pre ++ .line t .stopped :: post →
  ∀ x ∈ post, (∃ ts, x = .checks ts) ∨ ∃ t' l, x = .line t' l ∧ l.alarm

theorem last_append {h e : List WEv} (hl : Last h) (h1 : ∀ m t p, e = m ++ .line t .stopped :: p → p = [])
    (h2 : .stopped ∈ linesOf h → ∀ x ∈ e, (∃ ts, x = .checks ts) ∨ ∃ t' l, x = .line t' l ∧ l.alarm) : Last (h ++ e) := by
  intro pre t post he x hx
  rcases split_append he with ⟨m, rfl, hm⟩ | ⟨p, hp, rfl⟩
  · rw [h1 m t post hm] at hx
    cases hx
  · rcases List.mem_append.mp hx with hx | hx
    · exact hl pre t p hp x hx
    · exact h2 (mem_linesOf.mpr ⟨t, by rw [hp]; simp⟩) x hx

theorem report_alarm {last : Option Int} {ts : Int} {l : WLine} (h : report interval last ts = some l) : l.alarm := by
  unfold report at h
  split at h
  · cases h; trivial
  · split at h
    · cases h; trivial
    · cases h

theorem last_inv {s : WSt} (hi : 0 < interval) (h : WReach interval s) : Last s.hist := by
  induction h with
  | refl => intro pre t post he; simp at he
  | @snoc s s'' hs st ih =>
    have hsi := sinv hi hs
    have hri := rreach_inv (wreach_rreach hs)
    cases st with
    | pass _ => exact ih
    | fires _ _ _ _ => exact ih
    | @goes r' hr hq =>
      refine last_append ih (fun m t p he => ?_) (fun hst x hx => ?_)
      · cases hl : lineOf s.r r' with
        | none => rw [hl] at he; simp at he
        | some l => rw [hl] at he; exact (one_of he).2.2
      · rw [lineOf_stopped hr (hsi.stopped hst)] at hx
        simp at hx
    | @reads a c b ev he hp =>
      refine last_append ih (fun m t p hm => ?_) (fun hst x hx => ?_)
      · split at hm
        · rcases two_of hm with ⟨_, h, _⟩ | ⟨_, h, _⟩ <;> cases h
        · have := (one_of hm).2.1; cases this
      · have hend : Ended c := by
          apply hri.quiet
          · rcases hsi.stopped hst with h | h <;> rw [h] <;> rfl
          · rw [he]; simp
        obtain ⟨⟨r, hr⟩, _⟩ := hend
        rw [hr] at hp
        cases hp
    | @checks ts hr hd =>
      refine last_append ih (fun m t p hm => ?_) (fun hst x hx => ?_)
      · cases hl : report interval s.last ts with
        | none => rw [hl] at hm; have := (one_of hm).2.1; cases this
        | some l =>
          rw [hl] at hm
          rcases two_of hm with ⟨_, h, _⟩ | ⟨_, h, _⟩
          · cases h
          · cases h
            exact absurd (report_alarm hl) id
      · cases hl : report interval s.last ts with
        | none => rw [hl] at hx; simp at hx; exact .inl ⟨ts, hx⟩
        | some l =>
          rw [hl] at hx
          simp at hx
          rcases hx with rfl | rfl
          · exact .inl ⟨ts, rfl⟩
          · exact .inr ⟨s.now, l, rfl, report_alarm hl⟩

/-! ## C143 -/

/-- **C143** What the debug log says about a server is so: every `init` event is told as it arrives; whenever the reporter looks,
the log says so if nothing has arrived at all, or if what arrived last is older than two intervals, and then how old it is, to a
tenth of a second; and only then. What arrived is all that the streams have read. -/
theorem C143_told {s : WSt} (h : WReach interval s) : Told interval s.hist ∧ arrivedTypes s.hist = s.r.reads.map (·.type) ∧
    ∀ a ∈ arrivals s.hist, a ≤ s.now :=
  ⟨(winv h).told, (winv h).types, (winv h).order⟩

/-- **C143** As long as it is not told to stop, every stream but one that is still going on has its line in the log, with what it
returned, in order. -/
theorem C143_tries {s : WSt} (hi : 0 < interval) (h : WReach interval s) :
    (s.r.streams.map resultOf).take (retries s.hist).length = (retries s.hist).map some ∧
    (s.r.ctx = false → s.r.streams.length = (retries s.hist).length + if s.r.pc = .select then 1 else 0) := by
  have hs := sinv hi h
  refine ⟨hs.results, fun hc => ?_⟩
  have h0 : doneLines s.hist = 0 := by
    have h1 := hs.done
    have h2 := hs.ended
    rw [hc] at h2
    have : ¬doneLines s.hist = 1 := fun h => by cases h2 h
    omega
  have := hs.length
  rw [h0] at this
  simpa using this

/-- **C143** As long as the reporter runs it can look, whatever else happens. -/
theorem C143_looks {s : WSt} (h : WReach interval s) (hr : s.r.rep = .running) :
    ∃ s' ts l, WSteps interval s s' ∧ s'.hist = s.hist ++ .checks ts :: l ∧ arrivals l = [] := by
  have hi : 0 < interval := (winv h).running hr
  have key : ∀ s : WSt, s.r.rep = .running → ∀ ts, s.due = some ts →
      ∃ s' ts l, WSteps interval s s' ∧ s'.hist = s.hist ++ .checks ts :: l ∧ arrivals l = [] := by
    intro s hr ts hd
    refine ⟨_, ts, _, .snoc .refl (.checks hr hd), rfl, ?_⟩
    cases report interval s.last ts <;> rfl
  cases hd : s.due with
  | some ts => exact key s hr ts hd
  | none =>
    have h1 : WSteps interval s { s with now := max s.now s.next } := .snoc .refl (.pass (by omega))
    have h2 := WSteps.snoc h1 (.fires (t := max s.now s.next + interval) hr (by show s.next ≤ max s.now s.next; omega)
      (by show max s.now s.next < _; omega) (by show max s.now s.next + interval ≤ max s.now s.next + interval; omega))
    obtain ⟨s', ts, l, h3, h4, h5⟩ := key { s with now := max s.now s.next, due := some (s.due.getD (max s.now s.next)), next := max s.now s.next + interval } hr _ rfl
    exact ⟨s', ts, l, h2.trans h3, h4, h5⟩

theorem heard_quiet {s : WSt} {gap : Int} (h : WReach interval s) (hg : gap ≤ 2 * interval) (hh : Heard gap s.hist) :
    ∀ l ∈ linesOf s.hist, ¬l.alarm := by
  intro l hl ha
  have hw := winv h
  obtain ⟨t, ht⟩ := mem_linesOf.mp hl
  obtain ⟨pre, post, he⟩ := List.append_of_mem ht
  have hf := hw.told pre _ post he
  cases l with
  | noData =>
    obtain ⟨p, ts, rfl, _, hn⟩ := hf
    obtain ⟨a, ha, _⟩ := hh p ts _ (by rw [he, List.append_assoc]; rfl)
    rw [hn] at ha
    cases ha
  | silent d =>
    obtain ⟨p, ts, q, a, rfl, _, hq, hlt, _⟩ := hf
    obtain ⟨b, hb, hba⟩ := hh p ts _ (by rw [he, List.append_assoc]; rfl)
    have hsort := hw.sorted
    rw [he, arrivals_append, arrivals_append, hq] at hsort
    have hle : b ≤ a := by
      rw [hq] at hb
      rcases List.mem_append.mp hb with hb | hb
      · have := (List.pairwise_append.mp (List.pairwise_append.mp (List.pairwise_append.mp hsort).1).1).2.2
        exact this b hb a (by simp)
      · rw [List.mem_singleton.mp hb]
        exact Int.le_refl _
    omega
  | _ => exact ha

/-- What `trc stream --stats-interval` asks the server for. -/
def askedInterval (interval : Int) : Int := StreamClient.statsInterval (StreamClient.initialize { uri := [], statsInterval := interval })

theorem asked_eq (h : 0 < interval) : askedInterval interval =
    if interval < 1000000000 then 1000000000 else if interval > 60000000000 then 60000000000 else interval := by
  have : ¬interval = 0 := by omega
  show forceInterval interval 10000000000 1000000000 60000000000 = _
  simp [forceInterval, this]

/-- The look number `k`, on time, at a server whose first event arrived at `x`. -/
theorem look_on_time {s : WSt} {x : Int} (hr : s.r.rep = .running) (hn : s.next ≤ s.now + interval) (h0 : s.now ≤ s.next) (hi : 0 < interval)
    (hd : s.due = none) (hl : s.last = some x) :
    ∃ s', WSteps interval s s' ∧ s'.r = s.r ∧ s'.now = s.next ∧ s'.next = s.next + interval ∧ s'.due = none ∧ s'.last = some x ∧
      s'.hist = s.hist ++ .checks s.next :: (report interval (some x) s.next).toList.map (.line s.next) := by
  have h1 : WSteps interval s { s with now := s.next } := .snoc .refl (.pass h0)
  have h2 := WSteps.snoc h1 (.fires (t := s.next + interval) hr (Int.le_refl _) (by show s.next < s.next + interval; omega) (Int.le_refl _))
  have h3 := WSteps.snoc h2 (.checks (ts := s.next) hr (by simp [hd]))
  refine ⟨_, h3, rfl, rfl, rfl, rfl, hl, ?_⟩
  show s.hist ++ .checks s.next :: (report interval s.last s.next).toList.map (.line s.next) = _
  rw [hl]

/-- **C143** Say that whenever the reporter looks, something has arrived no longer ago than the interval at which the server has
been asked to send statistics. Then the log can report the server silent if and only if `--stats-interval` is less than half a
second: the client asks for at least one second, and the reporter does not know. -/
theorem C143_heard_exact (hi : 0 < interval) :
    (∃ s l, WReach interval s ∧ Heard (askedInterval interval) s.hist ∧ l ∈ linesOf s.hist ∧ l.alarm) ↔ interval < 500000000 := by
  constructor
  · rintro ⟨s, l, h, hh, hl, ha⟩
    rcases Int.lt_or_le interval 500000000 with hlt | hge
    · exact hlt
    · refine absurd ha (heard_quiet h ?_ hh l hl)
      rw [asked_eq hi]
      split
      · omega
      · split <;> omega
  · intro hlt
    have hg : askedInterval interval = 1000000000 := by rw [asked_eq hi, if_pos (by omega)]
    obtain ⟨x, hx0, hx1, hx2, hx3⟩ : ∃ x : Int, 0 ≤ x ∧ x ≤ interval ∧ 2 * interval < 3 * interval - x ∧ 3 * interval - x ≤ 1000000000 := by
      refine ⟨max 0 (3 * interval - 999999999), ?_, ?_, ?_, ?_⟩ <;> omega
    -- the reporter starts, the stream begins, and `init` arrives at `x`
    have h1 : WReach interval _ := .snoc .refl (.goes (s := {}) (.spawn rfl) rfl)
    have h2 := WSteps.snoc h1 (.goes (.ticker rfl hi) rfl)
    have h3 := WSteps.snoc h2 (.goes (.begin rfl rfl) (by simp [RSt.reads]))
    have h4 := WSteps.snoc h3 (.pass (t := x) hx0)
    have h5 := WSteps.snoc h4 (.reads (a := []) (c := {}) (b := []) (ev := ⟨"init", none⟩) rfl rfl)
    obtain ⟨s0, hs0⟩ : ∃ s0, WReach interval s0 ∧ s0.r.rep = .running ∧ s0.now = x ∧ s0.next = interval ∧ s0.due = none ∧
        s0.last = some x ∧ s0.hist = [.line 0 .starting, .arrives x "init", .line x .connected] :=
      ⟨_, h5, rfl, rfl, by simp, rfl, rfl, by simp [lineOf]⟩
    obtain ⟨r0, p0, n0, e0, d0, l0, g0⟩ := hs0
    obtain ⟨s1, r1, p1, n1, e1, d1, l1, g1⟩ := look_on_time (interval := interval) p0 (by omega) (by omega) hi d0 l0
    rw [← p1] at p0
    obtain ⟨s2, r2, p2, n2, e2, d2, l2, g2⟩ := look_on_time (interval := interval) p0 (by omega) (by omega) hi d1 l1
    rw [← p2] at p0
    obtain ⟨s3, r3, p3, n3, e3, d3, l3, g3⟩ := look_on_time (interval := interval) p0 (by omega) (by omega) hi d2 l2
    have t1 : s0.next = interval := e0
    have t2 : s1.next = 2 * interval := by omega
    have t3 : s2.next = 3 * interval := by omega
    rw [t1] at g1; rw [t2] at g2; rw [t3] at g3
    have q1 : report interval (some x) interval = none := by simp [report]; omega
    have q2 : report interval (some x) (2 * interval) = none := by simp [report]; omega
    have q3 : report interval (some x) (3 * interval) = some (.silent (Util.truncate (3 * interval - x) 100000000)) := by
      simp [report]; omega
    rw [q1, g0] at g1; rw [q2, g1] at g2; rw [q3, g2] at g3
    refine ⟨s3, .silent (Util.truncate (3 * interval - x) 100000000), (r0.trans r1).trans (r2.trans r3), ?_, ?_, trivial⟩
    · rw [hg]
      intro pre ts post he
      rw [g3] at he
      simp only [Option.toList, List.map_nil, List.map_cons, List.cons_append, List.nil_append, List.append_assoc] at he
      match pre, he with
      | [], he => simp at he
      | [a], he => simp at he
      | [a, b], he => simp at he
      | [a, b, c], he =>
        simp at he
        obtain ⟨rfl, rfl, rfl, rfl, _⟩ := he
        exact ⟨x, by simp [arrivals], by omega⟩
      | [a, b, c, d], he =>
        simp at he
        obtain ⟨rfl, rfl, rfl, rfl, rfl, _⟩ := he
        exact ⟨x, by simp [arrivals], by omega⟩
      | [a, b, c, d, e], he =>
        simp at he
        obtain ⟨rfl, rfl, rfl, rfl, rfl, rfl, _⟩ := he
        exact ⟨x, by simp [arrivals], by omega⟩
      | [a, b, c, d, e, f], he => simp at he
      | a :: b :: c :: d :: e :: f :: g :: pre, he => simp at he
    · rw [g3, linesOf_append]
      simp [linesOf]

/-- **C143** After `stopped` nothing is written about the server but by the reporter, and once `runStream` has returned nothing
at all. -/
theorem C143_stopped_partial {s : WSt} (hi : 0 < interval) (h : WReach interval s) :
    (∀ pre t post, s.hist = pre ++ .line t .stopped :: post →
      ∀ x ∈ post, (∃ ts, x = .checks ts) ∨ ∃ t' l, x = .line t' l ∧ l.alarm) ∧
    (s.r.pc = .returned → ∀ s', WSteps interval s s' → s'.hist = s.hist) := by
  refine ⟨last_inv hi h, fun hp s' hs => ?_⟩
  have hgone : ∀ {u : WSt}, WSteps interval s u → WReach interval u ∧ u.r.pc = .returned ∧ u.hist = s.hist := by
    intro u hu
    induction hu with
    | refl => exact ⟨h, hp, rfl⟩
    | @snoc u v hu st ih =>
      obtain ⟨h1, h2, h3⟩ := ih
      refine ⟨.snoc h1 st, ?_⟩
      have hcl := C83_cleans_up (wreach_rreach h1) h2
      cases st with
      | pass _ => exact ⟨h2, h3⟩
      | fires hr _ _ _ => rw [hcl.2.1] at hr; cases hr
      | checks hr _ => rw [hcl.2.1] at hr; cases hr
      | @reads a c b ev he hpc =>
        obtain ⟨⟨r, hr⟩, _⟩ := hcl.2.2 c (by rw [he]; simp)
        rw [hr] at hpc
        cases hpc
      | @goes r' hr hq =>
        have hl := lineOf_stopped hr (.inr h2)
        refine ⟨?_, ?_⟩
        · show r'.pc = .returned
          cases hr <;> simp_all
        · show u.hist ++ (lineOf u.r r').toList.map (.line u.now) = s.hist
          rw [hl, h3]
          simp
  exact (hgone hs).2.2

end

/-- **C143** The log can say `no data` of a server after it has said `stopped`: `runStream` writes that before it waits for the
reporter. -/
theorem C143_stopped_violated {interval : Int} (hi : 0 < interval) : ∃ s pre t t' post, WReach interval s ∧
    s.hist = pre ++ .line t .stopped :: post ∧ .line t' .noData ∈ post := by
  have h1 : WReach interval _ := .snoc .refl (.goes (s := {}) (.spawn rfl) rfl)
  have h2 := WSteps.snoc h1 (.goes (.ticker rfl hi) rfl)
  have h3 := WSteps.snoc h2 (.goes .parentDone rfl)
  have h4 := WSteps.snoc h3 (.goes (.exit rfl rfl) rfl)
  have h5 := WSteps.snoc h4 (.pass (t := interval) (by show (0 : Int) ≤ interval; omega))
  have h6 := WSteps.snoc h5 (.fires (t := interval + interval) rfl (by simp) (by show interval < interval + interval; omega) (Int.le_refl _))
  have h7 := WSteps.snoc h6 (.checks (ts := interval) rfl rfl)
  exact ⟨_, [.line 0 .starting], 0, interval, [.checks interval, .line interval .noData], h7, by simp [lineOf, report], by simp⟩

/-- A server that sends something and falls silent is reported so. -/
example : ∃ s, WReach 1000000000 s ∧ .silent 2900000000 ∈ linesOf s.hist ∧ .connected ∈ linesOf s.hist := by
  have h1 : WReach 1000000000 _ := .snoc .refl (.goes (s := {}) (.spawn rfl) rfl)
  have h2 := WSteps.snoc h1 (.goes (.ticker rfl (by decide)) rfl)
  have h3 := WSteps.snoc h2 (.goes (.begin rfl rfl) (by simp [RSt.reads]))
  have h4 := WSteps.snoc h3 (.pass (t := 50000000) (by decide))
  have h5 := WSteps.snoc h4 (.reads (a := []) (c := {}) (b := []) (ev := ⟨"init", none⟩) rfl rfl)
  obtain ⟨s0, r0, p0, n0, e0, d0, l0, g0⟩ : ∃ s0, WReach 1000000000 s0 ∧ s0.r.rep = .running ∧ s0.now = 50000000 ∧ s0.next = 1000000000 ∧
      s0.due = none ∧ s0.last = some 50000000 ∧ s0.hist = [.line 0 .starting, .arrives 50000000 "init", .line 50000000 .connected] :=
    ⟨_, h5, rfl, rfl, by simp, rfl, rfl, by simp [lineOf]⟩
  obtain ⟨s1, r1, p1, n1, e1, d1, l1, g1⟩ := look_on_time (interval := 1000000000) p0 (by omega) (by omega) (by decide) d0 l0
  rw [← p1] at p0
  obtain ⟨s2, r2, p2, n2, e2, d2, l2, g2⟩ := look_on_time (interval := 1000000000) p0 (by omega) (by omega) (by decide) d1 l1
  rw [← p2] at p0
  obtain ⟨s3, r3, p3, n3, e3, d3, l3, g3⟩ := look_on_time (interval := 1000000000) p0 (by omega) (by omega) (by decide) d2 l2
  have t3 : s2.next = 3000000000 := by omega
  rw [t3] at g3
  refine ⟨s3, (r0.trans r1).trans (r2.trans r3), ?_, ?_⟩
  · rw [g3, linesOf_append]
    exact List.mem_append_right _ (by decide)
  · rw [g3, g2, g1, g0]
    simp [linesOf_append, linesOf]

end Trc.Cmd
