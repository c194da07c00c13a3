import Verif.Wrap.Where
import Verif.Props.RegionNames

/-!
# An event tells where it was logged: C147
-/

set_option linter.unusedSectionVars false
set_option linter.unusedVariables false
set_option linter.unusedSimpArgs false

namespace Trc.Wrap

open Core Core.Spec Fmt

/-! ## Specification -/

/-- Where an event is logged: in how many regions and prefixes, through how many functions of packages `trc` and `eztrc`,
and by which functions of the program, innermost first. -/
structure Spot where
  nested : Nat
  helpers : Nat
  stack : List StdFrame
  /-- by the program, and not by `NewTrace` for a function that could not know that there is a trace already -/
  direct : Bool
deriving DecidableEq, Repr

variable {W A : Type}

/-- The spots at which a program logs, in order, itself being in `n` regions and prefixes. -/
def Code.spots (n : Nat) : Code A → List Spot
  | .done => []
  | .log .trc _ _ _ stack next => ⟨n, 0, stack, true⟩ :: next.spots n
  | .log .eztrc _ _ _ stack next => ⟨n, 1, stack, true⟩ :: next.spots n
  | .region via _ _ opened closed body next =>
    ⟨n, if via = .eztrc then 2 else 1, opened, true⟩ :: body.spots (n + 1) ++ ⟨n, 1, closed, true⟩ :: next.spots n
  | .pre format _ body next => body.spots (if trimSpace format = "" then n else n + 1) ++ next.spots n
  | .newTrace .trc _ stack next => ⟨n, 0, stack, false⟩ :: next.spots n
  | .newTrace .eztrc _ stack next => ⟨n, 1, stack, false⟩ :: next.spots n

/-- A function of a program: its full name begins in another way than those of this project. -/
def Foreign (fr : StdFrame) : Prop := ¬ ("github.com/peterbourgon/trc".toList <+: fr.function.toList)

/-- How a function and the line in it is to be shown. -/
def shownAs (fr : StdFrame) : Frame := ⟨fr.function, fr.file ++ ":" ++ toString fr.line⟩

/-! ## What is said -/

variable [Render W A] [Arg A] [Humanize]

def Via.frames (via : Via) (name : String) : List StdFrame :=
  match via with
  | .trc => []
  | .eztrc => [ezFrame name]

/-- The logging calls of a program. -/
def Code.said (ctx : Ctx A) (tr : Tr A) (orphan : Nat) : Code A → List (Said A)
  | .done => []
  | .log via kind format args stack next =>
    ⟨tr, kind, format, args, via.frames (LogKind.name kind) ++ stack⟩ :: next.said ctx tr orphan
  | .region via name took opened closed body next =>
    let p := prefixed ctx orphan "·" []
    ⟨tr, .lazyTracef, "→ " ++ name, [], regionFrame :: (via.frames "Region" ++ opened)⟩ :: body.said p.1 p.2.1 orphan ++
      ⟨tr, .lazyTracef, "← " ++ name ++ " [%s]", [Arg.str took], finishFrame :: closed⟩ :: next.said ctx tr orphan
  | .pre format args body next =>
    let p := prefixed ctx orphan format args
    body.said p.1 p.2.1 orphan ++ next.said ctx tr orphan
  | .newTrace via category stack next =>
    ⟨tr, .lazyTracef, "(+ %s)", [Arg.str category], newTraceFrame :: (via.frames "New" ++ stack)⟩ :: next.said ctx tr orphan

theorem code_acts (ctx : Ctx A) (tr : Tr A) (orphan : Nat) (p : Code A) (h : maybeGet ctx = some tr) :
    p.acts ctx orphan = (p.said ctx tr orphan).flatMap Said.acts := by
  induction p generalizing ctx tr with
  | done => rfl
  | log via kind format args stack next ih =>
    cases via <;> simp [Code.acts, Code.said, get, h, ih ctx tr h, Said.acts, Via.frames, ezLog]
  | region via name took opened closed body next ih1 ih2 =>
    obtain ⟨m1, m2⟩ := maybeGet_prefixed h orphan "·" []
    cases via <;>
    · simp only [Code.acts, Code.said, Wrap.region, List.flatMap_cons, List.flatMap_append, ih1 _ _ m1, ih2 _ _ h, m2, get, h,
        Said.acts, List.nil_append, Via.frames]
      simp [List.append_assoc]
  | pre format args body next ih1 ih2 =>
    obtain ⟨m1, m2⟩ := maybeGet_prefixed h orphan format args
    simp only [Code.acts, Code.said, List.flatMap_append, ih1 _ _ m1, ih2 _ _ h, m2, List.nil_append]
  | newTrace via category stack next ih =>
    cases via <;> simp [Code.acts, Code.said, Wrap.newTrace, ezNew, h, ih ctx tr h, Said.acts, Via.frames, newTraceFrame]

/-- How a call is made from a spot. -/
structure At (base : Tr A) (s : Said A) (p : Spot) : Prop where
  root : s.tr.root = base.root
  depth : s.tr.depth = base.depth + p.nested
  direct : p.direct = true → ∃ own, s.stack = own ++ p.stack ∧ own.length = p.helpers ∧
    ∀ fr ∈ own, ignoreStackFrameFunction fr.function = true
  annotation : p.direct = false → ∃ own, s.stack = newTraceFrame :: (own ++ p.stack) ∧ own.length = p.helpers ∧
    ∀ fr ∈ own, ignoreStackFrameFunction fr.function = true

theorem prefixed_depth {ctx : Ctx A} {tr : Tr A} (h : maybeGet ctx = some tr) (orphan : Nat) (format : String) (args : List A) :
    (prefixed ctx orphan format args).2.1.depth = if trimSpace format = "" then tr.depth else tr.depth + 1 := by
  simp only [prefixed, get, h]
  by_cases he : trimSpace format = ""
  · simp [he]
  · simp [he, put, Tr.depth]

theorem Match.append' {α β : Type} {R : α → β → Prop} {l₁ l₂ : List α} {m₁ m₂ : List β} (h₁ : Match R l₁ m₁) (h₂ : Match R l₂ m₂) :
    Match R (l₁ ++ l₂) (m₁ ++ m₂) := by
  refine ⟨by simp [h₁.1, h₂.1], fun i x y hx hy => ?_⟩
  by_cases hi : i < l₁.length
  · rw [List.getElem?_append_left hi] at hx
    rw [List.getElem?_append_left (h₁.1 ▸ hi)] at hy
    exact h₁.2 i x y hx hy
  · rw [List.getElem?_append_right (by omega)] at hx
    rw [List.getElem?_append_right (by have := h₁.1; omega), ← h₁.1] at hy
    exact h₂.2 _ x y hx hy

theorem name_ignored (kind : LogKind) : ignoreStackFrameFunction (ezFrame (LogKind.name kind)).function = true := by
  cases kind <;> decide

theorem code_spots (base : Tr A) (ctx : Ctx A) (tr : Tr A) (orphan : Nat) (n : Nat) (p : Code A) (h : maybeGet ctx = some tr)
    (hr : tr.root = base.root) (hd : tr.depth = base.depth + n) : Match (At base) (p.said ctx tr orphan) (p.spots n) := by
  induction p generalizing ctx tr n with
  | done => exact ⟨rfl, by simp [Code.said]⟩
  | log via kind format args stack next ih =>
    cases via with
    | trc =>
      refine Match.cons ⟨hr, hd, fun _ => ⟨[], rfl, rfl, by simp⟩, fun e => by cases e⟩ (ih ctx tr n h hr hd)
    | eztrc =>
      refine Match.cons ⟨hr, hd, fun _ => ⟨[ezFrame (LogKind.name kind)], rfl, rfl, ?_⟩, fun e => by cases e⟩ (ih ctx tr n h hr hd)
      intro fr hfr
      rw [List.mem_singleton] at hfr
      rw [hfr]
      exact name_ignored kind
  | region via name took opened closed body next ih1 ih2 =>
    obtain ⟨m1, m2⟩ := maybeGet_prefixed h orphan "·" []
    have k1 := ih1 (prefixed ctx orphan "·" []).1 _ (n + 1) m1 ((prefixed_root h orphan "·" []).trans hr) (by
      rw [prefixed_depth h, trim_dot, if_neg (by decide), hd]; omega)
    have k2 := ih2 ctx tr n h hr hd
    refine Match.append' (Match.cons ?_ k1) (Match.cons ?_ k2)
    · refine ⟨hr, hd, fun _ => ?_, fun e => by cases e⟩
      cases via with
      | trc => exact ⟨[regionFrame], rfl, rfl, by decide⟩
      | eztrc => exact ⟨[regionFrame, ezFrame "Region"], rfl, rfl, by decide⟩
    · exact ⟨hr, hd, fun _ => ⟨[finishFrame], rfl, rfl, by decide⟩, fun e => by cases e⟩
  | pre format args body next ih1 ih2 =>
    obtain ⟨m1, m2⟩ := maybeGet_prefixed h orphan format args
    have k1 := ih1 (prefixed ctx orphan format args).1 _ (if trimSpace format = "" then n else n + 1) m1
      ((prefixed_root h orphan format args).trans hr) (by
        rw [prefixed_depth h]
        by_cases he : trimSpace format = ""
        · simp [he, hd]
        · simp [he, hd]; omega)
    exact Match.append' k1 (ih2 ctx tr n h hr hd)
  | newTrace via category stack next ih =>
    cases via with
    | trc => exact Match.cons ⟨hr, hd, fun e => (by cases e), fun _ => ⟨[], rfl, rfl, by simp⟩⟩ (ih ctx tr n h hr hd)
    | eztrc => exact Match.cons ⟨hr, hd, fun e => (by cases e), fun _ => ⟨[ezFrame "New"], rfl, rfl, by decide⟩⟩ (ih ctx tr n h hr hd)

/-! ## Stacks -/

theorem foreign_kept {fr : StdFrame} (h : Foreign fr) : ignoreStackFrameFunction fr.function = false := by
  cases e : ignoreStackFrameFunction fr.function with
  | false => rfl
  | true =>
    obtain ⟨⟨r, hr⟩, -⟩ := (C18_ignored _).mp e
    exact absurd ⟨r, hr.symm⟩ h

theorem filter_kept {l : List StdFrame} (h : ∀ fr ∈ l, Foreign fr) :
    l.filter (fun fr => !ignoreStackFrameFunction fr.function) = l := by
  rw [List.filter_eq_self]
  intro fr hfr
  simp [foreign_kept (h fr hfr)]

theorem filter_own {l : List StdFrame} (h : ∀ fr ∈ l, ignoreStackFrameFunction fr.function = true) :
    l.filter (fun fr => !ignoreStackFrameFunction fr.function) = [] := by
  rw [List.filter_eq_nil_iff]
  intro fr hfr
  simp [h fr hfr]

/-- Behind functions of this project that are left out. -/
theorem stack_behind (front stack : List StdFrame) (hf : ∀ fr ∈ front, ignoreStackFrameFunction fr.function = true)
    (hs : ∀ fr ∈ stack, Foreign fr) :
    stackOf false ((front ++ stack).take 8) = ((stack.take (8 - front.length)).dropLast).map toFrame := by
  unfold stackOf
  simp only [Bool.false_eq_true, if_false]
  congr 1
  rw [List.take_append]
  by_cases hy : stack.take (8 - front.length) = []
  · rw [hy, List.append_nil, List.dropLast_nil]
    exact filter_own fun fr hfr => hf fr (List.mem_of_mem_take ((List.dropLast_sublist _).subset hfr))
  · rw [List.dropLast_append_of_ne_nil hy, List.filter_append, filter_own (fun fr hfr => hf fr (List.mem_of_mem_take hfr)),
      List.nil_append]
    exact filter_kept fun fr hfr => hs fr (List.mem_of_mem_take ((List.dropLast_sublist _).subset hfr))

/-- Behind such functions and one that is not left out. -/
theorem head_behind (front rest : List StdFrame) (fr : StdFrame) (hf : ∀ fr ∈ front, ignoreStackFrameFunction fr.function = true)
    (hfr : ignoreStackFrameFunction fr.function = false) (hrest : rest ≠ []) :
    (stackOf false ((front ++ fr :: rest).take 8)).head? = if front.length ≤ 6 then some (toFrame fr) else none := by
  unfold stackOf
  simp only [Bool.false_eq_true, if_false]
  rw [List.take_append]
  by_cases h6 : front.length ≤ 6
  · rw [if_pos h6]
    obtain ⟨k, hk⟩ : ∃ k, 8 - front.length = k + 2 := ⟨6 - front.length, by omega⟩
    obtain ⟨x, xs, rfl⟩ := List.exists_cons_of_ne_nil hrest
    rw [hk, List.take_of_length_le (by omega), List.take_succ_cons, List.take_succ_cons,
      List.dropLast_append_of_ne_nil (by simp), List.dropLast_cons_cons, List.filter_append, filter_own hf, List.nil_append,
      List.filter_cons]
    simp [hfr]
  · rw [if_neg h6]
    have e : ((front.take 8 ++ (fr :: rest).take (8 - front.length)).dropLast).filter
        (fun fr => !ignoreStackFrameFunction fr.function) = [] := by
      apply filter_own
      by_cases h7 : front.length = 7
      · rw [h7, List.take_succ_cons, List.take_zero, List.dropLast_append_of_ne_nil (by simp), List.dropLast_singleton, List.append_nil]
        exact fun x hx => hf x (List.mem_of_mem_take hx)
      · rw [show 8 - front.length = 0 by omega, List.take_zero, List.append_nil]
        exact fun x hx => hf x (List.mem_of_mem_take ((List.dropLast_sublist _).subset hx))
    rw [e]
    rfl

/-! ## C147 -/

/-- The shared part: the events are those of the program, with the stacks of their spots. -/
theorem code_events (settings : List Setting) (start : Time) (id source category : String) (old : CoreTrace A)
    (w w' : World A) (ex : List (AEnv W × Act A)) (ctx : Ctx A) (base : Tr A) (orphan : Nat) (p : Code A)
    (hctx : maybeGet ctx = some base)
    (hex : callsIn base.root (ex.map Prod.snd) = callsIn base.root (p.acts ctx orphan))
    (hm : ∀ p ∈ ex, notMake base.root p.2) (hrun : w.run ex = some w')
    (ht : w.traces base.root = some (fresh settings start id source category old))
    (hlen : ((p.spots 0).length : Int) ≤ (Globals.after settings).traceMaxEvents)
    (hstacks : (Globals.after settings).traceNoStacks = false) (env : Env W) :
    ∃ t evs, w'.traces base.root = some t ∧ t.events' env = some evs ∧ evs.length = (p.spots 0).length ∧
      ∀ (i : Nat) ev spot, evs[i]? = some ev → (p.spots 0)[i]? = some spot →
        ∃ s : Said A, At base s spot ∧ ev.stack = stackOf false ((s.tr.frames s.kind ++ s.stack).take 8) := by
  rw [code_acts ctx base orphan p hctx] at hex
  have hmatch := code_spots base ctx base orphan 0 p hctx rfl rfl
  have hroot : ∀ s ∈ p.said ctx base orphan, s.tr.root = base.root := by
    intro s hs
    obtain ⟨i, hi, rfl⟩ := List.getElem_of_mem hs
    have hi' : i < (p.spots 0).length := hmatch.1 ▸ hi
    exact (hmatch.2 i _ _ (List.getElem?_eq_getElem hi) (List.getElem?_eq_getElem hi')).root
  obtain ⟨t, evs, h1, h2, h3, h4, h5⟩ := said_events settings start id source category old w w' ex _ base.root hroot hex hm hrun ht
    (by rw [hmatch.1]; exact hlen) env
  refine ⟨t, evs, h1, h2, h3.trans hmatch.1, fun i ev spot hev hsp => ?_⟩
  have hi : i < evs.length := (List.getElem?_eq_some_iff.mp hev).1
  have hs : i < (p.said ctx base orphan).length := h3 ▸ hi
  have hc : i < (callsOn base.root ex).length := by rw [h4]; exact hs
  obtain ⟨_, _, k, _⟩ := h5 i ev _ _ hev (List.getElem?_eq_getElem hs) (List.getElem?_eq_getElem hc)
  rw [hstacks] at k
  exact ⟨_, hmatch.2 i _ _ (List.getElem?_eq_getElem hs) hsp, k⟩

/-- C147.  A program of logging calls, regions, prefixes and `NewTrace`s, nested in any way, calling functions of packages
`trc` and `eztrc` in any mixture, runs on a context that carries a trace `base` around a new core trace, wrapped any number
of times; anything else may happen in between.  The events are those of the program, in order.  The stack of an event that
the program itself has logged begins with the function that has logged it, and goes on with its callers, exactly if there
are no more than six wrappers, regions, prefixes and functions of this project between that function and the core trace;
otherwise the stack is empty. -/
theorem C147_where_exact (settings : List Setting) (start : Time) (id source category : String) (old : CoreTrace A)
    (w w' : World A) (ex : List (AEnv W × Act A)) (ctx : Ctx A) (base : Tr A) (orphan : Nat) (p : Code A)
    (hctx : maybeGet ctx = some base)
    (hex : callsIn base.root (ex.map Prod.snd) = callsIn base.root (p.acts ctx orphan))
    (hm : ∀ p ∈ ex, notMake base.root p.2) (hrun : w.run ex = some w')
    (ht : w.traces base.root = some (fresh settings start id source category old))
    (hlen : ((p.spots 0).length : Int) ≤ (Globals.after settings).traceMaxEvents)
    (hstacks : (Globals.after settings).traceNoStacks = false)
    (hf : ∀ spot ∈ p.spots 0, ∀ fr ∈ spot.stack, Foreign fr)
    (h2 : ∀ spot ∈ p.spots 0, 2 ≤ spot.stack.length) (env : Env W) :
    ∃ t evs, w'.traces base.root = some t ∧ t.events' env = some evs ∧ evs.length = (p.spots 0).length ∧
      ∀ (i : Nat) ev spot, evs[i]? = some ev → (p.spots 0)[i]? = some spot → spot.direct = true →
        (ev.stack.head? = spot.stack.head?.map shownAs ↔ base.depth + spot.nested + spot.helpers ≤ 6) ∧
        (base.depth + spot.nested + spot.helpers > 6 → ev.stack = []) ∧
        (ev.stack <+: spot.stack.map shownAs) := by
  obtain ⟨t, evs, h1, h2', h3, h4⟩ := code_events settings start id source category old w w' ex ctx base orphan p hctx hex hm hrun ht
    hlen hstacks env
  refine ⟨t, evs, h1, h2', h3, fun i ev spot hev hsp hd => ?_⟩
  obtain ⟨s, hat, hk⟩ := h4 i ev spot hev hsp
  obtain ⟨own, o1, o2, o3⟩ := hat.direct hd
  have hmem := List.mem_of_getElem? hsp
  rw [o1, ← List.append_assoc, stack_behind (s.tr.frames s.kind ++ own) spot.stack (by
    intro fr hfr
    rcases List.mem_append.mp hfr with hfr | hfr
    · exact frames_ignored _ _ fr hfr
    · exact o3 fr hfr) (hf spot hmem), List.length_append, frames_length, hat.depth, o2] at hk
  have hl := h2 spot hmem
  obtain ⟨x, y, l, hl'⟩ : ∃ x y l, spot.stack = x :: y :: l := by
    match hq : spot.stack, hl with
    | x :: y :: l, _ => exact ⟨x, y, l, rfl⟩
  have hempty : base.depth + spot.nested + spot.helpers > 6 → ev.stack = [] := by
    intro hgt
    have : 8 - (base.depth + spot.nested + spot.helpers) ≤ 1 := by omega
    have e : ((spot.stack.take (8 - (base.depth + spot.nested + spot.helpers))).dropLast) = [] :=
      List.eq_nil_of_length_eq_zero (by rw [List.length_dropLast, List.length_take]; omega)
    rw [hk, e]; rfl
  refine ⟨⟨fun h => ?_, fun h => ?_⟩, hempty, ?_⟩
  · by_cases hle : base.depth + spot.nested + spot.helpers ≤ 6
    · exact hle
    · rw [hempty (by omega), hl'] at h
      cases h
  · obtain ⟨k, hk'⟩ : ∃ k, 8 - (base.depth + spot.nested + spot.helpers) = k + 2 := ⟨_, (Nat.sub_add_cancel (by omega)).symm⟩
    rw [hk, hk', hl', List.take_succ_cons, List.take_succ_cons, List.dropLast_cons_cons]
    rfl
  · rw [hk]
    exact List.IsPrefix.map _ ((List.dropLast_prefix _).trans (List.take_prefix _ _))

/-- C147, an exception: `NewTrace` on a context that has a trace adds an event to it for the program, the stack of which
never begins with the function that has called `NewTrace`.  Up to six wrappers and regions it begins with `NewTrace`
itself, and with more it is empty. -/
theorem C147_annotation_always_violated (settings : List Setting) (start : Time) (id source category : String) (old : CoreTrace A)
    (w w' : World A) (ex : List (AEnv W × Act A)) (ctx : Ctx A) (base : Tr A) (orphan : Nat) (p : Code A)
    (hctx : maybeGet ctx = some base)
    (hex : callsIn base.root (ex.map Prod.snd) = callsIn base.root (p.acts ctx orphan))
    (hm : ∀ p ∈ ex, notMake base.root p.2) (hrun : w.run ex = some w')
    (ht : w.traces base.root = some (fresh settings start id source category old))
    (hlen : ((p.spots 0).length : Int) ≤ (Globals.after settings).traceMaxEvents)
    (hstacks : (Globals.after settings).traceNoStacks = false)
    (hf : ∀ spot ∈ p.spots 0, ∀ fr ∈ spot.stack, Foreign fr)
    (h2 : ∀ spot ∈ p.spots 0, 2 ≤ spot.stack.length) (env : Env W) :
    ∃ t evs, w'.traces base.root = some t ∧ t.events' env = some evs ∧ evs.length = (p.spots 0).length ∧
      ∀ (i : Nat) ev spot, evs[i]? = some ev → (p.spots 0)[i]? = some spot → spot.direct = false →
        ev.stack.head?.map Frame.function ≠ spot.stack.head?.map StdFrame.function ∧
        (ev.stack.head?.map Frame.function = if base.depth + spot.nested ≤ 6 then some "github.com/peterbourgon/trc.(*Collector).NewTrace"
          else none) := by
  obtain ⟨t, evs, h1, h2', h3, h4⟩ := code_events settings start id source category old w w' ex ctx base orphan p hctx hex hm hrun ht
    hlen hstacks env
  refine ⟨t, evs, h1, h2', h3, fun i ev spot hev hsp hd => ?_⟩
  obtain ⟨s, hat, hk⟩ := h4 i ev spot hev hsp
  obtain ⟨own, o1, o2, o3⟩ := hat.annotation hd
  have hmem := List.mem_of_getElem? hsp
  have hl := h2 spot hmem
  have hh := head_behind (s.tr.frames s.kind) (own ++ spot.stack) newTraceFrame (frames_ignored _ _) (by decide)
    (by intro e; rw [List.append_eq_nil_iff] at e; rw [e.2] at hl; cases hl)
  rw [← o1, ← hk, frames_length, hat.depth] at hh
  have hfn : ev.stack.head?.map Frame.function = if base.depth + spot.nested ≤ 6 then
      some "github.com/peterbourgon/trc.(*Collector).NewTrace" else none := by
    rw [hh]
    split <;> rfl
  refine ⟨fun e => ?_, hfn⟩
  rw [hfn] at e
  obtain ⟨x, l, hl'⟩ : ∃ x l, spot.stack = x :: l := List.exists_cons_of_length_pos (by omega)
  have hx := hf spot hmem x (by simp [hl'])
  rw [hl', List.head?_cons, Option.map_some] at e
  split at e
  · refine hx ?_
    rw [← Option.some.inj e]
    decide
  · cases e

end Trc.Wrap

namespace Trc.Wrap.Witness

open Core Core.Spec Fmt

/-- Regions in each other, around a call. -/
def deep : Nat → Code String
  | 0 => .log .eztrc .tracef "here" [] (stack 3) .done
  | n + 1 => .region .eztrc "r" "1ms" (stack 3) (stack 3) (deep n) .done

/-- The innermost functions in the stacks of the events, after a program on a trace from a collector. -/
def innermost (p : Code String) : Option (List (String × Option String)) :=
  ((({} : World String).run ((env 1, .make 0 "s" "c") :: (p.acts ctx 1).map fun act => (env 2, act))).bind fun w =>
    (w.traces 0).bind fun t => t.events' (env 3).toEnv).map fun evs => evs.map fun e => (e.what, e.stack.head?.map Frame.function)

/-- C147 fails from the fifth region on: what is logged there with `eztrc.Tracef` is shown without any stack. -/
theorem C147_deep_violated :
    innermost (deep 4) = some [("→ r", some "main.f"), ("· → r", some "main.f"), ("· · → r", some "main.f"), ("· · · → r", some "main.f"),
      ("· · · · here", some "main.f"), ("· · · ← r [1ms]", some "main.f"), ("· · ← r [1ms]", some "main.f"), ("· ← r [1ms]", some "main.f"),
      ("← r [1ms]", some "main.f")] ∧
    innermost (deep 5) = some [("→ r", some "main.f"), ("· → r", some "main.f"), ("· · → r", some "main.f"), ("· · · → r", some "main.f"),
      ("· · · · → r", none), ("· · · · · here", none), ("· · · · ← r [1ms]", some "main.f"), ("· · · ← r [1ms]", some "main.f"),
      ("· · ← r [1ms]", some "main.f"), ("· ← r [1ms]", some "main.f"), ("← r [1ms]", some "main.f")] := ⟨rfl, rfl⟩

/-- The hypotheses of the theorems are met, with spots on both sides of the bound, and an annotation. -/
example : (∀ spot ∈ (deep 5).spots 0, ∀ fr ∈ spot.stack, Foreign fr) ∧ (∀ spot ∈ (deep 5).spots 0, 2 ≤ spot.stack.length) ∧
    maybeGet ctx = some (.publish (.core 0)) ∧ (deep 5).spots 0 ≠ [] ∧
    innermost (.newTrace .eztrc "cat" (stack 3) .done) = some [("(+ cat)", some "github.com/peterbourgon/trc.(*Collector).NewTrace")] ∧
    (Code.newTrace (A := String) .eztrc "cat" (stack 3) .done).spots 0 = [⟨0, 1, stack 3, false⟩] := by
  refine ⟨?_, by decide, rfl, by decide, rfl, rfl⟩
  unfold Foreign
  decide

end Trc.Wrap.Witness
