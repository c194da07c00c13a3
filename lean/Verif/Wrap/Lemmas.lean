import Verif.Wrap.Model
import Verif.Wrap.Fmt
import Verif.Core.Lemmas
import Verif.Props.Core

/-! # What wrappers and executions do to a core trace -/

set_option linter.unusedSectionVars false
set_option linter.unusedVariables false
set_option linter.unusedSimpArgs false

namespace Trc.Wrap

open Core Core.Spec

variable {W A : Type} [Sys W A] [Arg A] [Humanize]

/-- A call that only reads. -/
def isRead : Call A → Bool
  | .read _ _ => true
  | _ => false

/-- A history without its reads. -/
def writes (h : Hist W A) : Hist W A := h.filter fun p => !isRead p.2

/-- The call of an action on a given core trace, if it writes. -/
def callOn (a : Nat) : Act A → Option (Call A)
  | .call b c => if b = a ∧ isRead c = false then some c else none
  | _ => none

/-- The writing calls on a core trace in an execution, with their circumstances. -/
def callsOn (a : Nat) (ex : List (AEnv W × Act A)) : Hist W A :=
  ex.filterMap fun p => (callOn a p.2).map fun c => (p.1.toEnv, c)

/-- The action does not make a trace at the address. -/
def notMake (a : Nat) : Act A → Prop
  | .make b _ _ => b ≠ a
  | _ => True

theorem writes_append (h₁ h₂ : Hist W A) : writes (h₁ ++ h₂) = writes h₁ ++ writes h₂ := List.filter_append ..

theorem run_append' (t : CoreTrace A) (h₁ h₂ : Hist W A) : t.run (h₁ ++ h₂) = (t.run h₁).bind fun t' => t'.run h₂ := by
  induction h₁ generalizing t with
  | nil => rfl
  | cons p h ih =>
    obtain ⟨env, c⟩ := p
    simp only [List.cons_append, CoreTrace.run, bind]
    cases t.step env c with
    | none => rfl
    | some q => exact ih _

theorem eventsDetail_run {t t' : CoreTrace A} {env : Env W} {n : Int} {stacks : Bool} {evs : List Event}
    (h : t.eventsDetail env n stacks = some (evs, t')) : t.run [(env, .read n stacks)] = some t' := by
  simp [CoreTrace.run, CoreTrace.step, h]

theorem streamEvents_run {t t' : CoreTrace A} {env : Env W} {b : Bool} {evs : List Event}
    (h : streamEvents t env b = some (evs, t')) : ∃ n s, t.run [(env, .read n s)] = some t' := by
  unfold streamEvents at h
  split at h
  · exact ⟨_, _, eventsDetail_run h⟩
  · cases hd : t.eventsDetail env (-1) true with
    | none => simp [hd] at h
    | some p =>
      obtain ⟨evs', t''⟩ := p
      simp only [hd, bind, Option.bind_some] at h
      cases hx : latestOf t.finished evs' with
      | none => simp [hx] at h
      | some e =>
        simp only [hx, Option.bind_some, pure, Option.some.injEq, Prod.mk.injEq] at h
        obtain ⟨_, rfl⟩ := h
        exact ⟨_, _, eventsDetail_run hd⟩

/-- One action changes a core trace as the call it makes on it, apart from reads. -/
theorem act_hist {w w' : World A} {env : AEnv W} {act : Act A} {a : Nat} {t : CoreTrace A}
    (h : w.act env act = some w') (ht : w.traces a = some t) (hm : notMake a act) :
    ∃ (hist : Hist W A) (t' : CoreTrace A), t.run hist = some t' ∧ w'.traces a = some t' ∧ writes hist = callsOn a [(env, act)] := by
  cases act with
  | make b source category =>
    simp only [World.act, Option.some.injEq] at h
    subst h
    refine ⟨[], t, rfl, ?_, rfl⟩
    simp only [World.set]
    rw [if_neg (Ne.symm hm)]
    exact ht
  | call b c =>
    simp only [World.act, bind] at h
    cases hb : w.traces b with
    | none => simp [hb] at h
    | some tb =>
      simp only [hb, Option.bind_some] at h
      cases hs : tb.step env.toEnv c with
      | none => simp [hs] at h
      | some q =>
        obtain ⟨tb', o⟩ := q
        simp only [hs, Option.bind_some, pure, Option.some.injEq] at h
        subst h
        by_cases hab : a = b
        · subst hab
          rw [ht] at hb
          obtain rfl := Option.some.inj hb
          refine ⟨[(env.toEnv, c)], tb', by simp [CoreTrace.run, hs], by simp [World.set], ?_⟩
          simp only [writes, callsOn, callOn, List.filterMap_cons, List.filterMap_nil, List.filter_cons, List.filter_nil, true_and]
          cases isRead c <;> simp
        · refine ⟨[], t, rfl, ?_, ?_⟩
          · simp only [World.set]; rw [if_neg hab]; exact ht
          · simp [writes, callsOn, callOn, Ne.symm hab]
  | publish tr =>
    simp only [World.act, World.publish] at h
    split at h
    · cases hb : w.traces tr.root with
      | none => simp [hb] at h
      | some tb =>
        simp only [hb, bind, Option.bind_some] at h
        cases hs : streamEvents tb env.toEnv tr.isCore with
        | none => simp [hs] at h
        | some q =>
          obtain ⟨evs, tb'⟩ := q
          simp only [hs, Option.bind_some, pure, Option.some.injEq] at h
          subst h
          by_cases hab : a = tr.root
          · subst hab
            rw [ht] at hb
            obtain rfl := Option.some.inj hb
            obtain ⟨n, s, hr⟩ := streamEvents_run hs
            exact ⟨[(env.toEnv, .read n s)], tb', hr, by simp [World.set], by simp [writes, isRead, callsOn, callOn]⟩
          · refine ⟨[], t, rfl, ?_, rfl⟩
            simp only [World.set]; rw [if_neg hab]; exact ht
    · obtain rfl := Option.some.inj h
      exact ⟨[], t, rfl, ht, rfl⟩
  | write dst format args =>
    simp only [World.act, Option.some.injEq] at h
    subst h
    exact ⟨[], t, rfl, ht, rfl⟩
  | writeDone dst id tr =>
    simp only [World.act, bind] at h
    cases hb : w.traces tr.root with
    | none => simp [hb] at h
    | some tb =>
      simp only [hb, Option.bind_some, pure, Option.some.injEq] at h
      subst h
      exact ⟨[], t, rfl, ht, rfl⟩
  | retain category tr =>
    simp only [World.act, bind] at h
    cases hp : w.cats.push category tr with
    | none => simp [hp] at h
    | some q =>
      simp only [hp, Option.bind_some, pure, Option.some.injEq] at h
      subst h
      exact ⟨[], t, rfl, ht, rfl⟩

/-- So does an execution. -/
theorem run_hist {w w' : World A} {ex : List (AEnv W × Act A)} {a : Nat} {t : CoreTrace A}
    (h : w.run ex = some w') (ht : w.traces a = some t) (hm : ∀ p ∈ ex, notMake a p.2) :
    ∃ (hist : Hist W A) (t' : CoreTrace A), t.run hist = some t' ∧ w'.traces a = some t' ∧ writes hist = callsOn a ex := by
  induction ex generalizing w t with
  | nil =>
    simp only [World.run, Option.some.injEq] at h
    subst h
    exact ⟨[], t, rfl, ht, rfl⟩
  | cons p ex ih =>
    obtain ⟨env, act⟩ := p
    simp only [World.run, bind] at h
    cases hs : w.act env act with
    | none => simp [hs] at h
    | some w₁ =>
      simp only [hs, Option.bind_some] at h
      obtain ⟨h1, t1, r1, s1, w1⟩ := act_hist hs ht (hm (env, act) (by simp))
      obtain ⟨h2, t2, r2, s2, w2⟩ := ih h s1 (fun p hp => hm p (by simp [hp]))
      refine ⟨h1 ++ h2, t2, by rw [run_append', r1]; exact r2, s2, ?_⟩
      rw [writes_append, w1, w2]
      simp only [callsOn, List.filterMap_cons, List.filterMap_nil]
      cases (callOn a act) <;> rfl

/-! ## Calls through wrappers -/

/-- What a trace's prefixes put before a format. -/
def Tr.pformat : Tr A → String
  | .core _ => ""
  | .publish t => t.pformat
  | .log t _ _ => t.pformat
  | .pre t f _ => t.pformat ++ f

/-- What a trace's prefixes put before the arguments. -/
def Tr.pargs : Tr A → List A
  | .core _ => []
  | .publish t => t.pargs
  | .log t _ _ => t.pargs
  | .pre t _ as => t.pargs ++ as

/-- The frames of a trace's wrappers on the stack, innermost first. -/
def Tr.frames (kind : LogKind) : Tr A → List StdFrame
  | .core _ => []
  | .publish t => t.frames kind ++ [frame "publishTrace" kind]
  | .log t _ _ => t.frames kind ++ [frame "logTrace" kind]
  | .pre t _ _ => t.frames kind ++ [frame "prefixTrace" kind]

/-- The calls on a core trace in a list of actions. -/
def callsIn (a : Nat) (acts : List (Act A)) : List (Call A) := acts.filterMap (callOn a)

theorem callsIn_append (a : Nat) (l l' : List (Act A)) : callsIn a (l ++ l') = callsIn a l ++ callsIn a l' :=
  List.filterMap_append

theorem callsOn_snd (a : Nat) (ex : List (AEnv W × Act A)) : (callsOn a ex).map Prod.snd = callsIn a (ex.map Prod.snd) := by
  unfold callsOn callsIn
  rw [List.map_filterMap, List.filterMap_map]
  congr 1
  funext p
  simp only [Function.comp]
  cases callOn a p.2 <;> rfl

/-- A logging call through wrappers makes exactly one call on the core trace inside. -/
theorem logActs_calls (tr : Tr A) (kind : LogKind) (format : String) (args : List A) (stack : List StdFrame) :
    callsIn tr.root (tr.logActs kind format args stack) =
      [.log kind (tr.pformat ++ format) (tr.pargs ++ args) ((tr.frames kind ++ stack).take 8)] := by
  induction tr generalizing format args stack with
  | core a => simp [Tr.logActs, callsIn, callOn, isRead, Tr.root, Tr.pformat, Tr.pargs, Tr.frames]
  | publish t ih =>
    simp only [Tr.logActs, Tr.root, callsIn_append, ih]
    simp [callsIn, callOn, Tr.pformat, Tr.pargs, Tr.frames]
  | log t id dst ih =>
    have : callsIn t.root (logEvent id dst (errMark kind ++ format) args :: t.logActs kind format args (frame "logTrace" kind :: stack))
        = callsIn t.root (t.logActs kind format args (frame "logTrace" kind :: stack)) := by
      unfold callsIn
      rw [List.filterMap_cons]
      rfl
    simp only [Tr.logActs, Tr.root, this, ih]
    simp [Tr.pformat, Tr.pargs, Tr.frames]
  | pre t f as ih =>
    simp only [Tr.logActs, Tr.root, ih]
    simp [Tr.pformat, Tr.pargs, Tr.frames, String.append_assoc]

theorem logActs_other (tr : Tr A) (kind : LogKind) (format : String) (args : List A) (stack : List StdFrame) (a : Nat)
    (ha : a ≠ tr.root) : callsIn a (tr.logActs kind format args stack) = [] := by
  induction tr generalizing format args stack with
  | core b => simp only [Tr.root] at ha; simp [Tr.logActs, callsIn, callOn, Ne.symm ha]
  | publish t ih =>
    simp only [Tr.root] at ha
    simp only [Tr.logActs, callsIn_append, ih _ _ _ ha]
    simp [callsIn, callOn]
  | log t id dst ih =>
    simp only [Tr.root] at ha
    have := ih format args (frame "logTrace" kind :: stack) ha
    simp only [Tr.logActs]
    simp only [callsIn, List.filterMap_cons, logEvent, callOn] at *
    exact this
  | pre t f as ih =>
    simp only [Tr.root] at ha
    simp only [Tr.logActs, ih _ _ _ ha]

/-- So does `Finish`. -/
theorem finishActs_calls (tr : Tr A) : callsIn tr.root tr.finishActs = [.finish] := by
  induction tr with
  | core a => simp [Tr.finishActs, callsIn, callOn, isRead, Tr.root]
  | publish t ih => simp only [Tr.finishActs, Tr.root, callsIn_append, ih]; simp [callsIn, callOn]
  | log t id dst ih => simp only [Tr.finishActs, Tr.root, callsIn_append, ih]; simp [callsIn, callOn]
  | pre t f as ih => simp only [Tr.finishActs, Tr.root, ih]

/-! ## Reads do not matter -/

/-- Equal but for what was read. -/
structure SameBut (a b : Abs W A) : Prop where
  fin : a.fin = b.fin
  errored : a.errored = b.errored
  limit : a.limit = b.limit
  trunc : a.trunc = b.trunc
  entries : a.stored.map Stored.entry = b.stored.map Stored.entry

theorem SameBut.step {a b : Abs W A} (h : SameBut a b) (env : Env W) (c : Call A) :
    SameBut (a.step env c) (b.step env c) := by
  have hlen : a.stored.length = b.stored.length := by
    have := congrArg List.length h.entries; simpa using this
  cases c with
  | log kind f x cs =>
    simp only [Abs.step, Abs.log, h.fin, h.limit, hlen, h.errored]
    by_cases h1 : b.fin.isSome = true
    · rw [if_pos h1, if_pos h1]; exact h
    · rw [if_neg h1, if_neg h1]
      by_cases h2 : (b.stored.length : Int) ≥ b.limit
      · rw [if_pos h2, if_pos h2]
        exact ⟨rfl, rfl, rfl, by simp [h.trunc], h.entries⟩
      · rw [if_neg h2, if_neg h2]
        exact ⟨rfl, rfl, rfl, h.trunc, by simp [h.entries]⟩
  | finish =>
    simp only [Abs.step, h.fin]
    split
    · exact h
    · exact ⟨rfl, h.errored, h.limit, h.trunc, h.entries⟩
  | setMaxEvents m => exact ⟨h.fin, h.errored, rfl, h.trunc, h.entries⟩
  | read n stacks =>
    refine ⟨h.fin, h.errored, h.limit, h.trunc, ?_⟩
    have e : (Stored.entry ∘ fun s : Stored W A => s.mark env.w stacks) = Stored.entry := rfl
    simp only [Abs.step, List.map_append, List.map_map, e, hlen]
    rw [← List.map_append, ← List.map_append, List.take_append_drop, List.take_append_drop]
    exact h.entries

theorem SameBut.refl (a : Abs W A) : SameBut a a := ⟨rfl, rfl, rfl, rfl, rfl⟩

theorem SameBut.symm {a b : Abs W A} (h : SameBut a b) : SameBut b a :=
  ⟨h.fin.symm, h.errored.symm, h.limit.symm, h.trunc.symm, h.entries.symm⟩

theorem SameBut.trans {a b c : Abs W A} (h : SameBut a b) (h' : SameBut b c) : SameBut a c :=
  ⟨h.fin.trans h'.fin, h.errored.trans h'.errored, h.limit.trans h'.limit, h.trunc.trans h'.trunc, h.entries.trans h'.entries⟩

theorem SameBut.read (a : Abs W A) (env : Env W) (n : Int) (stacks : Bool) : SameBut (a.step env (.read n stacks)) a := by
  refine ⟨rfl, rfl, rfl, rfl, ?_⟩
  have e : (Stored.entry ∘ fun s : Stored W A => s.mark env.w stacks) = Stored.entry := rfl
  simp only [Abs.step, List.map_append, List.map_map, e]
  rw [← List.map_append, List.take_append_drop]

theorem SameBut.run {a b : Abs W A} (h : SameBut a b) (hist : Hist W A) : SameBut (a.run hist) (b.run (writes hist)) := by
  induction hist generalizing a b with
  | nil => exact h
  | cons p hist ih =>
    obtain ⟨env, c⟩ := p
    by_cases hc : isRead c = true
    · cases c with
      | read n stacks =>
        have : writes ((env, Call.read n stacks) :: hist) = writes hist := by simp [writes, isRead]
        rw [this]
        exact ih ((SameBut.read a env n stacks).trans h)
      | _ => simp [isRead] at hc
    · have : writes ((env, c) :: hist) = (env, c) :: writes hist := by simp [writes, hc]
      rw [this]
      exact ih (h.step env c)

end Trc.Wrap
