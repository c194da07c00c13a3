import Verif.Props.Prefix

/-!
# C86: what a log decorator writes
-/

set_option linter.unusedSectionVars false
set_option linter.unusedVariables false
set_option linter.unusedSimpArgs false

namespace Trc.Wrap

open Core Core.Spec Fmt

section
variable {W A : Type} [Sys W A] [Arg A] [Humanize]

/-- The texts written to a destination. -/
def World.written (w : World A) (dst : Nat) : List String := (w.lines.filter (·.1 = dst)).map (·.2)

/-- The destinations that a trace's wrappers write to. -/
def Tr.dsts : Tr A → List Nat
  | .core _ => []
  | .publish t => t.dsts
  | .log t _ dst => dst :: t.dsts
  | .pre t _ _ => t.dsts

/-- The action is a writing call on the core trace, or a text for the destination. -/
def concerns (a dst : Nat) : Act A → Bool
  | .call b c => decide (b = a) && !isRead c
  | .write d _ _ => decide (d = dst)
  | .writeDone d _ _ => decide (d = dst)
  | _ => false

/-- What matters about a trace and a destination. -/
structure Seen where
  errored : Bool
  finished : Bool
  duration : Duration
  start : Time
  lines : List String

def World.see (w : World A) (a dst : Nat) : Option Seen :=
  (w.traces a).map fun t => ⟨t.errored, t.finished, t.duration, t.start, w.written dst⟩

def Seen.call (s : Seen) (env : Env W) : Call A → Seen
  | .log kind _ _ _ => if s.finished then s else { s with errored := s.errored || isErr kind }
  | .finish => if s.finished then s else { s with finished := true, duration := env.now.sub s.start }
  | _ => s

/-- What an action does to it. -/
def Seen.act (a dst : Nat) (s : Seen) (p : AEnv W × Act A) : Seen :=
  match p.2 with
  | .call b c => if b = a then s.call p.1.toEnv c else s
  | .write d format args => if d = dst then { s with lines := s.lines ++ [Sys.sprintf p.1.w format args] } else s
  | .writeDone d id _ =>
    if d = dst then
      { s with lines := s.lines ++ [Sys.sprintf p.1.w (id ++ " " ++ trimNewline "done, %s, %s" ++ "\n")
        [(Arg.str (if s.errored then "errored" else "success") : A),
         Arg.str (Humanize.duration (if s.finished then s.duration else p.1.now.sub s.start))]] }
    else s
  | _ => s

theorem written_append (w : World A) (dst d : Nat) (x : String) :
    ({ w with lines := w.lines ++ [(d, x)] } : World A).written dst = if d = dst then w.written dst ++ [x] else w.written dst := by
  unfold World.written
  simp only [List.filter_append, List.map_append]
  by_cases h : d = dst <;> simp [h]

/-- A read leaves it alone. -/
theorem read_same {t t' : CoreTrace A} {env : Env W} {n : Int} {stacks : Bool} (h : t.run [(env, .read n stacks)] = some t') :
    t'.errored = t.errored ∧ t'.finished = t.finished ∧ t'.duration = t.duration ∧ t'.start = t.start := by
  simp only [CoreTrace.run, CoreTrace.step, bind] at h
  cases hd : t.eventsDetail env n stacks with
  | none => simp [hd] at h
  | some p =>
    simp only [hd, Option.map_some, Option.bind_some, Option.some.injEq] at h
    subst h
    unfold CoreTrace.eventsDetail at hd
    cases h1 : Go.sliceFrom t.events (t.events.length - detailCount t.events.length n) with
    | none => simp [h1] at hd
    | some latest =>
      simp only [h1, bind, Option.bind_some] at hd
      cases h2 : Go.sliceTo t.events (t.events.length - detailCount t.events.length n) with
      | none => simp [h2] at hd
      | some older =>
        simp only [h2, Option.bind_some] at hd
        split at hd
        · cases h3 : Go.sliceFrom ((snapshotEvents env.w stacks latest).1 ++ [truncatedNotice env.now t.truncated]) 1 with
          | none => rw [h3] at hd; cases hd
          | some e =>
            rw [h3] at hd
            obtain rfl := Option.some.inj hd
            exact ⟨rfl, rfl, rfl, rfl⟩
        · obtain rfl := Option.some.inj hd
          exact ⟨rfl, rfl, rfl, rfl⟩

theorem step_see {t t' : CoreTrace A} {env : Env W} {c : Call A} {o : List Event} (h : t.step env c = some (t', o)) (ls : List String) :
    (⟨t'.errored, t'.finished, t'.duration, t'.start, ls⟩ : Seen) =
      Seen.call ⟨t.errored, t.finished, t.duration, t.start, ls⟩ env c := by
  cases c with
  | read n stacks =>
    obtain ⟨h1, h2, h3, h4⟩ := read_same (t := t) (t' := t') (env := env) (n := n) (stacks := stacks) (by simp [CoreTrace.run, h])
    rw [h1, h2, h3, h4]; rfl
  | setMaxEvents m =>
    simp only [CoreTrace.step, Option.some.injEq, Prod.mk.injEq] at h
    obtain ⟨rfl, _⟩ := h
    unfold CoreTrace.setMaxEvents
    split
    · rfl
    · split <;> rfl
  | finish =>
    simp only [CoreTrace.step, Option.some.injEq, Prod.mk.injEq] at h
    obtain ⟨rfl, _⟩ := h
    unfold CoreTrace.finish Seen.call
    split <;> rfl
  | log kind f as st =>
    cases kind <;>
    · simp only [CoreTrace.step, Option.some.injEq, Prod.mk.injEq] at h
      obtain ⟨rfl, _⟩ := h
      simp only [CoreTrace.tracef, CoreTrace.lazyTracef, CoreTrace.errorf, CoreTrace.lazyErrorf, Seen.call, isErr]
      split
      · rfl
      · split <;> simp

theorem act_see {w w' : World A} {env : AEnv W} {act : Act A} {a dst : Nat} {s : Seen}
    (h : w.act env act = some w') (hs : w.see a dst = some s) (hm : notMake a act)
    (hd : ∀ id tr, act = .writeDone dst id tr → tr.root = a) : w'.see a dst = some (s.act a dst (env, act)) := by
  unfold World.see at hs
  cases ht : w.traces a with
  | none => simp [ht] at hs
  | some t =>
    simp only [ht, Option.map_some, Option.some.injEq] at hs
    subst hs
    cases act with
    | make b source category =>
      simp only [World.act, Option.some.injEq] at h
      subst h
      unfold World.see
      simp only [World.set]
      rw [if_neg (Ne.symm hm), ht]
      rfl
    | call b c =>
      simp only [World.act, bind] at h
      cases hb : w.traces b with
      | none => simp [hb] at h
      | some tb =>
        simp only [hb, Option.bind_some] at h
        cases hst : tb.step env.toEnv c with
        | none => simp [hst] at h
        | some q =>
          obtain ⟨tb', o⟩ := q
          simp only [hst, Option.bind_some, pure, Option.some.injEq] at h
          subst h
          unfold World.see Seen.act
          by_cases hab : b = a
          · subst hab
            rw [ht] at hb
            obtain rfl := Option.some.inj hb
            simp only [World.set, if_true, Option.map_some, Option.some.injEq]
            exact step_see hst _
          · simp only [World.set, if_neg hab, if_neg (Ne.symm hab), ht, Option.map_some]
            rfl
    | publish tr =>
      simp only [World.act, World.publish] at h
      split at h
      · cases hb : w.traces tr.root with
        | none => simp [hb] at h
        | some tb =>
          simp only [hb, bind, Option.bind_some] at h
          cases hst : streamEvents tb env.toEnv tr.isCore with
          | none => simp [hst] at h
          | some q =>
            obtain ⟨evs, tb'⟩ := q
            simp only [hst, Option.bind_some, pure, Option.some.injEq] at h
            subst h
            unfold World.see Seen.act
            by_cases hab : a = tr.root
            · subst hab
              rw [ht] at hb
              obtain rfl := Option.some.inj hb
              obtain ⟨n, s, hr⟩ := streamEvents_run hst
              obtain ⟨h1, h2, h3, h4⟩ := read_same hr
              simp only [World.set, if_true, Option.map_some, h1, h2, h3, h4]
              rfl
            · simp only [World.set, if_neg hab, ht, Option.map_some]
              rfl
      · obtain rfl := Option.some.inj h
        unfold World.see; rw [ht]; rfl
    | write d format args =>
      simp only [World.act, Option.some.injEq] at h
      subst h
      unfold World.see Seen.act
      rw [written_append]
      simp only [ht, Option.map_some]
      split <;> rfl
    | writeDone d id tr =>
      simp only [World.act, bind] at h
      cases hb : w.traces tr.root with
      | none => simp [hb] at h
      | some tb =>
        simp only [hb, Option.bind_some, pure, Option.some.injEq] at h
        subst h
        unfold World.see Seen.act
        rw [written_append]
        simp only [ht, Option.map_some]
        split
        · rename_i hdd
          have := hd id tr (by rw [hdd])
          rw [this, ht] at hb
          obtain rfl := Option.some.inj hb
          rfl
        · rfl
    | retain category tr =>
      simp only [World.act, bind] at h
      cases hp : w.cats.push category tr with
      | none => simp [hp] at h
      | some q =>
        simp only [hp, Option.bind_some, pure, Option.some.injEq] at h
        subst h
        unfold World.see Seen.act
        simp only [ht, Option.map_some]
        rfl

theorem act_other (a dst : Nat) (s : Seen) (p : AEnv W × Act A) (h : concerns a dst p.2 = false) : s.act a dst p = s := by
  obtain ⟨env, act⟩ := p
  unfold concerns at h
  unfold Seen.act
  cases act with
  | call b c =>
    simp only at h ⊢
    split
    · rename_i hb
      cases c <;> simp_all [isRead, Seen.call]
    · rfl
  | write d f as => simp only [decide_eq_false_iff_not] at h ⊢; rw [if_neg h]
  | writeDone d id tr => simp only [decide_eq_false_iff_not] at h ⊢; rw [if_neg h]
  | _ => rfl

/-- An execution does what the actions do that concern the trace and the destination. -/
theorem run_see {w w' : World A} {ex : List (AEnv W × Act A)} {a dst : Nat} {s : Seen}
    (h : w.run ex = some w') (hs : w.see a dst = some s) (hm : ∀ p ∈ ex, notMake a p.2)
    (hd : ∀ p ∈ ex, ∀ id tr, p.2 = .writeDone dst id tr → tr.root = a) :
    w'.see a dst = some ((ex.filter fun p => concerns a dst p.2).foldl (Seen.act a dst) s) := by
  induction ex generalizing w s with
  | nil =>
    simp only [World.run, Option.some.injEq] at h
    subst h
    exact hs
  | cons p ex ih =>
    obtain ⟨env, act⟩ := p
    simp only [World.run, bind] at h
    cases ha : w.act env act with
    | none => simp [ha] at h
    | some w₁ =>
      simp only [ha, Option.bind_some] at h
      have h1 := act_see ha hs (hm (env, act) List.mem_cons_self) (hd (env, act) List.mem_cons_self)
      have h2 := ih h h1 (fun p hp => hm p (List.mem_cons_of_mem _ hp)) (fun p hp => hd p (List.mem_cons_of_mem _ hp))
      rw [h2, List.filter_cons]
      split
      · rfl
      · rename_i hc
        rw [act_other a dst s (env, act) (by simpa using hc)]

/-- The actions of a logging call through a trace that do not write to the destination. -/
theorem log_concerns (t : Tr A) (dst : Nat) (h : dst ∉ t.dsts) (kind : LogKind) (format : String) (args : List A) (stack : List StdFrame) :
    (t.logActs kind format args stack).filter (concerns t.root dst) =
      [.call t.root ((Op.log kind format args stack).deco t)] := by
  induction t generalizing format args stack with
  | core a => simp [Tr.logActs, concerns, isRead, Tr.root, Op.deco, Tr.pformat, Tr.pargs, Tr.frames]
  | publish t ih =>
    simp only [Tr.dsts] at h
    simp only [Tr.logActs, Tr.root, List.filter_append, ih h]
    simp [concerns, Op.deco, Tr.pformat, Tr.pargs, Tr.frames]
  | log t id d ih =>
    simp only [Tr.dsts, List.mem_cons, not_or] at h
    simp only [Tr.logActs, Tr.root, List.filter_cons, ih h.2, logEvent, concerns, decide_eq_true_eq]
    rw [if_neg (Ne.symm h.1)]
    simp [Op.deco, Tr.pformat, Tr.pargs, Tr.frames]
  | pre t f as ih =>
    simp only [Tr.dsts] at h
    simp only [Tr.logActs, Tr.root, ih h]
    simp [Op.deco, Tr.pformat, Tr.pargs, Tr.frames, String.append_assoc]

theorem finish_concerns (t : Tr A) (dst : Nat) (h : dst ∉ t.dsts) :
    (t.finishActs).filter (concerns t.root dst) = [.call t.root .finish] := by
  induction t with
  | core a => simp [Tr.finishActs, concerns, isRead, Tr.root]
  | publish t ih =>
    simp only [Tr.dsts] at h
    simp only [Tr.finishActs, Tr.root, List.filter_append, ih h]
    simp [concerns]
  | log t id d ih =>
    simp only [Tr.dsts, List.mem_cons, not_or] at h
    simp only [Tr.finishActs, Tr.root, List.filter_append, ih h.2, List.filter_cons, List.filter_nil, concerns, decide_eq_true_eq]
    rw [if_neg (Ne.symm h.1)]
    rfl
  | pre t f as ih =>
    simp only [Tr.dsts] at h
    simp only [Tr.finishActs, Tr.root, ih h]

/-- Some error is logged before the first `Finish`. -/
def failsBefore : List (Op A) → Bool
  | [] => false
  | .log kind _ _ _ :: l => isErr kind || failsBefore l
  | .finish :: _ => false

/-- The text for a call, unformatted. -/
def rawLine (id : String) (errored : Bool) (duration : Duration) (line : String) : Op A → Prop
  | .log kind format args _ => ∃ w : W, line = Sys.sprintf w (id ++ " " ++ trimNewline (errMark kind ++ format) ++ "\n") args
  | .finish => ∃ w : W, line = Sys.sprintf w (id ++ " " ++ trimNewline "done, %s, %s" ++ "\n")
      [(Arg.str (if errored then "errored" else "success") : A), Arg.str (Humanize.duration duration)]

theorem seen_lines (t : Tr A) (id : String) (dst : Nat) (h : dst ∉ t.dsts) (program : List (Op A)) (R : List (AEnv W × Act A))
    (hR : R.map Prod.snd = (program.flatMap fun op => op.acts (.log t id dst)).filter (concerns t.root dst)) (s : Seen) :
    ∃ ls, (R.foldl (Seen.act t.root dst) s).lines = s.lines ++ ls ∧
      Match (rawLine (W := W) id (if s.finished then s.errored else s.errored || failsBefore program)
        (R.foldl (Seen.act t.root dst) s).duration) ls program ∧
      (s.finished = true → (R.foldl (Seen.act t.root dst) s).duration = s.duration) := by
  induction program generalizing R s with
  | nil =>
    simp only [List.flatMap_nil, List.filter_nil, List.map_eq_nil_iff] at hR
    subst hR
    exact ⟨[], by simp, ⟨rfl, by simp⟩, fun _ => rfl⟩
  | cons op program ih =>
    rw [List.flatMap_cons, List.filter_append] at hR
    obtain ⟨R1, R2, rfl, e1, e2⟩ := List.map_eq_append_iff.mp hR
    rw [List.foldl_append]
    obtain ⟨ls, i1, i2, i3⟩ := ih R2 e2 (R1.foldl (Seen.act t.root dst) s)
    generalize hs' : (R2.foldl (Seen.act t.root dst) (R1.foldl (Seen.act t.root dst) s)) = s' at *
    have key : ∃ line, (R1.foldl (Seen.act t.root dst) s).lines = s.lines ++ [line] ∧
        rawLine (W := W) id (if s.finished then s.errored else s.errored || failsBefore (op :: program)) s'.duration line op ∧
        (s.finished = true → (R1.foldl (Seen.act t.root dst) s).finished = true ∧
          (R1.foldl (Seen.act t.root dst) s).duration = s.duration) ∧
        (if (R1.foldl (Seen.act t.root dst) s).finished then (R1.foldl (Seen.act t.root dst) s).errored
          else (R1.foldl (Seen.act t.root dst) s).errored || failsBefore program) =
        (if s.finished then s.errored else s.errored || failsBefore (op :: program)) := by
      cases op with
      | log kind format args stack =>
        simp only [Op.acts, Tr.logActs, List.filter_cons, log_concerns t dst h] at e1
        simp only [logEvent, concerns, decide_true, if_true] at e1
        match R1, e1 with
        | [(e, x), (e', x')], e1 =>
          simp only [List.map_cons, List.map_nil, List.cons.injEq, and_true] at e1
          obtain ⟨rfl, rfl⟩ := e1
          refine ⟨_, by simp [Seen.act, Seen.call, Op.deco]; split <;> rfl, ⟨e.w, rfl⟩, ?_⟩
          cases hf : s.finished <;> simp [Seen.act, Seen.call, Op.deco, hf, failsBefore, Bool.or_assoc]
      | finish =>
        simp only [Op.acts, Tr.finishActs, List.filter_append, finish_concerns t dst h] at e1
        simp only [concerns, List.filter_cons, List.filter_nil, decide_true, if_true, List.singleton_append] at e1
        match R1, e1 with
        | [(e, x), (e', x')], e1 =>
          simp only [List.map_cons, List.map_nil, List.cons.injEq, and_true] at e1
          obtain ⟨rfl, rfl⟩ := e1
          cases hf : s.finished with
          | true =>
            have hd : s'.duration = s.duration := by
              rw [i3 (by simp [Seen.act, Seen.call, hf])]
              simp [Seen.act, Seen.call, hf]
            refine ⟨_, by simp [Seen.act, Seen.call, hf]; rfl, ⟨e'.w, ?_⟩, ?_⟩
            · simp [hd]
            · simp [Seen.act, Seen.call, hf]
          | false =>
            have hd : s'.duration = e.now.sub s.start := by
              rw [i3 (by simp [Seen.act, Seen.call, hf])]
              simp [Seen.act, Seen.call, hf]
            refine ⟨_, by simp [Seen.act, Seen.call, hf]; rfl, ⟨e'.w, ?_⟩, ?_⟩
            · simp [hd, failsBefore]
            · simp [Seen.act, Seen.call, hf, failsBefore]
    obtain ⟨line, k1, k2, k3, k4⟩ := key
    refine ⟨line :: ls, by rw [i1, k1]; simp, Match.cons k2 (by rw [← k4]; exact i2), fun hf => ?_⟩
    obtain ⟨f1, f2⟩ := k3 hf
    rw [i3 f1, f2]

end

/-! ## C86 -/

variable {W A : Type} [Render W A] [Arg A] [Humanize]

theorem trimNewline_mark (kind : LogKind) (format : String) : trimNewline (errMark kind ++ format) = errMark kind ++ trimNewline format := by
  unfold trimNewline
  rw [String.toList_append, List.reverse_append]
  cases hr : format.toList.reverse with
  | nil =>
    have : format = "" := by
      have := congrArg List.reverse hr
      rw [List.reverse_reverse] at this
      rw [← String.ofList_toList (s := format), this]; rfl
    subst this
    cases kind <;> decide
  | cons c cs =>
    simp only [List.cons_append]
    by_cases hc : c = '\n'
    · subst hc
      simp only [List.reverse_append, List.reverse_reverse]
      rw [String.ofList_append, String.ofList_toList]
    · split
      · rename_i h; simp only [List.cons.injEq] at h; exact absurd h.1 hc
      · split
        · rename_i h; simp only [List.cons.injEq] at h; exact absurd h.1 hc
        · rfl

theorem line_text (w : W) (id mark format : String) (args : List A) (hid : '%' ∉ id.toList) (hm : '%' ∉ mark.toList)
    (h : Uses format args.length) :
    sprintf w (id ++ " " ++ (mark ++ format) ++ "\n") args = id ++ " " ++ mark ++ sprintf w format args ++ "\n" := by
  have h1 : '%' ∉ (id ++ " " ++ mark).toList := by
    simp only [String.toList_append, List.mem_append, not_or]
    exact ⟨⟨hid, by decide⟩, hm⟩
  have e : id ++ " " ++ (mark ++ format) ++ "\n" = (id ++ " " ++ mark) ++ (format ++ "\n") := by simp only [String.append_assoc]
  have a1 := sprintf_append w (id ++ " " ++ mark) (format ++ "\n") ([] : List A) args (takes_plain _ h1)
  have a2 := sprintf_uses w format "\n" args h
  rw [List.nil_append] at a1
  rw [e, a1, a2, sprintf_plain w _ h1, sprintf_plain w "\n" (by decide)]
  simp only [String.append_assoc]

theorem two_strings (hr : RendersStrings W A) (w : W) (a b : String) :
    sprintf w "done, %s, %s" [(Arg.str a : A), Arg.str b] = "done, " ++ a ++ ", " ++ b := by
  have k : ∀ x : String, sprintf w "%s" [(Arg.str x : A)] = x := by
    intro x
    have : sprintf w "%s" [(Arg.str x : A)] = String.ofList (Render.arg w [] 's' (Arg.str x : A) ++ []) := rfl
    rw [this, hr, List.append_nil, String.ofList_toList]
  have a1 := sprintf_append w "done, " "%s, %s" ([] : List A) [(Arg.str a : A), Arg.str b] (show Takes "done, " 0 by decide)
  have a2 := sprintf_append w "%s" ", %s" [(Arg.str a : A)] [Arg.str b] (show Takes "%s" 1 by decide)
  have a3 := sprintf_append w ", " "%s" ([] : List A) [(Arg.str b : A)] (show Takes ", " 0 by decide)
  have e : ("done, %s, %s" : String) = "done, " ++ "%s, %s" := rfl
  have e2 : ("%s, %s" : String) = "%s" ++ ", %s" := rfl
  have e3 : (", %s" : String) = ", " ++ "%s" := rfl
  rw [List.nil_append] at a1 a3
  rw [← e2] at a2
  rw [← e3] at a3
  rw [e, a1, show [(Arg.str a : A), Arg.str b] = [Arg.str a] ++ [Arg.str b] from rfl, a2, a3, k, k,
    sprintf_plain w "done, " (by decide), sprintf_plain w ", " (by decide)]
  simp only [String.append_assoc]

/-- The line for a call on a trace with the given ID: the event's text, or the outcome. -/
def LineFor (W : Type) [Render W A] (id : String) (errored : Bool) (duration : Duration) (line : String) : Op A → Prop
  | .log kind format args _ =>
    ∃ w : W, line = id ++ " " ++ (if isErr kind then "ERROR: " else "") ++ sprintf w (trimNewline format) args ++ "\n"
  | .finish => line = id ++ " done, " ++ (if errored then "errored" else "success") ++ ", " ++ Humanize.duration duration ++ "\n"

theorem lines_raw (settings : List Setting) (start : Time) (id source category : String) (old : CoreTrace A)
    (w w' : World A) (ex : List (AEnv W × Act A)) (t : Tr A) (dst : Nat) (program : List (Op A)) (hdst : dst ∉ t.dsts)
    (hex : (ex.map Prod.snd).filter (concerns t.root dst) =
      (program.flatMap fun op => op.acts (.log t id dst)).filter (concerns t.root dst))
    (hm : ∀ p ∈ ex, notMake t.root p.2) (hrun : w.run ex = some w')
    (ht : w.traces t.root = some (fresh settings start id source category old)) :
    ∃ lines t', w'.traces t.root = some t' ∧ w'.written dst = w.written dst ++ lines ∧
      Match (rawLine (W := W) id (failsBefore program) t'.duration) lines program := by
  have hsee : w.see t.root dst = some ⟨false, false, 0, start, w.written dst⟩ := by
    unfold World.see
    rw [ht]; rfl
  have hroot : ∀ p ∈ ex, ∀ i tr, p.2 = .writeDone dst i tr → tr.root = t.root := by
    intro p hp i tr he
    have h1 : p.2 ∈ (ex.map Prod.snd).filter (concerns t.root dst) :=
      List.mem_filter.mpr ⟨List.mem_map.mpr ⟨p, hp, rfl⟩, by rw [he]; simp [concerns]⟩
    rw [hex, he] at h1
    obtain ⟨h2, h3⟩ := List.mem_filter.mp h1
    obtain ⟨op, hop, h4⟩ := List.mem_flatMap.mp h2
    have h5 := List.mem_filter.mpr ⟨h4, h3⟩
    cases op with
    | log kind format args stack =>
      simp only [Op.acts, Tr.logActs, List.filter_cons, log_concerns t dst hdst] at h5
      simp [logEvent, concerns] at h5
    | finish =>
      simp only [Op.acts, Tr.finishActs, List.filter_append, finish_concerns t dst hdst] at h5
      simp [concerns] at h5
      rw [h5.2]
  have hfin := run_see hrun hsee hm hroot
  obtain ⟨ls, l1, l2, _⟩ := seen_lines t id dst hdst program (ex.filter fun p => concerns t.root dst p.2)
    (by rw [← hex, List.filter_map]; rfl) ⟨false, false, 0, start, w.written dst⟩
  generalize (ex.filter fun p => concerns t.root dst p.2).foldl (Seen.act t.root dst) ⟨false, false, 0, start, w.written dst⟩ = s at *
  unfold World.see at hfin
  cases ht' : w'.traces t.root with
  | none => simp [ht'] at hfin
  | some t' =>
    simp only [ht', Option.map_some, Option.some.injEq] at hfin
    subst hfin
    refine ⟨ls, t', rfl, l1, ?_⟩
    simpa using l2

theorem raw_line (hr : RendersStrings W A) {id : String} (hid : '%' ∉ id.toList) {errored : Bool} {duration : Duration} {line : String} {op : Op A}
    (hargs : ∀ kind format args stack, op = Op.log kind format args stack → Uses (trimNewline format) args.length)
    (h : rawLine (W := W) id errored duration line op) : LineFor W id errored duration line op := by
  cases op with
  | log kind format args stack =>
    obtain ⟨m, rfl⟩ := h
    refine ⟨m, ?_⟩
    have hmark : errMark kind = if isErr kind then "ERROR: " else "" := by cases kind <;> rfl
    rw [trimNewline_mark, ← hmark]
    exact line_text m id (errMark kind) (trimNewline format) args hid (by cases kind <;> decide) (hargs kind format args stack rfl)
  | finish =>
    obtain ⟨m, rfl⟩ := h
    have e : trimNewline "done, %s, %s" = "" ++ "done, %s, %s" := by decide
    rw [e]
    refine (line_text m id "" "done, %s, %s"
      [(Arg.str (if errored then "errored" else "success") : A), Arg.str (Humanize.duration duration)] hid (by decide)
      (show Uses "done, %s, %s" 2 by decide)).trans ?_
    rw [two_strings hr]
    show _ = id ++ " done, " ++ _ ++ _ ++ _ ++ _
    simp only [String.append_assoc]
    rfl

/-- **C86**, for formats whose verbs take all the arguments given and which do not end in the midst of a directive, and IDs without a percent sign (such
as ULIDs).  A program makes calls through a trace that is decorated to log to `dst`; anything else may
happen meanwhile except that others use the trace or `dst`.  Then what is written is one line per call,
in order: the ID and the text of the event, marked if it is an error; for `Finish` whether an error was
logged before the first `Finish`, and the trace's duration.  Full statement: for all calls, see
`C86_extra_violated`. -/
theorem C86_lines_partial (hr : RendersStrings W A) (settings : List Setting) (start : Time) (id source category : String) (old : CoreTrace A)
    (w w' : World A) (ex : List (AEnv W × Act A)) (t : Tr A) (dst : Nat) (program : List (Op A))
    (hid : '%' ∉ id.toList) (hdst : dst ∉ t.dsts)
    (hargs : ∀ kind format args stack, Op.log kind format args stack ∈ program → Uses (trimNewline format) args.length)
    (hex : (ex.map Prod.snd).filter (concerns t.root dst) =
      (program.flatMap fun op => op.acts (.log t id dst)).filter (concerns t.root dst))
    (hm : ∀ p ∈ ex, notMake t.root p.2) (hrun : w.run ex = some w')
    (ht : w.traces t.root = some (fresh settings start id source category old)) :
    ∃ lines t', w'.traces t.root = some t' ∧ w'.written dst = w.written dst ++ lines ∧
      Match (LineFor W id (failsBefore program) t'.duration) lines program := by
  obtain ⟨lines, t', h1, h2, h3, h4⟩ := lines_raw settings start id source category old w w' ex t dst program hdst hex hm hrun ht
  refine ⟨lines, t', h1, h2, h3, fun i line op hl ho => raw_line hr hid ?_ (h4 i line op hl ho)⟩
  rintro kind format args stack rfl
  exact hargs kind format args stack (List.mem_of_getElem? ho)

/-- What is written for a call ends a line exactly if the format does not end in the midst of a directive and its verbs take
all the arguments; and then it is the line for the call.  `Finish` always writes its line. -/
def EndsFor (W : Type) [Render W A] (id : String) (errored : Bool) (duration : Duration) (line : String) : Op A → Prop
  | .log kind format args stack =>
    ((∃ x, line = x ++ "\n") ↔ Uses (trimNewline format) args.length) ∧
    (Uses (trimNewline format) args.length → LineFor W id errored duration line (.log kind format args stack))
  | .finish => LineFor W id errored duration line (.finish : Op A)

/-- **C86**, for which calls.  As `C86_lines_partial`, but for calls with any formats and arguments: what is written
for a call ends a line, and so the next call's text begins one, exactly if the format does not
end in the midst of a directive and takes all the arguments.  Arguments do not render themselves under unknown verbs
(`hbad`; fmt complains of these, in parentheses). -/
theorem C86_lines_exact (hr : RendersStrings W A) (settings : List Setting) (start : Time) (id source category : String) (old : CoreTrace A)
    (w w' : World A) (ex : List (AEnv W × Act A)) (t : Tr A) (dst : Nat) (program : List (Op A))
    (hid : '%' ∉ id.toList) (hdst : dst ∉ t.dsts)
    (hbad : ∀ (m : W) (spec : List Char) (a : A), (Render.arg m spec '\n' a).getLast? = some ')')
    (hex : (ex.map Prod.snd).filter (concerns t.root dst) =
      (program.flatMap fun op => op.acts (.log t id dst)).filter (concerns t.root dst))
    (hm : ∀ p ∈ ex, notMake t.root p.2) (hrun : w.run ex = some w')
    (ht : w.traces t.root = some (fresh settings start id source category old)) :
    ∃ lines t', w'.traces t.root = some t' ∧ w'.written dst = w.written dst ++ lines ∧
      Match (EndsFor W id (failsBefore program) t'.duration) lines program := by
  obtain ⟨lines, t', h1, h2, h3, h4⟩ := lines_raw settings start id source category old w w' ex t dst program hdst hex hm hrun ht
  refine ⟨lines, t', h1, h2, h3, fun i line op hl ho => ?_⟩
  have hraw := h4 i line op hl ho
  cases op with
  | finish => exact raw_line hr hid (by rintro _ _ _ _ ⟨⟩) hraw
  | log kind format args stack =>
    refine ⟨?_, fun hu => raw_line hr hid (by rintro _ _ _ _ ⟨⟩; exact hu) hraw⟩
    obtain ⟨m, rfl⟩ := hraw
    rw [trimNewline_mark]
    have hp : '%' ∉ (id ++ " " ++ errMark kind).toList := by
      simp only [String.toList_append, List.mem_append, not_or]
      exact ⟨⟨hid, by decide⟩, by cases kind <;> decide⟩
    have e : id ++ " " ++ (errMark kind ++ trimNewline format) ++ "\n" = (id ++ " " ++ errMark kind) ++ trimNewline format ++ "\n" := by
      simp only [String.append_assoc]
    show (∃ x, sprintf m _ args = _) ↔ _
    rw [e, sprintf_ends m _ args (fun spec a _ => hbad m spec a)]
    unfold Uses
    rw [String.toList_append, scan_append, scan_plain _ hp]
    simp

/-- **C86** The first line, of a trace that is being decorated. -/
theorem C86_started (hr : RendersStrings W A) (w : World A) (env : AEnv W) (id source category : String) (t : Tr A) (dst : Nat)
    (hid : '%' ∉ id.toList) :
    ∃ w', w.run ((logDecorator dst source category id t).2.map fun act => (env, act)) = some w' ∧
      w'.written dst = w.written dst ++ [id ++ " started, source '" ++ source ++ "', category '" ++ category ++ "'\n"] ∧
      (logDecorator dst source category id t).1 = .log t id dst := by
  refine ⟨_, rfl, ?_, rfl⟩
  rw [written_append, if_pos rfl]
  congr 1
  simp only [List.cons.injEq, and_true]
  have e : trimNewline "started, source '%s', category '%s'" = "" ++ "started, source '%s', category '%s'" := by decide
  rw [e]
  refine (line_text env.w id "" "started, source '%s', category '%s'" [(Arg.str source : A), Arg.str category] hid (by decide)
    (show Uses "started, source '%s', category '%s'" 2 by decide)).trans ?_
  have : sprintf env.w "started, source '%s', category '%s'" [(Arg.str source : A), Arg.str category] =
      String.ofList ("started, source '".toList ++ (Render.arg env.w [] 's' (Arg.str source : A) ++
        ("', category '".toList ++ (Render.arg env.w [] 's' (Arg.str category : A) ++ ['\''])))) := rfl
  rw [this, hr, hr]
  simp only [String.ofList_append, String.ofList_toList]
  simp only [String.append_assoc, String.empty_append]
  rfl

theorem loggerRecord_newline (header x : String) : loggerRecord header (x ++ "\n") = header ++ (x ++ "\n") := by
  unfold loggerRecord
  split
  · rfl
  · rename_i h
    exact absurd (by simp [String.toList_append]) (h (header ++ x).toList.reverse)

theorem loggerRecord_ends (header text : String) : ∃ x, loggerRecord header text = x ++ "\n" := by
  unfold loggerRecord
  split
  · rename_i cs h
    refine ⟨String.ofList cs.reverse, ?_⟩
    have : (header ++ text).toList = cs.reverse ++ ['\n'] := by
      have := congrArg List.reverse h
      simpa using this
    rw [← String.toList_inj, this, String.toList_append]
    simp
  · exact ⟨_, rfl⟩

/-- **C86** The lines of a log decorator are put out by a logger as they are, each after its header. -/
theorem C86_logger (id : String) (errored : Bool) (duration : Duration) (headers lines : List String) (program : List (Op A))
    (h : Match (LineFor W id errored duration) lines program) :
    loggerOutput (headers.zip lines) = String.join ((headers.zip lines).map fun p => p.1 ++ p.2) := by
  have key : ∀ l : List (String × String), (∀ p ∈ l, ∃ x, p.2 = x ++ "\n") →
      loggerOutput l = String.join (l.map fun p => p.1 ++ p.2) := by
    intro l
    induction l with
    | nil => intro _; rfl
    | cons p l ih =>
      intro hl
      obtain ⟨header, text⟩ := p
      obtain ⟨x, hx⟩ := hl _ List.mem_cons_self
      simp only at hx
      subst hx
      simp only [loggerOutput, List.map_cons]
      rw [loggerRecord_newline, ih fun p hp => hl p (List.mem_cons_of_mem _ hp), String.join_cons]
  refine key _ fun p hp => ?_
  obtain ⟨i, hi⟩ := List.getElem?_of_mem (List.of_mem_zip hp).2
  have hlt : i < program.length := by
    rw [← h.1]
    exact (List.getElem?_eq_some_iff.mp hi).1
  have := h.2 i p.2 program[i] hi (List.getElem?_eq_getElem hlt)
  cases hop : program[i] with
  | log kind format args stack =>
    rw [hop] at this
    obtain ⟨w, e⟩ := this
    exact ⟨_, e⟩
  | finish =>
    rw [hop] at this
    exact ⟨_, this⟩

/-- **C86** Whatever is written through a logger, every record begins a line: what comes before it is nothing or
ends with a newline, and it begins with its header. -/
theorem C86_logger_starts (before : List (String × String)) (header text : String) (after : List (String × String)) :
    (before = [] ∨ ∃ x, loggerOutput before = x ++ "\n") ∧
    ∃ rest, loggerOutput (before ++ (header, text) :: after) = loggerOutput before ++ (header ++ text ++ rest) := by
  constructor
  · rcases List.eq_nil_or_concat before with rfl | ⟨l, p, rfl⟩
    · exact .inl rfl
    · right
      have app : ∀ l m : List (String × String), loggerOutput (l ++ m) = loggerOutput l ++ loggerOutput m := by
        intro l m
        induction l with
        | nil => simp [loggerOutput]
        | cons q l ih => simp only [List.cons_append, loggerOutput, ih, String.append_assoc]
      obtain ⟨x, hx⟩ := loggerRecord_ends p.1 p.2
      refine ⟨loggerOutput l ++ x, ?_⟩
      rw [List.concat_eq_append, app]
      show loggerOutput l ++ (loggerRecord p.1 p.2 ++ "") = _
      rw [hx, String.append_empty, String.append_assoc]
  · induction before with
    | nil =>
      simp only [List.nil_append, loggerOutput, String.empty_append]
      unfold loggerRecord
      split
      · exact ⟨_, rfl⟩
      · exact ⟨"\n" ++ loggerOutput after, by simp only [String.append_assoc]⟩
    | cons q l ih =>
      obtain ⟨rest, ih⟩ := ih
      refine ⟨rest, ?_⟩
      simp only [List.cons_append, loggerOutput, ih, String.append_assoc]

/-- Records of a logger with a prefix: also of texts that do not end with a newline. -/
example : loggerOutput [("app: ", "01H a x\n"), ("app: ", "01H a\n%!(EXTRA string=x)"), ("app: ", "01H b\n")] =
    "app: 01H a x\napp: 01H a\n%!(EXTRA string=x)\napp: 01H b\n" := by decide

end Trc.Wrap

namespace Trc.Wrap.Witness

open Core Core.Spec Fmt

def logged (program : List (Op String)) : List (AEnv Unit × Act String) :=
  (program.flatMap fun op => op.acts (.log (.publish (.core 0)) "01H" 7)).map fun act => ({ env 3 with subscribed := true }, act)

def logWorld : World String :=
  { traces := fun b => if b = 0 then some (fresh [] ⟨1, none⟩ "01H" "s" "c" zeroTrace) else none }

def calls : List (Op String) :=
  [.log .tracef "a %s\n" ["x"] (stack 3), .finish, .log .lazyErrorf "b" [] [], .finish]

/-- A run of `C86_lines_partial`, with others writing elsewhere and reading: the error that is logged
after `Finish` is written, but does not count. -/
example : ∃ w', logWorld.run ((env 2, .call 0 (.read 3 true)) :: (env 2, .write 6 "else" []) :: logged calls) = some w' ∧
    w'.written 7 = ["01H a x\n", "01H done, success, 1s\n", "01H ERROR: b\n", "01H done, success, 1s\n"] ∧
    failsBefore calls = false ∧ ((w'.traces 0).map fun t => t.duration) = some 2 :=
  ⟨_, rfl, rfl, rfl, rfl⟩

/-- The hypotheses of `C86_lines_partial` are met by it. -/
example : '%' ∉ "01H".toList ∧ 7 ∉ (Tr.publish (Tr.core 0) : Tr String).dsts ∧
    (∀ kind format args stack, Op.log kind format args stack ∈ calls → Uses (trimNewline format) args.length) ∧
    (((logged calls).map Prod.snd).filter (concerns 0 7) =
      (calls.flatMap fun op => op.acts (.log (.publish (.core 0)) "01H" 7)).filter (concerns 0 7)) ∧
    RendersStrings Unit String := by
  refine ⟨by decide, by decide, ?_, rfl, fun _ _ => rfl⟩
  intro kind format args stack h
  simp only [calls, List.mem_cons, Op.log.injEq, reduceCtorEq, List.not_mem_nil, or_false, false_or] at h
  rcases h with ⟨-, rfl, rfl, -⟩ | ⟨-, rfl, rfl, -⟩
  · exact (by decide : Uses (trimNewline "a %s\n") 1)
  · exact (by decide : Uses (trimNewline "b") 0)

/-- Arguments that are strings in quotes, with complaints about verbs that they do not know. -/
def picky : Render Unit String :=
  ⟨fun _ _ c a => if c = 's' then a.toList else "%!".toList ++ c :: "(string=".toList ++ a.toList ++ [')'], fun _ a => "string=".toList ++ a.toList⟩

/-- The hypothesis of `C86_lines_exact` about arguments is met by these. -/
example : (∀ (m : Unit) (spec : List Char) (a : String), (picky.arg m spec '\n' a).getLast? = some ')') ∧
    Uses (trimNewline "%s and %s\n") 1 ∧ ¬ Uses "a" 1 ∧ ¬ Uses "100%" 0 := by
  refine ⟨fun m spec a => ?_, by decide, by decide, by decide⟩
  show ("%!".toList ++ '\n' :: "(string=".toList ++ a.toList ++ [')']).getLast? = some ')'
  rw [List.getLast?_append]
  rfl

/-- C86 fails for superfluous arguments: the newline comes before the complaint about them, and the
next call's text is on the same line; and for formats that end with a percent sign, which takes the newline
for a verb. -/
theorem C86_extra_violated :
    (logWorld.run (logged [.log .tracef "a" ["x"] [], .log .tracef "b" [] []])).map (fun w => w.written 7) =
      some ["01H a\n%!(EXTRA string=x)", "01H b\n"] ∧
    (logWorld.run (logged [.log .tracef "100%" [] [], .log .tracef "b" [] []])).map (fun w => w.written 7) =
      some ["01H 100%!\n(MISSING)", "01H b\n"] :=
  ⟨rfl, rfl⟩

end Trc.Wrap.Witness
