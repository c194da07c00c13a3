import Verif.Props.LogLines
import Mathlib.Data.List.Perm.Subperm

/-!
# C116: what is found in a trace is in the log already

Any number of goroutines log through a trace that is decorated to log, and through other traces, some of
which may log to the same destination; their actions are interleaved in any way, and the execution
may stop anywhere.
-/

set_option linter.unusedSectionVars false
set_option linter.unusedVariables false
set_option linter.unusedSimpArgs false

namespace Trc.Wrap

open Core Core.Spec Fmt

variable {W A : Type} [Render W A] [Arg A] [Humanize]

/-- A core trace with decorators, without prefixes. -/
inductive Decorated (a : Nat) : Tr A → Prop
  | core : Decorated a (.core a)
  | publish {t : Tr A} : Decorated a t → Decorated a (.publish t)
  | log {t : Tr A} (id : String) (dst : Nat) : Decorated a t → Decorated a (.log t id dst)

/-- The trace is the base, or derived from it by further decorators, `Prefix` or `Region`. -/
inductive Over (base : Tr A) : Tr A → Prop
  | base : Over base base
  | publish {t : Tr A} : Over base t → Over base (.publish t)
  | log {t : Tr A} (id : String) (dst : Nat) : Over base t → Over base (.log t id dst)
  | pre {t : Tr A} (format : String) (args : List A) : Over base t → Over base (.pre t format args)

/-- Something a goroutine does: a call through a trace, or other actions. -/
inductive Deed (A : Type) where
  | call (tr : Tr A) (op : Op A)
  | other (acts : List (Act A))

def Deed.acts : Deed A → List (Act A)
  | .call tr op => op.acts tr
  | .other acts => acts

/-- The format takes the arguments, which do not change what they look like. -/
def Steady (W : Type) {A : Type} [Render W A] (format : String) (args : List A) : Prop :=
  Uses format args.length ∧ ∀ w w' : W, sprintf w format args = sprintf w' format args

/-- What is logged to the core trace `a` is logged through the base; its formats take the arguments,
which do not change. -/
def Deed.Fits (W : Type) {A : Type} [Render W A] (a : Nat) (base : Tr A) : Deed A → Prop
  | .call tr (.log _ format args _) =>
    tr.root ≠ a ∨ (Over base tr ∧ Steady W (trimNewline (tr.pformat ++ format)) (tr.pargs ++ args))
  | .call _ .finish => True
  | .other acts => ∀ act ∈ acts, ∀ kind format args stack, act ≠ .call a (.log kind format args stack)

/-- The line tells of the event: the ID, a mark for errors, the event's text, and a newline unless the
text ends with one. -/
def TellsOf (id line : String) (ev : Event) : Prop :=
  line = id ++ " " ++ (if ev.isError then "ERROR: " else "") ++ ev.what ++ "\n" ∨
  (line = id ++ " " ++ (if ev.isError then "ERROR: " else "") ++ ev.what ∧ ∃ x, ev.what = x ++ "\n")

/-! ## Lines and calls of an execution -/

/-- What is written about a logging call. -/
def noted (id : String) (w : W) (kind : LogKind) (format : String) (args : List A) : String :=
  sprintf w (id ++ " " ++ trimNewline (errMark kind ++ format) ++ "\n") args

def heard (a : Nat) (id : String) (p : AEnv W × Act A) : Option String :=
  match p.2 with
  | .call b (.log kind format args _) => if b = a then some (noted id p.1.w kind format args) else none
  | _ => none

def wrote (dst : Nat) (p : AEnv W × Act A) : Option String :=
  match p.2 with
  | .write d format args => if d = dst then some (sprintf p.1.w format args) else none
  | _ => none

/-- At any moment of the actions, every call that was made has been written before. -/
def Ahead (W : Type) [Render W A] (a dst : Nat) (id : String) (L : List (Act A)) : Prop :=
  ∀ P : List (AEnv W × Act A), P.map Prod.snd <+: L → (P.filterMap (heard a id)).Sublist (P.filterMap (wrote dst))

/-- Not a logging call on the core trace. -/
def silent (a : Nat) (act : Act A) : Prop := ∀ kind format args stack, act ≠ .call a (.log kind format args stack)

theorem heard_silent {a : Nat} {id : String} {p : AEnv W × Act A} (h : silent a p.2) : heard a id p = none := by
  obtain ⟨env, act⟩ := p
  unfold heard
  cases act with
  | call b c =>
    cases c with
    | log kind f as st =>
      simp only
      rw [if_neg]
      intro hb
      exact h kind f as st (by rw [hb])
    | _ => rfl
  | _ => rfl

theorem ahead_silent {a dst : Nat} {id : String} {L : List (Act A)} (h : ∀ act ∈ L, silent a act) : Ahead W a dst id L := by
  intro P hP
  have : P.filterMap (heard a id) = [] := by
    rw [List.filterMap_eq_nil_iff]
    intro p hp
    exact heard_silent (h _ (hP.subset (List.mem_map_of_mem hp)))
  rw [this]
  exact List.nil_sublist _

theorem ahead_append {a dst : Nat} {id : String} {L M : List (Act A)} (h : Ahead W a dst id L) (h' : Ahead W a dst id M) :
    Ahead W a dst id (L ++ M) := by
  intro P hP
  rcases List.prefix_append_iff_or hP with h1 | ⟨N, h1, h2⟩
  · exact h P h1
  · obtain ⟨P₁, P₂, rfl, e1, e2⟩ := List.map_eq_append_iff.mp h1
    rw [List.filterMap_append, List.filterMap_append]
    exact (h P₁ (by rw [e1]; exact List.prefix_refl _)).append (h' P₂ (by rw [e2]; exact h2))
where
  List.prefix_append_iff_or {P L M : List (Act A)} (h : P <+: L ++ M) : P <+: L ∨ ∃ N, P = L ++ N ∧ N <+: M := by
    induction L generalizing P with
    | nil => exact .inr ⟨P, rfl, h⟩
    | cons x L ih =>
      cases P with
      | nil => exact .inl List.nil_prefix
      | cons y P =>
        rw [List.cons_append, List.cons_prefix_cons] at h
        obtain ⟨rfl, h⟩ := h
        rcases ih h with h1 | ⟨N, rfl, h2⟩
        · exact .inl (List.cons_prefix_cons.mpr ⟨rfl, h1⟩)
        · exact .inr ⟨N, rfl, h2⟩

theorem trimNewline_cases (f : String) : trimNewline f = f ∨ f = trimNewline f ++ "\n" := by
  unfold trimNewline
  split
  · rename_i cs h
    right
    have : f.toList = cs.reverse ++ ['\n'] := by
      have := congrArg List.reverse h
      simpa using this
    rw [← String.toList_inj, this, String.toList_append]
    simp
  · exact .inl rfl

theorem noted_eq {id : String} (hid : '%' ∉ id.toList) {format : String} {args : List A}
    (h : Steady W (trimNewline format) args) (w : W) (kind : LogKind) :
    noted id w kind format args = id ++ " " ++ errMark kind ++ sprintf w (trimNewline format) args ++ "\n" := by
  unfold noted
  rw [trimNewline_mark]
  exact line_text w id (errMark kind) (trimNewline format) args hid (by cases kind <;> decide) h.1

theorem noted_steady {id : String} (hid : '%' ∉ id.toList) {format : String} {args : List A}
    (h : Steady W (trimNewline format) args) (w w' : W) (kind : LogKind) :
    noted id w kind format args = noted id w' kind format args := by
  rw [noted_eq hid h, noted_eq hid h, h.2 w w']

/-- The one logging call that a call through a decorated trace comes to. -/
theorem heard_decorated {a : Nat} {t : Tr A} (h : Decorated a t) (id : String) (kind : LogKind) (format : String) (args : List A)
    (stack : List StdFrame) (k : String) (hk : ∀ w : W, noted id w kind format args = k) (Q : List (AEnv W × Act A))
    (hQ : Q.map Prod.snd = t.logActs kind format args stack) : Q.filterMap (heard a id) = [k] := by
  induction h generalizing stack Q with
  | core =>
    match Q, hQ with
    | [(e, x)], hQ =>
      simp only [Tr.logActs, List.map_cons, List.map_nil, List.cons.injEq, and_true] at hQ
      subst hQ
      simp [heard, hk]
  | publish h ih =>
    obtain ⟨Q₁, Q₂, rfl, e1, e2⟩ := List.map_eq_append_iff.mp hQ
    rw [List.filterMap_append, ih _ Q₁ e1]
    match Q₂, e2 with
    | [(e, x)], e2 =>
      simp only [List.map_cons, List.map_nil, List.cons.injEq, and_true] at e2
      subst e2
      simp [heard]
  | log id' dst h ih =>
    obtain ⟨p, Q', rfl, e1, e2⟩ := List.map_eq_cons_iff.mp hQ
    obtain ⟨e, x⟩ := p
    simp only at e1
    subst e1
    rw [List.filterMap_cons_none (by simp [heard, logEvent]), ih _ Q' e2]

theorem decorated_root {a : Nat} {t : Tr A} (h : Decorated a t) : t.root = a ∧ t.pformat = "" ∧ t.pargs = [] := by
  induction h with
  | core => exact ⟨rfl, rfl, rfl⟩
  | publish _ ih => exact ih
  | log _ _ _ ih => exact ih

theorem prefix_extends {P : List (AEnv W × Act A)} [Inhabited (AEnv W)] {L : List (Act A)} (h : P.map Prod.snd <+: L) :
    ∃ Q, P <+: Q ∧ Q.map Prod.snd = L := by
  obtain ⟨M, hM⟩ := h
  refine ⟨P ++ M.map fun act => (default, act), List.prefix_append .., ?_⟩
  rw [List.map_append, List.map_map]
  have : (Prod.snd ∘ fun act : Act A => ((default : AEnv W), act)) = id := rfl
  rw [this, List.map_id, hM]

/-- A logging call through the base, or what is derived from it. -/
theorem ahead_over {a : Nat} {t : Tr A} {id : String} {dst : Nat} (ht : Decorated a t) (hid : '%' ∉ id.toList) {tr : Tr A}
    (h : Over (.log t id dst) tr) (kind : LogKind) (format : String) (args : List A) (stack : List StdFrame)
    (hs : Steady W (trimNewline (tr.pformat ++ format)) (tr.pargs ++ args)) :
    Ahead W a dst id (tr.logActs kind format args stack) := by
  induction h generalizing format args stack with
  | base =>
    intro P hP
    match P, hP with
    | [], _ => exact List.nil_sublist _
    | (e, x) :: P, hP =>
      simp only [Tr.logActs, List.map_cons, List.cons_prefix_cons] at hP
      obtain ⟨rfl, hP⟩ := hP
      obtain ⟨_, e1, e2⟩ := decorated_root ht
      simp only [Tr.pformat, Tr.pargs, e1, e2, String.empty_append, List.nil_append] at hs
      have : Inhabited (AEnv W) := ⟨e⟩
      obtain ⟨Q, hQ, hL⟩ := prefix_extends hP
      have h1 := heard_decorated ht id kind format args _ (noted id e.w kind format args)
        (fun w => noted_steady hid hs w e.w kind) Q hL
      have h2 : (P.filterMap (heard a id)).Sublist [noted id e.w kind format args] := by
        rw [← h1]
        exact (hQ.filterMap _).sublist
      rw [List.filterMap_cons_none (by simp [heard, logEvent])]
      have h3 : wrote dst (e, logEvent id dst (errMark kind ++ format) args) = some (noted id e.w kind format args) := by
        simp [wrote, logEvent, noted]
      rw [List.filterMap_cons_some h3]
      exact h2.trans (List.cons_sublist_cons.mpr (List.nil_sublist _))
  | publish h ih =>
    exact ahead_append (ih _ _ _ hs) (ahead_silent (by
      intro act hact
      simp only [List.mem_singleton] at hact
      subst hact
      intro _ _ _ _ e; cases e))
  | log id' dst' h ih =>
    refine ahead_append (L := [_]) (ahead_silent ?_) (ih _ _ _ hs)
    intro act hact
    simp only [List.mem_singleton] at hact
    subst hact
    intro _ _ _ _ e; simp [logEvent] at e
  | pre f as h ih =>
    refine ih _ _ _ ?_
    simpa only [Tr.pformat, Tr.pargs, String.append_assoc, List.append_assoc] using hs

theorem logActs_silent {a : Nat} (tr : Tr A) (h : tr.root ≠ a) (kind : LogKind) (format : String) (args : List A)
    (stack : List StdFrame) : ∀ act ∈ tr.logActs kind format args stack, silent a act := by
  induction tr generalizing format args stack with
  | core b =>
    intro act hact
    simp only [Tr.logActs, List.mem_singleton] at hact
    subst hact
    intro _ _ _ _ e
    simp only [Act.call.injEq] at e
    exact h e.1
  | publish t ih =>
    intro act hact
    simp only [Tr.logActs, List.mem_append, List.mem_singleton] at hact
    rcases hact with hact | rfl
    · exact ih h _ _ _ _ hact
    · intro _ _ _ _ e; cases e
  | log t id dst ih =>
    intro act hact
    simp only [Tr.logActs, List.mem_cons] at hact
    rcases hact with rfl | hact
    · intro _ _ _ _ e; simp [logEvent] at e
    · exact ih h _ _ _ _ hact
  | pre t f as ih => exact ih h _ _ _

theorem finishActs_silent (a : Nat) (tr : Tr A) : ∀ act ∈ tr.finishActs, silent a act := by
  induction tr with
  | core b =>
    intro act hact
    simp only [Tr.finishActs, List.mem_singleton] at hact
    subst hact
    intro _ _ _ _ e; simp at e
  | publish t ih =>
    intro act hact
    simp only [Tr.finishActs, List.mem_append, List.mem_singleton] at hact
    rcases hact with hact | rfl
    · exact ih _ hact
    · intro _ _ _ _ e; cases e
  | log t id dst ih =>
    intro act hact
    simp only [Tr.finishActs, List.mem_append, List.mem_singleton] at hact
    rcases hact with hact | rfl
    · exact ih _ hact
    · intro _ _ _ _ e; cases e
  | pre t f as ih => exact ih

theorem ahead_program {a : Nat} {t : Tr A} {id : String} {dst : Nat} (ht : Decorated a t) (hid : '%' ∉ id.toList)
    (program : List (Deed A)) (h : ∀ d ∈ program, d.Fits W a (.log t id dst)) :
    Ahead W a dst id (program.flatMap Deed.acts) := by
  induction program with
  | nil => exact ahead_silent (by simp)
  | cons d program ih =>
    rw [List.flatMap_cons]
    refine ahead_append ?_ (ih fun d' hd' => h d' (List.mem_cons_of_mem _ hd'))
    have hd := h d List.mem_cons_self
    cases d with
    | call tr op =>
      cases op with
      | log kind format args stack =>
        rcases hd with hd | ⟨h1, h2⟩
        · exact ahead_silent (logActs_silent tr hd kind format args stack)
        · exact ahead_over ht hid h1 kind format args stack h2
      | finish => exact ahead_silent (finishActs_silent a tr)
    | other acts => exact ahead_silent hd

/-- A count that is bounded for each goroutine is bounded for all. -/
theorem count_goroutines {X : Type} (p q : X → Bool) (ex : List (Nat × X))
    (h : ∀ g, ((ex.filter (·.1 = g)).map Prod.snd).countP p ≤ ((ex.filter (·.1 = g)).map Prod.snd).countP q) :
    (ex.map Prod.snd).countP p ≤ (ex.map Prod.snd).countP q := by
  generalize hn : ex.length = n
  induction n using Nat.strongRecOn generalizing ex with
  | _ n ih =>
  cases ex with
  | nil => simp
  | cons x ex =>
    have split : ∀ r : X → Bool, ((x :: ex).map Prod.snd).countP r =
        (((x :: ex).filter (·.1 = x.1)).map Prod.snd).countP r + (((x :: ex).filter (fun y => ¬ y.1 = x.1)).map Prod.snd).countP r := by
      intro r
      simp only [List.countP_map]
      have := List.countP_eq_countP_filter_add (x :: ex) (r ∘ Prod.snd) (fun y => decide (y.1 = x.1))
      simpa using this
    rw [split p, split q]
    have h1 := h x.1
    have h2 := ih ((x :: ex).filter (fun y => ¬ y.1 = x.1)).length (by
        subst hn
        rw [List.filter_cons_of_neg (by simp)]
        exact Nat.lt_succ_of_le (List.length_filter_le ..))
      ((x :: ex).filter (fun y => ¬ y.1 = x.1)) (by
        intro g
        by_cases hg : g = x.1
        · have e : ((x :: ex).filter (fun y => ¬ y.1 = x.1)).filter (fun y => decide (y.1 = g)) = [] := by
            rw [List.filter_filter, List.filter_eq_nil_iff]
            intro y _
            simp [hg]
          rw [e]; simp
        · have e : ((x :: ex).filter (fun y => ¬ y.1 = x.1)).filter (fun y => decide (y.1 = g)) = (x :: ex).filter (fun y => decide (y.1 = g)) := by
            rw [List.filter_filter]
            congr 1
            funext y
            by_cases hy : y.1 = g
            · simp [hy, hg]
            · simp [hy]
          rw [e]; exact h g) rfl
    omega

/-- What an execution writes. -/
theorem run_wrote {w w' : World A} {ex : List (AEnv W × Act A)} (dst : Nat) (h : w.run ex = some w') :
    ∃ lines, w'.written dst = w.written dst ++ lines ∧ (ex.filterMap (wrote dst)).Sublist lines := by
  induction ex generalizing w with
  | nil =>
    simp only [World.run, Option.some.injEq] at h
    subst h
    exact ⟨[], by simp, by simp⟩
  | cons p ex ih =>
    obtain ⟨env, act⟩ := p
    simp only [World.run, bind] at h
    cases ha : w.act env act with
    | none => simp [ha] at h
    | some w₁ =>
      simp only [ha, Option.bind_some] at h
      obtain ⟨lines, l1, l2⟩ := ih h
      have key : ∃ ls, w₁.written dst = w.written dst ++ ls ∧ ([(env, act)].filterMap (wrote dst)).Sublist ls := by
        cases act with
        | make b source category =>
          simp only [World.act, Option.some.injEq] at ha
          subst ha
          exact ⟨[], by simp [World.written, World.set], by simp [wrote]⟩
        | call b c =>
          simp only [World.act, bind] at ha
          cases hb : w.traces b with
          | none => simp [hb] at ha
          | some tb =>
            simp only [hb, Option.bind_some] at ha
            cases hst : tb.step env.toEnv c with
            | none => simp [hst] at ha
            | some q =>
              simp only [hst, Option.bind_some, pure, Option.some.injEq] at ha
              subst ha
              exact ⟨[], by simp [World.written, World.set], by simp [wrote]⟩
        | publish tr =>
          simp only [World.act, World.publish] at ha
          split at ha
          · cases hb : w.traces tr.root with
            | none => simp [hb] at ha
            | some tb =>
              simp only [hb, bind, Option.bind_some] at ha
              cases hst : streamEvents tb env.toEnv tr.isCore with
              | none => simp [hst] at ha
              | some q =>
                simp only [hst, Option.bind_some, pure, Option.some.injEq] at ha
                subst ha
                exact ⟨[], by simp [World.written, World.set], by simp [wrote]⟩
          · obtain rfl := Option.some.inj ha
            exact ⟨[], by simp, by simp [wrote]⟩
        | write d format args =>
          simp only [World.act, Option.some.injEq] at ha
          subst ha
          rw [written_append]
          by_cases hd : d = dst
          · refine ⟨[sprintf env.w format args], by rw [if_pos hd]; rfl, by simp [wrote, hd]⟩
          · exact ⟨[], by simp [hd], by simp [wrote, hd]⟩
        | writeDone d id tr =>
          simp only [World.act, bind] at ha
          cases hb : w.traces tr.root with
          | none => simp [hb] at ha
          | some tb =>
            simp only [hb, Option.bind_some, pure, Option.some.injEq] at ha
            subst ha
            rw [written_append]
            by_cases hd : d = dst
            · exact ⟨_, by rw [if_pos hd], by simp [wrote]⟩
            · exact ⟨[], by simp [hd], by simp [wrote]⟩
        | retain category tr =>
          simp only [World.act, bind] at ha
          cases hp : w.cats.push category tr with
          | none => simp [hp] at ha
          | some q =>
            simp only [hp, Option.bind_some, pure, Option.some.injEq] at ha
            subst ha
            exact ⟨[], by simp [World.written], by simp [wrote]⟩
      obtain ⟨ls, k1, k2⟩ := key
      refine ⟨ls ++ lines, by rw [l1, k1, List.append_assoc], ?_⟩
      have : (env, act) :: ex = [(env, act)] ++ ex := rfl
      rw [this, List.filterMap_append]
      exact k2.append l2

/-- The events stored are of logging calls. -/
theorem stored_logs (a : Abs W A) (h : Hist W A) :
    ((a.run h).stored.map Stored.entry).Sublist (a.stored.map Stored.entry ++ logs h) := by
  induction h generalizing a with
  | nil => simp [Abs.run, logs]
  | cons p h ih =>
    obtain ⟨env, c⟩ := p
    refine (ih (a.step env c)).trans ?_
    cases c with
    | log kind f x cs =>
      simp only [logs]
      have : a.stored.map Stored.entry ++ (⟨kind, f, x, cs, env⟩ :: logs h) =
          (a.stored.map Stored.entry ++ [⟨kind, f, x, cs, env⟩]) ++ logs h := by simp
      rw [this]
      refine List.Sublist.append ?_ (List.Sublist.refl _)
      simp only [Abs.step, Abs.log]
      split
      · exact List.sublist_append_left ..
      · split
        · exact List.sublist_append_left ..
        · simp
    | finish => simp only [Abs.step, logs]; split <;> exact List.Sublist.refl _
    | setMaxEvents m => exact List.Sublist.refl _
    | read n st =>
      simp only [logs]
      have := (SameBut.read a env n st).entries
      rw [this]

theorem logs_writes (h : Hist W A) : logs (writes h) = logs h := by
  induction h with
  | nil => rfl
  | cons p h ih =>
    obtain ⟨env, c⟩ := p
    have e : writes ((env, c) :: h) = (if isRead c then [] else [(env, c)]) ++ writes h := by
      unfold writes
      rw [List.filter_cons]
      cases isRead c <;> rfl
    rw [e]
    cases c <;> simp [isRead, logs, ih]

theorem logs_heard (a : Nat) (id : String) (ex : List (AEnv W × Act A)) :
    (logs (callsOn a ex)).map (fun e => noted id e.env.w e.kind e.format e.args) = ex.filterMap (heard a id) := by
  induction ex with
  | nil => rfl
  | cons p ex ih =>
    obtain ⟨env, act⟩ := p
    have e : callsOn a ((env, act) :: ex) = callsOn a [(env, act)] ++ callsOn a ex := by
      unfold callsOn
      rw [← List.filterMap_append]; rfl
    have l : ∀ h₁ h₂ : Hist W A, logs (h₁ ++ h₂) = logs h₁ ++ logs h₂ := by
      intro h₁ h₂
      induction h₁ with
      | nil => rfl
      | cons q h₁ ih =>
        obtain ⟨e, c⟩ := q
        cases c <;> simp [logs, ih]
    have f : (env, act) :: ex = [(env, act)] ++ ex := rfl
    rw [e, l, List.map_append, ih, f, List.filterMap_append]
    congr 1
    cases act with
    | call b c =>
      cases c with
      | log kind f as st =>
        by_cases hb : b = a <;> simp [callsOn, callOn, isRead, logs, heard, hb]
      | read n s => simp [callsOn, callOn, isRead, logs, heard]
      | _ => by_cases hb : b = a <;> simp [callsOn, callOn, isRead, logs, heard, hb]
    | _ => simp [callsOn, callOn, logs, heard]

theorem tells_of {id : String} (hid : '%' ∉ id.toList) {format : String} {args : List A} {kind : LogKind}
    (h : Steady W (trimNewline format) args) (w w' : W) (ev : Event) (he : ev.isError = isErr kind) (hw : ev.what = sprintf w' format args) :
    TellsOf id (noted id w kind format args) ev := by
  have hmark : errMark kind = if ev.isError then "ERROR: " else "" := by rw [he]; cases kind <;> rfl
  rw [noted_eq hid h, hmark]
  rcases trimNewline_cases format with hf | hf
  · left
    rw [hf] at h ⊢
    rw [hw, h.2 w w']
  · right
    have := sprintf_uses w' (trimNewline format) "\n" args h.1
    rw [← hf, sprintf_plain w' "\n" (by decide)] at this
    rw [hw, this]
    refine ⟨?_, _, rfl⟩
    rw [h.2 w w']
    simp only [String.append_assoc]

/-- The entries are of calls through the base. -/
theorem entries_steady {a : Nat} {t : Tr A} {id : String} {dst : Nat} (ht : Decorated a t) (program : List (Deed A))
    (h : ∀ d ∈ program, d.Fits W a (.log t id dst)) (kind : LogKind) (format : String) (args : List A) (stack : List StdFrame)
    (hm : Act.call a (.log kind format args stack) ∈ program.flatMap Deed.acts) : Steady W (trimNewline format) args := by
  obtain ⟨d, hd, hact⟩ := List.mem_flatMap.mp hm
  have hf := h d hd
  cases d with
  | call tr op =>
    cases op with
    | log kind' format' args' stack' =>
      rcases hf with hf | ⟨h1, h2⟩
      · exact absurd rfl (logActs_silent tr hf kind' format' args' stack' _ hact kind format args stack)
      · have hr : tr.root = a := by
          clear h2 hact hm hd
          induction h1 with
          | base => exact (decorated_root ht).1
          | publish _ ih => exact ih
          | log _ _ _ ih => exact ih
          | pre _ _ _ ih => exact ih
        have hc := logActs_calls tr kind' format' args' stack'
        rw [hr] at hc
        have : Call.log kind format args stack ∈ callsIn a (tr.logActs kind' format' args' stack') :=
          List.mem_filterMap.mpr ⟨_, hact, by simp [callOn, isRead]⟩
        rw [hc] at this
        simp only [List.mem_singleton, Call.log.injEq] at this
        obtain ⟨_, rfl, rfl, _⟩ := this
        exact h2
    | finish => exact absurd rfl (finishActs_silent a tr _ hact kind format args stack)
  | other acts => exact absurd rfl (hf _ hact kind format args stack)

theorem logs_mem {a : Nat} {ex : List (AEnv W × Act A)} {e : Entry W A} (h : e ∈ logs (callsOn a ex)) :
    ∃ p ∈ ex, p.2 = .call a (.log e.kind e.format e.args e.callers) := by
  have l : ∀ hist : Hist W A, e ∈ logs hist → (e.env, Call.log e.kind e.format e.args e.callers) ∈ hist := by
    intro hist
    induction hist with
    | nil => simp [logs]
    | cons q hist ih =>
      obtain ⟨env, c⟩ := q
      intro he
      cases c with
      | log kind f as st =>
        simp only [logs, List.mem_cons] at he
        rcases he with rfl | he
        · exact List.mem_cons_self
        · exact List.mem_cons_of_mem _ (ih he)
      | _ => exact List.mem_cons_of_mem _ (ih he)
  have := l _ h
  unfold callsOn at this
  obtain ⟨p, hp, hc⟩ := List.mem_filterMap.mp this
  refine ⟨p, hp, ?_⟩
  simp only [Option.map_eq_some_iff, Prod.mk.injEq] at hc
  obtain ⟨c, hc, _, rfl⟩ := hc
  unfold callOn at hc
  split at hc
  · rename_i b c' heq
    split at hc
    · rename_i hb
      simp only [Option.some.injEq] at hc
      subst hc
      rw [heq, hb.1]
    · cases hc
  · cases hc

/-- The events read of a trace, and what is noted of them. -/
theorem found_noted (settings : List Setting) (start : Time) (id source category : String) (old : CoreTrace A)
    (w w' : World A) (ex : List (Nat × AEnv W × Act A)) (program : Nat → List (Deed A)) (a dst : Nat) (t : Tr A)
    (hid : '%' ∉ id.toList) (hdeco : Decorated a t)
    (hfits : ∀ g, ∀ d ∈ program g, d.Fits W a (.log t id dst))
    (hex : ∀ g, ((ex.filter (·.1 = g)).map fun x => x.2.2) <+: (program g).flatMap Deed.acts)
    (hm : ∀ x ∈ ex, notMake a x.2.2) (hrun : w.run (ex.map Prod.snd) = some w')
    (ht : w.traces a = some (fresh settings start id source category old)) (env : Env W) :
    ∃ t' shown notices told, w'.traces a = some t' ∧ t'.events' env = some (shown ++ notices) ∧
      (notices = [] ∨ ∃ n, notices = [truncatedNotice env.now n]) ∧
      told.Sublist ((ex.map Prod.snd).filterMap (heard a id)) ∧ List.Forall₂ (TellsOf id) told shown := by
  rw [fresh_conc (W := W)] at ht
  obtain ⟨h, t', r1, r2, r3⟩ := run_hist hrun ht (by
    intro p hp
    obtain ⟨x, hx, rfl⟩ := List.mem_map.mp hp
    exact hm x hx)
  rw [run_conc] at r1
  obtain rfl := (Option.some.inj r1).symm
  -- entries and what is noted of them
  have hsub : ((((Abs.new (Globals.after settings).traceMaxEvents : Abs W A).run h).stored.map Stored.entry)).Sublist
      (logs (callsOn a (ex.map Prod.snd))) := by
    have := stored_logs (Abs.new (Globals.after settings).traceMaxEvents : Abs W A) h
    rw [← logs_writes h, r3] at this
    simpa [Abs.new] using this
  generalize (Abs.new (Globals.after settings).traceMaxEvents : Abs W A).run h = x at *
  have hsteady : ∀ e ∈ logs (callsOn a (ex.map Prod.snd)), Steady W (trimNewline e.format) e.args := by
    intro e he
    obtain ⟨p, hp, hc⟩ := logs_mem he
    obtain ⟨y, hy, rfl⟩ := List.mem_map.mp hp
    refine entries_steady hdeco (program y.1) (hfits y.1) e.kind e.format e.args e.callers ((hex y.1).subset ?_)
    rw [← hc]
    exact List.mem_map.mpr ⟨y, List.mem_filter.mpr ⟨hy, by simp⟩, rfl⟩
  -- each event and its line
  have key : ∀ l : List (Stored W A), l.Sublist x.stored →
      ∃ told : List String, told.Sublist ((ex.map Prod.snd).filterMap (heard a id)) ∧
        List.Forall₂ (TellsOf id) told (l.map fun s => s.event (freshBase settings start id source category) env.w true) := by
    intro l hl
    refine ⟨(l.map Stored.entry).map fun e => noted id e.env.w e.kind e.format e.args, ?_, ?_⟩
    · rw [← logs_heard]
      exact ((hl.map Stored.entry).trans hsub).map _
    · rw [List.map_map, List.forall₂_map_left_iff, List.forall₂_map_right_iff, List.forall₂_same]
      intro s hs
      obtain ⟨_, e2, _, _, w', e5⟩ := event_reports (freshBase settings start id source category) s env.w
      refine tells_of hid (hsteady s.entry (hsub.subset (List.mem_map_of_mem (hl.subset hs)))) s.entry.env.w w' _ e2 e5
  have hread := events'_conc (freshBase settings start id source category) x env
  rw [read_all] at hread
  split at hread
  · rw [← List.map_drop] at hread
    obtain ⟨told, k1, k2⟩ := key (x.stored.drop 1) (List.drop_sublist ..)
    refine ⟨_, _, _, told, r2, hread, ?_, k1, k2⟩
    split
    · exact .inl rfl
    · exact .inr ⟨_, rfl⟩
  · obtain ⟨told, k1, k2⟩ := key x.stored (List.Sublist.refl _)
    exact ⟨_, _, [], told, r2, by rw [List.append_nil]; exact hread, .inl rfl, k1, k2⟩

/-- **C116**, for formats whose verbs take all the arguments given, and arguments that do not change what they
look like.  A new trace is decorated to log to `dst`.  Goroutines log through it, or through what is
derived from it by prefixes and further decorators, and do anything else, such as logging to other traces,
reading, changing the limit or finishing; their actions are interleaved in any way, and each has got
anywhere in its program.  Then the events read are, apart from a notice about truncation, all in
the log already: each is told of by a line of its own.  Full statement: for arguments that may
change, and in order; see `C116_lazy_violated` and `C116_order_violated`. -/
theorem C116_logged_first_partial (settings : List Setting) (start : Time) (id source category : String) (old : CoreTrace A)
    (w w' : World A) (ex : List (Nat × AEnv W × Act A)) (program : Nat → List (Deed A)) (a dst : Nat) (t : Tr A)
    (hid : '%' ∉ id.toList) (hdeco : Decorated a t)
    (hfits : ∀ g, ∀ d ∈ program g, d.Fits W a (.log t id dst))
    (hex : ∀ g, ((ex.filter (·.1 = g)).map fun x => x.2.2) <+: (program g).flatMap Deed.acts)
    (hm : ∀ x ∈ ex, notMake a x.2.2) (hrun : w.run (ex.map Prod.snd) = some w')
    (ht : w.traces a = some (fresh settings start id source category old)) (env : Env W) :
    ∃ t' shown notices lines told, w'.traces a = some t' ∧ t'.events' env = some (shown ++ notices) ∧
      (notices = [] ∨ ∃ n, notices = [truncatedNotice env.now n]) ∧
      w'.written dst = w.written dst ++ lines ∧ told.Subperm lines ∧ List.Forall₂ (TellsOf id) told shown := by
  obtain ⟨t', shown, notices, told, f1, f2, f3, f4, f5⟩ :=
    found_noted settings start id source category old w w' ex program a dst t hid hdeco hfits hex hm hrun ht env
  obtain ⟨lines, l1, l2⟩ := run_wrote dst hrun
  have hcount : ((ex.map Prod.snd).filterMap (heard a id)).Subperm ((ex.map Prod.snd).filterMap (wrote dst)) := by
    rw [List.subperm_ext_iff]
    intro s _
    rw [List.count_filterMap, List.count_filterMap]
    refine count_goroutines _ _ ex fun g => ?_
    have := (ahead_program hdeco hid (program g) (hfits g) ((ex.filter (·.1 = g)).map Prod.snd) (by
      rw [List.map_map]; exact hex g)).count_le s
    rwa [List.count_filterMap, List.count_filterMap] at this
  exact ⟨t', shown, notices, lines, told, f1, f2, f3, l1, f4.subperm.trans (hcount.trans l2.subperm), f5⟩

/-- **C116**, the order: if one goroutine logs to the trace, or several do that do not overlap and so count as one,
then the lines are in the order of the events as well, whatever others write to the same destination. -/
theorem C116_in_order_partial (settings : List Setting) (start : Time) (id source category : String) (old : CoreTrace A)
    (w w' : World A) (ex : List (Nat × AEnv W × Act A)) (program : Nat → List (Deed A)) (a dst : Nat) (t : Tr A)
    (hid : '%' ∉ id.toList) (hdeco : Decorated a t)
    (hfits : ∀ g, ∀ d ∈ program g, d.Fits W a (.log t id dst))
    (hex : ∀ g, ((ex.filter (·.1 = g)).map fun x => x.2.2) <+: (program g).flatMap Deed.acts)
    (hm : ∀ x ∈ ex, notMake a x.2.2) (hrun : w.run (ex.map Prod.snd) = some w')
    (ht : w.traces a = some (fresh settings start id source category old)) (env : Env W)
    (own : Nat) (hown : ∀ x ∈ ex, x.1 ≠ own → ∀ kind format args stack, x.2.2 ≠ .call a (.log kind format args stack)) :
    ∃ t' shown notices lines told, w'.traces a = some t' ∧ t'.events' env = some (shown ++ notices) ∧
      (notices = [] ∨ ∃ n, notices = [truncatedNotice env.now n]) ∧
      w'.written dst = w.written dst ++ lines ∧ told.Sublist lines ∧ List.Forall₂ (TellsOf id) told shown := by
  obtain ⟨t', shown, notices, told, f1, f2, f3, f4, f5⟩ :=
    found_noted settings start id source category old w w' ex program a dst t hid hdeco hfits hex hm hrun ht env
  obtain ⟨lines, l1, l2⟩ := run_wrote dst hrun
  refine ⟨t', shown, notices, lines, told, f1, f2, f3, l1, ?_, f5⟩
  have hsame : (ex.map Prod.snd).filterMap (heard a id) = ((ex.filter (·.1 = own)).map Prod.snd).filterMap (heard a id) := by
    clear hrun hex hm f4 l2
    induction ex with
    | nil => rfl
    | cons x ex ih =>
      have ih := ih fun y hy => hown y (List.mem_cons_of_mem _ hy)
      by_cases hx : x.1 = own
      · rw [List.filter_cons_of_pos (by simpa using hx)]
        simp only [List.map_cons, List.filterMap_cons, ih]
      · rw [List.filter_cons_of_neg (by simpa using hx), List.map_cons,
          List.filterMap_cons_none (heard_silent (hown x List.mem_cons_self hx)), ih]
  rw [hsame] at f4
  refine f4.trans (List.Sublist.trans ?_ l2)
  exact (ahead_program hdeco hid (program own) (hfits own) ((ex.filter (·.1 = own)).map Prod.snd) (by
    rw [List.map_map]; exact hex own)).trans ((List.filter_sublist.map _).filterMap _)

/-- C116 fails for arguments that change: the log decorator formats them at once even if the call is a lazy
one, and the trace when it is first read.  So whatever the format, if the arguments look
different by then, the log does not tell of the event. -/
theorem C116_lazy_violated (settings : List Setting) (start now now' : Time) (id source category : String) (old : CoreTrace A) (a dst : Nat)
    (format : String) (args : List A) (stack : List StdFrame) (subscribed : Bool) (w₁ w₂ : W)
    (hid : '%' ∉ id.toList) (htakes : Uses format args.length) (htrim : trimNewline format = format)
    (hne : sprintf w₂ format args ≠ sprintf w₁ format args) (hne' : sprintf w₂ format args ≠ sprintf w₁ format args ++ "\n") :
    ∃ w' t' ev line,
      ({ traces := fun b => if b = a then some (fresh settings start id source category old) else none } : World A).run
        (((Tr.log (.core a) id dst).logActs .lazyTracef format args stack).map fun act => (⟨⟨now, w₁⟩, id, subscribed⟩, act)) = some w' ∧
      w'.traces a = some t' ∧ t'.events' (⟨now', w₂⟩ : Env W) = some [ev] ∧ ev.isError = false ∧
      w'.written dst = [line] ∧ ev.what = sprintf w₂ format args ∧ ¬ TellsOf id line ev := by
  have hlim : ¬ ((0 : Int) ≥ (Globals.after settings).traceMaxEvents) := by
    have := (globals_range settings).1
    omega
  have hconc := fresh_conc (W := W) settings start id source category old
  have hstep := step_conc (freshBase settings start id source category) (Abs.new (W := W) (A := A) (Globals.after settings).traceMaxEvents)
    (⟨now, w₁⟩ : Env W) (.log .lazyTracef format args ((frame "logTrace" .lazyTracef :: stack).take 8))
  have habs : (Abs.new (W := W) (A := A) (Globals.after settings).traceMaxEvents).step (⟨now, w₁⟩ : Env W)
      (.log .lazyTracef format args ((frame "logTrace" .lazyTracef :: stack).take 8)) =
      { Abs.new (W := W) (A := A) (Globals.after settings).traceMaxEvents with
        stored := [{ entry := ⟨.lazyTracef, format, args, (frame "logTrace" .lazyTracef :: stack).take 8, ⟨now, w₁⟩⟩ }] } := by
    simp only [Abs.step, Abs.log, Abs.new, Option.isSome_none, Bool.false_eq_true, if_false, List.length_nil, List.nil_append, isErr,
      Bool.or_false, Int.natCast_zero]
    rw [if_neg (by simpa using hlim)]
  rw [habs, ← hconc] at hstep
  have hread := events'_conc (freshBase settings start id source category)
    { Abs.new (W := W) (A := A) (Globals.after settings).traceMaxEvents with
      stored := [{ entry := ⟨.lazyTracef, format, args, (frame "logTrace" .lazyTracef :: stack).take 8, ⟨now, w₁⟩⟩ }] } (⟨now', w₂⟩ : Env W)
  rw [read_all, if_neg (by simp [Abs.new])] at hread
  have hline : noted id w₁ .lazyTracef format args = id ++ " " ++ "" ++ sprintf w₁ format args ++ "\n" := by
    have := line_text w₁ id "" format args hid (by decide) htakes
    unfold noted
    rw [trimNewline_mark, htrim]
    exact this
  generalize hx : Abs.conc (freshBase settings start id source category)
    { Abs.new (W := W) (A := A) (Globals.after settings).traceMaxEvents with
      stored := [{ entry := ⟨.lazyTracef, format, args, (frame "logTrace" .lazyTracef :: stack).take 8, ⟨now, w₁⟩⟩ }] } = x at hstep hread
  refine ⟨World.set { traces := fun b => if b = a then some (fresh settings start id source category old) else none
                      lines := [(dst, noted id w₁ .lazyTracef format args)] } a x, x, _, noted id w₁ .lazyTracef format args,
    ?_, ?_, hread, rfl, ?_, rfl, ?_⟩
  · simp only [Tr.logActs, logEvent, List.map_cons, List.map_nil, World.run, World.act, bind, Option.bind_some, if_true, hstep, pure]
    rfl
  · simp [World.set]
  · simp [World.set, World.written, noted, Sys.sprintf]
  · rw [hline]
    intro hT
    have hcancel : ∀ x y : String, id ++ " " ++ "" ++ x = id ++ " " ++ "" ++ y → x = y := by
      intro x y h
      have := congrArg String.toList h
      simp only [String.toList_append, List.append_assoc, List.append_cancel_left_eq] at this
      exact String.toList_inj.mp this
    have hcancel' : ∀ x y : String, x ++ "\n" = y ++ "\n" → x = y := by
      intro x y h
      have := congrArg String.toList h
      simp only [String.toList_append, List.append_cancel_right_eq] at this
      exact String.toList_inj.mp this
    rcases hT with hT | ⟨hT, _⟩
    · have hT : id ++ " " ++ "" ++ sprintf w₁ format args ++ "\n" = id ++ " " ++ "" ++ sprintf w₂ format args ++ "\n" := hT
      exact hne (hcancel _ _ (hcancel' _ _ hT)).symm
    · have hT : id ++ " " ++ "" ++ sprintf w₁ format args ++ "\n" = id ++ " " ++ "" ++ sprintf w₂ format args := hT
      rw [String.append_assoc] at hT
      exact hne' (hcancel _ _ hT).symm

end Trc.Wrap

namespace Trc.Wrap.Witness

open Core Core.Spec Fmt

/-- Two goroutines log an event each. -/
def twoProgram (g : Nat) : List (Deed String) :=
  if g = 0 then [.call (.pre (.log (.publish (.core 0)) "01H" 7) "p " []) (.log .tracef "a %s\n" ["x"] [])]
  else if g = 1 then [.call (.log (.publish (.core 0)) "01H" 7) (.log .lazyErrorf "b" [] []), .call (.core 1) .finish]
  else []

/-- They write in one order, and log in the other. -/
def twoGoroutines : List (Nat × AEnv Unit × Act String) :=
  let l₀ := ((twoProgram 0).flatMap Deed.acts).map fun act => (0, env 3, act)
  let l₁ := ((twoProgram 1).flatMap Deed.acts).map fun act => (1, env 3, act)
  l₀.take 1 ++ l₁.take 2 ++ l₀.drop 1

/-- C116 also fails for the order: the lines of two goroutines may be in the order opposite to that of the events. -/
theorem C116_order_violated :
    ∃ w' t', logWorld.run (twoGoroutines.map Prod.snd) = some w' ∧ w'.traces 0 = some t' ∧
      w'.written 7 = ["01H p a x\n", "01H ERROR: b\n"] ∧
      (t'.events' (env 4).toEnv).map (fun evs => evs.map fun ev => ev.what) = some ["b", "p a x\n"] :=
  ⟨_, _, rfl, rfl, rfl, rfl⟩

/-- That execution meets the hypotheses of `C116_logged_first_partial`. -/
example : '%' ∉ "01H".toList ∧ Decorated 0 (Tr.publish (Tr.core 0) : Tr String) ∧
    (∀ g, ∀ d ∈ twoProgram g, d.Fits Unit 0 (.log (.publish (.core 0)) "01H" 7)) ∧
    (∀ g, ((twoGoroutines.filter (·.1 = g)).map fun x => x.2.2) <+: (twoProgram g).flatMap Deed.acts) ∧
    (∀ x ∈ twoGoroutines, notMake 0 x.2.2) := by
  refine ⟨by decide, .publish .core, ?_, ?_, ?_⟩
  · intro g d hd
    unfold twoProgram at hd
    split at hd
    · simp only [List.mem_singleton] at hd
      subst hd
      exact .inr ⟨.pre _ _ .base, by decide, fun _ _ => rfl⟩
    · split at hd
      · simp only [List.mem_cons, List.not_mem_nil, or_false] at hd
        rcases hd with rfl | rfl
        · exact .inr ⟨.base, by decide, fun _ _ => rfl⟩
        · trivial
      · simp at hd
  · intro g
    by_cases h0 : g = 0
    · subst h0; exact ⟨[], rfl⟩
    · by_cases h1 : g = 1
      · subst h1; exact ⟨_, rfl⟩
      · have : twoGoroutines.filter (·.1 = g) = [] := by
          rw [List.filter_eq_nil_iff]
          intro x hx
          simp only [decide_eq_true_eq]
          have hx : x ∈ ([_, _, _, _, _] : List (Nat × AEnv Unit × Act String)) := hx
          simp only [List.mem_cons, List.not_mem_nil, or_false] at hx
          rcases hx with rfl | rfl | rfl | rfl | rfl <;> simp <;> omega
        rw [this]
        exact List.nil_prefix
  · intro x hx
    have hx : x ∈ ([_, _, _, _, _] : List (Nat × AEnv Unit × Act String)) := hx
    simp only [List.mem_cons, List.not_mem_nil, or_false] at hx
    rcases hx with rfl | rfl | rfl | rfl | rfl <;> simp [notMake, logEvent]

/-- One goroutine logs two events, and another to another trace with the same destination. -/
def oneProgram (g : Nat) : List (Deed String) :=
  if g = 0 then [.call (.log (.core 0) "01H" 7) (.log .tracef "a" [] []), .call (.log (.core 0) "01H" 7) (.log .errorf "b" [] [])]
  else if g = 1 then [.call (.log (.core 1) "02H" 7) (.log .tracef "x" [] [])]
  else []

def oneLogger : List (Nat × AEnv Unit × Act String) :=
  let l₀ := ((oneProgram 0).flatMap Deed.acts).map fun act => (0, env 3, act)
  let l₁ := ((oneProgram 1).flatMap Deed.acts).map fun act => (1, env 3, act)
  l₀.take 3 ++ l₁.take 1 ++ l₀.drop 3

/-- That execution meets the hypotheses of `C116_in_order_partial`; the other trace's call has written its line only. -/
example : (∀ g, ∀ d ∈ oneProgram g, d.Fits Unit 0 (.log (.core 0) "01H" 7)) ∧
    (∀ g, ((oneLogger.filter (·.1 = g)).map fun x => x.2.2) <+: (oneProgram g).flatMap Deed.acts) ∧
    (∀ x ∈ oneLogger, notMake 0 x.2.2) ∧
    (∀ x ∈ oneLogger, x.1 ≠ 0 → ∀ kind format args stack, x.2.2 ≠ .call 0 (.log kind format args stack)) ∧
    (logWorld.run (oneLogger.map Prod.snd)).map (fun w => w.written 7) = some ["01H a\n", "01H ERROR: b\n", "02H x\n"] := by
  refine ⟨?_, ?_, ?_, ?_, rfl⟩
  · intro g d hd
    unfold oneProgram at hd
    split at hd
    · simp only [List.mem_cons, List.not_mem_nil, or_false] at hd
      rcases hd with rfl | rfl
      · exact .inr ⟨.base, by decide, fun _ _ => rfl⟩
      · exact .inr ⟨.base, by decide, fun _ _ => rfl⟩
    · split at hd
      · simp only [List.mem_singleton] at hd
        subst hd
        exact .inl (by decide)
      · simp at hd
  · intro g
    by_cases h0 : g = 0
    · subst h0; exact ⟨[], rfl⟩
    · by_cases h1 : g = 1
      · subst h1; exact ⟨_, rfl⟩
      · have : oneLogger.filter (·.1 = g) = [] := by
          rw [List.filter_eq_nil_iff]
          intro x hx
          simp only [decide_eq_true_eq]
          have hx : x ∈ ([_, _, _, _, _] : List (Nat × AEnv Unit × Act String)) := hx
          simp only [List.mem_cons, List.not_mem_nil, or_false] at hx
          rcases hx with rfl | rfl | rfl | rfl | rfl <;> simp <;> omega
        rw [this]
        exact List.nil_prefix
  · intro x hx
    have hx : x ∈ ([_, _, _, _, _] : List (Nat × AEnv Unit × Act String)) := hx
    simp only [List.mem_cons, List.not_mem_nil, or_false] at hx
    rcases hx with rfl | rfl | rfl | rfl | rfl <;> simp [notMake, logEvent]
  · intro x hx
    have hx : x ∈ ([_, _, _, _, _] : List (Nat × AEnv Unit × Act String)) := hx
    simp only [List.mem_cons, List.not_mem_nil, or_false] at hx
    rcases hx with rfl | rfl | rfl | rfl | rfl <;> simp [logEvent]

/-- Arguments that are numbers in memory. -/
instance : Render (Nat → Nat) Nat := ⟨fun w _ _ a => (toString (w a)).toList, fun w a => (toString (w a)).toList⟩

/-- The hypotheses of `C116_lazy_violated` are met by a counter that is logged while it is 1 and read when it is 2. -/
example : Uses "n=%d" [0].length ∧ trimNewline "n=%d" = "n=%d" ∧
    sprintf (fun _ : Nat => 2) "n=%d" [0] = "n=2" ∧ sprintf (fun _ : Nat => 1) "n=%d" [0] = "n=1" := by
  refine ⟨by decide, by decide, by decide, by decide⟩

end Trc.Wrap.Witness
