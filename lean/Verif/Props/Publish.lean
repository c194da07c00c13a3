import Verif.Wrap.Stream
import Verif.Props.Prefix
import Verif.Props.Collect

/-!
# Properties of published and of copied traces: C54, C55, C77
-/

set_option linter.unusedSectionVars false
set_option linter.unusedVariables false
set_option linter.unusedSimpArgs false

namespace Trc.Wrap

open Core Core.Spec

variable {W A : Type} [Sys W A] [Arg A] [Humanize]

/-! ## C54 -/

theorem event_strip (b : Base) (s : Stored W A) (w : W) : s.event b w false = strip (s.event b w true) := by
  simp [Stored.event, strip]

theorem notice_strip (now : Time) (n : Int) : strip (truncatedNotice now n) = truncatedNotice now n := rfl

theorem read_strip (b : Base) (x : Abs W A) (env : Env W) : x.read b env (-1) false = (x.read b env (-1) true).map strip := by
  rw [read_all, read_all]
  have : (x.stored.map fun s => s.event b env.w false) = (x.stored.map fun s => s.event b env.w true).map strip := by
    rw [List.map_map]; apply List.map_congr_left; intro s _; exact event_strip b s env.w
  split
  · rw [this, List.map_append, List.map_drop]
    congr 1
    split <;> simp [notice_strip]
  · exact this

theorem read_latest (b : Base) (x : Abs W A) (env : Env W) :
    x.read b env 1 false = ((x.read b env (-1) true).getLast?.toList).map strip := by
  rcases List.eq_nil_or_concat x.stored with hs | ⟨l, s, hs⟩
  · rw [read_all, hs]
    simp [Abs.read, hs]
  · rw [List.concat_eq_append] at hs
    have hw : window x.stored.length 1 = 1 := by
      simp only [window, hs, List.length_append, List.length_cons, List.length_nil]
      rw [if_neg (by omega)]; rfl
    have e1 : x.read b env 1 false = if x.trunc > 0 then [truncatedNotice env.now x.trunc] else [s.event b env.w false] := by
      simp only [Abs.read, hw]
      rw [hs]
      simp
    rw [e1, read_all, hs]
    split
    · simp [notice_strip]
    · simp [event_strip]

theorem latestOf_some {q e : List Event} (h : latestOf false q = some e) : e = q.getLast?.toList := by
  rcases List.eq_nil_or_concat q with rfl | ⟨l, s, rfl⟩
  · simp [latestOf, Go.sliceFrom] at h
  · rw [List.concat_eq_append] at h ⊢
    simp only [latestOf, Bool.false_eq_true, if_false, Go.sliceFrom, List.length_append, List.length_cons, List.length_nil] at h
    have h0 : ((l.length + (0 + 1) : Nat) : Int) - 1 = l.length := by omega
    rw [h0, if_pos (by omega)] at h
    simp only [Int.toNat_natCast, List.drop_left, Option.some.injEq] at h
    rw [← h]; simp

/-- What `NewStreamTrace` reads of a trace that it takes for active or not. -/
theorem readStream_conc (b : Base) (x₁ : Abs W A) (env : Env W) (canDetail : Bool) :
    ∀ (act : Bool) evs u, readStream (x₁.conc b) env canDetail act = some (evs, u) →
      (evs = if act then (x₁.read b env (-1) true).getLast?.toList.map strip else (x₁.read b env (-1) true).map strip) ∧
      ∃ y : Abs W A, u = y.conc b ∧ y.fin = x₁.fin ∧ y.errored = x₁.errored := by
  intro act evs u hru
  unfold readStream at hru
  cases canDetail with
  | true =>
    simp only [if_true, detail_conc, Option.some.injEq, Prod.mk.injEq] at hru
    obtain ⟨rfl, rfl⟩ := hru
    refine ⟨?_, _, rfl, rfl, rfl⟩
    cases act
    · simpa using read_strip b x₁ env
    · simpa using read_latest b x₁ env
  | false =>
    simp only [Bool.false_eq_true, if_false, detail_conc, bind, Option.bind_some] at hru
    cases act with
    | false =>
      simp only [latestOf, Bool.not_false, if_true, Option.bind_some, pure, Option.some.injEq, Prod.mk.injEq] at hru
      obtain ⟨rfl, rfl⟩ := hru
      exact ⟨by simp, _, rfl, rfl, rfl⟩
    | true =>
      simp only [Bool.not_true] at hru
      cases hl : latestOf false (x₁.read b env (-1) true) with
      | none => rw [hl] at hru; simp at hru
      | some e =>
        rw [hl] at hru
        simp only [Option.bind_some, pure, Option.some.injEq, Prod.mk.injEq] at hru
        obtain ⟨rfl, rfl⟩ := hru
        exact ⟨by rw [latestOf_some hl]; simp, _, rfl, rfl, rfl⟩

/-- C54.  A trace, after any calls, is published, while others go on calling it.  The message never
carries stacks.  If the trace was finished before, the message says so and carries exactly its
events.  If the message says the trace is active, it carries the last event there was when the
events were read (the notice, after truncation), if any.  Missing: the case that it is finished while
it is being published. -/
theorem C54_reduced_partial (settings : List Setting) (start : Time) (id source category : String) (old : CoreTrace A)
    (h h₁ h₂ h₃ h₄ : Hist W A) (canDetail : Bool) (env : Env W) (now : Time) (t : CoreTrace A) (st : Static) (t' : CoreTrace A)
    (hr : (fresh settings start id source category old).run h = some t)
    (hs : newStreamTrace canDetail t h₁ h₂ h₃ h₄ env now = some (st, t')) :
    (∀ ev ∈ st.events, ev.stack = []) ∧
    ∃ t₁ evs, (fresh settings start id source category old).run (h ++ h₁) = some t₁ ∧ t₁.events' env = some evs ∧
      (t.finished = true → st.finished = true ∧ st.events = evs.map strip) ∧
      (st.finished = false → st.events = evs.getLast?.toList.map strip) := by
  rw [fresh_run] at hr ⊢
  obtain rfl := (Option.some.inj hr).symm
  generalize freshBase settings start id source category = b at hs ⊢
  rw [run_append]
  generalize (Abs.new (Globals.after settings).traceMaxEvents : Abs W A).run h = x at hs ⊢
  simp only [newStreamTrace, run_conc, bind, Option.bind_some] at hs
  generalize hx₁ : x.run h₁ = x₁ at hs ⊢
  have hfin : ∀ (h : Hist W A) (y : Abs W A), y.fin.isSome = true → (y.run h).fin.isSome = true := by
    intro h y hy
    obtain ⟨tt, htt⟩ := Option.isSome_iff_exists.mp hy
    rw [(run_fin htt h).1]; rfl
  have hread := readStream_conc b x₁ env canDetail
  cases hrd : readStream (x₁.conc b) env canDetail (!(x.conc b).finished) with
  | none => simp [hrd] at hs
  | some p =>
    obtain ⟨evs, u⟩ := p
    obtain ⟨he, y, rfl, hy, _⟩ := hread _ evs u hrd
    simp only [hrd, Option.bind_some, run_conc, pure, Option.some.injEq, Prod.mk.injEq] at hs
    obtain ⟨rfl, _⟩ := hs
    refine ⟨?_, _, _, rfl, events'_conc b x₁ env, ?_, ?_⟩
    · intro ev hev
      have hev' : ev ∈ evs := hev
      rw [he] at hev'
      split at hev' <;>
      · simp only [List.mem_map] at hev'
        obtain ⟨e, _, rfl⟩ := hev'
        rfl
    · intro hf
      have hf' : (x.conc b).finished = true := hf
      rw [hf'] at he
      refine ⟨?_, by simpa using he⟩
      show ((y.run h₂).run h₃).fin.isSome = true
      apply hfin; apply hfin
      rw [hy, ← hx₁]
      exact hfin _ _ hf
    · intro hf
      have hf' : ((y.run h₂).run h₃).fin.isSome = false := hf
      have hxf : (x.conc b).finished = false := by
        show x.fin.isSome = false
        cases hc : x.fin.isSome with
        | false => rfl
        | true =>
          have : ((y.run h₂).run h₃).fin.isSome = true := by
            apply hfin; apply hfin
            rw [hy, ← hx₁]
            exact hfin _ _ hc
          rw [this] at hf'; simp at hf'
      rw [hxf] at he
      simpa using he

theorem fin_run_congr {a a' : Abs W A} (h : a.fin = a'.fin) (hist : Hist W A) : (a.run hist).fin = (a'.run hist).fin := by
  cases hf : a.fin with
  | none => rw [run_finishedAt hf, run_finishedAt (h.symm.trans hf)]
  | some t => rw [(run_fin hf hist).1, (run_fin (h.symm.trans hf) hist).1]

theorem errored_run_congr {a a' : Abs W A} (h : a.fin = a'.fin) (he : a.errored = a'.errored) (hist : Hist W A) :
    (a.run hist).errored = (a'.run hist).errored := by
  cases hf : a.fin with
  | none => rw [run_errored hf, run_errored (h.symm.trans hf), he]
  | some t => rw [(run_fin hf hist).2.1, (run_fin (h.symm.trans hf) hist).2.1, he]

/-- C54: what the message says about the trace beside its events. It is named as the trace is and started when the
trace did; its duration is what `Duration` says after the events were read; and it is errored if by then or later,
until the end of `NewStreamTrace`, an error was logged in the active trace. -/
theorem C54_about (settings : List Setting) (start : Time) (id source category : String) (old : CoreTrace A)
    (h h₁ h₂ h₃ h₄ : Hist W A) (canDetail : Bool) (env : Env W) (now : Time) (t : CoreTrace A) (st : Static) (t' : CoreTrace A)
    (hr : (fresh settings start id source category old).run h = some t)
    (hs : newStreamTrace canDetail t h₁ h₂ h₃ h₄ env now = some (st, t')) :
    st.id = id ∧ st.source = source ∧ st.category = category ∧ st.started = start ∧
    st.duration = ((finishedAt (h ++ h₁ ++ h₂)).getD now).sub start ∧
    (st.errored = true ↔ ∃ e ∈ logged (h ++ h₁ ++ h₂ ++ h₃ ++ h₄), isErr e.kind = true) := by
  rw [fresh_run] at hr
  obtain rfl := (Option.some.inj hr).symm
  obtain ⟨b, hb⟩ : ∃ b, freshBase settings start id source category = b := ⟨_, rfl⟩
  rw [hb] at hs
  have hnew : ((Abs.new (Globals.after settings).traceMaxEvents : Abs W A)).fin = none := rfl
  have hnoe : ((Abs.new (Globals.after settings).traceMaxEvents : Abs W A)).errored = false := rfl
  generalize (Abs.new (Globals.after settings).traceMaxEvents : Abs W A) = x₀ at hs hnew hnoe ⊢
  simp only [newStreamTrace, run_conc, bind, Option.bind_some] at hs
  cases hrd : readStream (((x₀.run h).run h₁).conc b) env canDetail (!((x₀.run h).conc b).finished) with
  | none => simp [hrd] at hs
  | some p =>
    obtain ⟨evs, u⟩ := p
    obtain ⟨he, y, rfl, hy, hye⟩ := readStream_conc b _ env canDetail _ evs u hrd
    simp only [hrd, Option.bind_some, run_conc, pure, Option.some.injEq, Prod.mk.injEq] at hs
    obtain ⟨rfl, _⟩ := hs
    have hfin : (y.run h₂).fin = finishedAt (h ++ h₁ ++ h₂) := by
      rw [← run_finishedAt hnew, run_append, run_append]
      exact fin_run_congr hy _
    have herr : (((y.run h₂).run h₃).run h₄).errored = (logged (h ++ h₁ ++ h₂ ++ h₃ ++ h₄)).any (fun e => isErr e.kind) := by
      have := run_errored hnew (h ++ h₁ ++ h₂ ++ h₃ ++ h₄)
      rw [hnoe, Bool.false_or] at this
      rw [← this, run_append, run_append, run_append, run_append]
      exact errored_run_congr (fin_run_congr (fin_run_congr hy _) _)
        (errored_run_congr (fin_run_congr hy _) (errored_run_congr hy hye _) _) _
    subst hb
    refine ⟨rfl, rfl, rfl, rfl, ?_, ?_⟩
    · simp only [CoreTrace.durationAt, Abs.conc, hfin, freshBase]
      cases finishedAt (h ++ h₁ ++ h₂) <;> simp
    · show (((y.run h₂).run h₃).run h₄).errored = true ↔ _
      rw [herr, List.any_eq_true]

/-- C54, exactly: the message carries all events if the trace was finished when `NewStreamTrace` was called, and the
last one otherwise, as they were when they were read; but whether it says finished depends on what happens until
after. So a message that says finished lacks events if and only if the trace was finished in between, and had more
than one. -/
theorem C54_exact (settings : List Setting) (start : Time) (id source category : String) (old : CoreTrace A)
    (h h₁ h₂ h₃ h₄ : Hist W A) (canDetail : Bool) (env : Env W) (now : Time) (t : CoreTrace A) (st : Static) (t' : CoreTrace A)
    (hr : (fresh settings start id source category old).run h = some t)
    (hs : newStreamTrace canDetail t h₁ h₂ h₃ h₄ env now = some (st, t')) :
    ∃ t₁ evs, (fresh settings start id source category old).run (h ++ h₁) = some t₁ ∧ t₁.events' env = some evs ∧
      st.events = (if finishedAt h = none then evs.getLast?.toList.map strip else evs.map strip) ∧
      (st.finished = true ↔ finishedAt (h ++ h₁ ++ h₂ ++ h₃) ≠ none) ∧
      ((st.finished = true ∧ st.events.length < evs.length) ↔
        (finishedAt h = none ∧ finishedAt (h ++ h₁ ++ h₂ ++ h₃) ≠ none ∧ 2 ≤ evs.length)) := by
  rw [fresh_run] at hr ⊢
  obtain rfl := (Option.some.inj hr).symm
  generalize freshBase settings start id source category = b at hs ⊢
  have hnew : ((Abs.new (Globals.after settings).traceMaxEvents : Abs W A)).fin = none := rfl
  generalize (Abs.new (Globals.after settings).traceMaxEvents : Abs W A) = x₀ at hs hnew ⊢
  have hx : (x₀.run h).fin = finishedAt h := run_finishedAt hnew h
  simp only [newStreamTrace, run_conc, bind, Option.bind_some] at hs
  cases hrd : readStream (((x₀.run h).run h₁).conc b) env canDetail (!((x₀.run h).conc b).finished) with
  | none => simp [hrd] at hs
  | some p =>
    obtain ⟨evs, u⟩ := p
    obtain ⟨he, y, rfl, hy, _⟩ := readStream_conc b _ env canDetail _ evs u hrd
    simp only [hrd, Option.bind_some, run_conc, pure, Option.some.injEq, Prod.mk.injEq] at hs
    obtain ⟨rfl, _⟩ := hs
    have hev : evs = if finishedAt h = none then (((x₀.run h).run h₁).read b env (-1) true).getLast?.toList.map strip
        else (((x₀.run h).run h₁).read b env (-1) true).map strip := by
      rw [he]
      have : ((x₀.run h).conc b).finished = (finishedAt h).isSome := by rw [← hx]; rfl
      rw [this]
      cases finishedAt h <;> simp
    have hfin : ((y.run h₂).run h₃).fin = finishedAt (h ++ h₁ ++ h₂ ++ h₃) := by
      rw [← run_finishedAt hnew, run_append, run_append, run_append]
      exact fin_run_congr (fin_run_congr hy _) _
    have hfi : ((y.run h₂).run h₃).fin.isSome = true ↔ finishedAt (h ++ h₁ ++ h₂ ++ h₃) ≠ none := by
      rw [hfin, Option.isSome_iff_ne_none]
    refine ⟨_, _, by rw [run_append], events'_conc b _ env, hev, hfi, ?_⟩
    generalize hL : ((x₀.run h).run h₁).read b env (-1) true = L at hev ⊢
    constructor
    · rintro ⟨h1, h2⟩
      have h2' : evs.length < L.length := h2
      rw [hev] at h2'
      by_cases hn : finishedAt h = none
      · refine ⟨hn, hfi.mp h1, ?_⟩
        rw [if_pos hn] at h2'
        cases hl : L.getLast? with
        | none => rw [List.getLast?_eq_none_iff] at hl; rw [hl] at h2'; simp at h2'
        | some e => rw [hl] at h2'; simp at h2'; exact h2'
      · rw [if_neg hn] at h2'; simp at h2'
    · rintro ⟨h1, h2, h3⟩
      refine ⟨hfi.mpr h2, ?_⟩
      show evs.length < L.length
      rw [hev, if_pos h1]
      cases L.getLast? <;> simp <;> omega

/-! ## C55 -/

/-- The action changes the trace at the address, or publishes it. -/
def touches (a : Nat) : Act A → Bool
  | .call b c => b == a && !isRead c
  | .publish tr => tr.root == a
  | _ => false

/-- The messages about a trace. -/
def messages (a : Nat) (w : World A) : List Static := (w.published.filter fun p => p.1 == a).map Prod.snd

/-- What is to be published of a trace in a given state. -/
def Shows (b : Base) (x : Abs W A) (st : Static) : Prop :=
  ∃ (y : Abs W A) (env : Env W), SameBut y x ∧
    st = staticOf (y.conc b) env.now (y.read b env (if y.fin.isSome then -1 else 1) false)

/-- The states in which a trace is published. -/
def moments (x : Abs W A) : List (Env W × Act A) → List (Abs W A)
  | [] => []
  | (env, .call _ c) :: l => moments (x.step env c) l
  | (_, .publish _) :: l => x :: moments x l
  | _ :: l => moments x l

theorem SameBut.conc_finished {x y : Abs W A} (h : SameBut x y) : x.fin.isSome = y.fin.isSome := by rw [h.fin]

theorem moments_same {x y : Abs W A} (h : SameBut x y) (l : List (Env W × Act A)) :
    Match SameBut (moments x l) (moments y l) := by
  induction l generalizing x y with
  | nil => exact ⟨rfl, by simp [moments]⟩
  | cons p l ih =>
    obtain ⟨env, act⟩ := p
    cases act with
    | call b c => exact ih (h.step env c)
    | publish tr => exact Match.cons h (ih h)
    | _ => exact ih h

theorem Match.trans {α β γ : Type} {R : α → β → Prop} {S : β → γ → Prop} {T : α → γ → Prop} {l : List α} {m : List β} {n : List γ}
    (h : Match R l m) (k : Match S m n) (t : ∀ x y z, R x y → S y z → T x z) : Match T l n := by
  refine ⟨h.1.trans k.1, fun i x z hx hz => ?_⟩
  have hi : i < m.length := by
    rw [← h.1]; exact (List.getElem?_eq_some_iff.mp hx).1
  exact t x m[i] z (h.2 i x _ hx (List.getElem?_eq_getElem hi)) (k.2 i _ z (List.getElem?_eq_getElem hi) hz)

theorem Shows.same {b : Base} {x y : Abs W A} {st : Static} (h : Shows b x st) (e : SameBut x y) : Shows b y st := by
  obtain ⟨z, env, h1, h2⟩ := h
  exact ⟨z, env, h1.trans e, h2⟩

/-- One action, for a trace and the messages about it. -/
theorem act_messages {w w' : World A} {env : AEnv W} {act : Act A} {a : Nat} {b : Base} {x : Abs W A}
    (h : w.act env act = some w') (ht : w.traces a = some (x.conc b)) (hm : notMake a act)
    (hp : ∀ tr, act = .publish tr → tr.root = a → tr = .core a ∧ env.subscribed = true) :
    ∃ (y : Abs W A) (msgs : List Static), w'.traces a = some (y.conc b) ∧ messages a w' = messages a w ++ msgs ∧
      SameBut y (x.run (callsOn a [(env, act)])) ∧
      Match (fun st z => Shows b z st) msgs (moments x (((env.toEnv, act) :: []).filter fun p => touches a p.2)) := by
  obtain ⟨hist, t', r1, r2, r3⟩ := act_hist h ht hm
  rw [run_conc] at r1
  obtain rfl := (Option.some.inj r1).symm
  have s1 := (SameBut.refl x).run hist
  rw [r3] at s1
  by_cases hpub : ∃ tr, act = .publish tr ∧ tr.root = a
  · obtain ⟨tr, rfl, hroot⟩ := hpub
    obtain ⟨rfl, hsub⟩ := hp tr rfl hroot
    simp only [World.act, World.publish, hsub, if_true, Tr.root, ht, bind, Option.bind_some, Tr.isCore, streamEvents, detail_conc,
      pure, Option.some.injEq] at h
    subst h
    refine ⟨_, [staticOf (x.conc b) env.now (x.read b env.toEnv (if x.fin.isSome then -1 else 1) false)], r2, ?_, s1, ?_⟩
    · simp only [messages, List.filter_append, List.map_append, World.set, List.filter_cons, List.filter_nil, beq_self_eq_true, if_true]
      rfl
    · simp only [List.filter_cons, touches, Tr.root, beq_self_eq_true, if_true, List.filter_nil, moments]
      exact Match.cons ⟨x, env.toEnv, SameBut.refl x, rfl⟩ ⟨rfl, by simp⟩
  · have hmsg : messages a w' = messages a w := by
      cases act with
      | publish tr =>
        have hne : tr.root ≠ a := fun e => hpub ⟨tr, rfl, e⟩
        simp only [World.act, World.publish] at h
        split at h
        · cases hb : w.traces tr.root with
          | none => simp [hb] at h
          | some tb =>
            simp only [hb, bind, Option.bind_some] at h
            cases hs : streamEvents tb env.toEnv tr.isCore with
            | none => simp [hs] at h
            | some q =>
              simp only [hs, Option.bind_some, pure, Option.some.injEq] at h
              subst h
              simp [messages, World.set, hne]
        · obtain rfl := Option.some.inj h; rfl
      | make b s c => simp only [World.act, Option.some.injEq] at h; subst h; rfl
      | write d f as => simp only [World.act, Option.some.injEq] at h; subst h; rfl
      | writeDone d i tr =>
        simp only [World.act, bind] at h
        cases hb : w.traces tr.root with
        | none => simp [hb] at h
        | some tb => simp only [hb, Option.bind_some, pure, Option.some.injEq] at h; subst h; rfl
      | retain c tr =>
        simp only [World.act, bind] at h
        cases hb : w.cats.push c tr with
        | none => simp [hb] at h
        | some q => simp only [hb, Option.bind_some, pure, Option.some.injEq] at h; subst h; rfl
      | call b c =>
        simp only [World.act, bind] at h
        cases hb : w.traces b with
        | none => simp [hb] at h
        | some tb =>
          simp only [hb, Option.bind_some] at h
          cases hs : tb.step env.toEnv c with
          | none => simp [hs] at h
          | some q => simp only [hs, Option.bind_some, pure, Option.some.injEq] at h; subst h; rfl
    refine ⟨_, [], r2, by simp [hmsg], s1, ?_⟩
    have : moments x (((env.toEnv, act) :: []).filter fun p => touches a p.2) = [] := by
      simp only [List.filter_cons, List.filter_nil]
      cases act with
      | publish tr =>
        have hne : tr.root ≠ a := fun e => hpub ⟨tr, rfl, e⟩
        simp [touches, hne, moments]
      | call b c => cases hz : touches a (Act.call b c) <;> simp [moments]
      | _ => simp [touches, moments]
    rw [this]
    exact ⟨rfl, by simp⟩

theorem moments_append (x : Abs W A) (l l' : List (Env W × Act A)) (a : Nat) (h : ∀ p ∈ l, touches a p.2 = true) :
    moments x (l ++ l') = moments x l ++ moments (x.run (l.filterMap fun p => (callOn a p.2).map fun c => (p.1, c))) l' := by
  induction l generalizing x with
  | nil => rfl
  | cons p l ih =>
    obtain ⟨env, act⟩ := p
    have ht := h (env, act) (by simp)
    cases act with
    | call b c =>
      simp only [touches, Bool.and_eq_true, beq_iff_eq, Bool.not_eq_true'] at ht
      have : callOn a (Act.call b c) = some c := by simp [callOn, ht]
      simp only [List.cons_append, moments, List.filterMap_cons, this, Option.map_some, Abs.run]
      exact ih _ (fun p hp => h p (by simp [hp]))
    | publish tr =>
      simp only [List.cons_append, moments, List.filterMap_cons, callOn, Option.map_none]
      rw [ih _ (fun p hp => h p (by simp [hp]))]
      rfl
    | _ => simp [touches] at ht

theorem run_messages {w w' : World A} {ex : List (AEnv W × Act A)} {a : Nat} {b : Base} {x : Abs W A}
    (h : w.run ex = some w') (ht : w.traces a = some (x.conc b)) (hm : ∀ p ∈ ex, notMake a p.2)
    (hp : ∀ p ∈ ex, ∀ tr, p.2 = .publish tr → tr.root = a → tr = .core a ∧ p.1.subscribed = true) :
    ∃ (y : Abs W A) (msgs : List Static), w'.traces a = some (y.conc b) ∧ messages a w' = messages a w ++ msgs ∧
      SameBut y (x.run (callsOn a ex)) ∧
      Match (fun st z => Shows b z st) msgs (moments x ((ex.map fun p => (p.1.toEnv, p.2)).filter fun p => touches a p.2)) := by
  induction ex generalizing w x with
  | nil =>
    simp only [World.run, Option.some.injEq] at h
    subst h
    exact ⟨x, [], ht, by simp, SameBut.refl x, ⟨rfl, by simp⟩⟩
  | cons p ex ih =>
    obtain ⟨env, act⟩ := p
    simp only [World.run, bind] at h
    cases hs : w.act env act with
    | none => simp [hs] at h
    | some w₁ =>
      simp only [hs, Option.bind_some] at h
      obtain ⟨y1, m1, a1, a2, a3, a4⟩ := act_messages hs ht (hm (env, act) (by simp)) (hp (env, act) (by simp))
      obtain ⟨y2, m2, b1, b2, b3, b4⟩ := ih h a1 (fun p hp => hm p (by simp [hp])) (fun p hp' => hp p (by simp [hp']))
      have hcalls : callsOn a ((env, act) :: ex) = callsOn a [(env, act)] ++ callsOn a ex := by
        simp only [callsOn, List.filterMap_cons, List.filterMap_nil]
        cases (callOn a act) <;> rfl
      have hs1 : ∀ (l : Hist W A) (u v : Abs W A), SameBut u v → SameBut (u.run l) (v.run l) := by
        intro l
        induction l with
        | nil => intro u v h; exact h
        | cons p l ih => intro u v h; exact ih _ _ (h.step p.1 p.2)
      refine ⟨y2, m1 ++ m2, b1, by rw [b2, a2, List.append_assoc], ?_, ?_⟩
      · rw [hcalls, run_append]
        exact b3.trans (hs1 _ _ _ a3)
      · have e : ((((env, act) :: ex).map fun p => (p.1.toEnv, p.2)).filter fun p => touches a p.2) =
            ((((env.toEnv, act) :: []).filter fun p => touches a p.2)) ++
              ((ex.map fun p => (p.1.toEnv, p.2)).filter fun p => touches a p.2) := by
          rw [List.map_cons, ← List.filter_append]; rfl
        rw [e, moments_append x _ _ a (by intro p hp; exact (List.mem_filter.mp hp).2)]
        refine a4.append ?_
        have hst : x.run ((((env.toEnv, act) :: []).filter fun p => touches a p.2).filterMap fun p => (callOn a p.2).map fun c => (p.1, c)) =
            x.run (callsOn a [(env, act)]) := by
          congr 1
          simp only [callsOn, List.filterMap_cons, List.filterMap_nil, List.filter_cons, List.filter_nil]
          cases act with
          | call b c =>
            by_cases hbc : b = a ∧ isRead c = false
            · simp [touches, callOn, hbc]
            · have : callOn a (Act.call b c) = none := by simp [callOn, hbc]
              rw [this]
              split <;> simp [this]
          | publish tr => split <;> simp [callOn]
          | _ => simp [touches, callOn]
        rw [hst]
        exact b4.trans (moments_same a3 _) fun st z z' h1 h2 => h1.same h2

/-- The wrappers of a trace as `NewTrace` makes it, and of prefixed ones: a publisher around the core
trace, and further wrappers that do not publish. -/
inductive Collected (a : Nat) : Tr A → Prop
  | base : Collected a (.publish (.core a))
  | log {tr : Tr A} (id : String) (dst : Nat) : Collected a tr → Collected a (.log tr id dst)
  | pre {tr : Tr A} (format : String) (args : List A) : Collected a tr → Collected a (.pre tr format args)

theorem collected_log {a : Nat} {tr : Tr A} (h : Collected a tr) (kind : LogKind) (format : String) (args : List A) (stack : List StdFrame) :
    tr.root = a ∧ (tr.logActs kind format args stack).filter (touches a) =
      [.call a ((Op.log kind format args stack).deco tr), .publish (.core a)] := by
  induction h generalizing format args stack with
  | base =>
    refine ⟨rfl, ?_⟩
    simp [Tr.logActs, touches, isRead, Tr.root, Op.deco, Tr.pformat, Tr.pargs, Tr.frames]
  | @log tr id dst h ih =>
    obtain ⟨i1, i2⟩ := ih format args (frame "logTrace" kind :: stack)
    refine ⟨i1, ?_⟩
    have : touches a (logEvent id dst (errMark kind ++ format) args) = false := rfl
    rw [Tr.logActs, List.filter_cons, this, if_neg (by simp), i2]
    simp [Op.deco, Tr.pformat, Tr.pargs, Tr.frames]
  | @pre tr f as h ih =>
    obtain ⟨i1, i2⟩ := ih (f ++ format) (as ++ args) (frame "prefixTrace" kind :: stack)
    refine ⟨i1, ?_⟩
    rw [Tr.logActs, i2]
    simp [Op.deco, Tr.pformat, Tr.pargs, Tr.frames, String.append_assoc]

theorem collected_finish {a : Nat} {tr : Tr A} (h : Collected a tr) :
    tr.finishActs.filter (touches a) = [.call a .finish, .publish (.core a)] := by
  induction h with
  | base => simp [Tr.finishActs, touches, isRead, Tr.root]
  | log id dst h ih => rw [Tr.finishActs, List.filter_append, ih]; rfl
  | pre f as h ih => exact ih

/-- What an event of a message is to say: the logging call it reports. -/
def Tells (s : Said A) (ev : Event) : Prop :=
  ev.isError = isErr s.kind ∧ ev.stack = [] ∧
    ∃ m : W, ev.what = Sys.sprintf m (s.tr.pformat ++ s.format) (s.tr.pargs ++ s.args)

/-- Entries that say what was said. -/
def Holds (s : Said A) (e : Entry W A) : Prop :=
  e.kind = s.kind ∧ e.format = s.tr.pformat ++ s.format ∧ e.args = s.tr.pargs ++ s.args

theorem event_tells {s : Said A} {x : Stored W A} (h : Holds s x.entry) (b : Base) (w : W) : Tells (W := W) s (x.event b w false) := by
  rw [event_strip]
  obtain ⟨_, r2, _, _, m, r5⟩ := event_reports b x w
  refine ⟨?_, rfl, m, ?_⟩
  · show (x.event b w true).isError = _
    rw [r2, h.1]
  · show (x.event b w true).what = _
    rw [r5, h.2.1, h.2.2]

/-- A state that holds exactly what was said, without truncation. -/
structure HoldsAll (said : List (Said A)) (x : Abs W A) : Prop where
  trunc : x.trunc = 0
  entries : Match Holds said (x.stored.map Stored.entry)

theorem HoldsAll.same {said : List (Said A)} {x y : Abs W A} (h : HoldsAll said x) (e : SameBut y x) : HoldsAll said y :=
  ⟨e.trunc.trans h.trunc, by rw [e.entries]; exact h.entries⟩

theorem HoldsAll.log {said : List (Said A)} {x : Abs W A} (h : HoldsAll said x) (hf : x.fin = none) (s : Said A) (env : Env W)
    (hl : ((said.length + 1 : Nat) : Int) ≤ x.limit) :
    HoldsAll (said ++ [s]) (x.step env s.call) ∧ (x.step env s.call).fin = none ∧ (x.step env s.call).limit = x.limit := by
  have hlen : x.stored.length = said.length := by have := h.entries.1; simpa using this.symm
  simp only [Said.call, Op.deco, Abs.step, Abs.log, hf, Option.isSome_none, Bool.false_eq_true, if_false]
  rw [if_neg (by omega)]
  refine ⟨⟨h.trunc, ?_⟩, rfl, rfl⟩
  simp only [List.map_append, List.map_cons, List.map_nil]
  exact h.entries.append (Match.cons ⟨rfl, rfl, rfl⟩ ⟨rfl, by simp⟩)

/-- A message about an active trace in which the given was said. -/
def Newest (b : Base) (said : List (Said A)) (st : Static) : Prop :=
  st.id = b.id ∧ st.source = b.source ∧ st.category = b.category ∧ st.started = b.start ∧ st.finished = false ∧
    Match (fun ev s => Tells (W := W) s ev) st.events said.getLast?.toList

/-- A message about the finished trace. -/
def Complete (b : Base) (said : List (Said A)) (st : Static) : Prop :=
  st.id = b.id ∧ st.source = b.source ∧ st.category = b.category ∧ st.started = b.start ∧ st.finished = true ∧
    Match (fun ev s => Tells (W := W) s ev) st.events said

theorem match_events {said : List (Said A)} {x : Abs W A} (h : HoldsAll said x) (b : Base) (w : W) :
    Match (fun ev s => Tells (W := W) s ev) (x.stored.map fun s => s.event b w false) said := by
  have hl := h.entries.1
  simp only [List.length_map] at hl
  refine ⟨by simp [hl], fun i ev s he hs => ?_⟩
  simp only [List.getElem?_map, Option.map_eq_some_iff] at he
  obtain ⟨st, hst, rfl⟩ := he
  exact event_tells (h.entries.2 i s st.entry hs (by simp [hst])) b w

theorem Match.last {α β : Type} {R : α → β → Prop} {l : List α} {l' : List β} (h : Match R l l') :
    Match R l.getLast?.toList l'.getLast?.toList := by
  have hl := h.1
  rcases List.eq_nil_or_concat l with rfl | ⟨m, x, rfl⟩
  · have : l' = [] := List.eq_nil_of_length_eq_zero (by simpa using hl.symm)
    subst this
    exact ⟨rfl, by simp⟩
  · rcases List.eq_nil_or_concat l' with rfl | ⟨m', y, rfl⟩
    · simp at hl
    · rw [List.concat_eq_append] at *
      rw [List.concat_eq_append] at *
      simp only [List.getLast?_concat, Option.toList_some]
      refine Match.cons (h.2 m.length x y (by simp) ?_) ⟨rfl, by simp⟩
      have : m'.length = m.length := by simpa using hl.symm
      rw [← this]; simp

theorem shows_newest {b : Base} {said : List (Said A)} {x : Abs W A} {st : Static} (h : Shows b x st) (hs : HoldsAll said x)
    (hf : x.fin = none) : Newest (W := W) b said st := by
  obtain ⟨y, env, e, rfl⟩ := h
  have hf' : y.fin = none := e.fin.trans hf
  have hs' := hs.same e
  refine ⟨rfl, rfl, rfl, rfl, by simp [staticOf, Abs.conc, hf'], ?_⟩
  simp only [staticOf, hf', Option.isSome_none, Bool.false_eq_true, if_false]
  have e2 : ∀ l : List Event, l.getLast?.toList.map strip = (l.map strip).getLast?.toList := by
    intro l; rw [List.getLast?_map]; cases l.getLast? <;> rfl
  rw [read_latest, e2, ← read_strip, read_all]
  simp only [hs'.trunc, Nat.lt_irrefl, gt_iff_lt, if_false]
  exact (match_events hs' b env.w).last

theorem shows_complete {b : Base} {said : List (Said A)} {x : Abs W A} {st : Static} (h : Shows b x st) (hs : HoldsAll said x)
    (hf : x.fin.isSome = true) : Complete (W := W) b said st := by
  obtain ⟨y, env, e, rfl⟩ := h
  have hf' : y.fin.isSome = true := by rw [e.fin]; exact hf
  have hs' := hs.same e
  refine ⟨rfl, rfl, rfl, rfl, by simp [staticOf, Abs.conc, hf'], ?_⟩
  simp only [staticOf, hf', if_true]
  rw [read_all]
  simp only [hs'.trunc, Nat.lt_irrefl, gt_iff_lt, if_false]
  exact match_events hs' b env.w

theorem moments_said (a : Nat) (said before : List (Said A)) (x : Abs W A) (hx : HoldsAll before x) (hf : x.fin = none)
    (hl : ((before.length + said.length : Nat) : Int) ≤ x.limit) (T : List (Env W × Act A))
    (hT : T.map Prod.snd = (said.flatMap fun s => [.call a s.call, .publish (.core a)]) ++ [.call a .finish, .publish (.core a)]) :
    ∃ mids last, moments x T = mids ++ [last] ∧ mids.length = said.length ∧
      (∀ (i : Nat) z, mids[i]? = some z → HoldsAll (before ++ said.take (i + 1)) z ∧ z.fin = none) ∧
      HoldsAll (before ++ said) last ∧ last.fin.isSome = true := by
  induction said generalizing before x T with
  | nil =>
    match T, hT with
    | [(e1, _), (e2, _)], hT =>
      simp only [List.map_cons, List.map_nil, List.flatMap_nil, List.nil_append, List.cons.injEq, and_true] at hT
      obtain ⟨rfl, rfl⟩ := hT
      refine ⟨[], x.step e1 .finish, rfl, rfl, by simp, ?_, ?_⟩
      · rw [List.append_nil]
        simp only [Abs.step, hf]
        exact ⟨hx.trunc, hx.entries⟩
      · simp [Abs.step, hf]
  | cons s said ih =>
    match T, hT with
    | (e1, _) :: (e2, _) :: T, hT =>
      simp only [List.map_cons, List.flatMap_cons, List.cons_append, List.nil_append, List.cons.injEq] at hT
      obtain ⟨rfl, rfl, hT⟩ := hT
      have hl' : ((before.length + (said.length + 1) : Nat) : Int) ≤ x.limit := by simpa using hl
      obtain ⟨g1, g2, g3⟩ := hx.log hf s e1 (by omega)
      obtain ⟨mids, last, k1, k2, k3, k4, k5⟩ := ih (before ++ [s]) (x.step e1 s.call) g1 g2
        (by rw [g3]; simp only [List.length_append, List.length_cons, List.length_nil]; omega) T hT
      refine ⟨x.step e1 s.call :: mids, last, ?_, by simp [k2], ?_, by simpa using k4, k5⟩
      · simp only [moments, k1, List.cons_append]
      · intro i z hz
        cases i with
        | zero =>
          simp only [List.getElem?_cons_zero, Option.some.injEq] at hz
          subst hz
          exact ⟨by simpa using g1, g2⟩
        | succ i =>
          simp only [List.getElem?_cons_succ] at hz
          have := k3 i z hz
          simpa using this

/-- C55.  `NewTrace` on a context without a trace, in a collector whose decorators only log: the trace it returns is one
that publishes, and what it does to the new trace is to make it and publish it once. -/
theorem C55_created (ctx : Ctx A) (addr : Nat) (id source category : String) (ds : List (Decorator A)) (stack : List StdFrame)
    (hctx : maybeGet ctx = none) (hd : ∀ d ∈ ds, ∃ dst, d = logDecorator dst) :
    Collected addr (newTrace ctx addr id source category ds stack).2.1 ∧
    (newTrace ctx addr id source category ds stack).2.2.head? = some (.make addr source category) ∧
    (newTrace ctx addr id source category ds stack).2.2.filter (touches addr) = [.publish (.core addr)] := by
  have key : ∀ (ds : List (Decorator A)) tr, Collected addr tr → (∀ d ∈ ds, ∃ dst, d = logDecorator dst) →
      Collected addr (decorate source category id ds tr).1 ∧ (decorate source category id ds tr).2.filter (touches addr) = [] := by
    intro ds
    induction ds with
    | nil => intro tr h _; exact ⟨h, rfl⟩
    | cons d ds ih =>
      intro tr h hd
      obtain ⟨dst, rfl⟩ := hd d (by simp)
      obtain ⟨h1, h2⟩ := ih _ (Collected.log id dst h) (fun d hd' => hd d (by simp [hd']))
      refine ⟨h1, ?_⟩
      show List.filter (touches addr) (_ ++ _) = _
      rw [List.filter_append]
      have h3 : (decorate source category id ds (Tr.log tr id dst)).2.filter (touches addr) = [] := h2
      have h4 : ∀ l, l = (decorate source category id ds (logDecorator dst source category id tr).1).2 → l.filter (touches addr) = [] := by
        rintro _ rfl; exact h3
      rw [h4 _ rfl]
      rfl
  obtain ⟨h1, h2⟩ := key ds (.publish (.core addr)) .base hd
  unfold newTrace
  rw [hctx]
  refine ⟨h1, rfl, ?_⟩
  have e : (new ctx addr id source category [publishDecorator (A := A)]).2.2 = [.make addr source category, .publish (.core addr)] := rfl
  simp only [e]
  rw [List.filter_append, List.filter_append]
  have h3 : ∀ l, l = (decorate source category id ds (new ctx addr id source category [publishDecorator (A := A)]).2.1).2 → l.filter (touches addr) = [] := by
    rintro _ rfl; exact h2
  rw [h3 _ rfl]
  simp [touches, Tr.root]

/-- C55.  A trace as `NewTrace` makes it, with the core trace at `a`: published, then logged to through any
wrappers, up to the limit, then finished.  The actions on it and its publications are those of this
sequence, in this order (others may read it, and do anything with other traces), and there is a subscriber
all the time.  Then the messages about it are: one without events, one for each logging call that
carries exactly that event, and the complete finished trace. -/
theorem C55_streamed_partial (settings : List Setting) (start : Time) (id source category : String) (old : CoreTrace A)
    (w w' : World A) (ex : List (AEnv W × Act A)) (said : List (Said A)) (a : Nat) (trF : Tr A)
    (hc : ∀ s ∈ said, Collected a s.tr) (hcF : Collected a trF)
    (hex : (ex.map Prod.snd).filter (touches a) =
      (.publish (.core a) :: said.flatMap Said.acts ++ trF.finishActs).filter (touches a))
    (hsub : ∀ p ∈ ex, p.1.subscribed = true)
    (hm : ∀ p ∈ ex, notMake a p.2) (hrun : w.run ex = some w')
    (ht : w.traces a = some (fresh settings start id source category old))
    (hlen : (said.length : Int) ≤ (Globals.after settings).traceMaxEvents) :
    ∃ first mids last, messages a w' = messages a w ++ first :: mids ++ [last] ∧
      Newest (W := W) (freshBase settings start id source category) ([] : List (Said A)) first ∧
      mids.length = said.length ∧
      (∀ (i : Nat) st, mids[i]? = some st → Newest (W := W) (freshBase settings start id source category) (said.take (i + 1)) st) ∧
      Complete (W := W) (freshBase settings start id source category) said last := by
  rw [fresh_conc (W := W)] at ht
  have hacts : (Act.publish (.core a) :: said.flatMap Said.acts ++ trF.finishActs).filter (touches a) =
      .publish (.core a) :: (said.flatMap fun s => [.call a s.call, .publish (.core a)]) ++ [.call a .finish, .publish (.core a)] := by
    have h1 : (said.flatMap Said.acts).filter (touches a) = said.flatMap fun s => [.call a s.call, .publish (.core a)] := by
      rw [List.filter_flatMap]
      have : ∀ (l : List (Said A)), (∀ s ∈ l, Collected a s.tr) →
          (l.flatMap fun s => s.acts.filter (touches a)) = l.flatMap fun s => [.call a s.call, .publish (.core a)] := by
        intro l
        induction l with
        | nil => intro _; rfl
        | cons s l ih =>
          intro h
          rw [List.flatMap_cons, List.flatMap_cons, ih (fun s hs => h s (by simp [hs]))]
          rw [show s.acts.filter (touches a) = _ from (collected_log (h s (by simp)) s.kind s.format s.args s.stack).2]
          rfl
      exact this said hc
    rw [List.filter_append, List.filter_cons, h1, collected_finish hcF]
    simp [touches, Tr.root]
  rw [hacts] at hex
  obtain ⟨y, msgs, r1, r2, r3, r4⟩ := run_messages hrun ht hm (by
    intro p hp tr htr hroot
    refine ⟨?_, hsub p hp⟩
    have hmem : Act.publish tr ∈ (ex.map Prod.snd).filter (touches a) := by
      refine List.mem_filter.mpr ⟨?_, by simp [touches, hroot]⟩
      rw [← htr]; exact List.mem_map_of_mem hp
    rw [hex] at hmem
    simp only [List.cons_append, List.mem_cons, List.mem_append, List.mem_flatMap, List.not_mem_nil, or_false, Act.publish.injEq,
      reduceCtorEq, false_or] at hmem
    rcases hmem with h | ⟨s, _, h⟩ | h
    · exact h
    · exact h
    · exact h)
  have hT : ((ex.map fun p => (p.1.toEnv, p.2)).filter fun p => touches a p.2).map Prod.snd = (ex.map Prod.snd).filter (touches a) := by
    rw [List.filter_map, List.filter_map, List.map_map]; rfl
  rw [hex] at hT
  generalize ((ex.map fun p => (p.1.toEnv, p.2)).filter fun p => touches a p.2) = T at hT r4
  match T, hT with
  | (e0, _) :: T, hT =>
    simp only [List.map_cons, List.cons_append, List.cons.injEq] at hT
    obtain ⟨rfl, hT⟩ := hT
    have h0 : HoldsAll ([] : List (Said A)) (Abs.new (Globals.after settings).traceMaxEvents : Abs W A) := ⟨rfl, rfl, by simp⟩
    obtain ⟨mids, last, k1, k2, k3, k4, k5⟩ := moments_said a said [] (Abs.new (Globals.after settings).traceMaxEvents) h0 rfl
      (by simpa [Abs.new] using hlen) T hT
    simp only [moments, k1] at r4
    have hlen4 := r4.1
    simp only [List.length_cons, List.length_append, List.length_nil] at hlen4
    match msgs, r2, r4, hlen4 with
    | first :: rest, r2, r4, hlen4 =>
      rcases List.eq_nil_or_concat rest with rfl | ⟨ms, l, rfl⟩
      · simp at hlen4
      · rw [List.concat_eq_append] at r2 r4 hlen4
        simp only [List.length_cons, List.length_append, List.length_nil] at hlen4
        have hml : ms.length = mids.length := by omega
        refine ⟨first, ms, l, by rw [r2]; simp, shows_newest (r4.2 0 first _ rfl rfl) h0 rfl, by omega, ?_, ?_⟩
        · intro i st hst
          have hi : i < ms.length := (List.getElem?_eq_some_iff.mp hst).1
          have hi' : i < mids.length := by omega
          obtain ⟨q1, q2⟩ := k3 i mids[i] (List.getElem?_eq_getElem hi')
          have := r4.2 (i + 1) st mids[i] (by simp [List.getElem?_append_left hi, hst])
            (by simp [List.getElem?_append_left hi'])
          simpa using shows_newest this q1 q2
        · have := r4.2 (ms.length + 1) l last (by simp) (by rw [hml]; simp)
          simpa using shows_complete this k4 k5

/-! ## C77 -/

/-- The copy shows the trace as it was at one moment. -/
def Snapshot (t : CoreTrace A) (now : Time) (env : Env W) (st : Static) : Prop :=
  st.source = t.source ∧ st.id = t.id ∧ st.category = t.category ∧ st.started = t.start ∧
    st.duration = t.durationAt now ∧ st.finished = t.finished ∧ st.errored = t.errored ∧ t.events' env = some st.events

theorem writes_nil_run (x : Abs W A) (h : Hist W A) (hw : writes h = []) : SameBut (x.run h) x := by
  have := (SameBut.refl x).run h
  rwa [hw] at this

/-- C77.  The copy is a snapshot of the trace as it is at the end, if the trace was finished before, or
nobody changes it meanwhile. -/
theorem C77_snapshot_partial (settings : List Setting) (start : Time) (id source category : String) (old : CoreTrace A)
    (h h₁ h₂ h₃ : Hist W A) (now : Time) (env : Env W) (t : CoreTrace A) (st : Static)
    (hr : (fresh settings start id source category old).run h = some t)
    (hs : newSearchTrace t now h₁ h₂ h₃ env = some st)
    (hq : t.finished = true ∨ (writes h₁ = [] ∧ writes h₂ = [] ∧ writes h₃ = [])) :
    ∃ t', t.run (h₁ ++ h₂ ++ h₃) = some t' ∧ Snapshot t' now env st := by
  rw [fresh_run] at hr
  obtain rfl := (Option.some.inj hr).symm
  generalize freshBase settings start id source category = b at hs hq ⊢
  generalize (Abs.new (Globals.after settings).traceMaxEvents : Abs W A).run h = x at hs hq ⊢
  simp only [newSearchTrace, run_conc, bind, Option.bind_some, events'_conc, pure, Option.some.injEq] at hs
  subst hs
  refine ⟨_, run_conc b x _, ?_⟩
  rw [run_append, run_append]
  have key : (x.run h₁).fin = x.fin ∧ (((x.run h₁).run h₂).run h₃).fin = x.fin ∧
      ((x.run h₁).run h₂).errored = (((x.run h₁).run h₂).run h₃).errored := by
    rcases hq with hf | ⟨w1, w2, w3⟩
    · obtain ⟨tt, htt⟩ := Option.isSome_iff_exists.mp (show x.fin.isSome = true from hf)
      have f1 := run_fin htt h₁
      have f2 := run_fin f1.1 h₂
      have f3 := run_fin f2.1 h₃
      exact ⟨by rw [f1.1, htt], by rw [f3.1, htt], f3.2.1.symm⟩
    · have s1 := writes_nil_run x h₁ w1
      have s2 := writes_nil_run (x.run h₁) h₂ w2
      have s3 := writes_nil_run ((x.run h₁).run h₂) h₃ w3
      exact ⟨s1.fin, (s3.trans (s2.trans s1)).fin, s3.errored.symm⟩
  obtain ⟨k1, k2, k3⟩ := key
  refine ⟨rfl, rfl, rfl, rfl, ?_, ?_, k3, events'_conc b _ env⟩
  · simp only [CoreTrace.durationAt, Abs.conc, k2]
    rfl
  · show (x.run h₁).fin.isSome = (((x.run h₁).run h₂).run h₃).fin.isSome
    rw [k1, k2]

/-- **C77**, exactly, for copies that say finished.  Such a copy always has all the events of the finished trace and
tells rightly whether it is errored, whatever others do meanwhile.  It is a snapshot exactly if its duration is right;
that is so if the trace was finished when the search came to it, and otherwise only if the time that had passed then
happens to be the time that passed until it was finished. -/
theorem C77_finished_exact (settings : List Setting) (start : Time) (id source category : String) (old : CoreTrace A)
    (h h₁ h₂ h₃ : Hist W A) (now : Time) (env : Env W) (t : CoreTrace A) (st : Static)
    (hr : (fresh settings start id source category old).run h = some t)
    (hs : newSearchTrace t now h₁ h₂ h₃ env = some st) (hf : st.finished = true) :
    ∃ t' f, t.run (h₁ ++ h₂ ++ h₃) = some t' ∧ finishedAt (h ++ h₁) = some f ∧ t'.finished = true ∧
      st.errored = t'.errored ∧ t'.events' env = some st.events ∧
      st.duration = ((finishedAt h).getD now).sub start ∧
      ∀ now', Snapshot t' now' env st ↔ finishedAt h ≠ none ∨ now.sub start = f.sub start := by
  rw [fresh_run] at hr
  obtain rfl := (Option.some.inj hr).symm
  have hx := run_finishedAt (a := (Abs.new (Globals.after settings).traceMaxEvents : Abs W A)) rfl h
  have hx1 := run_finishedAt (a := (Abs.new (Globals.after settings).traceMaxEvents : Abs W A)) rfl (h ++ h₁)
  rw [run_append] at hx1
  have hst : (freshBase settings start id source category).start = start := rfl
  generalize freshBase settings start id source category = b at hs hst ⊢
  generalize (Abs.new (Globals.after settings).traceMaxEvents : Abs W A).run h = x at hs hx hx1 ⊢
  simp only [newSearchTrace, run_conc, bind, Option.bind_some, events'_conc, pure, Option.some.injEq] at hs
  subst hs
  obtain ⟨f, hf1⟩ := Option.isSome_iff_exists.mp (show (x.run h₁).fin.isSome = true from hf)
  have f2 := run_fin hf1 h₂
  have f3 := run_fin f2.1 h₃
  refine ⟨_, f, run_conc b x _, by rw [← hx1, hf1], ?_, ?_, ?_, ?_, ?_⟩
  · rw [run_append, run_append]
    show (((x.run h₁).run h₂).run h₃).fin.isSome = true
    rw [f3.1]; rfl
  · rw [run_append, run_append]
    exact f3.2.1.symm
  · rw [run_append, run_append]
    exact events'_conc b _ env
  · show CoreTrace.durationAt _ now = _
    simp only [CoreTrace.durationAt, Abs.conc, hx]
    cases finishedAt h <;> simp [hst]
  · intro now'
    rw [run_append, run_append]
    have hdur : ((((x.run h₁).run h₂).run h₃).conc b).durationAt now' = f.sub start := by
      simp only [CoreTrace.durationAt, Abs.conc, f3.1]
      simp [hst]
    have hdur0 : (x.conc b).durationAt now = ((finishedAt h).getD now).sub start := by
      simp only [CoreTrace.durationAt, Abs.conc, hx]
      cases finishedAt h <;> simp [hst]
    have hfin : ∀ g, finishedAt h = some g → g = f := by
      intro g hg
      have := run_fin (hx.trans hg) h₁
      rw [hf1] at this
      exact (Option.some.inj this.1).symm
    have key : (x.conc b).durationAt now = ((((x.run h₁).run h₂).run h₃).conc b).durationAt now' ↔
        finishedAt h ≠ none ∨ now.sub start = f.sub start := by
      rw [hdur, hdur0]
      cases hh : finishedAt h with
      | none => simp
      | some g => simp [hfin g hh]
    rw [← key]
    constructor
    · rintro ⟨_, _, _, _, h5, _⟩
      exact h5
    · intro h5
      refine ⟨rfl, rfl, rfl, rfl, h5, ?_, f3.2.1.symm, events'_conc b _ env⟩
      show (x.run h₁).fin.isSome = (((x.run h₁).run h₂).run h₃).fin.isSome
      rw [hf1, f3.1]

end Trc.Wrap

namespace Trc.Wrap.Witness

open Core Core.Spec Fmt

/-- A trace with two events. -/
def two : CoreTrace String :=
  ((fresh [] ⟨1, none⟩ "id" "s" "c" zeroTrace : CoreTrace String).tracef (env 2).toEnv "a" [] []).tracef (env 3).toEnv "b" [] []

/-- C54 fails when the trace is finished between the first two calls of `NewStreamTrace`: the message
says finished and carries one of two events. -/
theorem C54_reduced_violated : ∃ st t', newStreamTrace true two [((env 4).toEnv, .finish)] [] [] [] (env 5).toEnv ⟨5, none⟩ = some (st, t') ∧
    st.finished = true ∧ st.events.map (·.what) = ["b"] ∧ (t'.events' (env 6).toEnv).map (fun evs => evs.map (·.what)) = some ["a", "b"] :=
  ⟨_, _, rfl, rfl, rfl, rfl⟩

example : ∃ st t', newStreamTrace true two [] [] [] [] (env 5).toEnv ⟨5, none⟩ = some (st, t') ∧
    st.finished = false ∧ st.events.map (·.what) = ["b"] ∧ st.id = "id" ∧ st.duration = 4 := ⟨_, _, rfl, rfl, rfl, rfl, rfl⟩

/-- The texts of the messages. -/
def texts (acts : List (Act String)) : Option (List (List String × Bool)) :=
  (run1 acts true).map fun w => (messages 0 w).map fun st => (st.events.map (·.what), st.finished)

def tr : Tr String := .log (.publish (.core 0)) "id" 1

/-- C55: a run. -/
example : texts ((newTrace .background 0 "id" "src" "cat" [logDecorator 1] []).2.2 ++ tr.logActs .tracef "a %s" ["x"] [] ++
      tr.logActs .lazyErrorf "b" [] [] ++ tr.finishActs) =
    some [([], false), (["a x"], false), (["b"], false), (["a x", "b"], true)] := rfl

/-- The trace above is what `NewTrace` gives, here with a log decorator. -/
example : Collected 0 tr := (C55_created (A := String) .background 0 "id" "src" "cat" [logDecorator 1] [] rfl (by intro d h; exact ⟨1, List.mem_singleton.mp h⟩)).1

/-- C55 fails when two goroutines log at the same time: both log before either publishes. -/
theorem C55_streamed_violated : ∃ ex : List (Act String), List.Perm ex (tr.logActs .tracef "a" [] [] ++ tr.logActs .tracef "b" [] []) ∧
    (tr.logActs .tracef "a" [] []).Sublist ex ∧ (tr.logActs .tracef "b" [] []).Sublist ex ∧
    texts (.make 0 "s" "c" :: ex) = some [(["b"], false), (["b"], false)] := by
  let a := tr.logActs .tracef "a" [] []
  let b := tr.logActs .tracef "b" [] []
  refine ⟨a.take 2 ++ b.take 2 ++ a.drop 2 ++ b.drop 2, ?_, ?_, ?_, rfl⟩
  · have h1 : a.take 2 ++ b.take 2 ++ a.drop 2 ++ b.drop 2 = a.take 2 ++ ((b.take 2 ++ a.drop 2) ++ b.drop 2) := by simp
    rw [h1]
    have h2 : tr.logActs .tracef "a" [] [] ++ tr.logActs .tracef "b" [] [] = a.take 2 ++ ((a.drop 2 ++ b.take 2) ++ b.drop 2) := rfl
    rw [h2]
    exact List.Perm.append_left _ (List.Perm.append_right _ List.perm_append_comm)
  · have : tr.logActs .tracef "a" [] [] = a.take 2 ++ [] ++ a.drop 2 ++ [] := rfl
    rw [this]
    exact (((List.Sublist.refl _).append (List.nil_sublist _)).append (List.Sublist.refl _)).append (List.nil_sublist _)
  · have : tr.logActs .tracef "b" [] [] = [] ++ b.take 2 ++ [] ++ b.drop 2 := rfl
    rw [this]
    exact (((List.nil_sublist _).append (List.Sublist.refl _)).append (List.nil_sublist _)).append (List.Sublist.refl _)

/-- C77 fails under concurrency: a copy that is not errored, and has an error event (while a trace that has
one is errored, C10). -/
theorem C77_snapshot_violated : ∃ st, newSearchTrace two ⟨9, none⟩ [] [] [((env 4).toEnv, .log .errorf "c" [] [])] (env 5).toEnv = some st ∧
    st.errored = false ∧ st.events.any (·.isError) = true := ⟨_, rfl, rfl, rfl⟩

/-- A run of `C77_finished_exact`: the trace is finished while it is copied, and the copy says that it took 8 instead of 9. -/
example : ∃ st, newSearchTrace two ⟨9, none⟩ [((env 10).toEnv, .finish)] [] [] (env 15).toEnv = some st ∧
    st.finished = true ∧ st.duration = 8 ∧ st.events.map (·.what) = ["a", "b"] := ⟨_, rfl, rfl, rfl, rfl⟩

/-- A run of `C77_snapshot_partial`. -/
example : ∃ st, newSearchTrace two ⟨9, none⟩ [] [] [((env 4).toEnv, .read 3 true)] (env 5).toEnv = some st ∧
    st.errored = false ∧ st.events.map (·.what) = ["a", "b"] := ⟨_, rfl, rfl, rfl⟩

end Trc.Wrap.Witness
