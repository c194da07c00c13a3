import Verif.Heap.Sys

/-!
# C155: what was logged is let go of when its trace is freed

`Free` puts the events of a trace and their texts back into pools.  The theorems are about `St.run` from program start, as
those of `Verif/Props/Heap.lean`.
-/

set_option linter.unusedSectionVars false
set_option linter.unusedVariables false
set_option linter.unusedSimpArgs false

namespace Trc.Heap

open Trc.Core

variable {W A : Type} [Sys W A]

/-! ## Statement -/

/-- The memory of the library refers to the value: through a text in the pool, or through an event of a trace. -/
def Heap.Keeps (h : Heap A) (v : A) : Prop :=
  ∃ z, (z ∈ h.strPool ∨ ∃ a e, e ∈ (h.traces a).events ∧ (h.events e).what = some z) ∧ v ∈ (h.strs z).args

/-- The call logs the value. -/
def logs (v : A) : Call A → Prop
  | .log _ _ args _ => v ∈ args
  | _ => False

/-- The step neither logs anything nor empties the pool of texts. -/
def quiet : Act W A → Prop
  | .call _ _ (.log ..) _ => False
  | .gcStr _ => False
  | _ => True

/-! ## Calls -/

theorem keeps_congr {h h' : Heap A} (hs : ∀ z, (h'.strs z).args = (h.strs z).args) (hp : h'.strPool = h.strPool)
    (hw : ∀ e, (h'.events e).what = (h.events e).what) (ht : ∀ a, (h'.traces a).events = (h.traces a).events) (v : A) :
    h'.Keeps v ↔ h.Keeps v := by
  unfold Heap.Keeps
  simp only [hs, hp, hw, ht]

theorem appendStack_strs (h : Heap A) (e : Nat) (fr : Frame) (grow : Nat → Nat) :
    (h.appendStack e fr grow).strs = h.strs := by
  unfold Heap.appendStack
  simp only
  split <;> rfl

theorem framesLoop_strs (e : Nat) (grow : Nat → Nat) : ∀ (rest : List StdFrame) (h : Heap A) (fr : StdFrame) (more : Bool),
    (h.framesLoop e grow fr more rest).strs = h.strs := by
  intro rest
  induction rest with
  | nil =>
    intro h fr more
    unfold Heap.framesLoop
    split
    · rfl
    · simp only
      split
      · exact appendStack_strs ..
      · rfl
  | cons fr' rest ih =>
    intro h fr more
    unfold Heap.framesLoop
    split
    · rfl
    · simp only
      rw [ih]
      split
      · exact appendStack_strs ..
      · rfl

theorem getStack_strs (h : Heap A) (e : Nat) (grow : Nat → Nat) : (h.getStack e grow).1.strs = h.strs := by
  unfold Heap.getStack
  split
  · rfl
  · split
    · rfl
    · exact framesLoop_strs ..

theorem string_args (z : Stringer A) (w : W) : (z.string w).2.args = z.args := by
  unfold Stringer.string
  split <;> rfl

theorem snapshot_args {h h' : Heap A} {e : Nat} {w : W} {stacks : Bool} {grow : Nat → Nat} {sn : HSnap}
    (he : h.snapshot e w stacks grow = some (sn, h')) (z : Nat) : (h'.strs z).args = (h.strs z).args := by
  unfold Heap.snapshot at he
  have hp : (if stacks then h.getStack e grow else (h, ⟨0, 0⟩)).1.strs = h.strs := by
    split
    · exact getStack_strs ..
    · rfl
  generalize (if stacks then h.getStack e grow else (h, ⟨0, 0⟩)) = p at he hp
  cases hw : (p.1.events e).what with
  | none => simp [hw] at he
  | some s =>
    simp only [hw, Option.bind_eq_bind, Option.bind_some, pure, Option.some.injEq, Prod.mk.injEq] at he
    obtain ⟨-, rfl⟩ := he
    simp only [upd]
    split
    · rename_i hz
      rw [hz, string_args, hp]
    · rw [hp]

theorem snapshotEvents_args {w : W} {stacks : Bool} {grow : Nat → Nat} : ∀ (es : List Nat) {h h' : Heap A} {sns : List HSnap},
    h.snapshotEvents w stacks grow es = some (sns, h') → ∀ z, (h'.strs z).args = (h.strs z).args := by
  intro es
  induction es with
  | nil => intro h h' sns he z; cases he; rfl
  | cons e es ih =>
    intro h h' sns he z
    unfold Heap.snapshotEvents at he
    cases h1 : h.snapshot e w stacks grow with
    | none => simp [h1] at he
    | some p =>
      cases h2 : p.2.snapshotEvents w stacks grow es with
      | none => simp [h1, h2] at he
      | some q =>
        simp only [h1, h2, Option.bind_eq_bind, Option.bind_some, pure, Option.some.injEq, Prod.mk.injEq] at he
        rw [← he.2, ih h2 z]
        exact snapshot_args h1 z

theorem eventsDetail_args {h h' : Heap A} {a : Nat} {env : Env W} {n : Int} {stacks : Bool} {grow : Nat → Nat} {sns : List HSnap}
    (he : h.eventsDetail a env n stacks grow = some (sns, h')) (z : Nat) : (h'.strs z).args = (h.strs z).args := by
  unfold Heap.eventsDetail at he
  simp only [Option.bind_eq_bind, Option.bind_eq_some_iff] at he
  obtain ⟨latest, -, p, hp, he⟩ := he
  have := snapshotEvents_args latest hp z
  split at he
  · simp only [Option.bind_eq_some_iff, pure, Option.some.injEq, Prod.mk.injEq] at he
    obtain ⟨_, -, -, rfl⟩ := he
    exact this
  · cases he
    exact this

theorem setTrace_keeps {h : Heap A} {a : Nat} {tr : HTrace} (htr : tr.events = (h.traces a).events) (v : A) :
    Heap.Keeps { h with traces := upd h.traces a tr } v ↔ h.Keeps v := by
  refine keeps_congr (by intro _; rfl) (by rfl) (by intro _; rfl) ?_ v
  intro b
  simp only [upd]
  split
  · rename_i hb; rw [hb, htr]
  · rfl

theorem logEvent_keeps {h : Heap A} (hm : Mem h) (a : Nat) (ch : Choice) (env : Env W) (flags : UInt8) (format : String)
    (args : List A) (callers : List StdFrame) (v : A) :
    ((h.logEvent a ch env flags format args callers).Keeps v → h.Keeps v ∨ v ∈ args) ∧
    (((h.traces a).events.length : Int) < (h.traces a).eventsmax → v ∈ args →
      (h.logEvent a ch env flags format args callers).Keeps v) := by
  unfold Heap.logEvent
  simp only
  split
  · rename_i hfull
    refine ⟨fun hk => .inl ?_, fun hroom => by omega⟩
    exact (setTrace_keeps (by rfl) v).mp hk
  · rename_i hroom
    obtain ⟨s, hn⟩ := newCoreEvent_spec h hm ch env (flags ||| (h.traces a).nostackflag) format args callers
    generalize h.newCoreEvent ch env (flags ||| (h.traces a).nostackflag) format args callers = p at hn
    obtain ⟨h1, e⟩ := p
    simp only at hn ⊢
    obtain ⟨-, -, t3, -, -, t6⟩ := hn.st.facts hm.spNodup hm.spLt
    have hargs : (h1.strs s).args = args := by
      rw [hn.strs, upd_same]; split <;> rfl
    constructor
    · rintro ⟨z, hz, hv⟩
      simp only at hz hv
      by_cases hzs : z = s
      · right; rw [hzs, hargs] at hv; exact hv
      · left
        rw [hn.strs, upd_ne _ _ hzs] at hv
        refine ⟨z, ?_, hv⟩
        rcases hz with hz | ⟨b, e', he', hw⟩
        · exact .inl (t6 z hz)
        · right
          have hne : e' ≠ e := by
            rintro rfl
            rw [hn.evEq.2.1] at hw
            exact hzs (Option.some.inj hw).symm
          rw [hn.evNe e' hne] at hw
          refine ⟨b, e', ?_, hw⟩
          simp only [upd] at he'
          split at he'
          · rename_i hb
            rcases List.mem_append.mp he' with h2 | h2
            · rw [hn.traces] at h2; rw [hb]; exact h2
            · exact absurd (List.mem_singleton.mp h2) hne
          · rw [hn.traces] at he'; exact he'
    · intro _ hv
      exact ⟨s, .inr ⟨a, e, by simp [upd_same], hn.evEq.2.1⟩, by simpa [hargs] using hv⟩

theorem log_keeps {h : Heap A} (hm : Mem h) (a : Nat) (ch : Choice) (env : Env W) (kind : LogKind) (format : String)
    (args : List A) (callers : List StdFrame) (v : A) :
    ((h.log a ch env kind format args callers).Keeps v → h.Keeps v ∨ v ∈ args) ∧
    ((h.traces a).finished = false → ((h.traces a).events.length : Int) < (h.traces a).eventsmax → v ∈ args →
      (h.log a ch env kind format args callers).Keeps v) := by
  unfold Heap.log
  split
  · rename_i hf
    exact ⟨.inl, fun h => by simp [h] at hf⟩
  · have hm' := mem_setTrace hm a { h.traces a with errored := true } rfl
    have hk := setTrace_keeps (h := h) (a := a) (tr := { h.traces a with errored := true }) rfl v
    cases kind with
    | tracef =>
      obtain ⟨h1, h2⟩ := logEvent_keeps hm a ch env flagNormal format args callers v
      exact ⟨h1, fun _ => h2⟩
    | lazyTracef =>
      obtain ⟨h1, h2⟩ := logEvent_keeps hm a ch env flagLazy format args callers v
      exact ⟨h1, fun _ => h2⟩
    | errorf =>
      obtain ⟨h1, h2⟩ := logEvent_keeps hm' a ch env flagError format args callers v
      exact ⟨fun h => (h1 h).imp hk.mp id, fun _ h3 => h2 (by simpa [upd_same] using h3)⟩
    | lazyErrorf =>
      obtain ⟨h1, h2⟩ := logEvent_keeps hm' a ch env (flagLazy ||| flagError) format args callers v
      exact ⟨fun h => (h1 h).imp hk.mp id, fun _ h3 => h2 (by simpa [upd_same] using h3)⟩

theorem free_keeps {h h' : Heap A} (hm : Mem h) {a : Nat} (he : h.free a = some h') (v : A) : h'.Keeps v ↔ h.Keeps v := by
  unfold Heap.free at he
  split at he
  · cases he
    exact keeps_congr (by intro _; rfl) (by rfl) (by intro _; rfl) (by intro _; rfl) v
  · obtain ⟨h1, e1, a1, a2, -, -, -, -, -, -, -, a10, a11, -⟩ :=
      freeEvents_spec (h := h) (h.traces a).events (hm.evNodup a) (by
        intro e hee
        obtain ⟨s, hs, _⟩ := hm.str e ⟨a, hee⟩
        simp [hs])
    simp only [e1, Option.bind_eq_bind, Option.bind_some, pure, Option.some.injEq] at he
    subst he
    unfold Heap.Keeps
    simp only [a1, a2, a10]
    constructor
    · rintro ⟨z, hz, hv⟩
      refine ⟨z, ?_, hv⟩
      rcases hz with hz | ⟨b, e, hb, hw⟩
      · rcases List.mem_append.mp hz with hz | hz
        · obtain ⟨e, h2, h3⟩ := mem_strsOf (List.mem_reverse.mp hz)
          exact .inr ⟨a, e, h2, h3⟩
        · exact .inl hz
      · simp only [upd] at hb
        split at hb
        · simp at hb
        · rename_i hba
          rw [a11 e (fun h2 => hba (hm.evOwn b a e hb h2))] at hw
          exact .inr ⟨b, e, hb, hw⟩
    · rintro ⟨z, hz, hv⟩
      refine ⟨z, ?_, hv⟩
      rcases hz with hz | ⟨b, e, hb, hw⟩
      · exact .inl (List.mem_append_right _ hz)
      · by_cases hba : b = a
        · left
          subst hba
          refine List.mem_append_left _ (List.mem_reverse.mpr ?_)
          unfold strsOf
          exact List.mem_filterMap.mpr ⟨e, hb, hw⟩
        · right
          refine ⟨b, e, by simpa [upd, hba] using hb, ?_⟩
          rw [a11 e (fun h2 => hba (hm.evOwn b a e hb h2))]
          exact hw

theorem new_keeps {h : Heap A} (hpe : ∀ a ∈ h.tracePool, (h.traces a).events = [])
    (hne : (h.traces h.nextT).events = []) (g : Globals) (c : Option Nat) (now : Time)
    (id source category : String) (v : A) : (h.newCoreTrace g c now id source category).1.Keeps v ↔ h.Keeps v := by
  unfold Heap.newCoreTrace
  simp only
  cases hc : choose h.tracePool c with
  | some a =>
    refine keeps_congr (by intro _; rfl) (by rfl) (by intro _; rfl) ?_ v
    intro b
    simp only [upd]
    split
    · rename_i hb; rw [hb, hpe a (choose_mem hc)]; rfl
    · rfl
  | none =>
    refine keeps_congr (by intro _; rfl) (by rfl) (by intro _; rfl) ?_ v
    intro b
    simp only [upd]
    split
    · rename_i hb; rw [hb, hne]; rfl
    · simp [*]

/-! ## Steps -/

theorem ring_heap {s t : St W A} {k : Nat} {op : Ring.MOp Handle} (h : s.ring k op = some t) : t.heap = s.heap := by
  unfold St.ring at h
  split at h
  · cases h; rfl
  · simp only [Option.bind_eq_bind, Option.bind_eq_some_iff, pure, Option.some.injEq] at h
    obtain ⟨_, -, rfl⟩ := h
    rfl

theorem step_keeps {s t : St W A} {f : List (Ring.Spec.Family Handle)} (hi : Inv s f) {act : Act W A}
    (h : s.step act = some t) (v : A) :
    (quiet act → s.heap.Keeps v → t.heap.Keeps v) ∧
    (t.heap.Keeps v → s.heap.Keeps v ∨ ∃ a env c ch, act = .call a env c ch ∧ logs v c) := by
  have same : ∀ {h' : Heap A}, (h'.Keeps v ↔ s.heap.Keeps v) → t.heap = h' → (quiet act → s.heap.Keeps v → t.heap.Keeps v) ∧
      (t.heap.Keeps v → s.heap.Keeps v ∨ ∃ a env c ch, act = .call a env c ch ∧ logs v c) := by
    intro h' hk he
    rw [he]
    exact ⟨fun _ => hk.mpr, fun h => .inl (hk.mp h)⟩
  cases act with
  | set x => cases h; exact same Iff.rfl rfl
  | newCollector size => cases h; exact same Iff.rfl rfl
  | new k now id source category ch =>
    simp only [St.step, Option.some.injEq] at h
    subst h
    refine same (new_keeps (fun a ha => hi.dead a (hi.tpDead a ha).2) ?_ s.globals ch.trace now id source category v) rfl
    refine hi.dead _ ?_
    cases hg : s.ghost s.heap.nextT with
    | none => rfl
    | some gh => have := hi.lt _ gh hg; omega
  | getOrCreate k c => exact same Iff.rfl (ring_heap h)
  | add i =>
    simp only [St.step] at h
    split at h
    · cases h; exact same Iff.rfl rfl
    · split at h
      · cases h; exact same Iff.rfl rfl
      · split at h
        · exact same Iff.rfl ((ring_heap h).trans rfl)
        · cases h; exact same Iff.rfl rfl
  | beginResize k c order => exact same Iff.rfl (ring_heap h)
  | resizeNext k => exact same Iff.rfl (ring_heap h)
  | free i =>
    simp only [St.step] at h
    split at h
    · cases h; exact same Iff.rfl rfl
    · rename_i hd _
      simp only [Option.bind_eq_bind, Option.bind_eq_some_iff, pure, Option.some.injEq] at h
      obtain ⟨h', he, rfl⟩ := h
      exact same (free_keeps hi.mem he v) rfl
  | call a env c ch =>
    simp only [St.step] at h
    split at h
    · simp only [Option.bind_eq_bind, Option.bind_eq_some_iff, pure, Option.some.injEq] at h
      obtain ⟨p, hp, rfl⟩ := h
      cases c with
      | log kind format args callers =>
        simp only [Heap.call, Option.some.injEq] at hp
        subst hp
        refine ⟨fun hq => hq.elim, fun hk => ?_⟩
        rcases (log_keeps hi.mem a ch env kind format args callers v).1 hk with h | h
        · exact .inl h
        · exact .inr ⟨a, env, _, ch, rfl, h⟩
      | finish =>
        simp only [Heap.call, Option.some.injEq] at hp
        subst hp
        refine same (h' := s.heap.finish a env.now) ?_ rfl
        unfold Heap.finish
        simp only
        split
        · rfl
        · exact setTrace_keeps (by rfl) v
      | setMaxEvents m =>
        simp only [Heap.call, Option.some.injEq] at hp
        subst hp
        refine same (h' := s.heap.setMaxEvents a m) ?_ rfl
        unfold Heap.setMaxEvents
        exact setTrace_keeps (by rfl) v
      | read n stacks =>
        obtain ⟨sns, h', he, k, -⟩ := eventsDetail_spec hi.mem a env n stacks ch.grow
        simp only [Heap.call] at hp
        rw [he, Option.some.injEq] at hp
        subst hp
        refine same (h' := h') ?_ rfl
        exact keeps_congr (eventsDetail_args he) k.strPool k.what (fun b => by rw [k.traces]) v
    · cases h; exact same Iff.rfl rfl
  | gcTrace i => cases h; exact same (keeps_congr (by intro _; rfl) (by rfl) (by intro _; rfl) (by intro _; rfl) v) rfl
  | gcEvent i => cases h; exact same (keeps_congr (by intro _; rfl) (by rfl) (by intro _; rfl) (by intro _; rfl) v) rfl
  | gcStr i =>
    cases h
    refine ⟨fun hq => hq.elim, fun hk => .inl ?_⟩
    obtain ⟨z, hz, hv⟩ := hk
    refine ⟨z, ?_, hv⟩
    rcases hz with hz | hz
    · exact .inl (List.mem_of_mem_eraseIdx hz)
    · exact .inr hz

theorem run_keeps {acts : List (Act W A)} : ∀ {s t : St W A} {f : List (Ring.Spec.Family Handle)}, Inv s f →
    s.run acts = some t → ∀ v : A,
    ((∀ act ∈ acts, quiet act) → s.heap.Keeps v → t.heap.Keeps v) ∧
    (t.heap.Keeps v → s.heap.Keeps v ∨ ∃ a env c ch, .call a env c ch ∈ acts ∧ logs v c) := by
  induction acts with
  | nil => intro s t f hi h v; cases h; exact ⟨fun _ => id, .inl⟩
  | cons act acts ih =>
    intro s t f hi h v
    obtain ⟨u, f', hu, hi'⟩ := inv_step hi act
    simp only [St.run, hu, Option.bind_eq_bind, Option.bind_some] at h
    obtain ⟨h1, h2⟩ := ih hi' h v
    obtain ⟨h3, h4⟩ := step_keeps hi hu v
    constructor
    · intro hq hk
      exact h1 (fun a ha => hq a (by simp [ha])) (h3 (hq act (by simp)) hk)
    · intro hk
      rcases h2 hk with h5 | ⟨a, env, c, ch, hm, hl⟩
      · rcases h4 h5 with h6 | ⟨a, env, c, ch, rfl, hl⟩
        · exact .inl h6
        · exact .inr ⟨a, env, c, ch, by simp, hl⟩
      · exact .inr ⟨a, env, c, ch, by simp [hm], hl⟩

/-! ## Live traces -/

theorem stored_logged (hist : Hist W A) : ∀ (a : Abs W A) (s : Stored W A), s ∈ (a.run hist).stored →
    (∃ s₀ ∈ a.stored, s₀.entry = s.entry) ∨
      (s.entry.env, .log s.entry.kind s.entry.format s.entry.args s.entry.callers) ∈ hist := by
  induction hist with
  | nil => intro a s hs; exact .inl ⟨s, hs, rfl⟩
  | cons p hist ih =>
    intro a s hs
    obtain ⟨env, c⟩ := p
    rcases ih _ s hs with ⟨s₁, h1, h2⟩ | h
    · cases c with
      | log kind format args callers =>
        simp only [Abs.step, Abs.log] at h1
        split at h1
        · exact .inl ⟨s₁, h1, h2⟩
        · split at h1
          · exact .inl ⟨s₁, h1, h2⟩
          · rcases List.mem_append.mp h1 with h1 | h1
            · exact .inl ⟨s₁, h1, h2⟩
            · right
              rw [List.mem_singleton.mp h1] at h2
              rw [← h2]
              exact List.mem_cons_self
      | finish =>
        simp only [Abs.step] at h1
        split at h1
        · exact .inl ⟨s₁, h1, h2⟩
        · exact .inl ⟨s₁, h1, h2⟩
      | setMaxEvents m => exact .inl ⟨s₁, h1, h2⟩
      | read n stacks =>
        simp only [Abs.step] at h1
        left
        rcases List.mem_append.mp h1 with h1 | h1
        · exact ⟨s₁, List.mem_of_mem_take h1, h2⟩
        · obtain ⟨s₀, h3, rfl⟩ := List.mem_map.mp h1
          exact ⟨s₀, List.mem_of_mem_drop h3, h2⟩
    · exact .inr (List.mem_cons_of_mem _ h)

/-! ## The theorems -/

/-- **C155** What the memory refers to was logged. -/
theorem C155_logged (acts : List (Act W A)) (s : St W A) (h : (St.init : St W A).run acts = some s) (v : A)
    (hk : s.heap.Keeps v) : ∃ a env c ch, .call a env c ch ∈ acts ∧ logs v c := by
  rcases (run_keeps inv_init h v).2 hk with ⟨z, hz, hv⟩ | h
  · simp [St.init, Heap.init] at hv
  · exact h

/-- **C155** When the pool of texts is empty, what the memory refers to was logged in a trace that has not been freed since
it was made: what was logged in a freed trace only is let go of. -/
theorem C155_lets_go_partial (acts : List (Act W A)) (s : St W A) (h : (St.init : St W A).run acts = some s)
    (hp : s.heap.strPool = []) (v : A) (hk : s.heap.Keeps v) :
    ∃ a gh env c, s.ghost a = some gh ∧ (env, c) ∈ gh.hist ∧ logs v c := by
  obtain ⟨s', f, h', hi⟩ := inv_run (inv_init (W := W) (A := A)) acts
  rw [h, Option.some.injEq] at h'
  subst h'
  obtain ⟨z, hz, hv⟩ := hk
  rcases hz with hz | ⟨a, e, he, hw⟩
  · rw [hp] at hz; cases hz
  cases hg : s.ghost a with
  | none => rw [hi.dead a hg] at he; cases he
  | some gh =>
    have hl := hi.live a gh hg
    unfold Ghost.fresh at hl
    rw [new_conc (W := W), run_conc, Option.some.injEq] at hl
    have hev : absEvent s.heap e ∈ (absTrace s.heap a).events := List.mem_map.mpr ⟨e, he, rfl⟩
    rw [← hl] at hev
    obtain ⟨st, hst, hc⟩ := List.mem_map.mp hev
    have hargs : st.entry.args = (s.heap.strs z).args := by
      have := congrArg (fun x => x.what.args) hc
      simpa [Stored.conc, absEvent, hw] using this
    rcases stored_logged _ _ st hst with ⟨s₀, h0, -⟩ | hm
    · simp [Abs.new] at h0
    · refine ⟨a, gh, _, _, hg, hm, ?_⟩
      change v ∈ st.entry.args
      rw [hargs]
      exact hv

/-- **C155** Nothing that is logged is ever let go of by the library itself: a value that is logged, with `Tracef` as well as
with `LazyTracef`, is referred to after the trace has been finished, dropped, and freed, and whatever else the program does,
until something else is logged or the garbage collector empties the pool. -/
theorem C155_kept_always_violated (before : List (Act W A)) (s : St W A) (hs : (St.init : St W A).run before = some s)
    (a : Nat) (ha : a < s.heap.nextT) (hf : (s.heap.traces a).finished = false)
    (hroom : ((s.heap.traces a).events.length : Int) < (s.heap.traces a).eventsmax)
    (env : Env W) (kind : LogKind) (format : String) (args : List A) (callers : List StdFrame) (ch : Choice)
    (after : List (Act W A)) (hq : ∀ act ∈ after, quiet act) (t : St W A)
    (ht : s.run (.call a env (.log kind format args callers) ch :: after) = some t) :
    ∀ v ∈ args, t.heap.Keeps v := by
  intro v hv
  obtain ⟨s', f, h', hi⟩ := inv_run (inv_init (W := W) (A := A)) before
  rw [hs, Option.some.injEq] at h'
  subst h'
  obtain ⟨u, f', hu, hi'⟩ := inv_step hi (.call a env (.log kind format args callers) ch)
  simp only [St.run, hu, Option.bind_eq_bind, Option.bind_some] at ht
  refine (run_keeps hi' ht v).1 hq ?_
  simp only [St.step, ha, if_true, Heap.call, Option.bind_eq_bind, Option.bind_some, pure, Option.some.injEq] at hu
  rw [← hu]
  exact (log_keeps hi.mem a ch env kind format args callers v).2 hf hroom hv

private instance : Sys Unit Nat := ⟨fun _ f args => f ++ toString args⟩

private def exEnv : Env Unit := { now := { wall := 0, mono := none }, w := () }

private def exBefore : List (Act Unit Nat) :=
  [.newCollector 1, .new 0 exEnv.now "" "" "a" {}, .getOrCreate 0 "a", .add 0]

/-- The trace is finished, the next one of the category takes its place, and it is freed. -/
private def exAfter : List (Act Unit Nat) :=
  [.call 0 exEnv .finish {}, .new 0 exEnv.now "" "" "a" {}, .add 0, .free 0]

/-- The hypotheses of `C155_kept_always_violated` can be met: the value 7 is logged; in the end the trace is in the pool, no
trace has any event, and the pool of texts has a text with the 7.  Then the garbage collector takes the text out of the
pool, as `C155_lets_go_partial` supposes. -/
example : (∀ act ∈ exAfter, quiet act) ∧
    ((St.init : St Unit Nat).run exBefore).map
      (fun s => ((s.heap.traces 0).finished, (s.heap.traces 0).events, (s.heap.traces 0).eventsmax, s.heap.nextT))
      = some (false, [], 1000, 1) ∧
    ((St.init : St Unit Nat).run (exBefore ++ .call 0 exEnv (.log .tracef "x" [7] []) {} :: exAfter)).map
      (fun s => (s.heap.tracePool, (s.heap.traces 0).events, (s.heap.traces 1).events, s.heap.strPool,
        (s.heap.strs 0).args)) = some ([0], [], [], [0], [7]) ∧
    ((St.init : St Unit Nat).run (exBefore ++ .call 0 exEnv (.log .tracef "x" [7] []) {} :: exAfter ++
        [.gcStr 0, .call 1 exEnv (.log .lazyTracef "y" [8] []) {}])).map
      (fun s => (s.heap.strPool, (s.heap.traces 1).events, (s.heap.events 1).what, (s.heap.strs 1).args))
      = some ([], [1], some 1, [8]) := by
  refine ⟨?_, rfl, rfl, rfl⟩
  simp [exAfter, quiet]

end Trc.Heap
