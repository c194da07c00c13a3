import Verif.Broker.Model
import Verif.Props.Filter

/-!
# Properties C49–C53: the broker

The statements speak about the history of a run: who subscribed and returned when, which stream
traces were published, what was done with them and what receivers got.
-/

set_option linter.unusedVariables false
set_option linter.unusedSimpArgs false

namespace Trc.Broker

/-! ## Reading a history -/

/-- The traces published, in order. -/
def published (h : List Label) : List Static :=
  h.filterMap fun | .publish str => some str | _ => none

/-- What was done for the channel, in order. -/
def verdicts (ch : Ch) (h : List Label) : List (Static × Verdict) :=
  h.filterMap fun | .visited c str v => if c = ch then some (str, v) else none | _ => none

/-- The traces put into the channel, in order. -/
def sentTo (ch : Ch) (h : List Label) : List Static :=
  (verdicts ch h).filterMap fun | (str, .sent _) => some str | _ => none

/-- The traces dropped for the channel, in order. -/
def droppedFor (ch : Ch) (h : List Label) : List Static :=
  (verdicts ch h).filterMap fun | (str, .dropped) => some str | _ => none

/-- The traces received from the channel, in order: from the buffer, or handed over directly. -/
def received (ch : Ch) (h : List Label) : List Static :=
  h.filterMap fun
    | .recv _ c x => if c = ch then some x else none
    | .visited c str (.sent (some _)) => if c = ch then some str else none
    | _ => none

/-- The goroutines waiting for a value of the channel, the longest waiting first. -/
def waitingFor (ch : Ch) (h : List Label) : List Tid :=
  h.foldl (fun ws l => match l with
    | .wait r c => if c = ch then ws ++ [r] else ws
    | .abandon r c => if c = ch then ws.erase r else ws
    | .visited c _ (.sent (some r)) => if c = ch then ws.erase r else ws
    | _ => ws) []

/-- How many values are buffered. -/
def buffered (ch : Ch) (h : List Label) : Nat := (sentTo ch h).length - (received ch h).length

/-- The label begins or ends a subscription of the channel. -/
def Label.turns (ch : Ch) : Label → Bool
  | .subscribed _ c _ => c == ch
  | .returned _ c _ => c == ch
  | _ => false

/-- The label is a call or a return of the goroutine's. -/
def Label.by (t : Tid) : Label → Bool
  | .subscribed t' _ _ => t' == t
  | .refused t' _ => t' == t
  | .returned t' _ _ => t' == t
  | .programmerError t' _ => t' == t
  | _ => false

/-- At the end of `h` the channel is subscribed, by `t` with filter `f`, and `seg` happened since. -/
structure Session (ch : Ch) (h : List Label) (t : Tid) (f : Filter) (seg : List Label) : Prop where
  split : ∃ h₁, h = h₁ ++ .subscribed t ch f :: seg
  steady : ∀ l ∈ seg, l.turns ch = false
  blocked : ∀ l ∈ seg, l.by t = false

/-- The channel is not subscribed at the end of `h`: it never was, or its stream has ended. -/
def Closed (ch : Ch) (h : List Label) : Prop :=
  (∀ l ∈ h, l.turns ch = false) ∨
  ∃ h₁ t st seg, h = h₁ ++ .returned t ch st :: seg ∧ ∀ l ∈ seg, l.turns ch = false

/-! ## Elementary facts -/

section
variable (compile : Compile) (cap : Ch → Nat)

theorem verdicts_append (ch : Ch) (a b : List Label) : verdicts ch (a ++ b) = verdicts ch a ++ verdicts ch b :=
  List.filterMap_append ..

theorem published_append (a b : List Label) : published (a ++ b) = published a ++ published b :=
  List.filterMap_append ..

theorem sentTo_append (ch : Ch) (a b : List Label) : sentTo ch (a ++ b) = sentTo ch a ++ sentTo ch b := by
  simp [sentTo, verdicts_append]

theorem received_append (ch : Ch) (a b : List Label) : received ch (a ++ b) = received ch a ++ received ch b :=
  List.filterMap_append ..

theorem waitingFor_snoc (ch : Ch) (h : List Label) (l : Label) :
    waitingFor ch (h ++ [l]) = (match l with
    | .wait r c => if c = ch then waitingFor ch h ++ [r] else waitingFor ch h
    | .abandon r c => if c = ch then (waitingFor ch h).erase r else waitingFor ch h
    | .visited c _ (.sent (some r)) => if c = ch then (waitingFor ch h).erase r else waitingFor ch h
    | _ => waitingFor ch h) := by
  unfold waitingFor; rw [List.foldl_append]; rfl

theorem not_session_closed {ch : Ch} {h : List Label} {t : Tid} {f : Filter} {seg : List Label}
    (hs : Session ch h t f seg) : ¬ Closed ch h := by
  obtain ⟨⟨h₁, e⟩, h2, h3⟩ := hs
  rintro (hc | ⟨h₁', t', st, seg', e', hc⟩)
  · have := hc (.subscribed t ch f) (by rw [e]; simp)
    simp [Label.turns] at this
  · rw [e] at e'
    rcases List.append_eq_append_iff.mp e' with ⟨a, ha, hb⟩ | ⟨a, ha, hb⟩
    · cases a with
      | nil => simp at hb
      | cons x a =>
        simp only [List.cons_append, List.cons.injEq] at hb
        have := h2 (.returned t' ch st) (by rw [hb.2]; simp)
        simp [Label.turns] at this
    · cases a with
      | nil => simp at hb
      | cons x a =>
        simp only [List.cons_append, List.cons.injEq] at hb
        have := hc (.subscribed t ch f) (by rw [hb.2]; simp)
        simp [Label.turns] at this

theorem Session.snoc {ch : Ch} {h : List Label} {t : Tid} {f : Filter} {seg : List Label}
    (hs : Session ch h t f seg) {l : Label} (h1 : l.turns ch = false) (h2 : l.by t = false) :
    Session ch (h ++ [l]) t f (seg ++ [l]) := by
  obtain ⟨⟨h₁, e⟩, a, b⟩ := hs
  refine ⟨⟨h₁, by rw [e]; simp⟩, ?_, ?_⟩
  · intro x hx
    rcases List.mem_append.mp hx with hx | hx
    · exact a x hx
    · rw [List.mem_singleton.mp hx]; exact h1
  · intro x hx
    rcases List.mem_append.mp hx with hx | hx
    · exact b x hx
    · rw [List.mem_singleton.mp hx]; exact h2

theorem Closed.snoc {ch : Ch} {h : List Label} (hc : Closed ch h) {l : Label} (h1 : l.turns ch = false) :
    Closed ch (h ++ [l]) := by
  have key : ∀ seg : List Label, (∀ x ∈ seg, x.turns ch = false) → ∀ x ∈ seg ++ [l], x.turns ch = false := by
    intro seg hs x hx
    rcases List.mem_append.mp hx with hx | hx
    · exact hs x hx
    · rw [List.mem_singleton.mp hx]; exact h1
  rcases hc with hc | ⟨h₁, t, st, seg, e, hc⟩
  · exact .inl (key h hc)
  · exact .inr ⟨h₁, t, st, seg ++ [l], by rw [e]; simp, key seg hc⟩

/-! ## The invariant -/

/-- The trace being published, if the channel has yet to be visited. -/
def pend (s : St) (ch : Ch) : List Static :=
  match s.lock with
  | some (str, todo) => if ch ∈ todo then [str] else []
  | none => []

def Verdict.isSkipped : Verdict → Bool | .skipped => true | _ => false
def Verdict.isSent : Verdict → Bool | .sent _ => true | _ => false
def Verdict.isDropped : Verdict → Bool | .dropped => true | _ => false

/-- A subscription is what its session says. -/
structure SessOK (ch : Ch) (f : Filter) (seg : List Label) (sub : Sub) (pd : List Static) : Prop where
  filter : f.Fresh compile → sub.filter.Fresh compile ∧
    ∀ tr, (sub.filter.allow compile tr).1 = (f.allow compile tr).1
  all : (verdicts ch seg).map (·.1) ++ pd = published seg
  judged : f.Fresh compile → ∀ p ∈ verdicts ch seg, p.2.isSkipped = true ↔ ¬ f.Sat compile p.1
  skips : sub.stats.skips = (verdicts ch seg).countP (·.2.isSkipped)
  sends : sub.stats.sends = (verdicts ch seg).countP (·.2.isSent)
  drops : sub.stats.drops = (verdicts ch seg).countP (·.2.isDropped)

/-- The thread is in `Stream` with the channel. -/
def Thread.holds (ch : Ch) : Thread → Bool
  | .idle => false
  | .streaming c => c == ch
  | .cancelled c => c == ch

structure Inv (h : List Label) (s : St) : Prop where
  closed : ∀ ch, s.subs ch = none → Closed ch h
  open_ : ∀ ch sub, s.subs ch = some sub → ∃ t f seg, Session ch h t f seg ∧
    SessOK compile ch f seg sub (pend s ch) ∧ ∀ t', (s.threads t').holds ch = true ↔ t' = t
  threads : ∀ t ch, (s.threads t).holds ch = true → (s.subs ch).isSome
  todo : ∀ str todo, s.lock = some (str, todo) → todo.Nodup ∧ ∀ ch ∈ todo, (s.subs ch).isSome
  finite : ∃ order, Enumerates order s.subs
  queue : ∀ ch, received ch h ++ (s.chans ch).buf = sentTo ch h
  fits : ∀ ch, (s.chans ch).buf.length ≤ cap ch
  waiting : ∀ ch, (s.chans ch).waiting = waitingFor ch h
  handed : ∀ ch, (s.chans ch).waiting ≠ [] → (s.chans ch).buf = []

theorem inv_init : Inv compile cap [] {} := by
  constructor
  · intro ch _; exact .inl (by simp)
  · intro ch sub h; simp at h
  · intro t ch h; simp [Thread.holds] at h
  · intro str todo h; simp at h
  · exact ⟨[], ⟨List.nodup_nil, by simp⟩⟩
  · intro ch; rfl
  · intro ch; simp
  · intro ch; rfl
  · intro ch h; simp at h

theorem Inv.queue_snoc {h : List Label} {s : St} (hi : Inv compile cap h s) {l : Label} (ch : Ch) (c : Chan)
    (hv : verdicts ch [l] = []) (hr : received ch [l] = []) (e : c.buf = (s.chans ch).buf) :
    received ch (h ++ [l]) ++ c.buf = sentTo ch (h ++ [l]) := by
  rw [received_append, sentTo_append, hr, e]
  simp only [sentTo, hv, List.append_nil, List.filterMap_nil]
  exact hi.queue ch

theorem SessOK.snoc {ch : Ch} {f : Filter} {seg : List Label} {sub : Sub} {pd : List Static}
    (hs : SessOK compile ch f seg sub pd) {l : Label} (hv : verdicts ch [l] = []) (hp : published [l] = []) :
    SessOK compile ch f (seg ++ [l]) sub pd := by
  have e : verdicts ch (seg ++ [l]) = verdicts ch seg := by rw [verdicts_append, hv, List.append_nil]
  refine ⟨hs.filter, ?_, ?_, ?_, ?_, ?_⟩
  · rw [e, published_append, hp, List.append_nil]; exact hs.all
  · rw [e]; exact hs.judged
  · rw [e]; exact hs.skips
  · rw [e]; exact hs.sends
  · rw [e]; exact hs.drops

@[simp] theorem upd_same {α : Type} (m : Nat → α) (k : Nat) (v : α) : upd m k v k = v := by simp [upd]

theorem upd_ne {α : Type} (m : Nat → α) {k k' : Nat} (v : α) (h : k' ≠ k) : upd m k v k' = m k' := by
  simp [upd, h]

/-- A visit, in terms of the specification. -/
theorem visit_cases {f : Filter} {capc : Nat} {sub sub' : Sub} {c c' : Chan} {str : Static} {v : Verdict}
    (h : visit compile capc sub c str = (sub', c', v)) :
    sub'.filter = (sub.filter.allow compile str).2 ∧
    ((v = .skipped ∧ (sub.filter.allow compile str).1 = false ∧ c' = c ∧
        sub'.stats = { sub.stats with skips := sub.stats.skips + 1 }) ∨
     ((sub.filter.allow compile str).1 = true ∧
      ((∃ r rs, v = .sent (some r) ∧ c.waiting = r :: rs ∧ c' = { c with waiting := rs } ∧
          sub'.stats = { sub.stats with sends := sub.stats.sends + 1 }) ∨
       (v = .sent none ∧ c.waiting = [] ∧ c.buf.length < capc ∧ c' = { c with buf := c.buf ++ [str] } ∧
          sub'.stats = { sub.stats with sends := sub.stats.sends + 1 }) ∨
       (v = .dropped ∧ c.waiting = [] ∧ ¬ c.buf.length < capc ∧ c' = c ∧
          sub'.stats = { sub.stats with drops := sub.stats.drops + 1 })))) := by
  unfold visit at h
  cases hok : (sub.filter.allow compile str).1 with
  | false =>
    simp only [hok, Bool.not_false, if_true, Prod.mk.injEq] at h
    obtain ⟨rfl, rfl, rfl⟩ := h
    exact ⟨rfl, .inl ⟨rfl, rfl, rfl, rfl⟩⟩
  | true =>
    simp only [hok, Bool.not_true, Bool.false_eq_true, if_false] at h
    unfold send trySend at h
    cases hw : c.waiting with
    | cons r rs =>
      simp only [hw, Prod.mk.injEq] at h
      obtain ⟨rfl, rfl, rfl⟩ := h
      exact ⟨rfl, .inr ⟨rfl, .inl ⟨r, rs, rfl, rfl, rfl, rfl⟩⟩⟩
    | nil =>
      simp only [hw] at h
      by_cases hl : c.buf.length < capc
      · simp only [hl, if_true, Prod.mk.injEq] at h
        obtain ⟨rfl, rfl, rfl⟩ := h
        exact ⟨rfl, .inr ⟨rfl, .inr (.inl ⟨rfl, rfl, hl, rfl, rfl⟩)⟩⟩
      · simp only [hl, if_false, Prod.mk.injEq] at h
        obtain ⟨rfl, rfl, rfl⟩ := h
        exact ⟨rfl, .inr ⟨rfl, .inr (.inr ⟨rfl, rfl, hl, rfl, rfl⟩)⟩⟩

theorem SessOK.visit {ch : Ch} {f : Filter} {seg : List Label} {sub sub' : Sub} {str : Static}
    (hs : SessOK compile ch f seg sub [str]) {capc : Nat} {c c' : Chan} {v : Verdict}
    (h : Broker.visit compile capc sub c str = (sub', c', v)) :
    SessOK compile ch f (seg ++ [.visited ch str v]) sub' [] := by
  have ev : verdicts ch (seg ++ [.visited ch str v]) = verdicts ch seg ++ [(str, v)] := by
    rw [verdicts_append]; simp [verdicts]
  have ep : published (seg ++ [.visited ch str v]) = published seg := by
    rw [published_append]; simp [published]
  obtain ⟨h1, h2⟩ := visit_cases compile (f := f) h
  refine ⟨?_, ?_, ?_, ?_, ?_, ?_⟩
  · intro hf
    obtain ⟨a, b⟩ := hs.filter hf
    rw [h1]
    obtain ⟨c, _⟩ := C31_allow_repeatable compile sub.filter a str str
    refine ⟨c, fun tr => ?_⟩
    rw [(C31_allow_repeatable compile sub.filter a str tr).2, b tr]
  · rw [ev, ep, List.map_append, List.append_nil]; exact hs.all
  · intro hf p hp
    rw [ev] at hp
    rcases List.mem_append.mp hp with hp | hp
    · exact hs.judged hf p hp
    · rw [List.mem_singleton.mp hp]
      obtain ⟨a, b⟩ := hs.filter hf
      rw [← C31_allow_iff compile f hf, ← b str]
      rcases h2 with ⟨rfl, h2, -⟩ | ⟨h2, ⟨r, rs, rfl, -⟩ | ⟨rfl, -⟩ | ⟨rfl, -⟩⟩ <;> simp [h2, Verdict.isSkipped]
  · rw [ev, List.countP_append, ← hs.skips]
    rcases h2 with ⟨rfl, h2, -, h3⟩ | ⟨h2, ⟨r, rs, rfl, -, -, h3⟩ | ⟨rfl, -, -, -, h3⟩ | ⟨rfl, -, -, -, h3⟩⟩ <;>
      simp [h3, Verdict.isSkipped]
  · rw [ev, List.countP_append, ← hs.sends]
    rcases h2 with ⟨rfl, h2, -, h3⟩ | ⟨h2, ⟨r, rs, rfl, -, -, h3⟩ | ⟨rfl, -, -, -, h3⟩ | ⟨rfl, -, -, -, h3⟩⟩ <;>
      simp [h3, Verdict.isSent]
  · rw [ev, List.countP_append, ← hs.drops]
    rcases h2 with ⟨rfl, h2, -, h3⟩ | ⟨h2, ⟨r, rs, rfl, -, -, h3⟩ | ⟨rfl, -, -, -, h3⟩ | ⟨rfl, -, -, -, h3⟩⟩ <;>
      simp [h3, Verdict.isDropped]

/-- A label without effect on subscriptions, threads of `Stream`, and channels. -/
theorem Inv.quiet {h : List Label} {s s' : St} (hi : Inv compile cap h s) {l : Label}
    (hsubs : s'.subs = s.subs) (hch : s'.chans = s.chans)
    (hth : ∀ t ch, (s'.threads t).holds ch = (s.threads t).holds ch)
    (hlock : ∀ ch, pend s' ch = pend s ch)
    (htodo : ∀ str todo, s'.lock = some (str, todo) → todo.Nodup ∧ ∀ ch ∈ todo, (s'.subs ch).isSome)
    (ht : ∀ ch, l.turns ch = false) (hb : ∀ t ch sub, s.subs ch = some sub → (s.threads t).holds ch = true → l.by t = false)
    (hv : ∀ ch, verdicts ch [l] = []) (hp : published [l] = []) (hr : ∀ ch, received ch [l] = [])
    (hw : ∀ ch, waitingFor ch (h ++ [l]) = waitingFor ch h) : Inv compile cap (h ++ [l]) s' := by
  constructor
  · intro ch h0; rw [hsubs] at h0; exact (hi.closed ch h0).snoc (ht ch)
  · intro ch sub h0
    rw [hsubs] at h0
    obtain ⟨t, f, seg, a, b, c⟩ := hi.open_ ch sub h0
    refine ⟨t, f, seg ++ [l], a.snoc (ht ch) (hb t ch sub h0 ((c t).mpr rfl)), ?_, ?_⟩
    · rw [hlock]; exact b.snoc compile (hv ch) hp
    · intro t'; rw [hth]; exact c t'
  · intro t ch h0; rw [hth] at h0; rw [hsubs]; exact hi.threads t ch h0
  · exact htodo
  · rw [hsubs]; exact hi.finite
  · intro ch; exact hi.queue_snoc compile cap ch _ (hv ch) (hr ch) (by rw [hch])
  · intro ch; rw [hch]; exact hi.fits ch
  · intro ch; rw [hch, hw]; exact hi.waiting ch
  · intro ch; rw [hch]; exact hi.handed ch

/-- Steps of the receivers. -/
theorem Inv.receiver {h : List Label} {s : St} (hi : Inv compile cap h s) {l : Label} {ch : Ch} {c : Chan}
    (ht : ∀ ch, l.turns ch = false) (hb : ∀ t, l.by t = false) (hv : ∀ ch, verdicts ch [l] = [])
    (hp : published [l] = []) (hr : ∀ ch', ch' ≠ ch → received ch' [l] = [])
    (hw : ∀ ch', ch' ≠ ch → waitingFor ch' (h ++ [l]) = waitingFor ch' h)
    (hq : received ch [l] ++ c.buf = (s.chans ch).buf) (hc : c.waiting = waitingFor ch (h ++ [l]))
    (hh : c.waiting ≠ [] → c.buf = []) :
    Inv compile cap (h ++ [l]) { s with chans := upd s.chans ch c } := by
  constructor
  · intro ch h0; exact (hi.closed ch h0).snoc (ht ch)
  · intro ch sub h0
    obtain ⟨t, f, seg, a, b, c⟩ := hi.open_ ch sub h0
    exact ⟨t, f, seg ++ [l], a.snoc (ht ch) (hb t), b.snoc compile (hv ch) hp, c⟩
  · exact hi.threads
  · exact hi.todo
  · exact hi.finite
  · intro ch'
    by_cases e : ch' = ch
    · subst e
      simp only [upd_same]
      rw [received_append, sentTo_append, List.append_assoc, hq]
      simp only [sentTo, hv, List.append_nil, List.filterMap_nil]
      exact hi.queue ch'
    · simp only [upd_ne _ _ e]
      exact hi.queue_snoc compile cap ch' _ (hv ch') (hr ch' e) rfl
  · intro ch'
    by_cases e : ch' = ch
    · subst e
      simp only [upd_same]
      have := hi.fits ch'
      rw [← hq, List.length_append] at this
      omega
    · simp only [upd_ne _ _ e]; exact hi.fits ch'
  · intro ch'
    by_cases e : ch' = ch
    · subst e; simp only [upd_same]; exact hc
    · simp only [upd_ne _ _ e]; rw [hw ch' e]; exact hi.waiting ch'
  · intro ch'
    by_cases e : ch' = ch
    · subst e; simp only [upd_same]; exact hh
    · simp only [upd_ne _ _ e]; exact hi.handed ch'

theorem Enumerates.insert {order : List Ch} {subs : Subs} (h : Enumerates order subs) {ch : Ch} {sub : Sub}
    (h0 : subs ch = none) : Enumerates (ch :: order) (upd subs ch (some sub)) := by
  refine ⟨?_, ?_⟩
  · rw [List.nodup_cons]
    refine ⟨?_, h.nodup⟩
    rw [h.keys, h0]; simp
  · intro c
    by_cases e : c = ch
    · subst e; simp
    · simp [upd_ne _ _ e, e, h.keys]

theorem Enumerates.delete {order : List Ch} {subs : Subs} (h : Enumerates order subs) (ch : Ch) :
    Enumerates (order.filter (· != ch)) (upd subs ch none) := by
  refine ⟨List.Pairwise.filter _ h.nodup, ?_⟩
  intro c
  by_cases e : c = ch
  · subst e; simp
  · simp [upd_ne _ _ e, e, h.keys]

theorem Enumerates.replace {order : List Ch} {subs : Subs} (h : Enumerates order subs) {ch : Ch} {sub sub' : Sub}
    (h0 : subs ch = some sub) : Enumerates order (upd subs ch (some sub')) := by
  refine ⟨h.nodup, ?_⟩
  intro c
  by_cases e : c = ch
  · subst e; simp [h.keys, h0]
  · simp [upd_ne _ _ e, h.keys]

theorem holds_upd (th : Tid → Thread) (t t' : Tid) (x : Thread) (ch : Ch) :
    ((upd th t x) t').holds ch = if t' = t then x.holds ch else (th t').holds ch := by
  unfold upd; split <;> rfl

theorem Inv.subscribe {h : List Label} {s : St} (hi : Inv compile cap h s) {t : Tid} {ch : Ch} {f : Filter}
    (hl : s.lock = none) (ht : s.threads t = .idle) (h0 : s.subs ch = none) :
    Inv compile cap (h ++ [.subscribed t ch f])
      { s with subs := upd s.subs ch (some { filter := f }), threads := upd s.threads t (.streaming ch) } := by
  have hp : ∀ c, pend s c = [] := by intro c; simp [pend, hl]
  constructor
  · intro c hc
    by_cases e : c = ch
    · subst e; simp at hc
    · simp only [upd_ne _ _ e] at hc
      exact (hi.closed c hc).snoc (by simp [Label.turns, Ne.symm e])
  · intro c sub hc
    by_cases e : c = ch
    · subst e
      simp only [upd_same, Option.some.injEq] at hc
      subst hc
      refine ⟨t, f, [], ⟨⟨h, rfl⟩, by simp, by simp⟩, ?_, ?_⟩
      · have : pend { s with subs := upd s.subs c (some { filter := f }), threads := upd s.threads t (.streaming c) } c = [] := by
          simp [pend, hl]
        rw [this]
        exact ⟨fun hf => ⟨hf, fun _ => rfl⟩, rfl, by simp [verdicts], rfl, rfl, rfl⟩
      · intro t'
        rw [holds_upd]
        split
        · rename_i e; simp [e, Thread.holds]
        · rename_i e
          simp only [e, iff_false]
          intro hh
          have := hi.threads t' c hh
          rw [h0] at this; simp at this
    · simp only [upd_ne _ _ e] at hc
      obtain ⟨t₀, f₀, seg, a, b, d⟩ := hi.open_ c sub hc
      have hne : t ≠ t₀ := by
        intro e; have := (d t).mpr e; rw [ht] at this; simp [Thread.holds] at this
      refine ⟨t₀, f₀, _, a.snoc (by simp [Label.turns, Ne.symm e]) (by simp [Label.by, hne]), ?_, ?_⟩
      · exact b.snoc compile (by simp [verdicts]) (by simp [published])
      · intro t'
        rw [holds_upd, ← d t']
        split
        · rename_i e'; subst e'; rw [ht]; simp [Thread.holds, Ne.symm e]
        · rfl
  · intro t' c hh
    rw [holds_upd] at hh
    by_cases e : c = ch
    · subst e; simp
    · simp only [upd_ne _ _ e]
      split at hh
      · simp [Thread.holds, Ne.symm e] at hh
      · exact hi.threads t' c hh
  · intro str todo h1; rw [hl] at h1; cases h1
  · obtain ⟨order, ho⟩ := hi.finite; exact ⟨_, ho.insert h0⟩
  · intro c; exact hi.queue_snoc compile cap c _ (by simp [verdicts]) (by simp [received]) rfl
  · exact hi.fits
  · intro c; rw [waitingFor_snoc]; exact hi.waiting c
  · exact hi.handed

theorem Inv.finish {h : List Label} {s : St} (hi : Inv compile cap h s) {t : Tid} {ch : Ch} {sub : Sub}
    (hl : s.lock = none) (ht : s.threads t = .cancelled ch) (h0 : s.subs ch = some sub) (st : StreamStats) :
    Inv compile cap (h ++ [.returned t ch st])
      { s with subs := upd s.subs ch none, threads := upd s.threads t .idle } := by
  constructor
  · intro c hc
    by_cases e : c = ch
    · subst e; exact .inr ⟨h, t, st, [], by simp, by simp⟩
    · simp only [upd_ne _ _ e] at hc
      exact (hi.closed c hc).snoc (by simp [Label.turns, Ne.symm e])
  · intro c sub' hc
    by_cases e : c = ch
    · subst e; simp at hc
    · simp only [upd_ne _ _ e] at hc
      obtain ⟨t₀, f₀, seg, a, b, d⟩ := hi.open_ c sub' hc
      have hne : t ≠ t₀ := by
        intro e'; have := (d t).mpr e'; rw [ht] at this; simp [Thread.holds, Ne.symm e] at this
      refine ⟨t₀, f₀, _, a.snoc (by simp [Label.turns, Ne.symm e]) (by simp [Label.by, hne]), ?_, ?_⟩
      · exact b.snoc compile (by simp [verdicts]) (by simp [published])
      · intro t'
        rw [holds_upd, ← d t']
        split
        · rename_i e'; subst e'; rw [ht]; simp [Thread.holds, Ne.symm e]
        · rfl
  · intro t' c hh
    rw [holds_upd] at hh
    split at hh
    · simp [Thread.holds] at hh
    · rename_i e'
      by_cases e : c = ch
      · subst e
        obtain ⟨t₀, f₀, seg, a, b, d⟩ := hi.open_ c sub h0
        have h1 := (d t').mp hh
        have h2 := (d t).mp (by rw [ht]; simp [Thread.holds])
        exact absurd (h1.trans h2.symm) e'
      · simp only [upd_ne _ _ e]; exact hi.threads t' c hh
  · intro str todo h1; rw [hl] at h1; cases h1
  · obtain ⟨order, ho⟩ := hi.finite; exact ⟨_, ho.delete ch⟩
  · intro c; exact hi.queue_snoc compile cap c _ (by simp [verdicts]) (by simp [received]) rfl
  · exact hi.fits
  · intro c; rw [waitingFor_snoc]; exact hi.waiting c
  · exact hi.handed

theorem Inv.publish {h : List Label} {s : St} (hi : Inv compile cap h s) {str : Static} {order : List Ch}
    (hl : s.lock = none) (ho : Enumerates order s.subs) :
    Inv compile cap (h ++ [.publish str]) { s with lock := some (str, order) } := by
  constructor
  · intro c hc; exact (hi.closed c hc).snoc rfl
  · intro c sub hc
    obtain ⟨t, f, seg, a, b, d⟩ := hi.open_ c sub hc
    refine ⟨t, f, _, a.snoc rfl rfl, ?_, d⟩
    have hp : pend s c = [] := by simp [pend, hl]
    have hm : c ∈ order := by rw [ho.keys]; exact Option.isSome_iff_exists.mpr ⟨sub, hc⟩
    have hp' : pend { s with lock := some (str, order) } c = [str] := by simp [pend, hm]
    rw [hp']
    rw [hp] at b
    have ev : verdicts c (seg ++ [.publish str]) = verdicts c seg := by
      rw [verdicts_append]; simp [verdicts]
    refine ⟨b.filter, ?_, ?_, ?_, ?_, ?_⟩
    · have := b.all
      rw [List.append_nil] at this
      rw [ev, published_append, this]; rfl
    · rw [ev]; exact b.judged
    · rw [ev]; exact b.skips
    · rw [ev]; exact b.sends
    · rw [ev]; exact b.drops
  · exact hi.threads
  · intro str' todo h1
    simp only [Option.some.injEq, Prod.mk.injEq] at h1
    obtain ⟨rfl, rfl⟩ := h1
    exact ⟨ho.nodup, fun c hc => (ho.keys c).mp hc⟩
  · exact hi.finite
  · intro c; exact hi.queue_snoc compile cap c _ (by simp [verdicts]) (by simp [received]) rfl
  · exact hi.fits
  · intro c; rw [waitingFor_snoc]; exact hi.waiting c
  · exact hi.handed

theorem Inv.visit {h : List Label} {s : St} (hi : Inv compile cap h s) {str : Static} {ch : Ch} {rest : List Ch}
    {sub sub' : Sub} {c' : Chan} {v : Verdict}
    (hl : s.lock = some (str, ch :: rest)) (h0 : s.subs ch = some sub)
    (hv : Broker.visit compile (cap ch) sub (s.chans ch) str = (sub', c', v)) :
    Inv compile cap (h ++ [.visited ch str v])
      { s with subs := upd s.subs ch (some sub'), chans := upd s.chans ch c', lock := some (str, rest) } := by
  obtain ⟨hnd, htodo⟩ := hi.todo _ _ hl
  rw [List.nodup_cons] at hnd
  have hvo : ∀ c, c ≠ ch → verdicts c [.visited ch str v] = [] := by
    intro c e; simp [verdicts, Ne.symm e]
  have hro : ∀ c, c ≠ ch → received c [.visited ch str v] = [] := by
    intro c e
    unfold received
    rcases v with _ | _ | _ <;> simp
    rename_i to; cases to <;> simp [Ne.symm e]
  have hwo : ∀ c, c ≠ ch → waitingFor c (h ++ [.visited ch str v]) = waitingFor c h := by
    intro c e
    rw [waitingFor_snoc]
    rcases v with _ | (_ | _) | _ <;> simp [Ne.symm e]
  obtain ⟨_, hcases⟩ := visit_cases compile (f := sub.filter) hv
  have hq := hi.queue ch
  constructor
  · intro c hc
    by_cases e : c = ch
    · subst e; simp at hc
    · simp only [upd_ne _ _ e] at hc; exact (hi.closed c hc).snoc rfl
  · intro c sub₁ hc
    by_cases e : c = ch
    · subst e
      simp only [upd_same, Option.some.injEq] at hc
      subst hc
      obtain ⟨t, f, seg, a, b, d⟩ := hi.open_ c sub h0
      refine ⟨t, f, _, a.snoc rfl rfl, ?_, d⟩
      have hp : pend s c = [str] := by simp [pend, hl]
      rw [hp] at b
      have hp' : pend { s with subs := upd s.subs c (some sub'), chans := upd s.chans c c', lock := some (str, rest) } c = [] := by
        simp [pend, hnd.1]
      rw [hp']
      exact b.visit compile hv
    · simp only [upd_ne _ _ e] at hc
      obtain ⟨t, f, seg, a, b, d⟩ := hi.open_ c sub₁ hc
      refine ⟨t, f, _, a.snoc rfl rfl, ?_, d⟩
      have hp' : pend { s with subs := upd s.subs ch (some sub'), chans := upd s.chans ch c', lock := some (str, rest) } c = pend s c := by
        simp [pend, hl, e]
      rw [hp']
      exact b.snoc compile (hvo c e) rfl
  · intro t c hh
    by_cases e : c = ch
    · subst e; simp
    · simp only [upd_ne _ _ e]; exact hi.threads t c hh
  · intro str' todo h1
    simp only [Option.some.injEq, Prod.mk.injEq] at h1
    obtain ⟨rfl, rfl⟩ := h1
    refine ⟨hnd.2, fun c hc => ?_⟩
    by_cases e : c = ch
    · subst e; simp
    · simp only [upd_ne _ _ e]; exact htodo c (List.mem_cons_of_mem _ hc)
  · obtain ⟨order, ho⟩ := hi.finite; exact ⟨_, ho.replace h0⟩
  · intro c
    by_cases e : c = ch
    · subst e
      simp only [upd_same]
      rw [received_append, sentTo_append, ← hq]
      rcases hcases with ⟨rfl, -, rfl, -⟩ | ⟨-, ⟨r, rs, rfl, hw, rfl, -⟩ | ⟨rfl, hw, hlt, rfl, -⟩ | ⟨rfl, hw, hlt, rfl, -⟩⟩
      · simp [received, sentTo, verdicts]
      · have := hi.handed c (by rw [hw]; simp)
        simp [received, sentTo, verdicts, this]
      · simp [received, sentTo, verdicts]
      · simp [received, sentTo, verdicts]
    · simp only [upd_ne _ _ e]
      exact hi.queue_snoc compile cap c _ (hvo c e) (hro c e) rfl
  · intro c
    by_cases e : c = ch
    · subst e
      simp only [upd_same]
      have hf := hi.fits c
      rcases hcases with ⟨rfl, -, rfl, -⟩ | ⟨-, ⟨r, rs, rfl, hw, rfl, -⟩ | ⟨rfl, hw, hlt, rfl, -⟩ | ⟨rfl, hw, hlt, rfl, -⟩⟩
      · exact hf
      · exact hf
      · simp only [List.length_append, List.length_singleton]; omega
      · exact hf
    · simp only [upd_ne _ _ e]; exact hi.fits c
  · intro c
    by_cases e : c = ch
    · subst e
      simp only [upd_same]
      rw [waitingFor_snoc, ← hi.waiting c]
      rcases hcases with ⟨rfl, -, rfl, -⟩ | ⟨-, ⟨r, rs, rfl, hw, rfl, -⟩ | ⟨rfl, hw, hlt, rfl, -⟩ | ⟨rfl, hw, hlt, rfl, -⟩⟩
      · simp
      · simp [hw]
      · simp
      · simp
    · simp only [upd_ne _ _ e]; rw [hwo c e]; exact hi.waiting c
  · intro c
    by_cases e : c = ch
    · subst e
      simp only [upd_same]
      have hh := hi.handed c
      rcases hcases with ⟨rfl, -, rfl, -⟩ | ⟨-, ⟨r, rs, rfl, hw, rfl, -⟩ | ⟨rfl, hw, hlt, rfl, -⟩ | ⟨rfl, hw, hlt, rfl, -⟩⟩
      · exact hh
      · intro _; exact hh (by rw [hw]; simp)
      · intro h; exact absurd hw h
      · exact hh
    · simp only [upd_ne _ _ e]; exact hi.handed c

theorem inv_step {h : List Label} {s s' : St} {l : Label} (hi : Inv compile cap h s)
    (hs : Step compile cap s l s') : Inv compile cap (h ++ [l]) s' := by
  cases hs with
  | subscribe h1 h2 h3 =>
    rename_i t ch f subs'
    unfold register at h3
    split at h3
    · cases h3
    · rename_i h0
      simp only [Option.some.injEq] at h3
      subst h3
      exact hi.subscribe compile cap h1 h2 h0
  | refuse h1 h2 h3 =>
    rename_i t ch f
    refine hi.quiet compile cap rfl rfl (fun _ _ => rfl) (fun _ => rfl) hi.todo (fun _ => rfl) ?_
      (fun _ => rfl) rfl (fun _ => rfl) (fun _ => by rw [waitingFor_snoc])
    intro t' c sub _ hh
    simp only [Label.by]
    by_cases e : t = t'
    · subst e; rw [h2] at hh; simp [Thread.holds] at hh
    · simp [e]
  | cancel h1 =>
    rename_i t ch
    refine hi.quiet compile cap rfl rfl ?_ (fun _ => rfl) hi.todo (fun _ => rfl) (fun _ _ _ _ _ => rfl)
      (fun _ => rfl) rfl (fun _ => rfl) (fun _ => by rw [waitingFor_snoc])
    intro t' c
    rw [holds_upd]
    split
    · rename_i e; subst e; rw [h1]; rfl
    · rfl
  | finish h1 h2 h3 =>
    rename_i t ch subs' st
    unfold unregister at h3
    simp only [Prod.mk.injEq] at h3
    obtain ⟨rfl, h3⟩ := h3
    cases h0 : s.subs ch with
    | none => rw [h0] at h3; cases h3
    | some sub => exact hi.finish compile cap h1 h2 h0 st
  | lost h1 h2 h3 =>
    rename_i t ch subs'
    unfold unregister at h3
    simp only [Prod.mk.injEq] at h3
    have := hi.threads t ch (by rw [h2]; simp [Thread.holds])
    cases h0 : s.subs ch with
    | none => rw [h0] at this; simp at this
    | some sub => rw [h0] at h3; simp at h3
  | stats h1 =>
    exact hi.quiet compile cap rfl rfl (fun _ _ => rfl) (fun _ => rfl) hi.todo (fun _ => rfl) (fun _ _ _ _ _ => rfl)
      (fun _ => rfl) rfl (fun _ => rfl) (fun _ => by rw [waitingFor_snoc])
  | publish h1 h2 => exact hi.publish compile cap h1 h2
  | visit h1 h2 h3 => exact hi.visit compile cap h1 h2 h3
  | release h1 =>
    refine hi.quiet compile cap rfl rfl (fun _ _ => rfl) ?_ ?_ (fun _ => rfl) (fun _ _ _ _ _ => rfl)
      (fun _ => rfl) rfl (fun _ => rfl) (fun _ => by rw [waitingFor_snoc])
    · intro c; simp [pend, h1]
    · intro str todo h; cases h
  | recv h1 =>
    rename_i r ch x xs
    refine hi.receiver compile cap (fun _ => rfl) (fun _ => rfl) (fun _ => rfl) rfl ?_ ?_ ?_ ?_ ?_
    · intro c e; simp [received, Ne.symm e]
    · intro c e; rw [waitingFor_snoc]
    · rw [h1]; simp [received]
    · rw [waitingFor_snoc]; exact hi.waiting ch
    · intro h; have := hi.handed ch h; rw [h1] at this; cases this
  | wait h1 =>
    rename_i r ch
    refine hi.receiver compile cap (fun _ => rfl) (fun _ => rfl) (fun _ => rfl) rfl ?_ ?_ ?_ ?_ ?_
    · intro c e; rfl
    · intro c e; rw [waitingFor_snoc]; simp [Ne.symm e]
    · rfl
    · rw [waitingFor_snoc]; simp [hi.waiting ch]
    · intro h; exact h1
  | abandon h1 =>
    rename_i r ch
    refine hi.receiver compile cap (fun _ => rfl) (fun _ => rfl) (fun _ => rfl) rfl ?_ ?_ ?_ ?_ ?_
    · intro c e; rfl
    · intro c e; rw [waitingFor_snoc]; simp [Ne.symm e]
    · rfl
    · rw [waitingFor_snoc]; simp [hi.waiting ch]
    · intro h; exact hi.handed ch (List.ne_nil_of_mem h1)

theorem run_inv {h : List Label} {s : St} (hr : Run compile cap h s) : Inv compile cap h s := by
  induction hr with
  | init => exact inv_init compile cap
  | step hr hs ih => exact inv_step compile cap ih hs

/-! ## Histories and their prefixes -/

theorem run_split {h : List Label} {s : St} (hr : Run compile cap h s) :
    ∀ h₁ l h₂, h = h₁ ++ l :: h₂ → ∃ s₁ s₂, Run compile cap h₁ s₁ ∧ Step compile cap s₁ l s₂ ∧
      Run compile cap (h₁ ++ [l]) s₂ := by
  induction hr with
  | init => intro h₁ l h₂ e; simp at e
  | @step h s l' s' hr hs ih =>
    intro h₁ l h₂ e
    rcases List.eq_nil_or_concat h₂ with rfl | ⟨h₃, l₃, rfl⟩
    · obtain ⟨rfl, e1⟩ := List.append_inj' e rfl
      obtain rfl := (List.cons.inj e1).1
      exact ⟨s, s', hr, hs, .step hr hs⟩
    · rw [List.concat_eq_append, ← List.cons_append, ← List.append_assoc] at e
      obtain ⟨rfl, e⟩ := List.append_inj' e rfl
      exact ih _ _ _ rfl

theorem Session.unique {ch : Ch} {h : List Label} {t t' : Tid} {f f' : Filter} {seg seg' : List Label}
    (a : Session ch h t f seg) (b : Session ch h t' f' seg') : t = t' ∧ f = f' ∧ seg = seg' := by
  obtain ⟨⟨h₁, e⟩, a2, a3⟩ := a
  obtain ⟨⟨h₁', e'⟩, b2, b3⟩ := b
  rw [e] at e'
  rcases List.append_eq_append_iff.mp e' with ⟨x, ha, hb⟩ | ⟨x, ha, hb⟩
  · cases x with
    | nil =>
      simp only [List.nil_append, List.cons.injEq, Label.subscribed.injEq, true_and] at hb
      exact ⟨hb.1.1, hb.1.2, hb.2⟩
    | cons y x =>
      simp only [List.cons_append, List.cons.injEq] at hb
      have := a2 (.subscribed t' ch f') (by rw [hb.2]; simp)
      simp [Label.turns] at this
  · cases x with
    | nil =>
      simp only [List.nil_append, List.cons.injEq, Label.subscribed.injEq, true_and] at hb
      exact ⟨hb.1.1.symm, hb.1.2.symm, hb.2.symm⟩
    | cons y x =>
      simp only [List.cons_append, List.cons.injEq] at hb
      have := b2 (.subscribed t ch f) (by rw [hb.2]; simp)
      simp [Label.turns] at this

theorem Inv.open_of_session {h : List Label} {s : St} (hi : Inv compile cap h s) {ch : Ch} {t : Tid} {f : Filter}
    {seg : List Label} (hs : Session ch h t f seg) : ∃ sub, s.subs ch = some sub ∧
      SessOK compile ch f seg sub (pend s ch) ∧ ∀ t', (s.threads t').holds ch = true ↔ t' = t := by
  cases h0 : s.subs ch with
  | none => exact absurd (hi.closed ch h0) (not_session_closed hs)
  | some sub =>
    obtain ⟨t', f', seg', a, b, c⟩ := hi.open_ ch sub h0
    obtain ⟨rfl, rfl, rfl⟩ := a.unique hs
    exact ⟨sub, rfl, b, c⟩

theorem countP_verdicts (vs : List (Static × Verdict)) :
    vs.countP (·.2.isSkipped) + vs.countP (·.2.isSent) + vs.countP (·.2.isDropped) = vs.length := by
  induction vs with
  | nil => rfl
  | cons p vs ih =>
    obtain ⟨x, v⟩ := p
    simp only [List.countP_cons, List.length_cons]
    rcases v with _ | to | _
    · rw [show Verdict.isSkipped .skipped = true from rfl, show Verdict.isSent .skipped = false from rfl,
        show Verdict.isDropped .skipped = false from rfl]; simp only [if_true, Bool.false_eq_true, if_false]; omega
    · rw [show Verdict.isSkipped (.sent to) = false from rfl, show Verdict.isSent (.sent to) = true from rfl,
        show Verdict.isDropped (.sent to) = false from rfl]; simp only [if_true, Bool.false_eq_true, if_false]; omega
    · rw [show Verdict.isSkipped .dropped = false from rfl, show Verdict.isSent .dropped = false from rfl,
        show Verdict.isDropped .dropped = true from rfl]; simp only [if_true, Bool.false_eq_true, if_false]; omega

theorem countP_sent (ch : Ch) (h : List Label) :
    (verdicts ch h).countP (·.2.isSent) = (sentTo ch h).length := by
  unfold sentTo
  generalize verdicts ch h = vs
  induction vs with
  | nil => rfl
  | cons p vs ih =>
    obtain ⟨x, v⟩ := p
    rw [List.countP_cons, List.filterMap_cons, ih]
    rcases v with _ | _ | _ <;> simp [Verdict.isSent]

theorem countP_dropped (ch : Ch) (h : List Label) :
    (verdicts ch h).countP (·.2.isDropped) = (droppedFor ch h).length := by
  unfold droppedFor
  generalize verdicts ch h = vs
  induction vs with
  | nil => rfl
  | cons p vs ih =>
    obtain ⟨x, v⟩ := p
    rw [List.countP_cons, List.filterMap_cons, ih]
    rcases v with _ | _ | _ <;> simp [Verdict.isDropped]

/-! ## C49 -/

open Classical in
/-- The statistics of a subscription during which `seg` happened. -/
structure Accounts (ch : Ch) (f : Filter) (seg : List Label) (st : StreamStats) : Prop where
  total : st.skips + st.sends + st.drops = (published seg).length
  skips : f.Fresh compile → st.skips = (published seg).countP (fun tr => decide (¬ f.Sat compile tr))
  sends : st.sends = (sentTo ch seg).length
  drops : st.drops = (droppedFor ch seg).length

theorem SessOK.accounts {ch : Ch} {f : Filter} {seg : List Label} {sub : Sub} (hs : SessOK compile ch f seg sub []) :
    Accounts compile ch f seg sub.stats := by
  have hall := hs.all
  rw [List.append_nil] at hall
  refine ⟨?_, ?_, ?_, ?_⟩
  · rw [hs.skips, hs.sends, hs.drops, countP_verdicts, ← hall, List.length_map]
  · intro hf
    rw [hs.skips, ← hall, List.countP_map]
    apply List.countP_congr
    intro p hp
    have := hs.judged hf p hp
    simpa using this
  · rw [hs.sends, countP_sent]
  · rw [hs.drops, countP_dropped]

/-- **C49**: when a stream ends, its statistics account exactly for the publishes between its
subscription and its end. -/
theorem C49_returned {h : List Label} {s : St} (hr : Run compile cap h s) {h₁ h₂ : List Label} {t : Tid} {ch : Ch}
    {st : StreamStats} (e : h = h₁ ++ .returned t ch st :: h₂) :
    ∃ f seg, Session ch h₁ t f seg ∧ Accounts compile ch f seg st := by
  obtain ⟨s₁, s₂, r1, hs, -⟩ := run_split compile cap hr _ _ _ e
  have hi := run_inv compile cap r1
  cases hs with
  | finish a b c =>
    unfold unregister at c
    simp only [Prod.mk.injEq] at c
    cases h0 : s₁.subs ch with
    | none => rw [h0] at c; simp at c
    | some sub =>
      rw [h0] at c
      simp only [Option.map_some, Option.some.injEq] at c
      obtain ⟨t', f, seg, x, y, z⟩ := hi.open_ ch sub h0
      have := (z t).mp (by rw [b]; simp [Thread.holds])
      subst this
      have hp : pend s₁ ch = [] := by simp [pend, a]
      rw [hp] at y
      rw [← c.2]
      exact ⟨f, seg, x, y.accounts compile⟩

/-- **C49**: so do the statistics reported while the stream is running, … -/
theorem C49_stream_stats {h : List Label} {s : St} (hr : Run compile cap h s) {h₁ h₂ : List Label} {ch : Ch}
    {st : StreamStats} (e : h = h₁ ++ .stats ch (some st) :: h₂) :
    ∃ t f seg, Session ch h₁ t f seg ∧ Accounts compile ch f seg st := by
  obtain ⟨s₁, s₂, r1, hs, -⟩ := run_split compile cap hr _ _ _ e
  have hi := run_inv compile cap r1
  obtain ⟨o, ho⟩ : ∃ o, o = some st := ⟨_, rfl⟩
  rw [← ho] at hs
  cases hs with
  | stats a =>
    unfold streamStats at ho
    cases h0 : s₁.subs ch with
    | none => rw [h0] at ho; cases ho
    | some sub =>
      obtain ⟨t', f, seg, x, y, z⟩ := hi.open_ ch sub h0
      have hp : pend s₁ ch = [] := by simp [pend, a]
      rw [hp] at y
      rw [h0] at ho
      cases ho
      exact ⟨t', f, seg, x, y.accounts compile⟩

/-- … and "not subscribed" is reported exactly for the other channels. -/
theorem C49_not_subscribed {h : List Label} {s : St} (hr : Run compile cap h s) {h₁ h₂ : List Label} {ch : Ch}
    {st : Option StreamStats} (e : h = h₁ ++ .stats ch st :: h₂) : st = none ↔ Closed ch h₁ := by
  constructor
  · rintro rfl
    obtain ⟨s₁, s₂, r1, hs, -⟩ := run_split compile cap hr _ _ _ e
    obtain ⟨o, ho⟩ : ∃ o : Option StreamStats, o = none := ⟨_, rfl⟩
    rw [← ho] at hs
    cases hs with
    | stats a =>
      unfold streamStats at ho
      cases h0 : s₁.subs ch with
      | none => exact (run_inv compile cap r1).closed ch h0
      | some sub => rw [h0] at ho; cases ho
  · intro hc
    cases st with
    | none => rfl
    | some st =>
      obtain ⟨t, f, seg, x, -⟩ := C49_stream_stats compile cap hr e
      exact absurd hc (not_session_closed x)

/-! ## C50 -/

open Classical in
/-- **C50**: of the traces published during a subscription, in order, those the filter allows are
put into the channel or counted as dropped, and nothing else is.  The last one may still be
waiting for its turn while the publish is going on. -/
theorem C50_sent {h : List Label} {s : St} (hr : Run compile cap h s) {ch : Ch} {t : Tid} {f : Filter}
    {seg : List Label} (hs : Session ch h t f seg) (hf : f.Fresh compile) :
    ∃ (done last : List Static) (fate : List (Static × Bool)),
      published seg = done ++ last ∧ last.length ≤ 1 ∧ (s.lock = none → last = []) ∧
      fate.map (·.1) = done.filter (fun tr => decide (f.Sat compile tr)) ∧
      sentTo ch seg = (fate.filter (·.2)).map (·.1) ∧
      droppedFor ch seg = (fate.filter (!·.2)).map (·.1) := by
  obtain ⟨sub, h0, ok, -⟩ := (run_inv compile cap hr).open_of_session compile cap hs
  refine ⟨(verdicts ch seg).map (·.1), pend s ch, ?_⟩
  have hj := ok.judged hf
  have key : ∀ vs : List (Static × Verdict), (∀ p ∈ vs, p.2.isSkipped = true ↔ ¬ f.Sat compile p.1) →
      ∃ fate : List (Static × Bool),
        fate.map (·.1) = (vs.map (·.1)).filter (fun tr => decide (f.Sat compile tr)) ∧
        (vs.filterMap fun | (str, .sent _) => some str | _ => none) = (fate.filter (·.2)).map (·.1) ∧
        (vs.filterMap fun | (str, .dropped) => some str | _ => none) = (fate.filter (!·.2)).map (·.1) := by
    intro vs
    induction vs with
    | nil => intro _; exact ⟨[], rfl, rfl, rfl⟩
    | cons p vs ih =>
      intro hv
      obtain ⟨fate, a, b, c⟩ := ih fun q hq => hv q (List.mem_cons_of_mem _ hq)
      have hp := hv p (List.mem_cons_self ..)
      obtain ⟨x, v⟩ := p
      rcases v with _ | _ | _
      · simp only [Verdict.isSkipped, true_iff] at hp
        refine ⟨fate, ?_, ?_, ?_⟩
        · simp [hp, a]
        · rw [List.filterMap_cons]; exact b
        · rw [List.filterMap_cons]; exact c
      · simp only [Verdict.isSkipped, Bool.false_eq_true, false_iff, Classical.not_not] at hp
        refine ⟨(x, true) :: fate, ?_, ?_, ?_⟩
        · simp [hp, a]
        · rw [List.filterMap_cons]; simp [b]
        · rw [List.filterMap_cons]; simp [c]
      · simp only [Verdict.isSkipped, Bool.false_eq_true, false_iff, Classical.not_not] at hp
        refine ⟨(x, false) :: fate, ?_, ?_, ?_⟩
        · simp [hp, a]
        · rw [List.filterMap_cons]; simp [b]
        · rw [List.filterMap_cons]; simp [c]
  obtain ⟨fate, a, b, c⟩ := key _ hj
  refine ⟨fate, ok.all.symm, ?_, ?_, a, b, c⟩
  · unfold pend
    cases s.lock with
    | none => simp
    | some p => obtain ⟨str, todo⟩ := p; simp only; split <;> simp
  · intro hl; simp [pend, hl]

/-- **C50**: what has been received and what is still buffered is what was sent. -/
theorem C50_received {h : List Label} {s : St} (hr : Run compile cap h s) (ch : Ch) :
    received ch h ++ (s.chans ch).buf = sentTo ch h ∧ (s.chans ch).buf.length ≤ cap ch ∧
    (s.chans ch).buf.length = buffered ch h := by
  have hi := run_inv compile cap hr
  refine ⟨hi.queue ch, hi.fits ch, ?_⟩
  unfold buffered
  rw [← hi.queue ch, List.length_append]
  omega

theorem sublist_inv {h : List Label} {s : St} (hr : Run compile cap h s) (ch : Ch) :
    (sentTo ch h).Sublist (published h) ∧
    (∀ str todo, s.lock = some (str, todo) → ch ∈ todo → ∃ pre, published h = pre ++ [str] ∧
      (sentTo ch h).Sublist pre) := by
  induction hr with
  | init => exact ⟨List.Sublist.refl _, fun _ _ h => by simp at h⟩
  | @step h s l s' hr hs ih =>
    have hi := run_inv compile cap hr
    obtain ⟨ih1, ih2⟩ := ih
    rw [sentTo_append, published_append]
    have quiet : sentTo ch [l] = [] → published [l] = [] →
        (sentTo ch h ++ sentTo ch [l]).Sublist (published h ++ published [l]) := by
      intro a b; rw [a, b, List.append_nil, List.append_nil]; exact ih1
    have same : sentTo ch [l] = [] → published [l] = [] → s'.lock = s.lock →
        (sentTo ch h ++ sentTo ch [l]).Sublist (published h ++ published [l]) ∧
        (∀ str todo, s'.lock = some (str, todo) → ch ∈ todo → ∃ pre, published h ++ published [l] = pre ++ [str] ∧
          (sentTo ch h ++ sentTo ch [l]).Sublist pre) := by
      intro a b c
      refine ⟨quiet a b, ?_⟩
      rw [a, b, c, List.append_nil, List.append_nil]; exact ih2
    cases hs with
    | subscribe | refuse | cancel | finish | lost | stats | recv | wait | abandon => exact same rfl rfl rfl
    | release h1 => exact ⟨quiet rfl rfl, fun _ _ h => by cases h⟩
    | publish h1 h2 =>
      rename_i str order
      refine ⟨?_, ?_⟩
      · exact (List.Sublist.refl _).append_right _ |>.trans (by
          simpa [sentTo, verdicts] using ih1.trans (List.sublist_append_left ..))
      · intro str' todo h3 _
        simp only [Option.some.injEq, Prod.mk.injEq] at h3
        obtain ⟨rfl, rfl⟩ := h3
        exact ⟨published h, rfl, by simpa [sentTo, verdicts] using ih1⟩
    | visit h1 h2 h3 =>
      rename_i str c rest sub sub' c' v
      obtain ⟨hnd, -⟩ := hi.todo _ _ h1
      rw [List.nodup_cons] at hnd
      by_cases e : c = ch
      · subst e
        obtain ⟨pre, e1, e2⟩ := ih2 str _ h1 (List.mem_cons_self ..)
        have hp : published [.visited c str v] = [] := rfl
        refine ⟨?_, ?_⟩
        · rw [hp, List.append_nil, e1]
          refine e2.append ?_
          rcases v with _ | _ | _ <;> simp [sentTo, verdicts]
        · intro str' todo h4 h5
          simp only [Option.some.injEq, Prod.mk.injEq] at h4
          obtain ⟨rfl, rfl⟩ := h4
          exact absurd h5 hnd.1
      · have hv : sentTo ch [.visited c str v] = [] := by simp [sentTo, verdicts, e]
        refine ⟨quiet hv rfl, ?_⟩
        intro str' todo h4 h5
        simp only [Option.some.injEq, Prod.mk.injEq] at h4
        obtain ⟨rfl, rfl⟩ := h4
        rw [hv]
        simpa [published] using ih2 str _ h1 (List.mem_cons_of_mem _ h5)

/-- **C50**: over the whole history, what a channel was sent is a part of what was published, in the
order of publishing, each publish at most once. -/
theorem C50_sublist {h : List Label} {s : St} (hr : Run compile cap h s) (ch : Ch) :
    (sentTo ch h).Sublist (published h) := (sublist_inv compile cap hr ch).1

/-! ## C51 -/

/-- **C51**: an allowed trace is dropped exactly if the buffer of that channel is full and nobody is
waiting; a waiting receiver, the longest waiting one, gets it directly. -/
theorem C51_verdict {h : List Label} {s : St} (hr : Run compile cap h s) {h₁ h₂ : List Label} {ch : Ch}
    {str : Static} {v : Verdict} (e : h = h₁ ++ .visited ch str v :: h₂) :
    ∃ t f seg, Session ch h₁ t f seg ∧
      (f.Fresh compile → (v = .skipped ↔ ¬ f.Sat compile str)) ∧
      (v ≠ .skipped →
        (v = .dropped ↔ buffered ch h₁ = cap ch ∧ waitingFor ch h₁ = []) ∧
        (∀ r, v = .sent (some r) ↔ (waitingFor ch h₁).head? = some r)) := by
  obtain ⟨s₁, s₂, r1, hs, -⟩ := run_split compile cap hr _ _ _ e
  have hi := run_inv compile cap r1
  obtain ⟨-, hfit, hbuf⟩ := C50_received compile cap r1 ch
  have hw := hi.waiting ch
  have hh := hi.handed ch
  cases hs with
  | visit a b c =>
    rename_i rest sub sub' c'
    obtain ⟨t, f, seg, x, y, z⟩ := hi.open_ ch sub b
    refine ⟨t, f, seg, x, ?_, ?_⟩
    · intro hf
      obtain ⟨-, y2⟩ := y.filter hf
      rw [← C31_allow_iff compile f hf, ← y2 str]
      obtain ⟨-, cs⟩ := visit_cases compile (f := f) c
      rcases cs with ⟨rfl, h2, -⟩ | ⟨h2, ⟨r, rs, rfl, -⟩ | ⟨rfl, -⟩ | ⟨rfl, -⟩⟩ <;> simp [h2]
    · intro hv
      obtain ⟨-, cs⟩ := visit_cases compile (f := f) c
      rw [← hw, ← hbuf]
      rcases cs with ⟨rfl, h2, -⟩ | ⟨h2, ⟨r, rs, rfl, h3, -⟩ | ⟨rfl, h3, h4, -⟩ | ⟨rfl, h3, h4, -⟩⟩
      · exact absurd rfl hv
      · simp [h3]
      · simp [h3]; omega
      · simp [h3]; omega

/-- Steps one after the other. -/
inductive Steps : St → List Label → St → Prop
  | nil {s} : Steps s [] s
  | cons {s l s' ls s''} : Step compile cap s l s' → Steps s' ls s'' → Steps s (l :: ls) s''

/-- A step of the goroutine that is publishing. -/
def Label.publishing : Label → Bool
  | .visited .. => true
  | .release => true
  | _ => false

theorem publisher_runs (n : Nat) : ∀ {h : List Label} {s : St}, Inv compile cap h s → ∀ {str todo},
    s.lock = some (str, todo) → todo.length = n →
    ∃ ls s', Steps compile cap s ls s' ∧ ls.length = n + 1 ∧ (∀ l ∈ ls, l.publishing = true) ∧ s'.lock = none := by
  induction n with
  | zero =>
    intro h s hi str todo hl hn
    obtain rfl := List.eq_nil_of_length_eq_zero hn
    exact ⟨[.release], _, .cons (.release hl) .nil, rfl, by simp [Label.publishing], rfl⟩
  | succ n ih =>
    intro h s hi str todo hl hn
    match todo, hn with
    | ch :: rest, hn =>
      obtain ⟨-, ht⟩ := hi.todo _ _ hl
      obtain ⟨sub, h0⟩ := Option.isSome_iff_exists.mp (ht ch (List.mem_cons_self ..))
      obtain ⟨⟨sub', c', v⟩, hv⟩ : ∃ x, visit compile (cap ch) sub (s.chans ch) str = x := ⟨_, rfl⟩
      have st := Step.visit (compile := compile) (cap := cap) hl h0 hv
      obtain ⟨ls, s', a, b, c, d⟩ := ih (inv_step compile cap hi st) rfl (by simpa using hn)
      refine ⟨_, s', .cons st a, by simp [b], ?_, d⟩
      intro l hm
      rcases List.mem_cons.mp hm with rfl | hm
      · rfl
      · exact c l hm

/-- **C51**: a publish that has the lock finishes by its own steps, one per subscriber left and the
unlock, whatever the state of the channels, … -/
theorem C51_publish_completes {h : List Label} {s : St} (hr : Run compile cap h s) {str : Static} {todo : List Ch}
    (hl : s.lock = some (str, todo)) :
    ∃ ls s', Steps compile cap s ls s' ∧ ls.length = todo.length + 1 ∧ (∀ l ∈ ls, l.publishing = true) ∧
      s'.lock = none :=
  publisher_runs compile cap todo.length (run_inv compile cap hr) hl rfl

/-- … no step of another goroutine takes the lock from it, adds work to it or delays it, … -/
theorem C51_not_delayed {s s' : St} {l : Label} {str : Static} {todo : List Ch} (hl : s.lock = some (str, todo))
    (hs : Step compile cap s l s') :
    (l.publishing = false → s'.lock = some (str, todo)) ∧
    (l.publishing = true → (todo = [] ∧ s'.lock = none) ∨
      ∃ ch rest, todo = ch :: rest ∧ s'.lock = some (str, rest)) := by
  cases hs with
  | subscribe h1 | refuse h1 | finish h1 | lost h1 | stats h1 | publish h1 => rw [hl] at h1; cases h1
  | cancel | recv | wait | abandon => exact ⟨fun _ => hl, fun h => by simp [Label.publishing] at h⟩
  | visit h1 h2 h3 =>
    rw [hl] at h1
    simp only [Option.some.injEq, Prod.mk.injEq] at h1
    obtain ⟨rfl, rfl⟩ := h1
    exact ⟨fun h => by simp [Label.publishing] at h, fun _ => .inr ⟨_, _, rfl, rfl⟩⟩
  | release h1 =>
    rw [hl] at h1
    simp only [Option.some.injEq, Prod.mk.injEq] at h1
    obtain ⟨rfl, rfl⟩ := h1
    exact ⟨fun h => by simp [Label.publishing] at h, fun _ => .inl ⟨rfl, rfl⟩⟩

/-- … and with the lock free, a publish can always begin, and visits every subscriber. -/
theorem C51_publish_begins {h : List Label} {s : St} (hr : Run compile cap h s) (hl : s.lock = none) (str : Static) :
    ∃ order s', Step compile cap s (.publish str) s' ∧ s'.lock = some (str, order) ∧
      order.Nodup ∧ ∀ ch, ch ∈ order ↔ ∃ t f seg, Session ch h t f seg := by
  have hi := run_inv compile cap hr
  obtain ⟨order, ho⟩ := hi.finite
  refine ⟨order, _, .publish hl ho, rfl, ho.nodup, fun ch => ?_⟩
  rw [ho.keys]
  constructor
  · intro h0
    obtain ⟨sub, h0⟩ := Option.isSome_iff_exists.mp h0
    obtain ⟨t, f, seg, a, -⟩ := hi.open_ ch sub h0
    exact ⟨t, f, seg, a⟩
  · rintro ⟨t, f, seg, a⟩
    obtain ⟨sub, h0, -⟩ := hi.open_of_session compile cap a
    rw [h0]; rfl

/-! ## C52 -/

theorem register_none {subs : Subs} {ch : Ch} {f : Filter} : register subs ch f = none ↔ (subs ch).isSome := by
  unfold register; cases subs ch <;> simp

/-- **C52**: `Stream` is refused exactly for a channel that is subscribed, and then nothing changes. -/
theorem C52_refused {h : List Label} {s : St} (hr : Run compile cap h s) {h₁ h₂ : List Label} {t : Tid} {ch : Ch}
    (e : h = h₁ ++ .refused t ch :: h₂) : ∃ t' f seg, t' ≠ t ∧ Session ch h₁ t' f seg := by
  obtain ⟨s₁, s₂, r1, hs, -⟩ := run_split compile cap hr _ _ _ e
  have hi := run_inv compile cap r1
  cases hs with
  | refuse a b c =>
    rw [register_none] at c
    obtain ⟨sub, h0⟩ := Option.isSome_iff_exists.mp c
    obtain ⟨t', f, seg, x, y, z⟩ := hi.open_ ch sub h0
    refine ⟨t', f, seg, ?_, x⟩
    rintro rfl
    have := (z t').mpr rfl
    rw [b] at this; simp [Thread.holds] at this

theorem C52_refused_unchanged {s s' : St} {t : Tid} {ch : Ch} (hs : Step compile cap s (.refused t ch) s') : s' = s := by
  cases hs; rfl

/-- **C52**: a goroutine that calls `Stream` when the lock is free is subscribed or refused, by whether the
channel is subscribed at that moment. -/
theorem C52_called {h : List Label} {s : St} (hr : Run compile cap h s) (hl : s.lock = none) {t : Tid}
    (ht : s.threads t = .idle) (ch : Ch) (f : Filter) :
    ((∃ t' f' seg, Session ch h t' f' seg) ∧ Step compile cap s (.refused t ch) s ∧
      ∀ s', ¬ Step compile cap s (.subscribed t ch f) s') ∨
    (Closed ch h ∧ (∃ s', Step compile cap s (.subscribed t ch f) s') ∧ ∀ s', ¬ Step compile cap s (.refused t ch) s') := by
  have hi := run_inv compile cap hr
  cases h0 : s.subs ch with
  | some sub =>
    left
    obtain ⟨t', f', seg, x, -⟩ := hi.open_ ch sub h0
    have hn : register s.subs ch f = none := by rw [register_none, h0]; rfl
    refine ⟨⟨t', f', seg, x⟩, .refuse hl ht hn, ?_⟩
    intro s' hs
    cases hs with
    | subscribe a b c => rw [hn] at c; cases c
  | none =>
    right
    refine ⟨hi.closed ch h0, ?_, ?_⟩
    · have : register s.subs ch f = some (upd s.subs ch (some { filter := f })) := by unfold register; rw [h0]
      exact ⟨_, .subscribe hl ht this⟩
    · intro s' hs
      cases hs with
      | refuse a b c => rw [register_none, h0] at c; cases c

/-- **C52**: a subscription is only granted for a channel without one, … -/
theorem C52_granted {h : List Label} {s : St} (hr : Run compile cap h s) {h₁ h₂ : List Label} {t : Tid} {ch : Ch}
    {f : Filter} (e : h = h₁ ++ .subscribed t ch f :: h₂) : Closed ch h₁ := by
  obtain ⟨s₁, s₂, r1, hs, -⟩ := run_split compile cap hr _ _ _ e
  have hi := run_inv compile cap r1
  cases hs with
  | subscribe a b c =>
    cases h0 : s₁.subs ch with
    | none => exact hi.closed ch h0
    | some sub => unfold register at c; rw [h0] at c; cases c

/-- … and its statistics start at zero, whatever happened to the channel before. -/
theorem C52_fresh_stats {s s' s'' : St} {t : Tid} {ch : Ch} {f : Filter} {st : Option StreamStats}
    (h1 : Step compile cap s (.subscribed t ch f) s') (h2 : Step compile cap s' (.stats ch st) s'') :
    st = some { skips := 0, sends := 0, drops := 0 } := by
  cases h1 with
  | subscribe a b c =>
    cases h2 with
    | stats d =>
      unfold register at c
      split at c
      · cases c
      · simp only [Option.some.injEq] at c
        subst c
        simp [streamStats]

/-! ## C53 -/

/-- **C53**: after `Stream` has returned, nothing is done for its channel until it is subscribed again. -/
theorem C53_nothing_after_return {h : List Label} {s : St} (hr : Run compile cap h s) {h₁ h₂ h₃ : List Label}
    {t : Tid} {ch : Ch} {st : StreamStats} {str : Static} {v : Verdict}
    (e : h = h₁ ++ .returned t ch st :: h₂ ++ .visited ch str v :: h₃) :
    ∃ t' f, Label.subscribed t' ch f ∈ h₂ := by
  obtain ⟨t', f, seg, hs, -⟩ := C51_verdict compile cap hr e
  obtain ⟨⟨h₀, e'⟩, hs2, -⟩ := hs
  rcases List.append_eq_append_iff.mp e' with ⟨a, ha, hb⟩ | ⟨a, ha, hb⟩
  · cases a with
    | nil => simp at hb
    | cons x a =>
      simp only [List.cons_append, List.cons.injEq] at hb
      exact ⟨t', f, by rw [hb.2]; simp⟩
  · cases a with
    | nil => simp at hb
    | cons x a =>
      simp only [List.cons_append, List.cons.injEq] at hb
      have := hs2 (.returned t ch st) (by rw [hb.2]; simp)
      simp [Label.turns] at this

/-- **C53**: `Stream` never fails with the "programmer error". -/
theorem C53_no_programmer_error {h : List Label} {s : St} (hr : Run compile cap h s) (t : Tid) (ch : Ch) :
    Label.programmerError t ch ∉ h := by
  intro hm
  obtain ⟨h₁, h₂, e⟩ := List.append_of_mem hm
  obtain ⟨s₁, s₂, r1, hs, -⟩ := run_split compile cap hr _ _ _ e
  have hi := run_inv compile cap r1
  cases hs with
  | lost a b c =>
    unfold unregister at c
    simp only [Prod.mk.injEq] at c
    have := hi.threads t ch (by rw [b]; simp [Thread.holds])
    cases h0 : s₁.subs ch with
    | none => rw [h0] at this; simp at this
    | some sub => rw [h0] at c; simp at c

/-- **C53**: once cancelled, a stream returns as soon as it gets the lock. -/
theorem C53_returns {h : List Label} {s : St} (hr : Run compile cap h s) {t : Tid} {ch : Ch}
    (ht : s.threads t = .cancelled ch) (hl : s.lock = none) : ∃ st s', Step compile cap s (.returned t ch st) s' := by
  have hi := run_inv compile cap hr
  have := hi.threads t ch (by rw [ht]; simp [Thread.holds])
  obtain ⟨sub, h0⟩ := Option.isSome_iff_exists.mp this
  exact ⟨sub.stats, _, .finish hl ht (by unfold unregister; rw [h0]; rfl)⟩

/-- **C53**: the end of a stream leaves all others subscribed, with their statistics. -/
theorem C53_others_stay {h : List Label} {s s' : St} (hr : Run compile cap h s) {t : Tid} {ch : Ch} {st : StreamStats}
    (hs : Step compile cap s (.returned t ch st) s') {ch' : Ch} (hne : ch' ≠ ch) {t' : Tid} {f : Filter}
    {seg : List Label} (ho : Session ch' h t' f seg) :
    Session ch' (h ++ [.returned t ch st]) t' f (seg ++ [.returned t ch st]) ∧
    ∃ st', Step compile cap s (.stats ch' (some st')) s ∧ Step compile cap s' (.stats ch' (some st')) s' := by
  have hi := run_inv compile cap hr
  obtain ⟨sub, h0, -, hth⟩ := hi.open_of_session compile cap ho
  cases hs with
  | finish a b c =>
    rename_i subs'
    have htt : t ≠ t' := by
      rintro rfl
      have := (hth t).mpr rfl
      rw [b] at this; simp [Thread.holds, Ne.symm hne] at this
    refine ⟨ho.snoc (by simp [Label.turns, Ne.symm hne]) (by simp [Label.by, htt]), sub.stats, ?_, ?_⟩
    · have := Step.stats (compile := compile) (cap := cap) (s := s) (ch := ch') a
      rw [show streamStats s.subs ch' = some sub.stats by simp [streamStats, h0]] at this
      exact this
    · unfold unregister at c
      simp only [Prod.mk.injEq] at c
      obtain ⟨rfl, -⟩ := c
      have := Step.stats (compile := compile) (cap := cap)
        (s := { s with subs := upd s.subs ch none, threads := upd s.threads t .idle }) (ch := ch') a
      rw [show streamStats (upd s.subs ch none) ch' = some sub.stats by
        simp [streamStats, upd_ne _ _ hne, h0]] at this
      exact this

end

/-! ## A run

A goroutine streams channel 7, of capacity 1, and another one is refused the same channel; two
traces are published, the second is dropped; after a receive, a third one is sent; the goroutine
waits and gets the fourth directly; an errored one is skipped; then the stream ends. -/

namespace Witness

def compile : Compile := fun _ => .error "no"
def cap : Ch → Nat := fun _ => 1
def tr (n : String) (errored := false) : Static :=
  { source := "s", id := n, category := "c", started := { wall := 0 }, duration := 1, finished := true, errored, events := [] }
def f : Filter := { isSuccess := true }

def labels : List Label :=
  [.subscribed 1 7 f, .refused 2 7, .publish (tr "a"), .visited 7 (tr "a") (.sent none), .release,
   .publish (tr "b"), .visited 7 (tr "b") .dropped, .release, .recv 3 7 (tr "a"), .wait 3 7,
   .publish (tr "d"), .visited 7 (tr "d") (.sent (some 3)), .release,
   .publish (tr "e" true), .visited 7 (tr "e" true) .skipped, .cancel 1, .release,
   .returned 1 7 { skips := 1, sends := 2, drops := 1 }]

theorem enum7 (sub : Sub) (m : Subs) (h : m 7 = some sub) (h' : ∀ c, c ≠ 7 → m c = none) : Enumerates [7] m := by
  refine ⟨by decide, fun ch => ?_⟩
  by_cases e : ch = 7
  · subst e; simp [h]
  · simp [e, h' ch e]

theorem ran : ∃ s, Run compile cap labels s := by
  have r0 := Run.init (compile := compile) (cap := cap)
  have r1 := Run.step r0 (.subscribe (t := 1) (ch := 7) (f := f) rfl rfl rfl)
  have r2 := Run.step r1 (.refuse (t := 2) (ch := 7) (f := f) rfl rfl rfl)
  have other : ∀ sub : Sub, ∀ c, c ≠ 7 → upd (fun _ => none) 7 (some sub) c = none := by
    intro sub c hc; exact upd_ne _ _ hc
  have r3 := Run.step r2 (.publish (str := tr "a") rfl (enum7 _ _ rfl (by intro c hc; simp [upd, hc])))
  have r4 := Run.step r3 (.visit rfl rfl rfl)
  have r5 := Run.step r4 (.release rfl)
  have r6 := Run.step r5 (.publish (str := tr "b") rfl (enum7 _ _ rfl (by intro c hc; simp [upd, hc])))
  have r7 := Run.step r6 (.visit rfl rfl rfl)
  have r8 := Run.step r7 (.release rfl)
  have r9 := Run.step r8 (.recv (r := 3) (ch := 7) rfl)
  have r10 := Run.step r9 (.wait (r := 3) (ch := 7) rfl)
  have r11 := Run.step r10 (.publish (str := tr "d") rfl (enum7 _ _ rfl (by intro c hc; simp [upd, hc])))
  have r12 := Run.step r11 (.visit rfl rfl rfl)
  have r13 := Run.step r12 (.release rfl)
  have r14 := Run.step r13 (.publish (str := tr "e" true) rfl (enum7 _ _ rfl (by intro c hc; simp [upd, hc])))
  have r15 := Run.step r14 (.visit rfl rfl rfl)
  have r16 := Run.step r15 (.cancel (t := 1) rfl)
  have r17 := Run.step r16 (.release rfl)
  have r18 := Run.step r17 (.finish (t := 1) (ch := 7) rfl rfl rfl)
  exact ⟨_, r18⟩

/-- C49–C53 speak about this run: the filter is one users build, and the stream's result is accounted for. -/
example : f.Fresh compile ∧ ∃ f seg, Session 7 (labels.take 17) 1 f seg ∧
    Accounts compile 7 f seg { skips := 1, sends := 2, drops := 1 } :=
  ⟨fun re h => (by cases h),
   C49_returned compile cap ran.choose_spec (h₁ := labels.take 17) (h₂ := []) rfl⟩

example : received 7 labels = [tr "a", tr "d"] ∧ sentTo 7 labels = [tr "a", tr "d"] ∧
    droppedFor 7 labels = [tr "b"] ∧ published labels = [tr "a", tr "b", tr "d", tr "e" true] := ⟨rfl, rfl, rfl, rfl⟩

end Witness

end Trc.Broker
