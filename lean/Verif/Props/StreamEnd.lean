import Verif.Props.Publish
import Verif.Props.StreamHandler
import Verif.Props.StreamClient
import Verif.Props.Pipeline
import Verif.Props.CmdSearch

/-!
# C98: from the logging program to the output of `trc stream`
-/

set_option linter.unusedVariables false
set_option linter.unusedSimpArgs false

namespace Trc.Web

open Trc.Broker

/-! ## A request subscribes once -/

def Label.subscribes (ch : Ch) : Label → Bool
  | .subscribed _ c _ => c == ch
  | _ => false

section
variable (compile : Compile) (cap : Ch → Nat) (k : HCfg)

theorem foreign_subscribes {l : Label} (h : foreign k l) : Label.subscribes k.c l = false := by
  cases l <;> simp [Label.subscribes]
  exact h.2

/-- The number of times the channel was subscribed. -/
def subscriptions (ch : Ch) (h : List Label) : Nat := h.countP (Label.subscribes ch)

theorem subscriptions_snoc (ch : Ch) (h : List Label) (l : Label) :
    subscriptions ch (h ++ [l]) = subscriptions ch h + if Label.subscribes ch l then 1 else 0 := by
  simp [subscriptions, List.countP_append, List.countP_cons]

def fewSubscriptions (s : HSt) : Prop :=
  subscriptions k.c s.hist ≤ 1 ∧ (s.go = .unborn ∨ s.go = .born → subscriptions k.c s.hist = 0)

theorem few_step {s s' : HSt} (hj : J compile cap k s) (h : HStep compile cap k s s') (hi : fewSubscriptions k s) : fewSubscriptions k s' := by
  obtain ⟨h1, h2⟩ := hi
  cases h with
  | env hf _ =>
    refine ⟨?_, fun hg => ?_⟩
    · simp only [subscriptions_snoc, foreign_subscribes k hf]; simpa using h1
    · simp only [subscriptions_snoc, foreign_subscribes k hf]; simpa using h2 hg
  | spawn hp => exact ⟨h1, fun _ => h2 (.inl (hj.born hp))⟩
  | subscribe hg _ =>
    refine ⟨?_, by simp⟩
    simp only [subscriptions_snoc, h2 (.inr hg), Label.subscribes]; simp
  | refused | streamReturns | streamFails =>
    refine ⟨?_, by simp⟩
    simp only [subscriptions_snoc, Label.subscribes]; simpa using h1
  | cancelled | wait | unblock | tick | tickError | recv =>
    refine ⟨?_, fun hg => ?_⟩
    · simp only [subscriptions_snoc, Label.subscribes]; simpa using h1
    · simp only [subscriptions_snoc, Label.subscribes]; simpa using h2 hg
  | close => exact ⟨h1, by simp⟩
  | _ => exact ⟨h1, h2⟩

theorem few_reach {s : HSt} (hr : HReach compile cap k s) : fewSubscriptions k s := by
  unfold HReach at hr
  generalize hs : ({} : HSt) = s0 at hr
  induction hr with
  | refl => subst hs; exact ⟨by simp [subscriptions], fun _ => rfl⟩
  | snoc hr h ih => subst hs; exact few_step compile cap k (reach_j compile cap k hr) h ih

/-- Nothing is sent to the channel before the handler subscribes. -/
theorem sentTo_session {s : HSt} (hr : HReach compile cap k s) {t : Tid} {f : Filter} {seg : List Label}
    (hs : Session k.c s.hist t f seg) : sentTo k.c s.hist = sentTo k.c seg := by
  obtain ⟨h₁, e⟩ := hs.split
  have hn := (few_reach compile cap k hr).1
  have hv : verdicts k.c h₁ = [] := by
    cases hv : verdicts k.c h₁ with
    | nil => rfl
    | cons p vs =>
      have hm : p ∈ verdicts k.c h₁ := by rw [hv]; simp
      unfold verdicts at hm
      obtain ⟨l, hl, hp⟩ := List.mem_filterMap.mp hm
      cases l <;> simp at hp
      rename_i c x v
      obtain ⟨rfl, rfl⟩ := hp
      obtain ⟨a, b, hab⟩ := List.append_of_mem hl
      obtain ⟨t', f', seg', hs', -⟩ := C51_verdict compile cap (reach_j compile cap k hr).run
        (h₁ := a) (h₂ := b ++ .subscribed t k.c f :: seg) (ch := k.c) (str := x) (v := v) (by rw [e, hab]; simp)
      obtain ⟨h₂, e'⟩ := hs'.split
      rw [e, hab, e'] at hn
      simp only [subscriptions, List.countP_append, List.countP_cons, Label.subscribes, beq_self_eq_true, if_true] at hn
      omega
  rw [e, show h₁ ++ Label.subscribed t k.c f :: seg = h₁ ++ ([Label.subscribed t k.c f] ++ seg) by simp, sentTo_append, sentTo_append]
  simp [sentTo, hv]
  simp [verdicts]

open Classical in
/-- What the client gets of the traces with some property, when none of them was dropped. -/
theorem handler_out {s : HSt} (hr : HReach compile cap k s) {t : Tid} {f : Filter} {seg : List Label}
    (hs : Session k.c s.hist t f seg) (hf : f.Fresh compile) (hl : s.b.lock = none) (hb : (s.b.chans k.c).buf = [])
    (hp : pcVal s.pc = []) (hfail : s.failed = false) (P : Static → Bool) (hP : ∀ x, P x = true → x.id ≠ k.own)
    (hd : ∀ x ∈ droppedFor k.c seg, P x = false) :
    (tracesOut s.out).filter P = ((published seg).filter P).filter fun x => decide (f.Sat compile x) := by
  obtain ⟨done, o1, o2, -, o3⟩ := C69_in_order compile cap k hr
  obtain ⟨d, l, fate, p1, -, p2, p3, p4, p5⟩ := C50_sent compile cap (reach_j compile cap k hr).run hs hf
  rw [hb, List.append_nil, o1, hp, List.append_nil, sentTo_session compile cap k hr hs] at o2
  rw [p2 hl, List.append_nil] at p1
  rw [o3 hfail, o2, p1, List.filter_filter]
  have hown : (sentTo k.c seg).filter (fun a => P a && decide (a.id ≠ k.own)) = (sentTo k.c seg).filter P := by
    refine List.filter_congr fun x _ => ?_
    cases hx : P x with
    | false => rfl
    | true => simp [hP x hx]
  rw [hown, p4, List.filter_filter]
  have : ((d.filter fun x => decide (f.Sat compile x)).filter P) = d.filter (fun a => decide (f.Sat compile a) && P a) := by
    rw [List.filter_filter]; exact List.filter_congr fun x _ => by rw [Bool.and_comm]
  rw [← this, ← p3]
  rw [p5] at hd
  clear p1 p3 p4 p5 o2 this
  induction fate with
  | nil => rfl
  | cons q fate ih =>
    obtain ⟨x, b⟩ := q
    cases b with
    | true =>
      simp only [List.filter_cons, if_true, List.map_cons, Bool.not_true, Bool.false_eq_true, if_false] at hd ⊢
      rw [ih hd]
    | false =>
      simp only [List.filter_cons, if_true, List.map_cons, Bool.not_false, Bool.false_eq_true, if_false, List.mem_cons,
        forall_eq_or_imp] at hd ⊢
      rw [ih hd.2, hd.1]; simp

end

end Trc.Web

namespace Trc.Cmd

open Trc.Web Trc.Broker Trc.Wrap Core Core.Spec

section
variable {W A : Type} [Sys W A] [Arg A] [Humanize]

theorem streamFilter_fresh (compile : Compile) (flags : FilterFlags) (events : Bool) :
    (flags.streamFilter events).Fresh compile := by
  intro re h
  unfold FilterFlags.streamFilter FilterFlags.filter at h
  cases events <;> simp at h

theorem arrived_eq (u : RSt) : arrived u = traces (u.streams.flatMap (·.read)) := by
  unfold arrived traces
  rw [List.filterMap_flatMap]

/-- The traces with an ID among those that a program published, in terms of the messages about a trace. -/
theorem since_messages (a : Nat) (id : String) (w w' : World A) (new : List (Nat × Static)) (ms : List Static)
    (hnew : w'.published = w.published ++ new) (hm : messages a w' = messages a w ++ ms) (hms : ∀ x ∈ ms, x.id = id)
    (hid : ∀ p ∈ new, p.2.id = id → p.1 = a) : (new.map Prod.snd).filter (·.id = id) = ms := by
  unfold messages at hm
  rw [hnew, List.filter_append, List.map_append, List.append_cancel_left_eq] at hm
  rw [← hm, List.filter_map]
  congr 1
  refine List.filter_congr fun p hp => ?_
  simp only [Function.comp]
  by_cases ha : p.1 = a
  · have : p.2 ∈ ms := by
      rw [← hm]; exact List.mem_map_of_mem (List.mem_filter.mpr ⟨hp, by simp [ha]⟩)
    simp [ha, hms _ this]
  · have : p.2.id ≠ id := fun h => ha (hid p hp h)
    simp [ha, this]

/-- What is read from a connection to a handler and handed on: the handler is subscribed and has nothing left to do, no
trace with the ID was dropped for it, and none is the request's own; the client has got all of its output, and what it got
over other connections has no trace with the ID; nothing is left in the client. -/
structure Settled (compile : Compile) (cap : Ch → Nat) (k : HCfg) (id : String) (s : HSt) (seg : List Label)
    (p : PSt) (i : Nat) : Prop where
  session : Session k.c s.hist k.g k.f seg
  lock : s.b.lock = none
  buf : (s.b.chans k.c).buf = []
  idle : pcVal s.pc = []
  encoded : s.failed = false
  own : k.own ≠ id
  kept : ∀ x ∈ droppedFor k.c seg, x.id ≠ id
  signal : p.signal = false
  read : ∃ before after, (p.uris i).streams.flatMap (·.read) = before ++ s.out.map encOut ++ after ∧
    ∀ x, x ∈ traces before ∨ x ∈ traces after → x.id ≠ id
  queue : ofUri i p.queue = []
  waiting : waiting (p.uris i) = []

open Classical in
/-- What is printed of the traces with the ID, in terms of those published. -/
theorem printed_published {compile : Compile} {cap : Ch → Nat} {k : HCfg} {id : String} {s : HSt} {seg : List Label} {p : PSt}
    {i : Nat} (h : Settled compile cap k id s seg p i) (hk : k.f.Fresh compile) (hr : HReach compile cap k s)
    {interval : Int} {n pcap : Nat} (hp : PReach interval n pcap p) (hint : 0 < interval) :
    (ofUri i p.written).filter (·.id = id) =
      (((published seg).filter (·.id = id)).filter fun x => decide (k.f.Sat compile x)).map wireStatic := by
  have h1 := (C94_complete hp hint h.signal i).1
  rw [h.queue, h.waiting, List.append_nil, List.append_nil, arrived_eq] at h1
  obtain ⟨before, after, e, ho⟩ := h.read
  have hnil : ∀ l : List SSE, (∀ x ∈ traces l, x.id ≠ id) → (traces l).filter (·.id = id) = [] := by
    intro l hl
    rw [List.filter_eq_nil_iff]
    intro x hx
    simpa using hl x hx
  have h2 : traces (before ++ s.out.map encOut ++ after) = traces before ++ (tracesOut s.out).map wireStatic ++ traces after := by
    rw [← traces_encOut]
    simp [traces]
  rw [h1, e, h2, List.filter_append, List.filter_append, hnil before fun x hx => ho x (.inl hx), hnil after fun x hx => ho x (.inr hx),
    List.nil_append, List.append_nil, List.filter_map]
  rw [← handler_out compile cap k hr h.session hk h.lock h.buf h.idle h.encoded (fun x => decide (x.id = id))
    (fun x hx => by simp only [decide_eq_true_eq] at hx; rw [hx]; exact fun e => h.own e.symm)
    (fun x hx => by simpa using h.kept x hx)]
  rfl

/-! ## C98 -/

open Classical in
/-- **C98**.  A program makes a trace, with `NewTrace`, logs to it and finishes it, as in `C55_streamed_partial`; `trc stream` runs with
some flags, with or without `--events`, and one of its URIs is that of the program.  The program's broker, which publishes what
the program publishes, and the handler of the request are those of C50 and C69, the client and the command those of C81 and C94.
When everything has settled, what has been printed of the trace is: the finished trace with all of its events, once, if it
is what the flags ask for, and nothing else; with `--events` also, before it and in order, a line for
the start and one for each event, which carries exactly this event, of those that are what the flags ask for. -/
theorem C98_printed (settings : List Setting) (start : Time) (id source category : String) (old : CoreTrace A)
    (w w' : World A) (ex : List (AEnv W × Act A)) (said : List (Said A)) (a : Nat) (trF : Tr A)
    (hc : ∀ s ∈ said, Collected a s.tr) (hcF : Collected a trF)
    (hex : (ex.map Prod.snd).filter (touches a) =
      (.publish (.core a) :: said.flatMap Said.acts ++ trF.finishActs).filter (touches a))
    (hsub : ∀ p ∈ ex, p.1.subscribed = true)
    (hm : ∀ p ∈ ex, notMake a p.2) (hrun : w.run ex = some w')
    (ht : w.traces a = some (fresh settings start id source category old))
    (hlen : (said.length : Int) ≤ (Globals.after settings).traceMaxEvents)
    (new : List (Nat × Static)) (hnew : w'.published = w.published ++ new) (hid : ∀ p ∈ new, p.2.id = id → p.1 = a)
    (compile : Compile) (flags : FilterFlags) (events : Bool) (hactive : flags.isActive = false)
    (hfin : events = true → flags.isFinished = false)
    (cap : Ch → Nat) (k : HCfg) (hk : k.f = flags.streamFilter events) (s : HSt) (hr : HReach compile cap k s)
    (seg : List Label) (hseg : published seg = new.map Prod.snd)
    (interval : Int) (hint : 0 < interval) (n pcap : Nat) (p : PSt) (hp : PReach interval n pcap p) (i : Nat)
    (hset : Settled compile cap k id s seg p i) :
    ∃ first mids last,
      (ofUri i p.written).filter (·.id = id) =
        (((if events then first :: mids else []) ++ [last]).filter fun x => decide (flags.Wants compile x)).map wireStatic ∧
      Newest (W := W) (freshBase settings start id source category) ([] : List (Said A)) first ∧
      mids.length = said.length ∧
      (∀ (j : Nat) st, mids[j]? = some st → Newest (W := W) (freshBase settings start id source category) (said.take (j + 1)) st) ∧
      Complete (W := W) (freshBase settings start id source category) said last := by
  obtain ⟨first, mids, last, h1, h2, h3, h4, h5⟩ := C55_streamed_partial settings start id source category old w w' ex said a trF hc hcF hex
    hsub hm hrun ht hlen
  refine ⟨first, mids, last, ?_, h2, h3, h4, h5⟩
  have hmids : ∀ x ∈ mids, x.id = id ∧ x.finished = false := by
    intro x hx
    obtain ⟨j, hj⟩ := List.mem_iff_getElem?.mp hx
    exact ⟨(h4 j x hj).1, (h4 j x hj).2.2.2.2.1⟩
  rw [printed_published hset (by rw [hk]; exact streamFilter_fresh compile flags events) hr hp hint, hseg,
    since_messages a id w w' new (first :: mids ++ [last]) hnew (by rw [h1]; simp) (by
      intro x hx
      simp only [List.cons_append, List.mem_cons, List.mem_append, List.not_mem_nil, or_false] at hx
      rcases hx with rfl | hx | rfl
      · exact h2.1
      · exact (hmids x hx).1
      · exact h5.1) hid]
  congr 1
  have hsat : ∀ x, k.f.Sat compile x ↔ flags.Wants compile x ∧ (events = true ∨ x.finished = true) := by
    intro x; rw [hk]; exact C84_stream_filter_partial compile flags events hactive hfin x
  cases events with
  | true =>
    simp only [if_true]
    exact List.filter_congr fun x _ => by simp [hsat x]
  | false =>
    simp only [Bool.false_eq_true, if_false, List.nil_append]
    have hnone : (first :: mids).filter (fun x => decide (k.f.Sat compile x)) = [] := by
      rw [List.filter_eq_nil_iff]
      intro x hx
      have : x.finished = false := by
        rcases List.mem_cons.mp hx with rfl | hx
        · exact h2.2.2.2.2.1
        · exact (hmids x hx).2
      simp [hsat x, this]
    rw [List.filter_append, hnone, List.nil_append]
    refine List.filter_congr fun x hx => ?_
    have : x.finished = true := by rw [List.mem_singleton.mp hx]; exact h5.2.2.2.2.1
    simp [hsat x, this]

end

/-! ## A run -/

namespace EndExample

/-- A handler that has dealt with the traces published so far. -/
structure Caught (compile : Compile) (cap : Ch → Nat) (k : HCfg) (xs : List Static) (s : HSt) (seg : List Label) : Prop where
  reach : HReach compile cap k s
  session : Session k.c s.hist k.g k.f seg
  lock : s.b.lock = none
  subs : ∃ sub, s.b.subs = upd (fun _ => none) k.c (some sub)
  chan : s.b.chans k.c = {}
  pc : s.pc = .loop
  encoded : s.failed = false
  seen : published seg = xs
  kept : droppedFor k.c seg = []

/-- It can deal with any trace, published by another goroutine. -/
theorem Caught.next {compile : Compile} {cap : Ch → Nat} {k : HCfg} {xs : List Static} {s : HSt} {seg : List Label}
    (h : Caught compile cap k xs s seg) (hcap : 0 < cap k.c) (x : Static) (hx : x.id ≠ k.own) :
    ∃ s' seg', Caught compile cap k (xs ++ [x]) s' seg' := by
  obtain ⟨sub, hsub⟩ := h.subs
  have h1 := HStep.env (compile := compile) (cap := cap) (k := k) (s := s) (l := .publish x) trivial
    (.publish (order := [k.c]) h.lock ⟨by simp, fun ch => by
      rw [hsub]
      by_cases e : ch = k.c
      · subst e; simp [upd]
      · simp [upd, e]⟩)
  obtain ⟨sub', c', v, hv⟩ : ∃ sub' c' v, visit compile (cap k.c) sub (s.b.chans k.c) x = (sub', c', v) := ⟨_, _, _, rfl⟩
  have h2 := HStep.env (compile := compile) (cap := cap) (k := k) (l := .visited k.c x v) trivial
    (.visit (s := { s.b with lock := some (x, [k.c]) }) (rest := []) (sub := sub) rfl (by simp [hsub, upd]) hv)
    (s := { s with b := { s.b with lock := some (x, [k.c]) }, hist := s.hist ++ [.publish x] })
  have h3 := HStep.env (compile := compile) (cap := cap) (k := k) (l := .release) trivial
    (.release (s := { s.b with subs := upd s.b.subs k.c (some sub'), chans := upd s.b.chans k.c c', lock := some (x, []) }) rfl)
    (s := { s with b := { s.b with subs := upd s.b.subs k.c (some sub'), chans := upd s.b.chans k.c c', lock := some (x, []) }
                   hist := s.hist ++ [.publish x] ++ [.visited k.c x v] })
  have hr : (v = .skipped ∧ c' = {}) ∨ (v = .sent none ∧ c' = { buf := [x] }) := by
    unfold visit at hv
    simp only at hv
    split at hv
    · simp only [Prod.mk.injEq] at hv
      exact .inl ⟨hv.2.2.symm, by rw [← hv.2.1, h.chan]⟩
    · rw [h.chan] at hv
      simp only [send, trySend, List.length_nil, hcap, if_true, Prod.mk.injEq, List.nil_append] at hv
      exact .inr ⟨hv.2.2.symm, hv.2.1.symm⟩
  have hw : wake k (.visited k.c x v) s.pc = s.pc := by
    rcases hr with ⟨rfl, _⟩ | ⟨rfl, _⟩ <;> rfl
  simp only [hw] at h2
  have h4 := HSteps.snoc (.snoc (.snoc h.reach h1) h2) h3
  have hs : Session k.c (s.hist ++ [.publish x] ++ [.visited k.c x v] ++ [.release]) k.g k.f
      (seg ++ [.publish x] ++ [.visited k.c x v] ++ [.release]) :=
    ((h.session.snoc rfl rfl).snoc rfl rfl).snoc rfl rfl
  have hupd : upd s.b.subs k.c (some sub') = upd (fun _ => none) k.c (some sub') := by
    funext ch
    by_cases e : ch = k.c
    · simp [upd, e]
    · simp [upd, e, hsub]
  rcases hr with ⟨rfl, rfl⟩ | ⟨rfl, rfl⟩
  · refine ⟨_, _, h4, hs, rfl, ⟨sub', hupd⟩, by simp [upd], h.pc, h.encoded, ?_, ?_⟩
    · simp only [published_append, h.seen]; simp [published]
    · simp only [droppedFor, verdicts_append, List.filterMap_append]
      rw [show List.filterMap _ (verdicts k.c seg) = [] from h.kept]
      simp [verdicts]
  · have h5 := HSteps.snoc h4 (.recv (x := x) (b' := _) h.pc (.recv (s := _) (xs := []) (by simp [upd])))
    have h6 := HSteps.snoc h5 (.forward (x := x) rfl hx)
    refine ⟨_, _, h6, hs.snoc (l := .recv k.m k.c x) rfl rfl, rfl, ⟨sub', hupd⟩, by simp [upd], rfl, h.encoded, ?_, ?_⟩
    · simp only [published_append, h.seen]; simp [published]
    · simp only [droppedFor, verdicts_append, List.filterMap_append]
      rw [show List.filterMap _ (verdicts k.c seg) = [] from h.kept]
      simp [verdicts]

/-- It can deal with any traces. -/
theorem caught (compile : Compile) (cap : Ch → Nat) (k : HCfg) (hk : 0 < k.interval) (hcap : 0 < cap k.c) (xs : List Static)
    (hx : ∀ x ∈ xs, x.id ≠ k.own) : ∃ s seg, Caught compile cap k xs s seg := by
  suffices h : ∀ ys zs s seg, xs = ys ++ zs → Caught compile cap k ys s seg → ∃ s seg, Caught compile cap k xs s seg by
    have h1 : HStep compile cap k {} { pc := .serving, go := .born } := .spawn rfl
    have h2 : HStep compile cap k { pc := .serving, go := .born } { pc := .loop, go := .born } := .enter rfl hk
    have h3 : HStep compile cap k { pc := .loop, go := .born } _ := .subscribe rfl (.subscribe rfl rfl rfl)
    refine h [] xs _ [] rfl ⟨.snoc (.snoc (.snoc .refl h1) h2) h3, ⟨⟨[], rfl⟩, by simp, by simp⟩, rfl, ⟨_, rfl⟩, rfl, rfl, rfl, rfl, rfl⟩
  intro ys zs
  induction zs generalizing ys with
  | nil => intro s seg e h; rw [e, List.append_nil]; exact ⟨s, seg, h⟩
  | cons z zs ih =>
    intro s seg e h
    obtain ⟨s', seg', h'⟩ := h.next hcap z (hx z (by simp [e]))
    exact ih (ys ++ [z]) s' seg' (by simp [e]) h'

/-- A client with one URI and one connection that has printed all it got. -/
theorem prints (outs : List Out) : ∃ p, PReach 1 1 1 p ∧ p.signal = false ∧ p.wpc = .running ∧ p.queue = [] ∧
    ∃ sent, p.uris 0 = { pc := .select, rep := .born, streams := [{ pc := .reading, read := outs.map encOut, sent := sent }] } := by
  suffices h : ∀ l : List Out, ∃ p, PReach 1 1 1 p ∧ p.signal = false ∧ p.wpc = .running ∧ p.queue = [] ∧
      ∃ sent, p.uris 0 = { pc := .select, rep := .born, streams := [{ pc := .reading, read := l.reverse.map encOut, sent := sent }] } by
    have := h outs.reverse
    rwa [List.reverse_reverse] at this
  intro l
  induction l with
  | nil =>
    have h1 : PReach 1 1 1 { ({} : PSt) with uris := setUri (fun _ => {}) 0 { pc := .top, rep := .born } } :=
      .snoc .refl (.stream (by omega) (.spawn rfl) rfl (by simp))
    have h2 := PSteps.snoc h1 (.stream (n := 1) (interval := 1) (i := 0) (u := { pc := .select, rep := .born, streams := [{}] }) (by omega)
      (by simp only [setUri_same]; exact .begin rfl rfl) (by simp only [setUri_same]; rfl) (by simp))
    exact ⟨_, h2, rfl, rfl, rfl, [], by simp only [setUri_same]; rfl⟩
  | cons o l ih =>
    rw [List.reverse_cons]
    generalize l.reverse = outs at ih ⊢
    obtain ⟨p, h1, h2, h3, h4, sent, h5⟩ := ih
    have hc : RStep 1 (p.uris 0) { pc := .select, rep := .born, streams := [{ pc := dispatch (encOut o), read := outs.map encOut ++ [encOut o], sent := sent }] } := by
      rw [h5]; exact .client (a := []) (b := []) rfl (.readEvent rfl) rfl
    have h6 := PSteps.snoc h1 (.stream (n := 1) (cap := 1) (i := 0) (by omega) hc (by rw [h5]; rfl) (by simp))
    rw [show outs.map encOut ++ [encOut o] = (outs ++ [o]).map encOut by simp] at h6
    have hd : dispatch (encOut o) = .reading ∨ ∃ x, dispatch (encOut o) = .sending x := by
      have := encOut_good o
      cases o with
      | init f n => exact .inl rfl
      | stats st =>
        refine .inl ?_
        simp only [dispatch, encOut]
        rw [show unmarshal (0, 0, 0) decStreamStats (some (encStreamStats st)) = decStreamStats (encStreamStats st) from rfl, streamStats_rt]
        rfl
      | trace x =>
        refine .inr ⟨wireStatic x, ?_⟩
        simp only [dispatch, encOut]
        rw [show unmarshal zeroStatic decStatic (some (encStatic x)) = decStatic (encStatic x) from rfl, static_rt]
        rfl
    rcases hd with hd | ⟨x, hd⟩
    · rw [hd] at h6
      exact ⟨_, h6, h2, h3, h4, sent, by simp only [setUri_same]⟩
    · rw [hd] at h6
      have h7 := PSteps.snoc h6 (.hand (n := 1) (cap := 1) (interval := 1) (i := 0) (by omega)
        (by simp only [setUri_same]; exact .mk (a := []) (b := []) rfl rfl) h4 h3)
      exact ⟨_, h7, h2, h3, h4, sent ++ [x], by simp only [setUri_same]; rfl⟩

open Trc.Wrap.Witness

/-- The program: a trace with two lines, which is finished. -/
def said : List (Said String) := [⟨tr, .tracef, "a %s", ["x"], []⟩, ⟨tr, .lazyErrorf, "b", [], []⟩]

def before : World String :=
  { traces := fun a => if a = 0 then some (fresh [] ⟨1, none⟩ "id" "src" "cat" zeroTrace) else none, cats := Ring.newRBs 10 }

def ex : List (AEnv Unit × Act String) :=
  (.publish (.core 0) :: said.flatMap Said.acts ++ tr.finishActs).map fun act => ({ env 2 with subscribed := true }, act)

def after : Option (World String) := before.run ex

theorem wants_all (compile : Compile) (x : Static) : ({} : FilterFlags).Wants compile x := by
  simp [FilterFlags.Wants]

/-- The messages it publishes; everything settles, with `--events` or without, and by `C98_printed` one line is
printed, or four. -/
example (events : Bool) (compile : Compile) : ∃ (w' : World String) (new : List (Nat × Static)) (k : HCfg) (s : HSt) (seg : List Label) (p : PSt),
    before.run ex = some w' ∧ w'.published = before.published ++ new ∧ new.map (fun p => (p.1, p.2.id, p.2.events.map (·.what), p.2.finished)) =
      [(0, "id", [], false), (0, "id", ["a x"], false), (0, "id", ["b"], false), (0, "id", ["a x", "b"], true)] ∧
    k.f = ({} : FilterFlags).streamFilter events ∧ HReach compile (fun _ => 1) k s ∧ published seg = new.map Prod.snd ∧ PReach 1 1 1 p ∧
    Settled compile (fun _ => 1) k "id" s seg p 0 ∧
    ((ofUri 0 p.written).filter (·.id = "id")).length = if events then 4 else 1 := by
  obtain ⟨w', hw⟩ : ∃ w', before.run ex = some w' := ⟨_, rfl⟩
  have hm : w'.published.map (fun p => (p.1, p.2.id, p.2.events.map (·.what), p.2.finished)) =
      [(0, "id", [], false), (0, "id", ["a x"], false), (0, "id", ["b"], false), (0, "id", ["a x", "b"], true)] := by
    have : (before.run ex).map (fun w => w.published.map (fun p => (p.1, p.2.id, p.2.events.map (·.what), p.2.finished))) =
      some [(0, "id", [], false), (0, "id", ["a x"], false), (0, "id", ["b"], false), (0, "id", ["a x", "b"], true)] := rfl
    rw [hw] at this
    simpa using this
  have hids : ∀ q ∈ w'.published, q.1 = 0 ∧ q.2.id = "id" := by
    intro q hq
    have := List.mem_map_of_mem (f := fun p : Nat × Static => (p.1, p.2.id, p.2.events.map (·.what), p.2.finished)) hq
    rw [hm] at this
    simp only [List.mem_cons, Prod.mk.injEq, List.not_mem_nil, or_false] at this
    rcases this with h | h | h | h <;> exact ⟨h.1, h.2.1⟩
  let k : HCfg := { c := 7, g := 1, m := 2, f := ({} : FilterFlags).streamFilter events, own := "me", interval := 1 }
  obtain ⟨s, seg, hc⟩ := caught compile (fun _ => 1) k (show (0 : Int) < 1 by decide) (show 0 < 1 by decide) (w'.published.map Prod.snd) (by
    intro x hx
    obtain ⟨q, hq, rfl⟩ := List.mem_map.mp hx
    rw [(hids q hq).2]; exact (show "id" ≠ "me" by decide))
  obtain ⟨p, p1, p2, p3, p4, sent, p5⟩ := prints s.out
  have hset : Settled compile (fun _ => 1) k "id" s seg p 0 :=
    { session := hc.session, lock := hc.lock, buf := by rw [hc.chan], idle := by rw [hc.pc]; rfl, encoded := hc.encoded,
      own := show "me" ≠ "id" by decide, kept := by rw [hc.kept]; simp, signal := p2, read := ⟨[], [], by rw [p5]; simp, by simp [traces]⟩,
      queue := by rw [p4]; rfl, waiting := by rw [p5]; rfl }
  refine ⟨w', w'.published, k, s, seg, p, hw, rfl, hm, rfl, hc.reach, hc.seen, p1, hset, ?_⟩
  have hcol : Collected 0 tr := .log _ _ .base
  obtain ⟨first, mids, last, h1, -, h3, -⟩ := C98_printed [] ⟨1, none⟩ "id" "src" "cat" zeroTrace before w' ex said 0 tr
    (by intro s hs; simp only [said, List.mem_cons, List.not_mem_nil, or_false] at hs; rcases hs with rfl | rfl <;> exact hcol) hcol
    (by rw [ex, List.map_map]; rfl)
    (by intro p hp; obtain ⟨_, _, rfl⟩ := List.mem_map.mp hp; rfl)
    (by
      intro p hp
      have : ∀ q ∈ ex.map Prod.snd, notMake 0 q := by
        have e : ex.map Prod.snd = .publish (.core 0) :: said.flatMap Said.acts ++ tr.finishActs := rfl
        rw [e]
        simp [said, Said.acts, Tr.logActs, Tr.finishActs, tr, notMake]
        exact ⟨trivial, trivial⟩
      exact this _ (List.mem_map_of_mem hp)) hw rfl (by decide) w'.published rfl (fun q hq _ => (hids q hq).1)
    compile {} events rfl (fun _ => rfl) (fun _ => 1) k rfl s hc.reach seg hc.seen 1 (by decide) 1 1 p p1 0 hset
  rw [h1, List.length_map, List.filter_eq_self.mpr (by intro x _; simp [wants_all])]
  cases events <;> simp [h3, said]

end EndExample

end Trc.Cmd
