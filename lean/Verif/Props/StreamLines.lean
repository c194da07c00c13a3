import Verif.Web.StreamLines
import Verif.Props.StreamHandler
import Verif.Props.StreamRequest
import Verif.Props.Handling

/-!
# C142: the trace of a request for a stream tells what is streamed and how the stream has ended
-/

namespace Trc.Web

open Trc.Broker Trc.Core Trc.Wrap Trc.Core.Spec Trc.Fmt

/-! ## What is to be told -/

def statsText (st : StreamStats) : String :=
  "skips=" ++ toString st.skips ++ " sends=" ++ toString st.sends ++ " drops=" ++ toString st.drops

def failureText : Failure → String
  | .marshal .init => "JSON marshal init: "
  | .marshal .stats => "JSON marshal stats: "
  | .marshal .trace => "JSON marshal trace: "
  | .encode .init => "encode init: "
  | .encode .stats => "encode stats: "
  | .encode .trace => "encode trace: "
  | .getStats => "get stats: "

/-- What is told while streaming: the statistics, and what has failed. -/
def newsText : StreamStats ⊕ Failure × String → Bool × String
  | .inl st => (false, "stats: " ++ statsText st)
  | .inr (f, e) => (true, failureText f ++ e)

/-- The statistics among what the client is sent. -/
def statsOut (out : List Out) : List StreamStats :=
  out.filterMap fun o => match o with
    | .stats st => some st
    | _ => none

/-- The statistics that are told are those that the client was sent, and the failures are what has failed, both in order. -/
def News (out : List Out) (failures : List (Failure × String)) (news : List (StreamStats ⊕ Failure × String)) : Prop :=
  news.filterMap Sum.getLeft? = statsOut out ∧ news.filterMap Sum.getRight? = failures

/-- What the goroutine that serves the request tells, when it is over: nothing, if the eventsource package does not serve
the request; that it has started, then the news, then why it stops.  If the interval for statistics is not positive, it
panics. -/
inductive ServingTells (interval : Int) (stop : Bool) (out : List Out) (failures : List (Failure × String)) : List (Bool × String) → Prop
  | not : out = [] → failures = [] → ServingTells interval stop out failures []
  | panics : interval ≤ 0 → out = [] → failures = [] → ServingTells interval stop out failures [(false, "event source handler started")]
  | done (news : List (StreamStats ⊕ Failure × String)) (e : String) : News out failures news →
      ServingTells interval stop out failures
        ((false, "event source handler started") :: news.map newsText ++ [(false, "stopping: context done (" ++ e ++ ")")])
  | stopped (news : List (StreamStats ⊕ Failure × String)) : stop = true → News out failures news →
      ServingTells interval stop out failures
        ((false, "event source handler started") :: news.map newsText ++ [(false, "stopping: stop signal (canceling context)")])

/-- What is told first. -/
def openingTexts (undecoded : Option String) (f : Filter) (interval : Duration) (sendbuf : Int) : List (Bool × String) :=
  (undecoded.toList.map fun e => (true, "decode filter error (" ++ e ++ "), using default")) ++
  [(false, "stream filter " ++ f.string showDuration),
   (false, if f.isFinished then "streaming complete traces" else "streaming individual events"),
   (false, "stats interval " ++ showDuration interval),
   (false, "send buffer " ++ toString sendbuf)]

/-- How the values that are logged are rendered. -/
structure StreamValues.Rendered (W : Type) {A : Type} [Render W A] [Arg A] (v : StreamValues A) : Prop where
  values : v.toValues.Rendered W
  filter : ∀ (m : W) f, Render.arg m [] 's' (v.filter f) = (f.string showDuration).toList
  duration : ∀ (m : W) d, Render.arg m [] 's' (v.duration d) = (showDuration d).toList
  stats : ∀ (m : W) st, Render.arg m [] 's' (v.stats st) = (statsText st).toList

/-! ## The lines -/

section
variable {A : Type} [Arg A] (v : StreamValues A)
variable (compile : Compile) (cap : Ch → Nat) (k : HCfg)

/-- The steps are those of the handler. -/
theorem tstep_hstep {s s' : TSt A} (h : TStep v compile cap k s s') : HStep compile cap k s.h s'.h := by
  cases h with
  | env a b => exact .env a b
  | ctxDone => exact .ctxDone
  | stopSignal => exact .stopSignal
  | spawn a => exact .spawn a
  | enter a b => exact .enter a b
  | tickerPanic a b => exact .tickerPanic a b
  | notAcceptable a => exact .notAcceptable a
  | subscribe a b => exact .subscribe a b
  | refused a b => exact .refused a b
  | cancelled a b c => exact .cancelled a b c
  | streamReturns a b => exact .streamReturns a b
  | streamFails a b => exact .streamFails a b
  | close a b => exact .close a
  | wait a b c d e => exact .wait a b c d e
  | unblock a b => exact .unblock a b
  | init a b => exact .init (ok := true) a b
  | initFails a b c => exact .init (ok := false) a b
  | tick a b => exact .tick (ok := true) a b
  | tickFails a b c => exact .tick (ok := false) a b
  | tickError a b => exact .tickError a b
  | recv a b => exact .recv a b
  | skip a b => exact .skip a b
  | forward a b => exact .forward a b
  | forwardFails a b c => exact .forwardFails a b
  | done a b => exact .done a b
  | stopped a b => exact .stopped a b
  | leave a b => exact .leave a b

theorem treach_hreach {first : List (SLine A)} {s : TSt A} (h : TReach v compile cap k first s) : HReach compile cap k s.h := by
  induction h with
  | start => exact .refl
  | step _ a ih => exact .snoc ih (tstep_hstep v compile cap k a)

/-- The line of the goroutine that streams. -/
def endLine (st : StreamStats) (e : String) : SLine A := ⟨.lazyTracef, "%s (error: %v)", [v.stats st, v.err e], true⟩

def newsLine : StreamStats ⊕ Failure × String → SLine A
  | .inl st => ⟨.tracef, "stats: %s", [Arg.str (streamStatsString st)], false⟩
  | .inr (f, e) => failureLine v f e

def startLine : SLine A := ⟨.lazyTracef, "event source handler started", [], false⟩

/-- The lines of the goroutine that serves the request, by where it is. -/
inductive Main (s : HSt) (failures : List (Failure × String)) : List (SLine A) → Prop
  | before : s.pc = .start ∨ s.pc = .serving → s.out = [] → failures = [] → Main s failures []
  | running (news) : s.pc = .loop ∨ s.pc = .blocked ∨ (∃ x, s.pc = .got x) → News s.out failures news →
      Main s failures (startLine :: news.map (newsLine v))
  | not : s.pc = .leaving ∨ s.pc = .returned → s.out = [] → failures = [] → Main s failures []
  | panics : s.pc = .leaving ∨ s.pc = .returned → k.interval ≤ 0 → s.out = [] → failures = [] → Main s failures [startLine]
  | done (news) (e : String) : s.pc = .leaving ∨ s.pc = .returned → News s.out failures news →
      Main s failures (startLine :: news.map (newsLine v) ++ [⟨.lazyTracef, "stopping: context done (%v)", [v.err e], false⟩])
  | stopped (news) : s.pc = .leaving ∨ s.pc = .returned → s.stop = true → News s.out failures news →
      Main s failures (startLine :: news.map (newsLine v) ++ [⟨.lazyTracef, "stopping: stop signal (canceling context)", [], false⟩])

/-- The goroutine that streams has logged nothing so far, or how the stream has ended. -/
def Back (s : TSt A) (main rest : List (SLine A)) : Prop :=
  (s.h.go ≠ .closed ∧ rest = main) ∨
  (s.h.go = .closed ∧ ∃ st e a b, s.result = some (st, e) ∧ main = a ++ b ∧ rest = a ++ endLine v st e :: b)

/-- What `Stream` has returned. -/
def Returned (s : TSt A) : Prop :=
  (s.h.go = .streamed ∨ s.h.go = .closed) → ∃ st e, s.result = some (st, e) ∧ Label.returned k.g k.c st ∈ s.h.hist

structure TInv (first : List (SLine A)) (s : TSt A) : Prop where
  lines : ∃ main rest, s.lines = first ++ rest ∧ Main v k s.h s.failures main ∧ Back v s main rest
  result : Returned k s

omit [Arg A] in
theorem Back.snoc {s s' : TSt A} {main rest : List (SLine A)} (h : Back v s main rest) (l : SLine A) (hg : s'.h.go = s.h.go)
    (hr : s'.result = s.result) : Back v s' (main ++ [l]) (rest ++ [l]) := by
  rcases h with ⟨h1, h2⟩ | ⟨h1, st, e, a, b, h2, h3, h4⟩
  · exact .inl ⟨by rwa [hg], by rw [h2]⟩
  · exact .inr ⟨by rwa [hg], st, e, a, b ++ [l], by rwa [hr], by rw [h3, List.append_assoc], by rw [h4]; simp⟩

omit [Arg A] in
theorem Back.same {s s' : TSt A} {main rest : List (SLine A)} (h : Back v s main rest) (hg : s'.h.go = s.h.go)
    (hr : s'.result = s.result) : Back v s' main rest := by
  unfold Back at h ⊢
  rwa [hg, hr]

omit [Arg A] in
theorem Back.other {s s' : TSt A} {main rest : List (SLine A)} (h : Back v s main rest) (hg : s.h.go ≠ .closed)
    (hg' : s'.h.go ≠ .closed) : Back v s' main rest := by
  rcases h with ⟨_, h2⟩ | ⟨h1, _⟩
  · exact .inl ⟨hg', h2⟩
  · exact absurd h1 hg

omit [Arg A] in
theorem Returned.same {s s' : TSt A} (h : Returned k s) (hg : s'.h.go = s.h.go) (hr : s'.result = s.result)
    (hh : ∀ l ∈ s.h.hist, l ∈ s'.h.hist) : Returned k s' := by
  intro h'
  rw [hg] at h'
  obtain ⟨st, e, h1, h2⟩ := h h'
  exact ⟨st, e, by rw [hr, h1], hh _ h2⟩

theorem wake_blocked {s : HSt} {l : Label} {b' : St} (hj : J compile cap k s) (hf : foreign k l) (hs : Step compile cap s.b l b') :
    wake k l s.pc = s.pc ∨ (s.pc = .blocked ∧ ∃ x, wake k l s.pc = .got x) := by
  obtain ⟨-, -, h3⟩ := foreign_frame compile cap k hj.run (fun t f h => (hj.subs t f h).1) hf hs
  rcases h3 with ⟨x, r, rs, e, e2, e3⟩ | ⟨e, e2, e3⟩
  · have hw := hj.wait
    rw [e2] at hw
    have hb : s.pc = .blocked := by
      apply Classical.byContradiction; intro h; rw [if_neg h] at hw; cases hw
    rw [if_pos hb] at hw
    simp only [List.cons.injEq] at hw
    obtain ⟨rfl, rfl⟩ := hw
    exact .inr ⟨hb, x, by simp [wake, handover, e]⟩
  · left
    have : handover k l = none := by
      unfold handover
      split
      · rename_i ch x r
        rw [if_neg]
        rintro ⟨rfl, rfl⟩
        exact e x _ rfl
      · rfl
    simp [wake, this]

theorem statsOut_append (out : List Out) (o : Out) :
    statsOut (out ++ [o]) = statsOut out ++ (match o with | .stats st => [st] | _ => []) := by
  unfold statsOut
  rw [List.filterMap_append]
  cases o <;> rfl

theorem News.quiet {out : List Out} {failures : List (Failure × String)} {news : List (StreamStats ⊕ Failure × String)}
    (h : News out failures news) (o : Out) (ho : ∀ st, o ≠ .stats st) : News (out ++ [o]) failures news := by
  refine ⟨?_, h.2⟩
  rw [statsOut_append, h.1]
  cases o with
  | stats st => exact absurd rfl (ho st)
  | _ => simp

theorem News.tick {out : List Out} {failures : List (Failure × String)} {news : List (StreamStats ⊕ Failure × String)}
    (h : News out failures news) (st : StreamStats) : News (out ++ [.stats st]) failures (news ++ [.inl st]) := by
  refine ⟨?_, ?_⟩
  · rw [statsOut_append, List.filterMap_append, h.1]; rfl
  · rw [List.filterMap_append, h.2]; simp

theorem News.fail {out : List Out} {failures : List (Failure × String)} {news : List (StreamStats ⊕ Failure × String)}
    (h : News out failures news) (f : Failure) (e : String) : News out (failures ++ [(f, e)]) (news ++ [.inr (f, e)]) := by
  refine ⟨?_, ?_⟩
  · rw [List.filterMap_append, h.1]; simp
  · rw [List.filterMap_append, h.2]; simp

/-- The lines of a goroutine in its loop. -/
theorem Main.news {s : HSt} {failures : List (Failure × String)} {main : List (SLine A)} (h : Main v k s failures main)
    (hp : s.pc = .loop ∨ s.pc = .blocked ∨ ∃ x, s.pc = .got x) :
    ∃ news, News s.out failures news ∧ main = startLine :: news.map (newsLine v) := by
  cases h with
  | running news _ hn => exact ⟨news, hn, rfl⟩
  | before hp' => rcases hp with h | h | ⟨x, h⟩ <;> rw [h] at hp' <;> simp at hp'
  | not hp' => rcases hp with h | h | ⟨x, h⟩ <;> rw [h] at hp' <;> simp at hp'
  | panics hp' => rcases hp with h | h | ⟨x, h⟩ <;> rw [h] at hp' <;> simp at hp'
  | done _ _ hp' => rcases hp with h | h | ⟨x, h⟩ <;> rw [h] at hp' <;> simp at hp'
  | stopped _ hp' => rcases hp with h | h | ⟨x, h⟩ <;> rw [h] at hp' <;> simp at hp'

theorem Main.none {s : HSt} {failures : List (Failure × String)} {main : List (SLine A)} (h : Main v k s failures main)
    (hp : s.pc = .start ∨ s.pc = .serving) : s.out = [] ∧ failures = [] ∧ main = [] := by
  cases h with
  | before _ h1 h2 => exact ⟨h1, h2, rfl⟩
  | running _ hp' => rcases hp with h | h <;> rw [h] at hp' <;> simp at hp'
  | not hp' => rcases hp with h | h <;> rw [h] at hp' <;> simp at hp'
  | panics hp' => rcases hp with h | h <;> rw [h] at hp' <;> simp at hp'
  | done _ _ hp' => rcases hp with h | h <;> rw [h] at hp' <;> simp at hp'
  | stopped _ hp' => rcases hp with h | h <;> rw [h] at hp' <;> simp at hp'

/-- What the goroutine does not read can change. -/
theorem Main.same {s s' : HSt} {failures : List (Failure × String)} {main : List (SLine A)} (h : Main v k s failures main)
    (hp : s'.pc = s.pc) (ho : s'.out = s.out) (hs : s.stop = true → s'.stop = true) : Main v k s' failures main := by
  cases h with
  | before a b c => exact .before (by rwa [hp]) (by rwa [ho]) c
  | running news a b => exact .running news (by rwa [hp]) (by rwa [ho])
  | not a b c => exact .not (by rwa [hp]) (by rwa [ho]) c
  | panics a b c d => exact .panics (by rwa [hp]) b (by rwa [ho]) d
  | done news e a b => exact .done news e (by rwa [hp]) (by rwa [ho])
  | stopped news a b c => exact .stopped news (by rwa [hp]) (hs b) (by rwa [ho])

/-- The goroutine stays in its loop. -/
theorem Main.loops {s s' : HSt} {failures : List (Failure × String)} {main : List (SLine A)} (h : Main v k s failures main)
    (hp : s.pc = .loop ∨ s.pc = .blocked ∨ ∃ x, s.pc = .got x) (hp' : s'.pc = .loop ∨ s'.pc = .blocked ∨ ∃ x, s'.pc = .got x)
    (ho : s'.out = s.out ∨ ∃ o, s'.out = s.out ++ [o] ∧ ∀ st, o ≠ .stats st) : Main v k s' failures main := by
  obtain ⟨news, h1, rfl⟩ := h.news v k hp
  refine .running news hp' ?_
  rcases ho with ho | ⟨o, ho, hst⟩
  · rwa [ho]
  · rw [ho]; exact h1.quiet o hst

theorem Main.tells {s s' : HSt} {failures failures' : List (Failure × String)} {main : List (SLine A)} (h : Main v k s failures main)
    (hp : s.pc = .loop ∨ s.pc = .blocked ∨ ∃ x, s.pc = .got x) (hp' : s'.pc = .loop)
    (x : StreamStats ⊕ Failure × String) (hx : ∀ news, News s.out failures news → News s'.out failures' (news ++ [x])) :
    Main v k s' failures' (main ++ [newsLine v x]) := by
  obtain ⟨news, h1, rfl⟩ := h.news v k hp
  have := Main.running (v := v) (k := k) (s := s') (failures := failures') (news ++ [x]) (.inl hp') (hx _ h1)
  simpa using this

theorem tinv {first : List (SLine A)} {s : TSt A} (h : TReach v compile cap k first s) : TInv v k first s := by
  induction h with
  | start => exact ⟨⟨[], [], by simp, .before (.inl rfl) rfl rfl, .inl ⟨by simp, rfl⟩⟩, by rintro (h | h) <;> cases h⟩
  | @step s s' hr hs ih =>
    have hj := reach_j compile cap k (treach_hreach v compile cap k hr)
    obtain ⟨⟨main, rest, h1, h2, h3⟩, h4⟩ := ih
    cases hs with
    | @env l b' a b =>
      refine ⟨⟨main, rest, h1, ?_, h3.same v rfl rfl⟩, h4.same k rfl rfl (fun l hl => by simp [hl])⟩
      rcases wake_blocked compile cap k hj a b with e | ⟨e1, x, e2⟩
      · exact h2.same v k e rfl id
      · exact h2.loops v k (.inr (.inl e1)) (.inr (.inr ⟨x, e2⟩)) (.inl rfl)
    | ctxDone => exact ⟨⟨main, rest, h1, h2.same v k rfl rfl id, h3.same v rfl rfl⟩, h4.same k rfl rfl (fun l hl => hl)⟩
    | stopSignal => exact ⟨⟨main, rest, h1, h2.same v k rfl rfl (fun _ => rfl), h3.same v rfl rfl⟩, h4.same k rfl rfl (fun l hl => hl)⟩
    | spawn a =>
      have hg := hj.born a
      obtain ⟨n1, n2, rfl⟩ := h2.none v k (.inl a)
      exact ⟨⟨[], rest, h1, .before (.inr rfl) n1 n2, h3.other v (by rw [hg]; simp) (by simp)⟩, by rintro (h | h) <;> cases h⟩
    | enter a b =>
      obtain ⟨n1, n2, rfl⟩ := h2.none v k (.inr a)
      refine ⟨⟨[] ++ [startLine], rest ++ [startLine], ?_, ?_, h3.snoc v _ rfl rfl⟩, h4.same k rfl rfl (fun l hl => hl)⟩
      · simp [TSt.say, h1, startLine]
      · exact .running [] (.inl rfl) ⟨by simp [TSt.say, n1, statsOut], by simp [TSt.say, n2]⟩
    | tickerPanic a b =>
      obtain ⟨n1, n2, rfl⟩ := h2.none v k (.inr a)
      refine ⟨⟨[] ++ [startLine], rest ++ [startLine], ?_, ?_, h3.snoc v _ rfl rfl⟩, h4.same k rfl rfl (fun l hl => hl)⟩
      · simp [TSt.say, h1, startLine]
      · exact .panics (.inl rfl) b n1 n2
    | notAcceptable a =>
      obtain ⟨n1, n2, rfl⟩ := h2.none v k (.inr a)
      exact ⟨⟨[], rest, h1, .not (.inl rfl) n1 n2, h3.same v rfl rfl⟩, h4.same k rfl rfl (fun l hl => hl)⟩
    | subscribe a b =>
      exact ⟨⟨main, rest, h1, h2.same v k rfl rfl id, h3.other v (by rw [a]; simp) (by simp)⟩, by rintro (h | h) <;> cases h⟩
    | refused a b =>
      exfalso
      obtain ⟨-, h0⟩ := hj.away (by rw [a]; rfl)
      cases b with
      | refuse x y z =>
        unfold register at z
        rw [Option.isSome_eq_false_iff, Option.isNone_iff_eq_none] at h0
        rw [h0] at z
        simp at z
    | cancelled a b c =>
      exact ⟨⟨main, rest, h1, h2.same v k rfl rfl id, h3.same v rfl rfl⟩, h4.same k rfl rfl (fun l hl => by simp [hl])⟩
    | @streamReturns b' st e a b =>
      exact ⟨⟨main, rest, h1, h2.same v k rfl rfl id, h3.other v (by rw [a]; simp) (by simp)⟩, fun _ => ⟨st, e, rfl, by simp⟩⟩
    | streamFails a b =>
      exfalso
      exact C53_no_programmer_error compile cap (Run.step hj.run b) k.g k.c (by simp)
    | @close st e a b =>
      obtain ⟨h5, rfl⟩ : s.h.go ≠ .closed ∧ rest = main := by
        rcases h3 with h | ⟨h, _⟩
        · exact h
        · rw [a] at h; cases h
      refine ⟨⟨rest, rest ++ [endLine v st e], by simp [h1, endLine], h2.same v k rfl rfl id, .inr ⟨rfl, st, e, rest, [], b, by simp, rfl⟩⟩, ?_⟩
      intro _
      exact h4 (.inl a)
    | wait a b c d e =>
      exact ⟨⟨main, rest, h1, h2.loops v k (.inl a) (.inr (.inl rfl)) (.inl rfl), h3.same v rfl rfl⟩, h4.same k rfl rfl (fun l hl => by simp [hl])⟩
    | unblock a b =>
      exact ⟨⟨main, rest, h1, h2.loops v k (.inr (.inl a)) (.inl rfl) (.inl rfl), h3.same v rfl rfl⟩, h4.same k rfl rfl (fun l hl => by simp [hl])⟩
    | init a b =>
      exact ⟨⟨main, rest, h1, h2.loops v k (.inl a) (.inl a) (.inr ⟨_, rfl, by simp⟩), h3.same v rfl rfl⟩, h4.same k rfl rfl (fun l hl => hl)⟩
    | @initFails f e a b c =>
      refine ⟨⟨main ++ [newsLine v (.inr (f, e))], rest ++ [newsLine v (.inr (f, e))], ?_, ?_, h3.snoc v _ rfl rfl⟩,
        h4.same k rfl rfl (fun l hl => hl)⟩
      · simp [TSt.fail, h1, newsLine]
      · exact h2.tells v k (.inl a) (by exact a) _ (fun news hn => hn.fail f e)
    | @tick b' st a b =>
      refine ⟨⟨main ++ [newsLine v (.inl st)], rest ++ [newsLine v (.inl st)], ?_, ?_, h3.snoc v _ rfl rfl⟩,
        h4.same k rfl rfl (fun l hl => by simp [TSt.say, hl])⟩
      · simp [TSt.say, h1, newsLine]
      · exact h2.tells v k (.inl a) (by exact a) _ (fun news hn => by exact hn.tick st)
    | @tickFails b' st f e a b c =>
      refine ⟨⟨main ++ [newsLine v (.inr (f, e))], rest ++ [newsLine v (.inr (f, e))], ?_, ?_, h3.snoc v _ rfl rfl⟩,
        h4.same k rfl rfl (fun l hl => by simp [TSt.fail, hl])⟩
      · simp [TSt.fail, h1, newsLine]
      · exact h2.tells v k (.inl a) (by exact a) _ (fun news hn => hn.fail f e)
    | @tickError b' a b =>
      refine ⟨⟨main ++ [newsLine v (.inr (.getStats, "not subscribed"))], rest ++ [newsLine v (.inr (.getStats, "not subscribed"))], ?_, ?_, h3.snoc v _ rfl rfl⟩,
        h4.same k rfl rfl (fun l hl => by simp [TSt.fail, hl])⟩
      · simp [TSt.fail, h1, newsLine]
      · exact h2.tells v k (.inl a) (by exact a) _ (fun news hn => hn.fail _ _)
    | @recv b' x a b =>
      exact ⟨⟨main, rest, h1, h2.loops v k (.inl a) (.inr (.inr ⟨x, rfl⟩)) (.inl rfl), h3.same v rfl rfl⟩, h4.same k rfl rfl (fun l hl => by simp [hl])⟩
    | @skip x a b =>
      exact ⟨⟨main, rest, h1, h2.loops v k (.inr (.inr ⟨x, a⟩)) (.inl rfl) (.inl rfl), h3.same v rfl rfl⟩, h4.same k rfl rfl (fun l hl => hl)⟩
    | @forward x a b =>
      exact ⟨⟨main, rest, h1, h2.loops v k (.inr (.inr ⟨x, a⟩)) (.inl rfl) (.inr ⟨_, rfl, by simp⟩), h3.same v rfl rfl⟩, h4.same k rfl rfl (fun l hl => hl)⟩
    | @forwardFails x f e a b c =>
      refine ⟨⟨main ++ [newsLine v (.inr (f, e))], rest ++ [newsLine v (.inr (f, e))], ?_, ?_, h3.snoc v _ rfl rfl⟩,
        h4.same k rfl rfl (fun l hl => hl)⟩
      · simp [TSt.fail, h1, newsLine]
      · exact h2.tells v k (.inr (.inr ⟨x, a⟩)) rfl _ (fun news hn => hn.fail f e)
    | @done e a b =>
      obtain ⟨news, hn, rfl⟩ := h2.news v k (.inl a)
      refine ⟨⟨_, rest ++ [⟨.lazyTracef, "stopping: context done (%v)", [v.err e], false⟩], ?_, .done news e (.inl rfl) hn, by exact h3.snoc v _ rfl rfl⟩,
        h4.same k rfl rfl (fun l hl => hl)⟩
      simp [TSt.say, h1]
    | stopped a b =>
      obtain ⟨news, hn, rfl⟩ := h2.news v k (.inl a)
      refine ⟨⟨_, rest ++ [⟨.lazyTracef, "stopping: stop signal (canceling context)", [], false⟩], ?_, .stopped news (.inl rfl) b hn, by exact h3.snoc v _ rfl rfl⟩,
        h4.same k rfl rfl (fun l hl => hl)⟩
      simp [TSt.say, h1]
    | leave a b =>
      refine ⟨⟨main, rest, h1, ?_, h3.same v rfl rfl⟩, h4.same k rfl rfl (fun l hl => hl)⟩
      cases h2 with
      | before hp' => rw [a] at hp'; simp at hp'
      | running _ hp' => rw [a] at hp'; simp at hp'
      | not _ x y => exact .not (.inr rfl) x y
      | panics _ x y z => exact .panics (.inr rfl) x y z
      | done news e _ x => exact .done news e (.inr rfl) x
      | stopped news _ x y => exact .stopped news (.inr rfl) x y

end

/-! ## The texts -/

section
variable {W A : Type} [Render W A] [Arg A] {v : StreamValues A}

/-- What a line reads. -/
def Reads (W : Type) [Render W A] (l : SLine A) (x : Bool × String) : Prop :=
  isErr l.kind = x.1 ∧ ∀ m : W, sprintf m l.format l.args = x.2

theorem reads_tells {tr : Tr A} (hu : tr.unprefixed) (stack : SLine A → List StdFrame) {lines : List (SLine A)} {texts : List (Bool × String)}
    (h : List.Forall₂ (Reads W) lines texts) : GivesTexts W tr (lines.flatMap (SLine.acts tr stack)) texts := by
  induction h with
  | nil => exact tells_nil tr
  | @cons l x lines texts h _ ih =>
    have := tells_log (W := W) (.base : Under tr tr []) hu none_fits l.kind l.format l.args (stack l) x.2 (fun m => by
      rw [h.2 m]; simp [prefixTexts])
    rw [h.1] at this
    exact this.append ih

omit [Arg A] in
theorem reads_plain (kind : LogKind) (s : String) (back : Bool) (hs : '%' ∉ s.toList) :
    Reads W (⟨kind, s, [], back⟩ : SLine A) (isErr kind, s) := ⟨rfl, fun m => sprintf_plain m s hs⟩

theorem reads_v (hv : v.Rendered W) (kind : LogKind) (p q e : String) (back : Bool) (hp : '%' ∉ p.toList) (hq : '%' ∉ q.toList) :
    Reads W (⟨kind, p ++ ("%v" ++ q), [v.err e], back⟩ : SLine A) (isErr kind, p ++ (e ++ q)) :=
  ⟨rfl, fun m => text_between m p "%v" q _ _ hp (by decide) (text_v m _ _ (hv.values.err m e)) hq⟩

theorem reads_news (hv : v.Rendered W) (x : StreamStats ⊕ Failure × String) : Reads W (newsLine v x) (newsText x) := by
  cases x with
  | inl st =>
    refine ⟨rfl, fun m => ?_⟩
    show sprintf m "stats: %s" [Arg.str (streamStatsString st)] = "stats: " ++ statsText st
    rw [show "stats: %s" = "stats: " ++ ("%s" ++ "") from rfl,
      text_between m _ "%s" "" _ _ (by decide) (by decide) (text_s m _ _ (hv.values.str m _)) (by decide), String.append_empty]
    rfl
  | inr p =>
    obtain ⟨f, e⟩ := p
    have key : ∀ p : String, '%' ∉ p.toList → Reads W (⟨.errorf, p ++ ("%v" ++ ""), [v.err e], false⟩ : SLine A) (true, p ++ e) := by
      intro p hp
      have := reads_v hv .errorf p "" e false hp (by decide)
      rwa [String.append_empty (s := e)] at this
    cases f with
    | marshal p => cases p <;> exact key _ (by decide)
    | encode p => cases p <;> exact key _ (by decide)
    | getStats => exact key "get stats: " (by decide)

theorem reads_all_news (hv : v.Rendered W) (news : List (StreamStats ⊕ Failure × String)) :
    List.Forall₂ (Reads W) (news.map (newsLine v)) (news.map newsText) := by
  induction news with
  | nil => exact .nil
  | cons x news ih => exact .cons (reads_news hv x) ih

omit [Arg A] in
theorem reads_start : Reads W (startLine : SLine A) (false, "event source handler started") :=
  reads_plain .lazyTracef _ _ (by decide)

theorem reads_main (hv : v.Rendered W) {k : HCfg} {s : HSt} {failures : List (Failure × String)} {main : List (SLine A)}
    (h : Main v k s failures main) (hp : s.pc = .returned) :
    ∃ texts, List.Forall₂ (Reads W) main texts ∧ ServingTells k.interval s.stop s.out failures texts := by
  cases h with
  | before a => rw [hp] at a; simp at a
  | running _ a => rw [hp] at a; simp at a
  | not _ a b => exact ⟨[], .nil, .not a b⟩
  | panics _ a b c => exact ⟨_, .cons reads_start .nil, .panics a b c⟩
  | done news e _ a =>
    refine ⟨_, .cons reads_start (List.rel_append (reads_all_news hv news) (.cons ?_ .nil)), .done news e a⟩
    have := reads_v hv .lazyTracef "stopping: context done (" ")" e false (by decide) (by decide)
    rw [← String.append_assoc (s₂ := e)] at this
    exact this
  | stopped news _ a b =>
    exact ⟨_, .cons reads_start (List.rel_append (reads_all_news hv news) (.cons (reads_plain .lazyTracef _ _ (by decide)) .nil)), .stopped news a b⟩

theorem reads_end (hv : v.Rendered W) (st : StreamStats) (e : String) :
    Reads W (endLine v st e) (false, statsText st ++ " (error: " ++ e ++ ")") := by
  refine ⟨rfl, fun m => ?_⟩
  show sprintf m "%s (error: %v)" [v.stats st, v.err e] = _
  have h1 := sprintf_append m "%s" " (error: %v)" [v.stats st] [v.err e] (show Takes "%s" 1 by decide)
  have h2 := text_between m " (error: " "%v" ")" (v.err e) e (by decide) (by decide) (text_v m _ _ (hv.values.err m e)) (by decide)
  rw [show "%s (error: %v)" = "%s" ++ " (error: %v)" from rfl, show [v.stats st, v.err e] = [v.stats st] ++ [v.err e] from rfl, h1,
    text_s m _ _ (hv.stats m st), show " (error: %v)" = " (error: " ++ ("%v" ++ ")") from rfl, h2]
  simp only [String.append_assoc]

theorem reads_first (hv : v.Rendered W) (compile : Compile) (mulFrac : Nat → Nat → Nat → Nat) (size : JSON → Nat) (r : StreamHTTP) (e : String)
    (f : Filter) (interval : Duration) (sendbuf : Int) (h : startStream compile mulFrac size r = .streams f interval sendbuf) :
    List.Forall₂ (Reads W) (beginLines v compile mulFrac size r e)
      (openingTexts (if (readFilter mulFrac size r).2 then none else some e) f interval sendbuf) := by
  unfold beginLines openingTexts
  rw [h]
  refine List.rel_append ?_ (.cons ?_ (.cons ?_ (.cons ?_ (.cons ?_ .nil))))
  · split
    · exact .nil
    · refine .cons ?_ .nil
      have := reads_v hv .errorf "decode filter error (" "), using default" e false (by decide) (by decide)
      rw [← String.append_assoc (s₂ := e)] at this
      exact this
  · refine ⟨rfl, fun m => ?_⟩
    show sprintf m "stream filter %s" [v.filter f] = _
    rw [show "stream filter %s" = "stream filter " ++ ("%s" ++ "") from rfl,
      text_between m _ "%s" "" _ _ (by decide) (by decide) (text_s m _ _ (hv.filter m f)) (by decide), String.append_empty]
  · cases f.isFinished
    · exact reads_plain .lazyTracef "streaming individual events" _ (by decide)
    · exact reads_plain .lazyTracef "streaming complete traces" _ (by decide)
  · refine ⟨rfl, fun m => ?_⟩
    show sprintf m "stats interval %s" [v.duration interval] = _
    rw [show "stats interval %s" = "stats interval " ++ ("%s" ++ "") from rfl,
      text_between m _ "%s" "" _ _ (by decide) (by decide) (text_s m _ _ (hv.duration m interval)) (by decide), String.append_empty]
  · refine ⟨rfl, fun m => ?_⟩
    show sprintf m "send buffer %d" [v.num sendbuf] = _
    have hd : sprintf m "%d" [v.num sendbuf] = toString sendbuf := by
      have e : "%d".toList = ['%', 'd'] := rfl
      apply String.toList_inj.mp
      unfold sprintf
      rw [e]
      simp [printf, Stage.next, hv.values.num m sendbuf, extraReport]
    rw [show "send buffer %d" = "send buffer " ++ ("%d" ++ "") from rfl,
      text_between m _ "%d" "" _ _ (by decide) (by decide) hd (by decide), String.append_empty]

theorem forall₂_split {α β : Type} {R : α → β → Prop} {a b : List α} {l : List β} (h : List.Forall₂ R (a ++ b) l) :
    ∃ x y, List.Forall₂ R a x ∧ List.Forall₂ R b y ∧ l = x ++ y := by
  induction a generalizing l with
  | nil => exact ⟨[], l, .nil, h, rfl⟩
  | cons p a ih =>
    cases h with
    | @cons _ q _ l' h h' =>
      obtain ⟨x, y, h1, h2, rfl⟩ := ih h'
      exact ⟨q :: x, y, .cons h h1, h2, rfl⟩

theorem serving_errors {interval : Int} {stop : Bool} {out : List Out} {failures : List (Failure × String)} {texts : List (Bool × String)}
    (h : ServingTells interval stop out failures texts) : (∃ x ∈ texts, x.1 = true) ↔ failures ≠ [] := by
  have key : ∀ news : List (StreamStats ⊕ Failure × String), News out failures news →
      ((∃ x ∈ news.map newsText, x.1 = true) ↔ failures ≠ []) := by
    rintro news ⟨-, rfl⟩
    clear h
    induction news with
    | nil => simp
    | cons x news ih =>
      cases x with
      | inl st =>
        rw [List.map_cons, List.exists_mem_cons_iff, ih]
        simp [newsText]
      | inr p => simp [newsText]
  have one : ∀ (news : List (StreamStats ⊕ Failure × String)) (s : String), News out failures news →
      ((∃ x ∈ (false, "event source handler started") :: news.map newsText ++ [(false, s)], x.1 = true) ↔ failures ≠ []) := by
    intro news s hn
    rw [← key news hn]
    simp
  cases h with
  | not _ h => simp [h]
  | panics _ _ h => simp [h]
  | done news e hn => exact one news _ hn
  | stopped news _ hn => exact one news _ hn

end

section
variable {W A : Type} [Render W A] [Arg A] [Humanize] {v : StreamValues A}

/-- What the handler tells when it has returned. -/
theorem stream_tells (hv : v.Rendered W) (tr : Tr A) (hu : tr.unprefixed)
    (compile : Compile) (mulFrac : Nat → Nat → Nat → Nat) (size : JSON → Nat) (r : StreamHTTP) (e : String)
    (cap : Ch → Nat) (k : HCfg) (hstart : startStream compile mulFrac size r = .streams k.f k.interval (cap k.c))
    (s : TSt A) (hs : TReach v compile cap k (beginLines v compile mulFrac size r e) s) (hret : s.h.pc = .returned)
    (stack : SLine A → List StdFrame) :
    ∃ (st : StreamStats) (err : String) (x y texts : List (Bool × String)),
      GivesTexts W tr (s.lines.flatMap (SLine.acts tr stack)) texts ∧ s.lines.length = texts.length ∧
      texts = openingTexts (if (readFilter mulFrac size r).2 then none else some e) k.f k.interval (cap k.c) ++
        (x ++ (false, statsText st ++ " (error: " ++ err ++ ")") :: y) ∧
      ((∃ z ∈ texts, z.1 = true) ↔ (readFilter mulFrac size r).2 = false ∨ s.failures ≠ []) ∧
      ServingTells k.interval s.h.stop s.h.out s.failures (x ++ y) ∧
      ∃ h₁ h₂ seg, s.h.hist = h₁ ++ .returned k.g k.c st :: h₂ ∧ Session k.c h₁ k.g k.f seg ∧ Accounts compile k.c k.f seg st := by
  obtain ⟨⟨main, rest, h1, h2, h3⟩, h4⟩ := tinv v compile cap k hs
  have hj := reach_j compile cap k (treach_hreach v compile cap k hs)
  have hc := hj.ret hret
  obtain ⟨st, err, a, b, e1, e2, e3⟩ : ∃ st e a b, s.result = some (st, e) ∧ main = a ++ b ∧ rest = a ++ endLine v st e :: b := by
    rcases h3 with ⟨h, _⟩ | ⟨_, h⟩
    · exact absurd hc h
    · exact h
  obtain ⟨st', err', e4, e5⟩ := h4 (.inr hc)
  rw [e1] at e4
  obtain ⟨rfl, rfl⟩ := Prod.mk.inj (Option.some.inj e4)
  obtain ⟨texts, r1, r2⟩ := reads_main (W := W) hv h2 hret
  rw [e2] at r1
  obtain ⟨x, y, rx, ry, rfl⟩ : ∃ x y, List.Forall₂ (Reads W) a x ∧ List.Forall₂ (Reads W) b y ∧ texts = x ++ y := by
    exact forall₂_split r1
  have hall := List.rel_append (reads_first hv compile mulFrac size r e k.f k.interval (cap k.c) hstart)
    (List.rel_append rx (.cons (reads_end hv st err) ry))
  change List.Forall₂ (Reads W) (beginLines v compile mulFrac size r e ++ (a ++ endLine v st err :: b)) (_ ++ (x ++ _)) at hall
  rw [← e3, ← h1] at hall
  refine ⟨st, err, x, y, _, reads_tells hu stack hall, hall.length_eq, rfl, ?_, r2, ?_⟩
  · rw [← serving_errors r2]
    unfold openingTexts
    cases (readFilter mulFrac size r).2 <;> simp [or_and_right, exists_or]
  · obtain ⟨h₁, h₂, eh⟩ := List.append_of_mem e5
    obtain ⟨f, seg, q1, q2⟩ := C49_returned compile cap hj.run eh
    have hf : f = k.f := by
      obtain ⟨⟨p, ep⟩, -⟩ := q1
      exact (hj.subs k.g f (by rw [eh, ep]; simp)).2
    exact ⟨h₁, h₂, seg, eh, hf ▸ q1, hf ▸ q2⟩

/-- **C142** A request for a stream is served, with a trace in its context, to which others log before and after.  When the handler has returned, the
trace tells, after what the others have said before: that the filter could not be decoded, if it could not; the filter, what is streamed, the interval
of the statistics and the send buffer; then that the handler has started, the statistics as they were sent to the client, everything that has failed, and
why the handler stops; and somewhere after the first of these the statistics of the whole stream, which account exactly for what was published while it was
subscribed.  The trace is marked as errored if and only if something has failed, or the filter could not be decoded, or someone else has logged an error.
Full statement: also for requests that are refused, see `C142_refused_always_violated`, and for streams with more lines than a trace has events, of
whose lines the last are lost (C12). -/
theorem C142_told_partial (hv : v.Rendered W) (g : Globals) (start : Time) (id source category : String) (w w' : World A)
    (ex : List (AEnv W × Act A)) (ctx : Ctx A) (tr : Tr A) (hg : maybeGet ctx = some tr) (hu : tr.unprefixed)
    (compile : Compile) (mulFrac : Nat → Nat → Nat → Nat) (size : JSON → Nat) (r : StreamHTTP) (e : String)
    (cap : Ch → Nat) (k : HCfg) (hstart : startStream compile mulFrac size r = .streams k.f k.interval (cap k.c))
    (s : TSt A) (hs : TReach v compile cap k (beginLines v compile mulFrac size r e) s) (hret : s.h.pc = .returned)
    (stack : SLine A → List StdFrame)
    (before after : List (Line A)) (hothers : ∀ l ∈ before ++ after, Below ctx l.ctx l.prefixes ∧ Wrap.Fits l.prefixes)
    (hex : callsIn tr.root (ex.map Prod.snd) =
      callsIn tr.root (before.flatMap Line.acts ++ s.lines.flatMap (SLine.acts tr stack) ++ after.flatMap Line.acts))
    (hm : ∀ p ∈ ex, notMake tr.root p.2) (hrun : w.run ex = some w')
    (ht : w.traces tr.root = some (newCoreTrace g start id source category zeroTrace))
    (hlen : ((before.length + s.lines.length + after.length : Nat) : Int) ≤ g.traceMaxEvents) :
    ∃ t, w'.traces tr.root = some t ∧
      (t.errored = true ↔ (∃ l ∈ before ++ after, isErr l.kind = true) ∨ (readFilter mulFrac size r).2 = false ∨ s.failures ≠ []) ∧
      ∀ (env : Env W) evs, t.events' env = some evs → ∃ pre mid post, evs = pre ++ mid ++ post ∧ pre.length = before.length ∧
        post.length = after.length ∧ ∃ (st : StreamStats) (err : String) (x y : List (Bool × String)),
        mid.map (fun ev => (ev.isError, ev.what)) = openingTexts (if (readFilter mulFrac size r).2 then none else some e) k.f k.interval (cap k.c) ++
          (x ++ (false, statsText st ++ " (error: " ++ err ++ ")") :: y) ∧
        ServingTells k.interval s.h.stop s.h.out s.failures (x ++ y) ∧
        ∃ h₁ h₂ seg, s.h.hist = h₁ ++ .returned k.g k.c st :: h₂ ∧ Session k.c h₁ k.g k.f seg ∧ Accounts compile k.c k.f seg st := by
  obtain ⟨st, err, x, y, texts, htell, hl, rfl, herr, r2, hacc⟩ := stream_tells (W := W) hv tr hu compile mulFrac size r e cap k hstart s hs hret stack
  obtain ⟨t, t1, t2, t3⟩ := tells_told g start id source category w w' ex ctx tr hg hu before after hothers _ _ htell hex hm hrun ht (by
    rw [← hl]; exact hlen)
  refine ⟨t, t1, ?_, ?_⟩
  · rw [t2, herr]
  · intro env evs hevs
    obtain ⟨pre, mid, post, p1, p2, p3, p4⟩ := t3 env evs hevs
    exact ⟨pre, mid, post, p1, p2, p3, st, err, x, y, p4, r2, hacc⟩

/-- **C142** is violated for every request that is refused because of its query: its trace tells nothing of it, and is not marked as errored. -/
theorem C142_refused_always_violated (g : Globals) (start : Time) (id source category : String) (w w' : World A)
    (ex : List (AEnv W × Act A)) (ctx : Ctx A) (tr : Tr A) (hg : maybeGet ctx = some tr) (hu : tr.unprefixed)
    (compile : Compile) (mulFrac : Nat → Nat → Nat → Nat) (size : JSON → Nat) (r : StreamHTTP) (e : String)
    (hread : (readFilter mulFrac size r).2 = true) (status : Int) (reason : String)
    (hrefused : startStream compile mulFrac size r = .refused status reason) (stack : SLine A → List StdFrame)
    (before after : List (Line A)) (hothers : ∀ l ∈ before ++ after, Below ctx l.ctx l.prefixes ∧ Wrap.Fits l.prefixes)
    (hex : callsIn tr.root (ex.map Prod.snd) = callsIn tr.root
      (before.flatMap Line.acts ++ (beginLines v compile mulFrac size r e).flatMap (SLine.acts tr stack) ++ after.flatMap Line.acts))
    (hm : ∀ p ∈ ex, notMake tr.root p.2) (hrun : w.run ex = some w')
    (ht : w.traces tr.root = some (newCoreTrace g start id source category zeroTrace))
    (hlen : ((before.length + after.length : Nat) : Int) ≤ g.traceMaxEvents) :
    ∃ t, w'.traces tr.root = some t ∧ (t.errored = true ↔ ∃ l ∈ before ++ after, isErr l.kind = true) ∧
      ∀ (env : Env W) evs, t.events' env = some evs → evs.length = before.length + after.length := by
  have hb : beginLines v compile mulFrac size r e = [] := by simp [beginLines, hread, hrefused]
  rw [hb] at hex
  obtain ⟨t, t1, t2, t3⟩ := tells_told g start id source category w w' ex ctx tr hg hu before after hothers [] [] (tells_nil tr) hex hm hrun ht (by
    simpa using hlen)
  refine ⟨t, t1, by simpa using t2, fun env evs hevs => ?_⟩
  obtain ⟨pre, mid, post, p1, p2, p3, p4⟩ := t3 env evs hevs
  rw [List.map_eq_nil_iff] at p4
  rw [p1, p4, List.append_nil, List.length_append, p2, p3]

end

end Trc.Web

/-! ## Example -/

namespace Trc.Web.Witness.StreamLines

open Trc.Broker Trc.Core Trc.Wrap Trc.Core.Spec Trc.Fmt Trc.Wrap.Witness.Searching

/-- A request whose body is no JSON: all traces are streamed.  The client is sent statistics once, and then goes away. -/
def values : StreamValues String :=
  { Trc.Wrap.Witness.Searching.vals with filter := fun f => f.string showDuration, duration := showDuration, stats := statsText }

theorem values_ok : values.Rendered Unit where
  values := vals_ok
  filter := fun _ _ => rfl
  duration := fun _ _ => rfl
  stats := fun _ _ => rfl

def comp : Compile := fun _ => .error ""
def mulFrac : Nat → Nat → Nat → Nat := fun _ _ _ => 0
def size : JSON → Nat := fun _ => 0
def r : StreamHTTP := ⟨[], true, none⟩
def cap : Ch → Nat := fun _ => 100
def k : HCfg := { c := 7, g := 1, m := 2, f := {}, own := "me", interval := 10000000000 }

theorem starts : startStream comp mulFrac size r = .streams k.f k.interval (cap k.c) := by rfl

def line (kind : LogKind) (format : String) (args : List String) (back : Bool := false) : SLine String := ⟨kind, format, args, back⟩

def first : List (SLine String) :=
  [line .errorf "decode filter error (%v), using default" ["EOF"], line .lazyTracef "stream filter %s" ["(allow all)"],
   line .lazyTracef "streaming individual events" [], line .lazyTracef "stats interval %s" ["10s"], line .lazyTracef "send buffer %d" ["100"]]

theorem first_eq : beginLines values comp mulFrac size r "EOF" = first := by
  have h1 : values.filter k.f = "(allow all)" := by rfl
  have h2 : values.duration k.interval = "10s" := by decide +kernel
  have h3 : values.num (cap k.c) = "100" := by decide +kernel
  have h4 : (readFilter mulFrac size r).2 = false := by rfl
  unfold beginLines
  rw [starts, h4]
  simp only [h1, h2, h3]
  rfl

def lines : List (SLine String) :=
  first ++ [line .lazyTracef "event source handler started" [], line .tracef "stats: %s" ["skips=0 sends=0 drops=0"],
    line .lazyTracef "%s (error: %v)" ["skips=0 sends=0 drops=0", "context canceled"] true,
    line .lazyTracef "stopping: context done (%v)" ["context canceled"]]

theorem reached : ∃ s, TReach values comp cap k first s ∧ s.h.pc = .returned ∧ s.lines = lines ∧ s.failures = [] := by
  have s0 : TReach values comp cap k first _ := .start
  have s1 := s0.step (.spawn rfl)
  have s2 := s1.step (.enter rfl (by decide))
  have s3 := s2.step (.init rfl rfl)
  have s4 := s3.step (.subscribe rfl (.subscribe rfl rfl rfl))
  have s5 := s4.step (.tick (st := {}) rfl (.stats rfl))
  have s6 := s5.step .ctxDone
  have s7 := s6.step (.cancelled rfl rfl (.cancel rfl))
  have s8 := s7.step (.streamReturns (st := {}) (e := "context canceled") rfl (.finish rfl rfl rfl))
  have s9 := s8.step (.close (st := {}) (e := "context canceled") rfl rfl)
  have s10 := s9.step (.done (e := "context canceled") rfl rfl)
  have s11 := s10.step (.leave rfl rfl)
  exact ⟨_, s11, rfl, rfl, rfl⟩

def acts : List (Act String) := lines.flatMap (SLine.acts tr fun _ => [])

def run' : List (AEnv Unit × Act String) :=
  acts.map fun act => ({ now := ⟨1, none⟩, w := (), id := "", subscribed := true }, act)

theorem runs' : (world.run run').isSome = true := by decide +kernel

theorem no_make' : ∀ p ∈ run', notMake tr.root p.2 := by
  intro p hp
  have h : run'.all (fun p => match p.2 with | .make _ _ _ => false | _ => true) = true := by decide +kernel
  have := List.all_eq_true.mp h p hp
  cases hq : p.2 with
  | make b s c => rw [hq] at this; cases this
  | _ => trivial

/-- The trace is errored, because the filter could not be decoded. -/
example : ∃ w t, world.run run' = some w ∧ w.traces 0 = some t ∧ t.errored = true := by
  obtain ⟨w, hw⟩ := Option.isSome_iff_exists.mp runs'
  obtain ⟨s, a, b, c, d⟩ := reached
  rw [← first_eq] at a
  obtain ⟨t, h2, h3, -⟩ := C142_told_partial (W := Unit) values_ok (Globals.after []) ⟨0, none⟩ "i" "s" "c" world w run' ctx tr rfl trivial
    comp mulFrac size r "EOF" cap k starts s a b (fun _ => []) [] [] (by intro l hl; cases hl)
    (by rw [run', List.map_map, c]; simp [Function.comp_def, acts]) no_make' hw rfl (by rw [c]; decide)
  exact ⟨w, t, hw, h2, h3.mpr (Or.inr (Or.inl rfl))⟩

/-- A request that is refused. -/
example : (readFilter mulFrac size ⟨bytesOf "q=(", false, none⟩).2 = true ∧
    startStream comp mulFrac size ⟨bytesOf "q=(", false, none⟩ = .refused 400 "bad request: query: invalid, ignoring ()" := by
  refine ⟨rfl, ?_⟩
  have hq : (parseFilter mulFrac (bytesOf "q=(")).query = "(" := by decide +kernel
  exact start_invalid comp size _ (parseFilter mulFrac (bytesOf "q=(")) true rfl rfl (by rw [hq]; decide) "" rfl

end Trc.Web.Witness.StreamLines
