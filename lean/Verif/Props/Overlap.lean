import Verif.Props.Publish
/-!
# C55: what the stream tells of a trace that several goroutines log to

The rest of C55.  A logging call of a collected trace is two steps, the call of the core trace and the publication
(`collector.go:172-217`), and the steps of several goroutines come in any order.  The theorems say which message each
publication makes, for every order, and from which orders a given event gets a message of its own.
-/
namespace Trc.Wrap
open Core Core.Spec

variable {W A : Type} [Arg A] [Sys W A]

/-- A step of somebody with the trace: the part of a logging call that the core trace does, the call of `Finish` of the core
trace, or a publication. -/
inductive Beat (A : Type) where
  | says (s : Said A)
  | finishes
  | publishes

/-- The step as an action on the trace at the address. -/
def Beat.act (a : Nat) : Beat A → Act A
  | .says s => .call a s.call
  | .finishes => .call a .finish
  | .publishes => .publish (.core a)

/-- What was said to the trace until it was finished. -/
def entered : List (Beat A) → List (Said A)
  | [] => []
  | .says s :: l => s :: entered l
  | .finishes :: _ => []
  | .publishes :: l => entered l

/-- The trace was finished. -/
def ended : List (Beat A) → Bool
  | [] => false
  | .finishes :: _ => true
  | _ :: l => ended l

/-- The steps before each publication. -/
def pasts (before : List (Beat A)) : List (Beat A) → List (List (Beat A))
  | [] => []
  | .publishes :: l => before :: pasts (before ++ [.publishes]) l
  | b :: l => pasts (before ++ [b]) l

/-- The message that is to be made of a trace after the given steps. -/
def Told (b : Base) (past : List (Beat A)) (st : Static) : Prop :=
  if ended past then Complete (W := W) b (entered past) st else Newest (W := W) b (entered past) st

omit [Arg A] in
theorem ended_append (l m : List (Beat A)) : ended (l ++ m) = (ended l || ended m) := by
  induction l with
  | nil => simp [ended]
  | cons b l ih => cases b <;> simp [ended, ih]

omit [Arg A] in
theorem entered_append (l m : List (Beat A)) : entered (l ++ m) = entered l ++ (if ended l then [] else entered m) := by
  induction l with
  | nil => simp [ended, entered]
  | cons b l ih =>
    cases b with
    | says s => simp only [List.cons_append, entered, ih]; rfl
    | finishes => simp [ended, entered]
    | publishes => simp only [List.cons_append, entered, ih]; rfl

/-- The states in which the trace is published. -/
theorem moments_beats (a : Nat) (b : Base) (l past : List (Beat A)) (x : Abs W A) (hx : HoldsAll (entered past) x)
    (hf : x.fin.isSome = ended past) (hl : ((entered (past ++ l)).length : Int) ≤ x.limit)
    (T : List (Env W × Act A)) (hT : T.map Prod.snd = l.map (Beat.act a)) (msgs : List Static)
    (hm : Match (fun st z => Shows b z st) msgs (moments x T)) :
    Match (fun st p => Told (W := W) b p st) msgs (pasts past l) := by
  induction l generalizing past x T msgs with
  | nil =>
    obtain rfl : T = [] := by simpa using hT
    exact ⟨hm.1, by simp [pasts]⟩
  | cons c l ih =>
    match T, hT with
    | (e, act) :: T, hT =>
      simp only [List.map_cons, List.cons.injEq] at hT
      obtain ⟨h1, hT'⟩ := hT
      have happ : past ++ c :: l = (past ++ [c]) ++ l := by simp
      rw [happ] at hl
      cases c with
      | says s =>
        obtain rfl : act = Act.call a s.call := h1
        simp only [moments] at hm
        show Match _ msgs (pasts (past ++ [.says s]) l)
        cases he : ended past with
        | true =>
          have hxf : x.fin.isSome = true := hf.trans he
          have hstep : x.step e s.call = x := by
            simp only [Said.call, Op.deco, Abs.step, Abs.log, hxf, if_true]
          rw [hstep] at hm
          refine ih (past ++ [.says s]) x ?_ ?_ hl T hT' msgs hm
          · rw [entered_append, he]; simpa using hx
          · rw [ended_append, he]; simpa using hxf
        | false =>
          have hxf : x.fin = none := by
            have := hf.trans he
            exact Option.not_isSome_iff_eq_none.mp (by rw [this]; decide)
          have hh : entered (past ++ [.says s]) = entered past ++ [s] := by rw [entered_append, he]; rfl
          have hlen : (entered past).length + 1 ≤ (entered (past ++ [.says s] ++ l)).length := by
            rw [entered_append (past ++ [Beat.says s]) l, hh]; simp
          obtain ⟨g1, g2, g3⟩ := hx.log hxf s e (by omega)
          refine ih (past ++ [.says s]) _ (by rw [hh]; exact g1) ?_ (by rw [g3]; exact hl) T hT' msgs hm
          rw [g2, ended_append, he]; rfl
      | finishes =>
        obtain rfl : act = Act.call a .finish := h1
        simp only [moments] at hm
        show Match _ msgs (pasts (past ++ [.finishes]) l)
        have hh : entered (past ++ [.finishes]) = entered past := by
          rw [entered_append]; cases ended past <;> simp [entered]
        have hs : (x.step e .finish).trunc = x.trunc ∧ (x.step e .finish).stored = x.stored ∧
            (x.step e .finish).limit = x.limit ∧ (x.step e .finish).fin.isSome = true := by
          simp only [Abs.step]
          cases h : x.fin <;> simp [h]
        refine ih (past ++ [.finishes]) _ ⟨?_, ?_⟩ ?_ ?_ T hT' msgs hm
        · rw [hs.1]; exact hx.trunc
        · rw [hh, hs.2.1]; exact hx.entries
        · rw [hs.2.2.2, ended_append]; simp [ended]
        · rw [hs.2.2.1]; exact hl
      | publishes =>
        obtain rfl : act = Act.publish (.core a) := h1
        simp only [moments] at hm
        show Match _ msgs (past :: pasts (past ++ [.publishes]) l)
        match msgs, hm with
        | [], hm => have := hm.1; simp at this
        | st :: msgs, hm =>
          have hst : Shows b x st := hm.2 0 st x rfl rfl
          have hrest : Match (fun st z => Shows b z st) msgs (moments x T) :=
            ⟨by have := hm.1; simpa using this, fun i u v hu hv => hm.2 (i + 1) u v (by simpa using hu) (by simpa using hv)⟩
          refine Match.cons ?_ (ih (past ++ [.publishes]) x ?_ ?_ hl T hT' msgs hrest)
          · unfold Told
            cases he : ended past with
            | true => exact shows_complete hst hx (hf.trans he)
            | false =>
              refine shows_newest hst hx ?_
              have := hf.trans he
              exact Option.not_isSome_iff_eq_none.mp (by rw [this]; decide)
          · rw [entered_append]; cases ended past <;> simpa [entered] using hx
          · rw [ended_append]; simpa [ended] using hf

omit [Arg A] in
theorem mem_pasts {before l p : List (Beat A)} : p ∈ pasts before l ↔ ∃ l₁ l₂, l = l₁ ++ .publishes :: l₂ ∧ p = before ++ l₁ := by
  induction l generalizing before with
  | nil => simp [pasts]
  | cons c l ih =>
    have h : (∃ l₁ l₂, c :: l = l₁ ++ .publishes :: l₂ ∧ p = before ++ l₁) ↔
        (c = .publishes ∧ p = before) ∨ ∃ l₁ l₂, l = l₁ ++ .publishes :: l₂ ∧ p = (before ++ [c]) ++ l₁ := by
      constructor
      · rintro ⟨l₁, l₂, h1, h2⟩
        cases l₁ with
        | nil => simp only [List.nil_append, List.cons.injEq] at h1; exact .inl ⟨h1.1, by simpa using h2⟩
        | cons d l₁ =>
          simp only [List.cons_append, List.cons.injEq] at h1
          obtain ⟨rfl, h1⟩ := h1
          exact .inr ⟨l₁, l₂, h1, by simpa using h2⟩
      · rintro (⟨rfl, rfl⟩ | ⟨l₁, l₂, rfl, h2⟩)
        · exact ⟨[], l, rfl, by simp⟩
        · exact ⟨c :: l₁, l₂, rfl, by simpa using h2⟩
    rw [h]
    cases c with
    | publishes => simp only [pasts, List.mem_cons, ih, true_and]
    | says s => simp only [pasts, ih, reduceCtorEq, false_and, false_or]
    | finishes => simp only [pasts, ih, reduceCtorEq, false_and, false_or]

/-- C55, for every interleaving.  Several goroutines log to a trace, finish it and publish it, in any order, up to the limit of
events, and there is a subscriber all the time.  Then every publication makes one message, in this order, and the message
tells the newest of the events logged before the publication, or all of them when the trace was finished before. -/
theorem C55_interleaved (settings : List Setting) (start : Time) (id source category : String) (old : CoreTrace A)
    (w w' : World A) (ex : List (AEnv W × Act A)) (l : List (Beat A)) (a : Nat)
    (hex : (ex.map Prod.snd).filter (touches a) = l.map (Beat.act a))
    (hsub : ∀ p ∈ ex, p.1.subscribed = true)
    (hm : ∀ p ∈ ex, notMake a p.2) (hrun : w.run ex = some w')
    (ht : w.traces a = some (fresh settings start id source category old))
    (hlen : ((entered l).length : Int) ≤ (Globals.after settings).traceMaxEvents) :
    ∃ msgs, messages a w' = messages a w ++ msgs ∧
      Match (fun st p => Told (W := W) (freshBase settings start id source category) p st) msgs (pasts [] l) := by
  rw [fresh_conc (W := W)] at ht
  obtain ⟨y, msgs, r1, r2, r3, r4⟩ := run_messages hrun ht hm (by
    intro p hp tr htr hroot
    refine ⟨?_, hsub p hp⟩
    have hmem : Act.publish tr ∈ (ex.map Prod.snd).filter (touches a) := by
      refine List.mem_filter.mpr ⟨?_, by simp [touches, hroot]⟩
      rw [← htr]; exact List.mem_map_of_mem hp
    rw [hex] at hmem
    obtain ⟨c, _, hc⟩ := List.mem_map.mp hmem
    cases c <;> simp only [Beat.act, reduceCtorEq, Act.publish.injEq] at hc
    exact hc.symm)
  have hT : ((ex.map fun p => (p.1.toEnv, p.2)).filter fun p => touches a p.2).map Prod.snd = (ex.map Prod.snd).filter (touches a) := by
    rw [List.filter_map, List.filter_map, List.map_map]; rfl
  rw [hex] at hT
  generalize ((ex.map fun p => (p.1.toEnv, p.2)).filter fun p => touches a p.2) = T at hT r4
  exact ⟨msgs, r2, moments_beats a _ l [] (Abs.new (Globals.after settings).traceMaxEvents) ⟨rfl, rfl, by simp [entered]⟩ rfl
    (by simpa [Abs.new] using hlen) T hT msgs r4⟩

omit [Arg A] in
theorem told_alone (l₁ l₂ : List (Beat A)) (s : Said A) (h₁ : ended l₁ = false) :
    (∃ p ∈ pasts [] (l₁ ++ .says s :: l₂), ended p = false ∧ (entered p).length = (entered l₁).length + 1) ↔
      ∃ l₃, l₂ = .publishes :: l₃ := by
  constructor
  · rintro ⟨p, hp, he, hlen⟩
    obtain ⟨k₁, k₂, hk, rfl⟩ := mem_pasts.mp hp
    rcases List.append_eq_append_iff.mp hk with ⟨q, rfl, hq⟩ | ⟨q, rfl, hq⟩
    · cases q with
      | nil => simp at hq
      | cons c q =>
        simp only [List.cons_append, List.cons.injEq] at hq
        obtain ⟨rfl, rfl⟩ := hq
        rw [ended_append, h₁] at he
        rw [entered_append, h₁] at hlen
        cases q with
        | nil => exact ⟨k₂, rfl⟩
        | cons c q =>
          cases c with
          | publishes => exact ⟨_, rfl⟩
          | says s' => simp [entered] at hlen
          | finishes => simp [ended] at he
    · rw [ended_append] at h₁
      rw [entered_append] at hlen
      simp only [Bool.or_eq_false_iff] at h₁
      rw [h₁.1] at hlen
      simp at hlen
      omega
  · rintro ⟨l₃, rfl⟩
    refine ⟨l₁ ++ [.says s], mem_pasts.mpr ⟨l₁ ++ [.says s], l₃, by simp, by simp⟩, ?_, ?_⟩
    · rw [ended_append, h₁]; rfl
    · rw [entered_append, h₁]; simp [entered]

omit [Arg A] in
theorem pasts_last (l : List (Beat A)) : (pasts [] (l ++ [.publishes])).getLast? = some l := by
  have key : ∀ (before l : List (Beat A)), pasts before (l ++ [.publishes]) = pasts before l ++ [before ++ l] := by
    intro before l
    induction l generalizing before with
    | nil => simp [pasts]
    | cons c l ih => cases c <;> simp [pasts, ih]
  rw [key]; simp

/-- C55: which events are told.  An event that is logged while the trace is active is the newest event of some message about the
active trace exactly if the trace is published right after it, before anything else is logged to it and before it is finished.
In particular, of two goroutines that both log before either publishes, the first one's event is not told until the trace
is finished. -/
theorem C55_streamed_exact (settings : List Setting) (start : Time) (id source category : String) (old : CoreTrace A)
    (w w' : World A) (ex : List (AEnv W × Act A)) (l₁ l₂ : List (Beat A)) (s : Said A) (a : Nat)
    (hex : (ex.map Prod.snd).filter (touches a) = (l₁ ++ .says s :: l₂).map (Beat.act a))
    (hsub : ∀ p ∈ ex, p.1.subscribed = true)
    (hm : ∀ p ∈ ex, notMake a p.2) (hrun : w.run ex = some w')
    (ht : w.traces a = some (fresh settings start id source category old))
    (hlen : ((entered (l₁ ++ .says s :: l₂)).length : Int) ≤ (Globals.after settings).traceMaxEvents)
    (h₁ : ended l₁ = false) :
    ∃ msgs, messages a w' = messages a w ++ msgs ∧
      Match (fun st p => Told (W := W) (freshBase settings start id source category) p st) msgs (pasts [] (l₁ ++ .says s :: l₂)) ∧
      ((∃ p ∈ pasts [] (l₁ ++ .says s :: l₂), ended p = false ∧ entered p = entered l₁ ++ [s]) ↔ ∃ l₃, l₂ = .publishes :: l₃) := by
  obtain ⟨msgs, r1, r2⟩ := C55_interleaved settings start id source category old w w' ex _ a hex hsub hm hrun ht hlen
  refine ⟨msgs, r1, r2, ?_, ?_⟩
  · rintro ⟨p, hp, he, hh⟩
    exact (told_alone l₁ l₂ s h₁).mp ⟨p, hp, he, by rw [hh]; simp⟩
  · rintro ⟨l₃, rfl⟩
    refine ⟨l₁ ++ [.says s], mem_pasts.mpr ⟨l₁ ++ [.says s], l₃, by simp, by simp⟩, ?_, ?_⟩
    · rw [ended_append, h₁]; rfl
    · rw [entered_append, h₁]; simp [entered]

/-- C55: nothing is lost for good.  When the last thing done with the trace is a publication, as it is when every logging
call has returned, the last message tells the newest event, or the whole trace when it is finished. -/
theorem C55_caught_up (settings : List Setting) (start : Time) (id source category : String) (old : CoreTrace A)
    (w w' : World A) (ex : List (AEnv W × Act A)) (l : List (Beat A)) (a : Nat)
    (hex : (ex.map Prod.snd).filter (touches a) = (l ++ [Beat.publishes]).map (Beat.act a))
    (hsub : ∀ p ∈ ex, p.1.subscribed = true)
    (hm : ∀ p ∈ ex, notMake a p.2) (hrun : w.run ex = some w')
    (ht : w.traces a = some (fresh settings start id source category old))
    (hlen : ((entered (l)).length : Int) ≤ (Globals.after settings).traceMaxEvents) :
    ∃ msgs last, messages a w' = messages a w ++ msgs ++ [last] ∧
      Told (W := W) (freshBase settings start id source category) l last := by
  have hh : entered (l ++ [.publishes]) = entered l := by rw [entered_append]; cases ended l <;> simp [entered]
  obtain ⟨msgs, r1, r2⟩ := C55_interleaved settings start id source category old w w' ex _ a hex hsub hm hrun ht (by rw [hh]; exact hlen)
  have hl := pasts_last l
  generalize pasts [] (l ++ [.publishes]) = ps at r2 hl
  obtain ⟨qs, rfl⟩ := List.getLast?_eq_some_iff.mp hl
  have hlen := r2.1
  rcases List.eq_nil_or_concat msgs with rfl | ⟨ms, last, rfl⟩
  · simp at hlen
  · rw [List.concat_eq_append] at r1 r2 hlen
    have hq : ms.length = qs.length := by simpa using hlen
    exact ⟨ms, last, by rw [r1, List.append_assoc], r2.2 ms.length last l (by simp) (by rw [hq]; simp)⟩

end Trc.Wrap

namespace Trc.Wrap.Witness
open Core Core.Spec Fmt

def saidA : Said String := ⟨tr, .tracef, "a", [], []⟩
def saidB : Said String := ⟨tr, .tracef, "b", [], []⟩

/-- Two goroutines: both log before either publishes, and the second one finishes the trace.  The steps that concern the trace are
such beats, and the messages are as `C55_interleaved` says: the event of the first goroutine comes only with the finished trace. -/
def both : List (Act String) :=
  (saidA.acts.take 2 ++ saidB.acts.take 2 ++ saidA.acts.drop 2 ++ saidB.acts.drop 2) ++ tr.finishActs

example : both.filter (touches 0) =
    [Beat.says saidA, .says saidB, .publishes, .publishes, .finishes, .publishes].map (Beat.act 0) := rfl

example : texts (.make 0 "s" "c" :: both) = some [(["b"], false), (["b"], false), (["a", "b"], true)] := rfl

example : (pasts [] [Beat.says saidA, .says saidB, .publishes, .publishes, .finishes, .publishes]).map
    (fun p => ((entered p).map (·.format), ended p)) = [(["a", "b"], false), (["a", "b"], false), (["a", "b"], true)] := rfl

end Trc.Wrap.Witness
