import Verif.Wrap.Easy
import Verif.Props.Collect
import Verif.Props.During

/-!
# What a program logs is what a search finds: C95

From `eztrc.New` to the response of a search, through contexts, prefixes, decorators, the core trace,
the ring buffers and the search, with anything else going on at the same time.
-/

set_option linter.unusedSectionVars false
set_option linter.unusedVariables false
set_option linter.unusedSimpArgs false

/-! ## A search for an ID -/

namespace Trc.Search

open Ring

variable {α : Type} [Inhabited α]

theorem flatMap_one {β : Type} {l : List String} (hl : l.Nodup) {k : String} (hk : k ∈ l) (x : β) :
    (l.flatMap fun j => if j = k then [x] else []) = [x] := by
  induction l with
  | nil => cases hk
  | cons j l ih =>
    obtain ⟨h1, h2⟩ := List.nodup_cons.mp hl
    rw [List.flatMap_cons]
    by_cases e : j = k
    · subst e
      have : (l.flatMap fun i => if i = j then [x] else []) = [] := by
        rw [List.flatMap_eq_nil_iff]
        intro i hi
        rw [if_neg]
        rintro rfl
        exact h1 hi
      rw [if_pos rfl, this]
      rfl
    · rw [if_neg e, ih h2 ((List.mem_cons.mp hk).resolve_left (Ne.symm e))]
      rfl

theorem find_pair {V : Type} {m : Assoc V} (hm : m.keys.Nodup) {p : String × V} (hp : p ∈ m) : m.find p.1 = some p.2 := by
  induction m with
  | nil => cases hp
  | cons q m ih =>
    obtain ⟨h1, h2⟩ := List.nodup_cons.mp hm
    unfold Assoc.find at ih ⊢
    rw [List.find?_cons]
    rcases List.mem_cons.mp hp with rfl | hp
    · simp
    · have : q.1 ≠ p.1 := by
        intro e
        exact h1 (e ▸ List.mem_map_of_mem hp)
      simp only [beq_eq_false_iff_ne.mpr this]
      exact ih h2 hp

/-- If just one of the retained traces has the ID, a search for the ID finds it. -/
theorem found_one (compile : Compile) (srt : List Static → List Static) (hs : SortOK srt) (source : String) (req : SearchRequest)
    (id : String) (hreq : req.filter = { ids := [id] }) (view : α → Look → Static) {hist : List (MOp α)} {s : RBs α} (hA : After hist s)
    (rings : List (RB α)) (hr : rings.Perm (s.bufs.map Prod.snd)) (x : α) (category : String)
    (honly : ∀ k items, s.contents k = some items →
      items.filter (fun v => decide ((view v .filter).id = id)) = if k = category then [x] else []) :
    ∃ res, search compile srt source req view rings = some res ∧ res.traces = [copyOf req view x] ∧ res.matchCount = 1 := by
  obtain ⟨f, hf, -⟩ := hA.frep
  obtain ⟨m, hm, rfl⟩ := perm_map_inv Prod.snd hr
  have hfind : ∀ p ∈ m, s.bufs.find p.1 = some p.2 := fun p hp => find_pair hf.hnd (hm.mem_iff.mp hp)
  have hwalk : ∀ p ∈ m, walkAll p.2 = some (((s.contents p.1).getD [])) := by
    intro p hp
    have h1 : s.contents p.1 = walkAll p.2 := by
      unfold RBs.contents RBs.buf
      rw [hfind p hp]
    rw [← h1]
    obtain ⟨items, h2, -⟩ := hA.shows p.1
    rw [h2]; rfl
  have hb : Buffers (m.map Prod.snd) (m.map fun p => (s.contents p.1).getD []) := by
    refine ⟨?_, ?_⟩
    · rw [List.map_map, List.map_map]
      exact List.map_congr_left hwalk
    · intro rb hrb
      obtain ⟨p, hp, rfl⟩ := List.mem_map.mp hrb
      exact hA.made _ _ (hfind p hp)
  have hfresh : req.filter.Fresh compile := by
    rw [hreq]; intro re h; cases h
  obtain ⟨req', problems, res, sel, h1, h2, h3, h4, h5, h6, h7, h8, h9, h10, h11, h12⟩ :=
    search_chosen compile srt hs source req hfresh view _ _ hb
  have hsel : ∀ items : List α, selected compile req' view items =
      (items.filter fun v => decide ((view v .filter).id = id)).take req'.limit.toNat := by
    intro items
    unfold selected allowed
    congr 1
    apply List.filter_congr
    intro v _
    rw [Bool.eq_iff_iff, selected_sat hfresh h6, decide_eq_true_iff, hreq]
    simp [Filter.Sat, Filter.Basic]
  have hall : (m.map fun p => (s.contents p.1).getD []).flatMap (selected compile req' view) = [x] := by
    rw [List.flatMap_map]
    have h0 : ∀ p ∈ m, selected compile req' view ((s.contents p.1).getD []) = if p.1 = category then [x] else [] := by
      intro p hp
      obtain ⟨items, e, -⟩ := hA.shows p.1
      rw [hsel, e, Option.getD_some, honly _ _ e, List.take_of_length_le]
      have : 1 ≤ req'.limit.toNat := by omega
      split <;> simp <;> omega
    have h00 : m.flatMap (fun p => selected compile req' view ((s.contents p.1).getD [])) =
        (m.map Prod.fst).flatMap fun k => if k = category then [x] else [] := by
      rw [List.flatMap_map]
      clear hb hwalk hfind h2 h7 h8 h11 h10 h12 hm hr
      induction m with
      | nil => rfl
      | cons p m ih =>
        rw [List.flatMap_cons, List.flatMap_cons, h0 p (by simp), ih (fun q hq => h0 q (by simp [hq]))]
    rw [h00]
    have hkeys : (m.map Prod.fst).Perm s.bufs.keys := hm.map Prod.fst
    refine flatMap_one (hkeys.nodup_iff.mpr hf.hnd) (hkeys.mem_iff.mpr ?_) x
    obtain ⟨items, e, -⟩ := hA.shows category
    have h1 := honly _ _ e
    rw [if_pos rfl] at h1
    cases hfd : s.bufs.find category with
    | none =>
      unfold RBs.contents RBs.buf at e
      rw [hfd] at e
      simp only [Option.some.injEq] at e
      subst e
      simp at h1
    | some rb =>
      unfold Assoc.find at hfd
      obtain ⟨p, hp, -⟩ := Option.map_eq_some_iff.mp hfd
      have := List.find?_some hp
      rw [← eq_of_beq this]
      exact List.mem_map_of_mem (List.mem_of_find?_eq_some hp)
  rw [hall] at h7 h11
  obtain rfl := List.perm_singleton.mp h7
  refine ⟨res, h2, ?_, by simpa using h11⟩
  rw [h9, List.take_of_length_le]
  · rfl
  · simp; omega

end Trc.Search

namespace Trc.Wrap

open Core Core.Spec Fmt

/-! ## The program -/

section
variable {A : Type} [Arg A]

/-- Contexts that a program derives from a given one, and the prefixes put on the way, outermost first. -/
inductive Below (ctx₀ : Ctx A) : Ctx A → List (String × List A) → Prop
  | here : Below ctx₀ ctx₀ []
  | derived {ctx : Ctx A} {ps : List (String × List A)} : Below ctx₀ ctx ps → Below ctx₀ (.derived ctx) ps
  | value {ctx : Ctx A} {ps : List (String × List A)} (n : Nat) (v : Val A) :
    Below ctx₀ ctx ps → Below ctx₀ (.withValue ctx (.other n) v) ps
  | pre {ctx : Ctx A} {ps : List (String × List A)} (orphan : Nat) (format : String) (args : List A) :
    Below ctx₀ ctx ps → Below ctx₀ (prefixed ctx orphan format args).1 (ps ++ [(format, args)])

/-- A call of `eztrc.Tracef`, `LazyTracef`, `Errorf` or `LazyErrorf`, or, if `direct`, of the method with that name of the
trace that `trc.Get` returns; `prefixes` are those of its context. -/
structure Line (A : Type) where
  ctx : Ctx A
  prefixes : List (String × List A)
  orphan : Nat
  kind : LogKind
  format : String
  args : List A
  stack : List StdFrame
  direct : Bool := false

def Line.acts (l : Line A) : List (Act A) :=
  if l.direct then (get l.ctx l.orphan).2 ++ (get l.ctx l.orphan).1.logActs l.kind l.format l.args l.stack
  else ezLog l.ctx l.orphan l.kind l.format l.args l.stack

/-- Actions that create, change or retain the trace at the address; others may read and publish it. -/
def Act.concerns (a : Nat) : Act A → Bool
  | .make b _ _ => b == a
  | .call b (.read _ _) => false
  | .call b _ => b == a
  | .retain _ tr => tr.root == a
  | _ => false

/-- The action retains a trace in the category. -/
def Act.retainsIn (category : String) : Act A → Bool
  | .retain c _ => c == category
  | _ => false

/-- A decorator that wraps and leaves the traces themselves alone, like `LogDecorator`. -/
def Decorator.Tame (d : Decorator A) : Prop :=
  ∀ source category id tr, (d source category id tr).1.root = tr.root ∧
    (tr.unprefixed → (d source category id tr).1.unprefixed) ∧
    ∀ act ∈ (d source category id tr).2, ∀ a, act.concerns a = false

theorem logDecorator_tame (dst : Nat) : (logDecorator dst : Decorator A).Tame :=
  fun _ _ _ tr => ⟨rfl, fun h => h, by
    intro act h a
    simp only [logDecorator, List.mem_singleton] at h
    subst h
    rfl⟩

theorem publishDecorator_tame : (publishDecorator : Decorator A).Tame :=
  fun _ _ _ tr => ⟨rfl, fun h => h, by
    intro act h a
    simp only [publishDecorator, List.mem_singleton] at h
    subst h
    rfl⟩

theorem decorate_tame (source category id : String) (ds : List (Decorator A)) (hd : ∀ d ∈ ds, d.Tame) (tr : Tr A) :
    (decorate source category id ds tr).1.root = tr.root ∧ (tr.unprefixed → (decorate source category id ds tr).1.unprefixed) ∧
    ∀ act ∈ (decorate source category id ds tr).2, ∀ a, act.concerns a = false := by
  induction ds generalizing tr with
  | nil => exact ⟨rfl, fun h => h, by simp [decorate]⟩
  | cons d ds ih =>
    obtain ⟨h1, h2, h3⟩ := hd d (by simp) source category id tr
    obtain ⟨h4, h5, h6⟩ := ih (fun d hd' => hd d (by simp [hd'])) (d source category id tr).1
    refine ⟨h4.trans h1, fun h => h5 (h2 h), ?_⟩
    intro act h
    simp only [decorate, List.mem_append] at h
    rcases h with h | h
    · exact h3 act h
    · exact h6 act h

theorem below_under {ctx₀ : Ctx A} {tr : Tr A} (h₀ : maybeGet ctx₀ = some tr) {ctx : Ctx A} {ps : List (String × List A)}
    (h : Below ctx₀ ctx ps) : ∃ tr', maybeGet ctx = some tr' ∧ Under tr tr' ps := by
  induction h with
  | here => exact ⟨tr, h₀, .base⟩
  | derived _ ih => exact ih
  | value n v _ ih => exact ih
  | @pre ctx ps orphan format args _ ih =>
    obtain ⟨tr', h1, h2⟩ := ih
    refine ⟨_, ?_, .pre ctx orphan format args h2 h1⟩
    simp only [prefixed, get, h1]
    split
    · exact h1
    · rfl

/-- What `NewTrace` does on a context without a trace, as far as the trace at its address is concerned. -/
theorem newTrace_spec (ctx : Ctx A) (hctx : maybeGet ctx = none) (a : Nat) (id source category : String) (ds : List (Decorator A))
    (hd : ∀ d ∈ ds, d.Tame) (stack : List StdFrame) :
    ∃ ctx' tr acts, newTrace ctx a id source category ds stack = (ctx', tr, acts) ∧ maybeGet ctx' = some tr ∧ tr.root = a ∧ tr.unprefixed ∧
      acts.filter (·.concerns a) = [.make a source category, .retain category tr] := by
  simp only [newTrace, hctx]
  obtain ⟨h1, h2, h3⟩ := decorate_tame source category id [publishDecorator]
    (by intro d h; simp only [List.mem_singleton] at h; subst h; exact publishDecorator_tame) (.core a : Tr A)
  obtain ⟨h4, h5, h6⟩ := decorate_tame source category id ds hd (decorate source category id [publishDecorator] (.core a : Tr A)).1
  have hr := h4.trans h1
  refine ⟨_, _, _, rfl, rfl, hr, h5 (h2 trivial), ?_⟩
  have e1 : (decorate source category id [publishDecorator] (.core a : Tr A)).2.filter (·.concerns a) = [] :=
    List.filter_eq_nil_iff.mpr fun act hact => by simp [h3 act hact a]
  have e2 : (decorate source category id ds (decorate source category id [publishDecorator] (.core a : Tr A)).1).2.filter (·.concerns a) = [] :=
    List.filter_eq_nil_iff.mpr fun act hact => by simp [h6 act hact a]
  simp only [new, put, List.cons_append, List.filter_cons, List.filter_append, e1, e2, List.filter_nil]
  have c1 : (Act.make a source category : Act A).concerns a = true := by simp [Act.concerns]
  have c2 : (Act.retain category (decorate source category id ds (decorate source category id [publishDecorator] (.core a : Tr A)).1).1).concerns a = true := by
    simp only [Act.concerns, hr, Tr.root, beq_self_eq_true]
  rw [if_pos c1, if_pos c2]
  rfl

/-- A logging call through wrappers changes the core trace inside once. -/
theorem logActs_concerns (tr : Tr A) (kind : LogKind) (format : String) (args : List A) (stack : List StdFrame) :
    (tr.logActs kind format args stack).filter (·.concerns tr.root) =
      [.call tr.root (.log kind (tr.pformat ++ format) (tr.pargs ++ args) ((tr.frames kind ++ stack).take 8))] := by
  induction tr generalizing format args stack with
  | core a => simp [Tr.logActs, Act.concerns, Tr.root, Tr.pformat, Tr.pargs, Tr.frames]
  | publish t ih =>
    simp only [Tr.logActs, Tr.root, List.filter_append, ih]
    simp [Act.concerns, Tr.pformat, Tr.pargs, Tr.frames]
  | log t id dst ih =>
    simp only [Tr.logActs, Tr.root, List.filter_cons, ih, logEvent]
    simp [Act.concerns, Tr.pformat, Tr.pargs, Tr.frames]
  | pre t f as ih =>
    simp only [Tr.logActs, Tr.root, ih]
    simp [Tr.pformat, Tr.pargs, Tr.frames, String.append_assoc]

theorem finishActs_concerns (tr : Tr A) : tr.finishActs.filter (·.concerns tr.root) = [.call tr.root .finish] := by
  induction tr with
  | core a => simp [Tr.finishActs, Act.concerns, Tr.root]
  | publish t ih => simp only [Tr.finishActs, Tr.root, List.filter_append, ih]; simp [Act.concerns]
  | log t id dst ih => simp only [Tr.finishActs, Tr.root, List.filter_append, ih]; simp [Act.concerns]
  | pre t f as ih => simp only [Tr.finishActs, Tr.root, ih]

/-- The call as one through the trace of its context. -/
def Line.said (l : Line A) : Said A := ⟨(get l.ctx l.orphan).1, l.kind, l.format, l.args, (if l.direct then [] else [ezFrame (LogKind.name l.kind)]) ++ l.stack⟩

theorem callsIn_concerns (a : Nat) (acts : List (Act A)) : callsIn a acts = callsIn a (acts.filter (·.concerns a)) := by
  induction acts with
  | nil => rfl
  | cons act acts ih =>
    unfold callsIn at ih ⊢
    cases hc : act.concerns a with
    | true => rw [List.filter_cons, if_pos hc, List.filterMap_cons, List.filterMap_cons, ih]
    | false =>
      have hn : callOn a act = none := by
        cases act with
        | call b c => cases c <;> simp_all [callOn, isRead, Act.concerns]
        | _ => rfl
      rw [List.filter_cons, if_neg (by simp [hc]), List.filterMap_cons, hn, ih]

/-- The first of the actions that concern a trace. -/
theorem split_first {W : Type} {p : Act A → Bool} {ex : List (AEnv W × Act A)} {x : Act A} {rest : List (Act A)}
    (h : (ex.map Prod.snd).filter p = x :: rest) :
    ∃ before env after, ex = before ++ (env, x) :: after ∧ (∀ q ∈ before, p q.2 = false) ∧ (after.map Prod.snd).filter p = rest := by
  induction ex with
  | nil => simp at h
  | cons q ex ih =>
    obtain ⟨env, act⟩ := q
    simp only [List.map_cons, List.filter_cons] at h
    cases hp : p act with
    | true =>
      rw [hp, if_pos rfl] at h
      obtain ⟨rfl, h2⟩ := List.cons.inj h
      exact ⟨[], env, ex, rfl, by simp, h2⟩
    | false =>
      rw [hp, if_neg (by simp)] at h
      obtain ⟨before, e, after, h1, h2, h3⟩ := ih h
      refine ⟨(env, act) :: before, e, after, by rw [h1]; rfl, ?_, h3⟩
      intro q hq
      rcases List.mem_cons.mp hq with rfl | hq
      · exact hp
      · exact h2 q hq

/-- The traces retained, with their categories. -/
def retainedBy (acts : List (Act A)) : List (String × Tr A) :=
  acts.filterMap fun act => match act with
    | .retain c tr => some (c, tr)
    | _ => none

theorem retainedBy_append (l l' : List (Act A)) : retainedBy (l ++ l') = retainedBy l ++ retainedBy l' := List.filterMap_append

theorem retainedBy_other {a : Nat} {acts : List (Act A)} (h : ∀ act ∈ acts, ∀ c tr, act = .retain c tr → tr.root ≠ a) :
    ∀ p ∈ retainedBy acts, p.2.root ≠ a := by
  intro p hp
  obtain ⟨act, h1, h2⟩ := List.mem_filterMap.mp hp
  cases act with
  | retain c tr => simp only [Option.some.injEq] at h2; subst h2; exact h _ h1 c tr rfl
  | _ => simp at h2

theorem retainedBy_count (category : String) (acts : List (Act A)) :
    ((retainedBy acts).filter (·.1 == category)).length = acts.countP (·.retainsIn category) := by
  induction acts with
  | nil => rfl
  | cons act acts ih =>
    rw [List.countP_cons]
    unfold retainedBy at ih ⊢
    rw [List.filterMap_cons]
    cases act with
    | retain c tr => by_cases e : c = category <;> simp [Act.retainsIn, e, ih]
    | _ => simp [Act.retainsIn, ih]

end

/-! ## Executions -/

section
variable {W A : Type} [Sys W A] [Arg A] [Humanize]

theorem world_run_append (w : World A) (l l' : List (AEnv W × Act A)) : w.run (l ++ l') = (w.run l).bind fun w' => w'.run l' := by
  induction l generalizing w with
  | nil => rfl
  | cons p l ih =>
    obtain ⟨env, act⟩ := p
    simp only [List.cons_append, World.run, bind]
    cases w.act env act with
    | none => rfl
    | some w₁ => exact ih w₁

theorem act_globals {w w' : World A} {env : AEnv W} {act : Act A} (h : w.act env act = some w') :
    w'.globals = w.globals ∧ Ring.pushAll w.cats (retainedBy [act]) = some w'.cats := by
  cases act with
  | make b s c => simp only [World.act, Option.some.injEq] at h; subst h; exact ⟨rfl, rfl⟩
  | retain c tr =>
    simp only [World.act, bind] at h
    cases hp : w.cats.push c tr with
    | none => simp [hp] at h
    | some q =>
      simp only [hp, Option.bind_some, pure, Option.some.injEq] at h
      subst h
      exact ⟨rfl, by simp [retainedBy, Ring.pushAll, hp]⟩
  | _ => obtain ⟨h1, _, h3, _⟩ := mild_act (by trivial) h; exact ⟨h3, by rw [h1]; rfl⟩

theorem pushAll_append {α : Type} [Inhabited α] (s : Ring.RBs α) (l l' : List (String × α)) :
    Ring.pushAll s (l ++ l') = (Ring.pushAll s l).bind fun s' => Ring.pushAll s' l' := by
  induction l generalizing s with
  | nil => rfl
  | cons p l ih =>
    obtain ⟨k, v⟩ := p
    simp only [List.cons_append, Ring.pushAll, bind]
    cases s.push k v with
    | none => rfl
    | some q => exact ih q.1

theorem run_globals {w w' : World A} {ex : List (AEnv W × Act A)} (h : w.run ex = some w') :
    w'.globals = w.globals ∧ Ring.pushAll w.cats (retainedBy (ex.map Prod.snd)) = some w'.cats := by
  induction ex generalizing w with
  | nil => simp only [World.run, Option.some.injEq] at h; subst h; exact ⟨rfl, rfl⟩
  | cons p ex ih =>
    obtain ⟨env, act⟩ := p
    simp only [World.run, bind] at h
    cases hs : w.act env act with
    | none => simp [hs] at h
    | some w₁ =>
      simp only [hs, Option.bind_some] at h
      obtain ⟨a1, a2⟩ := act_globals hs
      obtain ⟨b1, b2⟩ := ih h
      refine ⟨b1.trans a1, ?_⟩
      rw [List.map_cons, ← List.singleton_append, retainedBy_append, pushAll_append, a2]
      exact b2

theorem active_finish (h e : Hist W A) (he : ∀ p ∈ e.head?, p.2 = .finish) : active (h ++ e) = active h := by
  induction h with
  | nil =>
    cases e with
    | nil => rfl
    | cons p e =>
      obtain ⟨env, c⟩ := p
      obtain rfl : c = .finish := he (env, c) (by simp)
      rfl
  | cons p h ih =>
    obtain ⟨e, c⟩ := p
    cases c <;> simp [active, ih]

theorem finishedAt_said (said : List (Said A)) (h : Hist W A) (hs : h.map Prod.snd = said.map Said.call) (e : Hist W A)
    (he : ∀ p ∈ e.head?, p.2 = .finish) : finishedAt (h ++ e) = e.head?.map (·.1.now) := by
  induction h generalizing said with
  | nil =>
    cases e with
    | nil => rfl
    | cons p e =>
      obtain ⟨env, c⟩ := p
      obtain rfl : c = .finish := he (env, c) (by simp)
      rfl
  | cons p h ih =>
    cases said with
    | nil => simp at hs
    | cons s said =>
      obtain ⟨e, c⟩ := p
      simp only [List.map_cons, List.cons.injEq] at hs
      obtain ⟨rfl, hs⟩ := hs
      simp only [List.cons_append, Said.call, Op.deco, finishedAt]
      exact ih said hs

/-- The end of a program: `Finish`, or not yet. -/
def ending (fin : Bool) : List (Call A) := if fin then [.finish] else []

/-- The calls are none, or `Finish` and anything. -/
def Ending (tail : List (Call A)) : Prop := (∀ c ∈ tail.head?, c = .finish) ∧ ∀ c ∈ tail, isRead c = false

theorem ending_ok (fin : Bool) : Ending (ending fin : List (Call A)) := by
  cases fin <;> simp [Ending, ending, isRead]

theorem ending_finish {tail : List (Call A)} (ht : Ending tail) {e : Hist W A} (h : e.map Prod.snd = tail) : ∀ p ∈ e.head?, p.2 = .finish := by
  intro p hp
  refine ht.1 p.2 ?_
  rw [← h]
  cases e with
  | nil => cases hp
  | cons q e => obtain rfl : q = p := by simpa using hp
                simp

/-- A trace after logging calls and possibly `Finish` and anything. -/
theorem said_ended (tail : List (Call A)) (htail : Ending tail) (g : Globals) (start : Time) (id source category : String)
    (w w' : World A) (ex : List (AEnv W × Act A)) (said : List (Said A)) (a : Nat)
    (hex : callsIn a (ex.map Prod.snd) = said.map Said.call ++ tail)
    (hm : ∀ p ∈ ex, notMake a p.2) (hrun : w.run ex = some w')
    (ht : w.traces a = some (newCoreTrace g start id source category zeroTrace))
    (hlen : (said.length : Int) ≤ g.traceMaxEvents) :
    ∃ t calls ended, w'.traces a = some t ∧ callsOn a ex = calls ++ ended ∧ calls.length = said.length ∧ ended.map Prod.snd = tail ∧
      t.id = id ∧ t.source = source ∧ t.category = category ∧ t.start = start ∧ t.finished = !tail.isEmpty ∧
      (t.errored = true ↔ ∃ s ∈ said, isErr s.kind = true) ∧
      (∀ now, t.durationAt now = ((ended.head?.map (·.1.now)).getD now).sub start) ∧
      ∀ (env : Env W) evs, t.events' env = some evs → evs.length = said.length ∧
        ∀ (i : Nat) ev s c, evs[i]? = some ev → said[i]? = some s → (callsOn a ex)[i]? = some c →
          Reports g.traceNoStacks ev (Item.deco ⟨s.tr, s.kind, s.format, s.args, s.stack, c.1⟩) := by
  rw [new_conc (W := W)] at ht
  obtain ⟨h, t', r1, r2, r3⟩ := run_hist hrun ht hm
  rw [run_conc] at r1
  obtain rfl := (Option.some.inj r1).symm
  have hsnd := callsOn_snd a ex
  rw [hex] at hsnd
  obtain ⟨calls, last, hC, hc1, hc2⟩ := List.map_eq_append_iff.mp hsnd
  have hfl := ending_finish htail hc2
  have hz : calls = (calls.map Prod.fst).zip (said.map Said.call) := by
    rw [← hc1]; exact (zip_fst_snd _).symm
  have hcl : calls.length = said.length := by simpa using congrArg List.length hc1
  obtain ⟨g1, g2⟩ := logs_said said (calls.map Prod.fst)
  have g3 := logged_said_length said (calls.map Prod.fst) (by simpa using hcl)
  rw [← hz] at g1 g2 g3
  have hlog : logged (callsOn a ex) = logged calls := by unfold logged; rw [hC, active_finish _ _ hfl]
  have s1 := (SameBut.refl (Abs.new g.traceMaxEvents : Abs W A)).run h
  rw [r3] at s1
  obtain ⟨e1, e2⟩ := run_stored_all (a := (Abs.new g.traceMaxEvents : Abs W A)) rfl
    said.length (callsOn a ex) (by rw [hC, active_finish _ _ hfl, g1]; simp) hlen (by simp [Abs.new, hlog, g3]) rfl
  simp only [Abs.new, List.map_nil, List.nil_append] at e1
  have e3 := run_finishedAt (a := (Abs.new g.traceMaxEvents : Abs W A)) rfl (callsOn a ex)
  have e4 := run_errored (a := (Abs.new g.traceMaxEvents : Abs W A)) rfl (callsOn a ex)
  rw [hC, finishedAt_said said calls hc1 last hfl] at e3
  rw [hlog] at e4 e1
  generalize hx : (Abs.new g.traceMaxEvents : Abs W A).run h = x at s1 r2 ⊢
  have k1 : x.stored.map Stored.entry = logged calls := s1.entries.trans e1
  have k2 : x.trunc = 0 := s1.trunc.trans e2
  have k3 : x.fin = last.head?.map (·.1.now) := by rw [s1.fin, hC, e3]
  have k5 : (last.head?.map (·.1.now)).isSome = !tail.isEmpty := by
    rw [← hc2]
    cases last <;> rfl
  have k4 : x.errored = (logged calls).any fun e => isErr e.kind := by rw [s1.errored, e4]; simp [Abs.new]
  have nth : ∀ (i : Nat) s c, said[i]? = some s → calls[i]? = some c →
      (logged calls)[i]? = some (Item.deco ⟨s.tr, s.kind, s.format, s.args, s.stack, c.1⟩) := by
    intro i s c hs hc
    have hi : i < (logged calls).length := by rw [g3]; exact (List.getElem?_eq_some_iff.mp hs).1
    have := g2 i _ s (List.getElem?_eq_getElem hi) hs
    simp only [List.getElem?_map, hc, Option.map_some] at this
    rw [List.getElem?_eq_getElem hi, this]
  refine ⟨_, calls, last, r2, hC, hcl, hc2, rfl, rfl, rfl, rfl, by show x.fin.isSome = !tail.isEmpty; rw [k3, k5], ?_, ?_, ?_⟩
  · show x.errored = true ↔ _
    rw [k4, List.any_eq_true]
    constructor
    · rintro ⟨e, he, hk⟩
      obtain ⟨i, hi, hie⟩ := List.mem_iff_getElem.mp he
      have h1 : i < said.length := by omega
      have h2 : i < calls.length := by omega
      have := nth i _ _ (List.getElem?_eq_getElem h1) (List.getElem?_eq_getElem h2)
      rw [List.getElem?_eq_getElem hi, hie, Option.some.injEq] at this
      subst this
      exact ⟨said[i], List.getElem_mem h1, hk⟩
    · rintro ⟨s, hs, hk⟩
      obtain ⟨i, hi, his⟩ := List.mem_iff_getElem.mp hs
      have h2 : i < calls.length := by omega
      have := nth i _ _ (List.getElem?_eq_getElem hi) (List.getElem?_eq_getElem h2)
      exact ⟨_, List.mem_of_getElem? this, by rw [← his] at hk; exact hk⟩
  · intro now
    simp only [CoreTrace.durationAt, Abs.conc, k3]
    cases last.head? <;> simp
  · intro env evs hevs
    rw [events'_conc, read_all] at hevs
    simp only [k2, Nat.lt_irrefl, gt_iff_lt, if_false, Option.some.injEq] at hevs
    subst hevs
    refine ⟨by rw [List.length_map, ← g3, ← k1]; simp, ?_⟩
    intro i ev s c hev hs hcc
    simp only [List.getElem?_map, Option.map_eq_some_iff] at hev
    obtain ⟨st, hst, rfl⟩ := hev
    have hi : i < calls.length := by rw [hcl]; exact (List.getElem?_eq_some_iff.mp hs).1
    rw [hC, List.getElem?_append_left hi] at hcc
    have he : (logged calls)[i]? = some st.entry := by rw [← k1]; simp [hst]
    have := nth i s c hs hcc
    rw [he, Option.some.injEq] at this
    rw [← this]
    exact event_reports _ st env.w

end

/-! ## C95 -/

section
variable {W A : Type} [Render W A] [Arg A] [Humanize]

/-- What a look at a trace shows while nothing happens to it. -/
def ShownIn (w : World A) (a : Nat) (st : Static) : Prop :=
  ∃ (t : CoreTrace A) (env : Env W) (evs : List Event), w.traces a = some t ∧ t.events' env = some evs ∧ st = staticOf t env.now evs

/-- The frames of the program on a stack, without trc's own. -/
def programFrames (stack : List StdFrame) : List Frame :=
  (stack.filter fun fr => !ignoreStackFrameFunction fr.function).map toFrame

theorem stackOf_program (nostack : Bool) (stack : List StdFrame) : stackOf nostack stack <+: programFrames stack := by
  unfold stackOf programFrames
  cases nostack with
  | true => simp
  | false =>
    simp only [Bool.false_eq_true, if_false]
    exact ((List.dropLast_prefix _).filter _).map _

theorem trimEvent_spec (n : Nat) (ev : Event) : (trimEvent n ev).isError = ev.isError ∧ (trimEvent n ev).when_ = ev.when_ ∧
    (trimEvent n ev).what = ev.what ∧ (trimEvent n ev).stack <+: ev.stack := by
  unfold trimEvent
  split
  · exact ⟨rfl, rfl, rfl, List.take_prefix _ _⟩
  · exact ⟨rfl, rfl, rfl, List.prefix_refl _⟩

theorem trimStacks_events (st : Static) (d : Int) : (st.trimStacks d).events.length = st.events.length ∧
    ∀ (i : Nat) ev, (st.trimStacks d).events[i]? = some ev → ∃ ev', st.events[i]? = some ev' ∧
      ev.isError = ev'.isError ∧ ev.when_ = ev'.when_ ∧ ev.what = ev'.what ∧ ev.stack <+: ev'.stack := by
  unfold Static.trimStacks
  split
  · exact ⟨rfl, fun i ev h => ⟨ev, h, rfl, rfl, rfl, List.prefix_refl _⟩⟩
  · refine ⟨by simp, fun i ev h => ?_⟩
    simp only [List.getElem?_map, Option.map_eq_some_iff] at h
    obtain ⟨ev', h1, rfl⟩ := h
    refine ⟨ev', h1, ?_⟩
    exact trimEvent_spec _ ev'

theorem ezFrame_ignored (kind : LogKind) : ignoreStackFrameFunction (ezFrame (LogKind.name kind)).function = true := by
  cases kind <;> decide

/-- C95 for a trace made by `NewTrace`, on which anything may be called after `Finish`. -/
theorem found_tail (tail : List (Call A)) (htail : Ending tail) (settings : List Setting) (cap : Nat)
    (ctx : Ctx A) (hctx : maybeGet ctx = none) (a : Nat) (id source category : String) (ds : List (Decorator A))
    (hd : ∀ d ∈ ds, d.Tame) (stack : List StdFrame) (ctx' : Ctx A) (tr : Tr A) (acts : List (Act A))
    (hnew : newTrace ctx a id source category ds stack = (ctx', tr, acts))
    (lines : List (Line A)) (hlines : ∀ l ∈ lines, Below ctx' l.ctx l.prefixes ∧ Fits l.prefixes)
    (hmax : (lines.length : Int) ≤ (Globals.after settings).traceMaxEvents)
    (ex : List (AEnv W × Act A)) (w : World A)
    (hrun : ({ globals := Globals.after settings, cats := Ring.newRBs (cap : Int) } : World A).run ex = some w)
    (hmine : (ex.map Prod.snd).filter (·.concerns a) = (acts ++ lines.flatMap Line.acts).filter (·.concerns a) ++ tail.map (Act.call a))
    (hid : ∀ env, (env, .make a source category) ∈ ex → env.id = id)
    (hrecent : ∀ before env after, ex = before ++ (env, .retain category tr) :: after →
      after.countP (fun p => p.2.retainsIn category) < cap)
    (compile : Compile) (srt : List Static → List Static) (hs : SortOK srt) (name : String) (req : SearchRequest)
    (hreq : req.filter = { ids := [id] }) (view : Tr A → Look → Static)
    (hview : ∀ look, ShownIn (W := W) w a (view tr look)) (hothers : ∀ v look, v.root ≠ a → (view v look).id ≠ id)
    (rings : List (Ring.RB (Tr A))) (hrings : rings.Perm (w.cats.bufs.map Prod.snd)) :
    ∃ res st start calls ended, search compile srt name req view rings = some res ∧ res.traces = [st] ∧ res.matchCount = 1 ∧
      st.id = id ∧ st.source = source ∧ st.category = category ∧ st.finished = !tail.isEmpty ∧
      (start, Act.make a source category) ∈ ex ∧ callsOn a ex = calls ++ ended ∧ calls.length = lines.length ∧
      ended.map Prod.snd = tail ∧ st.started = start.now ∧ (∀ e ∈ ended.head?, st.duration = e.1.now.sub start.now) ∧
      (st.errored = true ↔ ∃ l ∈ lines, isErr l.kind = true) ∧
      st.events.length = lines.length ∧
      ∀ (i : Nat) ev l c, st.events[i]? = some ev → lines[i]? = some l → calls[i]? = some c →
        ev.isError = isErr l.kind ∧ ev.when_ = c.1.now ∧ ev.stack <+: programFrames l.stack ∧
        ∃ m : W, ev.what = prefixTexts m l.prefixes ++ sprintf m l.format l.args ∧ (isLazy l.kind = false → m = c.1.w) := by
  obtain ⟨ctx₁, tr₁, acts₁, e0, hg, hroot, hunp, hacts⟩ := newTrace_spec ctx hctx a id source category ds hd stack
  rw [hnew] at e0
  obtain ⟨rfl, rfl, rfl⟩ : ctx' = ctx₁ ∧ tr = tr₁ ∧ acts = acts₁ := by simpa using e0
  -- the lines go through traces around the new one
  have hl : ∀ l ∈ lines, maybeGet l.ctx = some l.said.tr ∧ Under tr l.said.tr l.prefixes ∧ l.said.tr.root = a ∧ l.acts = l.said.acts := by
    intro l hm
    obtain ⟨h1, h2⟩ := hlines l hm
    obtain ⟨tr', h3, h4⟩ := below_under hg h1
    have h5 : get l.ctx l.orphan = (tr', []) := by simp [get, h3]
    have h6 : l.said.tr = tr' := by simp [Line.said, h5]
    rw [h6]
    refine ⟨h3, h4, (under_text (W := W) h4 hunp h2).2.1.trans hroot, ?_⟩
    cases hdir : l.direct <;> simp [Line.acts, ezLog, Said.acts, Line.said, h5, hdir]
  have hlc : (lines.flatMap Line.acts).filter (·.concerns a) = lines.map fun l => .call a l.said.call := by
    clear hmine hmax hlines
    induction lines with
    | nil => rfl
    | cons l lines ih =>
      obtain ⟨-, -, h3, h4⟩ := hl l (by simp)
      rw [List.flatMap_cons, List.filter_append, ih (fun l' h' => hl l' (by simp [h'])), h4, List.map_cons, Said.acts]
      have := logActs_concerns l.said.tr l.said.kind l.said.format l.said.args l.said.stack
      rw [h3] at this
      rw [this]
      rfl
  rw [List.filter_append, hacts, hlc] at hmine
  obtain ⟨before, start, post, rfl, hb, hpost⟩ := split_first hmine
  obtain ⟨between, envr, after, rfl, hbt, hafter⟩ := split_first hpost
  have hrec := hrecent (before ++ (start, .make a source category) :: between) envr after (by simp)
  -- the execution up to the creation
  rw [world_run_append] at hrun
  cases hw1 : ({ globals := Globals.after settings, cats := Ring.newRBs (cap : Int) } : World A).run before with
  | none => rw [hw1] at hrun; cases hrun
  | some w₁ =>
  have hall : ({ globals := Globals.after settings, cats := Ring.newRBs (cap : Int) } : World A).run
      (before ++ (start, .make a source category) :: (between ++ (envr, .retain category tr) :: after)) = some w := by
    rw [world_run_append]; exact hrun
  rw [hw1, Option.bind_some] at hrun
  have hcats := (run_globals hall).2
  have hglob := (run_globals hw1).1
  simp only [World.run, World.act, bind, Option.bind_some] at hrun
  -- the calls on the trace
  have hnocall : ∀ act : Act A, act.concerns a = false → callOn a act = none := by
    intro act h
    cases act with
    | call b c => cases c <;> simp_all [callOn, isRead, Act.concerns]
    | _ => rfl
  have hcb : callsOn a before = [] := by
    unfold callsOn
    rw [List.filterMap_eq_nil_iff]
    intro p hp
    rw [hnocall _ (hb p hp)]
    rfl
  have hcalls : callsOn a (before ++ (start, .make a source category) :: (between ++ (envr, .retain category tr) :: after)) =
      callsOn a (between ++ (envr, .retain category tr) :: after) := by
    have : ∀ l l' : List (AEnv W × Act A), callsOn a (l ++ l') = callsOn a l ++ callsOn a l' := fun l l' => List.filterMap_append
    rw [this, hcb, List.nil_append, ← List.singleton_append, this]
    rfl
  have hci : callsIn a ((between ++ (envr, .retain category tr) :: after).map Prod.snd) = (lines.map Line.said).map Said.call ++ tail := by
    rw [callsIn_concerns, hpost]
    have : ∀ (l : List (Line A)), callsIn a ((.retain category tr :: l.map fun l => Act.call a l.said.call) ++ tail.map (Act.call a)) =
        (l.map Line.said).map Said.call ++ tail := by
      intro l
      rw [callsIn_append, ← List.singleton_append, callsIn_append]
      have e1 : callsIn a [(Act.retain category tr : Act A)] = [] := rfl
      have e2 : callsIn a (tail.map (Act.call a) : List (Act A)) = tail := by
        have hr := htail.2
        clear hmine hpost htail hafter
        induction tail with
        | nil => rfl
        | cons c tail ih =>
          have h1 := hr c (by simp)
          have h2 := ih fun c' h' => hr c' (by simp [h'])
          unfold callsIn at h2 ⊢
          rw [List.map_cons, List.filterMap_cons, h2]
          simp [callOn, h1]
      have e3 : callsIn a (l.map fun l => Act.call a l.said.call) = (l.map Line.said).map Said.call := by
        induction l with
        | nil => rfl
        | cons x l ih =>
          unfold callsIn at ih ⊢
          rw [List.map_cons, List.filterMap_cons, ih]
          simp [callOn, isRead, Said.call, Op.deco]
      rw [e1, e2, e3]
      rfl
    exact this lines
  have hnm : ∀ p ∈ between ++ (envr, Act.retain category tr) :: after, notMake a p.2 := by
    intro p hp
    have hp' : p.2 ∈ (between ++ (envr, Act.retain category tr) :: after).map Prod.snd := List.mem_map_of_mem hp
    cases hq : p.2 with
    | make b s c =>
      show b ≠ a
      rintro rfl
      rw [hq] at hp'
      have : (Act.make b s c : Act A) ∈ ((between ++ (envr, Act.retain category tr) :: after).map Prod.snd).filter (·.concerns b) :=
        List.mem_filter.mpr ⟨hp', by simp [Act.concerns]⟩
      rw [hpost] at this
      simp at this
    | _ => trivial
  obtain ⟨t, calls, ended, t1, t2, t3, t12, t4, t5, t6, t7, t8, t9, t10, t11⟩ :=
    said_ended tail htail (Globals.after settings) start.now start.id source category _ w _ (lines.map Line.said) a hci hnm hrun
      (by simp [World.set, hglob]) (by simpa using hmax)
  have hsid : start.id = id := hid start (by simp)
  -- the buffers
  have hR : retainedBy ((before ++ (start, .make a source category) :: (between ++ (envr, .retain category tr) :: after)).map Prod.snd) =
      retainedBy ((before ++ (start, .make a source category) :: between).map Prod.snd) ++ (category, tr) :: retainedBy (after.map Prod.snd) := by
    have : before ++ (start, .make a source category) :: (between ++ (envr, .retain category tr) :: after) =
      (before ++ (start, .make a source category) :: between) ++ (envr, .retain category tr) :: after := by simp
    rw [this, List.map_append, retainedBy_append]
    rfl
  have hnoret : ∀ {l : List (AEnv W × Act A)}, (∀ p ∈ l, ∀ c x, p.2 = .retain c x → x.root ≠ a) → ∀ p ∈ retainedBy (l.map Prod.snd), p.2.root ≠ a := by
    intro l hl'
    apply retainedBy_other
    intro act hact c x hx
    obtain ⟨p, hp, rfl⟩ := List.mem_map.mp hact
    exact hl' p hp c x hx
  have hno1 : ∀ p ∈ retainedBy ((before ++ (start, .make a source category) :: between).map Prod.snd), p.2.root ≠ a := by
    apply hnoret
    intro p hp c x hx hxa
    have hc : p.2.concerns a = true := by rw [hx]; simp [Act.concerns, hxa]
    rcases List.mem_append.mp hp with hp | hp
    · rw [hb p hp] at hc; cases hc
    · rcases List.mem_cons.mp hp with rfl | hp
      · cases hx
      · rw [hbt p hp] at hc; cases hc
  have hno2 : ∀ p ∈ retainedBy (after.map Prod.snd), p.2.root ≠ a := by
    apply hnoret
    intro p hp c x hx hxa
    have hc : p.2.concerns a = true := by rw [hx]; simp [Act.concerns, hxa]
    have : p.2 ∈ (after.map Prod.snd).filter (·.concerns a) := List.mem_filter.mpr ⟨List.mem_map_of_mem hp, hc⟩
    rw [hafter, hx] at this
    simp at this
  generalize retainedBy ((before ++ (start, .make a source category) :: between).map Prod.snd) = R₁ at hR hno1
  obtain ⟨s, hs1, hs2⟩ := Ring.C07_category_contents cap (R₁ ++ (category, tr) :: retainedBy (after.map Prod.snd))
  rw [hR] at hcats
  have hcats' : Ring.pushAll (Ring.newRBs (cap : Int)) _ = some w.cats := hcats
  rw [hs1] at hcats'
  obtain rfl := Option.some.inj hcats'
  obtain ⟨hist, hA⟩ : ∃ hist, Ring.After hist w.cats := by
    have : ∀ (l : List (String × Tr A)) (s s' : Ring.RBs (Tr A)) hist, Ring.After hist s → Ring.pushAll s l = some s' → ∃ hist', Ring.After hist' s' := by
      intro l
      induction l with
      | nil => intro s s' hist h e; obtain rfl := Option.some.inj e; exact ⟨hist, h⟩
      | cons p l ih =>
        intro s s' hist h e
        obtain ⟨k, v⟩ := p
        obtain ⟨s₁, d, e1, e2, -⟩ := h.run [.getOrCreate k, .add k v]
        simp only [Ring.pushAll, Ring.RBs.push, e1, bind, Option.bind_some] at e
        exact ih _ _ _ e2 e
    exact this _ _ _ _ (Ring.reached_new cap) hs1
  have hviewid : ∀ look, (view tr look).id = id := by
    intro look
    obtain ⟨t', env, evs, h1, h2, h3⟩ := hview look
    rw [t1] at h1
    obtain rfl := Option.some.inj h1
    rw [h3]
    exact t4.trans hsid
  obtain ⟨res, f1, f2, f3⟩ := Search.found_one compile srt hs name req id hreq view hA rings hrings tr category (by
    intro k items hk
    rw [hs2 k] at hk
    obtain rfl := Option.some.inj hk
    have hnone : ∀ l : List (Tr A), (∀ v ∈ l, v.root ≠ a) → l.filter (fun v => decide ((view v .filter).id = id)) = [] := by
      intro l h
      rw [List.filter_eq_nil_iff]
      intro v hv
      simp [hothers v .filter (h v hv)]
    have hpart : ∀ (R : List (String × Tr A)), (∀ p ∈ R, p.2.root ≠ a) → ∀ v ∈ ((R.filter (·.1 == k)).map Prod.snd).reverse, v.root ≠ a := by
      intro R h v hv
      obtain ⟨p, hp, rfl⟩ := List.mem_map.mp (List.mem_reverse.mp hv)
      exact h p (List.mem_filter.mp hp).1
    by_cases e : k = category
    · subst e
      rw [if_pos rfl]
      simp only [List.filter_append, List.filter_cons, beq_self_eq_true, if_true, List.map_append, List.map_cons, List.reverse_append, List.reverse_cons,
        List.append_assoc, List.singleton_append]
      have hcnt : (((retainedBy (after.map Prod.snd)).filter (·.1 == k)).map Prod.snd).reverse.length < cap := by
        rw [List.length_reverse, List.length_map, retainedBy_count, List.countP_map]
        exact hrec
      rw [List.take_append, List.take_of_length_le (by omega)]
      obtain ⟨n, hn⟩ : ∃ n, cap - (((retainedBy (after.map Prod.snd)).filter (·.1 == k)).map Prod.snd).reverse.length = n + 1 :=
        ⟨cap - (((retainedBy (after.map Prod.snd)).filter (·.1 == k)).map Prod.snd).reverse.length - 1, by omega⟩
      rw [hn, List.take_succ_cons, List.filter_append, hnone _ (hpart _ hno2), List.filter_cons, if_pos (by simp [hviewid]),
        hnone _ (fun v hv => hpart _ hno1 v ((List.take_sublist _ _).subset hv))]
      rfl
    · rw [if_neg e]
      apply hnone
      intro v hv
      have hv := (List.take_sublist _ _).subset hv
      rw [List.filter_append, List.filter_cons, if_neg (by simp [Ne.symm e]), List.map_append, List.reverse_append, List.mem_append] at hv
      rcases hv with hv | hv
      · exact hpart _ hno2 v hv
      · exact hpart _ hno1 v hv)
  obtain ⟨t', env, evs, v1, v2, v3⟩ := hview .copy
  rw [t1] at v1
  obtain rfl := Option.some.inj v1
  obtain ⟨l1, l2⟩ := t11 env evs v2
  rw [List.length_map] at l1 t3
  obtain ⟨k1, k2⟩ := trimStacks_events (view tr .copy) req.stackDepth
  have hev : (view tr .copy).events = evs := by rw [v3]; rfl
  refine ⟨res, _, start, calls, ended, f1, f2, f3, ?_, ?_, ?_, ?_, by simp, by rw [hcalls, t2], t3, t12, ?_, ?_, ?_, ?_, ?_⟩
  · rw [copyOf_trim, trimStacks_id]; exact hviewid .copy
  · have : ∀ d, ((view tr .copy).trimStacks d).source = source := by intro d; unfold Static.trimStacks; rw [v3]; split <;> exact t5
    rw [copyOf_trim]; exact this _
  · have : ∀ d, ((view tr .copy).trimStacks d).category = category := by intro d; unfold Static.trimStacks; rw [v3]; split <;> exact t6
    rw [copyOf_trim]; exact this _
  · have : ∀ d, ((view tr .copy).trimStacks d).finished = !tail.isEmpty := by intro d; unfold Static.trimStacks; rw [v3]; split <;> exact t8
    rw [copyOf_trim]; exact this _
  · rw [copyOf_started, v3]; exact t7
  · intro e he
    have hd : t.durationAt env.now = e.1.now.sub start.now := by
      rw [t10]
      cases ended with
      | nil => cases he
      | cons q l =>
        obtain rfl : q = e := by simpa using he
        rfl
    have : ∀ d, ((view tr .copy).trimStacks d).duration = e.1.now.sub start.now := by intro d; unfold Static.trimStacks; rw [v3]; split <;> exact hd
    rw [copyOf_trim]; exact this _
  · have : ∀ d, ((view tr .copy).trimStacks d).errored = t.errored := by intro d; unfold Static.trimStacks; rw [v3]; split <;> rfl
    rw [show (copyOf req view tr).errored = t.errored from by rw [copyOf_trim]; exact this _, t9]
    simp [Line.said]
  · rw [copyOf_trim, k1, hev, l1]
  · intro i ev l c hi hli hc
    obtain ⟨ev', m1, m2, m3, m4, m5⟩ := k2 i ev (by rw [← copyOf_trim]; exact hi)
    rw [hev] at m1
    have hic : i < calls.length := (List.getElem?_eq_some_iff.mp hc).1
    have hc' : (callsOn a (between ++ (envr, Act.retain category tr) :: after))[i]? = some c := by
      rw [t2, List.getElem?_append_left hic]; exact hc
    have r := l2 i ev' l.said c m1 (by simp [hli]) hc'
    have hml : l ∈ lines := List.mem_of_getElem? hli
    obtain ⟨n1, n2, n3, n4⟩ := hl l hml
    refine ⟨m2.trans r.2.1, m3.trans r.1, ?_, ?_⟩
    · refine m5.trans ?_
      rw [r.2.2.1]
      have e1 : (Item.deco (W := W) ⟨l.said.tr, l.said.kind, l.said.format, l.said.args, l.said.stack, c.1⟩).callers =
          ((l.said.tr.frames l.kind ++ if l.direct then [] else [ezFrame (LogKind.name l.kind)]) ++ l.stack).take 8 := by
        simp [Item.deco, Line.said]
      rw [e1]
      refine (stack_prefix _ _ _ ?_).trans ((stackOf_program _ _).trans ?_)
      · intro fr hfr
        rcases List.mem_append.mp hfr with h | h
        · exact frames_ignored _ _ fr h
        · split at h
          · cases h
          · rw [List.mem_singleton.mp h]; exact ezFrame_ignored _
      · exact ((List.take_prefix 8 l.stack).filter _).map _
    · obtain ⟨u1, _, u3⟩ := under_text (W := W) n2 hunp (hlines l hml).2
      have key : ∀ m : W, sprintf m (l.said.tr.pformat ++ l.format) (l.said.tr.pargs ++ l.args) = prefixTexts m l.prefixes ++ sprintf m l.format l.args := by
        intro m
        rw [sprintf_append m _ _ _ _ u1, u3 m]
      rw [m4]
      cases hz : isLazy l.kind with
      | false => exact ⟨c.1.w, (r.2.2.2.1 hz).trans (key _), fun _ => rfl⟩
      | true =>
        obtain ⟨m, hm⟩ := r.2.2.2.2
        exact ⟨m, hm.trans (key m), fun h => by simp at h⟩

/-- C95 for a trace made by `NewTrace`. -/
theorem found_new (fin : Bool) (settings : List Setting) (cap : Nat)
    (ctx : Ctx A) (hctx : maybeGet ctx = none) (a : Nat) (id source category : String) (ds : List (Decorator A))
    (hd : ∀ d ∈ ds, d.Tame) (stack : List StdFrame) (ctx' : Ctx A) (tr : Tr A) (acts : List (Act A))
    (hnew : newTrace ctx a id source category ds stack = (ctx', tr, acts))
    (lines : List (Line A)) (hlines : ∀ l ∈ lines, Below ctx' l.ctx l.prefixes ∧ Fits l.prefixes)
    (hmax : (lines.length : Int) ≤ (Globals.after settings).traceMaxEvents)
    (ex : List (AEnv W × Act A)) (w : World A)
    (hrun : ({ globals := Globals.after settings, cats := Ring.newRBs (cap : Int) } : World A).run ex = some w)
    (hmine : (ex.map Prod.snd).filter (·.concerns a) = (acts ++ lines.flatMap Line.acts ++ if fin then tr.finishActs else []).filter (·.concerns a))
    (hid : ∀ env, (env, .make a source category) ∈ ex → env.id = id)
    (hrecent : ∀ before env after, ex = before ++ (env, .retain category tr) :: after →
      after.countP (fun p => p.2.retainsIn category) < cap)
    (compile : Compile) (srt : List Static → List Static) (hs : SortOK srt) (name : String) (req : SearchRequest)
    (hreq : req.filter = { ids := [id] }) (view : Tr A → Look → Static)
    (hview : ∀ look, ShownIn (W := W) w a (view tr look)) (hothers : ∀ v look, v.root ≠ a → (view v look).id ≠ id)
    (rings : List (Ring.RB (Tr A))) (hrings : rings.Perm (w.cats.bufs.map Prod.snd)) :
    ∃ res st start calls ended, search compile srt name req view rings = some res ∧ res.traces = [st] ∧ res.matchCount = 1 ∧
      st.id = id ∧ st.source = source ∧ st.category = category ∧ st.finished = fin ∧
      (start, Act.make a source category) ∈ ex ∧ callsOn a ex = calls ++ ended ∧ calls.length = lines.length ∧
      ended.map Prod.snd = (if fin then [.finish] else []) ∧ st.started = start.now ∧ (∀ e ∈ ended, st.duration = e.1.now.sub start.now) ∧
      (st.errored = true ↔ ∃ l ∈ lines, isErr l.kind = true) ∧
      st.events.length = lines.length ∧
      ∀ (i : Nat) ev l c, st.events[i]? = some ev → lines[i]? = some l → calls[i]? = some c →
        ev.isError = isErr l.kind ∧ ev.when_ = c.1.now ∧ ev.stack <+: programFrames l.stack ∧
        ∃ m : W, ev.what = prefixTexts m l.prefixes ++ sprintf m l.format l.args ∧ (isLazy l.kind = false → m = c.1.w) := by
  obtain ⟨ctx₁, tr₁, acts₁, e0, -, hroot, -, -⟩ := newTrace_spec ctx hctx a id source category ds hd stack
  rw [hnew] at e0
  obtain ⟨rfl, rfl, rfl⟩ : ctx' = ctx₁ ∧ tr = tr₁ ∧ acts = acts₁ := by simpa using e0
  have hfc : (if fin then tr.finishActs else []).filter (·.concerns a) = (ending fin).map (Act.call a) := by
    cases fin with
    | true =>
      have := finishActs_concerns tr
      rw [hroot] at this
      exact this
    | false => rfl
  rw [List.filter_append _ (if fin then tr.finishActs else []), hfc] at hmine
  obtain ⟨res, st, start, calls, ended, h1, h2, h3, h4, h5, h6, h7, h8, h9, h10, h11, h12, h13, h14, h15, h16⟩ :=
    found_tail (ending fin) (ending_ok fin) settings cap ctx hctx a id source category ds hd _ ctx' tr acts hnew lines hlines hmax ex w hrun hmine hid hrecent
      compile srt hs name req hreq view hview hothers rings hrings
  refine ⟨res, st, start, calls, ended, h1, h2, h3, h4, h5, h6, by rw [h7]; cases fin <;> rfl, h8, h9, h10, h11, h12, ?_, h14, h15, h16⟩
  intro e he
  refine h13 e ?_
  cases ended with
  | nil => cases he
  | cons q l =>
    have : l = [] := by
      cases fin <;> simp [ending] at h11
      exact h11.2
    subst this
    rw [List.mem_singleton.mp he]
    rfl

/-- C95.  A program calls `eztrc.New` on a context without a trace, logs with `eztrc.Tracef` and so on
through contexts derived from the one returned, with any prefixes put on the way, and has finished the
trace or not; other goroutines do anything else meanwhile and later, but create fewer traces in that category
afterwards than its size.  Then a search for the ID of the trace returns that trace and no other, with
its source, category, time, duration and outcome, finished or not, and an event for each line logged so far, in order, with
its text, the text of the prefixes before it, its time and the frames of the program alone. -/
theorem C95_found (fin : Bool) (settings : List Setting) (cap : Nat)
    (ctx : Ctx A) (hctx : maybeGet ctx = none) (a : Nat) (id source category : String) (ds : List (Decorator A))
    (hd : ∀ d ∈ ds, d.Tame) (stack : List StdFrame) (ctx' : Ctx A) (tr : Tr A) (acts : List (Act A))
    (hnew : ezNew ctx a id source category ds stack = (ctx', tr, acts))
    (lines : List (Line A)) (hlines : ∀ l ∈ lines, Below ctx' l.ctx l.prefixes ∧ Fits l.prefixes)
    (hmax : (lines.length : Int) ≤ (Globals.after settings).traceMaxEvents)
    (ex : List (AEnv W × Act A)) (w : World A)
    (hrun : ({ globals := Globals.after settings, cats := Ring.newRBs (cap : Int) } : World A).run ex = some w)
    (hmine : (ex.map Prod.snd).filter (·.concerns a) = (acts ++ lines.flatMap Line.acts ++ if fin then tr.finishActs else []).filter (·.concerns a))
    (hid : ∀ env, (env, .make a source category) ∈ ex → env.id = id)
    (hrecent : ∀ before env after, ex = before ++ (env, .retain category tr) :: after →
      after.countP (fun p => p.2.retainsIn category) < cap)
    (compile : Compile) (srt : List Static → List Static) (hs : SortOK srt) (name : String) (req : SearchRequest)
    (hreq : req.filter = { ids := [id] }) (view : Tr A → Look → Static)
    (hview : ∀ look, ShownIn (W := W) w a (view tr look)) (hothers : ∀ v look, v.root ≠ a → (view v look).id ≠ id)
    (rings : List (Ring.RB (Tr A))) (hrings : rings.Perm (w.cats.bufs.map Prod.snd)) :
    ∃ res st start calls ended, search compile srt name req view rings = some res ∧ res.traces = [st] ∧ res.matchCount = 1 ∧
      st.id = id ∧ st.source = source ∧ st.category = category ∧ st.finished = fin ∧
      (start, Act.make a source category) ∈ ex ∧ callsOn a ex = calls ++ ended ∧ calls.length = lines.length ∧
      ended.map Prod.snd = (if fin then [.finish] else []) ∧ st.started = start.now ∧ (∀ e ∈ ended, st.duration = e.1.now.sub start.now) ∧
      (st.errored = true ↔ ∃ l ∈ lines, isErr l.kind = true) ∧
      st.events.length = lines.length ∧
      ∀ (i : Nat) ev l c, st.events[i]? = some ev → lines[i]? = some l → calls[i]? = some c →
        ev.isError = isErr l.kind ∧ ev.when_ = c.1.now ∧ ev.stack <+: programFrames l.stack ∧
        ∃ m : W, ev.what = prefixTexts m l.prefixes ++ sprintf m l.format l.args ∧ (isLazy l.kind = false → m = c.1.w) :=
  found_new fin settings cap ctx hctx a id source category ds hd _ ctx' tr acts hnew lines hlines hmax ex w hrun hmine hid hrecent
    compile srt hs name req hreq view hview hothers rings hrings

end

end Trc.Wrap

/-! ## Example -/

namespace Trc.Wrap.Witness.Easy

open Core Core.Spec Fmt

/-- Two traces in the same category; the first one logs three lines, one of them under a prefix, one lazy
error, while the second one is created and logs, and someone reads. -/
def at_ (n : Int) (id : String) : AEnv Unit := { now := ⟨n, none⟩, w := (), id, subscribed := true }
def mine : Ctx String × Tr String × List (Act String) := ezNew .background 0 "m" "default" "cat" [logDecorator 1] (stack 2)
def theirs : Ctx String × Tr String × List (Act String) := ezNew .background 1 "t" "default" "cat" [] (stack 2)
def sub : Ctx String := (prefixed (.derived mine.1) 7 " p %s: " ["x"]).1
def lines : List (Line String) :=
  [⟨mine.1, [], 8, .tracef, "one %s", ["1"], stack 3, false⟩, ⟨sub, [(" p %s: ", ["x"])], 8, .tracef, "two", [], stack 3, false⟩,
   ⟨mine.1, [], 8, .lazyErrorf, "three", [], stack 9, true⟩]
def run : List (AEnv Unit × Act String) :=
  mine.2.2.map (fun act => (at_ 1 "m", act)) ++ theirs.2.2.map (fun act => (at_ 2 "t", act)) ++
  (lines.flatMap Line.acts).map (fun act => (at_ 3 "", act)) ++ [(at_ 4 "", .call 0 (.read 1 true))] ++
  (ezLog theirs.1 9 .tracef "no" [] (stack 3)).map (fun act => (at_ 5 "", act)) ++ mine.2.1.finishActs.map (fun act => (at_ 6 "", act))

def final : Option (World String) := ({ globals := Globals.after [], cats := Ring.newRBs ((10 : Nat) : Int) } : World String).run run

def seen : Option (CoreTrace String × List Event) := do
  let w ← final
  let t ← w.traces 0
  let evs ← t.events' (at_ 9 "").toEnv
  return (t, evs)

def shown (v : Tr String) (_ : Look) : Static :=
  if v.root = 0 then (seen.map fun p => staticOf p.1 (at_ 9 "").now p.2).getD default else default

theorem final_some : final.isSome = true := by decide +kernel
theorem seen_some : seen.isSome = true := by decide +kernel
theorem count : run.countP (fun p => p.2.retainsIn "cat") = 2 := by decide +kernel

theorem below_sub : Below mine.1 sub [(" p %s: ", ["x"])] := by
  have h := Below.pre (ctx₀ := mine.1) 7 " p %s: " ["x"] (.derived .here)
  rw [List.nil_append] at h
  exact h

theorem fits_sub : Fits [(" p %s: ", ["x"])] := by
  intro p hp
  rw [List.mem_singleton.mp hp]
  exact ⟨by decide +kernel, by intro h; exact absurd h (by decide +kernel)⟩

theorem lines_ok : ∀ l ∈ lines, Below mine.1 l.ctx l.prefixes ∧ Fits l.prefixes := by
  intro l hl
  unfold lines at hl
  simp only [List.mem_cons, List.not_mem_nil, or_false] at hl
  rcases hl with h | h | h
  · rw [h]; exact ⟨.here, by intro p hp; cases hp⟩
  · rw [h]; exact ⟨below_sub, fits_sub⟩
  · rw [h]; exact ⟨.here, by intro p hp; cases hp⟩

/-- Only the first creation is at address 0. -/
def wrong (p : AEnv Unit × Act String) : Bool :=
  match p.2 with
  | .make 0 _ _ => p.1.id != "m"
  | _ => false

theorem ids : run.any wrong = false := by decide +kernel

theorem only_mine : (run.map Prod.snd).filter (·.concerns 0) =
    (mine.2.2 ++ lines.flatMap Line.acts ++ if true then mine.2.1.finishActs else []).filter (·.concerns 0) := by
  unfold run
  simp only [List.map_append, List.map_map, List.filter_append, Function.comp_def, List.map_id', if_true]
  have e1 : theirs.2.2.filter (·.concerns 0) = [] := rfl
  have e2 : (ezLog theirs.1 9 .tracef "no" [] (stack 3)).filter (·.concerns 0) = [] := rfl
  rw [e1, e2]
  simp [Act.concerns]

theorem shown_mine (w : World String) (hw : final = some w) (look : Look) : ShownIn (W := Unit) w 0 (shown mine.2.1 look) := by
  obtain ⟨⟨t, evs⟩, hs⟩ := Option.isSome_iff_exists.mp seen_some
  have hs' := hs
  unfold seen at hs'
  rw [hw] at hs'
  obtain ⟨w', hw', hs'⟩ := Option.bind_eq_some_iff.mp hs'
  obtain rfl := Option.some.inj hw'
  obtain ⟨t', ht, hs'⟩ := Option.bind_eq_some_iff.mp hs'
  obtain ⟨evs', he, hs'⟩ := Option.bind_eq_some_iff.mp hs'
  obtain ⟨rfl, rfl⟩ := Prod.mk.inj (Option.some.inj hs')
  refine ⟨t', (at_ 9 "").toEnv, evs', ht, he, ?_⟩
  have h0 : mine.2.1.root = 0 := rfl
  unfold shown
  rw [if_pos h0, hs]
  rfl

/-- The hypotheses are met, and the response has the three lines. -/
example : ∃ w res st, final = some w ∧ search (fun _ => .error "") sortNewest "s" { filter := { ids := ["m"] } } shown (w.cats.bufs.map Prod.snd) = some res ∧
    res.traces = [st] ∧ st.finished = true ∧ st.errored = true ∧ st.events.length = 3 := by
  obtain ⟨w, hw⟩ := Option.isSome_iff_exists.mp final_some
  obtain ⟨res, st, start, calls, ended, h1, h2, h3, h4, h5, h6, h7, h8, h9, h10, h11, h12, h13, h14, h15, -⟩ :=
    C95_found (W := Unit) true [] 10 .background rfl 0 "m" "default" "cat" [logDecorator 1]
      (by intro d hd; rw [List.mem_singleton.mp hd]; exact logDecorator_tame 1) (stack 2) mine.1 mine.2.1 mine.2.2 (by rw [mine]) lines
      lines_ok (by decide) run w (by rw [final] at hw; exact hw) only_mine
      (by
        intro e he
        have h := List.any_eq_false.mp ids _ he
        simpa [wrong] using h)
      (by
        intro before e after h
        have h0 := count
        rw [h, List.countP_append, List.countP_cons] at h0
        omega)
      (fun _ => .error "") sortNewest sortNewest_ok "s" { filter := { ids := ["m"] } } rfl shown (shown_mine w hw)
      (by
        intro v look hv
        unfold shown
        rw [if_neg hv]
        decide)
      (w.cats.bufs.map Prod.snd) (List.Perm.refl _)
  exact ⟨w, res, st, hw, h1, h2, h7, h14.mpr ⟨_, List.mem_cons_of_mem _ (List.mem_cons_of_mem _ (List.mem_cons_self ..)), rfl⟩, h15⟩

/-- The texts. -/
example : seen.map (fun p => p.2.map fun ev => (ev.what, ev.isError, ev.stack.length)) =
    some [("one 1", false, 2), ("p x: two", false, 2), ("three", true, 5)] := by decide +kernel

end Trc.Wrap.Witness.Easy
