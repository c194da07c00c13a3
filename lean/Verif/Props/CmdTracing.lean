import Verif.Cmd.Tracing
import Verif.Props.Searching
import Verif.Props.LogLines

/-!
# C137: with `--log trace`, `trc search` tells what each server answered
-/

set_option linter.unusedSectionVars false

namespace Trc.Cmd

open Trc.Wrap Core Core.Spec Fmt

/-! ## Specification -/

/-- The numbers of an answer. -/
def numbers (total matched returned : Int) : String :=
  "total " ++ toString total ++ ", matched " ++ toString matched ++ ", returned " ++ toString returned

/-- What is said about a server, the `n`th one that was given. -/
def saidOf (n : Nat) : String × Except String Counts → List String
  | (uri, .ok c) => ["<" ++ toString n ++ "> " ++ uri ++ " -> " ++ numbers c.total c.matched c.returned]
  | (_, .error e) => ["ERROR: <" ++ toString n ++ "> error: " ++ e, toString n ++ ": error: " ++ e]

/-- What is said about the servers from the `n`th one on. -/
def saidFrom (n : Nat) : List (String × Except String Counts) → List String
  | [] => []
  | s :: ss => saidOf n s ++ saidFrom (n + 1) ss

/-- The answers that there are. -/
def answered (servers : List (String × Except String Counts)) : List Counts :=
  servers.filterMap fun s => s.2.toOption

/-- The outcome of the search. -/
def outcomeText (limit : Int) (servers : List (String × Except String Counts)) : String :=
  numbers ((answered servers).map (·.total)).sum ((answered servers).map (·.matched)).sum (min limit ((answered servers).map (·.returned)).sum)

/-- A server has not answered. -/
def someFailed (servers : List (String × Except String Counts)) : Bool :=
  servers.any fun s => s.2.toOption.isNone

/-! ## Lemmas -/

variable {W A : Type} [Render W A] [Arg A] [Humanize] {v : Values A} {limit : Int}

/-- A format that does not end with a newline, and takes its arguments. -/
def Plain (x : Logged A) : Prop := Takes x.format x.args.length ∧ x.format.toList.getLast?.any (· ≠ '\n') = true

theorem plain_own (ids : List String) (ctx : Ctx A) (stack : List StdFrame) (kind : LogKind) (f : String) (args : List A) (n : Nat) (hn : args.length = n)
    (h : Takes f n) (h' : f.toList.getLast?.any (· ≠ '\n') = true) : Plain (ownLine ids ctx stack (kind, f, args)) := by
  subst hn
  exact ⟨h, h'⟩

theorem plain_gather (ids : List String) (ctx : Ctx A) (stack : List StdFrame) (id : String) (a : Answer) :
    ∀ x ∈ (gatherLines v id a).map (ownLine ids ctx stack), Plain x := by
  intro x hx
  obtain ⟨l, hl, rfl⟩ := List.mem_map.mp hx
  obtain ⟨r, e⟩ := a
  cases r <;> cases e <;> simp only [gatherLines, List.mem_singleton, List.not_mem_nil] at hl <;> subst hl
  · exact plain_own _ _ _ _ "%s: weird: no result, no error" _ 1 rfl (by decide) (by decide)
  · exact plain_own _ _ _ _ "%s: error: %v" _ 2 rfl (by decide) (by decide)
  · exact plain_own _ _ _ _ "%s: weird: valid result (accepting it) with error: %v" _ 2 rfl (by decide) (by decide)

theorem plain_steps {ids : List String} {ctx : Ctx A} {answers : List Answer} {s s' : MSt A} (h : MSteps v limit ids ctx answers s s')
    (hl : ∀ (l : List (Logged A)), some l ∈ s.left → ∀ x ∈ l, Plain x) (ho : ∀ x ∈ s.out, Plain x) :
    (∀ (l : List (Logged A)), some l ∈ s'.left → ∀ x ∈ l, Plain x) ∧ ∀ x ∈ s'.out, Plain x := by
  induction h with
  | refl => exact ⟨hl, ho⟩
  | snoc _ st ih =>
    obtain ⟨il, io⟩ := ih
    have snoc : ∀ {out : List (Logged A)} {more : List (Logged A)}, (∀ x ∈ out, Plain x) → (∀ x ∈ more, Plain x) → ∀ x ∈ out ++ more, Plain x := by
      intro out more h1 h2 x hx
      rcases List.mem_append.mp hx with h | h
      · exact h1 x h
      · exact h2 x h
    have one : ∀ {y : Logged A}, Plain y → ∀ x ∈ [y], Plain x := by
      intro y hy x hx
      rw [List.mem_singleton.mp hx]; exact hy
    cases st with
    | @say i x rest h =>
      have hx := il (x :: rest) (List.mem_of_getElem? h)
      refine ⟨fun l hm y hy => ?_, snoc io (one (hx x List.mem_cons_self))⟩
      rcases List.mem_or_eq_of_mem_set hm with h' | h'
      · exact il l h' y hy
      · obtain rfl := Option.some.inj h'
        exact hx y (List.mem_cons_of_mem _ hy)
    | @send i h =>
      refine ⟨fun l hm y hy => ?_, io⟩
      rcases List.mem_or_eq_of_mem_set hm with h' | h'
      · exact il l h' y hy
      · cases h'
    | scattered h => exact ⟨il, snoc io (one (plain_own _ _ _ _ "scattered request count %d" _ 1 rfl (by decide) (by decide)))⟩
    | receive h1 h2 h3 h4 => exact ⟨il, snoc io (plain_gather _ _ _ _ _)⟩
    | gathered h1 h2 => exact ⟨il, snoc io (one (plain_own _ _ _ _ "gathered responses" _ 0 rfl (by decide) (by decide)))⟩
    | total h => exact ⟨il, snoc io (one (plain_own _ _ _ _ "total %d, matched %d, returned %d" _ 3 rfl (by decide) (by decide)))⟩

theorem plain_searches {ids : List String} {ctx : Ctx A} {s : Srch} {l : List (Logged A)} {a : Answer} (h : Searches v limit ids ctx s l a) :
    ∀ x ∈ l, Plain x := by
  have found : ∀ (ids : List String) (ctx : Ctx A) (stack : List StdFrame) (name : String) (c : Counts), ∀ x ∈ [ownLine ids ctx stack (foundLine v name c)], Plain x := by
    intro ids ctx stack name c x hx
    rw [List.mem_singleton.mp hx]
    exact plain_own _ _ _ _ "%s -> total %d, matched %d, returned %d" _ 4 rfl (by decide) (by decide)
  induction h with
  | collector => exact found _ _ _ _ _
  | found => exact found _ _ _ _ _
  | failed =>
    intro x hx
    rw [List.mem_singleton.mp hx]
    exact plain_own _ _ _ _ "error: %v" _ 1 rfl (by decide) (by decide)
  | other =>
    intro x hx
    obtain ⟨y, -, rfl⟩ := List.mem_map.mp hx
    exact plain_own _ _ _ _ "%s" _ 1 rfl (by decide) (by decide)
  | @multi ids ctx members lists answers s got agg hl ha hsub hsteps hdone ih =>
    refine (plain_steps hsteps ?_ (by intro x hx; cases hx)).2
    intro l hm x hx
    obtain ⟨l', hm', e⟩ := List.mem_map.mp hm
    obtain rfl := Option.some.inj e
    obtain ⟨i, hi⟩ := List.getElem?_of_mem hm'
    have hlt := (List.getElem?_eq_some_iff.mp hi).1
    exact ih i _ _ _ (List.getElem?_eq_getElem (by omega)) hi (List.getElem?_eq_getElem (by omega)) x hx

theorem trim_plain (p f : String) (h : f.toList.getLast?.any (· ≠ '\n') = true) : trimNewline (p ++ f) = p ++ f := by
  unfold trimNewline
  rw [String.toList_append, List.reverse_append]
  cases hr : f.toList.reverse with
  | nil =>
    have : f.toList = [] := by simpa using hr
    rw [this] at h
    cases h
  | cons c cs =>
    have e : f.toList = cs.reverse ++ [c] := by
      have := congrArg List.reverse hr
      simpa using this
    rw [e] at h
    have hc : c ≠ '\n' := by simpa using h
    simp only [List.cons_append]
    split
    · rename_i e'; simp only [List.cons.injEq] at e'; exact absurd e'.1 hc
    · rfl

/-- A call through prefixes is a call on the trace without them. -/
theorem under_log {base tr : Tr A} {ps : List (String × List A)} (h : Under base tr ps) (hb : base.unprefixed) (kind : LogKind) (format : String) (args : List A)
    (stack : List StdFrame) : ∃ stack', tr.logActs kind format args stack = base.logActs kind (tr.pformat ++ format) (tr.pargs ++ args) stack' := by
  induction h generalizing format args stack with
  | base =>
    obtain ⟨e1, e2⟩ := unprefixed_nil hb
    exact ⟨stack, by rw [e1, e2, String.empty_append, List.nil_append]⟩
  | @pre tr ps ctx orphan f as hu hg ih =>
    simp only [prefixed, Wrap.get, hg]
    by_cases he : trimSpace f = ""
    · simp only [if_pos he]
      exact ih format args stack
    · simp only [if_neg he, put, Tr.pformat, Tr.pargs, Tr.logActs]
      obtain ⟨st, e⟩ := ih ((trimSpace f ++ " ") ++ format) (as ++ args) (frame "prefixTrace" kind :: stack)
      exact ⟨st, by rw [e]; simp only [String.append_assoc, List.append_assoc]⟩

/-- The text that a line is written as. -/
def written (id : String) (x : Bool × String) : String := id ++ " " ++ (if x.1 then "ERROR: " else "") ++ x.2 ++ "\n"

/-- A line writes one text, and makes one call. -/
theorem logged_acts (hv : v.Rendered W) {ctx : Ctx A} {addr : Nat} {id : String} {dst : Nat} (hid : '%' ∉ id.toList)
    (hg : maybeGet ctx = some (.log (.core addr) id dst)) {x : Logged A} (hx : Good W [] ctx x) (hp : Plain x) :
    ∃ format args, (loggedActs x).filter (writesTo dst) = [.write dst format args] ∧
      (∀ m : W, sprintf m format args = written id (told m x)) ∧
      ∃ f as st, (loggedActs x).filter (callsOn addr) = [.call addr (.log x.kind f as st)] := by
  obtain ⟨⟨js, e, hb⟩, -⟩ := hx
  rw [List.nil_append] at e
  subst e
  obtain ⟨tr', h1, h2⟩ := below_under hg hb
  have hun : (Tr.log (.core addr) id dst : Tr A).unprefixed := trivial
  obtain ⟨t1, -, t3⟩ := under_text (W := W) h2 hun (fits_marks _)
  obtain ⟨st, ha⟩ := under_log h2 hun x.kind x.format x.args x.stack
  have hacts : loggedActs x = [.write dst (id ++ " " ++ trimNewline (errMark x.kind ++ (tr'.pformat ++ x.format)) ++ "\n") (tr'.pargs ++ x.args),
      .call addr (.log x.kind (tr'.pformat ++ x.format) (tr'.pargs ++ x.args) ((frame "logTrace" x.kind :: st).take 8))] := by
    unfold loggedActs
    simp only [Wrap.get, h1, List.nil_append, ha]
    rfl
  rw [hacts]
  refine ⟨id ++ " " ++ trimNewline (errMark x.kind ++ (tr'.pformat ++ x.format)) ++ "\n", tr'.pargs ++ x.args, by simp [writesTo], fun m => ?_, tr'.pformat ++ x.format, tr'.pargs ++ x.args,
    (frame "logTrace" x.kind :: st).take 8, by simp [callsOn]⟩
  have e1 : trimNewline (errMark x.kind ++ (tr'.pformat ++ x.format)) = errMark x.kind ++ (tr'.pformat ++ x.format) := by
    rw [← String.append_assoc]
    exact trim_plain _ _ hp.2
  rw [e1, line_text m id (errMark x.kind) (tr'.pformat ++ x.format) (tr'.pargs ++ x.args) hid (by cases x.kind <;> decide) (by
    rw [List.length_append]
    exact (takes_append t1 hp.1).uses), sprintf_append m _ _ _ _ t1, t3 m, text_marks hv]
  unfold written told
  have : (if isErr x.kind = true then "ERROR: " else "") = errMark x.kind := by cases x.kind <;> rfl
  simp only [this]

theorem flat_filter {α β : Type} (f : α → List β) (p : β → Bool) (l : List α) : (l.flatMap f).filter p = l.flatMap fun x => (f x).filter p := by
  induction l with
  | nil => rfl
  | cons x l ih => rw [List.flatMap_cons, List.filter_append, ih, List.flatMap_cons]

/-- The texts that actions write. -/
theorem texts_written {addr dst : Nat} (R : List (AEnv W × Act A)) (s : Seen)
    (hno : ∀ p ∈ R, (∃ d f as, p.2 = Act.write d f as) ∨ ∃ kind f as st, p.2 = .call addr (.log kind f as st)) (hf : s.finished = false) :
    (R.foldl (Seen.act addr dst) s).finished = false ∧
    (R.foldl (Seen.act addr dst) s).start = s.start ∧
    (R.foldl (Seen.act addr dst) s).lines = s.lines ++ (R.filter fun p => writesTo dst p.2).map (fun p => match p.2 with | .write _ f as => sprintf p.1.w f as | _ => "") ∧
    (R.foldl (Seen.act addr dst) s).errored = (s.errored || R.any fun p => match p.2 with | .call b (.log kind _ _ _) => decide (b = addr) && isErr kind | _ => false) := by
  induction R generalizing s with
  | nil => simp [hf]
  | cons p R ih =>
    obtain ⟨env, act⟩ := p
    have hR := fun p hp => hno p (List.mem_cons_of_mem _ hp)
    rcases hno _ List.mem_cons_self with ⟨d, f, as, e⟩ | ⟨kind, f, as, st, e⟩
    · simp only at e
      subst e
      rw [List.foldl_cons]
      by_cases hd : d = dst
      · have e : Seen.act addr dst s (env, Act.write d f as) = { s with lines := s.lines ++ [sprintf env.w f as] } := by simp [Seen.act, hd]; rfl
        rw [e]
        obtain ⟨i1, i2, i3, i4⟩ := ih { s with lines := s.lines ++ [sprintf env.w f as] } hR hf
        refine ⟨i1, i2, ?_, ?_⟩
        · rw [i3, List.filter_cons, if_pos (by simp [writesTo, hd])]
          simp
        · rw [i4]; simp
      · have e : Seen.act addr dst s (env, Act.write d f as) = s := by simp [Seen.act, hd]
        rw [e]
        obtain ⟨i1, i2, i3, i4⟩ := ih s hR hf
        refine ⟨i1, i2, ?_, ?_⟩
        · rw [i3, List.filter_cons, if_neg (by simp [writesTo, hd])]
        · rw [i4]; simp
    · simp only at e
      subst e
      rw [List.foldl_cons]
      have e : Seen.act addr dst s (env, Act.call addr (.log kind f as st)) = { s with errored := s.errored || isErr kind } := by simp [Seen.act, Seen.call, hf]
      rw [e]
      obtain ⟨i1, i2, i3, i4⟩ := ih { s with errored := s.errored || isErr kind } hR hf
      refine ⟨i1, i2, ?_, ?_⟩
      · rw [i3, List.filter_cons, if_neg (by simp [writesTo])]
      · rw [i4]; simp [Bool.or_assoc]

theorem concerns_iff (addr dst : Nat) (act : Act A) : concerns addr dst act = (writesTo dst act || callsOn addr act) := by
  cases act with
  | call b c => cases c <;> simp [concerns, writesTo, callsOn, isRead]
  | _ => simp [concerns, writesTo, callsOn]

/-- If each line writes one text, these are the texts. -/
theorem texts_of {dst : Nat} (T : Logged A → String) (lines : List (Logged A)) (M : List (AEnv W × Act A))
    (h : M.map Prod.snd = lines.flatMap fun x => (loggedActs x).filter (writesTo dst))
    (hx : ∀ x ∈ lines, ∃ f as, (loggedActs x).filter (writesTo dst) = [.write dst f as] ∧ ∀ m : W, sprintf m f as = T x) :
    M.map (fun p => match p.2 with | .write _ f as => sprintf p.1.w f as | _ => "") = lines.map T := by
  induction lines generalizing M with
  | nil =>
    have : M = [] := by simpa using h
    subst this; rfl
  | cons x lines ih =>
    obtain ⟨f, as, e1, e2⟩ := hx x List.mem_cons_self
    rw [List.flatMap_cons, e1, List.singleton_append] at h
    cases M with
    | nil => simp at h
    | cons p M =>
      simp only [List.map_cons, List.cons.injEq] at h
      rw [List.map_cons, List.map_cons, ih M h.2 fun y hy => hx y (List.mem_cons_of_mem _ hy), h.1]
      simp only [e2]

theorem output_lines (ls : List String) : loggerOutput ((ls.map (· ++ "\n")).map fun t => ("[TRACE] ", t)) = String.join (ls.map fun x => "[TRACE] " ++ x ++ "\n") := by
  induction ls with
  | nil => rfl
  | cons x ls ih =>
    simp only [List.map_cons, loggerOutput, String.join_cons]
    rw [loggerRecord_newline, ih]
    simp only [String.append_assoc]

theorem told_from (limit : Int) (n : Nat) (servers : List (String × Except String Counts)) :
    (Srch.reports limit n (servers.map fun s => .client s.1 s.2)).map (fun x => (if x.1 then "ERROR: " else "") ++ x.2) = saidFrom n servers := by
  induction servers generalizing n with
  | nil => simp [Srch.reports, saidFrom]
  | cons s servers ih =>
    obtain ⟨uri, res⟩ := s
    cases res with
    | ok c => simp [Srch.reports, saidFrom, saidOf, Srch.report, Srch.answer, complaint, ih, countsText, numbers, String.append_assoc]
    | error e =>
      simp [Srch.reports, saidFrom, saidOf, Srch.report, Srch.answer, complaint, ih, String.append_assoc]
      rw [show ("ERROR: <" : String) = "ERROR: " ++ "<" from rfl, show ("> error: " : String) = "> " ++ "error: " from rfl]
      simp only [String.append_assoc]

theorem answers_from (limit : Int) (servers : List (String × Except String Counts)) :
    (Srch.answers limit (servers.map fun s => .client s.1 s.2)).filterMap Prod.fst = answered servers := by
  induction servers with
  | nil => simp [Srch.answers, answered]
  | cons s servers ih =>
    obtain ⟨uri, res⟩ := s
    unfold answered at ih ⊢
    cases res <;> simp [Srch.answers, Srch.answer, ih, Except.toOption]

/-- All that is said, apart from that it has started and that it is done. -/
def said (limit : Int) (servers : List (String × Except String Counts)) : List String :=
  ("scattered request count " ++ toString servers.length) :: saidFrom 1 servers ++ ["gathered responses", outcomeText limit servers]

theorem told_all (limit : Int) (servers : List (String × Except String Counts)) :
    ((Srch.multi (servers.map fun s => .client s.1 s.2)).report limit).map (fun x => (if x.1 then "ERROR: " else "") ++ x.2) = said limit servers := by
  have h1 := told_from limit 1 servers
  have h2 := answers_from limit servers
  unfold said outcomeText
  simp only [Srch.report, List.map_cons, List.map_append, h1, List.map_nil, Srch.answer, Option.getD_some, countsText, sumCounts, h2, numbers, List.length_map]
  rfl

theorem failed_from (servers : List (String × Except String Counts)) :
    Srch.anyFails (servers.map fun s => .client s.1 s.2) ↔ someFailed servers = true := by
  induction servers with
  | nil => simp [Srch.anyFails, someFailed]
  | cons s servers ih =>
    obtain ⟨uri, res⟩ := s
    unfold someFailed at ih ⊢
    cases res <;> simp [Srch.anyFails, Srch.fails, Except.toOption] at ih ⊢
    exact ih

/-- What is printed of a trace to which some lines are logged, before it is finished. -/
theorem traced_output (hv : v.Rendered W) (m : W) (ctx : Ctx A) (addr : Nat) (id category : String) (dst : Nat) (hid : '%' ∉ id.toList)
    (first mid last : List (AEnv W × Act A)) (lines : List (Logged A)) (hfirst : first.map Prod.snd = (newTrace ctx addr id category dst).2.2)
    (a2 : ∀ x ∈ lines, Good W [] (newTrace ctx addr id category dst).1 x) (hplain : ∀ x ∈ lines, Plain x)
    (hwr : (mid.map Prod.snd).filter (writesTo dst) = (lines.flatMap loggedActs).filter (writesTo dst))
    (hca : ((mid.map Prod.snd).filter (callsOn addr)).Perm ((lines.flatMap loggedActs).filter (callsOn addr)))
    (hmk : ∀ p ∈ mid, ∀ source category, p.2 ≠ .make addr source category)
    (hlast : last.map Prod.snd = (newTrace ctx addr id category dst).2.1.finishActs)
    (w w' : World A) (hrun : w.run (first ++ mid ++ last) = some w') (hw : w.written dst = []) (level : String) (hl : level = "trace" ∨ level = "t") :
    ∃ t, w'.traces addr = some t ∧ t.finished = true ∧ t.errored = (lines.any fun x => isErr x.kind) ∧
      traceOutput level (w'.written dst) = some (String.join
        ((["started, source 'trc', category '" ++ category ++ "'"] ++ (lines.map fun x => (if (told m x).1 then "ERROR: " else "") ++ (told m x).2) ++
          ["done, " ++ (if (lines.any fun x => isErr x.kind) then "errored" else "success") ++ ", " ++ Humanize.duration t.duration]).map fun x =>
            "[TRACE] " ++ (id ++ " " ++ x) ++ "\n")) := by
  have hfirst : first.map Prod.snd = [.make addr "trc" category, logEvent id dst "started, source '%s', category '%s'" [Arg.str "trc", Arg.str category]] := hfirst
  have hlast : last.map Prod.snd = [.call addr .finish, .writeDone dst id (.core addr)] := hlast
  have hg : maybeGet (newTrace ctx addr id category dst).1 = some (.log (.core addr) id dst : Tr A) := rfl
  match first, hfirst with
  | [(e0, _), (e1, _)], hfirst =>
  match last, hlast with
  | [(e2, _), (e3, _)], hlast =>
  simp only [List.map_cons, List.map_nil, List.cons.injEq, and_true] at hfirst hlast
  obtain ⟨rfl, rfl⟩ := hfirst
  obtain ⟨rfl, rfl⟩ := hlast
  -- what each line does
  have hline := fun x hx => logged_acts (W := W) hv hid hg (a2 x hx) (hplain x hx)
  rw [flat_filter] at hwr hca
  -- the actions in the middle
  have hmid : ∀ p ∈ mid, concerns addr dst p.2 = true → (∃ f as, p.2 = Act.write dst f as) ∨ ∃ kind f as st, p.2 = .call addr (.log kind f as st) := by
    intro p hp hc
    rw [concerns_iff, Bool.or_eq_true] at hc
    rcases hc with hc | hc
    · have : p.2 ∈ (mid.map Prod.snd).filter (writesTo dst) := List.mem_filter.mpr ⟨List.mem_map_of_mem hp, hc⟩
      rw [hwr] at this
      obtain ⟨x, hx, hy⟩ := List.mem_flatMap.mp this
      obtain ⟨f, as, e, -, -⟩ := hline x hx
      rw [e, List.mem_singleton] at hy
      exact .inl ⟨f, as, hy⟩
    · have : p.2 ∈ (mid.map Prod.snd).filter (callsOn addr) := List.mem_filter.mpr ⟨List.mem_map_of_mem hp, hc⟩
      rw [hca.mem_iff] at this
      obtain ⟨x, hx, hy⟩ := List.mem_flatMap.mp this
      obtain ⟨-, -, -, -, f, as, st, e⟩ := hline x hx
      rw [e, List.mem_singleton] at hy
      exact .inr ⟨_, f, as, st, hy⟩
  -- run
  simp only [List.cons_append, List.nil_append, World.run, World.act, logEvent, bind, Option.bind_some] at hrun
  have hstart : Sys.sprintf e1.w (id ++ " " ++ trimNewline "started, source '%s', category '%s'" ++ "\n") [(Arg.str "trc" : A), Arg.str category] =
      id ++ " started, source 'trc', category '" ++ category ++ "'" ++ "\n" := by
    obtain ⟨w₁, h1, h2, -⟩ := C86_started (W := W) hv.str w e1 id "trc" category (.core addr) dst hid
    simp only [logDecorator, logEvent, List.map_cons, List.map_nil, World.run, World.act, bind, Option.bind_some, Option.some.injEq] at h1
    subst h1
    rw [written_append, if_pos rfl] at h2
    have h3 := List.append_cancel_left h2
    simp only [List.cons.injEq, and_true] at h3
    rw [h3]
    have e : (" started, source 'trc', category '" : String) = " started, source '" ++ "trc" ++ "', category '" := rfl
    rw [e]
    have e' : ("'\n" : String) = "'" ++ "\n" := rfl
    rw [e']
    simp only [String.append_assoc]
  rw [hstart] at hrun
  generalize hw2 : ({ w.set addr (newCoreTrace w.globals e0.now e0.id "trc" category zeroTrace) with lines :=
    (w.set addr (newCoreTrace w.globals e0.now e0.id "trc" category zeroTrace)).lines ++ [(dst, id ++ " started, source 'trc', category '" ++ category ++ "'" ++ "\n")] } : World A) = w2 at hrun
  have hsee : w2.see addr dst = some ⟨false, false, 0, e0.now, [id ++ " started, source 'trc', category '" ++ category ++ "'" ++ "\n"]⟩ := by
    subst hw2
    unfold World.see
    rw [written_append, if_pos rfl]
    have : (w.set addr (newCoreTrace w.globals e0.now e0.id "trc" category zeroTrace)).written dst = [] := hw
    rw [this]
    simp only [World.set, if_true]
    rfl
  have hfin := run_see hrun hsee (by
    intro p hp
    rcases List.mem_append.mp hp with hp' | hp
    · cases hq : p.2 with
      | make b source category =>
        show b ≠ addr
        intro e
        subst e
        exact hmk p hp' _ _ hq
      | _ => trivial
    · simp only [List.mem_cons, List.not_mem_nil, or_false] at hp
      rcases hp with rfl | rfl <;> trivial) (by
    intro p hp i tr e
    rcases List.mem_append.mp hp with hp | hp
    · rcases hmid p hp (by rw [e]; simp [concerns]) with ⟨f, as, e'⟩ | ⟨kind, f, as, st, e'⟩ <;> rw [e] at e' <;> cases e'
    · simp only [List.mem_cons, List.not_mem_nil, or_false] at hp
      rcases hp with rfl | rfl
      · cases e
      · cases e; rfl)
  rw [List.filter_append, List.foldl_append] at hfin
  obtain ⟨f1, f2, f3, f4⟩ := texts_written (addr := addr) (dst := dst) (mid.filter fun p => concerns addr dst p.2)
    ⟨false, false, 0, e0.now, [id ++ " started, source 'trc', category '" ++ category ++ "'" ++ "\n"]⟩ (by
      intro p hp
      obtain ⟨hp, hc⟩ := List.mem_filter.mp hp
      rcases hmid p hp hc with ⟨f, as, e⟩ | h
      · exact .inl ⟨dst, f, as, e⟩
      · exact .inr h) rfl
  generalize (List.foldl (Seen.act addr dst) _ (mid.filter fun p => concerns addr dst p.2)) = s1 at hfin f1 f2 f3 f4
  -- the texts in the middle
  have hfilter : (mid.filter fun p => concerns addr dst p.2).filter (fun p => writesTo dst p.2) = mid.filter fun p => writesTo dst p.2 := by
    rw [List.filter_filter]
    congr 1
    funext p
    rw [concerns_iff]
    cases writesTo dst p.2 <;> simp
  have hmap : (mid.filter fun p => writesTo dst p.2).map Prod.snd = lines.flatMap fun x => (loggedActs x).filter (writesTo dst) := by
    rw [← hwr, List.filter_map]
    rfl
  rw [hfilter, texts_of (fun x => written id (told m x)) lines _ hmap (by
    intro x hx
    obtain ⟨f, as, e, e', -⟩ := hline x hx
    exact ⟨f, as, e, fun m' => by rw [e' m', (a2 x hx).2 m' m]⟩)] at f3
  -- errors
  have herr : ((mid.filter fun p => concerns addr dst p.2).any fun p => match p.2 with | .call b (.log kind _ _ _) => decide (b = addr) && isErr kind | _ => false) = (lines.any fun x => isErr x.kind) := by
    have hany : ∀ x ∈ lines, ∀ act ∈ (loggedActs x).filter (callsOn addr), ∃ f as st, act = .call addr (.log x.kind f as st) := by
      intro x hx act ha
      obtain ⟨-, -, -, -, f, as, st, e⟩ := hline x hx
      rw [e, List.mem_singleton] at ha
      exact ⟨f, as, st, ha⟩
    rw [Bool.eq_iff_iff, List.any_eq_true, List.any_eq_true]
    constructor
    · rintro ⟨p, hp, e⟩
      obtain ⟨hp, hc⟩ := List.mem_filter.mp hp
      rcases hmid p hp hc with ⟨f, as, e'⟩ | ⟨kind, f, as, st, e'⟩
      · rw [e'] at e; cases e
      · have : p.2 ∈ (mid.map Prod.snd).filter (callsOn addr) := List.mem_filter.mpr ⟨List.mem_map_of_mem hp, by rw [e']; simp [callsOn]⟩
        rw [hca.mem_iff] at this
        obtain ⟨x, hx, hy⟩ := List.mem_flatMap.mp this
        obtain ⟨f', as', st', e''⟩ := hany x hx _ hy
        rw [e''] at e
        exact ⟨x, hx, by simpa using e⟩
    · rintro ⟨x, hx, e⟩
      obtain ⟨-, -, -, -, f, as, st, e'⟩ := hline x hx
      have : (.call addr (.log x.kind f as st) : Act A) ∈ (mid.map Prod.snd).filter (callsOn addr) := by
        rw [hca.mem_iff]
        exact List.mem_flatMap.mpr ⟨x, hx, by rw [e']; exact List.mem_singleton.mpr rfl⟩
      obtain ⟨hp, hc⟩ := List.mem_filter.mp this
      obtain ⟨p, hp, e''⟩ := List.mem_map.mp hp
      exact ⟨p, List.mem_filter.mpr ⟨hp, by rw [concerns_iff, e'', hc]; simp⟩, by rw [e'']; simpa using e⟩
  rw [herr, Bool.false_or] at f4
  -- the end
  have hlast : (([(e2, Act.call addr .finish), (e3, .writeDone dst id (.core addr))] : List (AEnv W × Act A)).filter fun p => concerns addr dst p.2) =
      [(e2, Act.call addr .finish), (e3, .writeDone dst id (.core addr))] := by
    simp [concerns, isRead]
  rw [hlast] at hfin
  have hdone : Sys.sprintf e3.w (id ++ " " ++ trimNewline "done, %s, %s" ++ "\n")
      [(Arg.str (if (lines.any fun x => isErr x.kind) then "errored" else "success") : A), Arg.str (Humanize.duration (e2.now.sub e0.now))] =
      id ++ " " ++ ("done, " ++ (if (lines.any fun x => isErr x.kind) then "errored" else "success") ++ ", " ++ Humanize.duration (e2.now.sub e0.now)) ++ "\n" := by
    have e : trimNewline "done, %s, %s" = "" ++ "done, %s, %s" := by decide
    rw [e]
    refine (line_text e3.w id "" "done, %s, %s" [(Arg.str (if (lines.any fun x => isErr x.kind) then "errored" else "success") : A), Arg.str (Humanize.duration (e2.now.sub e0.now))] hid (by decide) (show Uses "done, %s, %s" 2 by decide)).trans ?_
    rw [two_strings hv.str]
    simp only [String.append_assoc, String.empty_append]
  simp only [List.foldl_cons, List.foldl_nil, Seen.act, if_true, Seen.call, f1, Bool.false_eq_true, if_false, f2, f4, f3] at hfin
  rw [hdone] at hfin
  unfold World.see at hfin
  cases ht : w'.traces addr with
  | none => simp [ht] at hfin
  | some t =>
    simp only [ht, Option.map_some, Option.some.injEq, Seen.mk.injEq] at hfin
    obtain ⟨g1, g2, g3, -, g5⟩ := hfin
    refine ⟨t, rfl, g2, g1, ?_⟩
    have hlog : logging level = some (true, true, true) := by rcases hl with rfl | rfl <;> rfl
    rw [g5, g3]
    unfold traceOutput
    rw [hlog]
    simp only [if_true, Option.some.injEq]
    rw [show (fun x : String => "[TRACE] " ++ (id ++ " " ++ x) ++ "\n") = (fun x => "[TRACE] " ++ x ++ "\n") ∘ (fun x => id ++ " " ++ x) from rfl, ← List.map_map, ← output_lines]
    congr 1
    rw [List.map_map, List.map_map]
    simp only [List.map_append, List.map_cons, List.map_nil, List.map_map, List.cons_append]
    congr 1
    · simp only [Function.comp_apply, Prod.mk.injEq, true_and]
      have e : (" started, source 'trc', category '" : String) = " " ++ "started, source 'trc', category '" := rfl
      rw [e]
      simp only [String.append_assoc]
    · congr 1
      refine List.map_congr_left fun x _ => ?_
      simp only [Function.comp_apply, written, String.append_assoc]

/-- **C137** With `--log trace`, `trc search` prints a record for each of these, marked and with the ID of its trace: that it has started; the number of servers;
for each server, with its number, how many traces it has, how many match and how many it returns, or else its error (twice); that all have answered; the
numbers of the whole search, last; and that it is done, as errored if a server has failed, and after which time.  No text is lost or mixed with another. -/
theorem C137_told [Nonempty W] (hv : v.Rendered W) (ctx : Ctx A) (addr : Nat) (id : String) (dst : Nat) (servers : List (String × Except String Counts))
    (hid : '%' ∉ id.toList) (ex : List (AEnv W × Act A)) (h : SearchTraced v limit ctx addr id dst servers ex)
    (w w' : World A) (hrun : w.run ex = some w') (hw : w.written dst = []) (level : String) (hl : level = "trace" ∨ level = "t") :
    ∃ t middle, w'.traces addr = some t ∧ t.finished = true ∧ t.errored = someFailed servers ∧
      middle.Perm (said limit servers) ∧ middle.getLast? = some (outcomeText limit servers) ∧
      traceOutput level (w'.written dst) = some (String.join
        ((["started, source 'trc', category 'search'"] ++ middle ++
          ["done, " ++ (if someFailed servers then "errored" else "success") ++ ", " ++ Humanize.duration t.duration]).map fun x =>
            "[TRACE] " ++ (id ++ " " ++ x) ++ "\n")) := by
  obtain ⟨first, mid, last, lines, answer, rfl, hfirst, hs, hwr, hca, hmk, hlast⟩ := h.run
  obtain ⟨m⟩ := (inferInstance : Nonempty W)
  obtain ⟨-, a2, a3⟩ := searches_spec (W := W) hv hs
  obtain ⟨t, t1, t2, t3, t4⟩ := traced_output hv m ctx addr id "search" dst hid first mid last lines hfirst a2 (plain_searches hs) hwr hca hmk hlast w w' hrun hw level hl
  obtain ⟨hperm, hlastline⟩ := a3 m
  have hun : ∀ l : List (Bool × String), l.map (under []) = l := by
    intro l
    have : under [] = _root_.id := by funext x; simp [under, idText]
    rw [this, List.map_id]
  rw [hun] at hperm hlastline
  have herr : (lines.any fun x => isErr x.kind) = someFailed servers := by
    rw [Bool.eq_iff_iff, ← failed_from]
    show _ ↔ (Srch.multi (servers.map fun s => .client s.1 s.2)).fails
    rw [← report_fails limit, List.any_eq_true]
    constructor
    · rintro ⟨x, hx, e⟩
      exact ⟨told m x, hperm.mem_iff.mp (List.mem_map_of_mem hx), e⟩
    · rintro ⟨x, hx, e⟩
      obtain ⟨y, hy, rfl⟩ := List.mem_map.mp (hperm.mem_iff.mpr hx)
      exact ⟨y, hy, e⟩
  rw [herr] at t3 t4
  refine ⟨t, lines.map fun x => (if (told m x).1 then "ERROR: " else "") ++ (told m x).2, t1, t2, t3, ?_, ?_, t4⟩
  · have := hperm.map fun x : Bool × String => (if x.1 then "ERROR: " else "") ++ x.2
    rw [told_all, List.map_map] at this
    exact this
  · have : ((lines.map (told m)).map fun x : Bool × String => (if x.1 then "ERROR: " else "") ++ x.2).getLast? = some (outcomeText limit servers) := by
      rw [List.getLast?_map, hlastline, ← List.getLast?_map, told_all]
      have e : said limit servers = (("scattered request count " ++ toString servers.length) :: saidFrom 1 servers ++ ["gathered responses"]) ++ [outcomeText limit servers] := by
        simp [said]
      rw [e, List.getLast?_concat]
    rw [List.map_map] at this
    exact this

/-- **C137** At all other levels, nothing of this is printed. -/
theorem C137_quiet (level : String) (h : level ∈ ["info", "i", "debug", "d", "none", "n"]) (texts : List String) : traceOutput level texts = some "" := by
  simp only [List.mem_cons, List.not_mem_nil, or_false] at h
  rcases h with rfl | rfl | rfl | rfl | rfl | rfl <;> rfl

end Trc.Cmd

namespace Trc.Cmd.Tracing.Witness

open Trc.Wrap Core Core.Spec Fmt

/-- Two servers are asked for one trace: the first one is down.  Its client fails before the search has counted its clients, and the second one's
texts are written before those of the first one, whose events come last. -/
def vals : Values String := ⟨toString, fun s => s⟩

theorem vals_ok : vals.Rendered Unit where
  str := fun _ _ => rfl
  num := fun _ _ => rfl
  err := fun _ _ => rfl

def servers : List (String × Except String Counts) := [("http://a/", .error "down"), ("http://b/", .ok ⟨3, 2, 2⟩)]
def ctx : Ctx String := (newTrace .background 0 "01H" "search" 7).1
def answers : List Answer := [(none, some "down"), (some ⟨3, 2, 2⟩, none)]

def own (l : LogKind × String × List String) : Logged String := ownLine [] ctx [] l
def l0 : Logged String := ownLine ["1"] (memberCtx ctx 0) [] (failedLine vals "down")
def l1 : Logged String := ownLine ["2"] (memberCtx ctx 1) [] (foundLine vals "http://b/" ⟨3, 2, 2⟩)
def m1 : Logged String := own (.tracef, "scattered request count %d", [vals.num (2 : Nat)])
def m2 : Logged String := own (.tracef, "%s: error: %v", ["1", "down"])
def m3 : Logged String := own (.tracef, "gathered responses", [])
def m4 : Logged String := own (.tracef, "total %d, matched %d, returned %d", [vals.num 3, vals.num 2, vals.num 1])
def logged : List (Logged String) := [l0, m1, l1, m2, m3, m4]

theorem steps : MSteps vals 1 [] ctx answers { left := [some [l0], some [l1]] }
    { left := [none, none], chan := [], pc := .done [0, 1] ⟨3, 2, 1⟩, out := logged } := by
  have s0 : MSteps vals 1 [] ctx answers { left := [some [l0], some [l1]] } _ := .refl
  have s1 := s0.snoc (.say (i := 0) (x := l0) (rest := []) rfl)
  have s2 := s1.snoc (.scattered (stack := []) rfl)
  have s3 := s2.snoc (.send (i := 0) rfl)
  have s4 := s3.snoc (.say (i := 1) (x := l1) (rest := []) rfl)
  have s5 := s4.snoc (.receive (got := []) (agg := {}) (i := 0) (chan := []) (a := (none, some "down")) (stack := []) rfl (by decide) rfl rfl)
  have s6 := s5.snoc (.send (i := 1) rfl)
  have s7 := s6.snoc (.receive (got := [0]) (agg := {}) (i := 1) (chan := []) (a := (some ⟨3, 2, 2⟩, none)) (stack := []) rfl (by decide) rfl rfl)
  have s8 := s7.snoc (.gathered (got := [0, 1]) (agg := ⟨3, 2, 2⟩) (stack := []) rfl rfl)
  have s9 := s8.snoc (.total (got := [0, 1]) (agg := ⟨3, 2, 2⟩) (stack := []) rfl)
  exact s9

theorem searched : Searches vals 1 [] ctx (.multi (servers.map fun s => .client s.1 s.2)) logged (some ⟨3, 2, 1⟩, none) := by
  refine Searches.multi (lists := [[l0], [l1]]) (answers := answers) rfl rfl ?_ steps rfl
  intro i m l a hm hl ha
  match i with
  | 0 =>
    obtain rfl := (Option.some.inj hm)
    obtain rfl := (Option.some.inj hl)
    obtain rfl := (Option.some.inj ha)
    exact .failed
  | 1 =>
    obtain rfl := (Option.some.inj hm)
    obtain rfl := (Option.some.inj hl)
    obtain rfl := (Option.some.inj ha)
    exact .found
  | i + 2 => cases hm

def env (n : Int) : AEnv Unit := { now := ⟨n, none⟩, w := (), id := "01H", subscribed := false }

def acts : List (Act String) := logged.flatMap loggedActs

/-- The event of the failed client is added last. -/
def mid : List (Act String) := [acts.headD (.publish (.core 0))] ++ acts.drop 2 ++ (acts.drop 1).take 1

def run : List (AEnv Unit × Act String) :=
  (newTrace .background 0 "01H" "search" 7).2.2.map (fun a => (env 5, a)) ++ mid.map (fun a => (env 6, a)) ++
    (newTrace .background 0 "01H" "search" 7).2.1.finishActs.map fun a => (env 9, a)

theorem traced : SearchTraced vals 1 .background 0 "01H" 7 servers run := by
  refine ⟨_, _, _, logged, _, rfl, by rw [List.map_map]; exact List.map_id _, searched, ?_, ?_, ?_, by rw [List.map_map]; exact List.map_id _⟩
  · rw [List.map_map, show (Prod.snd ∘ fun a : Act String => (env 6, a)) = _root_.id from rfl, List.map_id]
    rfl
  · rw [List.map_map, show (Prod.snd ∘ fun a : Act String => (env 6, a)) = _root_.id from rfl, List.map_id]
    have h1 : mid.filter (callsOn 0) = (acts.filter (callsOn 0)).drop 1 ++ (acts.filter (callsOn 0)).take 1 := rfl
    rw [h1]
    exact List.perm_append_comm.trans (by rw [List.take_append_drop]; exact List.Perm.refl _)
  · intro p hp source category e
    obtain ⟨a, ha, rfl⟩ := List.mem_map.mp hp
    simp only at e
    subst e
    have : mid.all (fun a => match a with | .make _ _ _ => false | _ => true) = true := by decide +kernel
    have := List.all_eq_true.mp this _ ha
    cases this

instance : Humanize := ⟨fun d => toString d ++ "ns"⟩

theorem runs : (({} : World String).run run).isSome = true := by decide +kernel

example : ∃ w middle, ({} : World String).run run = some w ∧
    middle.Perm ["scattered request count 2", "ERROR: <1> error: down", "1: error: down", "<2> http://b/ -> total 3, matched 2, returned 2", "gathered responses",
      "total 3, matched 2, returned 1"] ∧ middle.getLast? = some "total 3, matched 2, returned 1" ∧
    ∃ took, traceOutput "trace" (w.written 7) = some (String.join ((["started, source 'trc', category 'search'"] ++ middle ++ ["done, " ++ "errored" ++ ", " ++ took]).map fun x =>
      "[TRACE] " ++ ("01H" ++ " " ++ x) ++ "\n")) := by
  obtain ⟨w, hw⟩ := Option.isSome_iff_exists.mp runs
  obtain ⟨t, middle, -, -, -, h1, h2, h3⟩ := C137_told (W := Unit) vals_ok .background 0 "01H" 7 servers (by decide) run traced {} w hw rfl "trace" (.inl rfl)
  exact ⟨w, middle, hw, h1, h2, _, h3⟩

end Trc.Cmd.Tracing.Witness
