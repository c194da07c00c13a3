import Verif.Wrap.Handling
import Verif.Web.RequestText
import Verif.Props.Searching
import Mathlib.Data.List.Forall2

/-!
# C140: the trace of a request to the search handler tells the search and how it was answered
-/

namespace Trc.Wrap

open Core Core.Spec Fmt

/-! ## What is to be told -/

/-- What is told in the region of the page. -/
def pageTexts (name : String) (d : Drawing) : List String :=
  if d.parse.isSome then []
  else "template.ParseFS OK" ::
    if d.files ≠ [] ∧ d.parseFiles.isSome then []
    else (if d.files = [] then [] else ["local files [" ++ String.intercalate " " d.files ++ "]"]) ++
      if d.found = false then []
      else ("template.Lookup(" ++ name ++ ") OK") ::
        match d.execute with
        | .ok n => ["template.Execute OK, " ++ String.ofList (Util.humanizeBytes n)]
        | .error _ => []

/-- Why there is no page, if there is none. -/
def pageError (name : String) (d : Drawing) : Option String :=
  d.parse.or <| (if d.files = [] then none else d.parseFiles).or <|
    if d.found = false then some ("template (" ++ name ++ ") not found")
    else match d.execute with
      | .ok _ => none
      | .error e => some e

/-- What is told of the rendering, and which of it are errors. -/
def Rendering.report (name : String) : Rendering → List (Bool × String)
  | .json (.ok n) => [(false, "marshaled JSON response (" ++ String.ofList (Util.humanizeBytes n) ++ ")")]
  | .json (.error e) => [(true, "marshal JSON: " ++ e)]
  | .html d took =>
    [(false, "→ renderTemplate")] ++ (pageTexts name d).map (fun s => (false, "· " ++ s)) ++
      [(false, "← renderTemplate [" ++ took ++ "]")] ++ ((pageError name d).toList.map fun e => (true, "render template: " ++ e))

/-- The rendering fails. -/
def Rendering.fails (name : String) : Rendering → Prop
  | .json (.ok _) => False
  | .json (.error _) => True
  | .html d _ => (pageError name d).isSome = true

/-- How the values that are logged are rendered.  A request is printed by its `String` method (C138); its copy
shares the bucketing with the request that the searcher normalizes again, which leaves it as it is. -/
structure HandlerValues.Rendered (W : Type) {A : Type} [Render W A] [Arg A] (v : HandlerValues A) : Prop where
  values : v.toValues.Rendered W
  request : ∀ (m : W) r, Render.arg m [] 's' (v.request r) = (Web.requestString r).toList
  list : ∀ (m : W) l, Render.arg m [] 'v' (v.list l) = ("[" ++ String.intercalate " " l ++ "]").toList

section
variable {W A : Type} [Render W A] [Arg A] [Humanize] {v : HandlerValues A}

/-- The actions are calls on a trace that give events with these texts, whenever they are formatted. -/
def GivesTexts (W : Type) [Render W A] (tr : Tr A) (acts : List (Act A)) (texts : List (Bool × String)) : Prop :=
  ∃ saids : List (Said A), callsIn tr.root acts = saids.map Said.call ∧ List.Forall₂ (fun s x => isErr s.kind = x.1 ∧
    ∀ m : W, sprintf m (s.tr.pformat ++ s.format) (s.tr.pargs ++ s.args) = x.2) saids texts

omit [Humanize] in
theorem tells_nil (tr : Tr A) : GivesTexts W tr [] [] := ⟨[], rfl, .nil⟩

omit [Humanize] in
theorem GivesTexts.append {tr : Tr A} {as bs : List (Act A)} {xs ys : List (Bool × String)} (h : GivesTexts W tr as xs) (h' : GivesTexts W tr bs ys) :
    GivesTexts W tr (as ++ bs) (xs ++ ys) := by
  obtain ⟨s, h1, h2⟩ := h
  obtain ⟨s', h3, h4⟩ := h'
  exact ⟨s ++ s', by rw [callsIn_append, h1, h3, List.map_append], List.rel_append h2 h4⟩

omit [Humanize] in
theorem tells_log {tr tr' : Tr A} {ps : List (String × List A)} (hu : Under tr tr' ps) (hb : tr.unprefixed) (hf : Fits ps)
    (kind : LogKind) (format : String) (args : List A) (stack : List StdFrame) (text : String)
    (h : ∀ m : W, prefixTexts m ps ++ sprintf m format args = text) :
    GivesTexts W tr (tr'.logActs kind format args stack) [(isErr kind, text)] := by
  obtain ⟨u1, u2, u3⟩ := under_text (W := W) hu hb hf
  refine ⟨[⟨tr', kind, format, args, stack⟩], ?_, .cons ⟨rfl, fun m => ?_⟩ .nil⟩
  · have := said_calls tr.root [(⟨tr', kind, format, args, stack⟩ : Said A)] (by simpa using u2)
    simpa [Said.acts] using this
  · show sprintf m (tr'.pformat ++ format) (tr'.pargs ++ args) = text
    rw [sprintf_append m _ _ _ _ u1, u3 m, h m]

omit [Humanize] [Arg A] in
theorem text_between (m : W) (p verb q : String) (a : A) (text : String) (hp : '%' ∉ p.toList) (hv : Takes verb 1)
    (ht : sprintf m verb [a] = text) (hq : '%' ∉ q.toList) : sprintf m (p ++ (verb ++ q)) [a] = p ++ (text ++ q) := by
  have h := sprintf_append m p (verb ++ q) ([] : List A) [a] (takes_plain _ hp)
  rw [List.nil_append] at h
  have h' := sprintf_append m verb q [a] ([] : List A) hv
  rw [List.append_nil] at h'
  rw [h, sprintf_plain m _ hp, h', ht, sprintf_plain m _ hq]

omit [Humanize] [Arg A] in
theorem text_s (m : W) (a : A) (text : String) (h : Render.arg m [] 's' a = text.toList) : sprintf m "%s" [a] = text := by
  have e : "%s".toList = ['%', 's'] := rfl
  apply String.toList_inj.mp
  unfold sprintf
  rw [e]
  simp [printf, Stage.next, h, extraReport]

omit [Humanize] [Arg A] in
theorem text_v (m : W) (a : A) (text : String) (h : Render.arg m [] 'v' a = text.toList) : sprintf m "%v" [a] = text := by
  have e : "%v".toList = ['%', 'v'] := rfl
  apply String.toList_inj.mp
  unfold sprintf
  rw [e]
  simp [printf, Stage.next, h, extraReport]

/-! ## The page -/

omit [Humanize] in
theorem template_result (v : HandlerValues A) (name : String) (d : Drawing) :
    (∀ e, (templateLines v name d).2 = .error e ↔ pageError name d = some e) ∧
    ((∃ n, (templateLines v name d).2 = .ok n) ↔ pageError name d = none) := by
  obtain ⟨parse, files, parseFiles, found, execute⟩ := d
  cases parse with
  | some e => simp [templateLines, pageError]
  | none =>
    cases files with
    | nil => cases found <;> cases execute <;> simp [templateLines, pageError]
    | cons f fs => cases parseFiles <;> cases found <;> cases execute <;> simp [templateLines, pageError]

omit [Humanize] in
theorem template_texts (hv : v.Rendered W) (name : String) (d : Drawing) (m : W) :
    (templateLines v name d).1.map (fun l => sprintf m l.1 l.2) = pageTexts name d := by
  have t1 : sprintf m "template.ParseFS OK" ([] : List A) = "template.ParseFS OK" := sprintf_plain m _ (by decide)
  have t2 : ∀ fs, sprintf m "local files %v" [v.list fs] = "local files [" ++ String.intercalate " " fs ++ "]" := by
    intro fs
    have := text_between m "local files " "%v" "" (v.list fs) _ (by decide) (by decide) (text_v m _ _ (hv.list m fs)) (by decide)
    rw [show "local files %v" = "local files " ++ ("%v" ++ "") from rfl, this]
    rw [show "local files [" = "local files " ++ "[" from rfl]
    simp only [String.append_assoc, String.append_empty]
  have t3 : sprintf m "template.Lookup(%s) OK" [(Arg.str name : A)] = "template.Lookup(" ++ name ++ ") OK" := by
    have := text_between m "template.Lookup(" "%s" ") OK" (Arg.str name : A) _ (by decide) (by decide) (text_s m _ _ (hv.values.str m name)) (by decide)
    rw [show "template.Lookup(%s) OK" = "template.Lookup(" ++ ("%s" ++ ") OK") from rfl, this, String.append_assoc]
  have t4 : ∀ s, sprintf m "template.Execute OK, %s" [(Arg.str s : A)] = "template.Execute OK, " ++ s := by
    intro s
    have := text_between m "template.Execute OK, " "%s" "" (Arg.str s : A) _ (by decide) (by decide) (text_s m _ _ (hv.values.str m s)) (by decide)
    rw [show "template.Execute OK, %s" = "template.Execute OK, " ++ ("%s" ++ "") from rfl, this, String.append_empty]
  obtain ⟨parse, files, parseFiles, found, execute⟩ := d
  cases parse with
  | some e => simp [templateLines, pageTexts]
  | none =>
    cases files with
    | nil => cases found <;> cases execute <;> simp [templateLines, pageTexts, t1, t3, t4]
    | cons f fs => cases parseFiles <;> cases found <;> cases execute <;> simp [templateLines, pageTexts, t1, t2, t3, t4]

omit [Humanize] in
theorem dot_text (m : W) : prefixTexts m [("·", ([] : List A))] = "· " := by
  simp only [prefixTexts, prefixText, trim_dot]
  rw [if_neg (by decide), sprintf_plain m "·" (by decide)]
  rfl

omit [Humanize] in
theorem dot_fits : Fits [("·", ([] : List A))] := by
  intro p hp
  rw [List.mem_singleton] at hp
  subst hp
  exact ⟨(show Takes (trimSpace "·") 0 by decide), fun _ => rfl⟩

omit [Humanize] in
theorem none_fits : Fits ([] : List (String × List A)) := by intro p hp; cases hp

omit [Humanize] in
theorem tells_lines [Nonempty W] {tr tr' : Tr A} (hu : Under tr tr' [("·", [])]) (hb : tr.unprefixed) (stack : List StdFrame)
    (ls : List (String × List A)) (texts : List String) (h : ∀ m : W, ls.map (fun l => sprintf m l.1 l.2) = texts) :
    GivesTexts W tr (ls.flatMap fun l => tr'.logActs .lazyTracef l.1 l.2 stack) (texts.map fun s => (false, "· " ++ s)) := by
  induction ls generalizing texts with
  | nil =>
    obtain ⟨m⟩ := (inferInstance : Nonempty W)
    have := h m
    rw [List.map_nil] at this
    subst this
    exact tells_nil tr
  | cons l ls ih =>
    obtain ⟨m₀⟩ := (inferInstance : Nonempty W)
    cases texts with
    | nil => exact absurd (h m₀) (by simp)
    | cons t ts =>
      have h1 : ∀ m : W, sprintf m l.1 l.2 = t := fun m => (List.cons.inj (h m)).1
      have h2 : ∀ m : W, ls.map (fun l => sprintf m l.1 l.2) = ts := fun m => (List.cons.inj (h m)).2
      have := tells_log (W := W) hu hb dot_fits .lazyTracef l.1 l.2 stack ("· " ++ t) (fun m => by rw [dot_text, h1])
      exact this.append (ih ts h2)

omit [Humanize] in
theorem tells_render [Nonempty W] (hv : v.Rendered W) {ctx : Ctx A} {tr : Tr A} (hg : maybeGet ctx = some tr) (hb : tr.unprefixed) (orphan : Nat)
    (stack : List StdFrame) (name : String) (view : Rendering) :
    GivesTexts W tr (renderActs v ctx orphan stack name view).1 (view.report name) ∧
      ((renderActs v ctx orphan stack name view).2 = 500 ↔ view.fails name) ∧ ((renderActs v ctx orphan stack name view).2 = 200 ↔ ¬ view.fails name) := by
  have hget : get ctx orphan = (tr, []) := by simp [get, hg]
  have own := fun (kind : LogKind) (format : String) (args : List A) (text : String) (h : ∀ m : W, sprintf m format args = text) =>
    tells_log (W := W) (.base : Under tr tr []) hb none_fits kind format args stack text (fun m => by rw [h m]; simp [prefixTexts])
  have err : ∀ (p : String) (e : String), '%' ∉ p.toList → ∀ m : W, sprintf m (p ++ ("%v" ++ "")) [v.err e] = p ++ e := by
    intro p e hp m
    rw [text_between m p "%v" "" _ e hp (by decide) (text_v m _ _ (hv.values.err m e)) (by decide), String.append_empty]
  cases view with
  | json enc =>
    cases enc with
    | error e =>
      refine ⟨?_, by simp [renderActs, jsonActs, Rendering.fails], by simp [renderActs, jsonActs, Rendering.fails]⟩
      simp only [renderActs, jsonActs, hget, List.nil_append, Rendering.report]
      exact own .lazyErrorf "marshal JSON: %v" [v.err e] _ (err "marshal JSON: " e (by decide))
    | ok n =>
      refine ⟨?_, by simp [renderActs, jsonActs, Rendering.fails], by simp [renderActs, jsonActs, Rendering.fails]⟩
      simp only [renderActs, jsonActs, hget, List.nil_append, Rendering.report]
      refine own .lazyTracef "marshaled JSON response (%s)" _ _ fun m => ?_
      rw [show "marshaled JSON response (%s)" = "marshaled JSON response (" ++ ("%s" ++ ")") from rfl,
        text_between m _ "%s" ")" _ _ (by decide) (by decide) (text_s m _ _ (hv.values.str m _)) (by decide), String.append_assoc]
  | html d took =>
    obtain ⟨r1, r2⟩ := template_result v name d
    have hreg : GivesTexts W tr (templateActs v ctx orphan stack name d took).1
        ([(false, "→ renderTemplate")] ++ (pageTexts name d).map (fun s => (false, "· " ++ s)) ++ [(false, "← renderTemplate [" ++ took ++ "]")]) := by
      have hpre : (prefixed ctx orphan "·" ([] : List A)).2.2 = [] := by simp [prefixed, hget, trim_dot]
      simp only [templateActs, region, hget, hpre, List.nil_append]
      refine GivesTexts.append (GivesTexts.append ?_ ?_) ?_
      · exact own .lazyTracef ("→ " ++ "renderTemplate") [] _ fun m => by rw [sprintf_plain m _ (by decide)]; rfl
      · exact tells_lines (.pre (ps := []) ctx orphan "·" [] .base hg) hb stack _ _ (template_texts hv name d)
      · refine own .lazyTracef ("← " ++ "renderTemplate" ++ " [%s]") _ _ fun m => ?_
        rw [show "← " ++ "renderTemplate" ++ " [%s]" = "← renderTemplate [" ++ ("%s" ++ "]") from rfl,
          text_between m _ "%s" "]" _ _ (by decide) (by decide) (text_s m _ _ (hv.values.str m _)) (by decide), String.append_assoc]
    have h2 : (templateActs v ctx orphan stack name d took).2 = (templateLines v name d).2 := rfl
    cases hp : pageError name d with
    | some e =>
      have he := (r1 e).mpr hp
      refine ⟨?_, by simp [renderActs, htmlActs, Rendering.fails, h2, he, hp], by simp [renderActs, htmlActs, Rendering.fails, h2, he, hp]⟩
      simp only [renderActs, htmlActs, h2, he, hget, List.nil_append, Rendering.report, hp]
      exact hreg.append (own .lazyErrorf "render template: %v" [v.err e] _ (err "render template: " e (by decide)))
    | none =>
      obtain ⟨n, hn⟩ := r2.mpr hp
      refine ⟨?_, by simp [renderActs, htmlActs, Rendering.fails, h2, hn, hp], by simp [renderActs, htmlActs, Rendering.fails, h2, hn, hp]⟩
      simp only [renderActs, htmlActs, h2, hn, hget, List.nil_append, Rendering.report, hp]
      rw [Option.toList_none, List.map_nil, List.append_nil]
      exact hreg

/-! ## The search -/

omit [Humanize] in
theorem tells_search {limit : Int} (hv : v.Rendered W) {ctx : Ctx A} {tr : Tr A} (hg : maybeGet ctx = some tr) (hb : tr.unprefixed)
    {s : Srch} {lines : List (Logged A)} {answer : Answer} (hs : Searches v.toValues limit [] ctx s lines answer) (m₀ : W) :
    GivesTexts W tr ((lines.map Logged.line).flatMap Line.acts) (lines.map (told m₀)) := by
  obtain ⟨-, a2, -⟩ := searches_spec (W := W) hv.values hs
  clear hs
  induction lines with
  | nil => exact tells_nil tr
  | cons x lines ih =>
    refine GivesTexts.append (xs := [told m₀ x]) ?_ (ih fun y hy => a2 y (by simp [hy]))
    obtain ⟨⟨js, g1, g2⟩, g3⟩ := a2 x (by simp)
    rw [List.nil_append] at g1
    subst g1
    obtain ⟨tr', h3, h4⟩ := below_under hg g2
    have h5 : get x.ctx 0 = (tr', []) := by simp [get, h3]
    have := tells_log (W := W) h4 hb (fits_marks _) x.kind x.format x.args x.stack (told m₀ x).2 (fun m => by
      rw [← g3 m m₀, text_marks hv.values]; rfl)
    have e : x.line.acts = tr'.logActs x.kind x.format x.args x.stack := by simp [Logged.line, Line.acts, h5]
    rw [e]
    exact this

/-! ## The events -/

/-- A trace is told of something, before and after which others log: its events are those of the others, and in between what is told. -/
theorem tells_told (g : Globals) (start : Time) (id source category : String) (w w' : World A)
    (ex : List (AEnv W × Act A)) (ctx : Ctx A) (tr : Tr A) (hg : maybeGet ctx = some tr) (hu : tr.unprefixed)
    (before after : List (Line A)) (hothers : ∀ l ∈ before ++ after, Below ctx l.ctx l.prefixes ∧ Fits l.prefixes)
    (acts : List (Act A)) (texts : List (Bool × String)) (htells : GivesTexts W tr acts texts)
    (hex : callsIn tr.root (ex.map Prod.snd) = callsIn tr.root (before.flatMap Line.acts ++ acts ++ after.flatMap Line.acts))
    (hm : ∀ p ∈ ex, notMake tr.root p.2) (hrun : w.run ex = some w')
    (ht : w.traces tr.root = some (newCoreTrace g start id source category zeroTrace))
    (hlen : ((before.length + texts.length + after.length : Nat) : Int) ≤ g.traceMaxEvents) :
    ∃ t, w'.traces tr.root = some t ∧
      (t.errored = true ↔ (∃ l ∈ before ++ after, isErr l.kind = true) ∨ ∃ x ∈ texts, x.1 = true) ∧
      ∀ (env : Env W) evs, t.events' env = some evs → ∃ pre mid post, evs = pre ++ mid ++ post ∧ pre.length = before.length ∧
        post.length = after.length ∧ mid.map (fun ev => (ev.isError, ev.what)) = texts := by
  obtain ⟨saids, s1, s2⟩ := htells
  have hl : ∀ l ∈ before ++ after, l.said.tr.root = tr.root ∧ l.acts = l.said.acts := by
    intro l hl
    obtain ⟨h1, h2⟩ := hothers l hl
    obtain ⟨tr', h3, h4⟩ := below_under hg h1
    have h5 : get l.ctx l.orphan = (tr', []) := by simp [get, h3]
    have h6 : l.said.tr = tr' := by simp [Line.said, h5]
    rw [h6]
    refine ⟨(under_text (W := W) h4 hu h2).2.1, ?_⟩
    cases hdir : l.direct <;> simp [Line.acts, ezLog, Said.acts, Line.said, h5, hdir]
  have hcalls : ∀ ls : List (Line A), (∀ l ∈ ls, l.said.tr.root = tr.root ∧ l.acts = l.said.acts) →
      callsIn tr.root (ls.flatMap Line.acts) = (ls.map Line.said).map Said.call := by
    intro ls h
    rw [← said_calls tr.root _ (by
      intro x hx
      obtain ⟨l, hl', rfl⟩ := List.mem_map.mp hx
      exact (h l hl').1), List.flatMap_map]
    congr 1
    induction ls with
    | nil => rfl
    | cons y l ih => rw [List.flatMap_cons, List.flatMap_cons, (h y (by simp)).2, ih fun z hz => h z (by simp [hz])]
  have hsl := s2.length_eq
  obtain ⟨t, calls, ended, t1, t2, t3, t4, -, -, -, -, -, t5, -, t6⟩ :=
    said_ended [] ⟨by simp, by simp⟩ g start id source category w w' ex (before.map Line.said ++ saids ++ after.map Line.said) tr.root (by
      rw [hex, callsIn_append, callsIn_append, hcalls before fun l h => hl l (by simp [h]), hcalls after fun l h => hl l (by simp [h]), s1]
      simp) hm hrun ht (by simpa [hsl, Nat.add_assoc] using hlen)
  refine ⟨t, t1, ?_, ?_⟩
  · rw [t5]
    have hs : (∃ s ∈ saids, isErr s.kind = true) ↔ ∃ x ∈ texts, x.1 = true := by
      clear hsl s1 t5 t6 t3 hlen
      induction s2 with
      | nil => simp
      | cons h _ ih =>
        simp only [List.exists_mem_cons_iff]
        rw [ih, h.1]
    rw [← hs]
    constructor
    · rintro ⟨s, hs', e⟩
      rcases List.mem_append.mp hs' with hs' | hs'
      · rcases List.mem_append.mp hs' with hs' | hs'
        · obtain ⟨l, hl', rfl⟩ := List.mem_map.mp hs'
          exact Or.inl ⟨l, by simp [hl'], e⟩
        · exact Or.inr ⟨s, hs', e⟩
      · obtain ⟨l, hl', rfl⟩ := List.mem_map.mp hs'
        exact Or.inl ⟨l, by simp [hl'], e⟩
    · rintro (⟨l, hl', e⟩ | ⟨s, hs', e⟩)
      · refine ⟨l.said, ?_, e⟩
        rcases List.mem_append.mp hl' with h | h
        · exact List.mem_append_left _ (List.mem_append_left _ (List.mem_map_of_mem h))
        · exact List.mem_append_right _ (List.mem_map_of_mem h)
      · exact ⟨s, by simp [hs'], e⟩
  · intro env evs hevs
    obtain ⟨l1, l2⟩ := t6 env evs hevs
    simp only [List.length_append, List.length_map] at l1 t3
    refine ⟨evs.take before.length, (evs.drop before.length).take saids.length, evs.drop (before.length + saids.length), ?_, ?_, ?_, ?_⟩
    · rw [List.append_assoc, ← List.drop_drop, List.take_append_drop, List.take_append_drop]
    · rw [List.length_take]; omega
    · rw [List.length_drop]; omega
    · apply List.ext_getElem?
      intro i
      rw [List.getElem?_map]
      by_cases hi : i < saids.length
      · rw [List.getElem?_take, if_pos hi, List.getElem?_drop]
        have hj : before.length + i < evs.length := by omega
        have hc' : before.length + i < calls.length := by omega
        have hc : (callsOn tr.root ex)[before.length + i]? = some calls[before.length + i] := by
          rw [t2, List.getElem?_append_left hc', List.getElem?_eq_getElem hc']
        have hsaid : (before.map Line.said ++ saids ++ after.map Line.said)[before.length + i]? = some saids[i] := by
          rw [List.append_assoc, List.getElem?_append_right (by simp), List.length_map, Nat.add_sub_cancel_left, List.getElem?_append_left hi,
            List.getElem?_eq_getElem hi]
        have r := l2 _ _ _ _ (List.getElem?_eq_getElem hj) hsaid hc
        have hx : i < texts.length := by omega
        have hrel := (List.forall₂_iff_get.mp s2).2 i hi hx
        rw [List.getElem?_eq_getElem hj, List.getElem?_eq_getElem hx, Option.map_some]
        obtain ⟨m', hm'⟩ := r.2.2.2.2
        exact congrArg some (Prod.ext (r.2.1.trans hrel.1) (hm'.trans (hrel.2 m')))
      · rw [List.getElem?_take, if_neg hi, List.getElem?_eq_none (by omega)]
        rfl

theorem report_length (name : String) (view : Rendering) : (view.report name).length ≤ 7 := by
  cases view with
  | json enc => cases enc <;> simp [Rendering.report]
  | html d took =>
    have h : (pageTexts name d).length + (pageError name d).toList.length ≤ 5 := by
      obtain ⟨parse, files, parseFiles, found, execute⟩ := d
      cases parse with
      | some e => simp [pageTexts, pageError]
      | none => cases files <;> cases parseFiles <;> cases found <;> cases execute <;> simp [pageTexts, pageError]
    simp only [Rendering.report, List.length_append, List.length_map, List.length_cons, List.length_nil]
    omega

theorem report_error (name : String) (view : Rendering) : (∃ x ∈ view.report name, x.1 = true) ↔ view.fails name := by
  cases view with
  | json enc => cases enc <;> simp [Rendering.report, Rendering.fails]
  | html d took => cases hp : pageError name d <;> simp [Rendering.report, Rendering.fails, hp]

/-- **C140** The search handler is given a request whose context has a trace, to which others log before and after it is called.  Then the trace tells, after
what the others have said before, what the search handler has been asked: the request, normalized.  After that it tells what is to be said about the search (C133), the outcome last, and
then how the response was rendered: how large it is, or what has failed.  The trace is marked as errored if and only if the response has not status 200, or a
client that was searched has failed, or else someone has logged an error. -/
theorem C140_told [Nonempty W] (hv : v.Rendered W) (g : Globals) (start : Time) (id source category : String) (w w' : World A)
    (ex : List (AEnv W × Act A)) (ctx : Ctx A) (tr : Tr A) (hg : maybeGet ctx = some tr) (hu : tr.unprefixed)
    (compile : Compile) (orphan : Nat) (stack : List StdFrame) (raw req : SearchRequest) (problems : List String) (hn : raw.normalize compile = some (req, problems))
    (search : Ctx A → SearchRequest → List (Act A)) (view : Rendering)
    (s : Srch) (lines : List (Logged A)) (answer : Answer) (hs : Searches v.toValues req.limit [] ctx s lines answer)
    (hsearch : search ctx req = (lines.map Logged.line).flatMap Line.acts)
    (acts : List (Act A)) (status : Int) (hh : handleSearchActs v compile ctx orphan stack (.ok raw) search view = some (acts, status))
    (before after : List (Line A)) (hothers : ∀ l ∈ before ++ after, Below ctx l.ctx l.prefixes ∧ Fits l.prefixes)
    (hex : callsIn tr.root (ex.map Prod.snd) = callsIn tr.root (before.flatMap Line.acts ++ acts ++ after.flatMap Line.acts))
    (hm : ∀ p ∈ ex, notMake tr.root p.2) (hrun : w.run ex = some w')
    (ht : w.traces tr.root = some (newCoreTrace g start id source category zeroTrace))
    (hlen : ((before.length + lines.length + after.length + 8 : Nat) : Int) ≤ g.traceMaxEvents) :
    answer = s.answer req.limit ∧ (status = 200 ∨ status = 500) ∧ (status = 500 ↔ view.fails "traces.html") ∧ ∃ t, w'.traces tr.root = some t ∧
      (t.errored = true ↔ (∃ l ∈ before ++ after, isErr l.kind = true) ∨ s.fails ∨ status ≠ 200) ∧
      ∀ (env : Env W) evs, t.events' env = some evs → ∃ pre mid post, evs = pre ++ mid ++ post ∧ pre.length = before.length ∧
        post.length = after.length ∧ ∃ es : List (Bool × String),
        mid.map (fun ev => (ev.isError, ev.what)) = (false, "search request " ++ Web.requestString req) :: es ++ view.report "traces.html" ∧
        es.Perm (s.report req.limit) ∧ es.getLast? = (s.report req.limit).getLast? := by
  obtain ⟨m₀⟩ := (inferInstance : Nonempty W)
  obtain ⟨a1, -, a3⟩ := searches_spec (W := W) hv.values hs
  have hun : (s.report req.limit).map (under []) = s.report req.limit := by
    have : under [] = _root_.id := by funext x; simp [under, idText]
    rw [this, List.map_id]
  simp only [hun] at a3
  obtain ⟨r1, r2, r3⟩ := tells_render hv hg hu orphan stack "traces.html" view
  have hget : get ctx orphan = (tr, []) := by simp [get, hg]
  simp only [handleSearchActs, hn, hget, List.nil_append, Option.bind_eq_bind, Option.bind_some, Option.pure_def, Option.some.injEq, Prod.mk.injEq] at hh
  obtain ⟨h1, rfl⟩ := hh
  have hreq : GivesTexts W tr (tr.logActs .lazyTracef "search request %s" [v.request req] stack) [(false, "search request " ++ Web.requestString req)] :=
    tells_log (W := W) (.base : Under tr tr []) hu none_fits .lazyTracef "search request %s" [v.request req] stack _ fun m => by
      rw [show "search request %s" = "search request " ++ ("%s" ++ "") from rfl,
        text_between m _ "%s" "" _ _ (by decide) (by decide) (text_s m _ _ (hv.request m req)) (by decide)]
      simp [prefixTexts]
  have hall := (hreq.append (tells_search hv hg hu hs m₀)).append r1
  rw [← hsearch, h1] at hall
  have hrep := report_length "traces.html" view
  have hfails := report_error "traces.html" view
  obtain ⟨t, t1, t2, t3⟩ := tells_told g start id source category w w' ex ctx tr hg hu before after hothers acts _ hall hex hm hrun ht (by
    refine Int.le_trans ?_ hlen
    simp only [List.length_append, List.length_map, List.length_cons, List.length_nil]
    omega)
  refine ⟨a1, ?_, r2, t, t1, ?_, ?_⟩
  · by_cases h : view.fails "traces.html"
    · exact Or.inr (r2.mpr h)
    · exact Or.inl (r3.mpr h)
  · rw [t2, ne_eq, r3, not_not, ← hfails, ← report_fails req.limit s]
    refine or_congr Iff.rfl ?_
    simp only [List.mem_append, List.mem_singleton]
    constructor
    · rintro ⟨x, (rfl | hx) | hx, e⟩
      · cases e
      · exact Or.inl ⟨x, (a3 m₀).1.mem_iff.mp hx, e⟩
      · exact Or.inr ⟨x, hx, e⟩
    · rintro (⟨x, hx, e⟩ | ⟨x, hx, e⟩)
      · exact ⟨x, Or.inl (Or.inr ((a3 m₀).1.mem_iff.mpr hx)), e⟩
      · exact ⟨x, Or.inr hx, e⟩
  · intro env evs hevs
    obtain ⟨pre, mid, post, e1, e2, e3, e4⟩ := t3 env evs hevs
    exact ⟨pre, mid, post, e1, e2, e3, lines.map (told m₀), e4, (a3 m₀).1, (a3 m₀).2⟩

/-- **C140** If the request cannot be decoded, the trace tells why and is marked as errored; nothing is said of a search, and the response has status 400. -/
theorem C140_undecodable (hv : v.Rendered W) (g : Globals) (start : Time) (id source category : String) (w w' : World A)
    (ex : List (AEnv W × Act A)) (ctx : Ctx A) (tr : Tr A) (hg : maybeGet ctx = some tr) (hu : tr.unprefixed)
    (compile : Compile) (orphan : Nat) (stack : List StdFrame) (e : String) (search : Ctx A → SearchRequest → List (Act A)) (view : Rendering)
    (acts : List (Act A)) (status : Int) (hh : handleSearchActs v compile ctx orphan stack (.error e) search view = some (acts, status))
    (before after : List (Line A)) (hothers : ∀ l ∈ before ++ after, Below ctx l.ctx l.prefixes ∧ Fits l.prefixes)
    (hex : callsIn tr.root (ex.map Prod.snd) = callsIn tr.root (before.flatMap Line.acts ++ acts ++ after.flatMap Line.acts))
    (hm : ∀ p ∈ ex, notMake tr.root p.2) (hrun : w.run ex = some w')
    (ht : w.traces tr.root = some (newCoreTrace g start id source category zeroTrace))
    (hlen : ((before.length + after.length + 1 : Nat) : Int) ≤ g.traceMaxEvents) :
    status = 400 ∧ ∃ t, w'.traces tr.root = some t ∧ t.errored = true ∧
      ∀ (env : Env W) evs, t.events' env = some evs → ∃ pre ev post, evs = pre ++ ev :: post ∧ pre.length = before.length ∧
        post.length = after.length ∧ ev.isError = true ∧ ev.what = "decode JSON request failed (" ++ e ++ ") -- returning error" := by
  have hget : get ctx orphan = (tr, []) := by simp [get, hg]
  simp only [handleSearchActs, hget, List.nil_append, Option.some.injEq, Prod.mk.injEq] at hh
  obtain ⟨h1, rfl⟩ := hh
  have htell : GivesTexts W tr acts [(true, "decode JSON request failed (" ++ e ++ ") -- returning error")] := by
    rw [← h1]
    refine tells_log (W := W) (.base : Under tr tr []) hu none_fits .errorf _ _ stack _ fun m => ?_
    rw [show "decode JSON request failed (%v) -- returning error" = "decode JSON request failed (" ++ ("%v" ++ ") -- returning error") from rfl,
      text_between m _ "%v" _ _ _ (by decide) (by decide) (text_v m _ _ (hv.values.err m e)) (by decide)]
    simp [prefixTexts, String.append_assoc]
  obtain ⟨t, t1, t2, t3⟩ := tells_told g start id source category w w' ex ctx tr hg hu before after hothers acts _ htell hex hm hrun ht (by
    refine Int.le_trans ?_ hlen
    simp only [List.length_cons, List.length_nil]
    omega)
  refine ⟨rfl, t, t1, t2.mpr (Or.inr ⟨_, List.mem_singleton_self _, rfl⟩), ?_⟩
  intro env evs hevs
  obtain ⟨pre, mid, post, e1, e2, e3, e4⟩ := t3 env evs hevs
  obtain ⟨ev, rest, rfl, e5, e6⟩ := List.map_eq_cons_iff.mp e4
  rw [List.map_eq_nil_iff] at e6
  subst e6
  exact ⟨pre, ev, post, by rw [e1, List.append_assoc, List.singleton_append], e2, e3, congrArg Prod.fst e5, congrArg Prod.snd e5⟩

end
end Trc.Wrap

/-! ## Example -/

namespace Trc.Wrap.Witness.Handling

open Core Core.Spec Fmt Witness.Searching

/-- The search of the example of C133 is asked for with a limit of one and no bucketing; the page is rendered with a local file. -/
def values : HandlerValues String := { vals with request := Web.requestString, list := fun l => "[" ++ String.intercalate " " l ++ "]" }

theorem values_ok : values.Rendered Unit where
  values := vals_ok
  request := fun _ _ => rfl
  list := fun _ _ => rfl

def asked : SearchRequest := { limit := 1 }
def comp : Compile := fun _ => .error ""
def normal : SearchRequest := { asked with bucketing := defaultBucketing }
def search : Ctx String → SearchRequest → List (Act String) := fun _ _ => (logged.map Logged.line).flatMap Line.acts
def view : Rendering := .html { files := ["traces.html"], execute := .ok 2000 } "1ms"
def before : List (Line String) := [⟨ctx, [], 0, .lazyTracef, "GET", [], [], true⟩]
def handled : List (Act String) := ((handleSearchActs values comp ctx 0 [] (.ok asked) search view).getD ([], 0)).1

theorem handled_eq : handleSearchActs values comp ctx 0 [] (.ok asked) search view = some (handled, 200) := by rfl

theorem normalized : asked.normalize comp = some (normal, []) := by rfl

def run' : List (AEnv Unit × Act String) :=
  (before.flatMap Line.acts ++ handled).map fun act => ({ now := ⟨1, none⟩, w := (), id := "", subscribed := true }, act)

theorem runs' : (world.run run').isSome = true := by decide +kernel

theorem no_make' : ∀ p ∈ run', notMake tr.root p.2 := by
  intro p hp
  have h : run'.all (fun p => match p.2 with | .make _ _ _ => false | _ => true) = true := by decide +kernel
  have := List.all_eq_true.mp h p hp
  cases hq : p.2 with
  | make b s c => rw [hq] at this; cases this
  | _ => trivial

/-- The trace tells the request, the search and the page, and is errored, because a client has failed. -/
example : ∃ w t, world.run run' = some w ∧ w.traces 0 = some t ∧ t.errored = true ∧
    Web.requestString normal = "Filter:[(allow all)] Limit:1" ∧
    view.report "traces.html" = [(false, "→ renderTemplate"), (false, "· template.ParseFS OK"), (false, "· local files [traces.html]"),
      (false, "· template.Lookup(traces.html) OK"), (false, "· template.Execute OK, 2.0KB"), (false, "← renderTemplate [1ms]")] := by
  obtain ⟨w, hw⟩ := Option.isSome_iff_exists.mp runs'
  obtain ⟨-, -, -, t, h2, h3, -⟩ := C140_told (W := Unit) values_ok (Globals.after []) ⟨0, none⟩ "i" "s" "c" world w run' ctx tr rfl trivial
    comp 0 [] asked normal [] normalized search view srch logged _ searched rfl handled 200 handled_eq before []
    (by
      intro l hl
      simp only [before, List.append_nil, List.mem_singleton] at hl
      subst hl
      exact ⟨.here, by intro p hp; cases hp⟩)
    (by rw [run', List.map_map]; simp [Function.comp_def]) no_make' hw rfl (by decide)
  exact ⟨w, t, hw, h2, h3.mpr (Or.inr (Or.inl (Or.inr (Or.inl trivial)))), by decide +kernel, by decide +kernel⟩

end Trc.Wrap.Witness.Handling
