import Verif.Web.Use

/-!
# C120, C121: the page as it is used
-/

set_option linter.unusedVariables false
set_option linter.unusedSimpArgs false

namespace Trc.Web.Use

theorem run_append (s : St) (l l' : List Do) : s.run (l ++ l') = (s.run l).run l' := by
  induction l generalizing s with
  | nil => rfl
  | cons a l ih => exact ih _

/-! ## C120 -/

/-- The block of an element. -/
def Elem.block : Elem → Nat
  | .timeline k | .row k _ | .bar k _ | .part k _ => k

/-- The index of the event of an element, if it has one. -/
def Elem.index : Elem → Option Nat
  | .timeline _ => none
  | .row _ i | .bar _ i | .part _ i => some i

/-- The pointer is on an event of a trace, and the element belongs to that event (or is the timeline) of a trace on the
page with the same ID. -/
def Under (page : Page) (p : Place) (e : Elem) : Prop :=
  ∃ k index c t t', p = some (k, index, c) ∧ page[k]? = some t ∧ page[e.block]? = some t' ∧ t'.id = t.id ∧ ∀ i ∈ e.index, (i : Int) = index

theorem selects_iff (page : Page) (id : String) (index : Int) (e : Elem) :
    selects page id index e = true ↔ ∃ t', page[e.block]? = some t' ∧ t'.id = id ∧ ∀ i ∈ e.index, (i : Int) = index := by
  cases e with
  | timeline k =>
    simp only [selects, Elem.block, Elem.index]
    cases page[k]? <;> simp
  | row k i | bar k i | part k i =>
    simp only [selects, Elem.block, Elem.index]
    cases page[k]? <;> simp

theorem listener_iff (page : Page) (p : Place) (hover : Elem → Bool) (e : Elem) :
    ∃ b : Bool, listener page p hover e = (hover e ^^ b) ∧ (b = true ↔ Under page p e) := by
  unfold listener
  cases p with
  | none => exact ⟨false, by simp, by simp [Under]⟩
  | some q =>
    obtain ⟨k, index, c⟩ := q
    cases hk : page[k]? with
    | none => exact ⟨false, by simp [hk], by simp [Under, hk]⟩
    | some t =>
      refine ⟨selects page t.id index e, by simp [hk, hoverEvent], ?_⟩
      rw [selects_iff]
      constructor
      · rintro ⟨t', h1, h2, h3⟩
        exact ⟨k, index, c, t, t', rfl, hk, h1, h2, h3⟩
      · rintro ⟨k₁, index₁, c₁, t₁, t', h1, h2, h3, h4, h5⟩
        simp only [Option.some.injEq, Prod.mk.injEq] at h1
        obtain ⟨rfl, rfl, rfl⟩ := h1
        rw [hk] at h2
        obtain rfl := Option.some.inj h2
        exact ⟨t', h3, h4, h5⟩

/-- What is highlighted is what is under the pointer. -/
def Good (s : St) : Prop := ∀ e, s.hover e = true ↔ Under s.page s.place e

theorem good_act (s : St) (h : Good s) (a : Do) : Good (s.act a) := by
  cases a with
  | load page found => intro e; simp [St.act, Under]
  | event k i => exact h
  | summary k i => exact h
  | stacks k =>
    unfold St.act
    dsimp only
    split <;> exact h
  | key code shift =>
    have : (keydown s code shift).hover = s.hover ∧ (keydown s code shift).page = s.page ∧ (keydown s code shift).place = s.place := by
      unfold keydown
      dsimp only
      repeat' split
      all_goals exact ⟨rfl, rfl, rfl⟩
    intro e
    show (keydown s code shift).hover e = true ↔ _
    show _ ↔ Under (keydown s code shift).page (keydown s code shift).place e
    rw [this.1, this.2.1, this.2.2]
    exact h e
  | debugInfo => exact h
  | focus f => exact h
  | move p =>
    intro e
    show (if p = s.place then s.hover else listener s.page p (listener s.page s.place s.hover)) e = true ↔ Under s.page p e
    split
    next hp => rw [hp]; exact h e
    next hp =>
      obtain ⟨b, h1, h2⟩ := listener_iff s.page p (listener s.page s.place s.hover) e
      obtain ⟨b', h3, h4⟩ := listener_iff s.page s.place s.hover e
      rw [h1, h3, ← h2]
      have : s.hover e = b' := Bool.eq_iff_iff.mpr ((h e).trans h4.symm)
      rw [this]
      simp

theorem good_run (s : St) (h : Good s) (l : List Do) : Good (s.run l) := by
  induction l generalizing s with
  | nil => exact h
  | cons a l ih => exact ih _ (good_act s h a)

/-- C120.  However the pointer is moved over the page, and whatever else is done, the highlighted elements are
exactly those of the event under the pointer: its row, its bar, its part of the timeline and the timeline of its trace, and
of other copies of the same trace. -/
theorem C120_highlighted (l : List Do) (e : Elem) : (({} : St).run l).hover e = true ↔ Under (({} : St).run l).page (({} : St).run l).place e :=
  good_run {} (by intro e; simp [Under]) l e

/-- If each trace is on the page once, no other trace is affected, and one event at most is highlighted. -/
theorem C120_one (l : List Do) (hid : ((({} : St).run l).page.map PTrace.id).Nodup) (e : Elem) :
    (({} : St).run l).hover e = true ↔
      ∃ index c, (({} : St).run l).place = some (e.block, index, c) ∧ e.block < (({} : St).run l).page.length ∧ ∀ i ∈ e.index, (i : Int) = index := by
  rw [C120_highlighted]
  generalize (({} : St).run l) = s at *
  constructor
  · rintro ⟨k, index, c, t, t', h1, h2, h3, h4, h5⟩
    have hk : e.block = k := by
      have g1 : (s.page.map PTrace.id)[e.block]? = some t'.id := by rw [List.getElem?_map, h3]; rfl
      have g2 : (s.page.map PTrace.id)[k]? = some t'.id := by rw [List.getElem?_map, h2, h4]; rfl
      have hlt := (List.getElem?_eq_some_iff.mp g1).1
      exact (List.getElem?_inj hlt hid).mp (g1.trans g2.symm)
    exact ⟨index, c, by rw [h1, hk], (List.getElem?_eq_some_iff.mp h3).1, h5⟩
  · rintro ⟨index, c, h1, h2, h3⟩
    exact ⟨e.block, index, c, _, _, h1, List.getElem?_eq_getElem h2, List.getElem?_eq_getElem h2, rfl, h3⟩

/-! ## C121 -/

/-- In the state, the action is about all stacks of some traces, the one in block `k` among them: the ≡ of a trace with the
same ID, or the key S on the page itself. -/
def Group (s : St) (k : Nat) (sel : PTrace → Bool) : Do → Prop
  | .stacks j => ∃ t t', s.page[j]? = some t ∧ s.page[k]? = some t' ∧ t'.id = t.id ∧ sel = fun x => x.id == t.id
  | .key code _ => code = 83 ∧ s.focus = .body ∧ sel = fun _ => true
  | _ => False

/-- Nobody does so for block `k`, nor leaves the page. -/
def Quiet (k : Nat) : St → List Do → Prop
  | _, [] => True
  | s, a :: l => (∀ sel, ¬ Group s k sel a) ∧ (∀ page found, a ≠ .load page found) ∧ Quiet k (s.act a) l

/-- The clicks on a stack or on its event. -/
def clicks (k i : Nat) (l : List Do) : Nat :=
  l.countP fun a => match a with
    | .event k' i' | .summary k' i' => k' == k && i' == i
    | _ => false

/-- All stacks of the chosen traces are closed. -/
def AllClosed (s : St) (sel : PTrace → Bool) : Prop :=
  ∀ k t i, s.page[k]? = some t → sel t = true → i < t.events → s.opened k i = false

theorem anyOpen_iff (page : Page) (sel : PTrace → Bool) (opened : Nat → Nat → Bool) :
    anyOpen page sel opened = true ↔ ∃ k t i, page[k]? = some t ∧ sel t = true ∧ i < t.events ∧ opened k i = true := by
  unfold anyOpen
  rw [List.any_eq_true]
  constructor
  · rintro ⟨k, hk, h⟩
    cases hp : page[k]? with
    | none => simp [hp] at h
    | some t =>
      simp only [hp, Bool.and_eq_true, List.any_eq_true, List.mem_range] at h
      obtain ⟨h1, i, h2, h3⟩ := h
      exact ⟨k, t, i, hp, h1, h2, h3⟩
  · rintro ⟨k, t, i, h1, h2, h3, h4⟩
    refine ⟨k, List.mem_range.mpr (List.getElem?_eq_some_iff.mp h1).1, ?_⟩
    simp only [h1, h2, Bool.true_and, List.any_eq_true, List.mem_range]
    exact ⟨i, h3, h4⟩

theorem has_some {page : Page} {k i : Nat} (h : has page k i = true) : ∃ t, page[k]? = some t ∧ i < t.events := by
  unfold has at h
  cases hp : page[k]? with
  | none => simp [hp] at h
  | some t => exact ⟨t, rfl, by simpa [hp] using h⟩

/-- After an action for all. -/
theorem group_act {s : St} {k : Nat} {sel : PTrace → Bool} {a : Do} (h : Group s k sel a) {i : Nat} (hi : has s.page k i = true) :
    (s.act a).page = s.page ∧ ((s.act a).opened k i = true ↔ AllClosed s sel) ∧
    ∀ k' i', (∀ t, s.page[k']? = some t → sel t = false) → (s.act a).opened k' i' = s.opened k' i' := by
  obtain ⟨t', ht', hit'⟩ := has_some hi
  have key : ∀ sel : PTrace → Bool, sel t' = true →
      (toggleAll s.page sel s.opened k i = true ↔ AllClosed s sel) ∧
      ∀ k' i', (∀ t, s.page[k']? = some t → sel t = false) → toggleAll s.page sel s.opened k' i' = s.opened k' i' := by
    intro sel hsel
    refine ⟨?_, ?_⟩
    · simp only [toggleAll, ht', hsel, hit', decide_true, Bool.true_and, if_true, Bool.not_eq_true']
      rw [← Bool.not_eq_true, anyOpen_iff]
      constructor
      · intro h k₁ t₁ i₁ h1 h2 h3
        cases ho : s.opened k₁ i₁ with
        | false => rfl
        | true => exact absurd ⟨k₁, t₁, i₁, h1, h2, h3, ho⟩ h
      · rintro h ⟨k₁, t₁, i₁, h1, h2, h3, h4⟩
        rw [h k₁ t₁ i₁ h1 h2 h3] at h4
        cases h4
    · intro k' i' hk'
      unfold toggleAll
      cases hp : s.page[k']? with
      | none => rfl
      | some t => simp [hk' t hp]
  cases a with
  | stacks j =>
    obtain ⟨t, t₂, h1, h2, h3, rfl⟩ := h
    rw [ht'] at h2
    obtain rfl := Option.some.inj h2
    simp only [St.act, h1]
    exact ⟨trivial, key _ (by simp [h3])⟩
  | key code shift =>
    obtain ⟨rfl, hf, rfl⟩ := h
    simp only [St.act, keydown, hf, if_true]
    exact ⟨by simp, key _ rfl⟩
  | _ => exact h.elim

/-- An action that is not for all changes only the stack it is about. -/
theorem other_act {s : St} {k : Nat} {a : Do} (h : ∀ sel, ¬ Group s k sel a) (hl : ∀ page found, a ≠ .load page found) {i : Nat}
    (hi : has s.page k i = true) :
    (s.act a).page = s.page ∧ (s.act a).opened k i = (s.opened k i ^^ decide (clicks k i [a] % 2 = 1)) := by
  obtain ⟨t', ht', hit'⟩ := has_some hi
  have one : ∀ k' i', toggleOne s.page k' i' s.opened k i = (s.opened k i ^^ decide ((if (k' == k && i' == i) = true then 1 else 0) % 2 = 1)) := by
    intro k' i'
    unfold toggleOne
    by_cases e : k' = k ∧ i' = i
    · obtain ⟨rfl, rfl⟩ := e
      simp [hi]
    · rw [if_neg (fun h => e ⟨h.1.symm, h.2.1.symm⟩), if_neg (by simpa using e)]
      simp
  cases a with
  | load page found => exact absurd rfl (hl page found)
  | event k' i' =>
    refine ⟨rfl, ?_⟩
    simp only [St.act, one, clicks, List.countP_cons, List.countP_nil, Nat.zero_add]
  | summary k' i' =>
    refine ⟨rfl, ?_⟩
    simp only [St.act, one, clicks, List.countP_cons, List.countP_nil, Nat.zero_add]
  | stacks j =>
    cases hj : s.page[j]? with
    | none => simp [St.act, hj, clicks]
    | some t =>
      have hne : t'.id ≠ t.id := fun e => h _ ⟨t, t', hj, ht', e, rfl⟩
      simp only [St.act, hj, toggleAll, ht', clicks]
      simp [hne]
  | key code shift =>
    have hn : ¬ (code = 83 ∧ s.focus = .body) := fun e => h _ ⟨e.1, e.2, rfl⟩
    have : (keydown s code shift).page = s.page ∧ (keydown s code shift).opened = s.opened := by
      unfold keydown
      dsimp only
      repeat' split
      all_goals first | exact ⟨rfl, rfl⟩ | (exfalso; exact hn ⟨by assumption, by assumption⟩)
    refine ⟨this.1, ?_⟩
    show (keydown s code shift).opened k i = _
    rw [this.2]
    simp [clicks]
  | debugInfo => simp [St.act, clicks]
  | focus f => simp [St.act, clicks]
  | move p => simp [St.act, clicks]

theorem quiet_run {s : St} {k : Nat} {l : List Do} (h : Quiet k s l) {i : Nat} (hi : has s.page k i = true) :
    (s.run l).page = s.page ∧ (s.run l).opened k i = (s.opened k i ^^ decide (clicks k i l % 2 = 1)) := by
  induction l generalizing s with
  | nil => exact ⟨rfl, by simp [St.run, clicks]⟩
  | cons a l ih =>
    obtain ⟨h1, h2, h3⟩ := h
    obtain ⟨g1, g2⟩ := other_act h1 h2 hi
    obtain ⟨g3, g4⟩ := ih h3 (by rw [g1]; exact hi)
    refine ⟨g3.trans g1, ?_⟩
    show ((s.act a).run l).opened k i = _
    rw [g4, g2, Bool.xor_assoc]
    congr 1
    have e : clicks k i (a :: l) = clicks k i [a] + clicks k i l := by
      unfold clicks
      rw [← List.countP_append, List.singleton_append]
    rw [e]
    rcases Nat.mod_two_eq_zero_or_one (clicks k i [a]) with e1 | e1 <;> rcases Nat.mod_two_eq_zero_or_one (clicks k i l) with e2 | e2 <;>
      simp [Nat.add_mod, e1, e2]

theorem act_page {s : St} {a : Do} (h : ∀ page found, a ≠ .load page found) : (s.act a).page = s.page := by
  cases a with
  | load page found => exact absurd rfl (h page found)
  | stacks j => unfold St.act; dsimp only; split <;> rfl
  | key code shift =>
    show (keydown s code shift).page = s.page
    unfold keydown
    dsimp only
    repeat' split
    all_goals rfl
  | _ => rfl

theorem run_page {s : St} {l : List Do} (h : ∀ page found, Do.load page found ∉ l) : (s.run l).page = s.page := by
  induction l generalizing s with
  | nil => rfl
  | cons a l ih =>
    show ((s.act a).run l).page = s.page
    rw [ih fun p f hm => h p f (List.mem_cons_of_mem _ hm), act_page]
    rintro p f rfl
    exact h p f (by simp)

/-- C121.  On a page, the stack of an event is as it was (open if the query was found in it) after an even number of clicks on it, and
otherwise after an odd number, until somebody does something for all stacks of its trace or of the page: the last
such thing opens all of them if all were closed, and closes all of them otherwise, and the clicks since then count.  It leaves
other traces alone. -/
theorem C121_stacks (s : St) (k i : Nat) (hi : has s.page k i = true) (l : List Do) :
    (Quiet k s l → ((s.run l).opened k i = true ↔ (s.opened k i = true ↔ clicks k i l % 2 = 0))) ∧
    ∀ before a sel after, l = before ++ a :: after → (∀ page found, Do.load page found ∉ before) → Group (s.run before) k sel a →
      Quiet k ((s.run before).act a) after →
      ((s.run l).opened k i = true ↔ (AllClosed (s.run before) sel ↔ clicks k i after % 2 = 0)) ∧
      ∀ k' i', (∀ t, s.page[k']? = some t → sel t = false) → ((s.run before).act a).opened k' i' = (s.run before).opened k' i' := by
  have par : ∀ n : Nat, decide (n % 2 = 1) = !decide (n % 2 = 0) := by
    intro n
    rcases Nat.mod_two_eq_zero_or_one n with e | e <;> simp [e]
  constructor
  · intro hq
    rw [(quiet_run hq hi).2, par]
    by_cases h : clicks k i l % 2 = 0 <;> cases s.opened k i <;> simp [h]
  · intro before a sel after hl hnl hg hq
    have hp : (s.run before).page = s.page := run_page hnl
    obtain ⟨g1, g2, g3⟩ := group_act hg (i := i) (by rw [hp]; exact hi)
    refine ⟨?_, by rw [hp] at g3; exact g3⟩
    have hi' : has ((s.run before).act a).page k i = true := by rw [g1, hp]; exact hi
    rw [hl, run_append]
    show (((s.run before).act a).run after).opened k i = true ↔ _
    rw [(quiet_run hq hi').2, par, ← g2]
    by_cases h : clicks k i after % 2 = 0 <;> cases ((s.run before).act a).opened k i <;> simp [h]

/-- Letters typed into the search box, which has the focus when a page was opened, are not taken for commands. -/
theorem C121_typing (s : St) (page : Page) (found : Nat → Nat → Bool) (keys : List (Nat × Bool)) (hesc : ∀ c ∈ keys, c.1 ≠ 27) :
    let s' := s.run (.load page found :: keys.map fun c => .key c.1 c.2)
    s'.opened = found ∧ s'.debug = s.debug ∧ s'.focus = .searchBox := by
  intro s'
  have key : ∀ s₁ : St, s₁.focus = .searchBox → s₁.run (keys.map fun c => .key c.1 c.2) = s₁ := by
    intro s₁ hf
    clear s'
    induction keys with
    | nil => rfl
    | cons c keys ih =>
      show (s₁.act (.key c.1 c.2)).run _ = s₁
      have : s₁.act (.key c.1 c.2) = s₁ := by
        have := hesc c (by simp)
        simp [St.act, keydown, hf, this]
      rw [this]
      exact ih fun c hc => hesc c (by simp [hc])
  have e : s' = s.act (.load page found) := key _ rfl
  rw [e]
  exact ⟨rfl, rfl, rfl⟩

/-- Escape leaves the search box, and the slash returns to it. -/
theorem C121_leave (s : St) (shift shift' : Bool) (h : s.focus ≠ .other) :
    (s.run [.key 27 shift]).focus = .body ∧ (s.run [.key 27 shift, .key 191 false]).focus = .searchBox ∧
    (s.run [.key 27 shift]).opened = s.opened ∧ (s.run [.key 27 shift]).debug = s.debug := by
  cases hf : s.focus with
  | other => exact absurd hf h
  | body => simp [St.run, St.act, keydown, hf]
  | searchBox => simp [St.run, St.act, keydown, hf]

/-- In the state, the action shows or hides the debug information. -/
def debugs (s : St) : Do → Bool
  | .debugInfo => true
  | .key code _ => decide (code = 68 ∧ s.focus = .body)
  | _ => false

def debugCount : St → List Do → Nat
  | _, [] => 0
  | s, a :: l => (if debugs s a then 1 else 0) + debugCount (s.act a) l

/-- The debug information is shown, on whatever page of the session, if and only if it was asked for or clicked on an odd
number of times. -/
theorem C121_debug (s : St) (hs : s.debug = false) (l : List Do) : (s.run l).debug = true ↔ debugCount s l % 2 = 1 := by
  have one : ∀ (s : St) a, (s.act a).debug = (s.debug ^^ debugs s a) := by
    intro s a
    cases a with
    | stacks j => unfold St.act; dsimp only; split <;> simp [debugs]
    | key code shift =>
      show (keydown s code shift).debug = _
      unfold keydown debugs
      by_cases hf : s.focus = .body
      · by_cases hc : code = 68
        · subst hc; simp [hf]
        · by_cases h83 : code = 83
          · subst h83; simp [hf]
          · by_cases h191 : code = 191 ∧ shift = false
            · simp [hf, hc, h83, h191]
            · simp only [hf, hc, h83, h191, if_true, if_false]
              split <;> simp
      · simp only [hf, if_false]
        split <;> simp
    | _ => simp [St.act, debugs]
  have all : ∀ (l : List Do) (s : St), (s.run l).debug = (s.debug ^^ decide (debugCount s l % 2 = 1)) := by
    intro l
    induction l with
    | nil => intro s; simp [St.run, debugCount]
    | cons a l ih =>
      intro s
      show ((s.act a).run l).debug = _
      rw [ih, one]
      simp only [debugCount]
      by_cases hd : debugs s a = true <;> rcases Nat.mod_two_eq_zero_or_one (debugCount (s.act a) l) with e | e <;> simp [hd, Nat.add_mod, e]
  rw [all, hs]
  simp

end Trc.Web.Use

/-! ## Examples -/

namespace Trc.Web.Use.Example

def page : Page := [⟨"A", 2⟩, ⟨"B", 1⟩, ⟨"A", 2⟩]

/-- The pointer goes from outside onto an event, around in it, over the next one and to the start of another trace. -/
def moves : List Do :=
  [.load page (fun _ _ => false), .move (some (0, 0, 0)), .move (some (0, 0, 3)), .event 0 0, .move (some (0, 1, 1)), .key 27 false]

example : ([.row 0 0, .row 0 1, .part 0 1, .timeline 0, .row 1 1, .timeline 1, .row 2 1] : List Elem).map (({} : St).run moves).hover =
    [false, true, true, true, false, false, true] := by decide

example : ([.row 0 1, .timeline 0, .timeline 1, .row 1 0] : List Elem).map (({} : St).run (moves ++ [.move (some (1, -1, 0))])).hover =
    [false, false, true, false] := by decide

/-- `C120_one` applies. -/
example : ((({} : St).run [.load [⟨"A", 2⟩, ⟨"B", 1⟩] (fun _ _ => false), .move (some (1, 0, 0))]).page.map PTrace.id).Nodup ∧
    (({} : St).run [.load [⟨"A", 2⟩, ⟨"B", 1⟩] (fun _ _ => false), .move (some (1, 0, 0))]).hover (.row 1 0) = true := by decide

/-- Escape, S, a click on an event: all stacks are open but that one; ≡ closes those of its trace. -/
def acts : List Do := [.key 83 false, .key 27 false, .key 83 false, .event 0 1]

def s₀ : St := ({} : St).run [.load page (fun _ _ => false)]

def stacks (s : St) : List Bool := [s.opened 0 0, s.opened 0 1, s.opened 1 0, s.opened 2 0, s.opened 2 1]

example : stacks (s₀.run acts) = [true, false, true, true, true] ∧ stacks (s₀.run (acts ++ [.stacks 0])) = [false, false, true, false, false] := by decide

example : acts = [.key 83 false, .key 27 false] ++ .key 83 false :: [.event 0 1] ∧
    Group (s₀.run [.key 83 false, .key 27 false]) 0 (fun _ => true) (.key 83 false) ∧
    Quiet 0 ((s₀.run [.key 83 false, .key 27 false]).act (.key 83 false)) [.event 0 1] ∧ has s₀.page 0 1 = true :=
  ⟨rfl, ⟨rfl, by decide, rfl⟩, ⟨fun sel h => h.elim, (fun p f h => by cases h), trivial⟩, by decide⟩

example : (s₀.run [.key 68 false, .key 27 false, .key 68 false, .load [] (fun _ _ => false)]).debug = true := by decide

end Trc.Web.Use.Example
