import Verif.Search.Request

/-!
# Properties C31–C36: filters and request normalization
-/

set_option linter.unusedVariables false

namespace Trc

open Core (Event Frame)

/-! ## C31 -/

/-- The query matches the text, a function name or a compact file:line of some event. -/
def queryHits (re : Matcher) (tr : Static) : Prop :=
  ∃ ev ∈ tr.events, re ev.what ∨ ∃ fr ∈ ev.stack, re fr.function ∨ re (compactFileLine fr)

/-- The conditions other than the query. -/
def Filter.Basic (f : Filter) (tr : Static) : Prop :=
  (f.sources = [] ∨ tr.source ∈ f.sources) ∧
  (f.ids = [] ∨ tr.id ∈ f.ids) ∧
  (f.category = "" ∨ tr.category = f.category) ∧
  (f.isActive = true → tr.finished = false) ∧
  (f.isFinished = true → tr.finished = true) ∧
  (∀ d, f.minDuration = some d → tr.finished = true ∧ d ≤ tr.duration) ∧
  (f.isSuccess = true → tr.errored = false) ∧
  (f.isErrored = true → tr.errored = true)

/-- Every condition of the filter holds for the trace; an invalid query is no condition. -/
def Filter.Sat (compile : Compile) (f : Filter) (tr : Static) : Prop :=
  f.Basic tr ∧ (f.query = "" ∨ ∀ re, compile f.query = .ok re → queryHits re tr)

/-- A filter as users build it: without a compiled expression, or with the one that belongs to
its query. -/
def Filter.Fresh (compile : Compile) (f : Filter) : Prop :=
  ∀ re, f.regexp = some re → f.query ≠ "" ∧ compile f.query = .ok re

theorem foundIn_iff (x : String) (l : List String) : foundIn x l = true ↔ x ∈ l := by
  induction l with
  | nil => simp [foundIn]
  | cons y ys ih =>
    unfold foundIn
    split
    · rename_i h; simp [h]
    · rename_i h; rw [ih]; simp [Ne.symm h]

theorem foundIn_false (x : String) (l : List String) : foundIn x l = false ↔ x ∉ l := by
  rw [← foundIn_iff]; simp

theorem matchStack_iff (re : Matcher) (l : List Frame) :
    matchStack re l = true ↔ ∃ fr ∈ l, re fr.function ∨ re (compactFileLine fr) := by
  induction l with
  | nil => simp [matchStack]
  | cons c cs ih =>
    unfold matchStack
    by_cases h1 : re c.function = true
    · simp [h1]
    · by_cases h2 : re (compactFileLine c) = true
      · simp [h2]
      · simp [h1, h2, ih]

theorem matchEvents_iff (re : Matcher) (l : List Event) :
    matchEvents re l = true ↔ ∃ ev ∈ l, re ev.what ∨ ∃ fr ∈ ev.stack, re fr.function ∨ re (compactFileLine fr) := by
  induction l with
  | nil => simp [matchEvents]
  | cons c cs ih =>
    unfold matchEvents
    by_cases h1 : re c.what = true
    · simp [h1]
    · by_cases h2 : matchStack re c.stack = true
      · simp only [h1, h2, if_true]
        rw [matchStack_iff] at h2
        simp [h2]
      · have h2' := h2
        rw [matchStack_iff] at h2'
        simp [h1, h2, h2']
        exact ih

theorem allowQuery_iff (compile : Compile) (f : Filter) (hf : f.Fresh compile) (tr : Static) :
    (f.allowQuery compile tr).1 = true ↔ (f.query = "" ∨ ∀ re, compile f.query = .ok re → queryHits re tr) := by
  unfold Filter.allowQuery Filter.initializeQueryRegexp
  cases hre : f.regexp with
  | some re =>
    obtain ⟨h1, h2⟩ := hf re hre
    simp only [Option.isSome_some, if_true, hre, matchEvents_iff]
    constructor
    · intro h; right; intro re' h'; rw [h2] at h'; cases h'; exact h
    · intro h
      rcases h with h | h
      · exact absurd h h1
      · exact h re h2
  | none =>
    simp only [Option.isSome_none]
    by_cases hq : f.query = ""
    · simp [hq, hre]
    · cases hc : compile f.query with
      | error e => simp [hq, hre]
      | ok re =>
        simp only [hq, if_false, matchEvents_iff, false_or, Bool.false_eq_true]
        constructor
        · intro h re' h'; cases h'; exact h
        · intro h; exact h re rfl

theorem Filter.allow_basic (compile : Compile) (f : Filter) (tr : Static) :
    (f.Basic tr ∧ f.allow compile tr = f.allowQuery compile tr) ∨
    (¬ f.Basic tr ∧ f.allow compile tr = (false, f)) := by
  unfold Filter.allow Filter.Basic
  split
  · rename_i h
    right
    refine ⟨?_, rfl⟩
    rintro ⟨h1, _⟩
    rw [foundIn_false] at h
    rcases h1 with h1 | h1
    · simp [h1] at h
    · exact h.2 h1
  rename_i a1
  split
  · rename_i h
    right
    refine ⟨?_, rfl⟩
    rintro ⟨_, h1, _⟩
    rw [foundIn_false] at h
    rcases h1 with h1 | h1
    · simp [h1] at h
    · exact h.2 h1
  rename_i a2
  split
  · rename_i h
    right
    refine ⟨?_, rfl⟩
    rintro ⟨_, _, h1, _⟩
    rcases h1 with h1 | h1
    · exact h.1 h1
    · exact h.2 h1
  rename_i a3
  split
  · rename_i h
    right
    refine ⟨?_, rfl⟩
    rintro ⟨_, _, _, h1, _⟩
    rw [h1 h.1] at h; simp at h
  rename_i a4
  split
  · rename_i h
    right
    refine ⟨?_, rfl⟩
    rintro ⟨_, _, _, _, h1, _⟩
    exact h.2 (h1 h.1)
  rename_i a5
  split
  · rename_i h
    right
    refine ⟨?_, rfl⟩
    rintro ⟨_, _, _, _, _, h1, _⟩
    unfold Filter.tooShort at h
    cases hd : f.minDuration with
    | none => simp [hd] at h
    | some d =>
      obtain ⟨h2, h3⟩ := h1 d hd
      simp only [hd, h2, Bool.not_true, Bool.false_eq_true, if_false, decide_eq_true_eq] at h
      exact absurd h3 (Int.not_le.mpr h)
  rename_i a6
  split
  · rename_i h
    right
    refine ⟨?_, rfl⟩
    rintro ⟨_, _, _, _, _, _, h1, _⟩
    rw [h1 h.1] at h; simp at h
  rename_i a7
  split
  · rename_i h
    right
    refine ⟨?_, rfl⟩
    rintro ⟨_, _, _, _, _, _, _, h1⟩
    exact h.2 (h1 h.1)
  rename_i a8
  left
  refine ⟨⟨?_, ?_, ?_, ?_, ?_, ?_, ?_, ?_⟩, rfl⟩
  · by_cases hs : f.sources = []
    · left; exact hs
    · right
      rw [foundIn_false] at a1
      apply Classical.byContradiction
      intro hc
      exact a1 ⟨List.length_pos_iff.mpr hs, hc⟩
  · by_cases hs : f.ids = []
    · left; exact hs
    · right
      rw [foundIn_false] at a2
      apply Classical.byContradiction
      intro hc
      exact a2 ⟨List.length_pos_iff.mpr hs, hc⟩
  · by_cases hs : f.category = ""
    · left; exact hs
    · right
      apply Classical.byContradiction
      intro hc
      exact a3 ⟨hs, hc⟩
  · intro h; simpa [h] using a4
  · intro h; simpa [h] using a5
  · intro d hd
    simp only [Filter.tooShort, hd] at a6
    by_cases hfin : tr.finished = true
    · simp only [hfin, Bool.not_true, Bool.false_eq_true, if_false, decide_eq_true_eq] at a6
      exact ⟨hfin, Int.not_lt.mp a6⟩
    · simp [hfin] at a6
  · intro h; simpa [h] using a7
  · intro h; simpa [h] using a8

/-- **C31** -/
theorem C31_allow_iff (compile : Compile) (f : Filter) (hf : f.Fresh compile) (tr : Static) :
    (f.allow compile tr).1 = true ↔ f.Sat compile tr := by
  unfold Filter.Sat
  rw [← allowQuery_iff compile f hf tr]
  rcases f.allow_basic compile tr with ⟨h1, h2⟩ | ⟨h1, h2⟩
  · rw [h2]; simp [h1]
  · rw [h2]; simp [h1]

/-- **C31**: using a filter does not change what it allows, so the answer does not depend on the
order in which traces are tried. -/
theorem C31_allow_repeatable (compile : Compile) (f : Filter) (hf : f.Fresh compile) (used tr : Static) :
    (f.allow compile used).2.Fresh compile ∧
    ((f.allow compile used).2.allow compile tr).1 = (f.allow compile tr).1 := by
  have key : ∀ f' : Filter, f'.Fresh compile → (∀ t, f'.Sat compile t ↔ f.Sat compile t) →
      (f'.allow compile tr).1 = (f.allow compile tr).1 := by
    intro f' h1 h2
    rw [Bool.eq_iff_iff, C31_allow_iff compile f' h1, C31_allow_iff compile f hf, h2]
  have init : (f.initializeQueryRegexp compile).1.Fresh compile ∧
      (∀ t, (f.initializeQueryRegexp compile).1.Sat compile t ↔ f.Sat compile t) := by
    unfold Filter.initializeQueryRegexp
    cases hre : f.regexp with
    | some re => simp only [Option.isSome_some, if_true]; exact ⟨hf, fun t => by simp⟩
    | none =>
      simp only [Option.isSome_none]
      by_cases hq : f.query = ""
      · simp only [hq, if_true, Bool.false_eq_true, if_false]; exact ⟨hf, fun t => by simp⟩
      · cases hc : compile f.query with
        | error e =>
          simp only [hq, if_false, Bool.false_eq_true]
          refine ⟨?_, ?_⟩
          · intro re h; simp only [hre] at h; cases h
          · intro t
            unfold Filter.Sat
            simp only [Filter.Basic, true_or, and_true]
            simp [hc]
        | ok re =>
          simp only [hq, if_false, Bool.false_eq_true]
          refine ⟨?_, fun t => ?_⟩
          · intro re' h; simp only [Option.some.injEq] at h; subst h; exact ⟨hq, hc⟩
          · unfold Filter.Sat Filter.Basic; simp
  rcases f.allow_basic compile used with ⟨h1, h2⟩ | ⟨h1, h2⟩
  · have : (f.allow compile used).2 = (f.initializeQueryRegexp compile).1 := by
      rw [h2]; unfold Filter.allowQuery; simp only; split <;> rfl
    rw [this]
    exact ⟨init.1, key _ init.1 init.2⟩
  · rw [h2]; exact ⟨hf, rfl⟩

/-! ## C32 -/

/-- `g` has all conditions of `f`, and possibly more. -/
structure Filter.Narrows (g f : Filter) : Prop where
  sources : f.sources = [] ∨ g.sources = f.sources
  ids : f.ids = [] ∨ g.ids = f.ids
  category : f.category = "" ∨ g.category = f.category
  isActive : f.isActive = true → g.isActive = true
  isFinished : f.isFinished = true → g.isFinished = true
  minDuration : ∀ d, f.minDuration = some d → ∃ d', g.minDuration = some d' ∧ d ≤ d'
  isSuccess : f.isSuccess = true → g.isSuccess = true
  isErrored : f.isErrored = true → g.isErrored = true
  query : f.query = "" ∨ g.query = f.query

/-- **C32** -/
theorem C32_empty_allows_all (compile : Compile) (tr : Static) : (({} : Filter).allow compile tr).1 = true := by
  rw [C31_allow_iff _ _ (by intro re h; cases h)]
  refine ⟨⟨Or.inl rfl, Or.inl rfl, Or.inl rfl, ?_, ?_, ?_, ?_, ?_⟩, Or.inl rfl⟩ <;> intros <;> contradiction

/-- **C32** -/
theorem C32_more_conditions_narrow (compile : Compile) (f g : Filter) (hf : f.Fresh compile) (hg : g.Fresh compile)
    (hn : g.Narrows f) (tr : Static) (h : (g.allow compile tr).1 = true) : (f.allow compile tr).1 = true := by
  rw [C31_allow_iff _ _ hg] at h
  rw [C31_allow_iff _ _ hf]
  obtain ⟨⟨h1, h2, h3, h4, h5, h6, h7, h8⟩, h9⟩ := h
  refine ⟨⟨?_, ?_, ?_, fun x => h4 (hn.isActive x), fun x => h5 (hn.isFinished x), ?_,
    fun x => h7 (hn.isSuccess x), fun x => h8 (hn.isErrored x)⟩, ?_⟩
  · rcases hn.sources with x | x
    · exact Or.inl x
    · rw [x] at h1; exact h1
  · rcases hn.ids with x | x
    · exact Or.inl x
    · rw [x] at h2; exact h2
  · rcases hn.category with x | x
    · exact Or.inl x
    · rw [x] at h3; exact h3
  · intro d hd
    obtain ⟨d', e1, e2⟩ := hn.minDuration d hd
    obtain ⟨e3, e4⟩ := h6 d' e1
    exact ⟨e3, Int.le_trans e2 e4⟩
  · rcases hn.query with x | x
    · exact Or.inl x
    · rw [x] at h9; exact h9

/-- **C32** -/
theorem C32_contradictions_allow_nothing (compile : Compile) (f : Filter) (hf : f.Fresh compile) (tr : Static) :
    (f.isActive = true ∧ f.isFinished = true → (f.allow compile tr).1 = false) ∧
    (f.isSuccess = true ∧ f.isErrored = true → (f.allow compile tr).1 = false) ∧
    (f.minDuration ≠ none → tr.finished = false → (f.allow compile tr).1 = false) := by
  have key : ¬ f.Sat compile tr → (f.allow compile tr).1 = false := by
    rw [← C31_allow_iff compile f hf]; simp
  refine ⟨?_, ?_, ?_⟩
  · rintro ⟨h1, h2⟩
    apply key
    rintro ⟨⟨_, _, _, h4, h5, _⟩, _⟩
    have := h4 h1; rw [h5 h2] at this; cases this
  · rintro ⟨h1, h2⟩
    apply key
    rintro ⟨⟨_, _, _, _, _, _, h4, h5⟩, _⟩
    have := h4 h1; rw [h5 h2] at this; cases this
  · intro h1 h2
    apply key
    rintro ⟨⟨_, _, _, _, _, h4, _⟩, _⟩
    cases hd : f.minDuration with
    | none => exact h1 hd
    | some d => have := (h4 d hd).1; rw [h2] at this; cases this

/-! ## C33 -/

/-- **C33**: a query that does not compile. -/
theorem C33_invalid_query (compile : Compile) (f : Filter) (hre : f.regexp = none) (hq : f.query ≠ "")
    (e : String) (hc : compile f.query = .error e) :
    (∃ problem, (f.normalize compile).2 = [problem]) ∧
    (f.normalize compile).1.query = "" ∧
    (∀ tr, ((f.normalize compile).1.allow compile tr).1 = ({ f with query := "" }.allow compile tr).1) ∧
    ((f.normalize compile).1.normalize compile) = ((f.normalize compile).1, []) := by
  have : f.normalize compile = ({ f with query := "" }, ["query: " ++ ("invalid, ignoring (" ++ e ++ ")")]) := by
    simp [Filter.normalize, Filter.initializeQueryRegexp, hre, hq, hc]
  rw [this]
  refine ⟨⟨_, rfl⟩, rfl, fun _ => rfl, ?_⟩
  simp [Filter.normalize, Filter.initializeQueryRegexp, hre]

/-- **C33**: a query that compiles, or no query. -/
theorem C33_valid_query (compile : Compile) (f : Filter) (hre : f.regexp = none)
    (hc : f.query = "" ∨ ∃ re, compile f.query = .ok re) :
    (f.normalize compile).2 = [] ∧ (f.normalize compile).1 = { f with regexp := (f.normalize compile).1.regexp } ∧
    (∀ tr, ((f.normalize compile).1.allow compile tr).1 = (f.allow compile tr).1) ∧
    ((f.normalize compile).1.normalize compile) = ((f.normalize compile).1, []) := by
  have hfresh : f.Fresh compile := by intro re h; rw [hre] at h; cases h
  by_cases hq : f.query = ""
  · have : f.normalize compile = (f, []) := by
      simp [Filter.normalize, Filter.initializeQueryRegexp, hre, hq]
    rw [this]
    exact ⟨rfl, rfl, fun _ => rfl, this⟩
  · rcases hc with h | ⟨re, h⟩
    · exact absurd h hq
    have : f.normalize compile = ({ f with regexp := some re }, []) := by
      simp [Filter.normalize, Filter.initializeQueryRegexp, hre, hq, h]
    rw [this]
    refine ⟨rfl, rfl, ?_, ?_⟩
    · intro tr
      have h2 : ({ f with regexp := some re } : Filter).Fresh compile := by
        intro re' h'; simp only [Option.some.injEq] at h'; subst h'; exact ⟨hq, h⟩
      rw [Bool.eq_iff_iff, C31_allow_iff _ _ h2, C31_allow_iff _ _ hfresh]
      unfold Filter.Sat Filter.Basic
      simp
    · simp [Filter.normalize, Filter.initializeQueryRegexp]

/-- Normalizing gives a filter whose later use does not change it. -/
theorem normalize_fresh (compile : Compile) (f : Filter) (hf : f.Fresh compile) :
    (f.normalize compile).1.Fresh compile ∧
    (∀ tr, ((f.normalize compile).1.allow compile tr).2 = (f.normalize compile).1) ∧
    (∀ tr, (f.normalize compile).1.Sat compile tr ↔ f.Sat compile tr) := by
  have hdone : ∀ f' : Filter, f'.regexp.isSome = true ∨ f'.query = "" → ∀ tr, (f'.allow compile tr).2 = f' := by
    intro f' h tr
    have hi : f'.initializeQueryRegexp compile = (f', none) := by
      unfold Filter.initializeQueryRegexp
      rcases h with h | h
      · simp [h]
      · simp [h]
    rcases f'.allow_basic compile tr with ⟨_, h2⟩ | ⟨_, h2⟩
    · rw [h2]; unfold Filter.allowQuery; rw [hi]; simp only; split <;> rfl
    · rw [h2]
  unfold Filter.normalize Filter.initializeQueryRegexp
  cases hre : f.regexp with
  | some re =>
    simp only [Option.isSome_some, if_true]
    exact ⟨hf, hdone f (by simp [hre]), fun _ => by simp⟩
  | none =>
    simp only [Option.isSome_none]
    by_cases hq : f.query = ""
    · simp only [hq, if_true, Bool.false_eq_true, if_false]
      exact ⟨hf, hdone f (Or.inr hq), fun _ => by simp⟩
    · cases hc : compile f.query with
      | error e =>
        simp only [hq, if_false, Bool.false_eq_true]
        refine ⟨?_, hdone _ (Or.inr rfl), ?_⟩
        · intro re h; simp only [hre] at h; cases h
        · intro tr; unfold Filter.Sat Filter.Basic; simp [hc]
      | ok re =>
        simp only [hq, if_false, Bool.false_eq_true]
        refine ⟨?_, hdone _ (Or.inl rfl), ?_⟩
        · intro re' h'; simp only [Option.some.injEq] at h'; subst h'; exact ⟨hq, hc⟩
        · intro tr; unfold Filter.Sat Filter.Basic; simp

/-! ## C34 -/

/-- `sub` occurs in `s`. -/
def Mentions (s sub : String) : Prop := ∃ a b, s = a ++ sub ++ b

theorem join_mentions (sep x : String) (l : List String) (h : x ∈ l) : Mentions (join sep l) x := by
  induction l with
  | nil => cases h
  | cons y l ih =>
    cases l with
    | nil =>
      rcases List.mem_cons.mp h with rfl | h
      · exact ⟨"", "", by simp [join]⟩
      · cases h
    | cons z l =>
      rcases List.mem_cons.mp h with rfl | h
      · exact ⟨"", sep ++ join sep (z :: l), by simp [join, String.append_assoc]⟩
      · obtain ⟨a, b, hab⟩ := ih h
        exact ⟨y ++ sep ++ a, b, by simp only [join]; rw [hab]; simp only [String.append_assoc]⟩

/-- Some condition is set. -/
def Filter.HasCondition (f : Filter) : Prop :=
  f.sources ≠ [] ∨ f.ids ≠ [] ∨ f.category ≠ "" ∨ f.isActive = true ∨ f.isFinished = true ∨
  f.minDuration ≠ none ∨ f.isSuccess = true ∨ f.isErrored = true ∨ f.query ≠ ""

theorem elems_nil_iff (sd : Duration → String) (f : Filter) : f.elems sd = [] ↔ ¬ f.HasCondition := by
  unfold Filter.elems Filter.HasCondition
  cases f.minDuration <;>
    by_cases h1 : f.sources = [] <;> by_cases h2 : f.ids = [] <;>
    simp [List.length_pos_iff, h1, h2]

theorem elems_head (sd : Duration → String) (f : Filter) :
    ∀ x ∈ f.elems sd, ∃ c t, x.toList = c :: t ∧ c ≠ '(' := by
  intro x hx
  have two : ∀ (a b : String) (c : Char) (t : List Char), a.toList = c :: t → ∃ t', (a ++ b).toList = c :: t' := by
    intro a b c t h
    exact ⟨t ++ b.toList, by rw [String.toList_append, h]; rfl⟩
  unfold Filter.elems at hx
  simp only [List.mem_append] at hx
  rcases hx with (((((((hx | hx) | hx) | hx) | hx) | hx) | hx) | hx) | hx
  · split at hx
    · obtain rfl := List.mem_singleton.mp hx
      obtain ⟨t, ht⟩ := two "Sources=" (sprintStrings f.sources) 'S' _ rfl
      exact ⟨_, _, ht, by decide⟩
    · cases hx
  · split at hx
    · obtain rfl := List.mem_singleton.mp hx
      obtain ⟨t, ht⟩ := two "IDs=" (sprintStrings f.sources) 'I' _ rfl
      exact ⟨_, _, ht, by decide⟩
    · cases hx
  · split at hx
    · obtain rfl := List.mem_singleton.mp hx
      obtain ⟨t, ht⟩ := two "Category='" (f.category ++ "'") 'C' _ rfl
      exact ⟨_, _, by rw [String.append_assoc]; exact ht, by decide⟩
    · cases hx
  · split at hx
    · obtain rfl := List.mem_singleton.mp hx
      exact ⟨'I', _, rfl, by decide⟩
    · cases hx
  · split at hx
    · obtain rfl := List.mem_singleton.mp hx
      exact ⟨'I', _, rfl, by decide⟩
    · cases hx
  · split at hx
    · obtain rfl := List.mem_singleton.mp hx
      rename_i d _
      obtain ⟨t, ht⟩ := two "MinDuration=" (sd d) 'M' _ rfl
      exact ⟨_, _, ht, by decide⟩
    · cases hx
  · split at hx
    · obtain rfl := List.mem_singleton.mp hx
      exact ⟨'I', _, rfl, by decide⟩
    · cases hx
  · split at hx
    · obtain rfl := List.mem_singleton.mp hx
      exact ⟨'I', _, rfl, by decide⟩
    · cases hx
  · split at hx
    · obtain rfl := List.mem_singleton.mp hx
      obtain ⟨t, ht⟩ := two "Query='" (f.query ++ "'") 'Q' _ rfl
      exact ⟨_, _, by rw [String.append_assoc]; exact ht, by decide⟩
    · cases hx

theorem join_head (sep x : String) (l : List String) (c : Char) (t : List Char) (h : x.toList = c :: t) :
    ∃ t', (join sep (x :: l)).toList = c :: t' := by
  cases l with
  | nil => exact ⟨t, h⟩
  | cons y l =>
    exact ⟨t ++ (sep ++ join sep (y :: l)).toList, by
      simp only [join]; rw [String.append_assoc, String.toList_append, h]; rfl⟩

/-- **C34** -/
theorem C34_allow_all_iff (sd : Duration → String) (f : Filter) :
    f.string sd = "(allow all)" ↔ ¬ f.HasCondition := by
  rw [← elems_nil_iff sd f]
  unfold Filter.string
  cases he : f.elems sd with
  | nil => simp
  | cons x l =>
    obtain ⟨c, t, hc, hne⟩ := elems_head sd f x (by rw [he]; simp)
    obtain ⟨t', ht'⟩ := join_head " " x l c t hc
    simp only [List.length_cons, Nat.le_zero, Nat.succ_ne_zero, if_false, reduceCtorEq, iff_false]
    intro h
    rw [h] at ht'
    have : "(allow all)".toList = '(' :: "allow all)".toList := rfl
    rw [this] at ht'
    exact hne (List.cons.inj ht').1.symm

/-- **C34**: each set condition except the IDs is mentioned with its value. -/
theorem C34_mentions_partial (sd : Duration → String) (f : Filter) :
    (f.sources ≠ [] → Mentions (f.string sd) ("Sources=" ++ sprintStrings f.sources)) ∧
    (f.category ≠ "" → Mentions (f.string sd) ("Category='" ++ f.category ++ "'")) ∧
    (f.isActive = true → Mentions (f.string sd) "IsActive") ∧
    (f.isFinished = true → Mentions (f.string sd) "IsFinished") ∧
    (∀ d, f.minDuration = some d → Mentions (f.string sd) ("MinDuration=" ++ sd d)) ∧
    (f.isSuccess = true → Mentions (f.string sd) "IsSuccess") ∧
    (f.isErrored = true → Mentions (f.string sd) "IsErrored") ∧
    (f.query ≠ "" → Mentions (f.string sd) ("Query='" ++ f.query ++ "'")) := by
  have key : ∀ x, x ∈ f.elems sd → Mentions (f.string sd) x := by
    intro x hx
    unfold Filter.string
    have : ¬ (f.elems sd).length ≤ 0 := by
      have := List.length_pos_of_mem hx; omega
    rw [if_neg this]
    exact join_mentions _ _ _ hx
  refine ⟨?_, ?_, ?_, ?_, ?_, ?_, ?_, ?_⟩
  · intro h; apply key; simp [Filter.elems, List.length_pos_iff, h]
  · intro h; apply key; simp [Filter.elems, h]
  · intro h; apply key; simp [Filter.elems, h]
  · intro h; apply key; simp [Filter.elems, h]
  · intro d h; apply key; simp [Filter.elems, h]
  · intro h; apply key; simp [Filter.elems, h]
  · intro h; apply key; simp [Filter.elems, h]
  · intro h; apply key; simp [Filter.elems, h]

/-- **C34** does not hold for IDs: the IDs are not shown, the sources are shown in their place
(filter.go:45). -/
theorem C34_ids_violated (sd : Duration → String) :
    ({ ids := ["x"] } : Filter).string sd = "IDs=[]" ∧ ¬ Mentions (({ ids := ["x"] } : Filter).string sd) "x" ∧
    ({ ids := ["x"], sources := ["s"] } : Filter).string sd = "Sources=[s] IDs=[s]" := by
  have h : ({ ids := ["x"] } : Filter).string sd = "IDs=[]" := by rfl
  refine ⟨h, ?_, by rfl⟩
  rw [h]
  rintro ⟨a, b, hab⟩
  have := congrArg String.toList hab
  simp only [String.toList_append] at this
  have hx : 'x' ∈ "IDs=[]".toList := by rw [this]; simp
  revert hx
  decide

/-- **C34** fails for all IDs: the text of a filter with IDs is the same whichever they are; where they should be, the
sources are. -/
theorem C34_ids_hidden_violated (sd : Duration → String) (f : Filter) (ids : List String) (h : f.ids ≠ []) (h' : ids ≠ []) :
    ({ f with ids := ids } : Filter).string sd = f.string sd ∧ Mentions (f.string sd) ("IDs=" ++ sprintStrings f.sources) := by
  have h1 : 0 < f.ids.length := List.length_pos_iff.mpr h
  have h2 : 0 < ids.length := List.length_pos_iff.mpr h'
  refine ⟨?_, ?_⟩
  · unfold Filter.string Filter.elems
    simp only [h1, h2]
  · have hx : "IDs=" ++ sprintStrings f.sources ∈ f.elems sd := by simp [Filter.elems, h1]
    unfold Filter.string
    have : ¬ (f.elems sd).length ≤ 0 := by
      have := List.length_pos_of_mem hx; omega
    rw [if_neg this]
    exact join_mentions _ _ _ hx

/-! ## C35, C36 -/

theorem insertDuration_perm (d : Duration) (l : List Duration) : (insertDuration d l).Perm (d :: l) := by
  induction l with
  | nil => exact List.Perm.refl _
  | cons x l ih =>
    unfold insertDuration
    split
    · exact List.Perm.refl _
    · exact (ih.cons x).trans (List.Perm.swap d x l)

theorem insertDuration_sorted (d : Duration) (l : List Duration) (h : l.Pairwise (· ≤ ·)) :
    (insertDuration d l).Pairwise (· ≤ ·) := by
  induction l with
  | nil => simp [insertDuration]
  | cons x l ih =>
    rw [List.pairwise_cons] at h
    unfold insertDuration
    split
    · rename_i hd
      rw [List.pairwise_cons, List.pairwise_cons]
      refine ⟨?_, h⟩
      intro y hy
      rcases List.mem_cons.mp hy with rfl | hy
      · exact hd
      · exact Int.le_trans hd (h.1 y hy)
    · rename_i hd
      rw [List.pairwise_cons]
      refine ⟨?_, ih h.2⟩
      intro y hy
      rcases List.mem_cons.mp ((insertDuration_perm d l).mem_iff.mp hy) with rfl | hy
      · exact Int.le_of_lt (Int.not_le.mp hd)
      · exact h.1 y hy

theorem sortDurations_perm (l : List Duration) : (sortDurations l).Perm l := by
  induction l with
  | nil => exact List.Perm.refl _
  | cons x l ih => exact (insertDuration_perm x _).trans (ih.cons x)

theorem sortDurations_sorted (l : List Duration) : (sortDurations l).Pairwise (· ≤ ·) := by
  induction l with
  | nil => exact List.Pairwise.nil
  | cons x l ih => exact insertDuration_sorted x _ ih

theorem sortDurations_of_sorted (l : List Duration) (h : l.Pairwise (· ≤ ·)) : sortDurations l = l := by
  induction l with
  | nil => rfl
  | cons x l ih =>
    rw [List.pairwise_cons] at h
    show insertDuration x (sortDurations l) = x :: l
    rw [ih h.2]
    cases l with
    | nil => rfl
    | cons y t => simp [insertDuration, h.1 y (by simp)]

theorem normalizeBucketing_some (b : List Duration) : ∃ b', normalizeBucketing b = some b' := by
  unfold normalizeBucketing
  simp only
  split
  · rename_i h
    exfalso
    have := congrArg List.length h
    rw [(sortDurations_perm _).length_eq] at this
    split at this
    · simp [defaultBucketing] at this
    · rename_i h; simp at this; simp [this] at h
  · exact ⟨_, rfl⟩

/-- The buckets a request asks for: the defaults if it has none. -/
def requested (b : List Duration) : List Duration := if b = [] then defaultBucketing else b

theorem normalizeBucketing_spec (b : List Duration) (h0 : ∀ d ∈ b, 0 ≤ d) :
    ∃ b', normalizeBucketing b = some b' ∧ b'.Pairwise (· ≤ ·) ∧ b'.head? = some 0 ∧
      (∀ d, d ∈ b' ↔ d = 0 ∨ d ∈ requested b) ∧ normalizeBucketing b' = some b' := by
  have hr : (if (b.length : Int) ≤ 0 then defaultBucketing else b) = requested b := by
    unfold requested
    by_cases hb : b = []
    · simp [hb]
    · have : ¬ ((b.length : Int) ≤ 0) := by
        have := List.length_pos_iff.mpr hb; omega
      simp [hb, this]
  have hr0 : ∀ d ∈ requested b, 0 ≤ d := by
    unfold requested
    split
    · decide
    · exact h0
  have hfix : ∀ b' : List Duration, b'.Pairwise (· ≤ ·) → b'.head? = some 0 → normalizeBucketing b' = some b' := by
    intro b' h1 h2
    unfold normalizeBucketing
    cases b' with
    | nil => cases h2
    | cons x t =>
      have h2' : x = 0 := by simpa using h2
      have : ¬ (((x :: t).length : Int) ≤ 0) := by rw [List.length_cons]; omega
      simp only
      rw [if_neg this, sortDurations_of_sorted _ h1]
      simp [h2']
  unfold normalizeBucketing
  simp only [hr]
  have hs := sortDurations_sorted (requested b)
  have hp := sortDurations_perm (requested b)
  cases hsd : sortDurations (requested b) with
  | nil =>
    exfalso
    rw [hsd] at hp
    have := hp.length_eq
    unfold requested at this
    split at this
    · simp [defaultBucketing] at this
    · rename_i hb; exact hb (List.eq_nil_of_length_eq_zero this.symm)
  | cons x t =>
    rw [hsd] at hs hp
    simp only
    by_cases hx : x = 0
    · subst hx
      refine ⟨_, rfl, ?_, ?_, ?_, ?_⟩
      · simpa using hs
      · simp
      · intro d
        simp only [ne_eq, not_true, if_false]
        rw [hp.mem_iff]
        constructor
        · exact Or.inr
        · rintro (rfl | h)
          · exact hp.mem_iff.mp (by simp)
          · exact h
      · simp only [ne_eq, not_true, if_false]
        exact hfix _ hs rfl
    · have hmin : ∀ d ∈ x :: t, 0 ≤ d := fun d hd => hr0 d (hp.mem_iff.mp hd)
      have hs' : (0 :: x :: t : List Duration).Pairwise (· ≤ ·) := by
        rw [List.pairwise_cons]
        exact ⟨hmin, hs⟩
      refine ⟨_, rfl, ?_, ?_, ?_, ?_⟩
      · simpa [hx] using hs'
      · simp [hx]
      · intro d
        simp only [ne_eq, hx, not_false_eq_true, if_true, List.mem_cons, ← hp.mem_iff]
      · simp only [ne_eq, hx, not_false_eq_true, if_true]
        exact hfix _ hs' rfl

/-- **C35** the limit -/
theorem C35_limit (compile : Compile) (req : SearchRequest) :
    ∃ req' problems, req.normalize compile = some (req', problems) ∧ 1 ≤ req'.limit ∧ req'.limit ≤ 250 ∧
      (req.limit ≤ 0 → req'.limit = 10) ∧ (1 ≤ req.limit → req.limit ≤ 250 → req'.limit = req.limit) ∧
      (250 < req.limit → req'.limit = 250) := by
  obtain ⟨b', hb⟩ := normalizeBucketing_some req.bucketing
  refine ⟨_, _, by unfold SearchRequest.normalize; rw [hb]; rfl, ?_, ?_, ?_, ?_, ?_⟩ <;>
    simp only [normalizeLimit, searchLimitDefault, searchLimitMin, searchLimitMax] <;>
    intros <;> (repeat' split) <;> omega

/-- **C35** the buckets -/
theorem C35_buckets (compile : Compile) (req : SearchRequest) (h0 : ∀ d ∈ req.bucketing, 0 ≤ d) :
    ∃ req' problems, req.normalize compile = some (req', problems) ∧
      req'.bucketing.Pairwise (· ≤ ·) ∧ req'.bucketing.head? = some 0 ∧
      (∀ d, d ∈ req'.bucketing ↔ d = 0 ∨ d ∈ requested req.bucketing) ∧ req'.stackDepth = req.stackDepth := by
  obtain ⟨b', hb, h1, h2, h3, _⟩ := normalizeBucketing_spec req.bucketing h0
  refine ⟨_, _, by unfold SearchRequest.normalize; rw [hb]; rfl, ?_⟩
  exact ⟨h1, h2, h3, rfl⟩

/-- **C35**: even with negative buckets no requested bucket is lost and 0 is one of them. -/
theorem C35_buckets_kept (compile : Compile) (req : SearchRequest) :
    ∃ req' problems, req.normalize compile = some (req', problems) ∧ 0 ∈ req'.bucketing ∧
      ∀ d ∈ req.bucketing, d ∈ req'.bucketing := by
  obtain ⟨b', hb⟩ := normalizeBucketing_some req.bucketing
  refine ⟨_, _, by unfold SearchRequest.normalize; rw [hb]; rfl, ?_⟩
  simp only
  unfold normalizeBucketing at hb
  simp only at hb
  split at hb
  · cases hb
  · rename_i x t hx
    have hp := sortDurations_perm (if (req.bucketing.length : Int) ≤ 0 then defaultBucketing else req.bucketing)
    rw [hx] at hp
    have hmem : ∀ d ∈ req.bucketing, d ∈ x :: t := by
      intro d hd
      rw [hp.mem_iff]
      have : ¬ ((req.bucketing.length : Int) ≤ 0) := by
        have := List.length_pos_of_mem hd; omega
      rw [if_neg this]; exact hd
    simp only [Option.some.injEq] at hb
    rw [hx] at hb
    subst hb
    split
    · exact ⟨by simp, fun d hd => List.mem_cons_of_mem _ (hmem d hd)⟩
    · rename_i h0
      simp at h0
      exact ⟨by simp [h0], hmem⟩

/-- **C36**, for requests without negative buckets: normalizing twice is the same as once. -/
theorem C36_idempotent_partial (compile : Compile) (req : SearchRequest) (hf : req.filter.Fresh compile)
    (h0 : ∀ d ∈ req.bucketing, 0 ≤ d) :
    ∃ req' problems, req.normalize compile = some (req', problems) ∧ req'.normalize compile = some (req', []) := by
  obtain ⟨b', hb, h1, h2, h3, h4⟩ := normalizeBucketing_spec req.bucketing h0
  refine ⟨_, _, by unfold SearchRequest.normalize; rw [hb]; rfl, ?_⟩
  unfold SearchRequest.normalize
  simp only [h4]
  have hl : normalizeLimit (normalizeLimit req.limit) = normalizeLimit req.limit := by
    simp only [normalizeLimit, searchLimitDefault, searchLimitMin, searchLimitMax]
    (repeat' split) <;> omega
  have hfn : (req.filter.normalize compile).1.normalize compile = ((req.filter.normalize compile).1, []) := by
    cases hre : req.filter.regexp with
    | some re => simp [Filter.normalize, Filter.initializeQueryRegexp, hre]
    | none =>
      by_cases hq : req.filter.query = ""
      · exact (C33_valid_query compile _ hre (Or.inl hq)).2.2.2
      · cases hc : compile req.filter.query with
        | error e => exact (C33_invalid_query compile _ hre hq e hc).2.2.2
        | ok re => exact (C33_valid_query compile _ hre (Or.inr ⟨re, hc⟩)).2.2.2
  simp only [hl, hfn]
  rfl

/-- **C36**, where the boundary is: with a negative bucket every normalization adds a bucket, so normalizing twice is the same as once
exactly if there is none. -/
theorem C36_idempotent_exact (compile : Compile) (req : SearchRequest) (hf : req.filter.Fresh compile) :
    ∃ req' problems req'' problems', req.normalize compile = some (req', problems) ∧ req'.normalize compile = some (req'', problems') ∧
      (req'' = req' ↔ ∀ d ∈ req.bucketing, 0 ≤ d) ∧
      ((∃ d ∈ req.bucketing, d < 0) → req''.bucketing.length = req'.bucketing.length + 1 ∧ ∃ d ∈ req'.bucketing, d < 0) := by
  by_cases h0 : ∀ d ∈ req.bucketing, 0 ≤ d
  · obtain ⟨req', problems, h1, h2⟩ := C36_idempotent_partial compile req hf h0
    refine ⟨req', problems, req', [], h1, h2, ⟨fun _ => h0, fun _ => rfl⟩, ?_⟩
    rintro ⟨d, hd, hn⟩
    have := h0 d hd
    change Int at d
    exact absurd hn (Int.not_lt.mpr this)
  · have hex : ∃ d ∈ req.bucketing, d < 0 := by
      apply Classical.byContradiction
      intro h
      exact h0 fun d hd => Int.not_lt.mp fun hn => h ⟨d, hd, hn⟩
    have key : ∀ b : List Duration, (∃ d ∈ b, d < 0) →
        ∃ b', normalizeBucketing b = some b' ∧ b'.length = b.length + 1 ∧ ∃ d ∈ b', d < 0 := by
      rintro b ⟨d, hd, hn⟩
      have hb : ¬ ((b.length : Int) ≤ 0) := by
        have := List.length_pos_of_mem hd
        omega
      have hs := sortDurations_sorted b
      have hp := sortDurations_perm b
      unfold normalizeBucketing
      simp only [if_neg hb]
      cases hsd : sortDurations b with
      | nil => rw [hsd] at hp; exact absurd hd (by rw [hp.symm.eq_nil]; simp)
      | cons x t =>
        rw [hsd] at hs hp
        have hdm := hp.mem_iff.mpr hd
        have hx : x < 0 := by
          rcases List.mem_cons.mp hdm with rfl | hm
          · exact hn
          · exact Int.lt_of_le_of_lt ((List.pairwise_cons.mp hs).1 d hm) hn
        have hx0 : x ≠ 0 := Int.ne_of_lt hx
        refine ⟨0 :: x :: t, by simp [hx0], ?_, x, by simp, hx⟩
        have := hp.length_eq
        simp only [List.length_cons] at this ⊢
        omega
    obtain ⟨b1, n1, l1, e1⟩ := key _ hex
    obtain ⟨b2, n2, l2, e2⟩ := key _ e1
    refine ⟨_, _, _, _, by unfold SearchRequest.normalize; rw [n1]; rfl, by unfold SearchRequest.normalize; simp only [n2]; rfl, ?_, fun _ => ⟨l2, e1⟩⟩
    refine ⟨fun h => ?_, fun h => absurd h h0⟩
    have := congrArg (fun r : SearchRequest => r.bucketing.length) h
    simp only at this
    omega

/-- **C36** does not hold with a negative bucket: every normalization adds a bucket. -/
theorem C36_negative_bucket_violated :
    ∃ (req req' req'' : SearchRequest) (compile : Compile), req.normalize compile = some (req', []) ∧
      req'.normalize compile = some (req'', []) ∧
      req.bucketing = [-5, 10] ∧ req'.bucketing = [0, -5, 10] ∧ req''.bucketing = [0, -5, 0, 10] := by
  refine ⟨{ bucketing := [-5, 10] }, { bucketing := [0, -5, 10], limit := 10 },
    { bucketing := [0, -5, 0, 10], limit := 10 }, fun _ => .error "", ?_, ?_, rfl, rfl, rfl⟩
  · rfl
  · rfl

/-! ## Examples: the hypotheses are met by non-trivial cases -/

section Examples

private def exTrace : Static :=
  { source := "a", id := "1", category := "c", started := .zero, duration := 7, finished := true, errored := false
    events := [⟨.zero, "hello", [⟨"x/y.F", "/p/q/r.go:3"⟩], false⟩] }

private def exCompile : Compile := fun q => if q = "(" then .error "missing )" else .ok (fun s => s == q)

private def exFilter : Filter :=
  { sources := ["b", "a"], category := "c", isFinished := true, minDuration := some 7, query := "x/q/r.go:3" }

/-- Fresh, with a valid query, and satisfied. -/
example : exFilter.Fresh exCompile := by intro re h; cases h

example : (exFilter.allow exCompile exTrace).1 = true := by decide +kernel

example : (exFilter.allow exCompile { exTrace with duration := 6 }).1 = false := by decide +kernel

example : ({ exFilter with query := "(" }.normalize exCompile).2 =
    ["query: invalid, ignoring (missing ))"] := by decide +kernel

example : exFilter.Narrows { sources := ["b", "a"], minDuration := some 5 } := by
  constructor <;> simp [exFilter] <;> decide

example : (({ bucketing := [30, 10, 20], limit := 1000 } : SearchRequest).normalize exCompile).map
    (fun p => (p.1.bucketing, p.1.limit, p.2)) = some ([0, 10, 20, 30], 250, []) := by decide +kernel

end Examples

end Trc
