import Verif.Props.RequestText

/-!
# C34, C138: which filters and requests print the same
-/

namespace Trc.Web

/-! ## Specification -/

/-- Sources are words without a closing bracket, and the category has no quote.  Anything may be in the IDs and in the query. -/
structure Neat (f : Filter) : Prop where
  sources : ∀ s ∈ f.sources, ' ' ∉ s.toList ∧ ']' ∉ s.toList
  category : '\'' ∉ f.category.toList
  duration : ∀ d, f.minDuration = some d → Fits64 d

/-- The conditions are the same, but for the IDs, of which only whether there are any. -/
structure SameButIDs (f g : Filter) : Prop where
  sources : f.sources = g.sources
  ids : f.ids = [] ↔ g.ids = []
  category : f.category = g.category
  isActive : f.isActive = g.isActive
  isFinished : f.isFinished = g.isFinished
  minDuration : f.minDuration = g.minDuration
  isSuccess : f.isSuccess = g.isSuccess
  isErrored : f.isErrored = g.isErrored
  query : f.query = g.query

/-! ## Lemmas -/

/-- A part of the text: a beginning, what follows it up to a character, and an end. -/
def part (b : List Char) (c : Char) (e : List Char) : Option (List Char) → List Char
  | none => []
  | some x => b ++ (x ++ c :: e)

/-- A text that is empty or begins with one of these. -/
def Begins (bs : List (List Char)) (s : List Char) : Prop := s = [] ∨ ∃ b ∈ bs, ∃ t, s = b ++ t

theorem begins_part {bs : List (List Char)} {b : List Char} {c : Char} {e : List Char} {x : Option (List Char)} {s : List Char}
    (h : Begins bs s) : Begins (b :: bs) (part b c e x ++ s) := by
  cases x with
  | none =>
    rcases h with rfl | ⟨b', hb, t, rfl⟩
    · exact .inl rfl
    · exact .inr ⟨b', List.mem_cons_of_mem _ hb, t, rfl⟩
  | some x => exact .inr ⟨b, List.mem_cons_self, x ++ c :: e ++ s, by simp [part]⟩

theorem begins_not {bs : List (List Char)} {b : List Char} {s t : List Char} (h : Begins bs s) (hb : b ≠ [])
    (hd : ∀ b' ∈ bs, ¬ b.isPrefixOf b' = true ∧ ¬ b'.isPrefixOf b = true) : s ≠ b ++ t := by
  intro e
  rcases h with rfl | ⟨b', hb', t', rfl⟩
  · exact hb (List.append_eq_nil_iff.mp e.symm).1
  · rcases List.prefix_or_prefix_of_prefix (List.prefix_append b t) (e ▸ List.prefix_append b' t') with h | h
    · exact (hd b' hb').1 (List.isPrefixOf_iff_prefix.mpr h)
    · exact (hd b' hb').2 (List.isPrefixOf_iff_prefix.mpr h)

theorem part_inj {bs : List (List Char)} {b : List Char} {c : Char} {e : List Char} {x y : Option (List Char)} {s t : List Char} (hb : b ≠ [])
    (hd : ∀ b' ∈ bs, ¬ b.isPrefixOf b' = true ∧ ¬ b'.isPrefixOf b = true) (hs : Begins bs s) (ht : Begins bs t)
    (hx : ∀ z, x = some z → c ∉ z) (hy : ∀ z, y = some z → c ∉ z) (h : part b c e x ++ s = part b c e y ++ t) : x = y ∧ s = t := by
  cases x with
  | none =>
    cases y with
    | none => exact ⟨rfl, h⟩
    | some y =>
      refine absurd h ?_
      simp only [part, List.nil_append, List.append_assoc]
      exact begins_not hs hb hd
  | some x =>
    cases y with
    | none =>
      refine absurd h.symm ?_
      simp only [part, List.nil_append, List.append_assoc]
      exact begins_not ht hb hd
    | some y =>
      simp only [part, List.append_assoc, List.cons_append] at h
      obtain ⟨e1, e2⟩ := cut_first (List.append_cancel_left h) (hx x rfl) (hy y rfl)
      exact ⟨by rw [e1], List.append_cancel_left e2⟩

/-- The values of a filter, as they are printed. -/
def srcs (f : Filter) : Option (List Char) := if f.sources = [] then none else some (join " " f.sources).toList
def idss (f : Filter) : Option (List Char) := if f.ids = [] then none else some (join " " f.sources).toList
def cats (f : Filter) : Option (List Char) := if f.category = "" then none else some f.category.toList
def flag (b : Bool) : Option (List Char) := if b then some [] else none
def mins (f : Filter) : Option (List Char) := f.minDuration.map fun d => (showDuration d).toList
def lastPart (f : Filter) : List Char := if f.query = "" then [] else "Query='".toList ++ (f.query.toList ++ "' ".toList)

theorem spaced (l : List String) : l ≠ [] → (join " " l).toList ++ [' '] = l.flatMap fun x => x.toList ++ [' '] := by
  induction l with
  | nil => intro h; exact absurd rfl h
  | cons x l ih =>
    intro _
    cases l with
    | nil => simp [join]
    | cons y l =>
      rw [List.flatMap_cons, ← ih (by simp)]
      simp [join, String.toList_append]

/-- The text with a space, in parts. -/
theorem elems_parts (f : Filter) : ((f.elems showDuration).flatMap fun x => x.toList ++ [' ']) =
    part "Sources=[".toList ']' [' '] (srcs f) ++ (part "IDs=[".toList ']' [' '] (idss f) ++ (part "Category='".toList '\'' [' '] (cats f) ++
      (part "IsActive".toList ' ' [] (flag f.isActive) ++ (part "IsFinished".toList ' ' [] (flag f.isFinished) ++
        (part "MinDuration=".toList ' ' [] (mins f) ++ (part "IsSuccess".toList ' ' [] (flag f.isSuccess) ++
          (part "IsErrored".toList ' ' [] (flag f.isErrored) ++ lastPart f))))))) := by
  unfold Filter.elems
  simp only [List.flatMap_append, List.append_assoc]
  congr 1
  · unfold srcs
    by_cases h : f.sources = []
    · simp [h, part]
    · rw [if_pos (List.length_pos_iff.mpr h), if_neg h]
      simp [part, sprintStrings, String.toList_append]
  congr 1
  · unfold idss
    by_cases h : f.ids = []
    · simp [h, part]
    · rw [if_pos (List.length_pos_iff.mpr h), if_neg h]
      simp [part, sprintStrings, String.toList_append]
  congr 1
  · unfold cats
    by_cases h : f.category = ""
    · simp [h, part]
    · simp [h, part, String.toList_append]
  congr 1
  · cases f.isActive <;> rfl
  congr 1
  · cases f.isFinished <;> rfl
  congr 1
  · unfold mins
    cases f.minDuration with
    | none => rfl
    | some d => simp [part, String.toList_append]
  congr 1
  · cases f.isSuccess <;> rfl
  congr 1
  · cases f.isErrored <;> rfl
  · unfold lastPart
    by_cases h : f.query = ""
    · simp [h]
    · simp [h, String.toList_append]

theorem words_inj (l m : List String) (hl : ∀ x ∈ l, ' ' ∉ x.toList) (hm : ∀ x ∈ m, ' ' ∉ x.toList) (h0 : l ≠ []) (h0' : m ≠ [])
    (h : (join " " l).toList = (join " " m).toList) : l = m := by
  have e : (join " " l).toList ++ [' '] = (join " " m).toList ++ [' '] := by rw [h]
  rw [spaced l h0, spaced m h0'] at e
  clear h h0 h0'
  induction l generalizing m with
  | nil =>
    cases m with
    | nil => rfl
    | cons y m => simp at e
  | cons x l ih =>
    cases m with
    | nil => simp at e
    | cons y m =>
      simp only [List.flatMap_cons, List.append_assoc, List.singleton_append] at e
      obtain ⟨e1, e2⟩ := cut_first e (hl x List.mem_cons_self) (hm y List.mem_cons_self)
      rw [String.toList_inj.mp e1, ih m (fun x hx => hl x (List.mem_cons_of_mem _ hx)) (fun x hx => hm x (List.mem_cons_of_mem _ hx)) e2]

theorem joined_closed (l : List String) (h : ∀ x ∈ l, ']' ∉ x.toList) : ']' ∉ (join " " l).toList := by
  by_cases h0 : l = []
  · subst h0; simp [join]
  · intro hm
    have : ']' ∈ (join " " l).toList ++ [' '] := List.mem_append_left _ hm
    rw [spaced l h0] at this
    obtain ⟨x, hx, hm⟩ := List.mem_flatMap.mp this
    rcases List.mem_append.mp hm with hm | hm
    · exact h x hx hm
    · simp at hm

theorem flag_inj {a b : Bool} (h : flag a = flag b) : a = b := by
  cases a <;> cases b <;> first | rfl | cases h

theorem parts_same {f g : Filter} (hf : Neat f) (hg : Neat g)
    (h : ((f.elems showDuration).flatMap fun x => x.toList ++ [' ']) = ((g.elems showDuration).flatMap fun x => x.toList ++ [' '])) : SameButIDs f g := by
  rw [elems_parts, elems_parts] at h
  have b9 : ∀ f, Begins ["Query='".toList] (lastPart f) := by
    intro f
    unfold lastPart
    split
    · exact .inl rfl
    · exact .inr ⟨_, List.mem_cons_self, _, rfl⟩
  have fl : ∀ (b : Bool) z, flag b = some z → ' ' ∉ z := by
    intro b z hz
    cases b
    · cases hz
    · cases hz; simp
  have closed : ∀ f : Filter, Neat f → ']' ∉ (join " " f.sources).toList := fun f hf => joined_closed _ fun x hx => (hf.sources x hx).2
  have b8 := fun f => begins_part (b := "IsErrored".toList) (c := ' ') (e := []) (x := flag f.isErrored) (b9 f)
  have b7 := fun f => begins_part (b := "IsSuccess".toList) (c := ' ') (e := []) (x := flag f.isSuccess) (b8 f)
  have b6 := fun f => begins_part (b := "MinDuration=".toList) (c := ' ') (e := []) (x := mins f) (b7 f)
  have b5 := fun f => begins_part (b := "IsFinished".toList) (c := ' ') (e := []) (x := flag f.isFinished) (b6 f)
  have b4 := fun f => begins_part (b := "IsActive".toList) (c := ' ') (e := []) (x := flag f.isActive) (b5 f)
  have b3 := fun f => begins_part (b := "Category='".toList) (c := '\'') (e := [' ']) (x := cats f) (b4 f)
  have b2 := fun f => begins_part (b := "IDs=[".toList) (c := ']') (e := [' ']) (x := idss f) (b3 f)
  have src : ∀ f : Filter, Neat f → ∀ z, srcs f = some z → ']' ∉ z := by
    intro f hf z hz
    unfold srcs at hz
    split at hz
    · cases hz
    · cases hz; exact closed f hf
  have ids : ∀ f : Filter, Neat f → ∀ z, idss f = some z → ']' ∉ z := by
    intro f hf z hz
    unfold idss at hz
    split at hz
    · cases hz
    · cases hz; exact closed f hf
  have cat : ∀ f : Filter, Neat f → ∀ z, cats f = some z → '\'' ∉ z := by
    intro f hf z hz
    unfold cats at hz
    split at hz
    · cases hz
    · cases hz; exact hf.category
  have min : ∀ f : Filter, ∀ z, mins f = some z → ' ' ∉ z := by
    intro f z hz
    obtain ⟨d, -, rfl⟩ := Option.map_eq_some_iff.mp hz
    rw [showDuration, String.toList_ofList]
    exact numeric_not (durationString_numeric d) (by decide)
  obtain ⟨h1, h⟩ := part_inj (by decide) (by decide) (b2 f) (b2 g) (src f hf) (src g hg) h
  obtain ⟨h2, h⟩ := part_inj (by decide) (by decide) (b3 f) (b3 g) (ids f hf) (ids g hg) h
  obtain ⟨h3, h⟩ := part_inj (by decide) (by decide) (b4 f) (b4 g) (cat f hf) (cat g hg) h
  obtain ⟨h4, h⟩ := part_inj (by decide) (by decide) (b5 f) (b5 g) (fl _) (fl _) h
  obtain ⟨h5, h⟩ := part_inj (by decide) (by decide) (b6 f) (b6 g) (fl _) (fl _) h
  obtain ⟨h6, h⟩ := part_inj (by decide) (by decide) (b7 f) (b7 g) (min f) (min g) h
  obtain ⟨h7, h⟩ := part_inj (by decide) (by decide) (b8 f) (b8 g) (fl _) (fl _) h
  obtain ⟨h8, h⟩ := part_inj (by decide) (by decide) (b9 f) (b9 g) (fl _) (fl _) h
  refine ⟨?_, ?_, ?_, flag_inj h4, flag_inj h5, ?_, flag_inj h7, flag_inj h8, ?_⟩
  · unfold srcs at h1
    by_cases e1 : f.sources = [] <;> by_cases e2 : g.sources = [] <;> simp only [e1, e2, if_true, if_false, reduceCtorEq, Option.some.injEq] at h1
    · rw [e1, e2]
    · exact words_inj _ _ (fun x hx => (hf.sources x hx).1) (fun x hx => (hg.sources x hx).1) e1 e2 h1
  · unfold idss at h2
    by_cases e1 : f.ids = [] <;> by_cases e2 : g.ids = [] <;> simp only [e1, e2, if_true, if_false, reduceCtorEq] at h2 ⊢
  · unfold cats at h3
    by_cases e1 : f.category = "" <;> by_cases e2 : g.category = "" <;> simp only [e1, e2, if_true, if_false, reduceCtorEq, Option.some.injEq] at h3
    · rw [e1, e2]
    · exact String.toList_inj.mp h3
  · unfold mins at h6
    cases e1 : f.minDuration with
    | none => cases e2 : g.minDuration with
      | none => rfl
      | some d' => rw [e1, e2] at h6; cases h6
    | some d => cases e2 : g.minDuration with
      | none => rw [e1, e2] at h6; cases h6
      | some d' =>
        rw [e1, e2] at h6
        simp only [Option.map_some, Option.some.injEq, showDuration, String.toList_ofList] at h6
        rw [durationString_inj (hf.duration d e1) (hg.duration d' e2) h6]
  · unfold lastPart at h
    by_cases e1 : f.query = "" <;> by_cases e2 : g.query = "" <;> simp only [e1, e2, if_true, if_false] at h
    · rw [e1, e2]
    · simp at h
    · simp at h
    · exact String.toList_inj.mp (List.append_cancel_right (List.append_cancel_left h))

theorem same_string {f g : Filter} (h : SameButIDs f g) (sd : Duration → String) : f.string sd = g.string sd := by
  have e : f.elems sd = g.elems sd := by
    unfold Filter.elems
    rw [h.sources, h.category, h.isActive, h.isFinished, h.minDuration, h.isSuccess, h.isErrored, h.query]
    have : f.ids.length > 0 ↔ g.ids.length > 0 := by
      rw [gt_iff_lt, gt_iff_lt, List.length_pos_iff, List.length_pos_iff, ne_eq, ne_eq, h.ids]
    simp only [this]
  unfold Filter.string
  rw [e]

/-! ## The theorems -/

/-- **C34** Filters whose sources are words without a closing bracket and whose categories have no quote print the same exactly if they have the same
conditions, but for the IDs: of these the text tells only whether there are any. -/
theorem C34_tells_exact (f g : Filter) (hf : Neat f) (hg : Neat g) :
    f.string showDuration = g.string showDuration ↔ SameButIDs f g := by
  refine ⟨fun h => ?_, fun h => same_string h _⟩
  apply parts_same hf hg
  by_cases ef : f.elems showDuration = []
  · have h1 := (C34_allow_all_iff showDuration f).mpr ((elems_nil_iff showDuration f).mp ef)
    rw [h] at h1
    rw [ef, (elems_nil_iff showDuration g).mpr ((C34_allow_all_iff showDuration g).mp h1)]
  · by_cases eg : g.elems showDuration = []
    · have h1 := (C34_allow_all_iff showDuration g).mpr ((elems_nil_iff showDuration g).mp eg)
      rw [← h] at h1
      exact absurd ((elems_nil_iff showDuration f).mpr ((C34_allow_all_iff showDuration f).mp h1)) ef
    · rw [← spaced _ ef, ← spaced _ eg]
      have l1 : ¬ (f.elems showDuration).length ≤ 0 := by have := List.length_pos_iff.mpr ef; omega
      have l2 : ¬ (g.elems showDuration).length ≤ 0 := by have := List.length_pos_iff.mpr eg; omega
      unfold Filter.string at h
      rw [if_neg l1, if_neg l2] at h
      rw [h]

/-- **C34** Each of these is needed: with a space or a closing bracket in a source, or a quote in a category, filters that are not the same print the same. -/
theorem C34_neat_violated :
    ({ sources := ["a b"] } : Filter).string showDuration = ({ sources := ["a", "b"] } : Filter).string showDuration ∧
    ({ sources := ["a]", "IDs=[a"] } : Filter).string showDuration = ({ sources := ["a"], ids := ["x"] } : Filter).string showDuration ∧
    ({ category := "a' IsActive Query='b" } : Filter).string showDuration = ({ category := "a", isActive := true, query := "b" } : Filter).string showDuration := by
  refine ⟨by decide +kernel, by decide +kernel, by decide +kernel⟩

/-- **C138** Requests with such filters print the same exactly if they ask for the same, but for the IDs. -/
theorem C138_tells_exact (r r' : SearchRequest) (h : ∀ d ∈ r.bucketing, Fits64 d) (h' : ∀ d ∈ r'.bucketing, Fits64 d)
    (hf : Neat r.filter) (hf' : Neat r'.filter) :
    requestString r = requestString r' ↔ r.bucketing = r'.bucketing ∧ r.limit = r'.limit ∧ r.stackDepth = r'.stackDepth ∧ SameButIDs r.filter r'.filter := by
  rw [C138_tells_partial r r' h h', C34_tells_exact _ _ hf hf']

/-- Two filters, of which one asks for a query that looks like a condition. -/
example : Neat { sources := ["a", "b"], ids := ["x"], category := "c d", minDuration := some 5, query := "' IsErrored" } ∧
    Neat { sources := ["a", "b"], ids := ["y", "z"], category := "c d", minDuration := some 5, isErrored := true, query := "'" } ∧
    ({ sources := ["a", "b"], ids := ["x"], category := "c d", minDuration := some 5, query := "' IsErrored" } : Filter).string showDuration =
      "Sources=[a b] IDs=[a b] Category='c d' MinDuration=5ns Query='' IsErrored'" := by
  refine ⟨⟨?_, by decide, ?_⟩, ⟨?_, by decide, ?_⟩, by decide +kernel⟩
  · decide
  · intro d hd; cases hd; exact ⟨by decide, by decide⟩
  · decide
  · intro d hd; cases hd; exact ⟨by decide, by decide⟩

end Trc.Web
