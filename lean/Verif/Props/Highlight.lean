import Verif.Web.Highlight
import Verif.Props.Page

/-!
# C102: the cell that was clicked is highlighted
-/

namespace Trc.Web

/-! ## What should be highlighted -/

def Place.column : Place → Column
  | .header col => col
  | .row _ _ col => col

/-- The cell is in the row of the category. -/
def Place.inRow (category : String) : Place → Prop
  | .header _ => False
  | .row c _ _ => c = category

/-- The cell stands for traces that the filter asks for: it is in the row of the category and in the columns of the
conditions, as far as the filter has any. -/
def Place.Asked (p : Place) (f : Filter) : Prop :=
  (f.category ≠ "" → p.inRow f.category) ∧ (f.isActive = true → p.column = .active) ∧
  (∀ d, f.minDuration = some d → p.column = .bucket d) ∧ (f.isErrored = true → p.column = .errored)

/-- The filter has a condition that the summary has a row or a column for. -/
def _root_.Trc.Filter.shownInSummary (f : Filter) : Prop :=
  f.category ≠ "" ∨ f.isActive = true ∨ f.minDuration ≠ none ∨ f.isErrored = true

/-- SHA-256 is in hexadecimal: letters and digits. -/
def Hex (sha : String → List Char) : Prop := ∀ s, ∀ c ∈ sha s, nameStart c = true ∨ isDigit c = true

/-- The category does not have the same hash as that of the row of the cell, unless it is the same one. -/
def Place.distinct (sha : String → List Char) (category : String) : Place → Prop
  | .header _ => True
  | .row c _ _ => sha category = sha c → category = c

/-! ## Selectors -/

/-- A class name that the style sheet can use as it is. -/
structure Ident (w : List Char) : Prop where
  start : ∃ c t, w = c :: t ∧ nameStart c = true
  chars : ∀ c ∈ w, nameChar c = true
  hyphens : doubleHyphen w = false

theorem startsIdent_cons {c : Char} (h : nameStart c = true) (s : List Char) : startsIdent (c :: s) = true := by
  unfold startsIdent
  split
  · next heq => cases heq; exact absurd h (by decide)
  · next heq => cases heq; exact h
  · next heq => cases heq

theorem selectorText_cons {w : List Char} (h : Ident w) (classes : List (List Char)) :
    selectorText (w :: classes) = '.' :: (w ++ selectorText classes) := by
  have : cssValue w = w := if_neg (by rw [h.hyphens]; decide)
  unfold selectorText
  rw [List.flatMap_cons, this]
  rfl

/-- One class selector. -/
theorem parse_class {w : List Char} (h : Ident w) (rest : List Char) (hr : rest = [] ∨ ∃ r, rest = '.' :: r) (n : Nat) :
    parseSelector (n + 1) ('.' :: (w ++ rest)) = (parseSelector n rest).map (w :: ·) := by
  obtain ⟨c, t, rfl, hc⟩ := h.start
  have hstop : ∀ d, rest.head? = some d → nameChar d = false := by
    intro d hd
    rcases hr with rfl | ⟨r, rfl⟩
    · cases hd
    · cases hd; decide
  have htd := takeWhile_stop nameChar (c :: t) rest h.chars hstop
  rw [parseSelector, if_pos ⟨rfl, startsIdent_cons hc _⟩, htd.1, htd.2]

theorem selectorText_dot (classes : List (List Char)) (rest : List Char) (hr : rest = [] ∨ ∃ r, rest = '.' :: r) :
    selectorText classes ++ rest = [] ∨ ∃ r, selectorText classes ++ rest = '.' :: r := by
  cases classes with
  | nil => exact hr
  | cons w cl => exact .inr ⟨_, rfl⟩

theorem parse_selector (classes : List (List Char)) (h : ∀ w ∈ classes, Ident w) (n : Nat) (hn : (selectorText classes).length ≤ n) :
    parseSelector n (selectorText classes) = some classes := by
  induction classes generalizing n with
  | nil => cases n <;> rfl
  | cons w classes ih =>
    have hw := h w (by simp)
    rw [selectorText_cons hw] at hn ⊢
    rw [List.length_cons, List.length_append] at hn
    obtain ⟨n, rfl⟩ : ∃ m, n = m + 1 := ⟨n - 1, by omega⟩
    have := selectorText_dot classes [] (.inl rfl)
    rw [List.append_nil] at this
    rw [parse_class hw _ this, ih (fun w hw => h w (by simp [hw])) n (by omega)]
    rfl

/-- A selector with a part that is not well-formed is not well-formed. -/
theorem parse_bad (classes : List (List Char)) (h : ∀ w ∈ classes, Ident w) (rest : List Char) (hr : ∃ r, rest = '.' :: r)
    (hbad : ∀ n, parseSelector n rest = none) (n : Nat) : parseSelector n (selectorText classes ++ rest) = none := by
  induction classes generalizing n with
  | nil => exact hbad n
  | cons w classes ih =>
    have hw := h w (by simp)
    rw [selectorText_cons hw, List.cons_append, List.append_assoc]
    cases n with
    | zero => rfl
    | succ n => rw [parse_class hw _ (selectorText_dot classes rest (.inr hr)), ih (fun w hw => h w (by simp [hw]))]; rfl

/-! ## Durations -/

/-- The characters of a duration without a fraction and without a sign. -/
def durChar (c : Char) : Prop := isDigit c = true ∨ c = 'n' ∨ c = 'µ' ∨ c = 'm' ∨ c = 's' ∨ c = 'h'

theorem durChar_name {c : Char} (h : durChar c) : nameChar c = true ∧ c ≠ '-' ∧ c ≠ '.' := by
  rcases h with h | rfl | rfl | rfl | rfl | rfl
  · exact ⟨by simp [nameChar, h], by rintro rfl; exact absurd h (by decide), by rintro rfl; exact absurd h (by decide)⟩
  all_goals decide

theorem frac_ne_nil (i v : Nat) (print : Bool) (acc : List Char) (h : print = true → acc ≠ []) :
    (fmtFracLoop i v print acc).2.1 = true → (fmtFracLoop i v print acc).1 ≠ [] := by
  induction i generalizing v print acc with
  | zero => exact h
  | succ i ih =>
    rw [fmtFracLoop]
    apply ih
    intro hp
    rw [if_pos hp]
    simp

theorem frac_cases (v prec : Nat) : (fmtFrac v prec).1 = [] ∨ ∃ c ds, (fmtFrac v prec).1 = '.' :: c :: ds ∧ isDigit c = true ∧ AllDigits ds := by
  obtain ⟨-, h1, -, -, h2⟩ := fmtFrac_spec v prec
  unfold fmtFrac
  by_cases hp : (fmtFracLoop prec v false []).2.1 = true
  · right
    obtain ⟨c, ds, e⟩ := List.exists_cons_of_ne_nil (frac_ne_nil prec v false [] (by simp) hp)
    unfold fracDigits at h1
    rw [e] at h1
    refine ⟨c, ds, by simp only [hp, if_true, e], h1 c (by simp), fun d hd => h1 d (by simp [hd])⟩
  · left
    unfold fracDigits fmtFrac at h2
    simp only [hp] at h2 ⊢
    rcases h2 with h2 | h2
    · have := (fmtFracLoop_spec prec v false [] 0 (fun c h => by cases h) (fun _ => rfl) (by simp)).2.1
      simpa using this (by simpa using hp)
    · exact h2.1

/-- A duration that is not negative: digits and units, perhaps a fraction, digits and units. -/
theorem formatAbs_shape (u : Nat) : ∃ a f z, formatAbs u = a ++ f ++ z ∧ (∀ c ∈ a, durChar c) ∧ (∀ c ∈ z, durChar c) ∧
    (f = [] ∨ ∃ c ds, f = '.' :: c :: ds ∧ isDigit c = true ∧ AllDigits ds) := by
  have hi : ∀ v, ∀ c ∈ fmtInt v, durChar c := fun v c hc => .inl (fmtInt_digits v c hc)
  unfold formatAbs formatSmall formatLarge
  split
  · split
    · exact ⟨['0', 's'], [], [], rfl, by unfold durChar; decide, by simp, .inl rfl⟩
    · split
      · exact ⟨_, _, ['n', 's'], rfl, hi _, by unfold durChar; decide, frac_cases _ _⟩
      · split
        · exact ⟨_, _, ['µ', 's'], rfl, hi _, by unfold durChar; decide, frac_cases _ _⟩
        · exact ⟨_, _, ['m', 's'], rfl, hi _, by unfold durChar; decide, frac_cases _ _⟩
  · refine ⟨_, _, ['s'], rfl, ?_, by unfold durChar; decide, frac_cases _ _⟩
    intro c hc
    rw [List.mem_append] at hc
    rcases hc with hc | hc
    · unfold formatMinutes at hc
      have hh : durChar 'h' := by unfold durChar; decide
      have hm : durChar 'm' := by unfold durChar; decide
      split at hc
      · simp only [List.mem_append, List.mem_singleton] at hc
        rcases hc with (hc | hc) | hc
        · split at hc
          · simp only [List.mem_append, List.mem_singleton] at hc
            rcases hc with hc | rfl
            · exact hi _ _ hc
            · exact hh
          · cases hc
        · exact hi _ _ hc
        · subst hc; exact hm
      · cases hc
    · exact hi _ _ hc

/-- A duration that the style sheet can have in a class name: not negative and, as it is written, without a fraction. -/
def Whole (d : Duration) : Prop := 0 ≤ d ∧ '.' ∉ durationString d

theorem durationString_nonneg {d : Duration} (h : 0 ≤ d) : durationString d = formatAbs d.natAbs := by
  change Int at d
  change (0 : Int) ≤ d at h
  unfold durationString
  rw [if_neg (show ¬ d < 0 by omega)]

theorem whole_chars {d : Duration} (h : Whole d) : ∀ c ∈ durationString d, durChar c := by
  obtain ⟨h0, h1⟩ := h
  rw [durationString_nonneg h0] at h1 ⊢
  obtain ⟨a, f, z, e, ha, hz, hf⟩ := formatAbs_shape d.natAbs
  rw [e] at h1 ⊢
  rcases hf with rfl | ⟨c, ds, rfl, -⟩
  · intro c hc
    simp only [List.append_nil, List.mem_append] at hc
    exact hc.elim (ha c) (hz c)
  · simp at h1

/-! ## The classes -/

theorem noHyphen_double (x : List Char) (h : ∀ c ∈ x, c ≠ '-') : doubleHyphen x = false := by
  induction x with
  | nil => rfl
  | cons c x ih =>
    unfold doubleHyphen
    split
    · next heq => cases heq; exact absurd rfl (h '-' (by simp))
    · next heq => cases heq; exact ih (fun d hd => h d (by simp [hd]))
    · next heq => cases heq

theorem hyphen_double (a x : List Char) (ha : ∀ c ∈ a, c ≠ '-') (h : ∀ c ∈ x, c ≠ '-') : doubleHyphen (a ++ '-' :: x) = false := by
  induction a with
  | nil =>
    rw [List.nil_append]
    unfold doubleHyphen
    split
    · next heq => simp only [List.cons.injEq, true_and] at heq; subst heq; exact absurd rfl (h '-' (by simp))
    · next heq => cases heq; exact noHyphen_double x h
    · next heq => cases heq
  | cons c a ih =>
    rw [List.cons_append]
    unfold doubleHyphen
    split
    · next heq => simp only [List.cons.injEq] at heq; exact absurd heq.1 (ha c (by simp))
    · next heq => cases heq; exact ih (fun d hd => ha d (by simp [hd]))
    · next heq => cases heq

theorem ident_min {d : Duration} (h : Whole d) : Ident (minClass d) := by
  have hc := whole_chars h
  refine ⟨⟨'m', _, rfl, by decide⟩, ?_, hyphen_double ['m', 'i', 'n'] _ (by decide) (fun c h => (durChar_name (hc c h)).2.1)⟩
  intro c h
  unfold minClass at h
  rw [List.mem_append] at h
  rcases h with h | h
  · revert c; decide
  · exact (durChar_name (hc c h)).1

theorem ident_category {sha : String → List Char} (h : Hex sha) (s : String) : Ident (categoryClass sha s) := by
  have hc : ∀ c ∈ sha s, nameChar c = true ∧ c ≠ '-' := by
    intro c hc
    rcases h s c hc with h | h
    · exact ⟨by simp [nameChar, h], by rintro rfl; exact absurd h (by decide)⟩
    · exact ⟨by simp [nameChar, h], by rintro rfl; exact absurd h (by decide)⟩
  refine ⟨⟨'c', _, rfl, by decide⟩, ?_, hyphen_double ['c', 'a', 't', 'e', 'g', 'o', 'r', 'y'] _ (by decide) (fun c h => (hc c h).2)⟩
  intro c h
  unfold categoryClass at h
  rw [List.mem_append] at h
  rcases h with h | h
  · revert c; decide
  · exact (hc c h).1

theorem ident_active : Ident ['a', 'c', 't', 'i', 'v', 'e'] := ⟨⟨'a', _, rfl, by decide⟩, by decide, by decide⟩
theorem ident_errored : Ident ['e', 'r', 'r', 'o', 'r', 'e', 'd'] := ⟨⟨'e', _, rfl, by decide⟩, by decide, by decide⟩

theorem minClass_inj {d e : Duration} (hd : Is64 d) (he : Is64 e) (h : minClass d = minClass e) : d = e := by
  have h' : durationString d = durationString e := List.append_cancel_left h
  have h1 := parseDuration_string exactMul_floor d hd.1 hd.2
  rw [h', parseDuration_string exactMul_floor e he.1 he.2] at h1
  exact (Option.some.inj h1).symm

/-- Two class names of which one begins with another letter than the other. -/
theorem head_ne {a b : List Char} (h : a.head? ≠ b.head?) : a ≠ b := fun e => h (by rw [e])

/-- The durations in the places are 64-bit integers. -/
def Place.fits : Place → Prop
  | .header (.bucket d) => Is64 d
  | .row _ _ (.bucket d) => Is64 d
  | _ => True

theorem mem_active (sha : String → List Char) (p : Place) : ['a', 'c', 't', 'i', 'v', 'e'] ∈ p.classes sha ↔ p.column = .active := by
  have hc : ∀ s, ['a', 'c', 't', 'i', 'v', 'e'] ≠ categoryClass sha s := fun s => head_ne (by simp [categoryClass])
  have hm : ∀ d, ['a', 'c', 't', 'i', 'v', 'e'] ≠ minClass d := fun d => head_ne (by simp [minClass])
  cases p with
  | header col => cases col <;> simp only [Place.classes, Place.column, headerClasses, List.mem_cons, hm, List.not_mem_nil, or_false] <;> simp
  | row c l col =>
    cases col <;> simp only [Place.classes, Place.column, rowClasses, List.mem_cons, hm, hc, List.not_mem_nil, or_false] <;> simp

theorem mem_errored (sha : String → List Char) (p : Place) : ['e', 'r', 'r', 'o', 'r', 'e', 'd'] ∈ p.classes sha ↔ p.column = .errored := by
  have hc : ∀ s, ['e', 'r', 'r', 'o', 'r', 'e', 'd'] ≠ categoryClass sha s := fun s => head_ne (by simp [categoryClass])
  have hm : ∀ d, ['e', 'r', 'r', 'o', 'r', 'e', 'd'] ≠ minClass d := fun d => head_ne (by simp [minClass])
  cases p with
  | header col => cases col <;> simp only [Place.classes, Place.column, headerClasses, List.mem_cons, hm, List.not_mem_nil, or_false] <;> simp
  | row c l col =>
    cases col <;> simp only [Place.classes, Place.column, rowClasses, List.mem_cons, hm, hc, List.not_mem_nil, or_false] <;> simp

theorem mem_category {sha : String → List Char} (s : String) (p : Place) (h : p.distinct sha s) : categoryClass sha s ∈ p.classes sha ↔ p.inRow s := by
  have hm : ∀ d, categoryClass sha s ≠ minClass d := fun d => head_ne (by simp [categoryClass, minClass])
  have hcat : categoryClass sha s ≠ ['c', 'a', 't', 'e', 'g', 'o', 'r', 'y'] := by
    intro e
    have := congrArg (fun l => l[8]?) e
    simp [categoryClass] at this
  have hl : ∀ w : List Char, w.head? ≠ some 'c' → categoryClass sha s ≠ w := fun w hw => head_ne (by rw [show (categoryClass sha s).head? = some 'c' from rfl]; exact fun e => hw e.symm)
  have h1 := hl ['t', 'e', 'x', 't'] (by decide)
  have h2 := hl ['a', 'c', 't', 'i', 'v', 'e'] (by decide)
  have h3 : categoryClass sha s ≠ ['c', 'o', 'u', 'n', 't'] := by
    intro e
    have := congrArg (fun l => l[1]?) e
    simp [categoryClass] at this
  have h4 := hl ['p', 'r', 'o', 'g', 'r', 'e', 's', 's'] (by decide)
  have h5 := hl ['b', 'u', 'c', 'k', 'e', 't'] (by decide)
  have h6 := hl ['e', 'r', 'r', 'o', 'r', 'e', 'd'] (by decide)
  have h7 := hl ['t', 'o', 't', 'a', 'l'] (by decide)
  have h8 := hl ['s', 'e', 'p', 'a', 'r', 'a', 't', 'o', 'r'] (by decide)
  have h9 := hl ['o', 'l', 'd', 'e', 's', 't'] (by decide)
  have h10 := hl ['n', 'e', 'w', 'e', 's', 't'] (by decide)
  have h11 := hl ['r', 'a', 't', 'e'] (by decide)
  have h12 := hl ['n', 'u', 'm', 'e', 'r', 'i', 'c'] (by decide)
  cases p with
  | header col =>
    cases col <;> simp only [Place.classes, Place.inRow, headerClasses, List.mem_cons, hm, hcat, h1, h2, h3, h4, h5, h6, h7, h8, h9, h10, h11, h12,
      List.not_mem_nil, or_false]
  | row c l col =>
    have hi : categoryClass sha s = categoryClass sha c ↔ c = s :=
      ⟨fun e => (h (List.append_cancel_left e)).symm, fun e => by rw [e]⟩
    cases col <;> simp only [Place.classes, Place.inRow, rowClasses, List.mem_cons, hm, hcat, h1, h2, h3, h4, h5, h6, h7, h8, h9, h10, h11, h12, hi,
      List.not_mem_nil, or_false, false_or]

theorem mem_min (sha : String → List Char) {d : Duration} (hd : Is64 d) (p : Place) (hp : p.fits) :
    minClass d ∈ p.classes sha ↔ p.column = .bucket d := by
  have hc : ∀ s, minClass d ≠ categoryClass sha s := fun s => head_ne (by simp [categoryClass, minClass])
  have hl : ∀ w : List Char, w.head? ≠ some 'm' → minClass d ≠ w := fun w hw => head_ne (by rw [show (minClass d).head? = some 'm' from rfl]; exact fun e => hw e.symm)
  have h0 := hl ['c', 'a', 't', 'e', 'g', 'o', 'r', 'y'] (by decide)
  have h1 := hl ['t', 'e', 'x', 't'] (by decide)
  have h2 := hl ['a', 'c', 't', 'i', 'v', 'e'] (by decide)
  have h3 := hl ['c', 'o', 'u', 'n', 't'] (by decide)
  have h4 := hl ['p', 'r', 'o', 'g', 'r', 'e', 's', 's'] (by decide)
  have h5 := hl ['b', 'u', 'c', 'k', 'e', 't'] (by decide)
  have h6 := hl ['e', 'r', 'r', 'o', 'r', 'e', 'd'] (by decide)
  have h7 := hl ['t', 'o', 't', 'a', 'l'] (by decide)
  have h8 := hl ['s', 'e', 'p', 'a', 'r', 'a', 't', 'o', 'r'] (by decide)
  have h9 := hl ['o', 'l', 'd', 'e', 's', 't'] (by decide)
  have h10 := hl ['n', 'e', 'w', 'e', 's', 't'] (by decide)
  have h11 := hl ['r', 'a', 't', 'e'] (by decide)
  have h12 := hl ['n', 'u', 'm', 'e', 'r', 'i', 'c'] (by decide)
  have hi : ∀ e, Is64 e → (minClass d = minClass e ↔ e = d) := fun e he => ⟨fun h => (minClass_inj hd he h).symm, fun h => by rw [h]⟩
  cases p with
  | header col =>
    cases col
    case bucket e =>
      simp only [Place.classes, Place.column, headerClasses, List.mem_cons, h5, List.not_mem_nil, or_false, false_or, Column.bucket.injEq]
      exact hi e hp
    all_goals simp only [Place.classes, Place.column, headerClasses, List.mem_cons, h0, h1, h2, h3, h4, h5, h6, h7, h8, h9, h10, h11, h12,
      List.not_mem_nil, or_false, reduceCtorEq]
  | row c l col =>
    cases col
    case bucket e =>
      simp only [Place.classes, Place.column, rowClasses, List.mem_cons, h3, h4, h5, hc, List.not_mem_nil, or_false, false_or, Column.bucket.injEq]
      exact hi e hp
    all_goals simp only [Place.classes, Place.column, rowClasses, List.mem_cons, h0, h1, h2, h3, h4, h5, h6, h7, h8, h9, h10, h11, h12, hc,
      List.not_mem_nil, or_false, reduceCtorEq]

/-! ## C102 -/

/-- The classes of a filter, all of which can be in a selector. -/
theorem highlight_idents {sha : String → List Char} (h : Hex sha) (f : Filter) (hw : ∀ d, f.minDuration = some d → Whole d) :
    ∀ w ∈ highlightClasses sha f, Ident w := by
  intro w hm
  unfold highlightClasses at hm
  split at hm
  · cases hm
  simp only [List.mem_append] at hm
  rcases hm with ((hm | hm) | hm) | hm
  · split at hm
    · rw [List.mem_singleton] at hm; subst hm; exact ident_category h _
    · cases hm
  · split at hm
    · rw [List.mem_singleton] at hm; rw [hm]; exact ident_active
    · cases hm
  · split at hm
    · next d hd => rw [List.mem_singleton] at hm; subst hm; exact ident_min (hw d hd)
    · cases hm
  · split at hm
    · rw [List.mem_singleton] at hm; rw [hm]; exact ident_errored
    · cases hm

theorem all_classes {sha : String → List Char} (f : Filter) (hids : f.ids = []) (hf : ∀ d, f.minDuration = some d → Is64 d)
    (p : Place) (hp : p.fits) (h : p.distinct sha f.category) : (∀ w ∈ highlightClasses sha f, w ∈ p.classes sha) ↔ p.Asked f := by
  unfold highlightClasses Place.Asked
  rw [if_neg (by rw [hids]; decide)]
  simp only [List.mem_append, or_imp, forall_and, and_assoc]
  refine and_congr ?_ (and_congr ?_ (and_congr ?_ ?_))
  · by_cases hc : f.category = ""
    · simp [hc]
    · simp only [hc, ne_eq, not_false_eq_true, if_true, List.mem_singleton, forall_eq, forall_const, mem_category _ p h]
  · cases f.isActive
    · simp
    · simp only [if_true, List.mem_singleton, forall_eq, mem_active, forall_const]
  · cases hd : f.minDuration with
    | none => simp
    | some d => simp only [List.mem_singleton, forall_eq, mem_min sha (hf d hd) p hp, Option.some.injEq, forall_eq']
  · cases f.isErrored
    · simp
    · simp only [if_true, List.mem_singleton, forall_eq, mem_errored, forall_const]

theorem classes_ne_nil {sha : String → List Char} (f : Filter) (hids : f.ids = []) : highlightClasses sha f ≠ [] ↔ f.shownInSummary := by
  unfold highlightClasses _root_.Trc.Filter.shownInSummary
  rw [if_neg (by rw [hids]; decide)]
  cases f.minDuration <;> cases f.isActive <;> cases f.isErrored <;> by_cases hc : f.category = "" <;> simp [hc]

/-- **C102** If the page's filter has a category or a condition of the summary, then exactly the cells that stand for it are
highlighted.  (Partial: if it has a minimum duration, then one that is written without a fraction and is not
negative.) -/
theorem C102_highlight_partial {sha : String → List Char} (h : Hex sha) (f : Filter) (hids : f.ids = []) (hs : f.shownInSummary)
    (hw : ∀ d, f.minDuration = some d → Is64 d ∧ Whole d) (p : Place) (hp : p.fits)
    (hu : p.distinct sha f.category) : cellHighlighted sha f p = true ↔ p.Asked f := by
  unfold cellHighlighted
  simp only [(classes_ne_nil f hids).mpr hs, ne_eq, not_false_eq_true, if_true,
    parse_selector _ (highlight_idents h f fun d hd => (hw d hd).2) _ (Nat.le_refl _)]
  rw [← all_classes f hids (fun d hd => (hw d hd).1) p hp hu]
  simp [List.all_eq_true, List.contains_iff_mem]

/-- **C102** With no such condition the last row, which is that of all traces, is highlighted; on the page of a trace
nothing is. -/
theorem C102_overall (sha : String → List Char) (f : Filter) :
    (f.ids = [] → ¬ f.shownInSummary → ∀ p, cellHighlighted sha f p = true ↔ ∃ c col, p = .row c true col) ∧
    (f.ids ≠ [] → ∀ p, cellHighlighted sha f p = false) := by
  constructor
  · intro hids hs p
    have h0 : highlightClasses sha f = [] := by
      by_cases h : highlightClasses sha f = []
      · exact h
      · exact absurd ((classes_ne_nil f hids).mp h) hs
    unfold cellHighlighted
    simp only [h0, ne_eq, not_true_eq_false, if_false, hids, if_true]
    cases p with
    | header col => simp
    | row c l col => simp
  · intro hids p
    have h0 : highlightClasses sha f = [] := by
      unfold highlightClasses
      rw [if_pos (List.length_pos_iff.mpr hids)]
    unfold cellHighlighted
    simp only [h0, ne_eq, not_true_eq_false, if_false, hids]

/-- What the column of a cell is. -/
def Cell.column : Cell → Column
  | .name => .name
  | .active => .active
  | .bucket d => .bucket d
  | .errored => .errored

/-- **C102** Following the link of a cell in the row of a category leads to a page on which, of the cells in the columns of
counts, exactly that cell is highlighted; following that of its name, to one on which exactly its row is.  (Partial:
for the names of `C89_summary_partial`, and durations as above.) -/
theorem C102_clicked_partial {mulFrac : Nat → Nat → Nat → Nat} (hm : ExactMul mulFrac) {sha : String → List Char} (h : Hex sha)
    (req : SearchRequest) (hr : Shown req) (hq : SafeText req.filter.query) (hsrc : ∀ s ∈ req.filter.sources, SafeText s)
    (category : String) (hcat : SafeText category) (hne : category ≠ "" ∧ category ≠ "overall")
    (cell : Cell) (hc : ∀ d, cell = .bucket d → Is64 d ∧ Whole d) (p : Place) (hp : p.fits)
    (hu : p.distinct sha category) : cellHighlighted sha (requestOfURL mulFrac (followed (cellLink req category cell))).filter p = true ↔
      p.inRow category ∧ (cell = .name ∨ p.column = cell.column) := by
  have h89 := (C89_summary_partial hm req hr hq hsrc category hcat cell (fun d hd => (hc d hd).1)).1
  rw [h89]
  have e : rowFilter req category = { sources := req.filter.sources, query := req.filter.query, category := category } := by
    unfold rowFilter
    rw [if_neg hne.2]
  rw [e]
  cases cell with
  | name =>
    rw [C102_highlight_partial h _ rfl (.inl hne.1) (fun d hd => by cases hd) p hp hu]
    simp [Cell.narrow, Place.Asked, hne.1]
  | active =>
    rw [C102_highlight_partial h _ rfl (.inl hne.1) (fun d hd => by cases hd) p hp hu]
    simp [Cell.narrow, Place.Asked, hne.1, Cell.column]
  | bucket m =>
    rw [C102_highlight_partial h _ rfl (.inl hne.1) (fun d hd => by cases hd; exact hc _ rfl) p hp hu]
    simp [Cell.narrow, Place.Asked, hne.1, Cell.column]
  | errored =>
    rw [C102_highlight_partial h _ rfl (.inl hne.1) (fun d hd => by cases hd) p hp hu]
    simp [Cell.narrow, Place.Asked, hne.1, Cell.column]

/-- **C102** The default buckets are all written without a fraction. -/
theorem C102_default_buckets : ∀ d ∈ defaultBucketing, Is64 d ∧ Whole d := by
  unfold Is64 Whole
  decide +kernel

/-- **C102** is false of a minimum that is written with a fraction, such as 1.5s, whatever the minimum and the rest of the
filter: the selector is not well-formed, and nothing is highlighted. -/
theorem C102_fraction_violated {sha : String → List Char} (h : Hex sha) (f : Filter) (hids : f.ids = []) (d : Duration)
    (hd : f.minDuration = some d) (h0 : 0 ≤ d) (hdot : '.' ∈ durationString d) (p : Place) : cellHighlighted sha f p = false := by
  obtain ⟨a, fr, z, e, ha, hz, hfr⟩ := formatAbs_shape d.natAbs
  rw [← durationString_nonneg h0] at e
  have hno : ∀ x : List Char, (∀ c ∈ x, durChar c) → '.' ∉ x := fun x hx hm => (durChar_name (hx _ hm)).2.2 rfl
  rcases hfr with rfl | ⟨c, ds, rfl, hc, hds⟩
  · rw [e] at hdot
    simp only [List.append_nil, List.mem_append] at hdot
    exact absurd hdot (by simp [hno a ha, hno z hz])
  -- the part of the selector from the minimum on
  have hnh : ∀ c ∈ durationString d, c ≠ '-' := by
    rw [e]
    intro x hx
    simp only [List.mem_append, List.mem_cons] at hx
    rcases hx with (hx | rfl | rfl | hx) | hx
    · exact (durChar_name (ha x hx)).2.1
    · decide
    · rintro rfl; exact absurd hc (by decide)
    · rintro rfl; exact absurd (hds _ hx) (by decide)
    · exact (durChar_name (hz x hx)).2.1
  have hcss : cssValue (minClass d) = minClass d :=
    if_neg (by rw [show minClass d = ['m', 'i', 'n'] ++ '-' :: durationString d from rfl, hyphen_double _ _ (by decide) hnh]; decide)
  have hbad : ∀ rest n, parseSelector n ('.' :: (minClass d ++ rest)) = none := by
    intro rest n
    cases n with
    | zero => rfl
    | succ n =>
      have hst : startsIdent (minClass d ++ rest) = true := startsIdent_cons (c := 'm') (by decide) _
      have hsplit : minClass d ++ rest = (['m', 'i', 'n', '-'] ++ a) ++ '.' :: (c :: (ds ++ z ++ rest)) := by
        unfold minClass; rw [e]; simp
      have htd := takeWhile_stop nameChar (['m', 'i', 'n', '-'] ++ a) ('.' :: (c :: (ds ++ z ++ rest)))
        (by
          intro x hx
          rw [List.mem_append] at hx
          rcases hx with hx | hx
          · revert x; decide
          · exact (durChar_name (ha x hx)).1)
        (by intro x hx; cases hx; decide)
      rw [parseSelector, if_pos ⟨rfl, hst⟩, hsplit, htd.2]
      have hns : startsIdent (c :: (ds ++ z ++ rest)) = false := by
        have hcn : nameStart c = false := by
          unfold isDigit at hc
          rw [decide_eq_true_eq] at hc
          unfold nameStart
          simp only [Bool.or_eq_false_iff, Bool.and_eq_false_iff, decide_eq_false_iff_not, beq_eq_false_iff_ne]
          refine ⟨⟨⟨.inl (by omega), .inl (by omega)⟩, ?_⟩, by omega⟩
          rintro rfl; exact absurd hc (by decide)
        generalize ds ++ z ++ rest = r
        unfold startsIdent
        split
        · next heq => cases heq; exact absurd hc (by decide)
        · next heq => cases heq; exact hcn
        · rfl
      cases n with
      | zero => rfl
      | succ n => rw [parseSelector, if_neg (by rw [hns]; simp)]; rfl
  -- the classes before and after it
  obtain ⟨pre, post, hcl, hpre⟩ : ∃ pre post, highlightClasses sha f = pre ++ minClass d :: post ∧ ∀ w ∈ pre, Ident w := by
    unfold highlightClasses
    rw [if_neg (by rw [hids]; decide), hd]
    refine ⟨_, _, by rw [List.append_assoc _ [minClass d], List.singleton_append], ?_⟩
    intro w hw
    rw [List.mem_append] at hw
    rcases hw with hw | hw
    · split at hw
      · rw [List.mem_singleton] at hw; subst hw; exact ident_category h _
      · cases hw
    · split at hw
      · rw [List.mem_singleton] at hw; rw [hw]; exact ident_active
      · cases hw
  have hsel : selectorText (highlightClasses sha f) = selectorText pre ++ '.' :: (minClass d ++ selectorText post) := by
    rw [hcl]
    unfold selectorText
    rw [List.flatMap_append, List.flatMap_cons, hcss]
    rfl
  have hnone := parse_bad pre hpre ('.' :: (minClass d ++ selectorText post)) ⟨_, rfl⟩ (hbad _)
  have hnn : highlightClasses sha f ≠ [] := by rw [hcl]; simp
  unfold cellHighlighted
  simp only [hnn, ne_eq, not_false_eq_true, if_true]
  rw [hsel, hnone]

/-! ## Examples -/

/-- A hash, for the examples: the characters in unary. -/
def unary (s : String) : List Char := s.toList.flatMap fun c => 'a' :: List.replicate c.toNat '1'

example : '.' ∈ durationString 1500000000 ∧ ¬ Whole 1500000000 ∧ Whole 60000000000 := by unfold Whole; decide +kernel

example : Hex unary := by
  intro s c h
  unfold unary at h
  rw [List.mem_flatMap] at h
  obtain ⟨d, -, h⟩ := h
  rcases List.mem_cons.mp h with rfl | h
  · exact .inl (by decide)
  · rw [(List.mem_replicate.mp h).2]; exact .inr (by decide)

example : (Place.row "y" true .active).distinct unary "x" := fun h => absurd h (by decide +kernel)

example : cellHighlighted unary { category := "x", isActive := true } (.row "x" false .active) = true ∧
    cellHighlighted unary { category := "x", isActive := true } (.row "y" false .active) = false ∧
    cellHighlighted unary { isActive := true } (.header .active) = true ∧
    cellHighlighted unary { minDuration := some 1000000000 } (.row "y" false (.bucket 1000000000)) = true ∧
    cellHighlighted unary { minDuration := some 1500000000 } (.row "y" false (.bucket 1500000000)) = false := by decide +kernel

end Trc.Web
