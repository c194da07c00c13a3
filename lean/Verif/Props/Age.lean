import Verif.Web.Age
import Verif.Props.Numbers

/-!
# The age of a trace on the page is its age (C106)
-/

namespace Trc.Web.Age

open Trc.Util (readDigits readDigits_fmtInt fmtInt_split)

/-! ## Specification -/

/-- Milliseconds in a unit. -/
def unitMS : List Char → Option Int
  | ['d'] => some 86400000
  | ['h'] => some 3600000
  | ['m'] => some 60000
  | ['s'] => some 1000
  | ['m', 's'] => some 1
  | _ => none

/-- A number and its unit: how many milliseconds, in steps of how many, and what follows. -/
def readPart (s : List Char) : Option (Int × Int × List Char) :=
  let digits := s.takeWhile isDigit
  let rest := s.dropWhile isDigit
  if digits = [] then none
  else (unitMS (rest.takeWhile fun c => !isDigit c)).map fun u =>
    ((readDigits digits : Int) * u, u, rest.dropWhile fun c => !isDigit c)

/-- What a reader takes an age for: a number of milliseconds, and the unit to which it is given.  A second number is less than one of
the units of the first. -/
def readAge (s : List Char) : Option (Int × Int) :=
  if s = ['f', 'r', 'e', 's', 'h'] then some (0, 1)
  else match readPart s with
    | none => none
    | some (v, u, []) => some (v, u)
    | some (v, u, r) => match readPart r with
      | some (v', u', []) => if v' < u ∧ u' < u then some (v + v', u') else none
      | _ => none

/-- The age, in nanoseconds, by the clock of the browser. -/
def age (started now : Int) : Int := now * 1000000 - started

/-! ## Lemmas -/

theorem readPart_fmtInt (v : Nat) (unit r : List Char) (u : Int) (hu : unitMS unit = some u)
    (hunit : unit ≠ []) (hd : ∀ c ∈ unit, isDigit c = false) (hr : ∀ c, r.head? = some c → isDigit c = true) :
    readPart (fmtInt v ++ unit ++ r) = some ((v : Int) * u, u, r) := by
  have hhead : ∀ c, (unit ++ r).head? = some c → isDigit c = false := by
    intro c hc
    cases unit with
    | nil => exact absurd rfl hunit
    | cons a l => simp at hc; subst hc; exact hd a (by simp)
  obtain ⟨h1, h2⟩ := fmtInt_split v (unit ++ r) hhead
  have h3 : (unit ++ r).takeWhile (fun c => !isDigit c) = unit ∧ (unit ++ r).dropWhile (fun c => !isDigit c) = r := by
    clear hu hunit hhead h1 h2
    induction unit with
    | nil =>
      cases r with
      | nil => exact ⟨rfl, rfl⟩
      | cons c r => simp [hr c rfl]
    | cons a l ih =>
      obtain ⟨i1, i2⟩ := ih (fun c hc => hd c (by simp [hc]))
      simp [hd a (by simp), i1, i2]
  rw [List.append_assoc]
  unfold readPart
  simp only [h1, h2, h3, hu, readDigits_fmtInt]
  simp [fmtInt_ne_nil]

theorem fmtInt_head_digit (v : Nat) (r : List Char) (c : Char) (h : (fmtInt v ++ r).head? = some c) : isDigit c = true := by
  cases hf : fmtInt v with
  | nil => exact absurd hf (fmtInt_ne_nil v)
  | cons a l =>
    rw [hf] at h
    simp at h
    subst h
    exact fmtInt_digits v a (by rw [hf]; simp)

theorem ne_fresh (v : Nat) (r : List Char) : fmtInt v ++ r ≠ ['f', 'r', 'e', 's', 'h'] := by
  intro h
  have := fmtInt_head_digit v r 'f' (by rw [h]; rfl)
  revert this
  decide

theorem readAge_one (v : Nat) (unit : List Char) (u : Int) (hu : unitMS unit = some u)
    (hunit : unit ≠ []) (hd : ∀ c ∈ unit, isDigit c = false) :
    readAge (fmtInt v ++ unit) = some ((v : Int) * u, u) := by
  have := readPart_fmtInt v unit [] u hu hunit hd (by simp)
  rw [List.append_nil] at this
  unfold readAge
  rw [if_neg (ne_fresh v unit), this]

theorem readAge_two (v w : Nat) (unit unit' : List Char) (u u' : Int) (hu : unitMS unit = some u) (hu' : unitMS unit' = some u')
    (hunit : unit ≠ []) (hunit' : unit' ≠ []) (hd : ∀ c ∈ unit, isDigit c = false) (hd' : ∀ c ∈ unit', isDigit c = false)
    (h1 : (w : Int) * u' < u) (h2 : u' < u) :
    readAge (fmtInt v ++ unit ++ (fmtInt w ++ unit')) = some ((v : Int) * u + (w : Int) * u', u') := by
  have e1 := readPart_fmtInt v unit (fmtInt w ++ unit') u hu hunit hd (fmtInt_head_digit w unit')
  have e2 := readPart_fmtInt w unit' [] u' hu' hunit' hd' (by simp)
  rw [List.append_nil] at e2
  unfold readAge
  rw [if_neg (by rw [List.append_assoc]; exact ne_fresh v _), e1]
  cases hf : fmtInt w ++ unit' with
  | nil => simp [hunit'] at hf
  | cons a l =>
    simp only
    rw [← hf, e2]
    simp [h1, h2]

/-- The age in milliseconds, given to a unit, if it is not 0 or less. -/
theorem timeSince_reads (ts now : Int) (h : 0 < now - ts) :
    ∃ r u, readAge (timeSince ts now) = some (r, u) ∧ 0 < u ∧ r ≤ now - ts ∧ now - ts < r + u ∧ r % u = 0 ∧
      u = (if now - ts ≥ 86400000 then 3600000 else if now - ts ≥ 3600000 then 60000 else if now - ts ≥ 1000 then 1000 else 1) := by
  unfold timeSince
  generalize hms : now - ts = ms at h
  simp only
  by_cases hdays : ms / (86400 * 1000) > 0
  · rw [if_pos hdays, if_pos hdays]
    generalize hm' : ms - ms / (86400 * 1000) * (86400 * 1000) = m'
    refine ⟨_, _, by
      have := readAge_two (ms / (86400 * 1000)).toNat (m' / (3600 * 1000)).toNat ['d'] ['h'] _ _ rfl rfl (by simp) (by simp) (by decide)
        (by decide) ?_ ?_
      · simpa using this
      · omega
      · omega, ?_, ?_, ?_, ?_, ?_⟩
    · omega
    · omega
    · omega
    · omega
    · rw [if_pos (by omega)]
  · rw [if_neg hdays, if_neg hdays]
    by_cases hhours : ms / (3600 * 1000) > 0
    · rw [if_pos hhours, if_pos hhours]
      generalize hm' : ms - ms / (3600 * 1000) * (3600 * 1000) = m'
      refine ⟨_, _, by
        have := readAge_two (ms / (3600 * 1000)).toNat (m' / (60 * 1000)).toNat ['h'] ['m'] _ _ rfl rfl (by simp) (by simp) (by decide)
          (by decide) ?_ ?_
        · simpa using this
        · omega
        · omega, ?_, ?_, ?_, ?_, ?_⟩
      · omega
      · omega
      · omega
      · omega
      · rw [if_neg (by omega), if_pos (by omega)]
    · rw [if_neg hhours, if_neg hhours]
      by_cases hmin : ms / (60 * 1000) > 0
      · rw [if_pos hmin, if_pos hmin]
        generalize hm' : ms - ms / (60 * 1000) * (60 * 1000) = m'
        refine ⟨_, _, by
          have := readAge_two (ms / (60 * 1000)).toNat (m' / (1 * 1000)).toNat ['m'] ['s'] _ _ rfl rfl (by simp) (by simp) (by decide)
            (by decide) ?_ ?_
          · simpa using this
          · omega
          · omega, ?_, ?_, ?_, ?_, ?_⟩
        · omega
        · omega
        · omega
        · omega
        · rw [if_neg (by omega), if_neg (by omega), if_pos (by omega)]
      · rw [if_neg hmin, if_neg hmin]
        by_cases hsec : ms / (1 * 1000) > 0
        · rw [if_pos hsec]
          refine ⟨_, _, readAge_one _ ['s'] _ rfl (by simp) (by decide), ?_, ?_, ?_, ?_, ?_⟩
          · omega
          · omega
          · omega
          · omega
          · rw [if_neg (by omega), if_neg (by omega), if_pos (by omega)]
        · rw [if_neg hsec, if_neg hsec, if_pos h]
          refine ⟨_, _, readAge_one _ ['m', 's'] _ rfl (by simp) (by decide), ?_, ?_, ?_, ?_, ?_⟩
          · omega
          · omega
          · omega
          · omega
          · rw [if_neg (by omega), if_neg (by omega), if_neg (by omega)]

theorem timeSince_fresh (ts now : Int) (h : now - ts ≤ 0) : timeSince ts now = ['f', 'r', 'e', 's', 'h'] := by
  unfold timeSince
  simp only
  repeat rw [if_neg (by omega)]

/-! ## Theorems -/

/-- **C106** An age can be read, and the trace is as old as that, to the unit of its last number, or less by at most a second.
(Partial: by less than a second, not by nothing; see `C106_second_violated`.) -/
theorem C106_age_partial (started now : Int) (h : 0 ≤ age started now) :
    ∃ r u, readAge (shown started now) = some (r, u) ∧ age started now < (r + u) * 1000000 ∧
      r * 1000000 < age started now + 1000000000 := by
  unfold age at h ⊢
  unfold shown
  by_cases hp : 0 < now - parsedTitle started
  · obtain ⟨r, u, e, h1, h2, h3, -⟩ := timeSince_reads _ _ hp
    refine ⟨r, u, e, ?_, ?_⟩ <;> unfold parsedTitle at * <;> omega
  · rw [timeSince_fresh _ _ (by omega)]
    refine ⟨0, 1, rfl, ?_, ?_⟩ <;> unfold parsedTitle at * <;> omega

/-- **C106** is violated: a trace that started a millisecond ago is shown as a second old. -/
theorem C106_second_violated : ∃ started now r u, age started now = 1000000 ∧
    readAge (shown started now) = some (r, u) ∧ r = 1000 :=
  ⟨1700000000999000000, 1700000001000, 1000, 1000, by decide, by decide +kernel, rfl⟩

/-- **C106** An age is given in days and hours, hours and minutes, minutes and seconds, seconds or milliseconds, in
seconds below an hour, in minutes below a day, and in hours from then on. -/
theorem C106_precise (started now : Int) :
    ∃ r u, readAge (shown started now) = some (r, u) ∧
      (u = 1 ∧ r < 1000 ∨ u = 1000 ∧ r < 3600000 ∨ u = 60000 ∧ 3600000 ≤ r ∧ r < 86400000 ∨ u = 3600000 ∧ 86400000 ≤ r) := by
  unfold shown
  by_cases hp : 0 < now - parsedTitle started
  · obtain ⟨r, u, e, h1, h2, h3, h4, h5⟩ := timeSince_reads _ _ hp
    refine ⟨r, u, e, ?_⟩
    generalize now - parsedTitle started = ms at *
    split at h5
    · subst h5; omega
    · split at h5
      · subst h5; omega
      · split at h5 <;> (subst h5; omega)
  · rw [timeSince_fresh _ _ (by omega)]
    exact ⟨0, 1, rfl, .inl (by decide)⟩

/-- **C106** A trace that has, by the clock of the browser, yet to start is shown as fresh, if it does so a second or more from now, and
what is shown as fresh has not started before now. -/
theorem C106_fresh (started now : Int) :
    (age started now ≤ -1000000000 → shown started now = ['f', 'r', 'e', 's', 'h']) ∧
    (shown started now = ['f', 'r', 'e', 's', 'h'] → age started now ≤ 0) := by
  unfold age shown
  refine ⟨fun h => timeSince_fresh _ _ (by unfold parsedTitle; omega), fun h => ?_⟩
  by_cases hp : 0 < now - parsedTitle started
  · exfalso
    unfold timeSince at h
    simp only at h
    revert h
    repeat' split
    all_goals first
      | (intro h; exact ne_fresh _ _ h)
      | omega
  · unfold parsedTitle at hp; omega

/-- **C106** The age of a trace does not become less, and of two traces that of the one that started later is not more. -/
theorem C106_monotone (started started' now now' : Int) (h : started' ≤ started) (hn : now ≤ now') :
    ∃ r u r' u', readAge (shown started now) = some (r, u) ∧ readAge (shown started' now') = some (r', u') ∧ r ≤ r' := by
  have hpos : now - parsedTitle started ≤ now' - parsedTitle started' := by unfold parsedTitle; omega
  unfold shown
  by_cases hp : 0 < now - parsedTitle started
  · obtain ⟨r, u, e, h1, h2, h3, h4, h5⟩ := timeSince_reads _ _ hp
    obtain ⟨r', u', e', h1', h2', h3', h4', h5'⟩ := timeSince_reads _ _ (Int.lt_of_lt_of_le hp hpos)
    refine ⟨r, u, r', u', e, e', ?_⟩
    generalize now - parsedTitle started = a at *
    generalize now' - parsedTitle started' = b at *
    split at h5 <;> split at h5' <;> (try split at h5) <;> (try split at h5') <;> (try split at h5) <;> (try split at h5') <;>
      (subst h5 h5'; omega)
  · rw [timeSince_fresh _ now (by omega)]
    by_cases hp' : 0 < now' - parsedTitle started'
    · obtain ⟨r', u', e', h1', h2', h3', h4', h5'⟩ := timeSince_reads _ _ hp'
      refine ⟨0, 1, r', u', rfl, e', ?_⟩
      generalize now' - parsedTitle started' = b at *
      split at h5' <;> (try split at h5') <;> (try split at h5') <;> (subst h5'; omega)
    · rw [timeSince_fresh _ now' (by omega)]
      exact ⟨0, 1, 0, 1, rfl, rfl, by omega⟩

/-! ## Cases -/

example : shown 0 500 = "500ms".toList := by decide +kernel
example : shown 0 61000 = "1m1s".toList := by decide +kernel
example : shown 0 7205000 = "2h0m".toList := by decide +kernel
example : shown 0 200000000 = "2d7h".toList := by decide +kernel
example : readAge "2d7h".toList = some (198000000, 3600000) := by decide +kernel
example : readAge "1m1s".toList = some (61000, 1000) := by decide +kernel
example : readAge "1m61s".toList = none := by decide +kernel
example : 0 ≤ age 1700000000999000000 1700000001000 := by decide

end Trc.Web.Age
