import Verif.Web.JSONText
import Verif.Props.Clock

/-!
# Reading times (RFC 3339)

A reader of times in UTC, which counts the days of the years and months, and that it reads the times that are written.
-/

set_option linter.unusedVariables false
set_option linter.unusedSimpArgs false

namespace Trc.Web

/-! ## The reader -/

/-- The days of a month (from 1) of a year. -/
def monthLength (year month : Nat) : Nat :=
  if month = 2 then (if year % 400 = 0 ∨ (year % 4 = 0 ∧ year % 100 ≠ 0) then 29 else 28)
  else if month = 4 ∨ month = 6 ∨ month = 9 ∨ month = 11 then 30
  else 31

/-- The days before a month (from 0) of a year. -/
def daysOfMonths (year : Nat) : Nat → Nat
  | 0 => 0
  | m + 1 => daysOfMonths year m + monthLength year (m + 1)

/-- The days of the first years. -/
def daysOfYears : Nat → Nat
  | 0 => 0
  | y + 1 => daysOfYears y + daysOfMonths (y + 1) 12

/-- A fraction of a second, in nanoseconds, and the zone, which is `Z`. -/
def readFraction : List Char → Option Nat
  | ['Z'] => some 0
  | '.' :: r =>
    let f := r.takeWhile isDigit
    if f ≠ [] ∧ f.length ≤ 9 ∧ r.dropWhile isDigit = ['Z'] then some (number (f ++ List.replicate (9 - f.length) '0')) else none
  | _ => none

/-- A time: the nanoseconds since the beginning of year 1. -/
def readTime : List Char → Option Nat
  | y1 :: y2 :: y3 :: y4 :: '-' :: m1 :: m2 :: '-' :: d1 :: d2 :: 'T' :: h1 :: h2 :: ':' :: i1 :: i2 :: ':' :: s1 :: s2 :: r =>
    let y := number [y1, y2, y3, y4]
    let m := number [m1, m2]
    let d := number [d1, d2]
    let h := number [h1, h2]
    let i := number [i1, i2]
    let s := number [s1, s2]
    if 1 ≤ y ∧ 1 ≤ m ∧ m ≤ 12 ∧ 1 ≤ d ∧ d ≤ monthLength y m ∧ h < 24 ∧ i < 60 ∧ s < 60 then
      (readFraction r).map fun f =>
        ((((daysOfYears (y - 1) + daysOfMonths y (m - 1) + (d - 1)) * 24 + h) * 60 + i) * 60 + s) * 1000000000 + f
    else none
  | _ => none

/-! ## Years and months -/

theorem leap_iff (y : Nat) : leap y = true ↔ y % 400 = 0 ∨ (y % 4 = 0 ∧ y % 100 ≠ 0) := by
  simp only [leap, Bool.and_eq_true, beq_iff_eq, Bool.or_eq_true, bne_iff_ne]
  omega

theorem months_list (y : Nat) : monthDays y = (List.range 12).map fun m => monthLength y (m + 1) := by
  have h : (if leap y = true then 29 else 28) = monthLength y 2 := by
    unfold monthLength
    rw [if_pos rfl]
    by_cases hl : leap y = true
    · rw [if_pos hl, if_pos ((leap_iff y).mp hl)]
    · rw [if_neg hl, if_neg fun c => hl ((leap_iff y).mpr c)]
  unfold monthDays
  rw [h]
  rfl

theorem year_days (y : Nat) : daysOfMonths y 12 = if y % 400 = 0 ∨ (y % 4 = 0 ∧ y % 100 ≠ 0) then 366 else 365 := by
  have h : daysOfMonths y 12 = 31 + monthLength y 2 + 306 := by
    simp only [daysOfMonths]
    simp [monthLength]
  rw [h]
  unfold monthLength
  rw [if_pos rfl]
  split <;> rfl

theorem years_eq (y : Nat) : daysOfYears y = daysBefore y := by
  induction y with
  | zero => rfl
  | succ y ih =>
    rw [daysOfYears, ih, year_days]
    unfold daysBefore
    have e4 : (y + 1) / 4 = y / 4 + if (y + 1) % 4 = 0 then 1 else 0 := by split <;> omega
    have e100 : (y + 1) / 100 = y / 100 + if (y + 1) % 100 = 0 then 1 else 0 := by split <;> omega
    have e400 : (y + 1) / 400 = y / 400 + if (y + 1) % 400 = 0 then 1 else 0 := by split <;> omega
    have l1 : (y + 1) % 400 = 0 → (y + 1) % 100 = 0 := by omega
    have l2 : (y + 1) % 100 = 0 → (y + 1) % 4 = 0 := by omega
    have l3 : y / 100 ≤ y / 4 := by omega
    rw [e4, e100, e400]
    generalize y / 4 = a at *
    generalize y / 100 = b at *
    generalize y / 400 = c at *
    clear e4 e100 e400 ih
    by_cases h4 : (y + 1) % 400 = 0
    · rw [if_pos (.inl h4), if_pos (l2 (l1 h4)), if_pos (l1 h4), if_pos h4]; omega
    · by_cases h1 : (y + 1) % 100 = 0
      · rw [if_neg (by rintro (h | ⟨-, h⟩); exact h4 h; exact h h1), if_pos (l2 h1), if_pos h1, if_neg h4]; omega
      · by_cases h : (y + 1) % 4 = 0
        · rw [if_pos (.inr ⟨h, h1⟩), if_pos h, if_neg h1, if_neg h4]; omega
        · rw [if_neg (by rintro (h' | ⟨h', -⟩); exact h4 h'; exact h h'), if_neg h, if_neg h1, if_neg h4]; omega

theorem year_bounds (d : Nat) : daysBefore (yearOf d) ≤ d ∧ d < daysBefore (yearOf d + 1) := by
  unfold yearOf
  obtain ⟨e, he⟩ : ∃ e, d * 400 / 146097 = e := ⟨_, rfl⟩
  simp only [he]
  unfold daysBefore
  split
  · constructor <;> omega
  · split
    · constructor <;> omega
    · constructor <;> omega

theorem months_sum (y : Nat) (k : Nat) : daysOfMonths y k = ((List.range k).map fun m => monthLength y (m + 1)).sum := by
  induction k with
  | zero => rfl
  | succ k ih => rw [daysOfMonths, ih, List.range_succ]; simp

theorem split_month (ms : List Nat) : ∀ r, r < ms.sum → ∃ h : (splitMonth ms r).1 < ms.length,
    (splitMonth ms r).2 < ms[(splitMonth ms r).1] ∧ (ms.take (splitMonth ms r).1).sum + (splitMonth ms r).2 = r := by
  induction ms with
  | nil => intro r h; exact absurd h (by simp)
  | cons m ms ih =>
    intro r h
    rw [List.sum_cons] at h
    by_cases hr : r < m
    · refine ⟨by simp [splitMonth, hr], ?_, ?_⟩ <;> simp [splitMonth, hr]
    · obtain ⟨h1, h2, h3⟩ := ih (r - m) (by omega)
      refine ⟨by simp only [splitMonth, if_neg hr, List.length_cons]; omega, ?_, ?_⟩
      · simp only [splitMonth, if_neg hr, List.getElem_cons_succ]
        exact h2
      · simp only [splitMonth, if_neg hr, List.take_succ_cons, List.sum_cons]
        omega

/-- The month and the day of a day of a year. -/
theorem month_day (y r : Nat) (h : r < daysOfMonths y 12) : (splitMonth (monthDays y) r).1 < 12 ∧
    (splitMonth (monthDays y) r).2 < monthLength y ((splitMonth (monthDays y) r).1 + 1) ∧
    daysOfMonths y (splitMonth (monthDays y) r).1 + (splitMonth (monthDays y) r).2 = r := by
  obtain ⟨h1, h2, h3⟩ := split_month (monthDays y) r (by rw [months_list, ← months_sum]; exact h)
  have h12 : (splitMonth (monthDays y) r).1 < 12 := by
    have : (monthDays y).length = 12 := rfl
    omega
  obtain ⟨m, hm⟩ : ∃ m, splitMonth (monthDays y) r = m := ⟨_, rfl⟩
  simp only [hm] at h1 h2 h3 h12 ⊢
  refine ⟨h12, ?_, ?_⟩
  · simp only [months_list, List.getElem_map, List.getElem_range] at h2
    exact h2
  · rw [months_list, ← List.map_take, List.take_range, ← months_sum, show min m.1 12 = m.1 by omega] at h3
    exact h3

/-! ## Fractions -/

theorem digits_length (k n : Nat) : (digits k n).length = k := by
  induction k generalizing n with
  | zero => rfl
  | succ k ih => rw [digits, List.length_append, ih]; rfl

theorem digit_isDigit (n : Nat) : isDigit (digitChar (n % 10)) = true := by
  have : ∀ d : Fin 10, isDigit (digitChar d.val) = true := by decide
  exact this ⟨n % 10, Nat.mod_lt _ (by decide)⟩

theorem digits_digit (k n : Nat) : ∀ c ∈ digits k n, isDigit c = true := by
  induction k generalizing n with
  | zero => intro c hc; cases hc
  | succ k ih =>
    intro c hc
    rw [digits, List.mem_append, List.mem_singleton] at hc
    rcases hc with hc | rfl
    · exact ih _ c hc
    · exact digit_isDigit n

theorem number_concat (l : List Char) (c : Char) : number (l ++ [c]) = 10 * number l + (c.toNat - 48) := by
  unfold number
  rw [List.foldl_append]; rfl

theorem number_digits (k n : Nat) (h : n < 10 ^ k) : number (digits k n) = n := by
  induction k generalizing n with
  | zero => rw [Nat.pow_zero] at h; show 0 = n; omega
  | succ k ih =>
    rw [digits, number_concat, ih (n / 10) (by rw [Nat.pow_succ] at h; omega), digit_val]
    omega

theorem pad_zeros (l : List Char) : (l.reverse.dropWhile (· == '0')).reverse ++
    List.replicate (l.length - (l.reverse.dropWhile (· == '0')).reverse.length) '0' = l := by
  have key : ∀ r : List Char, r = List.replicate (r.length - (r.dropWhile (· == '0')).length) '0' ++ r.dropWhile (· == '0') := by
    intro r
    induction r with
    | nil => rfl
    | cons c r ih =>
      by_cases hc : (c == '0') = true
      · rw [List.dropWhile_cons_of_pos (p := (· == '0')) hc, List.length_cons]
        have hle := (List.dropWhile_suffix (l := r) (· == '0')).length_le
        rw [show r.length + 1 - (r.dropWhile (· == '0')).length = (r.length - (r.dropWhile (· == '0')).length) + 1 by omega,
          List.replicate_succ, List.cons_append, ← ih]
        rw [beq_iff_eq] at hc
        rw [hc]
      · rw [List.dropWhile_cons_of_neg (p := (· == '0')) hc]
        simp
  have := congrArg List.reverse (key l.reverse)
  rw [List.reverse_reverse, List.reverse_append, List.reverse_replicate, List.length_reverse] at this
  rw [List.length_reverse]
  exact this.symm

theorem fraction_digit (n : Nat) : ∀ c ∈ fraction n, isDigit c = true := by
  intro c hc
  unfold fraction at hc
  rw [List.mem_reverse] at hc
  exact digits_digit 9 n c (List.mem_reverse.mp ((List.dropWhile_suffix _).subset hc))

theorem read_fraction (n : Nat) (h : n < 1000000000) :
    readFraction ((if fraction n = [] then [] else '.' :: fraction n) ++ ['Z']) = some n := by
  have hp := pad_zeros (digits 9 n)
  have hn := number_digits 9 n h
  rw [digits_length] at hp
  have hp' : fraction n ++ List.replicate (9 - (fraction n).length) '0' = digits 9 n := hp
  have hl : (fraction n).length ≤ 9 := by
    have := congrArg List.length hp'
    rw [List.length_append, List.length_replicate, digits_length] at this
    omega
  by_cases hf : fraction n = []
  · rw [if_pos hf]
    rw [hf] at hp'
    have : number (digits 9 n) = 0 := by rw [← hp']; decide
    rw [List.nil_append, readFraction]
    congr 1
    omega
  · rw [if_neg hf, List.cons_append, readFraction]
    have hd := fraction_digit n
    have t1 : (fraction n ++ ['Z']).takeWhile isDigit = fraction n := by
      rw [List.takeWhile_append_of_pos hd]; simp [isDigit]
    have t2 : (fraction n ++ ['Z']).dropWhile isDigit = ['Z'] := by
      rw [List.dropWhile_append_of_pos hd]; rfl
    simp only [t1, t2]
    rw [if_pos ⟨hf, hl, trivial⟩, hp', hn]

/-! ## What is written is read -/

/-- The end of year 9999. -/
def endOfTime : Nat := 3652059 * (86400 * 1000000000)

theorem digits_four (n : Nat) : digits 4 n = [digitChar (n / 10 / 10 / 10 % 10), digitChar (n / 10 / 10 % 10), digitChar (n / 10 % 10),
    digitChar (n % 10)] := rfl

theorem number_four {n : Nat} (h : n < 10000) : number [digitChar (n / 10 / 10 / 10 % 10), digitChar (n / 10 / 10 % 10), digitChar (n / 10 % 10),
    digitChar (n % 10)] = n := by
  simp only [number, List.foldl_cons, List.foldl_nil, digit_val]
  omega

/-- A time up to the end of year 9999 is read as it was written. -/
theorem read_time (ns : Nat) (h : ns < endOfTime) : readTime (rfc3339 ns) = some ns := by
  obtain ⟨day, hday⟩ : ∃ d, ns / (86400 * 1000000000) = d := ⟨_, rfl⟩
  obtain ⟨r, hr⟩ : ∃ r, ns % (86400 * 1000000000) = r := ⟨_, rfl⟩
  have hd : day < 3652059 := by unfold endOfTime at h; omega
  obtain ⟨y1, y2⟩ := year_bounds day
  obtain ⟨y, hy⟩ : ∃ y, yearOf day = y := ⟨_, rfl⟩
  rw [hy] at y1 y2
  have hy9 : y < 9999 := by
    by_cases hc : y < 9999
    · exact hc
    · have : daysBefore 9999 ≤ daysBefore y := by unfold daysBefore; omega
      have : daysBefore 9999 = 3652059 := rfl
      omega
  have hyd : daysBefore (y + 1) = daysBefore y + daysOfMonths (y + 1) 12 := by rw [← years_eq, ← years_eq]; rfl
  obtain ⟨m1, m2, m3⟩ := month_day (y + 1) (day - daysBefore y) (by omega)
  have hml : ∀ m, monthLength (y + 1) m ≤ 31 := by intro m; unfold monthLength; (repeat' split) <;> omega
  unfold rfc3339
  simp only [hday, hr, hy]
  obtain ⟨md, hmd⟩ : ∃ md, splitMonth (monthDays (y + 1)) (day - daysBefore y) = md := ⟨_, rfl⟩
  simp only [hmd] at m1 m2 m3 ⊢
  have hm31 := hml (md.1 + 1)
  rw [digits_four, digits_two, digits_two, digits_two, digits_two, digits_two]
  simp only [List.cons_append, List.nil_append, readTime]
  rw [number_four (n := y + 1) (by omega), number_two (n := md.1 + 1) (by omega), number_two (n := md.2 + 1) (by omega),
    number_two (n := r / 1000000000 / 3600) (by omega), number_two (n := r / 1000000000 / 60 % 60) (by omega),
    number_two (n := r / 1000000000 % 60) (by omega)]
  rw [if_pos ⟨by omega, by omega, by omega, by omega, by omega, by omega, by omega, by omega⟩]
  rw [read_fraction _ (Nat.mod_lt _ (by decide)), Option.map_some]
  simp only [Nat.add_sub_cancel]
  rw [years_eq, Nat.add_assoc (daysBefore y), m3]
  congr 1
  omega

example : readTime (rfc3339 63835596800123456000) = some 63835596800123456000 := read_time _ (by decide)
example : rfc3339 63835596800123456000 = "2023-11-14T22:13:20.123456Z".toList := by decide +kernel

end Trc.Web
