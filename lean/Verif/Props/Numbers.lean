import Verif.Util.Numbers
import Verif.Web.DurationLemmas

/-!
# C101: rates and sizes can be read
-/

namespace Trc.Util

open Trc.Web (fmtInt digitChar isDigit digitVal)

/-! ## Reading a number -/

/-- The number that digits stand for. -/
def readDigits (s : List Char) : Nat := s.foldl (fun a c => 10 * a + digitVal c) 0

/-- The number that a word of digits, perhaps with a point and further digits, stands for, and what follows it. -/
def readDecimal (s : List Char) : Rat × List Char :=
  let whole := s.takeWhile isDigit
  match s.dropWhile isDigit with
  | '.' :: r =>
    let frac := r.takeWhile isDigit
    ((readDigits whole : Rat) + (readDigits frac : Rat) / (10 : Rat) ^ frac.length, r.dropWhile isDigit)
  | r => ((readDigits whole : Rat), r)

/-- What a reader takes a text for: K is a thousand, M a million, KB 1024 bytes, MB 1048576 bytes. -/
def reads (s : List Char) : Option Rat :=
  let (x, unit) := readDecimal s
  if unit = [] then some x
  else if unit = ['K'] then some (x * 1000)
  else if unit = ['M', '+'] then some (x * 1000000)
  else if unit = ['B'] then some x
  else if unit = ['K', 'B'] then some (x * 1024)
  else if unit = ['M', 'B'] then some (x * 1048576)
  else none

/-- What is assumed of the quotient of floating point numbers: it grows with the dividend, and its relative
error is at most 2⁻⁵². -/
structure Divides (div : Rat → Rat → Rat) : Prop where
  mono : ∀ x y, 0 ≤ x → x ≤ y → div x 1000 ≤ div y 1000
  close : ∀ x, 0 ≤ x → x / 1000 - x / 1000 / 4503599627370496 ≤ div x 1000 ∧ div x 1000 ≤ x / 1000 + x / 1000 / 4503599627370496

/-! ## Rounding -/

theorem round_close (x : Rat) : (roundEven x : Rat) - 1 / 2 ≤ x ∧ x ≤ roundEven x + 1 / 2 := by
  have h1 := Rat.floor_le x
  have h2 : x - 1 < x.floor := Rat.lt_floor
  unfold roundEven
  simp only
  split
  · constructor <;> grind
  · split
    · have : ((x.floor + 1 : Int) : Rat) = x.floor + 1 := by push_cast; rfl
      rw [this]; constructor <;> grind
    · split
      · constructor <;> grind
      · have : ((x.floor + 1 : Int) : Rat) = x.floor + 1 := by push_cast; rfl
        rw [this]; constructor <;> grind

theorem round_unique {x : Rat} {n : Int} (h1 : (n : Rat) - 1 / 2 < x) (h2 : x < n + 1 / 2) : roundEven x = n := by
  obtain ⟨h3, h4⟩ := round_close x
  have a : roundEven x < n + 1 := by
    have : (roundEven x : Rat) < (n : Rat) + 1 := by grind
    exact_mod_cast this
  have b : n < roundEven x + 1 := by
    have : (n : Rat) < (roundEven x : Rat) + 1 := by grind
    exact_mod_cast this
  omega

theorem round_le {x : Rat} {n : Int} (h : x ≤ n) : roundEven x ≤ n := by
  obtain ⟨h3, h4⟩ := round_close x
  have : (roundEven x : Rat) < (n : Rat) + 1 := by grind
  have : roundEven x < n + 1 := by exact_mod_cast this
  omega

theorem le_round {x : Rat} {n : Int} (h : (n : Rat) ≤ x) : n ≤ roundEven x := by
  obtain ⟨h3, h4⟩ := round_close x
  have : (n : Rat) < (roundEven x : Rat) + 1 := by grind
  have : n < roundEven x + 1 := by exact_mod_cast this
  omega

theorem round_mono {x y : Rat} (h : x ≤ y) : roundEven x ≤ roundEven y := by
  have hf := Rat.floor_monotone h
  rcases Int.lt_or_eq_of_le hf with hl | he
  · -- an integer is between them
    have h1 : roundEven x ≤ y.floor := by
      apply round_le
      have := Rat.lt_floor_add_one x
      have h2 : ((x.floor + 1 : Int) : Rat) ≤ (y.floor : Rat) := by exact_mod_cast hl
      grind
    have h2 : y.floor ≤ roundEven y := le_round (Rat.floor_le y)
    omega
  · unfold roundEven
    simp only [he]
    by_cases a1 : x - y.floor < 1 / 2
    · rw [if_pos a1]; split <;> (try split) <;> (try split) <;> omega
    · rw [if_neg a1]
      have b1 : ¬ y - y.floor < 1 / 2 := by grind
      rw [if_neg b1]
      by_cases a2 : 1 / 2 < x - y.floor
      · have b2 : 1 / 2 < y - y.floor := by grind
        rw [if_pos a2, if_pos b2]; omega
      · rw [if_neg a2]
        split <;> split <;> omega

/-! ## Texts -/

theorem digit_digitChar (n : Nat) (h : n < 10) : isDigit (digitChar n) = true ∧ digitVal (digitChar n) = n := by
  have : n = 0 ∨ n = 1 ∨ n = 2 ∨ n = 3 ∨ n = 4 ∨ n = 5 ∨ n = 6 ∨ n = 7 ∨ n = 8 ∨ n = 9 := by omega
  rcases this with h | h | h | h | h | h | h | h | h | h <;> subst h <;> decide

theorem readDigits_fmtInt (v : Nat) : readDigits (fmtInt v) = v := by
  induction v using Nat.strongRecOn with
  | ind v ih =>
    rw [fmtInt]
    by_cases h : v < 10
    · rw [if_pos h]; simp [readDigits, (digit_digitChar v h).2]
    · rw [if_neg h]
      have := ih (v / 10) (by omega)
      unfold readDigits at this ⊢
      rw [List.foldl_append, this]
      simp only [List.foldl_cons, List.foldl_nil, (digit_digitChar (v % 10) (by omega)).2]
      omega

theorem fmtInt_split (v : Nat) (r : List Char) (hr : ∀ c, r.head? = some c → isDigit c = false) :
    (fmtInt v ++ r).takeWhile isDigit = fmtInt v ∧ (fmtInt v ++ r).dropWhile isDigit = r := by
  have h : ∀ c ∈ fmtInt v, isDigit c = true := Trc.Web.fmtInt_digits v
  generalize fmtInt v = l at h
  induction l with
  | nil =>
    cases r with
    | nil => exact ⟨rfl, rfl⟩
    | cons c r => simp [hr c rfl]
  | cons c l ih =>
    obtain ⟨h1, h2⟩ := ih (fun d hd => h d (by simp [hd]))
    simp [h c (by simp), h1, h2]

theorem readDecimal_int (v : Nat) (r : List Char) (hr : ∀ c, r.head? = some c → isDigit c = false ∧ c ≠ '.') :
    readDecimal (fmtInt v ++ r) = ((v : Rat), r) := by
  obtain ⟨h1, h2⟩ := fmtInt_split v r fun c h => (hr c h).1
  unfold readDecimal
  simp only [h1, h2, readDigits_fmtInt]
  split
  · next r' => exact absurd rfl (hr '.' rfl).2
  · rfl

theorem readDecimal_tenths (n : Nat) (r : List Char) (hr : ∀ c, r.head? = some c → isDigit c = false) :
    readDecimal (tenths n ++ r) = ((n : Rat) / 10, r) := by
  have hd := digit_digitChar (n % 10) (by omega)
  have e : tenths n ++ r = fmtInt (n / 10) ++ '.' :: digitChar (n % 10) :: r := by simp [tenths]
  obtain ⟨h1, h2⟩ := fmtInt_split (n / 10) ('.' :: digitChar (n % 10) :: r) (by simp; decide)
  have h3 : (digitChar (n % 10) :: r).takeWhile isDigit = [digitChar (n % 10)] ∧ (digitChar (n % 10) :: r).dropWhile isDigit = r := by
    cases r with
    | nil => simp [hd.1]
    | cons c r => simp [hd.1, hr c rfl]
  rw [e]
  unfold readDecimal
  simp only [h1, h2, h3.1, h3.2, readDigits_fmtInt]
  have : readDigits [digitChar (n % 10)] = n % 10 := by simp [readDigits, hd.2]
  rw [this]
  have hn : ((n / 10 : Nat) : Rat) * 10 + ((n % 10 : Nat) : Rat) = (n : Rat) := by
    have : n / 10 * 10 + n % 10 = n := by omega
    exact_mod_cast this
  simp only [List.length_singleton, Prod.mk.injEq, and_true]
  grind

/-- The texts that occur, and what they are read as. -/
theorem reads_int (v : Nat) :
    reads (fmtInt v) = some (v : Rat) ∧ reads (fmtInt v ++ ['K']) = some (v * 1000 : Rat) ∧
    reads (fmtInt v ++ ['K', 'B']) = some (v * 1024 : Rat) ∧ reads (fmtInt v ++ ['M', 'B']) = some (v * 1048576 : Rat) := by
  have h0 := readDecimal_int v [] (by simp)
  rw [List.append_nil] at h0
  have h1 := readDecimal_int v ['K'] (by simp; decide)
  have h2 := readDecimal_int v ['K', 'B'] (by simp; decide)
  have h3 := readDecimal_int v ['M', 'B'] (by simp; decide)
  unfold reads
  rw [h0, h1, h2, h3]
  simp

theorem reads_tenths (n : Nat) :
    reads (tenths n) = some ((n : Rat) / 10) ∧ reads (tenths n ++ ['K']) = some ((n : Rat) / 10 * 1000) ∧
    reads (tenths n ++ ['B']) = some ((n : Rat) / 10) ∧
    reads (tenths n ++ ['K', 'B']) = some ((n : Rat) / 10 * 1024) ∧ reads (tenths n ++ ['M', 'B']) = some ((n : Rat) / 10 * 1048576) := by
  have h0 := readDecimal_tenths n [] (by simp)
  rw [List.append_nil] at h0
  have h1 := readDecimal_tenths n ['K'] (by simp; decide)
  have h2 := readDecimal_tenths n ['K', 'B'] (by simp; decide)
  have h3 := readDecimal_tenths n ['M', 'B'] (by simp; decide)
  have h4 := readDecimal_tenths n ['B'] (by simp; decide)
  unfold reads
  rw [h0, h1, h2, h3, h4]
  simp

theorem round_nonneg {x : Rat} (h : 0 ≤ x) : ((roundEven x).toNat : Rat) = (roundEven x : Rat) := by
  have : 0 ≤ roundEven x := le_round (n := 0) (by simpa using h)
  have : ((roundEven x).toNat : Int) = roundEven x := Int.toNat_of_nonneg this
  exact_mod_cast this

/-! ## What rates are read as -/

/-- The value that `HumanizeFloat` shows. -/
def shown (div : Rat → Rat → Rat) (f : Rat) : Rat :=
  if f > 1000000 then 1000000
  else if f > 10000 then roundEven (div f 1000) * 1000
  else if f > 1000 then (roundEven (10 * div f 1000) : Rat) / 10 * 1000
  else if f ≥ 1 then roundEven f
  else (roundEven (10 * f) : Rat) / 10

theorem tenths_zero {n : Nat} (h : tenths n = ['0', '.', '0']) : n = 0 := by
  have h1 := (reads_tenths n).1
  rw [h, show reads ['0', '.', '0'] = some 0 by decide +kernel] at h1
  have h2 := Option.some.inj h1
  have : (n : Rat) = 0 := by grind
  exact_mod_cast this

theorem div_nonneg {div : Rat → Rat → Rat} (hd : Divides div) {f : Rat} (h : 0 ≤ f) : 0 ≤ div f 1000 := by
  have := (hd.close f h).1
  grind

/-- Texts with a unit are not "0.0". -/
theorem not_zero_of_K (s : List Char) : s ++ ['K'] ≠ ['0', '.', '0'] := by
  intro h
  have := congrArg List.getLast? h
  simp at this

theorem reads_shown {div : Rat → Rat → Rat} (hd : Divides div) (f : Rat) (h : 0 ≤ f) :
    reads (humanizeFloat div f) = some (shown div f) := by
  have hn := div_nonneg hd h
  have hn' : ¬ div f 1000 < 0 := by grind
  unfold humanizeFloat humanizeFloat' shown fixed0 fixed1
  simp only [hn', if_false]
  by_cases h1 : f > 1000000
  · simp only [h1, if_true]
    decide +kernel
  simp only [h1, if_false]
  by_cases h2 : f > 10000
  · simp only [h2, if_true, not_zero_of_K, if_false]
    rw [(reads_int _).2.1, round_nonneg hn]
  simp only [h2, if_false]
  by_cases h3 : f > 1000
  · simp only [h3, if_true, not_zero_of_K, if_false]
    rw [(reads_tenths _).2.1, round_nonneg (by grind)]
  simp only [h3, if_false]
  by_cases h4 : f ≥ 1
  · have h5 : ¬ f < 0 := by grind
    have h6 : fmtInt (roundEven f).toNat ≠ ['0', '.', '0'] := by
      intro e
      have := Trc.Web.fmtInt_digits (roundEven f).toNat '.' (by rw [e]; simp)
      exact absurd this (by decide)
    simp only [h4, if_true, h5, if_false, h6]
    rw [(reads_int _).1, round_nonneg h]
  simp only [h4, if_false]
  by_cases h5 : f = 0
  · subst h5
    decide +kernel
  have h6 : ¬ f < 0 := by grind
  simp only [h5, h6, if_false]
  split
  · next e =>
    have e0 := tenths_zero e
    have : 0 ≤ roundEven (10 * f) := le_round (n := 0) (by simp; grind)
    have : roundEven (10 * f) = 0 := by omega
    rw [this]
    decide +kernel
  · rw [(reads_tenths _).1, round_nonneg (by grind)]

/-- How far the text may be from the number: half of what the last digit stands for, and a little for the division. -/
def tolerance (f : Rat) : Rat :=
  if f < 1 then 1 / 20 else if f ≤ 1000 then 1 / 2 else if f ≤ 10000 then 50 + 1 / 1000 else 500 + 1 / 1000

/-- **C101** A rate up to a million is shown to the nearest of what the text can say. -/
theorem C101_rate_close {div : Rat → Rat → Rat} (hd : Divides div) (f : Rat) (h : 0 ≤ f) (hm : f ≤ 1000000) :
    ∃ v, reads (humanizeFloat div f) = some v ∧ v - tolerance f ≤ f ∧ f ≤ v + tolerance f := by
  refine ⟨_, reads_shown hd f h, ?_⟩
  have hc := hd.close f h
  unfold shown tolerance
  have h1 : ¬ f > 1000000 := by grind
  simp only [h1, if_false]
  by_cases h2 : f > 10000
  · have a1 : ¬ f < 1 := by grind
    have a2 : ¬ f ≤ 1000 := by grind
    have a3 : ¬ f ≤ 10000 := by grind
    simp only [h2, a1, a2, a3, if_true, if_false]
    have := round_close (div f 1000)
    constructor <;> grind
  simp only [h2, if_false]
  have a3 : f ≤ 10000 := by grind
  by_cases h3 : f > 1000
  · have a1 : ¬ f < 1 := by grind
    have a2 : ¬ f ≤ 1000 := by grind
    simp only [h3, a1, a2, a3, if_true, if_false]
    have := round_close (10 * div f 1000)
    constructor <;> grind
  simp only [h3, if_false]
  have a2 : f ≤ 1000 := by grind
  by_cases h4 : f ≥ 1
  · have a1 : ¬ f < 1 := by grind
    simp only [h4, a1, a2, if_true, if_false]
    have := round_close f
    constructor <;> grind
  · have a1 : f < 1 := by grind
    simp only [h4, a1, if_true, if_false]
    have := round_close (10 * f)
    constructor <;> grind

/-- What is shown stays within the limits that choose the format. -/
theorem shown_bounds {div : Rat → Rat → Rat} (hd : Divides div) {f : Rat} (h : 0 ≤ f) :
    (f < 1 → 0 ≤ shown div f ∧ shown div f ≤ 1) ∧ (1 ≤ f → f ≤ 1000 → 1 ≤ shown div f ∧ shown div f ≤ 1000) ∧
    (1000 < f → f ≤ 10000 → 1000 ≤ shown div f ∧ shown div f ≤ 10000) ∧
    (10000 < f → f ≤ 1000000 → 10000 ≤ shown div f ∧ shown div f ≤ 1000000) ∧
    (1000000 < f → shown div f = 1000000) := by
  have hc := hd.close f h
  have up : ∀ (x : Rat) (n : Int), x < n + 1 / 2 → (roundEven x : Rat) ≤ n := fun x n hx => by
    have := (round_close x).1
    have : (roundEven x : Rat) < (n : Rat) + 1 := by grind
    have : roundEven x < n + 1 := by exact_mod_cast this
    have : roundEven x ≤ n := by omega
    exact_mod_cast this
  have lo : ∀ (x : Rat) (n : Int), n - 1 / 2 < x → (n : Rat) ≤ roundEven x := fun x n hx => by
    have := (round_close x).2
    have : (n : Rat) < (roundEven x : Rat) + 1 := by grind
    have : n < roundEven x + 1 := by exact_mod_cast this
    have : n ≤ roundEven x := by omega
    exact_mod_cast this
  unfold shown
  refine ⟨fun h1 => ?_, fun h1 h2 => ?_, fun h1 h2 => ?_, fun h1 h2 => ?_, fun h1 => ?_⟩
  · have a1 : ¬ f > 1000000 := by grind
    have a2 : ¬ f > 10000 := by grind
    have a3 : ¬ f > 1000 := by grind
    have a4 : ¬ f ≥ 1 := by grind
    simp only [a1, a2, a3, a4, if_false]
    have b1 := lo (10 * f) 0 (by simp; grind)
    have b2 := up (10 * f) 10 (by grind)
    have c1 : ((0 : Int) : Rat) = 0 := rfl
    have c2 : ((10 : Int) : Rat) = 10 := rfl
    rw [c1] at b1; rw [c2] at b2
    constructor <;> grind
  · have a1 : ¬ f > 1000000 := by grind
    have a2 : ¬ f > 10000 := by grind
    have a3 : ¬ f > 1000 := by grind
    have a4 : f ≥ 1 := by grind
    simp only [a1, a2, a3, a4, if_false, if_true]
    have b1 := lo f 1 (by grind)
    have b2 := up f 1000 (by grind)
    have c1 : ((1 : Int) : Rat) = 1 := rfl
    have c2 : ((1000 : Int) : Rat) = 1000 := rfl
    rw [c1] at b1; rw [c2] at b2
    exact ⟨b1, b2⟩
  · have a1 : ¬ f > 1000000 := by grind
    have a2 : ¬ f > 10000 := by grind
    have a3 : f > 1000 := by grind
    simp only [a1, a2, a3, if_false, if_true]
    have b1 := lo (10 * div f 1000) 10 (by grind)
    have b2 := up (10 * div f 1000) 100 (by grind)
    have c1 : ((10 : Int) : Rat) = 10 := rfl
    have c2 : ((100 : Int) : Rat) = 100 := rfl
    rw [c1] at b1; rw [c2] at b2
    constructor <;> grind
  · have a1 : ¬ f > 1000000 := by grind
    have a2 : f > 10000 := by grind
    simp only [a1, a2, if_false, if_true]
    have b1 := lo (div f 1000) 10 (by grind)
    have b2 := up (div f 1000) 1000 (by grind)
    have c1 : ((10 : Int) : Rat) = 10 := rfl
    have c2 : ((1000 : Int) : Rat) = 1000 := rfl
    rw [c1] at b1; rw [c2] at b2
    constructor <;> grind
  · have a1 : f > 1000000 := by grind
    simp only [a1, if_true]

theorem shown_mono {div : Rat → Rat → Rat} (hd : Divides div) {f g : Rat} (h : 0 ≤ f) (hfg : f ≤ g) : shown div f ≤ shown div g := by
  obtain ⟨f1, f2, f3, f4, f5⟩ := shown_bounds hd h
  obtain ⟨g1, g2, g3, g4, g5⟩ := shown_bounds hd (f := g) (by grind)
  have hdm := hd.mono f g h hfg
  have rm : ∀ {x y : Rat}, x ≤ y → (roundEven x : Rat) ≤ roundEven y := fun h => by exact_mod_cast round_mono h
  by_cases a1 : g < 1
  · have : f < 1 := by grind
    have e1 : shown div f = (roundEven (10 * f) : Rat) / 10 := by
      unfold shown
      rw [if_neg (by grind), if_neg (by grind), if_neg (by grind), if_neg (by grind)]
    have e2 : shown div g = (roundEven (10 * g) : Rat) / 10 := by
      unfold shown
      rw [if_neg (by grind), if_neg (by grind), if_neg (by grind), if_neg (by grind)]
    have := rm (x := 10 * f) (y := 10 * g) (by grind)
    rw [e1, e2]; grind
  by_cases a2 : g ≤ 1000
  · by_cases b : f < 1
    · grind
    · have e1 : shown div f = roundEven f := by
        unfold shown
        rw [if_neg (by grind), if_neg (by grind), if_neg (by grind), if_pos (by grind)]
      have e2 : shown div g = roundEven g := by
        unfold shown
        rw [if_neg (by grind), if_neg (by grind), if_neg (by grind), if_pos (by grind)]
      rw [e1, e2]; exact rm hfg
  by_cases a3 : g ≤ 10000
  · by_cases b : f ≤ 1000
    · grind
    · have e1 : shown div f = (roundEven (10 * div f 1000) : Rat) / 10 * 1000 := by
        unfold shown
        rw [if_neg (by grind), if_neg (by grind), if_pos (by grind)]
      have e2 : shown div g = (roundEven (10 * div g 1000) : Rat) / 10 * 1000 := by
        unfold shown
        rw [if_neg (by grind), if_neg (by grind), if_pos (by grind)]
      have := rm (x := 10 * div f 1000) (y := 10 * div g 1000) (by grind)
      rw [e1, e2]; grind
  by_cases a4 : g ≤ 1000000
  · by_cases b : f ≤ 10000
    · grind
    · have e1 : shown div f = (roundEven (div f 1000) : Rat) * 1000 := by
        unfold shown
        rw [if_neg (by grind), if_pos (by grind)]
      have e2 : shown div g = (roundEven (div g 1000) : Rat) * 1000 := by
        unfold shown
        rw [if_neg (by grind), if_pos (by grind)]
      have := rm hdm
      rw [e1, e2]; grind
  · grind

/-- **C101** A higher rate is never shown as a lower one. -/
theorem C101_rate_monotone {div : Rat → Rat → Rat} (hd : Divides div) (f g : Rat) (h : 0 ≤ f) (hfg : f ≤ g) :
    ∃ v w, reads (humanizeFloat div f) = some v ∧ reads (humanizeFloat div g) = some w ∧ v ≤ w :=
  ⟨_, _, reads_shown hd f h, reads_shown hd g (by grind), shown_mono hd h hfg⟩

/-- **C101** Rates above a million are shown as such, and no others are. -/
theorem C101_million {div : Rat → Rat → Rat} (hd : Divides div) (f : Rat) (h : 0 ≤ f) :
    humanizeFloat div f = ['1', 'M', '+'] ↔ 1000000 < f := by
  constructor
  · intro e
    by_cases hf : 1000000 < f
    · exact hf
    · exfalso
      have hn : ¬ div f 1000 < 0 := by have := div_nonneg hd h; grind
      have hl : ∀ (s : List Char) (c : Char), (s ++ [c]) = ['1', 'M', '+'] → c = '+' := by
        intro s c e
        have := congrArg List.getLast? e
        simpa using this
      have ht : ∀ v, '+' ∈ fmtInt v → False := fun v hv => absurd (Trc.Web.fmtInt_digits v '+' hv) (by decide)
      have hm : ∀ n, '+' ∈ tenths n → False := by
        intro n hv
        simp only [tenths, List.mem_append, List.mem_cons, List.not_mem_nil, or_false] at hv
        rcases hv with hv | hv | hv
        · exact ht _ hv
        · exact absurd hv (by decide)
        · have := (digit_digitChar (n % 10) (by omega)).1
          rw [← hv] at this
          exact absurd this (by decide)
      have hmem : '+' ∈ humanizeFloat div f := by rw [e]; simp
      have hmem' : '+' ∈ humanizeFloat' div f := by
        unfold humanizeFloat at hmem
        simp only at hmem
        split at hmem
        · simp at hmem
        · exact hmem
      unfold humanizeFloat' fixed0 fixed1 at hmem'
      have hf0 : ¬ f < 0 := by grind
      simp only [hn, hf0, if_false, show ¬ f > 1000000 from hf] at hmem'
      split at hmem'
      · rw [List.mem_append] at hmem'
        rcases hmem' with h | h
        · exact ht _ h
        · simp at h
      · split at hmem'
        · rw [List.mem_append] at hmem'
          rcases hmem' with h | h
          · exact hm _ h
          · simp at h
        · split at hmem'
          · exact ht _ hmem'
          · split at hmem'
            · simp at hmem'
            · exact hm _ hmem'
  · intro hf
    unfold humanizeFloat humanizeFloat'
    simp only [show f > 1000000 from hf, if_true]
    decide

/-- **C101** A rate is shown as zero if and only if it is at most 0.05. -/
theorem C101_zero {div : Rat → Rat → Rat} (hd : Divides div) (f : Rat) (h : 0 ≤ f) :
    humanizeFloat div f = ['0'] ↔ f ≤ 1 / 20 := by
  have hr : ∀ f : Rat, 0 ≤ f → f ≤ 1 / 20 → roundEven (10 * f) = 0 := by
    intro f h hf
    by_cases he : f = 1 / 20
    · subst he; decide +kernel
    · have e0 : ((0 : Int) : Rat) = 0 := rfl
      exact round_unique (by rw [e0]; grind) (by rw [e0]; grind)
  constructor
  · intro e
    have h1 := reads_shown hd f h
    rw [e, show reads ['0'] = some 0 by decide +kernel] at h1
    have h1 := (Option.some.inj h1).symm
    by_cases hm : f < 1
    · have h2 := shown_bounds hd h
      have e1 : shown div f = (roundEven (10 * f) : Rat) / 10 := by
        unfold shown
        rw [if_neg (by grind), if_neg (by grind), if_neg (by grind), if_neg (by grind)]
      have := (round_close (10 * f)).2
      grind
    · have := shown_bounds hd h
      grind
  · intro hf
    unfold humanizeFloat humanizeFloat' fixed1
    have a1 : ¬ f > 1000000 := by grind
    have a2 : ¬ f > 10000 := by grind
    have a3 : ¬ f > 1000 := by grind
    have a4 : ¬ f ≥ 1 := by grind
    have a5 : ¬ f < 0 := by grind
    simp only [a1, a2, a3, a4, a5, if_false, hr f h hf]
    by_cases hz : f = 0
    · simp [hz]
    · have : tenths (0 : Int).toNat = ['0', '.', '0'] := by decide +kernel
      simp only [hz, if_false, this, if_true]

/-! ## How long the texts are -/

theorem fmtInt_length (k v : Nat) (h : v < 10 ^ (k + 1)) : (fmtInt v).length ≤ k + 1 := by
  induction k generalizing v with
  | zero => rw [fmtInt, if_pos (by simpa using h)]; simp
  | succ k ih =>
    rw [fmtInt]
    split
    · simp
    · have := ih (v / 10) (by rw [Nat.pow_succ] at h; omega)
      simp only [List.length_append, List.length_singleton]
      omega

/-- **C101** The text has at most four characters.  (Partial: not for rates that round up to "10.0K" or "1000K",
`C101_width_violated`.) -/
theorem C101_width_partial {div : Rat → Rat → Rat} (hd : Divides div) (f : Rat) (h : 0 ≤ f)
    (hw : f ≤ 9949 ∨ 10000 < f ∧ f ≤ 999499 ∨ 1000000 < f) : (humanizeFloat div f).length ≤ 4 := by
  have hc := hd.close f h
  have hn : ¬ div f 1000 < 0 := by have := div_nonneg hd h; grind
  have hf0 : ¬ f < 0 := by grind
  have up : ∀ (x : Rat) (n : Nat), x < n + 1 / 2 → (roundEven x).toNat ≤ n := fun x n hx => by
    have := (round_close x).1
    have : (roundEven x : Rat) < ((n : Int) : Rat) + 1 := by have e : ((n : Int) : Rat) = (n : Rat) := rfl; grind
    have : roundEven x < (n : Int) + 1 := by exact_mod_cast this
    omega
  have ht : ∀ n, n < 100 → (tenths n).length ≤ 3 := by
    intro n h
    have := fmtInt_length 0 (n / 10) (by omega)
    simp only [tenths, List.length_append, List.length_cons, List.length_nil]
    omega
  unfold humanizeFloat
  simp only
  split
  · simp
  unfold humanizeFloat' fixed0 fixed1
  simp only [hn, hf0, if_false]
  split
  · simp
  split
  · have e : (((999 : Nat) : Rat)) = 999 := rfl
    have := fmtInt_length 2 _ (Nat.lt_of_le_of_lt (up (div f 1000) 999 (by grind)) (by decide))
    simp only [List.length_append, List.length_singleton]
    omega
  split
  · have e : (((99 : Nat) : Rat)) = 99 := rfl
    have := ht _ (Nat.lt_of_le_of_lt (up (10 * div f 1000) 99 (by grind)) (by decide))
    simp only [List.length_append, List.length_singleton]
    omega
  split
  · have e : (((1000 : Nat) : Rat)) = 1000 := rfl
    exact fmtInt_length 3 _ (Nat.lt_of_le_of_lt (up f 1000 (by grind)) (by decide))
  split
  · simp
  · have e : (((10 : Nat) : Rat)) = 10 := rfl
    have := ht _ (Nat.lt_of_le_of_lt (up (10 * f) 10 (by grind)) (by decide))
    omega

/-- **C101** is false of the width: all rates from 9951 to 10000 are shown in five characters, and so are those from 999501 to
1000000. -/
theorem C101_width_violated {div : Rat → Rat → Rat} (hd : Divides div) (f : Rat) :
    (9951 ≤ f → f ≤ 10000 → humanizeFloat div f = "10.0K".toList) ∧
    (999501 ≤ f → f ≤ 1000000 → humanizeFloat div f = "1000K".toList) := by
  have t1 : tenths (100 : Int).toNat ++ ['K'] = "10.0K".toList := by decide +kernel
  have t2 : fmtInt (1000 : Int).toNat ++ ['K'] = "1000K".toList := by decide +kernel
  constructor
  · intro hl hu
    have h1 := hd.close f (by grind)
    have e1 : roundEven (10 * div f 1000) = 100 := by
      have e : ((100 : Int) : Rat) = 100 := rfl
      exact round_unique (by rw [e]; grind) (by rw [e]; grind)
    have n1 : ¬ div f 1000 < 0 := by grind
    have s1 : humanizeFloat' div f = "10.0K".toList := by
      unfold humanizeFloat' fixed1
      rw [if_neg (by grind), if_neg (by grind), if_pos (by grind), if_neg n1, e1, t1]
    unfold humanizeFloat
    rw [s1]; decide
  · intro hl hu
    have h2 := hd.close f (by grind)
    have e2 : roundEven (div f 1000) = 1000 := by
      have e : ((1000 : Int) : Rat) = 1000 := rfl
      exact round_unique (by rw [e]; grind) (by rw [e]; grind)
    have n2 : ¬ div f 1000 < 0 := by grind
    have s2 : humanizeFloat' div f = "1000K".toList := by
      unfold humanizeFloat' fixed0
      rw [if_neg (by grind), if_pos (by grind), if_neg n2, e2, t2]
    unfold humanizeFloat
    rw [s2]; decide

/-- **C101** The width, exactly: of the rates shown in tenths of a thousand those that are 9.95 thousand or more after the
division, and of those shown in whole thousands those that are 999.5 thousand or more, need five characters; all
others need at most four. -/
theorem C101_width_exact {div : Rat → Rat → Rat} (hd : Divides div) (f : Rat) (h : 0 ≤ f) : (humanizeFloat div f).length ≤ 4 ↔
    ¬ (1000 < f ∧ f ≤ 10000 ∧ 199 / 20 ≤ div f 1000) ∧ ¬ (10000 < f ∧ f ≤ 1000000 ∧ 1999 / 2 ≤ div f 1000) := by
  have hc := hd.close f h
  have hn : ¬ div f 1000 < 0 := by have := div_nonneg hd h; grind
  by_cases h1 : 1000 < f ∧ f ≤ 10000 ∧ 199 / 20 ≤ div f 1000
  · have e1 : roundEven (10 * div f 1000) = 100 := by
      have a : roundEven (199 / 2) ≤ roundEven (10 * div f 1000) := round_mono (by grind)
      have b : roundEven (10 * div f 1000) ≤ roundEven (1004 / 10) := round_mono (by grind)
      have c : roundEven (199 / 2) = 100 := by decide +kernel
      have d : roundEven (1004 / 10) = 100 := by decide +kernel
      omega
    have t1 : tenths (100 : Int).toNat ++ ['K'] = "10.0K".toList := by decide +kernel
    have s1 : humanizeFloat' div f = "10.0K".toList := by
      unfold humanizeFloat' fixed1
      rw [if_neg (by grind), if_neg (by grind), if_pos (by grind), if_neg hn, e1, t1]
    have s2 : humanizeFloat div f = "10.0K".toList := by unfold humanizeFloat; rw [s1]; decide
    rw [s2]
    exact ⟨fun x => absurd x (by decide), fun x => absurd h1 x.1⟩
  by_cases h2 : 10000 < f ∧ f ≤ 1000000 ∧ 1999 / 2 ≤ div f 1000
  · have e1 : roundEven (div f 1000) = 1000 := by
      have a : roundEven (1999 / 2) ≤ roundEven (div f 1000) := round_mono (by grind)
      have b : roundEven (div f 1000) ≤ roundEven (10004 / 10) := round_mono (by grind)
      have c : roundEven (1999 / 2) = 1000 := by decide +kernel
      have d : roundEven (10004 / 10) = 1000 := by decide +kernel
      omega
    have t1 : fmtInt (1000 : Int).toNat ++ ['K'] = "1000K".toList := by decide +kernel
    have s1 : humanizeFloat' div f = "1000K".toList := by
      unfold humanizeFloat' fixed0
      rw [if_neg (by grind), if_pos (by grind), if_neg hn, e1, t1]
    have s2 : humanizeFloat div f = "1000K".toList := by unfold humanizeFloat; rw [s1]; decide
    rw [s2]
    exact ⟨fun x => absurd x (by decide), fun x => absurd h2 x.2⟩
  refine ⟨fun _ => ⟨h1, h2⟩, fun _ => ?_⟩
  by_cases h3 : f ≤ 9949 ∨ 10000 < f ∧ f ≤ 999499 ∨ 1000000 < f
  · exact C101_width_partial hd f h h3
  have up : ∀ (x : Rat) (n : Nat), x < n + 1 / 2 → (roundEven x).toNat ≤ n := fun x n hx => by
    have := (round_close x).1
    have : (roundEven x : Rat) < ((n : Int) : Rat) + 1 := by have e : ((n : Int) : Rat) = (n : Rat) := rfl; grind
    have : roundEven x < (n : Int) + 1 := by exact_mod_cast this
    omega
  by_cases h4 : 10000 < f
  · have hf : ¬ 1000000 < f := by grind
    have e : (((999 : Nat) : Rat)) = 999 := rfl
    have hl := fmtInt_length 2 _ (Nat.lt_of_le_of_lt (up (div f 1000) 999 (by grind)) (by decide))
    have s1 : humanizeFloat' div f = fmtInt (roundEven (div f 1000)).toNat ++ ['K'] := by
      unfold humanizeFloat' fixed0
      rw [if_neg (by grind), if_pos (by grind), if_neg hn]
    unfold humanizeFloat
    simp only [s1]
    split
    · simp
    · simp only [List.length_append, List.length_singleton]; omega
  · have e : (((99 : Nat) : Rat)) = 99 := rfl
    have hr := up (10 * div f 1000) 99 (by grind)
    have hl := fmtInt_length 0 ((roundEven (10 * div f 1000)).toNat / 10) (by omega)
    have s1 : humanizeFloat' div f = tenths (roundEven (10 * div f 1000)).toNat ++ ['K'] := by
      unfold humanizeFloat' fixed1
      rw [if_neg (by grind), if_neg (by grind), if_pos (by grind), if_neg hn]
    unfold humanizeFloat
    simp only [s1]
    split
    · simp
    · simp only [tenths, List.length_append, List.length_cons, List.length_nil]; omega

/-! ## Sizes -/

/-- The value that `HumanizeBytes` shows. -/
def shownBytes (n : Nat) : Rat :=
  if n < 1024 then (roundEven (10 * (n : Rat)) : Rat) / 10
  else if n < 102400 then (roundEven (10 * ((n : Rat) / 1024)) : Rat) / 10 * 1024
  else if n < 1048576 then (roundEven ((n : Rat) / 1024) : Rat) * 1024
  else if n < 104857600 then (roundEven (10 * ((n : Rat) / 1048576)) : Rat) / 10 * 1048576
  else (roundEven ((n : Rat) / 1048576) : Rat) * 1048576

theorem cast_lt (n m : Nat) : ((n : Rat) < (m : Rat)) ↔ n < m := by constructor <;> intro h <;> exact_mod_cast h

theorem reads_bytes (n : Nat) : reads (humanizeBytes n) = some (shownBytes n) := by
  have h0 : (0 : Rat) ≤ n := by exact_mod_cast Nat.zero_le n
  have k1 : ((n : Rat) < 1 * 1024) ↔ n < 1024 := by rw [← cast_lt, show ((1024 : Nat) : Rat) = 1 * 1024 by decide +kernel]
  have k2 : ((n : Rat) < 100 * 1024) ↔ n < 102400 := by rw [← cast_lt, show ((102400 : Nat) : Rat) = 100 * 1024 by decide +kernel]
  have k3 : ((n : Rat) < 1 * (1024 * 1024)) ↔ n < 1048576 := by
    rw [← cast_lt, show ((1048576 : Nat) : Rat) = 1 * (1024 * 1024) by decide +kernel]
  have k4 : ((n : Rat) < 100 * (1024 * 1024)) ↔ n < 104857600 := by
    rw [← cast_lt, show ((104857600 : Nat) : Rat) = 100 * (1024 * 1024) by decide +kernel]
  have e : (1024 * 1024 : Rat) = 1048576 := by decide +kernel
  have n1 : ¬ (n : Rat) < 0 := by grind
  have n2 : ¬ (n : Rat) / 1024 < 0 := by grind
  have n3 : ¬ (n : Rat) / 1048576 < 0 := by grind
  unfold humanizeBytes shownBytes fixed0 fixed1
  simp only [k1, k2, k3, k4]
  rw [e]
  simp only [n1, n2, n3, if_false]
  by_cases a1 : n < 1024
  · simp only [a1, if_true]
    rw [(reads_tenths _).2.2.1, round_nonneg (by grind)]
  by_cases a2 : n < 102400
  · simp only [a1, a2, if_true, if_false]
    rw [(reads_tenths _).2.2.2.1, round_nonneg (by grind)]
  by_cases a3 : n < 1048576
  · simp only [a1, a2, a3, if_true, if_false]
    rw [(reads_int _).2.2.1, round_nonneg (by grind)]
  by_cases a4 : n < 104857600
  · simp only [a1, a2, a3, a4, if_true, if_false]
    rw [(reads_tenths _).2.2.2.2, round_nonneg (by grind)]
  · simp only [a1, a2, a3, a4, if_false]
    rw [(reads_int _).2.2.2, round_nonneg (by grind)]

/-- **C101** A size is shown to the nearest of what the text can say: exactly below 1024 bytes, to half a tenth of the
unit below 100 units, to half a unit from there. -/
theorem C101_bytes_close (n : Nat) :
    ∃ v, reads (humanizeBytes n) = some v ∧
      (n < 1024 → v = n) ∧
      (1024 ≤ n → n < 102400 → v - 1024 / 20 ≤ n ∧ (n : Rat) ≤ v + 1024 / 20) ∧
      (102400 ≤ n → n < 1048576 → v - 1024 / 2 ≤ n ∧ (n : Rat) ≤ v + 1024 / 2) ∧
      (1048576 ≤ n → n < 104857600 → v - 1048576 / 20 ≤ n ∧ (n : Rat) ≤ v + 1048576 / 20) ∧
      (104857600 ≤ n → v - 1048576 / 2 ≤ n ∧ (n : Rat) ≤ v + 1048576 / 2) := by
  refine ⟨_, reads_bytes n, ?_, ?_, ?_, ?_, ?_⟩ <;> unfold shownBytes
  · intro h
    rw [if_pos h]
    have : roundEven (10 * (n : Rat)) = ((10 * n : Nat) : Int) := by
      have e : (((10 * n : Nat) : Int) : Rat) = 10 * (n : Rat) := by push_cast; rfl
      exact round_unique (by rw [e]; grind) (by rw [e]; grind)
    rw [this]
    have e : (((10 * n : Nat) : Int) : Rat) = 10 * (n : Rat) := by push_cast; rfl
    rw [e]; grind
  · intro h1 h2
    rw [if_neg (by omega), if_pos h2]
    have := round_close (10 * ((n : Rat) / 1024))
    constructor <;> grind
  · intro h1 h2
    rw [if_neg (by omega), if_neg (by omega), if_pos h2]
    have := round_close ((n : Rat) / 1024)
    constructor <;> grind
  · intro h1 h2
    rw [if_neg (by omega), if_neg (by omega), if_neg (by omega), if_pos h2]
    have := round_close (10 * ((n : Rat) / 1048576))
    constructor <;> grind
  · intro h1
    rw [if_neg (by omega), if_neg (by omega), if_neg (by omega), if_neg (by omega)]
    have := round_close ((n : Rat) / 1048576)
    constructor <;> grind

/-- What is shown stays within the limits that choose the format. -/
theorem shownBytes_bounds (n : Nat) :
    (n < 1024 → shownBytes n ≤ 1024) ∧
    (1024 ≤ n → n < 102400 → 1024 ≤ shownBytes n ∧ shownBytes n ≤ 102400) ∧
    (102400 ≤ n → n < 1048576 → 102400 ≤ shownBytes n ∧ shownBytes n ≤ 1048576) ∧
    (1048576 ≤ n → n < 104857600 → 1048576 ≤ shownBytes n ∧ shownBytes n ≤ 104857600) ∧
    (104857600 ≤ n → 104857600 ≤ shownBytes n) := by
  have up : ∀ (x : Rat) (m : Int) (r : Rat), (m : Rat) = r → x ≤ r → (roundEven x : Rat) ≤ r := fun x m r e hx => by
    subst e; exact_mod_cast round_le hx
  have lo : ∀ (x : Rat) (m : Int) (r : Rat), (m : Rat) = r → r ≤ x → r ≤ (roundEven x : Rat) := fun x m r e hx => by
    subst e; exact_mod_cast le_round hx
  have cl : ∀ m : Nat, m ≤ n → (m : Rat) ≤ n := fun m h => by exact_mod_cast h
  have cu : ∀ m : Nat, n < m → (n : Rat) ≤ m := fun m h => by exact_mod_cast Nat.le_of_lt h
  have l1 : 1024 ≤ n → (1024 : Rat) ≤ n := cl 1024
  have l2 : 102400 ≤ n → (102400 : Rat) ≤ n := cl 102400
  have l3 : 1048576 ≤ n → (1048576 : Rat) ≤ n := cl 1048576
  have l4 : 104857600 ≤ n → (104857600 : Rat) ≤ n := cl 104857600
  have u1 : n < 1024 → (n : Rat) ≤ 1024 := cu 1024
  have u2 : n < 102400 → (n : Rat) ≤ 102400 := cu 102400
  have u3 : n < 1048576 → (n : Rat) ≤ 1048576 := cu 1048576
  have u4 : n < 104857600 → (n : Rat) ≤ 104857600 := cu 104857600
  unfold shownBytes
  refine ⟨fun h => ?_, fun h1 h2 => ?_, fun h1 h2 => ?_, fun h1 h2 => ?_, fun h1 => ?_⟩
  · rw [if_pos h]
    have := up (10 * (n : Rat)) 10240 10240 rfl (by grind)
    grind
  · rw [if_neg (by omega), if_pos h2]
    have a := up (10 * ((n : Rat) / 1024)) 1000 1000 rfl (by grind)
    have b := lo (10 * ((n : Rat) / 1024)) 10 10 rfl (by grind)
    constructor <;> grind
  · rw [if_neg (by omega), if_neg (by omega), if_pos h2]
    have a := up ((n : Rat) / 1024) 1024 1024 rfl (by grind)
    have b := lo ((n : Rat) / 1024) 100 100 rfl (by grind)
    constructor <;> grind
  · rw [if_neg (by omega), if_neg (by omega), if_neg (by omega), if_pos h2]
    have a := up (10 * ((n : Rat) / 1048576)) 1000 1000 rfl (by grind)
    have b := lo (10 * ((n : Rat) / 1048576)) 10 10 rfl (by grind)
    constructor <;> grind
  · rw [if_neg (by omega), if_neg (by omega), if_neg (by omega), if_neg (by omega)]
    have b := lo ((n : Rat) / 1048576) 100 100 rfl (by grind)
    grind

/-- **C101** A larger size is never shown as a smaller one. -/
theorem C101_bytes_monotone (n m : Nat) (h : n ≤ m) :
    ∃ v w, reads (humanizeBytes n) = some v ∧ reads (humanizeBytes m) = some w ∧ v ≤ w := by
  refine ⟨_, _, reads_bytes n, reads_bytes m, ?_⟩
  have hc : (n : Rat) ≤ m := by exact_mod_cast h
  have rm : ∀ {x y : Rat}, x ≤ y → (roundEven x : Rat) ≤ roundEven y := fun h => by exact_mod_cast round_mono h
  obtain ⟨f1, f2, f3, f4, f5⟩ := shownBytes_bounds n
  obtain ⟨g1, g2, g3, g4, g5⟩ := shownBytes_bounds m
  by_cases a1 : m < 1024
  · have := rm (x := 10 * (n : Rat)) (y := 10 * m) (by grind)
    unfold shownBytes
    rw [if_pos (by omega), if_pos a1]; grind
  by_cases a2 : m < 102400
  · by_cases b : n < 1024
    · have := f1 b; have := g2 (by omega) a2; grind
    · have := rm (x := 10 * ((n : Rat) / 1024)) (y := 10 * (m / 1024)) (by grind)
      unfold shownBytes
      rw [if_neg b, if_pos (by omega), if_neg a1, if_pos a2]; grind
  by_cases a3 : m < 1048576
  · have hg := g3 (by omega) a3
    by_cases b : n < 1024
    · have := f1 b; grind
    by_cases b2 : n < 102400
    · have := f2 (by omega) b2; grind
    · have := rm (x := (n : Rat) / 1024) (y := m / 1024) (by grind)
      unfold shownBytes
      rw [if_neg b, if_neg b2, if_pos (by omega), if_neg a1, if_neg a2, if_pos a3]; grind
  by_cases a4 : m < 104857600
  · have hg := g4 (by omega) a4
    by_cases b : n < 1024
    · have := f1 b; grind
    by_cases b2 : n < 102400
    · have := f2 (by omega) b2; grind
    by_cases b3 : n < 1048576
    · have := f3 (by omega) b3; grind
    · have := rm (x := 10 * ((n : Rat) / 1048576)) (y := 10 * (m / 1048576)) (by grind)
      unfold shownBytes
      rw [if_neg b, if_neg b2, if_neg b3, if_pos (by omega), if_neg a1, if_neg a2, if_neg a3, if_pos a4]; grind
  · have hg := g5 (by omega)
    by_cases b : n < 1024
    · have := f1 b; grind
    by_cases b2 : n < 102400
    · have := f2 (by omega) b2; grind
    by_cases b3 : n < 1048576
    · have := f3 (by omega) b3; grind
    by_cases b4 : n < 104857600
    · have := f4 (by omega) b4; grind
    · have := rm (x := (n : Rat) / 1048576) (y := m / 1048576) (by grind)
      unfold shownBytes
      rw [if_neg b, if_neg b2, if_neg b3, if_neg b4, if_neg a1, if_neg a2, if_neg a3, if_neg a4]; grind

/-! ## Examples -/

/-- Exact division is a division. -/
example : Divides (· / ·) where
  mono := fun x y h hxy => by grind
  close := fun x h => by constructor <;> grind

example : humanizeFloat (· / ·) 32756 = "33K".toList ∧ humanizeFloat (· / ·) (1584 / 10000) = "0.2".toList ∧
    humanizeFloat (· / ·) 5142 = "5.1K".toList ∧ humanizeFloat (· / ·) (8123 / 10) = "812".toList ∧
    humanizeFloat (· / ·) (1 / 25) = "0".toList := by decide +kernel

example : humanizeBytes 512 = "512.0B".toList ∧ humanizeBytes 1048575 = "1024KB".toList ∧
    humanizeBytes 1572864 = "1.5MB".toList := by decide +kernel

end Trc.Util
