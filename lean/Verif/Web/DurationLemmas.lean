import Verif.Web.Duration

/-!
# `ParseDuration` undoes `Duration.String`
-/

namespace Trc.Web

set_option linter.unusedSimpArgs false

/-! ## Digits -/

theorem digitChar_toNat {n : Nat} (h : n < 10) : (digitChar n).toNat = 48 + n := by
  match n, h with
  | 0, _ => rfl
  | 1, _ => rfl
  | 2, _ => rfl
  | 3, _ => rfl
  | 4, _ => rfl
  | 5, _ => rfl
  | 6, _ => rfl
  | 7, _ => rfl
  | 8, _ => rfl
  | 9, _ => rfl

theorem isDigit_digitChar {n : Nat} (h : n < 10) : isDigit (digitChar n) = true := by
  unfold isDigit; rw [digitChar_toNat h]; simp; omega

theorem digitVal_digitChar {n : Nat} (h : n < 10) : digitVal (digitChar n) = n := by
  unfold digitVal; rw [digitChar_toNat h]; omega

/-- The number that a list of digits stands for, after `x`. -/
def natOf (x : Nat) (l : List Char) : Nat := l.foldl (fun x c => x * 10 + digitVal c) x

theorem natOf_nil (x : Nat) : natOf x [] = x := rfl

theorem natOf_cons (x : Nat) (c : Char) (s : List Char) : natOf x (c :: s) = natOf (x * 10 + digitVal c) s := by
  unfold natOf; rw [List.foldl_cons]

theorem natOf_append (x : Nat) (a b : List Char) : natOf x (a ++ b) = natOf (natOf x a) b := by
  induction a generalizing x with
  | nil => rw [List.nil_append, natOf_nil]
  | cons c a ih => rw [List.cons_append, natOf_cons, natOf_cons, ih]

/-- All characters are digits. -/
def AllDigits (l : List Char) : Prop := ∀ c ∈ l, isDigit c = true

theorem natOf_le (x : Nat) (l : List Char) : x ≤ natOf x l := by
  induction l generalizing x with
  | nil => rw [natOf_nil]; exact Nat.le_refl x
  | cons c l ih => rw [natOf_cons]; have := ih (x * 10 + digitVal c); omega

theorem digitVal_lt {c : Char} (h : isDigit c = true) : digitVal c < 10 := by
  unfold isDigit at h; unfold digitVal; simp at h; omega

theorem natOf_lt (x : Nat) (l : List Char) (h : AllDigits l) : natOf x l < (x + 1) * 10 ^ l.length := by
  induction l generalizing x with
  | nil => rw [natOf_nil]; simp
  | cons c l ih =>
    have hc := digitVal_lt (h c (by simp))
    have := ih (x * 10 + digitVal c) (fun d hd => h d (by simp [hd]))
    have h2 : (x * 10 + digitVal c + 1) * 10 ^ l.length ≤ ((x + 1) * 10) * 10 ^ l.length :=
      Nat.mul_le_mul_right _ (by omega)
    rw [natOf_cons, List.length_cons, Nat.pow_succ, Nat.mul_comm (10 ^ l.length) 10, ← Nat.mul_assoc]
    exact Nat.lt_of_lt_of_le this h2

theorem fmtInt_digits (v : Nat) : AllDigits (fmtInt v) := by
  induction v using fmtInt.induct with
  | case1 v h =>
    unfold fmtInt; simp only [h, if_true]
    intro c hc; simp at hc; subst hc; exact isDigit_digitChar h
  | case2 v h ih =>
    unfold fmtInt; simp only [h, if_false]
    intro c hc
    rcases List.mem_append.1 hc with hc | hc
    · exact ih c hc
    · simp at hc; subst hc; exact isDigit_digitChar (by omega)

theorem fmtInt_natOf (v : Nat) : natOf 0 (fmtInt v) = v := by
  induction v using fmtInt.induct with
  | case1 v h =>
    unfold fmtInt; simp only [h, if_true]
    rw [natOf_cons, natOf_nil, digitVal_digitChar h]; omega
  | case2 v h ih =>
    unfold fmtInt; simp only [h, if_false]
    rw [natOf_append, ih, natOf_cons, natOf_nil, digitVal_digitChar (by omega)]; omega

theorem fmtInt_ne_nil (v : Nat) : fmtInt v ≠ [] := by
  unfold fmtInt
  split
  · simp
  · simp

/-! ## Reading digits -/

/-- The list does not begin with a digit. -/
def NoDigit (l : List Char) : Prop := ∀ c, l.head? = some c → isDigit c = false

theorem leadingInt_digits (x : Nat) (ds rest : List Char) (hd : AllDigits ds) (hr : NoDigit rest)
    (hb : natOf x ds ≤ two63) : leadingInt x (ds ++ rest) = some (natOf x ds, rest) := by
  induction ds generalizing x with
  | nil =>
    cases rest with
    | nil => rw [natOf_nil, List.append_nil, leadingInt]
    | cons c r =>
      have := hr c rfl
      simp [leadingInt, this, natOf]
  | cons c ds ih =>
    have hc : isDigit c = true := hd c (by simp)
    rw [natOf_cons] at hb ⊢
    have hle := Nat.le_trans (natOf_le (x * 10 + digitVal c) ds) hb
    have h1 : ¬ x > two63 / 10 := by
      unfold two63 at *; omega
    have h2 : ¬ x * 10 + digitVal c > two63 := by omega
    rw [List.cons_append]
    unfold leadingInt
    simp only [hc, Bool.not_true, Bool.false_eq_true, if_false, h1, h2]
    exact ih _ (fun d h => hd d (by simp [h])) hb

theorem leadingFraction_digits (x k : Nat) (ds rest : List Char) (hd : AllDigits ds) (hr : NoDigit rest)
    (hb : natOf x ds ≤ two63 - 1) :
    leadingFraction x k false (ds ++ rest) = (natOf x ds, k + ds.length, rest) := by
  induction ds generalizing x k with
  | nil =>
    cases rest with
    | nil => rw [natOf_nil, List.append_nil, leadingFraction, List.length_nil, Nat.add_zero]
    | cons c r =>
      have := hr c rfl
      simp [leadingFraction, this, natOf]
  | cons c ds ih =>
    have hc : isDigit c = true := hd c (by simp)
    rw [natOf_cons] at hb ⊢
    have hle := Nat.le_trans (natOf_le (x * 10 + digitVal c) ds) hb
    have h1 : ¬ x > (two63 - 1) / 10 := by
      unfold two63 at *; omega
    have h2 : ¬ x * 10 + digitVal c > two63 := by omega
    rw [List.cons_append]
    unfold leadingFraction
    simp only [hc, Bool.not_true, Bool.false_eq_true, if_false, h1, h2]
    rw [ih _ _ (fun d h => hd d (by simp [h])) hb]
    rw [List.length_cons, Nat.add_assoc, Nat.add_comm 1]

/-! ## The fraction -/

theorem natOf_shift (x : Nat) (acc : List Char) : natOf x acc = x * 10 ^ acc.length + natOf 0 acc := by
  induction acc generalizing x with
  | nil => simp [natOf]
  | cons c acc ih =>
    rw [natOf_cons, natOf_cons, ih (x * 10 + digitVal c), ih (0 * 10 + digitVal c), List.length_cons, Nat.pow_succ,
      Nat.add_mul, Nat.mul_comm (10 ^ acc.length) 10, Nat.mul_assoc, Nat.zero_mul, Nat.zero_add, Nat.add_assoc]

theorem mod_pow_succ (v i : Nat) : v % 10 ^ (i + 1) = (v / 10 % 10 ^ i) * 10 + v % 10 := by
  rw [Nat.pow_succ, Nat.mul_comm (10 ^ i) 10, Nat.mod_mul]
  omega

/-- What the loop of `fmtFrac` writes: digits whose value, scaled up to the full precision, is the
fraction. -/
theorem fmtFracLoop_spec (i v : Nat) (print : Bool) (acc : List Char) (n : Nat)
    (hd : AllDigits acc) (hp : print = false → acc = []) (hl : acc.length ≤ n) :
    AllDigits (fmtFracLoop i v print acc).1 ∧
    ((fmtFracLoop i v print acc).2.1 = false → (fmtFracLoop i v print acc).1 = []) ∧
    (fmtFracLoop i v print acc).2.2 = v / 10 ^ i ∧
    (fmtFracLoop i v print acc).1.length ≤ n + i ∧
    natOf 0 (fmtFracLoop i v print acc).1 * 10 ^ (n + i - (fmtFracLoop i v print acc).1.length)
      = (v % 10 ^ i) * 10 ^ n + natOf 0 acc * 10 ^ (n - acc.length) := by
  induction i generalizing v print acc n with
  | zero =>
    rw [fmtFracLoop, Nat.pow_zero, Nat.mod_one, Nat.div_one, Nat.zero_mul, Nat.zero_add, Nat.add_zero]
    exact ⟨hd, hp, rfl, hl, rfl⟩
  | succ i ih =>
    rw [fmtFracLoop]
    have hv10 : v % 10 < 10 := Nat.mod_lt _ (by omega)
    by_cases hpr : (print || v % 10 != 0) = true
    · simp only [hpr, if_true]
      obtain ⟨h1, h2, h3, h4, h5⟩ := ih (v / 10) true (digitChar (v % 10) :: acc) (n + 1)
        (fun c hc => by
          rcases List.mem_cons.1 hc with rfl | hc
          · exact isDigit_digitChar hv10
          · exact hd c hc)
        (fun h => by cases h) (by rw [List.length_cons]; omega)
      refine ⟨h1, h2, ?_, by omega, ?_⟩
      · rw [h3, Nat.div_div_eq_div_mul, Nat.pow_succ, Nat.mul_comm]
      · rw [show n + (i + 1) = n + 1 + i from by omega, h5, List.length_cons, natOf_cons, natOf_shift, Nat.zero_mul,
          Nat.zero_add, digitVal_digitChar hv10, mod_pow_succ,
          show n + 1 - (acc.length + 1) = n - acc.length from by omega, Nat.add_mul (v % 10 * 10 ^ acc.length),
          Nat.mul_assoc (v % 10), ← Nat.pow_add, show acc.length + (n - acc.length) = n from by omega,
          Nat.pow_succ, Nat.add_mul, Nat.mul_comm (10 ^ n) 10, ← Nat.mul_assoc, Nat.add_assoc]
    · simp only [Bool.not_eq_true] at hpr
      simp only [hpr, Bool.false_eq_true, if_false]
      rw [Bool.or_eq_false_iff] at hpr
      have hacc := hp hpr.1
      have hz : v % 10 = 0 := by simpa using hpr.2
      obtain ⟨h1, h2, h3, h4, h5⟩ := ih (v / 10) false acc (n + 1) hd (fun _ => hacc) (by omega)
      refine ⟨h1, h2, ?_, by omega, ?_⟩
      · rw [h3, Nat.div_div_eq_div_mul, Nat.pow_succ, Nat.mul_comm]
      · have e : n + (i + 1) = n + 1 + i := by omega
        rw [e, h5, mod_pow_succ, hz, hacc, natOf_nil, Nat.zero_mul, Nat.zero_mul, Nat.pow_succ,
          Nat.mul_comm (10 ^ n) 10, ← Nat.mul_assoc, Nat.add_zero, Nat.add_zero, Nat.add_zero]

/-- The digits after the point. -/
def fracDigits (v prec : Nat) : List Char := (fmtFracLoop prec v false []).1

theorem fmtFrac_spec (v prec : Nat) :
    (fmtFrac v prec).2 = v / 10 ^ prec ∧ AllDigits (fracDigits v prec) ∧ (fracDigits v prec).length ≤ prec ∧
    natOf 0 (fracDigits v prec) * 10 ^ (prec - (fracDigits v prec).length) = v % 10 ^ prec ∧
    ((fmtFrac v prec).1 = '.' :: fracDigits v prec ∨ ((fmtFrac v prec).1 = [] ∧ v % 10 ^ prec = 0)) := by
  obtain ⟨h1, h2, h3, h4, h5⟩ := fmtFracLoop_spec prec v false [] 0 (fun c h => by cases h) (fun _ => rfl) (by simp)
  rw [natOf_nil, Nat.zero_mul, Nat.add_zero, Nat.pow_zero, Nat.mul_one, Nat.zero_add] at h5
  rw [Nat.zero_add] at h4
  refine ⟨h3, h1, h4, h5, ?_⟩
  unfold fmtFrac
  by_cases hp : (fmtFracLoop prec v false []).2.1 = true
  · left; simp only [hp, if_true]; rfl
  · right
    simp only [Bool.not_eq_true] at hp
    have he := h2 hp
    simp only [hp, Bool.false_eq_true, if_false]
    refine ⟨he, ?_⟩
    rw [← h5, he, natOf_nil, Nat.zero_mul]

/-! ## One component -/

/-- The units that `String` writes. -/
def IsUnit (u : List Char) (unit : Nat) : Prop :=
  unitMap u = some unit ∧ u ≠ [] ∧ (∀ c ∈ u, endsUnit c = false) ∧ 0 < unit

theorem isUnit_ns : IsUnit ['n', 's'] 1 := by unfold IsUnit; decide
theorem isUnit_us : IsUnit ['µ', 's'] 1000 := by unfold IsUnit; decide
theorem isUnit_ms : IsUnit ['m', 's'] 1000000 := by unfold IsUnit; decide
theorem isUnit_s : IsUnit ['s'] 1000000000 := by unfold IsUnit; decide
theorem isUnit_m : IsUnit ['m'] 60000000000 := by unfold IsUnit; decide
theorem isUnit_h : IsUnit ['h'] 3600000000000 := by unfold IsUnit; decide

/-- What follows a unit: nothing, or the next number. -/
def NextNumber (rest : List Char) : Prop := ∀ c, rest.head? = some c → endsUnit c = true

theorem takeWhile_stop {α : Type} (p : α → Bool) (a b : List α) (ha : ∀ c ∈ a, p c = true)
    (hb : ∀ c, b.head? = some c → p c = false) :
    (a ++ b).takeWhile p = a ∧ (a ++ b).dropWhile p = b := by
  induction a with
  | nil =>
    cases b with
    | nil => exact ⟨rfl, rfl⟩
    | cons c b => have := hb c rfl; simp [List.takeWhile, List.dropWhile, this]
  | cons c a ih =>
    have hc := ha c (by simp)
    have := ih (fun d hd => ha d (by simp [hd]))
    simp [List.takeWhile, List.dropWhile, hc, this.1, this.2]

theorem parseUnit_spec {u : List Char} {unit : Nat} {rest : List Char} (hu : IsUnit u unit) (hr : NextNumber rest) :
    parseUnit (u ++ rest) = some (unit, rest) := by
  obtain ⟨h1, h2, h3, _⟩ := hu
  obtain ⟨ht, hd⟩ := takeWhile_stop (fun c => !endsUnit c) u rest (fun c hc => by simp [h3 c hc])
    (fun c hc => by simp [hr c hc])
  unfold parseUnit
  simp only [ht, hd, h2, if_false, h1, Option.map_some]

theorem IsUnit.noDigit {u : List Char} {unit : Nat} (hu : IsUnit u unit) (rest : List Char) : NoDigit (u ++ rest) := by
  intro c hc
  obtain ⟨_, h2, h3, _⟩ := hu
  cases u with
  | nil => exact absurd rfl h2
  | cons d u =>
    simp at hc
    have := h3 d (by simp)
    subst hc
    unfold endsUnit at this
    simp at this
    exact this.2

theorem IsUnit.noDot {u : List Char} {unit : Nat} (hu : IsUnit u unit) (rest : List Char) :
    ∀ s, u ++ rest ≠ '.' :: s := by
  intro s hs
  obtain ⟨_, h2, h3, _⟩ := hu
  cases u with
  | nil => exact absurd rfl h2
  | cons d u =>
    simp at hs
    have := h3 d (by simp)
    rw [hs.1] at this
    exact absurd this (by decide)

theorem endsUnit_of_digit {c : Char} (h : isDigit c = true) : endsUnit c = true := by
  unfold endsUnit; simp [h]

theorem not_digit_dot : isDigit '.' = false := by decide

variable {mulFrac : Nat → Nat → Nat → Nat}

/-- A whole number of units. -/
theorem parseComponent_whole {v unit : Nat} {u rest : List Char} (hu : IsUnit u unit) (hr : NextNumber rest)
    (hb : v * unit ≤ two63) : parseComponent mulFrac (fmtInt v ++ (u ++ rest)) = some (v * unit, rest) := by
  have hpos := hu.2.2.2
  have hv : v ≤ two63 := Nat.le_trans (Nat.le_mul_of_pos_right v hpos) hb
  have hd := fmtInt_digits v
  have hl : leadingInt 0 (fmtInt v ++ (u ++ rest)) = some (v, u ++ rest) := by
    rw [leadingInt_digits 0 _ _ hd (hu.noDigit rest) (by rw [fmtInt_natOf]; exact hv), fmtInt_natOf]
  have hfr : parseFrac (u ++ rest) = ((0, 0), false, u ++ rest) := by
    unfold parseFrac
    split
    · next s heq => exact absurd heq (hu.noDot rest s)
    · rfl
  obtain ⟨c, ds, hcd⟩ : ∃ c ds, fmtInt v = c :: ds := List.exists_cons_of_ne_nil (fmtInt_ne_nil v)
  have hc : endsUnit c = true := endsUnit_of_digit (hd c (by rw [hcd]; simp))
  have hlen : ¬ ((fmtInt v ++ (u ++ rest)).length = (u ++ rest).length ∧ true = true) := by
    rw [List.length_append, hcd, List.length_cons]; omega
  have hhead : (fmtInt v ++ (u ++ rest)).head? = some c := by rw [hcd]; rfl
  have hdiv : ¬ v > two63 / unit := by
    have := (Nat.le_div_iff_mul_le hpos).2 hb
    omega
  unfold parseComponent
  simp only [hhead, Option.bind_eq_bind, Option.bind_some, hc, Bool.not_true, Bool.false_eq_true, if_false, hl, hfr, and_true]
  rw [if_neg (by simpa using hlen)]
  simp only [parseUnit_spec hu hr, Option.bind_some, combine, hdiv, if_false]
  simp

/-- A number of units with a fraction. -/
theorem parseComponent_frac (hm : ExactMul mulFrac) {v prec unit : Nat} {u rest ds : List Char} (hu : IsUnit u unit) (hr : NextNumber rest)
    (hp : prec ≤ 9) (hunit : unit = 10 ^ prec) (hds : AllDigits ds) (hlen : ds.length ≤ prec)
    (hb : v * unit + natOf 0 ds * 10 ^ (prec - ds.length) ≤ two63) :
    parseComponent mulFrac (fmtInt v ++ ('.' :: ds ++ (u ++ rest)))
      = some (v * unit + natOf 0 ds * 10 ^ (prec - ds.length), rest) := by
  have hpos := hu.2.2.2
  have hb' : v * unit ≤ two63 := by omega
  have hv : v ≤ two63 := Nat.le_trans (Nat.le_mul_of_pos_right v hpos) hb'
  have hd := fmtInt_digits v
  have hl : leadingInt 0 (fmtInt v ++ ('.' :: ds ++ (u ++ rest))) = some (v, '.' :: ds ++ (u ++ rest)) := by
    rw [leadingInt_digits 0 _ _ hd (fun c h => by simp at h; subst h; exact not_digit_dot) (by rw [fmtInt_natOf]; exact hv), fmtInt_natOf]
  have hnat : natOf 0 ds < 10 ^ ds.length := by
    have := natOf_lt 0 ds hds; rwa [Nat.zero_add, Nat.one_mul] at this
  have h9 : (10 : Nat) ^ ds.length ≤ 10 ^ 9 := Nat.pow_le_pow_right (by omega) (by omega)
  have hun : unit ≤ 10 ^ 9 := by rw [hunit]; exact Nat.pow_le_pow_right (by omega) (by omega)
  have hfr : parseFrac ('.' :: ds ++ (u ++ rest)) = ((natOf 0 ds, ds.length), (ds ++ (u ++ rest)).length != (u ++ rest).length, u ++ rest) := by
    rw [List.cons_append]
    unfold parseFrac
    simp only [leadingFraction_digits 0 0 ds (u ++ rest) hds (hu.noDigit rest) (by unfold two63; omega), Nat.zero_add]
  obtain ⟨c, cs, hcd⟩ : ∃ c ds, fmtInt v = c :: ds := List.exists_cons_of_ne_nil (fmtInt_ne_nil v)
  have hc : endsUnit c = true := endsUnit_of_digit (hd c (by rw [hcd]; simp))
  have hlen' : ¬ ((fmtInt v ++ ('.' :: ds ++ (u ++ rest))).length = ('.' :: ds ++ (u ++ rest)).length) := by
    rw [List.length_append, hcd, List.length_cons]; omega
  have hhead : (fmtInt v ++ ('.' :: ds ++ (u ++ rest))).head? = some c := by rw [hcd]; rfl
  have hdiv : ¬ v > two63 / unit := by
    have := (Nat.le_div_iff_mul_le hpos).2 hb'
    omega
  have hquot : unit / 10 ^ ds.length = 10 ^ (prec - ds.length) := by
    rw [hunit]; exact Nat.pow_div hlen (by omega)
  have hdvd : 10 ^ ds.length ∣ unit := by rw [hunit]; exact Nat.pow_dvd_pow 10 hlen
  have hmul : mulFrac (natOf 0 ds) unit ds.length = natOf 0 ds * 10 ^ (prec - ds.length) := by
    rw [hm _ _ _ hdvd ?_ (by omega) (by omega), hquot]
    rw [hquot]
    have h1 : natOf 0 ds * 10 ^ (prec - ds.length) ≤ 10 ^ ds.length * 10 ^ (prec - ds.length) :=
      Nat.mul_le_mul_right _ (Nat.le_of_lt hnat)
    rw [← Nat.pow_add, show ds.length + (prec - ds.length) = prec from by omega] at h1
    have : (10 : Nat) ^ prec ≤ 10 ^ 9 := Nat.pow_le_pow_right (by omega) hp
    omega
  unfold parseComponent
  simp only [hhead, Option.bind_eq_bind, Option.bind_some, hc, Bool.not_true, Bool.false_eq_true, if_false, hl, hfr]
  rw [if_neg (fun h => hlen' h.1)]
  simp only [parseUnit_spec hu hr, Option.bind_some, combine, hdiv, if_false, hmul]
  by_cases hf : natOf 0 ds > 0
  · simp only [hf, if_true]
    rw [if_neg (by omega)]
    simp
  · have : natOf 0 ds = 0 := by omega
    simp [this]

/-- A number written with `fmtFrac` and a unit is read back. -/
theorem parseComponent_fmt (hm : ExactMul mulFrac) {w prec unit : Nat} {u rest : List Char} (hu : IsUnit u unit) (hr : NextNumber rest)
    (hp : prec ≤ 9) (hunit : unit = 10 ^ prec) (hb : w ≤ two63) :
    parseComponent mulFrac (fmtInt (w / 10 ^ prec) ++ ((fmtFrac w prec).1 ++ (u ++ rest))) = some (w, rest) := by
  obtain ⟨_, h2, h3, h4, h5⟩ := fmtFrac_spec w prec
  have hw : w / 10 ^ prec * 10 ^ prec + w % 10 ^ prec = w := by
    rw [Nat.mul_comm]; exact Nat.div_add_mod w (10 ^ prec)
  rcases h5 with h5 | ⟨h5, h6⟩
  · rw [h5, parseComponent_frac hm hu hr hp hunit h2 h3 (by rw [h4, hunit]; omega), h4, hunit, hw]
  · rw [h5, List.nil_append, parseComponent_whole hu hr (by rw [hunit]; omega), hunit]
    rw [h6, Nat.add_zero] at hw
    rw [hw]

theorem parseComponent_shorter {s rest : List Char} {v : Nat} (h : parseComponent mulFrac s = some (v, rest)) :
    rest.length < s.length := by
  unfold parseComponent at h
  simp only [Option.bind_eq_bind, Option.bind_eq_some_iff] at h
  obtain ⟨c, hc, h⟩ := h
  by_cases he : (!endsUnit c) = true
  · rw [if_pos he] at h; cases h
  rw [if_neg he, Option.bind_eq_some_iff] at h
  obtain ⟨r, hr, h⟩ := h
  by_cases hl : s.length = r.2.length ∧ (parseFrac r.2).2.1 = false
  · rw [if_pos hl] at h; cases h
  rw [if_neg hl, Option.bind_eq_some_iff] at h
  obtain ⟨u, hu, h⟩ := h
  rw [Option.bind_eq_some_iff] at h
  obtain ⟨w, hw, h⟩ := h
  have h' := Option.some.inj h
  have hrest : u.2 = rest := congrArg Prod.snd h'
  have h1 : ∀ x s r, leadingInt x s = some r → r.2.length ≤ s.length := by
    intro x s
    induction s generalizing x with
    | nil => intro r h; rw [leadingInt] at h; cases h; simp
    | cons d s ih =>
      intro r h
      unfold leadingInt at h
      split at h
      · cases h; simp
      · split at h
        · cases h
        · simp only at h
          split at h
          · cases h
          · have := ih _ _ h; rw [List.length_cons]; omega
  have h2 : ∀ x k b s, (leadingFraction x k b s).2.2.length ≤ s.length := by
    intro x k b s
    induction s generalizing x k b with
    | nil => rw [leadingFraction]; simp
    | cons d s ih =>
      unfold leadingFraction
      split
      · simp
      · split
        · have := ih x k true; rw [List.length_cons]; omega
        · split
          · have := ih x k true; rw [List.length_cons]; omega
          · simp only
            split
            · have := ih x k true; rw [List.length_cons]; omega
            · have := ih (x * 10 + digitVal d) (k + 1) false; rw [List.length_cons]; omega
  have h3 : ∀ s, (parseFrac s).2.2.length ≤ s.length := by
    intro s
    unfold parseFrac
    split
    · next s' => have := h2 0 0 false s'; simp only [List.length_cons]; omega
    · exact Nat.le_refl _
  have h4 : ∀ s u, parseUnit s = some u → u.2.length < s.length := by
    intro s u h
    unfold parseUnit at h
    simp only at h
    split at h
    · cases h
    · next hne =>
      rw [Option.map_eq_some_iff] at h
      obtain ⟨x, _, rfl⟩ := h
      have hl := congrArg List.length (List.takeWhile_append_dropWhile (p := fun c => !endsUnit c) (l := s))
      rw [List.length_append] at hl
      have : 0 < (s.takeWhile (fun c => !endsUnit c)).length := List.length_pos_iff.2 hne
      show (s.dropWhile (fun c => !endsUnit c)).length < s.length
      omega
  have a := h4 _ _ hu
  have b := h3 r.2
  have c := h1 _ _ _ hr
  rw [← hrest]; omega

/-! ## The whole string -/

theorem nextNumber_nil : NextNumber [] := fun c h => by cases h

theorem nextNumber_fmtInt (v : Nat) (l : List Char) : NextNumber (fmtInt v ++ l) := by
  obtain ⟨c, ds, hcd⟩ : ∃ c ds, fmtInt v = c :: ds := List.exists_cons_of_ne_nil (fmtInt_ne_nil v)
  intro d hd
  rw [hcd] at hd
  simp at hd
  subst hd
  exact endsUnit_of_digit (fmtInt_digits v c (by rw [hcd]; simp))

/-- One round of the loop. -/
theorem parseLoop_step {s rest : List Char} {v d n r : Nat} (hs : s.length ≤ n) (hc : parseComponent mulFrac s = some (v, rest))
    (hb : d + v ≤ two63) (hrest : ∀ m, rest.length ≤ m → parseLoop mulFrac m (d + v) rest = some r) :
    parseLoop mulFrac n d s = some r := by
  have hlt := parseComponent_shorter hc
  cases s with
  | nil => simp at hlt
  | cons c s =>
    cases n with
    | zero => simp at hs
    | succ n =>
      rw [parseLoop, hc]
      simp only
      rw [if_neg (by omega)]
      exact hrest n (by omega)

theorem parseLoop_nil (n d : Nat) : parseLoop mulFrac n d [] = some d := by
  cases n <;> rw [parseLoop]

theorem formatSmall_parse (hm : ExactMul mulFrac) {u n : Nat} (h : u < 1000000000) (hn : (formatSmall u).length ≤ n) :
    parseLoop mulFrac n 0 (formatSmall u) = some u := by
  have key : ∀ (prec unit : Nat) (x : List Char), IsUnit x unit → prec ≤ 9 → unit = 10 ^ prec →
      ∀ n, ((fmtInt (fmtFrac u prec).2 ++ (fmtFrac u prec).1 ++ x).length ≤ n) →
      parseLoop mulFrac n 0 (fmtInt (fmtFrac u prec).2 ++ (fmtFrac u prec).1 ++ x) = some u := by
    intro prec unit x hx hp hunit n hn
    have hc := parseComponent_fmt hm (w := u) (rest := []) hx nextNumber_nil hp hunit (by unfold two63; omega)
    rw [List.append_nil, ← List.append_assoc, ← (fmtFrac_spec u prec).1] at hc
    refine parseLoop_step hn hc (by unfold two63; omega) (fun m _ => ?_)
    rw [parseLoop_nil, Nat.zero_add]
  unfold formatSmall at hn ⊢
  split
  · next h0 =>
    simp only [h0, if_true] at hn
    have hc : parseComponent mulFrac ['0', 's'] = some (0, []) := by
      have := parseComponent_whole (mulFrac := mulFrac) (v := 0) isUnit_s nextNumber_nil (by omega)
      rw [Nat.zero_mul, List.append_nil] at this
      have e : fmtInt 0 = ['0'] := by unfold fmtInt; rfl
      rw [e] at this
      exact this
    refine parseLoop_step hn hc (by unfold two63; omega) (fun m _ => ?_)
    rw [parseLoop_nil, h0]
  · next h0 =>
    simp only [h0, if_false] at hn
    split
    · next h1 => simp only [h1, if_true] at hn; exact key 0 1 _ isUnit_ns (by omega) rfl n hn
    · next h1 =>
      simp only [h1, if_false] at hn
      split
      · next h2 => simp only [h2, if_true] at hn; exact key 3 1000 _ isUnit_us (by omega) rfl n hn
      · next h2 => simp only [h2, if_false] at hn; exact key 6 1000000 _ isUnit_ms (by omega) rfl n hn

theorem formatLarge_parse (hm : ExactMul mulFrac) {u n : Nat} (h : u ≤ two63) (hn : (formatLarge u).length ≤ n) :
    parseLoop mulFrac n 0 (formatLarge u) = some u := by
  have hf := fmtFrac_spec u 9
  -- whole seconds and the fraction
  obtain ⟨q, hq⟩ : ∃ q, u / 10 ^ 9 = q := ⟨_, rfl⟩
  obtain ⟨fr, hfr⟩ : ∃ fr, u % 10 ^ 9 = fr := ⟨_, rfl⟩
  have hqf : u = q * 10 ^ 9 + fr := by rw [← hq, ← hfr]; omega
  have hfrlt : fr < 10 ^ 9 := by rw [← hfr]; exact Nat.mod_lt _ (by omega)
  have e2 : (fmtFrac u 9).2 = q := by rw [hf.1, hq]
  -- the last component: seconds below a minute, with the fraction
  have hsec : ∀ d m, d + (q % 60 * 10 ^ 9 + fr) ≤ two63 →
      (fmtInt (q % 60) ++ ((fmtFrac u 9).1 ++ ['s'])).length ≤ m →
      parseLoop mulFrac m d (fmtInt (q % 60) ++ ((fmtFrac u 9).1 ++ ['s'])) = some (d + (q % 60 * 10 ^ 9 + fr)) := by
    intro d m hd hlen
    have hc : parseComponent mulFrac (fmtInt (q % 60) ++ ((fmtFrac u 9).1 ++ ['s'])) = some (q % 60 * 10 ^ 9 + fr, []) := by
      obtain ⟨_, h2, h3, h4, h5⟩ := hf
      rw [hfr] at h4 h5
      rcases h5 with h5 | ⟨h5, h6⟩
      · have := parseComponent_frac hm (v := q % 60) (rest := []) isUnit_s nextNumber_nil (by omega) rfl h2 h3
          (by rw [h4]; omega)
        rw [h4, List.append_nil] at this
        rw [h5]
        exact this
      · have := parseComponent_whole (mulFrac := mulFrac) (v := q % 60) (rest := []) isUnit_s nextNumber_nil (by omega)
        rw [List.append_nil] at this
        rw [h5, List.nil_append, h6, Nat.add_zero]
        exact this
    refine parseLoop_step hlen hc hd (fun m _ => ?_)
    rw [parseLoop_nil]
  have hnn : NextNumber (fmtInt (q % 60) ++ ((fmtFrac u 9).1 ++ ['s'])) := nextNumber_fmtInt _ _
  unfold formatLarge at hn ⊢
  simp only [e2, List.append_assoc] at hn ⊢
  have hmin : ∀ d m, d + (q / 60 % 60 * 60000000000) + (q % 60 * 10 ^ 9 + fr) ≤ two63 →
      (fmtInt (q / 60 % 60) ++ (['m'] ++ (fmtInt (q % 60) ++ ((fmtFrac u 9).1 ++ ['s'])))).length ≤ m →
      parseLoop mulFrac m d (fmtInt (q / 60 % 60) ++ (['m'] ++ (fmtInt (q % 60) ++ ((fmtFrac u 9).1 ++ ['s']))))
        = some (d + (q / 60 % 60 * 60000000000) + (q % 60 * 10 ^ 9 + fr)) := by
    intro d m hd hlen
    have hc := parseComponent_whole (mulFrac := mulFrac) (v := q / 60 % 60) isUnit_m hnn (by omega)
    exact parseLoop_step hlen hc (by omega) (fun m hm => hsec _ _ hd hm)
  unfold formatMinutes at hn ⊢
  by_cases h1 : 0 < q / 60
  · simp only [h1, if_true] at hn ⊢
    by_cases h2 : 0 < q / 60 / 60
    · simp only [h2, if_true, List.append_assoc] at hn ⊢
      have hc := parseComponent_whole (mulFrac := mulFrac) (v := q / 60 / 60) isUnit_h
        (nextNumber_fmtInt (q / 60 % 60) (['m'] ++ (fmtInt (q % 60) ++ ((fmtFrac u 9).1 ++ ['s'])))) (by omega)
      refine parseLoop_step hn hc (by omega) (fun m hm => ?_)
      rw [hmin _ _ (by omega) hm]
      congr 1
      omega
    · simp only [h2, if_false, List.nil_append, List.append_assoc] at hn ⊢
      rw [hmin _ _ (by omega) hn]
      congr 1
      omega
  · simp only [h1, if_false, List.nil_append] at hn ⊢
    rw [hsec _ _ (by omega) hn]
    congr 1
    omega

theorem formatAbs_parse (hm : ExactMul mulFrac) {u : Nat} (h : u ≤ two63) :
    parseLoop mulFrac (formatAbs u).length 0 (formatAbs u) = some u := by
  unfold formatAbs
  split
  · next h1 => exact formatSmall_parse hm h1 (Nat.le_refl _)
  · exact formatLarge_parse hm h (Nat.le_refl _)

theorem formatAbs_head (u : Nat) : ∃ c s, formatAbs u = c :: s ∧ isDigit c = true ∧ formatAbs u ≠ ['0'] ∧ s ≠ [] := by
  have key : ∀ v l, l ≠ [] → ∃ c s, fmtInt v ++ l = c :: s ∧ isDigit c = true ∧ fmtInt v ++ l ≠ ['0'] ∧ s ≠ [] := by
    intro v l hl
    obtain ⟨c, ds, hcd⟩ : ∃ c ds, fmtInt v = c :: ds := List.exists_cons_of_ne_nil (fmtInt_ne_nil v)
    refine ⟨c, ds ++ l, by rw [hcd]; rfl, fmtInt_digits v c (by rw [hcd]; simp), ?_, by simp [hl]⟩
    rw [hcd]
    intro h
    simp at h
    exact hl h.2.2
  unfold formatAbs formatSmall formatLarge formatMinutes
  split
  · split
    · exact ⟨'0', ['s'], rfl, by decide, by decide, by simp⟩
    · split
      · simp only [List.append_assoc]; exact key _ _ (by simp)
      · split
        · simp only [List.append_assoc]; exact key _ _ (by simp)
        · simp only [List.append_assoc]; exact key _ _ (by simp)
  · simp only
    split
    · split
      · simp only [List.append_assoc]; exact key _ _ (by simp)
      · simp only [List.append_assoc, List.nil_append]; exact key _ _ (by simp)
    · simp only [List.append_assoc, List.nil_append]; exact key _ _ (by simp)

/-- `time.ParseDuration(d.String()) == d` for every 64-bit duration. -/
theorem parseDuration_string (hm : ExactMul mulFrac) (d : Duration) (hlo : -(2 ^ 63 : Int) ≤ d) (hhi : d < (2 ^ 63 : Int)) :
    parseDuration mulFrac (durationString d) = some d := by
  change Int at d
  change (-9223372036854775808 : Int) ≤ d at hlo
  change d < (9223372036854775808 : Int) at hhi
  obtain ⟨c, s, hcs, hc, h0, _⟩ := formatAbs_head d.natAbs
  have hu : d.natAbs ≤ two63 := by unfold two63; omega
  have hp := formatAbs_parse hm hu
  unfold parseDuration durationString
  by_cases hneg : d < 0
  · simp only [hneg, if_true, parseSign, parseAbs]
    rw [if_neg h0, if_neg (by rw [hcs]; simp), hp]
    simp only [if_true]
    congr 1
    change (-(d.natAbs : Int) : Int) = d
    omega
  · simp only [hneg, if_false]
    have hsign : parseSign (formatAbs d.natAbs) = (false, formatAbs d.natAbs) := by
      rw [hcs]
      unfold parseSign
      split
      · next heq => simp at heq; rw [heq.1] at hc; exact absurd hc (by decide)
      · next heq => simp at heq; rw [heq.1] at hc; exact absurd hc (by decide)
      · rfl
    rw [hsign]
    simp only [parseAbs]
    rw [if_neg h0, if_neg (by rw [hcs]; simp), hp]
    simp only [Bool.false_eq_true, if_false]
    rw [if_neg (by unfold two63; omega)]
    congr 1
    change (d.natAbs : Int) = d
    omega

theorem parseDuration_nil : parseDuration mulFrac [] = none := rfl

/-- Exact multiplication exists: the hypothesis of the round trip can be met. -/
theorem exactMul_floor : ExactMul (fun f unit k => f * unit / 10 ^ k) := by
  intro f unit k hd _ _ _
  exact Nat.mul_div_assoc f hd

example : String.ofList (durationString 5445000000001) = "1h30m45.000000001s" := by decide +kernel
example : String.ofList (durationString (-1500)) = "-1.5µs" := by decide +kernel
example : parseDuration (fun f unit k => f * unit / 10 ^ k) "1.5h".toList = some 5400000000000 := by decide +kernel
example : parseDuration (fun f unit k => f * unit / 10 ^ k) "5".toList = none := by decide +kernel

end Trc.Web
