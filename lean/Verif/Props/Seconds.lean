import Verif.Web.Seconds
import Verif.Props.Output
import Verif.Props.RequestText
import Mathlib.Algebra.Order.Field.Rat
import Mathlib.Tactic.Ring
import Mathlib.Tactic.Linarith
import Mathlib.Tactic.NormNum
import Mathlib.Tactic.Positivity
import Mathlib.Data.Rat.Encodable

/-!
# C139: the duration of a streamed trace is told in three ways that agree
-/

namespace Trc.Cmd

open Trc.Web

/-- What is known of the rounding of float64: it never changes an order, integers up to 2⁵³ are exact, and the relative error is at most 2⁻⁵³
where numbers are neither tiny nor huge. -/
structure Rounding (rnd : Rat → Rat) : Prop where
  mono : ∀ x y, x ≤ y → rnd x ≤ rnd y
  int : ∀ n : Int, n.natAbs ≤ 2 ^ 53 → rnd (n : Rat) = n
  near : ∀ x : Rat, 1 / 2 ^ 200 ≤ |x| → |x| ≤ 2 ^ 200 → |rnd x - x| ≤ |x| / 2 ^ 53

/-- How numbers are written, strconv.FormatFloat as encoding/json uses it, and the value of what is written: it is a JSON number, and
a float64 is read back as it was. -/
structure Writing (rnd : Rat → Rat) (fmt : Rat → List Char) (value : List Char → Rat) : Prop where
  number : ∀ x, isNumber (fmt x) = true
  back : ∀ x, rnd (value (fmt (rnd x))) = rnd x

theorem Rounding.near' {rnd : Rat → Rat} (h : Rounding rnd) (x : Rat) (h0 : x = 0 ∨ 1 / 2 ^ 40 ≤ |x|) (h1 : |x| ≤ 2 ^ 40) :
    |rnd x - x| ≤ |x| / 2 ^ 53 := by
  rcases h0 with rfl | h0
  · have := h.int 0 (by decide)
    simp only [Int.cast_zero] at this
    rw [this]
    simp
  · refine h.near x (le_trans ?_ h0) (le_trans h1 ?_)
    · norm_num
    · norm_num

/-- The parts of a duration. -/
theorem split_duration (d : Int) : d = d.tdiv 1000000000 * 1000000000 + d.tmod 1000000000 := by
  have := Int.mul_tdiv_add_tmod d 1000000000
  omega

theorem parts_le (d : Duration) (hd : Fits64 d) : (d.tdiv 1000000000 : Int).natAbs ≤ 2 ^ 53 ∧ (d.tmod 1000000000 : Int).natAbs ≤ 2 ^ 53 ∧
    (d.tmod 1000000000 : Int).natAbs ≤ (d : Int).natAbs := by
  obtain ⟨h1, h2⟩ := hd
  change Int at d
  change (-9223372036854775808 : Int) ≤ (d : Int) at h1
  change (d : Int) < (9223372036854775808 : Int) at h2
  have e1 : (Int.tdiv d 1000000000).natAbs = (d : Int).natAbs / 1000000000 := Int.natAbs_tdiv d 1000000000
  have e2 : (Int.tmod d 1000000000).natAbs = (d : Int).natAbs % 1000000000 := Int.natAbs_tmod d 1000000000
  have : (d : Int).natAbs ≤ 2 ^ 63 := by omega
  refine ⟨?_, ?_, ?_⟩
  · show (Int.tdiv d 1000000000).natAbs ≤ _
    rw [e1]; omega
  · show (Int.tmod d 1000000000).natAbs ≤ _
    rw [e2]; omega
  · show (Int.tmod d 1000000000).natAbs ≤ _
    rw [e2]; exact Nat.mod_le _ _

theorem seconds_eq {rnd : Rat → Rat} (h : Rounding rnd) (d : Duration) (hd : Fits64 d) :
    durationSeconds rnd d = rnd (((d.tdiv 1000000000 : Int) : Rat) + rnd (((d.tmod 1000000000 : Int) : Rat) / 1000000000)) := by
  unfold durationSeconds
  obtain ⟨h1, h2, -⟩ := parts_le d hd
  rw [h.int _ h1, h.int _ h2]

theorem Rounding.zero {rnd : Rat → Rat} (h : Rounding rnd) : rnd 0 = 0 := by
  have := h.int 0 (by decide)
  simpa using this

/-- The error of the seconds. -/
theorem seconds_error {rnd : Rat → Rat} (h : Rounding rnd) (d : Duration) (hd : Fits64 d) :
    |durationSeconds rnd d * 1000000000 - ((d : Int) : Rat)| ≤ |((d : Int) : Rat)| / 2 ^ 51 := by
  rw [seconds_eq h d hd]
  obtain ⟨-, hn2, hle⟩ := parts_le d hd
  have hsplit := split_duration d
  obtain ⟨h1, h2⟩ := hd
  change Int at d
  change (-9223372036854775808 : Int) ≤ (d : Int) at h1
  change (d : Int) < (9223372036854775808 : Int) at h2
  change (Int.tmod d 1000000000).natAbs ≤ (d : Int).natAbs at hle
  obtain ⟨s, hs⟩ : ∃ s : Int, Int.tdiv d 1000000000 = s := ⟨_, rfl⟩
  obtain ⟨n, hn⟩ : ∃ n : Int, Int.tmod d 1000000000 = n := ⟨_, rfl⟩
  rw [hs, hn] at hsplit
  rw [hn] at hle
  show |rnd ((Int.tdiv d 1000000000 : Rat) + rnd ((Int.tmod d 1000000000 : Rat) / 1000000000)) * 1000000000 - ((d : Int) : Rat)| ≤ _
  rw [hs, hn]
  obtain ⟨D, hD⟩ : ∃ D : Int, (d : Int) = D := ⟨_, rfl⟩
  rw [hD] at hsplit hle h1 h2 ⊢
  clear hs hn hn2 hD
  by_cases h0 : D = 0
  · have : n = 0 := by omega
    have : s = 0 := by omega
    subst_vars
    simp [h.zero]
  · have q1 : |rnd ((n : Rat) / 1000000000) - (n : Rat) / 1000000000| ≤ |(n : Rat) / 1000000000| / 2 ^ 53 := by
      by_cases hn0 : n = 0
      · subst hn0; simp [h.zero]
      · have a1 : (1 : Rat) ≤ |(n : Rat)| := by
          rw [← Int.cast_abs]
          exact_mod_cast Int.one_le_abs hn0
        have a2 : |(n : Rat)| ≤ 2 ^ 63 := by
          rw [← Int.cast_abs]
          have : |n| ≤ 2 ^ 63 := by rw [Int.abs_eq_natAbs]; omega
          exact_mod_cast this
        refine h.near' _ (Or.inr ?_) ?_
        · rw [abs_div]; norm_num; linarith
        · rw [abs_div]; norm_num; linarith
    have hDs : (D : Rat) = (s : Rat) * 1000000000 + n := by exact_mod_cast hsplit
    have hnD : |(n : Rat)| ≤ |(D : Rat)| := by
      rw [← Int.cast_abs, ← Int.cast_abs]
      have : |n| ≤ |D| := by rw [Int.abs_eq_natAbs, Int.abs_eq_natAbs]; omega
      exact_mod_cast this
    have b1 : (1 : Rat) ≤ |(D : Rat)| := by
      rw [← Int.cast_abs]
      exact_mod_cast Int.one_le_abs h0
    have b2 : |(D : Rat)| ≤ 2 ^ 63 := by
      rw [← Int.cast_abs]
      have : |D| ≤ 2 ^ 63 := by rw [Int.abs_eq_natAbs]; omega
      exact_mod_cast this
    obtain ⟨q, hq⟩ : ∃ q, rnd ((n : Rat) / 1000000000) = q := ⟨_, rfl⟩
    rw [hq] at q1 ⊢
    rw [abs_div, show |(1000000000 : Rat)| = 1000000000 by norm_num] at q1
    have x1 : |((s : Rat) + q) - (D : Rat) / 1000000000| ≤ |(D : Rat)| / 1000000000 / 2 ^ 53 := by
      have : ((s : Rat) + q) - (D : Rat) / 1000000000 = q - (n : Rat) / 1000000000 := by rw [hDs]; ring
      rw [this]
      refine le_trans q1 ?_
      norm_num
      linarith
    obtain ⟨x, hx⟩ : ∃ x, (s : Rat) + q = x := ⟨_, rfl⟩
    rw [hx] at x1 ⊢
    have c1 : |(D : Rat) / 1000000000| = |(D : Rat)| / 1000000000 := by rw [abs_div]; norm_num
    have lo : |(D : Rat)| / 1000000000 - |(D : Rat)| / 1000000000 / 2 ^ 53 ≤ |x| := by
      have := abs_sub_abs_le_abs_sub ((D : Rat) / 1000000000) x
      rw [abs_sub_comm, c1] at this
      linarith
    have hi : |x| ≤ |(D : Rat)| / 1000000000 + |(D : Rat)| / 1000000000 / 2 ^ 53 := by
      have := abs_sub_abs_le_abs_sub x ((D : Rat) / 1000000000)
      rw [c1] at this
      linarith
    have r1 := h.near' x (Or.inr (by norm_num at lo ⊢; linarith)) (by norm_num at hi b2 ⊢; linarith)
    have r2 : |rnd x - (D : Rat) / 1000000000| ≤ |(D : Rat)| / 1000000000 / 2 ^ 51 := by
      have := abs_sub_le (rnd x) x ((D : Rat) / 1000000000)
      norm_num at *
      linarith
    have : rnd x * 1000000000 - (D : Rat) = (rnd x - (D : Rat) / 1000000000) * 1000000000 := by ring
    rw [this, abs_mul]
    norm_num at *
    linarith

/-- C139, nanoseconds: for durations of less than thirteen days, the nearest number of nanoseconds is the duration. -/
theorem C139_nanoseconds {rnd : Rat → Rat} (h : Rounding rnd) (d : Duration) (h1 : -(2 ^ 50 : Int) < d) (h2 : d < (2 ^ 50 : Int)) (n : Int)
    (hn : |durationSeconds rnd d * 1000000000 - (n : Rat)| ≤ 1 / 2) : n = d := by
  change Int at d
  change (-1125899906842624 : Int) < (d : Int) at h1
  change (d : Int) < (1125899906842624 : Int) at h2
  have he := seconds_error h d ⟨by show (-9223372036854775808 : Int) ≤ d; omega, by show d < (9223372036854775808 : Int); omega⟩
  have hd : |(d : Rat)| < 2 ^ 50 := by
    rw [← Int.cast_abs]
    have : |d| < 1125899906842624 := by rw [Int.abs_eq_natAbs]; omega
    have : ((|d| : Int) : Rat) < ((1125899906842624 : Int) : Rat) := by exact_mod_cast this
    norm_num at this ⊢
    linarith
  have : |((n - d : Int) : Rat)| < 1 := by
    rw [Int.cast_sub]
    have := abs_sub_le (n : Rat) (durationSeconds rnd d * 1000000000) (d : Rat)
    rw [abs_sub_comm (n : Rat) (durationSeconds rnd d * 1000000000)] at this
    norm_num at *
    linarith
  rw [← Int.cast_abs] at this
  have : |n - d| < 1 := by exact_mod_cast this
  have := Int.abs_lt_one_iff.mp this
  show n = d
  omega

/-- C139, order: a longer duration never has less seconds. -/
theorem C139_order {rnd : Rat → Rat} (h : Rounding rnd) (d d' : Duration) (hd : Fits64 d) (hd' : Fits64 d') (hle : d ≤ d') :
    durationSeconds rnd d ≤ durationSeconds rnd d' := by
  rw [seconds_eq h d hd, seconds_eq h d' hd']
  refine h.mono _ _ ?_
  have s1 := split_duration d
  have s2 := split_duration d'
  change Int at d d'
  change (d : Int) ≤ d' at hle
  have l1 : d.tmod 1000000000 < 1000000000 := Int.tmod_lt_of_pos d (by decide)
  have l2 : d'.tmod 1000000000 < 1000000000 := Int.tmod_lt_of_pos d' (by decide)
  have g1 : -1000000000 < d.tmod 1000000000 := Int.lt_tmod_of_pos d (by decide)
  have g2 : -1000000000 < d'.tmod 1000000000 := Int.lt_tmod_of_pos d' (by decide)
  show ((d.tdiv 1000000000 : Int) : Rat) + rnd (((d.tmod 1000000000 : Int) : Rat) / 1000000000) ≤ ((d'.tdiv 1000000000 : Int) : Rat) + rnd (((d'.tmod 1000000000 : Int) : Rat) / 1000000000)
  have np : ∀ d : Int, d ≤ 0 → d.tmod 1000000000 ≤ 0 := by
    intro d h
    have := Int.tmod_nonneg 1000000000 (show 0 ≤ -d by omega)
    rw [Int.neg_tmod] at this
    omega
  have k1 : 0 ≤ d → 0 ≤ d.tmod 1000000000 := fun h => Int.tmod_nonneg _ h
  have k2 : d ≤ 0 → d.tmod 1000000000 ≤ 0 := np _
  have k3 : 0 ≤ d' → 0 ≤ d'.tmod 1000000000 := fun h => Int.tmod_nonneg _ h
  have k4 : d' ≤ 0 → d'.tmod 1000000000 ≤ 0 := np _
  obtain ⟨s, hs⟩ : ∃ s : Int, d.tdiv 1000000000 = s := ⟨_, rfl⟩
  obtain ⟨n, hn⟩ : ∃ n : Int, d.tmod 1000000000 = n := ⟨_, rfl⟩
  obtain ⟨s', hs'⟩ : ∃ s : Int, d'.tdiv 1000000000 = s := ⟨_, rfl⟩
  obtain ⟨n', hn'⟩ : ∃ n : Int, d'.tmod 1000000000 = n := ⟨_, rfl⟩
  rw [hs, hn] at s1
  rw [hs', hn'] at s2
  rw [hs, hn, hs', hn']
  rw [hn] at l1 g1 k1 k2
  rw [hn'] at l2 g2 k3 k4
  have one : rnd 1 = 1 := by simpa using h.int 1 (by decide)
  have mone : rnd (-1) = -1 := by simpa using h.int (-1) (by decide)
  have up : ∀ n : Int, n < 1000000000 → rnd ((n : Rat) / 1000000000) ≤ 1 := by
    intro n hn
    have : (n : Rat) < 1000000000 := by exact_mod_cast hn
    rw [← one]
    exact h.mono _ _ (by linarith)
  have nonneg : ∀ n : Int, 0 ≤ n → 0 ≤ rnd ((n : Rat) / 1000000000) := by
    intro n hn
    have : (0 : Rat) ≤ (n : Rat) := by exact_mod_cast hn
    rw [← h.zero]
    exact h.mono _ _ (by linarith)
  have nonpos : ∀ n : Int, n ≤ 0 → rnd ((n : Rat) / 1000000000) ≤ 0 := by
    intro n hn
    have : (n : Rat) ≤ 0 := by exact_mod_cast hn
    rw [← h.zero]
    exact h.mono _ _ (by linarith)
  have down : ∀ n : Int, -1000000000 < n → -1 ≤ rnd ((n : Rat) / 1000000000) := by
    intro n hn
    have : (-1000000000 : Rat) < (n : Rat) := by exact_mod_cast hn
    rw [← mone]
    exact h.mono _ _ (by linarith)
  have cast : ∀ a b : Int, a ≤ b → (a : Rat) ≤ (b : Rat) := fun a b h => by exact_mod_cast h
  rcases Int.lt_trichotomy s s' with hlt | heq | hgt
  · have c1 := cast (s + 1) s' (by omega)
    rw [Int.cast_add, Int.cast_one] at c1
    by_cases z : 0 ≤ d'
    · have := up n l1
      have := nonneg n' (k3 z)
      linarith
    · have := nonpos n (k2 (by omega))
      have := down n' g2
      linarith
  · subst heq
    have := h.mono _ _ (show (n : Rat) / 1000000000 ≤ (n' : Rat) / 1000000000 by have := cast n n' (by omega); linarith)
    linarith
  · omega

theorem member_duration (seconds : Duration → List Char) (st : Static) :
    member "duration_str" (traceText seconds st) = some (.str (String.ofList (durationString st.duration))) ∧
    member "duration_sec" (traceText seconds st) = if st.duration = 0 then none else some (.num (seconds st.duration)) := by
  unfold traceText member
  simp only [textMembers_append, List.find?_append]
  constructor
  · rfl
  · by_cases h : st.duration = 0
    · rw [if_pos h, if_pos h]
      cases st.finished <;> cases st.errored <;> cases st.events <;> rfl
    · rw [if_neg h, if_neg h]
      rfl

/-- **C139** Of every trace that is streamed, in both formats of `trc stream`: `duration_str` is a text that ParseDuration reads as the duration, and `duration_sec` is missing if the
duration is zero and otherwise is read as a number of seconds with a relative error of at most 2⁻⁵¹. -/
theorem C139_agree {rnd : Rat → Rat} {fmt : Rat → List Char} {value : List Char → Rat} (hr : Rounding rnd) (hw : Writing rnd fmt value)
    {mulFrac : Nat → Nat → Nat → Nat} (hm : ExactMul mulFrac) (o : Output) (st : Static) (hd : Fits64 st.duration) :
    ∃ j text, readJSON (encodeLine o.layout (traceText (fun d => fmt (durationSeconds rnd d)) st)) = some j ∧
      member "duration_str" j = some (.str text) ∧ parseDuration mulFrac text.toList = some st.duration ∧
      (st.duration = 0 → member "duration_sec" j = none) ∧
      (st.duration ≠ 0 → ∃ number, member "duration_sec" j = some (.num number) ∧
        |rnd (value number) * 1000000000 - ((st.duration : Int) : Rat)| ≤ |((st.duration : Int) : Rat)| / 2 ^ 51) := by
  obtain ⟨m1, m2⟩ := member_duration (fun d => fmt (durationSeconds rnd d)) st
  refine ⟨_, _, (read_encoded (layout_blank o) _ (trace_valid (fun d => hw.number _) st)).2, m1, ?_, ?_, ?_⟩
  · rw [String.toList_ofList]
    exact parseDuration_string hm _ hd.1 hd.2
  · intro h; rw [m2, if_pos h]
  · intro h
    refine ⟨_, by rw [m2, if_neg h], ?_⟩
    have : rnd (value (fmt (durationSeconds rnd st.duration))) = durationSeconds rnd st.duration := hw.back _
    rw [this]
    exact seconds_error hr _ hd

/-- Exact arithmetic is such a rounding, and so are others. -/
theorem rounding_id : Rounding fun x => x :=
  ⟨fun _ _ h => h, fun _ _ => rfl, fun x _ _ => by simp only [sub_self, abs_zero]; positivity⟩

/-- There are writings (though not like this one). -/
theorem writing_id : Writing (fun x => x) (fun x => fmtInt (Encodable.encode x)) (fun l => (Encodable.decode (natOf 0 l)).getD 0) where
  number x := by
    obtain ⟨l, h1, h2, -⟩ := read_int (Encodable.encode x : Nat)
    rw [intText, if_neg (by omega), Int.natAbs_natCast] at h1
    rw [JText.num.inj h1]
    exact h2
  back x := by simp only [fmtInt_natOf, Encodable.encodek, Option.getD_some]

example : durationSeconds (fun x => x) 1500000000 = 3 / 2 ∧ durationSeconds (fun x => x) (-1) = -1 / 1000000000 ∧ Fits64 1500000000 := by
  refine ⟨?_, ?_, by constructor <;> decide⟩
  · show ((1 : Int) : Rat) + ((500000000 : Int) : Rat) / 1000000000 = _
    norm_num
  · show ((0 : Int) : Rat) + ((-1 : Int) : Rat) / 1000000000 = _
    norm_num

end Trc.Cmd
