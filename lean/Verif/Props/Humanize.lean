import Verif.Util.HumanizeString
import Verif.Web.DurationLemmas
import Verif.Props.Util

/-!
# C80: humanized durations can be read back
-/

namespace Trc.Util

open Trc.Web

variable {mulFrac : Nat → Nat → Nat → Nat}

theorem trimSuffix_append (a b : List Char) : trimSuffix (a ++ b) b = a := by
  unfold trimSuffix
  rw [if_pos (by simp)]
  simp

theorem fmtFracLoop_zero : ∀ (prec v : Nat), v % 10 ^ prec = 0 → fmtFracLoop prec v false [] = ([], false, v / 10 ^ prec)
  | 0, v, _ => by simp [fmtFracLoop]
  | prec + 1, v, h => by
    have hd : 10 ^ (prec + 1) ∣ v := Nat.dvd_of_mod_eq_zero h
    obtain ⟨k, rfl⟩ := hd
    have e : 10 ^ (prec + 1) * k = 10 * (10 ^ prec * k) := by rw [Nat.pow_succ, Nat.mul_comm (10 ^ prec), Nat.mul_assoc]
    have h1 : 10 ^ (prec + 1) * k % 10 = 0 := by rw [e, Nat.mul_mod_right]
    have h2 : 10 ^ (prec + 1) * k / 10 = 10 ^ prec * k := by rw [e, Nat.mul_div_cancel_left _ (by decide)]
    rw [fmtFracLoop]
    simp only [h1, h2, bne_self_eq_false, Bool.or_false, Bool.false_eq_true, if_false]
    rw [fmtFracLoop_zero prec _ (Nat.mul_mod_right _ _), Nat.mul_div_cancel_left _ (Nat.pow_pos (by decide)),
      Nat.mul_div_cancel_left _ (Nat.pow_pos (by decide))]

/-- The text of a duration of whole minutes, at least an hour. -/
theorem durationString_minutes (m : Nat) (h : 60 ≤ m) :
    durationString ((m * 60000000000 : Nat) : Int) = fmtInt (m / 60) ++ (['h'] ++ (fmtInt (m % 60) ++ ['m'])) ++ ['0', 's'] := by
  have hf : fmtFrac (m * 60000000000) 9 = ([], m * 60) := by
    unfold fmtFrac
    rw [fmtFracLoop_zero _ _ (by omega)]
    simp only [Bool.false_eq_true, if_false, Prod.mk.injEq, true_and]
    omega
  unfold durationString
  have hn : ¬ ((m * 60000000000 : Nat) : Int) < 0 := by omega
  have ha : ((m * 60000000000 : Nat) : Int).natAbs = m * 60000000000 := by omega
  rw [if_neg hn, ha]
  unfold formatAbs
  rw [if_neg (by omega)]
  unfold formatLarge formatMinutes
  simp only [hf]
  have a : m * 60 / 60 = m := by omega
  have b : m * 60 % 60 = 0 := by omega
  have c : fmtInt 0 = ['0'] := by unfold fmtInt; rfl
  rw [a, b, c, if_pos (by omega), if_pos (by omega)]
  simp

/-- Hours and minutes alone can be read. -/
theorem parseDuration_minutes (m : Nat) (h : 60 ≤ m) (hb : m * 60000000000 < two63) :
    parseDuration mulFrac (fmtInt (m / 60) ++ (['h'] ++ (fmtInt (m % 60) ++ ['m']))) = some ((m * 60000000000 : Nat) : Int) := by
  unfold two63 at hb
  have hl : ∀ n, (fmtInt (m / 60) ++ (['h'] ++ (fmtInt (m % 60) ++ ['m']))).length ≤ n →
      parseLoop mulFrac n 0 (fmtInt (m / 60) ++ (['h'] ++ (fmtInt (m % 60) ++ ['m']))) = some (m * 60000000000) := by
    intro n hn
    have hc := parseComponent_whole (mulFrac := mulFrac) (v := m / 60) isUnit_h (nextNumber_fmtInt (m % 60) ['m']) (by unfold two63; omega)
    refine parseLoop_step hn hc (by unfold two63; omega) (fun k hk => ?_)
    have hc2 := parseComponent_whole (mulFrac := mulFrac) (v := m % 60) isUnit_m nextNumber_nil (by unfold two63; omega)
    rw [List.append_nil] at hc2
    refine parseLoop_step hk hc2 (by unfold two63; omega) (fun k hk => ?_)
    rw [parseLoop_nil]
    congr 1
    omega
  obtain ⟨c, ds, hcd⟩ : ∃ c ds, fmtInt (m / 60) = c :: ds := List.exists_cons_of_ne_nil (fmtInt_ne_nil _)
  have hc : isDigit c = true := fmtInt_digits (m / 60) c (by rw [hcd]; simp)
  unfold parseDuration
  have hp := hl _ (Nat.le_refl _)
  generalize hs : fmtInt (m / 60) ++ (['h'] ++ (fmtInt (m % 60) ++ ['m'])) = s at hp ⊢
  have h0 : s ≠ ['0'] := by
    intro h0; rw [← hs, hcd] at h0; simp at h0
  have hcs : ∃ t, s = c :: t := ⟨_, by rw [← hs, hcd]; rfl⟩
  obtain ⟨t, hcs⟩ := hcs
  have hsign : parseSign s = (false, s) := by
    rw [hcs]
    unfold parseSign
    split
    · next heq => simp at heq; rw [heq.1] at hc; exact absurd hc (by decide)
    · next heq => simp at heq; rw [heq.1] at hc; exact absurd hc (by decide)
    · rfl
  rw [hsign]
  simp only [parseAbs]
  rw [if_neg h0, if_neg (by rw [hcs]; simp), hp]
  simp only [Bool.false_eq_true, if_false]
  rw [if_neg (by unfold two63; omega)]

/-- Truncated durations from an hour are whole minutes. -/
theorem truncate_minutes (d : Int) (h : 3600000000000 ≤ truncateDuration d) :
    ∃ m : Nat, 60 ≤ m ∧ truncateDuration d = ((m * 60000000000 : Nat) : Int) := by
  rw [truncateDuration_eq] at h ⊢
  refine ⟨((d - d % unitOf d) / 60000000000).toNat, ?_⟩
  rcases unitOf_cases d with h1 | h1 | h1 | h1 | h1 | h1 | h1 | h1 | h1 <;> simp only [h1] at h ⊢ <;> omega

/-- `HumanizeDuration` from an hour: hours and minutes. -/
theorem humanizeDuration_minutes (d : Int) (m : Nat) (h : 60 ≤ m) (hd : truncateDuration d = ((m * 60000000000 : Nat) : Int)) :
    humanizeDuration d = fmtInt (m / 60) ++ (['h'] ++ (fmtInt (m % 60) ++ ['m'])) := by
  unfold humanizeDuration
  simp only [hd]
  rw [durationString_minutes m h, if_pos ⟨by unfold hour; omega, by rw [List.isSuffixOf_iff_suffix]; exact List.suffix_append _ _⟩]
  exact trimSuffix_append _ _

theorem humanizeDuration_small (d : Int) (h : truncateDuration d < 3600000000000) :
    humanizeDuration d = durationString (truncateDuration d) := by
  unfold humanizeDuration
  simp only
  rw [if_neg]
  intro hh
  have := hh.1
  unfold hour at this
  omega

/-- **C80** `time.ParseDuration` reads the text of `HumanizeDuration` as the truncated duration, for
every 64-bit duration. -/
theorem C80_read_back (hm : ExactMul mulFrac) (d : Duration) (hlo : -(2 ^ 63 : Int) ≤ d) (hhi : d < (2 ^ 63 : Int)) :
    parseDuration mulFrac (humanizeDuration d) = some (truncateDuration d) := by
  change Int at d
  change (-9223372036854775808 : Int) ≤ d at hlo
  change d < (9223372036854775808 : Int) at hhi
  have hb : -9223372036854775808 ≤ truncateDuration d ∧ truncateDuration d ≤ d := by
    rw [truncateDuration_eq]
    rcases unitOf_cases d with h1 | h1 | h1 | h1 | h1 | h1 | h1 | h1 | h1 <;> simp only [h1] <;> omega
  by_cases h : truncateDuration d < 3600000000000
  · rw [humanizeDuration_small d h]
    exact parseDuration_string hm _ (by change (-9223372036854775808 : Int) ≤ _; omega) (by change _ < (9223372036854775808 : Int); omega)
  · obtain ⟨m, h60, he⟩ := truncate_minutes d (by omega)
    rw [humanizeDuration_minutes d m h60 he, he]
    exact parseDuration_minutes m h60 (by unfold two63; omega)

/-- **C80** The text tells apart exactly the durations that truncate differently. -/
theorem C80_same_text (d e : Duration) (hd : -(2 ^ 63 : Int) ≤ d ∧ d < (2 ^ 63 : Int)) (he : -(2 ^ 63 : Int) ≤ e ∧ e < (2 ^ 63 : Int)) :
    humanizeDuration d = humanizeDuration e ↔ truncateDuration d = truncateDuration e := by
  constructor
  · intro h
    have h1 := C80_read_back exactMul_floor d hd.1 hd.2
    rw [h, C80_read_back exactMul_floor e he.1 he.2] at h1
    exact (Option.some.inj h1).symm
  · intro h
    unfold humanizeDuration
    rw [h]

/-- **C80** From an hour on no seconds are shown: the text is whole hours and minutes. -/
theorem C80_no_seconds (d : Duration) (h : 3600000000000 ≤ d) :
    ∃ hours minutes : Nat, minutes < 60 ∧ humanizeDuration d = fmtInt hours ++ (['h'] ++ (fmtInt minutes ++ ['m'])) := by
  change Int at d
  change (3600000000000 : Int) ≤ d at h
  have h1 : 3600000000000 ≤ truncateDuration d := by
    rw [truncateDuration_eq]
    rcases unitOf_cases d with h1 | h1 | h1 | h1 | h1 | h1 | h1 | h1 | h1 <;> simp only [h1] <;> omega
  obtain ⟨m, h60, he⟩ := truncate_minutes d h1
  exact ⟨m / 60, m % 60, Nat.mod_lt _ (by omega), humanizeDuration_minutes d m h60 he⟩

/-- Ninety minutes and a bit; an hour and a half second; 1234 microseconds. -/
example : humanizeDuration 5407000000000 = "1h30m".toList ∧ humanizeDuration 3600500000000 = "1h0m".toList ∧
    humanizeDuration 1234567 = "1.2ms".toList ∧ humanizeDuration (-5) = "-5ns".toList := by decide +kernel

end Trc.Util
