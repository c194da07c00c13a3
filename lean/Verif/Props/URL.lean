import Verif.Web.Util
import Verif.Web.QueryLemmas
import Verif.Web.DurationLemmas
import Verif.Props.Filter

/-!
# C61–C63: what travels in URLs
-/

namespace Trc.Web

variable {mulFrac : Nat → Nat → Nat → Nat}

/-! ## C61 -/

theorem vals_addAll (k key : Bytes) (l : List Bytes) (v : Values) :
    vals k (v.addAll key l) = vals k v ++ (if key = k then l else []) := by
  induction l generalizing v with
  | nil => simp [Values.addAll]
  | cons x l ih =>
    rw [Values.addAll, ih, vals_add]
    by_cases h : key = k <;> simp [h]

theorem vals_setIf (k key value : Bytes) (c : Prop) [Decidable c] (v : Values) :
    vals k (v.setIf c key value) = if c ∧ key = k then [value] else vals k v := by
  unfold Values.setIf
  by_cases hc : c
  · rw [if_pos hc, vals_set]; by_cases hk : key = k <;> simp [hk, hc]
  · rw [if_neg hc]; simp [hc]

theorem vals_setDuration (k key : Bytes) (o : Option Duration) (v : Values) :
    vals k (v.setDuration key o)
      = match o with
        | none => vals k v
        | some d => if key = k then [bytesOf (String.ofList (durationString d))] else vals k v := by
  cases o with
  | none => rfl
  | some d => exact vals_set _ _ _ _

/-- The parameters that a filter can set. -/
def filterKeys : List String :=
  ["source", "id", "category", "active", "finished", "min", "success", "errored", "q"]

/-- The URL has no filter parameters. -/
def NoFilter (raw : Bytes) : Prop := ∀ k ∈ filterKeys, vals (bytesOf k) (parseQuery raw) = []

/-- Fits in a `time.Duration`. -/
def Is64 (d : Int) : Prop := -(2 ^ 63 : Int) ≤ d ∧ d < (2 ^ 63 : Int)

theorem vals_filterValues (f : Filter) (q : Values) (k : Bytes) :
    vals k (filterValues f q) =
      if f.query ≠ "" ∧ keyQuery = k then [bytesOf f.query]
      else if f.isErrored = true ∧ keyErrored = k then [bytesTrue]
      else if f.isSuccess = true ∧ keySuccess = k then [bytesTrue]
      else if f.minDuration.isSome ∧ keyMin = k then
        (f.minDuration.map (fun d => bytesOf (String.ofList (durationString d)))).toList
      else if f.isFinished = true ∧ keyFinished = k then [bytesTrue]
      else if f.isActive = true ∧ keyActive = k then [bytesTrue]
      else if f.category ≠ "" ∧ keyCategory = k then [bytesOf f.category]
      else vals k q ++ (if keySource = k then f.sources.map bytesOf else [])
        ++ (if keyID = k then f.ids.map bytesOf else []) := by
  unfold filterValues
  simp only [vals_setIf, vals_setDuration, vals_addAll]
  cases f.minDuration with
  | none => simp
  | some d => simp

/-- **C61** Encoding a filter into a URL without filter parameters and parsing it back gives the
same filter (the compiled expression, which is not part of the wire format, is compiled again on
use), and the URL's other parameters are untouched. -/
theorem C61_round_trip (hm : ExactMul mulFrac) (f : Filter) (raw : Bytes) (hraw : NoFilter raw)
    (hd : ∀ d, f.minDuration = some d → Is64 d) :
    parseFilter mulFrac (encodeFilter f raw) = { f with regexp := none } ∧
    ∀ k, k ∉ filterKeys → vals (bytesOf k) (parseQuery (encodeFilter f raw)) = vals (bytesOf k) (parseQuery raw) := by
  have hv : ∀ k, vals k (parseQuery (encodeFilter f raw)) = vals k (filterValues f (parseQuery raw)) :=
    fun k => vals_parseQuery_encode k _
  have hne : ∀ {s t : String}, s ≠ t → bytesOf s ≠ bytesOf t := bytesOf_ne
  constructor
  · obtain ⟨sources, ids, category, isActive, isFinished, minDuration, isSuccess, isErrored, query, re⟩ := f
    have hget : ∀ k, (parseQuery (encodeFilter _ raw)).get k = (vals k (filterValues _ (parseQuery raw))).head?.getD [] :=
      fun k => by unfold Values.get; rw [hv k]
    have hhas : ∀ k, (parseQuery (encodeFilter _ raw)).has k = !(vals k (filterValues _ (parseQuery raw))).isEmpty :=
      fun k => by unfold Values.has; rw [hv k]
    unfold parseFilter
    simp only [hv, hget, hhas, vals_filterValues]
    have e : ∀ a b : String, (bytesOf a = bytesOf b) = (a = b) := fun a b => propext ⟨bytesOf_inj, fun h => h ▸ rfl⟩
    have n1 := hraw "source" (by decide)
    have n2 := hraw "id" (by decide)
    have n3 := hraw "category" (by decide)
    have n4 := hraw "active" (by decide)
    have n5 := hraw "finished" (by decide)
    have n6 := hraw "min" (by decide)
    have n7 := hraw "success" (by decide)
    have n8 := hraw "errored" (by decide)
    have n9 := hraw "q" (by decide)
    simp only [keySource, keyID, keyCategory, keyActive, keyFinished, keyMin, keySuccess, keyErrored, keyQuery, e,
      n1, n2, n3, n4, n5, n6, n7, n8, n9, List.nil_append]
    have hmap : ∀ l : List String, (l.map bytesOf).map text = l := by
      intro l; rw [List.map_map]; conv => rhs; rw [← List.map_id l]
      exact List.map_congr_left (fun s _ => text_bytesOf s)
    have h0 : text [] = "" := text_bytesOf ""
    have hopt : ∀ s : String, text ((if s ≠ "" then [bytesOf s] else []).head?.getD []) = s := by
      intro s
      by_cases hs : s = ""
      · simp [hs, h0]
      · simp [hs, text_bytesOf]
    have hmin : parseDefault ((if minDuration.isSome then
        (minDuration.map (fun d => bytesOf (String.ofList (durationString d)))).toList else []).head?.getD [])
        (parseDurationPointer mulFrac) none = minDuration := by
      cases minDuration with
      | none =>
        simp only [parseDefault, parseDurationPointer, parseDurationBytes]
        simp [h0, parseDuration_nil]
      | some d =>
        have h64 := hd d rfl
        simp [parseDefault, parseDurationPointer, parseDurationBytes, text_bytesOf, parseDuration_string hm d h64.1 h64.2]
    have hb : ∀ b : Bool, (if b = true then [bytesTrue] else []).isEmpty = !b := by
      intro b; cases b <;> rfl
    simp [hmap] at hopt hmin ⊢
    exact ⟨hopt _, hb _, hb _, hmin, hb _, hb _, hopt _⟩
  · intro k hk
    rw [hv, vals_filterValues]
    simp only [filterKeys, List.mem_cons, List.not_mem_nil, or_false, not_or] at hk
    obtain ⟨h1, h2, h3, h4, h5, h6, h7, h8, h9⟩ := hk
    simp only [keySource, keyID, keyCategory, keyActive, keyFinished, keyMin, keySuccess, keyErrored, keyQuery,
      hne (Ne.symm h1), hne (Ne.symm h2), hne (Ne.symm h3), hne (Ne.symm h4), hne (Ne.symm h5), hne (Ne.symm h6),
      hne (Ne.symm h7), hne (Ne.symm h8), hne (Ne.symm h9), and_false, if_false, List.append_nil]

/-- A filter with every field set, put into a URL that has other parameters. -/
example :
    let f : Filter := {
      sources := ["a&b", ""], ids := ["x y"], category := "ü=;", isActive := true
      minDuration := some 1500000, query := "^%+$" }
    NoFilter (bytesOf "sendbuf=5") ∧
    text (encodeFilter f (bytesOf "sendbuf=5")) =
      "active=true&category=%C3%BC%3D%3B&id=x+y&min=1.5ms&q=%5E%25%2B%24&sendbuf=5&source=a%26b&source=" := by
  refine ⟨by unfold NoFilter; decide +kernel, by decide +kernel⟩

/-! ## C62 -/

/-- The value of a list of digits. -/
def decimal : List Char → Nat
  | [] => 0
  | c :: s => digitVal c * 10 ^ s.length + decimal s

/-- `s` is a decimal integer of value `k`, perhaps signed, that fits in an `int`. -/
def IsInt (s : String) (k : Int) : Prop :=
  ∃ sign ds, s.toList = sign ++ ds ∧ ds ≠ [] ∧ (∀ c ∈ ds, isDigit c = true) ∧
    ((sign = ['-'] ∧ k = -(decimal ds : Int)) ∨ ((sign = [] ∨ sign = ['+']) ∧ k = decimal ds)) ∧ Is64 k

theorem atoiDigits_eq (ds : List Char) : atoiDigits ds = decimal ds := by
  have : ∀ x, ds.foldl (fun x c => x * 10 + digitVal c) x = x * 10 ^ ds.length + decimal ds := by
    induction ds with
    | nil => intro x; simp [decimal]
    | cons c ds ih =>
      intro x
      rw [List.foldl_cons, ih, decimal, List.length_cons, Nat.pow_succ, Nat.add_mul, Nat.mul_assoc,
        Nat.mul_comm 10 (10 ^ ds.length), Nat.add_assoc]
  unfold atoiDigits
  rw [this, Nat.zero_mul, Nat.zero_add]

theorem atoiAbs_iff (neg : Bool) (ds : List Char) (k : Int) :
    atoiAbs neg ds = some k ↔ ds ≠ [] ∧ (∀ c ∈ ds, isDigit c = true) ∧
      k = (if neg then -(decimal ds : Int) else decimal ds) ∧ Is64 k := by
  unfold atoiAbs
  rw [atoiDigits_eq]
  by_cases h1 : ds = []
  · simp [h1]
  · rw [if_neg h1]
    by_cases h2 : ds.all isDigit = false
    · rw [if_pos h2]
      constructor
      · intro h; cases h
      · rintro ⟨_, h, _⟩
        rw [← List.all_eq_true (p := isDigit), h2] at h
        cases h
    · rw [if_neg h2]
      have h2' : ∀ c ∈ ds, isDigit c = true := by
        rw [Bool.not_eq_false, List.all_eq_true] at h2; exact h2
      cases neg with
      | true =>
        simp only [if_true]
        unfold Is64 two63
        constructor
        · intro h
          split at h
          · cases h
          · have := Option.some.inj h
            refine ⟨h1, h2', this.symm, ?_⟩
            omega
        · rintro ⟨_, _, rfl, h⟩
          rw [if_neg (by omega)]
      | false =>
        simp only [Bool.false_eq_true, if_false]
        unfold Is64 two63
        constructor
        · intro h
          split at h
          · cases h
          · have := Option.some.inj h
            refine ⟨h1, h2', this.symm, ?_⟩
            omega
        · rintro ⟨_, _, rfl, h⟩
          rw [if_neg (by omega)]

theorem parseSign_cases (l : List Char) :
    (∃ s, l = '-' :: s ∧ parseSign l = (true, s)) ∨ (∃ s, l = '+' :: s ∧ parseSign l = (false, s)) ∨
    parseSign l = (false, l) := by
  unfold parseSign
  split
  · exact Or.inl ⟨_, rfl, rfl⟩
  · exact Or.inr (Or.inl ⟨_, rfl, rfl⟩)
  · exact Or.inr (Or.inr rfl)

theorem atoi_iff (s : String) (k : Int) : atoi s.toList = some k ↔ IsInt s k := by
  unfold atoi IsInt
  rw [atoiAbs_iff]
  constructor
  · rintro ⟨h1, h2, h3, h4⟩
    generalize s.toList = l at h1 h2 h3
    rcases parseSign_cases l with ⟨s', hl, hp⟩ | ⟨s', hl, hp⟩ | hp
    · rw [hp] at h1 h2 h3; exact ⟨['-'], s', hl, h1, h2, Or.inl ⟨rfl, by simpa using h3⟩, h4⟩
    · rw [hp] at h1 h2 h3; exact ⟨['+'], s', hl, h1, h2, Or.inr ⟨Or.inr rfl, by simpa using h3⟩, h4⟩
    · rw [hp] at h1 h2 h3; exact ⟨[], _, rfl, h1, h2, Or.inr ⟨Or.inl rfl, by simpa using h3⟩, h4⟩
  · rintro ⟨sign, ds, hs, h1, h2, h3, h4⟩
    rw [hs]
    rcases h3 with ⟨rfl, h3⟩ | ⟨rfl | rfl, h3⟩
    · exact ⟨h1, h2, by simpa [parseSign] using h3, h4⟩
    · have : parseSign ([] ++ ds) = (false, ds) := by
        cases ds with
        | nil => exact absurd rfl h1
        | cons c ds =>
          have hc := h2 c (by simp)
          rw [List.nil_append]
          unfold parseSign
          split
          · next heq => simp at heq; rw [heq.1] at hc; exact absurd hc (by decide)
          · next heq => simp at heq; rw [heq.1] at hc; exact absurd hc (by decide)
          · rfl
      rw [this]
      exact ⟨h1, h2, by simpa using h3, h4⟩
    · exact ⟨h1, h2, by simpa [parseSign] using h3, h4⟩

/-- The first value of a parameter, `""` if it is missing. -/
def firstValue (k : String) (raw : Bytes) : String :=
  match vals (bytesOf k) (parseQuery raw) with
  | [] => ""
  | v :: _ => text v

/-- How a number from a URL is treated: forced into the range if it is an integer, the default if
it is not. -/
def Forced (s : String) (min dflt max result : Int) : Prop :=
  min ≤ result ∧ result ≤ max ∧
  (∀ k, IsInt s k → (min ≤ k → k ≤ max → result = k) ∧ (k < min → result = min) ∧ (max < k → result = max)) ∧
  ((¬ ∃ k, IsInt s k) → result = dflt)

theorem get_text (k : String) (raw : Bytes) : text ((parseQuery raw).get (bytesOf k)) = firstValue k raw := by
  unfold Values.get firstValue
  cases vals (bytesOf k) (parseQuery raw) with
  | nil => exact text_bytesOf ""
  | cons v l => rfl

theorem parseRange_forced (k : String) (raw : Bytes) (min dflt max : Int) (h1 : min ≤ dflt) (h2 : dflt ≤ max) :
    Forced (firstValue k raw) min dflt max (parseRange ((parseQuery raw).get (bytesOf k)) atoiBytes min dflt max) := by
  unfold parseRange
  have ha : atoiBytes ((parseQuery raw).get (bytesOf k)) = atoi (firstValue k raw).toList := by
    unfold atoiBytes; rw [get_text]
  rw [ha]
  cases h : atoi (firstValue k raw).toList with
  | none =>
    refine ⟨h1, h2, fun k hk => ?_, fun _ => rfl⟩
    rw [← atoi_iff, h] at hk; cases hk
  | some v =>
    have hu : ∀ k, IsInt (firstValue k raw) v → True := fun _ _ => trivial
    refine ⟨?_, ?_, fun k' hk => ?_, fun hn => absurd ⟨v, (atoi_iff _ _).1 h⟩ hn⟩
    · simp only; split
      · omega
      · split <;> omega
    · simp only; split
      · omega
      · split <;> omega
    · rw [← atoi_iff, h] at hk
      cases hk
      simp only
      refine ⟨fun a b => ?_, fun a => ?_, fun a => ?_⟩
      · rw [if_neg (by omega), if_neg (by omega)]
      · rw [if_pos a]
      · rw [if_neg (by omega), if_pos a]

/-- **C62** Whatever the query string: the limit of a search is within 1..250 (in-range values
kept, others forced to the nearest bound, 10 if unparsable), also after `Normalize`; the send
buffer of a stream is within 0..100000 (100 if unparsable); the stack depth is the integer
given, or 0. -/
theorem C62_clamped (raw : Bytes) :
    Forced (firstValue "n" raw) 1 10 250 (requestOfURL mulFrac raw).limit ∧
    (∀ compile r, (requestOfURL mulFrac raw).normalize compile = some r →
      r.1.limit = (requestOfURL mulFrac raw).limit) ∧
    Forced (firstValue "sendbuf" raw) 0 100 100000 (sendbufOfURL raw) ∧
    (∀ k, IsInt (firstValue "stack" raw) k → (requestOfURL mulFrac raw).stackDepth = k) ∧
    ((¬ ∃ k, IsInt (firstValue "stack" raw) k) → (requestOfURL mulFrac raw).stackDepth = 0) := by
  have hl : Forced (firstValue "n" raw) 1 10 250 (requestOfURL mulFrac raw).limit :=
    parseRange_forced "n" raw 1 10 250 (by omega) (by omega)
  refine ⟨hl, ?_, parseRange_forced "sendbuf" raw 0 100 100000 (by omega) (by omega), ?_, ?_⟩
  · intro compile r hr
    have hle := hl.1
    have hge := hl.2.1
    generalize requestOfURL mulFrac raw = req at hr hle hge ⊢
    unfold SearchRequest.normalize at hr
    simp only [Option.bind_eq_bind, Option.bind_eq_some_iff] at hr
    obtain ⟨b, _, hr⟩ := hr
    cases hr
    show normalizeLimit req.limit = req.limit
    unfold normalizeLimit searchLimitDefault searchLimitMin searchLimitMax
    rw [if_neg (by omega), if_neg (by omega), if_neg (by omega)]
  · intro k hk
    rw [← atoi_iff, ← get_text] at hk
    show parseDefault _ atoiBytes 0 = k
    unfold parseDefault atoiBytes
    rw [hk]
  · intro hn
    show parseDefault _ atoiBytes 0 = 0
    unfold parseDefault atoiBytes
    split
    · next v hv =>
      rw [get_text, atoi_iff] at hv
      exact absurd ⟨v, hv⟩ hn
    · rfl

/-- The statistics interval is the duration given, or ten seconds.  (It is not clamped: see
`C69_zero_interval_hangs`.) -/
theorem C62_stats_interval (hm : ExactMul mulFrac) (raw : Bytes) :
    (∀ d, Is64 d → firstValue "stats" raw = String.ofList (durationString d) → statsOfURL mulFrac raw = d) ∧
    (firstValue "stats" raw = "" → statsOfURL mulFrac raw = 10000000000) := by
  unfold statsOfURL parseDefault parseDurationBytes
  rw [get_text]
  constructor
  · intro d hd h
    rw [h, String.toList_ofList, parseDuration_string hm d hd.1 hd.2]
  · intro h
    rw [h]
    rfl

example : firstValue "n" (bytesOf "b=1s&n=%2B300&n=7") = "+300" ∧ IsInt "+300" 300 ∧
    (requestOfURL (fun f unit k => f * unit / 10 ^ k) (bytesOf "b=1s&n=%2B300&n=7")).limit = 250 ∧
    sendbufOfURL (bytesOf "sendbuf=12") = 12 ∧ sendbufOfURL (bytesOf "sendbuf=x") = 100 :=
  ⟨by decide +kernel, (atoi_iff _ _).1 (by decide +kernel), by decide +kernel, by decide +kernel, by decide +kernel⟩

/-! ## C63 -/

/-- The durations that the strings stand for, where they parse. -/
def parsable (mulFrac : Nat → Nat → Nat → Nat) (bs : List Bytes) : List Duration :=
  bs.filterMap (fun b => parseDuration mulFrac (text b).toList)

/-- **C63** Nothing if no parameter parses; otherwise the parsable durations in ascending order,
with 0 in front unless the smallest is 0. -/
theorem C63_bucketing (bs : List Bytes) :
    (parsable mulFrac bs = [] → parseBucketing mulFrac bs = []) ∧
    (parsable mulFrac bs ≠ [] → ∃ smallest rest,
      (smallest :: rest).Perm (parsable mulFrac bs) ∧ (smallest :: rest).Pairwise (· ≤ ·) ∧
      (smallest = 0 → parseBucketing mulFrac bs = smallest :: rest) ∧
      (smallest ≠ 0 → parseBucketing mulFrac bs = 0 :: smallest :: rest)) := by
  have hp := sortDurations_perm (parsable mulFrac bs)
  have hs := sortDurations_sorted (parsable mulFrac bs)
  have he : parseBucketing mulFrac bs =
      match sortDurations (parsable mulFrac bs) with
      | [] => []
      | d :: l => if d ≠ 0 then 0 :: d :: l else d :: l := by
    unfold parseBucketing
    split
    · next h =>
      have : bs = [] := List.eq_nil_of_length_eq_zero (by omega)
      subst this; rfl
    · show (match sortDurations (parsable mulFrac bs) with
        | [] => []
        | d :: _ => if d ≠ 0 then 0 :: sortDurations (parsable mulFrac bs) else sortDurations (parsable mulFrac bs)) = _
      cases sortDurations (parsable mulFrac bs) <;> rfl
  rw [he]
  constructor
  · intro h; rw [h] at hp ⊢; rw [List.Perm.eq_nil hp]
  · intro h
    cases hd : sortDurations (parsable mulFrac bs) with
    | nil => rw [hd] at hp; exact absurd hp.symm.eq_nil h
    | cons d l =>
      rw [hd] at hp hs
      exact ⟨d, l, hp, hs, fun h0 => by simp [h0], fun h0 => by simp [h0]⟩

/-- The smallest is the smallest, and the result is ascending unless a bucket is negative: what
`SearchStats` wants. -/
theorem C63_ascending (bs : List Bytes) (hpos : ∀ d ∈ parsable mulFrac bs, 0 ≤ d) :
    (parseBucketing mulFrac bs).Pairwise (· ≤ ·) := by
  obtain ⟨h1, h2⟩ := C63_bucketing (mulFrac := mulFrac) bs
  by_cases h : parsable mulFrac bs = []
  · rw [h1 h]; exact List.Pairwise.nil
  · obtain ⟨d, l, hp, hs, h3, h4⟩ := h2 h
    by_cases h0 : d = 0
    · rw [h3 h0]; exact hs
    · rw [h4 h0, List.pairwise_cons]
      exact ⟨fun x hx => hpos x (hp.subset hx), hs⟩

example : parseBucketing (fun f unit k => f * unit / 10 ^ k) (["2s", "x", "1ms", "0.5s"].map bytesOf)
    = [0, 1000000, 500000000, 2000000000] := by decide +kernel

end Trc.Web
