import Verif.Util.Humanize
import Verif.Search.Static

/-!
# C68, C73, C74: trimming stacks, truncating durations, compacting file names
-/

namespace Trc

/-! ## C68 -/

section
open Core (Event Frame)

/-- **C68** `TrimStacks(0)` changes nothing. -/
theorem C68_zero (st : Static) : st.trimStacks 0 = st := rfl

/-- An event's stack after trimming to `depth`, which is not 0: nothing of it for a negative depth,
its first `depth` frames otherwise. -/
def trimmed (depth : Int) (stack : List Frame) : List Frame :=
  if depth < 0 then [] else stack.take depth.toNat

/-- **C68** Otherwise every event keeps the first `depth` frames of its stack (none for a negative
depth); nothing else of the trace or of its events changes. -/
theorem C68_trim (st : Static) (depth : Int) (h : depth ≠ 0) :
    st.trimStacks depth = { st with events := (st.trimStacks depth).events } ∧
    (st.trimStacks depth).events.length = st.events.length ∧
    ∀ i : Nat, (st.trimStacks depth).events[i]? = (st.events[i]?).map (fun ev : Event => { ev with stack := trimmed depth ev.stack }) := by
  unfold Static.trimStacks
  rw [if_neg h]
  refine ⟨rfl, by simp, fun i => ?_⟩
  simp only [List.getElem?_map]
  cases st.events[i]? with
  | none => rfl
  | some ev =>
    simp only [Option.map_some, Option.some.injEq]
    unfold trimEvent trimmed
    by_cases hd : depth < 0
    · simp only [hd, if_true]
      split
      · rfl
      · next hl =>
        have : ev.stack = [] := List.eq_nil_of_length_eq_zero (by simp at hl; simp [hl])
        cases ev; simp_all
    · simp only [hd, if_false]
      split
      · rfl
      · next hl => rw [List.take_of_length_le (by omega)]

example : let ev : Event := { when_ := Time.zero, what := "x", stack := [⟨"f", "a:1"⟩, ⟨"g", "b:2"⟩], isError := true }
    let st : Static := { (default : Static) with events := [ev], id := "i" }
    (st.trimStacks 1).events = [{ ev with stack := [⟨"f", "a:1"⟩] }] ∧
    (st.trimStacks (-3)).events = [{ ev with stack := [] }] ∧ (st.trimStacks 5).events = [ev] := by
  decide

end

/-! ## C74 -/

section
open Core (Frame)

/-- The elements between the separators. -/
def splitAt (sep : Char) : List Char → List (List Char)
  | [] => [[]]
  | c :: s =>
    if c = sep then [] :: splitAt sep s
    else match splitAt sep s with
      | [] => [[c]]
      | p :: ps => (c :: p) :: ps

/-- Elements with separators between them. -/
def joinWith (sep : Char) : List (List Char) → List Char
  | [] => []
  | [a] => a
  | a :: b :: l => a ++ sep :: joinWith sep (b :: l)

/-- `s[:i]`, a panic (`none`) outside the string. -/
def strTo (s : List Char) (i : Int) : Option (List Char) := Go.sliceTo s i

/-- `s[i:]`, a panic (`none`) outside the string. -/
def strFrom (s : List Char) (i : Int) : Option (List Char) := Go.sliceFrom s i

/-- `pkgPrefix`, trace.go:118-125, with the bounds check of the slice expression. -/
def pkgPrefix' (funcName : List Char) : Option (List Char) :=
  let end_ := lastIndex funcName '/'
  if end_ = -1 then some [] else strTo funcName end_

/-- `pathSuffix`, trace.go:127-134, with the bounds checks of the slice expressions. -/
def pathSuffix' (path : List Char) : Option (List Char) :=
  let lastSep := lastIndex path '/'
  if lastSep = -1 then some path
  else do
    let dir ← strTo path lastSep
    strFrom path (lastIndex dir '/' + 1)

/-- `Frame.CompactFileLine`, trace.go:107-116, with the bounds checks. -/
def compactFileLine' (fr : Frame) : Option String := do
  let file := (cut fr.fileLine.toList ':').1
  let line := (cut fr.fileLine.toList ':').2
  let pre ← pkgPrefix' fr.function.toList
  let suf ← pathSuffix' file
  let file := if pre = [] then suf else pre ++ '/' :: suf
  return String.ofList (file ++ ':' :: line)

theorem splitAt_ne_nil (sep : Char) (s : List Char) : splitAt sep s ≠ [] := by
  cases s with
  | nil => simp [splitAt]
  | cons c s =>
    unfold splitAt
    split
    · simp
    · split <;> simp

theorem splitAt_clean {sep : Char} (a : List Char) (h : sep ∉ a) : splitAt sep a = [a] := by
  induction a with
  | nil => rfl
  | cons c a ih =>
    simp only [List.mem_cons, not_or] at h
    unfold splitAt
    rw [if_neg (fun e => h.1 e.symm), ih h.2]

theorem splitAt_sep {sep : Char} (a b : List Char) (h : sep ∉ a) : splitAt sep (a ++ sep :: b) = a :: splitAt sep b := by
  induction a with
  | nil => rw [List.nil_append]; conv => lhs; unfold splitAt
           rw [if_pos rfl]
  | cons c a ih =>
    simp only [List.mem_cons, not_or] at h
    rw [List.cons_append]
    conv => lhs; unfold splitAt
    rw [if_neg (fun e => h.1 e.symm), ih h.2]

/-- Splitting at the last separator. -/
theorem splitAt_last {sep : Char} (a b : List Char) (h : sep ∉ b) : splitAt sep (a ++ sep :: b) = splitAt sep a ++ [b] := by
  induction a with
  | nil =>
    rw [List.nil_append]
    conv => lhs; unfold splitAt
    rw [if_pos rfl, splitAt_clean b h]; rfl
  | cons c a ih =>
    rw [List.cons_append]
    conv => lhs; unfold splitAt
    conv => rhs; unfold splitAt
    rw [ih]
    by_cases hc : c = sep
    · rw [if_pos hc, if_pos hc]; rfl
    · rw [if_neg hc, if_neg hc]
      cases hs : splitAt sep a with
      | nil => exact absurd hs (splitAt_ne_nil sep a)
      | cons p ps => rfl

theorem joinWith_splitAt (sep : Char) (s : List Char) : joinWith sep (splitAt sep s) = s := by
  induction s with
  | nil => rfl
  | cons c s ih =>
    unfold splitAt
    cases hs : splitAt sep s with
    | nil => exact absurd hs (splitAt_ne_nil sep s)
    | cons p ps =>
      rw [hs] at ih
      by_cases hc : c = sep
      · rw [if_pos hc]
        show [] ++ sep :: joinWith sep (p :: ps) = c :: s
        rw [ih, hc]; rfl
      · rw [if_neg hc]
        show joinWith sep ((c :: p) :: ps) = c :: s
        rw [← ih]
        cases ps <;> rfl

/-- `strings.LastIndex`: -1 if the separator is missing, otherwise the string splits there. -/
theorem lastIndex_cases (s : List Char) (sep : Char) :
    (sep ∉ s ∧ lastIndex s sep = -1) ∨
    (∃ a b, s = a ++ sep :: b ∧ sep ∉ b ∧ lastIndex s sep = a.length) := by
  unfold lastIndex
  cases h : s.reverse.findIdx? (· == sep) with
  | none =>
    left
    rw [List.findIdx?_eq_none_iff] at h
    refine ⟨fun hm => ?_, rfl⟩
    have := h sep (by simpa using hm)
    simp at this
  | some i =>
    right
    rw [List.findIdx?_eq_some_iff_getElem] at h
    obtain ⟨hi, h1, h2⟩ := h
    rw [List.length_reverse] at hi
    refine ⟨s.take (s.length - 1 - i), s.drop (s.length - i), ?_, ?_, ?_⟩
    · rw [List.getElem_reverse] at h1
      have h1' : s[s.length - 1 - i] = sep := by simpa using h1
      have : s = s.take (s.length - 1 - i) ++ s.drop (s.length - 1 - i) := (List.take_append_drop _ _).symm
      conv => lhs; rw [this]
      rw [List.drop_eq_getElem_cons (by omega), h1', show s.length - 1 - i + 1 = s.length - i from by omega]
    · intro hm
      obtain ⟨j, hj, hjs⟩ := List.getElem_of_mem hm
      rw [List.length_drop] at hj
      rw [List.getElem_drop] at hjs
      have := h2 (i - 1 - j) (by omega)
      rw [List.getElem_reverse] at this
      simp only [beq_iff_eq] at this
      apply this
      rw [← hjs]
      congr 1
      omega
    · rw [List.length_take]
      show (s.length : Int) - 1 - i = _
      omega

theorem pkgPrefix'_spec (fn : List Char) : pkgPrefix' fn = some (joinWith '/' (splitAt '/' fn).dropLast) := by
  unfold pkgPrefix'
  rcases lastIndex_cases fn '/' with ⟨h1, h2⟩ | ⟨a, b, hs, hb, h2⟩
  · rw [h2, splitAt_clean _ h1]; rfl
  · rw [h2]
    simp only
    rw [if_neg (by omega), strTo, Go.sliceTo, if_pos (by rw [hs, List.length_append]; omega), hs, splitAt_last a b hb,
      List.dropLast_concat, joinWith_splitAt]
    simp

/-- The last two elements. -/
def lastTwo (l : List (List Char)) : List (List Char) := l.drop (l.length - 2)

theorem pathSuffix'_spec (path : List Char) : pathSuffix' path = some (joinWith '/' (lastTwo (splitAt '/' path))) := by
  unfold pathSuffix'
  rcases lastIndex_cases path '/' with ⟨h1, h2⟩ | ⟨a, b, hs, hb, h2⟩
  · rw [h2, splitAt_clean _ h1]; rfl
  · rw [h2]
    simp only
    rw [if_neg (by omega), strTo, Go.sliceTo, if_pos (by rw [hs, List.length_append]; omega)]
    have ht : path.take (a.length : Int).toNat = a := by rw [hs]; simp
    rw [ht]
    simp only [Option.bind_eq_bind, Option.bind_some]
    rw [hs, splitAt_last a b hb]
    rcases lastIndex_cases a '/' with ⟨h3, h4⟩ | ⟨a', b', hs', hb', h4⟩
    · rw [h4, splitAt_clean a h3, strFrom, Go.sliceFrom, if_pos (by simp; omega)]
      rfl
    · rw [h4, strFrom, Go.sliceFrom, if_pos (by rw [hs']; simp; omega), hs', splitAt_last a' b' hb']
      have e : lastTwo (splitAt '/' a' ++ [b'] ++ [b]) = [b', b] := by
        unfold lastTwo
        rw [List.append_assoc, List.drop_append_of_le_length (by simp), List.length_append]
        simp
      rw [e]
      have : ((a'.length : Int) + 1).toNat = (a' ++ ['/']).length := by rw [List.length_append]; simp
      rw [this, show a' ++ '/' :: b' ++ '/' :: b = (a' ++ ['/']) ++ (b' ++ '/' :: b) from by simp, List.drop_left]
      rfl

/-- **C74** `CompactFileLine` never panics.  Its result is `file:line`, where the line is what
follows the first colon, and the file is the path of the function (all its path elements but the
last), if it has any, joined with the last two path elements of the file. -/
theorem C74_compact (fr : Frame) :
    ∃ file line pkg,
      file = fr.fileLine.toList.takeWhile (· != ':') ∧
      (∀ a b, fr.fileLine.toList = a ++ ':' :: b → ':' ∉ a → line = b) ∧ (':' ∉ fr.fileLine.toList → line = []) ∧
      pkg = joinWith '/' (splitAt '/' fr.function.toList).dropLast ∧
      compactFileLine' fr = some (String.ofList
        ((if pkg = [] then [] else pkg ++ ['/']) ++ joinWith '/' (lastTwo (splitAt '/' file)) ++ ':' :: line)) := by
  refine ⟨_, (cut fr.fileLine.toList ':').2, _, rfl, ?_, ?_, rfl, ?_⟩
  · intro a b h ha
    unfold cut
    rw [h]
    have : (a ++ ':' :: b).dropWhile (· != ':') = ':' :: b := by
      clear h
      induction a with
      | nil => simp
      | cons c a ih =>
        simp only [List.mem_cons, not_or] at ha
        rw [List.cons_append, List.dropWhile_cons_of_pos (by simpa using fun e => ha.1 e.symm)]
        exact ih ha.2
    rw [this]; rfl
  · intro h
    unfold cut
    have : fr.fileLine.toList.dropWhile (· != ':') = [] := by
      generalize fr.fileLine.toList = l at h
      induction l with
      | nil => rfl
      | cons c l ih =>
        simp only [List.mem_cons, not_or] at h
        rw [List.dropWhile_cons_of_pos (by simpa using fun e => h.1 e.symm)]
        exact ih h.2
    rw [this]; rfl
  · unfold compactFileLine'
    rw [pkgPrefix'_spec]
    simp only [Option.bind_eq_bind, Option.bind_some]
    rw [pathSuffix'_spec]
    simp only [Option.bind_some, cut]
    split <;> simp

/-- The filter's model of `CompactFileLine` (`Verif/Search/Static.lean`) is this function. -/
theorem C74_filter_model (fr : Frame) : compactFileLine' fr = some (compactFileLine fr) := by
  have h1 : ∀ fn, pkgPrefix' fn = some (pkgPrefix fn) := by
    intro fn
    unfold pkgPrefix' pkgPrefix
    rcases lastIndex_cases fn '/' with ⟨_, h2⟩ | ⟨a, b, hs, hb, h2⟩
    · rw [h2]; rfl
    · rw [h2]; simp only; rw [if_neg (by omega), if_neg (by omega), strTo, Go.sliceTo,
        if_pos (by rw [hs, List.length_append]; omega)]
  have h2 : ∀ path, pathSuffix' path = some (pathSuffix path) := by
    intro path
    unfold pathSuffix' pathSuffix
    rcases lastIndex_cases path '/' with ⟨_, h2⟩ | ⟨a, b, hs, hb, h2⟩
    · rw [h2]; rfl
    · rw [h2]; simp only; rw [if_neg (by omega), if_neg (by omega), strTo, Go.sliceTo,
        if_pos (by rw [hs, List.length_append]; omega)]
      have ht : path.take (a.length : Int).toNat = a := by rw [hs]; simp
      rw [ht]
      simp only [Option.bind_eq_bind, Option.bind_some]
      rw [strFrom, Go.sliceFrom, if_pos]
      rcases lastIndex_cases a '/' with ⟨_, h4⟩ | ⟨a', b', hs', hb', h4⟩
      · rw [h4]; simp
      · rw [h4, hs, hs']; simp; omega
  unfold compactFileLine' compactFileLine
  rw [h1]
  simp only [Option.bind_eq_bind, Option.bind_some]
  rw [h2]
  rfl

example : compactFileLine' ⟨"github.com/peterbourgon/trc.(*T).F", "/home/x/src/trc/trace.go:12"⟩
    = some "github.com/peterbourgon/trc/trace.go:12" := by decide +kernel
example : compactFileLine' ⟨"main.main", "main.go"⟩ = some "main.go:" := by decide +kernel

end

/-! ## C73 -/

namespace Util

/-- The unit that durations of this size are truncated to (1ns: not truncated). -/
def unitOf (d : Int) : Int :=
  if 864000000000000 ≤ d then 86400000000000 else      -- 10 days: days
  if 86400000000000 ≤ d then 3600000000000 else        -- a day: hours
  if 3600000000000 ≤ d then 60000000000 else           -- an hour: minutes
  if 60000000000 ≤ d then 1000000000 else              -- a minute: seconds
  if 1000000000 ≤ d then 100000000 else                -- a second: 100ms
  if 10000000 ≤ d then 1000000 else                    -- 10ms: ms
  if 1000000 ≤ d then 100000 else                      -- 1ms: 100µs
  if 1000 ≤ d then 1000 else 1                         -- 1µs: µs

theorem truncateDuration_eq (d : Int) : truncateDuration d = d - d % unitOf d := by
  have h : ∀ m : Int, 0 < m → 0 ≤ d → truncate d m = d - d % m := by
    intro m hm hd
    unfold truncate
    rw [if_neg (by omega), Int.tmod_eq_emod_of_nonneg hd]
  unfold truncateDuration unitOf microsecond millisecond second minute hour
  repeat' split
  all_goals first
    | omega
    | (rw [h _ (by omega) (by omega)]; try omega)

/-- **C73** Truncation never increases a non-negative duration, changes it by less than its unit,
to a multiple of the unit. -/
theorem C73_bounds (d : Int) (h : 0 ≤ d) :
    truncateDuration d ≤ d ∧ 0 ≤ truncateDuration d ∧ d - truncateDuration d < unitOf d ∧
    truncateDuration d % unitOf d = 0 := by
  rw [truncateDuration_eq]
  unfold unitOf
  repeat' split
  all_goals omega

theorem unitOf_cases (d : Int) :
    (864000000000000 ≤ d ∧ unitOf d = 86400000000000) ∨
    (86400000000000 ≤ d ∧ d < 864000000000000 ∧ unitOf d = 3600000000000) ∨
    (3600000000000 ≤ d ∧ d < 86400000000000 ∧ unitOf d = 60000000000) ∨
    (60000000000 ≤ d ∧ d < 3600000000000 ∧ unitOf d = 1000000000) ∨
    (1000000000 ≤ d ∧ d < 60000000000 ∧ unitOf d = 100000000) ∨
    (10000000 ≤ d ∧ d < 1000000000 ∧ unitOf d = 1000000) ∨
    (1000000 ≤ d ∧ d < 10000000 ∧ unitOf d = 100000) ∨
    (1000 ≤ d ∧ d < 1000000 ∧ unitOf d = 1000) ∨ (d < 1000 ∧ unitOf d = 1) := by
  unfold unitOf
  repeat' split
  all_goals omega

theorem truncate_unit (d : Int) : unitOf (d - d % unitOf d) = unitOf d := by
  have h := unitOf_cases d
  generalize unitOf d = u at h ⊢
  rcases h with ⟨h1, rfl⟩ | ⟨h1, h2, rfl⟩ | ⟨h1, h2, rfl⟩ | ⟨h1, h2, rfl⟩ | ⟨h1, h2, rfl⟩ | ⟨h1, h2, rfl⟩ | ⟨h1, h2, rfl⟩ |
    ⟨h1, h2, rfl⟩ | ⟨h1, rfl⟩
  all_goals
    unfold unitOf
    repeat' split
    all_goals omega

/-- **C73** It is monotone. -/
theorem C73_monotone (d e : Int) (h : d ≤ e) : truncateDuration d ≤ truncateDuration e := by
  rw [truncateDuration_eq, truncateDuration_eq]
  have hd := unitOf_cases d
  have he := unitOf_cases e
  generalize unitOf d = u at hd ⊢
  generalize unitOf e = v at he ⊢
  rcases he with ⟨h1, rfl⟩ | ⟨h1, h2, rfl⟩ | ⟨h1, h2, rfl⟩ | ⟨h1, h2, rfl⟩ | ⟨h1, h2, rfl⟩ | ⟨h1, h2, rfl⟩ | ⟨h1, h2, rfl⟩ |
    ⟨h1, h2, rfl⟩ | ⟨h1, rfl⟩
  all_goals
    rcases hd with ⟨h3, rfl⟩ | ⟨h3, h4, rfl⟩ | ⟨h3, h4, rfl⟩ | ⟨h3, h4, rfl⟩ | ⟨h3, h4, rfl⟩ | ⟨h3, h4, rfl⟩ | ⟨h3, h4, rfl⟩ |
      ⟨h3, h4, rfl⟩ | ⟨h3, rfl⟩
    all_goals omega

/-- **C73** It is idempotent. -/
theorem C73_idempotent (d : Int) : truncateDuration (truncateDuration d) = truncateDuration d := by
  have h : (d - d % unitOf d) % unitOf d = 0 := by
    have h := unitOf_cases d
    generalize unitOf d = u at h ⊢
    rcases h with ⟨h1, rfl⟩ | ⟨h1, h2, rfl⟩ | ⟨h1, h2, rfl⟩ | ⟨h1, h2, rfl⟩ | ⟨h1, h2, rfl⟩ | ⟨h1, h2, rfl⟩ | ⟨h1, h2, rfl⟩ |
      ⟨h1, h2, rfl⟩ | ⟨h1, rfl⟩
    all_goals omega
  rw [truncateDuration_eq (truncateDuration d), truncateDuration_eq d, truncate_unit, h]
  omega

/-- **C73** Durations under a microsecond, in particular negative ones, are unchanged. -/
theorem C73_small (d : Int) (h : d < 1000) : truncateDuration d = d := by
  rw [truncateDuration_eq]
  unfold unitOf
  repeat' split
  all_goals omega

example : truncateDuration 93784567890123 = 93600000000000 ∧ truncateDuration 1567890 = 1500000 ∧
    truncateDuration (-5000000001) = -5000000001 := by decide

end Util

end Trc
