import Verif.Web.JSONText
import Verif.Web.DurationLemmas
import Verif.Web.JSONLemmas
import Verif.Props.TimeText
import Verif.Props.Numbers

/-!
# Reading JSON (RFC 8259) and times (RFC 3339), and that what is written is read

A reader of JSON, written from the grammar and independent of how values are written.  It knows no escaped surrogates, as these
are not written.
-/

set_option linter.unusedVariables false
set_option linter.unusedSimpArgs false

namespace Trc.Web

open Trc.Util (readDigits readDigits_fmtInt)

/-! ## The reader -/

def isWs (c : Char) : Bool := c == ' ' || c == '\t' || c == '\n' || c == '\r'

def skip (s : List Char) : List Char := s.dropWhile isWs

def hexVal (c : Char) : Option Nat :=
  if 48 ≤ c.toNat ∧ c.toNat ≤ 57 then some (c.toNat - 48)
  else if 97 ≤ c.toNat ∧ c.toNat ≤ 102 then some (c.toNat - 87)
  else if 65 ≤ c.toNat ∧ c.toNat ≤ 70 then some (c.toNat - 55)
  else none

/-- The character of `\uXXXX`, unless it is half of one. -/
def unit (a b c d : Char) : Option Char :=
  match hexVal a, hexVal b, hexVal c, hexVal d with
  | some a, some b, some c, some d =>
    let n := ((a * 16 + b) * 16 + c) * 16 + d
    if 0xD800 ≤ n ∧ n ≤ 0xDFFF then none else some (Char.ofNat n)
  | _, _, _, _ => none

/-- The character of another escape. -/
def simpleEscape (e : Char) : Option Char :=
  if e = '"' then some '"' else if e = '\\' then some '\\' else if e = '/' then some '/'
  else if e = 'b' then some '\x08' else if e = 'f' then some '\x0c' else if e = 'n' then some '\n'
  else if e = 'r' then some '\r' else if e = 't' then some '\t' else none

/-- A string, after the quotation mark, and what follows it. -/
def readString : List Char → Option (List Char × List Char)
  | [] => none
  | c :: r =>
    if c = '"' then some ([], r)
    else if c = '\\' then
      match r with
      | [] => none
      | e :: r =>
        if e = 'u' then
          match r with
          | a :: b :: x :: y :: r =>
            match unit a b x y with
            | none => none
            | some z => (readString r).map fun p => (z :: p.1, p.2)
          | _ => none
        else
          match simpleEscape e with
          | none => none
          | some z => (readString r).map fun p => (z :: p.1, p.2)
    else if c.toNat < 32 then none
    else (readString r).map fun p => (c :: p.1, p.2)

def numChar (c : Char) : Bool := isDigit c || c == '-' || c == '+' || c == '.' || c == 'e' || c == 'E'

/-- The end of a number: an exponent, if any. -/
def isExp : List Char → Bool
  | [] => true
  | e :: r =>
    (e == 'e' || e == 'E') &&
      (let r := if r.head? = some '+' ∨ r.head? = some '-' then r.tail else r
       !r.isEmpty && r.all isDigit)

/-- A fraction, if any, and an exponent. -/
def isFrac (l : List Char) : Bool :=
  if l.head? = some '.' then !(l.tail.takeWhile isDigit).isEmpty && isExp (l.tail.dropWhile isDigit) else isExp l

/-- A number without sign: no zeros at the front. -/
def isUnsigned : List Char → Bool
  | [] => false
  | c :: r => if c = '0' then isFrac r else isDigit c && isFrac (r.dropWhile isDigit)

def isNumber (l : List Char) : Bool := isUnsigned (if l.head? = some '-' then l.tail else l)

mutual
/-- A value, and what follows it. -/
def parseValue : Nat → List Char → Option (JText × List Char)
  | 0, _ => none
  | n + 1, s =>
    match skip s with
    | [] => none
    | c :: r =>
      if c = '"' then (readString r).map fun p => (.str (String.ofList p.1), p.2)
      else if c = '[' then
        match skip r with
        | [] => none
        | e :: r' => if e = ']' then some (.arr [], r') else (parseElems n r).map fun p => (.arr p.1, p.2)
      else if c = '{' then
        match skip r with
        | [] => none
        | e :: r' => if e = '}' then some (.obj [], r') else (parseMembers n r).map fun p => (.obj p.1, p.2)
      else if c = 'n' then (if ['u', 'l', 'l'].isPrefixOf r then some (.null, r.drop 3) else none)
      else if c = 't' then (if ['r', 'u', 'e'].isPrefixOf r then some (.bool true, r.drop 3) else none)
      else if c = 'f' then (if ['a', 'l', 's', 'e'].isPrefixOf r then some (.bool false, r.drop 4) else none)
      else if isNumber ((c :: r).takeWhile numChar) then some (.num ((c :: r).takeWhile numChar), (c :: r).dropWhile numChar)
      else none

/-- The elements of an array that is not empty. -/
def parseElems : Nat → List Char → Option (List JText × List Char)
  | 0, _ => none
  | n + 1, s =>
    match parseValue n s with
    | none => none
    | some (v, r) =>
      match skip r with
      | [] => none
      | c :: r' =>
        if c = ']' then some ([v], r')
        else if c = ',' then (parseElems n r').map fun p => (v :: p.1, p.2)
        else none

/-- The members of an object that is not empty. -/
def parseMembers : Nat → List Char → Option (List (String × JText) × List Char)
  | 0, _ => none
  | n + 1, s =>
    match skip s with
    | [] => none
    | c :: r =>
      if c = '"' then
        match readString r with
        | none => none
        | some (k, r) =>
          match skip r with
          | [] => none
          | c :: r =>
            if c = ':' then
              match parseValue n r with
              | none => none
              | some (v, r) =>
                match skip r with
                | [] => none
                | c :: r' =>
                  if c = '}' then some ([(String.ofList k, v)], r')
                  else if c = ',' then (parseMembers n r').map fun p => ((String.ofList k, v) :: p.1, p.2)
                  else none
            else none
      else none
end

/-- A JSON text. -/
def readJSON (s : List Char) : Option JText :=
  match parseValue (2 * s.length + 2) s with
  | some (v, r) => if skip r = [] then some v else none
  | none => none

/-- JSON texts one after the other. -/
def readSeq : Nat → List Char → Option (List JText)
  | 0, _ => none
  | n + 1, s =>
    if skip s = [] then some []
    else match parseValue (2 * s.length + 2) s with
      | none => none
      | some (v, r) => (readSeq n r).map (v :: ·)

def readValues (s : List Char) : Option (List JText) := readSeq (s.length + 1) s

/-! ## Strings -/

theorem readString_cons (c : Char) (r : List Char) : readString (c :: r) =
    if c = '"' then some ([], r)
    else if c = '\\' then
      match r with
      | [] => none
      | e :: r =>
        if e = 'u' then
          match r with
          | a :: b :: x :: y :: r =>
            match unit a b x y with
            | none => none
            | some z => (readString r).map fun p => (z :: p.1, p.2)
          | _ => none
        else
          match simpleEscape e with
          | none => none
          | some z => (readString r).map fun p => (z :: p.1, p.2)
    else if c.toNat < 32 then none
    else (readString r).map fun p => (c :: p.1, p.2) := by
  rw [readString.eq_def]

theorem hex_digit (k : Nat) (h : k < 16) : hexVal (hexChar k) = some k := by
  have : ∀ k : Fin 16, hexVal (hexChar k.val) = some k.val := by decide
  exact this ⟨k, h⟩

theorem unit_escape (c : Char) (h : c.toNat < 0xD800) :
    unit (hexChar (c.toNat / 4096 % 16)) (hexChar (c.toNat / 256 % 16)) (hexChar (c.toNat / 16 % 16)) (hexChar (c.toNat % 16)) = some c := by
  unfold unit
  rw [hex_digit _ (Nat.mod_lt _ (by decide)), hex_digit _ (Nat.mod_lt _ (by decide)), hex_digit _ (Nat.mod_lt _ (by decide)),
    hex_digit _ (Nat.mod_lt _ (by decide))]
  have e : ((c.toNat / 4096 % 16 * 16 + c.toNat / 256 % 16) * 16 + c.toNat / 16 % 16) * 16 + c.toNat % 16 = c.toNat := by omega
  simp only [e]
  rw [if_neg (by omega), Char.ofNat_toNat]

theorem read_escapeU (c : Char) (h : c.toNat < 0xD800) (s : List Char) :
    readString (escapeU c.toNat ++ s) = (readString s).map fun p => (c :: p.1, p.2) := by
  unfold escapeU
  simp only [List.cons_append, List.nil_append]
  rw [readString_cons]
  rw [if_neg (by decide), if_pos rfl]
  simp only [if_true]
  rw [unit_escape c h]

theorem read_simple (e z : Char) (h : simpleEscape e = some z) (he : e ≠ 'u') (s : List Char) :
    readString (['\\', e] ++ s) = (readString s).map fun p => (z :: p.1, p.2) := by
  simp only [List.cons_append, List.nil_append]
  rw [readString_cons]
  rw [if_neg (by decide), if_pos rfl]
  simp only [if_neg he, h]

theorem read_escape (c : Char) (s : List Char) : readString (escapeChar c ++ s) = (readString s).map fun p => (c :: p.1, p.2) := by
  unfold escapeChar
  split
  · rename_i h; subst h; exact read_simple '"' '"' (by decide) (by decide) s
  split
  · rename_i h; subst h; exact read_simple '\\' '\\' (by decide) (by decide) s
  split
  · rename_i h; subst h; exact read_simple 'b' '\x08' (by decide) (by decide) s
  split
  · rename_i h; subst h; exact read_simple 'f' '\x0c' (by decide) (by decide) s
  split
  · rename_i h; subst h; exact read_simple 'n' '\n' (by decide) (by decide) s
  split
  · rename_i h; subst h; exact read_simple 'r' '\r' (by decide) (by decide) s
  split
  · rename_i h; subst h; exact read_simple 't' '\t' (by decide) (by decide) s
  split
  · exact read_escapeU c (by omega) s
  split
  · rename_i h
    refine read_escapeU c ?_ s
    rcases h with rfl | rfl | rfl <;> decide
  split
  · rename_i h
    refine read_escapeU c ?_ s
    omega
  · rename_i h1 h2 _ _ _ _ _ h3 _ _
    rw [List.singleton_append, readString_cons, if_neg h1, if_neg h2, if_neg h3]

theorem read_string (s : String) (r : List Char) : ∃ t, writeString s ++ r = '"' :: t ∧ readString t = some (s.toList, r) := by
  refine ⟨s.toList.flatMap escapeChar ++ '"' :: r, by simp [writeString], ?_⟩
  generalize s.toList = l
  induction l with
  | nil => rw [List.flatMap_nil, List.nil_append, readString_cons, if_pos rfl]
  | cons c l ih => rw [List.flatMap_cons, List.append_assoc, read_escape, ih]; rfl

/-- Nothing that is written in a string is a control character. -/
theorem escape_printable (c x : Char) (h : x ∈ escapeChar c) : 32 ≤ x.toNat := by
  have hx : ∀ k, k < 16 → 32 ≤ (hexChar k).toNat := by
    intro k hk
    have : ∀ k : Fin 16, 32 ≤ (hexChar k.val).toNat := by decide
    exact this ⟨k, hk⟩
  have hu : ∀ n, x ∈ escapeU n → 32 ≤ x.toNat := by
    intro n h
    unfold escapeU at h
    simp only [List.mem_cons, List.not_mem_nil, or_false] at h
    rcases h with rfl | rfl | rfl | rfl | rfl | rfl
    · decide
    · decide
    all_goals exact hx _ (Nat.mod_lt _ (by decide))
  unfold escapeChar at h
  repeat' split at h
  any_goals exact hu _ h
  any_goals
    simp only [List.mem_cons, List.not_mem_nil, or_false] at h
    rcases h with rfl | rfl <;> decide
  rename_i h3 _ _
  simp only [List.mem_cons, List.not_mem_nil, or_false] at h
  subst h
  omega

/-! ## Numbers -/

theorem exp_chars (l : List Char) (h : isExp l = true) : ∀ c ∈ l, numChar c = true := by
  have dig : ∀ r : List Char, r.all isDigit = true → ∀ c ∈ r, numChar c = true := by
    intro r hr c hc
    unfold numChar
    rw [List.all_eq_true.mp hr c hc]
    rfl
  cases l with
  | nil => intro c hc; cases hc
  | cons e r =>
    simp only [isExp, Bool.and_eq_true] at h
    obtain ⟨he, -, hd⟩ := h
    intro c hc
    rw [List.mem_cons] at hc
    rcases hc with rfl | hc
    · rw [Bool.or_eq_true, beq_iff_eq, beq_iff_eq] at he
      rcases he with rfl | rfl <;> decide
    · split at hd
      · rename_i hs
        cases r with
        | nil => cases hc
        | cons x r =>
          rw [List.mem_cons] at hc
          rcases hc with rfl | hc
          · simp only [List.head?_cons, Option.some.injEq] at hs
            rcases hs with rfl | rfl <;> decide
          · exact dig r hd c hc
      · exact dig r hd c hc

theorem frac_chars (l : List Char) (h : isFrac l = true) : ∀ c ∈ l, numChar c = true := by
  unfold isFrac at h
  split at h
  · rename_i hs
    cases l with
    | nil => cases hs
    | cons x r =>
      simp only [List.head?_cons, Option.some.injEq] at hs
      subst hs
      simp only [List.tail_cons, Bool.and_eq_true] at h
      intro c hc
      rw [List.mem_cons] at hc
      rcases hc with rfl | hc
      · decide
      · rw [← List.takeWhile_append_dropWhile (p := isDigit) (l := r), List.mem_append] at hc
        rcases hc with hc | hc
        · unfold numChar
          have : isDigit c = true := by
            clear h
            induction r with
            | nil => cases hc
            | cons y r ih =>
              by_cases hy : isDigit y = true
              · rw [List.takeWhile_cons_of_pos hy, List.mem_cons] at hc
                rcases hc with rfl | hc
                · exact hy
                · exact ih hc
              · rw [List.takeWhile_cons_of_neg hy] at hc; cases hc
          rw [this]; rfl
        · exact exp_chars _ h.2 c hc
  · exact exp_chars _ h

theorem digits_chars {r : List Char} (h : ∀ c ∈ r.dropWhile isDigit, numChar c = true) : ∀ c ∈ r, numChar c = true := by
  intro c hc
  induction r with
  | nil => cases hc
  | cons y r ih =>
    by_cases hy : isDigit y = true
    · rw [List.dropWhile_cons_of_pos hy] at h
      rw [List.mem_cons] at hc
      rcases hc with rfl | hc
      · unfold numChar; rw [hy]; rfl
      · exact ih h hc
    · rw [List.dropWhile_cons_of_neg hy] at h
      exact h c hc

theorem unsigned_chars (l : List Char) (h : isUnsigned l = true) : ∀ c ∈ l, numChar c = true := by
  cases l with
  | nil => cases h
  | cons x r =>
    rw [isUnsigned] at h
    intro c hc
    rw [List.mem_cons] at hc
    split at h
    · rename_i hx
      rcases hc with rfl | hc
      · rw [hx]; decide
      · exact frac_chars r h c hc
    · rw [Bool.and_eq_true] at h
      rcases hc with rfl | hc
      · unfold numChar; rw [h.1]; rfl
      · exact digits_chars (frac_chars _ h.2) c hc

theorem number_chars (l : List Char) (h : isNumber l = true) : l ≠ [] ∧ ∀ c ∈ l, numChar c = true := by
  unfold isNumber at h
  cases l with
  | nil => exact absurd h (by decide)
  | cons x r =>
    refine ⟨by simp, ?_⟩
    split at h
    · rename_i hs
      simp only [List.head?_cons, Option.some.injEq] at hs
      subst hs
      intro c hc
      rw [List.mem_cons] at hc
      rcases hc with rfl | hc
      · decide
      · exact unsigned_chars r h c hc
    · exact unsigned_chars _ h

theorem numChar_clean {c : Char} (h : numChar c = true) : isWs c = false ∧ c ≠ '"' ∧ c ≠ '[' ∧ c ≠ '{' ∧ c ≠ 'n' ∧ c ≠ 't' ∧ c ≠ 'f' := by
  refine ⟨?_, ?_, ?_, ?_, ?_, ?_, ?_⟩
  · cases hw : isWs c with
    | false => rfl
    | true =>
      simp only [isWs, Bool.or_eq_true, beq_iff_eq] at hw
      rcases hw with ((rfl | rfl) | rfl) | rfl <;> exact absurd h (by decide)
  all_goals rintro rfl; exact absurd h (by decide)

/-! ## What is written is read -/

mutual
/-- All numbers are numbers. -/
def Valid : JText → Prop
  | .null => True
  | .bool _ => True
  | .num n => isNumber n = true
  | .str _ => True
  | .arr l => ValidElems l
  | .obj l => ValidMembers l

def ValidElems : List JText → Prop
  | [] => True
  | v :: l => Valid v ∧ ValidElems l

def ValidMembers : List (String × JText) → Prop
  | [] => True
  | (_, v) :: l => Valid v ∧ ValidMembers l
end

mutual
/-- What the reader needs for a value. -/
def need : JText → Nat
  | .arr l => needElems l + 1
  | .obj l => needMembers l + 1
  | .null => 1
  | .bool _ => 1
  | .num _ => 1
  | .str _ => 1

def needElems : List JText → Nat
  | [] => 0
  | v :: l => need v + needElems l + 1

def needMembers : List (String × JText) → Nat
  | [] => 0
  | (_, v) :: l => need v + needMembers l + 1
end

/-- Elements are separated by white space only. -/
structure Layout.Blank (y : Layout) : Prop where
  newline : ∀ d, ∀ c ∈ y.newline d, isWs c = true
  space : ∀ c ∈ y.space, isWs c = true

theorem compact_blank : compact.Blank := ⟨fun _ _ h => (by cases h), fun _ h => (by cases h)⟩

theorem pretty_blank : pretty.Blank := by
  constructor
  · intro d c h
    simp only [pretty, List.mem_cons, List.mem_replicate] at h
    rcases h with rfl | ⟨-, rfl⟩ <;> decide
  · intro c h
    simp only [pretty, List.mem_cons, List.not_mem_nil, or_false] at h
    subst h; decide

/-- What follows does not begin like a number. -/
def NumEnd (s : List Char) : Prop := ∀ c, s.head? = some c → numChar c = false

theorem skip_ws {w : List Char} (hw : ∀ c ∈ w, isWs c = true) (s : List Char) : skip (w ++ s) = skip s := by
  induction w with
  | nil => rfl
  | cons c w ih =>
    show (c :: (w ++ s)).dropWhile isWs = _
    rw [List.dropWhile_cons_of_pos (hw c (by simp))]
    exact ih fun x hx => hw x (by simp [hx])

theorem skip_cons {c : Char} (h : isWs c = false) (s : List Char) : skip (c :: s) = c :: s := by
  unfold skip
  rw [List.dropWhile_cons_of_neg (by rw [h]; decide)]

theorem numEnd_ws {w : List Char} (hw : ∀ c ∈ w, isWs c = true) {s : List Char} (hs : NumEnd s) : NumEnd (w ++ s) := by
  cases w with
  | nil => exact hs
  | cons x w =>
    intro c hc
    simp only [List.cons_append, List.head?_cons, Option.some.injEq] at hc
    subst hc
    have := hw x (by simp)
    cases hn : numChar x with
    | false => rfl
    | true => rw [(numChar_clean hn).1] at this; cases this

theorem numEnd_cons {c : Char} (h : numChar c = false) (s : List Char) : NumEnd (c :: s) := by
  intro x hx
  simp only [List.head?_cons, Option.some.injEq] at hx
  subst hx; exact h

theorem numEnd_elems {y : Layout} (hy : y.Blank) (d : Nat) (l : List JText) (s : List Char) : NumEnd (writeElems y d l ++ s) := by
  cases l with
  | nil =>
    rw [writeElems, List.append_assoc]
    exact numEnd_ws (hy.newline d) (numEnd_cons (by decide) _)
  | cons v l => rw [writeElems]; exact numEnd_cons (by decide) _

theorem numEnd_members {y : Layout} (hy : y.Blank) (d : Nat) (l : List (String × JText)) (s : List Char) : NumEnd (writeMembers y d l ++ s) := by
  cases l with
  | nil =>
    rw [writeMembers, List.append_assoc]
    exact numEnd_ws (hy.newline d) (numEnd_cons (by decide) _)
  | cons p l => obtain ⟨k, v⟩ := p; rw [writeMembers]; exact numEnd_cons (by decide) _

theorem takeWhile_number {l s : List Char} (hl : ∀ c ∈ l, numChar c = true) (hs : NumEnd s) :
    (l ++ s).takeWhile numChar = l ∧ (l ++ s).dropWhile numChar = s := by
  induction l with
  | nil =>
    cases s with
    | nil => exact ⟨rfl, rfl⟩
    | cons c s =>
      have := hs c rfl
      rw [List.nil_append, List.takeWhile_cons_of_neg (by rw [this]; decide), List.dropWhile_cons_of_neg (by rw [this]; decide)]
      exact ⟨rfl, rfl⟩
  | cons c l ih =>
    have hc := hl c (by simp)
    obtain ⟨a, b⟩ := ih fun x hx => hl x (by simp [hx])
    rw [List.cons_append, List.takeWhile_cons_of_pos hc, List.dropWhile_cons_of_pos hc, a, b]
    exact ⟨rfl, rfl⟩

/-- A value does not begin with white space or the end of an array. -/
theorem write_head (y : Layout) (d : Nat) (v : JText) (hv : Valid v) (s : List Char) :
    ∃ c r, write y d v ++ s = c :: r ∧ isWs c = false ∧ c ≠ ']' ∧ c ≠ '}' := by
  match v, hv with
  | .null, _ => exact ⟨'n', _, rfl, by decide, by decide, by decide⟩
  | .bool true, _ => exact ⟨'t', _, rfl, by decide, by decide, by decide⟩
  | .bool false, _ => exact ⟨'f', _, rfl, by decide, by decide, by decide⟩
  | .num n, hv =>
    rw [Valid] at hv
    obtain ⟨h1, h2⟩ := number_chars n hv
    cases n with
    | nil => exact absurd rfl h1
    | cons c n =>
      have hc := h2 c (by simp)
      refine ⟨c, n ++ s, rfl, (numChar_clean hc).1, ?_, ?_⟩ <;> · rintro rfl; exact absurd hc (by decide)
  | .str t, _ => exact ⟨'"', _, by simp only [write, writeString]; rfl, by decide, by decide, by decide⟩
  | .arr [], _ => exact ⟨'[', _, rfl, by decide, by decide, by decide⟩
  | .arr (v :: l), _ => exact ⟨'[', _, by rw [write]; rfl, by decide, by decide, by decide⟩
  | .obj [], _ => exact ⟨'{', _, rfl, by decide, by decide, by decide⟩
  | .obj ((k, v) :: l), _ => exact ⟨'{', _, by rw [write]; rfl, by decide, by decide, by decide⟩

mutual
theorem parse_write {y : Layout} (hy : y.Blank) : ∀ (v : JText), Valid v → ∀ (d n : Nat) (w s : List Char), need v ≤ n →
    (∀ c ∈ w, isWs c = true) → NumEnd s → parseValue n (w ++ (write y d v ++ s)) = some (v, s)
  | .null, _, d, n, w, s, hn, hw, hs => by
    obtain ⟨n, rfl⟩ : ∃ m, n = m + 1 := ⟨n - 1, by rw [need] at hn; omega⟩
    rw [parseValue, skip_ws hw]
    rw [write]
    rw [show ['n', 'u', 'l', 'l'] ++ s = 'n' :: 'u' :: 'l' :: 'l' :: s from rfl, skip_cons (by decide)]
    simp only
    rw [if_neg (by decide), if_neg (by decide), if_neg (by decide), if_pos (by trivial)]
    rfl
  | .bool true, _, d, n, w, s, hn, hw, hs => by
    obtain ⟨n, rfl⟩ : ∃ m, n = m + 1 := ⟨n - 1, by rw [need] at hn; omega⟩
    rw [parseValue, skip_ws hw, write, if_pos (by trivial)]
    rw [show ['t', 'r', 'u', 'e'] ++ s = 't' :: 'r' :: 'u' :: 'e' :: s from rfl, skip_cons (by decide)]
    simp only
    rw [if_neg (by decide), if_neg (by decide), if_neg (by decide), if_neg (by decide), if_pos (by trivial)]
    rfl
  | .bool false, _, d, n, w, s, hn, hw, hs => by
    obtain ⟨n, rfl⟩ : ∃ m, n = m + 1 := ⟨n - 1, by rw [need] at hn; omega⟩
    rw [parseValue, skip_ws hw, write, if_neg (by decide)]
    rw [show ['f', 'a', 'l', 's', 'e'] ++ s = 'f' :: 'a' :: 'l' :: 's' :: 'e' :: s from rfl, skip_cons (by decide)]
    simp only
    rw [if_neg (by decide), if_neg (by decide), if_neg (by decide), if_neg (by decide), if_neg (by decide), if_pos (by trivial)]
    rfl
  | .num l, hv, d, n, w, s, hn, hw, hs => by
    obtain ⟨n, rfl⟩ : ∃ m, n = m + 1 := ⟨n - 1, by rw [need] at hn; omega⟩
    rw [Valid] at hv
    obtain ⟨h1, h2⟩ := number_chars l hv
    obtain ⟨t1, t2⟩ := takeWhile_number h2 hs
    cases l with
    | nil => exact absurd rfl h1
    | cons c l =>
      obtain ⟨q0, q1, q2, q3, q4, q5, q6⟩ := numChar_clean (h2 c (by simp))
      rw [parseValue, skip_ws hw, write, List.cons_append, skip_cons q0]
      rw [List.cons_append] at t1 t2
      simp only
      rw [if_neg q1, if_neg q2, if_neg q3, if_neg q4, if_neg q5, if_neg q6, t1, t2, if_pos hv]
  | .str t, _, d, n, w, s, hn, hw, hs => by
    obtain ⟨n, rfl⟩ : ∃ m, n = m + 1 := ⟨n - 1, by rw [need] at hn; omega⟩
    rw [parseValue, skip_ws hw, write]
    obtain ⟨r, h1, h2⟩ := read_string t s
    rw [h1, skip_cons (by decide)]
    simp only
    rw [if_pos (by trivial), h2, Option.map_some, String.ofList_toList]
  | .arr [], _, d, n, w, s, hn, hw, hs => by
    obtain ⟨n, rfl⟩ : ∃ m, n = m + 1 := ⟨n - 1, by rw [need] at hn; omega⟩
    rw [parseValue, skip_ws hw, write]
    rw [show ['[', ']'] ++ s = '[' :: ']' :: s from rfl, skip_cons (by decide)]
    simp only
    rw [if_neg (by decide), if_pos (by trivial), skip_cons (by decide)]
    simp only [if_true]
  | .arr (v :: l), hv, d, n, w, s, hn, hw, hs => by
    obtain ⟨n, rfl⟩ : ∃ m, n = m + 1 := ⟨n - 1, by rw [need] at hn; omega⟩
    rw [Valid] at hv
    rw [parseValue, skip_ws hw, write, List.cons_append, skip_cons (by decide)]
    simp only
    rw [if_neg (by decide), if_pos (by trivial), List.append_assoc, List.append_assoc]
    have hv' := hv
    rw [ValidElems] at hv'
    obtain ⟨c, r, e, hc, hc', -⟩ := write_head y (d + 1) v hv'.1 (writeElems y d l ++ s)
    have hp := parse_elems hy v l hv d n (y.newline (d + 1)) s (by rw [need] at hn; omega) (hy.newline _)
    rw [hp, skip_ws (hy.newline _), e, skip_cons hc]
    simp only
    rw [if_neg hc']
    rfl
  | .obj [], _, d, n, w, s, hn, hw, hs => by
    obtain ⟨n, rfl⟩ : ∃ m, n = m + 1 := ⟨n - 1, by rw [need] at hn; omega⟩
    rw [parseValue, skip_ws hw, write]
    rw [show ['{', '}'] ++ s = '{' :: '}' :: s from rfl, skip_cons (by decide)]
    simp only
    rw [if_neg (by decide), if_neg (by decide), if_pos (by trivial), skip_cons (by decide)]
    simp only [if_true]
  | .obj ((k, v) :: l), hv, d, n, w, s, hn, hw, hs => by
    obtain ⟨n, rfl⟩ : ∃ m, n = m + 1 := ⟨n - 1, by rw [need] at hn; omega⟩
    rw [Valid] at hv
    rw [parseValue, skip_ws hw, write, List.cons_append, skip_cons (by decide)]
    simp only
    rw [if_neg (by decide), if_neg (by decide), if_pos (by trivial)]
    simp only [List.append_assoc, List.cons_append]
    have hp := parse_members hy k v l hv d n (y.newline (d + 1)) s (by rw [need] at hn; omega) (hy.newline _)
    rw [hp, skip_ws (hy.newline _)]
    obtain ⟨r, h1, -⟩ := read_string k (':' :: (y.space ++ (write y (d + 1) v ++ (writeMembers y d l ++ s))))
    rw [h1, skip_cons (by decide)]
    simp only
    rw [if_neg (by decide)]
    rfl
termination_by v => need v
decreasing_by all_goals (simp only [need, needElems, needMembers]; omega)

theorem parse_elems {y : Layout} (hy : y.Blank) : ∀ (v : JText) (l : List JText), ValidElems (v :: l) → ∀ (d n : Nat) (w s : List Char),
    needElems (v :: l) ≤ n → (∀ c ∈ w, isWs c = true) →
    parseElems n (w ++ (write y (d + 1) v ++ (writeElems y d l ++ s))) = some (v :: l, s)
  | v, [], hv, d, n, w, s, hn, hw => by
    obtain ⟨n, rfl⟩ : ∃ m, n = m + 1 := ⟨n - 1, by rw [needElems] at hn; omega⟩
    rw [ValidElems] at hv
    rw [needElems] at hn
    rw [parseElems, parse_write hy v hv.1 (d + 1) n w _ (by omega) hw (numEnd_elems hy d [] s), writeElems, List.append_assoc]
    simp only
    rw [skip_ws (hy.newline d), List.singleton_append, skip_cons (by decide)]
    simp only [if_true]
  | v, v' :: l, hv, d, n, w, s, hn, hw => by
    obtain ⟨n, rfl⟩ : ∃ m, n = m + 1 := ⟨n - 1, by rw [needElems] at hn; omega⟩
    rw [ValidElems] at hv
    rw [needElems] at hn
    rw [parseElems, parse_write hy v hv.1 (d + 1) n w _ (by omega) hw (numEnd_elems hy d (v' :: l) s), writeElems]
    simp only [List.cons_append, List.append_assoc]
    rw [skip_cons (by decide)]
    simp only
    rw [if_neg (by decide), if_pos (by trivial), parse_elems hy v' l hv.2 d n _ s (by omega) (hy.newline _)]
    rfl
termination_by v l => needElems (v :: l)
decreasing_by all_goals (simp only [need, needElems, needMembers]; omega)

theorem parse_members {y : Layout} (hy : y.Blank) : ∀ (k : String) (v : JText) (l : List (String × JText)), ValidMembers ((k, v) :: l) →
    ∀ (d n : Nat) (w s : List Char), needMembers ((k, v) :: l) ≤ n → (∀ c ∈ w, isWs c = true) →
    parseMembers n (w ++ (writeString k ++ ':' :: (y.space ++ (write y (d + 1) v ++ (writeMembers y d l ++ s))))) = some ((k, v) :: l, s)
  | k, v, [], hv, d, n, w, s, hn, hw => by
    obtain ⟨n, rfl⟩ : ∃ m, n = m + 1 := ⟨n - 1, by rw [needMembers] at hn; omega⟩
    rw [ValidMembers] at hv
    rw [needMembers] at hn
    obtain ⟨r, h1, h2⟩ := read_string k (':' :: (y.space ++ (write y (d + 1) v ++ (writeMembers y d [] ++ s))))
    rw [parseMembers, skip_ws hw, h1, skip_cons (by decide)]
    simp only
    rw [if_pos (by trivial), h2]
    simp only
    rw [skip_cons (by decide)]
    simp only
    rw [if_pos (by trivial), parse_write hy v hv.1 (d + 1) n y.space _ (by omega) hy.space (numEnd_members hy d [] s), writeMembers, List.append_assoc]
    simp only
    rw [skip_ws (hy.newline d), List.singleton_append, skip_cons (by decide)]
    simp only [if_true, String.ofList_toList]
  | k, v, (k', v') :: l, hv, d, n, w, s, hn, hw => by
    obtain ⟨n, rfl⟩ : ∃ m, n = m + 1 := ⟨n - 1, by rw [needMembers] at hn; omega⟩
    rw [ValidMembers] at hv
    rw [needMembers] at hn
    obtain ⟨r, h1, h2⟩ := read_string k (':' :: (y.space ++ (write y (d + 1) v ++ (writeMembers y d ((k', v') :: l) ++ s))))
    rw [parseMembers, skip_ws hw, h1, skip_cons (by decide)]
    simp only
    rw [if_pos (by trivial), h2]
    simp only
    rw [skip_cons (by decide)]
    simp only
    rw [if_pos (by trivial), parse_write hy v hv.1 (d + 1) n y.space _ (by omega) hy.space (numEnd_members hy d ((k', v') :: l) s), writeMembers]
    simp only [List.cons_append, List.append_assoc]
    rw [skip_cons (by decide)]
    simp only
    rw [if_neg (by decide), if_pos (by trivial), parse_members hy k' v' l hv.2 d n _ s (by omega) (hy.newline _)]
    rw [Option.map_some, String.ofList_toList]
termination_by k v l => needMembers ((k, v) :: l)
decreasing_by all_goals (simp only [need, needElems, needMembers]; omega)
end

mutual
theorem need_write (y : Layout) : ∀ (v : JText) (d : Nat), Valid v → need v ≤ 2 * (write y d v).length
  | .null, d, _ => by simp [need, write]
  | .bool true, d, _ => by simp [need, write]
  | .bool false, d, _ => by simp [need, write]
  | .num l, d, hv => by
    rw [Valid] at hv
    have := List.length_pos_iff.mpr (number_chars l hv).1
    simp only [need, write]
    omega
  | .str t, d, _ => by simp only [need, write, writeString, List.length_cons]; omega
  | .arr [], d, _ => by simp [need, needElems, write]
  | .arr (v :: l), d, hv => by
    rw [Valid, ValidElems] at hv
    have h1 := need_write y v (d + 1) hv.1
    have h2 := need_elems y l d hv.2
    simp only [need, needElems, write, List.length_cons, List.length_append]
    omega
  | .obj [], d, _ => by simp [need, needMembers, write]
  | .obj ((k, v) :: l), d, hv => by
    rw [Valid, ValidMembers] at hv
    have h1 := need_write y v (d + 1) hv.1
    have h2 := need_members y l d hv.2
    simp only [need, needMembers, write, List.length_cons, List.length_append]
    omega

theorem need_elems (y : Layout) : ∀ (l : List JText) (d : Nat), ValidElems l → needElems l + 1 ≤ 2 * (writeElems y d l).length
  | [], d, _ => by simp only [needElems, writeElems, List.length_append, List.length_cons]; omega
  | v :: l, d, hv => by
    rw [ValidElems] at hv
    have h1 := need_write y v (d + 1) hv.1
    have h2 := need_elems y l d hv.2
    simp only [needElems, writeElems, List.length_cons, List.length_append]
    omega

theorem need_members (y : Layout) : ∀ (l : List (String × JText)) (d : Nat), ValidMembers l → needMembers l + 1 ≤ 2 * (writeMembers y d l).length
  | [], d, _ => by simp only [needMembers, writeMembers, List.length_append, List.length_cons]; omega
  | (k, v) :: l, d, hv => by
    rw [ValidMembers] at hv
    have h1 := need_write y v (d + 1) hv.1
    have h2 := need_members y l d hv.2
    simp only [needMembers, writeMembers, List.length_cons, List.length_append]
    omega
end

/-- A value that was written is read, with or without the end of the line. -/
theorem read_encoded {y : Layout} (hy : y.Blank) (v : JText) (hv : Valid v) :
    readJSON (write y 0 v) = some v ∧ readJSON (encodeLine y v) = some v := by
  have hneed := need_write y v 0 hv
  have key : ∀ s : List Char, (∀ c ∈ s, isWs c = true) → readJSON (write y 0 v ++ s) = some v := by
    intro s hs
    unfold readJSON
    have := parse_write hy v hv 0 (2 * (write y 0 v ++ s).length + 2) [] s (by rw [List.length_append]; omega) (fun _ h => by cases h)
      (by have := numEnd_ws hs (s := []) (fun c hc => by cases hc); rwa [List.append_nil] at this)
    rw [List.nil_append] at this
    rw [this]
    simp only
    have h0 := skip_ws hs []
    rw [List.append_nil] at h0
    rw [h0, if_pos (show skip [] = [] from rfl)]
  refine ⟨?_, key ['\n'] (by decide)⟩
  have := key [] (fun _ h => by cases h)
  rwa [List.append_nil] at this

/-- Values that were written one after the other are read. -/
theorem read_sequence {y : Layout} (hy : y.Blank) (l : List JText) (hl : ∀ v ∈ l, Valid v) : readValues (l.flatMap (encodeLine y)) = some l := by
  have key : ∀ (l : List JText) (n : Nat) (w : List Char), (∀ v ∈ l, Valid v) → (∀ c ∈ w, isWs c = true) → l.length < n →
      readSeq n (w ++ l.flatMap (encodeLine y)) = some l := by
    intro l
    induction l with
    | nil =>
      intro n w _ hw hn
      obtain ⟨n, rfl⟩ : ∃ m, n = m + 1 := ⟨n - 1, by omega⟩
      rw [readSeq, List.flatMap_nil, skip_ws hw, if_pos (show skip [] = [] from rfl)]
    | cons v l ih =>
      intro n w hv hw hn
      rw [List.length_cons] at hn
      obtain ⟨n, rfl⟩ : ∃ m, n = m + 1 := ⟨n - 1, by omega⟩
      have hv0 := hv v (by simp)
      obtain ⟨c, r, e, hc, -, -⟩ := write_head y 0 v hv0 (['\n'] ++ l.flatMap (encodeLine y))
      have hneed := need_write y v 0 hv0
      have e' : w ++ (v :: l).flatMap (encodeLine y) = w ++ (write y 0 v ++ (['\n'] ++ l.flatMap (encodeLine y))) := by
        rw [List.flatMap_cons, encodeLine, List.append_assoc]
      rw [e', readSeq, skip_ws hw, e, skip_cons hc, if_neg (by simp), ← e]
      rw [parse_write hy v hv0 0 _ w (['\n'] ++ l.flatMap (encodeLine y)) (by simp only [List.length_append]; omega) hw (numEnd_cons (by decide) _)]
      simp only
      rw [ih n ['\n'] (fun x hx => hv x (by simp [hx])) (by decide) (by omega)]
      rfl
  refine key l _ [] hl (fun _ h => by cases h) ?_
  have : l.length ≤ (l.flatMap (encodeLine y)).length := by
    clear key hl
    induction l with
    | nil => simp
    | cons v l ih => simp only [List.flatMap_cons, List.length_append, List.length_cons, encodeLine, List.length_nil]; omega
  omega

/-! ## The compact text has no control characters, so it is one line -/

theorem string_clean (s : String) : ∀ c ∈ writeString s, 32 ≤ c.toNat := by
  intro c h
  unfold writeString at h
  rw [List.mem_cons, List.mem_append, List.mem_singleton, List.mem_flatMap] at h
  rcases h with rfl | ⟨x, -, h⟩ | rfl
  · decide
  · exact escape_printable x c h
  · decide

theorem numChar_printable {c : Char} (h : numChar c = true) : 32 ≤ c.toNat := by
  simp only [numChar, isDigit, Bool.or_eq_true, beq_iff_eq, decide_eq_true_eq] at h
  rcases h with ((((h | rfl) | rfl) | rfl) | rfl) | rfl
  · omega
  all_goals decide

mutual
theorem write_clean : ∀ (v : JText) (d : Nat), Valid v → ∀ c ∈ write compact d v, 32 ≤ c.toNat
  | .null, d, _ => by rw [write]; decide
  | .bool true, d, _ => by rw [write, if_pos rfl]; decide
  | .bool false, d, _ => by rw [write, if_neg (by decide)]; decide
  | .num l, d, hv => by
    rw [Valid] at hv
    intro c hc
    rw [write] at hc
    exact numChar_printable ((number_chars l hv).2 c hc)
  | .str t, d, _ => by rw [write]; exact string_clean t
  | .arr [], d, _ => by rw [write]; decide
  | .arr (v :: l), d, hv => by
    rw [Valid, ValidElems] at hv
    intro c hc
    rw [write, List.mem_cons, List.mem_append, List.mem_append] at hc
    rcases hc with rfl | hc | hc | hc
    · decide
    · cases hc
    · exact write_clean v _ hv.1 c hc
    · exact elems_clean l _ hv.2 c hc
  | .obj [], d, _ => by rw [write]; decide
  | .obj ((k, v) :: l), d, hv => by
    rw [Valid, ValidMembers] at hv
    intro c hc
    rw [write, List.mem_cons, List.mem_append, List.mem_append, List.mem_cons, List.mem_append, List.mem_append] at hc
    rcases hc with rfl | hc | hc | rfl | hc | hc | hc
    · decide
    · cases hc
    · exact string_clean k c hc
    · decide
    · cases hc
    · exact write_clean v _ hv.1 c hc
    · exact members_clean l _ hv.2 c hc

theorem elems_clean : ∀ (l : List JText) (d : Nat), ValidElems l → ∀ c ∈ writeElems compact d l, 32 ≤ c.toNat
  | [], d, _ => by
    intro c hc
    rw [writeElems, List.mem_append] at hc
    rcases hc with hc | hc
    · cases hc
    · rw [List.mem_singleton] at hc; subst hc; decide
  | v :: l, d, hv => by
    rw [ValidElems] at hv
    intro c hc
    rw [writeElems, List.mem_cons, List.mem_append, List.mem_append] at hc
    rcases hc with rfl | hc | hc | hc
    · decide
    · cases hc
    · exact write_clean v _ hv.1 c hc
    · exact elems_clean l _ hv.2 c hc

theorem members_clean : ∀ (l : List (String × JText)) (d : Nat), ValidMembers l → ∀ c ∈ writeMembers compact d l, 32 ≤ c.toNat
  | [], d, _ => by
    intro c hc
    rw [writeMembers, List.mem_append] at hc
    rcases hc with hc | hc
    · cases hc
    · rw [List.mem_singleton] at hc; subst hc; decide
  | (k, v) :: l, d, hv => by
    rw [ValidMembers] at hv
    intro c hc
    rw [writeMembers, List.mem_cons, List.mem_append, List.mem_append, List.mem_cons, List.mem_append, List.mem_append] at hc
    rcases hc with rfl | hc | hc | rfl | hc | hc | hc
    · decide
    · cases hc
    · exact string_clean k c hc
    · decide
    · cases hc
    · exact write_clean v _ hv.1 c hc
    · exact members_clean l _ hv.2 c hc
end

/-! ## The text of integers -/

/-- An integer. -/
def readInt (l : List Char) : Option Int :=
  if l.head? = some '-' then (if l.tail ≠ [] ∧ l.tail.all isDigit then some (-(readDigits l.tail : Int)) else none)
  else (if l ≠ [] ∧ l.all isDigit then some (readDigits l) else none)

theorem fmtInt_first (v : Nat) : ∃ c r, fmtInt v = c :: r ∧ isDigit c = true ∧ (∀ x ∈ r, isDigit x = true) ∧ (c = '0' → r = []) := by
  have hd := fmtInt_digits v
  have h0 : ∀ v, 1 ≤ v → ∃ c r, fmtInt v = c :: r ∧ c ≠ '0' := by
    intro v
    induction v using Nat.strongRecOn with
    | ind v ih =>
      intro hv
      rw [fmtInt]
      by_cases h : v < 10
      · rw [if_pos h]
        refine ⟨_, _, rfl, ?_⟩
        have : ∀ d : Fin 10, 1 ≤ d.val → digitChar d.val ≠ '0' := by decide
        exact this ⟨v, h⟩ hv
      · rw [if_neg h]
        obtain ⟨c, r, e, hc⟩ := ih (v / 10) (by omega) (by omega)
        exact ⟨c, r ++ [digitChar (v % 10)], by rw [e]; rfl, hc⟩
  obtain ⟨c, r, e⟩ : ∃ c r, fmtInt v = c :: r := List.exists_cons_of_ne_nil (fmtInt_ne_nil v)
  rw [e] at hd
  refine ⟨c, r, e, hd c (by simp), fun x hx => hd x (by simp [hx]), ?_⟩
  intro hc
  by_cases hv : 1 ≤ v
  · obtain ⟨c', r', e', h'⟩ := h0 v hv
    rw [e] at e'
    obtain ⟨rfl, rfl⟩ := List.cons.inj e'
    exact absurd hc h'
  · obtain rfl : v = 0 := by omega
    have : fmtInt 0 = [digitChar 0] := by rw [fmtInt, if_pos (by decide)]
    rw [this] at e
    exact (List.cons.inj e).2.symm

theorem dropWhile_digits {r : List Char} (h : ∀ x ∈ r, isDigit x = true) : r.dropWhile isDigit = [] := by
  induction r with
  | nil => rfl
  | cons c r ih => rw [List.dropWhile_cons_of_pos (h c (by simp))]; exact ih fun x hx => h x (by simp [hx])

theorem unsigned_fmtInt (v : Nat) : isUnsigned (fmtInt v) = true := by
  obtain ⟨c, r, e, h1, h2, h3⟩ := fmtInt_first v
  rw [e, isUnsigned]
  split
  · rename_i hc; rw [h3 hc]; rfl
  · rw [h1, dropWhile_digits h2]; rfl

theorem fmtInt_head (v : Nat) : (fmtInt v).head? ≠ some '-' := by
  obtain ⟨c, r, e, h1, -, -⟩ := fmtInt_first v
  rw [e, List.head?_cons]
  rintro h
  obtain rfl := Option.some.inj h
  exact absurd h1 (by decide)

/-- An integer is read as it was written. -/
theorem read_int (n : Int) : ∃ l, intText n = .num l ∧ isNumber l = true ∧ readInt l = some n := by
  have hall : (fmtInt n.natAbs).all isDigit = true := List.all_eq_true.mpr (fmtInt_digits n.natAbs)
  by_cases hn : n < 0
  · refine ⟨'-' :: fmtInt n.natAbs, by rw [intText, if_pos hn], ?_, ?_⟩
    · rw [isNumber, List.head?_cons, if_pos rfl]; exact unsigned_fmtInt _
    · rw [readInt, List.head?_cons, if_pos rfl, List.tail_cons, if_pos ⟨fmtInt_ne_nil _, hall⟩, readDigits_fmtInt]
      congr 1; omega
  · refine ⟨fmtInt n.natAbs, by rw [intText, if_neg hn], ?_, ?_⟩
    · rw [isNumber, if_neg (fmtInt_head _)]; exact unsigned_fmtInt _
    · rw [readInt, if_neg (fmtInt_head _), if_pos ⟨fmtInt_ne_nil _, hall⟩, readDigits_fmtInt]
      congr 1; omega

/-! ## Reading into a struct -/

/-- What is read: the type of a variable, and of a field by its name. -/
inductive Ty
  | bool
  | num
  | str
  | time
  | arr (t : Ty)
  | map (t : Ty)
  | struct (fields : String → Option Ty)

mutual
/-- Read a JSON text into a variable of some type; fields that the struct does not have are left out. -/
def view : JText → Ty → Option JSON
  | .null, _ => some .null
  | .bool b, .bool => some (.bool b)
  | .num l, .num => (readInt l).map .num
  | .str s, .str => some (.str s)
  | .str s, .time => (readTime s.toList).map fun n : Nat => .time (n : Int)
  | .arr l, .arr t => (viewElems l t).map .arr
  | .obj l, .map t => (viewMembers l fun _ => some t).map .obj
  | .obj l, .struct fs => (viewMembers l fs).map .obj
  | _, _ => none

def viewElems : List JText → Ty → Option (List JSON)
  | [], _ => some []
  | v :: l, t =>
    match view v t, viewElems l t with
    | some v, some l => some (v :: l)
    | _, _ => none

def viewMembers : List (String × JText) → (String → Option Ty) → Option (List (String × JSON))
  | [], _ => some []
  | (k, v) :: l, fs =>
    match fs k with
    | none => viewMembers l fs
    | some t =>
      match view v t, viewMembers l fs with
      | some v, some l => some ((k, v) :: l)
      | _, _ => none
end

mutual
/-- A value of a type, whose times are from year 1 to year 9999. -/
def Fits : JSON → Ty → Prop
  | .null, _ => True
  | .bool _, t => t = .bool
  | .num _, t => t = .num
  | .str _, t => t = .str
  | .time w, t => t = .time ∧ 0 ≤ w ∧ w < endOfTime
  | .arr l, t => ∃ u, t = .arr u ∧ FitsElems l u
  | .obj l, t => (∃ u, t = .map u ∧ FitsMembers l fun _ => some u) ∨ (∃ fs, t = .struct fs ∧ FitsMembers l fs)

def FitsElems : List JSON → Ty → Prop
  | [], _ => True
  | v :: l, t => Fits v t ∧ FitsElems l t

def FitsMembers : List (String × JSON) → (String → Option Ty) → Prop
  | [], _ => True
  | (k, v) :: l, fs => (∃ t, fs k = some t ∧ Fits v t) ∧ FitsMembers l fs
end

mutual
theorem view_text : ∀ (v : JSON) (t : Ty), Fits v t → view (jtext v) t = some v
  | .null, t, _ => by rw [jtext, view]
  | .bool b, t, h => by rw [Fits] at h; subst h; rw [jtext, view]
  | .num n, t, h => by
    rw [Fits] at h; subst h
    obtain ⟨l, e, -, hl⟩ := read_int n
    rw [jtext, e, view, hl]; rfl
  | .str s, t, h => by rw [Fits] at h; subst h; rw [jtext, view]
  | .time w, t, h => by
    rw [Fits] at h
    obtain ⟨rfl, h0, h1⟩ := h
    rw [jtext, timeText, view, String.toList_ofList, read_time _ (by omega), Option.map_some]
    congr 2; omega
  | .arr l, t, h => by
    rw [Fits] at h
    obtain ⟨u, rfl, h⟩ := h
    rw [jtext, view, view_elems l u h]; rfl
  | .obj l, t, h => by
    rw [Fits] at h
    rcases h with ⟨u, rfl, h⟩ | ⟨fs, rfl, h⟩
    · rw [jtext, view, view_members l _ h]; rfl
    · rw [jtext, view, view_members l _ h]; rfl

theorem view_elems : ∀ (l : List JSON) (t : Ty), FitsElems l t → viewElems (textElems l) t = some l
  | [], t, _ => by rw [textElems, viewElems]
  | v :: l, t, h => by
    rw [FitsElems] at h
    rw [textElems, viewElems, view_text v t h.1, view_elems l t h.2]

theorem view_members : ∀ (l : List (String × JSON)) (fs : String → Option Ty), FitsMembers l fs → viewMembers (textMembers l) fs = some l
  | [], fs, _ => by rw [textMembers, viewMembers]
  | (k, v) :: l, fs, h => by
    rw [FitsMembers] at h
    obtain ⟨⟨t, e, h1⟩, h2⟩ := h
    rw [textMembers, viewMembers, e]
    simp only
    rw [view_text v t h1, view_members l fs h2]
end

mutual
theorem text_valid : ∀ v : JSON, Valid (jtext v)
  | .null => by rw [jtext, Valid]; trivial
  | .bool b => by rw [jtext, Valid]; trivial
  | .num n => by
    obtain ⟨l, e, h, -⟩ := read_int n
    rw [jtext, e, Valid]; exact h
  | .str s => by rw [jtext, Valid]; trivial
  | .time w => by rw [jtext, timeText, Valid]; trivial
  | .arr l => by rw [jtext, Valid]; exact elems_valid l
  | .obj l => by rw [jtext, Valid]; exact members_valid l

theorem elems_valid : ∀ l : List JSON, ValidElems (textElems l)
  | [] => by rw [textElems, ValidElems]; trivial
  | v :: l => by rw [textElems, ValidElems]; exact ⟨text_valid v, elems_valid l⟩

theorem members_valid : ∀ l : List (String × JSON), ValidMembers (textMembers l)
  | [] => by rw [textMembers, ValidMembers]; trivial
  | (k, v) :: l => by rw [textMembers, ValidMembers]; exact ⟨text_valid v, members_valid l⟩
end

/-- Read a text into a variable of some type. -/
def unmarshalText {α : Type} (t : Ty) (dec : JSON → Option α) (s : List Char) : Option α := do
  let j ← readJSON s
  let v ← view j t
  dec v

/-- What was written is read into a variable of the type of the value. -/
theorem unmarshal_written {α : Type} {y : Layout} (hy : y.Blank) (t : Ty) (dec : JSON → Option α) (v : JSON) (h : Fits v t) :
    unmarshalText t dec (write y 0 (jtext v)) = dec v ∧ unmarshalText t dec (encodeLine y (jtext v)) = dec v := by
  obtain ⟨h1, h2⟩ := read_encoded hy (jtext v) (text_valid v)
  constructor
  · unfold unmarshalText; rw [h1]; simp only [bind, Option.bind_some]; rw [view_text v t h]; rfl
  · unfold unmarshalText; rw [h2]; simp only [bind, Option.bind_some]; rw [view_text v t h]; rfl

/-! ## The structs of trc -/

/-- The fields of a struct. -/
def struct (l : List (String × Ty)) : Ty := .struct fun k => (l.find? (·.1 = k)).map (·.2)

/-- trace.go:100-103 -/
def frameTy : Ty := struct [("function", .str), ("fileline", .str)]
/-- trace.go:92-97 -/
def eventTy : Ty := struct [("when", .time), ("what", .str), ("stack", .arr frameTy), ("is_error", .bool)]
/-- trace_static.go:8-19, without the fields that repeat the duration -/
def traceTy : Ty := struct [("source", .str), ("id", .str), ("category", .str), ("started", .time), ("duration", .num), ("finished", .bool),
  ("errored", .bool), ("events", .arr eventTy)]
/-- search_stats.go:137-145 -/
def categoryTy : Ty := struct [("category", .str), ("event_count", .num), ("active_count", .num), ("bucket_counts", .arr .num),
  ("errored_count", .num), ("oldest", .time), ("newest", .time)]
/-- search_stats.go:11-14 -/
def statsTy : Ty := struct [("bucketing", .arr .num), ("categories", .map categoryTy)]
/-- filter.go:12-23 -/
def filterTy : Ty := struct [("sources", .arr .str), ("ids", .arr .str), ("category", .str), ("is_active", .bool), ("is_finished", .bool),
  ("min_duration", .num), ("is_success", .bool), ("is_errored", .bool), ("query", .str)]
/-- search_types.go:25-30 -/
def requestTy : Ty := struct [("bucketing", .arr .num), ("filter", filterTy), ("limit", .num), ("stack_depth", .num)]
/-- search_types.go:115-124 -/
def replyTy : Ty := struct [("request", requestTy), ("sources", .arr .str), ("total_count", .num), ("match_count", .num),
  ("traces", .arr traceTy), ("stats", statsTy), ("problems", .arr .str), ("duration", .num)]
/-- trace_server.go:99-103 -/
def dataTy : Ty := struct [("request", requestTy), ("response", replyTy)]

/-- A time from year 1 to year 9999. -/
def Time.Ordinary (t : Time) : Prop := 0 ≤ t.wall ∧ t.wall < endOfTime

/-- The times of a trace are. -/
def OrdinaryTrace (st : Static) : Prop := Time.Ordinary st.started ∧ ∀ ev ∈ st.events, Time.Ordinary ev.when_
def OrdinaryStats (ss : SearchStats) : Prop := ∀ p ∈ ss.categories, Time.Ordinary p.2.oldest ∧ Time.Ordinary p.2.newest
def OrdinaryReply (r : Reply) : Prop := (∀ st ∈ r.traces, OrdinaryTrace st) ∧ ∀ ss, r.stats = some ss → OrdinaryStats ss

theorem fits_elems {α : Type} (enc : α → JSON) (t : Ty) (l : List α) (h : ∀ x ∈ l, Fits (enc x) t) : FitsElems (l.map enc) t := by
  induction l with
  | nil => rw [List.map_nil, FitsElems]; trivial
  | cons x l ih => rw [List.map_cons, FitsElems]; exact ⟨h x (by simp), ih fun y hy => h y (by simp [hy])⟩

theorem fits_arr {α : Type} (enc : α → JSON) (t : Ty) (l : List α) (h : ∀ x ∈ l, Fits (enc x) t) : Fits (encArr enc l) (.arr t) := by
  rw [encArr, Fits]; exact ⟨t, rfl, fits_elems enc t l h⟩

theorem fits_map {α : Type} (enc : α → JSON) (t : Ty) (l : List (String × α)) (h : ∀ p ∈ l, Fits (enc p.2) t) : Fits (encMap enc l) (.map t) := by
  rw [encMap, Fits]
  refine .inl ⟨t, rfl, ?_⟩
  induction l with
  | nil => rw [List.map_nil, FitsMembers]; trivial
  | cons x l ih => rw [List.map_cons, FitsMembers]; exact ⟨⟨t, rfl, h x (by simp)⟩, ih fun y hy => h y (by simp [hy])⟩

theorem fits_append (a b : Fields) (fs : String → Option Ty) : FitsMembers (a ++ b) fs ↔ FitsMembers a fs ∧ FitsMembers b fs := by
  induction a with
  | nil => rw [List.nil_append, FitsMembers]; simp
  | cons p a ih =>
    obtain ⟨k, v⟩ := p
    rw [List.cons_append, FitsMembers, FitsMembers, ih, and_assoc]

theorem fits_field (name : String) (v : JSON) (om : Bool) (fs : String → Option Ty) (t : Ty) (hf : fs name = some t) (h : Fits v t) :
    FitsMembers (field name v om) fs := by
  unfold field
  split
  · rw [FitsMembers]; trivial
  · rw [FitsMembers, FitsMembers]; exact ⟨⟨t, hf, h⟩, trivial⟩

theorem fits_obj (l : Fields) (fs : List (String × Ty)) (h : FitsMembers l fun k => (fs.find? (·.1 = k)).map (·.2)) : Fits (.obj l) (struct fs) := by
  rw [Fits]; exact .inr ⟨_, rfl, h⟩

theorem fits_ptr {α : Type} (enc : α → JSON) (t : Ty) (o : Option α) (h : ∀ x, o = some x → Fits (enc x) t) : Fits (encPtr enc o) t := by
  cases o with
  | none => rw [encPtr, Fits]; trivial
  | some x => exact h x rfl

theorem fits_time (t : Time) (h : Time.Ordinary t) : Fits (encTime t) .time := by rw [encTime, Fits]; exact ⟨rfl, h⟩
theorem fits_str (s : String) : Fits (.str s) .str := by rw [Fits]
theorem fits_num (n : Int) : Fits (.num n) .num := by rw [Fits]
theorem fits_bool (b : Bool) : Fits (.bool b) .bool := by rw [Fits]

theorem fits_frame (f : Core.Frame) : Fits (encFrame f) frameTy := by
  refine fits_obj _ _ ?_
  simp only [fits_append]
  exact ⟨fits_field _ _ _ _ _ rfl (fits_str _), fits_field _ _ _ _ _ rfl (fits_str _)⟩

theorem fits_event (e : Core.Event) (h : Time.Ordinary e.when_) : Fits (encEvent e) eventTy := by
  refine fits_obj _ _ ?_
  simp only [fits_append]
  exact ⟨⟨⟨fits_field _ _ _ _ _ rfl (fits_time _ h), fits_field _ _ _ _ _ rfl (fits_str _)⟩,
    fits_field _ _ _ _ _ rfl (fits_arr _ _ _ fun f _ => fits_frame f)⟩, fits_field _ _ _ _ _ rfl (fits_bool _)⟩

theorem fits_static (st : Static) (h : OrdinaryTrace st) : Fits (encStatic st) traceTy := by
  refine fits_obj _ _ ?_
  simp only [fits_append]
  exact ⟨⟨⟨⟨⟨⟨⟨fits_field _ _ _ _ _ rfl (fits_str _), fits_field _ _ _ _ _ rfl (fits_str _)⟩, fits_field _ _ _ _ _ rfl (fits_str _)⟩,
    fits_field _ _ _ _ _ rfl (fits_time _ h.1)⟩, fits_field _ _ _ _ _ rfl (fits_num _)⟩, fits_field _ _ _ _ _ rfl (fits_bool _)⟩,
    fits_field _ _ _ _ _ rfl (fits_bool _)⟩, fits_field _ _ _ _ _ rfl (fits_arr _ _ _ fun e he => fits_event e (h.2 e he))⟩

theorem fits_category (c : CategoryStats) (h : Time.Ordinary c.oldest ∧ Time.Ordinary c.newest) : Fits (encCategory c) categoryTy := by
  refine fits_obj _ _ ?_
  simp only [fits_append]
  exact ⟨⟨⟨⟨⟨⟨fits_field _ _ _ _ _ rfl (fits_str _), fits_field _ _ _ _ _ rfl (fits_num _)⟩, fits_field _ _ _ _ _ rfl (fits_num _)⟩,
    fits_field _ _ _ _ _ rfl (fits_arr _ _ _ fun n _ => fits_num n)⟩, fits_field _ _ _ _ _ rfl (fits_num _)⟩,
    fits_field _ _ _ _ _ rfl (fits_time _ h.1)⟩, fits_field _ _ _ _ _ rfl (fits_time _ h.2)⟩

theorem fits_stats (ss : SearchStats) (h : OrdinaryStats ss) : Fits (encStats ss) statsTy := by
  refine fits_obj _ _ ?_
  simp only [fits_append]
  exact ⟨fits_field _ _ _ _ _ rfl (fits_arr _ _ _ fun n _ => fits_num n),
    fits_field _ _ _ _ _ rfl (fits_map _ _ _ fun p hp => fits_category p.2 (h p hp))⟩

theorem fits_filter (f : Filter) : Fits (encFilter f) filterTy := by
  refine fits_obj _ _ ?_
  simp only [fits_append]
  exact ⟨⟨⟨⟨⟨⟨⟨⟨fits_field _ _ _ _ _ rfl (fits_arr _ _ _ fun s _ => fits_str s), fits_field _ _ _ _ _ rfl (fits_arr _ _ _ fun s _ => fits_str s)⟩,
    fits_field _ _ _ _ _ rfl (fits_str _)⟩, fits_field _ _ _ _ _ rfl (fits_bool _)⟩, fits_field _ _ _ _ _ rfl (fits_bool _)⟩,
    fits_field _ _ _ _ _ rfl (fits_ptr _ _ _ fun n _ => fits_num n)⟩, fits_field _ _ _ _ _ rfl (fits_bool _)⟩,
    fits_field _ _ _ _ _ rfl (fits_bool _)⟩, fits_field _ _ _ _ _ rfl (fits_str _)⟩

theorem fits_request (r : SearchRequest) : Fits (encRequest r) requestTy := by
  refine fits_obj _ _ ?_
  simp only [fits_append]
  exact ⟨⟨⟨fits_field _ _ _ _ _ rfl (fits_arr _ _ _ fun n _ => fits_num n), fits_field _ _ _ _ _ rfl (fits_filter _)⟩,
    fits_field _ _ _ _ _ rfl (fits_num _)⟩, fits_field _ _ _ _ _ rfl (fits_num _)⟩

theorem fits_reply (r : Reply) (h : OrdinaryReply r) : Fits (encReply r) replyTy := by
  refine fits_obj _ _ ?_
  simp only [fits_append]
  exact ⟨⟨⟨⟨⟨⟨⟨fits_field _ _ _ _ _ rfl (fits_ptr _ _ _ fun r _ => fits_request r), fits_field _ _ _ _ _ rfl (fits_arr _ _ _ fun s _ => fits_str s)⟩,
    fits_field _ _ _ _ _ rfl (fits_num _)⟩, fits_field _ _ _ _ _ rfl (fits_num _)⟩,
    fits_field _ _ _ _ _ rfl (fits_arr _ _ _ fun st hst => fits_static st (h.1 st hst))⟩,
    fits_field _ _ _ _ _ rfl (fits_ptr _ _ _ fun ss hss => fits_stats ss (h.2 ss hss))⟩,
    fits_field _ _ _ _ _ rfl (fits_arr _ _ _ fun s _ => fits_str s)⟩, fits_field _ _ _ _ _ rfl (fits_num _)⟩

theorem fits_data (d : SearchData) (h : OrdinaryReply d.response) : Fits (encData d) dataTy := by
  refine fits_obj _ _ ?_
  simp only [fits_append]
  exact ⟨fits_field _ _ _ _ _ rfl (fits_request _), fits_field _ _ _ _ _ rfl (fits_reply _ h)⟩

end Trc.Web
