import Verif.Core.Model

/-!
# Model of `fmt.Sprintf`

The part of `doPrintf` (Go's fmt/print.go) that the repository relies on: literal text, `%%`,
directives with flags, width and precision, missing and superfluous arguments.  How one argument
is rendered is a parameter.  Left out: `*` for width or precision, argument indexes `[n]`, and
numbers above a million as width or precision.
-/

namespace Trc.Fmt

/-- How arguments are rendered. -/
class Render (W A : Type) where
  /-- An argument under a directive with the given flags, width and precision, and verb. -/
  arg : W → List Char → Char → A → List Char
  /-- A superfluous argument, as `type=value`. -/
  extra : W → A → List Char

variable {W A : Type} [Render W A]

/-- How far a directive has been read. -/
inductive Stage where
  | flags | width | prec
deriving DecidableEq, Repr

/-- The stage after a further character, unless that is the verb. -/
def Stage.next (s : Stage) (c : Char) : Option Stage :=
  match s with
  | .flags =>
    if c ∈ ['#', '0', '+', '-', ' '] then some .flags
    else if c.isDigit then some .width
    else if c = '.' then some .prec
    else none
  | .width => if c.isDigit then some .width else if c = '.' then some .prec else none
  | .prec => if c.isDigit then some .prec else none

/-- Outside of a directive, or inside one with the characters read so far. -/
abbrev Mode := Option (Stage × List Char)

/-- The superfluous arguments, joined with ", ". -/
def extras (w : W) : List A → List Char
  | [] => []
  | [a] => Render.extra w a
  | a :: as => Render.extra w a ++ ", ".toList ++ extras w as

/-- The report of superfluous arguments. -/
def extraReport (w : W) (args : List A) : List Char :=
  if args.isEmpty then [] else "%!(EXTRA ".toList ++ extras w args ++ [')']

/-- A directive without a verb. -/
def noVerb : List Char := "%!(NOVERB)".toList

/-- A directive without an argument. -/
def missing (c : Char) : List Char := "%!".toList ++ c :: "(MISSING)".toList

/-- `doPrintf`. -/
def printf (w : W) : List Char → Mode → List A → List Char
  | [], none, args => extraReport w args
  | [], some _, args => noVerb ++ extraReport w args
  | c :: cs, none, args => if c = '%' then printf w cs (some (.flags, [])) args else c :: printf w cs none args
  | c :: cs, some (stage, spec), args =>
    match stage.next c with
    | some stage' => printf w cs (some (stage', spec ++ [c])) args
    | none =>
      if c = '%' then '%' :: printf w cs none args
      else match args with
        | [] => missing c ++ printf w cs none []
        | a :: as => Render.arg w spec c a ++ printf w cs none as

/-- `fmt.Sprintf` -/
def sprintf (w : W) (format : String) (args : List A) : String :=
  String.ofList (printf w format.toList none args)

/-- Reading a format: the mode at its end and the number of verbs that take an argument. -/
def scan : List Char → Mode → Mode × Nat
  | [], m => (m, 0)
  | c :: cs, none => if c = '%' then scan cs (some (.flags, [])) else scan cs none
  | c :: cs, some (stage, spec) =>
    match stage.next c with
    | some stage' => scan cs (some (stage', spec ++ [c]))
    | none => if c = '%' then scan cs none else ((scan cs none).1, (scan cs none).2 + 1)

/-- The format has no unfinished directive and its verbs take exactly `n` arguments. -/
def Takes (format : String) (n : Nat) : Prop := scan format.toList none = (none, n)

instance (format : String) (n : Nat) : Decidable (Takes format n) := by unfold Takes; infer_instance

theorem scan_append (f g : List Char) (m : Mode) :
    scan (f ++ g) m = ((scan g (scan f m).1).1, (scan f m).2 + (scan g (scan f m).1).2) := by
  induction f generalizing m with
  | nil => simp [scan]
  | cons c cs ih =>
    cases m with
    | none =>
      simp only [List.cons_append, scan]
      split
      · exact ih _
      · exact ih _
    | some p =>
      obtain ⟨stage, spec⟩ := p
      simp only [List.cons_append, scan]
      cases hn : stage.next c with
      | some stage' => simp only; exact ih _
      | none =>
        simp only
        split
        · exact ih _
        · rw [ih]
          exact Prod.ext rfl (by simp only; omega)

/-- The text up to where a format ends. -/
def body (w : W) : List Char → Mode → List A → List Char
  | [], _, _ => []
  | c :: cs, none, args => if c = '%' then body w cs (some (.flags, [])) args else c :: body w cs none args
  | c :: cs, some (stage, spec), args =>
    match stage.next c with
    | some stage' => body w cs (some (stage', spec ++ [c])) args
    | none =>
      if c = '%' then '%' :: body w cs none args
      else match args with
        | [] => missing c ++ body w cs none []
        | a :: as => Render.arg w spec c a ++ body w cs none as

theorem printf_append_body (w : W) (f g : List Char) (m : Mode) (as bs : List A) (h : (scan f m).2 = as.length) :
    printf w (f ++ g) m (as ++ bs) = body w f m as ++ printf w g (scan f m).1 bs := by
  induction f generalizing m as with
  | nil =>
    simp only [scan] at h
    have : as = [] := List.eq_nil_of_length_eq_zero h.symm
    subst this
    simp [body, scan]
  | cons c cs ih =>
    cases m with
    | none =>
      simp only [scan] at h
      simp only [List.cons_append, printf, body, scan]
      split
      · rename_i hc
        rw [if_pos hc] at h
        exact ih _ _ h
      · rename_i hc
        rw [if_neg hc] at h
        rw [ih _ _ h, List.cons_append]
    | some p =>
      obtain ⟨stage, spec⟩ := p
      simp only [scan] at h
      simp only [List.cons_append, printf, body, scan]
      cases hn : stage.next c with
      | some stage' =>
        simp only [hn] at h ⊢
        exact ih _ _ h
      | none =>
        simp only [hn] at h ⊢
        split
        · rename_i hc
          rw [if_pos hc] at h
          rw [ih _ _ h, List.cons_append]
        · rename_i hc
          rw [if_neg hc] at h
          cases as with
          | nil => simp at h
          | cons a as =>
            simp only [List.length_cons, Nat.add_right_cancel_iff] at h
            simp only [List.cons_append]
            rw [ih _ _ h, List.append_assoc]

/-- If the verbs of `f` take exactly the arguments `as`, the texts of `f` and `g` follow each
other. -/
theorem sprintf_append (w : W) (f g : String) (as bs : List A) (h : Takes f as.length) :
    sprintf w (f ++ g) (as ++ bs) = sprintf w f as ++ sprintf w g bs := by
  unfold sprintf Takes at *
  have h2 : (scan f.toList none).2 = as.length := by rw [h]
  have h1 : (scan f.toList none).1 = none := by rw [h]
  have e1 := printf_append_body w f.toList g.toList none as bs h2
  have e2 := printf_append_body w f.toList [] none as [] h2
  rw [h1] at e1 e2
  simp only [List.append_nil] at e2
  rw [String.toList_append, e1, e2, ← String.ofList_append]
  simp [printf, extraReport]

theorem takes_append {f g : String} {n m : Nat} (hf : Takes f n) (hg : Takes g m) : Takes (f ++ g) (n + m) := by
  unfold Takes at *
  rw [String.toList_append, scan_append, hf]
  simp only [hg]

/-- Text without a percent sign is copied. -/
theorem printf_plain (w : W) (f : List Char) (h : '%' ∉ f) : printf (A := A) w f none [] = f := by
  induction f with
  | nil => simp [printf, extraReport]
  | cons c cs ih =>
    simp only [List.mem_cons, not_or] at h
    simp only [printf]
    rw [if_neg (Ne.symm h.1), ih h.2]

theorem scan_plain (f : List Char) (h : '%' ∉ f) : scan f none = (none, 0) := by
  induction f with
  | nil => rfl
  | cons c cs ih =>
    simp only [List.mem_cons, not_or] at h
    simp only [scan]
    rw [if_neg (Ne.symm h.1), ih h.2]

theorem takes_plain (f : String) (h : '%' ∉ f.toList) : Takes f 0 := scan_plain _ h

theorem sprintf_plain (w : W) (f : String) (h : '%' ∉ f.toList) : sprintf (A := A) w f [] = f := by
  unfold sprintf
  rw [printf_plain w _ h, String.ofList_toList]

/-- The format has no unfinished directive, and its verbs take all of `n` arguments and maybe more. -/
def Uses (format : String) (n : Nat) : Prop := (scan format.toList none).1 = none ∧ n ≤ (scan format.toList none).2

instance (format : String) (n : Nat) : Decidable (Uses format n) := by unfold Uses; infer_instance

theorem Takes.uses {format : String} {n : Nat} (h : Takes format n) : Uses format n := by
  unfold Takes at h
  unfold Uses
  rw [h]
  exact ⟨rfl, Nat.le_refl n⟩

/-- After a format, what is left of the arguments is used for what follows. -/
theorem printf_append (w : W) (f g : List Char) (m : Mode) (args : List A) :
    printf w (f ++ g) m args = body w f m args ++ printf w g (scan f m).1 (args.drop (scan f m).2) := by
  induction f generalizing m args with
  | nil => simp [body, scan]
  | cons c cs ih =>
    cases m with
    | none =>
      simp only [List.cons_append, printf, body, scan]
      split
      · exact ih _ _
      · rw [ih, List.cons_append]
    | some p =>
      obtain ⟨stage, spec⟩ := p
      simp only [List.cons_append, printf, body, scan]
      cases hn : stage.next c with
      | some stage' => simp only; exact ih _ _
      | none =>
        simp only
        split
        · rw [ih, List.cons_append]
        · cases args with
          | nil =>
            simp only
            rw [ih, List.append_assoc]
            simp
          | cons a as =>
            simp only
            rw [ih, List.append_assoc, List.drop_succ_cons]

theorem extraReport_last (w : W) (a : A) (as : List A) : (extraReport w (a :: as)).getLast? = some ')' := by
  unfold extraReport
  simp only [List.isEmpty_cons, Bool.false_eq_true, if_false]
  rw [List.getLast?_append]
  rfl

/-- With a line end at the end of the format, the text ends a line exactly if the format has no unfinished directive
and no argument is superfluous; provided that what an argument gives under the verb that the line end is for an
unfinished directive ends with a parenthesis, as complaints about unknown verbs do. -/
theorem sprintf_ends (w : W) (f : String) (args : List A)
    (hbad : ∀ spec, ∀ a ∈ args, (Render.arg w spec '\n' a).getLast? = some ')') :
    (∃ x, sprintf w (f ++ "\n") args = x ++ "\n") ↔ Uses f args.length := by
  have e1 : sprintf w (f ++ "\n") args = String.ofList (body w f.toList none args ++ printf w ['\n'] (scan f.toList none).1 (args.drop (scan f.toList none).2)) := by
    unfold sprintf
    rw [String.toList_append, printf_append]
    rfl
  have no : ∀ l x : List Char, x.getLast? = some ')' → ¬ ∃ y : String, String.ofList (l ++ x) = y ++ "\n" := by
    rintro l x hx ⟨y, hy⟩
    have h := congrArg (fun s : String => s.toList.getLast?) hy
    simp [hx] at h
  rw [e1]
  unfold Uses
  have hlen : args.drop (scan f.toList none).2 = [] ↔ args.length ≤ (scan f.toList none).2 := List.drop_eq_nil_iff
  rw [← hlen]
  cases hm : (scan f.toList none).1 with
  | none =>
    simp only [true_and]
    cases hd : args.drop (scan f.toList none).2 with
    | nil =>
      refine iff_of_true ⟨String.ofList (body w f.toList none args), ?_⟩ rfl
      rw [String.ofList_append]
      simp [printf, extraReport]
    | cons a as =>
      refine iff_of_false (no _ _ ?_) (by simp)
      simp only [printf]
      rw [if_neg (by decide), List.getLast?_cons, extraReport_last]
      rfl
  | some q =>
    obtain ⟨stage, spec⟩ := q
    refine iff_of_false (no _ _ ?_) (by simp)
    have hn : stage.next '\n' = none := by cases stage <;> decide
    simp only [printf, hn]
    rw [if_neg (by decide)]
    cases hd : args.drop (scan f.toList none).2 with
    | nil => simp [missing, extraReport]
    | cons a as =>
      simp only
      rw [List.getLast?_append, hbad spec a (List.drop_subset _ _ (hd ▸ List.mem_cons_self))]
      cases as with
      | nil => rfl
      | cons b bs => rw [extraReport_last]; rfl

/-- If the verbs of `f` take all the arguments, text may follow. -/
theorem sprintf_uses (w : W) (f g : String) (args : List A) (h : Uses f args.length) :
    sprintf w (f ++ g) args = sprintf w f args ++ sprintf w g ([] : List A) := by
  unfold sprintf Uses at *
  have hd : args.drop (scan f.toList none).2 = [] := List.drop_eq_nil_iff.mpr h.2
  have e1 := printf_append w f.toList g.toList none args
  have e2 := printf_append w f.toList [] none args
  rw [h.1, hd] at e1 e2
  rw [List.append_nil] at e2
  rw [String.toList_append, e1, e2, ← String.ofList_append]
  simp [printf, extraReport]

/-- `Sprintf` as the formatting of the core model. -/
instance : Core.Sys W A := ⟨sprintf⟩

/-- Arguments that are strings, rendered as themselves. -/
instance : Render Unit String := ⟨fun _ _ _ a => a.toList, fun _ a => "string=".toList ++ a.toList⟩

example : sprintf (A := String) () "a %s b %5.2d %% c" ["x", "y"] = "a x b y % c" := rfl
example : sprintf (A := String) () "%s" ([] : List String) = "%!s(MISSING)" := rfl
example : sprintf (A := String) () "a" ["x", "y"] = "a%!(EXTRA string=x, string=y)" := rfl
example : sprintf (A := String) () "100%" ([] : List String) = "100%!(NOVERB)" := rfl
example : Takes "a %s b %5.2d %% c" 2 := rfl

end Trc.Fmt
