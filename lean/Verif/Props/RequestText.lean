import Verif.Web.RequestText
import Verif.Props.Page

/-!
# C138: what the printed form of a search request tells
-/

namespace Trc.Web

theorem itoa_numeric (n : Int) : ∀ c ∈ itoa n, numeric c = true := by
  intro c hc
  unfold itoa at hc
  split at hc
  · rcases List.mem_cons.mp hc with rfl | hc
    · decide
    · exact fmtInt_numeric _ c hc
  · exact fmtInt_numeric _ c hc

theorem fmtInt_inj {a b : Nat} (h : fmtInt a = fmtInt b) : a = b := by
  rw [← fmtInt_natOf a, ← fmtInt_natOf b, h]

theorem fmtInt_no_minus (v : Nat) : '-' ∉ fmtInt v := fun h => absurd (fmtInt_digits v _ h) (by decide)

theorem itoa_inj {a b : Int} (h : itoa a = itoa b) : a = b := by
  unfold itoa at h
  by_cases ha : a < 0 <;> by_cases hb : b < 0
  · rw [if_pos ha, if_pos hb] at h
    have := fmtInt_inj (List.cons.inj h).2
    omega
  · rw [if_pos ha, if_neg hb] at h
    exact absurd (h ▸ List.mem_cons_self) (fmtInt_no_minus b.natAbs)
  · rw [if_neg ha, if_pos hb] at h
    exact absurd (h ▸ List.mem_cons_self) (fmtInt_no_minus a.natAbs)
  · rw [if_neg ha, if_neg hb] at h
    have := fmtInt_inj h
    omega

/-- Texts are cut in the same place by the first of a character. -/
theorem cut_first {c : Char} {a a' b b' : List Char} (h : a ++ c :: b = a' ++ c :: b') (ha : c ∉ a) (ha' : c ∉ a') : a = a' ∧ b = b' := by
  induction a generalizing a' with
  | nil =>
    cases a' with
    | nil => exact ⟨rfl, (List.cons.inj h).2⟩
    | cons x a' =>
      have := (List.cons.inj h).1
      exact absurd (this ▸ List.mem_cons_self) ha'
  | cons x a ih =>
    cases a' with
    | nil =>
      have := (List.cons.inj h).1
      exact absurd (this ▸ List.mem_cons_self) ha
    | cons y a' =>
      obtain ⟨rfl, h1⟩ := List.cons.inj h
      obtain ⟨rfl, h2⟩ := ih h1 (fun h => ha (List.mem_cons_of_mem _ h)) (fun h => ha' (List.mem_cons_of_mem _ h))
      exact ⟨rfl, h2⟩

/-- Texts are cut in the same place by the last of a character. -/
theorem cut_last {c : Char} {a a' b b' : List Char} (h : a ++ c :: b = a' ++ c :: b') (hb : c ∉ b) (hb' : c ∉ b') : a = a' ∧ b = b' := by
  have h2 := congrArg List.reverse h
  simp only [List.reverse_append, List.reverse_cons, List.append_assoc, List.singleton_append] at h2
  obtain ⟨e1, e2⟩ := cut_first h2 (by simpa using hb) (by simpa using hb')
  exact ⟨List.reverse_inj.mp e2, List.reverse_inj.mp e1⟩

theorem numeric_not {c : Char} {l : List Char} (h : ∀ x ∈ l, numeric x = true) (hc : numeric c = false) : c ∉ l :=
  fun hm => by rw [h c hm] at hc; cases hc

/-- 64-bit durations. -/
def Fits64 (d : Duration) : Prop := -(2 ^ 63 : Int) ≤ d ∧ d < (2 ^ 63 : Int)

theorem durationString_inj {a b : Duration} (ha : Fits64 a) (hb : Fits64 b) (h : durationString a = durationString b) : a = b := by
  have e1 := parseDuration_string exactMul_floor a ha.1 ha.2
  have e2 := parseDuration_string exactMul_floor b hb.1 hb.2
  rw [h, e2] at e1
  exact (Option.some.inj e1).symm

theorem durationString_ne_nil (d : Duration) (hd : Fits64 d) : durationString d ≠ [] := by
  intro h
  have e1 := parseDuration_string exactMul_floor d hd.1 hd.2
  rw [h] at e1
  cases e1

theorem join_toList (l : List (List Char)) : (join " " (l.map String.ofList)).toList = match l with
    | [] => []
    | [x] => x
    | x :: y :: m => x ++ ' ' :: (join " " ((y :: m).map String.ofList)).toList := by
  match l with
  | [] => rfl
  | [x] => simp [join]
  | x :: y :: m => simp [join, String.toList_append]

theorem join_inj (l m : List (List Char)) (hl : ∀ x ∈ l, x ≠ [] ∧ ' ' ∉ x) (hm : ∀ x ∈ m, x ≠ [] ∧ ' ' ∉ x)
    (h : (join " " (l.map String.ofList)).toList = (join " " (m.map String.ofList)).toList) : l = m := by
  induction l generalizing m with
  | nil =>
    rw [join_toList, join_toList] at h
    match m with
    | [] => rfl
    | [y] => exact absurd h.symm (hm y List.mem_cons_self).1
    | y :: z :: m => simp at h
  | cons x l ih =>
    rw [join_toList, join_toList] at h
    match l, m with
    | [], [] => exact absurd h (hl x List.mem_cons_self).1
    | z :: l, [] => simp at h
    | [], [y] => simp only at h; rw [h]
    | [], y :: z :: m =>
      simp only at h
      exact absurd (h ▸ List.mem_append_right y List.mem_cons_self) (hl x List.mem_cons_self).2
    | w :: l, [y] =>
      simp only at h
      exact absurd (h ▸ List.mem_append_right x List.mem_cons_self) (hm y List.mem_cons_self).2
    | w :: l, y :: z :: m =>
      simp only at h
      obtain ⟨rfl, h2⟩ := cut_first h (hl x List.mem_cons_self).2 (hm y List.mem_cons_self).2
      rw [ih (z :: m) (fun x hx => hl x (List.mem_cons_of_mem _ hx)) (fun x hx => hm x (List.mem_cons_of_mem _ hx)) h2]

theorem buckets_inj {l m : List Duration} (hl : ∀ d ∈ l, Fits64 d) (hm : ∀ d ∈ m, Fits64 d)
    (h : (join " " (l.map showDuration)).toList = (join " " (m.map showDuration)).toList) : l = m := by
  have e : ∀ l : List Duration, l.map showDuration = (l.map durationString).map String.ofList := by
    intro l; rw [List.map_map]; rfl
  rw [e, e] at h
  have ok : ∀ l : List Duration, (∀ d ∈ l, Fits64 d) → ∀ x ∈ l.map durationString, x ≠ [] ∧ ' ' ∉ x := by
    intro l hl x hx
    obtain ⟨d, hd, rfl⟩ := List.mem_map.mp hx
    exact ⟨durationString_ne_nil d (hl d hd), numeric_not (durationString_numeric d) (by decide)⟩
  have := join_inj _ _ (ok l hl) (ok m hm) h
  clear h e ok
  induction l generalizing m with
  | nil =>
    cases m with
    | nil => rfl
    | cons b m => simp at this
  | cons a l ih =>
    cases m with
    | nil => simp at this
    | cons b m =>
      simp only [List.map_cons, List.cons.injEq] at this
      rw [durationString_inj (hl a List.mem_cons_self) (hm b List.mem_cons_self) this.1,
        ih (fun d hd => hl d (List.mem_cons_of_mem _ hd)) (fun d hd => hm d (List.mem_cons_of_mem _ hd)) this.2]

theorem buckets_closed (l : List Duration) : ']' ∉ (join " " (l.map showDuration)).toList := by
  have e : l.map showDuration = (l.map durationString).map String.ofList := by rw [List.map_map]; rfl
  rw [e]
  clear e
  induction l with
  | nil => simp [join]
  | cons d l ih =>
    rw [join_toList]
    have h1 : ']' ∉ durationString d := numeric_not (durationString_numeric d) (by decide)
    match l with
    | [] => exact h1
    | d' :: l =>
      simp only [List.map_cons, List.mem_append, List.mem_cons, not_or]
      refine ⟨h1, by decide, ?_⟩
      simpa using ih

/-- The printed form, in three parts. -/
theorem requestString_parts (req : SearchRequest) : (requestString req).toList =
    (if req.bucketing ≠ defaultBucketing then "Bucketing:[".toList ++ ((join " " (req.bucketing.map showDuration)).toList ++ ']' :: [' ']) else []) ++
    (("Filter:[".toList ++ ((req.filter.string showDuration).toList ++ "] Limit".toList)) ++ ':' :: (itoa req.limit ++
    if req.stackDepth ≠ 0 then " StackDepth:".toList ++ itoa req.stackDepth else [])) := by
  unfold requestString requestElems
  have l1 : "] Limit".toList = "]".toList ++ (" ".toList ++ "Limit".toList) := by decide
  have l2 : "Limit:".toList = "Limit".toList ++ [':'] := by decide
  have l3 : " StackDepth:".toList = " ".toList ++ "StackDepth:".toList := by decide
  have l4 : (']' :: [' '] : List Char) = "]".toList ++ " ".toList := by decide
  by_cases hb : req.bucketing ≠ defaultBucketing <;> by_cases hd : req.stackDepth ≠ 0
  · rw [if_pos hb, if_pos hb, if_pos hd, if_pos hd]
    simp only [List.nil_append, List.append_nil, List.cons_append, join, String.toList_append, String.toList_ofList, l1, l2, l3, l4, List.append_assoc]
  · rw [if_pos hb, if_pos hb, if_neg hd, if_neg hd]
    simp only [List.nil_append, List.append_nil, List.cons_append, join, String.toList_append, String.toList_ofList, l1, l2, l3, l4, List.append_assoc]
  · rw [if_neg hb, if_neg hb, if_pos hd, if_pos hd]
    simp only [List.nil_append, List.append_nil, List.cons_append, join, String.toList_append, String.toList_ofList, l1, l2, l3, l4, List.append_assoc]
  · rw [if_neg hb, if_neg hb, if_neg hd, if_neg hd]
    simp only [List.nil_append, List.append_nil, List.cons_append, join, String.toList_append, String.toList_ofList, l1, l2, l3, l4, List.append_assoc]

theorem tail_inj {a a' : List Char} {n n' d d' : Int} (ha : ∀ x, a ≠ x ++ "StackDepth".toList) (ha' : ∀ x, a' ≠ x ++ "StackDepth".toList)
    (h : a ++ ':' :: (itoa n ++ if d ≠ 0 then " StackDepth:".toList ++ itoa d else []) =
      a' ++ ':' :: (itoa n' ++ if d' ≠ 0 then " StackDepth:".toList ++ itoa d' else [])) : a = a' ∧ n = n' ∧ d = d' := by
  have no : ∀ n : Int, ':' ∉ itoa n := fun n => numeric_not (itoa_numeric n) (by decide)
  have e : ∀ (a : List Char) (n d : Int), a ++ ':' :: (itoa n ++ (" StackDepth:".toList ++ itoa d)) = (a ++ ':' :: (itoa n ++ " StackDepth".toList)) ++ ':' :: itoa d := by
    intro a n d
    show _ = _
    rw [show " StackDepth:".toList = " StackDepth".toList ++ [':'] from rfl]
    simp only [List.append_assoc, List.cons_append, List.nil_append, List.singleton_append]
  have e' : ∀ (a : List Char) (n : Int), (a ++ ':' :: (itoa n ++ " StackDepth".toList)) = (a ++ ':' :: (itoa n ++ [' '])) ++ "StackDepth".toList := by
    intro a n
    rw [show " StackDepth".toList = [' '] ++ "StackDepth".toList from rfl]
    simp only [List.append_assoc, List.cons_append]
  by_cases hd : d = 0 <;> by_cases hd' : d' = 0
  · subst hd hd'
    simp only [ne_eq, not_true_eq_false, if_false, List.append_nil] at h
    obtain ⟨rfl, h2⟩ := cut_last h (no n) (no n')
    exact ⟨rfl, itoa_inj h2, rfl⟩
  · subst hd
    simp only [ne_eq, not_true_eq_false, hd', not_false_eq_true, if_true, if_false, List.append_nil] at h
    rw [e] at h
    obtain ⟨h, -⟩ := cut_last h (no n) (no d')
    rw [e'] at h
    exact absurd h (ha _)
  · subst hd'
    simp only [ne_eq, not_true_eq_false, hd, not_false_eq_true, if_true, if_false, List.append_nil] at h
    rw [e] at h
    obtain ⟨h, -⟩ := cut_last h (no d) (no n')
    rw [e'] at h
    exact absurd h.symm (ha' _)
  · simp only [ne_eq, hd, hd', not_false_eq_true, if_true] at h
    rw [e, e] at h
    obtain ⟨h, h3⟩ := cut_last h (no d) (no d')
    rw [e', e'] at h
    have h := List.append_cancel_right h
    have h4 : ∀ (a : List Char) (n : Int), a ++ ':' :: (itoa n ++ [' ']) = (a ++ ':' :: itoa n) ++ [' '] := by intro a n; simp
    rw [h4, h4] at h
    obtain ⟨rfl, h5⟩ := cut_last (List.append_cancel_right h) (no n) (no n')
    exact ⟨rfl, itoa_inj h5, itoa_inj h3⟩

/-- **C138**, what is true: two requests print the same exactly if they ask for the same buckets, limit and stack depth, and their filters
print the same.  Full statement: exactly if they are the same; see `C138_ids_violated` and
`C138_quotes_violated`. -/
theorem C138_tells_partial (r r' : SearchRequest) (h : ∀ d ∈ r.bucketing, Fits64 d) (h' : ∀ d ∈ r'.bucketing, Fits64 d) :
    requestString r = requestString r' ↔ r.bucketing = r'.bucketing ∧ r.limit = r'.limit ∧ r.stackDepth = r'.stackDepth ∧
      r.filter.string showDuration = r'.filter.string showDuration := by
  constructor
  · intro heq
    have heq := congrArg String.toList heq
    rw [requestString_parts, requestString_parts] at heq
    have rest : ∀ (f f' : String) (n n' d d' : Int),
        ("Filter:[".toList ++ (f.toList ++ "] Limit".toList)) ++ ':' :: (itoa n ++ if d ≠ 0 then " StackDepth:".toList ++ itoa d else []) =
        ("Filter:[".toList ++ (f'.toList ++ "] Limit".toList)) ++ ':' :: (itoa n' ++ if d' ≠ 0 then " StackDepth:".toList ++ itoa d' else []) →
        n = n' ∧ d = d' ∧ f = f' := by
      intro f f' n n' d d' hh
      have no : ∀ (f : String) x, "Filter:[".toList ++ (f.toList ++ "] Limit".toList) ≠ x ++ "StackDepth".toList := by
        intro f x hx
        have := congrArg (fun l : List Char => l.getLast?) hx
        simp only [List.getLast?_append] at this
        rw [show "] Limit".toList.getLast? = some 't' by decide, show "StackDepth".toList.getLast? = some 'h' by decide] at this
        exact absurd (Option.some.inj this) (by decide)
      obtain ⟨e1, rfl, rfl⟩ := tail_inj (no f) (no f') hh
      have e2 := List.append_cancel_right (List.append_cancel_left e1)
      exact ⟨rfl, rfl, String.toList_inj.mp e2⟩
    by_cases hb : r.bucketing = defaultBucketing <;> by_cases hb' : r'.bucketing = defaultBucketing
    · simp only [hb, hb', ne_eq, not_true_eq_false, if_false, List.nil_append] at heq
      obtain ⟨e1, e2, e3⟩ := rest _ _ _ _ _ _ heq
      exact ⟨by rw [hb, hb'], e1, e2, e3⟩
    · simp only [hb, hb', ne_eq, not_true_eq_false, not_false_eq_true, if_true, if_false, List.nil_append] at heq
      have := congrArg (fun l : List Char => l.head?) heq
      exact absurd (Option.some.inj this) (by decide)
    · simp only [hb, hb', ne_eq, not_true_eq_false, not_false_eq_true, if_true, if_false, List.nil_append] at heq
      have := congrArg (fun l : List Char => l.head?) heq
      exact absurd (Option.some.inj this) (by decide)
    · rw [if_pos hb, if_pos hb'] at heq
      have as : ∀ b x y : List Char, (x ++ (b ++ ']' :: [' '])) ++ y = x ++ (b ++ ']' :: ' ' :: y) := by intro b x y; simp
      rw [as, as] at heq
      obtain ⟨e0, heq⟩ := cut_first (List.append_cancel_left heq) (buckets_closed _) (buckets_closed _)
      obtain ⟨e1, e2, e3⟩ := rest _ _ _ _ _ _ (List.cons.inj heq).2
      exact ⟨buckets_inj h h' e0, e1, e2, e3⟩
  · rintro ⟨h1, h2, h3, h4⟩
    unfold requestString requestElems
    rw [h1, h2, h3, h4]

/-- C138 fails for IDs: whichever IDs are asked for, requests that are alike otherwise print the same. -/
theorem C138_ids_violated (r : SearchRequest) (ids ids' : List String) (h : ids ≠ []) (h' : ids' ≠ []) :
    requestString { r with filter := { r.filter with ids := ids } } = requestString { r with filter := { r.filter with ids := ids' } } := by
  have l : ids.length > 0 := List.length_pos_iff.mpr h
  have l' : ids'.length > 0 := List.length_pos_iff.mpr h'
  simp only [requestString, requestElems, Filter.string, Filter.elems, l, l', if_true]

/-- C138 fails for quotes: a category that has one may look like a category and a query. -/
theorem C138_quotes_violated :
    requestString { filter := { category := "a' Query='b" } } = requestString { filter := { category := "a", query := "b" } } := by
  decide +kernel

/-- What some requests print. -/
example : requestString { bucketing := [0, 1500000000], filter := { isErrored := true }, limit := 7, stackDepth := -1 } =
    "Bucketing:[0s 1.5s] Filter:[IsErrored] Limit:7 StackDepth:-1" ∧
    requestString { bucketing := defaultBucketing, limit := 10 } = "Filter:[(allow all)] Limit:10" ∧
    (∀ d ∈ ([0, 1500000000] : List Duration), Fits64 d) := by
  refine ⟨by decide +kernel, by decide +kernel, ?_⟩
  intro d hd
  simp only [List.mem_cons, List.not_mem_nil, or_false] at hd
  rcases hd with rfl | rfl <;> exact ⟨by decide, by decide⟩

end Trc.Web
