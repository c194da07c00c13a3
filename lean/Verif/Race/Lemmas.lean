import Verif.Race.Spec

/-!
# What goroutines know of each other's accesses
-/

set_option linter.unusedVariables false
set_option linter.unusedSimpArgs false

namespace Trc.Race

open Trc.Lock (Lock upd)

theorem upd_same {α β : Type} [DecidableEq α] (f : α → β) (a : α) (b : β) : upd f a b a = b := by simp [upd]
theorem upd_ne {α β : Type} [DecidableEq α] (f : α → β) {a x : α} (b : β) (h : x ≠ a) : upd f a b x = f x := by simp [upd, h]

abbrev Trace := List (Tid × Ev)

theorem get_mono {tr ys : Trace} {i : Nat} {x : Tid × Ev} (h : tr[i]? = some x) : (tr ++ ys)[i]? = some x := by
  rw [List.getElem?_append_left]
  · exact h
  · exact (List.getElem?_eq_some_iff.mp h).1

theorem edge_mono {tr ys : Trace} {i j : Nat} (h : edge tr i j = true) : edge (tr ++ ys) i j = true := by
  unfold edge at h ⊢
  cases hi : tr[i]? with
  | none => simp [hi] at h
  | some x =>
    cases hj : tr[j]? with
    | none => simp [hi, hj] at h
    | some y =>
      rw [get_mono hi, get_mono hj]
      rw [hi, hj] at h
      exact h

theorem HB.mono {tr ys : Trace} {i j : Nat} (h : HB tr i j) : HB (tr ++ ys) i j := by
  induction h with
  | edge h => exact .edge (edge_mono h)
  | trans _ h ih => exact .trans ih (edge_mono h)

/-- The same operation, or happens before. -/
def Before (tr : Trace) (i j : Nat) : Prop := i = j ∨ HB tr i j

theorem Before.mono {tr ys : Trace} {i j : Nat} (h : Before tr i j) : Before (tr ++ ys) i j :=
  h.elim .inl fun h => .inr h.mono

theorem Before.edge {tr : Trace} {i j k : Nat} (h : Before tr i j) (e : Race.edge tr j k = true) : HB tr i k := by
  rcases h with rfl | h
  · exact .edge e
  · exact .trans h e

/-- The operation happens before whatever the goroutine does next. -/
def Knows (tr : Trace) (i : Nat) (t : Tid) : Prop := ∃ j x, tr[j]? = some (t, x) ∧ Before tr i j

/-- There is such an operation that the given one happens before. -/
def Until (tr : Trace) (i : Nat) (e : Ev) : Prop := ∃ u t, tr[u]? = some (t, e) ∧ Before tr i u

theorem Knows.mono {tr ys : Trace} {i : Nat} {t : Tid} (h : Knows tr i t) : Knows (tr ++ ys) i t := by
  obtain ⟨j, x, h, b⟩ := h
  exact ⟨j, x, get_mono h, b.mono⟩

theorem Until.mono {tr ys : Trace} {i : Nat} {e : Ev} (h : Until tr i e) : Until (tr ++ ys) i e := by
  obtain ⟨j, x, h, b⟩ := h
  exact ⟨j, x, get_mono h, b.mono⟩

theorem get_last (tr : Trace) (x : Tid × Ev) : (tr ++ [x])[tr.length]? = some x := by simp

theorem lt_of_get {tr : Trace} {i : Nat} {x : Tid × Ev} (h : tr[i]? = some x) : i < tr.length :=
  (List.getElem?_eq_some_iff.mp h).1

theorem Knows.now {tr : Trace} {i : Nat} {t : Tid} {e : Ev} (h : Knows tr i t) : HB (tr ++ [(t, e)]) i tr.length := by
  obtain ⟨j, x, h, b⟩ := h
  refine b.mono.edge ?_
  unfold edge
  rw [get_mono h, get_last]
  simp [lt_of_get h]

theorem knows_own (tr : Trace) (t : Tid) (e : Ev) : Knows (tr ++ [(t, e)]) tr.length t :=
  ⟨_, e, get_last _ _, .inl rfl⟩

theorem Knows.until {tr : Trace} {i : Nat} {t : Tid} (e : Ev) (h : Knows tr i t) : Until (tr ++ [(t, e)]) i e :=
  ⟨_, t, get_last _ _, .inr h.now⟩

theorem Until.now {tr : Trace} {i : Nat} {e e' : Ev} {t : Tid} (h : Until tr i e) (hs : synchronizes e e' = true) :
    Knows (tr ++ [(t, e')]) i t := by
  obtain ⟨j, t', h, b⟩ := h
  refine ⟨_, e', get_last _ _, .inr (b.mono.edge ?_)⟩
  unfold edge
  rw [get_mono h, get_last]
  simp [lt_of_get h, hs]

/-- Whoever has the lock, or has it next, knows the operation. -/
def Safe (s : St) (i : Nat) (m : Lock) : Prop :=
  (∃ t, s.owner m = some t ∧ Knows s.tr i t) ∨ Until s.tr i (.unlock m)

/-- The pointer is somewhere. -/
def St.Has (s : St) (p : Token) : Prop :=
  (∃ t, p ∈ s.has t) ∨ (∃ m, p ∈ s.store m) ∨ ∃ k ps, s.msgs k = some ps ∧ p ∈ ps

/-- Whoever has the pointer knows the operation. -/
structure Everyone (s : St) (i : Nat) (p : Token) : Prop where
  has : ∀ t, p ∈ s.has t → Knows s.tr i t
  raw : ∀ t, p ∈ s.raw t → Knows s.tr i t
  store : ∀ m, p ∈ s.store m → Safe s i m
  msgs : ∀ k ps, s.msgs k = some ps → p ∈ ps → Until s.tr i (.send k)

/-- What is known of an access. -/
def Covered (s : St) (i : Nat) (w : Bool) : Loc → Nat → Prop
  | .imm a, g => 1 ≤ g ∧ g ≤ s.gens (.trace a) ∧ (∀ t, (.trace a, g) ∈ s.raw t → Knows s.tr i t) ∧
      (w = true → Everyone s i (.trace a, g))
  | .var a, g => 1 ≤ g ∧ g ≤ s.gens (.trace a) ∧ (∀ t, (.trace a, g) ∈ s.raw t → Knows s.tr i t) ∧
      (Everyone s i (.trace a, g) ∨ Safe s i (.trace a))
  | .ring r, g => 1 ≤ g ∧ g ≤ s.gens (.ring r) ∧ (∀ t, (.ring r, g) ∈ s.raw t → Knows s.tr i t) ∧
      (Everyone s i (.ring r, g) ∨ Safe s i (.ring r))
  | .set k, _ => Safe s i (.set k)
  | .broker b, _ => Safe s i (.broker b)
  | .part e, _ => 1 ≤ s.gens (.part e) ∧ (∀ a, s.home e = some a → Safe s i (.trace a)) ∧
      (s.pooled (.part e) = true → Until s.tr i (.put (.part e)))
  | .frames e, g => 1 ≤ g ∧ g ≤ s.gens (.part e) ∧ (g = s.gens (.part e) → s.filled e = true) ∧
      (w = true → Everyone s i (.part e, g) ∧ (g = s.gens (.part e) → ∀ a, s.home e = some a → Safe s i (.trace a)))
  | .args _, _ => True

/-! ## The locking of the methods -/

/-- The lock that guards a location. -/
def Loc.guard : Loc → Option Lock
  | .var a => some (.trace a)
  | .ring r => some (.ring r)
  | .set k => some (.set k)
  | .broker b => some (.broker b)
  | _ => none

/-- The operation is done with the locks it needs. -/
def Instr.ok (held : Lock → Bool) : Instr → Prop
  | .unlock m => held m = true
  | .acc w l _ => match l.guard with
    | some m => held m = true
    | none => w = false
  | .take a _ => held (.trace a) = true
  | .accPart _ a _ => held (.trace a) = true
  | .putPart a _ => held (.trace a) = true
  | .fill a _ => held (.trace a) = true
  | .snap a _ _ => held (.trace a) = true
  | .stash m _ => held m = true
  | .fetch m _ => held m = true
  | .drop m _ => held m = true
  | _ => True

/-- The locks held after an operation. -/
def Instr.after (held : Lock → Bool) : Instr → Lock → Bool
  | .lock m => upd held m true
  | .unlock m => upd held m false
  | _ => held

/-- All operations are, and in the end no lock is held. -/
def Ok (held : Lock → Bool) : List Instr → Prop
  | [] => ∀ m, held m = false
  | i :: rest => i.ok held ∧ Ok (i.after held) rest

/-- The operations are, and give back the locks they take. -/
def Fits (held : Lock → Bool) (code : List Instr) : Prop := ∀ rest, Ok held rest → Ok held (code ++ rest)

theorem Fits.nil {held : Lock → Bool} : Fits held [] := fun _ h => h

theorem Fits.append {held : Lock → Bool} {c d : List Instr} (hc : Fits held c) (hd : Fits held d) : Fits held (c ++ d) := by
  intro rest h
  rw [List.append_assoc]
  exact hc _ (hd _ h)

theorem Fits.cons {held : Lock → Bool} {i : Instr} {c : List Instr} (hi : i.ok held) (ha : i.after held = held) (hc : Fits held c) :
    Fits held (i :: c) := by
  intro rest h
  exact ⟨hi, by rw [ha]; exact hc _ h⟩

theorem Fits.flatMap {held : Lock → Bool} {α : Type} {l : List α} {f : α → List Instr} (h : ∀ x ∈ l, Fits held (f x)) :
    Fits held (l.flatMap f) := by
  induction l with
  | nil => exact .nil
  | cons x l ih =>
    rw [List.flatMap_cons]
    exact .append (h x (.head _)) (ih fun y hy => h y (.tail _ hy))

theorem Fits.map {held : Lock → Bool} {α : Type} {l : List α} {f : α → Instr} (h : ∀ x ∈ l, (f x).ok held ∧ (f x).after held = held) :
    Fits held (l.map f) := by
  induction l with
  | nil => exact .nil
  | cons x l ih => exact .cons (h x (.head _)).1 (h x (.head _)).2 (ih fun y hy => h y (.tail _ hy))

theorem Fits.locked {held : Lock → Bool} {m : Lock} {c : List Instr} (hm : held m = false) (hc : Fits (upd held m true) c) :
    Fits held (locked m c) := by
  intro rest h
  unfold Race.locked
  simp only [List.cons_append, List.append_assoc, List.nil_append]
  refine ⟨trivial, ?_⟩
  apply hc
  refine ⟨upd_same _ _ _, ?_⟩
  have : upd (upd held m true) m false = held := by
    funext x
    by_cases hx : x = m
    · subst hx; rw [upd_same, hm]
    · rw [upd_ne _ _ hx, upd_ne _ _ hx]
  show Ok (upd (upd held m true) m false) rest
  rw [this]
  exact h

theorem fits_look {held : Lock → Bool} {h : Handle} (hm : held (.trace h.a) = false) (l : Look) : Fits held (l.code h) := by
  cases l with
  | attr => exact .cons rfl rfl .nil
  | duration => exact .locked hm (.cons (upd_same _ _ _) rfl (.cons rfl rfl .nil))
  | flag => exact .locked hm (.cons (upd_same _ _ _) rfl .nil)
  | events parts =>
    refine .locked hm (.cons (upd_same _ _ _) rfl (.flatMap fun p _ => ?_))
    cases p with
    | plain e => exact .cons (upd_same _ _ _) rfl .nil
    | stack e g => exact .cons (upd_same _ _ _) rfl (.cons (upd_same _ _ _) rfl .nil)
    | newStack e g => exact .cons (upd_same _ _ _) rfl (.cons (upd_same _ _ _) rfl (.cons (upd_same _ _ _) rfl .nil))
  | frames e g => exact .cons rfl rfl .nil

theorem fits_looks {held : Lock → Bool} {h : Handle} (hm : held (.trace h.a) = false) (ls : List Look) : Fits held (looks h ls) :=
  .flatMap fun l _ => fits_look hm l

theorem fits_log {held : Lock → Bool} {h : Handle} (hm : held (.trace h.a) = false) (o : Outcome) : Fits held (coreLog h o) := by
  refine .locked hm (.cons (upd_same _ _ _) rfl ?_)
  cases o with
  | ignored => exact .nil
  | truncated => exact .cons (upd_same _ _ _) rfl .nil
  | stored parts =>
    exact .append (.flatMap fun e _ => .cons (upd_same _ _ _) rfl (.cons (upd_same _ _ _) rfl .nil)) (.cons (upd_same _ _ _) rfl .nil)

theorem fits_coreFinish {held : Lock → Bool} {h : Handle} (hm : held (.trace h.a) = false) (already : Bool) :
    Fits held (coreFinish h already) := by
  refine .locked hm (.cons (upd_same _ _ _) rfl ?_)
  cases already with
  | true => exact .nil
  | false => exact .cons rfl rfl (.cons (upd_same _ _ _) rfl .nil)

theorem fits_free {held : Lock → Bool} {h : Handle} (hm : held (.trace h.a) = false) (o : Option (List Nat)) : Fits held (coreFree h o) := by
  refine .locked hm (.cons (upd_same _ _ _) rfl ?_)
  cases o with
  | none => exact .nil
  | some es =>
    exact .append (.flatMap fun e _ => .cons (upd_same _ _ _) rfl (.cons (upd_same _ _ _) rfl .nil))
      (.cons (upd_same _ _ _) rfl (.cons trivial rfl .nil))

theorem fits_publish {held : Lock → Bool} {h : Handle} {b : Nat} (hm : held (.trace h.a) = false) (hb : held (.broker b) = false)
    (ls : List Look) : Fits held (publish b h ls) :=
  .locked hb (.cons (upd_same _ _ _) rfl (.append (fits_looks (by rw [upd_ne _ _ (by simp)]; exact hm) ls)
    (.cons (upd_same _ _ _) rfl .nil)))

/-- No lock is held. -/
def free : Lock → Bool := fun _ => false

theorem fits_event (h : Handle) (o : Outcome) (ws : List Wrapper) : Fits free (event h o ws) := by
  induction ws with
  | nil => exact fits_log rfl o
  | cons w ws ih =>
    cases w with
    | log => exact ih
    | pub b ls => exact .append ih (fits_publish rfl rfl ls)
    | «prefix» p spare =>
      refine .append ?_ ih
      cases spare with
      | true => exact .cons trivial rfl .nil
      | false => exact .nil

theorem fits_finish (h : Handle) (already : Bool) (ws : List Wrapper) : Fits free (finish h already ws) := by
  induction ws with
  | nil => exact fits_coreFinish rfl already
  | cons w ws ih =>
    cases w with
    | log => exact .append ih (fits_looks rfl _)
    | pub b ls => exact .append ih (fits_publish rfl rfl ls)
    | «prefix» p spare => exact ih

/-- Every call takes the locks it needs. -/
theorem fits_call (c : Call) : Fits free c.code := by
  cases c with
  | look h ls => exact fits_looks rfl ls
  | setMaxEvents h => exact .locked rfl (.cons (upd_same _ _ _) rfl .nil)
  | event h o ws => exact fits_event h o ws
  | finish h already ws => exact fits_finish h already ws
  | new h => exact .cons trivial rfl (.cons trivial rfl (.cons trivial rfl (.cons trivial rfl .nil)))
  | newTrace h b ls decorators k r newRing dropped =>
    refine .append (.cons trivial rfl (.cons trivial rfl (.cons trivial rfl (.cons trivial rfl .nil))))
      (.append (fits_publish rfl rfl ls) (.append (fits_looks rfl _) (.append ?_ (.append ?_ (.flatMap fun d _ => fits_free rfl _)))))
    · refine .locked rfl (.cons (upd_same _ _ _) rfl ?_)
      cases newRing with
      | true => exact .cons trivial rfl (.cons trivial rfl (.cons trivial rfl (.cons (upd_same _ _ _) rfl (.cons (upd_same _ _ _) rfl .nil))))
      | false => exact .cons (upd_same _ _ _) rfl .nil
    · exact .locked rfl (.cons (upd_same _ _ _) rfl (.append (.map fun d _ => ⟨upd_same _ _ _, rfl⟩)
        (.cons (upd_same _ _ _) rfl (.cons (upd_same _ _ _) rfl .nil))))
  | setCategorySize k rings dropped =>
    refine .append (.locked rfl (.cons (upd_same _ _ _) rfl (.flatMap fun r _ => .cons (upd_same _ _ _) rfl ?_)))
      (.flatMap fun d _ => fits_free rfl _)
    exact .locked (by rw [upd_ne _ _ (by simp)]; rfl) (.cons (upd_same _ _ _) rfl (.append (.map fun d _ => ⟨upd_same _ _ _, rfl⟩)
      (.cons (upd_same _ _ _) rfl .nil)))
  | search k walks =>
    refine .append (.locked rfl (.cons (upd_same _ _ _) rfl (.map fun w _ => ⟨upd_same _ _ _, rfl⟩))) (.flatMap fun w _ => ?_)
    refine .locked rfl (.cons (upd_same _ _ _) rfl (.flatMap fun c _ => .cons (upd_same _ _ _) rfl (fits_looks ?_ _)))
    rw [upd_ne _ _ (by simp)]; rfl
  | stream b done =>
    exact .append (.locked rfl (.cons (upd_same _ _ _) rfl (.cons (upd_same _ _ _) rfl .nil)))
      (.cons trivial rfl (.locked rfl (.cons (upd_same _ _ _) rfl (.cons (upd_same _ _ _) rfl .nil))))
  | streamStats b => exact .locked rfl (.cons (upd_same _ _ _) rfl .nil)
  | publish b h ls => exact fits_publish rfl rfl ls
  | send k ps => exact .cons trivial rfl .nil
  | recv k ps => exact .cons trivial rfl .nil

end Trc.Race
