import Verif.Wrap.Config

/-!
# Traces are made as their collector was configured (C105)
-/

namespace Trc.Config

variable {T : Type}

/-! ## Specification

The settings of a collector are told from what the program did, without looking at the collector.
Collectors and brokers are numbered in the order in which they are made. -/

/-- How many collectors the program has made. -/
def collectors (ops : List (Op T)) : Nat :=
  ops.countP fun | .create .. => true | _ => false

/-- How many brokers were made, by the program or because a collector was given none. -/
def brokersMade (ops : List (Op T)) : Nat :=
  ops.countP fun | .broker => true | .create _ _ none _ => true | _ => false

/-- `op`, done after `past`, gives collector `c` a source. -/
def SetsSource (c : Nat) (past : List (Op T)) (op : Op T) (v : String) : Prop :=
  match op with
  | .create source _ _ _ => collectors past = c ∧ v = if source = "" then "default" else source
  | .setSourceName c' name => c' = c ∧ v = name
  | _ => False

/-- ... a function for new traces; `none` is nil. -/
def SetsFunc (core : String → String → T) (c : Nat) (past : List (Op T)) (op : Op T) (v : Option (NewFunc T)) : Prop :=
  match op with
  | .create _ none _ _ => collectors past = c ∧ v = some fun s k ds => ds.foldl (fun tr d => d tr) (core s k)
  | .create _ (some f) _ _ => collectors past = c ∧ v = some f
  | .setNewTrace c' f => c' = c ∧ v = f
  | _ => False

/-- ... decorators. -/
def SetsDecorators (c : Nat) (past : List (Op T)) (op : Op T) (v : Slice) : Prop :=
  match op with
  | .create _ _ _ ds => collectors past = c ∧ v = ds
  | .setDecorators c' ds => c' = c ∧ v = ds
  | _ => False

/-- ... a broker. -/
def SetsBroker (c : Nat) (past : List (Op T)) (op : Op T) (v : Nat) : Prop :=
  match op with
  | .create _ _ (some b) _ => collectors past = c ∧ v = b
  | .create _ _ none _ => collectors past = c ∧ v = brokersMade past
  | _ => False

/-- The last setting of a kind in a program was done after `past` and before `rest`. -/
def LastSet {V : Type} (sets : List (Op T) → Op T → V → Prop) (ops : List (Op T)) (past rest : List (Op T)) (v : V) : Prop :=
  ∃ op, ops = past ++ op :: rest ∧ sets past op v ∧
    ∀ p o r v', rest = p ++ o :: r → ¬ sets (past ++ op :: p) o v'

/-- The elements of a slice when they were given, as the program wrote the array and changed it before. -/
def written (ops : List (Op T)) (a : Nat) : List (Deco T) :=
  let arrays := ops.foldl (fun (l : List (List (Deco T))) op => match op with
    | .array ds => l ++ [ds]
    | .assign a i d => l.modify a fun x => x.set i d
    | _ => l) []
  (arrays[a]?).getD []

def given (ops : List (Op T)) (sl : Slice) : List (Deco T) := ((written ops sl.array).drop sl.off).take sl.len

/-- The program does not change the array. -/
def Unchanged (a : Nat) (ops : List (Op T)) : Prop := ∀ i d, Op.assign a i d ∉ ops

/-- There has been an array of this number. -/
def HasArray (ops : List (Op T)) (a : Nat) : Prop :=
  a < ops.countP fun | .array _ => true | _ => false

/-- The trace wrapped by decorators, the first innermost. -/
def wrap (t : T) : List (Deco T) → T
  | [] => t
  | d :: ds => wrap (d t) ds

/-! ## Lemmas -/

theorem wrap_eq (ds : List (Deco T)) : ∀ t : T, ds.foldl (fun tr d => d tr) t = wrap t ds := by
  induction ds with
  | nil => intro t; rfl
  | cons d ds ih => intro t; exact ih (d t)

theorem snoc_cases {α : Type} (l : List α) : l = [] ∨ ∃ l' a, l = l' ++ [a] := by
  rcases List.eq_nil_or_concat l with h | ⟨l', a, h⟩
  · exact .inl h
  · exact .inr ⟨l', a, by simpa using h⟩

theorem LastSet.snoc {V : Type} {sets : List (Op T) → Op T → V → Prop} {ops past rest : List (Op T)} {op : Op T} {v : V}
    (h : LastSet sets (ops ++ [op]) past rest v) :
    (rest = [] ∧ past = ops ∧ sets ops op v) ∨
      ∃ rest', rest = rest' ++ [op] ∧ LastSet sets ops past rest' v ∧ ∀ v', ¬ sets ops op v' := by
  obtain ⟨o, he, hs, hl⟩ := h
  rcases snoc_cases rest with rfl | ⟨r, a, rfl⟩
  · have := List.append_inj' he rfl
    obtain ⟨e1, e2⟩ := this
    simp only [List.cons.injEq, and_true] at e2
    subst e1 e2
    exact .inl ⟨rfl, rfl, hs⟩
  · have he' : ops ++ [op] = (past ++ o :: r) ++ [a] := by simpa using he
    obtain ⟨e1, e2⟩ := List.append_inj' he' rfl
    simp only [List.cons.injEq, and_true] at e2
    subst e1 e2
    refine .inr ⟨r, rfl, ⟨o, rfl, hs, ?_⟩, ?_⟩
    · intro p o' r' v' e
      exact hl p o' (r' ++ [op]) v' (by rw [e]; simp)
    · intro v'
      exact hl r op [] v' rfl

theorem LastSet.last {V : Type} {sets : List (Op T) → Op T → V → Prop} {ops : List (Op T)} {op : Op T} {v : V}
    (h : sets ops op v) : LastSet sets (ops ++ [op]) ops [] v :=
  ⟨op, rfl, h, by intro p o r v' e; simp at e⟩

theorem LastSet.more {V : Type} {sets : List (Op T) → Op T → V → Prop} {ops past rest : List (Op T)} {op : Op T} {v : V}
    (h : LastSet sets ops past rest v) (hn : ∀ v', ¬ sets ops op v') :
    LastSet sets (ops ++ [op]) past (rest ++ [op]) v := by
  obtain ⟨o, rfl, hs, hl⟩ := h
  refine ⟨o, by simp, hs, ?_⟩
  intro p o' r v' e
  rcases snoc_cases r with rfl | ⟨r', a, rfl⟩
  · obtain ⟨e1, e2⟩ := List.append_inj' e rfl
    simp only [List.cons.injEq, and_true] at e2
    subst e1 e2
    exact hn v'
  · have e' : rest ++ [op] = (p ++ o' :: r') ++ [a] := by simpa using e
    obtain ⟨e1, _⟩ := List.append_inj' e' rfl
    exact hl p o' r' v' e1

/-- A setting that is made when the collector is created was made some last time. -/
theorem exists_last {V : Type} (sets : List (Op T) → Op T → V → Prop) (c : Nat)
    (hcreate : ∀ past src f b ds, collectors past = c → ∃ v, sets past (.create src f b ds) v) (ops : List (Op T))
    (h : c < collectors ops) : ∃ past rest v, LastSet sets ops past rest v := by
  obtain ⟨n, hn⟩ : ∃ n, ops.length = n := ⟨_, rfl⟩
  induction n generalizing ops with
  | zero =>
    have : ops = [] := List.eq_nil_of_length_eq_zero hn
    subst this
    simp [collectors] at h
  | succ n ih =>
    rcases snoc_cases ops with rfl | ⟨ops, op, rfl⟩
    · simp at hn
    · by_cases hs : ∃ v, sets ops op v
      · obtain ⟨v, hv⟩ := hs
        exact ⟨_, _, _, LastSet.last hv⟩
      · have hc : c < collectors ops := by
          by_cases hc : c < collectors ops
          · exact hc
          · exfalso
            cases op with
            | create src f b ds =>
              refine hs (hcreate ops src f b ds ?_)
              simp [collectors, List.countP_append] at h hc ⊢
              omega
            | _ =>
              simp [collectors, List.countP_append] at h hc
              omega
        obtain ⟨past, rest, v, hl⟩ := ih ops hc (by simpa using hn)
        exact ⟨_, _, _, hl.more (fun v' hv => hs ⟨v', hv⟩)⟩

section
variable (core : String → String → T) (publish : Nat → Deco T)

theorem run_snoc (ops : List (Op T)) (op : Op T) :
    run core publish (ops ++ [op]) = (run core publish ops).bind fun s => step core publish s op := by
  simp [run, List.foldlM_append]

/-- What is counted, and the arrays. -/
theorem run_counts (ops : List (Op T)) : ∀ s, run core publish ops = some s →
    s.colls.length = collectors ops ∧ s.brokers = brokersMade ops ∧ (∀ a, (s.arrays[a]?).getD [] = written ops a) ∧
      s.arrays.length = ops.countP (fun | .array _ => true | _ => false) := by
  obtain ⟨n, hn⟩ : ∃ n, ops.length = n := ⟨_, rfl⟩
  suffices ∀ s, run core publish ops = some s →
    s.colls.length = collectors ops ∧ s.brokers = brokersMade ops ∧
      s.arrays = ops.foldl (fun (l : List (List (Deco T))) op => match op with
        | .array ds => l ++ [ds]
        | .assign a i d => l.modify a fun x => x.set i d
        | _ => l) [] ∧
      s.arrays.length = ops.countP (fun | .array _ => true | _ => false) by
    intro s hs
    obtain ⟨h1, h2, h3, h4⟩ := this s hs
    exact ⟨h1, h2, fun a => by rw [h3]; rfl, h4⟩
  induction n generalizing ops with
  | zero =>
    have : ops = [] := List.eq_nil_of_length_eq_zero hn
    subst this
    intro s h
    simp [run] at h
    subst h
    simp [collectors, brokersMade]
  | succ n ih =>
    rcases snoc_cases ops with rfl | ⟨ops, op, rfl⟩
    · simp at hn
    · intro s' h
      rw [run_snoc, Option.bind_eq_some_iff] at h
      obtain ⟨s, hs, hst⟩ := h
      obtain ⟨h1, h2, h3, h4⟩ := ih ops (by simpa using hn) s hs
      rw [List.foldl_append, ← h3]
      simp only [collectors, brokersMade, List.countP_append] at h1 h2 h4 ⊢
      rw [← h1, ← h2, ← h4]
      cases op with
      | newTrace c ctx k =>
        simp only [step] at hst
        split at hst
        · cases hst
        · split at hst
          · simp at hst; subst hst; simp
          · rw [Option.map_eq_some_iff] at hst
            obtain ⟨t, _, rfl⟩ := hst
            simp
      | create src f b ds =>
        simp only [step, newCollector] at hst
        cases b <;> (simp at hst; subst hst; simp)
      | setSourceName c v | setNewTrace c v | setDecorators c v =>
        simp only [step] at hst
        split at hst
        · simp at hst; subst hst; simp
        · cases hst
      | _ => simp [step] at hst; subst hst; simp

/-- A field of a collector has the value it was last set to. -/
theorem run_field {V : Type} (sets : List (Op T) → Op T → V → Prop) (c : Nat) (field : Coll T → V)
    (hset : ∀ ops s op s' v, run core publish ops = some s → step core publish s op = some s' → sets ops op v →
      s'.colls[c]?.map field = some v)
    (hkeep : ∀ ops s op s' v, run core publish ops = some s → step core publish s op = some s' →
      (∀ v', ¬ sets ops op v') → s.colls[c]?.map field = some v → s'.colls[c]?.map field = some v)
    (ops : List (Op T)) : ∀ s past rest v, run core publish ops = some s → LastSet sets ops past rest v →
      s.colls[c]?.map field = some v := by
  obtain ⟨n, hn⟩ : ∃ n, ops.length = n := ⟨_, rfl⟩
  induction n generalizing ops with
  | zero =>
    have : ops = [] := List.eq_nil_of_length_eq_zero hn
    subst this
    rintro s past rest v _ ⟨o, he, _⟩
    simp at he
  | succ n ih =>
    rcases snoc_cases ops with rfl | ⟨ops, op, rfl⟩
    · simp at hn
    · intro s' past rest v h hl
      rw [run_snoc, Option.bind_eq_some_iff] at h
      obtain ⟨s, hs, hst⟩ := h
      rcases hl.snoc with ⟨_, _, hv⟩ | ⟨rest', _, hl', hn'⟩
      · exact hset ops s op s' v hs hst hv
      · exact hkeep ops s op s' v hs hst hn' (ih ops (by simpa using hn) s past rest' v hs hl')

/-- How a step changes the collectors. -/
theorem step_colls {s s' : State T} {op : Op T} (h : step core publish s op = some s') :
    s'.colls = match op with
      | .create src f b ds => s.colls ++ [(newCollector core s.brokers src f b ds).1]
      | .setSourceName c v => s.colls.modify c fun x => { x with source := v }
      | .setNewTrace c v => s.colls.modify c fun x => { x with newTrace := v }
      | .setDecorators c v => s.colls.modify c fun x => { x with decorators := v }
      | _ => s.colls := by
  cases op with
  | newTrace c ctx k =>
    simp only [step] at h
    split at h
    · cases h
    · split at h
      · simp at h; subst h; rfl
      · rw [Option.map_eq_some_iff] at h
        obtain ⟨t, _, rfl⟩ := h
        rfl
  | create src f b ds =>
    simp only [step] at h
    simp at h; subst h; rfl
  | setSourceName c v | setNewTrace c v | setDecorators c v =>
    simp only [step] at h
    split at h
    · simp at h; subst h; rfl
    · cases h
  | _ => simp [step] at h; subst h; rfl

theorem step_exists {s s' : State T} {c : Nat} {op : Op T} (h : step core publish s op = some s')
    (hop : (∃ v, op = .setSourceName c v) ∨ (∃ v, op = .setNewTrace c v) ∨ (∃ v, op = .setDecorators c v)) :
    c < s.colls.length := by
  rcases hop with ⟨v, rfl⟩ | ⟨v, rfl⟩ | ⟨v, rfl⟩ <;>
  · simp only [step] at h
    split at h
    · assumption
    · cases h

/-- What does not set a field keeps it. -/
theorem keep_of {V : Type} {sets : List (Op T) → Op T → V → Prop} {c : Nat} {field : Coll T → V} {ops : List (Op T)}
    {s s' : State T} {op : Op T} (hst : step core publish s op = some s')
    (h1 : ∀ name, op = .setSourceName c name → (∀ x : Coll T, field { x with source := name } = field x) ∨ ∃ v, sets ops op v)
    (h2 : ∀ f, op = .setNewTrace c f → (∀ x : Coll T, field { x with newTrace := f } = field x) ∨ ∃ v, sets ops op v)
    (h3 : ∀ ds, op = .setDecorators c ds → (∀ x : Coll T, field { x with decorators := ds } = field x) ∨ ∃ v, sets ops op v)
    (hn : ∀ v', ¬ sets ops op v') (v : V) (hv : s.colls[c]?.map field = some v) : s'.colls[c]?.map field = some v := by
  rw [step_colls core publish hst]
  rw [Option.map_eq_some_iff] at hv
  obtain ⟨x, hx, rfl⟩ := hv
  have hlt : c < s.colls.length := (List.getElem?_eq_some_iff.1 hx).1
  cases op with
  | create src f b ds =>
    simp only
    rw [List.getElem?_append_left hlt, hx]; rfl
  | setSourceName c' name =>
    simp only [List.getElem?_modify, hx]
    by_cases hc : c' = c
    · subst hc
      rcases h1 name rfl with h | ⟨v, h⟩
      · simp [h]
      · exact absurd h (hn v)
    · simp [hc]
  | setNewTrace c' f =>
    simp only [List.getElem?_modify, hx]
    by_cases hc : c' = c
    · subst hc
      rcases h2 f rfl with h | ⟨v, h⟩
      · simp [h]
      · exact absurd h (hn v)
    · simp [hc]
  | setDecorators c' ds =>
    simp only [List.getElem?_modify, hx]
    by_cases hc : c' = c
    · subst hc
      rcases h3 ds rfl with h | ⟨v, h⟩
      · simp [h]
      · exact absurd h (hn v)
    · simp [hc]
  | _ => simp only [hx]; rfl

theorem run_source {ops past rest : List (Op T)} {s : State T} {c : Nat} {v : String}
    (hs : run core publish ops = some s) (hl : LastSet (SetsSource c) ops past rest v) :
    s.colls[c]?.map (·.source) = some v := by
  refine run_field core publish (SetsSource c) c (·.source) ?_ ?_ ops s past rest v hs hl
  · intro ops s op s' v hs hst h
    have hlen := (run_counts core publish ops s hs).1
    rw [step_colls core publish hst]
    cases op <;> simp only [SetsSource] at h
    · obtain ⟨e, rfl⟩ := h
      rename_i src f b ds
      cases b <;> simp [← hlen, ← e, newCollector]
    · obtain ⟨rfl, rfl⟩ := h
      have := step_exists core publish hst (.inl ⟨_, rfl⟩)
      simp [List.getElem?_eq_getElem this]
  · intro ops s op s' v hs hst hn hv
    refine keep_of core publish (sets := SetsSource c) (ops := ops) hst ?_ ?_ ?_ hn v hv
    · rintro name rfl; exact .inr ⟨name, rfl, rfl⟩
    · rintro f rfl; exact .inl fun x => rfl
    · rintro f rfl; exact .inl fun x => rfl

theorem run_func {ops past rest : List (Op T)} {s : State T} {c : Nat} {v : Option (NewFunc T)}
    (hs : run core publish ops = some s) (hl : LastSet (SetsFunc core c) ops past rest v) :
    s.colls[c]?.map (·.newTrace) = some v := by
  refine run_field core publish (SetsFunc core c) c (·.newTrace) ?_ ?_ ops s past rest v hs hl
  · intro ops s op s' v hs hst h
    have hlen := (run_counts core publish ops s hs).1
    rw [step_colls core publish hst]
    cases op with
    | create src f b ds =>
      cases f <;> simp only [SetsFunc] at h <;> obtain ⟨e, rfl⟩ := h <;>
        cases b <;> simp [← hlen, ← e, newCollector] <;> rfl
    | setNewTrace c' f =>
      obtain ⟨rfl, rfl⟩ := h
      have := step_exists core publish hst (.inr (.inl ⟨_, rfl⟩))
      simp [List.getElem?_eq_getElem this]
    | _ => exact h.elim
  · intro ops s op s' v hs hst hn hv
    refine keep_of core publish (sets := SetsFunc core c) (ops := ops) hst ?_ ?_ ?_ hn v hv
    · rintro name rfl; exact .inl fun x => rfl
    · rintro f rfl; exact .inr ⟨f, rfl, rfl⟩
    · rintro f rfl; exact .inl fun x => rfl

theorem run_decorators {ops past rest : List (Op T)} {s : State T} {c : Nat} {v : Slice}
    (hs : run core publish ops = some s) (hl : LastSet (SetsDecorators c) ops past rest v) :
    s.colls[c]?.map (·.decorators) = some v := by
  refine run_field core publish (SetsDecorators c) c (·.decorators) ?_ ?_ ops s past rest v hs hl
  · intro ops s op s' v hs hst h
    have hlen := (run_counts core publish ops s hs).1
    rw [step_colls core publish hst]
    cases op with
    | create src f b ds =>
      obtain ⟨e, rfl⟩ := h
      cases b <;> simp [← hlen, ← e, newCollector]
    | setDecorators c' f =>
      obtain ⟨rfl, rfl⟩ := h
      have := step_exists core publish hst (.inr (.inr ⟨_, rfl⟩))
      simp [List.getElem?_eq_getElem this]
    | _ => exact h.elim
  · intro ops s op s' v hs hst hn hv
    refine keep_of core publish (sets := SetsDecorators c) (ops := ops) hst ?_ ?_ ?_ hn v hv
    · rintro name rfl; exact .inl fun x => rfl
    · rintro f rfl; exact .inl fun x => rfl
    · rintro f rfl; exact .inr ⟨f, rfl, rfl⟩

theorem run_broker {ops past rest : List (Op T)} {s : State T} {c : Nat} {v : Nat}
    (hs : run core publish ops = some s) (hl : LastSet (SetsBroker c) ops past rest v) :
    s.colls[c]?.map (·.broker) = some v := by
  refine run_field core publish (SetsBroker c) c (·.broker) ?_ ?_ ops s past rest v hs hl
  · intro ops s op s' v hs hst h
    have hlen := (run_counts core publish ops s hs)
    rw [step_colls core publish hst]
    cases op with
    | create src f b ds =>
      cases b <;> simp only [SetsBroker] at h <;> obtain ⟨e, rfl⟩ := h <;>
        simp [← hlen.1, ← e, newCollector, ← hlen.2.1]
    | _ => exact h.elim
  · intro ops s op s' v hs hst hn hv
    refine keep_of core publish (sets := SetsBroker c) (ops := ops) hst ?_ ?_ ?_ hn v hv <;>
    · rintro f rfl; exact .inl fun x => rfl

theorem written_append (past rest : List (Op T)) (a : Nat) (ha : HasArray past a) (hu : Unchanged a rest) :
    written (past ++ rest) a = written past a := by
  obtain ⟨n, hn⟩ : ∃ n, rest.length = n := ⟨_, rfl⟩
  induction n generalizing rest with
  | zero =>
    have : rest = [] := List.eq_nil_of_length_eq_zero hn
    subst this; simp
  | succ n ih =>
    rcases snoc_cases rest with rfl | ⟨rest, op, rfl⟩
    · simp at hn
    · rw [← ih rest (fun i d hm => hu i d (by simp [hm])) (by simpa using hn)]
      have hlen : a < ((past ++ rest).foldl (fun (l : List (List (Deco T))) op => match op with
          | .array ds => l ++ [ds]
          | .assign a i d => l.modify a fun x => x.set i d
          | _ => l) []).length := by
        suffices ∀ (ops : List (Op T)) (l : List (List (Deco T))), (ops.foldl (fun (l : List (List (Deco T))) op => match op with
          | .array ds => l ++ [ds]
          | .assign a i d => l.modify a fun x => x.set i d
          | _ => l) l).length = l.length + ops.countP (fun | .array _ => true | _ => false) by
          rw [this, List.countP_append]
          unfold HasArray at ha
          omega
        intro ops
        induction ops with
        | nil => simp
        | cons op ops ih =>
          intro l
          rw [List.foldl_cons, ih]
          cases op <;> simp <;> omega
      rw [← List.append_assoc]
      unfold written
      simp only [List.foldl_append (l' := [op]), List.foldl_cons, List.foldl_nil]
      generalize (past ++ rest).foldl _ [] = l at hlen ⊢
      cases op with
      | array ds => simp only; rw [List.getElem?_append_left hlen]
      | assign a' i d =>
        have : a' ≠ a := by
          rintro rfl
          exact hu i d (by simp)
        simp [this]
      | _ => rfl

end

/-! ## Theorems -/

/-- C105: every collector has, at any time, a last setting of each kind. -/
theorem C105_settings (core : String → String → T) (ops : List (Op T)) (c : Nat) (hc : c < collectors ops) :
    (∃ past rest v, LastSet (SetsSource c) ops past rest v) ∧ (∃ past rest v, LastSet (SetsFunc core c) ops past rest v) ∧
    (∃ past rest v, LastSet (SetsDecorators c) ops past rest v) ∧ (∃ past rest v, LastSet (SetsBroker c) ops past rest v) := by
  refine ⟨exists_last _ c ?_ ops hc, exists_last _ c ?_ ops hc, exists_last _ c ?_ ops hc, exists_last _ c ?_ ops hc⟩
  · intro past src f b ds h; exact ⟨_, h, rfl⟩
  · intro past src f b ds h; cases f <;> exact ⟨_, h, rfl⟩
  · intro past src f b ds h; exact ⟨_, h, rfl⟩
  · intro past src f b ds h; cases b <;> exact ⟨_, h, rfl⟩

/-- C105, what is true: a trace made in a collector, for a context that has none, is what the function that
the collector was last given (`New` at first, if none) returns for the source it was last given ("default" at first, if
none) and the decorator that publishes to the broker it was given (or to one of its own), wrapped by the decorators that
it was last given, the first one innermost; provided that the program does not change the array of decorators
after it gave it to the collector.  Nothing else that the program does has an influence.  Missing: without the proviso it
is false. -/
theorem C105_configured_partial (core : String → String → T) (publish : Nat → Deco T) (ops : List (Op T)) (s : State T)
    (hs : run core publish ops = some s) (c : Nat) (category : String)
    {p1 r1 p2 r2 p3 r3 p4 r4 : List (Op T)} {source : String} {f : NewFunc T} {ds : Slice} {b : Nat}
    (hsource : LastSet (SetsSource c) ops p1 r1 source)
    (hfunc : LastSet (SetsFunc core c) ops p2 r2 (some f))
    (hds : LastSet (SetsDecorators c) ops p3 r3 ds) (hkeep : ds.len = 0 ∨ (HasArray p3 ds.array ∧ Unchanged ds.array r3))
    (hbroker : LastSet (SetsBroker c) ops p4 r4 b) :
    run core publish (ops ++ [.newTrace c none category]) =
      some { s with made := s.made ++ [⟨c, category, wrap (f source category [publish b]) (given p3 ds)⟩] } := by
  rw [run_snoc, hs]
  have e1 := run_source core publish hs hsource
  have e2 := run_func core publish hs hfunc
  have e3 := run_decorators core publish hs hds
  have e4 := run_broker core publish hs hbroker
  rw [Option.map_eq_some_iff] at e1 e2 e3 e4
  obtain ⟨x, hx, rfl⟩ := e1
  simp only [hx, Option.some.injEq, exists_eq_left'] at e2 e3 e4
  subst e3 e4
  have hread : s.read x.decorators = given p3 x.decorators := by
    rcases hkeep with h0 | ⟨harray, hkeep⟩
    · simp [State.read, given, h0]
    have hw := (run_counts core publish ops s hs).2.2.1 x.decorators.array
    obtain ⟨op, he, hset, _⟩ := hds
    have hop : ∀ i d, op ≠ .assign x.decorators.array i d := by
      rintro i d rfl
      exact hset
    have hu : Unchanged x.decorators.array (op :: r3) := by
      intro i d hm
      rcases List.mem_cons.1 hm with h | h
      · exact hop i d h.symm
      · exact hkeep i d h
    have := written_append p3 (op :: r3) x.decorators.array harray hu
    rw [← he, ← hw] at this
    unfold State.read given
    rw [this]
  simp only [Option.bind_some, step, hx, Coll.make, e2, hread, wrap_eq, Option.map_some]

/-- C105, exactly: as `C105_configured_partial`, but whatever the program does to the array of decorators.  The trace is wrapped
by what the array that the collector was last given holds when the trace is made.  So it is as configured exactly if
wrapping with that comes to the same. -/
theorem C105_configured_exact (core : String → String → T) (publish : Nat → Deco T) (ops : List (Op T)) (s : State T)
    (hs : run core publish ops = some s) (c : Nat) (category : String)
    {p1 r1 p2 r2 p3 r3 p4 r4 : List (Op T)} {source : String} {f : NewFunc T} {ds : Slice} {b : Nat}
    (hsource : LastSet (SetsSource c) ops p1 r1 source)
    (hfunc : LastSet (SetsFunc core c) ops p2 r2 (some f))
    (hds : LastSet (SetsDecorators c) ops p3 r3 ds)
    (hbroker : LastSet (SetsBroker c) ops p4 r4 b) :
    run core publish (ops ++ [.newTrace c none category]) =
      some { s with made := s.made ++ [⟨c, category, wrap (f source category [publish b]) (given ops ds)⟩] } ∧
    (run core publish (ops ++ [.newTrace c none category]) =
        some { s with made := s.made ++ [⟨c, category, wrap (f source category [publish b]) (given p3 ds)⟩] } ↔
      wrap (f source category [publish b]) (given ops ds) = wrap (f source category [publish b]) (given p3 ds)) := by
  have h : run core publish (ops ++ [.newTrace c none category]) =
      some { s with made := s.made ++ [⟨c, category, wrap (f source category [publish b]) (given ops ds)⟩] } := by
    rw [run_snoc, hs]
    have e1 := run_source core publish hs hsource
    have e2 := run_func core publish hs hfunc
    have e3 := run_decorators core publish hs hds
    have e4 := run_broker core publish hs hbroker
    rw [Option.map_eq_some_iff] at e1 e2 e3 e4
    obtain ⟨x, hx, rfl⟩ := e1
    simp only [hx, Option.some.injEq, exists_eq_left'] at e2 e3 e4
    subst e3 e4
    have hread : s.read x.decorators = given ops x.decorators := by
      unfold State.read given
      rw [(run_counts core publish ops s hs).2.2.1 x.decorators.array]
    simp only [Option.bind_some, step, hx, Coll.make, e2, hread, wrap_eq, Option.map_some]
  refine ⟨h, ?_⟩
  rw [h]
  simp

/-- C105: for a context that has a trace, no trace is made, however the collector is configured. -/
theorem C105_nested (core : String → String → T) (publish : Nat → Deco T) (ops : List (Op T)) (s : State T)
    (hs : run core publish ops = some s) (c : Nat) (hc : c < collectors ops) (t : T) (category : String) :
    run core publish (ops ++ [.newTrace c (some t) category]) = some s := by
  rw [run_snoc, hs]
  have hlen := (run_counts core publish ops s hs).1
  have : s.colls[c]? = some (s.colls[c]'(by omega)) := List.getElem?_eq_getElem (by omega)
  simp [step, this]

/-- C105: whatever the program does to its collectors later, the traces that were made stay as they are. -/
theorem C105_earlier (core : String → String → T) (publish : Nat → Deco T) (ops more : List (Op T)) (s s' : State T)
    (hs : run core publish ops = some s) (hs' : run core publish (ops ++ more) = some s') :
    s.made <+: s'.made ∧
      s'.made.length = s.made.length + more.countP (fun | .newTrace _ none _ => true | _ => false) := by
  obtain ⟨n, hn⟩ : ∃ n, more.length = n := ⟨_, rfl⟩
  induction n generalizing more s' with
  | zero =>
    have : more = [] := List.eq_nil_of_length_eq_zero hn
    subst this
    simp [hs] at hs'
    subst hs'
    simp
  | succ n ih =>
    rcases snoc_cases more with rfl | ⟨more, op, rfl⟩
    · simp at hn
    · rw [← List.append_assoc, run_snoc, Option.bind_eq_some_iff] at hs'
      obtain ⟨s1, hs1, hst⟩ := hs'
      obtain ⟨h1, h2⟩ := ih more s1 hs1 (by simpa using hn)
      rw [List.countP_append]
      cases op with
      | newTrace c ctx k =>
        simp only [step] at hst
        split at hst
        · cases hst
        · split at hst
          · simp at hst; subst hst; simpa using ⟨h1, h2⟩
          · rw [Option.map_eq_some_iff] at hst
            obtain ⟨t, _, rfl⟩ := hst
            exact ⟨h1.trans (List.prefix_append _ _), by simp [h2]; omega⟩
      | create src f b ds =>
        simp only [step] at hst
        simp at hst; subst hst; simpa using ⟨h1, h2⟩
      | setSourceName c v | setNewTrace c v | setDecorators c v =>
        simp only [step] at hst
        split at hst
        · simp at hst; subst hst; simpa using ⟨h1, h2⟩
        · cases hst
      | _ => simp [step] at hst; subst hst; simpa using ⟨h1, h2⟩

/-- C105: `SetNewTrace(nil)` does not restore `New`, as giving nil to `NewCollector` does: the next `NewTrace` panics. -/
theorem C105_nil_func (core : String → String → T) (publish : Nat → Deco T) (ops : List (Op T)) (s : State T)
    (hs : run core publish ops = some s) (c : Nat) (category : String) {p r : List (Op T)}
    (hfunc : LastSet (SetsFunc core c) ops p r none) :
    run core publish (ops ++ [.newTrace c none category]) = none := by
  rw [run_snoc, hs]
  have e2 := run_func core publish hs hfunc
  rw [Option.map_eq_some_iff] at e2
  obtain ⟨x, hx, e2⟩ := e2
  simp [step, hx, Coll.make, e2]

/-! ## Cases: traces are texts -/

/-- A decorator of the cases: it puts its name around. -/
def tag (n : String) : Deco String := fun t => n ++ "(" ++ t ++ ")"

def runTexts (ops : List (Op String)) : Option (List String) :=
  (run (fun s c => s ++ "/" ++ c) (fun b => tag (if b = 0 then "p0" else "p1")) ops).map (·.made.map (·.trace))

/-- C105 is false: a program that changes an array of decorators after giving it to a collector, as a caller of
`NewCollector` or of `SetDecorators(ds...)` may who uses the array again, changes how later traces are decorated, though the
collector was not given anything else. -/
theorem C105_array_violated :
    ∃ (ops rest : List (Op String)) (s : State String) (ds : Slice) (category : String),
      LastSet (SetsDecorators 0) (ops ++ rest) ops (rest.drop 1) ds ∧
      run (fun s c => s ++ "/" ++ c) (fun _ => tag "p") (ops ++ rest ++ [.newTrace 0 none category]) = some s ∧
      s.made.map (·.trace) ≠ [wrap ("default/" ++ category) (tag "p" :: given ops ds)] := by
  refine ⟨[.array [tag "a", tag "b"]], [.create "" none none ⟨0, 0, 2⟩, .assign 0 0 (tag "c")], _, ⟨0, 0, 2⟩, "cat",
    ⟨_, rfl, ⟨rfl, rfl⟩, ?_⟩, rfl, ?_⟩
  · intro p o r v' e
    rcases p with _ | ⟨q, p⟩
    · simp at e
      obtain ⟨rfl, _⟩ := e
      exact id
    · simp at e
  · decide +kernel

example : runTexts [.array [tag "a", tag "b"], .create "" none none ⟨0, 0, 2⟩, .newTrace 0 none "cat"] =
    some ["b(a(p0(default/cat)))"] := by decide +kernel
example : runTexts [.array [tag "a", tag "b"], .create "" none none ⟨0, 0, 2⟩, .create "x" none none ⟨0, 0, 0⟩,
    .array [tag "c"], .setDecorators 0 ⟨1, 0, 1⟩, .newTrace 1 none "cat", .setSourceName 0 "", .newTrace 0 none "cat",
    .newTrace 0 (some "t") "k"] = some ["p1(x/cat)", "c(p0(/cat))"] := by decide +kernel
example : runTexts [.broker, .create "" (some fun s c ds => ds.foldl (fun t d => d t) (c ++ "@" ++ s)) (some 0) ⟨0, 0, 0⟩,
    .newTrace 0 none "cat", .setNewTrace 0 none] = some ["p0(cat@default)"] := by decide +kernel
example : runTexts [.create "" none none ⟨0, 0, 0⟩, .setNewTrace 0 none, .newTrace 0 none "cat"] = none := by decide +kernel

end Trc.Config
