/-!
# The arguments of prefixed events in memory

`prefixTrace` passes `append(ptr.args, args...)` on (helpers.go:119, 123, 127, 131), and a lazy event
keeps the slice it is given (trace_core.go:192, 228) and reads it later.  Here slices are references
to arrays, so that sharing is visible.
-/

namespace Trc.Wrap.Args

variable {A : Type}

/-- A slice that starts at the beginning of its array. -/
structure Slice where
  arr : Nat
  len : Nat
  cap : Nat
deriving DecidableEq, Repr

/-- The arrays, and where the next one will be. -/
structure Mem (A : Type) where
  arrays : Nat → List A
  next : Nat

/-- The elements of a slice. -/
def Mem.deref (m : Mem A) (s : Slice) : List A := (m.arrays s.arr).take s.len

/-- A new array with the given elements, and room for some more. -/
def Mem.alloc (m : Mem A) (vs : List A) (spare : Nat) : Mem A × Slice :=
  ({ arrays := fun i => if i = m.next then vs else m.arrays i, next := m.next + 1 },
   { arr := m.next, len := vs.length, cap := vs.length + spare })

/-- `append(s, vs...)`: in place if there is room, else in a new array with some room. -/
def Mem.append (m : Mem A) (s : Slice) (vs : List A) (spare : Nat) : Mem A × Slice :=
  if s.len + vs.length ≤ s.cap then
    ({ m with arrays := fun i =>
        if i = s.arr then (m.arrays i).take s.len ++ vs ++ (m.arrays i).drop (s.len + vs.length) else m.arrays i },
     { s with len := s.len + vs.length })
  else m.alloc (m.deref s ++ vs) spare

/-- Through the wrappers, outermost first: each puts its arguments before those it is given. -/
def Mem.through (m : Mem A) (spare : Nat) : List Slice → Slice → Mem A × Slice
  | [], own => (m, own)
  | p :: ps, own =>
    let r := m.append p (m.deref own) spare
    r.1.through spare ps r.2

/-- A logging call: its own arguments are in an array of their own. -/
structure Said (A : Type) where
  prefixes : List Slice
  args : List A
  spare : Nat

/-- The slice that the event keeps. -/
def Mem.log (m : Mem A) (s : Said A) : Mem A × Slice :=
  let own := m.alloc s.args 0
  own.1.through s.spare s.prefixes own.2

/-- A sequence of logging calls, and the slices kept. -/
def Mem.logs (m : Mem A) : List (Said A) → Mem A × List Slice
  | [] => (m, [])
  | s :: rest =>
    let r := m.log s
    let q := r.1.logs rest
    (q.1, r.2 :: q.2)

/-! ## What is kept -/

/-- Later memory with the same arrays where there were any. -/
structure Grown (m m' : Mem A) : Prop where
  next : m.next ≤ m'.next
  same : ∀ i, i < m.next → m'.arrays i = m.arrays i

theorem Grown.refl (m : Mem A) : Grown m m := ⟨Nat.le_refl _, fun _ _ => rfl⟩

theorem Grown.trans {m m' m'' : Mem A} (h : Grown m m') (k : Grown m' m'') : Grown m m'' :=
  ⟨Nat.le_trans h.next k.next, fun i hi => (k.same i (Nat.lt_of_lt_of_le hi h.next)).trans (h.same i hi)⟩

theorem Grown.deref {m m' : Mem A} (h : Grown m m') (s : Slice) (hs : s.arr < m.next) : m'.deref s = m.deref s := by
  unfold Mem.deref
  rw [h.same _ hs]

theorem alloc_spec (m : Mem A) (vs : List A) (spare : Nat) :
    Grown m (m.alloc vs spare).1 ∧ (m.alloc vs spare).2.arr < (m.alloc vs spare).1.next ∧
      (m.alloc vs spare).1.deref (m.alloc vs spare).2 = vs := by
  refine ⟨⟨Nat.le_succ _, fun i hi => ?_⟩, Nat.lt_succ_self _, ?_⟩
  · simp only [Mem.alloc]
    rw [if_neg (Nat.ne_of_lt hi)]
  · simp [Mem.alloc, Mem.deref]

/-- A slice without spare capacity. -/
def Tight (m : Mem A) (s : Slice) : Prop := s.len = s.cap ∧ s.arr < m.next

theorem append_spec (m : Mem A) (s : Slice) (vs : List A) (spare : Nat) (h : Tight m s) :
    Grown m (m.append s vs spare).1 ∧ (m.append s vs spare).2.arr < (m.append s vs spare).1.next ∧
      (m.append s vs spare).1.deref (m.append s vs spare).2 = m.deref s ++ vs := by
  unfold Mem.append
  split
  · rename_i hle
    have h0 : vs = [] := by
      apply List.eq_nil_of_length_eq_zero
      have := h.1
      omega
    subst h0
    have e : ∀ i, (if i = s.arr then (m.arrays i).take s.len ++ [] ++ (m.arrays i).drop (s.len + 0) else m.arrays i) = m.arrays i := by
      intro i; split <;> simp
    refine ⟨⟨Nat.le_refl _, fun i _ => e i⟩, h.2, ?_⟩
    simp [Mem.deref]
  · exact alloc_spec m _ spare

theorem through_spec (m : Mem A) (spare : Nat) (ps : List Slice) (own : Slice) (hp : ∀ p ∈ ps, Tight m p) (ho : own.arr < m.next) :
    Grown m (m.through spare ps own).1 ∧ (m.through spare ps own).2.arr < (m.through spare ps own).1.next ∧
      (m.through spare ps own).1.deref (m.through spare ps own).2 = ps.reverse.flatMap m.deref ++ m.deref own := by
  induction ps generalizing m own with
  | nil => exact ⟨Grown.refl m, ho, by simp [Mem.through]⟩
  | cons p ps ih =>
    obtain ⟨g1, g2, g3⟩ := append_spec m p (m.deref own) spare (hp p (by simp))
    have hp' : ∀ q ∈ ps, Tight (m.append p (m.deref own) spare).1 q := fun q hq =>
      ⟨(hp q (by simp [hq])).1, Nat.lt_of_lt_of_le (hp q (by simp [hq])).2 g1.next⟩
    obtain ⟨k1, k2, k3⟩ := ih _ _ hp' g2
    refine ⟨g1.trans k1, k2, ?_⟩
    simp only [Mem.through]
    rw [k3, g3]
    have : ps.reverse.flatMap (m.append p (m.deref own) spare).1.deref = ps.reverse.flatMap m.deref := by
      have : ∀ l : List Slice, (∀ q ∈ l, q.arr < m.next) → l.flatMap (m.append p (m.deref own) spare).1.deref = l.flatMap m.deref := by
        intro l
        induction l with
        | nil => intro _; rfl
        | cons q l ih =>
          intro h
          rw [List.flatMap_cons, List.flatMap_cons, ih (fun q hq => h q (by simp [hq])), g1.deref q (h q (by simp))]
      exact this _ (fun q hq => (hp q (by simp at hq; simp [hq])).2)
    rw [this]
    simp

theorem log_spec (m : Mem A) (s : Said A) (hp : ∀ p ∈ s.prefixes, Tight m p) :
    Grown m (m.log s).1 ∧ (m.log s).2.arr < (m.log s).1.next ∧
      (m.log s).1.deref (m.log s).2 = s.prefixes.reverse.flatMap m.deref ++ s.args := by
  obtain ⟨a1, a2, a3⟩ := alloc_spec m s.args 0
  have hp' : ∀ q ∈ s.prefixes, Tight (m.alloc s.args 0).1 q := fun q hq =>
    ⟨(hp q hq).1, Nat.lt_of_lt_of_le (hp q hq).2 a1.next⟩
  obtain ⟨t1, t2, t3⟩ := through_spec (m.alloc s.args 0).1 s.spare s.prefixes (m.alloc s.args 0).2 hp' a2
  refine ⟨a1.trans t1, t2, ?_⟩
  unfold Mem.log
  simp only
  rw [t3, a3]
  congr 1
  have : ∀ l : List Slice, (∀ q ∈ l, q.arr < m.next) → l.flatMap (m.alloc s.args 0).1.deref = l.flatMap m.deref := by
    intro l
    induction l with
    | nil => intro _; rfl
    | cons q l ih =>
      intro h
      rw [List.flatMap_cons, List.flatMap_cons, ih (fun q hq => h q (by simp [hq])), a1.deref q (h q (by simp))]
  exact this _ (fun q hq => (hp q (by simpa using hq)).2)

/-- C57.  Logging calls through prefixes, nested in any way, whose argument slices have no spare
capacity (as those of a `Prefix(ctx, format, a, b)`): afterwards, every event still has the
arguments of its prefixes, outermost first, and its own. -/
theorem C57_own_args_partial (m : Mem A) (said : List (Said A)) (hp : ∀ s ∈ said, ∀ p ∈ s.prefixes, Tight m p) :
    (m.logs said).2.map (m.logs said).1.deref = said.map fun s => s.prefixes.reverse.flatMap m.deref ++ s.args := by
  suffices H : ∀ (said : List (Said A)) (n : Mem A), Grown m n → (∀ s ∈ said, ∀ p ∈ s.prefixes, Tight m p) →
      Grown n (n.logs said).1 ∧
      (n.logs said).2.map (n.logs said).1.deref = said.map fun s => s.prefixes.reverse.flatMap m.deref ++ s.args from
    (H said m (Grown.refl m) hp).2
  intro said
  induction said with
  | nil => intro n _ _; exact ⟨Grown.refl n, rfl⟩
  | cons s rest ih =>
    intro n hg hp
    have hp' : ∀ p ∈ s.prefixes, Tight n p := fun p hq =>
      ⟨(hp s (by simp) p hq).1, Nat.lt_of_lt_of_le (hp s (by simp) p hq).2 hg.next⟩
    obtain ⟨g1, g2, g3⟩ := log_spec n s hp'
    obtain ⟨k1, k2⟩ := ih (n.log s).1 (hg.trans g1) (fun s' hs' => hp s' (by simp [hs']))
    refine ⟨g1.trans k1, ?_⟩
    simp only [Mem.logs, List.map_cons, k2]
    rw [k1.deref _ g2, g3]
    congr 2
    have : ∀ l : List Slice, (∀ q ∈ l, q.arr < m.next) → l.flatMap n.deref = l.flatMap m.deref := by
      intro l
      induction l with
      | nil => intro _; rfl
      | cons q l ih =>
        intro h
        rw [List.flatMap_cons, List.flatMap_cons, ih (fun q hq => h q (by simp [hq])), hg.deref q (h q (by simp))]
    exact this _ (fun q hq => (hp s (by simp) q (by simpa using hq)).2)

/-- C57 fails if the caller's slice has spare capacity, as one built with `append` or `make` may: two
events share the array, and the first shows the second's argument. -/
theorem C57_own_args_violated : ∃ (m : Mem String) (p : Slice), p.arr < m.next ∧ m.deref p = ["req"] ∧
    (m.logs [⟨[p], ["first"], 0⟩, ⟨[p], ["second"], 0⟩]).2.map (m.logs [⟨[p], ["first"], 0⟩, ⟨[p], ["second"], 0⟩]).1.deref =
      [["req", "second"], ["req", "second"]] :=
  ⟨⟨fun _ => ["req", "", ""], 1⟩, ⟨0, 1, 3⟩, by decide, rfl, rfl⟩

/-- C57, exactly what two events show whose prefix has room for the arguments of either: the second shows its own, and the first
shows the second's in place of its own, as far as these go. -/
theorem C57_spare_exact (m : Mem A) (p : Slice) (xs ys : List A) (i j : Nat) (hp : p.arr < m.next)
    (hlen : p.len ≤ (m.arrays p.arr).length) (hx : p.len + xs.length ≤ p.cap) (hy : p.len + ys.length ≤ p.cap) :
    (m.logs [⟨[p], xs, i⟩, ⟨[p], ys, j⟩]).2.map (m.logs [⟨[p], xs, i⟩, ⟨[p], ys, j⟩]).1.deref =
      [m.deref p ++ (ys.take xs.length ++ xs.drop ys.length), m.deref p ++ ys] := by
  have hne : ∀ k, m.next ≤ k → ¬ p.arr = k := fun k hk h => by omega
  have h0 : ∀ (a : Nat) (n : Mem A) (vs : List A), (n.alloc vs a).1.deref (n.alloc vs a).2 = vs := fun a n vs => (alloc_spec n vs a).2.2
  have htake : ((m.arrays p.arr).take p.len).length = p.len := by simp [hlen]
  have e1 : m.log ⟨[p], xs, i⟩ =
      ({ (m.alloc xs 0).1 with arrays := fun k =>
          if k = p.arr then ((m.alloc xs 0).1.arrays k).take p.len ++ xs ++ ((m.alloc xs 0).1.arrays k).drop (p.len + xs.length)
          else (m.alloc xs 0).1.arrays k }, { p with len := p.len + xs.length }) := by
    simp only [Mem.log, Mem.through, h0, Mem.append]
    rw [if_pos hx]
  generalize hm : (m.log ⟨[p], xs, i⟩).1 = n at *
  have en : n.arrays p.arr = (m.arrays p.arr).take p.len ++ xs ++ (m.arrays p.arr).drop (p.len + xs.length) := by
    rw [← hm, e1]
    simp only [if_true, Mem.alloc]
    rw [if_neg (hne _ (Nat.le_refl _))]
  have enx : n.next = m.next + 1 := by rw [← hm, e1]; rfl
  have e2 : n.log ⟨[p], ys, j⟩ =
      ({ (n.alloc ys 0).1 with arrays := fun k =>
          if k = p.arr then ((n.alloc ys 0).1.arrays k).take p.len ++ ys ++ ((n.alloc ys 0).1.arrays k).drop (p.len + ys.length)
          else (n.alloc ys 0).1.arrays k }, { p with len := p.len + ys.length }) := by
    simp only [Mem.log, Mem.through, h0, Mem.append]
    rw [if_pos hy]
  have hn : p.len ≤ (n.arrays p.arr).length := by rw [en]; simp only [List.length_append]; omega
  have el : (n.log ⟨[p], ys, j⟩).1.arrays p.arr = m.deref p ++ ys ++ (n.arrays p.arr).drop (p.len + ys.length) := by
    rw [e2]
    simp only [if_true, Mem.alloc]
    rw [if_neg (hne _ (by omega))]
    congr 2
    rw [en, List.append_assoc, List.take_left' htake]
    rfl
  have r2 : (m.log ⟨[p], xs, i⟩).2 = { p with len := p.len + xs.length } := by rw [e1]
  have r3 : (n.log ⟨[p], ys, j⟩).2 = { p with len := p.len + ys.length } := by rw [e2]
  have hd : (m.deref p).length = p.len := htake
  simp only [Mem.logs, List.map_cons, List.map_nil, hm, r2, r3, List.cons.injEq, and_true]
  have rest : (n.arrays p.arr).drop (p.len + ys.length) = xs.drop ys.length ++ ((m.arrays p.arr).drop (p.len + xs.length)).drop (ys.length - xs.length) := by
    rw [en, List.append_assoc, List.drop_append, htake]
    have : ((m.arrays p.arr).take p.len).drop (p.len + ys.length) = [] := by
      apply List.drop_eq_nil_of_le
      rw [htake]; omega
    rw [this, List.nil_append, List.drop_append]
    congr 2 <;> congr 1 <;> omega
  constructor
  · show ((n.log ⟨[p], ys, j⟩).1.arrays p.arr).take (p.len + xs.length) = _
    rw [el, rest, List.append_assoc, List.take_append, hd]
    have : (m.deref p).take (p.len + xs.length) = m.deref p := List.take_of_length_le (by omega)
    rw [this]
    congr 1
    have e : p.len + xs.length - p.len = xs.length := by omega
    rw [e, List.take_append, List.take_append]
    congr 1
    have k1 : (xs.drop ys.length).take (xs.length - ys.length) = xs.drop ys.length := List.take_of_length_le (by simp)
    have k2 : xs.length - ys.length - (xs.drop ys.length).length = 0 := by simp
    rw [k1, k2, List.take_zero, List.append_nil]
  · show ((n.log ⟨[p], ys, j⟩).1.arrays p.arr).take (p.len + ys.length) = _
    rw [el]
    exact List.take_left' (by simp [hd])

/-- C57 fails whenever there is room: whatever the prefix, two events with different arguments, equally many of them. -/
theorem C57_spare_violated (m : Mem A) (p : Slice) (xs ys : List A) (i j : Nat) (hp : p.arr < m.next)
    (hlen : p.len ≤ (m.arrays p.arr).length) (hx : p.len + xs.length ≤ p.cap) (hxy : ys.length = xs.length) (hne : xs ≠ ys) :
    (m.logs [⟨[p], xs, i⟩, ⟨[p], ys, j⟩]).2.map (m.logs [⟨[p], xs, i⟩, ⟨[p], ys, j⟩]).1.deref =
      [m.deref p ++ ys, m.deref p ++ ys] ∧ m.deref p ++ ys ≠ m.deref p ++ xs := by
  refine ⟨?_, fun h => hne (List.append_cancel_left h).symm⟩
  rw [C57_spare_exact m p xs ys i j hp hlen hx (by omega), List.take_of_length_le (by omega), List.drop_eq_nil_of_le (by omega),
    List.append_nil]

/-- A prefix with room for two more arguments, and a shorter second event. -/
example : let m : Mem String := ⟨fun _ => ["req", "", ""], 1⟩
    (0 < m.next ∧ 1 ≤ (m.arrays 0).length ∧ 1 + 2 ≤ 3 ∧ 1 + 1 ≤ 3) ∧
    (m.logs [⟨[⟨0, 1, 3⟩], ["a", "b"], 0⟩, ⟨[⟨0, 1, 3⟩], ["c"], 0⟩]).2.map
      (m.logs [⟨[⟨0, 1, 3⟩], ["a", "b"], 0⟩, ⟨[⟨0, 1, 3⟩], ["c"], 0⟩]).1.deref = [["req", "c", "b"], ["req", "c"]] :=
  ⟨by decide, rfl⟩

/-- Two prefixes without spare capacity, three events. -/
example : let m : Mem String := ⟨fun i => if i = 0 then ["a"] else ["b", "c"], 2⟩
    Tight m ⟨0, 1, 1⟩ ∧ Tight m ⟨1, 2, 2⟩ ∧
    (m.logs [⟨[⟨1, 2, 2⟩, ⟨0, 1, 1⟩], ["x"], 3⟩, ⟨[⟨0, 1, 1⟩], [], 0⟩, ⟨[⟨1, 2, 2⟩, ⟨0, 1, 1⟩], ["y"], 3⟩]).2.map
      (m.logs [⟨[⟨1, 2, 2⟩, ⟨0, 1, 1⟩], ["x"], 3⟩, ⟨[⟨0, 1, 1⟩], [], 0⟩, ⟨[⟨1, 2, 2⟩, ⟨0, 1, 1⟩], ["y"], 3⟩]).1.deref =
      [["a", "b", "c", "x"], ["a"], ["a", "b", "c", "y"]] :=
  ⟨⟨rfl, by decide⟩, ⟨rfl, by decide⟩, rfl⟩

end Trc.Wrap.Args
