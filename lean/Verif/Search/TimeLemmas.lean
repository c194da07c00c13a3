import Verif.Search.Stats

/-!
# Earliest and latest times
-/

set_option linter.unusedVariables false

namespace Trc

/-- The non-zero times all carry a monotonic reading, or none does: they are comparable with each
other. -/
def Clocks (ts : List Time) : Prop :=
  (∀ t ∈ ts, t.isZero = false → t.mono.isSome = true) ∨ (∀ t ∈ ts, t.isZero = false → t.mono = none)

/-- `o` is an earliest of the non-zero times, or the zero time if there is none. -/
def IsOldest (o : Time) (ts : List Time) : Prop :=
  ((∀ t ∈ ts, t.isZero = true) ∧ o = Time.zero) ∨
  (o ∈ ts ∧ o.isZero = false ∧ ∀ t ∈ ts, t.isZero = false → t.before o = false)

/-- `n` is a latest of the non-zero times, or the zero time if there is none. -/
def IsNewest (n : Time) (ts : List Time) : Prop :=
  ((∀ t ∈ ts, t.isZero = true) ∧ n = Time.zero) ∨
  (n ∈ ts ∧ n.isZero = false ∧ ∀ t ∈ ts, t.isZero = false → t.after n = false)

/-- The reading by which comparable times are compared. -/
def Time.key (m : Bool) (t : Time) : Int := if m then t.mono.getD 0 else t.wall

theorem sub_key {m : Bool} {a b : Time} (ha : a.mono.isSome = m) (hb : b.mono.isSome = m) :
    a.sub b = a.key m - b.key m := by
  unfold Time.sub Time.key
  cases m <;> cases h1 : a.mono <;> cases h2 : b.mono <;> simp_all

theorem before_iff {m : Bool} {a b : Time} (ha : a.mono.isSome = m) (hb : b.mono.isSome = m) :
    a.before b = true ↔ a.key m < b.key m := by
  unfold Time.before
  rw [sub_key ha hb, decide_eq_true_eq]
  show (a.key m - b.key m : Int) < 0 ↔ _
  omega

theorem after_iff {m : Bool} {a b : Time} (ha : a.mono.isSome = m) (hb : b.mono.isSome = m) :
    a.after b = true ↔ b.key m < a.key m := by
  unfold Time.after
  rw [sub_key ha hb, decide_eq_true_eq]
  show 0 < (a.key m - b.key m : Int) ↔ _
  omega

theorem equal_iff {m : Bool} {a b : Time} (ha : a.mono.isSome = m) (hb : b.mono.isSome = m) :
    a.equal b = true ↔ a.key m = b.key m := by
  unfold Time.equal
  rw [sub_key ha hb, decide_eq_true_eq]
  show (a.key m - b.key m : Int) = 0 ↔ _
  omega

theorem before_self (t : Time) : t.before t = false := by
  rw [← Bool.not_eq_true, before_iff rfl rfl]; omega

theorem after_self (t : Time) : t.after t = false := by
  rw [← Bool.not_eq_true, after_iff rfl rfl]; omega

theorem Clocks.key {ts : List Time} (h : Clocks ts) :
    ∃ m, ∀ t ∈ ts, t.isZero = false → t.mono.isSome = m := by
  rcases h with h | h
  · exact ⟨true, h⟩
  · exact ⟨false, fun t ht hz => by rw [h t ht hz]; rfl⟩

theorem Clocks.sub {ts us : List Time} (h : Clocks ts) (hs : ∀ u ∈ us, u ∈ ts) : Clocks us := by
  rcases h with h | h
  · exact Or.inl fun t ht => h t (hs t ht)
  · exact Or.inr fun t ht => h t (hs t ht)

theorem isZero_zero : Time.zero.isZero = true := rfl

theorem isOldest_olderOf {o₁ o₂ : Time} {ts us : List Time} (hc : Clocks (ts ++ us))
    (h₁ : IsOldest o₁ ts) (h₂ : IsOldest o₂ us) : IsOldest (olderOf o₁ o₂) (ts ++ us) := by
  obtain ⟨m, hm⟩ := hc.key
  rcases h₁ with ⟨a1, rfl⟩ | ⟨a1, a2, a3⟩ <;> rcases h₂ with ⟨b1, rfl⟩ | ⟨b1, b2, b3⟩
  · left
    refine ⟨?_, by simp [olderOf, isZero_zero]⟩
    intro t ht
    rcases List.mem_append.mp ht with h | h
    · exact a1 t h
    · exact b1 t h
  · right
    have : olderOf Time.zero o₂ = o₂ := by simp [olderOf, isZero_zero, b2]
    rw [this]
    refine ⟨List.mem_append_right _ b1, b2, ?_⟩
    intro t ht hz
    rcases List.mem_append.mp ht with h | h
    · rw [a1 t h] at hz; cases hz
    · exact b3 t h hz
  · right
    have : olderOf o₁ Time.zero = o₁ := by simp [olderOf, isZero_zero, a2]
    rw [this]
    refine ⟨List.mem_append_left _ a1, a2, ?_⟩
    intro t ht hz
    rcases List.mem_append.mp ht with h | h
    · exact a3 t h hz
    · rw [b1 t h] at hz; cases hz
  · right
    have m1 := hm o₁ (List.mem_append_left _ a1) a2
    have m2 := hm o₂ (List.mem_append_right _ b1) b2
    by_cases hb : o₁.before o₂ = true
    · have : olderOf o₁ o₂ = o₁ := by simp [olderOf, a2, b2, hb]
      rw [this]
      refine ⟨List.mem_append_left _ a1, a2, ?_⟩
      intro t ht hz
      have m3 := hm t ht hz
      rcases List.mem_append.mp ht with h | h
      · exact a3 t h hz
      · have := b3 t h hz
        rw [← Bool.not_eq_true] at this ⊢
        rw [before_iff m1 m2] at hb
        first | rw [before_iff m3 m2] at this | rw [before_iff m3 m1] at this
        first | rw [before_iff m3 m1] | rw [before_iff m3 m2]
        omega
    · have : olderOf o₁ o₂ = o₂ := by simp [olderOf, a2, b2, hb]
      rw [this]
      refine ⟨List.mem_append_right _ b1, b2, ?_⟩
      intro t ht hz
      have m3 := hm t ht hz
      rcases List.mem_append.mp ht with h | h
      · have := a3 t h hz
        rw [← Bool.not_eq_true] at this ⊢
        rw [before_iff m1 m2] at hb
        first | rw [before_iff m3 m2] at this | rw [before_iff m3 m1] at this
        first | rw [before_iff m3 m1] | rw [before_iff m3 m2]
        omega
      · exact b3 t h hz

theorem isNewest_newerOf {o₁ o₂ : Time} {ts us : List Time} (hc : Clocks (ts ++ us))
    (h₁ : IsNewest o₁ ts) (h₂ : IsNewest o₂ us) : IsNewest (newerOf o₁ o₂) (ts ++ us) := by
  obtain ⟨m, hm⟩ := hc.key
  rcases h₁ with ⟨a1, rfl⟩ | ⟨a1, a2, a3⟩ <;> rcases h₂ with ⟨b1, rfl⟩ | ⟨b1, b2, b3⟩
  · left
    refine ⟨?_, by simp [newerOf, isZero_zero]⟩
    intro t ht
    rcases List.mem_append.mp ht with h | h
    · exact a1 t h
    · exact b1 t h
  · right
    have : newerOf Time.zero o₂ = o₂ := by simp [newerOf, isZero_zero, b2]
    rw [this]
    refine ⟨List.mem_append_right _ b1, b2, ?_⟩
    intro t ht hz
    rcases List.mem_append.mp ht with h | h
    · rw [a1 t h] at hz; cases hz
    · exact b3 t h hz
  · right
    have : newerOf o₁ Time.zero = o₁ := by simp [newerOf, isZero_zero, a2]
    rw [this]
    refine ⟨List.mem_append_left _ a1, a2, ?_⟩
    intro t ht hz
    rcases List.mem_append.mp ht with h | h
    · exact a3 t h hz
    · rw [b1 t h] at hz; cases hz
  · right
    have m1 := hm o₁ (List.mem_append_left _ a1) a2
    have m2 := hm o₂ (List.mem_append_right _ b1) b2
    by_cases hb : o₁.after o₂ = true
    · have : newerOf o₁ o₂ = o₁ := by simp [newerOf, a2, b2, hb]
      rw [this]
      refine ⟨List.mem_append_left _ a1, a2, ?_⟩
      intro t ht hz
      have m3 := hm t ht hz
      rcases List.mem_append.mp ht with h | h
      · exact a3 t h hz
      · have := b3 t h hz
        rw [← Bool.not_eq_true] at this ⊢
        rw [after_iff m1 m2] at hb
        first | rw [after_iff m3 m2] at this | rw [after_iff m3 m1] at this
        first | rw [after_iff m3 m1] | rw [after_iff m3 m2]
        omega
    · have : newerOf o₁ o₂ = o₂ := by simp [newerOf, a2, b2, hb]
      rw [this]
      refine ⟨List.mem_append_right _ b1, b2, ?_⟩
      intro t ht hz
      have m3 := hm t ht hz
      rcases List.mem_append.mp ht with h | h
      · have := a3 t h hz
        rw [← Bool.not_eq_true] at this ⊢
        rw [after_iff m1 m2] at hb
        first | rw [after_iff m3 m2] at this | rw [after_iff m3 m1] at this
        first | rw [after_iff m3 m1] | rw [after_iff m3 m2]
        omega
      · exact b3 t h hz

/-- Zero, or a time that is not zero. -/
theorem isOldest_singleton (t : Time) (h : t.isZero = true → t = Time.zero) : IsOldest t [t] := by
  cases hz : t.isZero with
  | true =>
    left
    exact ⟨by simp [hz], h hz⟩
  | false =>
    right
    refine ⟨by simp, hz, ?_⟩
    intro u hu _
    obtain rfl := List.mem_singleton.mp hu
    exact before_self u

theorem isNewest_singleton (t : Time) (h : t.isZero = true → t = Time.zero) : IsNewest t [t] := by
  cases hz : t.isZero with
  | true =>
    left
    exact ⟨by simp [hz], h hz⟩
  | false =>
    right
    refine ⟨by simp, hz, ?_⟩
    intro u hu _
    obtain rfl := List.mem_singleton.mp hu
    exact after_self u

theorem isOldest_nil : IsOldest Time.zero [] := Or.inl ⟨by simp, rfl⟩
theorem isNewest_nil : IsNewest Time.zero [] := Or.inl ⟨by simp, rfl⟩

theorem olderOf_zero_right (o t : Time) (h : t.isZero = true) : olderOf o t = olderOf o Time.zero := by
  simp [olderOf, isZero_zero, h]

theorem isOldest_snoc {o t : Time} {ts : List Time} (hc : Clocks (ts ++ [t])) (h : IsOldest o ts) :
    IsOldest (olderOf o t) (ts ++ [t]) := by
  by_cases hz : t.isZero = true
  · rw [olderOf_zero_right o t hz]
    have : IsOldest Time.zero [t] := Or.inl ⟨by simp [hz], rfl⟩
    exact isOldest_olderOf hc h this
  · exact isOldest_olderOf hc h (isOldest_singleton t (fun h => absurd h hz))

theorem newerOf_zero_right (o t : Time) (h : t.isZero = true) : newerOf o t = newerOf o Time.zero := by
  simp [newerOf, isZero_zero, h]

theorem isNewest_snoc {o t : Time} {ts : List Time} (hc : Clocks (ts ++ [t])) (h : IsNewest o ts) :
    IsNewest (newerOf o t) (ts ++ [t]) := by
  by_cases hz : t.isZero = true
  · rw [newerOf_zero_right o t hz]
    have : IsNewest Time.zero [t] := Or.inl ⟨by simp [hz], rfl⟩
    exact isNewest_newerOf hc h this
  · exact isNewest_newerOf hc h (isNewest_singleton t (fun h => absurd h hz))

theorem IsOldest.congr {o : Time} {ts us : List Time} (h : IsOldest o ts) (hs : ∀ t, t ∈ ts ↔ t ∈ us) : IsOldest o us := by
  rcases h with ⟨h1, h2⟩ | ⟨h1, h2, h3⟩
  · exact Or.inl ⟨fun t ht => h1 t ((hs t).mpr ht), h2⟩
  · exact Or.inr ⟨(hs o).mp h1, h2, fun t ht => h3 t ((hs t).mpr ht)⟩

theorem IsNewest.congr {o : Time} {ts us : List Time} (h : IsNewest o ts) (hs : ∀ t, t ∈ ts ↔ t ∈ us) : IsNewest o us := by
  rcases h with ⟨h1, h2⟩ | ⟨h1, h2, h3⟩
  · exact Or.inl ⟨fun t ht => h1 t ((hs t).mpr ht), h2⟩
  · exact Or.inr ⟨(hs o).mp h1, h2, fun t ht => h3 t ((hs t).mpr ht)⟩

/-- Earliest times agree as instants. -/
theorem IsOldest.unique {o o' : Time} {ts : List Time} (hc : Clocks ts) (h : IsOldest o ts) (h' : IsOldest o' ts) :
    o.isZero = o'.isZero ∧ o.equal o' = true := by
  obtain ⟨m, hm⟩ := hc.key
  rcases h with ⟨a1, rfl⟩ | ⟨a1, a2, a3⟩ <;> rcases h' with ⟨b1, rfl⟩ | ⟨b1, b2, b3⟩
  · exact ⟨rfl, rfl⟩
  · rw [a1 o' b1] at b2; cases b2
  · rw [b1 o a1] at a2; cases a2
  · refine ⟨by rw [a2, b2], ?_⟩
    have m1 := hm o a1 a2
    have m2 := hm o' b1 b2
    have h1 := a3 o' b1 b2
    have h2 := b3 o a1 a2
    rw [← Bool.not_eq_true, before_iff m2 m1] at h1
    rw [← Bool.not_eq_true, before_iff m1 m2] at h2
    rw [equal_iff m1 m2]
    omega

theorem IsNewest.unique {o o' : Time} {ts : List Time} (hc : Clocks ts) (h : IsNewest o ts) (h' : IsNewest o' ts) :
    o.isZero = o'.isZero ∧ o.equal o' = true := by
  obtain ⟨m, hm⟩ := hc.key
  rcases h with ⟨a1, rfl⟩ | ⟨a1, a2, a3⟩ <;> rcases h' with ⟨b1, rfl⟩ | ⟨b1, b2, b3⟩
  · exact ⟨rfl, rfl⟩
  · rw [a1 o' b1] at b2; cases b2
  · rw [b1 o a1] at a2; cases a2
  · refine ⟨by rw [a2, b2], ?_⟩
    have m1 := hm o a1 a2
    have m2 := hm o' b1 b2
    have h1 := a3 o' b1 b2
    have h2 := b3 o a1 a2
    rw [← Bool.not_eq_true, after_iff m2 m1] at h1
    rw [← Bool.not_eq_true, after_iff m1 m2] at h2
    rw [equal_iff m1 m2]
    omega

end Trc
