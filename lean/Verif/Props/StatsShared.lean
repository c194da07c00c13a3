import Verif.Props.StatsHeap

/-!
# C42: exactly which of the statistics merged are changed

The aggregate takes over the array of bucket counts of the first statistics that have a category, and adds the counts of the
others to it.
-/

namespace Trc.StatsHeap

open Trc.Ring (Assoc)

/-- The array of the bucket counts of a category. -/
def arrayOf (m : Mem) (s : Nat) (k : String) : Option Nat := ((entries m s).find k).map fun c => (m.cats c).slice

/-- Statistics are kept under the name of their category. -/
def Named (m : Mem) (s : Nat) : Prop := ∀ k c, (entries m s).find k = some c → (m.cats c).category = k

theorem find_of_entry {V : Type} {m : Assoc V} (hn : m.keys.Nodup) {k : String} {v : V} (h : (k, v) ∈ m) : m.find k = some v := by
  cases hf : m.find k with
  | none =>
    rw [Ring.Assoc.find_none_iff] at hf
    exact absurd (List.mem_map_of_mem (f := Prod.fst) h) hf
  | some w =>
    have := nodup_map_inj (f := Prod.fst) hn (Ring.Assoc.find_mem hf) h rfl
    rw [(Prod.mk.inj this).2]

theorem arrayOf_mem {m : Mem} {s : Nat} {k : String} {x : Nat} (h : arrayOf m s k = some x) : x ∈ slicesOf m s := by
  unfold arrayOf at h
  cases hf : (entries m s).find k with
  | none => rw [hf] at h; cases h
  | some c =>
    rw [hf] at h
    obtain rfl := Option.some.inj h
    exact List.mem_map_of_mem (f := fun c => (m.cats c).slice) (find_cats hf)

theorem mem_arrayOf {m : Mem} {s : Nat} (ho : Own m s) {x : Nat} (h : x ∈ slicesOf m s) : ∃ k, arrayOf m s k = some x := by
  obtain ⟨c, hc, rfl⟩ := List.mem_map.mp h
  obtain ⟨⟨k, c'⟩, hp, rfl⟩ := List.mem_map.mp hc
  refine ⟨k, ?_⟩
  unfold arrayOf
  rw [find_of_entry ho.keys hp]
  rfl

theorem arrayOf_inj {m : Mem} {s : Nat} (ho : Own m s) {k k' : String} {x : Nat} (h : arrayOf m s k = some x)
    (h' : arrayOf m s k' = some x) : k = k' := by
  unfold arrayOf at h h'
  cases hf : (entries m s).find k with
  | none => rw [hf] at h; cases h
  | some c =>
    cases hf' : (entries m s).find k' with
    | none => rw [hf'] at h'; cases h'
    | some c' =>
      rw [hf] at h
      rw [hf'] at h'
      have e : (m.cats c).slice = (m.cats c').slice := (Option.some.inj h).trans (Option.some.inj h').symm
      have hc := nodup_map_inj (f := fun c => (m.cats c).slice) ho.slices (find_cats hf) (find_cats hf') e
      subst hc
      have := nodup_map_inj (f := Prod.snd) ho.cats (Ring.Assoc.find_mem hf) (Ring.Assoc.find_mem hf') rfl
      exact (Prod.mk.inj this).1

theorem SameStructs.arrayOf {m m' : Mem} {t : Nat} (h : SameStructs m m' t) (k : String) : arrayOf m' t k = arrayOf m t k := by
  unfold StatsHeap.arrayOf
  rw [h.entries]
  cases hf : (StatsHeap.entries m t).find k with
  | none => rfl
  | some c => rw [Option.map_some, Option.map_some, h.cats c (find_cats hf)]

theorem SameStructs.named {m m' : Mem} {t : Nat} (h : SameStructs m m' t) (hn : Named m t) : Named m' t := by
  intro k c hc
  rw [h.entries] at hc
  rw [h.cats c (find_cats hc)]
  exact hn k c hc

/-- One iteration of the loop. -/
theorem mergeCategory_array {m m' : Mem} {g : Nat} (ho : Own m g) (hn : Named m g) {k : String} {other : Nat}
    (hcat : (m.cats other).category = k) (hm : mergeCategory m g k other = some m') :
    Named m' g ∧ (∀ k', k' ≠ k → arrayOf m' g k' = arrayOf m g k') ∧
    (arrayOf m' g k = arrayOf m g k ∨ arrayOf m' g k = some (m.cats other).slice) ∧
    (k ≠ "" → arrayOf m' g k = some ((arrayOf m g k).getD (m.cats other).slice)) := by
  obtain ⟨o1, _, o3⟩ := mergeCategory_only ho hm
  have keep : ∀ k' c, k' ≠ k → (entries m g).find k' = some c → m'.cats c = m.cats c := by
    intro k' c hk' hc
    refine o1 c (ho.lt_cats c (find_cats hc)) fun hc' => hk' ?_
    have := nodup_map_inj (f := Prod.snd) ho.cats (Ring.Assoc.find_mem hc) (Ring.Assoc.find_mem hc') rfl
    exact (Prod.mk.inj this).1
  have others : ∀ k', k' ≠ k → arrayOf m' g k' = arrayOf m g k' := by
    intro k' hk'
    unfold arrayOf
    rw [o3 k' hk']
    cases hf : (entries m g).find k' with
    | none => rfl
    | some c => rw [Option.map_some, Option.map_some, keep k' c hk' hf]
  have named : (∀ c, (entries m' g).find k = some c → (m'.cats c).category = k) → Named m' g := by
    intro h k' c hc
    by_cases e : k' = k
    · subst e; exact h c hc
    · rw [o3 k' e] at hc
      rw [keep k' c e hc]
      exact hn k' c hc
  unfold mergeCategory at hm
  cases hf : (entries m g).find k with
  | none =>
    rw [hf] at hm
    obtain rfl := Option.some.inj hm
    have he : (entries { m with
        cats := upd m.cats m.next (m.cats other)
        maps := upd m.maps (m.objs g).map ((entries m g).insert k m.next)
        next := m.next + 1 } g).find k = some m.next := by
      unfold entries
      simp only
      rw [upd_same, Ring.Assoc.find_insert, if_pos rfl]
    have ha : arrayOf m g k = none := by unfold arrayOf; rw [hf]; rfl
    have hb : arrayOf { m with
        cats := upd m.cats m.next (m.cats other)
        maps := upd m.maps (m.objs g).map ((entries m g).insert k m.next)
        next := m.next + 1 } g k = some (m.cats other).slice := by
      unfold arrayOf
      rw [he]
      simp only [Option.map_some, upd_same]
    refine ⟨named fun c hc => ?_, others, .inr hb, fun _ => by rw [hb, ha]; rfl⟩
    rw [he] at hc
    obtain rfl := Option.some.inj hc
    simp only [upd_same]
    exact hcat
  | some c =>
    rw [hf] at hm
    simp only at hm
    have ha : arrayOf m g k = some (m.cats c).slice := by unfold arrayOf; rw [hf]; rfl
    unfold catMerge at hm
    split at hm
    · obtain rfl := Option.some.inj hm
      exact ⟨hn, others, .inl rfl, fun _ => by rw [ha]; rfl⟩
    · split at hm
      · rename_i hz
        obtain rfl := Option.some.inj hm
        have hb : arrayOf { m with cats := upd m.cats c (m.cats other) } g k = some (m.cats other).slice := by
          have he : (entries { m with cats := upd m.cats c (m.cats other) } g).find k = some c := hf
          unfold arrayOf
          rw [he]
          simp only [Option.map_some, upd_same]
        refine ⟨named fun c' hc' => ?_, others, .inr hb, fun hk => ?_⟩
        · have : (entries m g).find k = some c' := hc'
          rw [hf] at this
          obtain rfl := Option.some.inj this
          simp only [upd_same]
          exact hcat
        · exfalso
          have h0 : (m.cats c).category = "" := by
            unfold CategoryStats.isZero readCat at hz
            simp only [Bool.and_eq_true, beq_iff_eq] at hz
            exact hz.1.1.1.1.1
          exact hk ((hn k c hf).symm.trans h0)
      · split at hm
        · cases hm
        · obtain rfl := Option.some.inj hm
          have hb : ∀ cs, arrayOf (writeCat m c cs) g k = some (m.cats c).slice := by
            intro cs
            unfold arrayOf
            rw [writeCat_entries, hf]
            simp only [Option.map_some]
            rw [writeCat_slice]
          refine ⟨named fun c' hc' => ?_, others, .inl ((hb _).trans ha.symm), fun _ => (hb _).trans (by rw [ha]; rfl)⟩
          rw [writeCat_entries, hf] at hc'
          obtain rfl := Option.some.inj hc'
          unfold writeCat readCat
          simp only [upd_same]
          exact hn k c hf

/-- The loop. -/
theorem mergeLoop_array (order : List (String × Nat)) {m : Mem} {g : Nat} (ho : Own m g) (hn : Named m g)
    (hnk : (order.map Prod.fst).Nodup) (hns : (order.map fun p => (m.cats p.2).slice).Nodup)
    (hoc : ∀ p ∈ order, p.2 ∉ catsOf m g) (hos : ∀ p ∈ order, (m.cats p.2).slice ∉ slicesOf m g)
    (hlt : ∀ p ∈ order, (m.cats p.2).slice < m.next) (hlt' : ∀ p ∈ order, p.2 < m.next)
    (hcat : ∀ p ∈ order, (m.cats p.2).category = p.1) (m' : Mem) (hm' : mergeLoop m g order = some m') :
    Named m' g ∧ (∀ k, k ∉ order.map Prod.fst → arrayOf m' g k = arrayOf m g k) ∧
    ∀ p ∈ order, (arrayOf m' g p.1 = arrayOf m g p.1 ∨ arrayOf m' g p.1 = some (m.cats p.2).slice) ∧
      (p.1 ≠ "" → arrayOf m' g p.1 = some ((arrayOf m g p.1).getD (m.cats p.2).slice)) := by
  induction order generalizing m with
  | nil =>
    obtain rfl := Option.some.inj hm'
    exact ⟨hn, fun _ _ => rfl, by simp⟩
  | cons p order ih =>
    obtain ⟨k, other⟩ := p
    simp only [List.map_cons, List.nodup_cons] at hnk hns
    obtain ⟨_, h2⟩ := mergeCategory_spec ho k other (hoc (k, other) (by simp)) (hos (k, other) (by simp))
      (hlt (k, other) (by simp)) (hlt' (k, other) (by simp))
    unfold mergeLoop at hm'
    simp only [Option.bind_eq_bind] at hm'
    cases hm : mergeCategory m g k other with
    | none => rw [hm] at hm'; cases hm'
    | some m₁ =>
      rw [hm] at hm'
      simp only [Option.bind_some] at hm'
      have st := h2 m₁ hm
      have hle := st.le
      obtain ⟨o1, _, _⟩ := mergeCategory_only ho hm
      have hkeep : ∀ p ∈ order, m₁.cats p.2 = m.cats p.2 := fun p hp =>
        o1 _ (hlt' p (by simp [hp])) fun h => hoc p (by simp [hp]) (find_cats h)
      have hsl : (order.map fun p => (m₁.cats p.2).slice) = order.map fun p => (m.cats p.2).slice :=
        List.map_congr_left fun p hp => by rw [hkeep p hp]
      obtain ⟨a1, a2, a3, a4⟩ := mergeCategory_array ho hn (hcat (k, other) (by simp)) hm
      obtain ⟨b1, b2, b3⟩ := ih (m := m₁) st.own a1 hnk.2 (by rw [hsl]; exact hns.2)
        (by
          intro p hp hc
          rcases st.cats _ hc with h | h
          · exact hoc p (by simp [hp]) h
          · have := hlt' p (by simp [hp]); omega)
        (by
          intro p hp hc
          rw [hkeep p hp] at hc
          rcases st.slices _ hc with h | h
          · exact hos p (by simp [hp]) h
          · simp only [List.mem_singleton] at h
            exact hns.1 (h ▸ List.mem_map_of_mem (f := fun p => (m.cats p.2).slice) hp))
        (by intro p hp; rw [hkeep p hp]; have := hlt p (by simp [hp]); omega)
        (by intro p hp; have := hlt' p (by simp [hp]); omega)
        (by intro p hp; rw [hkeep p hp]; exact hcat p (by simp [hp]))
        hm'
      refine ⟨b1, ?_, ?_⟩
      · intro k' hk'
        simp only [List.map_cons, List.mem_cons, not_or] at hk'
        rw [b2 k' hk'.2, a2 k' hk'.1]
      · intro p hp
        rcases List.mem_cons.mp hp with rfl | hp
        · rw [b2 k hnk.1]
          exact ⟨a3, a4⟩
        · have hne : p.1 ≠ k := fun e => hnk.1 (e ▸ List.mem_map_of_mem hp)
          have := b3 p hp
          rw [a2 p.1 hne, hkeep p hp] at this
          exact this

/-- `Merge`. -/
theorem merge_array {m : Mem} {g a : Nat} (hog : Own m g) (hoa : Own m a) (hsep : Sep m g a) (hn : Named m g) (hna : Named m a)
    (hz : (read m g).isZero = false) (hza : (read m a).isZero = false) (order : List (String × Nat))
    (hp : order.Perm (entries m a)) (m' : Mem) (hm' : merge m g a order = some m') :
    Named m' g ∧ (∀ k, arrayOf m a k = none → arrayOf m' g k = arrayOf m g k) ∧
    ∀ k x, arrayOf m a k = some x → (arrayOf m' g k = arrayOf m g k ∨ arrayOf m' g k = some x) ∧
      (k ≠ "" → arrayOf m' g k = some ((arrayOf m g k).getD x)) := by
  have hk : (order.map Prod.fst).Perm (entries m a).keys := hp.map Prod.fst
  have hc : (order.map Prod.snd).Perm (catsOf m a) := hp.map Prod.snd
  have hs : (order.map fun p => (m.cats p.2).slice).Perm (slicesOf m a) := by
    have := hc.map fun c => (m.cats c).slice
    rw [List.map_map] at this
    exact this
  have memc : ∀ p ∈ order, p.2 ∈ catsOf m a := fun p h => hc.mem_iff.mp (List.mem_map_of_mem h)
  have mems : ∀ p ∈ order, (m.cats p.2).slice ∈ slicesOf m a :=
    fun p h => hs.mem_iff.mp (List.mem_map_of_mem (f := fun p : String × Nat => (m.cats p.2).slice) h)
  unfold merge at hm'
  rw [if_neg (by rw [hza]; simp), if_neg (by rw [hz]; simp)] at hm'
  split at hm'
  · cases hm'
  obtain ⟨h1, h2, h3⟩ := mergeLoop_array order hog hn (hk.nodup_iff.mpr hoa.keys) (hs.nodup_iff.mpr hoa.slices)
    (fun p h h' => hsep.cats _ h' (memc p h)) (fun p h h' => hsep.slices _ h' (mems p h))
    (fun p h => hoa.lt_slices _ (mems p h)) (fun p h => hoa.lt_cats _ (memc p h))
    (fun p h => hna p.1 p.2 (find_of_entry hoa.keys (hp.mem_iff.mp h))) m' hm'
  refine ⟨h1, ?_, ?_⟩
  · intro k hkn
    refine h2 k fun hmem => ?_
    rw [hk.mem_iff] at hmem
    unfold arrayOf at hkn
    rw [Option.map_eq_none_iff, Ring.Assoc.find_none_iff] at hkn
    exact hkn hmem
  · intro k x hx
    unfold arrayOf at hx
    cases hf : (entries m a).find k with
    | none => rw [hf] at hx; cases hx
    | some c =>
      rw [hf] at hx
      obtain rfl := Option.some.inj hx
      exact h3 (k, c) (hp.mem_iff.mpr (Ring.Assoc.find_mem hf))

/-- What merging starts from: an aggregate and statistics that share nothing. -/
structure Ready (m : Mem) (g : Nat) (l : List (Nat × List (String × Nat))) : Prop where
  own : Own m g
  named : Named m g
  zero : (read m g).isZero = false
  each : ∀ p ∈ l, Own m p.1 ∧ Sep m g p.1 ∧ p.2.Perm (entries m p.1) ∧ Named m p.1 ∧ (read m p.1).isZero = false
  pair : (l.map Prod.fst).Pairwise (Sep m)

theorem Ready.step {m m₁ : Mem} {g : Nat} {p : Nat × List (String × Nat)} {l : List (Nat × List (String × Nat))}
    (r : Ready m g (p :: l)) (hm : merge m g p.1 p.2 = some m₁) :
    Ready m₁ g l ∧ (∀ q ∈ l, Same m m₁ q.1) ∧ Same m m₁ p.1 ∧ Step m m₁ g (slicesOf m p.1) := by
  obtain ⟨h1, h2, h3, h4, h5⟩ := r.each p (by simp)
  have hpair := r.pair
  simp only [List.map_cons, List.pairwise_cons] at hpair
  obtain ⟨e1, e2⟩ := merge_spec r.own h1 h2 r.zero p.2 h3
  obtain ⟨st, sa⟩ := e2 m₁ hm
  have keep : ∀ q ∈ l, Same m m₁ q.1 := fun q hq => st.same (r.each q (by simp [hq])).1 (r.each q (by simp [hq])).2.1
  refine ⟨⟨st.own, (merge_array r.own h1 h2 r.named h4 r.zero h5 p.2 h3 m₁ hm).1, ?_, ?_, ?_⟩, keep, sa, st⟩
  · rw [hm] at e1
    exact read_merge_isZero e1.symm r.zero
  · intro q hq
    obtain ⟨k1, k2, k3, k4, k5⟩ := r.each q (by simp [hq])
    have sq := keep q hq
    refine ⟨sq.own k1, ⟨⟨k2.ne, by rw [st.obj]; exact k2.map, ?_⟩, ?_⟩, by rw [sq.entries]; exact k3,
      sq.toSameStructs.named k4, by rw [sq.read]; exact k5⟩
    · intro c hc
      rw [sq.catsOf]
      rcases st.cats c hc with h | h
      · exact k2.cats c h
      · intro h'; have := k1.lt_cats c h'; omega
    · intro c hc
      rw [sq.slicesOf]
      rcases st.slices c hc with h | h
      · exact k2.slices c h
      · exact (hpair.1 q.1 (List.mem_map_of_mem hq)).slices c h
  · apply hpair.2.imp_of_mem
    intro x y hx hy hxy
    obtain ⟨p, hp, rfl⟩ := List.mem_map.mp hx
    obtain ⟨q, hq, rfl⟩ := List.mem_map.mp hy
    exact hxy.mono (keep p hp).toSameStructs (keep q hq).toSameStructs

theorem mergeAll_cons {m m' : Mem} {g : Nat} {p : Nat × List (String × Nat)} {l : List (Nat × List (String × Nat))}
    (h : mergeAll m g (p :: l) = some m') : ∃ m₁, merge m g p.1 p.2 = some m₁ ∧ mergeAll m₁ g l = some m' := by
  obtain ⟨a, order⟩ := p
  unfold mergeAll at h
  simp only [Option.bind_eq_bind] at h
  cases hm : merge m g a order with
  | none => rw [hm] at h; cases h
  | some m₁ => rw [hm] at h; exact ⟨m₁, rfl, h⟩

/-- An array that none of them has stays as it is. -/
theorem mergeAll_foreign (l : List (Nat × List (String × Nat))) {m m' : Mem} {g : Nat} (r : Ready m g l)
    (h : mergeAll m g l = some m') {x : Nat} (hg : x ∉ slicesOf m g) (hl : ∀ q ∈ l, x ∉ slicesOf m q.1) :
    m'.slices x = m.slices x := by
  induction l generalizing m with
  | nil => obtain rfl := Option.some.inj h; rfl
  | cons p l ih =>
    obtain ⟨m₁, h1, h2⟩ := mergeAll_cons h
    obtain ⟨r₁, keep, sa, st⟩ := r.step h1
    rw [ih r₁ h2 ?_ ?_, st.writes x hg]
    · intro hx
      rcases st.slices x hx with h | h
      · exact hg h
      · exact hl p (by simp) h
    · intro q hq
      rw [(keep q hq).slicesOf]
      exact hl q (by simp [hq])

/-- The aggregate keeps the array of a category that has a name. -/
theorem mergeAll_keeps (l : List (Nat × List (String × Nat))) {m m' : Mem} {g : Nat} (r : Ready m g l)
    (h : mergeAll m g l = some m') {k : String} (hk : k ≠ "") {x : Nat} (hx : arrayOf m g k = some x) : arrayOf m' g k = some x := by
  induction l generalizing m with
  | nil => obtain rfl := Option.some.inj h; exact hx
  | cons p l ih =>
    obtain ⟨m₁, h1, h2⟩ := mergeAll_cons h
    obtain ⟨r₁, _, _, _⟩ := r.step h1
    obtain ⟨k1, k2, k3, k4, k5⟩ := r.each p (by simp)
    obtain ⟨_, a2, a3⟩ := merge_array r.own k1 k2 r.named k4 r.zero k5 p.2 k3 m₁ h1
    refine ih r₁ h2 ?_
    cases ha : arrayOf m p.1 k with
    | none => rw [a2 k ha, hx]
    | some y => rw [(a3 k y ha).2 hk, hx]; rfl

/-- All statistics keep their structs. -/
theorem mergeAll_structs (l : List (Nat × List (String × Nat))) {m m' : Mem} {g : Nat} (r : Ready m g l)
    (h : mergeAll m g l = some m') {t : Nat} (hot : Own m t) (ha : Apart m g t) : SameStructs m m' t := by
  induction l generalizing m with
  | nil => obtain rfl := Option.some.inj h; exact SameStructs.refl _ _
  | cons p l ih =>
    obtain ⟨m₁, h1, h2⟩ := mergeAll_cons h
    obtain ⟨r₁, _, _, st⟩ := r.step h1
    have s1 := st.structs t hot ha
    refine s1.trans (ih r₁ h2 (s1.own hot) ⟨ha.ne, by rw [st.obj]; exact ha.map, ?_⟩)
    intro c hc
    rw [s1.catsOf]
    rcases st.cats c hc with h | h
    · exact ha.cats c h
    · intro h'; have := hot.lt_cats c h'; omega

/-- The first statistics with a category share their array with the aggregate, all others keep theirs. -/
theorem mergeAll_array (pre : List (Nat × List (String × Nat))) {p : Nat × List (String × Nat)} {post : List (Nat × List (String × Nat))}
    {m m' : Mem} {g : Nat} (r : Ready m g (pre ++ p :: post)) (h : mergeAll m g (pre ++ p :: post) = some m')
    {k : String} (hk : k ≠ "") {x : Nat} (hx : arrayOf m p.1 k = some x) :
    (arrayOf m g k = none → (∀ q ∈ pre, arrayOf m q.1 k = none) → arrayOf m' g k = some x) ∧
    ((arrayOf m g k ≠ none ∨ ∃ q ∈ pre, arrayOf m q.1 k ≠ none) → m'.slices x = m.slices x) := by
  induction pre generalizing m with
  | nil =>
    obtain ⟨m₁, h1, h2⟩ := mergeAll_cons h
    obtain ⟨r₁, keep, sa, st⟩ := r.step h1
    obtain ⟨k1, k2, k3, k4, k5⟩ := r.each p (by simp)
    obtain ⟨_, a2, a3⟩ := merge_array r.own k1 k2 r.named k4 r.zero k5 p.2 k3 m₁ h1
    have hxs := arrayOf_mem hx
    constructor
    · intro hg _
      refine mergeAll_keeps post r₁ h2 hk ?_
      rw [(a3 k x hx).2 hk, hg]
      rfl
    · intro hg
      replace hg : arrayOf m g k ≠ none := by
        rcases hg with h | ⟨q, hq, _⟩
        · exact h
        · cases hq
      obtain ⟨y, hy⟩ := Option.ne_none_iff_exists'.1 hg
      rw [mergeAll_foreign post r₁ h2 (x := x) ?_ ?_, sa.slices x hxs]
      · intro hmem
        obtain ⟨k', hk'⟩ := mem_arrayOf st.own hmem
        have notg : ∀ k', arrayOf m g k' ≠ some x := fun k' e => k2.slices x (arrayOf_mem e) hxs
        cases ha : arrayOf m p.1 k' with
        | none => rw [a2 k' ha] at hk'; exact notg k' hk'
        | some z =>
          obtain ⟨b1, _⟩ := a3 k' z ha
          rcases b1 with e | e
          · rw [e] at hk'; exact notg k' hk'
          · rw [e] at hk'
            obtain rfl := Option.some.inj hk'
            obtain rfl := arrayOf_inj k1 ha hx
            rw [(a3 k' z ha).2 hk, hy] at e
            exact notg k' (hy.trans e)
      · intro q hq
        have hpair := r.pair
        simp only [List.nil_append, List.map_cons, List.pairwise_cons] at hpair
        rw [(keep q hq).slicesOf]
        exact (hpair.1 q.1 (List.mem_map_of_mem hq)).slices x hxs
  | cons p₀ pre ih =>
    obtain ⟨m₁, h1, h2⟩ := mergeAll_cons h
    obtain ⟨r₁, keep, sa, st⟩ := r.step h1
    obtain ⟨k1, k2, k3, k4, k5⟩ := r.each p₀ (by simp)
    obtain ⟨_, a2, a3⟩ := merge_array r.own k1 k2 r.named k4 r.zero k5 p₀.2 k3 m₁ h1
    have kp := keep p (by simp)
    obtain ⟨i1, i2⟩ := ih r₁ h2 (by rw [kp.toSameStructs.arrayOf]; exact hx)
    constructor
    · intro hg hpre
      refine i1 ?_ fun q hq => ?_
      · rw [a2 k (hpre p₀ (by simp)), hg]
      · rw [(keep q (by simp [hq])).toSameStructs.arrayOf]
        exact hpre q (by simp [hq])
    · intro hg
      rw [i2 ?_, kp.slices x (arrayOf_mem hx)]
      cases ha : arrayOf m p₀.1 k with
      | none =>
        rcases hg with hg | ⟨q, hq, hqk⟩
        · left; rw [a2 k ha]; exact hg
        · rcases List.mem_cons.mp hq with rfl | hq
          · exact absurd ha hqk
          · right
            refine ⟨q, hq, ?_⟩
            rw [(keep q (by simp [hq])).toSameStructs.arrayOf]
            exact hqk
      | some y =>
        left
        rw [(a3 k y ha).2 hk]
        simp

/-- The bucket counts of a category, as a reader of the statistics sees them. -/
def countsOf (ss : SearchStats) (k : String) : Option (List Int) := (ss.categories.find k).map (·.bucketCounts)

theorem countsOf_read (m : Mem) (s : Nat) (k : String) : countsOf (read m s) k = (arrayOf m s k).map m.slices := by
  unfold countsOf read arrayOf
  simp only
  rw [find_map]
  cases (entries m s).find k <;> rfl

theorem named_of_read {m : Mem} {s : Nat} (h : ∀ k cs, (read m s).categories.find k = some cs → cs.category = k) : Named m s := by
  intro k c hc
  refine h k (readCat m c) ?_
  unfold read
  simp only
  rw [find_map, hc]
  rfl

/-- Exactly which bucket counts are changed by merging: in every category that has a name, those of the statistics that were
merged first among the ones with that category become the sums that the aggregate shows; all others stay as they were. -/
theorem C42_exact (b : List Duration) (hne : b ≠ []) (hb : b.Pairwise (· ≤ ·)) (ls : List (List Static)) :
    ∃ m ss, makeAll Mem.empty b ls = some (m, ss) ∧
      ss.map (fun s => some (read m s)) = ls.map (fun l => (newSearchStats b).observeAll l) ∧
      ∀ l, (l.map Prod.fst).Perm ss → (∀ p ∈ l, p.2.Perm (entries m p.1)) →
        ∀ m', mergeAll (newStats m b).1 (newStats m b).2 l = some m' →
          ∀ before p after, l = before ++ p :: after → ∀ k, k ≠ "" → countsOf (read m p.1) k ≠ none →
            ((∀ q ∈ before, countsOf (read m q.1) k = none) →
              countsOf (read m' p.1) k = countsOf (read m' (newStats m b).2) k) ∧
            ((∃ q ∈ before, countsOf (read m q.1) k ≠ none) → countsOf (read m' p.1) k = countsOf (read m p.1) k) := by
  obtain ⟨m, ss, h1, h2, h3, h4, _⟩ := makeAll_spec b hb ls Mem.empty
  obtain ⟨n1, n2, n3⟩ := newStats_spec m b
  refine ⟨m, ss, h1, h2, ?_⟩
  intro l hperm hord m' hm' before p after hl k hk hc
  have hmem : ∀ q ∈ l, q.1 ∈ ss := fun q hq => hperm.mem_iff.mp (List.mem_map_of_mem hq)
  have value : ∀ s ∈ ss, ∃ tr, StatsOf b tr (read m s) := by
    intro s hs
    have : some (read m s) ∈ ls.map (fun l => (newSearchStats b).observeAll l) := h2 ▸ List.mem_map_of_mem hs
    obtain ⟨tr, _, htr⟩ := List.mem_map.mp this
    obtain ⟨v, hv, hs'⟩ := Trc.observeAll_spec hb tr (statsOf_new b)
    rw [hv] at htr
    obtain rfl := Option.some.inj htr
    exact ⟨_, hs'⟩
  have hz : (newSearchStats b).isZero = false := by
    cases b with
    | nil => exact absurd rfl hne
    | cons x b => simp [newSearchStats, SearchStats.isZero]
  have r : Ready (newStats m b).1 (newStats m b).2 l := by
    refine ⟨n1, named_of_read fun k cs h => ?_, by rw [n2]; exact hz, fun q hq => ?_, ?_⟩
    · rw [n2] at h; cases h
    · obtain ⟨k1, k2⟩ := n3 q.1 (h3 q.1 (hmem q hq))
      obtain ⟨tr, htr⟩ := value q.1 (hmem q hq)
      refine ⟨k1.own (h3 q.1 (hmem q hq)), k2, by rw [k1.entries]; exact hord q hq, named_of_read fun k cs h => ?_, ?_⟩
      · rw [k1.read] at h
        exact (htr.present k cs h).2.category
      · rw [k1.read]
        unfold SearchStats.isZero at hz ⊢
        rw [htr.bucketing]
        exact hz
    · have : (l.map Prod.fst).Pairwise (Sep m) := (hperm.pairwise_iff (fun h => h.symm)).mpr h4
      apply this.imp_of_mem
      intro x y hx hy hxy
      exact hxy.mono (n3 x (h3 x (hperm.mem_iff.mp hx))).1.toSameStructs (n3 y (h3 y (hperm.mem_iff.mp hy))).1.toSameStructs
  have same : ∀ q ∈ l, Same m (newStats m b).1 q.1 := fun q hq => (n3 q.1 (h3 q.1 (hmem q hq))).1
  have arr : ∀ q ∈ l, arrayOf (newStats m b).1 q.1 k = arrayOf m q.1 k := fun q hq => (same q hq).toSameStructs.arrayOf k
  have none_iff : ∀ q ∈ l, countsOf (read m q.1) k = none ↔ arrayOf (newStats m b).1 q.1 k = none := by
    intro q hq
    rw [countsOf_read, arr q hq, Option.map_eq_none_iff]
  subst hl
  have hpl : p ∈ before ++ p :: after := by simp
  rw [ne_eq, none_iff p hpl] at hc
  obtain ⟨x, hx⟩ := Option.ne_none_iff_exists'.1 hc
  obtain ⟨f1, f2⟩ := mergeAll_array before r hm' hk hx
  obtain ⟨k1, k2, _⟩ := r.each p hpl
  have hx' : arrayOf m' p.1 k = some x := by
    rw [(mergeAll_structs _ r hm' k1 k2.toApart).arrayOf, hx]
  have hg : arrayOf (newStats m b).1 (newStats m b).2 k = none := by
    have := countsOf_read (newStats m b).1 (newStats m b).2 k
    rw [n2] at this
    exact Option.map_eq_none_iff.1 this.symm
  constructor
  · intro hbefore
    rw [countsOf_read, countsOf_read, hx', f1 hg fun q hq => (none_iff q (by simp [hq])).1 (hbefore q hq)]
  · rintro ⟨q, hq, hqk⟩
    have hs := f2 (.inr ⟨q, hq, fun e => hqk ((none_iff q (by simp [hq])).2 e)⟩)
    rw [countsOf_read, countsOf_read, hx', ← arr p hpl, hx, Option.map_some, Option.map_some, hs]
    rw [(same p hpl).slices x ?_]
    have := arrayOf_mem hx
    rw [(same p hpl).slicesOf] at this
    exact this

/-- The case of `C42_buckets_violated`. -/
example : ∃ m ss, twoSearchers = some (m, ss) ∧ ss.map (fun s => countsOf (read m s) "c") = [some [1], some [1]] := by
  obtain ⟨m, ss, h1, h2, _⟩ := C42_exact [0] (by simp) (by decide) [[sampleTrace "a" 1 true false 5], [sampleTrace "b" 2 true false 5]]
  refine ⟨m, ss, h1, ?_⟩
  have h3 := congrArg (List.map fun o : Option SearchStats => o.bind fun ss => countsOf ss "c") h2
  simp only [List.map_map] at h3
  exact h3.trans (by decide +kernel)

end Trc.StatsHeap
