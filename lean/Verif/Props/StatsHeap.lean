import Verif.Search.StatsHeap
import Verif.Props.Stats

/-!
# C42: what merging does to the statistics merged

The collections of traces of several searchers are observed into statistics of their own, and these
are merged one by one into a new aggregate (as `MultiSearcher` does).
-/

set_option linter.unusedVariables false

namespace Trc.StatsHeap

open Trc.Ring (Assoc)

/-- Each searcher makes statistics of its own traces: `NewSearchStats(bucketing)`, then `Observe`
(collector.go:142, 152). -/
def makeAll (m : Mem) (b : List Duration) : List (List Static) → Option (Mem × List Nat)
  | [] => some (m, [])
  | l :: ls => do
    let m' ← observeAll (newStats m b).1 (newStats m b).2 l
    let (m'', ss) ← makeAll m' b ls
    return (m'', (newStats m b).2 :: ss)

theorem Sep.symm {m : Mem} {s t : Nat} (h : Sep m s t) : Sep m t s :=
  ⟨⟨h.ne.symm, h.map.symm, fun c h1 h2 => h.cats c h2 h1⟩, fun c h1 h2 => h.slices c h2 h1⟩

theorem Sep.mono {m m' : Mem} {s t : Nat} (h : Sep m s t) (hs : SameStructs m m' s) (ht : SameStructs m m' t) : Sep m' s t := by
  refine ⟨⟨h.ne, by rw [hs.obj, ht.obj]; exact h.map, ?_⟩, ?_⟩
  · rw [hs.catsOf, ht.catsOf]; exact h.cats
  · rw [hs.slicesOf, ht.slicesOf]; exact h.slices

theorem Apart.mono {m m' : Mem} {s t : Nat} (h : Apart m s t) (hs : SameStructs m m' s) (ht : SameStructs m m' t) : Apart m' s t := by
  refine ⟨h.ne, by rw [hs.obj, ht.obj]; exact h.map, ?_⟩
  rw [hs.catsOf, ht.catsOf]; exact h.cats

/-- Separately made statistics share no memory, and read as on values. -/
theorem makeAll_spec (b : List Duration) (hb : b.Pairwise (· ≤ ·)) (ls : List (List Static)) (m : Mem) :
    ∃ m' ss, makeAll m b ls = some (m', ss) ∧
      ss.map (fun s => some (read m' s)) = ls.map (fun l => (newSearchStats b).observeAll l) ∧
      (∀ s ∈ ss, Own m' s) ∧ ss.Pairwise (Sep m') ∧
      (∀ t, Own m t → Same m m' t ∧ ∀ s ∈ ss, Sep m' t s) := by
  induction ls generalizing m with
  | nil => exact ⟨m, [], rfl, rfl, by simp, by simp, fun t _ => ⟨Same.refl _ _, by simp⟩⟩
  | cons l ls ih =>
    obtain ⟨n1, n2, n3⟩ := newStats_spec m b
    obtain ⟨o1, o2⟩ := observeAll_spec l n1
    rw [n2] at o1
    obtain ⟨v, hv, _⟩ := Trc.observeAll_spec hb l (statsOf_new b)
    rw [hv] at o1
    cases hm : observeAll (newStats m b).1 (newStats m b).2 l with
    | none => rw [hm] at o1; cases o1
    | some m₁ =>
      rw [hm] at o1
      have hread : read m₁ (newStats m b).2 = v := by simpa using o1
      obtain ⟨p1, p2, p3⟩ := o2 m₁ hm
      obtain ⟨m₂, ss, i1, i2, i3, i4, i5⟩ := ih m₁
      obtain ⟨j1, j2⟩ := i5 _ p1
      refine ⟨m₂, (newStats m b).2 :: ss, by simp [makeAll, hm, i1], ?_, ?_, ?_, ?_⟩
      · simp only [List.map_cons]
        rw [i2, j1.read, hread, hv]
      · intro s hs
        rcases List.mem_cons.mp hs with rfl | hs
        · exact j1.own p1
        · exact i3 s hs
      · exact List.pairwise_cons.mpr ⟨j2, i4⟩
      · intro t hot
        obtain ⟨q1, q2⟩ := n3 t hot
        obtain ⟨r1, r2⟩ := p3 t (q1.own hot) q2
        have hot₁ := (q1.trans r1).own hot
        obtain ⟨u1, u2⟩ := i5 t hot₁
        refine ⟨(q1.trans r1).trans u1, ?_⟩
        intro s hs
        rcases List.mem_cons.mp hs with rfl | hs
        · exact (r2.mono j1.toSameStructs u1.toSameStructs).symm
        · exact u2 s hs

theorem read_merge_isZero {ss other : SearchStats} {order : List (String × CategoryStats)} {r : SearchStats}
    (h : ss.merge other order = some r) (hz : ss.isZero = false) : r.isZero = false := by
  have key : ∀ (order : List (String × CategoryStats)) (ss r : SearchStats), ss.mergeLoop order = some r → r.bucketing = ss.bucketing := by
    intro order
    induction order with
    | nil => intro ss r h; obtain rfl := Option.some.inj h; rfl
    | cons p order ih =>
      intro ss r h
      obtain ⟨k, c⟩ := p
      simp only [SearchStats.mergeLoop, Option.bind_eq_bind] at h
      cases hm : ss.mergeCategory k c with
      | none => rw [hm] at h; cases h
      | some s₁ =>
        rw [hm] at h
        rw [ih s₁ r h]
        unfold SearchStats.mergeCategory at hm
        split at hm
        · obtain rfl := Option.some.inj hm; rfl
        · rename_i ours _
          cases hc : CategoryStats.merge ours c with
          | none => rw [hc] at hm; cases hm
          | some cs => rw [hc] at hm; obtain rfl := Option.some.inj hm; rfl
  unfold SearchStats.merge at h
  split at h
  · obtain rfl := Option.some.inj h; exact hz
  · rw [if_neg (by rw [hz]; simp)] at h
    split at h
    · cases h
    · unfold SearchStats.isZero at hz ⊢
      rw [key _ _ _ h]; exact hz

/-- Merging separate statistics one by one. -/
theorem mergeAll_spec (l : List (Nat × List (String × Nat))) {m : Mem} {g : Nat} (hog : Own m g)
    (hz : (read m g).isZero = false) (hl : ∀ p ∈ l, Own m p.1 ∧ Sep m g p.1 ∧ p.2.Perm (entries m p.1))
    (hpair : (l.map Prod.fst).Pairwise (Sep m)) :
    (mergeAll m g l).map (fun m' => read m' g) =
      Trc.mergeAll (read m g) (l.map fun p => (read m p.1, p.2.map fun q => (q.1, readCat m q.2))) ∧
    ∀ m', mergeAll m g l = some m' →
      (∀ t, Own m t → Apart m g t → SameStructs m m' t) ∧
      (∀ p, l.getLast? = some p → read m' p.1 = read m p.1) := by
  induction l generalizing m with
  | nil =>
    refine ⟨rfl, ?_⟩
    intro m' h
    obtain rfl := Option.some.inj h
    exact ⟨fun t _ _ => SameStructs.refl _ _, by simp⟩
  | cons p l ih =>
    obtain ⟨a, order⟩ := p
    obtain ⟨h1, h2, h3⟩ := hl (a, order) (by simp)
    simp only [List.map_cons, List.pairwise_cons] at hpair
    obtain ⟨e1, e2⟩ := merge_spec hog h1 h2 hz order h3
    unfold mergeAll
    simp only [List.map_cons, Trc.mergeAll, Option.bind_eq_bind]
    rw [← e1]
    cases hm : merge m g a order with
    | none => exact ⟨rfl, fun m' h => by simp at h⟩
    | some m₁ =>
      simp only [Option.map_some, Option.bind_some]
      obtain ⟨st, sa⟩ := e2 m₁ hm
      have keep : ∀ q ∈ l, Same m m₁ q.1 := fun q hq => st.same (hl q (by simp [hq])).1 (hl q (by simp [hq])).2.1
      have apart : ∀ t, Own m t → Apart m g t → Apart m₁ g t := by
        intro t hot ha
        refine ⟨ha.ne, by rw [st.obj]; exact ha.map, ?_⟩
        intro c hc
        rw [(st.structs t hot ha).catsOf]
        rcases st.cats c hc with h | h
        · exact ha.cats c h
        · intro h'; have := hot.lt_cats c h'; omega
      have hz₁ : (read m₁ g).isZero = false := by
        rw [hm] at e1
        exact read_merge_isZero e1.symm hz
      have hl₁ : ∀ q ∈ l, Own m₁ q.1 ∧ Sep m₁ g q.1 ∧ q.2.Perm (entries m₁ q.1) := by
        intro q hq
        obtain ⟨k1, k2, k3⟩ := hl q (by simp [hq])
        have sq := keep q hq
        refine ⟨sq.own k1, ⟨apart q.1 k1 k2.toApart, ?_⟩, by rw [sq.entries]; exact k3⟩
        intro c hc
        rw [sq.slicesOf]
        rcases st.slices c hc with h | h
        · exact k2.slices c h
        · exact (hpair.1 q.1 (List.mem_map_of_mem hq)).slices c h
      have hpair₁ : (l.map Prod.fst).Pairwise (Sep m₁) := by
        apply hpair.2.imp_of_mem
        intro x y hx hy hxy
        obtain ⟨p, hp, rfl⟩ := List.mem_map.mp hx
        obtain ⟨q, hq, rfl⟩ := List.mem_map.mp hy
        exact hxy.mono (keep p hp).toSameStructs (keep q hq).toSameStructs
      obtain ⟨i1, i2⟩ := ih st.own hz₁ hl₁ hpair₁
      refine ⟨?_, ?_⟩
      · rw [i1]
        congr 1
        apply List.map_congr_left
        intro q hq
        have sq := keep q hq
        rw [sq.read]
        congr 1
        apply List.map_congr_left
        rintro ⟨k, c⟩ hc
        have hc' : (k, c) ∈ entries m q.1 := (hl q (by simp [hq])).2.2.mem_iff.mp hc
        have hm1 : c ∈ catsOf m q.1 := List.mem_map_of_mem (f := Prod.snd) hc'
        have hm2 : (m.cats c).slice ∈ slicesOf m q.1 := List.mem_map_of_mem (f := fun c => (m.cats c).slice) hm1
        simp only [readCat]
        rw [sq.cats c hm1, sq.slices _ hm2]
      · intro m' h
        obtain ⟨j1, j2⟩ := i2 m' h
        refine ⟨?_, ?_⟩
        · intro t hot ha
          have s1 := st.structs t hot ha
          exact s1.trans (j1 t (s1.own hot) (apart t hot ha))
        · intro q hq
          cases l with
          | nil =>
            simp only [List.getLast?_singleton, Option.some.injEq] at hq
            subst hq
            obtain rfl := Option.some.inj h
            exact sa.read
          | cons x l' =>
            rw [List.getLast?_cons_cons] at hq
            rw [j2 q hq, (keep q (List.mem_of_getLast? hq)).read]

/-- C42, the true part.  Any number of searchers, each with its own traces: their statistics are
merged into a new aggregate, in any order of arrival and of iterating over the maps.  The aggregate
reads exactly as merging values does (so C40 and C41 apply to it), and afterwards all statistics
that were merged still have the same categories, active, errored and event counts and times; those
merged last are entirely unchanged.
Missing: the bucket counts of those merged earlier, see `C42_buckets_violated`. -/
theorem C42_arguments_partial (b : List Duration) (hne : b ≠ []) (hb : b.Pairwise (· ≤ ·)) (ls : List (List Static)) :
    ∃ m ss, makeAll Mem.empty b ls = some (m, ss) ∧
      ss.map (fun s => some (read m s)) = ls.map (fun l => (newSearchStats b).observeAll l) ∧
      ∀ l, (l.map Prod.fst).Perm ss →
        (∀ p ∈ l, p.2.Perm (entries m p.1)) →
        (mergeAll (newStats m b).1 (newStats m b).2 l).map (fun m' => read m' (newStats m b).2) =
          Trc.mergeAll (newSearchStats b) (l.map fun p => (read m p.1, p.2.map fun q => (q.1, readCat m q.2))) ∧
        ∀ m', mergeAll (newStats m b).1 (newStats m b).2 l = some m' →
          (∀ s ∈ ss, readScalars m' s = readScalars m s) ∧
          (∀ p, l.getLast? = some p → read m' p.1 = read m p.1) := by
  obtain ⟨m, ss, h1, h2, h3, h4, _⟩ := makeAll_spec b hb ls Mem.empty
  obtain ⟨n1, n2, n3⟩ := newStats_spec m b
  refine ⟨m, ss, h1, h2, ?_⟩
  intro l hperm hord
  have hmem : ∀ p ∈ l, p.1 ∈ ss := fun p hp => hperm.mem_iff.mp (List.mem_map_of_mem hp)
  have hz : (read (newStats m b).1 (newStats m b).2).isZero = false := by
    rw [n2]
    cases b with
    | nil => exact absurd rfl hne
    | cons x b => simp [newSearchStats, SearchStats.isZero]
  have hpair : (l.map Prod.fst).Pairwise (Sep (newStats m b).1) := by
    have : (l.map Prod.fst).Pairwise (Sep m) := (hperm.pairwise_iff (fun h => h.symm)).mpr h4
    apply this.imp_of_mem
    intro x y hx hy hxy
    exact hxy.mono (n3 x (h3 x (hperm.mem_iff.mp hx))).1.toSameStructs (n3 y (h3 y (hperm.mem_iff.mp hy))).1.toSameStructs
  obtain ⟨a1, a2⟩ := mergeAll_spec l n1 hz (fun p hp => by
    obtain ⟨k1, k2⟩ := n3 p.1 (h3 p.1 (hmem p hp))
    exact ⟨k1.own (h3 p.1 (hmem p hp)), k2, by rw [k1.entries]; exact hord p hp⟩) hpair
  refine ⟨?_, ?_⟩
  · rw [a1, n2]
    congr 1
    apply List.map_congr_left
    intro p hp
    rw [(n3 p.1 (h3 p.1 (hmem p hp))).1.read]
    rfl
  · intro m' hm'
    obtain ⟨b1, b2⟩ := a2 m' hm'
    refine ⟨?_, ?_⟩
    · intro s hs
      obtain ⟨k1, k2⟩ := n3 s (h3 s hs)
      rw [(b1 s (k1.own (h3 s hs)) k2.toApart).readScalars, k1.readScalars]
    · intro p hp
      rw [b2 p hp, (n3 p.1 (h3 p.1 (hmem p (List.mem_of_getLast? hp)))).1.read]

/-- The bucket counts of category "c" of the statistics at `s`. -/
def cBuckets (m : Mem) (s : Nat) : Option (List Int) := ((read m s).categories.find "c").map (·.bucketCounts)

/-- Two searchers with one finished trace each, and the aggregate: the memory before the merges. -/
def twoSearchers : Option (Mem × List Nat) :=
  makeAll Mem.empty [0] [[sampleTrace "a" 1 true false 5], [sampleTrace "b" 2 true false 5]]

/-- The bucket counts of the first searcher's statistics before and after merging both. -/
def beforeAfter : Option (Option (List Int) × Option (List Int)) := do
  let (m, ss) ← twoSearchers
  let [s₁, s₂] := ss | none
  let (m₁, g) := newStats m [0]
  let m₂ ← mergeAll m₁ g [(s₁, entries m₁ s₁), (s₂, entries m₁ s₂)]
  return (cBuckets m s₁, cBuckets m₂ s₁)

/-- C42 is false for bucket counts: the response of the first searcher says one successful trace
before the merges and two after. -/
theorem C42_buckets_violated : beforeAfter = some (some [1], some [2]) := by decide +kernel

/-- The partial theorem's premises are met by this run. -/
example : ∃ m s₁ s₂, twoSearchers = some (m, [s₁, s₂]) ∧ s₁ ≠ s₂ := by
  obtain ⟨m, ss, h1, h2, h3, h4, _⟩ := makeAll_spec [0] (by decide)
    [[sampleTrace "a" 1 true false 5], [sampleTrace "b" 2 true false 5]] Mem.empty
  have hl : ss.length = 2 := by have := congrArg List.length h2; simpa using this
  match ss, hl with
  | [s₁, s₂], _ =>
    refine ⟨m, s₁, s₂, h1, ?_⟩
    simp only [List.pairwise_cons, List.mem_singleton] at h4
    exact (h4.1 s₂ rfl).ne

end Trc.StatsHeap
