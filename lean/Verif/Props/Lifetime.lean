import Verif.Props.Easy

/-!
# C158: a trace is found until its category has as many newer ones as it holds
-/

set_option linter.unusedVariables false
set_option linter.unusedSectionVars false

namespace Trc.Ring

variable {α : Type} [Inhabited α]

/-- The sizes that are ever set are between the two. -/
def MOp.Sizes (least most : Nat) : MOp α → Prop
  | .beginResize c _ => 0 < c → (least : Int) ≤ c ∧ c ≤ most
  | _ => True

/-- The sizes of the categories are between the two, and no category has more than its size. -/
structure Sized (least most : Nat) (f : Spec.Family α) : Prop where
  cap : least ≤ f.cap ∧ f.cap ≤ most
  cat : ∀ k r, f.cat k = some r → least ≤ r.cap ∧ r.cap ≤ most ∧ r.items.length ≤ r.cap

theorem sized_step {least most : Nat} {f : Spec.Family α} (h : Sized least most f) (op : MOp α) (ho : op.Sizes least most) :
    Sized least most (f.step op).1 := by
  obtain ⟨h1, h2⟩ := h
  cases op with
  | getOrCreate c =>
    simp only [Spec.Family.step]
    split
    · refine ⟨h1, fun k r hr => ?_⟩
      rcases Family_upd_some hr with ⟨_, rfl⟩ | ⟨_, hr⟩
      · exact ⟨h1.1, h1.2, by simp⟩
      · exact h2 k r hr
    · exact ⟨h1, h2⟩
  | add c v =>
    simp only [Spec.Family.step]
    split
    · exact ⟨h1, h2⟩
    · rename_i r0 hc
      refine ⟨h1, fun k r hr => ?_⟩
      rcases Family_upd_some hr with ⟨_, rfl⟩ | ⟨_, hr⟩
      · obtain ⟨a, b, _⟩ := h2 c r0 hc
        exact ⟨a, b, by simp [Spec.Recent.add]; omega⟩
      · exact h2 k r hr
  | beginResize c order =>
    simp only [Spec.Family.step]
    split
    · exact ⟨h1, h2⟩
    · rename_i hn
      have : 0 < c := by
        simp only [not_or] at hn
        omega
      have := ho this
      exact ⟨by simp only; omega, h2⟩
  | resizeNext =>
    simp only [Spec.Family.step]
    split
    · exact ⟨h1, h2⟩
    · exact ⟨h1, h2⟩
    · split
      · exact ⟨h1, h2⟩
      · rename_i c rest _ _ r0 hc
        refine ⟨h1, fun k r hr => ?_⟩
        rcases Family_upd_some hr with ⟨_, rfl⟩ | ⟨_, hr⟩
        · unfold Spec.Recent.resize
          split
          · exact h2 c r0 hc
          · simp; omega
        · exact h2 k r hr

theorem kept_step {least most : Nat} {f : Spec.Family α} (h : Sized least most f) (op : MOp α) {k : String} {r : Spec.Recent α}
    (hk : f.cat k = some r) :
    ∃ r', (f.step op).1.cat k = some r' ∧ r'.items <+: addsTo k [op] ++ r.items ∧
      r'.items.take least = (addsTo k [op] ++ r.items).take least := by
  have hsame : addsTo k [op] = [] → ∃ r', f.cat k = some r' ∧ r'.items <+: addsTo k [op] ++ r.items ∧
      r'.items.take least = (addsTo k [op] ++ r.items).take least := by
    intro e
    rw [e]
    exact ⟨r, hk, List.prefix_rfl, rfl⟩
  cases op with
  | getOrCreate c =>
    simp only [Spec.Family.step]
    split
    · rename_i hc
      have hne : c ≠ k := by rintro rfl; rw [hk] at hc; cases hc
      simp only [Spec.Family.upd, hne, if_false]
      exact hsame rfl
    · exact hsame rfl
  | add c v =>
    simp only [Spec.Family.step]
    by_cases e : c = k
    · subst e
      rw [hk]
      have e1 : addsTo c [MOp.add c v] = [v] := by simp [addsTo, addsOf]
      rw [e1]
      refine ⟨_, by simp [Spec.Family.upd]; rfl, List.take_prefix _ _, ?_⟩
      simp only [Spec.Recent.add, List.take_take, List.singleton_append]
      rw [Nat.min_eq_left (h.cat c r hk).1]
    · have e1 : addsTo k [MOp.add c v] = [] := by simp [addsTo, addsOf, e]
      split
      · exact hsame e1
      · simp only [Spec.Family.upd, e, if_false]
        exact hsame e1
  | beginResize c order =>
    simp only [Spec.Family.step]
    split <;> exact hsame rfl
  | resizeNext =>
    simp only [Spec.Family.step]
    split
    · exact hsame rfl
    · exact hsame rfl
    · split
      · exact hsame rfl
      · rename_i c rest _ _ r0 hc
        by_cases e : c = k
        · subst e
          rw [hk] at hc
          obtain rfl := Option.some.inj hc
          refine ⟨(r.resize f.cap).1, by simp [Spec.Family.upd], ?_, ?_⟩
          · have e1 : addsTo c [(MOp.resizeNext : MOp α)] = [] := rfl
            rw [e1, List.nil_append]
            unfold Spec.Recent.resize
            split
            · exact List.prefix_rfl
            · exact List.take_prefix _ _
          · have e1 : addsTo c [(MOp.resizeNext : MOp α)] = [] := rfl
            rw [e1, List.nil_append]
            unfold Spec.Recent.resize
            split
            · rfl
            · simp only [List.take_take]
              congr 1
              have := h.cap
              omega
        · simp only [Spec.Family.upd, e, if_false]
          exact hsame rfl

theorem take_more {β : Type} {n : Nat} {a b c : List β} (h : b.take n = c.take n) : (a ++ b).take n = (a ++ c).take n := by
  rw [List.take_append, List.take_append]
  congr 1
  have : ∀ l : List β, l.take (n - a.length) = (l.take n).take (n - a.length) := by
    intro l
    rw [List.take_take]
    congr 1
    omega
  rw [this b, this c, h]

theorem prefix_more {β : Type} {a b c : List β} (h : b <+: c) : a ++ b <+: a ++ c := by
  obtain ⟨t, rfl⟩ := h
  exact ⟨t, by simp⟩

theorem kept_run {least most : Nat} (ops : List (MOp α)) {f : Spec.Family α} (h : Sized least most f)
    (ho : ∀ op ∈ ops, op.Sizes least most) {k : String} {r : Spec.Recent α} (hk : f.cat k = some r) :
    ∃ r', (f.run ops).1.cat k = some r' ∧ r'.items <+: addsTo k ops ++ r.items ∧
      r'.items.take least = (addsTo k ops ++ r.items).take least := by
  induction ops generalizing f r with
  | nil => exact ⟨r, hk, List.prefix_rfl, rfl⟩
  | cons op ops ih =>
    obtain ⟨r1, e1, p1, t1⟩ := kept_step h op hk
    obtain ⟨r2, e2, p2, t2⟩ := ih (sized_step h op (ho op (by simp))) (fun o h => ho o (by simp [h])) e1
    have e : addsTo k (op :: ops) = addsTo k ops ++ addsTo k [op] := addsTo_append k [op] ops
    refine ⟨r2, e2, ?_, ?_⟩
    · rw [e, List.append_assoc]
      exact p2.trans (prefix_more p1)
    · rw [e, List.append_assoc, t2]
      exact take_more t1

theorem sized_run {least most : Nat} (ops : List (MOp α)) {f : Spec.Family α} (h : Sized least most f)
    (ho : ∀ op ∈ ops, op.Sizes least most) : Sized least most (f.run ops).1 := by
  induction ops generalizing f with
  | nil => exact h
  | cons op ops ih => exact ih (sized_step h op (ho op (by simp))) (fun o h => ho o (by simp [h]))

end Trc.Ring

namespace Trc.Search

open Ring

variable {α : Type} [Inhabited α]

/-- The buffers of a state that was reached, in any order, and what walking them shows. -/
theorem buffers_after {hist : List (MOp α)} {s : RBs α} (hA : After hist s) (rings : List (RB α)) (hr : rings.Perm (s.bufs.map Prod.snd)) :
    ∃ keys : List String, keys.Perm s.bufs.keys ∧ Buffers rings (keys.map fun k => (s.contents k).getD []) := by
  obtain ⟨f, hf, -⟩ := hA.frep
  obtain ⟨m, hm, rfl⟩ := perm_map_inv Prod.snd hr
  have hfind : ∀ p ∈ m, s.bufs.find p.1 = some p.2 := fun p hp => find_pair hf.hnd (hm.mem_iff.mp hp)
  have hwalk : ∀ p ∈ m, walkAll p.2 = some (((s.contents p.1).getD [])) := by
    intro p hp
    have h1 : s.contents p.1 = walkAll p.2 := by
      unfold RBs.contents RBs.buf
      rw [hfind p hp]
    rw [← h1]
    obtain ⟨items, h2, -⟩ := hA.shows p.1
    rw [h2]; rfl
  have hb : Buffers (m.map Prod.snd) ((m.map Prod.fst).map fun k => (s.contents k).getD []) := by
    refine ⟨?_, ?_⟩
    · rw [List.map_map, List.map_map, List.map_map]
      exact List.map_congr_left hwalk
    · intro rb hrb
      obtain ⟨p, hp, rfl⟩ := List.mem_map.mp hrb
      exact hA.made _ _ (hfind p hp)
  exact ⟨m.map Prod.fst, hm.map Prod.fst, hb⟩

/-- If none of the retained traces has the ID, a search for the ID finds none. -/
theorem found_none (compile : Compile) (srt : List Static → List Static) (hs : SortOK srt) (source : String) (req : SearchRequest)
    (id : String) (hreq : req.filter = { ids := [id] }) (view : α → Look → Static) {hist : List (MOp α)} {s : RBs α} (hA : After hist s)
    (rings : List (RB α)) (hr : rings.Perm (s.bufs.map Prod.snd))
    (hnone : ∀ k items, s.contents k = some items → ∀ v ∈ items, (view v .filter).id ≠ id) :
    ∃ res, search compile srt source req view rings = some res ∧ res.traces = [] ∧ res.matchCount = 0 := by
  obtain ⟨keys, -, hb⟩ := buffers_after hA rings hr
  have hfresh : req.filter.Fresh compile := by
    rw [hreq]; intro re h; cases h
  obtain ⟨req', problems, res, sel, h1, h2, h3, h4, h5, h6, h7, h8, h9, h10, h11, h12⟩ :=
    search_chosen compile srt hs source req hfresh view _ _ hb
  have hall : (keys.map fun k => (s.contents k).getD []).flatMap (selected compile req' view) = [] := by
    rw [List.flatMap_eq_nil_iff]
    intro items hi
    obtain ⟨k, _, rfl⟩ := List.mem_map.mp hi
    obtain ⟨items, e, -⟩ := hA.shows k
    rw [e, Option.getD_some]
    unfold selected allowed
    rw [List.filter_eq_nil_iff.mpr]
    · simp
    · intro v hv hall
      rw [selected_sat hfresh h6, hreq] at hall
      refine hnone _ _ e v hv ?_
      have := hall.1.2.1
      simpa using this
  rw [hall] at h7 h11
  obtain rfl := List.perm_nil.mp h7
  exact ⟨res, h2, by rw [h9]; simp, by simpa using h11⟩

theorem filter_one {β : Type} {l : List α} (g : α → β) [DecidableEq β] (hn : (l.map g).Nodup) {x : α} (hx : x ∈ l) :
    l.filter (fun v => decide (g v = g x)) = [x] := by
  induction l with
  | nil => cases hx
  | cons y l ih =>
    obtain ⟨h1, h2⟩ := List.nodup_cons.mp hn
    rw [List.filter_cons]
    rcases List.mem_cons.mp hx with rfl | hx
    · rw [if_pos (by simp), List.filter_eq_nil_iff.mpr]
      intro v hv e
      exact h1 (List.mem_map.mpr ⟨v, hv, by simpa using e⟩)
    · rw [if_neg, ih h2 hx]
      intro e
      have e : g y = g x := by simpa using e
      exact h1 (e ▸ List.mem_map_of_mem hx)

theorem pair_of_id {β : Type} {l : List (String × α)} (g : α → β) (hn : (l.map fun p => g p.2).Nodup) {p q : String × α}
    (hp : p ∈ l) (hq : q ∈ l) (h : g p.2 = g q.2) : p = q := by
  induction l with
  | nil => cases hp
  | cons y l ih =>
    obtain ⟨h1, h2⟩ := List.nodup_cons.mp hn
    rcases List.mem_cons.mp hp with hp' | hp' <;> rcases List.mem_cons.mp hq with hq' | hq'
    · rw [hp', hq']
    · exact absurd (List.mem_map.mpr ⟨q, hq', by rw [← hp']; exact h.symm⟩) h1
    · exact absurd (List.mem_map.mpr ⟨p, hp', by rw [← hq']; exact h⟩) h1
    · exact ih h2 hp' hq'

theorem mem_adds {k : String} {hist : List (MOp α)} {x : α} (h : x ∈ addsTo k hist) : (k, x) ∈ addsOf hist := by
  unfold addsTo at h
  rw [List.mem_reverse, List.mem_map] at h
  obtain ⟨p, hp, rfl⟩ := h
  rw [List.mem_filter] at hp
  obtain rfl : p.1 = k := by simpa using hp.2
  exact hp.1

/-- **C158.** A collector has run for a while; `x` is then added to a category, whose buffer was made, and after it anything
happens: traces are added to this and other categories, and the collector is resized, to sizes between `least` and `most`. A
search for the ID of `x` finds it, and it alone, if fewer than `least` traces were added to its category after it, and finds nothing
if `most` were. -/
theorem C158_lifetime (cap least most : Nat) (hcap : least ≤ cap ∧ cap ≤ most) (before after : List (MOp α)) (category : String) (x : α)
    (s₀ : RBs α) (ds₀ : List α) (hrun : (newRBs (cap : Int)).run before = some (s₀, ds₀)) (hmade : (s₀.bufs.find category).isSome)
    (hsizes : ∀ c order, MOp.beginResize c order ∈ before ++ after → 0 < c → (least : Int) ≤ c ∧ c ≤ most)
    (view : α → Look → Static)
    (hids : ((addsOf (before ++ .add category x :: after)).map fun p => (view p.2 .filter).id).Nodup)
    (compile : Compile) (srt : List Static → List Static) (hs : SortOK srt) (source : String) (req : SearchRequest)
    (hreq : req.filter = { ids := [(view x .filter).id] }) :
    ∃ s ds, s₀.run (.add category x :: after) = some (s, ds) ∧ ∀ rings, rings.Perm (s.bufs.map Prod.snd) →
      ∃ res, search compile srt source req view rings = some res ∧
        ((addsTo category after).length < least → res.traces = [copyOf req view x] ∧ res.matchCount = 1) ∧
        (most ≤ (addsTo category after).length → res.traces = [] ∧ res.matchCount = 0) := by
  have hs1 : ∀ op ∈ before, op.Sizes least most := by
    intro op h
    cases op with
    | beginResize c order => exact hsizes c order (by simp [h])
    | _ => trivial
  have hs2 : ∀ op ∈ (.add category x :: after : List (MOp α)), op.Sizes least most := by
    intro op h
    cases op with
    | beginResize c order =>
      rcases List.mem_cons.mp h with h | h
      · cases h
      · exact hsizes c order (by simp [h])
    | _ => trivial
  obtain ⟨s1, e1, hf⟩ := frep_run (frep_new (α := α) cap) before
  rw [hrun] at e1
  obtain ⟨rfl, _⟩ := Prod.mk.inj (Option.some.inj e1)
  have hz := sized_run before (f := (Spec.Family.new cap : Spec.Family α)) ⟨hcap, by simp [Spec.Family.new]⟩ hs1
  obtain ⟨s1, d1, g1, hA0, -⟩ := (reached_new (α := α) cap).run before
  rw [hrun] at g1
  obtain ⟨rfl, _⟩ := Prod.mk.inj (Option.some.inj g1)
  obtain ⟨s, ds, g2, hA, -⟩ := hA0.run (.add category x :: after)
  rw [List.nil_append] at hA
  refine ⟨s, ds, g2, fun rings hr => ?_⟩
  generalize ((Spec.Family.new cap : Spec.Family α).run before).1 = f at hf hz
  obtain ⟨rb, hrb⟩ := Option.isSome_iff_exists.mp hmade
  obtain ⟨r, hcat, -⟩ := hf.isSome hrb
  obtain ⟨r', c1, c2, c3⟩ := kept_run _ hz hs2 hcat
  have hz' := sized_run _ hz hs2
  obtain ⟨s2, e2, hf'⟩ := frep_run hf (.add category x :: after)
  rw [g2] at e2
  obtain ⟨rfl, _⟩ := Prod.mk.inj (Option.some.inj e2)
  have hcont : s.contents category = some r'.items := by
    rw [hf'.contents]
    simp [Spec.Family.items, c1]
  have hadds : addsTo category (.add category x :: after) = addsTo category after ++ [x] := by
    rw [show (MOp.add category x :: after) = [.add category x] ++ after from rfl, addsTo_append]
    simp [addsTo, addsOf]
  rw [hadds, List.append_assoc] at c2 c3
  have hlen := hz'.cat category r' c1
  have hx : (category, x) ∈ addsOf (before ++ .add category x :: after) := by
    simp [addsOf]
  have hmem : ∀ k items, s.contents k = some items → ∀ v ∈ items, (k, v) ∈ addsOf (before ++ .add category x :: after) := by
    intro k items e v hv
    obtain ⟨i, e', hsub⟩ := hA.shows k
    rw [e] at e'
    obtain rfl := Option.some.inj e'
    exact mem_adds (hsub.subset hv)
  by_cases hlt : (addsTo category after).length < least
  · have hin : x ∈ r'.items := by
      refine List.mem_of_mem_take (i := least) ?_
      rw [c3, List.take_append, List.mem_append]
      refine Or.inr ?_
      obtain ⟨j, hj⟩ : ∃ j, least - (addsTo category after).length = j + 1 := ⟨least - (addsTo category after).length - 1, by omega⟩
      rw [hj]
      simp
    obtain ⟨res, a1, a2, a3⟩ := found_one compile srt hs source req _ hreq view hA rings hr x category (by
      intro k items e
      split
      · rename_i hk
        subst hk
        rw [hcont] at e
        obtain rfl := Option.some.inj e
        refine filter_one (fun v => (view v .filter).id) ?_ hin
        obtain ⟨i, e', hsub⟩ := hA.shows k
        rw [hcont] at e'
        obtain rfl := Option.some.inj e'
        refine (hsub.map _).nodup ?_
        unfold addsTo
        rw [List.map_reverse, List.nodup_reverse, List.map_map]
        exact (List.filter_sublist.map _).nodup hids
      · rename_i hk
        rw [List.filter_eq_nil_iff]
        intro v hv e'
        have e' : (view v .filter).id = (view x .filter).id := by simpa using e'
        have := pair_of_id (fun v => (view v .filter).id) hids (hmem k items e v hv) hx e'
        exact hk (Prod.mk.inj this).1)
    exact ⟨res, a1, fun _ => ⟨a2, a3⟩, fun h => by omega⟩
  · by_cases hge : most ≤ (addsTo category after).length
    · obtain ⟨res, a1, a2, a3⟩ := found_none compile srt hs source req _ hreq view hA rings hr (by
        intro k items e v hv e'
        have heq := pair_of_id (fun v => (view v .filter).id) hids (hmem k items e v hv) hx e'
        obtain ⟨rfl, rfl⟩ := Prod.mk.inj heq
        rw [hcont] at e
        obtain rfl := Option.some.inj e
        have hp : r'.items <+: addsTo k after :=
          List.prefix_of_prefix_length_le c2 (List.prefix_append _ _) (by omega)
        have hv' := mem_adds (hp.subset hv)
        have : (addsOf (before ++ .add k v :: after)) = addsOf before ++ (k, v) :: addsOf after := by
          simp [addsOf]
        rw [this, List.map_append, List.map_cons] at hids
        have h3 := (List.nodup_cons.mp (List.nodup_append.mp hids).2.1).1
        exact h3 (List.mem_map.mpr ⟨(k, v), hv', rfl⟩))
      exact ⟨res, a1, fun h => absurd h hlt, fun _ => ⟨a2, a3⟩⟩
    · obtain ⟨keys, -, hb⟩ := buffers_after hA rings hr
      obtain ⟨_, _, res, _, _, h2, _⟩ := search_chosen compile srt hs source req (by rw [hreq]; intro re h; cases h) view _ _ hb
      exact ⟨res, h2, fun h => absurd h hlt, fun h => absurd h hge⟩

/-- For a collector whose size stays the same, just that number of newer traces. -/
theorem C158_exact (size : Nat) (before after : List (MOp α)) (category : String) (x : α)
    (s₀ : RBs α) (ds₀ : List α) (hrun : (newRBs (size : Int)).run before = some (s₀, ds₀)) (hmade : (s₀.bufs.find category).isSome)
    (hsizes : ∀ c order, MOp.beginResize c order ∉ before ++ after)
    (view : α → Look → Static)
    (hids : ((addsOf (before ++ .add category x :: after)).map fun p => (view p.2 .filter).id).Nodup)
    (compile : Compile) (srt : List Static → List Static) (hs : SortOK srt) (source : String) (req : SearchRequest)
    (hreq : req.filter = { ids := [(view x .filter).id] }) :
    ∃ s ds, s₀.run (.add category x :: after) = some (s, ds) ∧ ∀ rings, rings.Perm (s.bufs.map Prod.snd) →
      ∃ res, search compile srt source req view rings = some res ∧
        (res.traces = [copyOf req view x] ↔ (addsTo category after).length < size) ∧
        (res.traces = [] ↔ size ≤ (addsTo category after).length) := by
  obtain ⟨s, ds, h1, h2⟩ := C158_lifetime size size size ⟨Nat.le_refl _, Nat.le_refl _⟩ before after category x s₀ ds₀ hrun hmade
    (fun c order h => absurd h (hsizes c order)) view hids compile srt hs source req hreq
  refine ⟨s, ds, h1, fun rings hr => ?_⟩
  obtain ⟨res, e, h3, h4⟩ := h2 rings hr
  refine ⟨res, e, ?_, ?_⟩
  · refine ⟨fun h => ?_, fun h => (h3 h).1⟩
    by_cases hlt : (addsTo category after).length < size
    · exact hlt
    · rw [(h4 (by omega)).1] at h
      cases h
  · refine ⟨fun h => ?_, fun h => (h4 h).1⟩
    by_cases hge : size ≤ (addsTo category after).length
    · exact hge
    · rw [(h3 (by omega)).1] at h
      cases h

/-! ## A trace, newer ones of its category and of another, and a smaller size -/

/-- A collector of three, and one category. -/
def started : List (MOp Static) := [.getOrCreate "a", .add "a" (sampleTrace "0" 0 false false 0)]

/-- After the trace: one in the category, one elsewhere, then the size becomes two while another category is made. -/
def later : List (MOp Static) :=
  [.add "a" (sampleTrace "1" 2 false false 0), .getOrCreate "b", .add "b" (sampleTrace "2" 3 false false 0), .beginResize 2 ["b", "a"],
    .resizeNext, .getOrCreate "c", .resizeNext, .resizeNext]

private instance : Inhabited Static := ⟨sampleTrace "" 0 false false 0⟩

/-- The hypotheses of `C158_lifetime`, and one newer trace of the category: fewer than `least`. -/
example :
    ((newRBs 3).run started).map (fun p => (p.1.bufs.find "a").isSome) = some true ∧
    (∀ c order, MOp.beginResize c order ∈ started ++ later → 0 < c → ((2 : Nat) : Int) ≤ c ∧ c ≤ (3 : Nat)) ∧
    ((addsOf (started ++ .add "a" (sampleTrace "x" 1 true true 2) :: later)).map fun p => p.2.id).Nodup ∧
    (addsTo "a" later).length = 1 := by
  refine ⟨by decide +kernel, ?_, by decide, by decide⟩
  intro c order h _
  simp only [started, later, List.cons_append, List.nil_append, List.mem_cons, List.not_mem_nil, or_false, reduceCtorEq, false_or,
    MOp.beginResize.injEq] at h
  omega

/-- What a search for the ID `x` finds after the given operations. -/
private def foundAfter (ops : List (MOp Static)) : Option (List String) := do
  let (s, _) ← (newRBs 3).run ops
  let res ← search (fun _ => .error "") sortNewest "s" { filter := { ids := ["x"] } } (fun x _ => x) (s.bufs.map Prod.snd)
  return res.traces.map (·.id)

/-- Found with one newer trace, still found with two of three, gone with the third. -/
example :
    let add (id : String) : MOp Static := .add "a" (sampleTrace id 5 false false 0)
    let x : MOp Static := .add "a" (sampleTrace "x" 1 true true 2)
    foundAfter (started ++ x :: later) = some ["x"] ∧ foundAfter (started ++ [x, add "3", add "4"]) = some ["x"] ∧
    foundAfter (started ++ [x, add "3", add "4", add "5"]) = some [] ∧ foundAfter (started ++ x :: later ++ [add "3"]) = some [] := by
  decide +kernel

end Trc.Search
