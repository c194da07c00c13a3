import Verif.Search.SearchLemmas
import Verif.Props.Stats
import Mathlib.Data.List.Nodup
import Mathlib.Data.List.Perm.Subperm

/-!
# Properties of `Collector.Search`: C25–C30

`contents` are the traces in the buffers when they are walked, most recently added first (C01 and
C07: that is what the collector retains).
-/

set_option linter.unusedVariables false

namespace Trc

open Ring (Assoc)
open StatsSpec

variable {α : Type}

/-- Buffers as `Add` and `Resize` make them, and their contents, most recently added first. -/
structure Buffers [Inhabited α] (rings : List (Ring.RB α)) (contents : List (List α)) : Prop where
  walk : rings.map Ring.walkAll = contents.map some
  made : ∀ rb ∈ rings, ∃ (cap : Nat) (ops : List (Ring.Op α)) (outs : List (List α)),
    Ring.exec (cap : Int) ops = some (rb, outs)

theorem Buffers.rep [Inhabited α] {rings : List (Ring.RB α)} {contents : List (List α)} (h : Buffers rings contents) :
    ∀ rb ∈ rings, ∃ r, Ring.Rep rb r := by
  intro rb hrb
  obtain ⟨cap, ops, outs, he⟩ := h.made rb hrb
  obtain ⟨rb', he', hr⟩ := Ring.rep_exec (α := α) cap ops
  rw [he] at he'
  exact ⟨_, (Prod.mk.inj (Option.some.inj he')).1 ▸ hr⟩

/-- A trace with stacks as deep as `depth`: all of them for 0, none for a negative depth, the
innermost `depth` calls otherwise. -/
def Static.shortened (st : Static) (depth : Int) : Static :=
  { st with events := st.events.map fun ev =>
      { ev with stack := if depth = 0 then ev.stack else if depth < 0 then [] else ev.stack.take depth.toNat } }

theorem trim_shortened (st : Static) (depth : Int) : st.trimStacks depth = st.shortened depth := by
  unfold Static.trimStacks Static.shortened
  by_cases h0 : depth = 0
  · rw [if_pos h0]
    simp only [if_pos h0, List.map_id']
  · rw [if_neg h0]
    simp only [if_neg h0]
    congr 1
    refine List.map_congr_left fun ev _ => ?_
    unfold trimEvent
    by_cases hn : depth < 0
    · simp only [if_pos hn, Int.toNat_zero, List.take_zero]
      split
      · rfl
      · rename_i hl
        have : ev.stack = [] := List.eq_nil_of_length_eq_zero (by omega)
        rw [← this]
    · simp only [if_neg hn]
      split
      · rfl
      · rename_i hl
        rw [List.take_of_length_le (by omega)]

/-- The copy of a trace in a response. -/
def copyOf (req : SearchRequest) (view : α → Look → Static) (c : α) : Static :=
  (view c .copy).shortened req.stackDepth

theorem copyOf_trim (req : SearchRequest) (view : α → Look → Static) (c : α) :
    copyOf req view c = (view c .copy).trimStacks req.stackDepth := (trim_shortened ..).symm

theorem trimStacks_started (t : Static) (d : Int) : (t.trimStacks d).started = t.started := by
  unfold Static.trimStacks; split <;> rfl

theorem trimStacks_id (t : Static) (d : Int) : (t.trimStacks d).id = t.id := by
  unfold Static.trimStacks; split <;> rfl

theorem copyOf_started (req : SearchRequest) (view : α → Look → Static) (c : α) :
    (copyOf req view c).started = (view c .copy).started := rfl

/-- The limit that a request asks for (C35). -/
def limitOf (req : SearchRequest) : Int := if req.limit ≤ 0 then 10 else if req.limit > 250 then 250 else req.limit

/-- A permutation of a mapped list is the map of a permutation. -/
theorem perm_map_inv {β γ : Type} (f : β → γ) {l' : List γ} {l : List β} (h : l'.Perm (l.map f)) :
    ∃ m : List β, m.Perm l ∧ l' = m.map f := by
  have key : ∀ {a b : List γ}, a.Perm b → ∀ l : List β, b = l.map f → ∃ m : List β, m.Perm l ∧ a = m.map f := by
    intro a b h
    induction h with
    | nil =>
      intro l hl
      cases l with
      | nil => exact ⟨[], List.Perm.refl _, rfl⟩
      | cons _ _ => cases hl
    | cons x _ ih =>
      intro l hl
      cases l with
      | nil => cases hl
      | cons y l =>
        simp only [List.map_cons, List.cons.injEq] at hl
        obtain ⟨m, h1, h2⟩ := ih l hl.2
        exact ⟨y :: m, h1.cons y, by simp [hl.1, h2]⟩
    | swap x y l0 =>
      intro l hl
      match l, hl with
      | a :: b :: l, hl =>
        simp only [List.map_cons, List.cons.injEq] at hl
        exact ⟨b :: a :: l, List.Perm.swap .., by simp [hl.1, hl.2.1, hl.2.2]⟩
      | [a], hl => simp at hl
      | [], hl => cases hl
    | trans _ _ ih1 ih2 =>
      intro l hl
      obtain ⟨m, h1, h2⟩ := ih2 l hl
      obtain ⟨m', h3, h4⟩ := ih1 m h2
      exact ⟨m', h3.trans h1, h4⟩
  exact key h l rfl

theorem limitOf_spec {compile : Compile} {req req' : SearchRequest} {problems : List String}
    (h : req.normalize compile = some (req', problems)) : req'.limit = limitOf req := by
  obtain ⟨r, p, h1, h2, h3, h4, h5, h6⟩ := C35_limit compile req
  rw [h] at h1
  obtain ⟨rfl, _⟩ := Prod.mk.inj (Option.some.inj h1)
  unfold limitOf
  split
  · rename_i h; exact h4 h
  · split
    · rename_i h; exact h6 (by omega)
    · rename_i h1 h2; exact h5 (by omega) (by omega)

theorem selected_sublist (compile : Compile) (req : SearchRequest) (view : α → Look → Static) (items : List α) :
    (selected compile req view items).Sublist items :=
  (List.take_sublist _ _).trans List.filter_sublist

theorem flatMap_sublist {β γ : Type} (f : β → List γ) (g : β → List γ) (h : ∀ b, (f b).Sublist (g b)) (l : List β) :
    (l.flatMap f).Sublist (l.flatMap g) := by
  induction l with
  | nil => exact List.Sublist.refl _
  | cons b l ih => simp only [List.flatMap_cons]; exact (h b).append ih

theorem flatMap_selected_sublist (compile : Compile) (req : SearchRequest) (view : α → Look → Static) (contents : List (List α)) :
    (contents.flatMap (selected compile req view)).Sublist contents.flatten := by
  have := flatMap_sublist (selected compile req view) _root_.id (selected_sublist compile req view) contents
  simpa [List.flatMap_id] using this

theorem selected_sat {compile : Compile} {req req' : SearchRequest} (hf : req.filter.Fresh compile)
    (he : req'.filter = (req.filter.normalize compile).1) {view : α → Look → Static} {c : α} :
    (req'.filter.allow compile (view c .filter)).1 = true ↔ req.filter.Sat compile (view c .filter) := by
  obtain ⟨n1, _, n3⟩ := normalize_fresh compile req.filter hf
  rw [he, C31_allow_iff compile _ n1, n3]

/-- The response in terms of candidates: the selected ones, in the order of the sort. -/
theorem search_chosen [Inhabited α] (compile : Compile) (srt : List Static → List Static) (hs : SortOK srt)
    (source : String) (req : SearchRequest) (hf : req.filter.Fresh compile) (view : α → Look → Static)
    (rings : List (Ring.RB α)) (contents : List (List α)) (hb : Buffers rings contents) :
    ∃ (req' : SearchRequest) (problems : List String) (res : SearchResponse) (sel : List α), req.normalize compile = some (req', problems) ∧
      search compile srt source req view rings = some res ∧
      req'.limit = limitOf req ∧ 1 ≤ limitOf req ∧ limitOf req ≤ 250 ∧
      req'.filter = (req.filter.normalize compile).1 ∧
      sel.Perm (contents.flatMap (selected compile req' view)) ∧
      srt ((contents.flatMap (selected compile req' view)).map (copyOf req view)) = sel.map (copyOf req view) ∧
      res.traces = (sel.take (limitOf req).toNat).map (copyOf req view) ∧
      res.totalCount = contents.flatten.length ∧
      res.matchCount = (contents.flatMap (selected compile req' view)).length ∧
      (newSearchStats req'.bucketing).observeAll (contents.flatten.map (view · .observe)) = some res.stats := by
  obtain ⟨req', problems, res, h1, h2, h3, h4, h5, h6, h7, h8, h9, h10, h11, h12⟩ :=
    search_spec compile srt source req hf view rings contents hb.walk hb.rep
  have hl := limitOf_spec h1
  have hcopy : (fun c => (view c Look.copy).trimStacks req'.stackDepth) = copyOf req view := by
    funext c; rw [copyOf_trim, h6]
  rw [hcopy] at h12
  obtain ⟨sel, p1, p2⟩ := perm_map_inv (copyOf req view) (hs.perm ((contents.flatMap (selected compile req' view)).map (copyOf req view)))
  refine ⟨req', problems, res, sel, h1, h2, hl, by omega, by omega, h5, p1, p2, ?_, h9, h10, h11⟩
  rw [h12, p2, hl, List.map_take]

/-- C25.  The traces in a response are copies of distinct retained traces that satisfy the filter,
newest first, at most the limit. -/
theorem C25_response [Inhabited α] (compile : Compile) (srt : List Static → List Static) (hs : SortOK srt)
    (source : String) (req : SearchRequest) (hf : req.filter.Fresh compile) (view : α → Look → Static)
    (rings : List (Ring.RB α)) (contents : List (List α)) (hb : Buffers rings contents)
    (hnd : contents.flatten.Nodup) (hc : Comparable (contents.flatten.map fun c => (view c .copy).started)) :
    ∃ res, search compile srt source req view rings = some res ∧
      1 ≤ limitOf req ∧ limitOf req ≤ 250 ∧ (res.traces.length : Int) ≤ limitOf req ∧ NewestFirst res.traces ∧
      ∃ cs : List α, cs.Nodup ∧ res.traces = cs.map (copyOf req view) ∧
        ∀ c ∈ cs, c ∈ contents.flatten ∧ req.filter.Sat compile (view c .filter) := by
  obtain ⟨req', problems, res, sel, h1, h2, hl, h3, h4, h5, p1, p2, h6, _⟩ :=
    search_chosen compile srt hs source req hf view rings contents hb
  have hsub := flatMap_selected_sublist compile req' view contents
  refine ⟨res, h2, h3, h4, ?_, ?_, sel.take (limitOf req).toNat, ?_, h6, ?_⟩
  · rw [h6, List.length_map, List.length_take]; omega
  · rw [h6, List.map_take, ← p2]
    have hcmp : Comparable (((contents.flatMap (selected compile req' view)).map (copyOf req view)).map (·.started)) := by
      obtain ⟨m, hm⟩ := hc
      refine ⟨m, ?_⟩
      intro t ht
      simp only [List.map_map, List.mem_map, Function.comp] at ht
      obtain ⟨c, hc, rfl⟩ := ht
      rw [copyOf_started]
      exact hm _ (List.mem_map_of_mem (f := fun c => (view c .copy).started) (hsub.subset hc))
    exact (hs.sorted _ hcmp).sublist (List.take_sublist _ _)
  · exact ((p1.nodup_iff.mpr (hsub.nodup hnd))).sublist (List.take_sublist _ _)
  · intro c hc
    have hc' : c ∈ contents.flatMap (selected compile req' view) := p1.mem_iff.mp ((List.take_sublist _ _).subset hc)
    refine ⟨hsub.subset hc', ?_⟩
    obtain ⟨items, hi, hm⟩ := List.mem_flatMap.mp hc'
    have := List.mem_filter.mp ((List.take_sublist _ _).subset hm)
    exact (selected_sat hf h5).mp this.2

/-! ## C26: the most recent matches -/

theorem less_of_after {a b : Static} (h : a.started.after b.started = true) : a.less b = true := by
  unfold Static.less; rw [if_pos h]

theorem not_after {a b : Static} (h : a.less b = false) : a.started.after b.started = false := by
  cases hc : a.started.after b.started with
  | false => rfl
  | true => rw [less_of_after hc] at h; cases h

/-- C25.  What `NewestFirst` means: no trace started after one that comes before it, and of those that started
at the same instant the one with the greater ID comes first. -/
theorem C25_newest_first (l : List Static) (h : NewestFirst l) :
    l.Pairwise fun a b => b.started.after a.started = false ∧
      (a.started.after b.started = false → b.started.before a.started = false → ¬ a.id < b.id) := by
  apply List.Pairwise.imp _ h
  intro a b hab
  refine ⟨not_after hab, ?_⟩
  intro h1 h2 hlt
  unfold Static.less at hab
  rw [not_after hab, h2] at hab
  simp [hlt] at hab

/-- In a list that is newest first, fewer than `n` elements are strictly newer than one of the
first `n`. -/
theorem countP_newer {m : Bool} {l : List Static} (hl : NewestFirst l) (hm : ∀ t ∈ l, t.started.mono.isSome = m) (n : Nat)
    {r : Static} (hr : r ∈ l.take n) : l.countP (fun x => x.less r) < n := by
  induction l generalizing n with
  | nil => simp at hr
  | cons x l ih =>
    cases n with
    | zero => simp at hr
    | succ n =>
      unfold NewestFirst at hl
      rw [List.pairwise_cons] at hl
      simp only [List.take_succ_cons, List.mem_cons] at hr
      rcases hr with rfl | hr
      · have h0 : (r :: l).countP (fun x => x.less r) = 0 := by
          rw [List.countP_eq_zero]
          intro y hy
          rcases List.mem_cons.mp hy with rfl | hy
          · simp [less_irrefl (hm y (by simp))]
          · simp [hl.1 y hy]
        omega
      · have := ih hl.2 (fun t ht => hm t (by simp [ht])) n hr
        rw [List.countP_cons]
        split <;> omega

theorem mem_drop_filter {β : Type} (p : β → Bool) : ∀ (l : List β) (n : Nat) {x : β}, x ∈ (l.filter p).drop n →
    ∃ l₁ l₂, l = l₁ ++ x :: l₂ ∧ n ≤ l₁.countP p
  | [], n, x, h => by simp at h
  | y :: l, n, x, h => by
    by_cases hy : p y = true
    · rw [List.filter_cons_of_pos hy] at h
      cases n with
      | zero =>
        have hx : x ∈ y :: l.filter p := h
        have hx' : x ∈ y :: l := by
          rcases List.mem_cons.mp hx with rfl | hx
          · simp
          · exact List.mem_cons_of_mem _ (List.mem_filter.mp hx).1
        obtain ⟨l₁, l₂, e⟩ := List.append_of_mem hx'
        exact ⟨l₁, l₂, e, Nat.zero_le _⟩
      | succ n =>
        obtain ⟨l₁, l₂, e, hn⟩ := mem_drop_filter p l n (by simpa using h)
        exact ⟨y :: l₁, l₂, by rw [e]; rfl, by rw [List.countP_cons_of_pos hy]; omega⟩
    · rw [List.filter_cons_of_neg hy] at h
      obtain ⟨l₁, l₂, e, hn⟩ := mem_drop_filter p l n h
      exact ⟨y :: l₁, l₂, by rw [e]; rfl, by rw [List.countP_cons_of_neg hy]; exact hn⟩

/-- C26, in whatever order traces were added: a retained trace that matches is missing from the response only if the
response is full, and either no trace in the response is older, or its category has as many matching traces as the
response may have that were added after it. (A category is listed from the one added last to the one added first.) -/
theorem C26_missed [Inhabited α] (compile : Compile) (srt : List Static → List Static) (hs : SortOK srt)
    (source : String) (req : SearchRequest) (hf : req.filter.Fresh compile) (view : α → Look → Static)
    (rings : List (Ring.RB α)) (contents : List (List α)) (hb : Buffers rings contents)
    (hc : Comparable (contents.flatten.map fun c => (view c .copy).started)) :
    ∃ res, search compile srt source req view rings = some res ∧
      ∃ cs : List α, res.traces = cs.map (copyOf req view) ∧
        ∀ c ∈ contents.flatten, req.filter.Sat compile (view c .filter) → c ∉ cs →
          (res.traces.length : Int) = limitOf req ∧
          ((∀ t ∈ res.traces, (view c .copy).started.after t.started = false) ∨
            ∃ items ∈ contents, ∃ later earlier more : List α, items = later ++ c :: earlier ∧ more.Sublist later ∧
              (more.length : Int) = limitOf req ∧ ∀ d ∈ more, req.filter.Sat compile (view d .filter)) := by
  obtain ⟨req', problems, res, sel, h1, h2, hl, h3, h4, h5, p1, p2, h6, _⟩ :=
    search_chosen compile srt hs source req hf view rings contents hb
  have hsub := flatMap_selected_sublist compile req' view contents
  obtain ⟨m, hm⟩ := hc
  have hmono : ∀ c ∈ contents.flatten, (copyOf req view c).started.mono.isSome = m := by
    intro c hc; rw [copyOf_started]
    exact hm _ (List.mem_map_of_mem (f := fun c => (view c .copy).started) hc)
  have hselmem : ∀ c ∈ sel, c ∈ contents.flatten := fun c hc => hsub.subset (p1.mem_iff.mp hc)
  have hcmp : Comparable (((contents.flatMap (selected compile req' view)).map (copyOf req view)).map (·.started)) := by
    refine ⟨m, ?_⟩
    intro t ht
    simp only [List.map_map, List.mem_map, Function.comp] at ht
    obtain ⟨c, hc, rfl⟩ := ht
    exact hmono c (hsub.subset hc)
  have hsorted := hs.sorted _ hcmp
  rw [p2] at hsorted
  have hselmono : ∀ t ∈ sel.map (copyOf req view), t.started.mono.isSome = m := by
    intro t ht
    obtain ⟨c, hc, rfl⟩ := List.mem_map.mp ht
    exact hmono c (hselmem c hc)
  refine ⟨res, h2, sel.take (limitOf req).toNat, h6, ?_⟩
  intro c hcm hsat hnot
  obtain ⟨items, hi, hci⟩ := List.mem_flatten.mp hcm
  have hallow : c ∈ allowed compile req'.filter view items :=
    List.mem_filter.mpr ⟨hci, (selected_sat hf h5).mpr hsat⟩
  by_cases hsel : c ∈ sel
  · -- selected, but cut off
    have hlen : (limitOf req).toNat < sel.length := by
      apply Classical.byContradiction
      intro hn
      rw [List.take_of_length_le (by omega)] at hnot
      exact hnot hsel
    refine ⟨by rw [h6, List.length_map, List.length_take]; omega, .inl ?_⟩
    intro t ht
    rw [h6, List.map_take] at ht
    cases haf : (view c .copy).started.after t.started with
    | false => rfl
    | true =>
      exfalso
      have hdrop : c ∈ sel.drop (limitOf req).toNat := by
        have : c ∈ sel.take (limitOf req).toNat ++ sel.drop (limitOf req).toNat := by rw [List.take_append_drop]; exact hsel
        rcases List.mem_append.mp this with h | h
        · exact absurd h hnot
        · exact h
      have hsplit : (sel.map (copyOf req view)).take (limitOf req).toNat ++ (sel.map (copyOf req view)).drop (limitOf req).toNat =
          sel.map (copyOf req view) := List.take_append_drop _ _
      unfold NewestFirst at hsorted
      rw [← hsplit, List.pairwise_append] at hsorted
      have := hsorted.2.2 t ht (copyOf req view c) (by rw [← List.map_drop]; exact List.mem_map_of_mem hdrop)
      rw [less_of_after (by rw [copyOf_started]; exact haf)] at this
      cases this
  · -- not selected: the category had enough matches before it
    have hnotsel : c ∉ selected compile req' view items := by
      intro h
      exact hsel (p1.mem_iff.mpr (List.mem_flatMap.mpr ⟨items, hi, h⟩))
    unfold selected at hnotsel
    rw [hl] at hnotsel
    have hdrop : c ∈ (allowed compile req'.filter view items).drop (limitOf req).toNat := by
      have : c ∈ (allowed compile req'.filter view items).take (limitOf req).toNat ++ (allowed compile req'.filter view items).drop (limitOf req).toNat := by
        rw [List.take_append_drop]; exact hallow
      rcases List.mem_append.mp this with h | h
      · exact absurd h hnotsel
      · exact h
    have hlong : (limitOf req).toNat < (allowed compile req'.filter view items).length := by
      apply Classical.byContradiction
      intro hn
      rw [List.drop_of_length_le (by omega)] at hdrop
      cases hdrop
    have hfull : (limitOf req).toNat ≤ sel.length := by
      rw [p1.length_eq]
      have := (List.sublist_flatten_of_mem (List.mem_map_of_mem (f := selected compile req' view) hi)).length_le
      rw [← List.flatMap_def] at this
      refine Nat.le_trans ?_ this
      unfold selected
      rw [hl, List.length_take]
      omega
    refine ⟨by rw [h6, List.length_map, List.length_take]; omega, .inr ⟨items, hi, ?_⟩⟩
    obtain ⟨later, earlier, e, hcount⟩ := mem_drop_filter _ items _ hdrop
    refine ⟨later, earlier, (later.filter fun c => (req'.filter.allow compile (view c .filter)).1).take (limitOf req).toNat,
      e, (List.take_sublist _ _).trans List.filter_sublist, ?_, ?_⟩
    · rw [List.length_take, ← List.countP_eq_length_filter]
      have : (limitOf req).toNat ≤ later.countP fun c => (req'.filter.allow compile (view c .filter)).1 := hcount
      omega
    · intro d hd
      exact (selected_sat hf h5).mp (List.mem_filter.mp (List.mem_of_mem_take hd)).2

/-- C26, the true part.  If within each category traces were added in the order of their start
times, a matching retained trace that is not returned is no more recent than any returned trace,
and the response is full.
Missing: the assumption on the order; see `C26_most_recent_violated`. -/
theorem C26_most_recent_partial [Inhabited α] (compile : Compile) (srt : List Static → List Static) (hs : SortOK srt)
    (source : String) (req : SearchRequest) (hf : req.filter.Fresh compile) (view : α → Look → Static)
    (rings : List (Ring.RB α)) (contents : List (List α)) (hb : Buffers rings contents)
    (hc : Comparable (contents.flatten.map fun c => (view c .copy).started))
    (hord : ∀ items ∈ contents, items.Pairwise fun a b => (view b .copy).started.after (view a .copy).started = false) :
    ∃ res, search compile srt source req view rings = some res ∧
      ∃ cs : List α, res.traces = cs.map (copyOf req view) ∧
        ∀ c ∈ contents.flatten, req.filter.Sat compile (view c .filter) → c ∉ cs →
          (res.traces.length : Int) = limitOf req ∧
          ∀ t ∈ res.traces, (view c .copy).started.after t.started = false := by
  obtain ⟨req', problems, res, sel, h1, h2, hl, h3, h4, h5, p1, p2, h6, _⟩ :=
    search_chosen compile srt hs source req hf view rings contents hb
  have hsub := flatMap_selected_sublist compile req' view contents
  obtain ⟨m, hm⟩ := hc
  have hmono : ∀ c ∈ contents.flatten, (copyOf req view c).started.mono.isSome = m := by
    intro c hc; rw [copyOf_started]
    exact hm _ (List.mem_map_of_mem (f := fun c => (view c .copy).started) hc)
  have hselmem : ∀ c ∈ sel, c ∈ contents.flatten := fun c hc => hsub.subset (p1.mem_iff.mp hc)
  have hcmp : Comparable (((contents.flatMap (selected compile req' view)).map (copyOf req view)).map (·.started)) := by
    refine ⟨m, ?_⟩
    intro t ht
    simp only [List.map_map, List.mem_map, Function.comp] at ht
    obtain ⟨c, hc, rfl⟩ := ht
    exact hmono c (hsub.subset hc)
  have hsorted := hs.sorted _ hcmp
  rw [p2] at hsorted
  have hselmono : ∀ t ∈ sel.map (copyOf req view), t.started.mono.isSome = m := by
    intro t ht
    obtain ⟨c, hc, rfl⟩ := List.mem_map.mp ht
    exact hmono c (hselmem c hc)
  refine ⟨res, h2, sel.take (limitOf req).toNat, h6, ?_⟩
  intro c hcm hsat hnot
  obtain ⟨items, hi, hci⟩ := List.mem_flatten.mp hcm
  have hallow : c ∈ allowed compile req'.filter view items :=
    List.mem_filter.mpr ⟨hci, (selected_sat hf h5).mpr hsat⟩
  by_cases hsel : c ∈ sel
  · -- selected, but cut off
    have hlen : (limitOf req).toNat < sel.length := by
      apply Classical.byContradiction
      intro hn
      rw [List.take_of_length_le (by omega)] at hnot
      exact hnot hsel
    refine ⟨by rw [h6, List.length_map, List.length_take]; omega, ?_⟩
    intro t ht
    rw [h6, List.map_take] at ht
    cases haf : (view c .copy).started.after t.started with
    | false => rfl
    | true =>
      exfalso
      have hdrop : c ∈ sel.drop (limitOf req).toNat := by
        have : c ∈ sel.take (limitOf req).toNat ++ sel.drop (limitOf req).toNat := by rw [List.take_append_drop]; exact hsel
        rcases List.mem_append.mp this with h | h
        · exact absurd h hnot
        · exact h
      have hsplit : (sel.map (copyOf req view)).take (limitOf req).toNat ++ (sel.map (copyOf req view)).drop (limitOf req).toNat =
          sel.map (copyOf req view) := List.take_append_drop _ _
      unfold NewestFirst at hsorted
      rw [← hsplit, List.pairwise_append] at hsorted
      have := hsorted.2.2 t ht (copyOf req view c) (by rw [← List.map_drop]; exact List.mem_map_of_mem hdrop)
      rw [less_of_after (by rw [copyOf_started]; exact haf)] at this
      cases this
  · -- not selected: the category had enough matches before it
    have hnotsel : c ∉ selected compile req' view items := by
      intro h
      exact hsel (p1.mem_iff.mpr (List.mem_flatMap.mpr ⟨items, hi, h⟩))
    unfold selected at hnotsel
    rw [hl] at hnotsel
    have hdrop : c ∈ (allowed compile req'.filter view items).drop (limitOf req).toNat := by
      have : c ∈ (allowed compile req'.filter view items).take (limitOf req).toNat ++ (allowed compile req'.filter view items).drop (limitOf req).toNat := by
        rw [List.take_append_drop]; exact hallow
      rcases List.mem_append.mp this with h | h
      · exact absurd h hnotsel
      · exact h
    have hlong : (limitOf req).toNat < (allowed compile req'.filter view items).length := by
      apply Classical.byContradiction
      intro hn
      rw [List.drop_eq_nil_of_le (by omega)] at hdrop
      cases hdrop
    have hfirst : ∀ x ∈ selected compile req' view items, (view c .copy).started.after (view x .copy).started = false := by
      intro x hx
      unfold selected at hx
      rw [hl] at hx
      have hpw : (allowed compile req'.filter view items).Pairwise fun a b => (view b .copy).started.after (view a .copy).started = false :=
        (hord items hi).sublist List.filter_sublist
      rw [← List.take_append_drop (limitOf req).toNat (allowed compile req'.filter view items), List.pairwise_append] at hpw
      exact hpw.2.2 x hx c hdrop
    have hsellen : (selected compile req' view items).length = (limitOf req).toNat := by
      unfold selected; rw [hl, List.length_take]; omega
    have hsublen : (selected compile req' view items).Sublist (contents.flatMap (selected compile req' view)) := by
      obtain ⟨s, t, rfl⟩ := List.append_of_mem hi
      simp only [List.flatMap_append, List.flatMap_cons]
      exact (List.sublist_append_left _ _).trans (List.sublist_append_right _ _)
    refine ⟨?_, ?_⟩
    · rw [h6, List.length_map, List.length_take]
      have := hsublen.length_le
      have := p1.length_eq
      omega
    · intro t ht
      rw [h6, List.map_take] at ht
      cases haf : (view c .copy).started.after t.started with
      | false => rfl
      | true =>
        exfalso
        have hcount := countP_newer hsorted hselmono _ ht
        have htm : t.started.mono.isSome = m := hselmono t ((List.take_sublist _ _).subset ht)
        have hcm' : (view c .copy).started.mono.isSome = m := by
          have := hmono c hcm; rw [copyOf_started] at this; exact this
        have hall : (selected compile req' view items).countP (fun x => (copyOf req view x).less t) = (selected compile req' view items).length := by
          rw [List.countP_eq_length]
          intro x hx
          apply less_of_after
          have hxm : (view x .copy).started.mono.isSome = m := by
            have := hmono x (hsub.subset (hsublen.subset hx)); rw [copyOf_started] at this; exact this
          have h1 := hfirst x hx
          rw [copyOf_started, after_iff hxm htm]
          rw [after_iff hcm' htm] at haf
          rw [← Bool.not_eq_true, after_iff hcm' hxm] at h1
          omega
        have h7 : (selected compile req' view items).countP (fun x => (copyOf req view x).less t) ≤
            (contents.flatMap (selected compile req' view)).countP (fun x => (copyOf req view x).less t) := hsublen.countP_le
        have h8 := p1.countP_eq (fun x => (copyOf req view x).less t)
        rw [List.countP_map] at hcount
        have h9 : sel.countP ((fun x => x.less t) ∘ copyOf req view) = sel.countP (fun x => (copyOf req view x).less t) := rfl
        omega

/-- C26, exactly: for traces with distinct IDs, all searches have the property just if, in each category, traces were
added in the order of their start times. -/
theorem C26_most_recent_exact [Inhabited α] (compile : Compile) (srt : List Static → List Static) (hs : SortOK srt)
    (source : String) (view : α → Look → Static) (rings : List (Ring.RB α)) (contents : List (List α)) (hb : Buffers rings contents)
    (hc : Comparable (contents.flatten.map fun c => (view c .copy).started))
    (hid : ∀ c look, (view c look).id = (view c .copy).id) (hnd : (contents.flatten.map fun c => (view c .copy).id).Nodup) :
    (∀ req : SearchRequest, req.filter.Fresh compile →
      ∃ res, search compile srt source req view rings = some res ∧
        ∃ cs : List α, res.traces = cs.map (copyOf req view) ∧
          ∀ c ∈ contents.flatten, req.filter.Sat compile (view c .filter) → c ∉ cs →
            (res.traces.length : Int) = limitOf req ∧
            ∀ t ∈ res.traces, (view c .copy).started.after t.started = false) ↔
    ∀ items ∈ contents, items.Pairwise fun a b => (view b .copy).started.after (view a .copy).started = false := by
  constructor
  · intro hall items hi
    rw [List.pairwise_iff_forall_sublist]
    intro a b hab
    cases haf : (view b .copy).started.after (view a .copy).started with
    | false => rfl
    | true =>
      exfalso
      have hsub : items.Sublist contents.flatten := List.sublist_flatten_of_mem hi
      have ham : a ∈ contents.flatten := hsub.subset (hab.subset (by simp))
      have hbm : b ∈ contents.flatten := hsub.subset (hab.subset (by simp))
      have hne : (view a .copy).id ≠ (view b .copy).id := by
        have := hnd.sublist ((hab.trans hsub).map fun c => (view c .copy).id)
        simpa using this
      let req : SearchRequest := { limit := 1, filter := { ids := [(view a .copy).id, (view b .copy).id] } }
      have hfr : req.filter.Fresh compile := by intro re h; cases h
      have hsat : ∀ c, req.filter.Sat compile (view c .filter) ↔ (view c .copy).id = (view a .copy).id ∨ (view c .copy).id = (view b .copy).id := by
        intro c
        unfold Filter.Sat Filter.Basic
        simp [req, hid c .filter]
      obtain ⟨req', problems, res, sel, h1, h2, hl, h3, h4, h5, p1, p2, h6, _⟩ :=
        search_chosen compile srt hs source req hfr view rings contents hb
      have hlim : limitOf req = 1 := rfl
      -- nothing but the older of the two is selected
      have hinj : ∀ c ∈ contents.flatten, ∀ d ∈ contents.flatten, (view c .copy).id = (view d .copy).id → c = d :=
        fun c hc d hd e => List.inj_on_of_nodup_map hnd hc hd e
      have hsel : ∀ c ∈ contents.flatMap (selected compile req' view), c = a ∨ c = b := by
        intro c hcs
        obtain ⟨items', hi', hm⟩ := List.mem_flatMap.mp hcs
        have := List.mem_filter.mp ((List.take_sublist _ _).subset hm)
        have hcm : c ∈ contents.flatten := List.mem_flatten.mpr ⟨items', hi', this.1⟩
        rcases (hsat c).mp ((selected_sat hfr h5).mp this.2) with h | h
        · exact .inl (hinj c hcm a ham h)
        · exact .inr (hinj c hcm b hbm h)
      have hnodup : contents.flatten.Nodup := List.Nodup.of_map _ hnd
      have hal : (allowed compile req'.filter view items) = [a, b] := by
        have e1 : [a, b].Sublist (allowed compile req'.filter view items) := by
          have := hab.filter fun c => (req'.filter.allow compile (view c .filter)).1
          rw [List.filter_eq_self.mpr] at this
          · exact this
          · intro c hcab
            refine (selected_sat hfr h5).mpr ((hsat c).mpr ?_)
            simp only [List.mem_cons, List.not_mem_nil, or_false] at hcab
            rcases hcab with rfl | rfl <;> simp
        refine (e1.eq_of_length_le ?_).symm
        have hn2 : (allowed compile req'.filter view items).Nodup := (hnodup.sublist hsub).sublist List.filter_sublist
        have hss : (allowed compile req'.filter view items) ⊆ [a, b] := by
          intro c hcs
          have := List.mem_filter.mp hcs
          rcases (hsat c).mp ((selected_sat hfr h5).mp this.2) with h | h
          · simp [hinj c (hsub.subset this.1) a ham h]
          · simp [hinj c (hsub.subset this.1) b hbm h]
        exact (List.subperm_of_subset hn2 hss).length_le
      have hselitems : selected compile req' view items = [a] := by
        unfold selected
        rw [hl, hlim, hal]; rfl
      have hnb : b ∉ contents.flatMap (selected compile req' view) := by
        intro hbs
        obtain ⟨items', hi', hm⟩ := List.mem_flatMap.mp hbs
        obtain ⟨l₁, l₂, e⟩ := List.append_of_mem hi
        have hbi : b ∈ items := hab.subset (by simp)
        have hb' : b ∈ items' := (selected_sublist compile req' view items').subset hm
        rw [e] at hi' hnodup
        simp only [List.flatten_append, List.flatten_cons] at hnodup
        rw [List.nodup_append] at hnodup
        obtain ⟨_, n2, n3⟩ := hnodup
        rw [List.nodup_append] at n2
        rcases List.mem_append.mp hi' with h | h
        · exact n3 b (List.mem_flatten.mpr ⟨items', h, hb'⟩) b (by simp [hbi]) rfl
        · rcases List.mem_cons.mp h with rfl | h
          · rw [hselitems] at hm
            exact hne (by rw [List.mem_singleton.mp hm])
          · exact n2.2.2 b hbi b (List.mem_flatten.mpr ⟨items', h, hb'⟩) rfl
      have hres : ∀ t ∈ res.traces, t = copyOf req view a := by
        intro t ht
        rw [h6] at ht
        obtain ⟨c, hcs, rfl⟩ := List.mem_map.mp ht
        have hcs' := p1.mem_iff.mp ((List.take_sublist _ _).subset hcs)
        rcases hsel c hcs' with rfl | rfl
        · rfl
        · exact absurd hcs' hnb
      have hina : copyOf req view a ∈ res.traces := by
        have ha : a ∈ sel := p1.mem_iff.mpr (List.mem_flatMap.mpr ⟨items, hi, by rw [hselitems]; simp⟩)
        cases sel with
        | nil => cases ha
        | cons x sel =>
          have hx : copyOf req view x ∈ res.traces := by rw [h6, hlim]; simp
          rw [← hres _ hx]; exact hx
      obtain ⟨res', h7, cs, h8, h9⟩ := hall req hfr
      rw [h2] at h7
      cases h7
      have hbcs : b ∉ cs := by
        intro h
        have := hres (copyOf req view b) (by rw [h8]; exact List.mem_map_of_mem h)
        have := congrArg Static.id this
        rw [copyOf_trim, copyOf_trim] at this
        rw [trimStacks_id, trimStacks_id] at this
        exact hne this.symm
      have := (h9 b hbm ((hsat b).mpr (.inr rfl)) hbcs).2 _ hina
      rw [copyOf_started, haf] at this
      cases this
  · intro hord req hf
    exact C26_most_recent_partial compile srt hs source req hf view rings contents hb hc hord

/-! ## A sort -/

/-- Insertion sort, newest first. -/
def insertNewest (t : Static) : List Static → List Static
  | [] => [t]
  | x :: l => if x.less t then x :: insertNewest t l else t :: x :: l

def sortNewest (l : List Static) : List Static := l.foldr insertNewest []

theorem insertNewest_perm (t : Static) (l : List Static) : (insertNewest t l).Perm (t :: l) := by
  induction l with
  | nil => exact List.Perm.refl _
  | cons x l ih =>
    unfold insertNewest
    split
    · exact (ih.cons x).trans (List.Perm.swap ..)
    · exact List.Perm.refl _

theorem sortNewest_perm (l : List Static) : (sortNewest l).Perm l := by
  induction l with
  | nil => exact List.Perm.refl _
  | cons x l ih => exact (insertNewest_perm x _).trans (ih.cons x)

theorem insertNewest_sorted {m : Bool} (t : Static) (l : List Static) (ht : t.started.mono.isSome = m)
    (hm : ∀ x ∈ l, x.started.mono.isSome = m) (h : NewestFirst l) : NewestFirst (insertNewest t l) := by
  induction l with
  | nil => simp [insertNewest, NewestFirst]
  | cons x l ih =>
    unfold NewestFirst at h
    rw [List.pairwise_cons] at h
    have hx := hm x (by simp)
    unfold insertNewest
    split
    · rename_i hlt
      unfold NewestFirst
      rw [List.pairwise_cons]
      refine ⟨?_, ih (fun y hy => hm y (by simp [hy])) h.2⟩
      intro y hy
      rcases List.mem_cons.mp ((insertNewest_perm t l).mem_iff.mp hy) with rfl | hy
      · exact less_asymm hx ht hlt
      · exact h.1 y hy
    · rename_i hlt
      have hlt : x.less t = false := by simpa using hlt
      unfold NewestFirst
      rw [List.pairwise_cons]
      refine ⟨?_, List.pairwise_cons.mpr h⟩
      intro y hy
      rcases List.mem_cons.mp hy with rfl | hy
      · exact hlt
      · exact less_neg_trans (hm y (by simp [hy])) hx ht (h.1 y hy) hlt

/-- There is a sort as required of `sort.Sort`. -/
theorem sortNewest_ok : SortOK sortNewest := by
  refine ⟨sortNewest_perm, ?_⟩
  rintro l ⟨m, hm⟩
  induction l with
  | nil => simp [sortNewest, NewestFirst]
  | cons x l ih =>
    have h1 : ∀ t ∈ l, t.started.mono.isSome = m := fun t ht => hm _ (by simp only [List.map_cons, List.mem_cons]; exact Or.inr (List.mem_map_of_mem ht))
    refine insertNewest_sorted (m := m) x _ (hm _ (by simp)) ?_ (ih ?_)
    · intro y hy; exact h1 y ((sortNewest_perm l).mem_iff.mp hy)
    · intro t ht
      obtain ⟨y, hy, rfl⟩ := List.mem_map.mp ht
      exact h1 y hy

/-- A trace that does not change while it is searched. -/
def still : Static → Look → Static := fun t _ => t

/-- C26 is false when traces are created concurrently: the trace "b" starts after "a" but is added
to the collector first.  With a limit of 1, the older "a" is returned and not "b". -/
theorem C26_most_recent_violated :
    ∃ (rb : Ring.RB Static) (outs : List (List Static)) (res : SearchResponse),
      Ring.exec 10 [.add (sampleTrace "b" 2 false false 0), .add (sampleTrace "a" 1 false false 0)] = some (rb, outs) ∧
      search (fun _ => .error "") sortNewest "s" { limit := 1 } still [rb] = some res ∧
      res.traces = [sampleTrace "a" 1 false false 0] := by
  refine ⟨_, _, _, rfl, rfl, ?_⟩
  rfl

/-- Such contents: comparable start times, distinct IDs, and in the first category out of order. -/
example :
    let contents := [[sampleTrace "a" 1 false false 0, sampleTrace "b" 2 false false 0], [{ sampleTrace "d" 5 false false 0 with category := "e" }]]
    Comparable (contents.flatten.map fun c => (still c .copy).started) ∧ (contents.flatten.map fun c => (still c .copy).id).Nodup ∧
    ¬ ∀ items ∈ contents, items.Pairwise fun a b => (still b .copy).started.after (still a .copy).started = false := by
  refine ⟨⟨false, by decide⟩, by decide, ?_⟩
  intro h
  have := h _ List.mem_cons_self
  simp only [List.pairwise_cons] at this
  exact absurd (this.1 _ List.mem_cons_self) (by decide)

/-! ## C27, C28: counts -/

/-- C27.  The total is the number of traces in all buffers. -/
theorem C27_totalCount [Inhabited α] (compile : Compile) (srt : List Static → List Static)
    (source : String) (req : SearchRequest) (hf : req.filter.Fresh compile) (view : α → Look → Static)
    (rings : List (Ring.RB α)) (contents : List (List α)) (hb : Buffers rings contents) :
    ∃ res, search compile srt source req view rings = some res ∧ res.totalCount = (contents.map List.length).sum := by
  obtain ⟨req', problems, res, h1, h2, _, _, _, _, _, _, h9, _⟩ :=
    search_spec compile srt source req hf view rings contents hb.walk hb.rep
  exact ⟨res, h2, by rw [h9, List.length_flatten]⟩

/-- The retained traces that satisfy the filter, per category. -/
noncomputable def matchesOf (compile : Compile) (f : Filter) (view : α → Look → Static) (items : List α) : List α :=
  open Classical in items.filter fun c => f.Sat compile (view c .filter)

/-- C28, the true part.  `MatchCount` is the number of matches, counting at most the limit per
category; it lies between the number of returned traces and the total, and it is the number of
matches if no category has more matches than the limit.
Missing: categories with more; see `C28_matchCount_violated`. -/
theorem C28_matchCount_partial [Inhabited α] (compile : Compile) (srt : List Static → List Static) (hs : SortOK srt)
    (source : String) (req : SearchRequest) (hf : req.filter.Fresh compile) (view : α → Look → Static)
    (rings : List (Ring.RB α)) (contents : List (List α)) (hb : Buffers rings contents) :
    ∃ res, search compile srt source req view rings = some res ∧
      res.matchCount = (contents.map fun items => min (limitOf req).toNat (matchesOf compile req.filter view items).length).sum ∧
      (res.traces.length : Int) ≤ res.matchCount ∧ res.matchCount ≤ res.totalCount ∧
      ((∀ items ∈ contents, ((matchesOf compile req.filter view items).length : Int) ≤ limitOf req) →
        res.matchCount = (matchesOf compile req.filter view contents.flatten).length) := by
  obtain ⟨req', problems, res, sel, h1, h2, hl, h3, h4, h5, p1, p2, h6, h7, h8, _⟩ :=
    search_chosen compile srt hs source req hf view rings contents hb
  have hal : ∀ items, allowed compile req'.filter view items = matchesOf compile req.filter view items := by
    intro items
    unfold allowed matchesOf
    apply List.filter_congr
    intro c _
    rw [Bool.eq_iff_iff, selected_sat hf h5]
    simp
  have hcount : (contents.flatMap (selected compile req' view)).length =
      (contents.map fun items => min (limitOf req).toNat (matchesOf compile req.filter view items).length).sum := by
    rw [List.length_flatMap]
    congr 1
    apply List.map_congr_left
    intro items _
    unfold selected
    rw [List.length_take, hl, hal]
  refine ⟨res, h2, by rw [h8, hcount], ?_, ?_, ?_⟩
  · rw [h6, h8, List.length_map, List.length_take]
    have := p1.length_eq
    omega
  · rw [h7, h8]
    have := (flatMap_selected_sublist compile req' view contents).length_le
    omega
  · intro hle
    rw [h8, hcount]
    congr 1
    have e : matchesOf compile req.filter view contents.flatten = contents.flatMap (matchesOf compile req.filter view) := by
      unfold matchesOf
      rw [List.filter_flatten, List.flatMap_def]
    rw [e, List.length_flatMap]
    congr 1
    apply List.map_congr_left
    intro items hi
    have := hle items hi
    omega

theorem sum_min_eq (n : Nat) (l : List Nat) : (l.map fun k => min n k).sum ≤ l.sum ∧
    ((l.map fun k => min n k).sum = l.sum ↔ ∀ k ∈ l, k ≤ n) := by
  induction l with
  | nil => simp
  | cons k l ih =>
    obtain ⟨h1, h2⟩ := ih
    simp only [List.map_cons, List.sum_cons, List.forall_mem_cons, ← h2]
    omega

/-- C28, where the boundary is: `MatchCount` is the number of matches exactly if no category has more of them than the limit;
otherwise it is less. -/
theorem C28_matchCount_exact [Inhabited α] (compile : Compile) (srt : List Static → List Static) (hs : SortOK srt)
    (source : String) (req : SearchRequest) (hf : req.filter.Fresh compile) (view : α → Look → Static)
    (rings : List (Ring.RB α)) (contents : List (List α)) (hb : Buffers rings contents) :
    ∃ res, search compile srt source req view rings = some res ∧
      res.matchCount ≤ (matchesOf compile req.filter view contents.flatten).length ∧
      (res.matchCount = (matchesOf compile req.filter view contents.flatten).length ↔
        ∀ items ∈ contents, ((matchesOf compile req.filter view items).length : Int) ≤ limitOf req) := by
  obtain ⟨res, h1, h2, -, -, -⟩ := C28_matchCount_partial compile srt hs source req hf view rings contents hb
  refine ⟨res, h1, ?_⟩
  have e : matchesOf compile req.filter view contents.flatten = contents.flatMap (matchesOf compile req.filter view) := by
    unfold matchesOf
    rw [List.filter_flatten, List.flatMap_def]
  have hl : (contents.map fun items => min (limitOf req).toNat (matchesOf compile req.filter view items).length) =
      (contents.map fun items => (matchesOf compile req.filter view items).length).map fun k => min (limitOf req).toNat k := by
    rw [List.map_map]; rfl
  have key := sum_min_eq (limitOf req).toNat (contents.map fun items => (matchesOf compile req.filter view items).length)
  rw [← hl] at key
  rw [h2, e, List.length_flatMap]
  have hpos : 0 < limitOf req := by
    simp only [limitOf]
    (repeat' split) <;> omega
  refine ⟨by exact_mod_cast key.1, ?_⟩
  rw [Int.ofNat_inj, key.2]
  simp only [List.forall_mem_map]
  constructor
  · intro h items hi
    have := h items hi
    omega
  · intro h items hi
    have := h items hi
    omega

/-- C28 is false: two traces match, but with a limit of 1 the `MatchCount` is 1. -/
theorem C28_matchCount_violated :
    ∃ (rb : Ring.RB Static) (outs : List (List Static)) (res : SearchResponse),
      Ring.exec 10 [.add (sampleTrace "a" 1 false false 0), .add (sampleTrace "b" 2 false false 0)] = some (rb, outs) ∧
      search (fun _ => .error "") sortNewest "s" { limit := 1 } still [rb] = some res ∧
      res.matchCount = 1 ∧
      (∀ t ∈ [sampleTrace "a" 1 false false 0, sampleTrace "b" 2 false false 0],
        ({} : Filter).Sat (fun _ => .error "") t) := by
  refine ⟨_, _, _, rfl, rfl, rfl, ?_⟩
  intro t _
  exact ⟨⟨Or.inl rfl, Or.inl rfl, Or.inl rfl, by simp, by simp, by simp, by simp, by simp⟩, Or.inl rfl⟩

/-! ## C29: statistics -/

/-- C29.  The statistics are those of all retained traces, whatever the filter and the limit: of
each category exactly the counts of C37, the buckets of C38 and the extremes of C39. -/
theorem C29_stats [Inhabited α] (compile : Compile) (srt : List Static → List Static)
    (source : String) (req : SearchRequest) (hf : req.filter.Fresh compile) (hneg : ∀ d ∈ req.bucketing, 0 ≤ d)
    (view : α → Look → Static) (rings : List (Ring.RB α)) (contents : List (List α)) (hb : Buffers rings contents) :
    ∃ res, search compile srt source req view rings = some res ∧
      (∀ d, d ∈ res.stats.bucketing ↔ d = 0 ∨ d ∈ requested req.bucketing) ∧
      ∀ all, all = contents.flatten.map (view · .observe) →
        (∀ k, (∀ t ∈ all, t.category ≠ k) → res.stats.categories.find k = none) ∧
        ∀ k, (∃ t ∈ all, t.category = k) → ∃ cs, res.stats.categories.find k = some cs ∧ cs.category = k ∧
          cs.activeCount = actives (ofCat k all) ∧ cs.erroredCount = failed (ofCat k all) ∧
          cs.eventCount = events (ofCat k all) ∧
          cs.bucketCounts = res.stats.bucketing.map (fun d => tookAtLeast d (ofCat k all)) ∧
          (Clocks (all.map (·.started)) →
            IsOldest cs.oldest ((ofCat k all).map (·.started)) ∧ IsNewest cs.newest ((ofCat k all).map (·.started))) := by
  obtain ⟨req', problems, res, h1, h2, _, _, _, _, _, _, _, _, h11, _⟩ :=
    search_spec compile srt source req hf view rings contents hb.walk hb.rep
  obtain ⟨r, p, c1, c2, c3, c4, _⟩ := C35_buckets compile req hneg
  rw [h1] at c1
  obtain ⟨rfl, _⟩ := Prod.mk.inj (Option.some.inj c1)
  obtain ⟨ss, o1, o2⟩ := observeAll_spec c2 (contents.flatten.map (view · .observe)) (statsOf_new _)
  rw [h11] at o1
  obtain rfl := Option.some.inj o1
  rw [List.nil_append] at o2
  refine ⟨res, h2, by rw [o2.bucketing]; exact c4, ?_⟩
  rintro all rfl
  refine ⟨?_, ?_⟩
  · intro k hk
    cases hfk : res.stats.categories.find k with
    | none => rfl
    | some cs =>
      refine absurd ?_ (o2.present k cs hfk).1
      unfold ofCat
      rw [List.filter_eq_nil_iff]
      intro t ht
      simpa using hk t ht
  · rintro k ⟨t, ht, rfl⟩
    cases hfk : res.stats.categories.find t.category with
    | none =>
      have := o2.absent _ hfk
      have hm : t ∈ ofCat t.category (contents.flatten.map (view · .observe)) := by
        unfold ofCat; exact List.mem_filter.mpr ⟨ht, by simp⟩
      rw [this] at hm; cases hm
    | some cs =>
      obtain ⟨_, hcs⟩ := o2.present _ cs hfk
      refine ⟨cs, rfl, hcs.category, hcs.active, hcs.errored, hcs.event, by rw [o2.bucketing]; exact hcs.bucket, ?_⟩
      intro hc
      have hck : Clocks ((ofCat t.category (contents.flatten.map (view · .observe))).map (·.started)) := by
        apply hc.sub
        intro u hu
        obtain ⟨x, hx, rfl⟩ := List.mem_map.mp hu
        exact List.mem_map_of_mem (List.mem_filter.mp hx).1
      exact ⟨by rw [hcs.oldest]; exact foldl_oldest _ hck, by rw [hcs.newest]; exact foldl_newest _ hck⟩

/-! ## C30: the order of the categories -/

/-- C30.  Searching the buffers in another order: the counts are the same, the statistics are the
same (times as instants), and the returned traces are the same if no two matching traces have the
same start time and ID. -/
theorem C30_order [Inhabited α] (compile : Compile) (srt : List Static → List Static) (hs : SortOK srt)
    (source : String) (req : SearchRequest) (hf : req.filter.Fresh compile) (hneg : ∀ d ∈ req.bucketing, 0 ≤ d)
    (view : α → Look → Static)
    (rings rings' : List (Ring.RB α)) (contents contents' : List (List α)) (hb : Buffers rings contents)
    (hb' : Buffers rings' contents') (hperm : contents.Perm contents')
    (hclk : Clocks (contents.flatten.map fun c => (view c .observe).started)) :
    ∃ res res', search compile srt source req view rings = some res ∧
      search compile srt source req view rings' = some res' ∧
      res.totalCount = res'.totalCount ∧ res.matchCount = res'.matchCount ∧
      SameButEvents res.stats res'.stats ∧
      (∀ k cs cs', res.stats.categories.find k = some cs → res'.stats.categories.find k = some cs' →
        cs.eventCount = cs'.eventCount) ∧
      (Comparable (contents.flatten.map fun c => (view c .copy).started) →
        (∀ a ∈ contents.flatten, ∀ b ∈ contents.flatten, (view a .copy).started.equal (view b .copy).started = true →
          (view a .copy).id = (view b .copy).id → a = b) →
        res.traces = res'.traces) := by
  obtain ⟨req', problems, res, sel, h1, h2, hl, h3, h4, h5, p1, p2, h6, h7, h8, h9⟩ :=
    search_chosen compile srt hs source req hf view rings contents hb
  obtain ⟨req'', problems', res', sel', h1', h2', hl', h3', h4', h5', p1', p2', h6', h7', h8', h9'⟩ :=
    search_chosen compile srt hs source req hf view rings' contents' hb'
  rw [h1] at h1'
  obtain ⟨rfl, _⟩ := Prod.mk.inj (Option.some.inj h1')
  have hflat : contents.flatten.Perm contents'.flatten := hperm.flatten
  have hfm : (contents.flatMap (selected compile req' view)).Perm (contents'.flatMap (selected compile req' view)) :=
    hperm.flatMap_right _
  obtain ⟨r, p, c1, c2, c3, c4, _⟩ := C35_buckets compile req hneg
  rw [h1] at c1
  obtain ⟨rfl, _⟩ := Prod.mk.inj (Option.some.inj c1)
  obtain ⟨ss, o1, o2⟩ := observeAll_spec c2 (contents.flatten.map (view · .observe)) (statsOf_new _)
  rw [h9] at o1
  obtain rfl := Option.some.inj o1
  obtain ⟨ss', o1', o2'⟩ := observeAll_spec c2 (contents'.flatten.map (view · .observe)) (statsOf_new _)
  rw [h9'] at o1'
  obtain rfl := Option.some.inj o1'
  rw [List.nil_append] at o2 o2'
  have hobs : (contents.flatten.map (view · .observe)).Perm (contents'.flatten.map (view · .observe)) := hflat.map _
  have hcat : ∀ k, (ofCat k (contents.flatten.map (view · .observe))).Perm (ofCat k (contents'.flatten.map (view · .observe))) :=
    fun k => hobs.filter _
  have hev : ∀ {l l' : List Static}, l.Perm l' → events l = events l' := by
    intro l l' h
    induction h with
    | nil => rfl
    | cons x _ ih => simp [events, ih]
    | swap x y l => simp only [events]; omega
    | trans _ _ i1 i2 => exact i1.trans i2
  refine ⟨res, res', h2, h2', by rw [h7, h7', hflat.length_eq], by rw [h8, h8', hfm.length_eq], ⟨?_, ?_, ?_⟩, ?_, ?_⟩
  · rw [o2.bucketing, o2'.bucketing]
  · intro k
    show res.stats.has k = res'.stats.has k
    rw [Bool.eq_iff_iff, o2.has_iff, o2'.has_iff]
    constructor
    · intro h e
      have h1 := hcat k
      rw [e] at h1
      exact h h1.eq_nil
    · intro h e
      have h1 := (hcat k).symm
      rw [e] at h1
      exact h h1.eq_nil
  · intro k cs cs' hk hk'
    obtain ⟨_, hcs⟩ := o2.present k cs hk
    obtain ⟨_, hcs'⟩ := o2'.present k cs' hk'
    have a1 : cs.activeCount = cs'.activeCount := by
      rw [hcs.active, hcs'.active]; unfold actives; rw [((hcat k).filter _).length_eq]
    have a2 : cs.erroredCount = cs'.erroredCount := by
      rw [hcs.errored, hcs'.errored]; unfold failed; rw [((hcat k).filter _).length_eq]
    have a3 : cs.bucketCounts = cs'.bucketCounts := by
      rw [hcs.bucket, hcs'.bucket]
      apply List.map_congr_left
      intro d _; unfold tookAtLeast; rw [((hcat k).filter _).length_eq]
    have hclk1 : Clocks ((ofCat k (contents.flatten.map (view · .observe))).map (·.started)) := by
      apply hclk.sub
      intro u hu
      obtain ⟨x, hx, rfl⟩ := List.mem_map.mp hu
      obtain ⟨c, hc, rfl⟩ := List.mem_map.mp (List.mem_filter.mp hx).1
      exact List.mem_map_of_mem (f := fun c => (view c .observe).started) hc
    have hmem : ∀ t, t ∈ (ofCat k (contents'.flatten.map (view · .observe))).map (·.started) ↔
        t ∈ (ofCat k (contents.flatten.map (view · .observe))).map (·.started) := fun t => (((hcat k).map _).mem_iff).symm
    have hclk2 := hclk1.sub (fun u hu => (hmem u).mp hu)
    have io := foldl_oldest _ hclk1
    have io' := (foldl_oldest _ hclk2).congr hmem
    have inn := foldl_newest _ hclk1
    have in' := (foldl_newest _ hclk2).congr hmem
    rw [← hcs.oldest] at io
    rw [← hcs'.oldest] at io'
    rw [← hcs.newest] at inn
    rw [← hcs'.newest] at in'
    obtain ⟨u1, u2⟩ := io.unique hclk1 io'
    obtain ⟨u3, u4⟩ := inn.unique hclk1 in'
    exact ⟨by rw [hcs.category, hcs'.category], a1, a2, a3, totalCount_congr a1 a2 a3, u1, u2, u3, u4⟩
  · intro k cs cs' hk hk'
    obtain ⟨_, hcs⟩ := o2.present k cs hk
    obtain ⟨_, hcs'⟩ := o2'.present k cs' hk'
    rw [hcs.event, hcs'.event]
    exact hev (hcat k)
  · rintro ⟨m, hm⟩ huniq
    have hsub := flatMap_selected_sublist compile req' view contents
    have hmono : ∀ c ∈ contents.flatten, (copyOf req view c).started.mono.isSome = m := by
      intro c hc; rw [copyOf_started]
      exact hm _ (List.mem_map_of_mem (f := fun c => (view c .copy).started) hc)
    have hmemsel : ∀ c ∈ sel, c ∈ contents.flatten := fun c hc => hsub.subset (p1.mem_iff.mp hc)
    have hmemsel' : ∀ c ∈ sel', c ∈ contents.flatten := fun c hc => hsub.subset (hfm.mem_iff.mpr (p1'.mem_iff.mp hc))
    have hcmp : ∀ l : List α, (∀ c ∈ l, c ∈ contents.flatten) → Comparable ((l.map (copyOf req view)).map (·.started)) := by
      intro l hl'
      refine ⟨m, ?_⟩
      intro t ht
      simp only [List.map_map, List.mem_map, Function.comp] at ht
      obtain ⟨c, hc, rfl⟩ := ht
      exact hmono c (hl' c hc)
    have s1 := hs.sorted _ (hcmp (contents.flatMap (selected compile req' view)) (fun c hc => hsub.subset hc))
    have s2 := hs.sorted _ (hcmp (contents'.flatMap (selected compile req' view)) (fun c hc => hsub.subset (hfm.mem_iff.mpr hc)))
    rw [p2] at s1
    rw [p2'] at s2
    have hpp : (sel.map (copyOf req view)).Perm (sel'.map (copyOf req view)) := ((p1.trans hfm).trans p1'.symm).map _
    have heq : sel.map (copyOf req view) = sel'.map (copyOf req view) := by
      refine List.Perm.eq_of_pairwise (le := fun (a b : Static) => b.less a = false) ?_ s1 s2 hpp
      intro a b ha hb hab hba
      obtain ⟨ca, hca, rfl⟩ := List.mem_map.mp ha
      obtain ⟨cb, hcb, rfl⟩ := List.mem_map.mp hb
      have ma := hmono ca (hmemsel ca hca)
      have mb := hmono cb (hmemsel' cb hcb)
      obtain ⟨e1, e2⟩ := less_eq_of_neither ma mb hba hab
      have : ca = cb := by
        apply huniq ca (hmemsel ca hca) cb (hmemsel' cb hcb)
        · rw [copyOf_started, copyOf_started] at e1; exact e1
        · rw [copyOf_trim, copyOf_trim] at e2; rw [trimStacks_id, trimStacks_id] at e2; exact e2
      rw [this]
    rw [h6, h6', List.map_take, List.map_take, heq]

/-! ## Examples -/

/-- Buffers meeting the premises: two categories, three traces. -/
example : ∃ rings : List (Ring.RB Static), Buffers rings
    [[sampleTrace "b" 2 true false 3, sampleTrace "a" 1 false false 0], [{ sampleTrace "d" 5 false false 0 with category := "e" }]] := by
  obtain ⟨rb, h1, h2⟩ := Ring.rep_exec (α := Static) 1000 [.add (sampleTrace "a" 1 false false 0), .add (sampleTrace "b" 2 true false 3)]
  obtain ⟨rb', h1', h2'⟩ := Ring.rep_exec (α := Static) 1000 [.add { sampleTrace "d" 5 false false 0 with category := "e" }]
  refine ⟨[rb, rb'], ?_, ?_⟩
  · simp only [List.map_cons, List.map_nil, Ring.walkAll_spec h2, Ring.walkAll_spec h2']
    rfl
  · intro r hr
    simp only [List.mem_cons, List.not_mem_nil, or_false] at hr
    rcases hr with rfl | rfl
    · exact ⟨1000, _, _, h1⟩
    · exact ⟨1000, _, _, h1'⟩

/-- A search that finds one of them. -/
example : ∃ (rb : Ring.RB Static) (outs : List (List Static)) (res : SearchResponse),
    Ring.exec 10 [.add (sampleTrace "a" 1 false false 0), .add (sampleTrace "b" 2 true false 3)] = some (rb, outs) ∧
    search (fun _ => .error "") sortNewest "s" { filter := { isFinished := true } } still [rb] = some res ∧
    res.traces = [sampleTrace "b" 2 true false 3] ∧ res.totalCount = 2 ∧ res.matchCount = 1 := by
  refine ⟨_, _, _, rfl, rfl, ?_, rfl, rfl⟩
  rfl

end Trc
