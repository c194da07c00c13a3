import Mathlib.Order.WellFounded
import Mathlib.Data.Fintype.Pigeonhole
import Mathlib.Tactic.Choose
import Verif.Props.Feedback

/-!
# C136: when streams can keep each other busy, and when not
-/

namespace Trc.Web.Feedback

/-- One stream passes on to another. -/
def Passes (cfg : Cfg) (j i : Nat) : Prop := j < cfg.n ∧ i < cfg.n ∧ i ≠ j ∧ cfg.accepts i j = true

/-- Without an endless way, there is none backwards either. -/
theorem passes_wf {cfg : Cfg} (h : ¬ Endless cfg) : WellFounded (Passes cfg) := by
  rw [wellFounded_iff_isEmpty_descending_chain]
  refine ⟨fun ⟨g, hg⟩ => h ?_⟩
  -- two are the same
  obtain ⟨a, b, hab, he⟩ : ∃ a b, a < b ∧ g a = g b := by
    have hlt : ∀ k, g k < cfg.n := fun k => (hg k).2.1
    obtain ⟨x, y, hne, hxy⟩ := Finite.exists_ne_map_eq_of_infinite (fun k : Nat => (⟨g k, hlt k⟩ : Fin cfg.n))
    have hxy : g x = g y := by simpa using hxy
    rcases Nat.lt_or_gt_of_ne hne with h | h
    · exact ⟨x, y, h, hxy⟩
    · exact ⟨y, x, h, hxy.symm⟩
  refine ⟨fun k => g (b - k % (b - a)), fun k => ?_⟩
  have hd : 0 < b - a := by omega
  have hr : k % (b - a) < b - a := Nat.mod_lt _ hd
  have key : ∀ c, a < c → c ≤ b → g c < cfg.n ∧ g (c - 1) ≠ g c ∧ cfg.accepts (g (c - 1)) (g c) = true := by
    intro c h1 h2
    obtain ⟨h3, h4, h5, h6⟩ := hg (c - 1)
    have e : c - 1 + 1 = c := by omega
    rw [e] at h3 h5 h6
    exact ⟨h3, h5, h6⟩
  have hk := key (b - k % (b - a)) (by omega) (by omega)
  have hnext : g (b - (k + 1) % (b - a)) = g (b - k % (b - a) - 1) := by
    by_cases hw : k % (b - a) + 1 = b - a
    · have e : (k + 1) % (b - a) = 0 := by
        rw [Nat.add_mod]
        rcases Nat.lt_or_ge 1 (b - a) with h1 | h1
        · rw [Nat.mod_eq_of_lt h1, hw, Nat.mod_self]
        · have : b - a = 1 := by omega
          rw [this]; omega
      rw [e, Nat.sub_zero, ← he]
      congr 1
      omega
    · have e : (k + 1) % (b - a) = k % (b - a) + 1 := by
        rw [Nat.add_mod]
        rcases Nat.lt_or_ge 1 (b - a) with h1 | h1
        · rw [Nat.mod_eq_of_lt h1, Nat.mod_eq_of_lt (by omega)]
        · omega
      rw [e]
      congr 1
  simp only [hnext]
  exact hk

/-- What has been published about a stream's request. -/
structure GInv (cfg : Cfg) (s : S) : Prop where
  own_ : ∀ j, own j s.log ≤ s.ext + used (s.streams j) + s.ticks + s.fails j
  got : ∀ i, s.fails i + foreign i (s.streams i).queue ≤ s.ext + total cfg.n (fun j => if j ≠ i ∧ cfg.accepts i j = true then own j s.log else 0)

theorem own_single (j i : Nat) : own j [some i] = if j = i then 1 else 0 := by
  by_cases e : j = i
  · subst e; simp [own]
  · simp [own, e, Ne.symm e]

/-- A line of a stream is counted where it can arrive. -/
theorem share_line {cfg : Cfg} {a b : Nat → Stream} {log : List Msg} {i : Nat} (hi : i < cfg.n) (hl : Logs cfg i a b) (k : Nat) :
    foreign k (b k).queue + total cfg.n (fun j => if j ≠ k ∧ cfg.accepts k j = true then own j log else 0) ≤
      foreign k (a k).queue + total cfg.n (fun j => if j ≠ k ∧ cfg.accepts k j = true then own j (log ++ [some i]) else 0) := by
  have hmono : ∀ j, own j log ≤ own j (log ++ [some i]) := by intro j; rw [own_append]; omega
  have hle : total cfg.n (fun j => if j ≠ k ∧ cfg.accepts k j = true then own j log else 0) ≤
      total cfg.n (fun j => if j ≠ k ∧ cfg.accepts k j = true then own j (log ++ [some i]) else 0) := by
    refine total_mono fun j _ => ?_
    by_cases e : j ≠ k ∧ cfg.accepts k j = true
    · rw [if_pos e, if_pos e]; exact hmono j
    · rw [if_neg e, if_neg e]
  rcases (published_spec hl k).2.2 with e | ⟨e, hm⟩
  · rw [e]; omega
  · by_cases hk : k = i
    · subst hk
      rw [e, foreign_append]
      have : foreign k [some k] = 0 := by simp [foreign]
      omega
    · have hm : cfg.accepts k i = true := hm
      have hg : total cfg.n (fun j => if j ≠ k ∧ cfg.accepts k j = true then own j log else 0) + 1 ≤
          total cfg.n (fun j => if j ≠ k ∧ cfg.accepts k j = true then own j (log ++ [some i]) else 0) := by
        refine total_grow hi (fun j _ _ => ?_) ?_
        · by_cases e : j ≠ k ∧ cfg.accepts k j = true
          · rw [if_pos e, if_pos e]; exact hmono j
          · rw [if_neg e, if_neg e]
        · have hc : i ≠ k ∧ cfg.accepts k i = true := ⟨Ne.symm hk, hm⟩
          rw [if_pos hc, if_pos hc, own_append, own_single, if_pos rfl]
      rw [e, foreign_append]
      have : foreign k [some i] ≤ 1 := by
        have := own_foreign k [some i]
        simp only [List.length_singleton] at this
        omega
      omega

theorem ginv {cfg : Cfg} {s : S} (h : Reach cfg s) : GInv cfg s := by
  unfold Reach at h
  generalize hx : ({} : S) = s₀ at h
  induction h with
  | refl => subst hx; exact ⟨fun _ => by simp [own], fun _ => by simp [foreign]⟩
  | @snoc s₁ s₂ _ hs ih =>
    have silent : ∀ (i : Nat) (x : Stream), used (s₁.streams i) ≤ used x → foreign i x.queue ≤ foreign i (s₁.streams i).queue →
        GInv cfg { s₁ with streams := set s₁.streams i x } := by
      intro i x hu hq
      refine ⟨fun j => ?_, fun k => ?_⟩
      · have := ih.own_ j
        show own j s₁.log ≤ s₁.ext + used (set s₁.streams i x j) + s₁.ticks + s₁.fails j
        by_cases e : j = i
        · subst e; rw [set_same]; omega
        · rw [set_other e]; exact this
      · have := ih.got k
        show s₁.fails k + foreign k (set s₁.streams i x k).queue ≤ _
        by_cases e : k = i
        · subst e; rw [set_same]; exact Nat.le_trans (Nat.add_le_add_left hq _) this
        · rw [set_other e]; exact this
    have line : ∀ (i : Nat) (x : Stream) (b : Nat → Stream), i < cfg.n → Logs cfg i (set s₁.streams i x) b → used (s₁.streams i) + 1 ≤ used x →
        x.queue = (s₁.streams i).queue → GInv cfg { s₁ with streams := b, log := s₁.log ++ [some i] } := by
      intro i x b hi hl hu hq
      refine ⟨fun j => ?_, fun k => ?_⟩
      · have := ih.own_ j
        show own j (s₁.log ++ [some i]) ≤ s₁.ext + used (b j) + s₁.ticks + s₁.fails j
        rw [own_append, own_single, published_used hl]
        by_cases e : j = i
        · subst e; rw [set_same, if_pos rfl]; omega
        · rw [set_other e, if_neg e]; omega
      · have h1 := ih.got k
        have h2 := share_line (log := s₁.log) hi hl k
        have h3 : (set s₁.streams i x k).queue = (s₁.streams k).queue := by
          by_cases e : k = i
          · subst e; rw [set_same, hq]
          · rw [set_other e]
        rw [h3] at h2
        show s₁.fails k + foreign k (b k).queue ≤ s₁.ext + total cfg.n (fun j => if j ≠ k ∧ cfg.accepts k j = true then own j (s₁.log ++ [some i]) else 0)
        omega
    cases hs with
    | @other m mt b hp =>
      refine ⟨fun j => ?_, fun k => ?_⟩
      · have := ih.own_ j
        show own j (s₁.log ++ [m]) ≤ s₁.ext + 1 + used (b j) + s₁.ticks + s₁.fails j
        rw [own_append, published_used hp]
        have : own j [m] ≤ 1 := by
          have := own_foreign j [m]
          simp only [List.length_singleton] at this
          omega
        omega
      · have h1 := ih.got k
        have h2 := published_foreign hp k
        have h3 : foreign k [m] ≤ 1 := by
          have := own_foreign k [m]
          simp only [List.length_singleton] at this
          omega
        have h4 : total cfg.n (fun j => if j ≠ k ∧ cfg.accepts k j = true then own j s₁.log else 0) ≤
            total cfg.n (fun j => if j ≠ k ∧ cfg.accepts k j = true then own j (s₁.log ++ [m]) else 0) := by
          refine total_mono fun j _ => ?_
          by_cases e : j ≠ k ∧ cfg.accepts k j = true
          · rw [if_pos e, if_pos e, own_append]; omega
          · rw [if_neg e, if_neg e]
        show s₁.fails k + foreign k (b k).queue ≤ s₁.ext + 1 + total cfg.n (fun j => if j ≠ k ∧ cfg.accepts k j = true then own j (s₁.log ++ [m]) else 0)
        omega
    | @filter i hi hp => exact silent i _ (by unfold used; rw [hp]; simp) (Nat.le_refl _)
    | @filterFails i b hi hp hl => exact line i _ b hi hl (by unfold used; rw [hp]; simp only; omega) rfl
    | @refused i hi hp => exact silent i _ (by unfold used; rw [hp]; simp only; split <;> omega) (Nat.le_refl _)
    | @setup i k b hi hp h1 h2 hl =>
      refine line i _ b hi hl ?_ rfl
      unfold used
      rw [hp]
      by_cases e : k = 4
      · simp only [e, if_true]; omega
      · simp only [if_neg e]; omega
    | @subscribe i hi hg hp => exact silent i _ (by unfold used; simp [hg]) (Nat.le_refl _)
    | @unsubscribe i hi hg hp =>
      exact silent i _ (by unfold used; rcases hg with hg | hg <;> simp [hg]) (Nat.le_refl _)
    | @returned i b hi hg hl => exact line i _ b hi hl (by unfold used; rw [hg]; simp) rfl
    | @ready i b hi hp hl => exact line i _ b hi hl (by unfold used; rw [hp]; simp only; omega) rfl
    | @init i hi hp => exact silent i _ (by unfold used; rw [hp]; simp only; omega) (Nat.le_refl _)
    | @initFails i b hi hp hl => exact line i _ b hi hl (by unfold used; rw [hp]; simp only; omega) rfl
    | @tick i init b hi hp hl =>
      refine ⟨fun j => ?_, fun k => ?_⟩
      · have := ih.own_ j
        show own j (s₁.log ++ [some i]) ≤ s₁.ext + used (b j) + (s₁.ticks + 1) + s₁.fails j
        rw [own_append, own_single, published_used hl]
        by_cases e : j = i
        · rw [if_pos e]; omega
        · rw [if_neg e]; omega
      · have h1 := ih.got k
        have h2 := share_line (log := s₁.log) hi hl k
        show s₁.fails k + foreign k (b k).queue ≤ s₁.ext + total cfg.n (fun j => if j ≠ k ∧ cfg.accepts k j = true then own j (s₁.log ++ [some i]) else 0)
        omega
    | @receive i init m q hi hp hq =>
      refine silent i _ (Nat.le_refl _) ?_
      rw [hq]
      exact foreign_cons_le i m q
    | @receiveFails i init m q b hi hp hq hm hl =>
      refine ⟨fun j => ?_, fun k => ?_⟩
      · have := ih.own_ j
        show own j (s₁.log ++ [some i]) ≤ s₁.ext + used (b j) + s₁.ticks + (if j = i then s₁.fails i + 1 else s₁.fails j)
        rw [own_append, own_single, published_used hl]
        by_cases e : j = i
        · subst e
          rw [set_same, if_pos rfl, if_pos rfl]
          have : used { s₁.streams j with queue := q } = used (s₁.streams j) := rfl
          rw [this]
          omega
        · rw [set_other e, if_neg e, if_neg e]; omega
      · have h1 := ih.got k
        have h2 := share_line (log := s₁.log) hi hl k
        show (if k = i then s₁.fails i + 1 else s₁.fails k) + foreign k (b k).queue ≤
          s₁.ext + total cfg.n (fun j => if j ≠ k ∧ cfg.accepts k j = true then own j (s₁.log ++ [some i]) else 0)
        by_cases e : k = i
        · subst e
          rw [set_same] at h2
          rw [if_pos rfl]
          have e2 : foreign k (s₁.streams k).queue = foreign k q + 1 := by
            rw [hq]
            unfold foreign
            rw [List.countP_cons, if_pos (by simp [hm])]
          simp only at h2
          omega
        · rw [set_other e] at h2
          rw [if_neg e]
          omega
    | @stop i init b hi hp hl => exact line i _ b hi hl (by unfold used; rw [hp]; cases init <;> simp only <;> omega) rfl

/-- **C136** What streams publish is limited by what others publish and by the ticks, if and only if there is no endless way from stream to stream on which each
matches the requests of the one before. -/
theorem C136_storm_exact (cfg : Cfg) :
    (∀ ext ticks, ∃ most, ∀ s, Reach cfg s → s.ext ≤ ext → s.ticks ≤ ticks → s.log.length ≤ most) ↔
      ¬ ∃ f : Nat → Nat, ∀ k, f k < cfg.n ∧ f (k + 1) ≠ f k ∧ cfg.accepts (f (k + 1)) (f k) = true := by
  constructor
  · intro h he
    obtain ⟨most, hm⟩ := h 1 0
    obtain ⟨s, r, x, t, l⟩ := storm he (most + 1)
    have := hm s r (by omega) (by omega)
    omega
  · intro hne ext ticks
    have hwf := passes_wf hne
    have hb : ∀ i, ∃ B, ∀ s, Reach cfg s → s.ext ≤ ext → s.ticks ≤ ticks → s.fails i ≤ B := by
      intro i
      induction i using hwf.induction with
      | _ i ih =>
        by_cases hi : i < cfg.n
        · have hb' : ∀ j, ∃ B, Passes cfg j i → ∀ s, Reach cfg s → s.ext ≤ ext → s.ticks ≤ ticks → s.fails j ≤ B := by
            intro j
            by_cases hp : Passes cfg j i
            · obtain ⟨B, hB⟩ := ih j hp
              exact ⟨B, fun _ => hB⟩
            · exact ⟨0, fun h => absurd h hp⟩
          choose B hB using hb'
          refine ⟨ext + total cfg.n (fun j => ext + 9 + ticks + B j), fun s hs hx ht => ?_⟩
          have hg := (ginv hs).got i
          have hle : total cfg.n (fun j => if j ≠ i ∧ cfg.accepts i j = true then own j s.log else 0) ≤ total cfg.n (fun j => ext + 9 + ticks + B j) := by
            refine total_mono fun j hj => ?_
            by_cases e : j ≠ i ∧ cfg.accepts i j = true
            · rw [if_pos e]
              have h1 := hB j ⟨hj, hi, Ne.symm e.1, e.2⟩ s hs hx ht
              have h2 := (ginv hs).own_ j
              have h3 := (inv hs).early j
              omega
            · rw [if_neg e]; omega
          omega
        · exact ⟨0, fun s hs _ _ => Nat.le_of_eq ((inv hs).idle i (by omega))⟩
    choose B hB using hb
    refine ⟨ext + 9 * cfg.n + ticks + total cfg.n B, fun s hs hx ht => ?_⟩
    have hi := inv hs
    have hu : total cfg.n (fun i => used (s.streams i)) ≤ 9 * cfg.n := total_le fun i _ => hi.early i
    have hall := hi.all
    have hf : total cfg.n s.fails ≤ total cfg.n B := total_mono fun i _ => hB i s hs hx ht
    omega

/-- The first stream watches the requests of the second one, which watches only others: there is a limit. -/
example : ∃ most, ∀ s, Reach { n := 2, accepts := fun i j => decide (i = 0 ∧ j = 1), cap := fun _ => 10 } s → s.ext ≤ 5 → s.ticks ≤ 3 → s.log.length ≤ most := by
  refine (C136_storm_exact _).mpr ?_ 5 3
  rintro ⟨f, hf⟩
  have h0 : f 1 = 0 ∧ f 0 = 1 := by simpa using (hf 0).2.2
  have h1 : f 2 = 0 ∧ f 1 = 1 := by simpa using (hf 1).2.2
  omega

/-- Three streams in a ring: there is none. -/
example : ¬ ∀ ext ticks, ∃ most, ∀ s, Reach { n := 3, accepts := fun i j => decide (i = (j + 1) % 3), cap := fun _ => 10 } s → s.ext ≤ ext → s.ticks ≤ ticks →
    s.log.length ≤ most := by
  rw [C136_storm_exact]
  refine fun h => h ⟨fun k => k % 3, fun k => ⟨Nat.mod_lt _ (by decide), ?_, ?_⟩⟩
  · show (k + 1) % 3 ≠ k % 3
    omega
  · simp

end Trc.Web.Feedback
