import Verif.Ring.ManyLemmas

/-! # No value of a family is lost or duplicated -/

set_option linter.unusedSectionVars false
set_option linter.unusedVariables false

namespace Trc.Ring

namespace Spec
/-- All values in all categories. -/
def Family.retained {α : Type} (f : Family α) : List α := f.keys.flatMap f.items
end Spec

variable {α : Type} [Inhabited α]

/-- Categories are distinct and have room. -/
structure FamOK (f : Spec.Family α) : Prop where
  nodup : f.keys.Nodup
  keys : ∀ k, k ∈ f.keys ↔ (f.cat k).isSome = true
  cap : 0 < f.cap
  caps : ∀ k r, f.cat k = some r → 0 < r.cap

theorem famOK_new {cap : Nat} (h : 0 < cap) : FamOK (Spec.Family.new cap : Spec.Family α) := by
  constructor <;> simp [Spec.Family.new, h]

theorem famOK_step {f : Spec.Family α} (h : FamOK f) (op : MOp α) : FamOK (f.step op).1 := by
  have hupd : ∀ k r, f.cat k = some r → ∀ r', 0 < r'.cap →
      (∀ k', k' ∈ f.keys ↔ (f.upd k r' k').isSome = true) ∧ (∀ k' x, f.upd k r' k' = some x → 0 < x.cap) := by
    intro k r hk r' hr'
    constructor
    · intro k'
      unfold Spec.Family.upd
      split
      · rename_i hkk; subst hkk
        simp [h.keys, hk]
      · exact h.keys k'
    · intro k' x hx
      rcases Family_upd_some hx with ⟨_, rfl⟩ | ⟨_, hx⟩
      · exact hr'
      · exact h.caps _ _ hx
  cases op with
  | getOrCreate k =>
    simp only [Spec.Family.step]
    split
    · rename_i hr hk
      refine ⟨?_, ?_, h.cap, ?_⟩
      · rw [List.nodup_append]
        refine ⟨h.nodup, by simp, ?_⟩
        intro x hx y hy hxy
        simp only [List.mem_singleton] at hy
        subst hxy; subst hy
        have := (h.keys x).mp hx
        simp [hk] at this
      · intro k'
        simp only [List.mem_append, List.mem_singleton, Spec.Family.upd]
        split
        · rename_i hkk; simp [hkk]
        · rename_i hkk
          rw [h.keys k']
          constructor
          · rintro (h1 | h1)
            · exact h1
            · exact absurd h1.symm hkk
          · exact .inl
      · intro k' r hx
        rcases Family_upd_some hx with ⟨_, rfl⟩ | ⟨_, hx⟩
        · exact h.cap
        · exact h.caps _ _ hx
    · exact h
  | add k v =>
    simp only [Spec.Family.step]
    cases hk : f.cat k with
    | none => exact h
    | some r =>
      obtain ⟨h1, h2⟩ := hupd k r hk (r.add v).1 (h.caps k r hk)
      exact ⟨h.nodup, h1, h.cap, h2⟩
  | beginResize c order =>
    simp only [Spec.Family.step]
    split
    · exact h
    · rename_i hc
      refine ⟨h.nodup, h.keys, ?_, h.caps⟩
      simp only [not_or] at hc
      have := hc.1
      simp only; omega
  | resizeNext =>
    simp only [Spec.Family.step]
    cases hr : f.resizing with
    | none => exact h
    | some l =>
      cases l with
      | nil => exact ⟨h.nodup, h.keys, h.cap, h.caps⟩
      | cons k rest =>
        simp only
        cases hk : f.cat k with
        | none => exact ⟨h.nodup, h.keys, h.cap, h.caps⟩
        | some r =>
          obtain ⟨h1, h2⟩ := hupd k r hk (r.resize f.cap).1 (by rw [Recent_resize_pos _ _ h.cap]; exact h.cap)
          exact ⟨h.nodup, h1, h.cap, h2⟩

/-- Replacing one category. -/
theorem retained_upd {f : Spec.Family α} (keys : List String) (hn : keys.Nodup) {k : String} {r r' : Spec.Recent α}
    (hk : f.cat k = some r) {d ex : List α} (hp : (r'.items ++ d).Perm (ex ++ r.items))
    (g : Spec.Family α) (hg : g.cat = f.upd k r') (hmem : k ∈ keys) :
    (keys.flatMap g.items ++ d).Perm (ex ++ keys.flatMap f.items) := by
  have hne : ∀ k', k' ≠ k → g.items k' = f.items k' := by
    intro k' h'
    unfold Spec.Family.items
    rw [hg]
    unfold Spec.Family.upd
    rw [if_neg (Ne.symm h')]
  have heq : g.items k = r'.items := by
    unfold Spec.Family.items
    rw [hg]
    simp [Spec.Family.upd]
  have hfk : f.items k = r.items := by
    unfold Spec.Family.items
    rw [hk]
  have hrest : ∀ l : List String, k ∉ l → l.flatMap g.items = l.flatMap f.items := by
    intro l hl
    induction l with
    | nil => rfl
    | cons x l ih =>
      simp only [List.mem_cons, not_or] at hl
      simp only [List.flatMap_cons]
      rw [hne x (Ne.symm hl.1), ih hl.2]
  induction keys with
  | nil => cases hmem
  | cons x l ih =>
    have hn' := List.nodup_cons.mp hn
    simp only [List.flatMap_cons]
    rcases List.mem_cons.mp hmem with hx | hx
    · rw [← hx] at hn' ⊢
      rw [heq, hfk, hrest l hn'.1]
      have h1 : (r'.items ++ l.flatMap f.items ++ d).Perm (r'.items ++ d ++ l.flatMap f.items) := by
        rw [List.append_assoc, List.append_assoc]
        exact List.Perm.append_left _ List.perm_append_comm
      refine h1.trans ?_
      rw [← List.append_assoc ex]
      exact List.Perm.append_right _ hp
    · have hxk : x ≠ k := fun h => hn'.1 (h ▸ hx)
      rw [hne x hxk, List.append_assoc]
      refine (List.Perm.append_left _ (ih hn'.2 hx)).trans ?_
      rw [← List.append_assoc, ← List.append_assoc]
      exact List.Perm.append_right _ List.perm_append_comm

/-- What a step puts into the family. -/
def putIn (f : Spec.Family α) : MOp α → List α
  | .add k v => if (f.cat k).isSome then [v] else []
  | _ => []

/-- A step keeps or gives back every value. -/
theorem retained_step {f : Spec.Family α} (h : FamOK f) (op : MOp α) :
    ((f.step op).1.retained ++ (f.step op).2).Perm (putIn f op ++ f.retained) := by
  cases op with
  | getOrCreate k =>
    simp only [Spec.Family.step, putIn]
    split
    · rename_i hr hk
      have hnk : k ∉ f.keys := by
        intro hm; have := (h.keys k).mp hm; simp [hk] at this
      unfold Spec.Family.retained
      simp only [List.flatMap_append, List.append_nil, List.nil_append, List.flatMap_cons, List.flatMap_nil]
      have h1 : ∀ l : List String, k ∉ l →
          l.flatMap (Spec.Family.items { f with cat := f.upd k { cap := f.cap, items := [] }, keys := f.keys ++ [k] }) =
          l.flatMap f.items := by
        intro l hl
        induction l with
        | nil => rfl
        | cons x l ih =>
          simp only [List.mem_cons, not_or] at hl
          simp only [List.flatMap_cons]
          rw [ih hl.2]
          congr 1
          unfold Spec.Family.items Spec.Family.upd
          simp [hl.1]
      rw [h1 _ hnk]
      simp [Spec.Family.items, Spec.Family.upd]
    · simp
  | add k v =>
    simp only [Spec.Family.step, putIn]
    cases hk : f.cat k with
    | none => simp
    | some r =>
      simp only [Option.isSome_some, if_true]
      have hpos := h.caps k r hk
      refine retained_upd f.keys h.nodup hk ?_ { f with cat := f.upd k (r.add v).1 } rfl ((h.keys k).mpr (by simp [hk]))
      simp only [Spec.Recent.add, if_neg (Nat.pos_iff_ne_zero.mp hpos)]
      rw [List.take_append_drop]
      simp
  | beginResize c order =>
    simp only [Spec.Family.step, putIn]
    split
    · simp
    · simp only [List.append_nil, List.nil_append]
      exact List.Perm.refl _
  | resizeNext =>
    simp only [Spec.Family.step, putIn]
    cases hr : f.resizing with
    | none => simp
    | some l =>
      cases l with
      | nil => simp only [List.append_nil, List.nil_append]; exact List.Perm.refl _
      | cons k rest =>
        simp only
        cases hk : f.cat k with
        | none => simp only [List.append_nil, List.nil_append]; exact List.Perm.refl _
        | some r =>
          refine retained_upd f.keys h.nodup hk ?_ { f with cat := f.upd k (r.resize f.cap).1, resizing := some rest }
            rfl ((h.keys k).mpr (by simp [hk]))
          have : ¬ ((f.cap : Int) ≤ 0) := by have := h.cap; omega
          simp only [Spec.Recent.resize, this, if_false, Int.toNat_natCast]
          rw [List.take_append_drop]
          simp

end Trc.Ring
