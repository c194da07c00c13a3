import Verif.Props.Prefix

/-!
# For which names the arrows of regions are right: C58

A region's name is used as (part of) a format.  The text of a format without arguments is the
format itself exactly if it has no percent sign.
-/

set_option linter.unusedSectionVars false
set_option linter.unusedVariables false

namespace Trc.Fmt

variable {W A : Type} [Render W A]

/-- What becomes of the rest of a directive, without arguments: a report, or a percent sign. -/
theorem printf_directive (w : W) (cs : List Char) (stage : Stage) (spec : List Char) :
    (∃ tl, printf (A := A) w cs (some (stage, spec)) [] = '%' :: '!' :: tl) ∨
    (∃ fl r, cs = fl ++ '%' :: r ∧ '!' ∉ fl ∧ printf (A := A) w cs (some (stage, spec)) [] = '%' :: printf (A := A) w r none []) := by
  induction cs generalizing stage spec with
  | nil => exact Or.inl ⟨_, rfl⟩
  | cons c cs ih =>
    simp only [printf]
    cases hn : stage.next c with
    | some stage' =>
      have hc : c ≠ '!' := by
        rintro rfl
        cases stage <;> simp [Stage.next] at hn
      rcases ih stage' (spec ++ [c]) with ⟨tl, h⟩ | ⟨fl, r, h1, h2, h3⟩
      · exact Or.inl ⟨tl, h⟩
      · refine Or.inr ⟨c :: fl, r, by rw [h1]; rfl, ?_, h3⟩
        simp only [List.mem_cons, not_or]
        exact ⟨Ne.symm hc, h2⟩
    | none =>
      by_cases hp : c = '%'
      · subst hp
        exact Or.inr ⟨[], cs, rfl, by simp, by simp⟩
      · refine Or.inl ⟨c :: "(MISSING)".toList ++ printf (A := A) w cs none [], ?_⟩
        simp only [if_neg hp]
        rfl

/-- Text without arguments does not become longer at its front, except by reports. -/
theorem printf_grows (w : W) (n : Nat) : ∀ (r u : List Char), r.length ≤ n → u ≠ [] → '!' ∉ u →
    printf (A := A) w r none [] ≠ u ++ r := by
  induction n with
  | zero =>
    intro r u hr hu _ h
    have : r = [] := List.eq_nil_of_length_eq_zero (by omega)
    subst this
    simp only [printf, extraReport, List.isEmpty_nil, if_true, List.append_nil] at h
    exact hu h.symm
  | succ n ih =>
    intro r u hr hu hx h
    cases r with
    | nil =>
      simp only [printf, extraReport, List.isEmpty_nil, if_true, List.append_nil] at h
      exact hu h.symm
    | cons c r =>
      obtain ⟨d, u, rfl⟩ := List.exists_cons_of_ne_nil hu
      simp only [List.length_cons] at hr
      simp only [List.mem_cons, not_or] at hx
      simp only [printf] at h
      by_cases hc : c = '%'
      · subst hc
        simp only [if_true] at h
        rcases printf_directive (A := A) w r .flags [] with ⟨tl, e⟩ | ⟨fl, r', e1, e2, e3⟩
        · rw [e] at h
          simp only [List.cons_append, List.cons.injEq] at h
          obtain ⟨_, h⟩ := h
          cases u with
          | nil => simp at h
          | cons x u =>
            simp only [List.cons_append, List.cons.injEq] at h
            exact hx.2 (by rw [h.1]; simp)
        · rw [e3, e1] at h
          simp only [List.cons_append, List.cons.injEq] at h
          refine ih r' (u ++ '%' :: fl ++ ['%']) ?_ (by simp) ?_ ?_
          · rw [e1] at hr; simp at hr; omega
          · simp only [List.mem_append, List.mem_cons, not_or, List.not_mem_nil, not_false_eq_true, and_true]
            exact ⟨⟨hx.2, by decide, e2⟩, by decide⟩
          · rw [h.2]; simp [List.append_assoc]
      · rw [if_neg hc] at h
        simp only [List.cons_append, List.cons.injEq] at h
        refine ih r (u ++ [c]) (by omega) (by simp) ?_ (by rw [h.2]; simp)
        simp only [List.mem_append, List.mem_singleton, not_or]
        exact ⟨hx.2, by rw [h.1]; exact hx.1⟩

/-- No text has a report in front of what becomes of it. -/
theorem printf_report (w : W) (x : List Char) (hx : x ≠ []) (hp : '%' ∉ x) (n : Nat) : ∀ r : List Char, r.length ≤ n →
    r ≠ x ++ printf (A := A) w r none [] := by
  have hcopy : ∀ (y r : List Char), '%' ∉ y → printf (A := A) w (y ++ r) none [] = y ++ printf (A := A) w r none [] := by
    intro y r hy
    induction y with
    | nil => rfl
    | cons c y ih =>
      simp only [List.mem_cons, not_or] at hy
      simp only [List.cons_append, printf]
      rw [if_neg (Ne.symm hy.1), ih hy.2]
  have hxl : 0 < x.length := List.length_pos_iff.mpr hx
  induction n with
  | zero =>
    intro r hr h
    have := congrArg List.length h
    simp only [List.length_append] at this
    omega
  | succ n ih =>
    intro r hr h
    obtain ⟨r1, h1⟩ : ∃ r1, r1 = printf (A := A) w r none [] := ⟨_, rfl⟩
    rw [← h1] at h
    have h2 : r1 = x ++ printf (A := A) w r1 none [] := by
      rw [← hcopy x r1 hp, ← h, ← h1]
    refine ih r1 ?_ h2
    have := congrArg List.length h
    simp only [List.length_append] at this
    omega

/-- The text of a format without arguments is the format exactly if there is no percent sign. -/
theorem printf_same (w : W) (f : List Char) : printf (A := A) w f none [] = f ↔ '%' ∉ f := by
  refine ⟨?_, printf_plain w f⟩
  induction f with
  | nil => simp
  | cons c f ih =>
    intro h
    simp only [printf] at h
    by_cases hc : c = '%'
    · exfalso
      subst hc
      simp only [if_true] at h
      rcases printf_directive (A := A) w f .flags [] with ⟨tl, e⟩ | ⟨fl, r, e1, e2, e3⟩
      · have h' := h
        rw [e] at h'
        simp only [List.cons.injEq, true_and] at h'
        subst h'
        have hn : Stage.next .flags '!' = none := by decide
        simp only [printf, hn] at h
        rw [if_neg (by decide)] at h
        have h3 : tl = "!(MISSING)".toList ++ printf (A := A) w tl none [] := by
          have k : missing '!' = '%' :: '!' :: "!(MISSING)".toList := by decide
          rw [k] at h
          simp only [List.cons_append, List.cons.injEq, true_and] at h
          exact h.symm
        exact printf_report (A := A) w "!(MISSING)".toList (by decide) (by decide) tl.length tl (Nat.le_refl _) h3
      · rw [e3, e1] at h
        simp only [List.cons.injEq, true_and] at h
        refine printf_grows (A := A) w r.length r (fl ++ ['%']) (Nat.le_refl _) (by simp) ?_ (by rw [h]; simp)
        simp only [List.mem_append, List.mem_singleton, not_or]
        exact ⟨e2, by decide⟩
    · rw [if_neg hc] at h
      simp only [List.cons.injEq, true_and] at h
      simp only [List.mem_cons, not_or]
      exact ⟨Ne.symm hc, ih h⟩

theorem sprintf_same (w : W) (f : String) : sprintf (A := A) w f [] = f ↔ '%' ∉ f.toList := by
  rw [← printf_same (A := A) w f.toList]
  unfold sprintf
  constructor
  · intro h
    have := congrArg String.toList h
    rwa [String.toList_ofList] at this
  · intro h
    rw [h, String.ofList_toList]

end Trc.Fmt

namespace Trc.Wrap

open Core Core.Spec Fmt

variable {W A : Type} [Render W A] [Arg A] [Humanize]

theorem prefixed_root {ctx : Ctx A} {tr : Tr A} (h : maybeGet ctx = some tr) (orphan : Nat) (format : String) (args : List A) :
    (prefixed ctx orphan format args).2.1.root = tr.root := by
  simp only [prefixed, get, h]
  by_cases he : trimSpace format = ""
  · simp [he]
  · simp [he, put, Tr.root]

theorem prog_roots (ctx : Ctx A) (tr : Tr A) (orphan : Nat) (p : Prog A) (h : maybeGet ctx = some tr) :
    ∀ s ∈ p.said ctx tr orphan, s.tr.root = tr.root := by
  induction p generalizing ctx tr with
  | done => simp [Prog.said]
  | log kind format args stack next ih =>
    intro s hs
    simp only [Prog.said, List.mem_cons] at hs
    rcases hs with rfl | hs
    · rfl
    · exact ih ctx tr h s hs
  | region name took stack body next ih1 ih2 =>
    intro s hs
    simp only [Prog.said, List.cons_append, List.mem_cons, List.mem_append] at hs
    rcases hs with rfl | hs | rfl | hs
    · rfl
    · rw [ih1 _ _ (maybeGet_prefixed h orphan "·" []).1 s hs, prefixed_root h]
    · rfl
    · exact ih2 ctx tr h s hs
  | pre format args body next ih1 ih2 =>
    intro s hs
    simp only [Prog.said, List.mem_append] at hs
    rcases hs with hs | hs
    · rw [ih1 _ _ (maybeGet_prefixed h orphan format args).1 s hs, prefixed_root h]
    · exact ih2 ctx tr h s hs

/-- C58, for which names.  A region with any name, body and continuation runs on a context that
carries a trace around a new core trace; anything may happen in between.  Its first event reads
`→ name` exactly if the name has no percent sign. -/
theorem C58_name_exact (settings : List Setting) (start : Time) (id source category : String)
    (old : CoreTrace A) (w w' : World A) (ex : List (AEnv W × Act A)) (ctx : Ctx A) (base : Tr A) (orphan : Nat)
    (name took : String) (stack : List StdFrame) (body next : Prog A)
    (hctx : maybeGet ctx = some base) (hb : base.unprefixed)
    (hex : callsIn base.root (ex.map Prod.snd) = callsIn base.root ((Prog.region name took stack body next).acts ctx orphan))
    (hm : ∀ p ∈ ex, notMake base.root p.2) (hrun : w.run ex = some w')
    (ht : w.traces base.root = some (fresh settings start id source category old))
    (hlen : (((Prog.region name took stack body next).said ctx base orphan).length : Int) ≤ (Globals.after settings).traceMaxEvents)
    (env : Env W) :
    ∃ t ev rest, w'.traces base.root = some t ∧ t.events' env = some (ev :: rest) ∧
      (ev.what = "→ " ++ name ↔ '%' ∉ name.toList) := by
  rw [prog_acts ctx base orphan _ hctx] at hex
  obtain ⟨t, evs, h1, h2, h3, h4, h5⟩ := C56_prefix settings start id source category old w w' ex _ base.root
    (prog_roots ctx base orphan _ hctx) hex hm hrun ht hlen env
  have hpos : 0 < evs.length := by rw [h3]; simp [Prog.said]
  obtain ⟨ev, rest, rfl⟩ := List.exists_cons_of_length_pos hpos
  have hc : 0 < (callsOn base.root ex).length := by rw [h4]; simp [Prog.said]
  obtain ⟨_, _, k⟩ := h5 0 ev _ _ rfl (by simp only [Prog.said]; rfl) (List.getElem?_eq_getElem hc)
  obtain ⟨m, hm', _⟩ := k base [] Under.base hb (by intro q hq; simp at hq)
  refine ⟨t, ev, rest, h1, h2, ?_⟩
  have e : ev.what = sprintf (A := A) m ("→ " ++ name) [] := by rw [hm']; simp [prefixTexts]
  rw [e, sprintf_same, String.toList_append, List.mem_append, not_or]
  exact ⟨fun h => h.2, fun h => ⟨by decide, h⟩⟩

end Trc.Wrap

namespace Trc.Wrap.Witness

open Core Core.Spec Fmt

/-- A name without a percent sign. -/
example : run ctx (.region "load" "5ms" [] .done .done) = some ["→ load", "← load [5ms]"] := rfl

/-- A name where percent signs are doubled is not kept either. -/
example : run ctx (.region "50%% done" "5ms" [] .done .done) = some ["→ 50% done", "← 50% done [5ms]"] := rfl

end Trc.Wrap.Witness
