import Verif.Props.Page

/-!
# For which categories and queries the links of the summary ask: C89, exactly
-/

set_option linter.unusedVariables false
set_option linter.unusedSimpArgs false

namespace Trc.Web

/-! ## What is read from a normalized value -/

/-- What the server reads from a text that was put into a link as it is: `%` with two digits is a byte, `+` a space. -/
def dec : Bytes → Bytes
  | [] => []
  | c :: s =>
    if c = ch '%' then
      match s with
      | a :: b :: s' =>
        match unhex a, unhex b with
        | some x, some y => (x * 16 + y) :: dec s'
        | _, _ => c :: dec (a :: b :: s')
      | [a] => [c, if a = ch '+' then ch ' ' else a]
      | [] => [c]
    else (if c = ch '+' then ch ' ' else c) :: dec s

/-- A character that separates and is kept by the normalization. -/
def Sep (x : UInt8) : Prop := x = ch '&' ∨ x = ch '#' ∨ x = ch '='

theorem Sep.props {x : UInt8} (h : Sep x) : unhex x = none ∧ reservedURL x = true ∧ x ≠ ch '%' := by
  rcases h with rfl | rfl | rfl <;> decide +kernel

theorem normalize_cons (c : UInt8) (s : Bytes) :
    templateNormalize (c :: s) =
      (if unreserved c || reservedURL c || (c == ch '%' && hexPair s) then [c] else percentByte c) ++ templateNormalize s := rfl

theorem normalize_sep {x : UInt8} (hx : Sep x) (a b : Bytes) :
    templateNormalize (a ++ x :: b) = templateNormalize a ++ x :: templateNormalize b := by
  obtain ⟨h1, h2, h3⟩ := hx.props
  induction a with
  | nil => simp [normalize_cons, h2, templateNormalize]
  | cons c a ih =>
    have hp : hexPair (a ++ x :: b) = hexPair a := by
      cases a with
      | nil => cases b <;> simp [hexPair, h1]
      | cons d a =>
        cases a with
        | nil => simp [hexPair, h1]
        | cons e a => rfl
    rw [List.cons_append, normalize_cons, normalize_cons, ih, hp, List.append_assoc]

theorem normalize_none (a : Bytes) (x : UInt8) (hx : x = ch '&' ∨ x = ch '#' ∨ x = ch '=' ∨ x = ch ';') (h : x ∈ templateNormalize a) :
    x ∈ a := by
  induction a with
  | nil => simp [templateNormalize] at h
  | cons c a ih =>
    rw [normalize_cons] at h
    rcases List.mem_append.mp h with h | h
    · split at h
      · exact List.mem_cons.mpr (.inl (List.mem_singleton.mp h))
      · obtain ⟨h1, h2, h3, h4⟩ := percentByte_clean c x h
        rcases hx with e | e | e | e
        · exact absurd e h1
        · exact absurd e h3
        · exact absurd e h4
        · exact absurd e h2
    · exact List.mem_cons_of_mem _ (ih h)

theorem normalize_keeps (a : Bytes) (x : UInt8) (hx : x = ch ';') (h : x ∈ a) : x ∈ templateNormalize a := by
  induction a with
  | nil => cases h
  | cons c a ih =>
    rw [normalize_cons]
    rcases List.mem_cons.mp h with h | h
    · have : reservedURL c = true := by rw [← h, hx]; decide +kernel
      rw [this]; simp [h]
    · exact List.mem_append_right _ (ih h)

theorem norm_alone {c : UInt8} (s : Bytes) (h : c ≠ ch '%') (r : Bytes) (hr : unescape s = some r) :
    unescape ((if unreserved c || reservedURL c then [c] else percentByte c) ++ s) = some ((if c = ch '+' then ch ' ' else c) :: r) := by
  split
  · rw [List.singleton_append, unescape_plain _ _ h, hr]; rfl
  · rename_i hn
    rw [percent_unescape c s r hr]
    have : c ≠ ch '+' := by rintro rfl; exact hn (by decide +kernel)
    rw [if_neg this]

theorem pct_facts : unreserved (ch '%') = false ∧ reservedURL (ch '%') = false := by decide +kernel

theorem hex_facts (a x : UInt8) (h : unhex a = some x) : unreserved a = true := by
  have key : ∀ a : UInt8, (unhex a).isSome → unreserved a = true := forall_byte (by decide +kernel)
  exact key a (by rw [h]; rfl)

theorem unescape_normalize (s : Bytes) : unescape (templateNormalize s) = some (dec s) := by
  induction s using dec.induct with
  | case1 => rfl
  | case2 a b s' x y hy hx ih =>
    obtain ⟨p1, p2⟩ := pct_facts
    have ha := hex_facts a x hx
    have hb := hex_facts b y hy
    have e : templateNormalize (ch '%' :: a :: b :: s') = ch '%' :: a :: b :: templateNormalize s' := by
      rw [normalize_cons, normalize_cons, normalize_cons]
      simp [p1, p2, hexPair, hx, hy, ha, hb]
    rw [e]
    unfold unescape dec
    simp [hx, hy, ih]
  | case3 a b s' hno ih =>
    obtain ⟨p1, p2⟩ := pct_facts
    have hp : hexPair (a :: b :: s') = false := by
      simp only [hexPair]
      cases hx : unhex a with
      | none => rfl
      | some x =>
        cases hy : unhex b with
        | none => rfl
        | some y => exact absurd hy (hno x y hx)
    rw [normalize_cons]
    simp only [p1, p2, hp, Bool.or_self, Bool.and_false, Bool.false_eq_true, if_false]
    rw [percent_unescape _ _ _ ih]
    conv => rhs; unfold dec
    simp only [if_true]
  | case4 a =>
    obtain ⟨p1, p2⟩ := pct_facts
    rw [normalize_cons]
    simp only [p1, p2, hexPair, Bool.or_self, Bool.and_false, Bool.false_eq_true, if_false]
    have : unescape (templateNormalize [a]) = some [if a = ch '+' then ch ' ' else a] := by
      have key : ∀ a : UInt8, unescape (templateNormalize [a]) = some [if a = ch '+' then ch ' ' else a] :=
        forall_byte (by decide +kernel)
      exact key a
    rw [percent_unescape _ _ _ this]
    conv => rhs; unfold dec
    simp
  | case5 => decide +kernel
  | case6 c s h ih =>
    rw [normalize_cons]
    have hb : (c == ch '%') = false := by simpa using h
    simp only [hb, Bool.false_and, Bool.or_false]
    rw [norm_alone _ h _ ih]
    conv => rhs; unfold dec
    rw [if_neg h]

theorem dec_length (s : Bytes) : (dec s).length ≤ s.length := by
  induction s using dec.induct with
  | case1 => simp [dec]
  | case2 a b s' x y hy hx ih => unfold dec; simp only [if_true, hx, hy, List.length_cons]; omega
  | case3 a b s' hno ih =>
    unfold dec
    simp only [if_true]
    simp only [List.length_cons] at ih ⊢; omega
  | case4 a => unfold dec; simp
  | case5 => unfold dec; simp
  | case6 c s h ih => unfold dec; rw [if_neg h]; simpa using ih

/-- There is a percent sign with two hexadecimal digits after it. -/
def HexPercent (s : Bytes) : Prop :=
  ∃ a x y b, s = a ++ ch '%' :: x :: y :: b ∧ (unhex x).isSome = true ∧ (unhex y).isSome = true

theorem HexPercent.cons {s : Bytes} (c : UInt8) (h : HexPercent s) : HexPercent (c :: s) := by
  obtain ⟨a, x, y, b, rfl, h1, h2⟩ := h
  exact ⟨c :: a, x, y, b, rfl, h1, h2⟩

theorem dec_self (s : Bytes) : dec s = s ↔ (∀ c ∈ s, c ≠ ch '+') ∧ ¬ HexPercent s := by
  induction s using dec.induct with
  | case1 =>
    simp only [dec, true_iff]
    refine ⟨by simp, ?_⟩
    rintro ⟨a, x, y, b, h, _⟩
    simp at h
  | case2 a b s' x y hy hx ih =>
    have hl := dec_length s'
    constructor
    · intro h
      have := congrArg List.length h
      unfold dec at this
      simp only [if_true, hx, hy, List.length_cons] at this
      omega
    · rintro ⟨_, h⟩
      exact absurd ⟨[], a, b, s', rfl, by rw [hx]; rfl, by rw [hy]; rfl⟩ h
  | case3 a b s' hno ih =>
    unfold dec
    simp only [if_true]
    rw [List.cons.injEq, ih]
    simp only [true_and]
    constructor
    · rintro ⟨h1, h2⟩
      refine ⟨fun c hc => ?_, ?_⟩
      · rcases List.mem_cons.mp hc with rfl | hc
        · decide
        · exact h1 c hc
      · rintro ⟨p, x, y, q, e, hx, hy⟩
        cases p with
        | nil =>
          rw [List.nil_append] at e
          injection e with _ e
          injection e with e1 e
          injection e with e2 _
          subst e1 e2
          obtain ⟨x', hx'⟩ := Option.isSome_iff_exists.mp hx
          obtain ⟨y', hy'⟩ := Option.isSome_iff_exists.mp hy
          exact hno x' y' hx' hy'
        | cons d p =>
          rw [List.cons_append] at e
          injection e with _ e
          exact h2 ⟨p, x, y, q, e, hx, hy⟩
    · rintro ⟨h1, h2⟩
      exact ⟨fun c hc => h1 c (List.mem_cons_of_mem _ hc), fun h => h2 (h.cons _)⟩
  | case4 a =>
    have nohex : ¬ HexPercent [ch '%', a] := by
      rintro ⟨p, x, y, q, e, _⟩
      have := congrArg List.length e
      simp at this
      omega
    unfold dec
    simp only [if_true, nohex, not_false_iff, and_true, List.cons.injEq, true_and]
    constructor
    · intro h c hc
      rcases List.mem_cons.mp hc with rfl | hc
      · decide
      · rw [List.mem_singleton.mp hc]
        rintro rfl
        rw [if_pos rfl] at h
        exact absurd h (by decide)
    · intro h
      rw [if_neg (h a (by simp))]
  | case5 =>
    have nohex : ¬ HexPercent [ch '%'] := by
      rintro ⟨p, x, y, q, e, _⟩
      have := congrArg List.length e
      simp at this
      omega
    unfold dec
    simp only [if_true, nohex, not_false_iff, and_true, true_iff]
    decide
  | case6 c s h ih =>
    unfold dec
    rw [if_neg h, List.cons.injEq, ih]
    constructor
    · rintro ⟨hc, h1, h2⟩
      refine ⟨fun d hd => ?_, ?_⟩
      · rcases List.mem_cons.mp hd with rfl | hd
        · rintro rfl
          rw [if_pos rfl] at hc
          exact absurd hc (by decide)
        · exact h1 d hd
      · rintro ⟨p, x, y, q, e, hx, hy⟩
        cases p with
        | nil =>
          rw [List.nil_append] at e
          injection e with e _
          exact h e
        | cons d p =>
          rw [List.cons_append] at e
          injection e with _ e
          exact h2 ⟨p, x, y, q, e, hx, hy⟩
    · rintro ⟨h1, h2⟩
      exact ⟨if_neg (h1 c (by simp)), fun d hd => h1 d (List.mem_cons_of_mem _ hd), fun h => h2 (h.cons _)⟩

/-! ## Values of a query made of normalized text -/

theorem normalize_noSep {x : UInt8} (hx : Sep x) {a : Bytes} (h : x ∉ a) : ∀ c ∈ templateNormalize a, c ≠ x := by
  rintro c hc rfl
  refine h (normalize_none a c ?_ hc)
  rcases hx with e | e | e
  · exact .inl e
  · exact .inr (.inl e)
  · exact .inr (.inr (.inl e))

theorem value_length (r : Bytes) (k v : Bytes) (h : (k, v) ∈ parseQuery (templateNormalize r)) : v.length ≤ r.length := by
  obtain ⟨n, hn⟩ : ∃ n, r.length = n := ⟨_, rfl⟩
  induction n using Nat.strongRecOn generalizing r with
  | ind n ih =>
    have one : ∀ a : Bytes, ch '&' ∉ a → (k, v) ∈ parseQuery (templateNormalize a) → v.length ≤ a.length := by
      intro a ha h
      unfold parseQuery at h
      rw [pieces_clean _ (normalize_noSep (.inl rfl) ha)] at h
      obtain ⟨p, hp, hpp⟩ := List.mem_filterMap.mp h
      rw [List.mem_singleton.mp hp] at hpp
      unfold parsePiece at hpp
      split at hpp
      · cases hpp
      · split at hpp
        · cases hpp
        · simp only [bind, Option.bind_eq_some_iff, pure, Option.some.injEq, Prod.mk.injEq] at hpp
          obtain ⟨k', _, v', hv, _, rfl⟩ := hpp
          by_cases he : ch '=' ∈ a
          · obtain ⟨b, c, rfl, hb⟩ := List.eq_append_cons_of_mem he
            rw [normalize_sep (.inr (.inr rfl)), (takeWhile_sep (p := (· != ch '=')) _ _ (ch '=')
              (fun c hc => by simpa using normalize_noSep (.inr (.inr rfl)) hb c hc) (by simp)).2,
              List.drop_one, List.tail_cons, unescape_normalize] at hv
            injection hv with hv
            rw [← hv]
            have := dec_length c
            rw [List.length_append, List.length_cons]
            omega
          · rw [(takeWhile_all (p := (· != ch '=')) _
              (fun c hc => by simpa using normalize_noSep (.inr (.inr rfl)) he c hc)).2] at hv
            have : v' = [] := by simpa [unescape] using hv.symm
            simp [this]
    by_cases ha : ch '&' ∈ r
    · obtain ⟨a, b, rfl, hb⟩ := List.eq_append_cons_of_mem ha
      rw [normalize_sep (.inl rfl), parseQuery_split] at h
      rw [List.length_append, List.length_cons] at hn ⊢
      rcases List.mem_append.mp h with h | h
      · have := one a hb h; omega
      · have := ih b.length (by omega) b h rfl; omega
    · exact one r ha h

theorem text_eq {b : Bytes} {t : String} (h : text b = t) : b = bytesOf t ∨ t = "�" := by
  unfold text at h
  split at h
  · left
    rw [← h]
    simp [bytesOf]
  · exact .inr h.symm

/-- The server reads the text as it is from a link into which it was put as it is. -/
def Kept (s : Bytes) : Prop :=
  (∀ c ∈ s, c ≠ ch '&' ∧ c ≠ ch ';' ∧ c ≠ ch '#' ∧ c ≠ ch '+') ∧ ¬ HexPercent s

theorem kept_replacement : Kept (bytesOf "�") := by
  have e : bytesOf "�" = [239, 191, 189] := by decide +kernel
  rw [e]
  refine ⟨by decide +kernel, ?_⟩
  rintro ⟨a, x, y, b, e, _⟩
  have : ch '%' ∈ ([239, 191, 189] : Bytes) := by rw [e]; simp
  revert this
  decide +kernel

/-- A parameter whose value was put into the link as it is, followed by others. -/
theorem get_param (k : Bytes) (hk : Plain k) (Q S : Bytes) (t : String)
    (hQ : ∀ c ∈ Q, c ≠ ch '#') (hkQ : vals k (parseQuery Q) = [])
    (hS : S = [] ∨ ∃ S', S = ch '&' :: S' ∧ (∀ c ∈ S', c ≠ ch '#') ∧ vals k (parseQuery S') = []) :
    text ((parseQuery (followed (Q ++ ch '&' :: (k ++ ch '=' :: (templateNormalize (bytesOf t) ++ S))))).get k) = t ↔
      Kept (bytesOf t) := by
  have hkc : ∀ c ∈ k, _ := fun c hc => unreserved_clean (hk.2 c hc)
  have hSh : ∀ c ∈ S, c ≠ ch '#' := by
    rcases hS with rfl | ⟨S', rfl, h, _⟩
    · simp
    · intro c hc
      rcases List.mem_cons.mp hc with rfl | hc
      · decide
      · exact h c hc
  have hpre : ∀ c ∈ Q ++ ch '&' :: (k ++ [ch '=']), c ≠ ch '#' := by
    intro c hc
    simp only [List.mem_append, List.mem_cons, List.not_mem_nil, or_false] at hc
    rcases hc with h | rfl | h | rfl
    · exact hQ c h
    · decide
    · exact (hkc c h).2.2.1
    · decide
  obtain ⟨x, hx⟩ : ∃ x, bytesOf t = x := ⟨_, rfl⟩
  rw [hx]
  -- what the browser sends
  obtain ⟨x', T, hf, hT, hsub, hx'⟩ : ∃ x' T, followed (Q ++ ch '&' :: (k ++ ch '=' :: (templateNormalize x ++ S))) =
      Q ++ ch '&' :: (k ++ ch '=' :: (templateNormalize x' ++ T)) ∧ (T = [] ∨ T = S) ∧
      (∀ c ∈ x', c ∈ x ∧ c ≠ ch '#') ∧ (x' = x ∨ x'.length < x.length ∧ ch '#' ∈ x) := by
    by_cases hh : ch '#' ∈ x
    · obtain ⟨a, b, rfl, ha⟩ := List.eq_append_cons_of_mem hh
      refine ⟨a, [], ?_, .inl rfl, fun c hc => ⟨by simp [hc], fun e => ha (e ▸ hc)⟩, .inr (by simp)⟩
      rw [normalize_sep (.inr (.inl rfl))]
      have e : Q ++ ch '&' :: (k ++ ch '=' :: (templateNormalize a ++ ch '#' :: templateNormalize b ++ S)) =
          (Q ++ ch '&' :: (k ++ ch '=' :: templateNormalize a)) ++ ch '#' :: (templateNormalize b ++ S) := by simp
      unfold followed
      rw [e, (takeWhile_sep (p := (· != ch '#')) _ _ (ch '#') ?_ (by simp)).1, List.append_nil]
      intro c hc
      have hc' : c ∈ (Q ++ ch '&' :: (k ++ [ch '='])) ++ templateNormalize a := by simpa using hc
      rcases List.mem_append.mp hc' with h | h
      · simpa using hpre c h
      · simpa using normalize_noSep (.inr (.inl rfl)) ha c h
    · refine ⟨x, S, followed_all _ ?_, .inr rfl, fun c hc => ⟨hc, fun e => hh (e ▸ hc)⟩, .inl rfl⟩
      intro c hc
      have hc' : c ∈ ((Q ++ ch '&' :: (k ++ [ch '='])) ++ templateNormalize x) ++ S := by simpa using hc
      rcases List.mem_append.mp hc' with h | h
      · rcases List.mem_append.mp h with h | h
        · exact hpre c h
        · exact normalize_noSep (.inr (.inl rfl)) hh c h
      · exact hSh c h
  rw [hf, parseQuery_split]
  have hT' : T = [] ∨ ∃ S', T = ch '&' :: S' ∧ vals k (parseQuery S') = [] := by
    rcases hT with rfl | rfl
    · exact .inl rfl
    · rcases hS with h | ⟨S', h, _, h'⟩
      · exact .inl h
      · exact .inr ⟨S', h, h'⟩
  -- the first piece and the rest
  obtain ⟨p, rest, hsplit, hp, hrest⟩ : ∃ p rest, parseQuery (k ++ ch '=' :: (templateNormalize x' ++ T)) =
      parseQuery (k ++ ch '=' :: templateNormalize p) ++ rest ∧ ch '&' ∉ p ∧
      (p = x' ∧ vals k rest = [] ∨
        p.length < x'.length ∧ ch '&' ∈ x' ∧ (∀ c ∈ p, c ∈ x') ∧ ∀ v ∈ vals k rest, v.length < x'.length) := by
    by_cases ha : ch '&' ∈ x'
    · obtain ⟨a, b, rfl, hb⟩ := List.eq_append_cons_of_mem ha
      have hshort : ∀ v, (k, v) ∈ parseQuery (templateNormalize b) → v.length < (a ++ ch '&' :: b).length := by
        intro v hv
        have := value_length b k v hv
        rw [List.length_append, List.length_cons]; omega
      have mem_vals : ∀ (v : Bytes) (l : Values), v ∈ vals k l → (k, v) ∈ l := by
        intro v l h
        obtain ⟨q, hq, hq'⟩ := List.mem_filterMap.mp h
        split at hq'
        · rename_i e
          injection hq' with e'
          rw [← e, ← e']; exact hq
        · cases hq'
      rw [normalize_sep (.inl rfl)]
      refine ⟨a, parseQuery (templateNormalize b ++ T), ?_, hb, .inr ⟨by simp, by simp, by simp +contextual, ?_⟩⟩
      · have e : k ++ ch '=' :: (templateNormalize a ++ ch '&' :: templateNormalize b ++ T) =
          (k ++ ch '=' :: templateNormalize a) ++ ch '&' :: (templateNormalize b ++ T) := by simp
        rw [e, parseQuery_split]
      · intro v hv
        rcases hT' with rfl | ⟨S', rfl, h'⟩
        · rw [List.append_nil] at hv
          exact hshort v (mem_vals _ _ hv)
        · rw [parseQuery_split, vals_app, h', List.append_nil] at hv
          exact hshort v (mem_vals _ _ hv)
    · rcases hT' with rfl | ⟨S', rfl, h'⟩
      · exact ⟨x', [], by simp, ha, .inl ⟨rfl, rfl⟩⟩
      · refine ⟨x', parseQuery S', ?_, ha, .inl ⟨rfl, h'⟩⟩
        have e : k ++ ch '=' :: (templateNormalize x' ++ ch '&' :: S') = (k ++ ch '=' :: templateNormalize x') ++ ch '&' :: S' := by simp
        rw [e, parseQuery_split]
  have hle : p.length ≤ x'.length := by
    rcases hrest with ⟨rfl, _⟩ | ⟨h, _⟩
    · exact Nat.le_refl _
    · omega
  have hps : ∀ c ∈ p, c ∈ x' := by
    rcases hrest with ⟨rfl, _⟩ | ⟨_, _, h, _⟩
    · exact fun c hc => hc
    · exact h
  have hle' : x'.length ≤ x.length := by
    rcases hx' with ⟨rfl, _⟩ | h
    · exact Nat.le_refl _
    · omega
  unfold Values.get
  rw [hsplit, vals_app, hkQ, List.nil_append, vals_app]
  by_cases hs : ch ';' ∈ p
  · -- the parameter is dropped
    have hnone : parseQuery (k ++ ch '=' :: templateNormalize p) = [] := by
      unfold parseQuery
      rw [pieces_clean]
      · have : ch ';' ∈ k ++ ch '=' :: templateNormalize p :=
          List.mem_append_right _ (List.mem_cons_of_mem _ (normalize_keeps p _ rfl hs))
        simp [parsePiece, this]
      · intro c hc
        rcases List.mem_append.mp hc with h | h
        · exact (hkc c h).1
        · rcases List.mem_cons.mp h with rfl | h
          · decide
          · exact normalize_noSep (.inl rfl) hp c h
    have hnot : ¬ Kept x := fun h => (h.1 _ (hsub _ (hps _ hs)).1).2.1 rfl
    refine ⟨fun h => absurd ?_ hnot, fun h => absurd h hnot⟩
    rw [hnone] at h
    have e : vals k [] = ([] : List Bytes) := rfl
    rw [e, List.nil_append] at h
    cases hv : vals k rest with
    | nil =>
      rw [hv] at h
      have : t = "" := h.symm.trans (text_bytesOf "")
      rw [← hx, this]
      exact ⟨by simp [bytesOf], by rintro ⟨a, x, y, b, e, _⟩; simp [bytesOf] at e⟩
    | cons v l =>
      rw [hv] at h
      rcases text_eq h with h | h
      · rcases hrest with ⟨_, hr⟩ | ⟨_, _, _, hr⟩
        · rw [hv] at hr; cases hr
        · have := hr v (by rw [hv]; simp)
          have : v.length = x.length := by
            rw [← hx]; exact congrArg List.length h
          omega
      · rw [← hx, h]; exact kept_replacement
  · have hone : parseQuery (k ++ ch '=' :: templateNormalize p) = [(k, dec p)] := by
      refine parse_param k _ _ hk ?_ (unescape_normalize p)
      intro c hc
      refine ⟨normalize_noSep (.inl rfl) hp c hc, ?_, normalize_noSep (.inr (.inl rfl)) (fun h => (hsub _ (hps _ h)).2 rfl) c hc⟩
      rintro rfl
      exact hs (normalize_none p _ (.inr (.inr (.inr rfl))) hc)
    rw [hone, vals_one, if_pos rfl]
    show text (dec p) = t ↔ _
    constructor
    · intro h
      rcases text_eq h with h | h
      · have hl : (dec p).length = x.length := by rw [h, hx]
        have := dec_length p
        have hpx : p = x' := by
          rcases hrest with ⟨h, _⟩ | ⟨h, _⟩
          · exact h
          · omega
        have hxx : x' = x := by
          rcases hx' with h | ⟨h, _⟩
          · exact h
          · omega
        subst hpx hxx
        rw [hx] at h
        obtain ⟨h1, h2⟩ := (dec_self _).mp h
        exact ⟨fun c hc => ⟨fun e => hp (e ▸ hc), fun e => hs (e ▸ hc), (hsub c hc).2, h1 c hc⟩, h2⟩
      · rw [← hx, h]; exact kept_replacement
    · intro h
      have hxx : x' = x := by
        rcases hx' with h' | ⟨_, h'⟩
        · exact h'
        · exact absurd rfl (h.1 _ h').2.2.1
      have hpx : p = x' := by
        rcases hrest with ⟨h', _⟩ | ⟨_, h', _⟩
        · exact h'
        · exact absurd rfl (h.1 _ (hsub _ h').1).1
      rw [hpx, hxx, (dec_self x).mpr ⟨fun c hc => (h.1 c hc).2.2.2, h.2⟩, ← hx, text_bytesOf]

/-! ## C89 -/

theorem normalize_append {p : Bytes} (h : ∀ c ∈ p, c ≠ ch '%') (q : Bytes) :
    templateNormalize (p ++ q) = p.flatMap normByte ++ templateNormalize q := by
  induction p with
  | nil => rfl
  | cons c p ih =>
    have hc : (c == ch '%') = false := by simpa using h c (by simp)
    rw [List.cons_append, normalize_cons, ih (fun d hd => h d (by simp [hd])), List.flatMap_cons, normByte, hc]
    simp

theorem suffix_tail (cell : Cell) : cell.suffix = [] ∨
    ∃ S', cell.suffix = ch '&' :: S' ∧ (∀ c ∈ S', c ≠ ch '#') ∧ parseQuery S' = cell.values := by
  have flag : ∀ (k sep : String), Plain (bytesOf k) → bytesOf sep = ch '&' :: bytesOf k →
      ∃ S', bytesOf sep = ch '&' :: S' ∧ (∀ c ∈ S', c ≠ ch '#') ∧ parseQuery S' = [(bytesOf k, [])] := by
    intro k sep hk h
    exact ⟨_, h, fun c hc => (unreserved_clean (hk.2 c hc)).2.2.1, parse_flag _ hk⟩
  cases cell with
  | name => exact .inl rfl
  | active => exact .inr (flag "active" "&active" (plain_iff "active" (by decide +kernel)) (by decide +kernel))
  | errored => exact .inr (flag "errored" "&errored" (plain_iff "errored" (by decide +kernel)) (by decide +kernel))
  | bucket min =>
    have hsep : bytesOf "&min=" = ch '&' :: (bytesOf "min" ++ [ch '=']) := by decide +kernel
    have hk : Plain (bytesOf "min") := plain_iff "min" (by decide +kernel)
    have hw := templateEscape_clean (bytesOf (String.ofList (durationString min)))
    refine .inr ⟨bytesOf "min" ++ ch '=' :: templateEscape (bytesOf (String.ofList (durationString min))), ?_, ?_, ?_⟩
    · simp [Cell.suffix, hsep]
    · intro c hc
      rcases List.mem_append.mp hc with hc | hc
      · exact (unreserved_clean (hk.2 c hc)).2.2.1
      · rcases List.mem_cons.mp hc with rfl | hc
        · decide
        · exact (hw c hc).2.2
    · exact parse_param _ _ _ hk hw (unescape_templateEscape _)

theorem cell_values_none (k : String) (h1 : k ≠ "active") (h2 : k ≠ "min") (h3 : k ≠ "errored") (cell : Cell) :
    vals (bytesOf k) cell.values = [] := by
  cases cell with
  | name => rfl
  | active => rw [Cell.values, vals_one, if_neg (bytesOf_ne (Ne.symm h1))]
  | bucket d => rw [Cell.values, vals_one, if_neg (bytesOf_ne (Ne.symm h2))]
  | errored => rw [Cell.values, vals_one, if_neg (bytesOf_ne (Ne.symm h3))]

/-- **C89** exactly which categories have links: following any link in the row of a category (other than `overall`) asks for
that category if and only if its name has none of the bytes `&`, `;`, `#` and `+` and no `%` with two hexadecimal digits after
it.  (The page's query and sources are without such characters here.) -/
theorem C89_category_exact (mulFrac : Nat → Nat → Nat → Nat) (req : SearchRequest)
    (hq : SafeText req.filter.query) (hs : ∀ s ∈ req.filter.sources, SafeText s)
    (category : String) (hne : category ≠ "overall") (cell : Cell) :
    (requestOfURL mulFrac (followed (cellLink req category cell))).filter.category = category ↔
      (∀ c ∈ bytesOf category, c ≠ 38 ∧ c ≠ 59 ∧ c ≠ 35 ∧ c ≠ 43) ∧
      ¬ ∃ a x y b, bytesOf category = a ++ 37 :: x :: y :: b ∧ (unhex x).isSome = true ∧ (unhex y).isSome = true := by
  have hmeans := queryParams_means req hq hs
  have e : ∀ a b : String, (bytesOf a = bytesOf b) = (a = b) := fun a b => propext ⟨bytesOf_inj, fun h => h ▸ rfl⟩
  have hsep : bytesOf "&category=" = ch '&' :: (bytesOf "category" ++ [ch '=']) := by decide +kernel
  have hk : Plain (bytesOf "category") := plain_iff "category" (by decide +kernel)
  have hlink : cellLink req category cell = (queryParams req).flatMap normByte ++
      ch '&' :: (bytesOf "category" ++ ch '=' :: (templateNormalize (bytesOf category) ++ cell.suffix)) := by
    unfold cellLink categoryParams
    rw [if_pos hne, List.append_assoc, normalize_append hmeans.noPercent, hsep]
    have e1 : ch '&' :: (bytesOf "category" ++ [ch '=']) ++ bytesOf category =
        ([] : Bytes) ++ ch '&' :: (bytesOf "category" ++ ch '=' :: bytesOf category) := by simp
    rw [e1, normalize_sep (.inl rfl), normalize_sep (.inr (.inr rfl)),
      templateNormalize_eq _ (fun c hc => (unreserved_clean (hk.2 c hc)).2.2.2.2.1), hk.norm]
    simp [templateNormalize]
  have hg := get_param (bytesOf "category") hk ((queryParams req).flatMap normByte) cell.suffix category hmeans.noHash
    (by rw [hmeans.parse, vals_common]; simp [e])
    (by
      rcases suffix_tail cell with h | ⟨S', h1, h2, h3⟩
      · exact .inl h
      · exact .inr ⟨S', h1, h2, by rw [h3]; exact cell_values_none _ (by decide) (by decide) (by decide) cell⟩)
  rw [hlink]
  exact hg

/-- Names that look special and have links: a percent sign alone, an equals sign, a slash, a space; and some that have none. -/
example : Kept (bytesOf "100% a=b /ü?") ∧ ¬ Kept (bytesOf "a&b") ∧ ¬ Kept (bytesOf "%41") ∧ ¬ Kept (bytesOf "a;b&category=c") := by
  have nohex : ∀ s : Bytes, (∀ i : Fin s.length, s[i] = ch '%' → ∀ x ∈ s[(i : Nat) + 1]?, (unhex x).isSome = false) → ¬ HexPercent s := by
    rintro s h ⟨a, x, y, b, rfl, hx, hy⟩
    have := h ⟨a.length, by simp⟩ (by simp) x (by simp)
    rw [this] at hx
    cases hx
  refine ⟨⟨by decide +kernel, nohex _ (by decide +kernel)⟩, fun h => ?_, fun h => ?_, fun h => ?_⟩
  · exact absurd h.1 (by decide +kernel)
  · exact h.2 ⟨[], ch '4', ch '1', [], by decide +kernel, by decide +kernel, by decide +kernel⟩
  · exact absurd h.1 (by decide +kernel)

/-- **C89** is violated by every category with an ampersand, a semicolon, a hash or a plus sign: no link in its row asks for
it. -/
theorem C89_category_always_violated (mulFrac : Nat → Nat → Nat → Nat) (req : SearchRequest)
    (hq : SafeText req.filter.query) (hs : ∀ s ∈ req.filter.sources, SafeText s) (category : String)
    (hc : ∃ c ∈ bytesOf category, c = 38 ∨ c = 59 ∨ c = 35 ∨ c = 43) (cell : Cell) :
    (requestOfURL mulFrac (followed (cellLink req category cell))).filter.category ≠ category := by
  obtain ⟨c, hm, hc⟩ := hc
  intro h
  by_cases hne : category = "overall"
  · subst hne
    have : ∀ c ∈ bytesOf "overall", ¬ (c = 38 ∨ c = 59 ∨ c = 35 ∨ c = 43) := by decide +kernel
    exact this c hm hc
  · obtain ⟨h1, _⟩ := (C89_category_exact mulFrac req hq hs category hne cell).mp h
    obtain ⟨a, b, c', d⟩ := h1 c hm
    rcases hc with rfl | rfl | rfl | rfl
    · exact a rfl
    · exact b rfl
    · exact c' rfl
    · exact d rfl

/-- Parameters, each after an ampersand. -/
def params (l : Values) : Bytes := l.flatMap fun p => ch '&' :: (p.1 ++ ch '=' :: p.2)

theorem params_means (l : Values) (hl : ∀ p ∈ l, Plain p.1 ∧ Safe p.2) :
    params l = [] ∧ l = [] ∨ ∃ r, params l = ch '&' :: r ∧ Means r l := by
  induction l with
  | nil => exact .inl ⟨rfl, rfl⟩
  | cons p l ih =>
    obtain ⟨hk, hv⟩ := hl p (by simp)
    have h1 := means_one p.1 p.2 hk hv
    rcases ih (fun q hq => hl q (by simp [hq])) with ⟨h, rfl⟩ | ⟨r, h, hm⟩
    · refine .inr ⟨p.1 ++ ch '=' :: p.2, ?_, h1⟩
      simp [params]
    · refine .inr ⟨(p.1 ++ ch '=' :: p.2) ++ ch '&' :: r, ?_, h1.and hm⟩
      have : params (p :: l) = ch '&' :: (p.1 ++ ch '=' :: p.2) ++ params l := by simp [params]
      rw [this, h]
      simp

theorem addEach_params (p : Bytes) (key sep : String) (hsep : bytesOf sep = ch '&' :: (bytesOf key ++ [ch '='])) (l : List Bytes) :
    addEach p sep l = p ++ params (l.map fun v => (bytesOf key, v)) := by
  induction l generalizing p with
  | nil => simp [addEach, params]
  | cons v l ih =>
    have : addEach p sep (v :: l) = addEach (p ++ bytesOf sep ++ v) sep l := rfl
    rw [this, ih, hsep]
    simp [params]

/-- The parameters after the query. -/
def afterQuery (req : SearchRequest) (category : String) : Values :=
  (req.filter.sources.map fun s => (bytesOf "source", bytesOf s)) ++
  (if req.bucketing ≠ defaultBucketing then req.bucketing.map fun d => (bytesOf "b", bytesOf (String.ofList (durationString d))) else []) ++
  (if category ≠ "overall" then [(bytesOf "category", bytesOf category)] else [])

theorem categoryParams_eq (req : SearchRequest) (category : String) (hne : req.filter.query ≠ "") :
    categoryParams req category = (bytesOf "n=" ++ bytesOf (String.ofList (decimalString req.limit))) ++
      ch '&' :: (bytesOf "q" ++ ch '=' :: (bytesOf req.filter.query ++ params (afterQuery req category))) := by
  have hsq : bytesOf "&q=" = ch '&' :: (bytesOf "q" ++ [ch '=']) := by decide +kernel
  have hss : bytesOf "&source=" = ch '&' :: (bytesOf "source" ++ [ch '=']) := by decide +kernel
  have hsb : bytesOf "&b=" = ch '&' :: (bytesOf "b" ++ [ch '=']) := by decide +kernel
  have hsc : bytesOf "&category=" = ch '&' :: (bytesOf "category" ++ [ch '=']) := by decide +kernel
  have happ : ∀ a b : Values, params (a ++ b) = params a ++ params b := by intro a b; simp [params]
  have hq : queryParams req = (bytesOf "n=" ++ bytesOf (String.ofList (decimalString req.limit))) ++
      ch '&' :: (bytesOf "q" ++ ch '=' :: (bytesOf req.filter.query ++
        params ((req.filter.sources.map fun s => (bytesOf "source", bytesOf s)) ++
          (if req.bucketing ≠ defaultBucketing then req.bucketing.map fun d => (bytesOf "b", bytesOf (String.ofList (durationString d))) else [])))) := by
    unfold queryParams
    simp only
    rw [if_pos hne, addEach_params _ "source" "&source=" hss, happ, List.map_map]
    split
    · rw [addEach_params _ "b" "&b=" hsb, hsq, List.map_map]
      simp [Function.comp_def]
    · rw [hsq]
      simp [params, Function.comp_def]
  unfold categoryParams afterQuery
  rw [hq, happ (_ ++ _) (if category ≠ "overall" then _ else _)]
  split
  · rw [hsc]; simp [params]
  · simp [params]

/-- **C89** exactly which queries the links keep: on a page with a query, following any link in the summary asks for that query
if and only if it has none of the bytes `&`, `;`, `#` and `+` and no `%` with two hexadecimal digits after it.  (The names of
the row's category and the page's sources are without such characters here.) -/
theorem C89_query_exact (mulFrac : Nat → Nat → Nat → Nat) (req : SearchRequest) (hne : req.filter.query ≠ "")
    (hs : ∀ s ∈ req.filter.sources, SafeText s) (category : String) (hcat : SafeText category) (cell : Cell) :
    (requestOfURL mulFrac (followed (cellLink req category cell))).filter.query = req.filter.query ↔
      (∀ c ∈ bytesOf req.filter.query, c ≠ 38 ∧ c ≠ 59 ∧ c ≠ 35 ∧ c ≠ 43) ∧
      ¬ ∃ a x y b, bytesOf req.filter.query = a ++ 37 :: x :: y :: b ∧ (unhex x).isSome = true ∧ (unhex y).isSome = true := by
  have e : ∀ a b : String, (bytesOf a = bytesOf b) = (a = b) := fun a b => propext ⟨bytesOf_inj, fun h => h ▸ rfl⟩
  have hkq : Plain (bytesOf "q") := plain_iff "q" (by decide +kernel)
  have hn : Means (bytesOf "n=" ++ bytesOf (String.ofList (decimalString req.limit)))
      [(bytesOf "n", bytesOf (String.ofList (decimalString req.limit)))] := by
    have : bytesOf "n=" ++ bytesOf (String.ofList (decimalString req.limit)) = bytesOf "n" ++ ch '=' :: bytesOf (String.ofList (decimalString req.limit)) := by
      have : bytesOf "n=" = bytesOf "n" ++ [ch '='] := by decide +kernel
      rw [this]; simp
    rw [this]
    exact means_one _ _ (plain_iff "n" (by decide +kernel)) (safe_numeric (decimalString_numeric _))
  have hafter : ∀ p ∈ afterQuery req category, (Plain p.1 ∧ Safe p.2) ∧ p.1 ≠ bytesOf "q" := by
    intro p hp
    unfold afterQuery at hp
    rcases List.mem_append.mp hp with hp | hp
    · rcases List.mem_append.mp hp with hp | hp
      · obtain ⟨x, hx, rfl⟩ := List.mem_map.mp hp
        exact ⟨⟨plain_iff "source" (by decide +kernel), (hs x hx).bytes⟩, bytesOf_ne (by decide)⟩
      · split at hp
        · obtain ⟨x, hx, rfl⟩ := List.mem_map.mp hp
          exact ⟨⟨plain_iff "b" (by decide +kernel), safe_numeric (durationString_numeric x)⟩, bytesOf_ne (by decide)⟩
        · cases hp
    · split at hp
      · rw [List.mem_singleton.mp hp]
        exact ⟨⟨plain_iff "category" (by decide +kernel), hcat.bytes⟩, bytesOf_ne (by decide)⟩
      · cases hp
  have hnoq : vals (bytesOf "q") (afterQuery req category) = [] := by
    unfold vals
    rw [List.filterMap_eq_nil_iff]
    intro p hp
    rw [if_neg (hafter p hp).2]
  have hcv := cell_values_none "q" (by decide) (by decide) (by decide) cell
  have split_norm : ∀ r : Bytes, templateNormalize ((bytesOf "n=" ++ bytesOf (String.ofList (decimalString req.limit))) ++
      ch '&' :: (bytesOf "q" ++ ch '=' :: r)) =
      (bytesOf "n=" ++ bytesOf (String.ofList (decimalString req.limit))).flatMap normByte ++
        ch '&' :: (bytesOf "q" ++ ch '=' :: templateNormalize r) := by
    intro r
    rw [normalize_append hn.noPercent]
    have e1 : ch '&' :: (bytesOf "q" ++ ch '=' :: r) = ([] : Bytes) ++ ch '&' :: (bytesOf "q" ++ ch '=' :: r) := rfl
    rw [e1, normalize_sep (.inl rfl), normalize_sep (.inr (.inr rfl)),
      templateNormalize_eq _ (fun c hc => (unreserved_clean (hkq.2 c hc)).2.2.2.2.1), hkq.norm]
    simp [templateNormalize]
  obtain ⟨S, hlink, hS⟩ : ∃ S, cellLink req category cell =
      (bytesOf "n=" ++ bytesOf (String.ofList (decimalString req.limit))).flatMap normByte ++
        ch '&' :: (bytesOf "q" ++ ch '=' :: (templateNormalize (bytesOf req.filter.query) ++ S)) ∧
      (S = [] ∨ ∃ S', S = ch '&' :: S' ∧ (∀ c ∈ S', c ≠ ch '#') ∧ vals (bytesOf "q") (parseQuery S') = []) := by
    unfold cellLink
    rw [categoryParams_eq req category hne, split_norm]
    rcases params_means (afterQuery req category) (fun p hp => (hafter p hp).1) with ⟨h, _⟩ | ⟨r, h, hm⟩
    · refine ⟨cell.suffix, by rw [h]; simp, ?_⟩
      rcases suffix_tail cell with h | ⟨S', h1, h2, h3⟩
      · exact .inl h
      · exact .inr ⟨S', h1, h2, by rw [h3]; exact hcv⟩
    · refine ⟨ch '&' :: (r.flatMap normByte ++ cell.suffix), ?_, .inr ⟨_, rfl, ?_, ?_⟩⟩
      · rw [h, normalize_sep (.inl rfl), templateNormalize_eq r hm.noPercent]
        simp
      · intro c hc
        rcases List.mem_append.mp hc with hc | hc
        · exact hm.noHash c hc
        · rcases suffix_tail cell with h | ⟨S', h1, h2, h3⟩
          · rw [h] at hc; cases hc
          · rw [h1] at hc
            rcases List.mem_cons.mp hc with rfl | hc
            · decide
            · exact h2 c hc
      · rcases suffix_tail cell with h | ⟨S', h1, h2, h3⟩
        · rw [h, List.append_nil, hm.parse, hnoq]
        · rw [h1, parseQuery_split, hm.parse, vals_app, hnoq, h3, hcv, List.append_nil]
  have hg := get_param (bytesOf "q") hkq _ S req.filter.query hn.noHash
    (by rw [hn.parse, vals_one, if_neg (bytesOf_ne (by decide))]) hS
  have hk : (requestOfURL mulFrac (followed (cellLink req category cell))).filter.query =
      text ((parseQuery (followed (cellLink req category cell))).get (bytesOf "q")) := rfl
  rw [hk, hlink]
  exact hg

/-- A page with the query `a%b=(c|d)*` keeps it, a page with `d+` does not. -/
example : Kept (bytesOf "a%x=(c|d)*") ∧ ¬ Kept (bytesOf "d+") := by
  refine ⟨⟨by decide +kernel, ?_⟩, fun h => absurd h.1 (by decide +kernel)⟩
  rintro ⟨a, x, y, b, e, hx, _⟩
  have hb : bytesOf "a%x=(c|d)*" = [97, 37, 120, 61, 40, 99, 124, 100, 41, 42] := by decide +kernel
  rw [hb] at e
  have key : ∀ (l : Bytes) (i : Nat), l[i]? = some 37 → l = [97, 37, 120, 61, 40, 99, 124, 100, 41, 42] → l[i + 1]? = some 120 := by
    rintro l i h rfl
    match i with
    | 0 => cases h
    | 1 => rfl
    | i + 2 =>
      exfalso
      have : (37 : UInt8) ∈ ([120, 61, 40, 99, 124, 100, 41, 42] : Bytes) := List.mem_of_getElem? (i := i) h
      revert this
      decide +kernel
  have h1 := key (a ++ ch '%' :: x :: y :: b) a.length (by simp; rfl) e.symm
  have h2 : x = 120 := by simpa using h1
  rw [h2] at hx
  revert hx
  decide +kernel

end Trc.Web
