import Verif.Web.Query

/-!
# `ParseQuery` undoes `Encode`
-/

namespace Trc.Web

theorem text_bytesOf (s : String) : text (bytesOf s) = s := by
  unfold text bytesOf
  have h : (⟨s.toByteArray.data.toList.toArray⟩ : ByteArray) = s.toByteArray := by simp
  simp only [h, s.isValidUTF8, dite_true]

theorem bytesOf_inj {s t : String} (h : bytesOf s = bytesOf t) : s = t := by
  rw [← text_bytesOf s, h, text_bytesOf]

theorem bytesOf_ne {s t : String} (h : s ≠ t) : bytesOf s ≠ bytesOf t := fun e => h (bytesOf_inj e)

/-! ## Escaping -/

theorem unescape_plain (c : UInt8) (s : Bytes) (h : c ≠ ch '%') :
    unescape (c :: s) = (unescape s).map (fun r => (if c = ch '+' then ch ' ' else c) :: r) := by
  have e : unescape (c :: s) = (do
      let r ← unescape s
      return (if c = ch '+' then ch ' ' else c) :: r) := by
    conv => lhs; unfold unescape
    rw [if_neg h]
  rw [e]
  cases unescape s <;> rfl

theorem escapeByte_unescape (c : UInt8) (s r : Bytes) (h : unescape s = some r) :
    unescape (escapeByte c ++ s) = some (c :: r) := by
  have key : ∀ c : UInt8, escapeByte c = [ch '+'] ∧ c = ch ' ' ∨
      (escapeByte c = [c] ∧ c ≠ ch '%' ∧ c ≠ ch '+') ∨
      (∃ a b x y, escapeByte c = [ch '%', a, b] ∧ unhex a = some x ∧ unhex b = some y ∧ x * 16 + y = c) := by
    have : ∀ n : Fin 256, let c : UInt8 := ⟨⟨n⟩⟩
        (escapeByte c = [ch '+'] ∧ c = ch ' ') ∨ (escapeByte c = [c] ∧ c ≠ ch '%' ∧ c ≠ ch '+') ∨
        (escapeByte c = [ch '%', upperhex (c / 16), upperhex (c % 16)] ∧ unhex (upperhex (c / 16)) = some (c / 16) ∧
          unhex (upperhex (c % 16)) = some (c % 16) ∧ c / 16 * 16 + c % 16 = c) := by decide +kernel
    intro c
    rcases this ⟨c.toNat, c.toNat_lt⟩ with h | h | h
    · exact Or.inl h
    · exact Or.inr (Or.inl h)
    · exact Or.inr (Or.inr ⟨_, _, _, _, h⟩)
  rcases key c with ⟨h1, h2⟩ | ⟨h1, h2, h3⟩ | ⟨a, b, x, y, h1, h2, h3, h4⟩
  · rw [h1, List.singleton_append, unescape_plain _ _ (by decide), h, h2]
    rfl
  · rw [h1, List.singleton_append, unescape_plain _ _ h2, h]
    simp [h3]
  · rw [h1, List.cons_append, List.cons_append, List.singleton_append, unescape, if_pos rfl]
    simp [h2, h3, h, h4]

theorem unescape_escape (s : Bytes) : unescape (escape s) = some s := by
  unfold escape
  induction s with
  | nil => rfl
  | cons c s ih => rw [List.flatMap_cons]; exact escapeByte_unescape c _ s ih

/-- Escaped text has none of the separators. -/
theorem escape_clean (s : Bytes) (c : UInt8) (h : c ∈ escape s) : c ≠ ch '&' ∧ c ≠ ch ';' ∧ c ≠ ch '=' := by
  unfold escape at h
  rw [List.mem_flatMap] at h
  obtain ⟨b, _, hb⟩ := h
  have : ∀ n : Fin 256, ∀ c ∈ escapeByte ⟨⟨n⟩⟩, c ≠ ch '&' ∧ c ≠ ch ';' ∧ c ≠ ch '=' := by decide +kernel
  exact this ⟨b.toNat, b.toNat_lt⟩ c hb

/-! ## Pieces -/

theorem pieces_ne_nil (s : Bytes) : pieces s ≠ [] := by
  cases s with
  | nil => simp [pieces]
  | cons c s =>
    unfold pieces
    split
    · simp
    · split <;> simp

theorem pieces_clean (a : Bytes) (h : ∀ c ∈ a, c ≠ ch '&') : pieces a = [a] := by
  induction a with
  | nil => rfl
  | cons c a ih =>
    unfold pieces
    rw [if_neg (h c (by simp)), ih (fun d hd => h d (by simp [hd]))]

theorem pieces_amp (a b : Bytes) (h : ∀ c ∈ a, c ≠ ch '&') : pieces (a ++ ch '&' :: b) = a :: pieces b := by
  induction a with
  | nil => rw [List.nil_append]; conv => lhs; unfold pieces
           rw [if_pos rfl]
  | cons c a ih =>
    rw [List.cons_append]
    conv => lhs; unfold pieces
    rw [if_neg (h c (by simp)), ih (fun d hd => h d (by simp [hd]))]

theorem pieces_join (l : List Bytes) (hl : l ≠ []) (h : ∀ a ∈ l, ∀ c ∈ a, c ≠ ch '&') : pieces (joinAmp l) = l := by
  induction l with
  | nil => exact absurd rfl hl
  | cons a l ih =>
    cases l with
    | nil => exact pieces_clean a (h a (by simp))
    | cons b l =>
      rw [joinAmp, pieces_amp a _ (h a (by simp)), ih (by simp) (fun x hx => h x (by simp [hx]))]

theorem encodePair_clean (p : Bytes × Bytes) (c : UInt8) (h : c ∈ encodePair p) : c ≠ ch '&' ∧ c ≠ ch ';' := by
  unfold encodePair at h
  rcases List.mem_append.1 h with h | h
  · exact ⟨(escape_clean _ _ h).1, (escape_clean _ _ h).2.1⟩
  · rcases List.mem_cons.1 h with rfl | h
    · decide
    · exact ⟨(escape_clean _ _ h).1, (escape_clean _ _ h).2.1⟩

theorem takeWhile_sep {p : UInt8 → Bool} (a b : Bytes) (x : UInt8) (ha : ∀ c ∈ a, p c = true) (hx : p x = false) :
    (a ++ x :: b).takeWhile p = a ∧ (a ++ x :: b).dropWhile p = x :: b := by
  induction a with
  | nil => simp [hx]
  | cons c a ih =>
    have hc := ha c (by simp)
    have := ih (fun d hd => ha d (by simp [hd]))
    simp [hc, this.1, this.2]

theorem parsePiece_encodePair (p : Bytes × Bytes) : parsePiece (encodePair p) = some p := by
  unfold parsePiece
  rw [if_neg (fun h => (encodePair_clean p _ h).2 rfl), if_neg (by unfold encodePair; simp)]
  obtain ⟨ht, hd⟩ := takeWhile_sep (p := (· != ch '=')) (escape p.1) (escape p.2) (ch '=')
    (fun c hc => by simpa using (escape_clean _ _ hc).2.2) (by simp)
  unfold encodePair
  rw [ht, hd, List.drop_one, List.tail_cons, unescape_escape, unescape_escape]
  rfl

theorem parseQuery_encode_pairs (v : Values) : parseQuery v.encode = sortPairs v := by
  unfold parseQuery Values.encode
  by_cases h : sortPairs v = []
  · rw [h]; decide
  · rw [pieces_join _ (by simpa using h)]
    · rw [List.filterMap_map]
      have : (parsePiece ∘ encodePair) = some := by funext p; exact parsePiece_encodePair p
      rw [this, List.filterMap_some]
    · intro a ha c hc
      obtain ⟨p, _, rfl⟩ := List.mem_map.1 ha
      exact (encodePair_clean p c hc).1

/-! ## Values -/

theorem bytesLe_refl (a : Bytes) : bytesLe a a = true := by
  induction a with
  | nil => rfl
  | cons c a ih => unfold bytesLe; simp [ih]

theorem vals_cons (k : Bytes) (p : Bytes × Bytes) (v : Values) :
    vals k (p :: v) = (if p.1 = k then [p.2] else []) ++ vals k v := by
  unfold vals
  rw [List.filterMap_cons]
  by_cases h : p.1 = k <;> simp [h]

theorem vals_insert (k : Bytes) (p : Bytes × Bytes) (v : Values) :
    vals k (insertPair p v) = (if p.1 = k then [p.2] else []) ++ vals k v := by
  induction v with
  | nil => rw [insertPair, vals_cons]
  | cons q v ih =>
    unfold insertPair
    split
    · rw [vals_cons]
    · next h =>
      rw [vals_cons, ih, vals_cons]
      by_cases hq : q.1 = k
      · by_cases hp : p.1 = k
        · rw [hp, hq] at h
          exact absurd (bytesLe_refl k) h
        · simp [hp]
      · simp [hq]

theorem vals_sortPairs (k : Bytes) (v : Values) : vals k (sortPairs v) = vals k v := by
  unfold sortPairs
  induction v with
  | nil => rfl
  | cons p v ih => rw [List.foldr_cons, vals_insert, ih, vals_cons]

/-- `ParseQuery(v.Encode())` has the values of `v`. -/
theorem vals_parseQuery_encode (k : Bytes) (v : Values) : vals k (parseQuery v.encode) = vals k v := by
  rw [parseQuery_encode_pairs, vals_sortPairs]

theorem vals_add (k key value : Bytes) (v : Values) :
    vals k (v.add key value) = vals k v ++ (if key = k then [value] else []) := by
  unfold Values.add vals
  rw [List.filterMap_append]
  by_cases h : key = k <;> simp [h]

theorem vals_set (k key value : Bytes) (v : Values) :
    vals k (v.set key value) = if key = k then [value] else vals k v := by
  unfold Values.set vals
  rw [List.filterMap_append]
  by_cases h : key = k
  · subst h
    have : (v.filter (fun p => p.1 != key)).filterMap (fun p => if p.1 = key then some p.2 else none) = [] := by
      rw [List.filterMap_eq_nil_iff]
      intro p hp
      rw [List.mem_filter] at hp
      have : p.1 ≠ key := by simpa using hp.2
      simp [this]
    rw [this]; simp
  · simp only [h, if_false]
    rw [List.filterMap_filter]
    have : (fun p : Bytes × Bytes => if (p.1 != key) = true then (if p.1 = k then some p.2 else none) else none)
        = fun p => if p.1 = k then some p.2 else none := by
      funext p
      by_cases hp : p.1 = k
      · have : p.1 ≠ key := fun e => h (e ▸ hp)
        simp [hp]; intro e; exact absurd e.symm h
      · simp [hp]
    rw [this]
    simp [h]

end Trc.Web
