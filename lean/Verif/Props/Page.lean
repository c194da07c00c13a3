import Verif.Web.Page
import Verif.Props.URL

/-!
# The links on the page: C89
-/

set_option linter.unusedVariables false
set_option linter.unusedSimpArgs false

namespace Trc.Web

/-! ## Parsing queries made of pieces -/

theorem pieces_split (a b : Bytes) : pieces (a ++ ch '&' :: b) = pieces a ++ pieces b := by
  induction a with
  | nil => simp [pieces]
  | cons c a ih =>
    simp only [List.cons_append, pieces]
    split
    · simp [ih]
    · rw [ih]
      cases h : pieces a with
      | nil => exact absurd h (pieces_ne_nil a)
      | cons p ps => rfl

theorem parseQuery_split (a b : Bytes) : parseQuery (a ++ ch '&' :: b) = parseQuery a ++ parseQuery b := by
  simp [parseQuery, pieces_split]

/-- A value with none of the characters that have a meaning in a query or a link. -/
def Safe (s : Bytes) : Prop := ∀ c ∈ s, c ≠ ch '&' ∧ c ≠ ch ';' ∧ c ≠ ch '#' ∧ c ≠ ch '+' ∧ c ≠ ch '%'

/-- What normalization makes of a byte other than `%`. -/
def normByte (c : UInt8) : Bytes := if unreserved c || reservedURL c then [c] else percentByte c

theorem templateNormalize_eq (s : Bytes) (h : ∀ c ∈ s, c ≠ ch '%') : templateNormalize s = s.flatMap normByte := by
  induction s with
  | nil => rfl
  | cons c s ih =>
    have hc : (c == ch '%') = false := by simpa using h c (by simp)
    simp only [templateNormalize, List.flatMap_cons, normByte, hc, Bool.false_and, Bool.or_false]
    rw [ih (fun x hx => h x (by simp [hx]))]

theorem forall_byte {P : UInt8 → Prop} (h : ∀ n : Fin 256, P ⟨⟨n⟩⟩) (c : UInt8) : P c := h ⟨c.toNat, c.toNat_lt⟩

theorem percent_unescape (c : UInt8) (s r : Bytes) (h : unescape s = some r) : unescape (percentByte c ++ s) = some (c :: r) := by
  have key : ∀ c : UInt8, unhex (lowerhex (c / 16)) = some (c / 16) ∧ unhex (lowerhex (c % 16)) = some (c % 16) ∧ (c / 16) * 16 + c % 16 = c :=
    forall_byte (by decide +kernel)
  obtain ⟨k1, k2, k3⟩ := key c
  simp [percentByte, unescape, k1, k2, k3, h]

theorem percentByte_clean (c x : UInt8) (h : x ∈ percentByte c) : x ≠ ch '&' ∧ x ≠ ch ';' ∧ x ≠ ch '#' ∧ x ≠ ch '=' := by
  have key : ∀ c : UInt8, ∀ x ∈ percentByte c, x ≠ ch '&' ∧ x ≠ ch ';' ∧ x ≠ ch '#' ∧ x ≠ ch '=' := forall_byte (by decide +kernel)
  exact key c x h

theorem unreserved_clean {c : UInt8} (h : unreserved c = true) :
    c ≠ ch '&' ∧ c ≠ ch ';' ∧ c ≠ ch '#' ∧ c ≠ ch '=' ∧ c ≠ ch '%' ∧ c ≠ ch '+' := by
  have key : ∀ c : UInt8, unreserved c = true → c ≠ ch '&' ∧ c ≠ ch ';' ∧ c ≠ ch '#' ∧ c ≠ ch '=' ∧ c ≠ ch '%' ∧ c ≠ ch '+' :=
    forall_byte (by decide +kernel)
  exact key c h

theorem unescape_templateEscape (s : Bytes) : unescape (templateEscape s) = some s := by
  unfold templateEscape
  induction s with
  | nil => rfl
  | cons c s ih =>
    rw [List.flatMap_cons]
    split
    · rename_i h
      obtain ⟨_, _, _, _, h1, h2⟩ := unreserved_clean h
      rw [List.singleton_append, unescape_plain _ _ h1, ih]
      simp [h2]
    · exact percent_unescape c _ s ih

theorem templateEscape_clean (s : Bytes) (x : UInt8) (h : x ∈ templateEscape s) : x ≠ ch '&' ∧ x ≠ ch ';' ∧ x ≠ ch '#' := by
  obtain ⟨c, _, hx⟩ := List.mem_flatMap.mp h
  split at hx
  · rename_i hu
    obtain rfl := List.mem_singleton.mp hx
    obtain ⟨a, b, c, _⟩ := unreserved_clean hu
    exact ⟨a, b, c⟩
  · obtain ⟨a, b, c, _⟩ := percentByte_clean _ _ hx
    exact ⟨a, b, c⟩

theorem unescape_norm (s : Bytes) (h : Safe s) : unescape (s.flatMap normByte) = some s := by
  induction s with
  | nil => rfl
  | cons c s ih =>
    rw [List.flatMap_cons]
    obtain ⟨_, _, _, h2, h1⟩ := h c (by simp)
    have ih := ih (fun x hx => h x (by simp [hx]))
    rw [normByte]
    split
    · rw [List.singleton_append, unescape_plain _ _ h1, ih]
      simp [h2]
    · exact percent_unescape c _ s ih

theorem norm_clean (s : Bytes) (h : Safe s) (x : UInt8) (hx : x ∈ s.flatMap normByte) : x ≠ ch '&' ∧ x ≠ ch ';' ∧ x ≠ ch '#' := by
  obtain ⟨c, hc, hx⟩ := List.mem_flatMap.mp hx
  obtain ⟨a, b, d, _⟩ := h c hc
  unfold normByte at hx
  split at hx
  · obtain rfl := List.mem_singleton.mp hx; exact ⟨a, b, d⟩
  · obtain ⟨a, b, c, _⟩ := percentByte_clean _ _ hx
    exact ⟨a, b, c⟩

/-- A key of a parameter. -/
def Plain (k : Bytes) : Prop := k ≠ [] ∧ ∀ c ∈ k, unreserved c = true

theorem Plain.norm {k : Bytes} (h : Plain k) : k.flatMap normByte = k := by
  have : ∀ l : Bytes, (∀ c ∈ l, unreserved c = true) → l.flatMap normByte = l := by
    intro l hl
    induction l with
    | nil => rfl
    | cons c l ih => simp [normByte, hl c (by simp), ih (fun x hx => hl x (by simp [hx]))]
  exact this k h.2

theorem Plain.unescape {k : Bytes} (h : Plain k) : Web.unescape k = some k := by
  have := unescape_norm k (fun c hc => by obtain ⟨a, b, c, _, e, f⟩ := unreserved_clean (h.2 c hc); exact ⟨a, b, c, f, e⟩)
  rwa [h.norm] at this

/-- One parameter. -/
theorem parse_param (k v w : Bytes) (hk : Plain k) (hc : ∀ x ∈ w, x ≠ ch '&' ∧ x ≠ ch ';' ∧ x ≠ ch '#') (hw : unescape w = some v) :
    parseQuery (k ++ ch '=' :: w) = [(k, v)] := by
  have hkc : ∀ c ∈ k, _ := fun c hc => unreserved_clean (hk.2 c hc)
  have hamp : ∀ c ∈ k ++ ch '=' :: w, c ≠ ch '&' ∧ c ≠ ch ';' := by
    intro c hc'
    rcases List.mem_append.mp hc' with h | h
    · exact ⟨(hkc c h).1, (hkc c h).2.1⟩
    · rcases List.mem_cons.mp h with rfl | h
      · decide
      · exact ⟨(hc c h).1, (hc c h).2.1⟩
  unfold parseQuery
  rw [pieces_clean _ (fun c h => (hamp c h).1)]
  have h1 := takeWhile_sep (p := fun c => c != ch '=') k w (ch '=') (fun c h => by simpa using (hkc c h).2.2.2.1) (by simp)
  have hne : k ++ ch '=' :: w ≠ [] := by simp
  have hsemi : ch ';' ∉ k ++ ch '=' :: w := fun h => (hamp _ h).2 rfl
  simp only [List.filterMap_cons, List.filterMap_nil, parsePiece, if_neg hsemi, if_neg hne, h1.1, h1.2, hk.unescape, hw,
    bind, Option.bind_some, pure, List.drop_succ_cons, List.drop_zero]

theorem takeWhile_all {p : UInt8 → Bool} (a : Bytes) (ha : ∀ c ∈ a, p c = true) : a.takeWhile p = a ∧ a.dropWhile p = [] := by
  induction a with
  | nil => simp
  | cons c a ih =>
    have := ih (fun d hd => ha d (by simp [hd]))
    simp [ha c (by simp), this.1, this.2]

/-- A parameter without a value. -/
theorem parse_flag (k : Bytes) (hk : Plain k) : parseQuery k = [(k, [])] := by
  have hkc : ∀ c ∈ k, _ := fun c hc => unreserved_clean (hk.2 c hc)
  unfold parseQuery
  rw [pieces_clean _ (fun c h => (hkc c h).1)]
  have hsemi : ch ';' ∉ k := fun h => (hkc _ h).2.1 rfl
  obtain ⟨h1, h2⟩ := takeWhile_all (p := (· != ch '=')) k (fun c h => by simpa using (hkc c h).2.2.2.1)
  simp [parsePiece, hsemi, hk.1, h1, h2, hk.unescape, unescape]

/-! ## Characters and bytes -/

theorem bytesOf_ofList (l : List Char) : bytesOf (String.ofList l) = l.flatMap String.utf8EncodeChar := by
  show (l.flatMap String.utf8EncodeChar).toByteArray.data.toList = _
  simp

/-- An ASCII byte of the encoding of a character is the character. -/
theorem ascii_byte (c : Char) (b : UInt8) (h : b ∈ String.utf8EncodeChar c) (hb : b.toNat < 128) : c.toNat = b.toNat := by
  have hc : c.toNat = c.val.toNat := rfl
  unfold String.utf8EncodeChar at h
  simp only at h
  split at h
  · rename_i hv
    rw [List.mem_singleton.mp h, hc, UInt8.toNat_ofNat']
    omega
  · have big : ∀ n m : Nat, m < 64 → 128 ≤ n → n + m < 256 → b = UInt8.ofNat (m + n) → False := by
      intro n m h1 h2 h3 h4
      rw [h4, UInt8.toNat_ofNat'] at hb
      omega
    exfalso
    have hlt : c.val.toNat < 1114112 := by
      have := c.valid
      rcases this with h | h
      · show c.val.toNat < _; omega
      · exact h.2
    split at h
    · simp only [List.mem_cons, List.not_mem_nil, or_false] at h
      rcases h with h | h
      · exact big 0xc0 _ (by omega) (by omega) (by omega) h
      · exact big 0x80 _ (by omega) (by omega) (by omega) h
    · split at h
      · simp only [List.mem_cons, List.not_mem_nil, or_false] at h
        rcases h with h | h | h
        · exact big 0xe0 _ (by omega) (by omega) (by omega) h
        · exact big 0x80 _ (by omega) (by omega) (by omega) h
        · exact big 0x80 _ (by omega) (by omega) (by omega) h
      · simp only [List.mem_cons, List.not_mem_nil, or_false] at h
        rcases h with h | h | h | h
        · exact big 0xf0 _ (by omega) (by omega) (by omega) h
        · exact big 0x80 _ (by omega) (by omega) (by omega) h
        · exact big 0x80 _ (by omega) (by omega) (by omega) h
        · exact big 0x80 _ (by omega) (by omega) (by omega) h

/-- A text with none of the characters that have a meaning in a query or a link. -/
def SafeText (s : String) : Prop := ∀ c ∈ s.toList, c ≠ '&' ∧ c ≠ ';' ∧ c ≠ '#' ∧ c ≠ '+' ∧ c ≠ '%'

theorem SafeText.bytes {s : String} (h : SafeText s) : Safe (bytesOf s) := by
  intro b hb
  have e : s = String.ofList s.toList := String.ofList_toList.symm
  rw [e, bytesOf_ofList] at hb
  obtain ⟨c, hc, hb⟩ := List.mem_flatMap.mp hb
  obtain ⟨h1, h2, h3, h4, h5⟩ := h c hc
  have key : ∀ d : Char, c ≠ d → d.toNat < 128 → b ≠ ch d := by
    intro d hd hlt hbd
    have hn : b.toNat = d.toNat := by
      rw [hbd]
      show (UInt8.ofNat d.toNat).toNat = _
      rw [UInt8.toNat_ofNat']
      omega
    have := ascii_byte c b hb (by omega)
    exact hd (Char.toNat_inj.mp (by omega))
  exact ⟨key '&' h1 (by decide), key ';' h2 (by decide), key '#' h3 (by decide), key '+' h4 (by decide), key '%' h5 (by decide)⟩

/-- The characters of numbers and durations. -/
def numeric (c : Char) : Bool := isDigit c || ['.', '-', 'n', 'µ', 'm', 's', 'h'].contains c

theorem numeric_safe {c : Char} (h : numeric c = true) : c ≠ '&' ∧ c ≠ ';' ∧ c ≠ '#' ∧ c ≠ '+' ∧ c ≠ '%' := by
  refine ⟨?_, ?_, ?_, ?_, ?_⟩ <;> rintro rfl <;> revert h <;> decide

theorem safe_numeric {l : List Char} (h : ∀ c ∈ l, numeric c = true) : Safe (bytesOf (String.ofList l)) :=
  SafeText.bytes (fun c hc => numeric_safe (h c (by simpa using hc)))

theorem fmtInt_numeric (v : Nat) : ∀ c ∈ fmtInt v, numeric c = true := by
  intro c hc; simp [numeric, fmtInt_digits v c hc]

theorem fmtFracLoop_numeric (i v : Nat) (print : Bool) (acc : List Char) (h : ∀ c ∈ acc, numeric c = true) :
    ∀ c ∈ (fmtFracLoop i v print acc).1, numeric c = true := by
  induction i generalizing v print acc with
  | zero => exact h
  | succ i ih =>
    simp only [fmtFracLoop]
    apply ih
    intro c hc
    split at hc
    · rcases List.mem_cons.mp hc with rfl | hc
      · simp [numeric, isDigit_digitChar (Nat.mod_lt v (by decide : 10 > 0))]
      · exact h c hc
    · exact h c hc

theorem fmtFrac_numeric (v prec : Nat) : ∀ c ∈ (fmtFrac v prec).1, numeric c = true := by
  have := fmtFracLoop_numeric prec v false [] (by simp)
  unfold fmtFrac
  simp only
  intro c hc
  split at hc
  · rcases List.mem_cons.mp hc with rfl | hc
    · decide
    · exact this c hc
  · exact this c hc

theorem durationString_numeric (d : Duration) : ∀ c ∈ durationString d, numeric c = true := by
  have app : ∀ {a b : List Char}, (∀ c ∈ a, numeric c = true) → (∀ c ∈ b, numeric c = true) → ∀ c ∈ a ++ b, numeric c = true := by
    intro a b ha hb c hc
    rcases List.mem_append.mp hc with h | h
    · exact ha c h
    · exact hb c h
  have habs : ∀ u, ∀ c ∈ formatAbs u, numeric c = true := by
    intro u
    unfold formatAbs
    split
    · unfold formatSmall
      split
      · decide
      · split
        · exact app (app (fmtInt_numeric _) (fmtFrac_numeric _ _)) (by decide)
        · split
          · exact app (app (fmtInt_numeric _) (fmtFrac_numeric _ _)) (by decide)
          · exact app (app (fmtInt_numeric _) (fmtFrac_numeric _ _)) (by decide)
    · unfold formatLarge
      refine app (app (app ?_ (fmtInt_numeric _)) (fmtFrac_numeric _ _)) (by decide)
      unfold formatMinutes
      split
      · refine app (app ?_ (fmtInt_numeric _)) (by decide)
        split
        · exact app (fmtInt_numeric _) (by decide)
        · simp
      · simp
  unfold durationString
  split
  · intro c hc
    rcases List.mem_cons.mp hc with rfl | hc
    · decide
    · exact habs _ c hc
  · exact habs _

theorem decimalString_numeric (n : Int) : ∀ c ∈ decimalString n, numeric c = true := by
  unfold decimalString
  split
  · intro c hc
    rcases List.mem_cons.mp hc with rfl | hc
    · decide
    · exact fmtInt_numeric _ c hc
  · exact fmtInt_numeric _

/-! ## The parameters of the links of the summary -/

/-- Normalized and followed, the text means the parameters. -/
structure Means (p : Bytes) (v : Values) : Prop where
  noPercent : ∀ c ∈ p, c ≠ ch '%'
  parse : parseQuery (p.flatMap normByte) = v
  noHash : ∀ x ∈ p.flatMap normByte, x ≠ ch '#'

theorem ch_norm : (ch '=' :: ([] : Bytes)).flatMap normByte = [ch '='] ∧ (ch '&' :: ([] : Bytes)).flatMap normByte = [ch '&'] := by
  decide +kernel

theorem means_one (k v : Bytes) (hk : Plain k) (hv : Safe v) : Means (k ++ ch '=' :: v) [(k, v)] := by
  have e : (k ++ ch '=' :: v).flatMap normByte = k ++ ch '=' :: v.flatMap normByte := by
    have : ch '=' :: v = [ch '='] ++ v := rfl
    rw [List.flatMap_append, hk.norm, this, List.flatMap_append, ch_norm.1]
    rfl
  refine ⟨?_, ?_, ?_⟩
  · intro c hc
    rcases List.mem_append.mp hc with h | h
    · exact (unreserved_clean (hk.2 c h)).2.2.2.2.1
    · rcases List.mem_cons.mp h with rfl | h
      · decide
      · exact (hv c h).2.2.2.2
  · rw [e]
    exact parse_param k v _ hk (norm_clean v hv) (unescape_norm v hv)
  · rw [e]
    intro c hc
    rcases List.mem_append.mp hc with h | h
    · exact (unreserved_clean (hk.2 c h)).2.2.1
    · rcases List.mem_cons.mp h with rfl | h
      · decide
      · exact (norm_clean v hv c h).2.2

theorem Means.and {p q : Bytes} {v w : Values} (hp : Means p v) (hq : Means q w) : Means (p ++ ch '&' :: q) (v ++ w) := by
  have e : (p ++ ch '&' :: q).flatMap normByte = p.flatMap normByte ++ ch '&' :: q.flatMap normByte := by
    have : ch '&' :: q = [ch '&'] ++ q := rfl
    rw [List.flatMap_append, this, List.flatMap_append, ch_norm.2]
    rfl
  refine ⟨?_, ?_, ?_⟩
  · intro c hc
    rcases List.mem_append.mp hc with h | h
    · exact hp.noPercent c h
    · rcases List.mem_cons.mp h with rfl | h
      · decide
      · exact hq.noPercent c h
  · rw [e, parseQuery_split, hp.parse, hq.parse]
  · rw [e]
    intro c hc
    rcases List.mem_append.mp hc with h | h
    · exact hp.noHash c h
    · rcases List.mem_cons.mp h with rfl | h
      · decide
      · exact hq.noHash c h

theorem means_add {p : Bytes} {v : Values} (hp : Means p v) {key : String} (sep : String) (hsep : bytesOf sep = ch '&' :: bytesOf key ++ [ch '='])
    (hk : Plain (bytesOf key)) (x : Bytes) (hx : Safe x) : Means (p ++ bytesOf sep ++ x) (v ++ [(bytesOf key, x)]) := by
  have : p ++ bytesOf sep ++ x = p ++ ch '&' :: (bytesOf key ++ ch '=' :: x) := by rw [hsep]; simp
  rw [this]
  exact hp.and (means_one _ x hk hx)

theorem means_each {p : Bytes} {v : Values} (hp : Means p v) {key : String} (sep : String) (hsep : bytesOf sep = ch '&' :: bytesOf key ++ [ch '='])
    (hk : Plain (bytesOf key)) (l : List Bytes) (hl : ∀ x ∈ l, Safe x) : Means (addEach p sep l) (v ++ l.map fun x => (bytesOf key, x)) := by
  induction l generalizing p v with
  | nil => simpa [addEach] using hp
  | cons x l ih =>
    have := ih (means_add hp sep hsep hk x (hl x (by simp))) (fun y hy => hl y (by simp [hy]))
    simpa [addEach] using this

theorem plain_iff (k : String) (h : (bytesOf k).all unreserved = true ∧ (bytesOf k) ≠ []) : Plain (bytesOf k) :=
  ⟨h.2, fun c hc => List.all_eq_true.mp h.1 c hc⟩

/-- The parameters that all links of the summary have. -/
def common (req : SearchRequest) : Values :=
  (bytesOf "n", bytesOf (String.ofList (decimalString req.limit))) ::
    (if req.filter.query ≠ "" then [(bytesOf "q", bytesOf req.filter.query)] else []) ++
    (req.filter.sources.map fun s => (bytesOf "source", bytesOf s)) ++
    (if req.bucketing ≠ defaultBucketing then req.bucketing.map fun d => (bytesOf "b", bytesOf (String.ofList (durationString d))) else [])

theorem queryParams_means (req : SearchRequest) (hq : SafeText req.filter.query) (hs : ∀ s ∈ req.filter.sources, SafeText s) :
    Means (queryParams req) (common req) := by
  have h1 : Means (bytesOf "n=" ++ bytesOf (String.ofList (decimalString req.limit)))
      [(bytesOf "n", bytesOf (String.ofList (decimalString req.limit)))] := by
    have : bytesOf "n=" ++ bytesOf (String.ofList (decimalString req.limit)) = bytesOf "n" ++ ch '=' :: bytesOf (String.ofList (decimalString req.limit)) := by
      have : bytesOf "n=" = bytesOf "n" ++ [ch '='] := by decide +kernel
      rw [this]; simp
    rw [this]
    exact means_one _ _ (plain_iff "n" (by decide +kernel)) (safe_numeric (decimalString_numeric _))
  have h2 : Means (if req.filter.query ≠ "" then bytesOf "n=" ++ bytesOf (String.ofList (decimalString req.limit)) ++ bytesOf "&q=" ++ bytesOf req.filter.query
        else bytesOf "n=" ++ bytesOf (String.ofList (decimalString req.limit)))
      ((bytesOf "n", bytesOf (String.ofList (decimalString req.limit))) ::
        (if req.filter.query ≠ "" then [(bytesOf "q", bytesOf req.filter.query)] else [])) := by
    split
    · exact means_add h1 (key := "q") "&q=" (by decide +kernel) (plain_iff "q" (by decide +kernel)) _ hq.bytes
    · exact h1
  have h3 := means_each h2 (key := "source") "&source=" (by decide +kernel) (plain_iff "source" (by decide +kernel)) (req.filter.sources.map bytesOf)
    (by intro x hx; obtain ⟨s, hm, rfl⟩ := List.mem_map.mp hx; exact (hs s hm).bytes)
  rw [List.map_map] at h3
  have h3 : Means _ _ := h3
  unfold queryParams common
  simp only
  by_cases hb : req.bucketing = defaultBucketing
  · simp only [hb, ne_eq, not_true, if_false, List.append_nil]
    exact h3
  · rw [if_pos hb, if_pos hb]
    have h4 := means_each h3 (key := "b") "&b=" (by decide +kernel) (plain_iff "b" (by decide +kernel))
      (req.bucketing.map fun d => bytesOf (String.ofList (durationString d)))
      (by intro x hx; obtain ⟨d, hm, rfl⟩ := List.mem_map.mp hx; exact safe_numeric (durationString_numeric d))
    rw [List.map_map] at h4
    exact h4

theorem followed_all (link : Bytes) (h : ∀ c ∈ link, c ≠ ch '#') : followed link = link :=
  (takeWhile_all link (fun c hc => by simpa using h c hc)).1

/-- The parameters that a cell adds. -/
def Cell.values : Cell → Values
  | .name => []
  | .active => [(bytesOf "active", [])]
  | .bucket min => [(bytesOf "min", bytesOf (String.ofList (durationString min)))]
  | .errored => [(bytesOf "errored", [])]

theorem link_parse {p : Bytes} {v : Values} (h : Means p v) (cell : Cell) :
    parseQuery (followed (templateNormalize p ++ cell.suffix)) = v ++ cell.values := by
  rw [templateNormalize_eq p h.noPercent]
  have flag : ∀ k : String, Plain (bytesOf k) → ∀ sep, bytesOf sep = ch '&' :: bytesOf k →
      parseQuery (followed (p.flatMap normByte ++ bytesOf sep)) = v ++ [(bytesOf k, [])] := by
    intro k hk sep hsep
    rw [followed_all, hsep, parseQuery_split, h.parse, parse_flag _ hk]
    intro c hc
    rcases List.mem_append.mp hc with hc | hc
    · exact h.noHash c hc
    · rw [hsep] at hc
      rcases List.mem_cons.mp hc with rfl | hc
      · decide
      · exact (unreserved_clean (hk.2 c hc)).2.2.1
  cases cell with
  | name =>
    simp only [Cell.suffix, Cell.values, List.append_nil]
    rw [followed_all _ h.noHash, h.parse]
  | active => exact flag "active" (plain_iff "active" (by decide +kernel)) "&active" (by decide +kernel)
  | errored => exact flag "errored" (plain_iff "errored" (by decide +kernel)) "&errored" (by decide +kernel)
  | bucket min =>
    have hsep : bytesOf "&min=" = ch '&' :: (bytesOf "min" ++ [ch '=']) := by decide +kernel
    have hk : Plain (bytesOf "min") := plain_iff "min" (by decide +kernel)
    have hw := templateEscape_clean (bytesOf (String.ofList (durationString min)))
    have e : p.flatMap normByte ++ (Cell.bucket min).suffix =
        p.flatMap normByte ++ ch '&' :: (bytesOf "min" ++ ch '=' :: templateEscape (bytesOf (String.ofList (durationString min)))) := by
      simp [Cell.suffix, hsep]
    rw [e, followed_all, parseQuery_split, h.parse, parse_param _ _ _ hk hw (unescape_templateEscape _)]
    · rfl
    · intro c hc
      rcases List.mem_append.mp hc with hc | hc
      · exact h.noHash c hc
      · rcases List.mem_cons.mp hc with rfl | hc
        · decide
        · rcases List.mem_append.mp hc with hc | hc
          · exact (unreserved_clean (hk.2 c hc)).2.2.1
          · rcases List.mem_cons.mp hc with rfl | hc
            · decide
            · exact (hw c hc).2.2

/-! ## C89 -/

theorem vals_app (k : Bytes) (a b : Values) : vals k (a ++ b) = vals k a ++ vals k b := by
  simp [vals]

theorem vals_map {α : Type} (k k' : Bytes) (g : α → Bytes) (l : List α) :
    vals k (l.map fun x => (k', g x)) = if k' = k then l.map g else [] := by
  unfold vals
  split
  · rename_i h; simp [List.filterMap_map, Function.comp_def, h]
  · rename_i h; simp [List.filterMap_map, Function.comp_def, h]

theorem vals_one (k k' v : Bytes) : vals k [(k', v)] = if k' = k then [v] else [] := by
  simp only [vals, List.filterMap_cons, List.filterMap_nil]; split <;> simp_all

theorem vals_if (k : Bytes) (c : Prop) [Decidable c] (a : Values) : vals k (if c then a else []) = if c then vals k a else [] := by
  split <;> rfl

theorem vals_common (k : Bytes) (req : SearchRequest) : vals k (common req) =
    (if bytesOf "n" = k then [bytesOf (String.ofList (decimalString req.limit))] else []) ++
    (if req.filter.query ≠ "" then (if bytesOf "q" = k then [bytesOf req.filter.query] else []) else []) ++
    (if bytesOf "source" = k then req.filter.sources.map bytesOf else []) ++
    (if req.bucketing ≠ defaultBucketing then
      (if bytesOf "b" = k then req.bucketing.map fun d => bytesOf (String.ofList (durationString d)) else []) else []) := by
  unfold common
  rw [vals_app, vals_app, ← List.singleton_append, vals_app, vals_one, vals_map, vals_if, vals_if, vals_one, vals_map]

theorem atoi_limit (n : Int) (h1 : 1 ≤ n) (h2 : n ≤ 250) :
    atoiBytes (bytesOf (String.ofList (decimalString n))) = some n := by
  have key : ∀ k : Fin 251, atoi (decimalString ((k : Nat) : Int)) = some ((k : Nat) : Int) := by decide +kernel
  have := key ⟨n.toNat, by omega⟩
  have e : ((n.toNat : Nat) : Int) = n := by omega
  simp only [e] at this
  simpa [atoiBytes, text_bytesOf] using this

/-- What a cell of the summary asks for. -/
def Cell.narrow : Cell → Filter → Filter
  | .name, f => f
  | .active, f => { f with isActive := true }
  | .bucket min, f => { f with minDuration := some min }
  | .errored, f => { f with isErrored := true }

/-- The values of a link of the summary, read as a request. -/
theorem request_of_values (hm : ExactMul mulFrac) (req : SearchRequest) (category : String) (cell : Cell) (raw : Bytes) (cat : Values)
    (hraw : parseQuery raw = common req ++ cat ++ cell.values)
    (hcat : cat = [] ∧ category = "" ∨ cat = [(bytesOf "category", bytesOf category)])
    (hl : 1 ≤ req.limit ∧ req.limit ≤ 250)
    (hb : req.bucketing.Pairwise (· ≤ ·) ∧ req.bucketing.head? = some 0 ∧ ∀ d ∈ req.bucketing, Is64 d)
    (hc : ∀ d, cell = .bucket d → Is64 d) :
    requestOfURL mulFrac raw = {
      bucketing := if req.bucketing = defaultBucketing then [] else req.bucketing
      filter := cell.narrow { sources := req.filter.sources, query := req.filter.query, category }
      limit := req.limit } := by
  have e : ∀ a b : String, (bytesOf a = bytesOf b) = (a = b) := fun a b => propext ⟨bytesOf_inj, fun h => h ▸ rfl⟩
  have h0 : text [] = "" := text_bytesOf ""
  have hmap : ∀ l : List String, (l.map bytesOf).map text = l := by
    intro l; rw [List.map_map]; conv => rhs; rw [← List.map_id l]
    exact List.map_congr_left (fun s _ => text_bytesOf s)
  have hv : ∀ k : String, vals (bytesOf k) (parseQuery raw) = vals (bytesOf k) (common req) ++ vals (bytesOf k) cat ++ vals (bytesOf k) cell.values := by
    intro k; rw [hraw, vals_app, vals_app]
  have hvc : ∀ k : String, k ≠ "category" → vals (bytesOf k) cat = [] := by
    intro k hk
    rcases hcat with ⟨h, _⟩ | h
    · rw [h]; rfl
    · rw [h, vals_one, if_neg (bytesOf_ne (Ne.symm hk))]
  have hcell : ∀ k : String, k ≠ "active" → k ≠ "min" → k ≠ "errored" → vals (bytesOf k) cell.values = [] := by
    intro k h1 h2 h3
    cases cell with
    | name => rfl
    | active => rw [Cell.values, vals_one, if_neg (bytesOf_ne (Ne.symm h1))]
    | bucket d => rw [Cell.values, vals_one, if_neg (bytesOf_ne (Ne.symm h2))]
    | errored => rw [Cell.values, vals_one, if_neg (bytesOf_ne (Ne.symm h3))]
  have hn : vals (bytesOf "n") (parseQuery raw) = [bytesOf (String.ofList (decimalString req.limit))] := by
    rw [hv, hvc _ (by decide), hcell _ (by decide) (by decide) (by decide), vals_common]; simp [e]
  have hq : vals (bytesOf "q") (parseQuery raw) = if req.filter.query ≠ "" then [bytesOf req.filter.query] else [] := by
    rw [hv, hvc _ (by decide), hcell _ (by decide) (by decide) (by decide), vals_common]; simp [e]
  have hsrc : vals (bytesOf "source") (parseQuery raw) = req.filter.sources.map bytesOf := by
    rw [hv, hvc _ (by decide), hcell _ (by decide) (by decide) (by decide), vals_common]; simp [e]
  have hbk : vals (bytesOf "b") (parseQuery raw) =
      if req.bucketing = defaultBucketing then [] else req.bucketing.map fun d => bytesOf (String.ofList (durationString d)) := by
    rw [hv, hvc _ (by decide), hcell _ (by decide) (by decide) (by decide), vals_common]; simp [e]
  have hother : ∀ k : String, k ≠ "n" → k ≠ "q" → k ≠ "source" → k ≠ "b" → k ≠ "category" →
      vals (bytesOf k) (parseQuery raw) = vals (bytesOf k) cell.values := by
    intro k h1 h2 h3 h4 h5
    rw [hv, hvc _ h5, vals_common]
    simp [e, Ne.symm h1, Ne.symm h2, Ne.symm h3, Ne.symm h4]
  have hct : text ((parseQuery raw).get (bytesOf "category")) = category := by
    unfold Values.get
    rw [hv, hcell _ (by decide) (by decide) (by decide), vals_common]
    rcases hcat with ⟨h, h'⟩ | h
    · rw [h, h']; simp [e, vals, h0]
    · rw [h, vals_one]; simp [e, text_bytesOf]
  have hbuckets : parseBucketing mulFrac (vals (bytesOf "b") (parseQuery raw)) = if req.bucketing = defaultBucketing then [] else req.bucketing := by
    rw [hbk]
    split
    · rfl
    · obtain ⟨b1, b2, b3⟩ := hb
      have hfm : (req.bucketing.map fun d => bytesOf (String.ofList (durationString d))).filterMap (parseDurationBytes mulFrac) = req.bucketing := by
        rw [List.filterMap_map]
        have : ∀ l : List Duration, (∀ d ∈ l, Is64 d) →
            l.filterMap (parseDurationBytes mulFrac ∘ fun d => bytesOf (String.ofList (durationString d))) = l := by
          intro l hl
          induction l with
          | nil => rfl
          | cons d l ih =>
            have : (parseDurationBytes mulFrac ∘ fun d => bytesOf (String.ofList (durationString d))) d = some d := by
              simp [parseDurationBytes, text_bytesOf, parseDuration_string hm d (hl d (by simp)).1 (hl d (by simp)).2]
            rw [List.filterMap_cons, this, ih (fun x hx => hl x (by simp [hx]))]
        exact this _ b3
      unfold parseBucketing
      simp only [hfm, sortDurations_of_sorted _ b1]
      cases hrb : req.bucketing with
      | nil => simp
      | cons d l =>
        rw [hrb] at b2
        have : d = 0 := by simpa using b2
        have hlen : ¬ (((d :: l).length : Int) ≤ 0) := by rw [List.length_cons]; omega
        simp [this]
  have hqt : text ((parseQuery raw).get (bytesOf "q")) = req.filter.query := by
    unfold Values.get
    rw [hq]
    by_cases h : req.filter.query = ""
    · simp [h, h0]
    · simp [h, text_bytesOf]
  have hlim : parseRange ((parseQuery raw).get (bytesOf "n")) atoiBytes searchLimitMin searchLimitDefault searchLimitMax = req.limit := by
    unfold Values.get
    rw [hn]
    simp only [List.head?_cons, Option.getD_some, parseRange, atoi_limit _ hl.1 hl.2]
    rw [if_neg (by show ¬ _ < (1 : Int); omega), if_neg (by show ¬ _ > (250 : Int); omega)]
  have hstack : parseDefault ((parseQuery raw).get (bytesOf "stack")) atoiBytes 0 = 0 := by
    unfold Values.get
    rw [hother _ (by decide) (by decide) (by decide) (by decide) (by decide), hcell _ (by decide) (by decide) (by decide)]
    simp only [List.head?_nil, Option.getD_none]
    decide +kernel
  have hids : vals (bytesOf "id") (parseQuery raw) = [] := by
    rw [hother _ (by decide) (by decide) (by decide) (by decide) (by decide), hcell _ (by decide) (by decide) (by decide)]
  have hfin : vals (bytesOf "finished") (parseQuery raw) = [] := by
    rw [hother _ (by decide) (by decide) (by decide) (by decide) (by decide), hcell _ (by decide) (by decide) (by decide)]
  have hsuc : vals (bytesOf "success") (parseQuery raw) = [] := by
    rw [hother _ (by decide) (by decide) (by decide) (by decide) (by decide), hcell _ (by decide) (by decide) (by decide)]
  have hact := hother "active" (by decide) (by decide) (by decide) (by decide) (by decide)
  have herr := hother "errored" (by decide) (by decide) (by decide) (by decide) (by decide)
  have hmin := hother "min" (by decide) (by decide) (by decide) (by decide) (by decide)
  have hnone : parseDefault [] (parseDurationPointer mulFrac) none = none := by
    simp [parseDefault, parseDurationPointer, parseDurationBytes, h0, parseDuration_nil]
  have hfilter : parseFilter mulFrac raw = cell.narrow { sources := req.filter.sources, query := req.filter.query, category } := by
    unfold parseFilter
    simp only [keySource, keyID, keyCategory, keyActive, keyFinished, keyMin, keySuccess, keyErrored, keyQuery]
    rw [hct, hqt]
    unfold Values.has Values.get
    rw [hsrc, hids, hfin, hsuc, hact, herr, hmin, hmap]
    cases cell with
    | name => simp [Cell.values, vals, Cell.narrow, hnone]
    | active => simp [Cell.values, vals_one, Cell.narrow, hnone, e]
    | errored => simp [Cell.values, vals_one, Cell.narrow, hnone, e]
    | bucket d =>
      have h64 := hc d rfl
      simp [Cell.values, vals_one, Cell.narrow, e, parseDefault, parseDurationPointer, parseDurationBytes, text_bytesOf,
        parseDuration_string hm d h64.1 h64.2]
  unfold requestOfURL
  simp only
  rw [hbuckets, hfilter, hlim, hstack]

/-- The filter of the page, and of the row with the name of a category. -/
def rowFilter (req : SearchRequest) (category : String) : Filter :=
  { sources := req.filter.sources, query := req.filter.query, category := if category = "overall" then "" else category }

/-- A request as the page has it: limited and with buckets that begin with zero. -/
structure Shown (req : SearchRequest) : Prop where
  limit : 1 ≤ req.limit ∧ req.limit ≤ 250
  ascending : req.bucketing.Pairwise (· ≤ ·)
  zero : req.bucketing.head? = some 0
  fits : ∀ d ∈ req.bucketing, Is64 d

theorem normalize_shown {req : SearchRequest} (h : Shown req) :
    normalizeBucketing (if req.bucketing = defaultBucketing then [] else req.bucketing) = some req.bucketing := by
  split
  · rename_i hd; rw [hd]; decide +kernel
  · unfold normalizeBucketing
    obtain ⟨_, b1, b2, _⟩ := h
    cases hrb : req.bucketing with
    | nil => rw [hrb] at b2; cases b2
    | cons x t =>
      rw [hrb] at b1 b2
      have h2' : x = 0 := by simpa using b2
      have : ¬ (((x :: t).length : Int) ≤ 0) := by rw [List.length_cons]; omega
      simp only
      rw [if_neg this, sortDurations_of_sorted _ b1]
      simp [h2']

/-- **C89** (partial) Following the link of a cell of the summary asks for the same sources, query, buckets and limit as
the page did, in the row's category and with the column's condition, if the query, the sources and the category have
none of the characters `&`, `;`, `#`, `+` and `%`.  The header's links are those of the row `overall`. -/
theorem C89_summary_partial (hm : ExactMul mulFrac) (req : SearchRequest) (hr : Shown req)
    (hq : SafeText req.filter.query) (hs : ∀ s ∈ req.filter.sources, SafeText s)
    (category : String) (hcat : SafeText category) (cell : Cell) (hc : ∀ d, cell = .bucket d → Is64 d) :
    let asked := requestOfURL mulFrac (followed (cellLink req category cell))
    asked.filter = cell.narrow (rowFilter req category) ∧ asked.limit = req.limit ∧ asked.stackDepth = 0 ∧
    normalizeBucketing asked.bucketing = some req.bucketing ∧
    headerLink req cell = cellLink req "overall" cell := by
  have hmeans := queryParams_means req hq hs
  have key : requestOfURL mulFrac (followed (cellLink req category cell)) = {
      bucketing := if req.bucketing = defaultBucketing then [] else req.bucketing
      filter := cell.narrow (rowFilter req category)
      limit := req.limit } := by
    unfold rowFilter
    by_cases ho : category = "overall"
    · rw [if_pos ho]
      refine request_of_values hm req "" cell _ [] ?_ (.inl ⟨rfl, rfl⟩) hr.limit ⟨hr.ascending, hr.zero, hr.fits⟩ hc
      rw [List.append_nil]
      unfold cellLink categoryParams
      rw [if_neg (by simp [ho])]
      exact link_parse hmeans cell
    · rw [if_neg ho]
      refine request_of_values hm req category cell _ _ ?_ (.inr rfl) hr.limit ⟨hr.ascending, hr.zero, hr.fits⟩ hc
      unfold cellLink categoryParams
      rw [if_pos ho]
      exact link_parse (means_add hmeans (key := "category") "&category=" (by decide +kernel)
        (plain_iff "category" (by decide +kernel)) _ hcat.bytes) cell
  simp only [key]
  refine ⟨trivial, trivial, trivial, normalize_shown hr, ?_⟩
  simp [headerLink, cellLink, categoryParams]

/-- A page with a query and two sources, and the links of its row `GET /traces: ok?`. -/
example :
    let req : SearchRequest := { bucketing := [0, 1500000, 60000000000], limit := 25, filter := { query := "a=b <i>.*", sources := ["x y", "ü"] } }
    Shown req ∧ SafeText req.filter.query ∧ (∀ s ∈ req.filter.sources, SafeText s) ∧ SafeText "GET /traces: ok?" ∧
    text (cellLink req "GET /traces: ok?" (.bucket 1500000)) =
      "n=25&q=a=b%20%3ci%3e.*&source=x%20y&source=%c3%bc&b=0s&b=1.5ms&b=1m0s&category=GET%20/traces:%20ok?&min=1.5ms" := by
  refine ⟨⟨by decide, by decide, rfl, by unfold Is64; decide⟩, by unfold SafeText; decide +kernel, by unfold SafeText; decide +kernel, by unfold SafeText; decide +kernel, by decide +kernel⟩

/-- **C89** is violated: the link of the row of the category `a&b` asks for the category `a`, that of `c++` for `c` and two
spaces, and that of the category `overall` for all categories; on a page with the query `\\d+` the links ask for a digit
and a space. -/
theorem C89_summary_violated (mulFrac : Nat → Nat → Nat → Nat) :
    let page (query : String) : SearchRequest := { bucketing := defaultBucketing, limit := 10, filter := { query } }
    let asked (req : SearchRequest) (category : String) := requestOfURL mulFrac (followed (cellLink req category .active))
    (asked (page "") "a&b").filter.category = "a" ∧ (asked (page "") "c++").filter.category = "c  " ∧
    (asked (page "") "overall").filter.category = "" ∧ (asked (page "\\d+") "x").filter.query = "\\d " ∧ Shown (page "") ∧ Shown (page "\\d+") := by
  refine ⟨?_, ?_, ?_, ?_, ?_, ?_⟩
  · show text ((parseQuery _).get _) = _; decide +kernel
  · show text ((parseQuery _).get _) = _; decide +kernel
  · show text ((parseQuery _).get _) = _; decide +kernel
  · show text ((parseQuery _).get _) = _; decide +kernel
  · exact ⟨by decide, by decide, rfl, by unfold Is64; decide⟩
  · exact ⟨by decide, by decide, rfl, by unfold Is64; decide⟩

/-- The request of a query with a single parameter. -/
theorem request_one (mulFrac : Nat → Nat → Nat → Nat) (k v : String) (raw : Bytes) (h : parseQuery raw = [(bytesOf k, bytesOf v)]) :
    requestOfURL mulFrac raw = {
      filter := parseFilter mulFrac raw
      bucketing := parseBucketing mulFrac (if k = "b" then [bytesOf v] else [])
      limit := parseRange (if k = "n" then bytesOf v else []) atoiBytes 1 10 250
      stackDepth := parseDefault (if k = "stack" then bytesOf v else []) atoiBytes 0 } := by
  have e : ∀ a b : String, (bytesOf a = bytesOf b) = (a = b) := fun a b => propext ⟨bytesOf_inj, fun h => h ▸ rfl⟩
  unfold requestOfURL Values.get
  simp only [h, vals_one, e]
  have hif : ∀ c : Prop, [Decidable c] → ((if c then [bytesOf v] else []).head?.getD []) = if c then bytesOf v else [] := by
    intro c _; split <;> rfl
  rw [hif, hif]
  rfl

/-- **C89** Following the link of a trace's source asks for the traces of that source, whatever its name is, with the
default limit and buckets; likewise for the link of its category. -/
theorem C89_trace_links (mulFrac : Nat → Nat → Nat → Nat) (s : String) :
    requestOfURL mulFrac (followed (sourceLink s)) = { filter := { sources := [s] }, limit := 10 } ∧
    requestOfURL mulFrac (followed (categoryLink s)) = { filter := { category := s }, limit := 10 } := by
  have e : ∀ a b : String, (bytesOf a = bytesOf b) = (a = b) := fun a b => propext ⟨bytesOf_inj, fun h => h ▸ rfl⟩
  have hnone : parseDefault [] (parseDurationPointer mulFrac) none = none := by
    have h0 : text [] = "" := text_bytesOf ""
    simp [parseDefault, parseDurationPointer, parseDurationBytes, h0, parseDuration_nil]
  have hlim : parseRange [] atoiBytes 1 10 250 = 10 := by decide +kernel
  have hst : parseDefault [] atoiBytes 0 = 0 := by decide +kernel
  have key : ∀ k sep : String, Plain (bytesOf k) → bytesOf sep = bytesOf k ++ [ch '='] →
      parseQuery (followed (bytesOf sep ++ templateEscape (bytesOf s))) = [(bytesOf k, bytesOf s)] := by
    intro k sep hk hsep
    have hw := templateEscape_clean (bytesOf s)
    rw [hsep, List.append_assoc, List.singleton_append, followed_all, parse_param _ _ _ hk hw (unescape_templateEscape _)]
    intro c hc
    rcases List.mem_append.mp hc with hc | hc
    · exact (unreserved_clean (hk.2 c hc)).2.2.1
    · rcases List.mem_cons.mp hc with rfl | hc
      · decide
      · exact (hw c hc).2.2
  have h0 : text [] = "" := text_bytesOf ""
  constructor
  · have hp := key "source" "source=" (plain_iff "source" (by decide +kernel)) (by decide +kernel)
    unfold sourceLink
    rw [request_one _ _ _ _ hp]
    unfold parseFilter Values.get Values.has
    simp [keySource, keyID, keyCategory, keyActive, keyFinished, keyMin, keySuccess, keyErrored, keyQuery, hp, vals_one, e, text_bytesOf, h0, hnone, hlim, hst, parseBucketing]
  · have hp := key "category" "category=" (plain_iff "category" (by decide +kernel)) (by decide +kernel)
    unfold categoryLink
    rw [request_one _ _ _ _ hp]
    unfold parseFilter Values.get Values.has
    simp [keySource, keyID, keyCategory, keyActive, keyFinished, keyMin, keySuccess, keyErrored, keyQuery, hp, vals_one, e, text_bytesOf, h0, hnone, hlim, hst, parseBucketing]

/-- The links of a source that needs escaping. -/
example : text (sourceLink "a&b;c #+%41ü") = "source=a%26b%3bc%20%23%2b%2541%c3%bc" := by decide +kernel

/-- **C89** Following the link of a trace, whose ID has letters, digits and the characters `-`, `_`, `.` and `~`, asks for the
trace; that of its JSON asks for the same. -/
theorem C89_trace_link (mulFrac : Nat → Nat → Nat → Nat) (id : String) (h : Plain (bytesOf id)) :
    requestOfURL mulFrac (followed (traceLink id)) = { filter := { ids := [id] }, limit := 10 } ∧
    (requestOfURL mulFrac (followed (traceJSONLink id))) = { filter := { ids := [id] }, limit := 10 } ∧
    (parseQuery (followed (traceJSONLink id))).has (bytesOf "json") = true := by
  have e : ∀ a b : String, (bytesOf a = bytesOf b) = (a = b) := fun a b => propext ⟨bytesOf_inj, fun h => h ▸ rfl⟩
  have hnone : parseDefault [] (parseDurationPointer mulFrac) none = none := by
    have h0 : text [] = "" := text_bytesOf ""
    simp [parseDefault, parseDurationPointer, parseDurationBytes, h0, parseDuration_nil]
  have hlim : parseRange [] atoiBytes 1 10 250 = 10 := by decide +kernel
  have hst : parseDefault [] atoiBytes 0 = 0 := by decide +kernel
  have h0 : text [] = "" := text_bytesOf ""
  have hid : Plain (bytesOf "id") := plain_iff "id" (by decide +kernel)
  have hsafe : Safe (bytesOf id) := fun c hc => by obtain ⟨a, b, c, _, e, f⟩ := unreserved_clean (h.2 c hc); exact ⟨a, b, c, f, e⟩
  have hmeans : Means (bytesOf "id=" ++ bytesOf id) [(bytesOf "id", bytesOf id)] := by
    have : bytesOf "id=" = bytesOf "id" ++ [ch '='] := by decide +kernel
    rw [this, List.append_assoc, List.singleton_append]
    exact means_one _ _ hid hsafe
  have hp : parseQuery (followed (traceLink id)) = [(bytesOf "id", bytesOf id)] := by
    have := link_parse hmeans .name
    simpa [Cell.suffix, Cell.values, traceLink] using this
  have hj : parseQuery (followed (traceJSONLink id)) = [(bytesOf "id", bytesOf id), (bytesOf "json", [])] := by
    unfold traceJSONLink traceLink
    rw [templateNormalize_eq _ hmeans.noPercent]
    have hsep : bytesOf "&json" = ch '&' :: bytesOf "json" := by decide +kernel
    have hk : Plain (bytesOf "json") := plain_iff "json" (by decide +kernel)
    rw [followed_all, hsep, parseQuery_split, hmeans.parse, parse_flag _ hk]
    · rfl
    intro c hc
    rcases List.mem_append.mp hc with hc | hc
    · exact hmeans.noHash c hc
    · rw [hsep] at hc
      rcases List.mem_cons.mp hc with rfl | hc
      · decide
      · exact (unreserved_clean (hk.2 c hc)).2.2.1
  have hj' : ∀ k, vals k (parseQuery (followed (traceJSONLink id))) =
      (if bytesOf "id" = k then [bytesOf id] else []) ++ (if bytesOf "json" = k then [[]] else []) := by
    intro k
    rw [hj, ← vals_one, ← vals_one, ← vals_app]
    rfl
  refine ⟨?_, ?_, ?_⟩
  · rw [request_one _ _ _ _ hp]
    unfold parseFilter Values.get Values.has
    simp [keySource, keyID, keyCategory, keyActive, keyFinished, keyMin, keySuccess, keyErrored, keyQuery, hp, vals_one, e, text_bytesOf, h0, hnone, hlim, hst, parseBucketing]
  · unfold requestOfURL parseFilter Values.get Values.has
    have hlim : parseRange [] atoiBytes searchLimitMin searchLimitDefault searchLimitMax = 10 := hlim
    simp [keySource, keyID, keyCategory, keyActive, keyFinished, keyMin, keySuccess, keyErrored, keyQuery, hj', e, text_bytesOf, h0, hnone, hlim, hst, parseBucketing]
  · unfold Values.has
    simp [hj', e]

/-- A ULID. -/
example : Plain (bytesOf "01GQZ5ANFRCTJSNZ8QHFKSYCW8") := plain_iff _ (by decide +kernel)

end Trc.Web
