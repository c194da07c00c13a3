import Verif.Web.EventText

/-!
# The text of events on the page: C92
-/

namespace Trc.Web

/-- What is shown for a character of an event. -/
def shownChar (c : Char) : List Node :=
  .char (if c = '\x00' then '�' else c) ::
    if c ∈ [',', ';', '"', '\'', '&', '<', '>'] then [.tag "wbr".toList] else []

theorem read_char (c : Char) (s : List Char) :
    readMarkup .data ((htmlEscapeChar c).flatMap breakChar ++ s) = shownChar c ++ readMarkup .data s := by
  unfold htmlEscapeChar
  split
  · subst_vars; rfl
  · split
    · subst_vars; rfl
    · split
      · subst_vars; rfl
      · split
        · subst_vars; rfl
        · split
          · subst_vars; rfl
          · split
            · subst_vars; rfl
            · rename_i h1 h2 h3 h4 h5 h6
              unfold breakChar
              by_cases h7 : c = ','
              · subst h7; rfl
              · by_cases h8 : c = ';'
                · subst h8; rfl
                · simp [h7, h8, readMarkup, shownChar, h1, h2, h3, h4, h5, h6]

theorem read_event (what : List Char) : readMarkup .data (eventMarkup what) = what.flatMap shownChar := by
  unfold eventMarkup insertBreaks htmlEscape
  induction what with
  | nil => rfl
  | cons c s ih =>
    rw [List.flatMap_cons, List.flatMap_append, read_char, ih, List.flatMap_cons]

/-- **C92** Whatever the text of an event, the page shows that text (with the replacement character for a zero byte), and
the only tags it brings into the page are opportunities for line breaks. -/
theorem C92_shown (what : List Char) :
    textContent (readMarkup .data (eventMarkup what)) = what.map (fun c => if c = '\x00' then '�' else c) ∧
    ∀ t ∈ tagsIn (readMarkup .data (eventMarkup what)), t = "wbr".toList := by
  rw [read_event]
  constructor
  · induction what with
    | nil => rfl
    | cons c s ih =>
      have happ : ∀ a b : List Node, textContent (a ++ b) = textContent a ++ textContent b := by
        intro a b; simp [textContent]
      rw [List.flatMap_cons, happ, ih, List.map_cons]
      unfold shownChar
      split <;> split <;> rfl
  · intro t ht
    unfold tagsIn at ht
    obtain ⟨n, hn, hnt⟩ := List.mem_filterMap.mp ht
    obtain ⟨c, _, hc⟩ := List.mem_flatMap.mp hn
    unfold shownChar at hc
    rcases List.mem_cons.mp hc with rfl | hc
    · cases hnt
    · split at hc
      · obtain rfl := List.mem_singleton.mp hc
        simpa using hnt.symm
      · cases hc

example : textContent (readMarkup .data (eventMarkup "<b>a, \"b\" & &lt;</b>".toList)) = "<b>a, \"b\" & &lt;</b>".toList := by
  decide +kernel

/-! ## With a query -/

/-- A part of the text begins a tag. -/
def TagIn (s : List Char) : Prop := ∃ a c b, s = a ++ '<' :: c :: b ∧ (c.isAlpha = true ∨ c = '/' ∨ c = '!' ∨ c = '?')

/-- A part of the text begins a reference. -/
def RefIn (s : List Char) : Prop := ∃ a c b, s = a ++ '&' :: c :: b ∧ (c.isAlphanum = true ∨ c = '#')

/-- A part of the text is a tag of a mark. -/
def MarkIn (s : List Char) : Prop :=
  ∃ a m b, s = a ++ m ++ b ∧ (m.map Char.toLower = "<mark class=\"highlight\">".toList ∨ m.map Char.toLower = "</mark>".toList)

theorem tagIn_cons {c : Char} {s : List Char} (h : ¬ TagIn (c :: s)) : ¬ TagIn s := by
  rintro ⟨a, d, b, e, h'⟩
  exact h ⟨c :: a, d, b, by rw [e]; rfl, h'⟩

theorem refIn_cons {c : Char} {s : List Char} (h : ¬ RefIn (c :: s)) : ¬ RefIn s := by
  rintro ⟨a, d, b, e, h'⟩
  exact h ⟨c :: a, d, b, by rw [e]; rfl, h'⟩

/-- Text in which neither a tag nor a reference begins is read as it is. -/
theorem read_text (t s : List Char) (ht : ¬ TagIn t) (hr : ¬ RefIn t) (h1 : tagOpens s = false) (h2 : refOpens s = false) :
    readMarkup .data (t ++ s) = t.map .char ++ readMarkup .data s := by
  induction t with
  | nil => rfl
  | cons c t ih =>
    have i := ih (tagIn_cons ht) (refIn_cons hr)
    have n1 : ¬ (c = '<' ∧ tagOpens (t ++ s) = true) := by
      rintro ⟨rfl, h⟩
      cases t with
      | nil => rw [List.nil_append, h1] at h; cases h
      | cons d t =>
        refine ht ⟨[], d, t, rfl, ?_⟩
        simpa [tagOpens, or_assoc] using h
    have n2 : ¬ (c = '&' ∧ refOpens (t ++ s) = true) := by
      rintro ⟨rfl, h⟩
      cases t with
      | nil => rw [List.nil_append, h2] at h; cases h
      | cons d t =>
        refine hr ⟨[], d, t, rfl, ?_⟩
        simpa [refOpens] using h
    rw [List.cons_append, readMarkup, if_neg n1, if_neg n2, i]
    rfl

theorem read_plain (t s : List Char) (h : ∀ c ∈ t, c ≠ '<' ∧ c ≠ '&') : readMarkup .data (t ++ s) = t.map .char ++ readMarkup .data s := by
  induction t with
  | nil => rfl
  | cons c t ih =>
    obtain ⟨h1, h2⟩ := h c (by simp)
    simp [readMarkup, h1, h2, ih (fun x hx => h x (by simp [hx]))]

theorem text_chars (t : List Char) (l : List Node) : textContent (t.map .char ++ l) = t ++ textContent l ∧ tagsIn (t.map .char ++ l) = tagsIn l := by
  constructor <;> simp [textContent, tagsIn, List.filterMap_map, Function.comp_def]

theorem text_append (a b : List Node) : textContent (a ++ b) = textContent a ++ textContent b := by simp [textContent]

theorem text_only (t : List Char) : textContent (t.map .char) = t := by
  have := (text_chars t []).1
  rw [List.append_nil] at this
  rw [this]; simp [textContent]

/-! The tags of marks are removed from the text before. -/

theorem markTag_spec {s : List Char} {n : Nat} (h : markTag s = some n) :
    ∃ m b, s = m ++ b ∧ m.length = n ∧ 7 ≤ n ∧
      (m.map Char.toLower = "<mark class=\"highlight\">".toList ∨ m.map Char.toLower = "</mark>".toList) := by
  unfold markTag at h
  split at h
  · rename_i e
    cases h
    refine ⟨s.take 24, s.drop 24, (List.take_append_drop 24 s).symm, ?_, by decide, .inl e⟩
    have := congrArg List.length e
    rw [List.length_map] at this
    rw [this]; decide
  · split at h
    · rename_i e
      cases h
      refine ⟨s.take 7, s.drop 7, (List.take_append_drop 7 s).symm, ?_, by decide, .inr e⟩
      have := congrArg List.length e
      rw [List.length_map] at this
      rw [this]; decide
    · cases h

theorem markTag_some {m b : List Char}
    (h : m.map Char.toLower = "<mark class=\"highlight\">".toList ∨ m.map Char.toLower = "</mark>".toList) :
    (markTag (m ++ b)).isSome := by
  unfold markTag
  rcases h with h | h
  · have hl : m.length = 24 := by
      have := congrArg List.length h
      rw [List.length_map] at this
      rw [this]; decide
    rw [if_pos (by rw [← hl, List.take_left]; exact h)]; rfl
  · have hl : m.length = 7 := by
      have := congrArg List.length h
      rw [List.length_map] at this
      rw [this]; decide
    split
    · rfl
    · rw [if_pos (by rw [← hl, List.take_left]; exact h)]; rfl

theorem unmark_length (n : Nat) (s : List Char) : (unmark n s).length ≤ s.length - n := by
  induction s generalizing n with
  | nil => simp [unmark]
  | cons c s ih =>
    cases n with
    | succ n =>
      rw [unmark]
      have := ih n
      simp only [List.length_cons]; omega
    | zero =>
      rw [unmark]
      split
      · rename_i k hk
        have := ih (k - 1)
        simp only [List.length_cons]; omega
      · have := ih 0
        simp only [List.length_cons]; omega

/-- They are removed if there are any. -/
theorem unmark_iff (s : List Char) : (unmark 0 s = s ↔ ¬ MarkIn s) ∧ (unmark 0 s ≠ s → (unmark 0 s).length < s.length) := by
  induction s with
  | nil =>
    refine ⟨⟨fun _ => ?_, fun _ => rfl⟩, fun h => absurd rfl h⟩
    rintro ⟨a, m, b, e, h⟩
    have : m = [] := by
      have := congrArg List.length e
      simp at this
      exact List.eq_nil_of_length_eq_zero (by omega)
    subst this
    rcases h with h | h <;> revert h <;> decide
  | cons c s ih =>
    cases hm : markTag (c :: s) with
    | some n =>
      obtain ⟨m, b, e, hl, h7, h⟩ := markTag_spec hm
      have hlt : (unmark 0 (c :: s)).length < (c :: s).length := by
        rw [unmark, hm]
        have := unmark_length (n - 1) s
        have h2 := congrArg List.length e
        simp only [List.length_cons, List.length_append] at h2 ⊢
        omega
      refine ⟨⟨fun he => ?_, fun hn => absurd ⟨[], m, b, e, h⟩ hn⟩, fun _ => hlt⟩
      rw [he] at hlt
      exact absurd hlt (Nat.lt_irrefl _)
    | none =>
      have hu : unmark 0 (c :: s) = c :: unmark 0 s := by rw [unmark, hm]
      have hmark : MarkIn (c :: s) ↔ MarkIn s := by
        constructor
        · rintro ⟨a, m, b, e, h⟩
          cases a with
          | nil =>
            rw [List.nil_append] at e
            have := markTag_some (b := b) h
            rw [← e, hm] at this
            cases this
          | cons d a =>
            simp only [List.cons_append, List.cons.injEq] at e
            exact ⟨a, m, b, e.2, h⟩
        · rintro ⟨a, m, b, e, h⟩
          exact ⟨c :: a, m, b, by rw [e]; rfl, h⟩
      rw [hu, hmark]
      refine ⟨?_, ?_⟩
      · rw [← ih.1]; simp
      · intro h
        have := ih.2 (fun e => h (by rw [e]))
        simp only [List.length_cons]; omega

/-! Reading loses the characters of tags. -/

/-- The characters that are still to be decided on. -/
def undecided : Reading → Nat
  | .data => 0
  | .tag _ => 0
  | .ref acc => acc.length + 1

/-- The text of what is read. -/
def textRead (m : Reading) (s : List Char) : List Char := textContent (readMarkup m s)

theorem textRead_tag (acc acc' s : List Char) : textRead (.tag acc) s = textRead (.tag acc') s := by
  unfold textRead
  induction s generalizing acc acc' with
  | nil => rfl
  | cons c s ih =>
    rw [readMarkup, readMarkup]
    split
    · rfl
    · exact ih _ _

theorem reference_length (name : List Char) : (textContent (reference name)).length ≤ name.length + 2 := by
  unfold reference
  split
  · simp [textContent]
  · split
    · simp [textContent]
    · split
      · simp [textContent]
      · split
        · simp [textContent]
        · split
          · simp [textContent]
          · rw [text_append]
            have : textContent (Node.char '&' :: name.map .char) = '&' :: name := by
              show '&' :: textContent (name.map .char) = _
              rw [text_only]
            rw [this]
            simp [textContent]

theorem text_char (c : Char) (l : List Node) : (textContent (.char c :: l)).length = (textContent l).length + 1 := rfl

theorem flush_length (acc : List Char) (l : List Node) :
    (textContent (.char '&' :: acc.reverse.map .char ++ l)).length = acc.length + 1 + (textContent l).length := by
  rw [text_append]
  have : textContent (Node.char '&' :: acc.reverse.map .char) = '&' :: acc.reverse := by
    show '&' :: textContent (acc.reverse.map .char) = _
    rw [text_only]
  rw [this]
  simp only [List.length_append, List.length_cons, List.length_reverse]

/-- What follows is read between tags, or in a tag, or in a reference. -/
theorem textRead_length (m : Reading) (s : List Char) : (textRead m s).length ≤ undecided m + s.length := by
  unfold textRead
  induction s generalizing m with
  | nil =>
    cases m with
    | data => simp [readMarkup, textContent]
    | tag acc => simp [readMarkup, textContent]
    | ref acc =>
      have := flush_length acc []
      rw [List.append_nil] at this
      rw [readMarkup, this]
      simp [undecided, textContent]
  | cons c s ih =>
    have hd := ih .data
    have ht := ih (.tag [])
    have hr := ih (.ref [])
    simp only [undecided, List.length_nil] at hd ht hr
    have hstep : (textContent (if c = '<' ∧ tagOpens s = true then readMarkup (.tag []) s
        else if c = '&' ∧ refOpens s = true then readMarkup (.ref []) s else .char c :: readMarkup .data s)).length ≤ s.length + 1 := by
      split
      · omega
      · split
        · omega
        · rw [text_char]; omega
    cases m with
    | data =>
      rw [readMarkup]
      simp only [undecided, List.length_cons]; omega
    | tag acc =>
      rw [readMarkup]
      have := ih (.tag (c :: acc))
      simp only [undecided, List.length_cons] at this ⊢
      split
      · show (textContent (readMarkup .data s)).length ≤ _
        omega
      · omega
    | ref acc =>
      rw [readMarkup]
      have h1 := ih (.ref (c :: acc))
      simp only [undecided, List.length_cons] at h1 ⊢
      split
      · rw [text_append]
        have := reference_length acc.reverse
        simp only [List.length_append, List.length_reverse] at this ⊢
        omega
      · split
        · omega
        · rw [flush_length]; omega

/-- The `<` that begins a tag is not part of the text, whatever comes before it. -/
theorem textRead_open (m : Reading) (a r : List Char) (h : tagOpens r = true) :
    (textRead m (a ++ '<' :: r)).length ≤ undecided m + a.length + (textRead (.tag []) r).length := by
  induction a generalizing m with
  | nil =>
    rw [List.nil_append]
    cases m with
    | data =>
      unfold textRead
      rw [readMarkup, if_pos ⟨rfl, h⟩]
      simp [undecided]
    | tag acc =>
      have := textRead_tag ('<' :: acc) [] r
      unfold textRead at this ⊢
      rw [readMarkup, if_neg (by decide), this]
      simp [undecided]
    | ref acc =>
      unfold textRead
      rw [readMarkup, if_neg (by decide), if_neg (by decide), if_pos ⟨rfl, h⟩, flush_length]
      simp [undecided]
  | cons c a ih =>
    have hd := ih .data
    have ht := ih (.tag [])
    have hr := ih (.ref [])
    unfold textRead at ih hd ht hr ⊢
    simp only [undecided, List.length_nil] at hd ht hr
    rw [List.cons_append]
    generalize a ++ '<' :: r = s at ih hd ht hr ⊢
    have hstep : (textContent (if c = '<' ∧ tagOpens s = true then readMarkup (.tag []) s
        else if c = '&' ∧ refOpens s = true then readMarkup (.ref []) s else .char c :: readMarkup .data s)).length ≤
          a.length + 1 + (textContent (readMarkup (.tag []) r)).length := by
      split
      · omega
      · split
        · omega
        · rw [text_char]; omega
    cases m with
    | data =>
      rw [readMarkup]
      simp only [undecided, List.length_cons]; omega
    | tag acc =>
      rw [readMarkup]
      have := ih (.tag (c :: acc))
      simp only [undecided, List.length_cons] at this ⊢
      split
      · show (textContent (readMarkup .data s)).length ≤ _
        omega
      · omega
    | ref acc =>
      rw [readMarkup]
      have h1 := ih (.ref (c :: acc))
      simp only [undecided, List.length_cons] at h1 ⊢
      split
      · rw [text_append]
        have := reference_length acc.reverse
        simp only [List.length_append, List.length_reverse] at this ⊢
        omega
      · split
        · omega
        · rw [flush_length]; omega

theorem read_tag (t acc s : List Char) (h : '>' ∉ t) :
    readMarkup (.tag acc) (t ++ '>' :: s) = .tag (acc.reverse ++ t) :: readMarkup .data s := by
  induction t generalizing acc with
  | nil => simp [readMarkup]
  | cons c t ih =>
    have hc : ¬ c = '>' := fun e => h (by simp [e])
    rw [List.cons_append, readMarkup, if_neg hc, ih _ (fun hx => h (by simp [hx]))]
    simp

/-- So are the tags of the mark. -/
theorem textRead_mark (m : Reading) (x r : List Char) :
    (textRead m (x ++ "<mark class=\"highlight\">".toList ++ r)).length ≤ undecided m + x.length + (textRead .data r).length := by
  have h := textRead_open m x ("mark class=\"highlight\">".toList ++ r) rfl
  have e : textRead (.tag []) ("mark class=\"highlight\">".toList ++ r) = textRead .data r := by
    unfold textRead
    have := read_tag "mark class=\"highlight\"".toList [] r (by decide)
    show textContent (readMarkup (.tag []) ("mark class=\"highlight\"".toList ++ '>' :: r)) = _
    rw [this]; rfl
  rw [e] at h
  rw [List.append_assoc]
  exact h

theorem textRead_unmark (m : Reading) (x r : List Char) :
    (textRead m (x ++ "</mark>".toList ++ r)).length ≤ undecided m + x.length + (textRead .data r).length := by
  have h := textRead_open m x ("/mark>".toList ++ r) rfl
  have e : textRead (.tag []) ("/mark>".toList ++ r) = textRead .data r := by
    unfold textRead
    have := read_tag "/mark".toList [] r (by decide)
    show textContent (readMarkup (.tag []) ("/mark".toList ++ '>' :: r)) = _
    rw [this]; rfl
  rw [e] at h
  rw [List.append_assoc]
  exact h

theorem opens_spec {c : Char} {b : List Char} (h : c.isAlpha = true ∨ c = '/' ∨ c = '!' ∨ c = '?') : tagOpens (c :: b) = true := by
  simpa [tagOpens, or_assoc] using h

/-- Text in which a tag begins is not shown as it is. -/
theorem textRead_tagIn {s : List Char} (m : Reading) (h : TagIn s) : (textRead m s).length < undecided m + s.length := by
  obtain ⟨a, c, b, rfl, hc⟩ := h
  have h1 := textRead_open m a (c :: b) (opens_spec hc)
  have h2 := textRead_length (.tag []) (c :: b)
  simp only [undecided, List.length_append, List.length_cons] at h1 h2 ⊢
  omega

/-- Neither is such a text before one of the mark's tags. -/
theorem textRead_tagIn_mark {x : List Char} (m : Reading) (r : List Char) (h : TagIn x) :
    (textRead m (x ++ "<mark class=\"highlight\">".toList ++ r)).length < undecided m + x.length + (textRead .data r).length := by
  obtain ⟨a, c, b, rfl, hc⟩ := h
  have h1 := textRead_open m a (c :: b ++ "<mark class=\"highlight\">".toList ++ r) (opens_spec hc)
  have h2 := textRead_mark (.tag []) (c :: b) r
  simp only [undecided, List.length_append, List.length_cons, List.append_assoc, List.cons_append] at h1 h2 ⊢
  omega

theorem textRead_tagIn_unmark {x : List Char} (m : Reading) (r : List Char) (h : TagIn x) :
    (textRead m (x ++ "</mark>".toList ++ r)).length < undecided m + x.length + (textRead .data r).length := by
  obtain ⟨a, c, b, rfl, hc⟩ := h
  have h1 := textRead_open m a (c :: b ++ "</mark>".toList ++ r) (opens_spec hc)
  have h2 := textRead_unmark (.tag []) (c :: b) r
  simp only [undecided, List.length_append, List.length_cons, List.append_assoc, List.cons_append] at h1 h2 ⊢
  omega

theorem event_text (what : List Char) (h0 : '\x00' ∉ what) : textContent (readMarkup .data (eventMarkup what)) = what := by
  rw [(C92_shown what).1]
  conv => rhs; rw [← List.map_id what]
  apply List.map_congr_left
  intro c hc
  have : ¬ c = '\x00' := by rintro rfl; exact h0 hc
  rw [if_neg this]; rfl

/-- The parts of a text in which the query has been looked for: before the first hit, the hit, and after it. -/
def parts (find : List Char → Option (List Char × List Char × List Char)) (what : List Char) : List (List Char) :=
  match find what with
  | none => [what]
  | some (x, y, z) => [x, y, z]

/-- **C92** (partial) On a page with a query, texts are still shown as they are, with the first hit marked and no other tags, if no
tag begins before, in, or after the hit, and no reference begins and none of the mark's own tags is in the text. -/
theorem C92_highlight_partial (find : List Char → Option (List Char × List Char × List Char)) (what : List Char)
    (hf : ∀ t x y z, find t = some (x, y, z) → t = x ++ y ++ z) (h0 : '\x00' ∉ what)
    (hm : ¬ MarkIn what) (ht : ∀ p ∈ parts find what, ¬ TagIn p) (hr : ¬ RefIn what) :
    textContent (readMarkup .data (highlighted find what)) = what ∧
    tagsIn (readMarkup .data (highlighted find what)) =
      if (find what).isSome then ["mark class=\"highlight\"".toList, "/mark".toList] else [] := by
  unfold highlighted mark
  rw [event_text what h0, (unmark_iff what).1.2 hm]
  unfold parts at ht
  have sub : ∀ a s b, what = a ++ s ++ b → ¬ RefIn s := by
    rintro a s b e ⟨p, c, q, rfl, h⟩
    exact hr ⟨a ++ p, c, q ++ b, by rw [e]; simp, h⟩
  cases e : find what with
  | none =>
    rw [e] at ht
    have := read_text what [] (ht what (by simp)) hr rfl rfl
    rw [List.append_nil] at this
    simp only [this]
    refine ⟨?_, ?_⟩
    · rw [(text_chars what _).1]; simp [textContent, readMarkup]
    · rw [(text_chars what _).2]; simp [tagsIn, readMarkup]
  | some r =>
    obtain ⟨x, y, z⟩ := r
    rw [e] at ht
    have e := hf _ _ _ _ e
    have hx := sub [] x (y ++ z) (by rw [e]; simp)
    have hy := sub x y z e
    have hz := sub (x ++ y) z [] (by rw [e]; simp)
    have open_ : ∀ s, readMarkup .data ("<mark class=\"highlight\">".toList ++ s) = .tag "mark class=\"highlight\"".toList :: readMarkup .data s :=
      fun s => rfl
    have close_ : ∀ s, readMarkup .data ("</mark>".toList ++ s) = .tag "/mark".toList :: readMarkup .data s := fun s => rfl
    have hread : readMarkup .data (x ++ "<mark class=\"highlight\">".toList ++ y ++ "</mark>".toList ++ z) =
        x.map .char ++ .tag "mark class=\"highlight\"".toList :: (y.map .char ++ .tag "/mark".toList :: (z.map .char ++ [])) := by
      rw [List.append_assoc, List.append_assoc, List.append_assoc, read_text x _ (ht x (by simp)) hx rfl rfl, open_,
        read_text y _ (ht y (by simp)) hy rfl rfl, close_]
      have := read_text z [] (ht z (by simp)) hz rfl rfl
      rw [List.append_nil] at this
      rw [this]
      rfl
    simp only [hread]
    have ctag : ∀ t l, textContent (.tag t :: l) = textContent l ∧ tagsIn (.tag t :: l) = t :: tagsIn l := fun t l => ⟨rfl, rfl⟩
    refine ⟨?_, ?_⟩
    · rw [(text_chars x _).1, (ctag _ _).1, (text_chars y _).1, (ctag _ _).1, (text_chars z _).1, e]
      simp [textContent]
    · rw [(text_chars x _).2, (ctag _ _).2, (text_chars y _).2, (ctag _ _).2, (text_chars z _).2]
      simp [tagsIn]

/-- **C92** (exact) On a page with a query, a text in which no reference begins is shown as it is if and only if it has none of the
mark's own tags, and no tag begins before, in, or after the hit. -/
theorem C92_highlight_exact (find : List Char → Option (List Char × List Char × List Char)) (what : List Char)
    (hf : ∀ t x y z, find t = some (x, y, z) → t = x ++ y ++ z) (h0 : '\x00' ∉ what) (hr : ¬ RefIn what) :
    textContent (readMarkup .data (highlighted find what)) = what ↔ ¬ MarkIn what ∧ ∀ p ∈ parts find what, ¬ TagIn p := by
  refine ⟨fun h => ?_, fun ⟨hm, ht⟩ => (C92_highlight_partial find what hf h0 hm ht hr).1⟩
  have hl := congrArg List.length h
  unfold highlighted at hl
  rw [event_text what h0] at hl
  have hle : ∀ s, (textContent (readMarkup .data (mark find s))).length ≤ s.length := by
    intro s
    unfold mark
    cases e : find s with
    | none =>
      have := textRead_length .data s
      unfold textRead at this
      simp only [undecided] at this ⊢; omega
    | some r =>
      obtain ⟨x, y, z⟩ := r
      have e := hf _ _ _ _ e
      have h1 := textRead_mark .data x (y ++ "</mark>".toList ++ z)
      have h2 := textRead_unmark .data y z
      have h3 := textRead_length .data z
      rw [← List.append_assoc, ← List.append_assoc] at h1
      unfold textRead at h1 h2 h3
      simp only [undecided] at h1 h2 h3
      rw [e]
      simp only [List.length_append] at h1 h2 h3 ⊢
      omega
  have hm : unmark 0 what = what := by
    by_cases hm : unmark 0 what = what
    · exact hm
    · have h1 := (unmark_iff what).2 hm
      have h2 := hle (unmark 0 what)
      omega
  refine ⟨(unmark_iff what).1.1 hm, ?_⟩
  rw [hm] at hl
  unfold mark at hl
  unfold parts
  cases e : find what with
  | none =>
    rw [e] at hl
    intro p hp ht
    simp only [List.mem_singleton] at hp
    subst hp
    have := textRead_tagIn .data ht
    unfold textRead at this
    simp only [undecided] at this hl
    omega
  | some r =>
    obtain ⟨x, y, z⟩ := r
    rw [e] at hl
    have e := hf _ _ _ _ e
    have hw := congrArg List.length e
    have h1 := textRead_mark .data x (y ++ "</mark>".toList ++ z)
    have h2 := textRead_unmark .data y z
    have h3 := textRead_length .data z
    rw [← List.append_assoc, ← List.append_assoc] at h1
    intro p hp ht
    simp only [List.mem_cons, List.not_mem_nil, or_false] at hp
    rcases hp with rfl | rfl | rfl
    · have := textRead_tagIn_mark .data (y ++ "</mark>".toList ++ z) ht
      rw [← List.append_assoc, ← List.append_assoc] at this
      unfold textRead at *
      simp only [undecided, List.length_append] at *
      omega
    · have := textRead_tagIn_unmark .data z ht
      unfold textRead at *
      simp only [undecided, List.length_append] at *
      omega
    · have := textRead_tagIn .data ht
      unfold textRead at *
      simp only [undecided, List.length_append] at *
      omega

/-- Finding a text. -/
def findText (w : List Char) : List Char → Option (List Char × List Char × List Char)
  | [] => if w = [] then some ([], [], []) else none
  | c :: s =>
    if w.isPrefixOf (c :: s) then some ([], w, (c :: s).drop w.length)
    else (findText w s).map fun r => (c :: r.1, r.2.1, r.2.2)

example : highlighted (findText "time".toList) "a timeout, again: time".toList =
    "a <mark class=\"highlight\">time</mark>out, again: time".toList := by decide +kernel

/-- **C92** is violated on pages with a query: the text of an event in which the query is found becomes part of the page's
markup, so that it brings in any tags. -/
theorem C92_highlight_violated :
    let what := "GET <img src=x onerror=alert(1)> timeout".toList
    tagsIn (readMarkup .data (eventMarkup what)) = ["wbr".toList, "wbr".toList] ∧
    tagsIn (readMarkup .data (highlighted (findText "timeout".toList) what)) =
      ["img src=x onerror=alert(1)".toList, "mark class=\"highlight\"".toList, "/mark".toList] := by
  decide +kernel

/-- **C92** is violated on pages with a query by texts with the mark's own tags: each is shown as a space. -/
theorem C92_own_tags_violated :
    textContent (readMarkup .data (highlighted (findText "timeout".toList) "a<mark class=\"highlight\">b</MARK>c timeout".toList)) =
      "a b c timeout".toList := by
  decide +kernel

/-- **C92** is violated by any tag on pages with a query: whoever gets to write a text into an event, followed by anything
the query finds, puts tags of their choice into the page of whoever makes the query. -/
theorem C92_any_tag_violated (find : List Char → Option (List Char × List Char × List Char)) (p r hit rest : List Char) (c : Char) (t : List Char)
    (hp : ∀ c ∈ p, c ≠ '<' ∧ c ≠ '&') (hc : c.isAlpha = true) (ht : '>' ∉ t)
    (h0 : '\x00' ∉ p ++ '<' :: (c :: t ++ '>' :: r) ++ hit ++ rest) (hm : ¬ MarkIn (p ++ '<' :: (c :: t ++ '>' :: r) ++ hit ++ rest))
    (hf : find (p ++ '<' :: (c :: t ++ '>' :: r) ++ hit ++ rest) = some (p ++ '<' :: (c :: t ++ '>' :: r), hit, rest)) :
    (tagsIn (readMarkup .data (highlighted find (p ++ '<' :: (c :: t ++ '>' :: r) ++ hit ++ rest)))).head? = some (c :: t) := by
  have hne : '>' ∉ c :: t := by
    intro h
    rcases List.mem_cons.1 h with rfl | h
    · revert hc; decide
    · exact ht h
  unfold highlighted mark
  rw [event_text _ h0, (unmark_iff _).1.2 hm, hf]
  simp only [List.append_assoc, List.cons_append]
  rw [read_plain p _ hp, (text_chars p _).2, readMarkup, if_pos ⟨rfl, by simp [tagOpens, hc]⟩]
  have := read_tag (c :: t) [] (r ++ ("<mark class=\"highlight\">".toList ++ (hit ++ ("</mark>".toList ++ rest)))) hne
  simp only [List.cons_append] at this
  rw [this]
  rfl

/-- A frame of another site before a hit. -/
example : (tagsIn (readMarkup .data (highlighted (findText "timeout".toList)
    "q=<iframe src=//x.example/a></iframe> timeout".toList))).head? = some "iframe src=//x.example/a".toList :=
  C92_any_tag_violated (findText "timeout".toList) "q=".toList "</iframe> ".toList "timeout".toList [] 'i' "frame src=//x.example/a".toList
    (by decide) (by decide) (by decide) (by decide) ((unmark_iff _).1.1 (by decide +kernel)) (by decide +kernel)

theorem no_tag {s : List Char} (h : ∀ c ∈ s, c ≠ '<') : ¬ TagIn s := by
  rintro ⟨a, c, b, rfl, _⟩
  exact h '<' (by simp) rfl

theorem no_ref {s : List Char} (h : ∀ c ∈ s, c ≠ '&') : ¬ RefIn s := by
  rintro ⟨a, c, b, rfl, _⟩
  exact h '&' (by simp) rfl

theorem toLower_lt {c : Char} (h : c.toLower = '<') : c = '<' := by
  unfold Char.toLower at h
  split at h
  · rename_i h'
    have := congrArg (fun c => c.val.toNat) h
    simp only at this
    have h1 : 65 ≤ c.val.toNat := h'.1
    have h2 : c.val.toNat ≤ 90 := h'.2
    have h3 : (c.val + 32).toNat = c.val.toNat + 32 := by
      rw [UInt32.toNat_add, Nat.mod_eq_of_lt]
      · rfl
      · have : (32 : UInt32).toNat = 32 := rfl
        omega
    have h4 : ('<' : Char).val.toNat = 60 := rfl
    have h5 : (c.val + 32).toNat = ('<' : Char).val.toNat := this
    omega
  · exact h

/-- Where no tag begins there is no tag of a mark. -/
theorem no_mark {s : List Char} (h : ∀ c ∈ s, c ≠ '<') : ¬ MarkIn s := by
  rintro ⟨a, m, b, rfl, hm⟩
  cases m with
  | nil => rcases hm with hm | hm <;> revert hm <;> decide
  | cons c m =>
    refine h c (by simp) (toLower_lt ?_)
    rcases hm with hm | hm
    · exact (List.cons.inj hm).1
    · exact (List.cons.inj hm).1

/-- `C92_highlight_exact` on a text with a `<`, which is shown as it is for one query, where a `<` and what follows it are in
different parts, and not for another. -/
example :
    textContent (readMarkup .data (highlighted (findText "n".toList) "i<n: timeout".toList)) = "i<n: timeout".toList ∧
    textContent (readMarkup .data (highlighted (findText "timeout".toList) "i<n: timeout".toList)) ≠ "i<n: timeout".toList := by
  have hs : ∀ w t x y z, findText w t = some (x, y, z) → t = x ++ y ++ z := by
    intro w t
    induction t with
    | nil =>
      intro x y z h
      unfold findText at h
      split at h
      · cases h; rfl
      · cases h
    | cons c t ih =>
      intro x y z h
      unfold findText at h
      split at h
      · rename_i hp
        cases h
        obtain ⟨r, hr⟩ := List.isPrefixOf_iff_prefix.1 hp
        rw [← hr, List.drop_left]; rfl
      · simp only [Option.map_eq_some_iff, Prod.mk.injEq] at h
        obtain ⟨⟨x', y', z'⟩, h1, rfl, rfl, rfl⟩ := h
        rw [ih _ _ _ h1]; rfl
  refine ⟨(C92_highlight_exact _ _ (hs _) (by decide) (no_ref (by decide))).2 ⟨(unmark_iff _).1.1 (by decide +kernel), ?_⟩, fun h => ?_⟩
  · have : parts (findText "n".toList) "i<n: timeout".toList = ["i<".toList, "n".toList, ": timeout".toList] := by decide +kernel
    rw [this]
    intro p hp
    simp only [List.mem_cons, List.not_mem_nil, or_false] at hp
    rcases hp with rfl | rfl | rfl
    · rintro ⟨a, c, b, e, _⟩
      have hl := congrArg List.length e
      have ha : a.length = 0 := by
        have : ("i<".toList).length = 2 := by decide
        rw [this] at hl
        simp only [List.length_append, List.length_cons] at hl
        omega
      rw [List.eq_nil_of_length_eq_zero ha] at e
      revert e
      simp
    · exact no_tag (by decide)
    · exact no_tag (by decide)
  · have := ((C92_highlight_exact _ _ (hs _) (by decide) (no_ref (by decide))).1 h).2 "i<n: ".toList (by decide +kernel)
    exact this ⟨"i".toList, 'n', ": ".toList, by decide, .inl (by decide)⟩

end Trc.Web
