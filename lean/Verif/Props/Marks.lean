import Verif.Web.Marks
import Verif.Props.EventText
import Verif.Props.Filter
import Verif.Props.Util

/-!
# What the page marks for a query: C117
-/

namespace Trc.Web

/-- Characters that are neither separators for `InsertBreaks` nor written with a reference, in the page or in `innerHTML`. -/
def Unescaped (s : List Char) : Prop :=
  ∀ c ∈ s, c ≠ ',' ∧ c ≠ ';' ∧ c ≠ '"' ∧ c ≠ '\'' ∧ c ≠ '&' ∧ c ≠ '<' ∧ c ≠ '>' ∧ c ≠ '\u00a0' ∧ c ≠ '\x00'

/-- The matches of an expression are where it says. -/
def Splits (find : Find) : Prop := ∀ t x y z, find t = some (x, y, z) → t = x ++ y ++ z

/-- The text with the first match of the expression marked, if there is one. -/
def withMark (find : Find) (s : List Char) : List Node :=
  match find s with
  | none => s.map .char
  | some (x, y, z) =>
    x.map .char ++ .tag "mark class=\"highlight\"".toList :: (y.map .char ++ .tag "/mark".toList :: z.map .char)

theorem text_of_chars (s : List Char) : textContent (s.map .char) = s ∧ tagsIn (s.map .char) = [] := by
  have := text_chars s []
  rw [List.append_nil] at this
  constructor
  · rw [this.1]; simp [textContent]
  · rw [this.2]; rfl

theorem marked_withMark (find : Find) (s : List Char) : marked (withMark find s) ↔ (find s).isSome := by
  unfold marked withMark
  split
  · rename_i h
    rw [(text_of_chars s).2, h]; simp
  · rename_i x y z h
    rw [h, (text_chars x _).2]
    simp [tagsIn]

/-- Reading the marked text as markup. -/
theorem read_mark (find : Find) (hf : Splits find) (s : List Char) (ht : ∀ p ∈ parts find s, ¬ TagIn p) (hr : ¬ RefIn s) :
    readMarkup .data (mark find s) = withMark find s := by
  unfold mark withMark
  unfold parts at ht
  have sub : ∀ a t b, s = a ++ t ++ b → ¬ RefIn t := by
    rintro a t b e ⟨p, c, q, rfl, h⟩
    exact hr ⟨a ++ p, c, q ++ b, by rw [e]; simp, h⟩
  cases e : find s with
  | none =>
    rw [e] at ht
    have := read_text s [] (ht s (by simp)) hr rfl rfl
    rw [List.append_nil] at this
    simp only [this]
    simp [readMarkup]
  | some r =>
    obtain ⟨x, y, z⟩ := r
    rw [e] at ht
    have e := hf _ _ _ _ e
    have hx := sub [] x (y ++ z) (by rw [e]; simp)
    have hy := sub x y z e
    have hz := sub (x ++ y) z [] (by rw [e]; simp)
    have open_ : ∀ s, readMarkup .data ("<mark class=\"highlight\">".toList ++ s) = .tag "mark class=\"highlight\"".toList :: readMarkup .data s :=
      fun s => rfl
    have close_ : ∀ s, readMarkup .data ("</mark>".toList ++ s) = .tag "/mark".toList :: readMarkup .data s := fun s => rfl
    have hz' := read_text z [] (ht z (by simp)) hz rfl rfl
    rw [List.append_nil] at hz'
    show readMarkup .data (x ++ "<mark class=\"highlight\">".toList ++ y ++ "</mark>".toList ++ z) = _
    rw [List.append_assoc, List.append_assoc, List.append_assoc, read_text x _ (ht x (by simp)) hx rfl rfl, open_,
      read_text y _ (ht y (by simp)) hy rfl rfl, close_, hz']
    simp [readMarkup]

/-- A text without `<` has no tags in its parts. -/
theorem parts_plain (find : Find) (hf : Splits find) (s : List Char) (h : ∀ c ∈ s, c ≠ '<') : ∀ p ∈ parts find s, ¬ TagIn p := by
  unfold parts
  cases e : find s with
  | none =>
    intro p hp
    simp only [List.mem_singleton] at hp
    subst hp; exact no_tag h
  | some r =>
    obtain ⟨x, y, z⟩ := r
    have e := hf _ _ _ _ e
    intro p hp
    simp only [List.mem_cons, List.not_mem_nil, or_false] at hp
    refine no_tag fun c hc => h c ?_
    rw [e]
    rcases hp with rfl | rfl | rfl <;> simp [hc]

/-- The content of an element that shows a text, whose only tags are opportunities for line breaks. -/
def Shows (s : List Char) (content : List Node) : Prop :=
  textContent content = s ∧ ∀ t ∈ tagsIn content, t = "wbr".toList

theorem shows_chars (s : List Char) : Shows s (s.map .char) := by
  refine ⟨(text_of_chars s).1, ?_⟩
  rw [(text_of_chars s).2]; intro t ht; cases ht

theorem shows_what (ev : Core.Event) (h0 : '\x00' ∉ ev.what.toList) : Shows ev.what.toList (whatContent ev) := by
  refine ⟨?_, (C92_shown _).2⟩
  unfold whatContent
  rw [(C92_shown _).1]
  conv => rhs; rw [← List.map_id ev.what.toList]
  apply List.map_congr_left
  intro c hc
  have : ¬ c = '\x00' := by rintro rfl; exact h0 hc
  rw [if_neg this]; rfl

/-- **C117** (exact) An element in whose text no tags or references begin is marked if and only if the query is found in its text and
also in its markup, the latter being what the page's script looks at. -/
theorem C117_marked_exact (find : Find) (hf : Splits find) (s : List Char) (content : List Node) (hs : Shows s content)
    (hm : ¬ MarkIn s) (ht : ∀ p ∈ parts find s, ¬ TagIn p) (hr : ¬ RefIn s) :
    marked (highlightElem find content) ↔ (find (innerHTML content)).isSome ∧ (find s).isSome := by
  unfold highlightElem
  by_cases hi : (find (innerHTML content)).isSome
  · rw [if_pos hi, hs.1, (unmark_iff s).1.2 hm, read_mark find hf s ht hr, marked_withMark]
    simp [hi]
  · rw [if_neg hi]
    constructor
    · intro hm
      have := hs.2 _ hm
      exact absurd this (by decide)
    · intro hm; exact absurd hm.1 hi

theorem innerHTML_plain (s : List Char) (h : Unescaped s) : innerHTML (s.map .char) = s := by
  unfold innerHTML
  induction s with
  | nil => rfl
  | cons c s ih =>
    obtain ⟨_, _, _, _, h5, h6, h7, h8, _⟩ := h c (by simp)
    rw [List.map_cons, List.flatMap_cons, ih (fun x hx => h x (by simp [hx]))]
    simp [serializeNode, h5, h6, h7, h8]

theorem what_plain (ev : Core.Event) (h : Unescaped ev.what.toList) : whatContent ev = ev.what.toList.map .char := by
  unfold whatContent
  rw [read_event]
  generalize ev.what.toList = l at h
  induction l with
  | nil => rfl
  | cons c s ih =>
    obtain ⟨h1, h2, h3, h4, h5, h6, h7, h8, h9⟩ := h c (by simp)
    rw [List.flatMap_cons, ih (fun x hx => h x (by simp [hx]))]
    simp [shownChar, h1, h2, h3, h4, h5, h6, h7, h9]

theorem highlight_plain (find : Find) (hf : Splits find) (s : List Char) (h : Unescaped s) :
    highlightElem find (s.map .char) = withMark find s := by
  unfold highlightElem
  rw [innerHTML_plain s h, (text_of_chars s).1]
  by_cases hi : (find s).isSome
  · have h1 : ∀ c ∈ s, c ≠ '<' := fun c hc => (h c hc).2.2.2.2.2.1
    rw [if_pos hi, (unmark_iff s).1.2 (no_mark h1), read_mark find hf s (parts_plain find hf s h1)
      (no_ref fun c hc => (h c hc).2.2.2.2.1)]
  · rw [if_neg hi]
    unfold withMark
    have : find s = none := by simpa using hi
    rw [this]

/-- What the page shows of a trace, besides times: the texts of its events, and the functions (without the path of their
package) and files of their stacks. -/
def texts (tr : Static) : List (List Char) :=
  tr.events.flatMap fun ev => ev.what.toList :: ev.stack.flatMap fun fr =>
    [humanizeFunction fr.function.toList, (compactFileLine fr).toList]

theorem searchable_plain (tr : Static) (h : ∀ s ∈ texts tr, Unescaped s) : searchable tr = (texts tr).map (List.map .char) := by
  unfold searchable texts
  unfold texts at h
  generalize tr.events = l at h
  induction l with
  | nil => rfl
  | cons ev evs ih =>
    rw [List.flatMap_cons, List.flatMap_cons, List.map_append,
      ih (fun s hs => h s (by rw [List.flatMap_cons]; exact List.mem_append_right _ hs)),
      what_plain ev (h _ (by rw [List.flatMap_cons]; simp)), List.map_cons]
    congr 2
    generalize ev.stack = l
    induction l with
    | nil => rfl
    | cons fr l ihl =>
      rw [List.flatMap_cons, List.flatMap_cons, List.map_append, ihl]
      rfl

/-- **C117** (partial) Of a trace whose texts are plain, on a page for a query that the browser understands, everything
is shown as it is with the first match of the query marked, where there is one. -/
theorem C117_page_partial (newRegExp : String → Option Find) (query : String) (find : Find) (hf : Splits find)
    (hq : query ≠ "") (hn : newRegExp query = some find) (tr : Static) (h : ∀ s ∈ texts tr, Unescaped s) :
    pageElements newRegExp query tr = (texts tr).map (withMark find) := by
  unfold pageElements
  rw [if_neg hq, hn, searchable_plain tr h]
  simp only [List.map_map]
  apply List.map_congr_left
  intro s hs
  exact highlight_plain find hf s (h s hs)

theorem last_none (s : List Char) (h : '/' ∉ s) : lastIndex s '/' = -1 := by
  unfold lastIndex
  have : s.reverse.findIdx? (· == '/') = none := by
    rw [List.findIdx?_eq_none_iff]
    intro x hx
    have : x ≠ '/' := by rintro rfl; exact h (by simpa using hx)
    simpa using this
  rw [this]

theorem trim_id (tr : Static) (depth : Int) (hd : depth = 0 ∨ ∀ ev ∈ tr.events, (ev.stack.length : Int) ≤ depth) :
    tr.trimStacks depth = tr := by
  unfold Static.trimStacks
  by_cases h0 : depth = 0
  · rw [if_pos h0]
  · rw [if_neg h0]
    rcases hd with hd | hd
    · exact absurd hd h0
    · have : tr.events.map (trimEvent (if depth < 0 then 0 else depth).toNat) = tr.events := by
        conv => rhs; rw [← List.map_id tr.events]
        apply List.map_congr_left
        intro ev hev
        have := hd ev hev
        unfold trimEvent
        rw [if_neg (by split <;> omega)]
        rfl
      simp only [this]

/-- **C117** (partial) A trace that is found has a mark, if the server and the browser agree about the query, the texts
are plain, the functions are of packages without a path, and stacks were not cut. -/
theorem C117_found_partial (newRegExp : String → Option Find) (compile : Compile) (f : Filter) (re : Matcher) (find : Find)
    (hf : Splits find) (hq : f.query ≠ "") (hr : f.regexp = none) (hc : compile f.query = .ok re)
    (hn : newRegExp f.query = some find)
    (agree : ∀ s : String, re s = (find s.toList).isSome) (tr : Static) (h : ∀ s ∈ texts tr, Unescaped s)
    (hp : ∀ ev ∈ tr.events, ∀ fr ∈ ev.stack, '/' ∉ fr.function.toList) (depth : Int)
    (hd : depth = 0 ∨ ∀ ev ∈ tr.events, (ev.stack.length : Int) ≤ depth) (ha : (f.allow compile tr).1 = true) :
    ∃ e ∈ pageElements newRegExp f.query (tr.trimStacks depth), marked e := by
  rw [trim_id tr depth hd]
  have hm : matchEvents re tr.events = true := by
    unfold Filter.allow at ha
    have e : (f.allowQuery compile tr).1 = matchEvents re tr.events := by
      unfold Filter.allowQuery Filter.initializeQueryRegexp
      simp [hr, hq, hc]
    rw [← e]
    repeat' split at ha
    all_goals first | (exact ha) | (exact absurd ha (by simp))
  rw [C117_page_partial newRegExp f.query find hf hq hn tr h]
  have key : ∀ s ∈ texts tr, (find s).isSome → ∃ e ∈ (texts tr).map (withMark find), marked e :=
    fun s hs hi => ⟨_, List.mem_map.mpr ⟨s, hs, rfl⟩, (marked_withMark find s).mpr hi⟩
  rw [matchEvents_iff] at hm
  obtain ⟨ev, hev, hm⟩ := hm
  have mem : ∀ s, (s = ev.what.toList ∨ s ∈ ev.stack.flatMap fun fr =>
      [humanizeFunction fr.function.toList, (compactFileLine fr).toList]) → s ∈ texts tr := by
    intro s hs
    unfold texts
    exact List.mem_flatMap.mpr ⟨ev, hev, by simpa using hs⟩
  rcases hm with hm | ⟨fr, hfr, hm | hm⟩
  · exact key _ (mem _ (.inl rfl)) (by rw [← agree]; exact hm)
  · refine key (humanizeFunction fr.function.toList) (mem _ (.inr (List.mem_flatMap.mpr ⟨fr, hfr, .head _⟩))) ?_
    have : humanizeFunction fr.function.toList = fr.function.toList := by
      unfold humanizeFunction
      rw [last_none _ (hp ev hev fr hfr)]
      simp
    rw [this, ← agree]; exact hm
  · exact key _ (mem _ (.inr (List.mem_flatMap.mpr ⟨fr, hfr, .tail _ (.head _)⟩))) (by rw [← agree]; exact hm)

/-! ## Searching for a text -/

theorem findText_splits (w : List Char) : Splits (findText w) := by
  intro t
  induction t with
  | nil =>
    intro x y z h
    unfold findText at h
    split at h
    · cases h; rfl
    · cases h
  | cons c s ih =>
    intro x y z h
    unfold findText at h
    split at h
    · rename_i hp
      cases h
      obtain ⟨r, hr⟩ := List.isPrefixOf_iff_prefix.mp hp
      rw [← hr]; simp
    · cases e : findText w s with
      | none => rw [e] at h; cases h
      | some r =>
        rw [e] at h
        cases h
        rw [ih _ _ _ e]; simp

theorem findText_isSome (w s : List Char) : (findText w s).isSome ↔ ∃ p q, s = p ++ w ++ q := by
  induction s with
  | nil =>
    unfold findText
    split
    · rename_i h; subst h; exact ⟨fun _ => ⟨[], [], rfl⟩, fun _ => rfl⟩
    · rename_i h
      constructor
      · intro h; cases h
      · rintro ⟨p, q, e⟩
        simp at e
        exact absurd e.2.1 h
  | cons c s ih =>
    unfold findText
    split
    · rename_i hp
      obtain ⟨r, hr⟩ := List.isPrefixOf_iff_prefix.mp hp
      exact ⟨fun _ => ⟨[], r, by simp [hr]⟩, fun _ => rfl⟩
    · rename_i hp
      rw [Option.isSome_map, ih]
      constructor
      · rintro ⟨p, q, e⟩; exact ⟨c :: p, q, by simp [e]⟩
      · rintro ⟨p, q, e⟩
        cases p with
        | nil => exact absurd (List.isPrefixOf_iff_prefix.mpr ⟨q, by simpa using e.symm⟩) hp
        | cons d p => simp at e; exact ⟨p, q, by simp [e.2]⟩

/-- A trace of which the page marks both an event and a file. -/
example :
    let tr : Static := { (default : Static) with events := [
      ⟨⟨0, none⟩, "dial timeout", [⟨"main.main", "/src/app/timeout.go:7"⟩], true⟩, ⟨⟨1, none⟩, "done", [], false⟩] }
    pageElements (fun q => some (findText q.toList)) "timeout" tr = (texts tr).map (withMark (findText "timeout".toList)) ∧
    (pageElements (fun q => some (findText q.toList)) "timeout" tr).map (fun e => decide (marked e)) = [true, false, true, false] := by
  refine ⟨C117_page_partial _ _ _ (findText_splits _) (by decide) rfl _ ?_, by decide +kernel⟩
  unfold Unescaped
  decide +kernel

/-- The same by `C117_found_partial`. -/
example :
    let tr : Static := { (default : Static) with events := [
      ⟨⟨0, none⟩, "dial timeout", [⟨"main.main", "/src/app/timeout.go:7"⟩], true⟩, ⟨⟨1, none⟩, "done", [], false⟩] }
    ∃ e ∈ pageElements (fun q => some (findText q.toList)) "timeout" (tr.trimStacks 2), marked e := by
  refine C117_found_partial _ (fun q => .ok fun s => (findText q.toList s.toList).isSome) { query := "timeout" } _
    (findText "timeout".toList) (findText_splits _) (by decide) rfl rfl rfl (fun _ => rfl) _ ?_ ?_ 2 (.inr ?_) (by decide +kernel)
  · unfold Unescaped
    decide +kernel
  · decide +kernel
  · decide +kernel

/-- Of an event `a, b`, the first part can be marked, the whole cannot. -/
example : (marked (highlightElem (findText "a".toList) (whatContent ⟨⟨0, none⟩, "a, b", [], false⟩)) ↔ True) ∧
    (marked (highlightElem (findText "a, b".toList) (whatContent ⟨⟨0, none⟩, "a, b", [], false⟩)) ↔ False) := by
  constructor
  · rw [C117_marked_exact _ (findText_splits _) _ _ (shows_what _ (by decide)) (no_mark (by decide))
      (parts_plain _ (findText_splits _) _ (by decide)) (no_ref (by decide))]
    decide +kernel
  · rw [C117_marked_exact _ (findText_splits _) _ _ (shows_what _ (by decide)) (no_mark (by decide))
      (parts_plain _ (findText_splits _) _ (by decide)) (no_ref (by decide))]
    decide +kernel

/-! ## What is not marked -/

/-- What `InsertBreaks` and the escaping before it put a tag behind.  A semicolon is not always followed by one: it also
ends `&nbsp;` in `innerHTML`. -/
def separators : List Char := [',', '"', '\'']

/-- Every separator is followed by a tag. -/
def separated : List Char → Bool
  | [] => true
  | c :: s => (!separators.contains c || s.head? == some '<') && separated s

theorem separated_append (a b : List Char) (ha : separated a = true) (hb : separated b = true) : separated (a ++ b) = true := by
  induction a with
  | nil => exact hb
  | cons c a ih =>
    unfold separated at ha
    rw [Bool.and_eq_true] at ha
    rw [List.cons_append]
    unfold separated
    rw [Bool.and_eq_true]
    refine ⟨?_, ih ha.2⟩
    cases a with
    | nil =>
      have := ha.1
      simp only [List.head?_nil, Bool.or_eq_true] at this
      rcases this with h | h
      · rw [h]; rfl
      · exact absurd h (by decide)
    | cons d a => exact ha.1

theorem separated_at (s p q : List Char) (k c : Char) (h : separated s = true) (e : s = p ++ k :: c :: q) (hk : k ∈ separators) :
    c = '<' := by
  induction p generalizing s with
  | nil =>
    subst e
    rw [List.nil_append] at h
    unfold separated at h
    rw [Bool.and_eq_true] at h
    simpa [hk] using h.1
  | cons d p ih =>
    subst e
    rw [List.cons_append] at h
    unfold separated at h
    rw [Bool.and_eq_true] at h
    exact ih _ h.2 rfl

theorem separated_char (c : Char) : separated ((shownChar c).flatMap serializeNode) = true := by
  unfold shownChar
  by_cases h1 : c = ','
  · subst h1; rfl
  by_cases h2 : c = ';'
  · subst h2; rfl
  by_cases h3 : c = '"'
  · subst h3; rfl
  by_cases h4 : c = '\''
  · subst h4; rfl
  by_cases h5 : c = '&'
  · subst h5; rfl
  by_cases h6 : c = '<'
  · subst h6; rfl
  by_cases h7 : c = '>'
  · subst h7; rfl
  by_cases h8 : c = '\x00'
  · subst h8; rfl
  by_cases h9 : c = '\u00a0'
  · subst h9; rfl
  simp [h1, h2, h3, h4, h5, h6, h7, h8, h9, serializeNode, separated, separators]

theorem separated_what (ev : Core.Event) : separated (innerHTML (whatContent ev)) = true := by
  unfold whatContent innerHTML
  rw [read_event]
  induction ev.what.toList with
  | nil => rfl
  | cons c s ih =>
    rw [List.flatMap_cons, List.flatMap_append]
    exact separated_append _ _ (separated_char c) ih

theorem what_unmarked (find : Find) (ev : Core.Event) (h : find (innerHTML (whatContent ev)) = none) :
    highlightElem find (whatContent ev) = whatContent ev ∧ ¬ marked (highlightElem find (whatContent ev)) := by
  have e : highlightElem find (whatContent ev) = whatContent ev := by unfold highlightElem; rw [h]; rfl
  refine ⟨e, ?_⟩
  rw [e]
  intro hm
  exact absurd ((C92_shown _).2 _ hm) (by decide)

/-- **C117** is violated by every text with a comma or a quote before another character: it is marked in no
event, though every event with it is found. -/
theorem C117_separator_violated (a b : List Char) (k c : Char) (hk : k ∈ separators) (hc : c ≠ '<') :
    (∀ ev : Core.Event, ¬ marked (highlightElem (findText (a ++ k :: c :: b)) (whatContent ev))) ∧
    ∀ p q, (findText (a ++ k :: c :: b) (p ++ (a ++ k :: c :: b) ++ q)).isSome := by
  refine ⟨fun ev => (what_unmarked _ ev ?_).2, fun p q => (findText_isSome _ _).mpr ⟨p, q, rfl⟩⟩
  cases e : findText (a ++ k :: c :: b) (innerHTML (whatContent ev)) with
  | none => rfl
  | some r =>
    obtain ⟨p, q, h⟩ := (findText_isSome _ _).mp (by rw [e]; rfl)
    exact absurd (separated_at _ (p ++ a) (b ++ q) k c (separated_what ev) (by rw [h]; simp) hk) hc

/-- Looking for `a, b`. -/
example : ∀ ev : Core.Event, ¬ marked (highlightElem (findText "a, b".toList) (whatContent ev)) :=
  (C117_separator_violated ['a'] ['b'] ',' ' ' (by decide) (by decide)).1

/-- What begins the name of a character in `innerHTML`. -/
def entityStart (c : Option Char) : Bool := c == some 'a' || c == some 'l' || c == some 'g' || c == some 'n'

/-- Every ampersand begins the name of a character. -/
def escaped : List Char → Bool
  | [] => true
  | c :: s => (c != '&' || entityStart s.head?) && escaped s

theorem escaped_append (a b : List Char) (ha : escaped a = true) (hb : escaped b = true) : escaped (a ++ b) = true := by
  induction a with
  | nil => exact hb
  | cons c a ih =>
    unfold escaped at ha
    rw [Bool.and_eq_true] at ha
    rw [List.cons_append]
    unfold escaped
    rw [Bool.and_eq_true]
    refine ⟨?_, ih ha.2⟩
    cases a with
    | nil =>
      have := ha.1
      simp only [List.head?_nil, Bool.or_eq_true] at this
      rcases this with h | h
      · rw [h]; rfl
      · exact absurd h (by decide)
    | cons d a => exact ha.1

theorem escaped_at (s p q : List Char) (c : Char) (h : escaped s = true) (e : s = p ++ '&' :: c :: q) :
    entityStart (some c) = true := by
  induction p generalizing s with
  | nil =>
    subst e
    rw [List.nil_append] at h
    unfold escaped at h
    rw [Bool.and_eq_true] at h
    simpa using h.1
  | cons d p ih =>
    subst e
    rw [List.cons_append] at h
    unfold escaped at h
    rw [Bool.and_eq_true] at h
    exact ih _ h.2 rfl

theorem escaped_char (c : Char) : escaped ((shownChar c).flatMap serializeNode) = true := by
  unfold shownChar
  by_cases h1 : c = ','
  · subst h1; rfl
  by_cases h2 : c = ';'
  · subst h2; rfl
  by_cases h3 : c = '"'
  · subst h3; rfl
  by_cases h4 : c = '\''
  · subst h4; rfl
  by_cases h5 : c = '&'
  · subst h5; rfl
  by_cases h6 : c = '<'
  · subst h6; rfl
  by_cases h7 : c = '>'
  · subst h7; rfl
  by_cases h8 : c = '\x00'
  · subst h8; rfl
  by_cases h9 : c = '\u00a0'
  · subst h9; rfl
  simp [h1, h2, h3, h4, h5, h6, h7, h8, h9, serializeNode, escaped]

theorem escaped_what (ev : Core.Event) : escaped (innerHTML (whatContent ev)) = true := by
  unfold whatContent innerHTML
  rw [read_event]
  induction ev.what.toList with
  | nil => rfl
  | cons c s ih =>
    rw [List.flatMap_cons, List.flatMap_append]
    exact escaped_append _ _ (escaped_char c) ih

/-- **C117** is violated by every text with an ampersand before a character that no name of a character begins with: it is
marked in no event, though every event with it is found. -/
theorem C117_ampersand_violated (a b : List Char) (c : Char) (hc : c ∉ ['a', 'l', 'g', 'n']) :
    (∀ ev : Core.Event, ¬ marked (highlightElem (findText (a ++ '&' :: c :: b)) (whatContent ev))) ∧
    ∀ p q, (findText (a ++ '&' :: c :: b) (p ++ (a ++ '&' :: c :: b) ++ q)).isSome := by
  refine ⟨fun ev => (what_unmarked _ ev ?_).2, fun p q => (findText_isSome _ _).mpr ⟨p, q, rfl⟩⟩
  cases e : findText (a ++ '&' :: c :: b) (innerHTML (whatContent ev)) with
  | none => rfl
  | some r =>
    obtain ⟨p, q, h⟩ := (findText_isSome _ _).mp (by rw [e]; rfl)
    have := escaped_at _ (p ++ a) (b ++ q) c (escaped_what ev) (by rw [h]; simp)
    exact absurd (by simpa [entityStart, or_assoc] using this) hc

/-- Looking for `x=1&y=2`. -/
example : ∀ ev : Core.Event, ¬ marked (highlightElem (findText "x=1&y=2".toList) (whatContent ev)) :=
  (C117_ampersand_violated "x=1".toList "=2".toList 'y' (by decide)).1

theorem humanize_tail (s : List Char) : '/' ∉ (humanizeFunction s).tail := by
  unfold humanizeFunction
  rcases lastIndex_cases s '/' with ⟨h1, h2⟩ | ⟨p, q, hs, hq, h2⟩
  · simp only [h2]
    rw [if_neg (by omega)]
    exact fun h => h1 (List.mem_of_mem_tail h)
  · simp only [h2]
    by_cases hp : p = []
    · subst hp
      simp only [List.length_nil]
      rw [if_neg (by omega), hs]
      exact hq
    · have hl : 0 < p.length := List.length_pos_iff.mpr hp
      rw [if_pos ⟨by omega, by rw [hs]; simp; omega⟩]
      have e : s.drop ((p.length : Int) + 1).toNat = q := by
        have : ((p.length : Int) + 1).toNat = (p ++ ['/']).length := by simp
        rw [this, hs]
        have : p ++ '/' :: q = (p ++ ['/']) ++ q := by simp
        rw [this, List.drop_left]
      rw [e]
      exact fun h => hq (List.mem_of_mem_tail h)

theorem slash_inner (s : List Char) (h : '/' ∉ s) : '/' ∉ innerHTML (s.map .char) := by
  unfold innerHTML
  intro hm
  obtain ⟨n, hn, hm⟩ := List.mem_flatMap.mp hm
  obtain ⟨c, hc, rfl⟩ := List.mem_map.mp hn
  have hc' : c ≠ '/' := by rintro rfl; exact h hc
  simp only [serializeNode] at hm
  repeat' split at hm
  all_goals first
    | exact absurd hm (by decide)
    | exact hc' (List.mem_singleton.mp hm).symm

/-- **C117** is violated by every text with a slash after another character: it is marked in no function, though every
trace with it in a function's name is found.  What the page shows of the name begins after the last slash. -/
theorem C117_function_violated (a b : List Char) (x : Char) :
    (∀ fr : Core.Frame, ¬ marked (highlightElem (findText (a ++ x :: '/' :: b)) (functionContent fr))) ∧
    ∀ p q, (findText (a ++ x :: '/' :: b) (p ++ (a ++ x :: '/' :: b) ++ q)).isSome := by
  refine ⟨fun fr => ?_, fun p q => (findText_isSome _ _).mpr ⟨p, q, rfl⟩⟩
  have e : findText (a ++ x :: '/' :: b) (innerHTML (functionContent fr)) = none := by
    cases e : findText (a ++ x :: '/' :: b) (innerHTML (functionContent fr)) with
    | none => rfl
    | some r =>
      obtain ⟨p, q, h⟩ := (findText_isSome _ _).mp (by rw [e]; rfl)
      unfold functionContent at h
      have ht := humanize_tail fr.function.toList
      generalize humanizeFunction fr.function.toList = s at h ht
      cases s with
      | nil => simp [innerHTML] at h
      | cons c s =>
        have hs : '/' ∉ innerHTML (s.map .char) := slash_inner s ht
        have e1 : innerHTML ((c :: s).map .char) = serializeNode (.char c) ++ innerHTML (s.map .char) := rfl
        rw [e1] at h
        have hn : ∃ d r, serializeNode (.char c) = d :: r ∧ '/' ∉ r := by
          simp only [serializeNode]
          repeat' split
          all_goals exact ⟨_, _, rfl, by decide⟩
        obtain ⟨d, r, hd, hr⟩ := hn
        rw [hd, List.cons_append] at h
        have hm : '/' ∈ r ++ innerHTML (s.map .char) := by
          cases hp : p ++ a with
          | nil =>
            have hp' := List.append_eq_nil_iff.mp hp
            rw [hp'.1, hp'.2] at h
            simp at h
            rw [h.2]; simp
          | cons y l =>
            have : p ++ (a ++ x :: '/' :: b) ++ q = y :: (l ++ x :: '/' :: (b ++ q)) := by
              have : p ++ (a ++ x :: '/' :: b) ++ q = (p ++ a) ++ x :: '/' :: (b ++ q) := by simp
              rw [this, hp]; simp
            rw [this] at h
            simp at h
            rw [h.2]; simp
        rcases List.mem_append.mp hm with hm | hm
        · exact absurd hm hr
        · exact absurd hm hs
  unfold highlightElem
  rw [e]
  intro hm
  unfold functionContent marked at hm
  rw [if_neg (by decide), (text_of_chars _).2] at hm
  cases hm

/-- A trace that is found by the name of one of its functions, with nothing marked. -/
example :
    let tr : Static := { (default : Static) with events := [
      ⟨⟨0, none⟩, "dial", [⟨"example.com/net/pool.(*Pool).Get", "/src/net/pool/pool.go:7"⟩], true⟩] }
    let f : Filter := { query := "net/pool.(*Pool)" }
    (f.allow (fun q => .ok fun s => (findText q.toList s.toList).isSome) tr).1 = true ∧
    (pageElements (fun q => some (findText q.toList)) f.query tr).map (fun e => decide (marked e)) = [false, false, false] := by
  decide +kernel

/-- **C117** is violated on pages that show no stacks: traces that are found by what is in a stack only have no marks. -/
theorem C117_stack_violated (newRegExp : String → Option Find) (query : String) (tr : Static) (depth : Int) (hd : depth < 0)
    (h : ∀ find, newRegExp query = some find → ∀ ev ∈ tr.events, find (innerHTML (whatContent ev)) = none) :
    ∀ e ∈ pageElements newRegExp query (tr.trimStacks depth), ¬ marked e := by
  have hs : searchable (tr.trimStacks depth) = tr.events.map whatContent := by
    unfold Static.trimStacks
    rw [if_neg (by omega), if_pos hd]
    unfold searchable
    simp only
    induction tr.events with
    | nil => rfl
    | cons ev evs ih =>
      rw [List.map_cons, List.flatMap_cons, ih, List.map_cons]
      unfold trimEvent
      cases hl : ev.stack with
      | nil => simp [hl, whatContent]
      | cons fr l => simp [hl, whatContent]
  have plain : ∀ ev, ¬ marked (whatContent ev) := fun ev hm => absurd ((C92_shown _).2 _ hm) (by decide)
  intro e he
  unfold pageElements at he
  rw [hs] at he
  split at he
  · obtain ⟨ev, _, rfl⟩ := List.mem_map.mp he; exact plain ev
  · split at he
    · obtain ⟨ev, _, rfl⟩ := List.mem_map.mp he; exact plain ev
    · rename_i find hn
      rw [List.map_map] at he
      obtain ⟨ev, hev, rfl⟩ := List.mem_map.mp he
      exact (what_unmarked find ev (h find hn ev hev)).2

example :
    let tr : Static := { (default : Static) with events := [
      ⟨⟨0, none⟩, "dial", [⟨"main.timeout", "/src/app/main.go:7"⟩], true⟩] }
    let f : Filter := { query := "timeout" }
    (f.allow (fun q => .ok fun s => (findText q.toList s.toList).isSome) tr).1 = true ∧
    ∀ e ∈ pageElements (fun q => some (findText q.toList)) f.query (tr.trimStacks (-1)), ¬ marked e := by
  refine ⟨by decide +kernel, C117_stack_violated _ _ _ (-1) (by decide) ?_⟩
  intro find hf ev hev
  cases hf
  obtain rfl := List.mem_singleton.mp hev
  decide +kernel

/-- **C117** is violated for queries that are expressions for Go but not for browsers, such as `(?i)timeout`: the script fails, and nothing is marked in
any trace. -/
theorem C117_refused_violated (newRegExp : String → Option Find) (query : String) (h : newRegExp query = none) (tr : Static) :
    ∀ e ∈ pageElements newRegExp query tr, ¬ marked e := by
  have hs : pageElements newRegExp query tr = searchable tr := by
    unfold pageElements
    rw [h]
    split <;> rfl
  rw [hs]
  intro e he hm
  unfold searchable at he
  obtain ⟨ev, -, he⟩ := List.mem_flatMap.mp he
  rcases List.mem_cons.mp he with rfl | he
  · exact absurd ((C92_shown _).2 _ hm) (by decide)
  · obtain ⟨fr, -, he⟩ := List.mem_flatMap.mp he
    simp only [List.mem_cons, List.not_mem_nil, or_false] at he
    rcases he with rfl | rfl
    · unfold functionContent marked at hm
      rw [(text_of_chars _).2] at hm
      cases hm
    · unfold fileContent marked at hm
      rw [(text_of_chars _).2] at hm
      cases hm

/-- A trace that is found whatever the case of its text, with nothing marked: a flag is no expression for the browser. -/
example :
    let tr : Static := { (default : Static) with events := [⟨⟨0, none⟩, "Timeout", [], true⟩] }
    let f : Filter := { query := "(?i)timeout" }
    let compile : Compile := fun _ => .ok fun s => s.toLower == "timeout"
    let newRegExp : String → Option Find := fun q => if q.startsWith "(?i)" then none else some (findText q.toList)
    newRegExp f.query = none ∧ (f.allow compile tr).1 = true := by
  decide +kernel

end Trc.Web
