import Verif.Web.Form
import Verif.Props.Page

/-!
# The search form: C93
-/

set_option linter.unusedVariables false
set_option linter.unusedSimpArgs false

namespace Trc.Web

theorem formByte_unescape (c : UInt8) (s r : Bytes) (h : unescape s = some r) : unescape (formByte c ++ s) = some (c :: r) := by
  have key : ∀ c : UInt8, (formByte c = [ch '+'] ∧ c = ch ' ') ∨ (formByte c = [c] ∧ c ≠ ch '%' ∧ c ≠ ch '+') ∨
        (formByte c = [ch '%', upperhex (c / 16), upperhex (c % 16)] ∧ unhex (upperhex (c / 16)) = some (c / 16) ∧
          unhex (upperhex (c % 16)) = some (c % 16) ∧ c / 16 * 16 + c % 16 = c) := forall_byte (by decide +kernel)
  rcases key c with ⟨h1, h2⟩ | ⟨h1, h2, h3⟩ | ⟨h1, h2, h3, h4⟩
  · rw [h1, List.singleton_append, unescape_plain _ _ (by decide), h, h2]
    rfl
  · rw [h1, List.singleton_append, unescape_plain _ _ h2, h]
    simp [h3]
  · rw [h1, List.cons_append, List.cons_append, List.singleton_append, unescape, if_pos rfl]
    simp [h2, h3, h, h4]

theorem unescape_form (s : Bytes) : unescape (s.flatMap formByte) = some s := by
  induction s with
  | nil => rfl
  | cons c s ih => rw [List.flatMap_cons]; exact formByte_unescape c _ s ih

theorem form_clean (s : Bytes) (x : UInt8) (h : x ∈ s.flatMap formByte) : x ≠ ch '&' ∧ x ≠ ch ';' ∧ x ≠ ch '=' := by
  obtain ⟨c, _, hx⟩ := List.mem_flatMap.mp h
  have key : ∀ c : UInt8, ∀ x ∈ formByte c, x ≠ ch '&' ∧ x ≠ ch ';' ∧ x ≠ ch '=' := forall_byte (by decide +kernel)
  exact key c x hx

theorem crlf_id (s : List Char) (h : ∀ c ∈ s, c ≠ '\n' ∧ c ≠ '\r') : crlf s = s := by
  induction s with
  | nil => rfl
  | cons c s ih =>
    have h1 := h c (by simp)
    have ih := ih (fun x hx => h x (by simp [hx]))
    unfold crlf
    split
    · rename_i e; cases e
    · rename_i e; simp at e; exact absurd e.1 h1.2
    · rename_i e; simp at e; exact absurd e.1 h1.2
    · rename_i e; simp at e; exact absurd e.1 h1.1
    · rename_i e; simp at e; obtain ⟨rfl, rfl⟩ := e; rw [ih]

/-- A text on one line. -/
def OneLine (s : String) : Prop := ∀ c ∈ s.toList, c ≠ '\n' ∧ c ≠ '\r'

/-- A value as it is sent. -/
def sent (s : String) : String := String.ofList (crlf s.toList)

theorem sent_id {s : String} (h : OneLine s) : sent s = s := by
  unfold sent
  rw [crlf_id _ h, String.ofList_toList]

theorem parse_form (fields : List (String × String)) (hne : fields ≠ []) :
    parseQuery (joinAmp (fields.map formPair)) = fields.map fun p => (bytesOf p.1, bytesOf (sent p.2)) := by
  have hp : ∀ p ∈ fields, formPair p = (bytesOf p.1).flatMap formByte ++ ch '=' :: (bytesOf (sent p.2)).flatMap formByte :=
    fun p hp => rfl
  unfold parseQuery
  rw [pieces_join]
  · rw [List.filterMap_map]
    clear hne
    induction fields with
    | nil => rfl
    | cons p l ih =>
      have ih := ih (fun q hq => hp q (by simp [hq]))
      have : (parsePiece ∘ formPair) p = some (bytesOf p.1, bytesOf (sent p.2)) := by
        simp only [Function.comp]
        rw [hp p (by simp)]
        have hsemi : ch ';' ∉ (bytesOf p.1).flatMap formByte ++ ch '=' :: (bytesOf (sent p.2)).flatMap formByte := by
          intro hm
          rcases List.mem_append.mp hm with hm | hm
          · exact (form_clean _ _ hm).2.1 rfl
          · rcases List.mem_cons.mp hm with hm | hm
            · revert hm; decide
            · exact (form_clean _ _ hm).2.1 rfl
        have h1 := takeWhile_sep (p := fun c => c != ch '=') ((bytesOf p.1).flatMap formByte) ((bytesOf (sent p.2)).flatMap formByte) (ch '=')
          (fun c hc => by simpa using (form_clean _ _ hc).2.2) (by simp)
        have hne : (bytesOf p.1).flatMap formByte ++ ch '=' :: (bytesOf (sent p.2)).flatMap formByte ≠ [] := by simp
        simp only [parsePiece, if_neg hsemi, if_neg hne, h1.1, h1.2, unescape_form, bind, Option.bind_some, pure, List.drop_succ_cons, List.drop_zero]
      rw [List.filterMap_cons, this, ih]
      rfl
  · simpa using hne
  · intro a ha c hc
    obtain ⟨p, hpm, rfl⟩ := List.mem_map.mp ha
    rw [hp p hpm] at hc
    rcases List.mem_append.mp hc with hm | hm
    · exact (form_clean _ _ hm).1
    · rcases List.mem_cons.mp hm with rfl | hm
      · decide
      · exact (form_clean _ _ hm).1

theorem oneLine_id (s : String) (h : OneLine s) : oneLine s = s := by
  unfold oneLine
  have : s.toList.filter (fun c => c ≠ '\n' ∧ c ≠ '\r') = s.toList := by
    rw [List.filter_eq_self]
    intro c hc
    simpa using h c hc
  rw [this, String.ofList_toList]

/-- The values of a field. -/
def fieldVals (k : String) (l : List (String × String)) : List Bytes := (l.filter fun p => p.1 = k).map fun p => bytesOf (sent p.2)

theorem vals_fields (k : String) (l : List (String × String)) :
    vals (bytesOf k) (l.map fun p => (bytesOf p.1, bytesOf (sent p.2))) = fieldVals k l := by
  unfold vals fieldVals
  rw [List.filterMap_map]
  induction l with
  | nil => rfl
  | cons p l ih =>
    rw [List.filterMap_cons, ih, List.filter_cons]
    by_cases hk : p.1 = k
    · simp [hk]
    · simp [hk, bytesOf_ne hk]

/-- Line breaks are pairs of characters. -/
def Paired : List Char → Bool
  | [] => true
  | '\r' :: '\n' :: s => Paired s
  | '\r' :: _ => false
  | '\n' :: _ => false
  | _ :: s => Paired s

theorem crlf_length (s : List Char) : s.length ≤ (crlf s).length := by
  fun_induction crlf s <;> simp_all <;> omega

theorem crlf_eq (s : List Char) : crlf s = s ↔ Paired s = true := by
  fun_induction crlf s with
  | case1 => simp [Paired]
  | case2 s ih => simp [Paired, ih]
  | case3 s h ih =>
    have : Paired ('\r' :: s) = false := by
      unfold Paired
      split
      · simp_all
      · simp_all
      · rfl
      · rfl
      · rename_i h1 h2 heq
        exact absurd (List.cons.inj heq).1.symm (by simpa using h1)
    rw [this]
    simp only [List.cons.injEq, true_and, Bool.false_eq_true, iff_false]
    intro e
    have := congrArg List.length e
    have := crlf_length s
    simp at *
    omega
  | case4 s ih =>
    simp [Paired]
  | case5 c s h1 h2 h3 ih =>
    have : Paired (c :: s) = Paired s := by
      conv => lhs; unfold Paired
      split <;> simp_all
    rw [this, ← ih]
    simp

theorem sent_eq (s : String) : sent s = s ↔ Paired s.toList = true := by
  rw [← crlf_eq]
  unfold sent
  constructor
  · intro h
    have := congrArg String.toList h
    simpa using this
  · intro h
    rw [h, String.ofList_toList]

theorem sent_empty (s : String) : sent s = "" ↔ s = "" := by
  constructor
  · intro h
    have := congrArg (fun x : String => x.toList.length) h
    simp only [sent, String.toList_ofList] at this
    have h2 := crlf_length s.toList
    have : s.toList.length = 0 := by simp at this h2 ⊢; simp_all
    have := List.length_eq_zero_iff.mp this
    have := congrArg String.ofList this
    simpa using this
  · rintro rfl; rfl

/-- A page whose form says everything: default buckets, no IDs, at most one source, which is one of several that the
response names; no line breaks in the query, and only pairs of characters elsewhere; no category with the name
`overall`. -/
structure Formable (req : SearchRequest) (responseSources : List String) : Prop where
  buckets : req.bucketing = defaultBucketing
  ids : req.filter.ids = []
  source : req.filter.sources = [] ∨
    ∃ s, req.filter.sources = [s] ∧ s ≠ "" ∧ s ∈ responseSources ∧ responseSources.length > 1 ∧ Paired s.toList = true
  category : req.filter.category ≠ "overall" ∧ Paired req.filter.category.toList = true
  query : OneLine req.filter.query

theorem oneLine_numeric {l : List Char} (h : ∀ c ∈ l, numeric c = true) : OneLine (String.ofList l) := by
  intro c hc
  have := h c (by simpa using hc)
  constructor <;> rintro rfl <;> revert this <;> decide

theorem ofList_ne {l : List Char} (h : l ≠ []) : String.ofList l ≠ "" := by
  intro e; apply h; have := congrArg String.toList e; simpa using this

/-- The values of a field that are sent. -/
def sentVals (k : String) (l : List (String × String)) : List Bytes := fieldVals k (l.filter fun p => p.2 ≠ "")

theorem sentVals_append (k : String) (a b : List (String × String)) : sentVals k (a ++ b) = sentVals k a ++ sentVals k b := by
  simp [sentVals, fieldVals]

theorem sentVals_cons (k : String) (p : String × String) (l : List (String × String)) :
    sentVals k (p :: l) = (if p.1 = k then (if p.2 = "" then [] else [bytesOf (sent p.2)]) else []) ++ sentVals k l := by
  unfold sentVals fieldVals
  by_cases h1 : p.2 = "" <;> by_cases h2 : p.1 = k <;> simp [List.filter_cons, h1, h2]

theorem sentVals_nil (k : String) : sentVals k [] = [] := rfl

theorem sentVals_hidden (k : String) (c : Bool) (n v : String) :
    sentVals k (hidden c n v) = if n = k then (if c = true ∧ v ≠ "" then [bytesOf (sent v)] else []) else [] := by
  unfold hidden
  cases c
  · simp [sentVals, fieldVals]
  · simp only [if_true, sentVals_cons, sentVals_nil, List.append_nil, true_and]
    by_cases h : v = "" <;> simp [h]

theorem durationString_ne (d : Duration) : String.ofList (durationString d) ≠ "" := by
  apply ofList_ne
  intro h
  unfold durationString at h
  obtain ⟨c, s, hcs, _⟩ := formatAbs_head (d : Int).natAbs
  split at h
  · cases h
  · rw [hcs] at h; cases h

theorem decimalString_ne (n : Int) (h1 : 1 ≤ n) (h2 : n ≤ 250) : String.ofList (decimalString n) ≠ "" := by
  intro e
  have := atoi_limit n h1 h2
  rw [e] at this
  revert this
  have : atoiBytes (bytesOf "") = none := by decide +kernel
  rw [this]
  intro h; cases h

theorem oneLine_oneLine (s : String) : OneLine (oneLine s) := by
  intro c hc
  unfold oneLine at hc
  simp only [String.toList_ofList, List.mem_filter] at hc
  simpa using hc.2

theorem oneLine_eq (s : String) : oneLine s = s ↔ OneLine s :=
  ⟨fun h => h ▸ oneLine_oneLine s, oneLine_id s⟩

/-- What submitting the form of a page asks for. -/
theorem form_asked (hm : ExactMul mulFrac) (req : SearchRequest) (responseSources : List String) (hlim : 1 ≤ req.limit ∧ req.limit ≤ 250)
    (hfits : ∀ d, req.filter.minDuration = some d → Is64 d) :
    requestOfURL mulFrac (formQuery req responseSources) =
      { bucketing := [], limit := req.limit, stackDepth := 0
        filter := { req.filter with
          sources := if sourceField req.filter.sources responseSources = "" then [] else [sent (sourceField req.filter.sources responseSources)]
          ids := []
          category := if req.filter.category = "" ∨ req.filter.category = "overall" then "" else sent req.filter.category
          query := oneLine req.filter.query
          regexp := none } } := by
  have h0 : text [] = "" := text_bytesOf ""
  have htrue : OneLine "true" := by unfold OneLine; decide
  have hn : String.ofList (decimalString req.limit) ≠ "" := decimalString_ne _ hlim.1 hlim.2
  have hne : (formFields req responseSources).filter (fun p => p.2 ≠ "") ≠ [] := by
    intro e
    have : ("n", String.ofList (decimalString req.limit)) ∈ (formFields req responseSources).filter (fun p => p.2 ≠ "") := by
      refine List.mem_filter.mpr ⟨by simp [formFields], by simpa using hn⟩
    rw [e] at this; cases this
  have hparse := parse_form _ hne
  have hv : ∀ k : String, vals (bytesOf k) (parseQuery (formQuery req responseSources)) = sentVals k (formFields req responseSources) := by
    intro k
    unfold formQuery
    rw [hparse, vals_fields]
    rfl
  have hmin : ∀ k : String, sentVals k (req.filter.minDuration.toList.map fun d => ("min", String.ofList (durationString d))) =
      if "min" = k then (req.filter.minDuration.map fun d => bytesOf (String.ofList (durationString d))).toList else [] := by
    intro k
    cases req.filter.minDuration with
    | none => simp [sentVals, fieldVals]
    | some d => simp [sentVals_cons, sentVals_nil, durationString_ne d, sent_id (oneLine_numeric (durationString_numeric d))]
  have hvals : ∀ k : String, vals (bytesOf k) (parseQuery (formQuery req responseSources)) =
      (if "q" = k then (if oneLine req.filter.query = "" then [] else [bytesOf (oneLine req.filter.query)]) else []) ++
      ((if "source" = k then (if sourceField req.filter.sources responseSources = "" then [] else [bytesOf (sent (sourceField req.filter.sources responseSources))]) else []) ++
      (if "n" = k then [bytesOf (String.ofList (decimalString req.limit))] else [])) ++
      (if "category" = k then (if req.filter.category = "" ∨ req.filter.category = "overall" then [] else [bytesOf (sent req.filter.category)]) else []) ++
      (if "active" = k then (if req.filter.isActive then [bytesOf "true"] else []) else []) ++
      (if "finished" = k then (if req.filter.isFinished then [bytesOf "true"] else []) else []) ++
      (if "min" = k then (req.filter.minDuration.map fun d => bytesOf (String.ofList (durationString d))).toList else []) ++
      (if "success" = k then (if req.filter.isSuccess then [bytesOf "true"] else []) else []) ++
      (if "errored" = k then (if req.filter.isErrored then [bytesOf "true"] else []) else []) := by
    intro k
    rw [hv]
    unfold formFields
    simp only [sentVals_append, sentVals_cons, sentVals_nil, sentVals_hidden, hmin, sent_id (oneLine_oneLine _),
      sent_id (oneLine_numeric (decimalString_numeric req.limit)), hn, if_false, List.append_nil, sent_id htrue]
    have e1 : ("true" ≠ "") = True := by simp
    have e2 : ∀ b : Bool, (if b = true ∧ "true" ≠ "" then [bytesOf "true"] else []) = if b then [bytesOf "true"] else [] := by
      intro b; cases b <;> simp
    simp only [e2]
    congr 5
    by_cases hc : req.filter.category = ""
    · simp [hc]
    · by_cases hc' : req.filter.category = "overall" <;> simp [hc, hc']
  have q1 := hvals "q"
  have q2 := hvals "source"
  have q3 := hvals "n"
  have q4 := hvals "category"
  have q5 := hvals "active"
  have q6 := hvals "finished"
  have q7 := hvals "min"
  have q8 := hvals "success"
  have q9 := hvals "errored"
  have q10 := hvals "id"
  have q11 := hvals "b"
  have q12 := hvals "stack"
  simp at q1 q2 q3 q4 q5 q6 q7 q8 q9 q10 q11 q12
  have hnone : parseDefault [] (parseDurationPointer mulFrac) none = none := by
    simp [parseDefault, parseDurationPointer, parseDurationBytes, h0, parseDuration_nil]
  have htext : ∀ s : String, text ((if s = "" then [] else [bytesOf s]).head?.getD []) = s := by
    intro s
    by_cases hs : s = ""
    · simp [hs, h0]
    · simp [hs, text_bytesOf]
  have htext' : ∀ (P : Prop) [Decidable P] (s : String), text ((if P then [] else [bytesOf s]).head?.getD []) = if P then "" else s := by
    intro P _ s
    by_cases hs : P
    · simp [hs, h0]
    · simp [hs, text_bytesOf]
  have hsrc : ∀ s : String, (if s = "" then [] else [bytesOf (sent s)]).map text = if s = "" then [] else [sent s] := by
    intro s
    by_cases hs : s = "" <;> simp [hs, text_bytesOf]
  have hflag : ∀ b : Bool, (!(if b = true then [bytesOf "true"] else []).isEmpty) = b := by
    intro b; cases b <;> rfl
  have hdur : parseDefault ((req.filter.minDuration.map fun d => bytesOf (String.ofList (durationString d))).toList.head?.getD [])
      (parseDurationPointer mulFrac) none = req.filter.minDuration := by
    cases hd : req.filter.minDuration with
    | none => simpa using hnone
    | some d =>
      have h64 := hfits d hd
      simp [parseDefault, parseDurationPointer, parseDurationBytes, text_bytesOf, parseDuration_string hm d h64.1 h64.2]
  have hlimit : parseRange (bytesOf (String.ofList (decimalString req.limit))) atoiBytes searchLimitMin searchLimitDefault searchLimitMax = req.limit := by
    simp only [parseRange, atoi_limit _ hlim.1 hlim.2]
    rw [if_neg (by show ¬ _ < (1 : Int); omega), if_neg (by show ¬ _ > (250 : Int); omega)]
  have hstack : parseDefault [] atoiBytes 0 = 0 := by decide +kernel
  unfold requestOfURL parseFilter Values.get Values.has
  simp only [keySource, keyID, keyCategory, keyActive, keyFinished, keyMin, keySuccess, keyErrored, keyQuery,
    q1, q2, q3, q4, q5, q6, q7, q8, q9, q10, q11, q12, htext, htext', hflag, hdur, hsrc, List.map_nil, List.head?_cons, List.head?_nil,
    Option.getD_some, Option.getD_none, hlimit, hstack]
  rfl

/-- **C93** (partial) Submitting the search form of a page as it is repeats the page's search, if the page's search has the
default buckets, no IDs, at most one source, which is then one of several that the response names, no line breaks (but pairs of
characters outside of the query) and no category named `overall`. -/
theorem C93_form_partial (hm : ExactMul mulFrac) (req : SearchRequest) (responseSources : List String) (hlim : 1 ≤ req.limit ∧ req.limit ≤ 250)
    (hfits : ∀ d, req.filter.minDuration = some d → Is64 d) (h : Formable req responseSources) :
    let asked := requestOfURL mulFrac (formQuery req responseSources)
    asked.filter = { req.filter with regexp := none } ∧ asked.limit = req.limit ∧ asked.stackDepth = 0 ∧
    normalizeBucketing asked.bucketing = some req.bucketing := by
  obtain ⟨hbk, hids, hsrc, ⟨hcat1, hcat2⟩, hq⟩ := h
  simp only [form_asked hm req responseSources hlim hfits]
  refine ⟨?_, trivial, trivial, by rw [hbk]; decide +kernel⟩
  have hs : (if sourceField req.filter.sources responseSources = "" then [] else [sent (sourceField req.filter.sources responseSources)]) = req.filter.sources := by
    rcases hsrc with hs | ⟨s, hs, h1, h2, h3, h4⟩
    · have : sourceField req.filter.sources responseSources = "" := by
        rw [hs]; unfold sourceField; by_cases hm : "" ∈ responseSources <;> simp [hm]
      rw [this, hs]; rfl
    · have : sourceField req.filter.sources responseSources = s := by
        rw [hs]; unfold sourceField; simp [h2]; omega
      rw [this, hs, if_neg h1, (sent_eq s).mpr h4]
  rw [hs, oneLine_id _ hq, (sent_eq _).mpr hcat2, ← hids]
  have hc : (if req.filter.category = "" ∨ req.filter.category = "overall" then "" else req.filter.category) = req.filter.category := by
    by_cases hc : req.filter.category = ""
    · simp [hc]
    · simp [hc, hcat1]
  rw [hc]

theorem sourceField_some (sources responseSources : List String) (hne : sourceField sources responseSources ≠ "") :
    responseSources.length > 1 ∧ sourceField sources responseSources ∈ responseSources ∧
    sources.head? = some (sourceField sources responseSources) := by
  by_cases h1 : responseSources.length > 1
  · by_cases h2 : sources.head?.getD "" ∈ responseSources
    · have e : sourceField sources responseSources = sources.head?.getD "" := by
        simp only [sourceField, if_pos h1, if_pos h2]
      refine ⟨h1, e ▸ h2, ?_⟩
      rw [e] at hne ⊢
      cases hh : sources.head? with
      | none => rw [hh] at hne; exact absurd rfl hne
      | some y => rfl
    · exact absurd (by simp only [sourceField, if_pos h1, if_neg h2]) hne
  · exact absurd (by simp only [sourceField, if_neg h1]) hne

/-- **C93**, exactly: submitting the form of a page as it is repeats the page's search in these cases only. -/
theorem C93_form_exact (hm : ExactMul mulFrac) (req : SearchRequest) (responseSources : List String) (hlim : 1 ≤ req.limit ∧ req.limit ≤ 250)
    (hfits : ∀ d, req.filter.minDuration = some d → Is64 d) :
    let asked := requestOfURL mulFrac (formQuery req responseSources)
    (asked.filter = { req.filter with regexp := none } ∧ normalizeBucketing asked.bucketing = some req.bucketing) ↔
      Formable req responseSources := by
  constructor
  · simp only [form_asked hm req responseSources hlim hfits]
    rintro ⟨hf, hb⟩
    have f1 := congrArg Filter.sources hf
    have f2 := congrArg Filter.ids hf
    have f3 := congrArg Filter.category hf
    have f4 := congrArg Filter.query hf
    simp only at f1 f2 f3 f4
    refine ⟨?_, f2.symm, ?_, ?_, (oneLine_eq _).mp f4⟩
    · have : normalizeBucketing [] = some defaultBucketing := by decide +kernel
      rw [this] at hb
      exact (Option.some.inj hb).symm
    · split at f1
      · exact .inl f1.symm
      · rename_i hne
        refine .inr ⟨_, f1.symm, ?_⟩
        have hof : responseSources.length > 1 ∧ sourceField req.filter.sources responseSources ∈ responseSources ∧
            req.filter.sources.head? = some (sourceField req.filter.sources responseSources) :=
          sourceField_some _ _ hne
        have hsf : sent (sourceField req.filter.sources responseSources) = sourceField req.filter.sources responseSources := by
          have h := hof.2.2
          obtain ⟨x, hx⟩ : ∃ x, sourceField req.filter.sources responseSources = x := ⟨_, rfl⟩
          rw [hx] at h f1 ⊢
          rw [← f1] at h
          simpa using h
        rw [hsf]
        exact ⟨hne, hof.2.1, hof.1, (sent_eq _).mp hsf⟩
    · by_cases hc : req.filter.category = ""
      · rw [hc]; exact ⟨by decide, rfl⟩
      · by_cases ho : req.filter.category = "overall"
        · rw [ho] at f3; simp at f3
        · rw [if_neg (by simp [hc, ho])] at f3
          exact ⟨ho, (sent_eq _).mp f3⟩
  · intro h
    obtain ⟨h1, _, _, h2⟩ := C93_form_partial hm req responseSources hlim hfits h
    exact ⟨h1, h2⟩

/-- A page with everything the form can say. -/
example :
    let req : SearchRequest := { bucketing := defaultBucketing, limit := 33
                                 filter := { sources := ["a b"], category := "c&d", isActive := true, minDuration := some 1500000, query := "x+y~*" } }
    (1 ≤ req.limit ∧ req.limit ≤ 250) ∧ (∀ d, req.filter.minDuration = some d → Is64 d) ∧
    Formable req ["z", "a b"] ∧ text (formQuery req ["z", "a b"]) = "q=x%2By%7E*&source=a+b&n=33&category=c%26d&active=true&min=1.5ms" := by
  refine ⟨by decide, ?_, ⟨rfl, rfl, .inr ⟨"a b", rfl, by decide, by decide, by decide, by decide⟩,
    ⟨by decide, by decide⟩, by unfold OneLine; decide⟩, by decide +kernel⟩
  intro d hd
  cases hd
  unfold Is64; decide

/-- **C93** is violated: submitting the form loses IDs, buckets, and sources: all but the first, one that the response does
not name, and any if the response names only that one. -/
theorem C93_form_violated (mulFrac : Nat → Nat → Nat → Nat) :
    let page (f : Filter) (b : List Duration) : SearchRequest := { bucketing := b, limit := 10, filter := f }
    let asked (req : SearchRequest) (rs : List String) := requestOfURL mulFrac (formQuery req rs)
    (asked (page { ids := ["x"] } defaultBucketing) ["a", "b"]).filter.ids = [] ∧
    (asked (page { sources := ["a", "b"] } defaultBucketing) ["a", "b", "c"]).filter.sources = ["a"] ∧
    (asked (page { sources := ["a"] } defaultBucketing) ["a"]).filter.sources = [] ∧
    (asked (page { sources := ["d"] } defaultBucketing) ["a", "b"]).filter.sources = [] ∧
    (asked (page {} [0, 5]) []).bucketing = [] := by
  refine ⟨?_, ?_, ?_, ?_, ?_⟩
  · show (vals _ (parseQuery _)).map text = _; decide +kernel
  · show (vals _ (parseQuery _)).map text = _; decide +kernel
  · show (vals _ (parseQuery _)).map text = _; decide +kernel
  · show (vals _ (parseQuery _)).map text = _; decide +kernel
  · show parseBucketing mulFrac (vals _ (parseQuery _)) = _
    have : vals (bytesOf "b") (parseQuery (formQuery { bucketing := [0, 5], limit := 10, filter := {} } [])) = [] := by decide +kernel
    rw [this]; rfl

end Trc.Web
