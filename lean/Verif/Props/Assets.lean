import Verif.Web.Assets

/-!
# The page is made from the embedded files unless told otherwise (C104)
-/

namespace Trc.Web.Assets

variable {T D : Type}

/-! ## Specification -/

/-- The text defines the template of its name, with some content, and nothing else. -/
def Engine.Defines (E : Engine T D) (name text : String) (t : T) : Prop :=
  E.parse name text = some [(name, t)] ∧ E.empty t = false

/-- The page: the template of the page, which can refer to the style sheet and to itself. -/
def Engine.page (E : Engine T D) (css html : T) (data : D) : Option String :=
  E.exec (fun n => if n = "traces.css" then some css else if n = "traces.html" then some html else none) html data

/-- The text used for a name: that of the file in the directory, or else the embedded one. -/
def chosen (dir : String → Entry) (name embedded : String) : String :=
  match dir name with
  | .file t => t
  | _ => embedded

/-- The body of the page that was made, if it was. -/
def body? : Except String String → Option String
  | .ok b => some b
  | .error _ => none

/-! ## Lemmas -/

theorem perm_pair {α : Type} {l : List α} {a b : α} (h : l.Perm [a, b]) : l = [a, b] ∨ l = [b, a] := by
  have hl := h.length_eq
  match l, hl with
  | [x, y], _ =>
    have hx : x ∈ [a, b] := h.subset (by simp)
    simp only [List.mem_cons, List.not_mem_nil, or_false] at hx
    rcases hx with rfl | rfl
    · have := (List.perm_cons x).1 h
      have := List.perm_singleton.1 this
      simp_all
    · have h2 : [x, y].Perm [x, a] := h.trans (List.Perm.swap _ _ _)
      have := (List.perm_cons x).1 h2
      have := List.perm_singleton.1 this
      simp_all

theorem parseFiles_unreadable (E : Engine T D) (dir : String → Entry) (names : List String) :
    ∀ s : TSet T, (∃ n ∈ names, dir n = .unreadable) → parseFiles E dir s names = none := by
  induction names with
  | nil => simp
  | cons m ns ih =>
    intro s h
    simp only [parseFiles, List.foldlM_cons]
    by_cases hm : dir m = .unreadable
    · simp [hm, Entry.read]
    · have : ∃ n ∈ ns, dir n = .unreadable := by
        obtain ⟨n, hn, hu⟩ := h
        rcases List.mem_cons.1 hn with rfl | hn
        · exact absurd hu hm
        · exact ⟨n, hn, hu⟩
      cases hq : ((dir m).read).bind (parseInto E s m) with
      | none => rfl
      | some s' => simpa [parseFiles] using ih s' this

theorem filter_ne_empty (l : List String) (dir : String → Entry) (h : l.Perm ["root", "traces.css", "traces.html"]) :
    (localFiles dir l).Perm (["root", "traces.css", "traces.html"].filter fun n => (dir n).present) := by
  unfold localFiles
  have h1 : (l.filter (· ≠ "")).Perm ["root", "traces.css", "traces.html"] := by
    have := h.filter (· ≠ "")
    simpa using this
  exact h1.filter _

section
variable (E : Engine T D) {css html : String} {c h : T}

theorem parseFS_embedded (hc : E.Defines "traces.css" css c) (hh : E.Defines "traces.html" html h) :
    parseFS E (embedded css html) = some [("root", none), ("traces.css", some c), ("traces.html", some h)] := by
  simp [parseFS, embedded, parseInto, hc.1, hh.1, addTree, List.lookup]

theorem parseInto_css (hc : E.Defines "traces.css" css c) (c0 h0 : T) :
    parseInto E [("root", none), ("traces.css", some c0), ("traces.html", some h0)] "traces.css" css =
      some [("root", none), ("traces.css", some c), ("traces.html", some h0)] := by
  simp [parseInto, hc.1, hc.2, addTree, List.lookup]

theorem parseInto_html (hh : E.Defines "traces.html" html h) (c0 h0 : T) :
    parseInto E [("root", none), ("traces.css", some c0), ("traces.html", some h0)] "traces.html" html =
      some [("root", none), ("traces.css", some c0), ("traces.html", some h)] := by
  simp [parseInto, hh.1, hh.2, addTree, List.lookup]

end

/-- The page of a set. -/
theorem render_of_set (E : Engine T D) (order : List String → List String) (clean : String → String)
    (disk : String → String → Entry) (env : String) (assets : List (String × String)) (root : TSet T) (c h : T)
    (data : D) (hp : parseFS E assets = some root)
    (hl : parseFiles E (disk (clean env)) root (localFiles (disk (clean env)) (order (root.map (·.1)))) =
      some [("root", none), ("traces.css", some c), ("traces.html", some h)]) :
    body? (renderTemplate E order clean disk env assets "traces.html" data) = E.page c h data := by
  have hl' : (if (localFiles (disk (clean env)) (order (root.map (·.1)))).length > 0 then
      parseFiles E (disk (clean env)) root (localFiles (disk (clean env)) (order (root.map (·.1)))) else some root) =
      some [("root", none), ("traces.css", some c), ("traces.html", some h)] := by
    split
    · exact hl
    · rename_i hz
      have : localFiles (disk (clean env)) (order (root.map (·.1))) = [] :=
        List.eq_nil_of_length_eq_zero (by omega)
      rw [this] at hl
      exact hl
  unfold renderTemplate
  rw [hp]
  simp only [hl']
  have hf : (fun n => (List.lookup n [("root", none), ("traces.css", some c), ("traces.html", some h)]).join) =
      fun n => if n = "traces.css" then some c else if n = "traces.html" then some h else none := by
    funext n
    by_cases h1 : n = "traces.css"
    · subst h1; simp [List.lookup]
    · by_cases h2 : n = "traces.html"
      · subst h2; simp [List.lookup]
      · by_cases h3 : n = "root"
        · subst h3; simp [List.lookup]
        · have b1 : (n == "traces.css") = false := by simpa using h1
          have b2 : (n == "traces.html") = false := by simpa using h2
          have b3 : (n == "root") = false := by simpa using h3
          simp [List.lookup, b1, b2, b3, h1, h2]
  have hk : List.lookup "traces.html" [("root", none), ("traces.css", some c), ("traces.html", some h)] = some (some h) := by
    simp [List.lookup]
  rw [hk]
  simp only [hf, Engine.page]
  cases E.exec (fun n => if n = "traces.css" then some c else if n = "traces.html" then some h else none) h data <;> rfl

/-! ## Theorems -/

/-- C104, what is true: if the directory, which is the working directory if `TRC_ASSETS_DIR` is not set,
has nothing named `root`, and what it has under the names of the two embedded files are files that define the
template of their name, then the page is made from these files and, where there is none, from the embedded
ones, whatever the order in which the templates are looked at.  Not true is that the embedded files are used
if no directory was set. -/
theorem C104_local_partial (E : Engine T D) (order : List String → List String) (horder : ∀ l, (order l).Perm l)
    (clean : String → String) (disk : String → String → Entry) (env css html : String) (c0 h0 c h : T) (data : D)
    (hc0 : E.Defines "traces.css" css c0) (hh0 : E.Defines "traces.html" html h0)
    (hroot : disk (clean env) "root" = .missing)
    (hcu : disk (clean env) "traces.css" ≠ .unreadable) (hhu : disk (clean env) "traces.html" ≠ .unreadable)
    (hc : E.Defines "traces.css" (chosen (disk (clean env)) "traces.css" css) c)
    (hh : E.Defines "traces.html" (chosen (disk (clean env)) "traces.html" html) h) :
    body? (renderTemplate E order clean disk env (embedded css html) "traces.html" data) = E.page c h data := by
  have hp := parseFS_embedded E hc0 hh0
  refine render_of_set E order clean disk env _ _ c h data hp ?_
  have hpm := filter_ne_empty _ (disk (clean env)) (horder ["root", "traces.css", "traces.html"])
  simp only [List.map_cons, List.map_nil]
  generalize localFiles (disk (clean env)) (order ["root", "traces.css", "traces.html"]) = fs at hpm ⊢
  generalize disk (clean env) = dir at hroot hcu hhu hc hh hpm ⊢
  have hr : (dir "root").present = false := by rw [hroot]; rfl
  cases hdc : dir "traces.css" with
  | unreadable => exact absurd hdc hcu
  | missing =>
    have ec : c = c0 := by
      simp only [chosen, hdc] at hc
      have := hc.1.symm.trans hc0.1
      simpa using this
    subst ec
    cases hdh : dir "traces.html" with
    | unreadable => exact absurd hdh hhu
    | missing =>
      have eh : h = h0 := by
        simp only [chosen, hdh] at hh
        have := hh.1.symm.trans hh0.1
        simpa using this
      subst eh
      have q1 : (dir "traces.css").present = false := by rw [hdc]; rfl
      have q2 : (dir "traces.html").present = false := by rw [hdh]; rfl
      simp [List.filter, hr, q1, q2] at hpm
      subst hpm
      rfl
    | file t =>
      simp only [chosen, hdh] at hh
      have q1 : (dir "traces.css").present = false := by rw [hdc]; rfl
      have q2 : (dir "traces.html").present = true := by rw [hdh]; rfl
      simp [List.filter, hr, q1, q2] at hpm
      subst hpm
      simp [parseFiles, hdh, Entry.read, parseInto_html E hh]
  | file s =>
    simp only [chosen, hdc] at hc
    cases hdh : dir "traces.html" with
    | unreadable => exact absurd hdh hhu
    | missing =>
      have eh : h = h0 := by
        simp only [chosen, hdh] at hh
        have := hh.1.symm.trans hh0.1
        simpa using this
      subst eh
      have q1 : (dir "traces.css").present = true := by rw [hdc]; rfl
      have q2 : (dir "traces.html").present = false := by rw [hdh]; rfl
      simp [List.filter, hr, q1, q2] at hpm
      subst hpm
      simp [parseFiles, hdc, Entry.read, parseInto_css E hc]
    | file t =>
      simp only [chosen, hdh] at hh
      have q1 : (dir "traces.css").present = true := by rw [hdc]; rfl
      have q2 : (dir "traces.html").present = true := by rw [hdh]; rfl
      simp [List.filter, hr, q1, q2] at hpm
      rcases perm_pair hpm with e | e
      · subst e
        simp [parseFiles, hdh, hdc, Entry.read, parseInto_html E hh, parseInto_css E hc]
      · subst e
        simp [parseFiles, hdh, hdc, Entry.read, parseInto_html E hh, parseInto_css E hc]

/-- C104: a directory which has none of the three names changes nothing. -/
theorem C104_embedded_partial (E : Engine T D) (order : List String → List String) (horder : ∀ l, (order l).Perm l)
    (clean : String → String) (disk : String → String → Entry) (env css html : String) (c h : T) (data : D)
    (hc : E.Defines "traces.css" css c) (hh : E.Defines "traces.html" html h)
    (hnone : ∀ n ∈ ["root", "traces.css", "traces.html"], disk (clean env) n = .missing) :
    body? (renderTemplate E order clean disk env (embedded css html) "traces.html" data) = E.page c h data := by
  have h1 := hnone "traces.css" (by simp)
  have h2 := hnone "traces.html" (by simp)
  refine C104_local_partial E order horder clean disk env css html c h c h data hc hh (hnone _ (by simp))
    (by rw [h1]; simp) (by rw [h2]; simp) ?_ ?_
  · simpa [chosen, h1] using hc
  · simpa [chosen, h2] using hh

/-- C104 is false: if `TRC_ASSETS_DIR` is not set and the working directory happens to have a file
`traces.html`, then the page is made from that file. -/
theorem C104_unset_violated (E : Engine T D) (order : List String → List String) (horder : ∀ l, (order l).Perm l)
    (clean : String → String) (hclean : clean "" = ".") (disk : String → String → Entry) (css html other : String)
    (c h0 h : T) (data : D) (hc : E.Defines "traces.css" css c) (hh0 : E.Defines "traces.html" html h0)
    (hroot : disk "." "root" = .missing) (hdc : disk "." "traces.css" = .missing)
    (hdh : disk "." "traces.html" = .file other) (hh : E.Defines "traces.html" other h) :
    body? (renderTemplate E order clean disk "" (embedded css html) "traces.html" data) = E.page c h data := by
  refine C104_local_partial E order horder clean disk "" css html c h0 c h data hc hh0 ?_ ?_ ?_ ?_ ?_ <;>
    simp only [hclean, hroot, hdc, hdh, chosen, ne_eq, reduceCtorEq, not_false_eq_true, hc, hh]

theorem unreadable_error (E : Engine T D) (order : List String → List String) (horder : ∀ l, (order l).Perm l)
    (clean : String → String) (disk : String → String → Entry) (env css html : String) (c h : T)
    (hc : E.Defines "traces.css" css c) (hh : E.Defines "traces.html" html h)
    (n : String) (hn : n ∈ ["root", "traces.css", "traces.html"]) (hu : disk (clean env) n = .unreadable)
    (name : String) (data : D) :
    renderTemplate E order clean disk env (embedded css html) name data = .error "parse local files" := by
  have hp := parseFS_embedded E hc hh
  have hm : n ∈ localFiles (disk (clean env)) (order ["root", "traces.css", "traces.html"]) := by
    refine (filter_ne_empty _ (disk (clean env)) (horder _)).mem_iff.2 ?_
    rw [List.mem_filter]
    exact ⟨hn, by rw [hu]; rfl⟩
  unfold renderTemplate
  rw [hp]
  simp only [List.map_cons, List.map_nil]
  rw [if_pos (List.length_pos_of_mem hm), parseFiles_unreadable E _ _ _ ⟨n, hm, hu⟩]

/-- C104 is false: if the working directory has a directory named `root`, as `/` has, then no page is
made, and every request for a page that is answered at all is answered with an error. -/
theorem C104_root_violated (E : Engine T SearchData) (order : List String → List String)
    (horder : ∀ l, (order l).Perm l) (clean : String → String) (hclean : clean "" = ".")
    (disk : String → String → Entry) (css html : String) (c h : T)
    (hc : E.Defines "traces.css" css c) (hh : E.Defines "traces.html" html h)
    (hroot : disk "." "root" = .unreadable)
    (compile : Compile) (mulFrac : Nat → Nat → Nat → Nat) (size : JSON → Nat) (mime : List Char → Option String)
    (searcher : Searcher) (r : SearchHTTP) (hr : renderResponse mime r.neg = .html) (res : HTTPResponse)
    (hres : handleSearch compile mulFrac size mime (renders E order clean disk "" css html) searcher r = some res) :
    res.status ≠ 200 := by
  have hren : ∀ d, renders E order clean disk "" css html d = false := by
    intro d
    unfold renders
    rw [unreadable_error E order horder clean disk "" css html c h hc hh "root" (by simp) (by rw [hclean]; exact hroot)]
  unfold handleSearch at hres
  split at hres
  · simp only [Option.some.injEq] at hres
    subst hres
    decide
  · simp only [Option.map_eq_some_iff] at hres
    obtain ⟨d, _, hd⟩ := hres
    subst hd
    simp only [render, hr, hren]
    decide

/-- C104: an answer in JSON does not depend on these files. -/
theorem C104_json (compile : Compile) (mulFrac : Nat → Nat → Nat → Nat) (size : JSON → Nat)
    (mime : List Char → Option String) (searcher : Searcher) (r : SearchHTTP)
    (hr : renderResponse mime r.neg = .json) (renders renders' : SearchData → Bool) :
    handleSearch compile mulFrac size mime renders searcher r =
      handleSearch compile mulFrac size mime renders' searcher r := by
  unfold handleSearch
  split
  · rfl
  · congr 1
    funext d
    simp only [render, hr]

/-! ## Cases -/

/-- A language of templates in which the style sheet is put after the text of the page. -/
def plain : Engine String D where
  parse n s := some [(n, s)]
  empty s := s == ""
  exec look t _ := some (t ++ (look "traces.css").getD "")

def clean1 (s : String) : String := if s = "" then "." else s

def wd (l : List (String × Entry)) (dir name : String) : Entry :=
  if dir = "." then (l.lookup name).getD .missing else .missing

/-- The page of the example, with no directory set. -/
def pageIn (l : List (String × Entry)) : Except String String :=
  renderTemplate (plain (D := Unit)) List.reverse clean1 (wd l) "" (embedded "css" "html ") "traces.html" ()

deriving instance DecidableEq for Except

example : pageIn [] = .ok "html css" := by decide +kernel
example : pageIn [("traces.css", .file "mine"), ("other", .unreadable)] = .ok "html mine" := by decide +kernel
example : pageIn [("traces.html", .file "notes "), ("traces.css", .file "mine")] = .ok "notes mine" := by decide +kernel
example : pageIn [("traces.css", .file "")] = .ok "html css" := by decide +kernel
example : pageIn [("root", .unreadable)] = .error "parse local files" := by decide +kernel
example : (plain (D := Unit)).Defines "traces.css" "css" "css" := ⟨rfl, by decide⟩
example : (plain (D := Unit)).page "css" "html " () = some "html css" := by decide +kernel

/-- The status of the answer to a browser, for a search that finds nothing. -/
def browserStatus (l : List (String × Entry)) : Option Int :=
  (handleSearch (fun _ => .error "") (fun _ _ _ => 0) (fun _ => 0) (fun m => some (String.ofList m))
    (renders plain List.reverse clean1 (wd l) "" "css" "html ")
    (fun req => some (req, .ok (some { stats := some { bucketing := [], categories := [] } })))
    { neg := { accept := ["text/html".toList] }, isJSON := false, body := none }).map (·.status)

example : browserStatus [] = some 200 := by decide +kernel
example : browserStatus [("root", .unreadable)] = some 500 := by decide +kernel

end Trc.Web.Assets
