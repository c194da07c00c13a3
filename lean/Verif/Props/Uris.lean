import Verif.Cmd.Uris
import Verif.Props.CmdSearch
import Verif.Props.PageCounts

/-!
# C100: the servers that `trc` asks
-/

namespace Trc.Cmd

open Wrap (trimSpace isSpace)

/-! ## What it means to name a server -/

/-- A character that can be typed into a URL as it is. -/
def graphic (c : Char) : Prop := isSpace c = false ∧ 32 ≤ c.toNat ∧ c.toNat ≠ 127

/-- Where a server is: a scheme, a host (with a port, if any), and perhaps a path and a query. -/
structure Addr where
  scheme : List Char
  host : List Char
  path : List Char
  query : List Char

structure Addr.OK (a : Addr) : Prop where
  scheme : a.scheme = "http".toList ∨ a.scheme = "https".toList
  host : a.host ≠ [] ∧ ∀ c ∈ a.host, graphic c ∧ c ≠ '/' ∧ c ≠ '?'
  path : (a.path = [] ∨ ∃ p, a.path = '/' :: p) ∧ ∀ c ∈ a.path, graphic c ∧ c ≠ '?'
  query : (a.query = [] ∨ ∃ q, a.query = '?' :: q) ∧ ∀ c ∈ a.query, graphic c

/-- The name of a server without its scheme. -/
def Addr.name (a : Addr) : List Char := a.host ++ a.path ++ a.query

/-- The URL of a server. -/
def Addr.url (a : Addr) : List Char := a.scheme ++ [':', '/', '/'] ++ a.name

/-- net/url sees nothing wrong with it. -/
def Addr.Valid (a : Addr) (net : Net) : Prop :=
  net.valid { scheme := a.scheme, host := a.host, path := a.path, query := a.query.tail? } = true

/-- A path, with the slash that separates it from the host. -/
def rooted (p : List Char) : List Char := if p = [] ∨ p.head? = some '/' then p else '/' :: p

/-- The server at the same host, at the path of `--uri-path` if there is one. -/
def Addr.at (a : Addr) (net : Net) (uriPath : String) : Addr :=
  if uriPath = "" then a else { a with path := rooted (net.encode uriPath.toList) }

/-! ## Reading names -/

theorem dropWhile_head {p : Char → Bool} {l : List Char} (h : ∀ c, l.head? = some c → p c = false) : l.dropWhile p = l := by
  cases l with
  | nil => rfl
  | cons c r => simp [List.dropWhile_cons, h c rfl]

theorem dropWhile_all {p : Char → Bool} (l r : List Char) (h : ∀ c ∈ l, p c = true) : (l ++ r).dropWhile p = r.dropWhile p := by
  induction l with
  | nil => rfl
  | cons c l ih => simp [List.dropWhile_cons, h c (by simp), ih (fun d hd => h d (by simp [hd]))]

/-- Spaces around a word are dropped. -/
theorem trim_word (pre w post : List Char) (h1 : ∀ c ∈ pre, isSpace c = true) (h2 : ∀ c ∈ post, isSpace c = true)
    (hw : ∀ c ∈ w, isSpace c = false) (hne : w ≠ []) : trimSpace (String.ofList (pre ++ w ++ post)) = String.ofList w := by
  unfold trimSpace
  rw [String.toList_ofList, List.append_assoc, dropWhile_all _ _ h1, dropWhile_head (l := w ++ post), List.reverse_append,
    dropWhile_all _ _ (fun c hc => h2 c (List.mem_reverse.mp hc)), dropWhile_head, List.reverse_reverse]
  · intro c hc
    exact hw c (List.mem_reverse.mp (List.mem_of_mem_head? hc))
  · intro c hc
    obtain ⟨d, r, rfl⟩ := List.exists_cons_of_ne_nil hne
    simp only [List.cons_append, List.head?_cons, Option.some.injEq] at hc
    subst hc
    exact hw d (by simp)

theorem takeWhile_split {p : Char → Bool} (l r : List Char) (h : ∀ c ∈ l, p c = true) (hr : ∀ c, r.head? = some c → p c = false) :
    (l ++ r).takeWhile p = l ∧ (l ++ r).dropWhile p = r := by
  constructor
  · induction l with
    | nil =>
      cases r with
      | nil => rfl
      | cons c r => simp [List.takeWhile_cons, hr c rfl]
    | cons c l ih => simp [List.takeWhile_cons, h c (by simp), ih (fun d hd => h d (by simp [hd]))]
  · rw [dropWhile_all _ _ h, dropWhile_head hr]

theorem Addr.OK.graphic_name {a : Addr} (h : a.OK) : ∀ c ∈ a.name, graphic c := by
  intro c hc
  simp only [Addr.name, List.mem_append] at hc
  rcases hc with (hc | hc) | hc
  · exact (h.host.2 c hc).1
  · exact (h.path.2 c hc).1
  · exact h.query.2 c hc

theorem Addr.OK.graphic_url {a : Addr} (h : a.OK) : ∀ c ∈ a.url, graphic c := by
  intro c hc
  simp only [Addr.url, List.mem_append] at hc
  rcases hc with (hc | hc) | hc
  · rcases h.scheme with e | e <;> rw [e] at hc <;> revert c <;> unfold graphic <;> decide
  · revert c; unfold graphic; decide
  · exact h.graphic_name c hc

/-- net/url takes a URL apart. -/
theorem parse_url (net : Net) {a : Addr} (h : a.OK) (hv : a.Valid net) :
    net.parse a.url = some { scheme := a.scheme, host := a.host, path := a.path, query := a.query.tail? } := by
  have hs : getSchemeFrom [] a.url = some (a.scheme, '/' :: '/' :: a.name) := by
    rcases h.scheme with e | e <;> simp only [Addr.url, e] <;> rfl
  have hl : a.scheme.map lower = a.scheme ∧ a.scheme ≠ [] := by
    rcases h.scheme with e | e <;> rw [e] <;> decide
  have hg := h.graphic_url
  have hany : a.url.any (fun c => c.toNat < 32 || c.toNat = 127) = false := by
    rw [List.any_eq_false]
    intro c hc
    have := hg c hc
    simp only [Bool.or_eq_true, decide_eq_true_eq, not_or]
    exact ⟨by have := this.2.1; omega, this.2.2⟩
  have hne : a.url ≠ [] := by simp [Addr.url]
  have hstar : a.url ≠ ['*'] := by
    rcases h.scheme with e | e <;> simp [Addr.url, e]
  have hq : cutQuery ('/' :: '/' :: a.name) = ('/' :: '/' :: (a.host ++ a.path), a.query.tail?) := by
    have := takeWhile_split (p := (· ≠ '?')) ('/' :: '/' :: (a.host ++ a.path)) a.query
      (by
        intro c hc
        simp only [List.mem_cons, List.mem_append] at hc
        rcases hc with rfl | rfl | hc | hc
        · decide
        · decide
        · simpa using (h.host.2 c hc).2.2
        · simpa using (h.path.2 c hc).2)
      (by
        intro c hc
        rcases h.query.1 with e | ⟨q, e⟩ <;> rw [e] at hc
        · cases hc
        · simp only [List.head?_cons, Option.some.injEq] at hc; subst hc; decide)
    have e : '/' :: '/' :: a.name = '/' :: '/' :: (a.host ++ a.path) ++ a.query := by simp [Addr.name]
    unfold cutQuery
    rw [e, this.1, this.2]
  have hp := takeWhile_split (p := (· ≠ '/')) a.host a.path (fun c hc => by simpa using (h.host.2 c hc).2.1)
    (by
      intro c hc
      rcases h.path.1 with e | ⟨q, e⟩ <;> rw [e] at hc
      · cases hc
      · simp only [List.head?_cons, Option.some.injEq] at hc; subst hc; decide)
  obtain ⟨s0, sr, hs0⟩ := List.exists_cons_of_ne_nil hl.2
  unfold Net.parse
  rw [hs, hs0]
  simp only [← hs0, hany, hne, hstar, hl.1, hl.2, hq, hp.1, hp.2, decide_false, Bool.or_false, if_false, Bool.false_eq_true,
    reduceCtorEq, hv]
  unfold Addr.Valid at hv
  rw [if_pos hv]

/-- … and puts it together again. -/
theorem str_url {a : Addr} (h : a.scheme ≠ []) (hh : a.host ≠ []) (hq : a.query = [] ∨ ∃ q, a.query = '?' :: q) :
    URL.str { scheme := a.scheme, host := a.host, path := a.path, query := a.query.tail? } =
      a.scheme ++ [':', '/', '/'] ++ a.host ++ rooted a.path ++ a.query := by
  obtain ⟨sch, host, path, query⟩ := a
  simp only at h hh hq
  have e : rooted path = if path ≠ [] ∧ path.head? ≠ some '/' ∧ host ≠ [] then '/' :: path else path := by
    unfold rooted
    by_cases hp : path = []
    · simp [hp]
    · by_cases hp2 : path.head? = some '/' <;> simp [hp, hp2, hh]
  rw [e]
  unfold URL.str
  rcases hq with rfl | ⟨q, rfl⟩ <;> simp [h, hh]

theorem prefix_url {a : Addr} (h : a.OK) : "http".toList <+: a.url := by
  unfold Addr.url
  rcases h.scheme with e | e <;> rw [e]
  · exact ⟨[':', '/', '/'] ++ a.name, rfl⟩
  · exact ⟨'s' :: ([':', '/', '/'] ++ a.name), rfl⟩

/-- What is parsed. -/
theorem withScheme_url {a : Addr} (h : a.OK) (s : String)
    (ht : s = String.ofList a.url ∨ s = String.ofList a.name ∧ a.scheme = "http".toList ∧ ¬ "http".toList <+: a.name) :
    (withScheme s).toList = a.url := by
  have hu : (String.ofList a.url).toList = a.url := String.toList_ofList
  have hna : (String.ofList a.name).toList = a.name := String.toList_ofList
  unfold withScheme
  rcases ht with e | ⟨e, es, hn⟩
  · have : "http".toList.isPrefixOf s.toList = true := by
      rw [List.isPrefixOf_iff_prefix, e, hu]
      exact prefix_url h
    rw [if_pos this, e, hu]
  · have : ¬ "http".toList.isPrefixOf s.toList = true := by
      rw [List.isPrefixOf_iff_prefix, e, hna]
      exact hn
    rw [if_neg this, String.toList_append, e, hna]
    unfold Addr.url
    rw [es]
    rfl

theorem target_of (net : Net) (uriPath given : String) {u : URL} {t : List Char} (hone : trimSpace given ≠ "")
    (hp : net.parse (withScheme (trimSpace given)).toList = some u)
    (ht : t = URL.str (if uriPath ≠ "" then { u with path := net.encode uriPath.toList } else u)) :
    net.target uriPath given = .ok (String.ofList t) := by
  unfold Net.target
  simp only [hone, if_false, hp]
  rw [ht]

/-- What becomes of a URL, with any spaces around it. -/
theorem target_url (net : Net) {a : Addr} (h : a.OK) (hv : a.Valid net) (uriPath : String) (given : String)
    (ht : trimSpace given = String.ofList a.url ∨
      trimSpace given = String.ofList a.name ∧ a.scheme = "http".toList ∧ ¬ "http".toList <+: a.name) :
    net.target uriPath given = .ok (String.ofList (a.at net uriPath).url) := by
  have hsch : a.scheme ≠ [] := by rcases h.scheme with e | e <;> rw [e] <;> decide
  have hone : trimSpace given ≠ "" := by
    rcases ht with e | ⟨e, -⟩ <;> rw [e] <;> intro e' <;> have := congrArg String.toList e' <;>
      rw [String.toList_ofList] at this
    · simp [Addr.url] at this
    · obtain ⟨c, r, e⟩ := List.exists_cons_of_ne_nil h.host.1
      simp [Addr.name, e] at this
  have hfull : (withScheme (trimSpace given)).toList = a.url := withScheme_url h _ ht
  have hstr : URL.str (if uriPath ≠ "" then
      { scheme := a.scheme, host := a.host, path := net.encode uriPath.toList, query := a.query.tail? }
      else { scheme := a.scheme, host := a.host, path := a.path, query := a.query.tail? }) = (a.at net uriPath).url := by
    unfold Addr.at
    by_cases hu : uriPath = ""
    · rw [if_neg (not_not_intro hu), if_pos hu, str_url hsch h.host.1 h.query.1]
      have : rooted a.path = a.path := by
        unfold rooted
        rcases h.path.1 with e | ⟨q, e⟩ <;> simp [e]
      simp only [this, Addr.url, Addr.name, List.append_assoc]
    · rw [if_pos hu, if_neg hu]
      have := str_url (a := { a with path := net.encode uriPath.toList }) hsch h.host.1 h.query.1
      simp only at this
      rw [this]
      simp only [Addr.url, Addr.name, List.append_assoc]
  exact target_of net uriPath given hone (by rw [hfull]; exact parse_url net h hv) (by rw [← hstr])

/-- **C100** A server named by its URL is asked at that URL, or, with `--uri-path`, at the same host and query with
that path. -/
theorem C100_by_url (net : Net) {a : Addr} (h : a.OK) (hv : a.Valid net) (uriPath : String) (pre post : List Char)
    (h1 : ∀ c ∈ pre, isSpace c = true) (h2 : ∀ c ∈ post, isSpace c = true) :
    net.target uriPath (String.ofList (pre ++ a.url ++ post)) = .ok (String.ofList (a.at net uriPath).url) :=
  target_url net h hv uriPath _ (.inl (trim_word pre _ post h1 h2 (fun c hc => (h.graphic_url c hc).1) (by simp [Addr.url])))

/-- **C100** A server named without a scheme is asked by HTTP.  (Partial: not if the name of the host begins with
`http`, `C100_name_violated`.) -/
theorem C100_by_name_partial (net : Net) {a : Addr} (h : a.OK) (hv : a.Valid net) (uriPath : String) (pre post : List Char)
    (h1 : ∀ c ∈ pre, isSpace c = true) (h2 : ∀ c ∈ post, isSpace c = true)
    (hs : a.scheme = "http".toList) (hn : ¬ "http".toList <+: a.name) :
    net.target uriPath (String.ofList (pre ++ a.name ++ post)) = .ok (String.ofList (a.at net uriPath).url) :=
  target_url net h hv uriPath _ (.inr ⟨trim_word pre _ post h1 h2 (fun c hc => (h.graphic_name c hc).1)
    (by intro e; exact h.host.1 (by simp only [Addr.name, List.append_eq_nil_iff] at e; exact e.1.1)), hs, hn⟩)

/-! ## The list of servers -/

theorem unique_foldl (given acc : List String) (h : acc.Nodup) :
    (given.foldl (fun l s => if s ∈ l then l else l ++ [s]) acc).Nodup ∧
    ∀ s, s ∈ given.foldl (fun l s => if s ∈ l then l else l ++ [s]) acc ↔ s ∈ acc ∨ s ∈ given := by
  induction given generalizing acc with
  | nil => simp [h]
  | cons g given ih =>
    simp only [List.foldl_cons]
    by_cases hg : g ∈ acc
    · rw [if_pos hg]
      refine ⟨(ih acc h).1, fun s => ?_⟩
      rw [(ih acc h).2 s, List.mem_cons]
      constructor
      · rintro (h | h) <;> simp [h]
      · rintro (h | rfl | h) <;> simp_all
    · rw [if_neg hg]
      have hn : (acc ++ [g]).Nodup := by
        rw [List.nodup_append]
        refine ⟨h, by simp, ?_⟩
        rintro a ha b hb rfl
        rw [List.mem_singleton] at hb
        exact hg (hb ▸ ha)
      refine ⟨(ih _ hn).1, fun s => ?_⟩
      rw [(ih _ hn).2 s]
      simp [or_assoc]

theorem unique_spec (given : List String) : (uniqueList given).Nodup ∧ ∀ s, s ∈ uniqueList given ↔ s ∈ given := by
  have := unique_foldl given [] .nil
  simpa [uniqueList] using this

theorem targets_ok (net : Net) (uriPath : String) (l ts : List String) :
    net.targets uriPath l = .ok ts ↔ l.map (net.target uriPath) = ts.map Except.ok := by
  induction l generalizing ts with
  | nil =>
    cases ts <;> simp [Net.targets]
  | cons s l ih =>
    simp only [Net.targets, List.map_cons]
    cases hs : net.target uriPath s with
    | error e =>
      cases ts <;> simp [bind, Except.bind]
    | ok t =>
      cases hl : net.targets uriPath l with
      | error e =>
        simp only [bind, Except.bind, pure, Except.pure]
        constructor
        · intro h; cases h
        · intro h
          cases ts with
          | nil => simp at h
          | cons t' ts =>
            simp only [List.map_cons, List.cons.injEq] at h
            have := (ih ts).mpr h.2
            rw [hl] at this; cases this
      | ok ts' =>
        simp only [bind, Except.bind, pure, Except.pure]
        have hl' := (ih ts').mp hl
        rw [hl']
        constructor
        · intro h; cases h; simp
        · intro h
          cases ts with
          | nil => simp at h
          | cons t' ts =>
            simp only [List.map_cons, List.cons.injEq, Except.ok.injEq] at h
            have : ts' = ts := by
              have := h.2
              exact (List.map_inj_right (by intro a b h; exact Except.ok.inj h)).mp this
            rw [h.1, this]

theorem targets_error (net : Net) (uriPath : String) (l : List String) :
    (∃ e, net.targets uriPath l = .error e) ↔ ∃ s ∈ l, ∃ e, net.target uriPath s = .error e := by
  induction l with
  | nil => simp [Net.targets]
  | cons s l ih =>
    have hx : (∃ x ∈ s :: l, ∃ e, net.target uriPath x = .error e) ↔
        (∃ e, net.target uriPath s = .error e) ∨ ∃ e, net.targets uriPath l = .error e := by
      rw [ih]; simp
    rw [hx]
    simp only [Net.targets]
    cases hs : net.target uriPath s with
    | error e => simp [bind, Except.bind]
    | ok t =>
      cases hl : net.targets uriPath l with
      | error e => simp [bind, Except.bind]
      | ok ts => simp [bind, Except.bind, pure, Except.pure]

theorem map_count {l ts : List String} {f : String → Except String String} (h : l.map f = ts.map Except.ok) (p : String → Bool) :
    ts.countP p = l.countP fun s => match f s with | .ok t => p t | .error _ => false := by
  induction l generalizing ts with
  | nil =>
    cases ts with
    | nil => rfl
    | cons t ts => simp at h
  | cons s l ih =>
    cases ts with
    | nil => simp at h
    | cons t ts =>
      simp only [List.map_cons, List.cons.injEq] at h
      simp only [List.countP_cons, ih h.2, h.1]

/-- A name that is nothing but spaces. -/
def blank (s : String) : Prop := trimSpace s = ""

/-- **C100** If no server is named, or if a name is not blank and not valid, then the command fails, whatever there
is on the network: it asks nobody. -/
theorem C100_refused (net : Net) (uriPath : String) (given : List String)
    (h : given = [] ∨ ∃ s ∈ given, ∃ e, net.target uriPath s = .error e) :
    ∃ e, ∀ internet arrive compile srt c, searchCommand net internet arrive compile srt c uriPath given = .error e := by
  have : ∃ e, net.prepare uriPath given = .error e := by
    unfold Net.prepare
    rcases h with rfl | ⟨s, hs, he⟩
    · exact ⟨_, rfl⟩
    · have hm := ((unique_spec given).2 s).mpr hs
      obtain ⟨e, he⟩ := (targets_error net uriPath (uniqueList given)).mpr ⟨s, hm, he⟩
      refine ⟨e, ?_⟩
      rw [if_neg, he]
      have := List.length_pos_of_mem hm
      omega
  obtain ⟨e, he⟩ := this
  exact ⟨e, fun _ _ _ _ _ => by simp [searchCommand, he, bind, Except.bind]⟩

/-- … and otherwise it does not. -/
theorem prepare_ok (net : Net) (uriPath : String) (given : List String) (hne : given ≠ [])
    (h : ∀ s ∈ given, ∃ t, net.target uriPath s = .ok t) :
    ∃ ts, net.prepare uriPath given = .ok ts ∧ (uniqueList given).map (net.target uriPath) = ts.map Except.ok := by
  unfold Net.prepare
  obtain ⟨s, r, rfl⟩ := List.exists_cons_of_ne_nil hne
  have hm := ((unique_spec (s :: r)).2 s).mpr (by simp)
  have := List.length_pos_of_mem hm
  rw [if_neg (by omega)]
  cases hl : net.targets uriPath (uniqueList (s :: r)) with
  | error e =>
    obtain ⟨s', hs', e', he'⟩ := (targets_error ..).mp ⟨e, hl⟩
    obtain ⟨t, ht⟩ := h s' (((unique_spec _).2 s').mp hs')
    rw [ht] at he'; cases he'
  | ok ts => exact ⟨ts, rfl, (targets_ok ..).mp hl⟩

/-- **C100** A server is asked once for every different name of it that is given, and nobody else is asked.
(Partial: once, if no two names that are given stand for the same URI.) -/
theorem C100_once_partial (net : Net) (uriPath : String) (given : List String) (hne : given ≠ [])
    (h : ∀ s ∈ given, ∃ t, net.target uriPath s = .ok t)
    (hd : ∀ s ∈ given, ∀ s' ∈ given, net.target uriPath s = net.target uriPath s' → s = s') :
    ∃ ts, net.prepare uriPath given = .ok ts ∧ ts.Nodup ∧
      ∀ t, t ∈ ts ↔ ∃ s ∈ given, net.target uriPath s = .ok t := by
  obtain ⟨ts, h1, h2⟩ := prepare_ok net uriPath given hne h
  refine ⟨ts, h1, ?_, ?_⟩
  · have hn : ((uniqueList given).map (net.target uriPath)).Nodup := by
      have hu := unique_spec given
      rw [List.Nodup, List.pairwise_map]
      refine List.Pairwise.imp_of_mem ?_ hu.1
      intro a b ha hb hab e
      exact hab (hd a ((hu.2 a).mp ha) b ((hu.2 b).mp hb) e)
    rw [h2, List.Nodup, List.pairwise_map] at hn
    exact hn.imp fun h e => h (by rw [e])
  · intro t
    have : t ∈ ts ↔ Except.ok t ∈ ts.map (Except.ok (ε := String)) := by simp
    rw [this, ← h2, List.mem_map]
    simp only [(unique_spec given).2]

section
open Trc.Web
variable {compile : Compile} {mulFrac : Nat → Nat → Nat → Nat} {size : JSON → Nat} {mime : List Char → Option String}
variable {α : Type} [Inhabited α]

/-- `trc search` prints the sum of the totals of the URIs it uses, however often the same server is among them. -/
theorem total_of (net : Net) {srt : List Static → List Static} (hs : Sorts srt) (c : SearchFlags)
    (site : String → Site compile mulFrac size mime α) (req : SearchRequest) (problems : List String)
    (hn : c.request.normalize compile = some (req, problems))
    (hsize : size (encRequest req) ≤ 1048576) (hm : mime "application/json".toList = some "application/json")
    (horder : ∀ u, ∀ reply ss, searchClient (site u).1.rawQuery (site u).1.server req = .ok reply → reply.stats = some ss →
      (site u).1.order.Perm ss.categories)
    (arrive : List String → List String) (uriPath : String) (given ts : List String) (hp : net.prepare uriPath given = .ok ts) :
    ∃ out, searchCommand net (fun u => (site u).1) arrive compile srt c uriPath given = .ok (some out) ∧
      out.totalCount = sumBy (fun u => (site u).total) (arrive ts) := by
  obtain ⟨out, h1, h2, -⟩ := C85_end_to_end hs c ((arrive ts).map site) req problems hn hsize hm
    (by intro s h; obtain ⟨u, -, rfl⟩ := List.mem_map.mp h; exact horder u)
  refine ⟨out, ?_, by rw [h2, sumBy_map]⟩
  rw [List.map_map] at h1
  simp only [searchCommand, hp, bind, Except.bind, pure, Except.pure]
  exact congrArg _ h1

theorem sumBy_perm {α : Type} (f : α → Int) {l l' : List α} (h : l.Perm l') : sumBy f l = sumBy f l' := by
  induction h with
  | nil => rfl
  | cons x _ ih => simp [sumBy, ih]
  | swap x y l => simp only [sumBy]; omega
  | trans _ _ ih1 ih2 => rw [ih1, ih2]

/-- **C100** The total that `trc search` prints counts every server that is named once, in whatever order they
answer.  (Partial: if no two names that are given stand for the same URI.) -/
theorem C100_total_partial (net : Net) {srt : List Static → List Static} (hs : Sorts srt) (c : SearchFlags)
    (site : String → Site compile mulFrac size mime α) (req : SearchRequest) (problems : List String)
    (hn : c.request.normalize compile = some (req, problems))
    (hsize : size (encRequest req) ≤ 1048576) (hm : mime "application/json".toList = some "application/json")
    (horder : ∀ u, ∀ reply ss, searchClient (site u).1.rawQuery (site u).1.server req = .ok reply → reply.stats = some ss →
      (site u).1.order.Perm ss.categories)
    (arrive : List String → List String) (harr : ∀ l, (arrive l).Perm l) (uriPath : String) (given : List String) (hne : given ≠ [])
    (h : ∀ s ∈ given, ∃ t, net.target uriPath s = .ok t)
    (hd : ∀ s ∈ given, ∀ s' ∈ given, net.target uriPath s = net.target uriPath s' → s = s')
    (servers : List String) (hnd : servers.Nodup) (hserv : ∀ t, t ∈ servers ↔ ∃ s ∈ given, net.target uriPath s = .ok t) :
    ∃ out, searchCommand net (fun u => (site u).1) arrive compile srt c uriPath given = .ok (some out) ∧
      out.totalCount = sumBy (fun u => (site u).total) servers := by
  obtain ⟨ts, h1, h2, h3⟩ := C100_once_partial net uriPath given hne h hd
  obtain ⟨out, h4, h5⟩ := total_of net hs c site req problems hn hsize hm horder arrive uriPath given ts h1
  refine ⟨out, h4, ?_⟩
  rw [h5, sumBy_perm _ (harr ts)]
  exact sumBy_perm _ ((List.perm_ext_iff_of_nodup h2 hnd).mpr fun t => by rw [h3, hserv])

/-- **C100** is false of a server that is given by two of its names: `-u foo -u http://foo` asks it twice, and
counts each of its traces twice. -/
theorem C100_once_violated (net : Net)
    (hv : net.valid { scheme := "http".toList, host := "foo".toList } = true)
    {srt : List Static → List Static} (hs : Sorts srt) (c : SearchFlags)
    (site : String → Site compile mulFrac size mime α) (req : SearchRequest) (problems : List String)
    (hn : c.request.normalize compile = some (req, problems))
    (hsize : size (encRequest req) ≤ 1048576) (hm : mime "application/json".toList = some "application/json")
    (horder : ∀ u, ∀ reply ss, searchClient (site u).1.rawQuery (site u).1.server req = .ok reply → reply.stats = some ss →
      (site u).1.order.Perm ss.categories) :
    net.prepare "" ["foo", "http://foo"] = .ok ["http://foo", "http://foo"] ∧
    ∃ out, searchCommand net (fun u => (site u).1) id compile srt c "" ["foo", "http://foo"] = .ok (some out) ∧
      out.totalCount = 2 * (site "http://foo").total := by
  have ha : Addr.OK ⟨"http".toList, "foo".toList, [], []⟩ :=
    ⟨.inl rfl, by unfold graphic; decide, ⟨.inl rfl, by simp⟩, ⟨.inl rfl, by simp⟩⟩
  have h1 : net.target "" "foo" = .ok "http://foo" :=
    C100_by_name_partial net ha hv "" [] [] (by simp) (by simp) rfl (by decide)
  have h2 : net.target "" "http://foo" = .ok "http://foo" :=
    C100_by_url net ha hv "" [] [] (by simp) (by simp)
  have hp : net.prepare "" ["foo", "http://foo"] = .ok ["http://foo", "http://foo"] := by
    have hu : uniqueList ["foo", "http://foo"] = ["foo", "http://foo"] := by decide
    simp [Net.prepare, hu, Net.targets, h1, h2, bind, Except.bind, pure, Except.pure]
  obtain ⟨out, h3, h4⟩ := total_of net hs c site req problems hn hsize hm horder id "" _ _ hp
  refine ⟨hp, out, h3, ?_⟩
  rw [h4]
  simp only [id, sumBy]
  omega

end

/-- **C100** is false of servers whose name begins with `http`: `httpd:8080` is taken for a URL with the scheme
`httpd`, and `httpbin.org` is refused.  It is also false of URLs with their scheme in capitals: `HTTPS://foo` is a
path on the host `HTTPS:`, without TLS. -/
theorem C100_name_violated (net : Net) (hv : ∀ u, net.valid u = true) :
    net.target "" "httpd:8080" = .ok "httpd:8080" ∧
    net.parse "httpd:8080".toList = some { scheme := "httpd".toList, opaq := "8080".toList } ∧
    net.target "" "httpbin.org" = .error "httpbin.org: invalid" ∧
    net.target "" "HTTPS://foo" = .ok "http://HTTPS://foo" ∧
    net.parse "http://HTTPS://foo".toList =
      some { scheme := "http".toList, host := "HTTPS:".toList, path := "//foo".toList } := by
  obtain ⟨valid, enc⟩ := net
  have : valid = fun _ => true := funext hv
  subst this
  exact ⟨rfl, rfl, rfl, rfl, rfl⟩

/-- Blank names are not refused, even if there are no others; they are asked, as they are. -/
theorem C100_blank (net : Net) (uriPath : String) (s : String) (h : blank s) :
    net.prepare uriPath [s] = .ok [s] := by
  simp [Net.prepare, uniqueList, Net.targets, Net.target, show trimSpace s = "" from h, bind, Except.bind, pure, Except.pure]

/-! ## Examples -/

deriving instance DecidableEq for Except

def anyNet : Net := { valid := fun _ => true, encode := id }

/-- Named by host and port, by URL, and twice the same; with a path. -/
example : anyNet.prepare "/traces" ["foo:80", " https://bar/x?y ", "foo:80"] = .ok ["http://foo:80/traces", "https://bar/traces?y"] := by
  decide +kernel

example : Addr.OK ⟨"https".toList, "bar".toList, "/x".toList, "?y".toList⟩ :=
  ⟨.inr rfl, by unfold graphic; decide, ⟨.inr ⟨_, rfl⟩, by unfold graphic; decide⟩, ⟨.inr ⟨_, rfl⟩, by unfold graphic; decide⟩⟩

example : ∀ s ∈ ["foo:80", "bar"], ∀ s' ∈ ["foo:80", "bar"], anyNet.target "" s = anyNet.target "" s' → s = s' := by
  decide +kernel

example : ∃ s ∈ ["foo", "a\tb"], ∃ e, anyNet.target "" s = .error e := ⟨"a\tb", by simp, _, rfl⟩

end Trc.Cmd
