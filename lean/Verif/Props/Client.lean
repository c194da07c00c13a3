import Verif.Web.Client
import Verif.Props.URL

/-!
# C72: settings of the stream client
-/

namespace Trc.Web

variable {mulFrac : Nat → Nat → Nat → Nat}

/-- **C72** Before use the settings are in range: values in range are kept, others are forced to the
nearest bound, and zero intervals get the default. -/
theorem C72_in_range (c : StreamClient) :
    let i := c.initialize
    (0 ≤ i.sendBuffer ∧ i.sendBuffer ≤ 100000) ∧
    (1000000000 ≤ i.retryInterval ∧ i.retryInterval ≤ 60000000000) ∧
    (1000000000 ≤ i.statsInterval ∧ i.statsInterval ≤ 60000000000) ∧
    (0 ≤ c.sendBuffer → c.sendBuffer ≤ 100000 → i.sendBuffer = c.sendBuffer) ∧
    (c.sendBuffer < 0 → i.sendBuffer = 0) ∧ (100000 < c.sendBuffer → i.sendBuffer = 100000) ∧
    (c.retryInterval = 0 → i.retryInterval = 3000000000) ∧
    (1000000000 ≤ c.retryInterval → c.retryInterval ≤ 60000000000 → i.retryInterval = c.retryInterval) ∧
    (c.retryInterval ≠ 0 → c.retryInterval < 1000000000 → i.retryInterval = 1000000000) ∧
    (60000000000 < c.retryInterval → i.retryInterval = 60000000000) ∧
    (c.statsInterval = 0 → i.statsInterval = 10000000000) ∧
    (1000000000 ≤ c.statsInterval → c.statsInterval ≤ 60000000000 → i.statsInterval = c.statsInterval) ∧
    (c.statsInterval ≠ 0 → c.statsInterval < 1000000000 → i.statsInterval = 1000000000) ∧
    (60000000000 < c.statsInterval → i.statsInterval = 60000000000) := by
  obtain ⟨uri, sb, ri, si⟩ := c
  change Int at ri
  change Int at si
  have key : ∀ v d : Int, 1000000000 ≤ d → d ≤ 60000000000 →
      (1000000000 ≤ forceInterval v d 1000000000 60000000000 ∧ forceInterval v d 1000000000 60000000000 ≤ 60000000000) ∧
      (v = 0 → forceInterval v d 1000000000 60000000000 = d) ∧
      (1000000000 ≤ v → v ≤ 60000000000 → forceInterval v d 1000000000 60000000000 = v) ∧
      (v ≠ 0 → v < 1000000000 → forceInterval v d 1000000000 60000000000 = 1000000000) ∧
      (60000000000 < v → forceInterval v d 1000000000 60000000000 = 60000000000) := by
    intro v d h1 h2
    unfold forceInterval
    repeat' split
    all_goals omega
  have hr := key ri 3000000000 (by omega) (by omega)
  have hs := key si 10000000000 (by omega) (by omega)
  have hb : ∀ b : Int, (0 ≤ (if b < 0 then 0 else if b > 100000 then 100000 else b) ∧
      (if b < 0 then 0 else if b > 100000 then 100000 else b) ≤ 100000) ∧
      (0 ≤ b → b ≤ 100000 → (if b < 0 then 0 else if b > 100000 then 100000 else b) = b) ∧
      (b < 0 → (if b < 0 then 0 else if b > 100000 then 100000 else b) = 0) ∧
      (100000 < b → (if b < 0 then 0 else if b > 100000 then 100000 else b) = 100000) := by
    intro b
    repeat' split
    all_goals omega
  have hb := hb sb
  exact ⟨hb.1, hr.1, hs.1, hb.2.1, hb.2.2.1, hb.2.2.2, hr.2.1, hr.2.2.1, hr.2.2.2.1, hr.2.2.2.2,
    hs.2.1, hs.2.2.1, hs.2.2.2.1, hs.2.2.2.2⟩

theorem hasHTTP_iff (s : List Char) : hasHTTP s = true ↔ ∃ t, s = ['h', 't', 't', 'p'] ++ t := by
  unfold hasHTTP
  rw [List.isPrefixOf_iff_prefix]
  constructor
  · rintro ⟨t, h⟩; exact ⟨t, h.symm⟩
  · rintro ⟨t, h⟩; exact ⟨t, h.symm⟩

/-- **C72** Initializing twice changes nothing. -/
theorem C72_idempotent (c : StreamClient) : c.initialize.initialize = c.initialize := by
  have hu : ∀ u, forceURI (forceURI u) = forceURI u := by
    intro u
    have hp : hasHTTP (['h', 't', 't', 'p', ':', '/', '/'] ++ u) = true :=
      (hasHTTP_iff _).2 ⟨[':', '/', '/'] ++ u, rfl⟩
    unfold forceURI
    by_cases h : u ≠ [] ∧ hasHTTP u = false
    · rw [if_pos h, if_neg (fun h' => by rw [hp] at h'; cases h'.2)]
    · rw [if_neg h, if_neg h]
  have hf : ∀ v d : Int, 1000000000 ≤ d → d ≤ 60000000000 →
      forceInterval (forceInterval v d 1000000000 60000000000) d 1000000000 60000000000
        = forceInterval v d 1000000000 60000000000 := by
    intro v d h1 h2
    have : forceInterval v d 1000000000 60000000000 ≠ 0 ∧ 1000000000 ≤ forceInterval v d 1000000000 60000000000 ∧
        forceInterval v d 1000000000 60000000000 ≤ 60000000000 := by
      unfold forceInterval
      repeat' split
      all_goals omega
    generalize forceInterval v d 1000000000 60000000000 = x at this
    unfold forceInterval
    repeat' split
    all_goals omega
  have hb : ∀ b : Int, (if (if b < 0 then (0 : Int) else if b > 100000 then 100000 else b) < 0 then (0 : Int)
      else if (if b < 0 then (0 : Int) else if b > 100000 then 100000 else b) > 100000 then 100000
      else (if b < 0 then (0 : Int) else if b > 100000 then 100000 else b))
      = (if b < 0 then (0 : Int) else if b > 100000 then 100000 else b) := by
    intro b
    repeat' split
    all_goals omega
  unfold StreamClient.initialize
  simp only [hu, StreamClient.mk.injEq, true_and]
  exact ⟨hb _, hf _ _ (by omega) (by omega), hf _ _ (by omega) (by omega)⟩

/-- The URI begins with a scheme. -/
def HasScheme (u : List Char) : Prop := ∃ scheme rest, u = scheme ++ [':', '/', '/'] ++ rest ∧ ':' ∉ scheme ∧ scheme ≠ []

/-- **C72** What is done to the URI: `http://` and `https://` URIs and the empty URI are kept; a URI
that does not begin with `http` gets the scheme `http`.  Full statement: every URI without a scheme
gets one, and no other is changed; see `C72_scheme_violated`. -/
theorem C72_scheme_partial (c : StreamClient) :
    (∀ rest, (c.uri = ['h', 't', 't', 'p', ':', '/', '/'] ++ rest ∨ c.uri = ['h', 't', 't', 'p', 's', ':', '/', '/'] ++ rest) →
      c.initialize.uri = c.uri) ∧
    (c.uri = [] → c.initialize.uri = []) ∧
    (c.uri ≠ [] → (¬ ∃ t, c.uri = ['h', 't', 't', 'p'] ++ t) →
      c.initialize.uri = ['h', 't', 't', 'p', ':', '/', '/'] ++ c.uri ∧ HasScheme c.initialize.uri) := by
  have hu : c.initialize.uri = forceURI c.uri := rfl
  rw [hu]
  refine ⟨?_, ?_, ?_⟩
  · rintro rest (h | h)
    · have : hasHTTP c.uri = true := (hasHTTP_iff _).2 ⟨[':', '/', '/'] ++ rest, h⟩
      unfold forceURI; rw [if_neg (fun h' => by rw [this] at h'; cases h'.2)]
    · have : hasHTTP c.uri = true := (hasHTTP_iff _).2 ⟨['s', ':', '/', '/'] ++ rest, h⟩
      unfold forceURI; rw [if_neg (fun h' => by rw [this] at h'; cases h'.2)]
  · intro h; rw [h]; rfl
  · intro hne hno
    have : hasHTTP c.uri = false := by
      rw [← hasHTTP_iff] at hno; simpa using hno
    unfold forceURI
    rw [if_pos ⟨hne, this⟩]
    exact ⟨rfl, ['h', 't', 't', 'p'], c.uri, rfl, by decide, by simp⟩

/-- **C72** is violated: a host name that begins with `http` gets no scheme, and another scheme is
mangled. -/
theorem C72_scheme_violated :
    (∃ c : StreamClient, c.uri ≠ [] ∧ ¬ HasScheme c.uri ∧ ¬ HasScheme c.initialize.uri) ∧
    (∃ c : StreamClient, HasScheme c.uri ∧ c.initialize.uri ≠ c.uri) := by
  refine ⟨⟨{ uri := "httpd:8080/trc".toList }, by decide, ?_, ?_⟩,
    ⟨{ uri := "unix://x".toList }, ⟨"unix".toList, "x".toList, by decide, by decide, by decide⟩, by decide⟩⟩
  all_goals
    rintro ⟨scheme, rest, h, hs, hne⟩
    clear hne
    have hc : ':' ∈ "httpd:8080/trc".toList := by decide
    have h' : "httpd".toList ++ ':' :: "8080/trc".toList = scheme ++ ':' :: ([ '/', '/'] ++ rest) := by
      have e : "httpd:8080/trc".toList = "httpd".toList ++ ':' :: "8080/trc".toList := by decide
      rw [← e]
      have hf : forceURI "httpd:8080/trc".toList = "httpd:8080/trc".toList := by decide
      simp only [StreamClient.initialize, hf] at h
      rw [h]; simp
    have hd : ("httpd".toList ++ ':' :: "8080/trc".toList).dropWhile (· != ':')
        = (scheme ++ ':' :: ([ '/', '/'] ++ rest)).dropWhile (· != ':') := by rw [h']
    have hr : (scheme ++ ':' :: ([ '/', '/'] ++ rest)).dropWhile (· != ':') = ':' :: ([ '/', '/'] ++ rest) := by
      clear hd h' h
      induction scheme with
      | nil => simp
      | cons c s ih =>
        simp only [List.mem_cons, not_or] at hs
        rw [List.cons_append, List.dropWhile_cons_of_pos (by simpa using fun e => hs.1 e.symm)]
        exact ih hs.2
    rw [hr] at hd
    have hl : ("httpd".toList ++ ':' :: "8080/trc".toList).dropWhile (· != ':') = ':' :: '8' :: "080/trc".toList := by decide
    rw [hl] at hd
    simp at hd

theorem fmtInt_isInt (n : Nat) (h : n < 2 ^ 63) : atoi (fmtInt n) = some (n : Int) := by
  have hd := fmtInt_digits n
  have hn := fmtInt_natOf n
  obtain ⟨c, ds, hcd⟩ : ∃ c ds, fmtInt n = c :: ds := List.exists_cons_of_ne_nil (fmtInt_ne_nil n)
  have hs : parseSign (fmtInt n) = (false, fmtInt n) := by
    have hc := hd c (by rw [hcd]; simp)
    rw [hcd]
    unfold parseSign
    split
    · next heq => simp at heq; rw [heq.1] at hc; exact absurd hc (by decide)
    · next heq => simp at heq; rw [heq.1] at hc; exact absurd hc (by decide)
    · rfl
  have ha : atoiDigits (fmtInt n) = n := hn
  unfold atoi atoiAbs
  rw [hs]
  simp only [ha]
  rw [if_neg (fmtInt_ne_nil n), if_neg (by
    rw [Bool.not_eq_false, List.all_eq_true]; exact hd)]
  simp only [Bool.false_eq_true, if_false]
  rw [if_neg (by unfold two63; omega)]

/-- **C72** The server reads from the client's request the send buffer, the statistics interval
and the filter that the client was configured with, whatever else the URI asks for.  Full
statement: also for a send buffer of 0, see `C72_zero_buffer_violated`. -/
theorem C72_server_partial (hm : ExactMul mulFrac) (c : StreamClient) (f : Filter) (raw : Bytes) (hraw : NoFilter raw)
    (hd : ∀ d, f.minDuration = some d → Is64 d) :
    (c.initialize.sendBuffer ≠ 0 → sendbufOfURL (c.stream f raw) = c.initialize.sendBuffer) ∧
    statsOfURL mulFrac (c.stream f raw) = c.initialize.statsInterval ∧
    parseFilter mulFrac (c.stream f raw) = { f with regexp := none } := by
  obtain ⟨h1, _, h2, _⟩ := C72_in_range c
  generalize hi : c.initialize = i at h1 h2
  have hstream : c.stream f raw = i.query f raw := by unfold StreamClient.stream; rw [hi]
  rw [hstream]
  obtain ⟨q, hq⟩ : ∃ q : Values, q = ((parseQuery raw).setIf (i.sendBuffer > 0) (bytesOf "sendbuf")
    (bytesOf (String.ofList (itoa i.sendBuffer)))).setIf (i.statsInterval > 0) (bytesOf "stats")
      (bytesOf (String.ofList (durationString i.statsInterval))) := ⟨_, rfl⟩
  have hquery : i.query f raw = encodeFilter f q.encode := by rw [hq]; rfl
  have hvals : ∀ k, vals k q = if i.statsInterval > 0 ∧ bytesOf "stats" = k
      then [bytesOf (String.ofList (durationString i.statsInterval))]
      else if i.sendBuffer > 0 ∧ bytesOf "sendbuf" = k then [bytesOf (String.ofList (itoa i.sendBuffer))]
      else vals k (parseQuery raw) := by
    intro k; rw [hq, vals_setIf, vals_setIf]
  have hno : NoFilter q.encode := by
    intro k hk
    rw [vals_parseQuery_encode, hvals]
    have n1 : bytesOf "stats" ≠ bytesOf k := bytesOf_ne (by rintro rfl; revert hk; decide)
    have n2 : bytesOf "sendbuf" ≠ bytesOf k := bytesOf_ne (by rintro rfl; revert hk; decide)
    rw [if_neg (fun h => n1 h.2), if_neg (fun h => n2 h.2)]
    exact hraw k hk
  obtain ⟨r1, r2⟩ := C61_round_trip hm f q.encode hno hd
  rw [hquery]
  have hne : bytesOf "stats" ≠ bytesOf "sendbuf" := bytesOf_ne (by decide)
  have hspos : i.statsInterval > 0 := by
    obtain ⟨_, _, _, si⟩ := i
    change Int at si
    change (1000000000 : Int) ≤ si ∧ si ≤ 60000000000 at h2
    change si > 0
    omega
  refine ⟨fun hne0 => ?_, ?_, r1⟩
  · unfold sendbufOfURL parseRange atoiBytes
    rw [get_text]
    unfold firstValue
    rw [r2 "sendbuf" (by decide), vals_parseQuery_encode, hvals, if_neg (fun h => hne h.2),
      if_pos ⟨by omega, rfl⟩]
    simp only [text_bytesOf, String.toList_ofList]
    have : atoi (itoa i.sendBuffer) = some i.sendBuffer := by
      unfold itoa
      rw [if_neg (by omega), fmtInt_isInt _ (by omega)]
      congr 1
      omega
    rw [this]
    simp only
    rw [if_neg (by omega), if_neg (by omega)]
  · refine (C62_stats_interval hm _).1 i.statsInterval ?_ ?_
    · obtain ⟨_, _, _, si⟩ := i
      change Int at si
      change (1000000000 : Int) ≤ si ∧ si ≤ 60000000000 at h2
      change -(9223372036854775808 : Int) ≤ si ∧ si < (9223372036854775808 : Int)
      omega
    · unfold firstValue
      rw [r2 "stats" (by decide), vals_parseQuery_encode, hvals, if_pos ⟨hspos, rfl⟩]
      exact text_bytesOf _

/-- **C72** is violated for a send buffer of 0: the client does not send it, and the server uses its
default of 100. -/
theorem C72_zero_buffer_violated :
    ∃ (c : StreamClient) (f : Filter) (raw : Bytes), NoFilter raw ∧ c.initialize = c ∧ c.sendBuffer = 0 ∧
      sendbufOfURL (c.stream f raw) = 100 :=
  ⟨{ uri := "http://x".toList, sendBuffer := 0, retryInterval := 3000000000, statsInterval := 10000000000 }, {}, [],
    by unfold NoFilter; decide +kernel, by decide +kernel, rfl, by decide +kernel⟩

example : text (StreamClient.stream { uri := "x".toList, sendBuffer := 7 } { category := "a b" } (bytesOf "k=v"))
    = "category=a+b&k=v&sendbuf=7&stats=10s" := by decide +kernel

end Trc.Web
