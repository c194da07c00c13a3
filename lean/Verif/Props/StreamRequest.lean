import Verif.Web.StreamRequest
import Verif.Props.Client

/-!
# C141: a request for a stream is served what it asks for, or refused
-/

namespace Trc.Web

variable (compile : Compile) {mulFrac : Nat → Nat → Nat → Nat} (size : JSON → Nat)

/-- The stream is one of the traces that satisfy `f`, and of finished traces only if `f` says so. -/
def Serves (f : Filter) (a : StreamAnswer) : Prop :=
  ∃ f' i n, a = .streams f' i n ∧ f'.Fresh compile ∧ f'.isFinished = f.isFinished ∧
    ∀ tr, f'.Sat compile tr ↔ f.Sat compile tr

/-- The query is empty or a valid expression. -/
def ValidQuery (f : Filter) : Prop := f.query = "" ∨ ∃ re, compile f.query = .ok re

theorem sat_wire (f : Filter) (tr : Static) : ({ f with regexp := none } : Filter).Sat compile tr ↔ f.Sat compile tr := Iff.rfl

theorem start_valid (r : StreamHTTP) (g : Filter) (b : Bool) (hr : readFilter mulFrac size r = (g, b)) (hg : g.regexp = none)
    (hv : ValidQuery compile g) : Serves compile g (startStream compile mulFrac size r) := by
  have h1 := C33_valid_query compile g hg hv
  have hfresh : g.Fresh compile := by intro re h; rw [hg] at h; cases h
  have h2 := normalize_fresh compile g hfresh
  unfold startStream
  rw [hr]
  generalize g.normalize compile = x at h1 h2 ⊢
  obtain ⟨f', ps⟩ := x
  obtain ⟨a, b, _⟩ := h1
  simp only at a b h2 ⊢
  subst a
  exact ⟨f', _, _, rfl, h2.1, by rw [b], h2.2.2⟩

theorem start_invalid (r : StreamHTTP) (g : Filter) (b : Bool) (hr : readFilter mulFrac size r = (g, b)) (hg : g.regexp = none)
    (hq : g.query ≠ "") (e : String) (hc : compile g.query = .error e) :
    startStream compile mulFrac size r = .refused 400 ("bad request: query: invalid, ignoring (" ++ e ++ ")") := by
  have : g.normalize compile = ({ g with query := "" }, ["query: " ++ ("invalid, ignoring (" ++ e ++ ")")]) := by
    simp [Filter.normalize, Filter.initializeQueryRegexp, hg, hq, hc]
  unfold startStream
  rw [hr]
  simp only [this, badRequest, String.intercalate_singleton]
  rw [show ("bad request: query: invalid, ignoring (" : String) = "bad request: " ++ ("query: " ++ "invalid, ignoring (") from rfl]
  simp only [String.append_assoc]

/-- **C141** The client's request, which has the filter in the URL, is served the traces that satisfy the filter. -/
theorem C141_client (hm : ExactMul mulFrac) (c : StreamClient) (f : Filter) (raw : Bytes) (hraw : NoFilter raw)
    (hd : ∀ d, f.minDuration = some d → Is64 d) (body : Option JSON) (hv : ValidQuery compile f) :
    Serves compile f (startStream compile mulFrac size ⟨c.stream f raw, false, body⟩) := by
  have h := (C72_server_partial hm c f raw hraw hd).2.2
  exact start_valid compile size _ { f with regexp := none } true (by simp [readFilter, h]) rfl hv

/-- **C141** A body that is the JSON of a filter is served the traces that satisfy the filter.  Full statement: whatever the size
of the JSON, see `C141_json_exact`. -/
theorem C141_json_partial (f : Filter) (raw : Bytes) (hs : size (encFilter f) ≤ 1048576) (hv : ValidQuery compile f) :
    Serves compile f (startStream compile mulFrac size ⟨raw, true, some (encFilter f)⟩) := by
  refine start_valid compile size _ { f with regexp := none } true ?_ rfl hv
  have : ¬ size (encFilter f) > maxRequestBodySizeBytes := by unfold maxRequestBodySizeBytes; omega
  simp only [readFilter, if_true, if_neg this, filter_rt]
  rfl

/-- **C141** If the query is no valid expression, the request is refused, and the response tells why. -/
theorem C141_refused (hm : ExactMul mulFrac) (c : StreamClient) (f : Filter) (raw : Bytes) (hraw : NoFilter raw)
    (hd : ∀ d, f.minDuration = some d → Is64 d) (body : Option JSON) (hq : f.query ≠ "") (e : String)
    (hc : compile f.query = .error e) :
    startStream compile mulFrac size ⟨c.stream f raw, false, body⟩ =
      .refused 400 ("bad request: query: invalid, ignoring (" ++ e ++ ")") ∧
    (size (encFilter f) ≤ 1048576 → ∀ raw, startStream compile mulFrac size ⟨raw, true, some (encFilter f)⟩ =
      .refused 400 ("bad request: query: invalid, ignoring (" ++ e ++ ")")) := by
  constructor
  · have h := (C72_server_partial hm c f raw hraw hd).2.2
    exact start_invalid compile size _ { f with regexp := none } true (by simp [readFilter, h]) rfl hq e hc
  · intro hs raw
    refine start_invalid compile size _ { f with regexp := none } true ?_ rfl hq e hc
    have : ¬ size (encFilter f) > maxRequestBodySizeBytes := by unfold maxRequestBodySizeBytes; omega
    simp only [readFilter, if_true, if_neg this, filter_rt]
    rfl

theorem sat_default (tr : Static) : ({} : Filter).Sat compile tr := by
  unfold Filter.Sat Filter.Basic
  simp

theorem serves_everything (r : StreamHTTP) (b : Bool) (hr : readFilter mulFrac size r = ({}, b)) :
    ∃ f' i n, startStream compile mulFrac size r = .streams f' i n ∧ ∀ tr, (f'.allow compile tr).1 = true := by
  obtain ⟨f', i, n, h1, h2, _, h4⟩ := start_valid compile size r {} b hr rfl (Or.inl rfl)
  exact ⟨f', i, n, h1, fun tr => (C31_allow_iff compile f' h2 tr).2 ((h4 tr).2 (sat_default compile tr))⟩

/-- **C141** is violated for every body that cannot be read, because it is no JSON or too large: it is not refused, the
stream has all traces. -/
theorem C141_unreadable_always_violated (raw : Bytes) (body : Option JSON) (hb : ∀ v, body = some v → 1048576 < size v) :
    ∃ f' i n, startStream compile mulFrac size ⟨raw, true, body⟩ = .streams f' i n ∧ ∀ tr, (f'.allow compile tr).1 = true := by
  refine serves_everything compile size _ false ?_
  cases body with
  | none => rfl
  | some v =>
    have : size v > maxRequestBodySizeBytes := by have := hb v rfl; unfold maxRequestBodySizeBytes; omega
    simp [readFilter, this]

/-- **C141** The JSON of a valid filter is served what it asks for exactly if it is not larger than 1 MiB, or asks for everything
anyway. -/
theorem C141_json_exact (f : Filter) (raw : Bytes) (hv : ValidQuery compile f) :
    Serves compile f (startStream compile mulFrac size ⟨raw, true, some (encFilter f)⟩) ↔
      (size (encFilter f) ≤ 1048576 ∨ (f.isFinished = false ∧ ∀ tr, f.Sat compile tr)) := by
  by_cases hs : size (encFilter f) ≤ 1048576
  · exact ⟨fun _ => Or.inl hs, fun _ => C141_json_partial compile size f raw hs hv⟩
  · have hr : readFilter mulFrac size ⟨raw, true, some (encFilter f)⟩ = ({}, false) := by
      have : size (encFilter f) > maxRequestBodySizeBytes := by unfold maxRequestBodySizeBytes; omega
      simp [readFilter, this]
    obtain ⟨f', i, n, h1, h2, h3, h4⟩ := start_valid compile size _ {} false hr rfl (Or.inl rfl)
    constructor
    · rintro ⟨g, j, m, e1, _, e3, e4⟩
      rw [h1] at e1
      obtain ⟨rfl, _, _⟩ := StreamAnswer.streams.inj e1
      exact Or.inr ⟨by rw [← e3, h3], fun tr => (e4 tr).1 ((h4 tr).2 (sat_default compile tr))⟩
    · rintro (h | ⟨h, h'⟩)
      · exact absurd h hs
      · exact ⟨f', i, n, h1, h2, by rw [h3, h], fun tr => ⟨fun _ => h' tr, fun _ => (h4 tr).2 (sat_default compile tr)⟩⟩

/-- **C141** is violated for JSON with a value of another type: the condition is dropped.  Whatever the value of the category that is
no string, a stream for `{"category": v}` has all traces. -/
theorem C141_mistyped_always_violated (raw : Bytes) (v : JSON) (hv : ∀ s, v ≠ .str s) :
    ∃ f' i n, startStream compile mulFrac size ⟨raw, true, some (.obj [("category", v)])⟩ = .streams f' i n ∧
      ∀ tr, (f'.allow compile tr).1 = true := by
  have hl : leftFilter (.obj [("category", v)]) = {} := by
    cases v <;> first | rfl | exact absurd rfl (hv _)
  have hd : decFilter (.obj [("category", v)]) = none ∨ decFilter (.obj [("category", v)]) = some {} := by
    cases v <;> first | exact Or.inl rfl | exact Or.inr rfl | exact absurd rfl (hv _)
  have hr : (readFilter mulFrac size ⟨raw, true, some (.obj [("category", v)])⟩).1 = {} := by
    simp only [readFilter, if_true]
    split
    · rfl
    · rcases hd with h | h <;> rw [h]
      exact hl
  exact serves_everything compile size _ _ (Prod.ext hr rfl)

theorem normalize_same (f f' : Filter) (h : f.normalize compile = (f', [])) : f' = { f with regexp := f'.regexp } := by
  unfold Filter.normalize Filter.initializeQueryRegexp at h
  cases hre : f.regexp with
  | some re =>
    simp only [hre, Option.isSome_some, if_true, Prod.mk.injEq] at h
    rw [← h.1]
  | none =>
    by_cases hq : f.query = ""
    · simp only [hre, hq, Option.isSome_none, Bool.false_eq_true, if_false, if_true, Prod.mk.injEq] at h
      rw [← h.1]
    · cases hc : compile f.query with
      | error e => simp [hre, hq, hc] at h
      | ok re =>
        simp [hre, hq, hc] at h
        rw [← h]

theorem keepStrs_strs (l : List String) : keepStrs (.arr (l.map .str)) = some l := by
  simp only [keepStrs, List.map_map, Option.some.injEq]
  exact (List.map_congr_left (fun _ _ => rfl)).trans (List.map_id l)

/-- **C141** Of mistyped JSON, the conditions that are well typed are kept, and a minimum that is no number is one of 0. -/
theorem C141_mistyped_kept (raw : Bytes) (o : Fields) (hs : size (.obj o) ≤ 1048576) (hdec : decFilter (.obj o) = none)
    (f' : Filter) (i : Duration) (n : Int)
    (h : startStream compile mulFrac size ⟨raw, true, some (.obj o)⟩ = .streams f' i n) :
    (∀ l : List String, lookup "sources" o = some (.arr (l.map .str)) → f'.sources = l) ∧
    (∀ l : List String, lookup "ids" o = some (.arr (l.map .str)) → f'.ids = l) ∧
    (∀ s, lookup "category" o = some (.str s) → f'.category = s) ∧
    (∀ b, lookup "is_active" o = some (.bool b) → f'.isActive = b) ∧
    (∀ b, lookup "is_finished" o = some (.bool b) → f'.isFinished = b) ∧
    (∀ d, lookup "min_duration" o = some (.num d) → f'.minDuration = some d) ∧
    (∀ s, lookup "min_duration" o = some (.str s) → f'.minDuration = some 0) ∧
    (∀ b, lookup "is_success" o = some (.bool b) → f'.isSuccess = b) ∧
    (∀ b, lookup "is_errored" o = some (.bool b) → f'.isErrored = b) ∧
    (∀ s, lookup "query" o = some (.str s) → f'.query = s) := by
  have hns : ¬ size (.obj o) > maxRequestBodySizeBytes := by unfold maxRequestBodySizeBytes; omega
  have hr : readFilter mulFrac size ⟨raw, true, some (.obj o)⟩ = (leftFilter (.obj o), false) := by
    simp only [readFilter, if_true, if_neg hns, hdec]
  unfold startStream at h
  rw [hr] at h
  obtain ⟨g, hg⟩ : ∃ g, g = leftFilter (.obj o) := ⟨_, rfl⟩
  rw [← hg] at h
  have hsame : f' = { g with regexp := f'.regexp } := by
    cases hn : g.normalize compile with
    | mk g' ps =>
      rw [hn] at h
      cases ps with
      | cons p ps => cases h
      | nil =>
        obtain ⟨rfl, _, _⟩ := StreamAnswer.streams.inj h
        exact normalize_same compile g g' hn
  rw [hsame, hg]
  refine ⟨fun l hl => ?_, fun l hl => ?_, fun s hl => ?_, fun s hl => ?_, fun s hl => ?_, fun s hl => ?_, fun s hl => ?_, fun s hl => ?_,
    fun s hl => ?_, fun s hl => ?_⟩ <;> simp only [leftFilter, keep, get, hl, keepStrs_strs, decStr, decBool, decInt, Option.getD_some,
      Option.getD_none]

/-- **C141** is violated for a URL whose `min` is no duration: the condition is dropped, so that a stream with no other
conditions has all traces. -/
theorem C141_minimum_always_violated (raw : Bytes) (_hset : firstValue "min" raw ≠ "")
    (hmin : parseDuration mulFrac (firstValue "min" raw).toList = none)
    (hraw : ∀ k ∈ filterKeys, k ≠ "min" → vals (bytesOf k) (parseQuery raw) = []) (body : Option JSON) :
    ∃ f' i n, startStream compile mulFrac size ⟨raw, false, body⟩ = .streams f' i n ∧ ∀ tr, (f'.allow compile tr).1 = true := by
  refine serves_everything compile size _ true ?_
  have hp : parseFilter mulFrac raw = {} := by
    have h1 := hraw "source" (by decide) (by decide)
    have h2 := hraw "id" (by decide) (by decide)
    have h3 := hraw "category" (by decide) (by decide)
    have h4 := hraw "active" (by decide) (by decide)
    have h5 := hraw "finished" (by decide) (by decide)
    have h6 := hraw "success" (by decide) (by decide)
    have h7 := hraw "errored" (by decide) (by decide)
    have h8 := hraw "q" (by decide) (by decide)
    have hd : parseDurationPointer mulFrac ((parseQuery raw).get keyMin) = none := by
      unfold parseDurationPointer parseDurationBytes
      rw [show keyMin = bytesOf "min" from rfl, get_text, hmin]
    have ht : text [] = "" := text_bytesOf ""
    unfold Values.get at hd
    unfold parseFilter
    simp only [parseDefault, hd, Values.get, Values.has, keySource, keyID, keyCategory, keyActive, keyFinished, keySuccess, keyErrored,
      keyQuery, h1, h2, h3, h4, h5, h6, h7, h8, List.head?_nil, Option.getD_none, ht]
    rfl
  simp [readFilter, hp]

/-- A minimum without a unit. -/
example : firstValue "min" (bytesOf "min=5") = "5" ∧ parseDuration (fun _ _ _ => 0) (firstValue "min" (bytesOf "min=5")).toList = none ∧
    ∀ k ∈ filterKeys, k ≠ "min" → vals (bytesOf k) (parseQuery (bytesOf "min=5")) = [] := by decide +kernel

/-- A filter that is served over the URL and as JSON, and refused for its query. -/
example : ValidQuery (fun _ => .ok fun _ => true) { category := "a", query := "b" } ∧ NoFilter (bytesOf "k=v") ∧
    ¬ Filter.Sat (fun _ => .ok fun _ => true) { category := "a", query := "b" } default := by
  refine ⟨Or.inr ⟨_, rfl⟩, by unfold NoFilter; decide +kernel, fun h => ?_⟩
  have := h.1.2.2.1
  revert this
  decide

/-- Mistyped JSON. -/
example : decFilter (.obj [("category", .num 5), ("is_errored", .bool true)]) = none := rfl

/-- Mistyped JSON leaves the conditions that are well typed. -/
example : (leftFilter (.obj [("category", .num 5), ("is_errored", .bool true), ("ids", .arr [.str "x", .num 1])])).isErrored = true ∧
    (leftFilter (.obj [("category", .num 5), ("ids", .arr [.str "x", .num 1])])).ids = ["x", ""] ∧
    (leftFilter (.obj [("min_duration", .str "5s")])).minDuration = some 0 := ⟨rfl, rfl, rfl⟩

end Trc.Web
