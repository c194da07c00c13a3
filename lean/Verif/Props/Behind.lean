import Verif.Web.Behind

/-!
# C113: a client gets the same answer from a handler behind the middleware

A handler that is cut short after any number of calls is a handler too, so the theorems are also about what the client
of a handler that goes on forever, such as one that streams, has got at any time.
-/

set_option linter.unusedVariables false
set_option linter.unusedSimpArgs false

namespace Trc.Web.Behind

variable {σ L : Type}

/-! ## Statement -/

/-- What the client can tell: what the writer was made to do, and how the handler ended (net/http closes the
connection if it panicked). -/
def Done.seen (d : Done σ L) : σ × End := (d.state, d.how)

/-- The answer to a question without the middleware. -/
def bareAnswer (w : Writer σ) (traced : Bool) : Question → Bool
  | .flusher => w.flush.isSome
  | .other m => (w.other m).isSome
  | .trace => traced

/-- The answer behind the middleware. -/
def behindAnswer (w : Writer σ) : Question → Bool
  | .flusher => true
  | .other m => m = "Code" || m = "Written"
  | .trace => true

/-- Questions that the middleware does not change the answer to. The methods `Code` and `Written` are its own. -/
def Unchanged (w : Writer σ) (traced : Bool) (q : Question) : Prop :=
  bareAnswer w traced q = behindAnswer w q ∧ q ≠ .other "Code" ∧ q ≠ .other "Written"

/-- The status codes that a handler passes to the writer, in order, without the middleware. -/
def codes (w : Writer σ) (traced : Bool) : Handler L → σ → List Int
  | .returns, _ => []
  | .panics _, _ => []
  | .header f k, s => codes w traced (k (w.header s f).2) (w.header s f).1
  | .writeHeader c k, s => c :: codes w traced (k (w.writeHeader s c).2) (w.writeHeader s c).1
  | .write p k, s => codes w traced (k (w.write s p).2) (w.write s p).1
  | .flush k, s =>
    match w.flush with
    | none => codes w traced (k none) s
    | some m => codes w traced (k (some (m s).2)) (m s).1
  | .other name a k, s =>
    match w.other name with
    | none => codes w traced (k none) s
    | some m => codes w traced (k (some (m s a).2)) (m s a).1
  | .log _ k, s => codes w traced k s
  | .hasTrace k, s => codes w traced (k traced) s

/-- The number of bytes that the writer says it took in all, without the middleware. -/
def taken (w : Writer σ) (traced : Bool) : Handler L → σ → Nat
  | .returns, _ => 0
  | .panics _, _ => 0
  | .header f k, s => taken w traced (k (w.header s f).2) (w.header s f).1
  | .writeHeader c k, s => taken w traced (k (w.writeHeader s c).2) (w.writeHeader s c).1
  | .write p k, s =>
    (match (w.write s p).2 with | .ok (n, _) => n | .error _ => 0) +
      taken w traced (k (w.write s p).2) (w.write s p).1
  | .flush k, s =>
    match w.flush with
    | none => taken w traced (k none) s
    | some m => taken w traced (k (some (m s).2)) (m s).1
  | .other name a k, s =>
    match w.other name with
    | none => taken w traced (k none) s
    | some m => taken w traced (k (some (m s a).2)) (m s a).1
  | .log _ k, s => taken w traced k s
  | .hasTrace k, s => taken w traced (k traced) s

/-- The code that counts is the first one that is one, and 200 if there is none. -/
def effective (cs : List Int) : Int := (cs.find? (· ≠ 0)).getD 200

/-! ## Proofs -/

/-- What the interceptor has noted, given what it had noted before. -/
def Noted (i j : IState σ) (cs : List Int) (n : Nat) : Prop :=
  j.getCode = (if i.code = 0 then effective cs else i.code) ∧ j.n = i.n + n

theorem Noted.nil (i : IState σ) : Noted i i [] 0 := by
  constructor
  · simp only [IState.getCode, effective, List.find?_nil, Option.getD_none]
  · simp

theorem Noted.of_eq {i i' j : IState σ} {cs : List Int} {n : Nat} (h : Noted i' j cs n) (hc : i'.code = i.code)
    (hn : i'.n = i.n) : Noted i j cs n := by
  unfold Noted at *
  rw [hc, hn] at h
  exact h

theorem Noted.code {w : Writer σ} {i j : IState σ} {c : Int} {cs : List Int} {n : Nat}
    (h : Noted (IState.writeHeader w i c).1 j cs n) : Noted i j (c :: cs) n := by
  unfold Noted at *
  obtain ⟨h1, h2⟩ := h
  by_cases hi : i.code = 0
  · simp only [IState.writeHeader, hi, if_true] at h1 h2
    refine ⟨?_, h2⟩
    rw [h1, if_pos hi]
    by_cases hc : c = 0 <;> simp [effective, hc]
  · simp only [IState.writeHeader, hi, if_false] at h1 h2
    exact ⟨by rw [h1, if_neg hi], h2⟩

theorem Noted.bytes {w : Writer σ} {i j : IState σ} {p : List UInt8} {cs : List Int} {n : Nat}
    (h : Noted (IState.write w i p).1 j cs n) :
    Noted i j cs ((match (w.write i.inner p).2 with | .ok (n, _) => n | .error _ => 0) + n) := by
  unfold Noted at *
  obtain ⟨h1, h2⟩ := h
  cases hw : (w.write i.inner p).2 with
  | error v =>
    simp only [IState.write, hw] at h1 h2
    exact ⟨h1, by simpa using h2⟩
  | ok r =>
    obtain ⟨m, err⟩ := r
    simp only [IState.write, hw] at h1 h2
    refine ⟨h1, ?_⟩
    rw [h2]
    push_cast
    omega

theorem same_run (w : Writer σ) (traced : Bool) (h : Handler L) (s : σ) (i : IState σ) (hi : i.inner = s)
    (hq : ∀ q ∈ (run w traced h s).asked, Unchanged w traced q) :
    (run (intercept w) true h i).state.inner = (run w traced h s).state ∧
    (run (intercept w) true h i).how = (run w traced h s).how ∧
    (run (intercept w) true h i).logged = (run w traced h s).logged ∧
    (run (intercept w) true h i).asked = (run w traced h s).asked ∧
    Noted i (run (intercept w) true h i).state (codes w traced h s) (taken w traced h s) := by
  induction h generalizing s i with
  | returns => subst hi; exact ⟨rfl, rfl, rfl, rfl, .nil i⟩
  | panics v => subst hi; exact ⟨rfl, rfl, rfl, rfl, .nil i⟩
  | header f k ih =>
    subst hi
    simp only [run, codes, taken] at hq ⊢
    obtain ⟨a, b, c, d, e⟩ := ih _ _ { i with inner := (w.header i.inner f).1 } rfl hq
    exact ⟨a, b, c, d, e.of_eq rfl rfl⟩
  | writeHeader c k ih =>
    subst hi
    simp only [run, codes, taken] at hq ⊢
    have e1 : ((intercept w).writeHeader i c).2 = (w.writeHeader i.inner c).2 := by
      simp only [intercept, IState.writeHeader]; split <;> rfl
    have e2 : ((intercept w).writeHeader i c).1.inner = (w.writeHeader i.inner c).1 := by
      simp only [intercept, IState.writeHeader]; split <;> rfl
    rw [e1]
    obtain ⟨a, b, c', d, e⟩ := ih _ _ _ e2 hq
    exact ⟨a, b, c', d, e.code⟩
  | write p k ih =>
    subst hi
    simp only [run, codes, taken] at hq ⊢
    have e1 : ((intercept w).write i p).2 = (w.write i.inner p).2 := by
      simp only [intercept, IState.write]; split <;> simp_all
    have e2 : ((intercept w).write i p).1.inner = (w.write i.inner p).1 := by
      simp only [intercept, IState.write]; split <;> rfl
    rw [e1]
    obtain ⟨a, b, c, d, e⟩ := ih _ _ _ e2 hq
    exact ⟨a, b, c, d, e.bytes⟩
  | flush k ih =>
    subst hi
    simp only [run, codes, taken] at hq ⊢
    have hf : w.flush.isSome = true := by
      have := (hq .flusher (by simp)).1
      simpa [bareAnswer, behindAnswer] using this
    cases hw : w.flush with
    | none => rw [hw] at hf; cases hf
    | some m =>
      rw [hw] at hq
      simp only [intercept, IState.flush, hw] at hq ⊢
      obtain ⟨a, b, c, d, e⟩ := ih (some (m i.inner).2) (m i.inner).1 { i with inner := (m i.inner).1 } rfl
        (fun q hq' => hq q (List.mem_cons_of_mem _ hq'))
      simp only [intercept, IState.flush, hw] at a b c d e
      exact ⟨a, b, c, by rw [d], e.of_eq rfl rfl⟩
  | other name a k ih =>
    subst hi
    simp only [run, codes, taken] at hq ⊢
    obtain ⟨h1, h2, h3⟩ := hq (.other name) (by simp)
    have h2 : name ≠ "Code" := fun e => h2 (by rw [e])
    have h3 : name ≠ "Written" := fun e => h3 (by rw [e])
    have hw : w.other name = none := by
      simpa [bareAnswer, behindAnswer, h2, h3] using h1
    have hw' : (intercept w).other name = none := by simp [intercept, h2, h3]
    rw [hw] at hq ⊢
    rw [hw']
    obtain ⟨a, b, c, d, e⟩ := ih none i.inner i rfl (fun q hq' => hq q (List.mem_cons_of_mem _ hq'))
    exact ⟨a, b, c, by simp only [d], e⟩
  | log l k ih =>
    simp only [run] at hq ⊢
    obtain ⟨a, b, c, d, e⟩ := ih s i hi hq
    exact ⟨a, b, by rw [c], d, e⟩
  | hasTrace k ih =>
    simp only [run] at hq ⊢
    have ht : traced = true := by
      have := (hq .trace (by simp)).1
      simpa [bareAnswer, behindAnswer] using this
    subst ht
    obtain ⟨a, b, c, d, e⟩ := ih true s i hi (fun q hq' => hq q (List.mem_cons_of_mem _ hq'))
    exact ⟨a, b, c, by rw [d], e⟩

/-- **C113**, the part that holds. For every response writer and every handler: if the handler, as it runs without the
middleware, asks only what the middleware does not change the answer to, then its client gets the same answer from
it behind the middleware; it makes the same calls, and the panics, if any, are the same. What it logs is then in the
trace, between what the middleware logs, and the last thing logged is about the status code that the handler passed
first and the number of bytes that the writer took. -/
theorem C113_same_answer_partial (w : Writer σ) (traced : Bool) (before : List L) (outcome : Int → Int → L)
    (h : Handler L) (s : σ) (hq : ∀ q ∈ (run w traced h s).asked, Unchanged w traced q) :
    (middleware w (.ok ()) before outcome h s).seen = (run w traced h s).seen ∧
    (middleware w (.ok ()) before outcome h s).logged =
      before ++ (run w traced h s).logged ++ [outcome (effective (codes w traced h s)) (taken w traced h s)] := by
  obtain ⟨a, b, c, d, e1, e2⟩ := same_run w traced h s { inner := s, code := 0, n := 0 } rfl hq
  refine ⟨?_, ?_⟩
  · simp only [middleware, Done.seen, a, b]
  · simp only [middleware, c, e1, e2, if_true, Int.zero_add]

/-- In particular a handler that only writes, flushes and logs is the same behind the middleware, if the writer is a
flusher, as that of net/http is. -/
def OnlyFlushes : Handler L → Prop
  | .returns => True
  | .panics _ => True
  | .header _ k => ∀ x, OnlyFlushes (k x)
  | .writeHeader _ k => ∀ x, OnlyFlushes (k x)
  | .write _ k => ∀ x, OnlyFlushes (k x)
  | .flush k => ∀ x, OnlyFlushes (k x)
  | .other _ _ _ => False
  | .log _ k => OnlyFlushes k
  | .hasTrace _ => False

theorem C113_plain_handler (w : Writer σ) (hw : w.flush.isSome = true) (traced : Bool) (before : List L)
    (outcome : Int → Int → L) (h : Handler L) (hh : OnlyFlushes h) (s : σ) :
    (middleware w (.ok ()) before outcome h s).seen = (run w traced h s).seen := by
  refine (C113_same_answer_partial w traced before outcome h s ?_).1
  have key : ∀ q ∈ (run w traced h s).asked, q = .flusher := by
    induction h generalizing s with
    | returns => simp [run]
    | panics v => simp [run]
    | header f k ih => exact ih _ (hh _) _
    | writeHeader c k ih => exact ih _ (hh _) _
    | write p k ih => exact ih _ (hh _) _
    | flush k ih =>
      simp only [run]
      cases hf : w.flush with
      | none => rw [hf] at hw; cases hw
      | some m =>
        intro q hq
        rcases List.mem_cons.mp hq with rfl | hq
        · rfl
        · exact ih _ (hh _) _ q hq
    | other name a k ih => exact hh.elim
    | log l k ih => exact ih hh _
    | hasTrace k ih => exact hh.elim
  intro q hq
  rw [key q hq]
  exact ⟨by simp [bareAnswer, behindAnswer, hw], by simp, by simp⟩

/-- A handler that flushes if it can, and goes on in the same way if it cannot. -/
def FlushesIfItCan : Handler L → Prop
  | .returns => True
  | .panics _ => True
  | .header _ k => ∀ x, FlushesIfItCan (k x)
  | .writeHeader _ k => ∀ x, FlushesIfItCan (k x)
  | .write _ k => ∀ x, FlushesIfItCan (k x)
  | .flush k => k none = k (some (.ok ())) ∧ ∀ x, FlushesIfItCan (k x)
  | .other _ _ _ => False
  | .log _ k => FlushesIfItCan k
  | .hasTrace _ => False

/-- Such a handler is the same behind the middleware also if the writer cannot flush: then `Flush` of the interceptor
does nothing. -/
theorem C113_optional_flush (w : Writer σ) (traced : Bool) (before : List L) (outcome : Int → Int → L) (h : Handler L)
    (hh : FlushesIfItCan h) (s : σ) :
    (middleware w (.ok ()) before outcome h s).seen = (run w traced h s).seen ∧
    (middleware w (.ok ()) before outcome h s).logged =
      before ++ (run w traced h s).logged ++ [outcome (effective (codes w traced h s)) (taken w traced h s)] := by
  have key : ∀ (h : Handler L) (s : σ) (i : IState σ), FlushesIfItCan h → i.inner = s →
      (run (intercept w) true h i).state.inner = (run w traced h s).state ∧
      (run (intercept w) true h i).how = (run w traced h s).how ∧
      (run (intercept w) true h i).logged = (run w traced h s).logged ∧
      Noted i (run (intercept w) true h i).state (codes w traced h s) (taken w traced h s) := by
    intro h
    induction h with
    | returns => intro s i _ hi; subst hi; exact ⟨rfl, rfl, rfl, .nil i⟩
    | panics v => intro s i _ hi; subst hi; exact ⟨rfl, rfl, rfl, .nil i⟩
    | header f k ih =>
      intro s i hh hi
      subst hi
      obtain ⟨a, b, c, e⟩ := ih (w.header i.inner f).2 (w.header i.inner f).1
        { i with inner := (w.header i.inner f).1 } (hh _) rfl
      exact ⟨a, b, c, e.of_eq rfl rfl⟩
    | writeHeader c k ih =>
      intro s i hh hi
      subst hi
      simp only [run, codes, taken]
      have e1 : ((intercept w).writeHeader i c).2 = (w.writeHeader i.inner c).2 := by
        simp only [intercept, IState.writeHeader]; split <;> rfl
      have e2 : ((intercept w).writeHeader i c).1.inner = (w.writeHeader i.inner c).1 := by
        simp only [intercept, IState.writeHeader]; split <;> rfl
      rw [e1]
      obtain ⟨a, b, c', e⟩ := ih _ _ _ (hh _) e2
      exact ⟨a, b, c', e.code⟩
    | write p k ih =>
      intro s i hh hi
      subst hi
      simp only [run, codes, taken]
      have e1 : ((intercept w).write i p).2 = (w.write i.inner p).2 := by
        simp only [intercept, IState.write]; split <;> simp_all
      have e2 : ((intercept w).write i p).1.inner = (w.write i.inner p).1 := by
        simp only [intercept, IState.write]; split <;> rfl
      rw [e1]
      obtain ⟨a, b, c, e⟩ := ih _ _ _ (hh _) e2
      exact ⟨a, b, c, e.bytes⟩
    | flush k ih =>
      intro s i hh hi
      subst hi
      simp only [run, codes, taken]
      cases hw : w.flush with
      | none =>
        have := ih (some (.ok ())) i.inner i (hh.2 _) rfl
        simp only [intercept, IState.flush, hw] at this ⊢
        rw [hh.1]
        exact this
      | some m =>
        have := ih (some (m i.inner).2) (m i.inner).1 { i with inner := (m i.inner).1 } (hh.2 _) rfl
        simp only [intercept, IState.flush, hw] at this ⊢
        exact ⟨this.1, this.2.1, this.2.2.1, this.2.2.2.of_eq rfl rfl⟩
    | other name a k ih => intro s i hh; exact hh.elim
    | log l k ih =>
      intro s i hh hi
      simp only [run, codes, taken]
      obtain ⟨a, b, c, e⟩ := ih s i hh hi
      exact ⟨a, b, by rw [c], e⟩
    | hasTrace k ih => intro s i hh; exact hh.elim
  obtain ⟨a, b, c, e1, e2⟩ := key h s { inner := s, code := 0, n := 0 } hh rfl
  refine ⟨?_, ?_⟩
  · simp only [middleware, Done.seen, a, b]
  · simp only [middleware, c, e1, e2, if_true, Int.zero_add]

/-- The handler that answers 200 if the answer to the question is yes, and 500 otherwise. -/
def tells (q : Question) : Handler L :=
  let answer (b : Bool) : Handler L := .writeHeader (if b then 200 else 500) fun _ => .returns
  match q with
  | .flusher => .flush fun r => answer r.isSome
  | .other m => .other m "" fun r => answer r.isSome
  | .trace => .hasTrace answer

/-- A client of the writer can tell 200 from 500. -/
structure Honest (w : Writer σ) (s : σ) : Prop where
  other : ∀ n m, w.other n = some m → (w.writeHeader (m s "").1 200).1 ≠ (w.writeHeader s 500).1
  plain : (w.writeHeader s 200).1 ≠ (w.writeHeader s 500).1

/-- The boundary: for each question to which the middleware changes the answer there is a handler that asks just
that, and whose client gets a different answer behind the middleware. -/
theorem C113_exact (w : Writer σ) (s : σ) (hw : Honest w s) (traced : Bool) (before : List L)
    (outcome : Int → Int → L) (q : Question) (hc : q ≠ .other "Code") (hn : q ≠ .other "Written") :
    (middleware w (.ok ()) before outcome (tells q) s).seen = (run w traced (tells q : Handler L) s).seen ↔
      bareAnswer w traced q = behindAnswer w q := by
  constructor
  · intro h
    cases q with
    | flusher =>
      cases hf : w.flush with
      | some m => simp [bareAnswer, behindAnswer, hf]
      | none =>
        exfalso
        simp only [middleware, tells, run, Done.seen, intercept, IState.flush, hf, IState.writeHeader,
          Option.isSome_some, Option.isSome_none, if_true, Bool.false_eq_true, if_false] at h
        exact hw.plain (Prod.mk.inj h).1
    | other n =>
      have hc : n ≠ "Code" := fun e => hc (by rw [e])
      have hn : n ≠ "Written" := fun e => hn (by rw [e])
      cases hf : w.other n with
      | none => simp [bareAnswer, behindAnswer, hf, hc, hn]
      | some m =>
        exfalso
        simp only [middleware, tells, run, Done.seen, intercept, hf, hc, hn, IState.writeHeader,
          Option.isSome_some, Option.isSome_none, if_true, Bool.false_eq_true, if_false] at h
        exact hw.other n m hf (Prod.mk.inj h).1.symm
    | trace =>
      cases traced with
      | true => simp [bareAnswer, behindAnswer]
      | false =>
        exfalso
        simp only [middleware, tells, run, Done.seen, intercept, IState.writeHeader,
          if_true, Bool.false_eq_true, if_false] at h
        exact hw.plain (Prod.mk.inj h).1
  · intro h
    refine (C113_same_answer_partial w traced before outcome (tells q) s ?_).1
    intro q' hq'
    have : q' = q := by
      cases q with
      | flusher =>
        simp only [tells, run] at hq'
        cases hf : w.flush <;> simpa [hf, run] using hq'
      | other n =>
        simp only [tells, run] at hq'
        cases hf : w.other n <;> simpa [hf, run] using hq'
      | trace => simpa [tells, run] using hq'
    rw [this]
    exact ⟨h, hc, hn⟩

theorem netHTTP_honest : Honest netHTTP {} where
  other n m h := by
    simp only [netHTTP] at h
    split at h
    · simp only [Option.some.injEq] at h
      subst h
      intro h
      have := congrArg (fun s => s.resp.status) h
      revert this
      decide
    · split at h
      · simp only [Option.some.injEq] at h
        subst h
        intro h
        have := congrArg (fun s => s.resp.status) h
        revert this
        decide
      · cases h
  plain := by
    intro h
    have := congrArg (fun s => s.resp.status) h
    revert this
    decide

/-- **C113** does not hold: behind the middleware, a handler that takes over connections, as those for websockets do,
finds that it cannot, and answers 500. -/
theorem C113_hijack_violated :
    ∃ h : Handler Unit, ∀ before outcome,
      (run netHTTP false h {}).state.hijacked = true ∧ (run netHTTP false h {}).state.resp.wroteHeader = false ∧
      (middleware netHTTP (.ok ()) before outcome h {}).state.hijacked = false ∧
      (middleware netHTTP (.ok ()) before outcome h {}).state.resp.status = 500 := by
  refine ⟨.other "Hijack" "" fun r => if r.isSome then .returns else .writeHeader 500 fun _ => .returns, ?_⟩
  intro before outcome
  exact ⟨rfl, rfl, rfl, rfl⟩

/-- A writer that cannot flush, such as that of `http.TimeoutHandler`. -/
def noFlush : Writer NetHTTP := { netHTTP with flush := none, other := fun _ => none }

/-- And a handler that needs to flush takes a writer that cannot for one that can. -/
theorem C113_flusher_violated :
    ∃ h : Handler Unit, ∀ before outcome,
      (run noFlush false h {}).state.resp.status = 501 ∧
      (middleware noFlush (.ok ()) before outcome h {}).state.resp.status = 200 := by
  refine ⟨.flush fun r => .writeHeader (if r.isSome then 200 else 501) fun _ => .returns, ?_⟩
  intro before outcome
  exact ⟨rfl, rfl⟩

/-! ## Concrete cases -/

/-- A handler that flushes what it wrote if it can, with a writer that cannot. -/
example : noFlush.flush.isNone = true ∧ FlushesIfItCan (.write [1] fun _ => .flush fun _ => .write [2] fun _ => .returns : Handler String) :=
  ⟨rfl, fun _ => ⟨rfl, fun _ _ => trivial⟩⟩

/-- A handler that sets a header, writes, looks at what was written, flushes and panics. -/
private def exHandler : Handler String :=
  .header (fun h => ("Content-Type", "text/plain") :: h) fun _ =>
    .log "begin" <| .writeHeader 404 fun _ => .write [1, 2, 3] fun r =>
      match r with
      | .ok (3, none) => .flush fun _ => .panics "boom"
      | _ => .returns

example : OnlyFlushes exHandler := by
  simp only [exHandler, OnlyFlushes]
  intro _ _ r
  split <;> simp [OnlyFlushes]

example : ((run netHTTP false exHandler {}).how, (run netHTTP false exHandler {}).state.resp.status,
      (run netHTTP false exHandler {}).state.resp.body) = (.panicked "boom", 404, 3) := by
  rfl

example : (middleware netHTTP (.ok ()) ["GET"] (fun c n => s!"HTTP {c}, {n}") exHandler {}).logged =
    ["GET", "begin", "HTTP 404, 3"] := by
  decide +kernel

/-- The functions of net/http ask as well: `http.MaxBytesReader`, which trace servers use, asks for
`requestTooLarge`, and does not find it behind the middleware. -/
example : bareAnswer netHTTP false (.other "requestTooLarge") ≠ behindAnswer netHTTP (.other "requestTooLarge") := by
  decide

/-- A handler that answers 404 with a body of two parts, on a writer that takes only three bytes of each. -/
def shortWriter : Writer Unit where
  header s _ := (s, [])
  writeHeader s _ := (s, .ok ())
  write s p := (s, .ok (min p.length 3, none))
  flush := none
  other _ := none

example :
    let h : Handler String := .writeHeader 404 fun _ => .write [1, 2] fun _ => .writeHeader 500 fun _ => .log "x" <|
      .write [1, 2, 3, 4, 5] fun _ => .returns
    (∀ q ∈ (run shortWriter false h ()).asked, Unchanged shortWriter false q) ∧
    effective (codes shortWriter false h ()) = 404 ∧ taken shortWriter false h () = 5 := by
  refine ⟨?_, rfl, rfl⟩
  intro q hq
  simp [run, shortWriter] at hq

end Trc.Web.Behind
