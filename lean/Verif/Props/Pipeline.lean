import Verif.Cmd.Pipeline
import Verif.Props.CmdStream

/-!
# C94: `trc stream` prints each trace that it receives once, in order
-/

namespace Trc.Cmd

open Trc.Web Trc.Broker

variable {interval : Int} {n cap : Nat}

/-! ## Specification -/

/-- Those of a URI. -/
def ofUri (i : Nat) (l : List (Nat × Static)) : List Static := (l.filter (·.1 = i)).map (·.2)

/-- The traces that arrived from a URI, over all of its calls of `Stream`. -/
def arrived (u : RSt) : List Static := u.streams.flatMap fun c => traces c.read

/-- The trace of a URI that waits for the channel. -/
def waiting (u : RSt) : List Static := u.streams.flatMap fun c => pending c.pc

/-! ## Lemmas -/

theorem ofUri_append (i : Nat) (a b : List (Nat × Static)) : ofUri i (a ++ b) = ofUri i a ++ ofUri i b := by
  simp [ofUri]

theorem ofUri_same (i : Nat) (x : Static) : ofUri i [(i, x)] = [x] := by simp [ofUri]

theorem ofUri_other {i j : Nat} (x : Static) (h : i ≠ j) : ofUri i [(j, x)] = [] := by
  simp [ofUri, Ne.symm h]

theorem setUri_same (f : Nat → RSt) (i : Nat) (u : RSt) : setUri f i u i = u := if_pos rfl

theorem setUri_other (f : Nat → RSt) {i j : Nat} (u : RSt) (h : j ≠ i) : setUri f i u j = f j := if_neg h

/-- A send is a step of the stream. -/
theorem Sends.step {u u' : RSt} {x : Static} (h : Sends u x u') : RStep interval u u' := by
  cases h with
  | mk h1 h2 => exact .client h1 (.send h2) rfl

/-- The sender is the last call of `Stream`. -/
theorem Sends.last {u u' : RSt} {x : Static} (h : Sends u x u') (hi : RInv u) :
    ∃ a c, u.streams = a ++ [c] ∧ c.pc = .sending x ∧
      u' = { u with streams := a ++ [{ c with pc := .reading, sent := c.sent ++ [x] }] } := by
  cases h with
  | @mk a c b _ h1 h2 =>
    cases b with
    | nil => exact ⟨a, c, h1, h2, rfl⟩
    | cons y b =>
      exfalso
      have := hi.before c (by rw [h1, List.dropLast_append_of_ne_nil (by simp), List.dropLast_cons_of_ne_nil (by simp)]; simp)
      obtain ⟨⟨r, hr⟩, _⟩ := this
      rw [h2] at hr; cases hr

theorem Sends.sent {u u' : RSt} {x : Static} (h : Sends u x u') (hi : RInv u) : u'.sent = u.sent ++ [x] := by
  obtain ⟨a, c, h1, h2, rfl⟩ := h.last hi
  simp [RSt.sent, h1]

/-- While nobody told the stream to stop, what it read is what it handed over. -/
theorem all_handed {u : RSt} (h : RReach interval u) (hint : 0 < interval) : u.ctx = false → u.sent ++ waiting u = arrived u ∧
    ∀ c ∈ u.streams, c.sent ++ pending c.pc = traces c.read := by
  intro hc
  have key : ∀ c ∈ u.streams, c.sent ++ pending c.pc = traces c.read := by
    induction h with
    | refl => intro c hc; cases hc
    | @snoc u' u'' hr st ih =>
      have inv := rreach_inv hr
      cases st with
      | parentDone => cases hc
      | @client a c c' b he hs hctx =>
        intro d hd
        simp only [List.mem_append, List.mem_cons] at hd
        rcases hd with hd | rfl | hd
        · exact ih hc d (by rw [he]; simp [hd])
        · have hcm : c ∈ u'.streams := by rw [he]; simp
          have hcc := ih hc c hcm
          by_cases h0 : c.ctx = false
          · exact (C81_in_order (.snoc (inv.reach c hcm) hs)).2 (by rw [hctx, h0])
          · have h0 : c.ctx = true := by simpa using h0
            -- it has returned
            have hret : ∃ r, c.pc = .returned r := by
              by_cases hq : quiet u'.pc = true
              · exact (inv.quiet hq c hcm).1
              · rcases List.eq_nil_or_concat b with rfl | ⟨b', l, rfl⟩
                · cases hpc : u'.pc with
                  | select => rw [inv.sub hpc hc a c he] at h0; cases h0
                  | stopping => have hc' : u'.ctx = false := hc; rw [inv.stop (.inl hpc)] at hc'; cases hc'
                  | crashed => exact absurd hpc (C83_no_crash hr hint)
                  | start | top | sleeping | leaving | returned => rw [hpc] at hq; exact absurd rfl hq
                · exact (inv.before c (by rw [he, List.concat_eq_append, ← List.cons_append, ← List.append_assoc, List.dropLast_concat]; simp)).1
            obtain ⟨r, hr'⟩ := hret
            obtain ⟨k1, k2, k3⟩ := C81_final hr' (.snoc .refl hs)
            rw [k1, k2, k3, ← hr']
            exact hcc
        · exact ih hc d (by rw [he]; simp [hd])
      | spawn | ticker | tickerPanics | reporterDone | exit | stopped | wake | leave => exact ih hc
      | begin =>
        intro d hd
        simp only [List.mem_append, List.mem_singleton] at hd
        rcases hd with hd | rfl
        · exact ih hc d hd
        · rfl
      | @subctxDone a c hp he _ | @failed a c _ hp he _ =>
        intro d hd
        simp only [he, cancelLast_snoc, List.mem_append, List.mem_singleton] at hd
        rcases hd with hd | rfl
        · exact ih hc d (by rw [he]; simp [hd])
        · exact ih hc c (by rw [he]; simp)
  refine ⟨?_, key⟩
  have inv := rreach_inv h
  rcases List.eq_nil_or_concat u.streams with h0 | ⟨a, c, h0⟩
  · simp [RSt.sent, waiting, arrived, h0]
  · rw [List.concat_eq_append] at h0
    have hb := inv.before
    rw [h0, List.dropLast_concat] at hb
    have h1 : a.flatMap (fun c => pending c.pc) = [] := by
      rw [List.flatMap_eq_nil_iff]
      intro d hd
      obtain ⟨⟨r, hr⟩, _⟩ := hb d hd
      rw [hr]; rfl
    have h2 : ∀ b : List CSt, (∀ d ∈ b, d ∈ a) → b.flatMap (·.sent) = b.flatMap fun c => traces c.read := by
      intro b hm
      induction b with
      | nil => rfl
      | cons d b ih =>
        rw [List.flatMap_cons, List.flatMap_cons, ih (fun d hd => hm d (by simp [hd]))]
        congr 1
        have := key d (by rw [h0]; simp [hm d (by simp)])
        obtain ⟨⟨r, hr⟩, _⟩ := hb d (hm d (by simp))
        rw [hr] at this
        simpa [pending] using this
    simp only [RSt.sent, waiting, arrived, h0, List.flatMap_append, h1, h2 a (fun _ h => h), List.flatMap_cons, List.flatMap_nil, List.append_nil, List.nil_append, List.append_assoc]
    rw [key c (by rw [h0]; simp)]

/-! ## Invariant -/

structure PInv (interval : Int) (n cap : Nat) (s : PSt) : Prop where
  reach : ∀ i, RReach interval (s.uris i)
  handed : ∀ i, ofUri i (s.written ++ s.queue) = (s.uris i).sent
  room : s.queue.length ≤ cap
  known : ∀ y ∈ s.written ++ s.queue, y.1 < n
  told : ∀ i, (s.uris i).ctx = true → s.rctx = true
  sig : s.rctx = true → s.signal = true
  wr : s.wctx = true → s.rctx = true
  spc : s.spc ≠ .running → s.rctx = true
  wpc : s.wpc = .returned → s.wctx = true
  ended : s.spc = .returned → ∀ i, i < n → (s.uris i).pc = .returned

theorem pinv_init : PInv interval n cap {} :=
  ⟨fun _ => .refl, fun _ => rfl, Nat.zero_le _, by simp, by simp, by simp, by simp, by simp, by simp, by simp⟩

/-- A stream that has returned stays so. -/
theorem returned_step {u u' : RSt} (h : RStep interval u u') (hr : u.pc = .returned) (hi : RInv u) : u'.pc = .returned := by
  cases h with
  | parentDone | client | ticker | reporterDone => exact hr
  | spawn h | begin h | exit h | subctxDone h | stopped h | failed h | wake h | leave h => simp [hr] at h
  | tickerPanics h => rw [hi.rep hr] at h; cases h

theorem pinv_step {s s' : PSt} (h : PStep interval n cap s s') (hi : PInv interval n cap s) : PInv interval n cap s' := by
  have reach : ∀ {i u}, RStep interval (s.uris i) u → ∀ j, RReach interval (setUri s.uris i u j) := by
    intro i u hs j
    by_cases hj : j = i
    · subst hj; rw [setUri_same]; exact .snoc (hi.reach j) hs
    · rw [setUri_other _ _ hj]; exact hi.reach j
  have ended : ∀ {i u}, RStep interval (s.uris i) u → s.spc = .returned → ∀ j, j < n → (setUri s.uris i u j).pc = .returned := by
    intro i u hs hr j hj
    by_cases hji : j = i
    · subst hji; rw [setUri_same]; exact returned_step hs (hi.ended hr j hj) (rreach_inv (hi.reach j))
    · rw [setUri_other _ _ hji]; exact hi.ended hr j hj
  have sctx : ∀ {i u x}, Sends (s.uris i) x u → ∀ j, (setUri s.uris i u j).ctx = true → s.rctx = true := by
    intro i u x hs j
    by_cases hj : j = i
    · subst hj; rw [setUri_same]; cases hs; exact hi.told j
    · rw [setUri_other _ _ hj]; exact hi.told j
  have shand : ∀ {i u x}, Sends (s.uris i) x u → ∀ j, ofUri j (s.written ++ s.queue) ++ ofUri j [(i, x)] = (setUri s.uris i u j).sent := by
    intro i u x hs j
    by_cases hj : j = i
    · subst hj; rw [setUri_same, hi.handed, ofUri_same, hs.sent (rreach_inv (hi.reach j))]
    · rw [setUri_other _ _ hj, hi.handed, ofUri_other _ hj, List.append_nil]
  cases h with
  | signalled => exact ⟨hi.reach, hi.handed, hi.room, hi.known, hi.told, fun _ => rfl, hi.wr, hi.spc, hi.wpc, hi.ended⟩
  | interruptStreams h => exact ⟨hi.reach, hi.handed, hi.room, hi.known, fun _ _ => rfl, fun _ => h, fun _ => rfl, fun _ => rfl, hi.wpc, hi.ended⟩
  | interruptWriter h => exact ⟨hi.reach, hi.handed, hi.room, hi.known, hi.told, hi.sig, fun _ => h, hi.spc, fun _ => rfl, hi.ended⟩
  | @stream i u hn hs he hc =>
    refine ⟨reach hs, fun j => ?_, hi.room, hi.known, fun j => ?_, hi.sig, hi.wr, hi.spc, hi.wpc, ended hs⟩
    · by_cases hj : j = i
      · subst hj; simp only [setUri_same, he]; exact hi.handed j
      · simp only [setUri_other _ _ hj]; exact hi.handed j
    · by_cases hj : j = i
      · subst hj; simp only [setUri_same]
        intro hu
        cases hx : (s.uris j).ctx with
        | true => exact hi.told j hx
        | false => exact hc hu hx
      · simp only [setUri_other _ _ hj]; exact hi.told j
  | @put i x u hn hs hq =>
    refine ⟨reach hs.step, fun j => ?_, ?_, ?_, sctx hs, hi.sig, hi.wr, hi.spc, hi.wpc, ended hs.step⟩
    · simp only [← List.append_assoc, ofUri_append _ (s.written ++ s.queue)]
      exact shand hs j
    · simp only [List.length_append, List.length_singleton]; omega
    · simp only [← List.append_assoc]
      intro y hy
      rcases List.mem_append.mp hy with hy | hy
      · exact hi.known y hy
      · rw [List.mem_singleton.mp hy]; exact hn
  | @hand i x u hn hs hq hw =>
    have h0 := hi.known
    have h1 := fun j => shand hs j
    rw [hq, List.append_nil] at h0
    simp only [hq, List.append_nil] at h1
    refine ⟨reach hs.step, fun j => ?_, by rw [hq]; exact Nat.zero_le _, ?_, sctx hs, hi.sig, hi.wr, hi.spc, hi.wpc, ended hs.step⟩
    · simp only [hq, List.append_nil, ofUri_append]
      exact h1 j
    · simp only [hq, List.append_nil]
      intro y hy
      rcases List.mem_append.mp hy with hy | hy
      · exact h0 y hy
      · rw [List.mem_singleton.mp hy]; exact hn
  | @receive y q hw hq =>
    have h0 := hi.known
    have h1 := hi.handed
    have h2 := hi.room
    rw [hq] at h0 h2
    rw [hq] at h1
    simp only [List.length_cons] at h2
    refine ⟨hi.reach, fun j => ?_, by simp only; omega, ?_, hi.told, hi.sig, hi.wr, hi.spc, hi.wpc, hi.ended⟩
    · simp only [List.append_assoc, List.singleton_append]; exact h1 j
    · simp only [List.append_assoc, List.singleton_append]; exact h0
  | writerDone h hc => exact ⟨hi.reach, hi.handed, hi.room, hi.known, hi.told, hi.sig, hi.wr, hi.spc, fun _ => hc, hi.ended⟩
  | stopStreams h hc => exact ⟨hi.reach, hi.handed, hi.room, hi.known, hi.told, hi.sig, hi.wr, fun _ => hc, hi.wpc, by simp⟩
  | streamsDone h ha => exact ⟨hi.reach, hi.handed, hi.room, hi.known, hi.told, hi.sig, hi.wr, fun _ => hi.spc (by rw [h]; simp), hi.wpc, fun _ => ha⟩

theorem preach_inv {s : PSt} (h : PReach interval n cap s) : PInv interval n cap s := by
  induction h with
  | refl => exact pinv_init
  | snoc _ h ih => exact pinv_step h ih

theorem PSteps.trans {a b c : PSt} (h : PSteps interval n cap a b) (k : PSteps interval n cap b c) : PSteps interval n cap a c := by
  induction k with
  | refl => exact h
  | snoc _ st ih => exact .snoc ih st

/-! ## C94 -/

/-- **C94** At any time, what has been printed of a URI, followed by what is in the buffer, is what its stream handed
over, and that is in the order in which it arrived, without repetitions.  At most `cap` traces are in the buffer. -/
theorem C94_in_order {s : PSt} (h : PReach interval n cap s) (i : Nat) :
    ofUri i s.written ++ ofUri i s.queue = (s.uris i).sent ∧ (s.uris i).sent.Sublist (arrived (s.uris i)) ∧
    s.queue.length ≤ cap ∧ ∀ y ∈ s.written, y.1 < n := by
  have hi := preach_inv h
  refine ⟨by rw [← ofUri_append]; exact hi.handed i, ?_, hi.room, fun y hy => hi.known y (List.mem_append_left _ hy)⟩
  have hr := (rreach_inv (hi.reach i)).reach
  generalize hu : s.uris i = u at hr
  unfold RSt.sent arrived
  clear hu
  generalize u.streams = l at hr
  induction l with
  | nil => exact .slnil
  | cons c l ih =>
    rw [List.flatMap_cons, List.flatMap_cons]
    exact List.Sublist.append ((List.sublist_append_left _ _).trans (C81_in_order (hr c (by simp))).1) (ih fun d hd => hr d (by simp [hd]))

/-- **C94** Until a signal arrives, nothing is left out: all that arrived from a URI has been printed, in order, but for what
is in the buffer and at most one trace that waits for the channel. -/
theorem C94_complete {s : PSt} (h : PReach interval n cap s) (hint : 0 < interval) (hs : s.signal = false) (i : Nat) :
    ofUri i s.written ++ ofUri i s.queue ++ waiting (s.uris i) = arrived (s.uris i) ∧ (waiting (s.uris i)).length ≤ 1 := by
  have hi := preach_inv h
  have hc : (s.uris i).ctx = false := by
    cases hx : (s.uris i).ctx with
    | false => rfl
    | true => rw [hi.sig (hi.told i hx)] at hs; cases hs
  rw [(C94_in_order h i).1]
  refine ⟨(all_handed (hi.reach i) hint hc).1, ?_⟩
  have inv := rreach_inv (hi.reach i)
  rcases List.eq_nil_or_concat (s.uris i).streams with h0 | ⟨a, c, h0⟩
  · simp [waiting, h0]
  · rw [List.concat_eq_append] at h0
    have hb := inv.before
    rw [h0, List.dropLast_concat] at hb
    have h1 : a.flatMap (fun c => pending c.pc) = [] := by
      rw [List.flatMap_eq_nil_iff]
      intro d hd
      obtain ⟨⟨r, hr⟩, _⟩ := hb d hd
      rw [hr]; rfl
    simp only [waiting, h0, List.flatMap_append, h1, List.nil_append, List.flatMap_cons, List.flatMap_nil, List.append_nil]
    cases c.pc <;> simp [pending]

/-- The writer empties the buffer. -/
theorem drains {s : PSt} (hw : s.wpc = .running) : PSteps interval n cap s { s with queue := [], written := s.written ++ s.queue } := by
  obtain ⟨sig, rctx, wctx, spc, wpc, uris, q, written⟩ := s
  simp only at hw
  subst hw
  induction q generalizing written with
  | nil => simp only [List.append_nil]; exact .refl
  | cons y q ih =>
    have h1 := ih (written ++ [y])
    simp only [List.append_assoc, List.singleton_append] at h1
    exact PSteps.trans (.snoc .refl (.receive rfl rfl)) h1

/-- **C94** While the writer runs no stream is stuck: a trace that waits for the channel, of any URI, can be printed by
steps of the writer and the send alone. -/
theorem C94_not_stuck {s : PSt} (hw : s.wpc = .running) (i : Nat) (hin : i < n) (x : Static)
    (hx : x ∈ waiting (s.uris i)) :
    ∃ s', PSteps interval n cap s s' ∧ s'.written = s.written ++ s.queue ++ [(i, x)] := by
  have h1 := drains (interval := interval) (n := n) (cap := cap) hw
  obtain ⟨c, hc, hx⟩ := List.mem_flatMap.mp hx
  obtain ⟨a, b, hs⟩ := List.append_of_mem hc
  cases hp : c.pc with
  | sending y =>
    rw [hp] at hx
    rw [List.mem_singleton.mp hx]
    exact ⟨_, .snoc h1 (.hand hin (.mk (u := s.uris i) hs hp) rfl hw), rfl⟩
  | reading | returned => rw [hp] at hx; cases hx

/-- The number of traces handed over never shrinks. -/
theorem handed_mono {u u' : RSt} (h : RStep interval u u') : (handed u).flatten.length ≤ (handed u').flatten.length := by
  cases h with
  | parentDone => simp [handed, CSt.done, Function.comp_def]
  | client he hs _ =>
    simp only [handed, he, List.map_append, List.map_cons, List.flatten_append, List.flatten_cons, List.length_append]
    cases hs <;> simp <;> omega
  | spawn | ticker | tickerPanics | reporterDone | exit | stopped | wake | leave => exact Nat.le_refl _
  | begin => simp [handed]
  | subctxDone _ he | failed _ he => simp [handed, he, cancelLast_snoc, CSt.done]

theorem handed_eq {u u' : RSt} (h : RStep interval u u') (he : (handed u).flatten.length = (handed u').flatten.length) : u'.sent = u.sent := by
  cases h with
  | parentDone => simp [RSt.sent, CSt.done, List.flatMap_map]
  | client hl hs _ =>
    simp only [handed, hl, List.map_append, List.map_cons, List.flatten_append, List.flatten_cons, List.length_append] at he
    cases hs with
    | send => simp at he
    | _ => simp [RSt.sent, hl]
  | spawn | ticker | tickerPanics | reporterDone | exit | stopped | wake | leave => rfl
  | begin => simp [RSt.sent]
  | subctxDone _ hl | failed _ hl => simp [RSt.sent, hl, cancelLast_snoc, CSt.done]

theorem setUri_idem (f : Nat → RSt) (i : Nat) (u v : RSt) : setUri (setUri f i u) i v = setUri f i v := by
  funext j; unfold setUri; split <;> rfl

theorem setUri_self (f : Nat → RSt) (i : Nat) : setUri f i (f i) = f := by
  funext j; unfold setUri; split
  · next h => rw [h]
  · rfl

/-- Steps of one stream that hand nothing over. -/
theorem stream_steps {s : PSt} {i : Nat} (hin : i < n) (hc : s.rctx = true) {u : RSt} (h : RSteps interval (s.uris i) u)
    (he : (handed u).flatten.length = (handed (s.uris i)).flatten.length) :
    PSteps interval n cap s { s with uris := setUri s.uris i u } := by
  have mono : ∀ {a b : RSt}, RSteps interval a b → (handed a).flatten.length ≤ (handed b).flatten.length := by
    intro a b h
    induction h with
    | refl => exact Nat.le_refl _
    | snoc _ st ih => exact Nat.le_trans ih (handed_mono st)
  generalize hv : s.uris i = v at h he
  induction h with
  | refl => rw [← hv, setUri_self]; exact .refl
  | @snoc u' u'' h st ih =>
    have h1 := mono h
    have h2 := handed_mono st
    have h3 : (handed u').flatten.length = (handed v).flatten.length := by omega
    refine .snoc (ih h3) ?_
    have := PStep.stream (interval := interval) (n := n) (cap := cap) (s := { s with uris := setUri s.uris i u' }) (i := i) (u := u'') hin
      (by simp only [setUri_same]; exact st) (by simp only [setUri_same]; exact handed_eq st (by omega)) (fun _ _ => hc)
    simp only [setUri_idem] at this
    exact this

/-- The streams can all return. -/
theorem streams_return {s : PSt} (h : PReach interval n cap s) (hint : 0 < interval) (hc : s.rctx = true) (k : Nat) (hk : k ≤ n) :
    ∃ uris, PSteps interval n cap s { s with uris := uris } ∧ ∀ i, i < k → (uris i).pc = .returned := by
  induction k with
  | zero => exact ⟨s.uris, .refl, by simp⟩
  | succ k ih =>
    obtain ⟨uris, h1, h2⟩ := ih (by omega)
    have hi := preach_inv (PSteps.trans h h1)
    have hr : RReach interval (uris k) := hi.reach k
    have hr' : RReach interval { uris k with ctx := true, streams := (uris k).streams.map CSt.done } := .snoc hr .parentDone
    obtain ⟨u, h3, h4, h5⟩ := C83_can_return hr' rfl hint (C83_no_crash hr' hint)
    have h6 := stream_steps (s := { s with uris := uris }) (interval := interval) (n := n) (cap := cap) (i := k) (by omega) hc
      (RSteps.trans (.snoc .refl .parentDone) h3)
      (by rw [h5]; simp [handed, CSt.done, Function.comp_def])
    refine ⟨_, PSteps.trans h1 h6, fun i hik => ?_⟩
    by_cases e : i = k
    · subst e; rw [setUri_same]; exact h4
    · rw [setUri_other _ _ e]; exact h2 i (by omega)

/-- **C94** After a signal the command can end whatever it is doing, without printing anything else. -/
theorem C94_can_end {s : PSt} (h : PReach interval n cap s) (hint : 0 < interval) (hs : s.signal = true) :
    ∃ s', PSteps interval n cap s s' ∧ s'.over ∧ s'.written = s.written := by
  have h1 : PSteps interval n cap s { s with rctx := true, wctx := true } := .snoc (.snoc .refl (.interruptStreams hs)) (.interruptWriter rfl)
  have h2 : ∃ w, PSteps interval n cap { s with rctx := true, wctx := true } w ∧ w.signal = true ∧ w.rctx = true ∧ w.wpc = .returned ∧ w.written = s.written := by
    cases hw : s.wpc with
    | running => exact ⟨_, .snoc .refl (.writerDone rfl rfl), hs, rfl, rfl, rfl⟩
    | returned => exact ⟨_, .refl, hs, rfl, rfl, rfl⟩
  obtain ⟨w, h2, hsw, hrw, hww, hpw⟩ := h2
  have hreach : PReach interval n cap w := PSteps.trans (PSteps.trans h h1) h2
  obtain ⟨uris, h3, h4⟩ := streams_return hreach hint hrw n (Nat.le_refl n)
  refine ⟨{ w with uris := uris, spc := .returned }, PSteps.trans (PSteps.trans h1 h2) ?_, ⟨hsw, rfl, hww⟩, hpw⟩
  refine PSteps.trans h3 ?_
  cases hp : w.spc with
  | running => exact .snoc (.snoc .refl (.stopStreams rfl hrw)) (.streamsDone rfl h4)
  | waiting => exact .snoc .refl (.streamsDone rfl h4)
  | returned =>
    exact .refl

/-- **C94** It ends only after a signal; then every stream has ended (compare C83), and of what the streams handed over at most `cap`
traces were not printed, the last ones of their URIs. -/
theorem C94_ended {s : PSt} (h : PReach interval n cap s) (ho : s.over) :
    (∀ i, i < n → (s.uris i).pc = .returned ∧ ∀ c ∈ (s.uris i).streams, Ended c) ∧
    ∃ rest : List (Nat × Static), rest.length ≤ cap ∧ ∀ i, ofUri i s.written ++ ofUri i rest = (s.uris i).sent := by
  have hi := preach_inv h
  exact ⟨fun i hin => ⟨hi.ended ho.2.1 i hin, (C83_cleans_up (hi.reach i) (hi.ended ho.2.1 i hin)).2.2⟩,
    s.queue, hi.room, fun i => (C94_in_order h i).1⟩

/-- **C94** End to end: if what the streams read is what handlers of trace servers wrote for the command's filter, then everything
printed is, up to clock readings, a trace that was published at the server it is printed for and satisfies the filter. -/
theorem C94_end_to_end (compile : Compile) (f : Filter) (hf : f.Fresh compile) {s : PSt} (h : PReach interval n cap s)
    (conns : Nat → CSt → List (Connection compile f))
    (hr : ∀ i, i < n → ∀ c ∈ (s.uris i).streams, c.read = (conns i c).flatMap fun c => c.carried.map encOut) :
    ∀ i y, (i, y) ∈ s.written → ∃ c ∈ (s.uris i).streams, ∃ k ∈ conns i c, ∃ x, y = wireStatic x ∧ f.Sat compile x ∧ x ∈ published k.state.hist := by
  intro i y hy
  have hi := preach_inv h
  have hin : i < n := hi.known (i, y) (List.mem_append_left _ hy)
  have hs : y ∈ (s.uris i).sent := by
    rw [← (C94_in_order h i).1]
    refine List.mem_append_left _ (List.mem_map.mpr ⟨(i, y), List.mem_filter.mpr ⟨hy, by simp⟩, rfl⟩)
  obtain ⟨c, hc, hyc⟩ := List.mem_flatMap.mp hs
  obtain ⟨_, _, _, h4⟩ := C81_end_to_end compile f hf ((rreach_inv (hi.reach i)).reach c hc) (conns i c) (hr i hin c hc)
  exact ⟨c, hc, h4 y hyc⟩

/-! ## Examples -/

namespace Example

def tr : Static := { zeroStatic with id := "x" }

def ev : SSE := encOut (.trace tr)

theorem dispatch_ev : dispatch ev = .sending (wireStatic tr) := by
  simp only [dispatch, ev, encOut]
  rw [show unmarshal zeroStatic decStatic (some (encStatic tr)) = decStatic (encStatic tr) from rfl, static_rt]
  rfl

/-- A stream that has read a trace. -/
def full : RSt := { pc := .select, rep := .born, streams := [{ pc := .sending (wireStatic tr), read := [ev] }] }

theorem steps_full : RSteps 1 {} full := by
  have h : RSteps 1 {} { pc := .select, rep := .born, streams := [{ pc := dispatch ev, read := [ev] }] } :=
    .snoc (.snoc (.snoc .refl (.spawn rfl)) (.begin rfl rfl)) (.client (a := []) (b := []) rfl (.readEvent rfl) rfl)
  rw [dispatch_ev] at h
  exact h

/-- A stream that read a trace, and sent it. -/
def sent : RSt := { full with streams := [{ pc := .reading, read := [ev], sent := [wireStatic tr] }] }

theorem sends : Sends full (wireStatic tr) sent :=
  Sends.mk (u := full) (a := []) (b := []) (c := { pc := .sending (wireStatic tr), read := [ev] }) (x := wireStatic tr) rfl rfl

theorem fills {s : PSt} {i : Nat} (hi : i < 2) (h : s.uris i = {}) : PSteps 1 2 1 s { s with uris := setUri s.uris i full } := by
  have h1 : PSteps 1 2 1 s { s with uris := setUri s.uris i { pc := .top, rep := .born } } :=
    .snoc .refl (.stream hi (by rw [h]; exact .spawn rfl) (by rw [h]; rfl) (by simp))
  have h2 := PSteps.snoc h1 (.stream (n := 2) (interval := 1) (i := i) (u := { pc := .select, rep := .born, streams := [{}] }) hi
    (by simp only [setUri_same]; exact .begin rfl rfl) (by simp only [setUri_same]; rfl) (by simp))
  have h3 := PSteps.snoc h2 (.stream (n := 2) (interval := 1) (i := i) (u := full) hi
    (by
      simp only [setUri_same]
      have h : RStep 1 { pc := .select, rep := .born, streams := [{}] } { pc := .select, rep := .born, streams := [{ pc := dispatch ev, read := [ev] }] } :=
        .client (a := []) (b := []) rfl (.readEvent rfl) rfl
      rw [dispatch_ev] at h
      exact h) (by simp only [setUri_same]; rfl) (by simp [full]))
  simp only [setUri_idem] at h3
  exact h3

/-- Two URIs and a buffer for one trace: the trace of the first one is printed, that of the second one is in the buffer. -/
theorem run : ∃ s, PReach 1 2 1 s ∧ s.signal = false ∧ s.written = [(0, wireStatic tr)] ∧ s.queue = [(1, wireStatic tr)] := by
  have h1 : PReach 1 2 1 _ := fills (s := {}) (i := 0) (by omega) rfl
  have h2 := PSteps.snoc h1 (.hand (n := 2) (cap := 1) (interval := 1) (i := 0) (by omega) (by simp only [setUri_same]; exact sends) rfl rfl)
  simp only [setUri_idem] at h2
  have h3 := PSteps.trans h2 (fills (i := 1) (by omega) rfl)
  have h4 := PSteps.snoc h3 (.put (n := 2) (cap := 1) (interval := 1) (i := 1) (by omega) (by simp only [setUri_same]; exact sends) (by simp))
  exact ⟨_, h4, rfl, rfl, rfl⟩

/-- After a signal this can end; the second trace is not printed. -/
example : ∃ s, PReach 1 2 1 s ∧ s.over ∧ s.written = [(0, wireStatic tr)] := by
  obtain ⟨s, h1, _, h2, _⟩ := run
  obtain ⟨s', h3, h4, h5⟩ := C94_can_end (PSteps.snoc h1 .signalled) (by omega) rfl
  exact ⟨s', PSteps.trans (.snoc h1 .signalled) h3, h4, h5.trans h2⟩

end Example

end Trc.Cmd
