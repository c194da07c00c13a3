import Verif.Props.Uris

/-!
# C100: how often each server is asked, exactly
-/

namespace Trc.Cmd

theorem apart_inj {α β : Type} {f : α → β} {l : List α} (h : l.Pairwise fun a b => f a ≠ f b) {a b : α} (ha : a ∈ l) (hb : b ∈ l) (e : f a = f b) : a = b := by
  induction l with
  | nil => cases ha
  | cons x l ih =>
    obtain ⟨h1, h2⟩ := List.pairwise_cons.mp h
    rcases List.mem_cons.mp ha with ea | ha' <;> rcases List.mem_cons.mp hb with eb | hb'
    · rw [ea, eb]
    · exact absurd (ea ▸ e) (h1 b hb')
    · exact absurd (eb ▸ e.symm) (h1 a ha')
    · exact ih h2 ha' hb'

/-- **C100** Whoever is named is asked and nobody else, once for every name; so each URI is asked once exactly if no two different names stand for the
same one. -/
theorem C100_once_exact (net : Net) (uriPath : String) (given : List String) (hne : given ≠ [])
    (h : ∀ s ∈ given, ∃ t, net.target uriPath s = .ok t) :
    ∃ ts, net.prepare uriPath given = .ok ts ∧ (∀ t, t ∈ ts ↔ ∃ s ∈ given, net.target uriPath s = .ok t) ∧
      (ts.Nodup ↔ ∀ s ∈ given, ∀ s' ∈ given, net.target uriPath s = net.target uriPath s' → s = s') := by
  obtain ⟨ts, h1, h2⟩ := prepare_ok net uriPath given hne h
  have hu := unique_spec given
  refine ⟨ts, h1, ?_, ?_⟩
  · intro t
    have : t ∈ ts ↔ Except.ok t ∈ ts.map (Except.ok (ε := String)) := by simp
    rw [this, ← h2, List.mem_map]
    simp only [hu.2]
  · have e : ts.Nodup ↔ ((uniqueList given).map (net.target uriPath)).Nodup := by
      rw [h2, List.Nodup, List.Nodup, List.pairwise_map]
      exact ⟨fun hn => hn.imp fun h e => h (Except.ok.inj e), fun hn => hn.imp fun h e => h (by rw [e])⟩
    rw [e, List.Nodup, List.pairwise_map]
    constructor
    · intro hp s hs s' hs' he
      exact apart_inj hp ((hu.2 s).mpr hs) ((hu.2 s').mpr hs') he
    · intro hd
      refine List.Pairwise.imp_of_mem ?_ hu.1
      intro a b ha hb hab e
      exact hab (hd a ((hu.2 a).mp ha) b ((hu.2 b).mp hb) e)

section
open Trc.Web
variable {compile : Compile} {mulFrac : Nat → Nat → Nat → Nat} {size : JSON → Nat} {mime : List Char → Option String}
variable {α : Type} [Inhabited α]

/-- What a server adds to the total for one of the names. -/
def counted (net : Net) (uriPath : String) (total : String → Int) (s : String) : Int :=
  match net.target uriPath s with
  | .ok u => total u
  | .error _ => 0

theorem sumBy_targets (net : Net) (uriPath : String) (total : String → Int) (l ts : List String)
    (h : l.map (net.target uriPath) = ts.map Except.ok) : sumBy total ts = sumBy (counted net uriPath total) l := by
  induction l generalizing ts with
  | nil =>
    cases ts with
    | nil => rfl
    | cons t ts => cases h
  | cons s l ih =>
    cases ts with
    | nil => cases h
    | cons t ts =>
      obtain ⟨h1, h2⟩ := List.cons.inj h
      simp only [sumBy, ih ts h2]
      unfold counted
      rw [h1]

/-- **C100** The total that `trc search` prints is the sum over the different names that are given: a server counts as often as it has names among them. -/
theorem C100_total_exact (net : Net) {srt : List Static → List Static} (hs : Sorts srt) (c : SearchFlags)
    (site : String → Site compile mulFrac size mime α) (req : SearchRequest) (problems : List String)
    (hn : c.request.normalize compile = some (req, problems))
    (hsize : size (encRequest req) ≤ 1048576) (hm : mime "application/json".toList = some "application/json")
    (horder : ∀ u, ∀ reply ss, searchClient (site u).1.rawQuery (site u).1.server req = .ok reply → reply.stats = some ss →
      (site u).1.order.Perm ss.categories)
    (arrive : List String → List String) (harr : ∀ l, (arrive l).Perm l) (uriPath : String) (given : List String) (hne : given ≠ [])
    (h : ∀ s ∈ given, ∃ t, net.target uriPath s = .ok t)
    (names : List String) (hnd : names.Nodup) (hmem : ∀ s, s ∈ names ↔ s ∈ given) :
    ∃ out, searchCommand net (fun u => (site u).1) arrive compile srt c uriPath given = .ok (some out) ∧
      out.totalCount = sumBy (counted net uriPath fun u => (site u).total) names := by
  obtain ⟨ts, h1, h2⟩ := prepare_ok net uriPath given hne h
  obtain ⟨out, h4, h5⟩ := total_of net hs c site req problems hn hsize hm horder arrive uriPath given ts h1
  refine ⟨out, h4, ?_⟩
  have hu := unique_spec given
  rw [h5, sumBy_perm _ (harr ts), sumBy_targets net uriPath _ _ _ h2]
  exact sumBy_perm _ ((List.perm_ext_iff_of_nodup hu.1 hnd).mpr fun t => by rw [hu.2, hmem])

end

/-- Three names, two of which are the same server. -/
example : anyNet.prepare "" ["foo", "http://foo", "bar", "foo"] = .ok ["http://foo", "http://foo", "http://bar"] := by
  decide +kernel

end Trc.Cmd
