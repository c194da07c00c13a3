import Verif.Web.SourceLink
import Verif.Props.Page

/-!
# C125: the links to source code
-/

set_option linter.unusedVariables false

namespace Trc.Web

open Core (Frame StdFrame toFrame)

/-! ## What a link means (RFC 3986) -/

/-- Percent-decoding, in which a `%` that begins no escape stands for itself. -/
def decoded : Bytes → Bytes
  | [] => []
  | [c] => [c]
  | [c, a] => [c, a]
  | c :: a :: b :: r =>
    match unhex a, unhex b with
    | some x, some y => if c = ch '%' then (x * 16 + y) :: decoded r else c :: decoded (a :: b :: r)
    | _, _ => c :: decoded (a :: b :: r)

/-- Not the beginning of a query or a fragment. -/
def inPath (c : UInt8) : Bool := c != ch '?' && c != ch '#'

/-- A link, as its receiver takes it: what precedes the query and the fragment, and those, decoded. -/
structure Target where
  path : Bytes
  rest : Bytes
deriving DecidableEq, Repr

def target (u : Bytes) : Target := { path := decoded (u.takeWhile inPath), rest := decoded (u.dropWhile inPath) }

/-- What VS Code opens, if the link is one of its own: the path without `vscode://file/`. -/
def opens (u : Bytes) : Option Bytes :=
  let p := bytesOf "vscode://file/"
  if p.isPrefixOf u then some (decoded ((u.drop p.length).takeWhile inPath)) else none

/-- There is a `%` with two hexadecimal digits after it. -/
def HasEscape (s : Bytes) : Prop := ∃ p a b r, s = p ++ ch '%' :: a :: b :: r ∧ (unhex a).isSome = true ∧ (unhex b).isSome = true

/-! ## Proofs -/

theorem decoded_cons {c : UInt8} {s : Bytes} (h : c ≠ ch '%') : decoded (c :: s) = c :: decoded s := by
  match s with
  | [] => rfl
  | [a] => rfl
  | a :: b :: r =>
    rw [decoded]
    split
    · rw [if_neg h]
    · rfl

theorem decoded_escape {a b x y : UInt8} {r : Bytes} (ha : unhex a = some x) (hb : unhex b = some y) :
    decoded (ch '%' :: a :: b :: r) = (x * 16 + y) :: decoded r := by
  rw [decoded]
  simp only [if_true, ha, hb]

theorem decoded_percent {s : Bytes} (h : hexPair s = false) : decoded (ch '%' :: s) = ch '%' :: decoded s := by
  match s with
  | [] => rfl
  | [a] => rfl
  | a :: b :: r =>
    rw [decoded]
    split
    · rename_i hx hy
      simp [hexPair, hx, hy] at h
    · rfl

theorem hexPair_iff {s : Bytes} : hexPair s = true ↔ ∃ a b r, s = a :: b :: r ∧ (unhex a).isSome = true ∧ (unhex b).isSome = true := by
  unfold hexPair
  split
  · rename_i a b r
    rw [Bool.and_eq_true]
    constructor
    · rintro ⟨h1, h2⟩; exact ⟨a, b, r, rfl, h1, h2⟩
    · rintro ⟨a', b', r', h, h1, h2⟩
      injection h with e1 h; injection h with e2 e3
      subst e1 e2
      exact ⟨h1, h2⟩
  · rename_i h
    constructor
    · intro h; cases h
    · rintro ⟨a, b, r, e, -, -⟩; exact absurd e (h a b r)

theorem decoded_percentByte (c : UInt8) (s : Bytes) : decoded (percentByte c ++ s) = c :: decoded s := by
  have key : ∀ c : UInt8, unhex (lowerhex (c / 16)) = some (c / 16) ∧ unhex (lowerhex (c % 16)) = some (c % 16) ∧ (c / 16) * 16 + c % 16 = c :=
    forall_byte (by decide +kernel)
  obtain ⟨k1, k2, k3⟩ := key c
  show decoded (ch '%' :: lowerhex (c / 16) :: lowerhex (c % 16) :: s) = _
  rw [decoded_escape k1 k2, k3]

theorem unhex_unreserved {a : UInt8} (h : (unhex a).isSome = true) : unreserved a = true ∧ inPath a = true ∧ a ≠ ch '%' := by
  have key : ∀ a : UInt8, (unhex a).isSome = true → unreserved a = true ∧ inPath a = true ∧ a ≠ ch '%' := forall_byte (by decide +kernel)
  exact key a h

theorem norm_keep {c : UInt8} {s : Bytes} (h : (unreserved c || reservedURL c) = true) : templateNormalize (c :: s) = c :: templateNormalize s := by
  rw [templateNormalize, if_pos (by simp only [Bool.or_eq_true] at h ⊢; exact Or.inl h)]
  rfl

theorem norm_percent_keep {s : Bytes} (h : hexPair s = true) : templateNormalize (ch '%' :: s) = ch '%' :: templateNormalize s := by
  rw [templateNormalize, if_pos (by simp [h])]
  rfl

theorem percent_not_kept : (unreserved (ch '%') || reservedURL (ch '%')) = false := by decide +kernel

theorem norm_percent {s : Bytes} (h : hexPair s = false) : templateNormalize (ch '%' :: s) = percentByte (ch '%') ++ templateNormalize s := by
  rw [templateNormalize, if_neg (by rw [percent_not_kept, h]; simp)]

theorem norm_other {c : UInt8} {s : Bytes} (h : ¬ (unreserved c || reservedURL c) = true) (hc : c ≠ ch '%') :
    templateNormalize (c :: s) = percentByte c ++ templateNormalize s := by
  rw [templateNormalize, if_neg (by simpa [hc] using h)]

theorem norm_pair {a b : UInt8} {r : Bytes} (ha : (unhex a).isSome = true) (hb : (unhex b).isSome = true) :
    templateNormalize (a :: b :: r) = a :: b :: templateNormalize r := by
  rw [norm_keep (by rw [(unhex_unreserved ha).1]; rfl), norm_keep (by rw [(unhex_unreserved hb).1]; rfl)]

/-- Normalization does not change what an URL means. -/
theorem decoded_norm (s : Bytes) : decoded (templateNormalize s) = decoded s := by
  induction hn : s.length using Nat.strongRecOn generalizing s with
  | _ n ih =>
    subst hn
    cases s with
    | nil => rfl
    | cons c t =>
      by_cases hc : c = ch '%'
      · subst hc
        cases hp : hexPair t with
        | false =>
          rw [norm_percent hp, decoded_percentByte, decoded_percent hp, ih t.length (by simp) t rfl]
        | true =>
          obtain ⟨a, b, r, rfl, ha, hb⟩ := hexPair_iff.mp hp
          rw [norm_percent_keep hp, norm_pair ha hb]
          obtain ⟨x, hx⟩ := Option.isSome_iff_exists.mp ha
          obtain ⟨y, hy⟩ := Option.isSome_iff_exists.mp hb
          rw [decoded_escape hx hy, decoded_escape hx hy, ih r.length (by simp; omega) r rfl]
      · by_cases hk : (unreserved c || reservedURL c) = true
        · rw [norm_keep hk, decoded_cons hc, decoded_cons hc, ih t.length (by simp) t rfl]
        · rw [norm_other hk hc, decoded_percentByte, decoded_cons hc, ih t.length (by simp) t rfl]

theorem percentByte_inPath (c x : UInt8) (h : x ∈ percentByte c) : inPath x = true := by
  have key : ∀ c : UInt8, ∀ x ∈ percentByte c, inPath x = true := forall_byte (by decide +kernel)
  exact key c x h

theorem notInPath_kept {c : UInt8} (h : ¬ inPath c = true) : (unreserved c || reservedURL c) = true ∧ c ≠ ch '%' := by
  have key : ∀ c : UInt8, ¬ inPath c = true → (unreserved c || reservedURL c) = true ∧ c ≠ ch '%' := forall_byte (by decide +kernel)
  exact key c h

theorem hexPair_takeWhile (s : Bytes) : hexPair (s.takeWhile inPath) = hexPair s := by
  cases h : hexPair s with
  | true =>
    obtain ⟨a, b, r, rfl, ha, hb⟩ := hexPair_iff.mp h
    rw [List.takeWhile_cons_of_pos (unhex_unreserved ha).2.1, List.takeWhile_cons_of_pos (unhex_unreserved hb).2.1]
    exact hexPair_iff.mpr ⟨a, b, _, rfl, ha, hb⟩
  | false =>
    cases h' : hexPair (s.takeWhile inPath) with
    | false => rfl
    | true =>
      obtain ⟨a, b, r, e, ha, hb⟩ := hexPair_iff.mp h'
      have hs := List.takeWhile_append_dropWhile (p := inPath) (l := s)
      rw [e] at hs
      have : hexPair s = true := by rw [← hs]; exact hexPair_iff.mpr ⟨a, b, r ++ s.dropWhile inPath, rfl, ha, hb⟩
      rw [this] at h; cases h

/-- Normalization keeps the parts of an URL apart. -/
theorem norm_split (s : Bytes) : (templateNormalize s).takeWhile inPath = templateNormalize (s.takeWhile inPath) ∧
    (templateNormalize s).dropWhile inPath = templateNormalize (s.dropWhile inPath) := by
  have skip : ∀ (p q : Bytes), (∀ c ∈ p, inPath c = true) →
      (p ++ q).takeWhile inPath = p ++ q.takeWhile inPath ∧ (p ++ q).dropWhile inPath = q.dropWhile inPath := by
    intro p q h
    induction p with
    | nil => exact ⟨rfl, rfl⟩
    | cons c p ih =>
      have hc := h c (by simp)
      obtain ⟨a, b⟩ := ih (fun x hx => h x (by simp [hx]))
      rw [List.cons_append, List.takeWhile_cons_of_pos hc, List.dropWhile_cons_of_pos hc, a, b]
      exact ⟨rfl, rfl⟩
  induction s with
  | nil => exact ⟨rfl, rfl⟩
  | cons c t ih =>
    by_cases hc : inPath c = true
    · rw [List.takeWhile_cons_of_pos hc, List.dropWhile_cons_of_pos hc]
      by_cases hk : (unreserved c || reservedURL c) = true
      · rw [norm_keep hk, norm_keep hk, List.takeWhile_cons_of_pos hc, List.dropWhile_cons_of_pos hc, ih.1, ih.2]
        exact ⟨rfl, rfl⟩
      · by_cases hp : c = ch '%'
        · subst hp
          cases hx : hexPair t with
          | true =>
            rw [norm_percent_keep hx, norm_percent_keep (by rw [hexPair_takeWhile, hx]), List.takeWhile_cons_of_pos hc,
              List.dropWhile_cons_of_pos hc, ih.1, ih.2]
            exact ⟨rfl, rfl⟩
          | false =>
            rw [norm_percent hx, norm_percent (by rw [hexPair_takeWhile, hx])]
            obtain ⟨a, b⟩ := skip (percentByte (ch '%')) (templateNormalize t) (percentByte_inPath _)
            rw [a, b, ih.1, ih.2]
            exact ⟨rfl, rfl⟩
        · rw [norm_other hk hp, norm_other hk hp]
          obtain ⟨a, b⟩ := skip (percentByte c) (templateNormalize t) (percentByte_inPath _)
          rw [a, b, ih.1, ih.2]
          exact ⟨rfl, rfl⟩
    · obtain ⟨hk, hp⟩ := notInPath_kept hc
      rw [norm_keep hk, List.takeWhile_cons_of_neg hc, List.dropWhile_cons_of_neg hc, List.takeWhile_cons_of_neg hc,
        List.dropWhile_cons_of_neg hc, norm_keep hk]
      exact ⟨rfl, rfl⟩

theorem target_norm (u : Bytes) : target (templateNormalize u) = target u := by
  unfold target
  rw [(norm_split u).1, (norm_split u).2, decoded_norm, decoded_norm]

theorem norm_append_keep (p s : Bytes) (h : ∀ c ∈ p, (unreserved c || reservedURL c) = true) :
    templateNormalize (p ++ s) = p ++ templateNormalize s := by
  induction p with
  | nil => rfl
  | cons c p ih =>
    rw [List.cons_append, norm_keep (h c (by simp)), ih (fun x hx => h x (by simp [hx]))]
    rfl

theorem opens_vscode (s : Bytes) : opens (templateNormalize (bytesOf "vscode://file/" ++ s)) = some (decoded (s.takeWhile inPath)) := by
  have hp : ∀ c ∈ bytesOf "vscode://file/", (unreserved c || reservedURL c) = true := by decide +kernel
  rw [norm_append_keep _ _ hp]
  unfold opens
  simp only
  rw [if_pos (List.isPrefixOf_iff_prefix.mpr ⟨_, rfl⟩), List.drop_left, (norm_split s).1, decoded_norm]

theorem decoded_length (s : Bytes) : (decoded s).length ≤ s.length ∧ ((decoded s).length = s.length → decoded s = s ∧ ¬ HasEscape s) := by
  induction hn : s.length using Nat.strongRecOn generalizing s with
  | _ n ih =>
    subst hn
    cases s with
    | nil =>
      rw [decoded]
      refine ⟨Nat.le_refl _, fun _ => ⟨rfl, ?_⟩⟩
      rintro ⟨p, a, b, r, e, -, -⟩
      cases p <;> cases e
    | cons c t =>
      obtain ⟨h1, h2⟩ := ih t.length (by simp) t rfl
      have step : (c = ch '%' → hexPair t = false) → decoded (c :: t) = c :: decoded t →
          (decoded (c :: t)).length ≤ (c :: t).length ∧ ((decoded (c :: t)).length = (c :: t).length → decoded (c :: t) = c :: t ∧ ¬ HasEscape (c :: t)) := by
        intro hx e
        rw [e]
        refine ⟨by simpa using h1, fun hl => ?_⟩
        obtain ⟨e1, e2⟩ := h2 (by simpa using hl)
        refine ⟨by rw [e1], ?_⟩
        rintro ⟨p, a, b, r, eq, ha, hb⟩
        cases p with
        | nil =>
          injection eq with q1 q2
          have := hx q1
          rw [q2] at this
          rw [hexPair_iff.mpr ⟨a, b, r, rfl, ha, hb⟩] at this
          cases this
        | cons x p =>
          injection eq with q1 q2
          exact e2 ⟨p, a, b, r, q2, ha, hb⟩
      by_cases hc : c = ch '%'
      · subst hc
        cases hp : hexPair t with
        | false => exact step (fun _ => hp) (decoded_percent hp)
        | true =>
          obtain ⟨a, b, r, rfl, ha, hb⟩ := hexPair_iff.mp hp
          obtain ⟨x, hx⟩ := Option.isSome_iff_exists.mp ha
          obtain ⟨y, hy⟩ := Option.isSome_iff_exists.mp hb
          have := (ih r.length (by simp; omega) r rfl).1
          rw [decoded_escape hx hy]
          simp only [List.length_cons]
          exact ⟨by omega, fun h => by omega⟩
      · exact step (fun h => absurd h hc) (decoded_cons hc)

theorem decoded_eq_of_no_escape (s : Bytes) (h : ¬ HasEscape s) : decoded s = s := by
  induction s with
  | nil => rw [decoded]
  | cons c t ih =>
    have ht : ¬ HasEscape t := by
      rintro ⟨p, a, b, r, rfl, ha, hb⟩
      exact h ⟨c :: p, a, b, r, rfl, ha, hb⟩
    by_cases hc : c = ch '%'
    · subst hc
      rw [decoded_percent, ih ht]
      cases hp : hexPair t with
      | false => rfl
      | true =>
        obtain ⟨a, b, r, rfl, ha, hb⟩ := hexPair_iff.mp hp
        exact absurd ⟨[], a, b, r, rfl, ha, hb⟩ h
    · rw [decoded_cons hc, ih ht]

theorem of_takeWhile {p : UInt8 → Bool} {s : Bytes} {c : UInt8} (h : c ∈ s.takeWhile p) : p c = true := by
  induction s with
  | nil => cases h
  | cons x s ih =>
    by_cases hx : p x = true
    · rw [List.takeWhile_cons_of_pos hx, List.mem_cons] at h
      rcases h with rfl | h
      · exact hx
      · exact ih h
    · rw [List.takeWhile_cons_of_neg hx] at h; cases h

theorem opened_exact (s : Bytes) : decoded (s.takeWhile inPath) = s ↔ (∀ c ∈ s, c ≠ ch '?' ∧ c ≠ ch '#') ∧ ¬ HasEscape s := by
  have hin : ∀ c, inPath c = true ↔ c ≠ ch '?' ∧ c ≠ ch '#' := by
    intro c; simp [inPath]
  constructor
  · intro h
    have l1 := (decoded_length (s.takeWhile inPath)).1
    rw [h] at l1
    have l2 := List.takeWhile_prefix (l := s) inPath
    have e : s.takeWhile inPath = s := l2.eq_of_length (Nat.le_antisymm l2.length_le l1)
    rw [e] at h
    refine ⟨fun c hc => (hin c).mp (by rw [← e] at hc; exact of_takeWhile hc), ((decoded_length s).2 (by rw [h])).2⟩
  · rintro ⟨h1, h2⟩
    rw [(takeWhile_all s (fun c hc => (hin c).mpr (h1 c hc))).1, decoded_eq_of_no_escape s h2]

/-! ## C125 -/

/-- **C125** With the function that was set last, the frames of a stack are all on the page, in order and each with its
compact place; a frame is a link if and only if the function has an URL for it, and the link means what the URL means. -/
theorem C125_links (calls : List SourceLinkFunc) (f : String → Bytes) (stack : List Frame) :
    ∃ l, locatedAll (sourceLinkFunc (calls ++ [some f])) stack = some l ∧ l.length = stack.length ∧
      ∀ (i : Nat) fr, stack[i]? = some fr →
        (f fr.fileLine = [] → l[i]? = some (.plain (compactFileLine fr))) ∧
        (f fr.fileLine ≠ [] → ∃ u, l[i]? = some (.link u (compactFileLine fr)) ∧ target u = target (f fr.fileLine)) := by
  have hf : sourceLinkFunc (calls ++ [some f]) = some f := by simp [sourceLinkFunc]
  rw [hf]
  refine ⟨stack.map fun fr => if f fr.fileLine ≠ [] then .link (templateNormalize (f fr.fileLine)) (compactFileLine fr) else .plain (compactFileLine fr), ?_, by simp, ?_⟩
  · unfold locatedAll
    induction stack with
    | nil => rfl
    | cons fr stack ih =>
      rw [List.mapM_cons, ih]
      unfold located
      simp only
      split <;> rename_i h <;> simp [h]
  · intro i fr hi
    rw [List.getElem?_map, hi]
    refine ⟨fun h => by simp [h], fun h => ⟨templateNormalize (f fr.fileLine), by simp [h], target_norm _⟩⟩

/-- By default there are no links. -/
theorem C125_default (stack : List Frame) : locatedAll (sourceLinkFunc []) stack = some (stack.map fun fr => .plain (compactFileLine fr)) := by
  unfold locatedAll
  induction stack with
  | nil => rfl
  | cons fr stack ih => rw [List.mapM_cons, ih]; rfl

/-- **C125**, exactly: with `SourceLinkVSCode`, the link of a frame of the program opens its file at its line if and only if
the path of the file has no `?`, no `#` and nothing that looks like an escape. -/
theorem C125_exact (calls : List SourceLinkFunc) (fr : StdFrame) :
    ∃ u, located (sourceLinkFunc (calls ++ [sourceLinkVSCode])) (toFrame fr) = some (.link u (compactFileLine (toFrame fr))) ∧
      (opens u = some (bytesOf (fr.file ++ ":" ++ toString fr.line)) ↔
        (∀ c ∈ bytesOf (fr.file ++ ":" ++ toString fr.line), c ≠ ch '?' ∧ c ≠ ch '#') ∧ ¬ HasEscape (bytesOf (fr.file ++ ":" ++ toString fr.line))) := by
  have hf : sourceLinkFunc (calls ++ [sourceLinkVSCode]) = sourceLinkVSCode := by simp [sourceLinkFunc]
  rw [hf]
  have hne : bytesOf "vscode://file/" ++ bytesOf (fr.file ++ ":" ++ toString fr.line) ≠ [] := by
    have : bytesOf "vscode://file/" ≠ [] := by decide +kernel
    intro h
    exact this (List.append_eq_nil_iff.mp h).1
  refine ⟨templateNormalize (bytesOf "vscode://file/" ++ bytesOf (fr.file ++ ":" ++ toString fr.line)), ?_, ?_⟩
  · show (if bytesOf "vscode://file/" ++ bytesOf (fr.file ++ ":" ++ toString fr.line) ≠ [] then some (Located.link (templateNormalize (bytesOf "vscode://file/" ++ bytesOf (fr.file ++ ":" ++ toString fr.line))) (compactFileLine (toFrame fr))) else some (.plain (compactFileLine (toFrame fr)))) = _
    rw [if_pos hne]
  rw [opens_vscode, Option.some.injEq]
  exact opened_exact _

/-- **C125**, the part that holds, with paths of plain characters. -/
theorem C125_vscode_partial (calls : List SourceLinkFunc) (fr : StdFrame)
    (h : ∀ c ∈ bytesOf (fr.file ++ ":" ++ toString fr.line), c ≠ ch '?' ∧ c ≠ ch '#' ∧ c ≠ ch '%') :
    ∃ u, located (sourceLinkFunc (calls ++ [sourceLinkVSCode])) (toFrame fr) = some (.link u (compactFileLine (toFrame fr))) ∧
      opens u = some (bytesOf (fr.file ++ ":" ++ toString fr.line)) := by
  obtain ⟨u, h1, h2⟩ := C125_exact calls fr
  refine ⟨u, h1, h2.mpr ⟨fun c hc => ⟨(h c hc).1, (h c hc).2.1⟩, ?_⟩⟩
  rintro ⟨p, a, b, r, e, -, -⟩
  exact (h (ch '%') (by rw [e]; simp)).2.2 rfl

/-- **C125** does not hold for other paths, though a file may have any name: the file of `c#/main.go` is not found. -/
theorem C125_vscode_violated : ∃ u s, located (sourceLinkFunc [sourceLinkVSCode]) (toFrame { function := "main.main", file := "/home/c#/main.go", line := 12 }) =
    some (.link u s) ∧ opens u = some (bytesOf "/home/c") ∧
    ∃ u' s', located (sourceLinkFunc [sourceLinkVSCode]) (toFrame { function := "main.main", file := "/home/a%41/main.go", line := 12 }) =
      some (.link u' s') ∧ opens u' = some (bytesOf "/home/aA/main.go:12") := by
  refine ⟨_, _, rfl, ?_, _, _, rfl, ?_⟩
  · show opens (templateNormalize (bytesOf "vscode://file/" ++ bytesOf "/home/c#/main.go:12")) = _
    rw [opens_vscode]
    have : (bytesOf "/home/c#/main.go:12").takeWhile inPath = bytesOf "/home/c" := by decide +kernel
    rw [this, decoded_eq_of_no_escape]
    rintro ⟨p, a, b, r, e, -, -⟩
    have h : ch '%' ∈ bytesOf "/home/c" := by rw [e]; simp
    revert h; decide +kernel
  · show opens (templateNormalize (bytesOf "vscode://file/" ++ bytesOf "/home/a%41/main.go:12")) = _
    rw [opens_vscode]
    have : (bytesOf "/home/a%41/main.go:12").takeWhile inPath = bytesOf "/home/a" ++ ch '%' :: ch '4' :: ch '1' :: bytesOf "/main.go:12" := by decide +kernel
    rw [this]
    have plain : ∀ p s : Bytes, (∀ c ∈ p, c ≠ ch '%') → decoded (p ++ s) = p ++ decoded s := by
      intro p s h
      induction p with
      | nil => rfl
      | cons c p ih => rw [List.cons_append, decoded_cons (h c (by simp)), ih (fun x hx => h x (by simp [hx]))]; rfl
    rw [plain _ _ (by decide +kernel), decoded_escape (x := 4) (y := 1) (by decide +kernel) (by decide +kernel)]
    have := plain (bytesOf "/main.go:12") [] (by decide +kernel)
    rw [List.append_nil] at this
    rw [this]
    simp only [decoded]
    decide +kernel

/-- And nil is not taken for the default: the page of any trace with a stack then fails. -/
theorem C125_nil_violated (calls : List SourceLinkFunc) (stack : List Frame) :
    locatedAll (sourceLinkFunc (calls ++ [none])) stack = none ↔ stack ≠ [] := by
  have hf : sourceLinkFunc (calls ++ [none]) = none := by simp [sourceLinkFunc]
  rw [hf]
  cases stack with
  | nil => simp [locatedAll]
  | cons fr stack => simp [locatedAll, located]

/-- A frame that meets the hypothesis of `C125_vscode_partial`, and another for which normalization has something to do. -/
example : (∀ c ∈ bytesOf ("/home/Müller (x)/main.go" ++ ":" ++ toString (12 : Nat)), c ≠ ch '?' ∧ c ≠ ch '#' ∧ c ≠ ch '%') ∧
    templateNormalize (bytesOf "vscode://file/" ++ bytesOf "/a (b)/main.go:12") = bytesOf "vscode://file//a%20%28b%29/main.go:12" := by
  decide +kernel

end Trc.Web
