import Verif.Search.Request

/-!
# Requests as shared memory (search_types.go:34-61, filter.go:172-190)

`Normalize` and `Allow` take pointers: the searchers of a `MultiSearcher` all work on the same request, and all requests
without buckets on the same `DefaultBucketing`.  Here a request has its slice of buckets as a pointer to an array, and
the statements of any number of goroutines are interleaved.

`sort.Slice` is one step, and does not write to a slice that is in order already: it only swaps elements that
`less` says are not.  Slices are whole arrays; no code here appends to a slice of buckets in place.
-/

namespace Trc.Shared

/-- `type SearchRequest`, with the array behind `Bucketing`. -/
structure Req where
  arr : Option Nat := none
  filter : Filter := {}
  limit : Int := 0

/-- Arrays, requests, and the next array to be allocated.  Array 0 is that of `DefaultBucketing`. -/
structure Heap where
  arrays : Nat → List Duration
  reqs : Nat → Req
  next : Nat

/-- What is read and written; of a filter, `Query` and `regexp`. -/
inductive Loc where
  | array (a : Nat)
  | bucketing (r : Nat)
  | filter (r : Nat)
  | limit (r : Nat)
deriving DecidableEq

/-- An access, by a goroutine. -/
structure Acc where
  t : Nat
  write : Bool
  l : Loc
deriving DecidableEq

def set {β : Type} (f : Nat → β) (a : Nat) (b : β) : Nat → β := fun x => if x = a then b else f x

/-- The buckets of a request. -/
def Heap.buckets (h : Heap) (r : Nat) : List Duration :=
  match (h.reqs r).arr with
  | none => []
  | some a => h.arrays a

/-- The statements of `Normalize`, and others that use a request. -/
inductive Stage where
  /-- search_types.go:37-39 -/
  | default (r : Nat)
  /-- search_types.go:40-42 -/
  | sort (r : Nat)
  /-- search_types.go:43-45 -/
  | zero (r : Nat)
  /-- `initializeQueryRegexp`, filter.go:172-190, called by `Normalize` and `Allow` -/
  | query (r : Nat)
  /-- search_types.go:51-58 -/
  | limit (r : Nat)
  /-- reading any of it: `NewSearchStats(req.Bucketing)`, `req.Limit`, `Allow`, encoding -/
  | look (r : Nat)

/-- The request that a statement is about. -/
def Stage.req : Stage → Nat
  | .default r => r
  | .sort r => r
  | .zero r => r
  | .query r => r
  | .limit r => r
  | .look r => r

/-- `Normalize`, search_types.go:34-61. -/
def normalize (r : Nat) : List Stage := [.default r, .sort r, .zero r, .query r, .limit r]

/-- Reading the buckets. -/
def readBuckets (h : Heap) (t r : Nat) : List Acc :=
  ⟨t, false, .bucketing r⟩ :: match (h.reqs r).arr with
    | none => []
    | some a => [⟨t, false, .array a⟩]

/-- The array is in order. -/
def inOrder : List Duration → Bool
  | [] => true
  | [_] => true
  | x :: y :: l => decide (x ≤ y) && inOrder (y :: l)

/-- A statement: what it leaves, and its accesses. -/
def exec (compile : Compile) (h : Heap) (t : Nat) : Stage → Heap × List Acc
  | .default r =>
    if h.buckets r = [] then
      ({ h with reqs := set h.reqs r { h.reqs r with arr := some 0 } }, [⟨t, false, .bucketing r⟩, ⟨t, true, .bucketing r⟩])
    else (h, [⟨t, false, .bucketing r⟩])
  | .sort r =>
    match (h.reqs r).arr with
    | none => (h, readBuckets h t r)
    | some a =>
      if inOrder (h.arrays a) then (h, readBuckets h t r)
      else ({ h with arrays := set h.arrays a (sortDurations (h.arrays a)) }, readBuckets h t r ++ [⟨t, true, .array a⟩])
  | .zero r =>
    match h.buckets r with
    | [] => (h, readBuckets h t r)
    | b :: bs =>
      if b ≠ 0 then
        ({ arrays := set h.arrays h.next (0 :: b :: bs), reqs := set h.reqs r { h.reqs r with arr := some h.next }, next := h.next + 1 },
          readBuckets h t r ++ [⟨t, true, .array h.next⟩, ⟨t, true, .bucketing r⟩])
      else (h, readBuckets h t r)
  | .query r =>
    if (h.reqs r).filter.regexp.isSome ∨ (h.reqs r).filter.query = "" then (h, [⟨t, false, .filter r⟩])
    else ({ h with reqs := set h.reqs r { h.reqs r with filter := ((h.reqs r).filter.initializeQueryRegexp compile).1 } },
      [⟨t, false, .filter r⟩, ⟨t, true, .filter r⟩])
  | .limit r =>
    if (h.reqs r).limit ≤ 0 ∨ (h.reqs r).limit < searchLimitMin ∨ (h.reqs r).limit > searchLimitMax then
      ({ h with reqs := set h.reqs r { h.reqs r with limit := normalizeLimit (h.reqs r).limit } }, [⟨t, false, .limit r⟩, ⟨t, true, .limit r⟩])
    else (h, [⟨t, false, .limit r⟩])
  | .look r => (h, readBuckets h t r ++ [⟨t, false, .filter r⟩, ⟨t, false, .limit r⟩])

/-- Statements of any goroutines in any order: what they leave, and all accesses. -/
def run (compile : Compile) (h : Heap) : List (Nat × Stage) → Heap × List Acc
  | [] => (h, [])
  | (t, s) :: rest =>
    let x := exec compile h t s
    let y := run compile x.1 rest
    (y.1, x.2 ++ y.2)

/-- The state at the start: `DefaultBucketing`, and requests whose buckets are in arrays that exist. -/
structure Heap.WF (h : Heap) : Prop where
  default : h.arrays 0 = defaultBucketing
  next : 1 ≤ h.next
  arr : ∀ r a, (h.reqs r).arr = some a → a < h.next

end Trc.Shared
