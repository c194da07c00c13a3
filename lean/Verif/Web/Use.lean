/-!
# What the page does when it is used (trcweb/assets/traces.html:39-47, 243, 361-371, 404-475, 484-567)

The scripts of the page: stacks are opened and closed, the debug information is shown and hidden, and events are
highlighted along with their part of the timeline while the pointer is on them.  Of the document only the elements
that these scripts look for are modelled.  IDs of traces are ULIDs (Verif/Core/Ulid.lean), so `div#trace-${id}` is a
valid selector for the blocks of exactly that ID.
-/

namespace Trc.Web.Use

/-! ## The page -/

/-- A trace on the page: its ID, and how many events it has. -/
structure PTrace where
  id : String
  events : Nat

/-- The blocks of the traces, in order, traces.html:380-475. -/
abbrev Page := List PTrace

/-- An event of the trace exists. -/
def has (page : Page) (k i : Nat) : Bool :=
  match page[k]? with
  | some t => decide (i < t.events)
  | none => false

/-- The elements that can have the class `hover`, with the block they are in and the `Index` of their event (which is
the number of events for the end of the trace, render.go:351): the timeline (traces.html:459), the row of an event (417),
the bar in it (424) and its part of the timeline (462). -/
inductive Elem where
  | timeline (k : Nat)
  | row (k i : Nat)
  | bar (k i : Nat)
  | part (k i : Nat)
deriving DecidableEq

/-- The selector of `hoverEvent(id, index)` matches, traces.html:363-367.  The row of the start has index -1, but no
class for it (417). -/
def selects (page : Page) (id : String) (index : Int) : Elem → Bool
  | .timeline k => match page[k]? with
    | some t => t.id == id
    | none => false
  | .row k i | .bar k i | .part k i => match page[k]? with
    | some t => t.id == id && decide ((i : Int) = index)
    | none => false

/-- `hoverEvent`, traces.html:362-370: toggles the class. -/
def hoverEvent (page : Page) (id : String) (index : Int) (hover : Elem → Bool) : Elem → Bool :=
  fun e => hover e ^^ selects page id index e

/-- Where the pointer is: in a row, given by its block and `Index`, on some element of it; or elsewhere. -/
abbrev Place := Option (Nat × Int × Nat)

/-- The listeners for `mouseover` and `mouseout` of a row, traces.html:417: both call `hoverEvent`, also for the elements in
the row (the events bubble). -/
def listener (page : Page) (p : Place) (hover : Elem → Bool) : Elem → Bool :=
  match p with
  | none => hover
  | some (k, index, _) => match page[k]? with
    | some t => hoverEvent page t.id index hover
    | none => hover

/-! ## The state -/

inductive Focus where
  | body
  | searchBox
  | other
deriving DecidableEq

structure St where
  page : Page := []
  /-- `open` of the stack of an event, given by block and index -/
  opened : Nat → Nat → Bool := fun _ _ => false
  focus : Focus := .searchBox
  /-- the item `debug-info` of the session storage, which lives longer than the page -/
  debug : Bool := false
  hover : Elem → Bool := fun _ => false
  place : Place := none

/-- What a user does. -/
inductive Do where
  /-- open a page of the server in the same tab; `found` are the stacks that the script opens for a query,
  traces.html:86-89 -/
  | load (page : Page) (found : Nat → Nat → Bool)
  /-- click on the time, the delta or the text of an event -/
  | event (k i : Nat)
  /-- click on the `summary` of its stack -/
  | summary (k i : Nat)
  /-- click on the ≡ of a trace -/
  | stacks (k : Nat)
  | key (code : Nat) (shift : Bool)
  /-- click on the debug information -/
  | debugInfo
  /-- focus something else, by a click or a key -/
  | focus (f : Focus)
  | move (p : Place)

/-- `anyOpen`, of the stacks in the blocks that satisfy a condition: traces.html:40-43, 532-535. -/
def anyOpen (page : Page) (sel : PTrace → Bool) (opened : Nat → Nat → Bool) : Bool :=
  (List.range page.length).any fun k => match page[k]? with
    | some t => sel t && (List.range t.events).any fun i => opened k i
    | none => false

/-- `elem.open = !anyOpen` for all of them, traces.html:44-46, 536-538. -/
def toggleAll (page : Page) (sel : PTrace → Bool) (opened : Nat → Nat → Bool) : Nat → Nat → Bool :=
  fun k i => match page[k]? with
    | some t => if sel t && decide (i < t.events) then !anyOpen page sel opened else opened k i
    | none => opened k i

/-- One stack is toggled, traces.html:491-493, or by the browser. -/
def toggleOne (page : Page) (k i : Nat) (opened : Nat → Nat → Bool) : Nat → Nat → Bool :=
  fun k' i' => if k' = k ∧ i' = i ∧ has page k i = true then !opened k' i' else opened k' i'

/-- The listener of the body for keys, traces.html:541-554, and that of the document, 562-567. -/
def keydown (s : St) (code : Nat) (shift : Bool) : St :=
  let s := if s.focus = .body then
      if code = 68 then { s with debug := !s.debug }
      else if code = 83 then { s with opened := toggleAll s.page (fun _ => true) s.opened }
      else if code = 191 ∧ shift = false then { s with focus := .searchBox }
      else s
    else s
  if code = 27 ∧ s.focus = .searchBox then { s with focus := .body } else s

def St.act (s : St) : Do → St
  | .load page found => { page, opened := found, focus := .searchBox, debug := s.debug }
  | .event k i | .summary k i => { s with opened := toggleOne s.page k i s.opened }
  | .stacks k => match s.page[k]? with
    | some t => { s with opened := toggleAll s.page (fun t' => t'.id == t.id) s.opened }
    | none => s
  | .key code shift => keydown s code shift
  | .debugInfo => { s with debug := !s.debug }
  | .focus f => { s with focus := f }
  /- the browser fires `mouseout` where the pointer was and `mouseover` where it is, if these are different elements -/
  | .move p => { s with place := p, hover := if p = s.place then s.hover else listener s.page p (listener s.page s.place s.hover) }

def St.run (s : St) : List Do → St
  | [] => s
  | a :: l => (s.act a).run l

end Trc.Web.Use
