import Verif.Web.JSON

/-!
# Reading back what was encoded
-/

namespace Trc.Web

open Trc.Core (Event Frame)

/-- Decode the value of a field. -/
def getv {α : Type} (v : JSON) (zero : α) (dec : JSON → Option α) : Option α :=
  match v with
  | .null => some zero
  | v => dec v

theorem get_append {α : Type} (name n : String) (v : JSON) (om : Bool) (rest : Fields) (zero : α) (dec : JSON → Option α) :
    get (field n v om ++ rest) name zero dec =
      if n = name then (if om then get rest name zero dec else getv v zero dec) else get rest name zero dec := by
  by_cases h : n = name
  · cases om
    · simp only [field, get, lookup, h, if_true, if_false, Bool.false_eq_true, List.cons_append, getv]
      cases v <;> rfl
    · simp [field, h]
  · cases om <;> simp [field, lookup, h, get]

theorem get_one {α : Type} (name n : String) (v : JSON) (om : Bool) (zero : α) (dec : JSON → Option α) :
    get (field n v om) name zero dec =
      if n = name then (if om then some zero else getv v zero dec) else some zero := by
  have := get_append name n v om [] zero dec
  rw [List.append_nil] at this
  rw [this]
  rfl

theorem getv_arr {α β : Type} (enc : β → JSON) (l : List β) (zero : α) (dec : JSON → Option α) :
    getv (encArr enc l) zero dec = dec (encArr enc l) := rfl
theorem getv_map {α β : Type} (enc : β → JSON) (l : List (String × β)) (zero : α) (dec : JSON → Option α) :
    getv (encMap enc l) zero dec = dec (encMap enc l) := rfl
theorem getv_str (s zero : String) : getv (.str s) zero decStr = some s := rfl
theorem getv_num (n zero : Int) : getv (.num n) zero decInt = some n := rfl
theorem getv_bool (b zero : Bool) : getv (.bool b) zero decBool = some b := rfl
theorem getv_time (t zero : Time) : getv (encTime t) zero decTime = some t.onWire := rfl

theorem omit_bool (b : Bool) : (if (!b) = true then some false else some b) = some b := by cases b <;> rfl
theorem omit_str (s : String) : (if (s == "") = true then some "" else some s) = some s := by
  by_cases h : s = "" <;> simp [h]
theorem omit_int (n : Int) : (if (n == 0) = true then some 0 else some n) = some n := by
  by_cases h : n = 0 <;> simp [h]
theorem omit_list {α : Type} (l : List α) (w : α → α) : (if l.isEmpty = true then some [] else some (l.map w)) = some (l.map w) := by
  cases l <;> rfl
theorem omit_list' {α : Type} (l : List α) : (if l.isEmpty = true then some [] else some l) = some l := by
  cases l <;> rfl
theorem omit_ptr {α : Type} {enc : α → JSON} {dec : JSON → Option α} {w : α → α} (h : ∀ x, dec (enc x) = some (w x))
    (hn : ∀ x, enc x ≠ .null) (p : Option α) :
    (if p.isNone = true then some none else getv (encPtr enc p) none (decPtr dec)) = some (p.map w) := by
  cases p with
  | none => rfl
  | some x =>
    have : getv (encPtr enc (some x)) none (decPtr dec) = decPtr dec (enc x) := by
      simp only [encPtr]
      have := hn x
      generalize enc x = v at this
      cases v with
      | null => exact absurd rfl this
      | _ => rfl
    have e : decPtr dec (enc x) = (dec (enc x)).map some := by
      have := hn x
      generalize enc x = v at this
      cases v with
      | null => exact absurd rfl this
      | _ => rfl
    simp [this, e, h]

theorem mapM_dec {α : Type} {enc : α → JSON} {dec : JSON → Option α} {w : α → α} (h : ∀ x, dec (enc x) = some (w x))
    (l : List α) : (l.map enc).mapM dec = some (l.map w) := by
  induction l with
  | nil => rfl
  | cons x l ih => simp [List.mapM_cons, h, ih]

theorem decArr_enc {α : Type} {enc : α → JSON} {dec : JSON → Option α} {w : α → α} (h : ∀ x, dec (enc x) = some (w x))
    (l : List α) : decArr dec (encArr enc l) = some (l.map w) := mapM_dec h l

theorem decArr_id {α : Type} {enc : α → JSON} {dec : JSON → Option α} (h : ∀ x, dec (enc x) = some x)
    (l : List α) : decArr dec (encArr enc l) = some l := by
  rw [decArr_enc (w := id) h]; simp

theorem decMap_enc {α : Type} {enc : α → JSON} {dec : JSON → Option α} {w : α → α} (h : ∀ x, dec (enc x) = some (w x))
    (l : List (String × α)) : decMap dec (encMap enc l) = some (l.map fun p => (p.1, w p.2)) := by
  unfold decMap encMap
  induction l with
  | nil => rfl
  | cons x l ih =>
    simp only [List.map_cons, List.mapM_cons, h, Option.map_some, Option.pure_def, Option.bind_eq_bind, Option.bind_some]
    simp only at ih
    rw [ih]
    rfl

theorem decStr_str (s : String) : decStr (.str s) = some s := rfl
theorem decInt_num (n : Int) : decInt (.num n) = some n := rfl

/-- Read the fields of an encoded struct. -/
macro "rd" : tactic => `(tactic|
  simp only [decObj, Option.bind_eq_bind, Option.bind_some, List.append_assoc, get_append, get_one, String.reduceEq,
    if_true, if_false, Bool.false_eq_true, getv_str, getv_num, getv_bool, getv_time, getv_arr, getv_map, omit_bool, omit_str, omit_int,
    decArr_id decStr_str, decArr_id decInt_num, omit_list'])

theorem frame_rt (f : Frame) : decFrame (encFrame f) = some f := by
  unfold decFrame encFrame
  rd
  rfl

theorem event_rt (e : Event) : decEvent (encEvent e) = some (wireEvent e) := by
  unfold decEvent encEvent
  rd
  simp only [decArr_id frame_rt, omit_list', Option.bind_some]
  rfl

theorem static_rt (t : Static) : decStatic (encStatic t) = some (wireStatic t) := by
  unfold decStatic encStatic
  rd
  simp only [decArr_enc event_rt, omit_list, Option.bind_some]
  rfl

theorem category_rt (c : CategoryStats) : decCategory (encCategory c) = some (wireCategory c) := by
  unfold decCategory encCategory
  rd
  rfl

theorem stats_rt (s : SearchStats) : decStats (encStats s) = some (wireStats s) := by
  unfold decStats encStats
  rd
  simp only [decMap_enc category_rt, Option.bind_some]
  rfl

theorem filter_rt (f : Filter) : decFilter (encFilter f) = some (wireFilter f) := by
  unfold decFilter encFilter
  rd
  simp only [omit_ptr (w := id) decInt_num (by simp), Option.map_id_fun, id, Option.bind_some]
  rfl

theorem request_rt (r : SearchRequest) : decRequest (encRequest r) = some (wireRequest r) := by
  unfold decRequest encRequest
  rd
  rw [show getv (encFilter r.filter) ({} : Filter) decFilter = decFilter (encFilter r.filter) from rfl, filter_rt]
  rfl

theorem reply_rt (r : Reply) : decReply (encReply r) = some (wireReply r) := by
  unfold decReply encReply
  rd
  simp only [omit_ptr request_rt (by simp [encRequest]), omit_ptr stats_rt (by simp [encStats]), decArr_enc static_rt, Option.bind_some]
  rfl

theorem data_rt (d : SearchData) : decData (encData d) =
    some { request := wireRequest d.request, response := wireReply d.response, problems := [] } := by
  unfold decData encData
  rd
  rw [show getv (encRequest d.request) ({} : SearchRequest) decRequest = decRequest (encRequest d.request) from rfl, request_rt,
    show getv (encReply d.response) ({} : Reply) decReply = decReply (encReply d.response) from rfl, reply_rt]
  rfl

end Trc.Web
