import Verif.Select.Props

/-!
# Model: removing attributes by selectors

`crates/oxvg_optimiser/src/jobs/remove_attributes_by_selector.rs`, on the selectors of `Verif.Select`. The selection is an iterator
(selectors.rs:257-271): an element is tested when its turn comes, on the document as it is by then. Removing attributes does not change
which elements there are, so that the places of the elements that are looked at are those of the document at the start. The parser of
selectors is a parameter.
-/

namespace Verif.BySelector

open Verif.Select

/-- A place in a document: which child, and which child of it, and so on. -/
abbrev Place := List Nat

/-- name.rs (collections):296-303, `to_string` of a name: the prefix, a colon and the local name. -/
def qname (a : Attr) : Str := match a.pre with
  | some p => p ++ 58 :: a.loc
  | none => a.loc

/-- remove_attributes_by_selector.rs:57: whether an attribute is retained. -/
def keeps (rm : List Str) (a : Attr) : Bool := !rm.contains (qname a)

/-- A child that is an element. -/
def kidAt (l : Loc) (i : Nat) : Option Loc := match l.here.kids[i]? with
  | some (.elem n as ks) => some ⟨⟨(l.here.kids.take i).reverse, n, as, ks, l.here.kids.drop (i + 1)⟩, l.here :: l.up⟩
  | _ => none

/-- The element at a place below an element. -/
def locAt (l : Loc) : Place → Option Loc
  | [] => some l
  | i :: p => match kidAt l i with
    | some k => locAt k p
    | none => none

/-- remove_attributes_by_selector.rs:55-57: `retain` on the attributes of the element at a place. -/
def stripIn (rm : List Str) : Place → Node → Node
  | [], .elem n as ks => .elem n (as.filter (keeps rm)) ks
  | i :: p, .elem n as ks => .elem n as (ks.modify i (stripIn rm p))
  | _, x => x

/-- The same, for the element at the top. -/
def stripTop (rm : List Str) (p : Place) (d : Frame) : Frame := match stripIn rm p d.node with
  | .elem n as ks => { d with name := n, attrs := as, kids := ks }
  | _ => d

/-- remove_attributes_by_selector.rs:54-58: the loop over the selection, which is tested as it goes. -/
def loop (E : Env) (addr : Nat) (ss : Sels) (rm : List Str) : List Place → Frame → Cache → Frame
  | [], d, _ => d
  | p :: ps, d, c => match locAt ⟨d, []⟩ p with
    | none => loop E addr ss rm ps d c
    | some l => loop E addr ss rm ps (if (sels E (some addr) ss l c).1 then stripTop rm p d else d) (sels E (some addr) ss l c).2

/-- The elements of a document with one element at the top, in the order of the iterator (element.rs:825-848): the selection is of the document
node (visitor.rs:261-263, 318-320), so that it starts with the element at the top. -/
def everything (d : Frame) : List Loc := ⟨d, []⟩ :: Loc.below ⟨d, []⟩

/-- Their places. -/
def places (d : Frame) : List Place := (everything d).map fun l => l.path.drop 1

/-- remove_attributes_by_selector.rs:51-58, one item. -/
def removeOne (E : Env) (addr : Nat) (ss : Sels) (rm : List Str) (d : Frame) : Frame := loop E addr ss rm (places d) d []

/-- remove_attributes_by_selector.rs:46-62, `document`: nothing for a selector that cannot be parsed. -/
def job (E : Env) (addr : Nat) (parse : Str → Option Sels) : List (Str × List Str) → Frame → Option Frame
  | [], d => some d
  | (s, rm) :: items, d => match parse s with
    | none => none
    | some ss => job E addr parse items (removeOne E addr ss rm d)

end Verif.BySelector
