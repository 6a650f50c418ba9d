import Verif.Names.Model

/-!
# Model: the attribute collection of an element

`crates/oxvg_ast/src/attribute.rs`, `Attributes`. The `RefCell<Vec<Attr>>` is a list; a method that
changes it returns the new list.
-/

namespace Verif.Attrs

open Verif.Names

variable {K V : Type} [DecidableEq K]

/-- attribute.rs:154-159, `get_named_item`. -/
def get (l : List (Attr K V)) (n : AttrId K) : Option (Attr K V) :=
  l.find? (fun a => a.name.eq n)

/-- attribute.rs:162-168, `get_named_item_local`. -/
def getLocal (T : Table K) (l : List (Attr K V)) (loc : Str) : Option (Attr K V) :=
  l.find? (fun a => (a.prefix' T).isEmpty && a.loc T == loc)

/-- attribute.rs:171-177, `get_named_item_mut`. -/
def getMut (T : Table K) (l : List (Attr K V)) (n : AttrId K) : Option (Attr K V) :=
  l.find? (fun a => (a.prefix' T).eq (n.prefix' T) && a.loc T == n.loc T)

/-- attribute.rs:180-190, `get_named_item_ns`. -/
def getNs (T : Table K) (l : List (Attr K V)) (ns : NS) (loc : Str) : Option (Attr K V) :=
  l.find? (fun a => (a.prefix' T).isNs ns && a.loc T == loc)

/-- attribute.rs:212-216, `remove_named_item`: the collection afterwards and the returned attribute. -/
def remove (l : List (Attr K V)) (n : AttrId K) : List (Attr K V) × Option (Attr K V) :=
  match l.findIdx? (fun a => a.name.eq n) with
  | some i => (l.eraseIdx i, l[i]?)
  | none => (l, none)

/-- attribute.rs:222-233, `set_named_item`: the collection afterwards and the replaced attribute. -/
def set (T : Table K) (l : List (Attr K V)) (a : Attr K V) : List (Attr K V) × Option (Attr K V) :=
  match l.findIdx? (fun b => (b.prefix' T).eq (a.prefix' T) && b.loc T == a.loc T) with
  | some i => (l.set i a, l[i]?)
  | none => (l ++ [a], none)

/-- attribute.rs:341-346, `retain`. -/
def retain (l : List (Attr K V)) (f : Attr K V → Bool) : List (Attr K V) := l.filter f

/-- attribute.rs:38-41, `is_attribute!`: the id without alias is the given variant. -/
def isId (n : AttrId K) (x : K) : Bool :=
  match n.unaliased with
  | .known k => k == x
  | _ => false

/-- attribute.rs:288-301, `get_ns_priority`. `xmlnsAttr` is the id of the `xmlns` attribute, tested by
`is_attribute!`; `is_prefix!` looks at the
prefix without alias (name.rs:8-12). -/
def nsPriority (T : Table K) (xmlnsAttr : K) (xmlnsFront : Bool) (n : AttrId K) : Nat :=
  if xmlnsFront && isId n xmlnsAttr then 3
  else if xmlnsFront && ((n.prefix' T).unaliased == .std .xmlns) then 2
  else if (n.prefix' T).unaliased == .std .svg then 0
  else 1

/-- attribute.rs:312-319: the part of a local name before the first `-` (45). -/
def part (l : Str) : Str := l.takeWhile (· != 45)

/-- `order.iter().position(..)`, attribute.rs:321-322. -/
def position (order : List Str) (p : Str) : Option Nat := order.findIdx? (· == p)

/-- attribute.rs:303-335, the comparator given to `sort_by`. -/
def cmp (T : Table K) (xmlnsAttr : K) (order : List Str) (xmlnsFront : Bool) (a b : Attr K V) : Ordering :=
  let pa := nsPriority T xmlnsAttr xmlnsFront a.name
  let pb := nsPriority T xmlnsAttr xmlnsFront b.name
  if pa ≠ pb then compare pb pa
  else
    let qa := part (a.loc T)
    let qb := part (b.loc T)
    if qa ≠ qb then
      match position order qa, position order qb with
      | some i, some j => compare i j
      | some _, none => .lt
      | none, some _ => .gt
      | none, none => a.name.cmp T b.name
    else a.name.cmp T b.name

/-- attribute.rs:288-337, `sort`. `Vec::sort_by` is a stable sort when the comparator is a total order
(else it may panic); stable sorting is core Lean's `List.mergeSort`. -/
def sort (T : Table K) (xmlnsAttr : K) (order : List Str) (xmlnsFront : Bool) (l : List (Attr K V)) :
    List (Attr K V) :=
  l.mergeSort (fun a b => (cmp T xmlnsAttr order xmlnsFront a b).isLE)

/-- One change of a collection. -/
inductive Op (K V : Type)
  | set (a : Attr K V)
  | remove (n : AttrId K)
  | retain (f : Attr K V → Bool)

def step (T : Table K) (l : List (Attr K V)) : Op K V → List (Attr K V)
  | .set a => (set T l a).1
  | .remove n => (remove l n).1
  | .retain f => retain l f

def run (T : Table K) (l : List (Attr K V)) (ops : List (Op K V)) : List (Attr K V) :=
  ops.foldl (step T) l

end Verif.Attrs
