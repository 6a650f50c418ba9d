/-!
# What the selected elements share

`Info::new` of `oxvg_actions/src/info.rs` gathers the information that is shown for a selection.
The tables of element and attribute names are parameters.  A set of flags is the function that
tells which flags are set; a hash set is a list read by membership only, and a hash map is a list of
pairs read by its keys only, so the order of iteration is never observed.
-/

namespace Verif.Shared

/-- Text. -/
abbrev Text := List Char

/-- A child node, as far as `Info::new` looks at it: a text node with its optional value
(`NodeData::Text`, `oxvg_ast/src/node.rs:192-214`), or any other node with the text it
contributes to `text_content`. -/
inductive Child
  | text (value : Option Text)
  | other (value : Option Text)

/-- `node_type() == Type::Text` (`oxvg_actions/src/info.rs:188`). -/
def Child.isText : Child → Bool
  | .text _ => true
  | .other _ => false

/-- What a child contributes to the text of its parent (`oxvg_ast/src/node.rs:192-203`). -/
def Child.content : Child → Option Text
  | .text v => v
  | .other v => v

/-- An element: its name, its attributes with the value they are printed as, `none` where printing
fails (`to_value_string`, `oxvg_actions/src/info.rs:169`), and its children. -/
structure Element (N A : Type) where
  name : N
  attributes : List (A × Option Text)
  children : List Child

/-- `text_content` of an element (`oxvg_ast/src/node.rs:204-213`, `496-513`): the texts of the
children one after the other; never `None` for an element. -/
def Element.textContent {N A : Type} (e : Element N A) : Text :=
  (e.children.filterMap Child.content).foldl (fun acc item => acc ++ item) []

/-- A node of the allocator: `Node::element` gives the element or nothing
(`oxvg_actions/src/info.rs:145`). -/
inductive Node (N A : Type)
  | element (e : Element N A)
  | other

/-- `Node::element` (`oxvg_actions/src/info.rs:145`). -/
def Node.asElement {N A : Type} : Node N A → Option (Element N A)
  | .element e => some e
  | .other => none

/-- The tables of `oxvg_collections/src/element.rs:203-264`: `permitted_categories`,
`permitted_elements`, `expected_attribute_groups` and `expected_attributes`. -/
structure Tables (N A K G : Type) where
  categories : N → K → Bool
  elements : N → List N
  groups : N → G → Bool
  attributes : N → List A

/-- The result, `Info` with `ContentModel` and `AttrModel` (`oxvg_actions/src/info.rs:31-106`). -/
structure Info (N A K G : Type) where
  elementId : Option N
  categories : K → Bool
  elements : List N
  groups : G → Bool
  attributes : List A
  values : List (A × Text)
  text : Option Text

/-- The variables of the loop (`oxvg_actions/src/info.rs:150-156`). -/
structure Vars (N A K G : Type) where
  text : Option Text
  ids : List N
  categories : K → Bool
  elements : List N
  groups : G → Bool
  attributes : List A
  values : List (A × Text)

section
variable {N A K G : Type} [DecidableEq N] [DecidableEq A]

/-- `Map::get` (`oxvg_actions/src/info.rs:175`). -/
def get (m : List (A × Text)) (a : A) : Option Text := (m.find? fun p => p.1 = a).map (·.2)

/-- Insertion into a map replaces the value of the key (the `collect` of
`oxvg_actions/src/info.rs:179`). -/
def insert (m : List (A × Text)) (a : A) (v : Text) : List (A × Text) :=
  (a, v) :: m.filter fun p => p.1 ≠ a

/-- The chain of iterators over the attributes (`oxvg_actions/src/info.rs:160-179`): the attributes
are filtered by name, printed and filtered by value, behind the first element only; the first
failure ends the `collect`.  `acc` is the map collected so far. -/
def collect (first : Bool) (old : List (A × Text)) :
    List (A × Option Text) → List (A × Text) → Option (List (A × Text))
  | [], acc => some acc
  | (a, v) :: rest, acc =>
    if first || (get old a).isSome then
      match v with
      | none => none
      | some v =>
        if first || get old a = some v then collect first old rest (insert acc a v)
        else collect first old rest acc
    else collect first old rest acc

/-- The text after an element (`oxvg_actions/src/info.rs:181-192`). -/
def nextText (text : Option Text) (e : Element N A) : Option Text :=
  match text with
  | none => none
  | some inner =>
    if inner = [] && e.children.all Child.isText then some e.textContent else none

/-- Insertion into a set (`oxvg_actions/src/info.rs:217`). -/
def insertId (s : List N) (n : N) : List N := if n ∈ s then s else n :: s

/-- The body of the loop (`oxvg_actions/src/info.rs:157-218`); `none` is the error of printing. -/
def step (t : Tables N A K G) (first : Bool) (s : Vars N A K G) (e : Element N A) :
    Option (Vars N A K G) :=
  match collect first s.values e.attributes [] with
  | none => none
  | some values =>
    some
      { values
        text := nextText s.text e
        categories := fun k => s.categories k || t.categories e.name k
        elements := (t.elements e.name).filter fun n => first || decide (n ∈ s.elements)
        groups := fun g => s.groups g || t.groups e.name g
        attributes := (t.attributes e.name).filter fun a => first || decide (a ∈ s.attributes)
        ids := insertId s.ids e.name }

/-- The loop (`oxvg_actions/src/info.rs:157-218`): `first` tells whether `i` is zero. -/
def loop (t : Tables N A K G) : Bool → Vars N A K G → List (Element N A) → Option (Vars N A K G)
  | _, s, [] => some s
  | first, s, e :: rest =>
    match step t first s e with
    | none => none
    | some s => loop t false s rest

/-- The variables before the loop (`oxvg_actions/src/info.rs:150-156`). -/
def start : Vars N A K G :=
  { text := some []
    ids := []
    categories := fun _ => true
    elements := []
    groups := fun _ => true
    attributes := []
    values := [] }

/-- The end of `Info::new` (`oxvg_actions/src/info.rs:220-242`). -/
def finish (s : Vars N A K G) : Info N A K G :=
  { elementId := if s.ids.length = 1 then s.ids.head? else none
    categories := if s.ids.isEmpty then fun _ => false else s.categories
    elements := s.elements
    groups := if s.ids.isEmpty then fun _ => false else s.groups
    attributes := s.attributes
    values := s.values
    text := s.text }

/-- The result of `Info::new`: an error of printing, nothing, or the information. -/
inductive Outcome (N A K G : Type)
  | error
  | nothing
  | found (info : Info N A K G)

/-- `Info::new` (`oxvg_actions/src/info.rs:138-243`); `lookup` is `Allocator::get`. -/
def info (t : Tables N A K G) (lookup : Nat → Option (Node N A)) (selections : List Nat) :
    Outcome N A K G :=
  let selected := (selections.filterMap lookup).map Node.asElement
  if selected.any Option.isNone then .nothing
  else
    match loop t true start (selected.filterMap id) with
    | none => .error
    | some s => .found (finish s)

end

end Verif.Shared
