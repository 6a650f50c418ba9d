import Verif.Actions.Codec
import Verif.Number.Model
import Verif.ListOf.Model

/-!
# Model: the state of an actor and how it is kept in the document

Sources: `crates/oxvg_actions/src/state.rs` (`State`), `crates/oxvg_actions/src/effects.rs`,
`crates/oxvg_actions/src/actions.rs` (`Actor::new`, `snapshot`, `get_selections_list`),
`crates/oxvg_actions/src/actions/state.rs` and `crates/oxvg/src/commands/action.rs` (`ActionRun::run`).

Modelled: the element `oxvg:state` with its children, whether it is in the document, and whether the document
declares its namespace. Not modelled: the rest of the document, and what a query selects; the ids are given.
The document is taken to have a root element (without one `Actor::new` fails).
-/

namespace Verif.Actions

open Verif.ListOf (Sep write parseString parseList intText)
open Verif.Parse (Res)

/-- A child of `oxvg:state` in a document. `foreign`: anything that `debed_field` refuses. -/
inductive Field where
  | history (actions : List Xml)
  | selection (ids : Option (List Char))
  | foreign

/-- A document, as far as the state matters: whether `xmlns:oxvg` is set on the root element and the children of
`oxvg:state`, if that is the last element child of the root element. -/
structure Doc where
  declared : Bool
  state : Option (List Field)

/-- An element made or found as a child of `oxvg:state`; `attached` tells whether it still is one. -/
structure Cell where
  field : Field
  attached : Bool

/-- `state.rs` 32-38 (`State`). The elements are cells, in the order in which they are (or were) in `oxvg:state`;
`history` and `selection` are places in that list. `inDoc`: `oxvg:state` is the last element child of the root. -/
structure State where
  cells : List Cell
  history : Option Nat
  selection : Option Nat
  inDoc : Bool
  declared : Bool

/-- `state.rs` 137-151 (`debed_field`) on the child at place `i`. -/
def debedField (i : Nat) (f : Field) (st : State) : Option State :=
  match f with
  | .history _ => some { st with history := some i }
  | .selection _ => some { st with selection := some i }
  | .foreign => none

/-- `state.rs` 98-100, the loop over the children, from place `i` on. -/
def debedFields : Nat → List Field → State → Option State
  | _, [], st => some st
  | i, f :: fs, st => (debedField i f st).bind (debedFields (i + 1) fs)

/-- The children of the state element of the document; of a new one if there is none. -/
def Doc.fields (d : Doc) : List Field := d.state.getD []

/-- `state.rs` 77-103 (`State::debed`), `actions.rs` 143-152 (`Actor::new`): the state element leaves the document. -/
def new (d : Doc) : Option State :=
  debedFields 0 d.fields
    { cells := d.fields.map fun f => ⟨f, true⟩, history := none, selection := none, inDoc := false, declared := d.declared }

/-- `state.rs` 105-135 (`State::embed`). -/
def embedState (st : State) : State :=
  if st.history.isNone && st.selection.isNone then st
  else if st.inDoc then st
  else { st with inDoc := true, declared := true }

/-- `state.rs` 158-173 (`get_selections`): the selection element, made if need be. -/
def getSelections (st : State) : State :=
  match st.selection with
  | some _ => st
  | none => { st with cells := st.cells ++ [⟨.selection none, true⟩], selection := some st.cells.length }

/-- `state.rs` 175-190 (`get_history`). -/
def getHistory (st : State) : State :=
  match st.history with
  | some _ => st
  | none => { st with cells := st.cells ++ [⟨.history [], true⟩], history := some st.cells.length }

/-- `Element::append` of an action to a history element. -/
def Cell.push (x : Xml) (c : Cell) : Cell :=
  match c.field with
  | .history l => { c with field := .history (l ++ [x]) }
  | _ => c

/-- Change the cell at the place. -/
def State.modify (f : Cell → Cell) (at_ : Option Nat) (st : State) : State :=
  match at_ with
  | none => st
  | some i => { st with cells := st.cells.modify i f }

/-- `state.rs` 153-156 (`record`). -/
def record (x : Xml) (st : State) : State :=
  (getHistory st).modify (Cell.push x) (getHistory st).history

/-- `set_attribute` or `remove_attribute` of `oxvg:ids` on a selection element. -/
def Cell.setIds (ids : Option (List Char)) (c : Cell) : Cell :=
  match c.field with
  | .selection _ => { c with field := .selection ids }
  | _ => c

/-- `Node::remove` on a child of the state element. -/
def Cell.detach (c : Cell) : Cell := { c with attached := false }

/-- `effects.rs` 58-76 (`effect_selection`). -/
def effectSelection (ids : List Int) (st : State) : State :=
  let st := getSelections st
  if ids.isEmpty then st.modify (fun c => (c.setIds none).detach) st.selection
  else embedState (st.modify (Cell.setIds (some (write intText .spaceOrComma ids))) st.selection)

/-- The value of `oxvg:ids` of the cell. -/
def Cell.ids (c : Cell) : Option (List Char) :=
  match c.field with
  | .selection v => v
  | _ => none

/-- The selection element, if there is one. -/
def State.selCell (st : State) : Option Cell := st.selection.bind fun i => st.cells[i]?

/-- `ListOf::<Integer, SpaceOrComma>::parse_string`. -/
def parseIds (t : List Char) : Option (List Int) :=
  match parseString (parseList Verif.Number.parseI32 .spaceOrComma) t with
  | .ok l _ => some l
  | _ => none

/-- The selected ids of a selection element: none without the attribute, an error (`none`) if the attribute has
another value. -/
def idsOf : Option (List Char) → Option (List Int)
  | none => some []
  | some t => parseIds t

/-- `state.rs` 196-209 (`DerivedState::from_state`, the selection); `actions.rs` 217-229 (`get_selections_list`)
reads the same. `none` is the error. -/
def State.selected (st : State) : Option (List Int) := idsOf (st.selCell.bind Cell.ids)

/-- The actions in a history element. -/
def Cell.actions (c : Cell) : List Xml :=
  match c.field with
  | .history l => l
  | _ => []

/-- `state.rs` 211-216: the recorded actions, as elements. -/
def State.recorded (st : State) : List Xml :=
  match st.history.bind fun i => st.cells[i]? with
  | none => []
  | some c => c.actions

/-- `effects.rs` 29-37, `StateEffect::Remove`, and `actions/state.rs` 28-33: `xmlns:oxvg` is removed too. -/
def removeState (st : State) : State := { st with inDoc := false, declared := false }

/-- What is done with an actor. The ids found by a query are given (`none`: the query is refused). -/
inductive Op where
  /-- `actions/state.rs` 48-53 (`select`) -/
  | select (rec : Xml) (found : Option (List Int))
  /-- `actions/state.rs` 67-75 (`select_more`) -/
  | selectMore (rec : Xml) (found : Option (List Int))
  /-- `actions/state.rs` 86-89 (`deselect`) -/
  | deselect (rec : Xml)
  /-- `actions/state.rs` 23-35 (`forget`) -/
  | forget (rec : Xml)
  /-- Any of the other actions: it is recorded, the selection is looked up, and the selection is set any number of
  times: never by `attr`, `class`, `style` and the transforms (`manipulate.rs`, `transform.rs`), up to twice by
  `insert` and the path operations (`structure/creation.rs` 54-61, `manipulate/path.rs`; `effects.rs` 80-95). -/
  | edit (rec : Xml) (selections : List (List Int))
  /-- `actions.rs` 154-163 (`snapshot`) -/
  | snapshot

/-- Setting the selection to what was found, if the query was accepted. -/
def setFound (st : State) : Option (List Int) → State
  | none => st
  | some l => effectSelection l st

/-- `actions/state.rs` 70-74, from the former selection on. -/
def extend (st : State) (found : Option (List Int)) : Option (List Int) → State
  | none => st
  | some old => setFound st (found.map (old ++ ·))

/-- One operation. -/
def step (st : State) : Op → State
  | .select r found => setFound (record r st) found
  | .selectMore r found => extend (getSelections (record r st)) found (getSelections (record r st)).selected
  | .deselect r => effectSelection [] (record r st)
  | .forget r => removeState (effectSelection [] (record r st))
  | .edit r sels => sels.foldl (fun st l => effectSelection l st) (getSelections (record r st))
  | .snapshot => embedState st

/-- Operations one after the other. -/
def run (st : State) (ops : List Op) : State := ops.foldl step st

/-- The document with the state element in it, if it is there. -/
def State.doc (st : State) : Doc :=
  { declared := st.declared
    state := if st.inDoc then some ((st.cells.filter Cell.attached).map Cell.field) else none }

/-- `actions.rs` 154-163 (`snapshot`): the document written. -/
def snapshot (st : State) : Doc := (embedState st).doc

/-- `commands/action.rs` 136-162: the actions are run on the document, which is then written as it is. -/
def commandLine (d : Doc) (ops : List Op) : Option Doc := (new d).map fun st => (run st ops).doc

end Verif.Actions
