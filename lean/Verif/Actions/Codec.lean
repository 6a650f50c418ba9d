/-!
# Model: how actions are stored in a document and read from the command line

Sources: `crates/oxvg_actions/src/state.rs` (`Action::from_state`, `Action::embed`, `Action::embed_arg`,
`Action::name`), `crates/oxvg_actions/src/actions.rs` (`Action`), `crates/oxvg_actions/src/utils.rs`
(`assert_oxvg_element`, `get_oxvg_attr`), `crates/oxvg_ast/src/node.rs` (`text_content`,
`set_text_content`) and `crates/oxvg/src/commands/action.rs` (`parse`).

Numbers are of a type `N` that comes with writing and reading, which are parameters: `f32::to_string`
and `str::parse::<f32>` for the document, `f32::parse_string` for the command line.
-/

namespace Verif.Actions

/-- `crates/oxvg_actions/src/actions.rs` 40-86 (`enum Action`). -/
inductive Action (N : Type) where
  | attr (name value : String)
  | cls (name : String)
  | pathIntersect
  | pathUnion
  | pathSubtract
  | pathXor
  | style (property value : String)
  | matrix (a b c d e f : N)
  | translate (x : N) (y : Option N)
  | scale (x : N) (y : Option N)
  | rotate (angle : N) (origin : Option (N × N))
  | skewX (angle : N)
  | skewY (angle : N)
  | insert (name : String)
  | forget
  | select (query : String)
  | selectMore (query : String)
  | deselect
deriving DecidableEq, Repr

/-- A node below the state element: a text, or an element. `oxvg` tells whether the name is in the
namespace of OXVG (`utils.rs` 13-20, `is_oxvg_xmlns`). Of the attributes only the ones in that namespace are
kept, as they are the only ones looked at (`utils.rs` 45-62, `get_oxvg_attr`). -/
inductive Xml where
  | text (value : String)
  | elem (oxvg : Bool) (name : String) (attrs : List (String × String)) (kids : List Xml)

mutual
/-- `node.rs` 192-214, 496-513 (`text_content`), for texts and elements. -/
def textContent : Xml → String
  | .text v => v
  | .elem _ _ _ kids => textContents kids
/-- `node.rs` 204-212: the texts of the children one after the other. -/
def textContents : List Xml → String
  | [] => ""
  | k :: ks => textContent k ++ textContents ks
end

/-- Whether the node is an element (`Element::children_iter` gives only these). -/
def isElem : Xml → Bool
  | .text _ => false
  | .elem .. => true

/-- `Element::children_iter`. -/
def childrenOf : Xml → List Xml
  | .text _ => []
  | .elem _ _ _ kids => kids.filter isElem

/-- The errors of `crates/oxvg_actions/src/error.rs` met when the history is read. -/
inductive Err where
  | namespace_
  | element (name : String)
  | missing (name : String)
  | value (text : String)
  | action (id : String)
deriving DecidableEq, Repr

/-- `utils.rs` 30-43 (`assert_oxvg_element`). -/
def assertElement (local_ : String) : Xml → Except Err Unit
  | .text _ => .error .namespace_
  | .elem oxvg name _ _ =>
    if oxvg = false then .error .namespace_
    else if name = local_ then .ok ()
    else .error (.element name)

/-- `utils.rs` 45-62 (`get_oxvg_attr`), the value of the first attribute with that name. -/
def oxvgAttr (local_ : String) : Xml → Option String
  | .text _ => none
  | .elem _ _ attrs _ => attrs.lookup local_

/-- `state.rs` 268-271: an argument is the text of an element `oxvg:arg`. The closure runs only when the
argument is asked for. -/
def argOf (child : Xml) : Except Err String :=
  match assertElement "arg" child with
  | .error e => .error e
  | .ok () => .ok (textContent child)

/-- `args.next().transpose()?` followed by `else { return Err(MissingStateAttribute) }`
(for instance `state.rs` 286-288). -/
def need (args : List (Except Err α)) (k : α → List (Except Err α) → Except Err β) : Except Err β :=
  match args with
  | [] => .error (.missing "arg")
  | .error e :: _ => .error e
  | .ok a :: rest => k a rest

/-- `args.next().transpose()?` for an optional argument (for instance `state.rs` 343). -/
def opt (args : List (Except Err α)) (k : Option α → List (Except Err α) → Except Err β) : Except Err β :=
  match args with
  | [] => k none []
  | .error e :: _ => .error e
  | .ok a :: rest => k (some a) rest

/-- `state.rs` 272-282 (`n_args`): the argument as a number. -/
def numArg (read : String → Option N) (a : Except Err String) : Except Err N :=
  match a with
  | .error e => .error e
  | .ok t => match read t with
    | some n => .ok n
    | none => .error (.value t)

/-- `state.rs` 360-368: the origin of a rotation, both numbers or neither. -/
def origin : Option N → Option N → Except Err (Option (N × N))
  | some _, none => .error (.missing "arg")
  | some x, some y => .ok (some (x, y))
  | none, _ => .ok none

/-- `state.rs` 284-391, the `match` of `Action::from_state` on the `oxvg:id`. There is no arm for `Insert`. -/
def fromParts (read : String → Option N) (id : String) (args : List (Except Err String)) :
    Except Err (Action N) :=
  if id = "Attr" then need args fun name args => need args fun value _ => .ok (.attr name value)
  else if id = "Class" then need args fun c _ => .ok (.cls c)
  else if id = "PathIntersect" then .ok .pathIntersect
  else if id = "PathUnion" then .ok .pathUnion
  else if id = "PathSubtract" then .ok .pathSubtract
  else if id = "PathXor" then .ok .pathXor
  else if id = "Style" then need args fun p args => need args fun value _ => .ok (.style p value)
  else if id = "Matrix" then
    need (args.map (numArg read)) fun a args => need args fun b args => need args fun c args =>
    need args fun d args => need args fun e args => need args fun f _ => .ok (.matrix a b c d e f)
  else if id = "Translate" then
    need (args.map (numArg read)) fun x args => opt args fun y _ => .ok (.translate x y)
  else if id = "Scale" then
    need (args.map (numArg read)) fun x args => opt args fun y _ => .ok (.scale x y)
  else if id = "Rotate" then
    need (args.map (numArg read)) fun deg args => opt args fun x args => opt args fun y _ =>
      match origin x y with
      | .error e => .error e
      | .ok o => .ok (.rotate deg o)
  else if id = "SkewX" then need (args.map (numArg read)) fun x _ => .ok (.skewX x)
  else if id = "SkewY" then need (args.map (numArg read)) fun y _ => .ok (.skewY y)
  else if id = "Forget" then .ok .forget
  else if id = "Select" then need args fun q _ => .ok (.select q)
  else if id = "SelectMore" then need args fun q _ => .ok (.selectMore q)
  else if id = "Deselect" then .ok .deselect
  else .error (.action id)

/-- `state.rs` 261-393 (`Action::from_state`). -/
def fromState (read : String → Option N) (e : Xml) : Except Err (Action N) :=
  match assertElement "action" e with
  | .error err => .error err
  | .ok () => match oxvgAttr "id" e with
    | none => .error (.missing "id")
    | some id => fromParts read id ((childrenOf e).map argOf)

/-- `state.rs` 466-487 (`Action::name`). -/
def Action.name : Action N → String
  | .attr .. => "Attr"
  | .cls _ => "Class"
  | .pathIntersect => "PathIntersect"
  | .pathUnion => "PathUnion"
  | .pathSubtract => "PathSubtract"
  | .pathXor => "PathXor"
  | .style .. => "Style"
  | .matrix .. => "Matrix"
  | .translate .. => "Translate"
  | .scale .. => "Scale"
  | .rotate .. => "Rotate"
  | .skewX _ => "SkewX"
  | .skewY _ => "SkewY"
  | .insert _ => "Insert"
  | .forget => "Forget"
  | .select _ => "Select"
  | .selectMore _ => "SelectMore"
  | .deselect => "Deselect"

/-- An optional number as a list of texts. -/
def optText (sh : N → String) : Option N → List String
  | none => []
  | some y => [sh y]

/-- The origin of a rotation as a list of texts. -/
def originText (sh : N → String) : Option (N × N) → List String
  | none => []
  | some (x, y) => [sh x, sh y]

/-- `state.rs` 407-452, the arguments written by `Action::embed`. -/
def Action.args (sh : N → String) : Action N → List String
  | .attr a b | .style a b => [a, b]
  | .matrix a b c d e f => [sh a, sh b, sh c, sh d, sh e, sh f]
  | .translate x y | .scale x y => sh x :: optText sh y
  | .rotate a o => sh a :: originText sh o
  | .skewX a | .skewY a => [sh a]
  | .cls a | .select a | .selectMore a | .insert a => [a]
  | .pathIntersect | .pathUnion | .pathSubtract | .pathXor | .forget | .deselect => []

/-- `state.rs` 455-464 (`embed_arg`), with `node.rs` 528-543 (`set_text_content`): one text is the only child. -/
def embedArg (t : String) : Xml := .elem true "arg" [] [.text t]

/-- `state.rs` 396-453 (`Action::embed`): the element appended to the history. -/
def embed (sh : N → String) (a : Action N) : Xml :=
  .elem true "action" [("id", a.name)] ((a.args sh).map embedArg)

/-- `.map(Action::from_state).collect::<Result<Vec<_>, _>>()` (`state.rs` 211-216): the first error ends it. -/
def readAll (read : String → Option N) : List Xml → Except Err (List (Action N))
  | [] => .ok []
  | e :: es => match fromState read e with
    | .error err => .error err
    | .ok a => match readAll read es with
      | .error err => .error err
      | .ok as => .ok (a :: as)

/-! ## The command line -/

/-- The errors of `commands/action.rs` 284-367 (`parse`). -/
inductive CmdErr where
  | missing (cmd : String)
  | number (text : String)
  | expected (text : String)
  | unknown (cmd : String)
deriving DecidableEq, Repr

/-- `commands/action.rs` 293-298 (`get_part`): the next argument. -/
def getPart (cmd : String) (parts : List String) (k : String → List String → Except CmdErr β) : Except CmdErr β :=
  match parts with
  | [] => .error (.missing cmd)
  | p :: rest => k p rest

/-- `commands/action.rs` 299-302 (`get_part_f32`): the next argument as a number. -/
def getNum (read : String → Option N) (cmd : String) (parts : List String)
    (k : N → List String → Except CmdErr β) : Except CmdErr β :=
  getPart cmd parts fun p rest => match read p with
    | none => .error (.number p)
    | some n => k n rest

/-- `commands/action.rs` 303-314 (`get_part_f32_peek`): the next argument, if it is a number. -/
def peekNum (read : String → Option N) (parts : List String) : Option N × List String :=
  match parts with
  | [] => (none, [])
  | p :: rest => match read p with
    | none => (none, p :: rest)
    | some n => (some n, rest)

/-- `commands/action.rs` 348-355, the arm of `ROTATE` in `parse`. -/
def rotateParts (read : String → Option N) (cmd : String) (deg : N) :
    Option N × List String → Except CmdErr (Action N × List String)
  | (none, parts) => .ok (.rotate deg none, parts)
  | (some x, parts) => getNum read cmd parts fun y parts => .ok (.rotate deg (some (x, y)), parts)

/-- `commands/action.rs` 315-364, the `match` of `parse` on the command: the action and the arguments left. -/
def parseOne (read : String → Option N) (cmd : String) (parts : List String) :
    Except CmdErr (Action N × List String) :=
  if cmd.toList.head? ≠ some '-' then .error (.expected cmd)
  else if cmd = "-attr" then getPart cmd parts fun a parts => getPart cmd parts fun b parts => .ok (.attr a b, parts)
  else if cmd = "-class" then getPart cmd parts fun a parts => .ok (.cls a, parts)
  else if cmd = "-path-intersect" then .ok (.pathIntersect, parts)
  else if cmd = "-path-union" then .ok (.pathUnion, parts)
  else if cmd = "-path-subtract" then .ok (.pathSubtract, parts)
  else if cmd = "-path-xor" then .ok (.pathXor, parts)
  else if cmd = "-style" then getPart cmd parts fun a parts => getPart cmd parts fun b parts => .ok (.style a b, parts)
  else if cmd = "-matrix" then
    getNum read cmd parts fun a parts => getNum read cmd parts fun b parts => getNum read cmd parts fun c parts =>
    getNum read cmd parts fun d parts => getNum read cmd parts fun e parts => getNum read cmd parts fun f parts =>
      .ok (.matrix a b c d e f, parts)
  else if cmd = "-translate" then
    getNum read cmd parts fun x parts => .ok (.translate x (peekNum read parts).1, (peekNum read parts).2)
  else if cmd = "-scale" then
    getNum read cmd parts fun x parts => .ok (.scale x (peekNum read parts).1, (peekNum read parts).2)
  else if cmd = "-rotate" then
    getNum read cmd parts fun deg parts => rotateParts read cmd deg (peekNum read parts)
  else if cmd = "-skewX" then getNum read cmd parts fun x parts => .ok (.skewX x, parts)
  else if cmd = "-skewY" then getNum read cmd parts fun y parts => .ok (.skewY y, parts)
  else if cmd = "-forget" then .ok (.forget, parts)
  else if cmd = "-insert" ∨ cmd = "-create-element" then getPart cmd parts fun a parts => .ok (.insert a, parts)
  else if cmd = "-select" then getPart cmd parts fun a parts => .ok (.select a, parts)
  else if cmd = "-select-more" then getPart cmd parts fun a parts => .ok (.selectMore a, parts)
  else if cmd = "-deselect" then .ok (.deselect, parts)
  else .error (.unknown cmd)

/-- `commands/action.rs` 291-365, the loop of `parse`. Every round takes at least the command, so as many rounds as
there are arguments suffice. -/
def parseLoop (read : String → Option N) : Nat → List String → Except CmdErr (List (Action N))
  | _, [] => .ok []
  | 0, _ :: _ => .ok []
  | fuel + 1, cmd :: parts => match parseOne read cmd parts with
    | .error e => .error e
    | .ok (a, rest) => match parseLoop read fuel rest with
      | .error e => .error e
      | .ok as => .ok (a :: as)

/-- `commands/action.rs` 284-367 (`parse`). -/
def parseCommands (read : String → Option N) (list : List String) : Except CmdErr (List (Action N)) :=
  parseLoop read list.length list

end Verif.Actions
