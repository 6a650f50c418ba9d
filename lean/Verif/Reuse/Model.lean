/-!
# Model: the replacement of duplicate paths by references

`crates/oxvg_optimiser/src/jobs/reuse_paths.rs`.

The document is a tree of handles and a heap that gives the data of each handle, as in the arena. Nodes that are not
elements are left out, and the order of the attributes. Texts are lists of characters (`Nat`); `D` is path data, `P`
paints, `A` the other attributes. Whether a style sheet selects an id and the texts `reuse-N` are parameters.

`set_local_name` (element.rs:397-428) puts a new node in the place of the path, which takes its place in the list; here
it keeps the handle. The visit is along the tree as it was at the start: definitions that are added to a `defs` element
while the visit is inside of it are not visited.
-/

namespace Verif.Reuse

abbrev Text := List Nat

/-- The names that matter. `group` is any other element that draws its children, `hidden` one that does not. -/
inductive Kind
  | path | use | defs | svg | group | hidden
  deriving DecidableEq, Repr

/-- The data of an element. `declares` is the attribute `xmlns:xlink`. -/
structure El (D P A : Type) where
  kind : Kind
  id : Option Text := none
  d : Option D := none
  fill : Option P := none
  stroke : Option P := none
  href : Option Text := none
  xlink : Option Text := none
  declares : Bool := false
  rest : List A := []
  deriving DecidableEq, Repr

inductive Tree
  | node (h : Nat) (kids : List Tree)

def Tree.handle : Tree → Nat
  | .node h _ => h

def Tree.kids : Tree → List Tree
  | .node _ ks => ks

mutual
/-- The elements of a tree, in document order. -/
def subs : Tree → List Tree
  | .node h ks => .node h ks :: subsAll ks
def subsAll : List Tree → List Tree
  | [] => []
  | t :: ts => subs t ++ subsAll ts
end

mutual
/-- `Element::append`: a last child for the element `hd`. -/
def appendTo (hd : Nat) (n : Tree) : Tree → Tree
  | .node h ks => .node h (appendAll hd n ks ++ if h = hd then [n] else [])
def appendAll (hd : Nat) (n : Tree) : List Tree → List Tree
  | [] => []
  | t :: ts => appendTo hd n t :: appendAll hd n ts
end

mutual
/-- `Element::insert(0, …)`. -/
def prependTo (hd : Nat) (n : Tree) : Tree → Tree
  | .node h ks => .node h ((if h = hd then [n] else []) ++ prependAll hd n ks)
def prependAll (hd : Nat) (n : Tree) : List Tree → List Tree
  | [] => []
  | t :: ts => prependTo hd n t :: prependAll hd n ts
end

mutual
/-- The children of `h` are lost (element.rs:416-426: the new node has none). -/
def dropKids (x : Nat) : Tree → Tree
  | .node h ks => .node h (if h = x then [] else dropKidsAll x ks)
def dropKidsAll (x : Nat) : List Tree → List Tree
  | [] => []
  | t :: ts => dropKids x t :: dropKidsAll x ts
end

mutual
/-- `Element::remove`, for an element that is not the root. -/
def removeIn (x : Nat) : Tree → Tree
  | .node h ks => .node h (removeAll x ks)
def removeAll (x : Nat) : List Tree → List Tree
  | [] => []
  | t :: ts => if t.handle = x then removeAll x ts else removeIn x t :: removeAll x ts
end

variable {D P A : Type} [DecidableEq D] [DecidableEq P]

/-- reuse_paths.rs:247-252, `Key`. -/
abbrev Key (D P : Type) := D × Option P × Option P

/-- reuse_paths.rs:25-30 and the document. -/
structure State (D P A : Type) where
  root : Tree
  heap : Nat → El D P A
  next : Nat
  paths : List (Key D P × List Nat) := []
  defs : Option Nat := none
  hrefs : List Text := []

/-- A write to the heap. -/
def State.upd (s : State D P A) (h : Nat) (f : El D P A → El D P A) : State D P A :=
  { s with heap := fun x => if x = h then f (s.heap x) else s.heap x }

/-- reuse_paths.rs:239-243. -/
def insertKey (k : Key D P) (h : Nat) : List (Key D P × List Nat) → List (Key D P × List Nat)
  | [] => [(k, [h])]
  | (k', l) :: r => if k' = k then (k', l ++ [h]) :: r else (k', l) :: insertKey k h r

/-- reuse_paths.rs:231-244, `add_path`. -/
def addPath (s : State D P A) (h : Nat) : State D P A :=
  match (s.heap h).d with
  | none => s
  | some d => { s with paths := insertKey (d, (s.heap h).stroke, (s.heap h).fill) h s.paths }

/-- reuse_paths.rs:103: longer than one character and starting with `#`. -/
def isFragment : Text → Bool
  | 35 :: _ :: _ => true
  | _ => false

/-- reuse_paths.rs:81-112, `element`. -/
def enter (s : State D P A) (parent : Option Nat) (h : Nat) : State D P A :=
  match (s.heap h).kind with
  | .path => addPath s h
  | .defs =>
    match s.defs, parent with
    | none, some p => if (s.heap p).kind = .svg then { s with defs := some h } else s
    | _, _ => s
  | .use =>
    { s with hrefs := s.hrefs ++ ((s.heap h).href.toList ++ (s.heap h).xlink.toList).filter isFragment }
  | _ => s

/-- The element has no attributes at all, or only an id. -/
def El.bare (e : El D P A) : Bool :=
  e.d.isNone && e.fill.isNone && e.stroke.isNone && e.href.isNone && e.xlink.isNone && !e.declares && e.rest.isEmpty

/-- Is `h` inside of `hd`? -/
def inside (root : Tree) (hd h : Nat) : Bool :=
  (subs root).any fun t => t.handle = hd && (subsAll t.kids).any fun u => u.handle = h

/-- Does `h` have children? -/
def childless (root : Tree) (h : Nat) : Bool := (subs root).all fun t => t.handle ≠ h || t.kids.isEmpty

/-- reuse_paths.rs:198-206, on one element. -/
def retarget (old new : Text) (e : El D P A) : El D P A :=
  match e.href with
  | some u => if u = old then { e with href := some new } else e
  | none => if e.xlink = some old then { e with xlink := some new } else e

/-- reuse_paths.rs:181-183. -/
def strip (e : El D P A) : El D P A := { e with d := none, stroke := none, fill := none }

/-- reuse_paths.rs:211-212. -/
def become (new : Text) (e : El D P A) : El D P A := { e with kind := .use, xlink := some new }

/-- reuse_paths.rs:185-209, for a path in the definitions; `svg` is the element that is left. -/
def tidy (svg hd : Nat) (new : Text) (s : State D P A) (h : Nat) : State D P A :=
  if childless s.root h && inside s.root hd h && (s.heap h).bare then
    match (s.heap h).id with
    | none => { s with root := removeIn h s.root }
    | some i =>
      let root := removeIn h s.root
      let l := (subs root).filter fun t => t.handle = svg
      let below := l.flatMap fun t => (subsAll t.kids).map Tree.handle
      { s with
        root := root
        heap := fun x => if x ∈ below then retarget (35 :: i) new (s.heap x) else s.heap x }
  else s

/-- reuse_paths.rs:180-213, one path of a list. -/
def convert (svg hd : Nat) (new : Text) (s : State D P A) (h : Nat) : State D P A :=
  let s := s.upd h strip
  let s := tidy svg hd new s h
  let s := s.upd h (become new)
  { s with root := dropKids h s.root }

/-- reuse_paths.rs:153-159 and 166-174: does the id of the first path go to the definition? -/
def moves (sel : Text → Bool) (hrefs : List Text) (e : El D P A) : Bool :=
  match e.id with
  | none => false
  | some i => !(hrefs.contains i) && !sel i

/-- reuse_paths.rs:147-174: the definition. -/
def definition (sel : Text → Bool) (reuse : Nat → Text) (hrefs : List Text) (index : Nat) (e : El D P A) :
    El D P A :=
  { kind := .path
    id := if moves sel hrefs e then e.id else some (reuse index)
    d := e.d
    fill := e.fill
    stroke := e.stroke }

/-- reuse_paths.rs:142-214, one list. -/
def group (sel : Text → Bool) (reuse : Nat → Text) (svg hd : Nat) (acc : State D P A × Nat)
    (g : Key D P × List Nat) : State D P A × Nat :=
  match g.2 with
  | [] => acc
  | [_] => acc
  | h :: rest =>
    let s := acc.1
    let e := s.heap h
    let moved := moves sel s.hrefs e
    let new := definition sel reuse s.hrefs acc.2 e
    let n := s.next
    let s := { s with root := appendTo hd (.node n []) s.root, next := n + 1 }
    let s := s.upd n fun _ => new
    let s := if moved then s.upd h fun e => { e with id := none } else s
    let url := 35 :: new.id.getD []
    ((h :: rest).foldl (convert svg hd url) s, if moved then acc.2 else acc.2 + 1)

/-- reuse_paths.rs:128-138: the `defs` element to use. -/
def ensureDefs (svg : Nat) (s : State D P A) : State D P A × Nat :=
  match s.defs with
  | some hd => (s, hd)
  | none =>
    let n := s.next
    let s := { s with root := prependTo svg (.node n []) s.root, next := n + 1, defs := some n }
    (s.upd n fun _ => { kind := .defs }, n)

/-- reuse_paths.rs:115-227, `exit_element`. -/
def leave (sel : Text → Bool) (reuse : Nat → Text) (s : State D P A) (h : Nat) : State D P A :=
  if h ≠ s.root.handle ∧ (s.heap h).kind ≠ .svg then s
  else if s.paths.isEmpty then s
  else
    let r := ensureDefs h s
    let s := (r.1.paths.foldl (group sel reuse h r.2) (r.1, 0)).1
    if childless s.root r.2 then s else s.upd r.2 fun e => { e with declares := true }

inductive Event
  | enter (parent : Option Nat) (h : Nat)
  | leave (h : Nat)
  deriving DecidableEq, Repr

mutual
/-- The order of the visit (visitor.rs:312-377). -/
def events (parent : Option Nat) : Tree → List Event
  | .node h ks => .enter parent h :: (eventsAll h ks ++ [.leave h])
def eventsAll (parent : Nat) : List Tree → List Event
  | [] => []
  | t :: ts => events (some parent) t ++ eventsAll parent ts
end

def step (sel : Text → Bool) (reuse : Nat → Text) (s : State D P A) : Event → State D P A
  | .enter p h => enter s p h
  | .leave h => leave sel reuse s h

/-- reuse_paths.rs:57-66: the job on a document. -/
def run (sel : Text → Bool) (reuse : Nat → Text) (s : State D P A) : State D P A :=
  (events none s.root).foldl (step sel reuse) s

end Verif.Reuse
