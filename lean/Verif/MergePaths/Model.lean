import Verif.Segment.Spec

/-!
# Model: merging paths

`crates/oxvg_optimiser/src/jobs/merge_paths.rs`, on the children of one element. Text and comments between the children
stay where they are and are left out. Whether two paths intersect (`gjk_intersection.rs`) and the computed style of a
child (`oxvg_ast/src/style.rs`) are parameters.
-/

namespace Verif.MergePaths

open Verif.Segment

/-- An attribute: path data (its commands, the first field of `path::Path`), or a name with a value. -/
inductive Attr (V : Type) where
  | d (data : List Cmd)
  | other (name : String) (value : V)
deriving DecidableEq

/-- A child: which node it is, its name, whether it has no children, and its attributes. -/
structure El (V : Type) where
  node : Nat
  path : Bool
  empty : Bool
  attrs : List (Attr V)
deriving DecidableEq

/-- lightningcss' `SVGPaint`, and a filter function, as far as they are looked at: a reference or anything else. -/
inductive Ref where
  | url (s : String)
  | plain (k : Nat)
deriving DecidableEq

/-- style.rs, `Mode`. -/
inductive Mode where
  | static | dynamic
deriving DecidableEq

/-- The computed properties that merge_paths.rs:136-151 looks at. -/
structure Style where
  /-- line 136-139: `marker-start`, `marker-mid`, `marker-end`, `clip-path` or `mask` is there. -/
  marked : Bool
  /-- line 140. -/
  maskImage : Bool
  fill : Option (Ref × Mode)
  stroke : Option (Ref × Mode)
  filter : Option (List Ref × Mode)
deriving DecidableEq

/-- merge_paths.rs:143, 147 and 150: the reference is to this document. -/
def Ref.isLocal : Ref → Bool
  | .url s => s.startsWith "#"
  | .plain _ => false

/-- merge_paths.rs:141-144 and 149-151. -/
def paintBlocks : Option (Ref × Mode) → Bool
  | some (r, m) => m == .static && r.isLocal
  | none => false

/-- merge_paths.rs:145-148. -/
def filterBlocks : Option (List Ref × Mode) → Bool
  | some (rs, m) => m == .static && rs.any Ref.isLocal
  | none => false

/-- merge_paths.rs:135-151: the style forbids to merge. -/
def Style.blocks (s : Style) : Bool :=
  s.marked || s.maskImage || paintBlocks s.fill || filterBlocks s.filter || paintBlocks s.stroke

variable {V : Type}

/-- The value of the first `d` (`get_attribute!`). -/
def dataOf : List (Attr V) → Option (List Cmd)
  | [] => none
  | .d c :: _ => some c
  | .other _ _ :: as => dataOf as

/-- `set_attribute!(…, D(…))`: the first `d` is replaced, or one is added. -/
def setData (c : List Cmd) : List (Attr V) → List (Attr V)
  | [] => [.d c]
  | .d _ :: as => .d c :: as
  | .other n v :: as => .other n v :: setData c as

/-- Whether there is an attribute with this name (`has_attribute!`). -/
def hasNamed (name : String) (as : List (Attr V)) : Bool :=
  as.any fun a => match a with | .other n _ => n == name | .d _ => false

/-- The value of the first attribute with this name (`get_named_item`). -/
def named (name : String) : List (Attr V) → Option V
  | [] => none
  | .d _ :: as => named name as
  | .other n v :: as => if n == name then some v else named name as

/-- command.rs:228-233, `as_explicit`. -/
def explicit : Cmd → Cmd
  | .implicit c => explicit c
  | c => c

/-- Whether a command is a move, implied or not (merge_paths.rs:184-189). -/
def isMove (c : Cmd) : Bool :=
  match explicit c with
  | .moveTo _ | .moveBy _ => true
  | _ => false

/-- merge_paths.rs:126-131: the second command is written out if it would be taken for a line to an absolute point. -/
def second : Cmd → Cmd
  | .implicit c => match explicit c with
    | .lineTo _ => .implicit c
    | e => e
  | c => c

/-- merge_paths.rs:121-132: a path begins with an absolute move. -/
def absolute : List Cmd → List Cmd
  | .moveBy p :: c :: cs => .moveTo p :: second c :: cs
  | [.moveBy p] => [.moveTo p]
  | cs => cs

/-- merge_paths.rs:184-191: a move at the end is dropped. -/
def popMove (cs : List Cmd) : List Cmd :=
  match cs.getLast? with
  | some c => if isMove c then cs.dropLast else cs
  | none => cs

/-- merge_paths.rs:88-95, `update_previous_path!`, and 212-214. -/
def flush (pending : Option (List Cmd)) (e : El V) : El V :=
  match pending with
  | some c => { e with attrs := setData c e.attrs }
  | none => e

/-- merge_paths.rs:166-168: the attribute is path data, or the child before has it with the same value. -/
def found [DecidableEq V] (prev : List (Attr V)) : Attr V → Bool
  | .d _ => true
  | .other n v => named n prev == some v

/-- merge_paths.rs:158-169: the attributes are of the same number, and those of the child are found with the same
value at the child before. -/
def sameAttrs [DecidableEq V] (prev child : List (Attr V)) : Bool :=
  prev.length == child.length && child.all (found prev)

/-- What the rest of the body decides about a pair of children: the commands merged so far, or the reason to end. -/
inductive Decision where
  /-- 197-201: merge, with the commands merged. -/
  | merge (c : List Cmd)
  /-- 205-210: they intersect; the commands collected before, if any, are written. -/
  | keep (c : Option (List Cmd))

/-- merge_paths.rs:176-178: the commands collected, or else those of the child before. -/
def collected (pending : Option (List Cmd)) (prev : El V) : Option (List Cmd) :=
  match pending with
  | some c => some c
  | none => dataOf prev.attrs

/-- merge_paths.rs:175-210. -/
def decide' (force : Bool) (intersects : List Cmd → List Cmd → Bool) (pending : Option (List Cmd)) (prev : El V)
    (current : List Cmd) : Decision :=
  match collected pending prev with
  | none => .keep none
  | some c =>
    if force || !intersects (popMove c) current then .merge (popMove c ++ current)
    else .keep (if pending.isSome then some (popMove c) else none)

/-- merge_paths.rs:86-214: the loop over pairs of neighbours. `pending` are the commands of the paths merged into
`prev` (with its own); the result is the list of children that are left. The computed style may be an error. -/
def loop [DecidableEq V] (force : Bool) (intersects : List Cmd → List Cmd → Bool)
    (style : El V → Except String Style) : El V → Option (List Cmd) → List (El V) → Except String (List (El V))
  | prev, pending, [] => .ok [flush pending prev]
  | prev, pending, child :: rest =>
    if !prev.path || !prev.empty || hasNamed "id" prev.attrs then
      (loop force intersects style child none rest).map (flush pending prev :: ·)
    else if !child.path || !child.empty then
      (loop force intersects style child none rest).map (flush pending prev :: ·)
    else match style child with
      | .error e => .error e
      | .ok s => match dataOf child.attrs with
        | none => (loop force intersects style child none rest).map (flush pending prev :: ·)
        | some c =>
          let child' : El V := { child with attrs := setData (absolute c) child.attrs }
          if s.blocks then (loop force intersects style child' none rest).map (flush pending prev :: ·)
          else if !sameAttrs prev.attrs child'.attrs then
            (loop force intersects style child' none rest).map (flush pending prev :: ·)
          else match decide' force intersects pending prev (absolute c) with
            | .merge c' => loop force intersects style child' (some c') rest
            | .keep c' => (loop force intersects style child' none rest).map (flush c' prev :: ·)

/-- merge_paths.rs:74-217, `element`, on the children. -/
def mergePaths [DecidableEq V] (force : Bool) (intersects : List Cmd → List Cmd → Bool)
    (style : El V → Except String Style) : List (El V) → Except String (List (El V))
  | [] => .ok []
  | [e] => .ok [e]
  | e :: es => loop force intersects style e none es

end Verif.MergePaths
