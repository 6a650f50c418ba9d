import Verif.MergePaths.Model

/-!
# What is compared: what is drawn, by which paths, with which attributes
-/

namespace Verif.MergePaths

open Verif.Segment

/-- What path data draw: the subpaths with a piece or a closing line. A move alone draws nothing. -/
def drawn (c : List Cmd) : List Sub := (subpaths c).filter fun s => s.closed || !s.ops.isEmpty

/-- Path data as the parser leaves them (`parse_extend` stops at the first error): none, or a move first. -/
def Valid (c : List Cmd) : Prop := c = [] ∨ ∃ p cs, c = .moveTo p :: cs ∨ c = .moveBy p :: cs

variable {V : Type}

/-- The attributes but for the path data. -/
def rest (as : List (Attr V)) : List (String × V) :=
  as.filterMap fun a => match a with
    | .d _ => none
    | .other n v => some (n, v)

/-- The name of an attribute. -/
def Attr.name : Attr V → String
  | .d _ => "d"
  | .other n _ => n

/-- The path data of an element, if there are any. -/
def El.data (e : El V) : Option (List Cmd) :=
  e.attrs.findSome? fun a => match a with
    | .d c => some c
    | .other _ _ => none

/-- What an element draws by its path data. -/
def El.subs (e : El V) : List Sub := e.data.elim [] drawn

/-- What elements draw one after the other. -/
def subsAll (es : List (El V)) : List Sub := es.flatMap El.subs

/-- As XML demands, no name occurs twice among the attributes; and path data are as the parser leaves them. -/
def El.Proper (e : El V) : Prop := (e.attrs.map Attr.name).Nodup ∧ ∀ c, .d c ∈ e.attrs → Valid c

/-- A path without content. -/
def El.Plain (e : El V) : Prop := e.path = true ∧ e.empty = true

/-- No attribute of the name `id`. -/
def El.NoId (e : El V) : Prop := ∀ v, .other "id" v ∉ e.attrs

/-- A style that does not depend on the other things drawn by the path, as far as it is looked at: no markers, no
clipping, no mask, no reference into this document that is known to hold. -/
def Style.Free (s : Style) : Prop :=
  s.marked = false ∧ s.maskImage = false ∧
  (∀ u, s.fill = some (.url u, .static) → u.startsWith "#" = false) ∧
  (∀ u, s.stroke = some (.url u, .static) → u.startsWith "#" = false) ∧
  ∀ rs u, s.filter = some (rs, .static) → .url u ∈ rs → u.startsWith "#" = false

/-- The paths `l` may be drawn together with `e`, the next one. -/
structure Follows (force : Bool) (intersects : List Cmd → List Cmd → Bool) (style : El V → Except String Style)
    (l : List (El V)) (e : El V) : Prop where
  /-- The one before is a path without content, without `id`, with path data. -/
  before : ∃ b, l.getLast? = some b ∧ b.Plain ∧ b.NoId ∧ b.data.isSome ∧
    /- It has the same other attributes. -/
    (rest b.attrs).Perm (rest e.attrs)
  plain : e.Plain
  hasData : e.data.isSome
  free : ∃ s, style e = .ok s ∧ s.Free
  /-- Unless forced, the test says that what was drawn so far and the path do not intersect. -/
  apart : force = true ∨ ∃ c d, drawn c = subsAll l ∧ drawn d = e.subs ∧ intersects c d = false

/-- There is a reason not to draw `e` together with the paths `l` before it. -/
def Stop (force : Bool) (intersects : List Cmd → List Cmd → Bool) (style : El V → Except String Style)
    (l : List (El V)) (e : El V) : Prop :=
  ∃ b, l.getLast? = some b ∧
    (¬ b.Plain ∨ ¬ b.NoId ∨ b.data = none ∨ ¬ (rest b.attrs).Perm (rest e.attrs) ∨
      ¬ e.Plain ∨ e.data = none ∨ (∃ s, style e = .ok s ∧ ¬ s.Free) ∨
      force = false ∧ ∃ c d, drawn c = subsAll l ∧ drawn d = e.subs ∧ intersects c d = true)

/-- `o` is what is left of the elements `run`, which follow each other: the last of them, drawing what all of them
draw. An element that is not a plain path is left alone. -/
structure Joined (force : Bool) (intersects : List Cmd → List Cmd → Bool) (style : El V → Except String Style)
    (run : List (El V)) (o : El V) : Prop where
  last : ∃ e, run.getLast? = some e ∧ o.node = e.node ∧ o.path = e.path ∧ o.empty = e.empty ∧
    rest o.attrs = rest e.attrs ∧ (o.data.isSome ↔ e.data.isSome) ∧ (¬ e.Plain → o = e)
  draws : o.subs = subsAll run
  pairs : ∀ l e r, run = l ++ e :: r → l ≠ [] → Follows force intersects style l e

/-- Neighbouring runs are separate for a reason. -/
def Stops (force : Bool) (intersects : List Cmd → List Cmd → Bool) (style : El V → Except String Style) :
    List (List (El V)) → Prop
  | r₁ :: r₂ :: rs => (∀ e, r₂.head? = some e → Stop force intersects style r₁ e) ∧
      Stops force intersects style (r₂ :: rs)
  | _ => True

end Verif.MergePaths
