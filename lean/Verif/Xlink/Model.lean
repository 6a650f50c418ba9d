import Verif.Tree.Spec

/-!
# Model: replacing XLink attributes

`crates/oxvg_optimiser/src/jobs/remove_xlink.rs`, with the macros of `crates/oxvg_ast/src/attribute.rs` it uses.
-/

namespace Verif.Xlink

open Verif.Tree
open Verif.Names (Str lit StdNs)

/-- attribute.rs (collections) 2086-2120: the attributes of XLink that are known. -/
inductive XK where
  | actuate | arcrole | role | type | shows | title | href
deriving DecidableEq, Repr

/-- What the job tells apart. `xlink` is a known attribute of XLink, written with the prefix `pre` (an alias if it is not `xlink`). `decl` is
`xmlns:loc="uri"`, which is `Unparsed` with an `Unknown` id (attribute.rs 247-261), and `unknown` is any other such attribute. `known` is any other attribute
that the element may have, the default declaration `xmlns` too. -/
inductive Attr where
  | xlink (k : XK) (pre : Str) (v : Str)
  | href (v : Str)
  | target (v : Str)
  | decl (loc uri : Str)
  | unknown (pre : Option Str) (loc v : Str)
  | known (pre : Option Str) (loc v : Str)
deriving DecidableEq, Repr

/-- attribute/xlink.rs 14-31, `XLinkShow`. -/
inductive Show where
  | new | replace | embed | other | none'
deriving DecidableEq, Repr

/-- attribute.rs (collections) 112-126: the values of `xlink:show` that can be read; others stay `Unparsed`. -/
def showOf (v : Str) : Option Show :=
  if v = lit "new" then some .new
  else if v = lit "replace" then some .replace
  else if v = lit "embed" then some .embed
  else if v = lit "other" then some .other
  else if v = lit "none" then some .none'
  else none

/-- `get_attribute!` and `has_attribute!` of a known attribute of XLink: the prefix and value of the first one. -/
def getX (k : XK) (as : List Attr) : Option (Str × Str) := as.findSome? fun a => match a with
  | .xlink j p v => if j = k then some (p, v) else none
  | _ => none

/-- attribute.rs (ast) 212-216, `remove_named_item`: without the first such attribute. -/
def dropX (k : XK) : List Attr → List Attr
  | [] => []
  | .xlink j p v :: as => if j = k then as else .xlink j p v :: dropX k as
  | a :: as => a :: dropX k as

/-- `has_attribute!(element, Target)`. -/
def hasTarget (as : List Attr) : Bool := as.any fun a => match a with | .target _ => true | _ => false

/-- `has_attribute!(element, Href)`. -/
def hasHref (as : List Attr) : Bool := as.any fun a => match a with | .href _ => true | _ => false

/-- An attribute without prefix that has the given name (attribute.rs (ast) 222-233, `set_named_item`, compares names). -/
def Attr.named (n : Str) : Attr → Bool
  | .href _ => n == lit "href"
  | .target _ => n == lit "target"
  | .unknown none l _ => l == n
  | .known none l _ => l == n
  | _ => false

/-- attribute.rs (ast) 222-233, `set_named_item`. -/
def setNamed (n : Str) (a : Attr) : List Attr → List Attr
  | [] => [a]
  | b :: as => if b.named n then a :: as else b :: setNamed n a as

/-- One entry of `xlink_prefix_stack`, `overridden_prefix_stack` and `used_in_legacy_element_stack`, which are pushed and popped together. -/
structure Entry where
  loc : Str
  overridden : Bool
  legacy : Bool
deriving DecidableEq, Repr

/-- remove_xlink.rs 85-105, the body of the loop over attributes. The head of the list is the top. -/
def note (st : List Entry) : Attr → List Entry
  | .decl l u =>
    if u = StdNs.uri .xlink then ⟨l, false, false⟩ :: st
    else match st with
      | e :: st' => if e.loc = l then { e with overridden := true } :: st' else e :: st'
      | [] => []
  | _ => st

/-- remove_xlink.rs 106-108, the closure of `retain`. -/
def plain : Attr → Bool
  | .xlink .actuate _ _ | .xlink .arcrole _ _ | .xlink .role _ _ | .xlink .type _ _ => false
  | _ => true

/-- remove_xlink.rs 160-180, `handle_show`. `none` is the panic of `remove_attribute!` (attribute.rs (ast) 109-124) for an attribute with an alias whose
value could not be read. -/
def handleShow (as : List Attr) : Option (List Attr) :=
  if hasTarget as then
    match getX .shows as with
    | some (p, v) => if p = lit "xlink" ∨ (showOf v).isSome then some (dropX .shows as) else none
    | none => some as
  else match getX .shows as with
    | some (_, v) => match showOf v with
      | some .new => some (dropX .shows (setNamed (lit "target") (.target (lit "_blank")) as))
      | _ => some as
    | none => some as

/-- A node is a `title` element. -/
def isTitle : Node Attr → Bool
  | .elem n _ _ => n.is "title"
  | _ => false

/-- remove_xlink.rs 196-201: the new element. -/
def titleElement (v : Str) : Node Attr := .elem ⟨.std .svg, lit "title"⟩ [] [.text (v.map Char.ofNat)]

/-- remove_xlink.rs 182-202, `handle_title`: the attributes afterwards, and the nodes put before the children. -/
def handleTitle (as : List Attr) (ks : List (Node Attr)) : List Attr × List (Node Attr) :=
  if ks.any isTitle then (as, [])
  else match getX .title as with
    | some (_, v) => (dropX .title as, [titleElement v])
    | none => (as, [])

/-- element.rs (collections) 583-2055: the elements with `ElementInfo::Legacy`. An element with an alias for its namespace has none (270-275). -/
def legacyNames : List Str := ["color-profile", "cursor", "font", "font-face", "font-face-format", "font-face-name", "font-face-src", "font-face-uri", "glyph",
  "glyphRef", "hkern", "missing-glyph", "tref"].map lit

def isLegacy (n : EName) : Bool := n.pre == .std .svg && legacyNames.contains n.loc

/-- remove_xlink.rs 213-218: the top of the stack is marked. -/
def markLegacy : List Entry → List Entry
  | e :: st => { e with legacy := true } :: st
  | [] => []

/-- remove_xlink.rs 204-224, `handle_href`. -/
def handleHref (legacy : Bool) (n : EName) (as : List Attr) (st : List Entry) : List Attr × List Entry :=
  if hasHref as then (as, st)
  else if !legacy && isLegacy n then (as, markLegacy st)
  else match getX .href as with
    | some (_, v) => (setNamed (lit "href") (.href v) (dropX .href as), st)
    | none => (as, st)

/-- remove_xlink.rs 77-118, `element`: the attributes, the nodes put before the children and the stacks afterwards. -/
def enter (legacy : Bool) (n : EName) (as : List Attr) (ks : List (Node Attr)) (st : List Entry) : Option (List Attr × List (Node Attr) × List Entry) :=
  let st := as.foldl note st
  match handleShow (as.filter plain) with
  | none => none
  | some as =>
    let t := handleTitle as ks
    let h := handleHref legacy n t.1 st
    some (h.1, t.2, h.2)

/-- remove_xlink.rs 125-152, the closure of `retain`: whether the attribute stays, and the stacks afterwards. -/
def leaveAttr (legacy : Bool) (st : List Entry) (a : Attr) : Bool × List Entry :=
  let pop : Bool × List Entry := match st with
    | e :: st' => (legacy || e.overridden || e.legacy, st')
    | [] => (legacy, [])
  match a with
  | .decl _ u => if u = StdNs.uri .xlink then (false, st) else pop
  | .unknown .. => pop
  | _ => (true, st)

/-- remove_xlink.rs 120-155, `exit_element`. -/
def leave (legacy : Bool) : List Entry → List Attr → List Attr × List Entry
  | st, [] => ([], st)
  | st, a :: as =>
    let r := leaveAttr legacy st a
    let rs := leave legacy r.2 as
    (if r.1 then a :: rs.1 else rs.1, rs.2)

mutual
/-- visitor.rs 312-349, `visit`. A new `title` element is visited too, but it has no attributes. -/
def visit (legacy : Bool) : Node Attr → List Entry → Option (Node Attr × List Entry)
  | .elem n as ks, st => match enter legacy n as ks st with
    | none => none
    | some (as', new, st') =>
      match visitAll legacy ks st' with
      | none => none
      | some (ks', st'') =>
        let r := leave legacy st'' as'
        some (.elem n r.1 (new ++ ks'), r.2)
  | .text s, st => some (.text s, st)
  | .css s, st => some (.css s, st)
  | .comment s, st => some (.comment s, st)
  | .pi t d, st => some (.pi t d, st)
/-- visitor.rs 355-377, `visit_children`. -/
def visitAll (legacy : Bool) : List (Node Attr) → List Entry → Option (List (Node Attr) × List Entry)
  | [], st => some ([], st)
  | n :: ns, st => match visit legacy n st with
    | none => none
    | some (n', st') => match visitAll legacy ns st' with
      | none => none
      | some (ns', st'') => some (n' :: ns', st'')
end

/-- remove_xlink.rs 58-71, `prepare`. -/
def run (legacy : Bool) (doc : List (Node Attr)) : Option (List (Node Attr)) := (visitAll legacy doc []).map (·.1)

end Verif.Xlink
