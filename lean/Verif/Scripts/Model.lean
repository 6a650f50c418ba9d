import Verif.CleanAttrs.Model
import Verif.Names.Model

/-!
# Model: the job `removeScripts`, and the search for scripts

`crates/oxvg_optimiser/src/jobs/remove_scripts.rs`, `has_scripts` in `crates/oxvg_ast/src/visitor.rs`, and the tables of events in
`crates/oxvg_collections/src/attribute.rs`. Lists of children are what one gets by following `next_sibling` from `first_child` to `last_child`, as all
writers do; that `retain_children` and `flatten` make of the links what is said here is proved in `Scripts.Heap`.
-/

namespace Verif.Scripts

open Verif.CleanAttrs (white)
open Verif.Names (lit)

/-- The namespaces that matter for elements. -/
inductive Space where
  | svg
  | html
  | other
  deriving DecidableEq

/-- The name of an element. -/
structure Name where
  space : Space
  loc : String
  deriving DecidableEq

/-- The namespaces that matter for attributes; `plain`: no prefix. -/
inductive AttrSpace where
  | plain
  | xlink
  | other
  deriving DecidableEq

/-- An attribute, with its value as code points. -/
structure Attr where
  space : AttrSpace
  name : String
  value : List Nat
  deriving DecidableEq

variable {V : Type}

/-- A document. `leaf`: anything but elements and text (also sections of CDATA). -/
inductive Node (V : Type) where
  | text (v : V)
  | leaf (v : V)
  | elem (n : Name) (attrs : List Attr) (kids : List (Node V))

/-- attribute.rs (collections):1264-1540, the attributes in one of the groups of `AttributeGroup::event` (attribute/group.rs:52-58). -/
def events : List String :=
  ["onabort", "onactivate", "onbegin", "oncancel", "oncanplay", "oncanplaythrough", "onchange", "onclick", "onclose", "oncopy", "oncuechange",
    "oncut", "ondblclick", "ondrag", "ondragend", "ondragenter", "ondragexit", "ondragleave", "ondragover", "ondragstart", "ondrop",
    "ondurationchange", "onemptied", "onend", "onended", "onerror", "onfocusin", "onfocusout", "onfocus", "oninput", "oninvalid", "onkeydown",
    "onkeypress", "onkeyup", "onload", "onloadeddata", "onloadedmetadata", "onloadstart", "onmousedown", "onmouseenter", "onmouseleave",
    "onmousemove", "onmouseout", "onmouseover", "onmouseup", "onpaste", "onpause", "onplay", "onplaying", "onprogress", "onratechange",
    "onrepeat", "onreset", "onresize", "onscroll", "onseeked", "onseeking", "onselect", "onshow", "onstalled", "onsubmit", "onsuspend",
    "ontimeupdate", "ontoggle", "onunload", "onvolumechange", "onwaiting", "onwheel", "onzoom"]

/-- `ElementId::Script` (element.rs (collections):157-167, 1741-1742). -/
def script : Name := ⟨.svg, "script"⟩

/-- `ElementId::A`. -/
def anchor : Name := ⟨.svg, "a"⟩

/-- remove_scripts.rs:63-66. -/
def isEvent (a : Attr) : Bool := a.space == .plain && events.contains a.name

/-- remove_scripts.rs:86: `href.trim_start().starts_with("javascript:")`. -/
def isJs (url : List Nat) : Bool := (lit "javascript:").isPrefixOf (url.dropWhile white)

/-- remove_scripts.rs:82-87. -/
def isHrefJs (a : Attr) : Bool := (a.space == .plain || a.space == .xlink) && a.name == "href" && isJs a.value

/-- Text nodes, but not sections of CDATA (remove_scripts.rs:92). -/
def isText : Node V → Bool
  | .text _ => true
  | _ => false

/-- remove_scripts.rs:92-93, `retain_children` and `flatten`: what comes in the place of the element, and whether the list of its parent ends there.
`retain_children` (node.rs:342-365) does not change `next_sibling` of what it keeps: a kept node in front of a text still leads to it, and the text to
nothing; only the last node that is kept is linked by `flatten` (element.rs:613-651). -/
def dissolve {A : Type} (isText : A → Bool) (ks : List A) : List A × Bool :=
  let ks := ks.dropWhile isText
  let front := ks.takeWhile fun k => !isText k
  let back := ks.dropWhile fun k => !isText k
  if back.any fun k => !isText k then (front ++ back.take 1, true) else (front, false)

mutual
/-- visitor.rs:312-349 with remove_scripts.rs:51-96, `element` and `exit_element`. -/
def visit : Node V → List (Node V) × Bool
  | .text v => ([.text v], false)
  | .leaf v => ([.leaf v], false)
  | .elem n as ks =>
    if n = script then ([], false)
    else if n = anchor && (as.filter fun a => !isEvent a).any isHrefJs then dissolve isText (visitAll ks)
    else ([.elem n (as.filter fun a => !isEvent a) (visitAll ks)], false)
/-- visitor.rs:355-377. -/
def visitAll : List (Node V) → List (Node V)
  | [] => []
  | n :: ns => if (visit n).2 then (visit n).1 else (visit n).1 ++ visitAll ns
end

/-- remove_scripts.rs:39-49, `prepare`, and the walk. -/
def run (enabled : Bool) (doc : List (Node V)) : List (Node V) := if enabled then visitAll doc else doc

/-- visitor.rs:391-398: the attribute is a script. -/
def attrScript (n : Name) (a : Attr) : Bool :=
  if a.space == .plain && a.name == "href" then n == anchor && isJs a.value else isEvent a

mutual
/-- visitor.rs:389-399, for an element and all in it. -/
def hasScript : Node V → Bool
  | .text _ => false
  | .leaf _ => false
  | .elem n as ks => n == script || as.any (attrScript n) || hasScripts ks
/-- visitor.rs:386-400, `has_scripts`, for the children of a document. -/
def hasScripts : List (Node V) → Bool
  | [] => false
  | n :: ns => hasScript n || hasScripts ns
end

end Verif.Scripts
