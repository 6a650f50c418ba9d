import Verif.Names.Props

/-!
# Model: namespaces of documents that are parsed with xml5ever

`crates/oxvg_ast/src/parse/markup5ever.rs`. xml5ever resolves prefixes itself, and hands over elements in document order, with qualified
names and without the attributes that declare namespaces. The sink writes declarations again, from the names that are used. Values of
attributes, texts, comments and instructions play no part and are left out. A panic is `none`.
-/

namespace Verif.Sink

open Verif.Names

/-- A name as xml5ever hands it over: the prefix as it is in the document and the namespace it stands for (empty if there is none). -/
structure Name where
  pre : Option Str
  uri : Str
  loc : Str
deriving DecidableEq

/-- What xml5ever hands over for an element and its content. -/
inductive Elem where
  | mk (name : Name) (attrs : List Name) (kids : List Elem)

/-- markup5ever.rs:281-284, 292-295: the prefix of a name. -/
def Name.prefix (n : Name) : Prefix := Prefix.new n.uri n.pre

/-- An attribute of the document: `xmlns`, `xmlns:p`, or another one. -/
inductive Attr where
  | decl (p : Option Str) (uri : Str)
  | own (p : Prefix) (loc : Str)
deriving DecidableEq

/-- attribute.rs (collections):2121-2124 and markup5ever.rs:155-165: `xmlns` has the prefix that all attributes without a prefix have. -/
def Attr.prefix : Attr → Prefix
  | .decl none _ => .std .svg
  | .decl (some _) _ => .std .xmlns
  | .own p _ => p

def Attr.loc : Attr → Str
  | .decl none _ => lit "xmlns"
  | .decl (some p) _ => p
  | .own _ l => l

/-- markup5ever.rs:73-91, `NamespaceMap`: one for the whole document. -/
abbrev Map := List (Option Str × Str)

def Map.get (m : Map) (p : Option Str) : Option Str := (m.find? fun e => e.1 = p).map (·.2)

def Map.insert (m : Map) (p : Option Str) (u : Str) : Map := (p, u) :: m

/-- markup5ever.rs:128-170, `find_xml_uri` and `find_new_xmlns`: the declaration that is missing. -/
def findNew (m : Map) (p : Prefix) : Option (Map × Attr) :=
  if (!p.isEmpty || p.ns.uri ≠ []) && m.get p.value ≠ some p.ns.uri then
    some (m.insert p.value p.ns.uri, .decl p.value p.ns.uri)
  else none

/-- attribute.rs (ast):222-233, `set_named_item`. -/
def setNamed (as : List Attr) (a : Attr) : List Attr :=
  match as.findIdx? fun b => b.prefix.eq a.prefix && b.loc = a.loc with
  | some i => as.set i a
  | none => as ++ [a]

/-- markup5ever.rs:189-194: the declarations that the attributes miss. -/
def missing : Map → List Prefix → Map × List Attr
  | m, [] => (m, [])
  | m, p :: ps => match findNew m p with
    | none => missing m ps
    | some (m, a) => ((missing m ps).1, a :: (missing m ps).2)

/-- `Vec::insert`, which panics if the index is beyond the end. -/
def insertAt (as : List Attr) (i : Nat) (a : Attr) : Option (List Attr) :=
  if i ≤ as.length then some (as.take i ++ a :: as.drop i) else none

/-- markup5ever.rs:200-205: they are inserted to the root one by one, `i` counting those that are left out. -/
def insertAll (off : Nat) : Nat → List Attr → List Attr → Option (List Attr)
  | _, [], root => some root
  | i, a :: as, root => if a.loc = lit "xml" then insertAll off (i + 1) as root
    else match insertAt root (off + i) a with
      | none => none
      | some root => insertAll off (i + 1) as root

/-- markup5ever.rs:197-199, `has_xmlns`. -/
def hasXmlns : List Attr → Bool
  | .decl none _ :: _ => true
  | _ => false

structure State where
  map : Map
  root : List Attr

/-- markup5ever.rs:189-206: the second half of `add_xmlns`, with the attributes of the element. -/
def addAttrs (s : State) (as : List Attr) : Option State :=
  match insertAll (if hasXmlns s.root then 1 else 0) 0 (missing s.map (as.map Attr.prefix)).2 s.root with
  | none => none
  | some root => some ⟨(missing s.map (as.map Attr.prefix)).1, root⟩

/-- markup5ever.rs:171-206, `add_xmlns` for an element below the root: the state after it, and the attributes of the element. -/
def addChild (s : State) (p : Prefix) (as : List Attr) : Option (State × List Attr) :=
  match findNew s.map p with
  | none => (addAttrs s as).map (·, as)
  | some (m, .decl none u) => (addAttrs ⟨m, s.root⟩ (.decl none u :: as)).map (·, .decl none u :: as)
  | some (m, a) => (addAttrs ⟨m, setNamed s.root a⟩ as).map (·, as)

/-- markup5ever.rs:171-206, `add_xmlns` for the root, which is then the root that is found. -/
def addRoot (p : Prefix) (as : List Attr) : Option State :=
  match findNew [] p with
  | none => addAttrs ⟨[], as⟩ as
  | some (m, .decl none u) => addAttrs ⟨m, .decl none u :: as⟩ (.decl none u :: as)
  | some (m, a) => addAttrs ⟨m, setNamed as a⟩ (setNamed as a)

/-- The document that is made: names with their prefixes, and all attributes. -/
inductive Out where
  | mk (name : Prefix) (loc : Str) (attrs : List Attr) (kids : List Out)

/-- markup5ever.rs:275-312, `create_element`: the attributes. -/
def ownAttrs (as : List Name) : List Attr := as.map fun a => .own a.prefix a.loc

mutual
/-- markup5ever.rs:326-334, `append`, for an element below the root and, after it, for its content. -/
def child (s : State) : Elem → Option (State × Out)
  | .mk n as ks => match addChild s n.prefix (ownAttrs as) with
    | none => none
    | some (s, out) => match children s ks with
      | none => none
      | some (s, ks) => some (s, .mk n.prefix n.loc out ks)
def children (s : State) : List Elem → Option (State × List Out)
  | [] => some (s, [])
  | k :: ks => match child s k with
    | none => none
    | some (s, o) => match children s ks with
      | none => none
      | some (s, os) => some (s, o :: os)
end

/-- A whole document: the attributes of the root are those it has in the end. -/
def parse : Elem → Option Out
  | .mk n as ks => match addRoot n.prefix (ownAttrs as) with
    | none => none
    | some s => match children s ks with
      | none => none
      | some (s, ks) => some (.mk n.prefix n.loc s.root ks)

end Verif.Sink
