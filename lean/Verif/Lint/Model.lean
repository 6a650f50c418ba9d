import Verif.Names.Model
import Verif.Namespaces.Model

/-!
# Model: the rules of the linter that look at the whole document

`crates/oxvg_lint/src/rules/mod.rs`, `rules/no_unused_xmlns.rs`, `rules/no_unused_ids.rs`,
`rules/no_default_attributes.rs`.

Values of attributes are their text. Of a position in the source only the start of an element is kept. A
`HashSet` and a `HashMap` are lists; in what order the entries are reported is left open in the code (`par_drain`,
`par_iter`), so the theorems are about membership and multiplicity.
-/

namespace Verif.Lint

open Verif.Names
open Verif.Namespaces (Src Maps scanAll inScope restore)

variable {K : Type} [DecidableEq K]

/-- A node of the document: where an element starts in the source, the prefix of its name, its attributes and its
children; other nodes are not looked at (visitor.rs:363-376). -/
inductive Node (K : Type) where
  | elem (pos : Nat) (name : Prefix) (attrs : List (Attr K Str)) (kids : List (Node K))
  | other

/-- The table of attributes with the variants `Attr::XMLNS` and `Attr::Id`, and what `visit_id` and `visit_url`
find in a value (content_type.rs:243-360; `Verif.Values` models them on typed values). -/
structure Vocab (K : Type) where
  table : Table K
  xmlns : K
  id : K
  refs : Attr K Str → List Str
  urls : Attr K Str → List Str

/-- A declared prefix with its URI. -/
abbrev Decl := Option Str × Str

/-- An entry of a set of the stack: a declaration and whether it is used. -/
abbrev Entry := Decl × Bool

/-- `HashSet::insert`. -/
def put (e : Entry) (s : List Entry) : List Entry := if e ∈ s then s else e :: s

/-- rules/mod.rs:260-274, the patterns of `push_xmlns`. -/
def declared (V : Vocab K) : Attr K Str → Option Decl
  | .typed k v => if k = V.xmlns then some (none, v) else none
  | .unparsed (.unknown p l) v => if p = .std .xmlns then some (some l, v) else none
  | _ => none

/-- One step of the loop of rules/mod.rs:259-275. -/
def pushStep (V : Vocab K) (s : List Entry) (a : Attr K Str) : List Entry :=
  match declared V a with
  | some d => put (d, false) s
  | none => s

/-- rules/mod.rs:257-277, `push_xmlns`: the set that is pushed. -/
def pushSet (V : Vocab K) (attrs : List (Attr K Str)) : List Entry := attrs.foldl (pushStep V) []

/-- rules/mod.rs:280-293, the closure `insert` of `track_xmlns`. The stack has its innermost set in front. -/
def useName (d : Decl) : List (List Entry) → List (List Entry)
  | [] => []
  | s :: rest =>
    if (d, true) ∈ s then s :: rest
    else if (d, false) ∈ s then put (d, true) (s.filter (· ≠ (d, false))) :: useName d rest
    else s :: useName d rest

/-- rules/mod.rs:295-297 and 300-302: what a prefix is looked up as. -/
def key (p : Prefix) : Decl := (p.value, p.ns.uri)

/-- rules/mod.rs:278-304, `track_xmlns`: the attributes, then the element. -/
def track (V : Vocab K) (name : Prefix) (attrs : List (Attr K Str)) (st : List (List Entry)) :
    List (List Entry) :=
  useName (key name) (attrs.foldl (fun st a => useName (key (a.prefix' V.table)) st) st)

/-- no_unused_xmlns.rs:17-32. -/
def unused (pos : Nat) (s : List Entry) : List (Nat × Decl) :=
  s.filterMap fun e => if e.2 then none else some (pos, e.1)

/-- rules/mod.rs:165-186, `exit_element`; the rule is not off. -/
def leave (pos : Nat) (st : List (List Entry)) (out : List (Nat × Decl)) :
    List (List Entry) × List (Nat × Decl) :=
  match st with
  | [] => ([], out)
  | s :: rest => (rest, out ++ unused pos s)

mutual
/-- rules/mod.rs:127-186 with visitor.rs:312-377, as far as namespaces are concerned. -/
def visit (V : Vocab K) (st : List (List Entry)) (out : List (Nat × Decl)) :
    Node K → List (List Entry) × List (Nat × Decl)
  | .elem pos name attrs kids =>
    let r := visitAll V (track V name attrs (pushSet V attrs :: st)) out kids
    leave pos r.1 r.2
  | .other => (st, out)
def visitAll (V : Vocab K) (st : List (List Entry)) (out : List (Nat × Decl)) :
    List (Node K) → List (List Entry) × List (Nat × Decl)
  | [] => (st, out)
  | n :: ns =>
    let r := visit V st out n
    visitAll V r.1 r.2 ns
end

/-- The reports of `no_unused_xmlns` for a document (rules/mod.rs:101-124). -/
def reportNs (V : Vocab K) (doc : List (Node K)) : List (Nat × Decl) := (visitAll V [] [] doc).2

/-! ## Ids -/

/-- `Attr::Id` behind `unaliased` (rules/mod.rs:240). -/
def idOf (V : Vocab K) : Attr K Str → Option Str
  | .typed k v => if k = V.id then some v else none
  | .aliased _ (.typed k v) => if k = V.id then some v else none
  | _ => none

/-- `strip_prefix('#')` (rules/mod.rs:229, 250). -/
def fragment : Str → Option Str
  | c :: r => if c = 35 then some r else none
  | [] => none

/-- The fields `ids` and `referenced_ids` of `Reporter` (rules/mod.rs:84-85). -/
structure Ids where
  ids : List (Str × Nat)
  refs : List Str

/-- `HashMap::insert`. -/
def setId (i : Str) (pos : Nat) (m : List (Str × Nat)) : List (Str × Nat) :=
  (i, pos) :: m.filter fun e => e.1 ≠ i

/-- rules/mod.rs:239-253, one attribute. -/
def idStep (V : Vocab K) (pos : Nat) (s : Ids) (a : Attr K Str) : Ids :=
  match idOf V a with
  | some i => { s with ids := setId i pos s.ids }
  | none => { s with refs := s.refs ++ V.refs a ++ (V.urls a).filterMap fragment }

mutual
/-- rules/mod.rs:236-255, `track_id_references`, on all elements in the order of the document. -/
def trackIds (V : Vocab K) (s : Ids) : Node K → Ids
  | .elem pos _ attrs kids => trackIdsAll V (attrs.foldl (idStep V pos) s) kids
  | .other => s
def trackIdsAll (V : Vocab K) (s : Ids) : List (Node K) → Ids
  | [] => s
  | n :: ns => trackIdsAll V (trackIds V s n) ns
end

/-- What a style sheet refers to: the URLs in it, and the ids in its selectors. -/
structure Sheet where
  urls : List Str
  selectors : List Str

/-- rules/mod.rs:109-123, 188-210 and 215-233, with no_unused_ids.rs:17-28: the reports of `no_unused_ids`. Only
the URLs of the style sheets are visited (`visit_types!(URLS)`). -/
def reportIds (V : Vocab K) (scripts : Bool) (sheets : List Sheet) (doc : List (Node K)) : List Str :=
  if scripts then []
  else
    let s := trackIdsAll V ⟨[], sheets.flatMap fun s => s.urls.filterMap fragment⟩ doc
    (s.ids.filter fun e => e.1 ∉ s.refs).map Prod.fst

/-! ## From the source -/

/-- The `xmlns` attributes of roxmltree.rs:384-399. -/
def xmlnsAttr (V : Vocab K) : Option Str × Str → Attr K Str
  | (some p, u) => .unparsed (.unknown (.std .xmlns) p) u
  | (none, u) => .typed V.xmlns u

/-- roxmltree.rs:336-347 and 351-362: the prefix of a name with the given namespace. -/
def prefixOf (m : Maps Str Str) (ns : Option Str) : Prefix :=
  Prefix.new (ns.getD ((m.prefixToUri none).getD [])) (m.getByUri ns)

mutual
/-- roxmltree.rs:193-279 (`Verif.Namespaces.parseNode` keeps the names as written; here the prefixes are kept with
their namespaces). `attr` makes an attribute from a prefix and a local name. -/
def readNode (V : Vocab K) (attr : Prefix → Str → Attr K Str) (outer : List (Option Str × Str)) (m : Maps Str Str) :
    Src Str Str Str → Node K × Maps Str Str
  | .other => (.other, m)
  | .elem decls name attrs style kids =>
    let n := prefixOf m name.1
    let s := scanAll [] m decls outer
    let as := s.xmlns.map (xmlnsAttr V) ++ attrs.map fun a => attr (prefixOf s.maps a.1) a.2
    if style then (.elem 0 n as [.other], s.maps)
    else
      let r := readAll V attr (inScope decls outer) s.maps kids
      (.elem 0 n as r.1, restore r.2 s.popped)
def readAll (V : Vocab K) (attr : Prefix → Str → Attr K Str) (outer : List (Option Str × Str)) (m : Maps Str Str) :
    List (Src Str Str Str) → List (Node K) × Maps Str Str
  | [] => ([], m)
  | k :: ks =>
    let r := readNode V attr outer m k
    let rs := readAll V attr outer r.2 ks
    (r.1 :: rs.1, rs.2)
end

/-- roxmltree.rs:76-100. -/
def read (V : Vocab K) (attr : Prefix → Str → Attr K Str) (doc : List (Src Str Str Str)) : List (Node K) :=
  (readAll V attr [] (Maps.start (lit "xml") (StdNs.uri .xml)) doc).1

/-! ## Default values -/

/-- An element as far as one presentation attribute is concerned: the value on the element and the children. -/
inductive Styled (W : Type) where
  | elem (own : Option W) (kids : List (Styled W))

/-- no_default_attributes.rs:16-28: the attribute is reported if its value is the default. -/
def reportsDefault {W : Type} [DecidableEq W] (dflt : W) (own : Option W) : Bool := own = some dflt

end Verif.Lint
