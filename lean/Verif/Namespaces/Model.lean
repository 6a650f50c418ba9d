/-!
# Model: the prefixes and namespaces of a parsed document

`crates/oxvg_ast/src/parse/roxmltree.rs`. `P` are prefixes (`none` is no prefix, the default namespace), `U` are
the URIs of namespaces, `L` local names. The reader (`roxmltree`) has resolved the prefixes of its input: it
hands over a URI and a local name for every element and attribute, and for every element the declarations in
scope. What is kept of the result are the qualified names and `xmlns` attributes, which is what the writer writes
(name.rs:296-303, `Display for QualName`; that `Prefix::new` keeps the prefix it is given is shown in `Verif.Names`).
-/

namespace Verif.Namespaces

variable {P U L : Type} [DecidableEq P] [DecidableEq U]

/-- A declaration of a namespace. -/
abbrev Decl (P U : Type) := Option P × U

/-- A node of the reader: the declarations on the element, its name, its attributes, whether it is a `style`
element with rules that can be read, its children. -/
inductive Src (P U L : Type) where
  | elem (decls : List (Decl P U)) (name : Option U × L) (attrs : List (Option U × L)) (style : Bool)
      (kids : List (Src P U L))
  | other

/-- A node of the parsed document: the `xmlns` attributes, then the names as they are written. -/
inductive Out (P U L : Type) where
  | elem (xmlns : List (Decl P U)) (name : Option P × L) (attrs : List (Option P × L)) (kids : List (Out P U L))
  | other

/-- roxmltree.rs:39-43, `NamespaceMap`. The key of `uri_to_prefix` and the values of `prefix_to_uri` are never
`None` (every call of `insert` passes `Some` URI, 87, 218-220, 382, 396). -/
structure Maps (P U : Type) where
  prefixToUri : Option P → Option U
  uriToPrefix : U → Option (Option P)

/-- roxmltree.rs:51-59, `insert`: the result pairs the former prefix of the URI with the former URI of the
prefix. -/
def Maps.insert (m : Maps P U) (p : Option P) (u : U) : Maps P U × Option (Decl P U) :=
  (⟨fun q => if q = p then some u else m.prefixToUri q, fun v => if v = u then some p else m.uriToPrefix v⟩,
   (m.uriToPrefix u).bind fun q => (m.prefixToUri p).map fun v => (q, v))

/-- roxmltree.rs:61-63, `get_by_uri`. -/
def Maps.getByUri (m : Maps P U) (u : Option U) : Option P := (u.bind m.uriToPrefix).join

/-- roxmltree.rs:86-87. -/
def Maps.start (xml : P) (xmlUri : U) : Maps P U :=
  ((⟨fun _ => none, fun _ => none⟩ : Maps P U).insert (some xml) xmlUri).1

/-- What `find_new_xmlns` reads and writes: the maps, `popped_ns`, and the attributes so far. -/
structure Scan (P U : Type) where
  maps : Maps P U
  popped : List (Decl P U)
  xmlns : List (Decl P U)

/-- A declaration is put into the maps, and what it displaced is kept. -/
def Scan.put (s : Scan P U) (d : Decl P U) : Scan P U :=
  ⟨(s.maps.insert d.1 d.2).1, s.popped ++ (s.maps.insert d.1 d.2).2.toList, s.xmlns ++ [d]⟩

/-- roxmltree.rs:369-416, `find_new_xmlns` and `find_xml_uri`; `blank` is the empty URI. -/
def scan (blank : U) (s : Scan P U) (d : Decl P U) : Scan P U :=
  if s.maps.prefixToUri d.1 = some d.2 then s
  else match d.1 with
    | some _ => if s.maps.prefixToUri none ≠ some d.2 then s.put d else { s with xmlns := s.xmlns ++ [d] }
    | none => if d.2 ≠ blank then s.put d else s

/-- The declarations in scope: those of the element, then those of its surroundings that are not overridden
(the `namespaces` of a node of `roxmltree`). -/
def inScope (own outer : List (Decl P U)) : List (Decl P U) :=
  own ++ outer.filter fun d => own.all fun e => e.1 != d.1

/-- roxmltree.rs:335-366, `parse_attr` and `parse_expanded_name`: the name gets the prefix of its URI. -/
def nameOf (m : Maps P U) (n : Option U × L) : Option P × L := (m.getByUri n.1, n.2)

/-- roxmltree.rs:238-239: all declarations in scope are looked at. -/
def scanAll (blank : U) (m : Maps P U) (own outer : List (Decl P U)) : Scan P U :=
  (inScope own outer).foldl (scan blank) ⟨m, [], []⟩

/-- roxmltree.rs:217-220: what was displaced is put back. -/
def restore (m : Maps P U) (popped : List (Decl P U)) : Maps P U :=
  popped.foldl (fun m d => (m.insert d.1 d.2).1) m

mutual
/-- roxmltree.rs:193-263, `parse_xml_node` and `parse_element`: the name of the element is made before its
declarations are looked at; a style element returns early. The limit on the depth is in `Verif.Build`. -/
def parseNode (blank : U) (outer : List (Decl P U)) (m : Maps P U) : Src P U L → Out P U L × Maps P U
  | .other => (.other, m)
  | .elem decls name attrs style kids =>
    let name := nameOf m name
    let s := scanAll blank m decls outer
    let attrs := attrs.map (nameOf s.maps)
    if style then (.elem s.xmlns name attrs [.other], s.maps)
    else
      let r := parseAll blank (inScope decls outer) s.maps kids
      (.elem s.xmlns name attrs r.1, restore r.2 s.popped)
/-- roxmltree.rs:160-174. -/
def parseAll (blank : U) (outer : List (Decl P U)) (m : Maps P U) : List (Src P U L) → List (Out P U L) × Maps P U
  | [] => ([], m)
  | k :: ks =>
    let r := parseNode blank outer m k
    let rs := parseAll blank outer r.2 ks
    (r.1 :: rs.1, rs.2)
end

/-- roxmltree.rs:76-100, `parse_tree_with_allocator`. -/
def parseTree (blank : U) (xml : P) (xmlUri : U) (doc : List (Src P U L)) : List (Out P U L) :=
  (parseAll blank [] (Maps.start xml xmlUri) doc).1

end Verif.Namespaces
