import Verif.CleanAttrs.Model

/-!
# Model: matching of CSS selectors

`crates/oxvg_ast/src/selectors.rs`, with the navigation of `element.rs`. Strings are lists of code points. The parsing of selectors and
the order of the tests are those of the crate `selectors` 0.39, which is not part of the repository: what it does with the answers of
`SelectElement` is described here from its documentation (names and attributes in lower case where
`is_html_element_in_html_document` holds, indices kept by `OpaqueElement`). `:has`, `:only-child`, `:nth-child(… of …)` and pseudo-elements
are left out.
-/

namespace Verif.Select

open Verif.CleanAttrs (white splitWhitespace)

abbrev Str := List Nat

def lit (s : String) : Str := s.toList.map Char.toNat

/-- An attribute: `pre` is `prefix().value()`, absent for attributes without a prefix (name.rs:208-210). -/
structure Attr where
  pre : Option Str
  loc : Str
  val : Str
deriving DecidableEq

/-- The name of an element. Prefixes are equal iff their namespaces are (`Names.prefix_eq_iff`), so only the namespace is kept. -/
structure Name where
  ns : Str
  loc : Str
deriving DecidableEq

inductive Node where
  | elem (name : Name) (attrs : List Attr) (kids : List Node)
  | text (t : Str)
  | other

/-- A node that is an element (element.rs:79-84, `Element::new`). -/
def Node.isElem : Node → Bool
  | .elem .. => true
  | _ => false

/-- An element between its siblings; those before it with the nearest first. -/
structure Frame where
  before : List Node
  name : Name
  attrs : List Attr
  kids : List Node
  after : List Node

def Frame.node (f : Frame) : Node := .elem f.name f.attrs f.kids

/-- An element in a document: itself and its ancestors, the nearest first. -/
structure Loc where
  here : Frame
  up : List Frame

/-- element.rs:527-532, `parent_element`. -/
def Loc.parent (l : Loc) : Option Loc := match l.up with
  | [] => none
  | f :: fs => some ⟨f, fs⟩

/-- element.rs:527-532, again and again. -/
def ancestorsOf : List Frame → List Loc
  | [] => []
  | f :: fs => ⟨f, fs⟩ :: ancestorsOf fs

def Loc.ancestors (l : Loc) : List Loc := ancestorsOf l.up

/-- The elements among `before`, the nearest first, each with what is around it. -/
def goLeft (up : List Frame) : List Node → List Node → List Loc
  | [], _ => []
  | .elem n as ks :: before, after => ⟨⟨before, n, as, ks, after⟩, up⟩ :: goLeft up before (.elem n as ks :: after)
  | x :: before, after => goLeft up before (x :: after)

/-- The elements among `after`, the nearest first. -/
def goRight (up : List Frame) : List Node → List Node → List Loc
  | _, [] => []
  | before, .elem n as ks :: after => ⟨⟨before, n, as, ks, after⟩, up⟩ :: goRight up (.elem n as ks :: before) after
  | before, x :: after => goRight up (x :: before) after

/-- element.rs:448-457, `previous_element_sibling`, again and again; there is none without a parent element. -/
def Loc.lefts (l : Loc) : List Loc := if l.up.isEmpty then [] else goLeft l.up l.here.before (l.here.node :: l.here.after)

/-- element.rs:433-444, `next_element_sibling`, again and again. -/
def Loc.rights (l : Loc) : List Loc := if l.up.isEmpty then [] else goRight l.up (l.here.node :: l.here.before) l.here.after

/-- element.rs:552-554, `children_iter`. -/
def Loc.children (l : Loc) : List Loc := goRight (l.here :: l.up) [] l.here.kids

/-- element.rs:829-848, the breadth-first iterator, at most `fuel` rounds. -/
def queue : Nat → List Loc → List Loc
  | 0, _ => []
  | _ + 1, [] => []
  | fuel + 1, l :: q => l :: queue fuel (q ++ l.children)

mutual
/-- The number of nodes. -/
def Node.size : Node → Nat
  | .elem _ _ ks => sizeAll ks + 1
  | _ => 1
def sizeAll : List Node → Nat
  | [] => 0
  | n :: ns => n.size + sizeAll ns
end

/-- element.rs:706-708, `breadth_first`, to its end. -/
def Loc.below (l : Loc) : List Loc := queue (sizeAll l.here.kids) l.children

/-- What is not in the repository or not in the document: how an attribute of an element is written (`to_value_string`), which attributes
have values that HTML compares without case, and at which address the wrapper of an element is when it is tested. -/
structure Env where
  print : Name → Attr → Option Str
  noCase : Str → Bool
  addr : Loc → Nat

/-- ASCII lower case. -/
def lower (s : Str) : Str := s.map fun c => if 65 ≤ c && c ≤ 90 then c + 32 else c

/-- The tests of an attribute selector. -/
inductive Op where
  | present | equals (v : Str) | includes (v : Str) | dash (v : Str) | starts (v : Str) | ends (v : Str) | contains (v : Str)

/-- The case flag of an attribute selector: `i`, `s` or none. -/
inductive Flag where
  | i | s | auto
deriving DecidableEq

inductive Comb where
  | child | descendant | next | later

mutual
/-- Complex selectors, from right to left. -/
inductive Sel where
  | one (c : Comp)
  | join (l : Sel) (k : Comb) (c : Comp)
/-- Compound selectors. -/
inductive Comp where
  | nil
  | cons (s : Simple) (c : Comp)
inductive Simple where
  | any
  | name (n : Str)
  | id (n : Str)
  | cls (n : Str)
  | attr (anyNs : Bool) (n : Str) (o : Op) (f : Flag)
  | root | empty | link | scope
  | nth (ofType fromEnd : Bool) (a b : Int)
  | neg (l : Sels)
  | isAny (l : Sels)
/-- Selector lists. -/
inductive Sels where
  | nil
  | cons (s : Sel) (l : Sels)
end

/-- selectors.rs:381-383. -/
def isHtml (_ : Loc) : Bool := true

/-- selectors.rs:385-394, `has_local_name`. -/
def hasLocalName (l : Loc) (n : Str) : Bool := l.here.name.loc = n

/-- selectors.rs:403-408, `is_same_type`. -/
def sameType (a b : Loc) : Bool := a.here.name = b.here.name

/-- attribute.rs (ast):162-168, `get_named_item_local`. -/
def getLocal (as : List Attr) (n : Str) : Option Attr := as.find? fun a => a.pre.isNone && a.loc = n

/-- The whitespace of CSS (crate `selectors`). -/
def cssWhite (c : Nat) : Bool := c == 32 || c == 9 || c == 10 || c == 13 || c == 12

/-- Rust's `str::split` by whitespace of CSS. -/
def splitCss (cur : Str) : Str → List Str
  | [] => [cur.reverse]
  | c :: v => if cssWhite c then cur.reverse :: splitCss [] v else splitCss (c :: cur) v

/-- `v` is somewhere in the text. -/
def isInfix (v : Str) : Str → Bool
  | [] => v.isEmpty
  | c :: s => v.isPrefixOf (c :: s) || isInfix v s

/-- Crate `selectors`, `AttrSelectorOperation::eval_str`. -/
def eval (o : Op) (s : Str) : Bool := match o with
  | .present => true
  | .equals v => v = s
  | .includes v => !v.isEmpty && (splitCss [] s).contains v
  | .dash v => v = s || (v ++ [45]).isPrefixOf s
  | .starts v => !v.isEmpty && v.isPrefixOf s
  | .ends v => !v.isEmpty && v.isSuffixOf s
  | .contains v => !v.isEmpty && isInfix v s

/-- The operator with its value in lower case. -/
def Op.lower : Op → Op
  | .present => .present
  | .equals v => .equals (Select.lower v)
  | .includes v => .includes (Select.lower v)
  | .dash v => .dash (Select.lower v)
  | .starts v => .starts (Select.lower v)
  | .ends v => .ends (Select.lower v)
  | .contains v => .contains (Select.lower v)

/-- selectors.rs:410-439, `attr_matches`: with any namespace and with none the attribute is looked up in the same way. The parser knows no
other namespaces (`Parser`, selectors.rs:313-316). -/
def attrMatches (E : Env) (l : Loc) (_anyNs : Bool) (n : Str) (noCase : Bool) (o : Op) : Bool :=
  match getLocal l.here.attrs n with
  | none => false
  | some a => match E.print l.here.name a with
    | none => false
    | some v => if noCase then eval o.lower (lower v) else eval o v

/-- Crate `selectors`: names in lower case for elements of HTML. -/
def selectName (l : Loc) (n : Str) : Str := if isHtml l then lower n else n

/-- Crate `selectors`: whether case counts. -/
def caseless (E : Env) (l : Loc) (n : Str) : Flag → Bool
  | .i => true
  | .s => false
  | .auto => isHtml l && E.noCase (lower n)

/-- selectors.rs:484-497, `has_id`. -/
def hasId (l : Loc) (n : Str) : Bool := match getLocal l.here.attrs (lit "id") with
  | some a => a.val = n
  | none => false

/-- selectors.rs:499-512, `has_class`. -/
def hasClass (l : Loc) (n : Str) : Bool := match getLocal l.here.attrs (lit "class") with
  | some a => (splitWhitespace a.val).contains n
  | none => false

/-- selectors.rs:525-533, `is_empty`. -/
def isEmpty (l : Loc) : Bool := l.here.kids.all fun
  | .text t => t.all white
  | _ => false

/-- selectors.rs:535-537 and element.rs:317-322, `is_root`. -/
def isRoot (l : Loc) : Bool := l.up.isEmpty

def svgNs : Str := lit "http://www.w3.org/2000/svg"

/-- selectors.rs:468-478, `is_link`. -/
def isLink (l : Loc) : Bool :=
  (l.here.name = ⟨svgNs, lit "a"⟩ || l.here.name.loc = lit "area" || l.here.name.loc = lit "link") &&
    (getLocal l.here.attrs (lit "href")).isSome

/-- Indices that are known: by kind of index and address (crate `selectors`, `NthIndexCache`). -/
abbrev Cache := List ((Bool × Bool × Nat) × Nat)

def Cache.get (c : Cache) (k : Bool × Bool × Nat) : Option Nat := (c.find? fun e => e.1 = k).map (·.2)

/-- Crate `selectors`, `nth_child_index`, without its own use of the cache. -/
def index (ofType fromEnd : Bool) (l : Loc) : Nat :=
  ((if fromEnd then l.rights else l.lefts).filter fun s => !ofType || sameType l s).length + 1

/-- Crate `selectors`, `AnPlusB::matches_index`. -/
def onStep (a b : Int) (i : Nat) : Bool := if a = 0 then (i : Int) = b else 0 ≤ ((i : Int) - b) / a && a * (((i : Int) - b) / a) = (i : Int) - b

abbrev Run := Cache → Bool × Cache

def Run.ret (b : Bool) : Run := fun c => (b, c)
def Run.neg (p : Run) : Run := fun c => (!(p c).1, (p c).2)
def Run.and (p q : Run) : Run := fun c => if (p c).1 then q (p c).2 else (false, (p c).2)
def Run.or (p q : Run) : Run := fun c => if (p c).1 then (true, (p c).2) else q (p c).2

def Run.any (f : Loc → Run) : List Loc → Run
  | [] => .ret false
  | l :: ls => (f l).or (Run.any f ls)

/-- Crate `selectors`, `matches_generic_nth_child`; elements are known by the address of their wrapper (selectors.rs:349-351, `opaque`). -/
def nthChild (E : Env) (ofType fromEnd : Bool) (a b : Int) (l : Loc) : Run := fun c =>
  if a = 0 ∧ b = 1 ∧ ofType = false then ((if fromEnd then l.rights else l.lefts).isEmpty, c)
  else match c.get (ofType, fromEnd, E.addr l) with
    | some i => (onStep a b i, c)
    | none => (onStep a b (index ofType fromEnd l), ((ofType, fromEnd, E.addr l), index ofType fromEnd l) :: c)

mutual
/-- Crate `selectors`, `matches_complex_selector`; `sc` is the address of the wrapper of the scope (selectors.rs:302). -/
def sel (E : Env) (sc : Option Nat) : Sel → Loc → Run
  | .one c, l => comp E sc c l
  | .join s .child c, l => (comp E sc c l).and (Run.any (sel E sc s) l.parent.toList)
  | .join s .descendant c, l => (comp E sc c l).and (Run.any (sel E sc s) l.ancestors)
  | .join s .next c, l => (comp E sc c l).and (Run.any (sel E sc s) l.lefts.head?.toList)
  | .join s .later c, l => (comp E sc c l).and (Run.any (sel E sc s) l.lefts)
/-- Crate `selectors`, `matches_compound_selector`. -/
def comp (E : Env) (sc : Option Nat) : Comp → Loc → Run
  | .nil, _ => .ret true
  | .cons s c, l => (simple E sc s l).and (comp E sc c l)
/-- Crate `selectors`, `matches_simple_selector`. -/
def simple (E : Env) (sc : Option Nat) : Simple → Loc → Run
  | .any, _ => .ret true
  | .name n, l => .ret (hasLocalName l (selectName l n))
  | .id n, l => .ret (hasId l n)
  | .cls n, l => .ret (hasClass l n)
  | .attr w n o f, l => .ret (attrMatches E l w (selectName l n) (caseless E l n f) o)
  | .root, l => .ret (isRoot l)
  | .empty, l => .ret (isEmpty l)
  | .link, l => .ret (isLink l)
  | .scope, l => match sc with
    | none => .ret (isRoot l)
    | some s => .ret (E.addr l == s)
  | .nth t e a b, l => nthChild E t e a b l
  | .neg ss, l => (sels E sc ss l).neg
  | .isAny ss, l => sels E sc ss l
/-- Crate `selectors`, `matches_selector_list`. -/
def sels (E : Env) (sc : Option Nat) : Sels → Loc → Run
  | .nil, _ => .ret false
  | .cons s ss, l => (sel E sc s l).or (sels E sc ss l)
end

/-- selectors.rs:260-270, `Select::next` until there is none: the indices that are known are kept. -/
def pick (E : Env) (sc : Option Nat) (ss : Sels) : List Loc → Cache → List Loc
  | [], _ => []
  | l :: ls, c => if (sels E sc ss l c).1 then l :: pick E sc ss ls (sels E sc ss l c).2 else pick E sc ss ls (sels E sc ss l c).2

/-- selectors.rs:243-256, `Select::new_with_selector`, and all that follows; the address of the wrapper of the scope is `addr`. -/
def select (E : Env) (addr : Nat) (root : Loc) (ss : Sels) : List Loc := pick E (some addr) ss root.below []

/-- selectors.rs:307-309, `matches_naive`. -/
def matchesNaive (E : Env) (ss : Sels) (l : Loc) : Bool := (sels E none ss l []).1

end Verif.Select
