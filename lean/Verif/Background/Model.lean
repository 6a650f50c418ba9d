/-!
# Model: the job `cleanupEnableBackground`

`crates/oxvg_optimiser/src/jobs/cleanup_enable_background.rs`. The type of numbers and all values that the job does not look at are left open.
Attributes are those without a prefix that is an alias (with one, the macro of attribute.rs:99-112 panics for `style`).
-/

namespace Verif.Background

variable {N V : Type}

/-- The elements that the job tells apart, whatever their prefix (element.rs (collections):291-302, 347-356). -/
inductive Kind where
  | svg
  | mask
  | pattern
  | filter
  | other
  deriving DecidableEq

/-- attribute/presentation.rs:330-336, `EnableBackground`. The region is x, y, width and height. -/
inductive Enable (N : Type) where
  | accumulate
  | fresh (region : Option (N × N × N × N))

/-- What an attribute `enable-background` holds: a value, `inherit` and the like (`Inheritable::Inherited`), or text that was not understood
(`Attr::Unparsed`). -/
inductive Held (N : Type) where
  | defined (e : Enable N)
  | inherited
  | unparsed

/-- What an attribute `width` or `height` holds: an absolute length, in pixels (`LengthValue::to_px`), or anything else: percentages, lengths that
depend on fonts, unparsed text, other types of content. -/
inductive Size (N : Type) where
  | px (n : N)
  | other

/-- A token in the value of a declaration that the parser of CSS does not know. -/
inductive Token (V : Type) where
  | ident (s : String)
  | other (v : V)

/-- A declaration: either of an unknown property (`Property::Custom`), or another. -/
inductive Decl (V : Type) where
  | custom (name : String) (value : List (Token V))
  | known (v : V)

/-- The declarations of a `style` attribute. -/
structure Block (V : Type) where
  important : List (Decl V)
  normal : List (Decl V)

/-- An attribute. -/
inductive Item (N V : Type) where
  | style (b : Block V)
  | background (h : Held N)
  | width (s : Size N)
  | height (s : Size N)
  | other (v : V)

/-- A document; `leaf` is anything but an element. -/
inductive Node (N V : Type) where
  | leaf (v : V)
  | elem (kind : Kind) (name : V) (attrs : List (Item N V)) (kids : List (Node N V))

/-- cleanup_enable_background.rs:93-99, what is retained. -/
def retained : Decl V → Bool
  | .custom name value => name != "enable-background" || (match value with
    | .ident s :: _ => s != "new"
    | _ => true)
  | .known _ => true

/-- cleanup_enable_background.rs:88-105, `visit_declaration_block`. -/
def cleanBlock (b : Block V) : Block V := ⟨b.important.filter retained, b.normal.filter retained⟩

/-- cleanup_enable_background.rs:115-124: the `style` attribute, which goes if it is empty. -/
def cleanStyle : List (Item N V) → List (Item N V)
  | [] => []
  | .style b :: as =>
    let c := cleanBlock b
    if c.important.isEmpty && c.normal.isEmpty then as else .style c :: as
  | a :: as => a :: cleanStyle as

/-- attribute.rs (ast):116-130, `remove_attribute!(element, EnableBackground)`. -/
def remove : List (Item N V) → List (Item N V)
  | [] => []
  | .background _ :: as => as
  | a :: as => a :: remove as

/-- attribute.rs (ast):71-88, `get_attribute!(element, EnableBackground)`. -/
def get : List (Item N V) → Option (Held N)
  | [] => none
  | .background h :: _ => some h
  | _ :: as => get as

/-- attribute.rs (ast):162-168, `get_named_item_local` for `width`. -/
def getWidth : List (Item N V) → Option (Size N)
  | [] => none
  | .width s :: _ => some s
  | _ :: as => getWidth as

/-- attribute.rs (ast):162-168, `get_named_item_local` for `height`. -/
def getHeight : List (Item N V) → Option (Size N)
  | [] => none
  | .height s :: _ => some s
  | _ :: as => getHeight as

/-- attribute.rs (ast), `set_named_item`, for `enable-background`, as in cleanup_enable_background.rs:172-175. -/
def set (h : Held N) : List (Item N V) → List (Item N V)
  | [] => [.background h]
  | .background _ :: as => .background h :: as
  | a :: as => a :: set h as

/-- cleanup_enable_background.rs:131-166: whether the end of the function is reached. -/
def fits [DecidableEq N] (as : List (Item N V)) : Bool := match get as with
  | some (.defined (.fresh (some (_, _, w, h)))) => match getWidth as with
    | some (.px w') => match getHeight as with
      | some (.px h') => !(decide (w' ≠ w) || decide (h' ≠ h))
      | _ => false
    | _ => false
  | _ => false

/-- cleanup_enable_background.rs:110-182, `element`. -/
def element [DecidableEq N] (containsFilter : Bool) (k : Kind) (as : List (Item N V)) : List (Item N V) :=
  let as := cleanStyle as
  if !containsFilter then remove as
  else if !fits as then as
  else match k with
    | .svg => remove as
    | .mask | .pattern => set (.defined (.fresh none)) as
    | _ => as

mutual
/-- Whether the node or something in it is a filter. -/
def isFilter : Node N V → Bool
  | .leaf _ => false
  | .elem k _ _ ks => k == .filter || anyFilter ks
/-- cleanup_enable_background.rs:186-192, `State::new`: whether there is a filter below the root (the iterator does not give the root itself, see
`Verif.Bfs.bfs_spec`, from which it follows as well that the order does not matter here). -/
def anyFilter : List (Node N V) → Bool
  | [] => false
  | n :: ns => isFilter n || anyFilter ns
end

mutual
/-- visitor.rs:312-349, with this job. -/
def visit [DecidableEq N] (f : Bool) : Node N V → Node N V
  | .leaf v => .leaf v
  | .elem k n as ks => .elem k n (element f k as) (visitAll f ks)
/-- visitor.rs:355-377. -/
def visitAll [DecidableEq N] (f : Bool) : List (Node N V) → List (Node N V)
  | [] => []
  | n :: ns => visit f n :: visitAll f ns
end

/-- element.rs:661-676, `find_element`, from the document: its first element (other nodes have no children). -/
def findElement : List (Node N V) → Option (List (Node N V))
  | [] => none
  | .leaf _ :: ns => findElement ns
  | .elem _ _ _ ks :: _ => some ks

/-- cleanup_enable_background.rs:66-79, `prepare`, on the children of the document. -/
def run [DecidableEq N] (enabled : Bool) (doc : List (Node N V)) : List (Node N V) :=
  if !enabled then doc
  else match findElement doc with
    | none => doc
    | some ks => visitAll (anyFilter ks) doc

end Verif.Background
