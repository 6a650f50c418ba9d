/-!
# Model: the actions `attr` and `style`

`crates/oxvg_actions/src/actions/manipulate.rs`. What an element makes of a name of an attribute, which depends on the tables of
names and on the namespaces in scope, is a parameter that does not change during the action (the action does not set
`xmlns`). Reading CSS is a parameter that may fail.
-/

namespace Verif.Edit

/-- A value of an attribute: text, or the declarations of `style`, the important ones first. -/
inductive Val (D : Type) where
  | text (t : List Char)
  | style (important normal : List D)

/-- An element: its attributes in their order, with their names. -/
structure El (K D : Type) where
  attrs : List (K × Val D)

/-- A node of the arena. -/
inductive Node (K D : Type) where
  | other
  | element (e : El K D)

/-- The nodes of the arena by their ids. -/
abbrev Doc (K D : Type) := Nat → Option (Node K D)

/-- How an action ends. -/
inductive Res (α : Type) where
  | ok (a : α)
  | err (a : α)
  | panic

section

variable {K D : Type} [DecidableEq K]

/-- oxvg_ast attribute.rs:222-233, `set_named_item`. -/
def setNamed (k : K) (v : Val D) : List (K × Val D) → List (K × Val D)
  | [] => [(k, v)]
  | a :: l => if a.1 = k then (k, v) :: l else a :: setNamed k v l

/-- The first attribute of a name. -/
def get (k : K) : List (K × Val D) → Option (Val D)
  | [] => none
  | a :: l => if a.1 = k then some a.2 else get k l

def put (doc : Doc K D) (id : Nat) (e : El K D) : Doc K D := fun i => if i = id then some (.element e) else doc i

/-- oxvg_ast element.rs:168-178: a name with more than one colon makes `parse_attr_id` panic. -/
def colons (name : List Char) : Nat := name.count ':'

/-- manipulate.rs:32-47, the body of the loop of `attr`. `known` is `parse_attr_id` for the element of an id, `none` for an
unknown name. -/
def attrOne (known : Nat → List Char → Option K) (name value : List Char) (doc : Doc K D) (id : Nat) : Res (Doc K D) :=
  match doc id with
  | some (.element e) =>
    if 1 < colons name then .panic
    else match known id name with
      | none => .ok doc
      | some k => .ok (put doc id ⟨setNamed k (.text value) e.attrs⟩)
  | _ => .ok doc

/-- A loop that stops at an error. -/
def loop {α : Type} (f : α → Nat → Res α) : α → List Nat → Res α
  | a, [] => .ok a
  | a, i :: l =>
    match f a i with
    | .ok b => loop f b l
    | .err b => .err b
    | .panic => .panic

/-- manipulate.rs:22-50, `attr`, after the entry in the history; `none` for no selection. -/
def attr (known : Nat → List Char → Option K) (name value : List Char) (sel : Option (List Nat)) (doc : Doc K D) : Res (Doc K D) :=
  match sel with
  | none => .ok doc
  | some ids => loop (attrOne known name value) doc ids

/-- The word behind a value. -/
def word : List Char := "!important".toList

/-- `str::split_once` for this word. -/
def splitOnce : List Char → Option (List Char × List Char)
  | [] => none
  | c :: l => if word.isPrefixOf (c :: l) then some ([], (c :: l).drop 10) else (splitOnce l).map fun r => (c :: r.1, r.2)

/-- `str::trim_end`, for the white space of `isWhite`. -/
def trimEnd (isWhite : Char → Bool) (v : List Char) : List Char := (v.reverse.dropWhile isWhite).reverse

/-- manipulate.rs:117-120. -/
def important (isWhite : Char → Bool) (v : List Char) : List Char × Bool :=
  match splitOnce (trimEnd isWhite v) with
  | some (a, []) => (a, true)
  | _ => (v, false)

/-- manipulate.rs:129-146: adding a declaration. -/
def add (style : K) (imp : Bool) (d : D) (l : List (K × Val D)) : List (K × Val D) :=
  match get style l with
  | some (.style i n) => setNamed style (if imp then .style (i ++ [d]) n else .style i (n ++ [d])) l
  | _ => setNamed style (if imp then .style [d] [] else .style [] [d]) l

/-- manipulate.rs:103-146, the body of the loop of `style`; `permits` says whether an element accepts `style`, `css` reads the
property and the value without the word. -/
def styleOne (style : K) (isWhite : Char → Bool) (permits : Nat → Bool) (css : List Char → List Char → Option D) (property value : List Char)
    (doc : Doc K D) (id : Nat) : Res (Doc K D) :=
  match doc id with
  | some (.element e) =>
    if permits id then
      match css property (important isWhite value).1 with
      | none => .err doc
      | some d => .ok (put doc id ⟨add style (important isWhite value).2 d e.attrs⟩)
    else .ok doc
  | _ => .ok doc

/-- manipulate.rs:93-150, `style`, after the entry in the history. -/
def style (key : K) (isWhite : Char → Bool) (permits : Nat → Bool) (css : List Char → List Char → Option D) (property value : List Char)
    (sel : Option (List Nat)) (doc : Doc K D) : Res (Doc K D) :=
  match sel with
  | none => .ok doc
  | some ids => loop (styleOne key isWhite permits css property value) doc ids

end

end Verif.Edit
