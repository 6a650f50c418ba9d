/-!
# Model: the computed styles of an element

`crates/oxvg_ast/src/style.rs`. `K` are the properties that are also presentation attributes, `V` their values;
converting between a property and an attribute is taken to be the identity. `Sel` are the selectors of a rule as
text, `N` the elements, `C` the conditions of at-rules. What the selector engine says about a text is a parameter:
`test ss n` is whether the text made by joining `ss` matches the element `n`, `none` if it cannot be read.
Hash maps are functions. Shorthand properties and vendor prefixes are left out.
-/

namespace Verif.Cascade

/-- style.rs:89-98, `Mode`. -/
inductive Mode where
  | static
  | dynamic
  deriving DecidableEq, Repr

/-- lightningcss, `DeclarationBlock`. -/
structure Block (K V : Type) where
  declarations : List (K × V)
  important : List (K × V)

/-- lightningcss, `CssRule`: a style rule with its selectors and their specificities; `@media` and `@container`
rules; other rules with a condition, such as `@supports`. -/
inductive Rule (K V Sel C : Type) where
  | style (selectors : List (Sel × Nat)) (block : Block K V)
  | media (cond : C) (rules : List (Rule K V Sel C))
  | other (cond : C) (rules : List (Rule K V Sel C))

/-- What is read of an element: its presentation attributes and its `style` attribute. -/
structure Level (K V : Type) where
  attr : List (K × V)
  inline : Option (Block K V)

/-- style.rs:122-135, `ComputedStyles`. -/
structure Computed (K V : Type) where
  inherited : K → Option (V × Mode)
  declarations : K → Option (Nat × V × Mode)
  attr : List (K × V)
  inline : Option (Block K V)
  important : K → Option (Nat × V × Mode)

variable {K V Sel C N : Type} [DecidableEq K]

/-- `ComputedStyles::default()`. -/
def Computed.empty : Computed K V := ⟨fun _ => none, fun _ => none, [], none, fun _ => none⟩

/-- `HashMap::insert`. -/
def put {W : Type} (m : K → Option W) (k : K) (w : W) : K → Option W := fun x => if x = k then some w else m x

/-- style.rs:508-518, `set_declarations`. -/
def setDeclarations (m : K → Option (Nat × V × Mode)) (l : List (K × V)) (specificity : Nat) (mode : Mode) :
    K → Option (Nat × V × Mode) :=
  l.foldl (fun m d => put m d.1 (specificity, d.2, mode)) m

/-- style.rs:489-506, `add_declarations`. -/
def addDeclarations (c : Computed K V) (b : Block K V) (specificity : Nat) (mode : Mode) : Computed K V :=
  { c with
    important := setDeclarations c.important b.important specificity mode
    declarations := setDeclarations c.declarations b.declarations specificity mode }

/-- style.rs:287-307, the loop over the selectors of a rule; the vector of selectors is passed on. -/
def overSelectors (test : List Sel → N → Option Bool) (n : N) (b : Block K V) (specificity : Nat) (mode : Mode) :
    Computed K V → List Sel → List (Sel × Nat) → Option (Computed K V × List Sel)
  | c, acc, [] => some (c, acc)
  | c, acc, s :: ss => match test (acc ++ [s.1]) n with
    | none => none
    | some false => overSelectors test n b specificity mode c (acc ++ [s.1]) ss
    | some true => overSelectors test n b specificity mode
        (addDeclarations c b (specificity + s.2) mode) acc ss

mutual
/-- style.rs:273-318, `with_nested_style`; `none` is `BadSelector`. -/
def nested (test : List Sel → N → Option Bool) (n : N) (specificity : Nat) (mode : Mode) (c : Computed K V)
    (acc : List Sel) : Rule K V Sel C → Option (Computed K V × List Sel)
  | .style ss b => overSelectors test n b specificity mode c acc ss
  | .media _ rules => nestedAll test n specificity .dynamic c acc rules
  | .other _ _ => some (c, acc)
/-- style.rs:311-314, the loop over the rules of an at-rule. -/
def nestedAll (test : List Sel → N → Option Bool) (n : N) (specificity : Nat) (mode : Mode) (c : Computed K V)
    (acc : List Sel) : List (Rule K V Sel C) → Option (Computed K V × List Sel)
  | [] => some (c, acc)
  | r :: rs => match nested test n specificity mode c acc r with
    | none => none
    | some x => nestedAll test n specificity mode x.1 x.2 rs
end

/-- style.rs:259-270, `with_style`: all rules of all style sheets, one after the other. -/
def withStyle (test : List Sel → N → Option Bool) (n : N) (c : Computed K V) :
    List (Rule K V Sel C) → Option (Computed K V)
  | [] => some c
  | r :: rs => match nested test n 0 .static c [] r with
    | none => none
    | some x => withStyle test n x.1 rs

/-- style.rs:321-345, `with_attribute` and `with_inline_style`. -/
def withOwn (l : Level K V) (c : Computed K V) : Computed K V :=
  { c with attr := l.attr, inline := l.inline.or c.inline }

/-- `HashMap::extend`, with pairs. -/
def extendList (m : K → Option (V × Mode)) (l : List (K × V)) : K → Option (V × Mode) :=
  l.foldl (fun m d => put m d.1 (d.2, .static)) m

/-- `HashMap::extend`, with a map. -/
def extendMap (m : K → Option (V × Mode)) (l : K → Option (V × Mode)) : K → Option (V × Mode) :=
  fun k => (l k).or (m k)

/-- style.rs:204-252, what an element takes over from the styles of its parent. -/
def takeOver (c p : Computed K V) : Computed K V :=
  let m := extendMap c.inherited p.inherited
  let m := extendMap m fun k => (p.declarations k).map (·.2)
  let m := extendList m p.attr
  let m := extendList m (p.inline.map (·.declarations)).toList.flatten
  let m := extendMap m fun k => (p.important k).map (·.2)
  let m := extendList m (p.inline.map (·.important)).toList.flatten
  { c with inherited := m }

/-- style.rs:175-252, `with_all` and `with_inherited`. An element is given with its ancestors, nearest first, up
to the root element. -/
def withAll (test : List Sel → N → Option Bool) (look : N → Level K V) (rules : List (Rule K V Sel C)) :
    N → List N → Option (Computed K V)
  | n, [] => withStyle test n (withOwn (look n) .empty) rules
  | n, p :: ps => match withStyle test n (withOwn (look n) .empty) rules, withAll test look rules p ps with
    | some c, some q => some (takeOver c q)
    | _, _ => none

/-- The first declaration of a property in a list. -/
def findFirst (l : List (K × V)) (k : K) : Option V := (l.find? (fun d => d.1 = k)).map (·.2)

/-- style.rs:431-465, `get_from_css_high_priori`. -/
def getHigh (c : Computed K V) (k : K) : Option (V × Mode) :=
  ((c.inline.bind fun b => findFirst b.important k).map fun v => (v, Mode.static)).or
    (((c.important k).map (·.2)).or
      ((c.inline.bind fun b => findFirst b.declarations k).map fun v => (v, Mode.static)))

/-- style.rs:349-376, `get_inherited`. -/
def getInherited (inheritable : K → Bool) (c : Computed K V) (k : K) : Option (V × Mode) :=
  if inheritable k then c.inherited k else none

/-- style.rs:379-402, `get`. -/
def get (inheritable : K → Bool) (c : Computed K V) (k : K) : Option (V × Mode) :=
  (getHigh c k).or (((c.declarations k).map (·.2)).or
    (((findFirst c.attr k).map fun v => (v, Mode.static)).or (getInherited inheritable c k)))

end Verif.Cascade
