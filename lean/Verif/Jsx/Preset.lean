import Verif.Jsx.Model

/-!
# Model: the configuration applied to JSX

`crates/oxvg_jsx/src/swc/preset.rs`, `crates/oxvg_jsx/src/config.rs`.

The maps of the configuration are lists in the order they are gone through (the order of a
`HashMap` is not fixed).  The parser of expressions (swc) is a parameter.
-/

namespace Verif.Jsx

/-- config.rs:115-124, `ExpandProps`. -/
inductive Expand
  | start | last | off
  deriving DecidableEq, Repr

/-- config.rs:139-147, `Icon`. -/
inductive Icon
  | bool (b : Bool)
  | string (s : String)
  | number (q : Int × Nat)
  deriving DecidableEq, Repr

/-- config.rs:11-58, `Config`, as far as it matters to `preset`. -/
structure Config where
  ref : Option Bool := none
  titleProp : Option Bool := none
  descProp : Option Bool := none
  expandProps : Option Expand := none
  dimensions : Option Bool := none
  icon : Option Icon := none
  native : Option Bool := none
  svgProps : List (String × String) := []
  replace : List (String × String) := []

/-- config.rs:96-98 and the default (config.rs:119). -/
def Config.expand (c : Config) : Expand := c.expandProps.getD .last

/-- preset.rs:463-488, the names of React Native. -/
def nativeNames : List (String × String) :=
  [("svg", "Svg"), ("circle", "Circle"), ("clipPath", "ClipPath"), ("ellipse", "Ellipse"), ("g", "G"),
    ("linearGradient", "LinearGradient"), ("radialGradient", "RadialGradient"), ("line", "Line"),
    ("path", "Path"), ("pattern", "Pattern"), ("polygon", "Polygon"), ("polyline", "Polyline"),
    ("rect", "Rect"), ("symbol", "Symbol"), ("text", "Text"), ("textPath", "TextPath"),
    ("tspan", "TSpan"), ("use", "Use"), ("defs", "Defs"), ("stop", "Stop"), ("mask", "Mask"),
    ("image", "Image"), ("foreignObject", "ForeignObject")]

/-- preset.rs:463-488. -/
def nativeName (n : String) : Option String := (nativeNames.find? fun r => r.1 == n).map (·.2)

mutual
/-- preset.rs:456-512, `convert_tree_to_react_native`: nothing for a node that is not kept. -/
def toNative : Jsx → Option Jsx
  | .elem n as sc cl ks =>
    match nativeName n with
    | none => none
    | some m =>
      some (.elem m as sc (if (toNatives ks).isEmpty then none else cl.map fun _ => m) (toNatives ks))
  | .frag ks => some (.frag (toNatives ks))
  | j => some j
/-- `retain_mut` on the children. -/
def toNatives : List Jsx → List Jsx
  | [] => []
  | j :: js => match toNative j with
    | some j' => j' :: toNatives js
    | none => toNatives js
end

mutual
/-- The names of the elements that were converted, `native_idents` (preset.rs:490). -/
def names : Jsx → List String
  | .elem n _ _ _ ks => n :: namess ks
  | .frag ks => namess ks
  | _ => []
def namess : List Jsx → List String
  | [] => []
  | j :: js => names j ++ namess js
end

mutual
/-- preset.rs:316-377, `get_first_named_jsx_element` (and `…_child`), and a change to it. -/
def modFirst (n : String) (f : Jsx → Jsx) : Jsx → Option Jsx
  | .elem m as sc cl ks =>
    if m = n then some (f (.elem m as sc cl ks)) else (modFirsts n f ks).map (.elem m as sc cl)
  | .frag ks => (modFirsts n f ks).map .frag
  | _ => none
def modFirsts (n : String) (f : Jsx → Jsx) : List Jsx → Option (List Jsx)
  | [] => none
  | j :: js => match modFirst n f j with
    | some j' => some (j' :: js)
    | none => (modFirsts n f js).map (j :: ·)
end

/-- preset.rs:379-400, `parse_templatable_attr`; `parse` is the parser of expressions. -/
def template (parse : String → Option String) (t : String) : Option AVal :=
  match t.toList with
  | '{' :: r =>
    if r.getLast? = some '}' then (parse (String.ofList r.dropLast)).map .user else some (.str t)
  | _ => some (.str t)

/-- preset.rs:427-454, `set_attribute` (it is always allowed to add). -/
def setAttr (n : String) (v : AVal) : List JAttr → List JAttr
  | [] => [.attr n (some v)]
  | .attr m w :: as => if m = n then .attr m (some v) :: as else .attr m w :: setAttr n v as
  | .spread x :: as => .spread x :: setAttr n v as

/-- A change to the attributes. -/
def onAttrs (f : List JAttr → List JAttr) : Jsx → Jsx
  | .elem n as sc cl ks => .elem n (f as) sc cl ks
  | j => j

/-- preset.rs:40-45. -/
def setAll (vs : List (String × AVal)) (as : List JAttr) : List JAttr :=
  vs.foldl (fun as p => setAttr p.1 p.2 as) as

/-- preset.rs:83-95, the removal of the dimensions. -/
def noDims (as : List JAttr) : List JAttr :=
  as.filter fun
    | .attr n _ => !(n == "width" || n == "height")
    | .spread _ => true

/-- preset.rs:97-133, the size of an icon. -/
def iconVal (native : Bool) : Option Icon → Option AVal
  | some (.bool true) => some (if native then .num (24, 1) else .str "1em")
  | some (.string s) => some (.str s)
  | some (.number q) => some (.num q)
  | some (.bool false) => none
  | none => none

/-- preset.rs:40-145, the attributes of the `svg` element; `vs` are the parsed `svg_props`. -/
def svgAttrs (c : Config) (vs : List (String × AVal)) (as : List JAttr) : List JAttr :=
  let as := setAll vs as
  let as := if c.ref.getD false then setAttr "ref" (.ident "ref") as else as
  let as := if c.titleProp.getD false then setAttr "aria-labelledby" (.ident "titleId") as else as
  let as := if c.descProp.getD false then setAttr "aria-describedby" (.ident "descId") as else as
  let as := if !c.dimensions.getD true then noDims as else as
  let as := match iconVal (c.native.getD false) c.icon with
    | some v => setAttr "height" v (setAttr "width" v as)
    | none => as
  match c.expand with
  | .start => .spread "props" :: as
  | .last => as ++ [.spread "props"]
  | .off => as

mutual
/-- preset.rs:402-425, `set_value_recursive`. -/
def setValue (old : String) (new : AVal) : Jsx → Jsx
  | .elem n as sc cl ks =>
    .elem n (as.map fun
      | .attr m (some (.str s)) => .attr m (some (if s = old then new else .str s))
      | a => a) sc cl (setValues old new ks)
  | .frag ks => .frag (setValues old new ks)
  | j => j
def setValues (old : String) (new : AVal) : List Jsx → List Jsx
  | [] => []
  | j :: js => setValue old new j :: setValues old new js
end

/-- preset.rs:201-237, the id of an existing element: the first attribute `id` gets the property
as its value, falling back on the value it had. -/
def giveId (id : String) : List JAttr → List JAttr × Option AVal
  | [] => ([], none)
  | .attr n v :: as =>
    if n = "id" then
      match v with
      | some w => (.attr n (some (.either id w)) :: as, some (.either id w))
      | none => (.attr n (some (.str id)) :: as, none)
    else (.attr n v :: (giveId id as).1, (giveId id as).2)
  | .spread x :: as => (.spread x :: (giveId id as).1, (giveId id as).2)

/-- preset.rs:244-271, the element to put in. -/
def inserting (tag id child : String) (existing : Option AVal) : Jsx :=
  .elem tag [.attr "id" (some (existing.getD (.ident id)))] false (some tag) [.ident child]

/-- preset.rs:272-290. -/
def eitherElem (tag id child : String) : Jsx → Jsx
  | .elem n as sc cl ks =>
    .cond (.undef child) (.elem n (giveId id as).1 sc cl ks) (inserting tag id child (giveId id as).2)
  | j => j

/-- preset.rs:291-312. -/
def insertFirst (tag id child : String) : Jsx → Jsx
  | .elem n as _ _ ks =>
    .elem n as false (some n) (.cond (.truthy child) (inserting tag id child none) .null :: ks)
  | j => j

/-- preset.rs:169-314, `replace_element_conditionally`. -/
def conditional (tag id child root : String) (j : Jsx) : Option Jsx :=
  match modFirst tag (eitherElem tag id child) j with
  | some j => some j
  | none => modFirst root (insertFirst tag id child) j

/-- The errors of `preset`: no `svg` element, an expression of the configuration. -/
inductive PErr
  | missingSvg | config
  deriving DecidableEq, Repr

/-- All of them or nothing. -/
def templates (parse : String → Option String) : List (String × String) → Option (List (String × AVal))
  | [] => some []
  | (k, v) :: r => match template parse v, templates parse r with
    | some v, some r => some ((k, v) :: r)
    | _, _ => none

/-- preset.rs:27-167, `preset`: the JSX and the names to import. -/
def preset (parse : String → Option String) (c : Config) (j : Jsx) : Except PErr (Jsx × List String) :=
  let nat := c.native.getD false
  let (j, ids) := if nat then (match toNative j with | some j' => (j', names j') | none => (j, [])) else (j, [])
  let svg := if nat then "Svg" else "svg"
  match modFirst svg id j with
  | none => .error .missingSvg
  | some _ =>
    match templates parse c.svgProps with
    | none => .error .config
    | some vs =>
      match modFirst svg (onAttrs (svgAttrs c vs)) j with
      | none => .error .missingSvg
      | some j =>
        match templates parse c.replace with
        | none => .error .config
        | some rs =>
          let j := rs.foldl (fun j r => setValue r.1 r.2 j) j
          match (if c.descProp.getD false then
              conditional (if nat then "Desc" else "desc") "descId" "desc" svg j else some j) with
          | none => .error .missingSvg
          | some j =>
            match (if c.titleProp.getD false then
                conditional (if nat then "Title" else "title") "titleId" "title" svg j else some j) with
            | none => .error .missingSvg
            | some j => .ok (j, ids)

end Verif.Jsx
