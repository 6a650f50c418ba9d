/-!
# Model: the job `convertColors`

`crates/oxvg_optimiser/src/jobs/convert_colors.rs` and the visit of colours in `crates/oxvg_collections/src/content_type.rs`. What colours there are
is left open, but for `currentColor`.
-/

namespace Verif.Colors

variable {C V : Type}

/-- `CssColor`: `currentColor` or any other. -/
inductive Color (C : Type) where
  | current
  | other (c : C)

/-- `SVGPaint`: a colour, a reference with the colour to use if there is nothing, or another. -/
inductive Paint (C V : Type) where
  | color (c : Color C)
  | url (v : V) (fallback : Option (Color C))
  | other (v : V)

/-- `ContentType`: the content of an attribute, as far as colours are concerned. -/
inductive Content (C V : Type) where
  | color (c : Color C)
  | paint (p : Paint C V)
  | decoration (v : V) (c : Color C)
  | list (l : List (Content C V))
  | defined (c : Content C V)
  | other (v : V)

/-- A declaration of a `style` attribute: a property, the colours of its value, and all else. -/
structure Decl (C V : Type) where
  prop : String
  colors : List (Color C)
  rest : V

/-- An attribute. -/
inductive Attr (C V : Type) where
  | style (ds : List (Decl C V))
  | plain (name : String) (value : Content C V)

/-- A document: elements, of which masks are told apart, style sheets (lists of selectors with declarations), and anything else. -/
inductive Node (C V : Type) where
  | leaf (v : V)
  | sheet (rules : List (V × List (Decl C V)))
  | elem (mask : Bool) (name : V) (attrs : List (Attr C V)) (kids : List (Node C V))

/-- convert_colors.rs:26-42, `Method`. -/
inductive Method where
  | lightning
  | currentColor
  deriving DecidableEq

/-- convert_colors.rs:122-132, `visit_color`. -/
def visitColor (m : Method) (c : Color C) : Color C := match m with
  | .currentColor => .current
  | .lightning => c

/-- content_type.rs:416-433, `visit_color_not_list`. -/
def visitOnce (m : Method) : Content C V → Content C V
  | .color c => .color (visitColor m c)
  | .paint (.color c) => .paint (.color (visitColor m c))
  | .decoration v c => .decoration v (visitColor m c)
  | c => c

/-- content_type.rs:401-415, `visit_color`. -/
def visitContent (m : Method) : Content C V → Content C V
  | .list l => .list (l.map (visitOnce m))
  | .defined c => .defined (visitContent m c)
  | c => visitOnce m c

/-- `style.visit`, with visits of all colours (convert_colors.rs:103-104, 118-120). -/
def visitDecl (m : Method) (d : Decl C V) : Decl C V := { d with colors := d.colors.map (visitColor m) }

/-- convert_colors.rs:102-110. -/
def visitAttr (m : Method) : Attr C V → Attr C V
  | .style ds => .style (ds.map (visitDecl m))
  | .plain n v => .plain n (visitContent m v)

/-- convert_colors.rs:90-112, `element`; `anc`: for each ancestor that is an element, whether it is a mask (`closest`, element.rs:574-584). -/
def element (m : Method) (anc : List Bool) (mask : Bool) (as : List (Attr C V)) : List (Attr C V) :=
  let isMasked := mask || anc.any id
  let m := if isMasked && m == .currentColor then .lightning else m
  as.map (visitAttr m)

mutual
/-- visitor.rs:312-349, with this job. -/
def visit (m : Method) (anc : List Bool) : Node C V → Node C V
  | .leaf v => .leaf v
  | .sheet rules => .sheet rules
  | .elem mask n as ks => .elem mask n (element m anc mask as) (visitAll m (mask :: anc) ks)
/-- visitor.rs:355-377. -/
def visitAll (m : Method) (anc : List Bool) : List (Node C V) → List (Node C V)
  | [] => []
  | n :: ns => visit m anc n :: visitAll m anc ns
end

/-- convert_colors.rs:74-88, `prepare`, and the walk. -/
def run (m : Option Method) (doc : List (Node C V)) : List (Node C V) := match m with
  | some .currentColor => visitAll .currentColor [] doc
  | _ => doc

end Verif.Colors
