import Verif.Inline.Spec

/-!
# Model: minifying styles

`crates/oxvg_optimiser/src/jobs/minify_styles.rs` and `utils/minify_style.rs`.

Selectors, blocks and elements are those of `Inline`; `V` are values, `Q` conditions of at-rules, `R` what is nested in a rule. The document
is the list of its elements; an element that is removed is marked. The minifier of lightningcss is a parameter for style sheets and for
`style` attributes.
-/

namespace Verif.Minify

open Verif.Names
open Verif.Inline (Token Sel Block Style)

variable {V Q R : Type}

/-- lightningcss `CssRule`: a style rule, perhaps with nested rules; an at-rule with a condition; another rule. -/
inductive Rule (V Q R : Type) where
  | style (sels : List Sel) (block : Block V) (nest : Option R)
  | group (cond : Q) (rules : List (Rule V Q R))
  | other (r : R)

/-- An element. `base.sheet` is not used: `sheet` are the rules of the style node among its children, `filled` is whether it has child
nodes, `svg` whether it is in the namespace of SVG. -/
structure Elem (V Q R : Type) where
  base : Inline.Elem V Q R
  svg : Bool
  filled : Bool
  sheet : Option (List (Rule V Q R))

/-- minify_styles.rs:38-47, `RemoveUnused`. -/
inductive Usage where
  | off
  | on
  | force
  deriving DecidableEq

/-- minify_styles.rs:111-148, `element`: whether a token is used by an element of the document. -/
def used (doc : List (Elem V Q R)) : Token → Bool
  | .name n => doc.any fun e => e.svg && e.base.name == n
  | .id i => doc.any fun e => e.svg && e.base.id == some i
  | .cls c => doc.any fun e => e.svg && e.base.classes.contains c
  | _ => true

/-- minify_styles.rs:215-236: whether a selector stays. A pseudo-element is a component that is neither a name, an id nor a class. -/
def keep (doc : List (Elem V Q R)) (s : Sel) : Bool := s.pseudo || s.tail.any (used doc) || s.heads.any fun h => h.any (used doc)

/-- minify_styles.rs:206-238, `visit_rule`: what is nested in rules and at-rules is not visited. -/
def strip (doc : List (Elem V Q R)) : Rule V Q R → Rule V Q R
  | .style sels b nest => .style (sels.filter (keep doc)) b nest
  | r => r

/-- minify_styles.rs:114: style elements with child nodes. -/
def isStyle (e : Elem V Q R) : Bool := e.svg && e.base.name == lit "style" && e.filled

/-- minify_styles.rs:163-176: whether unused selectors are removed. -/
def active (u : Usage) (scripts : Bool) : Bool := u == .force || u == .on && !scripts

/-- minify_styles.rs:155-184: a style element. If the minifier fails, the rules are left in the stub (minify_style.rs:19-25). -/
def exitStyle (minS : List (Rule V Q R) → Option (List (Rule V Q R))) (doc : List (Elem V Q R)) (u : Usage) (scripts : Bool) (e : Elem V Q R) :
    Elem V Q R :=
  match e.sheet with
  | none => e
  | some rs => match minS (if active u scripts then rs.map (strip doc) else rs) with
    | none => { e with sheet := some [] }
    | some rs' => { e with sheet := some rs', base := { e.base with gone := e.base.gone || rs'.isEmpty } }

/-- minify_styles.rs:186-195: an element with a `style` attribute; one that is not parsed is a panic. -/
def exitAttr (minB : Block V → Block V) (e : Elem V Q R) : Option (Elem V Q R) :=
  match e.base.style with
  | .absent => some e
  | .raw _ => none
  | .block b =>
    let b' := minB b
    some { e with base := { e.base with style := if b'.normal.isEmpty && b'.important.isEmpty then .absent else .block b' } }

/-- minify_styles.rs:85-199: the whole job; `none` is a panic. Order does not matter, as each element is changed on its own. -/
def job (minS : List (Rule V Q R) → Option (List (Rule V Q R))) (minB : Block V → Block V) (u : Usage) (scripts : Bool)
    (doc : List (Elem V Q R)) : Option (List (Elem V Q R)) :=
  doc.mapM fun e => if isStyle e then some (exitStyle minS doc u scripts e) else exitAttr minB e

end Verif.Minify
