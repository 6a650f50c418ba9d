import Verif.Tree.Model

/-!
# Model: merging style elements

`crates/oxvg_optimiser/src/jobs/merge_styles.rs`.

`Q` are media queries, `R` rules, `B` whatever else there is. The rules of a style node are kept as rules here.
-/

namespace Verif.Merge

open Verif.Tree

variable {Q R B : Type}

/-- lightningcss `CssRule`: a media rule, a rule that counts at the beginning of a style sheet only (`@import`, `@namespace`), or
another one. -/
inductive Rule (Q R : Type) where
  | media (q : Q) (rules : List (Rule Q R))
  | head (r : R)
  | other (r : R)

/-- `Attr`, as far as the job looks at it. A media query that cannot be read is kept as text (`Attr::Unparsed`), here `none`. -/
inductive Attr (Q B : Type) where
  | typ (s : List Char)
  | media (q : Option Q)
  | other (b : B)

/-- node.rs:77-112, `NodeData`. -/
inductive Node (Q R B : Type) where
  | elem (name : EName) (attrs : List (Attr Q B)) (kids : List (Node Q R B))
  | css (rules : List (Rule Q R))
  | text (s : List Char)
  | leaf (b : B)

/-- node.rs:516-525, `style`: the rules of a style node, or of the first child of a style element. -/
def rulesOf : Node Q R B → List (Rule Q R)
  | .css rs => rs
  | .elem n _ (k :: _) => if n.is "style" then rulesOf k else []
  | _ => []

/-- `get_attribute!(element, TypeStyle)`. -/
def typeOf (as : List (Attr Q B)) : Option (List Char) := as.findSome? fun
  | .typ s => some s
  | _ => none

/-- merge_styles.rs:74-80: the type is missing, empty or CSS. -/
def supported (as : List (Attr Q B)) : Bool :=
  match typeOf as with
  | none => true
  | some s => s.isEmpty || s == "text/css".toList

/-- attribute.rs (ast):116-130, `remove_attribute!(element, Media)`: what it gives. -/
def mediaOf (as : List (Attr Q B)) : Option (Option Q) := as.findSome? fun
  | .media q => some q
  | _ => none

def Attr.isMedia : Attr Q B → Bool
  | .media _ => true
  | _ => false

/-- attribute.rs (ast):116-130, `remove_attribute!(element, Media)`: what it leaves. -/
def dropMedia (as : List (Attr Q B)) : List (Attr Q B) := as.eraseP Attr.isMedia

/-- merge_styles.rs:103-112. -/
def wrapped (as : List (Attr Q B)) (css : List (Rule Q R)) : List (Rule Q R) :=
  match mediaOf as with
  | some (some q) => [.media q css]
  | _ => css

mutual
/-- visitor.rs:312-349 with merge_styles.rs:65-130, `element`: what stays of a node, given the rules that `first_style` has in the end,
and the rules that it has so far. The children of an element that is removed are visited as well. There are no CDATA sections in parsed
documents, so `is_cdata` is never set (merge_styles.rs:91-93 and 132-155). -/
def visit (foreign : Bool) (acc : Option (List (Rule Q R))) :
    Node Q R B → (List (Rule Q R) → List (Node Q R B)) × Option (List (Rule Q R))
  | .elem n as ks =>
    let foreign := foreign || n.is "foreignObject"
    if n.is "style" && supported as && !foreign then
      let css := ks.flatMap rulesOf
      if css.isEmpty then (fun _ => [], (visitAll foreign acc ks).2)
      else match acc with
        | none => (fun rs => [.elem n (dropMedia as) [.css rs]], some (wrapped as css))
        | some rs => (fun _ => [], (visitAll foreign (some (rs ++ wrapped as css)) ks).2)
    else
      let r := visitAll foreign acc ks
      (fun rs => [.elem n as (r.1 rs)], r.2)
  | n => (fun _ => [n], acc)
/-- visitor.rs:355-377, `visit_children`. -/
def visitAll (foreign : Bool) (acc : Option (List (Rule Q R))) :
    List (Node Q R B) → (List (Rule Q R) → List (Node Q R B)) × Option (List (Rule Q R))
  | [] => (fun _ => [], acc)
  | n :: ns =>
    let a := visit foreign acc n
    let b := visitAll foreign a.2 ns
    (fun rs => a.1 rs ++ b.1 rs, b.2)
end

/-- merge_styles.rs:45-60: the whole job. -/
def job (on : Bool) (doc : List (Node Q R B)) : List (Node Q R B) :=
  if on then
    let r := visitAll false none doc
    r.1 (r.2.getD [])
  else doc

end Verif.Merge
