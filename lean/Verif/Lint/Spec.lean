import Verif.Lint.Model

/-!
# What the rules about the whole document promise
-/

namespace Verif.Lint

open Verif.Names

variable {K : Type} [DecidableEq K]

mutual
/-- The elements of a document, in document order. -/
def subs : Node K → List (Node K)
  | .elem pos name attrs kids => .elem pos name attrs kids :: subsAll kids
  | .other => []
def subsAll : List (Node K) → List (Node K)
  | [] => []
  | n :: ns => subs n ++ subsAll ns
end

/-- Where an element starts. -/
def Node.pos : Node K → Nat
  | .elem pos _ _ _ => pos
  | .other => 0

/-- The attributes of an element. -/
def Node.attrs : Node K → List (Attr K Str)
  | .elem _ _ as _ => as
  | .other => []

/-- The element has the attribute `xmlns:p="u"` or `xmlns="u"`. -/
def Declares (V : Vocab K) (n : Node K) (d : Decl) : Prop :=
  ∃ a ∈ n.attrs, (a = .typed V.xmlns d.2 ∧ d.1 = none) ∨
    ∃ p, d.1 = some p ∧ a = .unparsed (.unknown (.std .xmlns) p) d.2

/-- The name of the element or of one of its attributes is written with the given prefix, for the given URI. -/
def Writes (V : Vocab K) (d : Decl) : Node K → Prop
  | .elem _ name attrs _ =>
    (name.value = d.1 ∧ name.ns.uri = d.2) ∨
      ∃ a ∈ attrs, (a.prefix' V.table).value = d.1 ∧ (a.prefix' V.table).ns.uri = d.2
  | .other => False

/-- The element has the id. -/
def HasId (V : Vocab K) (i : Str) (n : Node K) : Prop :=
  .typed V.id i ∈ n.attrs ∨ ∃ p, .aliased p (.typed V.id i) ∈ n.attrs

/-- An attribute of the element, other than an id, refers to the id. -/
def RefersTo (V : Vocab K) (i : Str) (n : Node K) : Prop :=
  ∃ a ∈ n.attrs, (∀ v, a ≠ .typed V.id v) ∧ (∀ p v, a ≠ .aliased p (.typed V.id v)) ∧
    (i ∈ V.refs a ∨ 35 :: i ∈ V.urls a)

mutual
/-- The values that apply to an element and below it, in document order: the value of the attribute; without it
the value of the parent if the property is inherited, otherwise the initial value. -/
def applied {W : Type} (inherited : Bool) (initial parent : W) : Styled W → List W
  | .elem own kids =>
    let v := own.getD (if inherited then parent else initial)
    v :: appliedAll inherited initial v kids
def appliedAll {W : Type} (inherited : Bool) (initial parent : W) : List (Styled W) → List W
  | [] => []
  | k :: ks => applied inherited initial parent k ++ appliedAll inherited initial parent ks
end

end Verif.Lint
