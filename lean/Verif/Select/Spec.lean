import Verif.Select.Model

/-! # What CSS says about selectors (Selectors Level 4) -/

namespace Verif.Select

/-- `p` is the parent of `l`. -/
def IsParent (p l : Loc) : Prop := l.up = p.here :: p.up

/-- `a` is an ancestor of `l`. -/
inductive IsAncestor (a : Loc) : Loc → Prop
  | parent {l : Loc} : IsParent a l → IsAncestor a l
  | above {p l : Loc} : IsAncestor a p → IsParent p l → IsAncestor a l

/-- `a` and `l` have the same parent, and `mid` is what is between them, from right to left. -/
def Between (a : Loc) (mid : List Node) (l : Loc) : Prop :=
  a.up = l.up ∧ l.here.before = mid ++ a.here.node :: a.here.before ∧ a.here.after = mid.reverse ++ l.here.node :: l.here.after

/-- `a` is the element before `l`. -/
def IsPrevious (a l : Loc) : Prop := ∃ mid, Between a mid l ∧ ∀ n ∈ mid, n.isElem = false

/-- `a` is a sibling before `l`. -/
def IsEarlier (a l : Loc) : Prop := ∃ mid, Between a mid l

/-- ASCII whitespace: tab, line feed, form feed, carriage return, space. -/
def space (c : Nat) : Bool := [9, 10, 12, 13, 32].contains c

/-- A word of a text. -/
def IsWord (w : Str) (v : Str) : Prop :=
  w ≠ [] ∧ (∀ c ∈ w, space c = false) ∧
    ∃ a b, v = a ++ w ++ b ∧ (a = [] ∨ ∃ a' c, a = a' ++ [c] ∧ space c = true) ∧ (b = [] ∨ ∃ c b', b = c :: b' ∧ space c = true)

/-- What the operators of attribute selectors ask for. -/
def Says : Op → Str → Prop
  | .present, _ => True
  | .equals v, s => s = v
  | .includes v, s => IsWord v s
  | .dash v, s => s = v ∨ ∃ r, s = v ++ 45 :: r
  | .starts v, s => v ≠ [] ∧ ∃ r, s = v ++ r
  | .ends v, s => v ≠ [] ∧ ∃ r, s = r ++ v
  | .contains v, s => v ≠ [] ∧ ∃ r t, s = r ++ v ++ t

/-- With the flag `i`, case does not count; in SVG it does otherwise. -/
def SaysFlag (f : Flag) (o : Op) (s : Str) : Prop := match f with
  | .i => Says o.lower (lower s)
  | _ => Says o s

/-- The number of elements among `ns` that are asked for. -/
def countType (ofType : Bool) (n : Name) (ns : List Node) : Nat := ns.countP fun
  | .elem m _ _ => !ofType || m == n
  | _ => false

/-- The place among the siblings, from 1. -/
def place (ofType fromEnd : Bool) (l : Loc) : Nat :=
  countType ofType l.here.name (if fromEnd then l.here.after else l.here.before) + 1

mutual
/-- The selector matches the element; `sc` is the scope, `none` the root. -/
def Matches (sc : Option Loc) : Sel → Loc → Prop
  | .one c, l => MatchesComp sc c l
  | .join s .child c, l => MatchesComp sc c l ∧ ∃ p, IsParent p l ∧ Matches sc s p
  | .join s .descendant c, l => MatchesComp sc c l ∧ ∃ p, IsAncestor p l ∧ Matches sc s p
  | .join s .next c, l => MatchesComp sc c l ∧ ∃ p, IsPrevious p l ∧ Matches sc s p
  | .join s .later c, l => MatchesComp sc c l ∧ ∃ p, IsEarlier p l ∧ Matches sc s p
def MatchesComp (sc : Option Loc) : Comp → Loc → Prop
  | .nil, _ => True
  | .cons s c, l => MatchesSimple sc s l ∧ MatchesComp sc c l
def MatchesSimple (sc : Option Loc) : Simple → Loc → Prop
  | .any, _ => True
  | .name n, l => l.here.name.loc = n
  | .id n, l => ∃ a ∈ l.here.attrs, a.pre = none ∧ a.loc = lit "id" ∧ a.val = n
  | .cls n, l => ∃ a ∈ l.here.attrs, a.pre = none ∧ a.loc = lit "class" ∧ IsWord n a.val
  | .attr anyNs n o f, l => ∃ a ∈ l.here.attrs, (anyNs = true ∨ a.pre = none) ∧ a.loc = n ∧ SaysFlag f o a.val
  | .root, l => l.up = []
  | .empty, l => ∀ k ∈ l.here.kids, k.isElem = false ∧ ∀ t, k = .text t → ∀ c ∈ t, space c = true
  | .link, l => l.here.name = ⟨svgNs, lit "a"⟩ ∧ ∃ a ∈ l.here.attrs, a.loc = lit "href" ∧ (a.pre = none ∨ a.pre = some (lit "xlink"))
  | .scope, l => match sc with
    | none => l.up = []
    | some s => l = s
  | .nth t e a b, l => ∃ k : Nat, a * k + b = (place t e l : Nat)
  | .neg ss, l => ¬ MatchesSels sc ss l
  | .isAny ss, l => MatchesSels sc ss l
def MatchesSels (sc : Option Loc) : Sels → Loc → Prop
  | .nil, _ => False
  | .cons s ss, l => Matches sc s l ∨ MatchesSels sc ss l
end

/-- `l` is a child of `r`: it is among its content, with the siblings around it. -/
def IsChild (r l : Loc) : Prop := IsParent r l ∧ r.here.kids = l.here.before.reverse ++ l.here.node :: l.here.after

/-- `l` is `n` levels below `r`. -/
inductive Below (r : Loc) : Nat → Loc → Prop
  | child {l : Loc} : IsChild r l → Below r 1 l
  | deeper {n : Nat} {p l : Loc} : Below r n p → IsChild p l → Below r (n + 1) l

end Verif.Select
