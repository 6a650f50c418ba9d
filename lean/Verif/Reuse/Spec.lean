import Verif.Reuse.Model

/-!
# What a document with references draws
-/

namespace Verif.Reuse

variable {D P A E : Type}

/-- How the other attributes are understood: what they say about fill and stroke with more weight than the attributes
(`style` and style sheets), and what they do to the rest of the surroundings, by the name of the element. -/
structure Sem (P A E : Type) where
  styleFill : List A → Option P
  styleStroke : List A → Option P
  env : Kind → List A → E → E

/-- The surroundings of an element: inherited fill and stroke, and everything else (transform, opacity, …). -/
structure Ctx (P E : Type) where
  fill : P
  stroke : P
  env : E

/-- What holds for an element in given surroundings. -/
def within (S : Sem P A E) (e : El D P A) (c : Ctx P E) : Ctx P E where
  fill := ((S.styleFill e.rest).or e.fill).getD c.fill
  stroke := ((S.styleStroke e.rest).or e.stroke).getD c.stroke
  env := S.env e.kind e.rest c.env

/-- The element with the given id: the first one in the document. -/
def target (s : State D P A) (i : Text) : Option Tree :=
  (subs s.root).find? fun t => (s.heap t.handle).id = some i

/-- Where a `use` element points to: `href` before `xlink:href`. -/
def El.points (e : El D P A) : Option Text :=
  match e.href.or e.xlink with
  | some (35 :: i) => some i
  | _ => none

mutual
/-- The shapes that an element draws in given surroundings, in order: path data with what holds for the path. An element
that refers to itself draws nothing (there is no derivation). -/
inductive Draws (S : Sem P A E) (s : State D P A) : Tree → Ctx P E → List (D × Ctx P E) → Prop
  | path {h ks c} (d) : (s.heap h).kind = .path → (s.heap h).d = some d →
      Draws S s (.node h ks) c [(d, within S (s.heap h) c)]
  | noPath {h ks c} : (s.heap h).kind = .path → (s.heap h).d = none → Draws S s (.node h ks) c []
  | use {h ks c l} (i t) : (s.heap h).kind = .use → (s.heap h).points = some i → target s i = some t →
      Draws S s t (within S (s.heap h) c) l → Draws S s (.node h ks) c l
  | noUse {h ks c} : (s.heap h).kind = .use → (∀ i, (s.heap h).points = some i → target s i = none) →
      Draws S s (.node h ks) c []
  | defs {h ks c} : (s.heap h).kind = .defs → Draws S s (.node h ks) c []
  | hidden {h ks c} : (s.heap h).kind = .hidden → Draws S s (.node h ks) c []
  | svg {h ks c l} : (s.heap h).kind = .svg → DrawsAll S s ks (within S (s.heap h) c) l → Draws S s (.node h ks) c l
  | group {h ks c l} : (s.heap h).kind = .group → DrawsAll S s ks (within S (s.heap h) c) l →
      Draws S s (.node h ks) c l
inductive DrawsAll (S : Sem P A E) (s : State D P A) : List Tree → Ctx P E → List (D × Ctx P E) → Prop
  | nil {c} : DrawsAll S s [] c []
  | cons {t ts c l m} : Draws S s t c l → DrawsAll S s ts c m → DrawsAll S s (t :: ts) c (l ++ m)
end

mutual
/-- Every `xlink:href` is inside of a declaration of the prefix; otherwise the text cannot be read as XML. -/
def Bound (heap : Nat → El D P A) (declared : Bool) : Tree → Prop
  | .node h ks =>
    ((heap h).xlink.isSome → declared = true ∨ (heap h).declares = true) ∧
      BoundAll heap (declared || (heap h).declares) ks
def BoundAll (heap : Nat → El D P A) (declared : Bool) : List Tree → Prop
  | [] => True
  | t :: ts => Bound heap declared t ∧ BoundAll heap declared ts
end

end Verif.Reuse
