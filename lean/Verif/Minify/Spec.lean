import Verif.Minify.Model

/-!
# The values of properties by the cascade, for style sheets with nested rules
-/

namespace Verif.Minify

open Verif.Names
open Verif.Inline (Token Sel Block Style Value lookup IsCss last stronger best)

variable {V Q R : Type}

/-- What CSS says beyond single tokens: the operators of attribute selectors; whether another token, such as a pseudo-class, holds for an
element; whether a selector with combinators or pseudo-elements matches, given the tokens that hold for each element; what the rules nested
in a rule with some selectors declare for an element, with the specificities; what a `style` attribute declares that the parser does not
read. -/
structure Css (V R : Type) where
  test : Nat → Value V → Bool
  structural : Str → Nat → Bool
  complex : (Nat → Token → Bool) → Sel → Nat → Bool
  nested : (Nat → Token → Bool) → List Sel → R → Nat → List (Nat × Block V)
  recover : Nat → Block V

/-- Selectors, 6-7: whether a token holds for an element. -/
def holdsE (sem : Css V R) (e : Inline.Elem V Q R) : Token → Bool
  | .cls c => e.classes.contains c
  | .id i => e.id == some i
  | .attr n none => (lookup e n).isSome
  | .attr n (some t) => (lookup e n).any (sem.test t)
  | .name n => e.name == n
  | .other text _ => sem.structural text e.key

/-- Which tokens hold for the elements of a document. -/
def truth (sem : Css V R) (doc : List (Elem V Q R)) (k : Nat) (t : Token) : Bool := doc.any fun e => e.base.key == k && holdsE sem e.base t

/-- Selectors, 3: whether a selector matches an element. -/
def matchesSel (sem : Css V R) (f : Nat → Token → Bool) (s : Sel) (k : Nat) : Bool :=
  if s.heads = [] ∧ s.pseudo = false then s.tail.all (f k) else sem.complex f s k

/-- What the `style` attribute declares. -/
def inline (sem : Css V R) : Style V → Block V
  | .absent => ⟨[], []⟩
  | .block b => b
  | .raw n => sem.recover n

mutual
/-- What a rule declares for an element where `env` says which conditions hold; what is nested in a rule depends on its selectors. -/
def entries (sem : Css V R) (env : Q → Bool) (f : Nat → Token → Bool) (k : Nat) : Rule V Q R → List (Nat × Block V)
  | .style sels b nest => (match ((sels.filter fun s => matchesSel sem f s k).map (·.spec)).max? with
    | some n => [(n, b)]
    | none => []) ++ (match nest with
    | some r => sem.nested f sels r k
    | none => [])
  | .group c rs => if env c then entriesAll sem env f k rs else []
  | .other _ => []
def entriesAll (sem : Css V R) (env : Q → Bool) (f : Nat → Token → Bool) (k : Nat) : List (Rule V Q R) → List (Nat × Block V)
  | [] => []
  | r :: rs => entries sem env f k r ++ entriesAll sem env f k rs
end

/-- What the style elements of a document declare for an element, in order. -/
def declared (sem : Css V R) (env : Q → Bool) (doc : List (Elem V Q R)) (k : Nat) : List (Nat × Block V) :=
  doc.flatMap fun e =>
    if e.base.name = lit "style" ∧ IsCss e.base.typ ∧ e.base.gone = false ∧ (∀ q, e.base.media = some q → env q = true) then
      entriesAll sem env (truth sem doc) k (e.sheet.getD [])
    else []

/-- CSS Cascade, 6: the cascaded value of a property. -/
def value (sem : Css V R) (env : Q → Bool) (doc : List (Elem V Q R)) (e : Elem V Q R) (p : Str) : Option V :=
  let l := declared sem env doc e.base.key
  (last p (inline sem e.base.style).important).or <| (best p (·.important) l).or <| (last p (inline sem e.base.style).normal).or <|
    (best p (·.normal) l).or ((e.base.attrs.find? fun a => a.1 = p).map (·.2))

/-- The declaration of a property that wins among entries, starting from one in front of them. -/
def winner (p : Str) (get : Block V → List (Str × V)) (a : Option (Nat × V)) (l : List (Nat × Block V)) : Option (Nat × V) :=
  (l.filterMap fun x => (last p (get x.2)).map (x.1, ·)).foldl stronger a

/-- A minifier of style sheets that is right: it does not fail, and the same declarations win for every element, wherever the rules are put
and whatever tokens and conditions hold. -/
def SheetsRight (sem : Css V R) (minS : List (Rule V Q R) → Option (List (Rule V Q R))) : Prop :=
  ∀ rs, ∃ rs', minS rs = some rs' ∧ ∀ env f k p a,
    winner p (·.normal) a (entriesAll sem env f k rs') = winner p (·.normal) a (entriesAll sem env f k rs) ∧
      winner p (·.important) a (entriesAll sem env f k rs') = winner p (·.important) a (entriesAll sem env f k rs)

/-- A minifier of blocks that is right: the same declarations are the last ones. -/
def BlocksRight (minB : Block V → Block V) : Prop :=
  ∀ b p, last p (minB b).normal = last p b.normal ∧ last p (minB b).important = last p b.important

mutual
/-- The selectors of a rule, without those nested in it. -/
def selsOf : Rule V Q R → List Sel
  | .style sels _ _ => sels
  | .group _ rs => selsOfAll rs
  | .other _ => []
def selsOfAll : List (Rule V Q R) → List Sel
  | [] => []
  | r :: rs => selsOf r ++ selsOfAll rs
end

/-- Rules of which no selector asks for the `style` attribute. -/
def Blind (sem : Css V R) (rs : List (Rule V Q R)) : Prop :=
  ∀ env f g k, (∀ j t, (∀ v, t ≠ .attr (lit "style") v) → f j t = g j t) → entriesAll sem env f k rs = entriesAll sem env g k rs

end Verif.Minify
