import Verif.Inline.Model

/-!
# The values of properties by the cascade
-/

namespace Verif.Inline

open Verif.Names

variable {V Q R : Type}

/-- All tokens of a selector. -/
def Sel.tokens (s : Sel) : List Token := s.tail ++ s.heads.flatten

/-- What CSS says beyond single tokens: `structural` is whether another token, such as a pseudo-class, holds for an element; `complex`
whether a selector with combinators or pseudo-elements matches, given the tokens that hold for each element; `nested` what a rule with
nested rules declares for an element, with the specificities; `recover` what a `style` attribute declares that the parser does not read.
Both only depend on the tokens that occur. -/
structure Sem (V R : Type) where
  test : Nat → Value V → Bool
  structural : Str → Nat → Bool
  complex : (Nat → Token → Bool) → Sel → Nat → Bool
  nested : (Nat → Token → Bool) → List Sel → R → Nat → List (Nat × Block V)
  recover : Nat → Block V
  complex_local : ∀ f g s, (∀ t ∈ s.tokens, ∀ k, f k t = g k t) → complex f s = complex g s
  nested_local : ∀ f g sels r, (∀ s ∈ sels, ∀ t ∈ s.tokens, ∀ k, f k t = g k t) → nested f sels r = nested g sels r

/-- Selectors, 6-7: whether a token holds for an element. -/
def holdsE (sem : Sem V R) (e : Elem V Q R) : Token → Bool
  | .cls c => e.classes.contains c
  | .id i => e.id == some i
  | .attr n none => (lookup e n).isSome
  | .attr n (some t) => (lookup e n).any (sem.test t)
  | .name n => e.name == n
  | .other text _ => sem.structural text e.key

/-- The same for the element with a key. -/
def holds (sem : Sem V R) (doc : List (Elem V Q R)) (k : Nat) (t : Token) : Bool := doc.any fun e => e.key == k && holdsE sem e t

/-- Selectors, 3: whether a selector matches an element. -/
def matchesSel (sem : Sem V R) (f : Nat → Token → Bool) (s : Sel) (k : Nat) : Bool :=
  if s.heads = [] ∧ s.pseudo = false then s.tail.all (f k) else sem.complex f s k

mutual
/-- CSS Cascade, 6 and Selectors, 17: what a rule declares for an element where `env` says which conditions hold, with the greatest
specificity of the selectors that match. -/
def entries (sem : Sem V R) (env : Q → Bool) (f : Nat → Token → Bool) (k : Nat) : Rule V Q R → List (Nat × Block V)
  | .style sels b => match ((sels.filter fun s => matchesSel sem f s k).map (·.spec)).max? with
    | some n => [(n, b)]
    | none => []
  | .nest sels r => sem.nested f sels r k
  | .group _ c rs => if env c then entriesAll sem env f k rs else []
  | .other _ => []
def entriesAll (sem : Sem V R) (env : Q → Bool) (f : Nat → Token → Bool) (k : Nat) : List (Rule V Q R) → List (Nat × Block V)
  | [] => []
  | r :: rs => entries sem env f k r ++ entriesAll sem env f k rs
end

/-- SVG 2, 6.2: CSS in upper or lower case, empty or missing. -/
def IsCss (t : Option Str) : Prop := ∀ s, t = some s → s = [] ∨ s.map (fun b => if 65 ≤ b ∧ b ≤ 90 then b + 32 else b) = lit "text/css"

instance (t : Option Str) : Decidable (IsCss t) :=
  match t with
  | none => isTrue (by intro s h; simp at h)
  | some s => decidable_of_iff (s = [] ∨ s.map (fun b => if 65 ≤ b ∧ b ≤ 90 then b + 32 else b) = lit "text/css")
      ⟨fun h s' hs => by simp only [Option.some.injEq] at hs; exact hs ▸ h, fun h => h s rfl⟩

/-- What the style elements of a document declare for an element, in order. -/
def declared (sem : Sem V R) (env : Q → Bool) (f : Nat → Token → Bool) (doc : List (Elem V Q R)) (k : Nat) : List (Nat × Block V) :=
  doc.flatMap fun e =>
    if e.name = lit "style" ∧ IsCss e.typ ∧ e.gone = false ∧ (∀ q, e.media = some q → env q = true) then
      entriesAll sem env f k (e.sheet.getD [])
    else []

/-- The last declaration of a property. -/
def last (p : Str) (l : List (Str × V)) : Option V := (l.filter fun d => d.1 = p).getLast?.map (·.2)

/-- A declaration of at least the same specificity wins over one in front of it. -/
def stronger (a : Option (Nat × V)) (x : Nat × V) : Option (Nat × V) :=
  match a with
  | none => some x
  | some y => if y.1 ≤ x.1 then some x else some y

/-- The value of a property that wins among blocks. -/
def best (p : Str) (get : Block V → List (Str × V)) (l : List (Nat × Block V)) : Option V :=
  ((l.filterMap fun x => (last p (get x.2)).map (x.1, ·)).foldl stronger none).map (·.2)

/-- What the `style` attribute declares. -/
def inline (sem : Sem V R) : Style V → Block V
  | .absent => ⟨[], []⟩
  | .block b => b
  | .raw n => sem.recover n

/-- CSS Cascade, 6: the cascaded value of a property: important declarations in the `style` attribute and in style sheets, then others in
the `style` attribute and in style sheets, then the presentation attribute. -/
def value (sem : Sem V R) (env : Q → Bool) (doc : List (Elem V Q R)) (e : Elem V Q R) (p : Str) : Option V :=
  let l := declared sem env (holds sem doc) doc e.key
  (last p (inline sem e.style).important).or <| (best p (·.important) l).or <| (last p (inline sem e.style).normal).or <|
    (best p (·.normal) l).or ((e.attrs.find? fun a => a.1 = p).map (·.2))

/-- A block declares a property. -/
def Block.Declares (b : Block V) (p : Str) : Prop := ∃ v, (p, v) ∈ b.normal ∨ (p, v) ∈ b.important

mutual
/-- The selectors of a rule. -/
def selsOf : Rule V Q R → List Sel
  | .style sels _ => sels
  | .nest sels _ => sels
  | .group _ _ rs => selsOfAll rs
  | .other _ => []
def selsOfAll : List (Rule V Q R) → List Sel
  | [] => []
  | r :: rs => selsOf r ++ selsOfAll rs
end

end Verif.Inline
