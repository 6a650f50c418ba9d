import Verif.CleanAttrs.Model

/-!
# What cleaning attributes has to keep
-/

namespace Verif.CleanAttrs

variable {T A : Type}

/-- A text that is made of words with whitespace between, before and behind them. -/
inductive Words : Text → List Text → Prop
  | nil : Words [] []
  | space {c : Nat} {v : Text} {ws : List Text} : white c = true → Words v ws → Words (c :: v) ws
  | last {w : Text} : w ≠ [] → (∀ c ∈ w, white c = false) → Words w [w]
  | word {w v : Text} {c : Nat} {ws : List Text} : w ≠ [] → (∀ c ∈ w, white c = false) → white c = true → Words v ws → Words (w ++ c :: v) (w :: ws)

/-- What the options ask for: no newlines, no whitespace at the ends, words with one space between them. -/
structure Clean (o : Options) (v : Text) : Prop where
  newlines : o.newlines = true → 10 ∉ v
  trim : o.trim = true → (∀ c, v.head? = some c → white c = false) ∧ ∀ c, v.getLast? = some c → white c = false
  spaces : o.spaces = true → ∃ ws, Words v ws ∧ v = List.intercalate [32] ws

/-- Two attributes have the same name, and the same content unless it is text; texts are related by `R`. -/
def SameAttr (R : Text → Text → Prop) (a b : Attr T) : Prop :=
  b.name = a.name ∧ b.typed = a.typed ∧ (a.text = none ∧ b.text = none ∨ ∃ v v', a.text = some v ∧ b.text = some v' ∧ R v v')

/-- Lists of attributes that are the same, one by one. -/
def SameAttrs (R : Text → Text → Prop) : List (Attr T) → List (Attr T) → Prop
  | [], [] => True
  | a :: l, b :: m => SameAttr R a b ∧ SameAttrs R l m
  | _, _ => False

mutual
/-- Two trees are the same but for the texts of attributes, which are related by `R`. -/
inductive Same (R : Text → Text → Prop) : Node T A → Node T A → Prop
  | leaf (a : A) : Same R (.leaf a) (.leaf a)
  | elem (n : Names.Str) {as bs : List (Attr T)} {ks ls : List (Node T A)} : SameAttrs R as bs → SameAll R ks ls → Same R (.elem n as ks) (.elem n bs ls)
inductive SameAll (R : Text → Text → Prop) : List (Node T A) → List (Node T A) → Prop
  | nil : SameAll R [] []
  | cons {k m : Node T A} {l l' : List (Node T A)} : Same R k m → SameAll R l l' → SameAll R (k :: l) (m :: l')
end

end Verif.CleanAttrs
