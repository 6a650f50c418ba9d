import Verif.Background.Model

/-!
# What `enable-background` is, and what the job is to do with it

SVG 1.1, 15.6 (enable-background: accumulate | new [x y width height] | inherit; initial: accumulate; not inherited) and the documentation of the
job (cleanup_enable_background.rs:37-53).
-/

namespace Verif.Background

variable {N V : Type}

/-- There is a filter in this node. -/
inductive Has : Node N V → Prop
  | here (n : V) (as : List (Item N V)) (ks : List (Node N V)) : Has (.elem .filter n as ks)
  | deep (k : Kind) (n : V) (as : List (Item N V)) {ks : List (Node N V)} {x : Node N V} : x ∈ ks → Has x → Has (.elem k n as ks)

/-- There is a filter in the document, inside of its first element. -/
def Filtered (doc : List (Node N V)) : Prop :=
  ∃ before k n as ks after, doc = before ++ .elem k n as ks :: after ∧ (∀ m ∈ before, ∃ v, m = .leaf v) ∧ ∃ x ∈ ks, Has x

/-- The document has an element. -/
def Rooted (doc : List (Node N V)) : Prop := ∃ k n as ks, Node.elem k n as ks ∈ doc

/-- Two attributes of the same name. -/
inductive Clash : Item N V → Item N V → Prop
  | style (b c : Block V) : Clash (.style b) (.style c)
  | background (h i : Held N) : Clash (.background h) (.background i)
  | width (s t : Size N) : Clash (.width s) (.width t)
  | height (s t : Size N) : Clash (.height s) (.height t)

/-- Not more than one attribute of each name, as in every XML document. -/
def Once (as : List (Item N V)) : Prop := as.Pairwise fun a b => ¬ Clash a b

/-- A declaration of a new background. -/
inductive Renews : Decl V → Prop
  | mk (rest : List (Token V)) : Renews (.custom "enable-background" (.ident "new" :: rest))

/-- The sublist of the things that do not have a property. -/
inductive Without {A : Type} (P : A → Prop) : List A → List A → Prop
  | nil : Without P [] []
  | drop {a : A} {l r : List A} : P a → Without P l r → Without P (a :: l) r
  | keep {a : A} {l r : List A} : ¬ P a → Without P l r → Without P (a :: l) (a :: r)

/-- The value is a region as wide and as high as the element says that it is. -/
def Fits (as : List (Item N V)) (h : Held N) : Prop :=
  ∃ x y w l, h = .defined (.fresh (some (x, y, w, l))) ∧ .width (.px w) ∈ as ∧ .height (.px l) ∈ as

/-- What becomes of an attribute of an element of kind `k` with attributes `as`. -/
inductive Fate (filtered : Prop) (k : Kind) (as : List (Item N V)) : Item N V → List (Item N V) → Prop
  | style {b c : Block V} : Without Renews b.important c.important → Without Renews b.normal c.normal → (c.important ≠ [] ∨ c.normal ≠ []) →
      Fate filtered k as (.style b) [.style c]
  | empty {b : Block V} : (∀ d ∈ b.important, Renews d) → (∀ d ∈ b.normal, Renews d) → Fate filtered k as (.style b) []
  | unused (h : Held N) : ¬ filtered → Fate filtered k as (.background h) []
  | svg {h : Held N} : filtered → Fits as h → k = .svg → Fate filtered k as (.background h) []
  | inner {h : Held N} : filtered → Fits as h → k = .mask ∨ k = .pattern →
      Fate filtered k as (.background h) [.background (.defined (.fresh none))]
  | kept {h : Held N} : filtered → (Fits as h → k ≠ .svg ∧ k ≠ .mask ∧ k ≠ .pattern) → Fate filtered k as (.background h) [.background h]
  | width (s : Size N) : Fate filtered k as (.width s) [.width s]
  | height (s : Size N) : Fate filtered k as (.height s) [.height s]
  | other (v : V) : Fate filtered k as (.other v) [.other v]

/-- What becomes of some attributes of such an element. -/
inductive Fates (filtered : Prop) (k : Kind) (as : List (Item N V)) : List (Item N V) → List (Item N V) → Prop
  | nil : Fates filtered k as [] []
  | cons {a : Item N V} {x l r : List (Item N V)} : Fate filtered k as a x → Fates filtered k as l r → Fates filtered k as (a :: l) (x ++ r)

mutual
/-- Two nodes that differ in nothing but attributes, and in those by what becomes of them. -/
inductive Cleaned (filtered : Prop) : Node N V → Node N V → Prop
  | leaf (v : V) : Cleaned filtered (.leaf v) (.leaf v)
  | elem (k : Kind) (n : V) {as bs : List (Item N V)} {ks ls : List (Node N V)} : (Once as → Fates filtered k as as bs) →
      CleanedAll filtered ks ls → Cleaned filtered (.elem k n as ks) (.elem k n bs ls)
/-- The same for lists. -/
inductive CleanedAll (filtered : Prop) : List (Node N V) → List (Node N V) → Prop
  | nil : CleanedAll filtered [] []
  | cons {a b : Node N V} {l r : List (Node N V)} : Cleaned filtered a b → CleanedAll filtered l r → CleanedAll filtered (a :: l) (b :: r)
end

/-- A declaration of the property. -/
inductive Declares : Decl V → List (Token V) → Prop
  | mk (value : List (Token V)) : Declares (.custom "enable-background" value) value

/-- The last declaration of the property among these. -/
def LastDeclared (ds : List (Decl V)) (value : List (Token V)) : Prop :=
  ∃ x d y, ds = x ++ d :: y ∧ Declares d value ∧ ∀ e ∈ y, ∀ v, ¬ Declares e v

/-- Where the value that counts comes from: the `style` attribute, first what is important, or the attribute, or nowhere (then it is `accumulate`). -/
inductive Source (N V : Type) where
  | declared (value : List (Token V))
  | attr (h : Held N)
  | initial

/-- The value that counts for an element with these attributes, if there is no style sheet. -/
inductive Counts (as : List (Item N V)) : Source N V → Prop
  | important {b : Block V} {v : List (Token V)} : .style b ∈ as → LastDeclared b.important v → Counts as (.declared v)
  | normal {b : Block V} {v : List (Token V)} : .style b ∈ as → (∀ d ∈ b.important, ∀ v, ¬ Declares d v) → LastDeclared b.normal v →
      Counts as (.declared v)
  | attr {h : Held N} : (∀ b, .style b ∈ as → (∀ d ∈ b.important, ∀ v, ¬ Declares d v) ∧ ∀ d ∈ b.normal, ∀ v, ¬ Declares d v) →
      .background h ∈ as → Counts as (.attr h)
  | initial : (∀ b, .style b ∈ as → (∀ d ∈ b.important, ∀ v, ¬ Declares d v) ∧ ∀ d ∈ b.normal, ∀ v, ¬ Declares d v) →
      (∀ h, .background h ∉ as) → Counts as .initial

end Verif.Background
