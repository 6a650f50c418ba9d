import Verif.Colors.Model

/-!
# What colours mean

CSS Color 4, 6.2 (`currentColor`: the value of the property `color`, which is inherited), SVG 2, 6.6 (presentation attributes).
-/

namespace Verif.Colors

variable {C V : Type}

/-- A single value with `currentColor` in the place of its colour; colours to fall back to are not meant. -/
inductive Turned : Content C V → Content C V → Prop
  | color (c : Color C) : Turned (.color c) (.color .current)
  | paint (c : Color C) : Turned (.paint (.color c)) (.paint (.color .current))
  | url (v : V) (f : Option (Color C)) : Turned (.paint (.url v f)) (.paint (.url v f))
  | otherPaint (v : V) : Turned (.paint (.other v)) (.paint (.other v))
  | decoration (v : V) (c : Color C) : Turned (.decoration v c) (.decoration v .current)
  | other (v : V) : Turned (.other v) (.other v)

/-- The content of an attribute with `currentColor` in the place of its colours: of a single value, or the values of a list. -/
inductive Recoloured : Content C V → Content C V → Prop
  | single {v w : Content C V} : Turned v w → Recoloured v w
  | list {l r : List (Content C V)} : l.length = r.length → (∀ v w, (v, w) ∈ l.zip r → Turned v w ∨ ((∀ u, ¬ Turned v u) ∧ w = v)) →
      Recoloured (.list l) (.list r)
  | defined {v w : Content C V} : Recoloured v w → Recoloured (.defined v) (.defined w)

/-- A declaration with `currentColor` in the place of all of its colours. -/
def Redeclared (d e : Decl C V) : Prop := e.prop = d.prop ∧ e.rest = d.rest ∧ e.colors.length = d.colors.length ∧ ∀ c ∈ e.colors, c = .current

/-- A list, part by part. -/
inductive Each {A : Type} (R : A → A → Prop) : List A → List A → Prop
  | nil : Each R [] []
  | cons {a b : A} {l r : List A} : R a b → Each R l r → Each R (a :: l) (b :: r)

/-- An attribute with `currentColor` in the place of its colours. -/
inductive Attr.Re : Attr C V → Attr C V → Prop
  | style {ds es : List (Decl C V)} : Each Redeclared ds es → Attr.Re (.style ds) (.style es)
  | plain (n : String) {v w : Content C V} : Recoloured v w → Attr.Re (.plain n v) (.plain n w)

mutual
/-- Two nodes that are the same but for the colours in the attributes of elements that are no masks and not inside of masks. -/
inductive Done : Node C V → Node C V → Prop
  | leaf (v : V) : Done (.leaf v) (.leaf v)
  | sheet (rules : List (V × List (Decl C V))) : Done (.sheet rules) (.sheet rules)
  | mask (n : V) (as : List (Attr C V)) (ks : List (Node C V)) : Done (.elem true n as ks) (.elem true n as ks)
  | elem (n : V) {as bs : List (Attr C V)} {ks ls : List (Node C V)} : Each Attr.Re as bs → DoneAll ks ls →
      Done (.elem false n as ks) (.elem false n bs ls)
/-- The same for lists. -/
inductive DoneAll : List (Node C V) → List (Node C V) → Prop
  | nil : DoneAll [] []
  | cons {a b : Node C V} {l r : List (Node C V)} : Done a b → DoneAll l r → DoneAll (a :: l) (b :: r)
end

/-- An element, without what is in it. -/
structure El (C V : Type) where
  mask : Bool
  name : V
  attrs : List (Attr C V)

/-- The chain of elements from an element of a document up to its root: the first is the outermost. -/
inductive At : List (Node C V) → List (El C V) → Prop
  | here {doc : List (Node C V)} {m : Bool} {n : V} {as : List (Attr C V)} {ks : List (Node C V)} : .elem m n as ks ∈ doc → At doc [⟨m, n, as⟩]
  | deep {doc : List (Node C V)} {m : Bool} {n : V} {as : List (Attr C V)} {ks : List (Node C V)} {ch : List (El C V)} :
      .elem m n as ks ∈ doc → At ks ch → At doc (⟨m, n, as⟩ :: ch)

/-- The content of a presentation attribute is this colour. -/
inductive Is : Content C V → Color C → Prop
  | color (c : Color C) : Is (.color c) c
  | paint (c : Color C) : Is (.paint (.color c)) c
  | defined {v : Content C V} {c : Color C} : Is v c → Is (.defined v) c

/-- The declarations set the property to this colour: the last of them that sets it. -/
def Declared (ds : List (Decl C V)) (p : String) (c : Color C) : Prop :=
  ∃ x d y, ds = x ++ d :: y ∧ d.prop = p ∧ d.colors = [c] ∧ ∀ e ∈ y, e.prop ≠ p

/-- The element itself says that the property is this colour, in its `style` attribute or, if that says nothing, in the attribute. -/
inductive Says (as : List (Attr C V)) (p : String) : Color C → Prop
  | style {ds : List (Decl C V)} {c : Color C} : .style ds ∈ as → Declared ds p c → Says as p c
  | plain {v : Content C V} {c : Color C} : (∀ ds, .style ds ∈ as → ∀ d ∈ ds, d.prop ≠ p) → .plain p v ∈ as → Is v c → Says as p c

/-- The value of `color` for the last element of a chain, if that around the document is `outer`, and there are no style sheets: `currentColor` and
nothing at all both take that of the parent. -/
inductive Text : C → List (El C V) → C → Prop
  | nil (outer : C) : Text outer [] outer
  | said {outer c r : C} {e : El C V} {ch : List (El C V)} : Says e.attrs "color" (.other c) → Text c ch r → Text outer (e :: ch) r
  | unsaid {outer r : C} {e : El C V} {ch : List (El C V)} : (∀ c, ¬ Says e.attrs "color" (.other c)) → Text outer ch r → Text outer (e :: ch) r

/-- The colour that the last element of a chain is to use for a property that it sets to a colour itself. -/
inductive Uses (outer : C) (ch : List (El C V)) (p : String) : C → Prop
  | other {l : List (El C V)} {e : El C V} {c : C} : ch = l ++ [e] → Says e.attrs p (.other c) → p ≠ "color" → Uses outer ch p c
  | current {l : List (El C V)} {e : El C V} {c : C} : ch = l ++ [e] → Says e.attrs p .current → p ≠ "color" → Text outer ch c → Uses outer ch p c
  | color {c : C} : p = "color" → Text outer ch c → Uses outer ch p c

end Verif.Colors
