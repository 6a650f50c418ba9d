import Verif.Scripts.Model

/-!
# What can run scripts

HTML (event handler content attributes; scripts of SVG and of HTML; navigating to a `javascript:` URL), URL (control characters and spaces at the
beginning are taken away, tabs and line breaks are taken away everywhere, schemes do not depend on case).
-/

namespace Verif.Scripts

open Verif.Names (lit)

variable {V : Type}

/-- The document has an element with this name and these attributes, at any depth. -/
inductive Has : List (Node V) → Name → List Attr → Prop
  | here {doc : List (Node V)} {n : Name} {as : List Attr} {ks : List (Node V)} : .elem n as ks ∈ doc → Has doc n as
  | deep {doc ks : List (Node V)} {n m : Name} {as bs : List Attr} : .elem n as ks ∈ doc → Has ks m bs → Has doc m bs

/-- White space of Unicode, and then `javascript:`. -/
def Starts (u : List Nat) : Prop :=
  ∃ lead rest, u = lead ++ (lit "javascript:" ++ rest) ∧ ∀ c ∈ lead, c ∈ [9, 10, 11, 12, 13, 0x20, 0x85, 0xa0, 0x1680, 0x2000, 0x2001, 0x2002, 0x2003,
    0x2004, 0x2005, 0x2006, 0x2007, 0x2008, 0x2009, 0x200a, 0x2028, 0x2029, 0x202f, 0x205f, 0x3000]

/-- ASCII capital letters in lower case. -/
def lower (c : Nat) : Nat := if 65 ≤ c ∧ c ≤ 90 then c + 32 else c

/-- The text begins with a word, in any case and with tabs and line breaks in between. -/
inductive Spells : List Nat → List Nat → Prop
  | done (s : List Nat) : Spells [] s
  | skip {w s : List Nat} (c : Nat) : c ∈ [9, 10, 13] → Spells w s → Spells w (c :: s)
  | char {w s : List Nat} (c : Nat) : Spells w s → Spells (lower c :: w) (c :: s)

/-- A URL that runs a script. -/
def JsUrl (u : List Nat) : Prop := ∃ lead rest, u = lead ++ rest ∧ (∀ c ∈ lead, c ≤ 0x20) ∧ Spells (lit "javascript:") rest

/-- An attribute that is a link. -/
def Href (a : Attr) : Prop := a.name = "href" ∧ (a.space = .plain ∨ a.space = .xlink)

/-- A link of SVG to a script, as this job knows them. -/
def Link (n : Name) (as : List Attr) : Prop := n = ⟨.svg, "a"⟩ ∧ ∃ a ∈ as, Href a ∧ Starts a.value

/-- An attribute for an event that is in the table. -/
def Event (a : Attr) : Prop := a.space = .plain ∧ a.name ∈ events

/-- Things that can run scripts. -/
inductive Danger (doc : List (Node V)) : Prop
  | element {n : Name} {as : List Attr} : Has doc n as → n.loc = "script" → n.space = .svg ∨ n.space = .html → Danger doc
  | event {n : Name} {as : List Attr} {a : Attr} {rest : List Char} : Has doc n as → a ∈ as → a.space = .plain → a.name.toList = 'o' :: 'n' :: rest → Danger doc
  | link {as : List Attr} {a : Attr} : Has doc ⟨.svg, "a"⟩ as → a ∈ as → Href a → JsUrl a.value → Danger doc

/-- The sublist of the things that do not have a property. -/
inductive Without {A : Type} (P : A → Prop) : List A → List A → Prop
  | nil : Without P [] []
  | drop {a : A} {l r : List A} : P a → Without P l r → Without P (a :: l) r
  | keep {a : A} {l r : List A} : ¬ P a → Without P l r → Without P (a :: l) (a :: r)

/-- A text. -/
def Text (n : Node V) : Prop := ∃ v, n = .text v

mutual
/-- What is to become of a node: scripts go, attributes for events go, links to scripts are replaced by what is in them, but for texts; all else
stays. -/
inductive Cleaned : Node V → List (Node V) → Prop
  | text (v : V) : Cleaned (.text v) [.text v]
  | leaf (v : V) : Cleaned (.leaf v) [.leaf v]
  | script (as : List Attr) (ks : List (Node V)) : Cleaned (.elem ⟨.svg, "script"⟩ as ks) []
  | link {n : Name} {as : List Attr} {ks ls out : List (Node V)} : Link n as → CleanedAll ks ls → Without Text ls out → Cleaned (.elem n as ks) out
  | elem {n : Name} {as bs : List Attr} {ks ls : List (Node V)} : n ≠ ⟨.svg, "script"⟩ → ¬ Link n as → Without Event as bs → CleanedAll ks ls →
      Cleaned (.elem n as ks) [.elem n bs ls]
/-- The same for lists. -/
inductive CleanedAll : List (Node V) → List (Node V) → Prop
  | nil : CleanedAll [] []
  | cons {n : Node V} {x l r : List (Node V)} : Cleaned n x → CleanedAll l r → CleanedAll (n :: l) (x ++ r)
end

mutual
/-- In no link to a script is there a text between other things. -/
inductive Neat : Node V → Prop
  | text (v : V) : Neat (.text v)
  | leaf (v : V) : Neat (.leaf v)
  | link {n : Name} {as : List Attr} {x y z : List (Node V)} : Link n as → (∀ k ∈ x, Text k) → (∀ k ∈ y, ¬ Text k) → (∀ k ∈ z, Text k) → NeatAll y →
      Neat (.elem n as (x ++ y ++ z))
  | elem {n : Name} {as : List Attr} {ks : List (Node V)} : ¬ Link n as → NeatAll ks → Neat (.elem n as ks)
/-- The same for lists. -/
inductive NeatAll : List (Node V) → Prop
  | nil : NeatAll []
  | cons {n : Node V} {l : List (Node V)} : Neat n → NeatAll l → NeatAll (n :: l)
end

end Verif.Scripts
