import Verif.Jsx.Model

/-!
# What is asked of the JSX of a document

The grammar of JSX (https://facebook.github.io/jsx/): an element is either `<name attrs />` or
`<name attrs>`, children, `</name>` with the same name; a text is a run of characters other than
`{`, `}`, `<` and `>`.
-/

namespace Verif.Jsx

/-- The tokens of JSX.  Tags with their attributes, and expressions, are one token each; a text
is a token for each character. -/
inductive Tok
  | opn (name : String) (attrs : List JAttr) (selfClosing : Bool)
  | cls (name : String)
  | fopn
  | fcls
  | chr (c : Char)
  | hole
  | expr (j : Jsx)

mutual
/-- How swc writes JSX: the opening tag with its attributes, the children, and the closing tag if
there is one; texts are written raw. -/
def emit : Jsx → List Tok
  | .elem n as sc cl ks => .opn n as sc :: (emits ks ++ (match cl with
      | some c => [.cls c]
      | none => []))
  | .frag ks => .fopn :: (emits ks ++ [.fcls])
  | .text s => s.map .chr
  | .empty => [.hole]
  | .ident x => [.expr (.ident x)]
  | .cond t a b => [.expr (.cond t a b)]
  | .null => [.expr .null]
/-- The children. -/
def emits : List Jsx → List Tok
  | [] => []
  | j :: js => emit j ++ emits js
end

/-- What is read: elements, fragments, the characters of the texts one by one, and expressions. -/
inductive V
  | el (name : String) (attrs : List JAttr) (kids : List V)
  | fr (kids : List V)
  | ch (c : Char)
  | ex (j : Jsx)

/-- The characters that stand for themselves.  The first four end a text, `&` begins a character
reference, and line breaks are folded together with the blanks around them. -/
def literal (c : Char) : Bool :=
  !(c == '{' || c == '}' || c == '<' || c == '>' || c == '&' || c == '\n' || c == '\r')

/-- An open element (or fragment) and the children before it in its parent, last one first. -/
abbrev Frame := Option (String × List JAttr) × List V

/-- Reading a token: the children read so far, last one first, and the open elements. -/
def step : List V × List Frame → Tok → Option (List V × List Frame)
  | (ks, fs), .opn n as sc => some (if sc then (.el n as [] :: ks, fs) else ([], (some (n, as), ks) :: fs))
  | (ks, fs), .cls n =>
    match fs with
    | (some (m, as), up) :: fs => if m = n then some (.el m as ks.reverse :: up, fs) else none
    | _ => none
  | (ks, fs), .fopn => some ([], (none, ks) :: fs)
  | (ks, fs), .fcls =>
    match fs with
    | (none, up) :: fs => some (.fr ks.reverse :: up, fs)
    | _ => none
  | (ks, fs), .chr c => if literal c then some (.ch c :: ks, fs) else none
  | (ks, fs), .hole => some (ks, fs)
  | (ks, fs), .expr j => some (.ex j :: ks, fs)

/-- Reading tokens one after another. -/
def steps : List V × List Frame → List Tok → Option (List V × List Frame)
  | s, [] => some s
  | s, t :: ts => (step s t).bind fun s => steps s ts

/-- Reading JSX: what it stands for if every tag is closed and every character of its texts
stands for itself. -/
def read (ts : List Tok) : Option (List V) :=
  match steps ([], []) ts with
  | some (ks, []) => some ks.reverse
  | _ => none

/-- A name without its punctuation and in small letters. -/
def canon (s : String) : List Char := (s.toList.filter Char.isAlphanum).map Char.toLower

/-- The names that are spelled differently in JSX, as React documents them. -/
def renamed : List (String × String) :=
  [("class", "className"), ("for", "htmlFor"), ("value", "defaultValue"),
    ("checked", "defaultChecked")]

/-- The qualified name. -/
def Name.qual (n : Name) : String := match n.pre with
  | some p => p ++ ":" ++ n.loc
  | none => n.loc

/-- A JSX name is a spelling of the name of an attribute. -/
def Spells (n : Name) (p : String) : Prop :=
  canon n.qual = canon p ∨ (n.qual, p) ∈ renamed

/-- The value given in JSX is the one of the attribute. -/
def Gives : Val → AVal → Prop
  | .bool b, .bool c => b = c
  | .undef, .strExpr s => s = "undefined"
  | .num q, .num r => q = r
  | .other s, .str t => s = t
  | .style normal important, .object props => important = [] ∧ props = normal
  | _, _ => False

/-- The JSX attributes are those of the document, in their order. -/
inductive Attrs : List (Name × Val) → List JAttr → Prop
  | nil : Attrs [] []
  | cons {n v p a as js} : Spells n p → Gives v a → Attrs as js →
      Attrs ((n, v) :: as) (.attr p (some a) :: js)

mutual
/-- What is read is the document: elements have the same names, attributes and children (the
declaration of the default namespace on `svg` is not needed), texts have the same characters but
for the white space around them. -/
inductive Shows : Doc → List V → Prop
  | element {pre loc attrs kids as vs} :
      Attrs (attrs.filter fun a => !(loc == "svg" && a.1.std == none && a.1.loc == "xmlns")) as →
      ShowsAll kids vs → Shows (.element pre loc attrs kids) [.el loc as vs]
  | text {a s b} : (∀ c ∈ a, white c) → (∀ c ∈ b, white c) →
      (∀ c, s.head? = some c → white c = false) → (∀ c, s.getLast? = some c → white c = false) →
      Shows (.text (some (a ++ s ++ b))) (s.map .ch)
  | noText : Shows (.text none) []
  | comment : Shows .comment []
  | noPi : Shows (.pi v) []
  | style {css} : Shows (.style css) (css.map .ch)
/-- The same for children. -/
inductive ShowsAll : List Doc → List V → Prop
  | nil : ShowsAll [] []
  | cons {d ds v vs} : Shows d v → ShowsAll ds vs → ShowsAll (d :: ds) (v ++ vs)
end

end Verif.Jsx
