import Verif.Escape.Model

/-!
# Model: writing a document

`crates/oxvg_ast/src/xmlwriter.rs`, `crates/oxvg_ast/src/serialize.rs`.

Strings are lists of code points. How names and attribute values are turned into text (`Display` of
`ElementId`, `Attr::write_value`), and the text of the rules of a style node, are given by the caller.
Errors of the underlying `io::Write` are not modelled. `write_cdata_text` is never called by the serialiser,
so the state `CData` is left out.
-/

namespace Verif.Xml

abbrev Str := List Nat

/-- node.rs:77-112: nodes with their children. `E` are element names, `A` attributes. The rules of a style node
are given as the text they are printed to; no rules are the empty text. -/
inductive XNode (E A : Type) where
  | elem (name : E) (attrs : List A) (kids : List (XNode E A))
  | text (s : Str)
  | style (s : Str)
  | comment (s : Str)
  | pi (target : Str) (data : Option Str)
  deriving Repr

/-- How names and attributes are written. `textual` is `is_text_content_element` (1130-1142), `space` is
`some true` for `xml:space="preserve"`, `some false` for any other `xml:space` and `none` for other attributes. -/
structure View (E A : Type) where
  ename : E → Str
  textual : E → Bool
  aname : A → Str
  avalue : A → Str
  space : A → Option Bool

/-- xmlwriter.rs:89-109. -/
inductive Space | never | auto | standard | preserve
  deriving DecidableEq, Repr

/-- xmlwriter.rs:112-120. -/
inductive Indent | none | spaces (n : Nat) | tabs
  deriving DecidableEq, Repr

/-- xmlwriter.rs:161-295, without `minify`, which only matters for the text of values. -/
structure Options where
  singleQuote : Bool
  indent : Indent
  trim : Space
  attrIndent : Indent
  selfClosing : Bool
  deriving DecidableEq, Repr

/-- xmlwriter.rs:297-309. -/
def Options.standard : Options := ⟨false, .none, .auto, .none, true⟩
/-- xmlwriter.rs:312-321. -/
def Options.pretty : Options := ⟨false, .spaces 4, .auto, .none, true⟩
/-- xmlwriter.rs:323-333. -/
def Options.original : Options := ⟨false, .none, .never, .none, true⟩

/-- xmlwriter.rs:336-342. -/
inductive State | empty | document | attributes
  deriving DecidableEq, Repr

/-- error.rs: the errors that can occur. -/
inductive Err | declarationAlreadyWritten | attributeWrittenBeforeElement | textBeforeElement | closedUnopenedElement
  deriving DecidableEq, Repr

/-- xmlwriter.rs:446-463, `XmlWriter`; the stack has the innermost element first, each with `has_children`. -/
structure W (E : Type) where
  out : Str
  state : State
  preserve : Bool
  stack : List (Option E × Bool)

variable {E A : Type}

/-- `'\n'` -/ def nl : Nat := 10
/-- `'\t'` -/ def tab : Nat := 9
/-- `' '` -/ def sp : Nat := 32
/-- `'<'` -/ def lt : Nat := 60
/-- `'>'` -/ def gt : Nat := 62
/-- `'/'` -/ def slash : Nat := 47
/-- `'='` -/ def eqs : Nat := 61
/-- `'!'` -/ def bang : Nat := 33
/-- `'-'` -/ def dash : Nat := 45
/-- `'?'` -/ def quest : Nat := 63

/-- `write_all` on the inner writer. -/
def W.put (w : W E) (s : Str) : W E := { w with out := w.out ++ s }

/-- xmlwriter.rs:1130-1142, on an entry of the stack. -/
def textualEntry (V : View E A) : Option E × Bool → Bool
  | (some e, _) => V.textual e
  | (none, _) => false

/-- xmlwriter.rs:1125-1127. -/
def W.textual (V : View E A) (w : W E) : Bool := w.stack.any (textualEntry V)

/-- One step of indentation. -/
def Indent.unit : Indent → Str
  | .none => []
  | .spaces n => List.replicate n sp
  | .tabs => [tab]

/-- xmlwriter.rs:1096-1111, `write_indent`. -/
def W.writeIndent (V : View E A) (w : W E) (depth : Nat) (i : Indent) : W E :=
  if i = .none || w.preserve || w.textual V then w else w.put (List.replicate depth i.unit).flatten

/-- xmlwriter.rs:1091-1094. -/
def W.writeNodeIndent (V : View E A) (o : Options) (w : W E) : W E := w.writeIndent V w.stack.length o.indent

/-- xmlwriter.rs:1113-1123. -/
def W.newLine (V : View E A) (o : Options) (w : W E) : W E :=
  if o.indent ≠ .none && !w.preserve && !w.textual V then w.put [nl] else w

/-- xmlwriter.rs:1078-1089. -/
def W.openElement (w : W E) : W E :=
  match w.stack with
  | [] => w
  | (e, _) :: rest => { w with out := w.out ++ [gt], state := .document, stack := (e, true) :: rest }

/-- `if self.state == State::Attributes { self.write_open_element()? }` -/
def W.closeTag (w : W E) : W E := if w.state = .attributes then w.openElement else w

/-- `if self.state != State::Empty { self.write_new_line()? }` -/
def W.lineBreak (V : View E A) (o : Options) (w : W E) : W E := if w.state ≠ .empty then w.newLine V o else w

/-- What stands after the target of a processing instruction. -/
def piData : Option Str → Str
  | none => []
  | some d => sp :: d

/-- xmlwriter.rs:489-510. -/
def W.declaration (w : W E) (target : Str) (data : Option Str) : Except Err (W E) :=
  if w.state ≠ .empty then .error .declarationAlreadyWritten
  else .ok { w.put ([lt, quest] ++ target ++ piData data ++ [quest, gt]) with state := .document }

/-- xmlwriter.rs:526-564. After `write_open_element` the state is not `Attributes`, so nothing is pushed. -/
def W.writeComment (V : View E A) (o : Options) (w : W E) (s : Str) : W E :=
  let w := (w.closeTag.lineBreak V o).writeNodeIndent V o
  let w := w.put ([lt, bang, dash, dash] ++ s ++ [dash, dash, gt])
  let w := if w.state = .attributes then { w with stack := (none, false) :: w.stack } else w
  { w with state := .document }

/-- xmlwriter.rs:571-602. -/
def W.startElement (V : View E A) (o : Options) (w : W E) (e : E) : W E :=
  let w := w.closeTag.lineBreak V o
  let w := if !w.preserve && !w.textual V then w.writeNodeIndent V o else w
  let w := w.put ([lt] ++ V.ename e)
  { w with stack := (some e, false) :: w.stack, state := .attributes }

/-- xmlwriter.rs:1064-1070. -/
def quote (o : Options) : Nat := if o.singleQuote then Escape.apos else Escape.quot

/-- xmlwriter.rs:767-785, `write_attribute_prefix`. -/
def W.attributePrefix (V : View E A) (o : Options) (w : W E) (name : Str) : W E :=
  let w := if o.attrIndent = .none then w.put [sp]
    else
      let w := w.put [nl]
      let w := if w.stack.length > 0 then w.writeIndent V (w.stack.length - 1) o.indent else w
      w.writeIndent V 1 o.attrIndent
  w.put (name ++ [eqs] ++ [quote o])

/-- xmlwriter.rs:640-645: what an attribute says about white space. -/
def spaceAfter (V : View E A) (o : Options) (p : Bool) (a : A) : Bool :=
  if o.trim = .auto then (V.space a).getD p else p

/-- xmlwriter.rs:637-672 and 748-764, `write_attribute`. -/
def W.writeAttribute (V : View E A) (o : Options) (w : W E) (a : A) : Except Err (W E) :=
  let w := { w with preserve := spaceAfter V o w.preserve a }
  if w.state ≠ .attributes then .error .attributeWrittenBeforeElement
  else
    let w := w.attributePrefix V o (V.aname a)
    let w := { w with out := Escape.writeEscaped true o.singleQuote (V.avalue a) w.out }
    .ok (w.put [quote o])

/-- xmlwriter.rs:919-944 for `cdata = false`. -/
def W.beforeText (V : View E A) (o : Options) (w : W E) : Except Err (W E) :=
  if w.state = .empty || w.stack.isEmpty then .error .textBeforeElement
  else .ok ((w.closeTag.lineBreak V o).writeNodeIndent V o)

/-- `char::is_whitespace`, the Unicode property `White_Space`. -/
def isWhitespace (n : Nat) : Bool :=
  (9 ≤ n && n ≤ 13) || n == 0x20 || n == 0x85 || n == 0xA0 || n == 0x1680 || (0x2000 ≤ n && n ≤ 0x200A) ||
    n == 0x2028 || n == 0x2029 || n == 0x202F || n == 0x205F || n == 0x3000

/-- The parts of a text for `str::split_whitespace`, the word at its beginning kept apart. -/
def splitGo : Str → Str × List Str
  | [] => ([], [])
  | c :: s =>
    let r := splitGo s
    if isWhitespace c then ([], if r.1.isEmpty then r.2 else r.1 :: r.2) else (c :: r.1, r.2)

/-- `str::split_whitespace`: the non-empty parts between white space. -/
def splitWhitespace (s : Str) : List Str :=
  let r := splitGo s
  if r.1.isEmpty then r.2 else r.1 :: r.2

/-- Writing text with `fmt_writer` when `escape` is `Text`. -/
def W.putText (w : W E) (s : Str) : W E := { w with out := Escape.writeEscaped false false s w.out }

/-- The loop over the remaining parts (xmlwriter.rs:832-839). -/
def W.putParts (w : W E) (parts : List Str) : W E := parts.foldl (fun w p => (w.putText [sp]).putText p) w

/-- Whether the text begins with white space. -/
def leading (s : Str) : Bool := (s.head?.map isWhitespace).getD false
/-- Whether the text ends with white space. -/
def trailing (s : Str) : Bool := (s.getLast?.map isWhitespace).getD false

/-- xmlwriter.rs:809-850, `Space::Default`. -/
def W.textStandard (V : View E A) (o : Options) (w : W E) (s : Str) (first last : Bool) : Except Err (W E) :=
  if s.all isWhitespace then .ok w
  else do
    let w ← w.beforeText V o
    let w := match splitWhitespace s with
      | [] => w
      | p :: ps =>
        let w := if !first && o.indent == Indent.none && leading s then w.putText [sp] else w
        let w := (w.putText p).putParts ps
        if !last && o.indent == Indent.none && trailing s then w.putText [sp] else w
    pure { w with state := .document }

/-- A character in `Space::Preserve` (xmlwriter.rs:857-867). -/
def flatten (c : Nat) : Nat := if c = nl || c = tab then sp else c

/-- xmlwriter.rs:851-868, `Space::Preserve`: the indentation is switched off for a moment. -/
def W.textPreserve (V : View E A) (o : Options) (w : W E) (s : Str) : Except Err (W E) := do
  let w ← w.beforeText V { o with indent := .none }
  let w := s.foldl (fun w c => w.putText [flatten c]) w
  pure { w with state := .document }

/-- xmlwriter.rs:897-899 and 946-962, `write_text_fmt`. -/
def W.textNever (V : View E A) (o : Options) (w : W E) (s : Str) : Except Err (W E) := do
  let w ← w.beforeText V o
  pure { w.putText s with state := .document }

/-- xmlwriter.rs:796-873, `write_text`. -/
def W.writeText (V : View E A) (o : Options) (w : W E) (s : Str) (first last : Bool) : Except Err (W E) :=
  match o.trim with
  | .auto => if w.preserve then w.textPreserve V o s else w.textStandard V o s first last
  | .never => w.textNever V o s
  | .standard => w.textStandard V o s first last
  | .preserve => w.textPreserve V o s

/-- xmlwriter.rs:880-895, `write_style`. -/
def W.writeStyle (V : View E A) (o : Options) (w : W E) (s : Str) : Except Err (W E) :=
  if s.isEmpty then .ok w
  else do
    let w ← w.beforeText V o
    pure (w.put s)

/-- xmlwriter.rs:970-1022, `end_element`. -/
def W.endElement (V : View E A) (o : Options) (w : W E) : Except Err (W E) :=
  match w.stack with
  | [] => .ok { w with state := .document }
  | (e, kids) :: rest =>
    let w := { w with stack := rest }
    if kids || !o.selfClosing then
      let w := if !kids && !o.selfClosing then w.put [gt] else w
      let w := if !w.preserve && !textualEntry V (e, kids) then (w.newLine V o).writeNodeIndent V o else w
      let w := w.put [lt, slash]
      match e with
      | none => .error .closedUnopenedElement
      | some e => .ok { (w.put (V.ename e)).put [gt] with state := .document }
    else .ok { w.put [slash, gt] with state := .document }

/-- xmlwriter.rs:1054-1062, `end_document`. -/
def W.endDocument (V : View E A) (o : Options) : Nat → W E → Except Err Str
  | 0, w => .ok (w.newLine V o).out
  | n + 1, w => do
    let w ← w.endElement V o
    W.endDocument V o n w

/-- xmlwriter.rs:468-481. -/
def W.new : W E := ⟨[], .empty, false, []⟩

/-- serialize.rs:97-99. -/
def writeAttributes (V : View E A) (o : Options) : List A → W E → Except Err (W E)
  | [], w => .ok w
  | a :: as, w => do
    let w ← w.writeAttribute V o a
    writeAttributes V o as w

/-- Whether the node is a text. -/
def XNode.isText : XNode E A → Bool
  | .text _ => true
  | _ => false

mutual
/-- serialize.rs:87-142, `serialize_node`. -/
def serializeNode (V : View E A) (o : Options) (first last : Bool) : XNode E A → W E → Except Err (W E)
  | .elem e as ks, w => do
    let w ← writeAttributes V o as (w.startElement V o e)
    let w ← serializeAll V o false true ks w
    w.endElement V o
  | .text s, w => if s.isEmpty then .ok w else w.writeText V o s first last
  | .style s, w => w.writeStyle V o s
  | .comment s, w => .ok (w.writeComment V o s)
  | .pi t d, w => w.declaration t d
/-- serialize.rs:119-134, the children. `prevText` says that the last child was a text, `start` that there was
none. -/
def serializeAll (V : View E A) (o : Options) (prevText start : Bool) : List (XNode E A) → W E → Except Err (W E)
  | [], w => .ok w
  | n :: ns, w => do
    let w ← serializeNode V o (start || prevText) (ns.isEmpty || (ns.head?.map XNode.isText).getD false) n w
    serializeAll V o n.isText false ns w
end

/-- serialize.rs:73-83, `serialize_into` on a document node, all children of which are given. -/
def serialize (V : View E A) (o : Options) (doc : List (XNode E A)) : Except Err Str := do
  let w ← serializeAll V o false true doc W.new
  w.endDocument V o w.stack.length

end Verif.Xml
