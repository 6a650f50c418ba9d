import Verif.Xml.Spec

/-!
# Vocabulary: which documents, and what is to be kept of them
-/

namespace Verif.Xml

variable {E A : Type}

/-! ## Documents that can be written -/

/-- Characters of texts: those of XML, without the carriage return. -/
def plainChars (s : Str) : Bool := s.all fun c => isChar c && c != 13
/-- Characters of attribute values: also without line feed and tabulator. -/
def valueChars (s : Str) : Bool := s.all fun c => isChar c && c != 13 && c != 10 && c != 9

/-- A comment without `--`, not even together with its end. -/
def commentOk : Str → Bool
  | 45 :: 45 :: _ => false
  | [45] => false
  | c :: s => (isChar c && c != 13) && commentOk s
  | [] => true

/-- The data of a processing instruction. -/
def piOk : Option Str → Bool
  | none => true
  | some [] => false
  | some (c :: s) => !isS c && plainChars (c :: s) && (upToPi (c :: s)).isNone

/-- The text does not complete a `]]` or `]` before it to `]]>`. -/
def noCdStart : Str → Bool
  | 62 :: _ => false
  | 93 :: 62 :: _ => false
  | _ => true

/-- Style text that can stand in a document as it is. -/
def styleOk (s : Str) : Bool :=
  !s.isEmpty && plainChars s && s.all (fun c => c != 60 && c != 38) && !cdEnd s && noCdStart s

/-- The names and attributes of an element. -/
structure TagOk (V : View E A) (e : E) (as : List A) : Prop where
  ename : isName (V.ename e) = true
  aname : ∀ a ∈ as, isName (V.aname a) = true
  value : ∀ a ∈ as, valueChars (V.avalue a) = true
  distinct : (as.map V.aname).Nodup

mutual
/-- Nodes below the top level. -/
def SrcOk (V : View E A) : XNode E A → Prop
  | .elem e as ks => TagOk V e as ∧ SrcsOk V ks
  | .text s => plainChars s = true
  | .style s => s = [] ∨ styleOk s = true
  | .comment s => commentOk s = true
  | .pi _ _ => False
def SrcsOk (V : View E A) : List (XNode E A) → Prop
  | [] => True
  | n :: ns => SrcOk V n ∧ SrcsOk V ns
end

/-- Texts and styles, which both are read back as text. -/
def XNode.textlike : XNode E A → Bool
  | .text _ => true
  | .style _ => true
  | _ => false

/-- At most one processing instruction, at the beginning, and below it comments and one element. -/
structure DocOk (V : View E A) (doc : List (XNode E A)) : Prop where
  parts : ∃ ps ns, doc = ps ++ ns ∧
    (ps = [] ∨ ∃ t d, ps = [.pi t d] ∧ isName t = true ∧ isXmlTarget t = false ∧ piOk d = true) ∧
    SrcsOk V ns ∧ (∀ n ∈ ns, n.textlike = false)
  root : (doc.filter XNode.isElem).length = 1

/-! ## The document as a reader should see it -/

/-- A text before other nodes: empty text is nothing, adjacent texts are one. -/
def addText : Str → List Doc → List Doc
  | [], ns => ns
  | c :: s, .text s' :: ns => .text (c :: s ++ s') :: ns
  | c :: s, ns => .text (c :: s) :: ns

mutual
def asReadNode (V : View E A) (rest : List Doc) : XNode E A → List Doc
  | .elem e as ks => .elem (V.ename e) (as.map fun a => (V.aname a, V.avalue a)) (asRead V ks) :: rest
  | .text s => addText s rest
  | .style s => addText s rest
  | .comment s => .comment s :: rest
  | .pi t d => .pi t d :: rest
/-- Names and values as text, style as text, adjacent texts joined. -/
def asRead (V : View E A) : List (XNode E A) → List Doc
  | [] => []
  | n :: ns => asReadNode V (asRead V ns) n
end

/-! ## Up to white space -/

/-- Collecting words; the first argument is the word begun. -/
def wordsFrom : Str → Str → List Str
  | cur, [] => if cur.isEmpty then [] else [cur]
  | cur, c :: s =>
    if isWhitespace c then (if cur.isEmpty then wordsFrom [] s else cur :: wordsFrom [] s) else wordsFrom (cur ++ [c]) s

/-- The words of a text. -/
def words (s : Str) : List Str := wordsFrom [] s

/-- A document in which every text is its words. -/
inductive Gist where
  | elem (n : Str) (as : List (Str × Str)) (ks : List Gist)
  | words (ws : List Str)
  | comment (s : Str)
  | pi (t : Str) (d : Option Str)

/-- No node for a text without words. -/
def wordsGist (s : Str) : List Gist := if (words s).isEmpty then [] else [.words (words s)]

mutual
def gistNode : Doc → List Gist
  | .elem n as ks => [.elem n as (gist ks)]
  | .text s => wordsGist s
  | .style s => wordsGist s
  | .comment s => [.comment s]
  | .pi t d => [.pi t d]
/-- The elements with their attributes, the comments, and the words of the texts, in order. -/
def gist : List Doc → List Gist
  | [] => []
  | n :: ns => gistNode n ++ gist ns
end

/-- Whether a text comes first. -/
def headTextlike (ns : List (XNode E A)) : Bool := (ns.head?.map XNode.textlike).getD false

mutual
/-- No two texts side by side (as after parsing). -/
def Apart : XNode E A → Prop
  | .elem _ _ ks => Aparts ks
  | .text _ => True
  | .style _ => True
  | .comment _ => True
  | .pi _ _ => True
def Aparts : List (XNode E A) → Prop
  | [] => True
  | n :: ns => Apart n ∧ Aparts ns ∧ (n.textlike = true → headTextlike ns = false)
end

/-! ## Texts that need no change -/

/-- No white space but single spaces. -/
def singleSpaced : Str → Bool
  | [] => true
  | [c] => !isWhitespace c || c == 32
  | c :: d :: s => (!isWhitespace c || (c == 32 && !isWhitespace d)) && singleSpaced (d :: s)

/-- A text with a word, no white space but single spaces, none at the beginning if it is at the beginning of the
element, none at the end if it is at the end. -/
structure Tidy (first last : Bool) (s : Str) : Prop where
  word : words s ≠ []
  single : singleSpaced s = true
  start : first = true → s.head? ≠ some 32
  stop : last = true → s.getLast? ≠ some 32

/-- Texts which the given treatment of white space leaves alone. -/
def Settled : Space → Bool → Bool → Str → Prop
  | .never, _, _, _ => True
  | .preserve, _, _, s => ∀ c ∈ s, c ≠ 10 ∧ c ≠ 9
  | .standard, first, last, s => s = [] ∨ Tidy first last s
  | .auto, _, _, _ => False

/-- Which treatment of white space applies: by the option, or by `xml:space` (`p`: it is `preserve`). -/
def treatment (o : Options) (p : Bool) : Space :=
  match o.trim with
  | .auto => if p then .preserve else .standard
  | m => m

/-- An attribute that does not change the treatment of white space. -/
def Quiet (V : View E A) (o : Options) (p : Bool) (a : A) : Prop := o.trim = .auto → V.space a = none ∨ V.space a = some p

mutual
/-- All texts are settled, with `xml:space` the same everywhere. -/
def SettledNode (V : View E A) (o : Options) (p first last : Bool) : XNode E A → Prop
  | .elem _ as ks => (∀ a ∈ as, Quiet V o p a) ∧ SettledAll V o p true ks
  | .text s => Settled (treatment o p) first last s
  | .style _ => True
  | .comment _ => True
  | .pi _ _ => True
/-- `first`: the next node is the first, or follows a text. -/
def SettledAll (V : View E A) (o : Options) (p first : Bool) : List (XNode E A) → Prop
  | [] => True
  | n :: ns => SettledNode V o p first (ns.isEmpty || (ns.head?.map XNode.isText).getD false) n ∧
      SettledAll V o p n.isText ns
end

end Verif.Xml
