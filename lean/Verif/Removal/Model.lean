import Verif.Tree.Lemmas

/-!
# Model: jobs that remove nodes of one kind

`crates/oxvg_optimiser/src/jobs/remove_comments.rs`, `remove_desc.rs`, `remove_metadata.rs`,
`remove_title.rs`, `remove_style_element.rs`, `remove_x_m_l_proc_inst.rs`, `remove_doctype.rs`.

Regular expressions are left abstract: a pattern is compiled to a test on the text of a comment, or does
not compile.
-/

namespace Verif.Removal

open Verif.Tree Verif.Names

variable {A P : Type}

/-- error.rs, the errors of these jobs. -/
inductive Err where
  | invalidUserRegex
  deriving DecidableEq, Repr

/-- utils/regex_memo.rs, `get`: the compiled expression, or none if it is not a regular expression. -/
abbrev Regex (P : Type) := P → Option (List Char → Bool)

/-- remove_comments.rs:66-77, the loop over the patterns: whether the comment is preserved. -/
def preserved (re : Regex P) (s : List Char) : List P → Except Err Bool
  | [] => .ok false
  | p :: ps => match re p with
    | none => .error .invalidUserRegex
    | some m => if m s then .ok true else preserved re s ps

/-- `node.remove()` or not. -/
def kept (b : Bool) (as : List A) : Option (List A) := if b then some as else none

/-- The attributes of a node that is not touched. -/
def own : Node A → List A
  | .elem _ as _ => as
  | _ => []

/-- remove_comments.rs:50-81, `comment` and `remove_comment`; `dflt` stands for
`DEFAULT_PRESERVE_PATTERNS` (107-111). -/
def commentHook (re : Regex P) (dflt : List P) (opt : Option (List P)) : Hook A Err
  | .comment s => do
    let b ← preserved re s (opt.getD dflt)
    pure (kept b [])
  | n => .ok (some (own n))

/-- remove_comments.rs: the job has no switch. -/
def removeComments (re : Regex P) (dflt : List P) (opt : Option (List P)) (doc : List (Node A)) :
    Except Err (List (Node A)) := start true (commentHook re dflt opt) doc

/-- remove_metadata.rs:47-56, remove_title.rs:50-60, remove_style_element.rs:47-57: `element`. -/
def namedHook (name : String) : Hook A Err
  | .elem n as _ => .ok (kept (!n.is name) as)
  | n => .ok (some (own n))

/-- remove_metadata.rs:32-57. -/
def removeMetadata (on : Bool) (doc : List (Node A)) : Except Err (List (Node A)) :=
  start on (namedHook "metadata") doc

/-- remove_title.rs:35-61. -/
def removeTitle (on : Bool) (doc : List (Node A)) : Except Err (List (Node A)) :=
  start on (namedHook "title") doc

/-- remove_style_element.rs:32-58. -/
def removeStyleElement (on : Bool) (doc : List (Node A)) : Except Err (List (Node A)) :=
  start on (namedHook "style") doc

/-- remove_x_m_l_proc_inst.rs:32-58; node.rs:763-771 `name` of a processing instruction is its target. -/
def procInstHook : Hook A Err
  | .pi t d => .ok (kept (!(t == lit "xml")) (own (A := A) (.pi t d)))
  | n => .ok (some (own n))

/-- remove_x_m_l_proc_inst.rs:32-58. -/
def removeProcInst (on : Bool) (doc : List (Node A)) : Except Err (List (Node A)) :=
  start on procInstHook doc

/-- `str::starts_with` for an ASCII literal. -/
def startsWith (s : List Char) (p : String) : Bool := p.toList.isPrefixOf s

/-- remove_desc.rs:66-68, `is_standard_desc`. -/
def isStandardDesc (s : List Char) : Bool := startsWith s "Created with" || startsWith s "Created using"

/-- remove_desc.rs:56-59, the test on one child. -/
def isStandardText : Node A → Bool
  | .text s => isStandardDesc s
  | _ => false

/-- remove_desc.rs:43-64, `element`. -/
def descHook (white : Char → Bool) (removeAny : Bool) : Hook A Err
  | .elem n as ks =>
    if !n.is "desc" then .ok (some as)
    else .ok (kept (!(removeAny || isEmpty white ks || ks.any isStandardText)) as)
  | n => .ok (some (own n))

/-- remove_desc.rs:36-64: the job has no switch. -/
def removeDesc (white : Char → Bool) (removeAny : Bool) (doc : List (Node A)) : Except Err (List (Node A)) :=
  start true (descHook white removeAny) doc

end Verif.Removal
