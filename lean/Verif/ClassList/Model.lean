import Verif.Attrs.Model

/-!
# Model: the class list of an element

`crates/oxvg_ast/src/class_list.rs`. The list holds the element's attributes and a remembered index of
the class attribute. Values are token lists for parsed class attributes and opaque otherwise.
-/

namespace Verif.ClassList

open Verif.Names Verif.Attrs

/-- Attribute values: the parsed tokens of a class attribute, or any other value. -/
inductive Val
  | tokens (ts : List Str)
  | other (n : Nat)
  deriving DecidableEq, Repr

variable {K : Type} [DecidableEq K]

/-- class_list.rs:19-22. -/
structure CL (K : Type) where
  attrs : List (Attr K Val)
  memo : Nat

/-- The pattern `Attr::Class(class)`. -/
def classTokens (cls : K) : Attr K Val → Option (List Str)
  | .typed k (.tokens ts) => if k = cls then some ts else none
  | _ => none

/-- class_list.rs:29-37, `attr_by_memo`: index and tokens. -/
def attrByMemo (cls : K) (c : CL K) : Option (Nat × List Str) :=
  match c.attrs[c.memo]? with
  | some a => (classTokens cls a).map (c.memo, ·)
  | none => none

/-- class_list.rs:39-50, `attr_by_search`: index and tokens of the first match from index `i` on. -/
def attrBySearch (cls : K) : List (Attr K Val) → Nat → Option (Nat × List Str)
  | [], _ => none
  | a :: l, i => match classTokens cls a with
    | some ts => some (i, ts)
    | none => attrBySearch cls l (i + 1)

/-- class_list.rs:25-27, `attr`: where the class attribute was found; a successful search updates the
remembered index. -/
def attr (cls : K) (c : CL K) : CL K × Option (Nat × List Str) :=
  match attrByMemo cls c with
  | some r => (c, some r)
  | none => match attrBySearch cls c.attrs 0 with
    | some (i, ts) => ({ c with memo := i }, some (i, ts))
    | none => (c, none)

/-- Writing through the reference returned by `attr`. -/
def put (cls : K) (c : CL K) (i : Nat) (ts : List Str) : CL K :=
  { c with attrs := c.attrs.set i (.typed cls (.tokens ts)) }

/-- class_list.rs:55-57, `length`. -/
def length (cls : K) (c : CL K) : Nat :=
  match (attr cls c).2 with
  | some (_, ts) => ts.length
  | none => 0

/-- class_list.rs:92-97, `contains`. -/
def contains (cls : K) (c : CL K) (t : Str) : CL K × Bool :=
  match attr cls c with
  | (c, some (_, ts)) => (c, ts.any (· == t))
  | (c, none) => (c, false)

/-- class_list.rs:73-87, `add`. -/
def add (T : Table K) (cls : K) (c : CL K) (t : Str) : CL K :=
  match contains cls c t with
  | (c, true) => c
  | (c, false) =>
    match attr cls c with
    | (c, none) => { c with attrs := (Attrs.set T c.attrs (.typed cls (.tokens [t]))).1 }
    | (c, some (i, ts)) => put cls c i (ts ++ [t])

/-- class_list.rs:131-140, `remove`. -/
def remove (cls : K) (c : CL K) (t : Str) : CL K :=
  match attr cls c with
  | (c, none) => c
  | (c, some (i, ts)) =>
    let c := put cls c i (ts.filter (· != t))
    if (ts.filter (· != t)).isEmpty then { c with attrs := (Attrs.remove c.attrs (.known cls)).1 } else c

/-- The first occurrence of `old` replaced, if there is one (class_list.rs:150-157). -/
def replaceFirst (old new : Str) : List Str → Option (List Str)
  | [] => none
  | x :: l => if x == old then some (new :: l) else (replaceFirst old new l).map (x :: ·)

/-- class_list.rs:146-159, `replace`. -/
def replace (cls : K) (c : CL K) (old new : Str) : CL K × Bool :=
  match attr cls c with
  | (c, none) => (c, false)
  | (c, some (i, ts)) => match replaceFirst old new ts with
    | none => (c, false)
    | some ts => (put cls c i ts, true)

/-- class_list.rs:165-173, `toggle`. -/
def toggle (T : Table K) (cls : K) (c : CL K) (t : Str) : CL K × Bool :=
  match contains cls c t with
  | (c, true) => (remove cls c t, false)
  | (c, false) => (add T cls c t, true)

/-- class_list.rs:176-183, `retain`. -/
def retain (cls : K) (c : CL K) (f : Str → Bool) : CL K :=
  match attr cls c with
  | (c, none) => c
  | (c, some (i, ts)) => put cls c i (ts.filter f)

end Verif.ClassList
