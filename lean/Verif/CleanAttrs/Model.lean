import Verif.Names.Model

/-!
# Model: cleaning up the whitespace of attributes

`crates/oxvg_optimiser/src/jobs/cleanup_attrs.rs`. Strings are lists of code points.
-/

namespace Verif.CleanAttrs

abbrev Text := List Nat

/-- Rust's `char::is_whitespace`: the property `White_Space` of Unicode. -/
def white (c : Nat) : Bool :=
  (9 ≤ c && c ≤ 13) || c == 0x20 || c == 0x85 || c == 0xa0 || c == 0x1680 || (0x2000 ≤ c && c ≤ 0x200a) || c == 0x2028 || c == 0x2029 ||
    c == 0x202f || c == 0x205f || c == 0x3000

/-- cleanup_attrs.rs:39-49. -/
structure Options where
  newlines : Bool
  trim : Bool
  spaces : Bool

/-- Rust's `str::replace('\n', " ")`. -/
def replaceNewlines (v : Text) : Text := v.map fun c => if c = 10 then 32 else c

/-- Rust's `str::trim`. -/
def trim (v : Text) : Text := ((v.dropWhile white).reverse.dropWhile white).reverse

/-- Rust's `str::split`, the loop of `split_whitespace` before empty parts are dropped; `cur` is the part that is read, reversed. -/
def split (cur : Text) : Text → List Text
  | [] => [cur.reverse]
  | c :: v => if white c then cur.reverse :: split [] v else split (c :: cur) v

/-- Rust's `str::split_whitespace`. -/
def splitWhitespace (v : Text) : List Text := (split [] v).filter fun w => !w.isEmpty

/-- itertools' `join(" ")`. -/
def join : List Text → Text
  | [] => []
  | [w] => w
  | w :: ws => w ++ 32 :: join ws

/-- cleanup_attrs.rs:62-70. -/
def clean (o : Options) (v : Text) : Text :=
  let v := if o.newlines then replaceNewlines v else v
  let v := if o.trim then trim v else v
  if o.spaces then join (splitWhitespace v) else v

/-- An attribute: `some v` is one whose content is `ContentType::Anything` (attribute.rs (collections):469-474: attributes that are not known or do not
parse, event attributes, `unicode`, `result` and others); `typed` is what others hold. -/
structure Attr (T : Type) where
  name : Names.Str
  text : Option Text
  typed : T

/-- A node. -/
inductive Node (T A : Type) where
  | leaf (a : A)
  | elem (name : Names.Str) (attrs : List (Attr T)) (kids : List (Node T A))

variable {T A : Type}

/-- cleanup_attrs.rs:58-71, one attribute. -/
def cleanAttr (o : Options) (a : Attr T) : Attr T := { a with text := a.text.map (clean o) }

mutual
/-- cleanup_attrs.rs:51-74, `element`, over the whole tree. -/
def job (o : Options) : Node T A → Node T A
  | .leaf a => .leaf a
  | .elem n as ks => .elem n (as.map (cleanAttr o)) (jobAll o ks)
def jobAll (o : Options) : List (Node T A) → List (Node T A)
  | [] => []
  | k :: l => job o k :: jobAll o l
end

end Verif.CleanAttrs
