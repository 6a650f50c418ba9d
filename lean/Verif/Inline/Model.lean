import Verif.Names.Model

/-!
# Model: inlining style rules

`crates/oxvg_optimiser/src/jobs/inline_styles.rs`.

`V` are the values of properties and attributes, `Q` the conditions of at-rules, `R` what else a style sheet can contain. The document is
the list of its elements in the order in which they are left; how they are nested is known to the selector engine only, which is a
parameter. An element that is removed is marked instead, so selectors that ask for siblings do not notice that a style element is gone.
Minifying (utils/minify_style.rs) is left out, except that it removes rules without selectors and at-rules without rules.
-/

namespace Verif.Inline

open Verif.Names

/-- inline_styles.rs:140-159, `Token`. The value of an attribute selector, its operator and its case are one number. -/
inductive Token where
  | cls (s : Str)
  | id (s : Str)
  | attr (name : Str) (test : Option Nat)
  | name (s : Str)
  | other (text : Str) (preserved : Bool)
  deriving DecidableEq

/-- lightningcss `Selector`: the tokens behind the last combinator, the sequences in front of it, whether there is a pseudo-element, and
the specificity. -/
structure Sel where
  tail : List Token
  heads : List (List Token)
  pseudo : Bool
  spec : Nat
  deriving DecidableEq

/-- lightningcss `DeclarationBlock`. -/
structure Block (V : Type) where
  normal : List (Str × V)
  important : List (Str × V)
  deriving DecidableEq

/-- lightningcss `CssRule`: a style rule without nested rules; one with nested rules, with all selectors in it; an at-rule with a
condition, with the text that is compared with the option `use_mqs` (inline_styles.rs:589-621); another rule. -/
inductive Rule (V Q R : Type) where
  | style (sels : List Sel) (block : Block V)
  | nest (sels : List Sel) (r : R)
  | group (text : Str) (cond : Q) (rules : List (Rule V Q R))
  | other (r : R)

/-- The `style` attribute; one the parser does not read is kept as text. -/
inductive Style (V : Type) where
  | absent
  | block (b : Block V)
  | raw (n : Nat)
  deriving DecidableEq

/-- An element. `attrs` are its attributes without a prefix, except `id`, `class` and `style`; `classes` is empty if there is no class
attribute; `refs` are the ids its attributes refer to (inline_styles.rs:248-262, `visit_id` and `visit_url`). -/
structure Elem (V Q R : Type) where
  key : Nat
  name : Str
  foreign : Bool
  id : Option Str
  classes : List Str
  style : Style V
  attrs : List (Str × V)
  refs : List Str
  typ : Option Str
  media : Option Q
  sheet : Option (List (Rule V Q R))
  gone : Bool

variable {V Q R : Type}

/-- inline_styles.rs:69-83, `InlineStyles`. `remove_matched_selectors` is never read. -/
structure Opts where
  once : Bool
  mqs : List Str
  pseudos : List Str

/-- inline_styles.rs:216-225 and 705-716. -/
def Opts.usual : Opts := ⟨true, [[], lit "screen"], [[]]⟩

/-- The attributes a selector can ask for. -/
inductive Value (V : Type) where
  | val (v : V)
  | classes (cs : List Str)
  | id (s : Str)
  | style (s : Style V)

/-- element.rs:240-245, `get_attribute_local`. -/
def lookup (e : Elem V Q R) (n : Str) : Option (Value V) :=
  if n = lit "class" then (if e.classes.isEmpty then none else some (.classes e.classes))
  else if n = lit "id" then e.id.map .id
  else if n = lit "style" then (match e.style with | .absent => none | s => some (.style s))
  else (e.attrs.find? fun a => a.1 = n).map fun a => .val a.2

/-- inline_styles.rs:38-43, `RemovedToken`. -/
structure Taken (V : Type) where
  key : Nat
  tokens : List Token
  spec : Nat
  block : Block V

/-- inline_styles.rs:99-105, `FindRemovableTokens`. -/
structure State (V : Type) where
  dyn : List Token
  taken : List (Taken V)

/-! ## The first pass -/

/-- inline_styles.rs:642-661, `visit_selector`. -/
def selDyn (media : Bool) (s : Sel) : List Token := (if media then s.tail else []) ++ s.heads.flatten

mutual
/-- inline_styles.rs:635-662, `FindDynamicTokens`. -/
def dynOf (media : Bool) : Rule V Q R → List Token
  | .style sels _ => sels.flatMap (selDyn media)
  | .nest sels _ => sels.flatMap (selDyn media)
  | .group _ _ rs => dynOfAll media rs
  | .other _ => []
def dynOfAll (media : Bool) : List (Rule V Q R) → List Token
  | [] => []
  | r :: rs => dynOf media r ++ dynOfAll media rs
end

/-- inline_styles.rs:582-632, `FindRemovableTokens::visit_rule`. -/
def firstPass (o : Opts) : Rule V Q R → List Token
  | .group text _ rs => if o.mqs.contains text then [] else dynOfAll true rs
  | r => dynOf false r

/-! ## The second pass -/

/-- inline_styles.rs:456-493: whether a token of a selector holds for an element. `test` evaluates the operator of an attribute
selector. -/
def counts (test : Nat → Value V → Bool) (o : Opts) (e : Elem V Q R) : Token → Bool
  | .cls c => e.classes.contains c
  | .id i => e.id == some i
  | .attr n none => (lookup e n).isSome
  | .attr n (some t) => (lookup e n).any (test t)
  | .name n => e.name == n
  | .other text preserved => preserved || o.pseudos.contains text

/-- inline_styles.rs:436-451: the pseudo-classes of a selector that are not preserved, joined. -/
def pseudoText (ts : List Token) : Str := ts.flatMap fun
  | .other text false => if text.head? = some 58 then text else []
  | _ => []

/-- inline_styles.rs:420-503, `is_selector_removable`. -/
def removable (test : Nat → Value V → Bool) (o : Opts) (doc : List (Elem V Q R)) (s : Sel) (ks : List Nat) : Option (List Token) :=
  if s.pseudo then some []
  else if !s.heads.isEmpty then none
  else if !(o.pseudos.head? == some (lit "*")) && !o.pseudos.contains (pseudoText s.tail) then none
  else
    let n := (doc.filter fun e => ks.contains e.key && s.tail.all (counts test o e)).length
    if (if o.once then n == 1 else decide (0 < n)) then some s.tail else none

/-- What the selector engine finds: the keys of the elements that match a selector without the pseudo-classes that the options allow
(inline_styles.rs:403-418, `strip_allowed_pseudos`), or nothing if it cannot read it. -/
abbrev Engine := Sel → Option (List Nat)

/-- inline_styles.rs:525-565: whether a selector of a rule stays. -/
def collectSel (test : Nat → Value V → Bool) (eng : Engine) (o : Opts) (doc : List (Elem V Q R)) (b : Block V) (st : State V) (s : Sel) :
    Bool × State V :=
  if s.tail.any st.dyn.contains then (true, { st with dyn := st.dyn ++ s.tail ++ s.heads.flatten })
  else match eng s with
    | none => (true, st)
    | some ks => match removable test o doc s ks with
      | none => (true, st)
      | some ts => (false, { st with taken := st.taken ++ ks.map fun k => ⟨k, ts, s.spec, b⟩ })

/-- `retain`. -/
def collectSels (test : Nat → Value V → Bool) (eng : Engine) (o : Opts) (doc : List (Elem V Q R)) (b : Block V) :
    State V → List Sel → List Sel × State V
  | st, [] => ([], st)
  | st, s :: ss =>
    let r := collectSel test eng o doc b st s
    let rs := collectSels test eng o doc b r.2 ss
    (if r.1 then s :: rs.1 else rs.1, rs.2)

mutual
/-- inline_styles.rs:513-572, `CollectMatchingSelectors::visit_rule`. -/
def collect (test : Nat → Value V → Bool) (eng : Engine) (o : Opts) (doc : List (Elem V Q R)) (st : State V) :
    Rule V Q R → Rule V Q R × State V
  | .style sels b =>
    let r := collectSels test eng o doc b st sels
    (.style r.1 (if r.1.isEmpty then ⟨[], []⟩ else b), r.2)
  | .group text c rs =>
    let r := collectAll test eng o doc st rs
    (.group text c r.1, r.2)
  | r => (r, st)
def collectAll (test : Nat → Value V → Bool) (eng : Engine) (o : Opts) (doc : List (Elem V Q R)) (st : State V) :
    List (Rule V Q R) → List (Rule V Q R) × State V
  | [] => ([], st)
  | r :: rs =>
    let a := collect test eng o doc st r
    let b := collectAll test eng o doc a.2 rs
    (a.1 :: b.1, b.2)
end

mutual
/-- What minifying removes (utils/minify_style.rs:19-25). -/
def tidy : Rule V Q R → List (Rule V Q R)
  | .style sels b => if sels.isEmpty then [] else [.style sels b]
  | .group text c rs => if (tidyAll rs).isEmpty then [] else [.group text c (tidyAll rs)]
  | r => [r]
def tidyAll : List (Rule V Q R) → List (Rule V Q R)
  | [] => []
  | r :: rs => tidy r ++ tidyAll rs
end

/-- inline_styles.rs:384-399, `inline_rules`. -/
def inlineRules (test : Nat → Value V → Bool) (eng : Engine) (o : Opts) (doc : List (Elem V Q R)) (rs : List (Rule V Q R)) :
    List (Rule V Q R) × State V :=
  collectAll test eng o doc ⟨rs.flatMap (firstPass o), []⟩ rs

/-- inline_styles.rs:263-283: the rules of a style element that the job looks at. -/
def rulesOf (e : Elem V Q R) : Option (List (Rule V Q R)) :=
  if e.name = lit "style" ∧ (∀ t, e.typ = some t → t = [] ∨ t = lit "text/css") ∧ e.foreign = false then e.sheet else none

/-- inline_styles.rs:284-302. -/
def exitStyle (test : Nat → Value V → Bool) (eng : Engine) (o : Opts) (doc : List (Elem V Q R)) (e : Elem V Q R) : Elem V Q R × State V :=
  match rulesOf e with
  | none => (e, ⟨[], []⟩)
  | some rs =>
    let r := inlineRules test eng o doc rs
    let rs := tidyAll r.1
    ({ e with sheet := some rs, gone := e.gone || rs.isEmpty }, r.2)

/-- inline_styles.rs:243-303, `exit_element`, of all elements. Every style element begins with no dynamic tokens of its own. -/
def exitAll (test : Nat → Value V → Bool) (eng : Engine) (o : Opts) (doc : List (Elem V Q R)) : List (Elem V Q R) → List (Elem V Q R) × State V
  | [] => ([], ⟨[], []⟩)
  | e :: es =>
    let a := exitStyle test eng o doc e
    let b := exitAll test eng o doc es
    (a.1 :: b.1, ⟨a.2.dyn ++ b.2.dyn, a.2.taken ++ b.2.taken⟩)

/-! ## The end of the document -/

/-- `sort_by_key`: a stable sort by specificity. -/
def insert (x : Taken V) : List (Taken V) → List (Taken V)
  | [] => [x]
  | y :: l => if y.spec ≤ x.spec then y :: insert x l else x :: y :: l
def sort (l : List (Taken V)) : List (Taken V) := l.foldl (fun acc x => insert x acc) []

/-- inline_styles.rs:671-691, `InlinePresentationAttributes::visit_property`, of all properties of a block. -/
def dropAttrs (dyn : List Token) (b : Block V) (attrs : List (Str × V)) : List (Str × V) :=
  attrs.filter fun a => !((b.normal ++ b.important).any fun d => d.1 = a.1) ||
    dyn.any fun | .attr n _ => n = a.1 | _ => false

/-- inline_styles.rs:350-368. -/
def dropToken (dyn : List Token) (refs : List Str) (e : Elem V Q R) (t : Token) : Elem V Q R :=
  if dyn.contains t then e else
  match t with
  | .cls c => { e with classes := e.classes.filter (· ≠ c) }
  | .id i => if refs.contains i then e else { e with id := none }
  | _ => e

/-- inline_styles.rs:318-348: the new `style` attribute. A `style` attribute that is not read is removed and gives nothing
(attribute.rs (ast):116-130). -/
def newStyle (group : List (Taken V)) (s : Style V) : Block V :=
  let old := match s with | .block b => b | _ => ⟨[], []⟩
  ⟨(group.flatMap fun t => t.block.normal) ++ old.normal, (group.flatMap fun t => t.block.important) ++ old.important⟩

/-- inline_styles.rs:306-372, `exit_document`, of one element: each has a group of its own. -/
def finish (st : State V) (refs : List Str) (e : Elem V Q R) : Elem V Q R :=
  let group := st.taken.filter fun t => t.key = e.key
  if group.isEmpty then e else
  let group := sort group
  let b := newStyle group e.style
  let e := { e with
    style := if b.normal.isEmpty && b.important.isEmpty then .absent else .block b
    attrs := dropAttrs st.dyn b e.attrs }
  (group.flatMap (·.tokens)).foldl (dropToken st.dyn refs) e

/-- inline_styles.rs:227-373: the whole job. -/
def job (test : Nat → Value V → Bool) (eng : Engine) (o : Opts) (doc : List (Elem V Q R)) : List (Elem V Q R) :=
  let r := exitAll test eng o doc doc
  r.1.map (finish r.2 (doc.flatMap (·.refs)))

end Verif.Inline
