import Verif.Tree.Lemmas

/-!
# Model: removal of unused namespace declarations

`crates/oxvg_optimiser/src/jobs/remove_unused_n_s.rs`.

The set of URIs is a list; only membership is used.
-/

namespace Verif.UnusedNs

open Verif.Tree Verif.Names

variable {K : Type}

/-- The pattern `Attr::Unparsed { attr_id: AttrId::Unknown(QualName { prefix: Prefix::XMLNS, .. }), value }`
of remove_unused_n_s.rs:122-129 and 143-150. -/
def declared : Attr K Str → Option Str
  | .unparsed (.unknown p _) v => if p = .std .xmlns then some v else none
  | _ => none

/-- remove_unused_n_s.rs:111-134, `root_element`. -/
def rootElement : Node (Attr K Str) → List Str
  | .elem n as _ => if n.is "svg" then as.filterMap declared else []
  | _ => []

/-- remove_unused_n_s.rs:68-79, `document`. -/
def collect (doc : List (Node (Attr K Str))) : List Str := doc.flatMap rootElement

/-- remove_unused_n_s.rs:91-94 and 97-100: a name with a prefix takes its namespace out of the set. -/
def markName (p : Prefix) (s : List Str) : List Str :=
  if p.isEmpty then s else s.filter (· != p.ns.uri)

/-- remove_unused_n_s.rs:96-101, the loop over the attributes. -/
def markAttrs (T : Table K) : List (Attr K Str) → List Str → List Str
  | [], s => s
  | a :: as, s => markAttrs T as (markName (a.prefix' T) s)

/-- remove_unused_n_s.rs:81-105, `element`. -/
def markElement (T : Table K) (n : EName) (as : List (Attr K Str)) (s : List Str) : List Str :=
  if s.isEmpty then [] else markAttrs T as (markName n.pre s)

mutual
/-- visitor.rs:312-377 with `element` above. -/
def mark (T : Table K) (s : List Str) : Node (Attr K Str) → List Str
  | .elem n as ks => markAll T (markElement T n as s) ks
  | .text _ => s
  | .css _ => s
  | .comment _ => s
  | .pi _ _ => s
def markAll (T : Table K) (s : List Str) : List (Node (Attr K Str)) → List Str
  | [] => s
  | n :: ns => markAll T (mark T s n) ns
end

/-- remove_unused_n_s.rs:142-154, the closure of `retain`. -/
def retained (unused : List Str) (a : Attr K Str) : Bool :=
  match declared a with
  | none => true
  | some v => !unused.contains v

/-- remove_unused_n_s.rs:136-156, `exit_root_element`. -/
def exitRoot (unused : List Str) : Node (Attr K Str) → Node (Attr K Str)
  | .elem n as ks => if n.is "svg" then .elem n (as.filter (retained unused)) ks else .elem n as ks
  | n => n

/-- remove_unused_n_s.rs:46-60 with `State`: `document`, the elements, `exit_document` (107-118). -/
def removeUnused (T : Table K) (on : Bool) (doc : List (Node (Attr K Str))) : List (Node (Attr K Str)) :=
  if on then doc.map (exitRoot (markAll T (collect doc) doc)) else doc

end Verif.UnusedNs
