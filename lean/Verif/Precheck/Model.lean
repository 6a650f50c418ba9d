import Verif.Scripts.Model

/-!
# Model: the job `precheck`

`crates/oxvg_optimiser/src/jobs/precheck.rs`. Documents are those of `Scripts`.
-/

namespace Verif.Precheck

open Verif.Scripts (Space Name AttrSpace Attr Node isEvent)

variable {V : Type}

/-- error.rs:9-18, `PrecheckError`. -/
inductive Err where
  | scripting
  | animation
  | conditional
  | xlink (u : List Nat)
  deriving DecidableEq

/-- precheck.rs:29-38, `Precheck`. -/
structure Options where
  failFast : Bool
  precleanChecks : Bool

/-- precheck.rs:40-47, 143-149, `Default`. -/
def standard : Options := ⟨true, false⟩

/-- precheck.rs:74-88, `check_for_unsupported_elements`. -/
def checkElement (n : Name) : Option Err :=
  if n = ⟨.svg, "script"⟩ then some .scripting
  else if n.space = .svg && ["animate", "animateColor", "animateMotion", "animateTransform", "set"].contains n.loc then some .animation
  else none

/-- precheck.rs:90-104, `check_for_script_attributes`. -/
def checkEvents (as : List Attr) : Option Err := if as.any isEvent then some .scripting else none

/-- attribute.rs (collections):1681-1688, 1818-1821, the attributes of the group `ConditionalProcessing`. -/
def isConditional (a : Attr) : Bool := a.space == .plain && ["requiredExtensions", "requiredFeatures", "systemLanguage"].contains a.name

/-- precheck.rs:106-121, `check_for_conditional_attributes`. -/
def checkConditional (as : List Attr) : Option Err := if as.any fun a => isConditional a && !a.value.isEmpty then some .conditional else none

/-- precheck.rs:123-140, `check_for_external_xlink`. -/
def checkXlink (n : Name) (as : List Attr) : Option Err :=
  if n.space = .svg && ["a", "image", "font-face-uri", "feImage"].contains n.loc then none
  else (as.find? fun a => a.space == .xlink && a.name == "href").map fun a => .xlink a.value

/-- precheck.rs:67-72, `check`. -/
def check (n : Name) (as : List Attr) : Option Err :=
  (checkElement n).or ((checkEvents as).or ((checkConditional as).or (checkXlink n as)))

mutual
/-- visitor.rs:312-349 with precheck.rs:52-62: the first error ends the walk. -/
def visit (o : Options) : Node V → Option Err
  | .text _ => none
  | .leaf _ => none
  | .elem n as ks => (if o.precleanChecks then check n as else none).or (visitAll o ks)
/-- visitor.rs:355-377. -/
def visitAll (o : Options) : List (Node V) → Option Err
  | [] => none
  | k :: ks => (visit o k).or (visitAll o ks)
end

/-- The job: an error, or the document. -/
def run (o : Options) (doc : List (Node V)) : Except Err (List (Node V)) :=
  match visitAll o doc with
  | some e => .error e
  | none => .ok doc

end Verif.Precheck
