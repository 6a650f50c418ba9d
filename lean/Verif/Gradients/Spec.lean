import Verif.Gradients.Model

/-! # C75: what a paint looks like -/

namespace Verif.Gradients

open Verif.Names (Str)

variable {C V S : Type}

/-- A gradient of a document: its number, its `id`, its template (`href` before `xlink:href`), its own stops. -/
structure Server (V : Type) where
  h : Nat
  id : Option Str
  link : Option Str
  stops : List V
  deriving DecidableEq

/-- The stops among nodes. -/
def stopsOf : List (Node C V) → List V
  | [] => []
  | .elem _ .stop e _ :: ns => e.rest :: stopsOf ns
  | _ :: ns => stopsOf ns

/-- The gradients of a document. -/
def servers : List (Node C V) → List (Server V)
  | [] => []
  | .leaf _ _ :: ns => servers ns
  | .elem h k e ks :: ns => (if k = .gradient then [⟨h, e.id, e.href.or e.xlink, stopsOf ks⟩] else []) ++ (servers ks ++ servers ns)

/-- The stops of a gradient: its own, else those of its template. -/
inductive Stops (G : List (Server V)) : Server V → List V → Prop
  | own {s : Server V} : s.stops ≠ [] → Stops G s s.stops
  | via {s t : Server V} {i : Str} {l : List V} : s.stops = [] → s.link = some (35 :: i) → t ∈ G → t.id = some i → Stops G t l → Stops G s l
  | bare {s : Server V} : s.stops = [] → (∀ i, s.link = some (35 :: i) → ∀ t ∈ G, t.id ≠ some i) → Stops G s []

/-- What a paint looks like. -/
inductive Seen (V S : Type) where
  | solid (s : S)
  | nothing
  | gradient (l : List V)
  | fallback (f : Option V)
  | outside (u : Str) (f : Option V)
  | rest (v : V)

/-- What a paint looks like if these are the gradients; `plain`: what a colour looks like, `look`: what a stop looks like. -/
inductive Sees (plain : C → S) (look : V → S) (G : List (Server V)) : Paint C V → Seen V S → Prop
  | color (c : C) : Sees plain look G (.color c) (.solid (plain c))
  | rest (v : V) : Sees plain look G (.rest v) (.rest v)
  | outside {u : Str} (f : Option V) : (∀ i, u ≠ 35 :: i) → Sees plain look G (.url u f) (.outside u f)
  | missing {i : Str} (f : Option V) : (∀ t ∈ G, t.id ≠ some i) → Sees plain look G (.url (35 :: i) f) (.fallback f)
  | nothing {i : Str} {t : Server V} (f : Option V) : t ∈ G → t.id = some i → Stops G t [] → Sees plain look G (.url (35 :: i) f) .nothing
  | solid {i : Str} {t : Server V} {v : V} (f : Option V) : t ∈ G → t.id = some i → Stops G t [v] → Sees plain look G (.url (35 :: i) f) (.solid (look v))
  | gradient {i : Str} {t : Server V} {v w : V} {l : List V} (f : Option V) : t ∈ G → t.id = some i → Stops G t (v :: w :: l) →
      Sees plain look G (.url (35 :: i) f) (.gradient (v :: w :: l))

/-- The numbers and paints of all elements other than gradients, their content, and `defs`. -/
def lasting : List (Node C V) → List (Nat × List (Paint C V))
  | [] => []
  | .leaf _ _ :: ns => lasting ns
  | .elem h k e ks :: ns =>
    (match k with
      | .gradient => []
      | .defs => lasting ks
      | _ => (h, e.paints) :: lasting ks) ++ lasting ns

/-- The numbers and kinds of all elements. -/
def tags : List (Node C V) → List (Nat × Kind)
  | [] => []
  | .leaf _ _ :: ns => tags ns
  | .elem h k _ ks :: ns => (h, k) :: (tags ks ++ tags ns)

end Verif.Gradients
