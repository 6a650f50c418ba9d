import Verif.Arena.Props
import Verif.Number.Model

/-!
# Model: renumbering the nodes while some are selected

Source: `crates/oxvg_actions/src/effects.rs` 80-95 (`effect_tree`) on the arena of
`crates/oxvg_ast/src/arena.rs` (`Verif.Arena`).
-/

namespace Verif.Actions

open Verif.Dom Verif.Arena Verif.Number

/-- `i as usize` on an `i32` (64-bit targets): negative numbers become large. -/
def asUsize (i : Int) : Nat := (i % 2 ^ 64).toNat

/-- `effects.rs` 86-91: the selected nodes; ids that name no node are dropped. The error is the assertion in
`Allocator::get`. -/
def selectedNodes (s : Store) (indices : List Handle) : List Int → Except Unit (List Handle)
  | [] => .ok []
  | i :: is => match get s indices (asUsize i), selectedNodes s indices is with
    | .ok (some a), .ok as => .ok (a :: as)
    | .ok none, .ok as => .ok as
    | _, _ => .error ()

/-- `effects.rs` 86-94: look up the nodes, renumber, and take their new ids. The first error is the assertion, the
second is the recursion running out of fuel. -/
def renumber (fuel : Nat) (s : Store) (indices : List Handle) (root : Handle) (ids : List Int) :
    Except Bool (Store × List Handle × List Int) :=
  match selectedNodes s indices ids with
  | .error _ => .error true
  | .ok nodes => match reorder fuel s indices root with
    | none => .error false
    | some (s', indices', _) => .ok (s', indices', nodes.map fun n => asI32 (s'.heap.id n))

/-- `effects.rs` 80-95 (`effect_tree`), the list of ids being absent if there is no selection. -/
def effectTree (fuel : Nat) (s : Store) (indices : List Handle) (root : Handle) :
    Option (List Int) → Except Bool (Store × List Handle × Option (List Int))
  | none => match reorder fuel s indices root with
    | none => .error false
    | some (s', indices', _) => .ok (s', indices', none)
  | some ids => match renumber fuel s indices root ids with
    | .error e => .error e
    | .ok (s', indices', ids') => .ok (s', indices', some ids')

end Verif.Actions
