/-!
# Model of the id generator of `cleanup_ids`

Models `crates/oxvg_optimiser/src/jobs/cleanup_ids.rs` lines 25-29 and 347-407.

Strings are lists of byte values (`Nat`); the generator only ever holds ASCII letters, so a `char`
and its `u8` truncation coincide. The `BTreeSet` of reserved ids is a list used only through
membership.
-/

namespace Verif.IdGen

/-- An id as the list of its bytes. -/
abbrev Str := List Nat

/-- The closure body of lines 372-385: processes one character, given whether an increment is
pending (`increment_next`), giving the new character and the new `increment_next`. -/
def bump (b : Nat) (inc : Bool) : Nat × Bool :=
  let b' := if inc then b + 1 else b
  if 90 < b' ∧ b' < 97 then (97, true)
  else if 122 < b' then (65, false)
  else (b', false)

/-- The `.rev().map(..)` of lines 368-385, over the already reversed characters. -/
def bumpAll : Bool → Str → Str × Bool
  | inc, [] => ([], inc)
  | inc, b :: bs =>
    let r := bump b inc
    let rest := bumpAll r.2 bs
    (r.1 :: rest.1, rest.2)

/-- Lines 367-390: the raw successor, before looking at the reserved ids. -/
def succ (cur : Str) : Str :=
  let r := bumpAll true cur.reverse
  if r.2 then 97 :: r.1.reverse else r.1.reverse

/-- The generator (lines 25-29). -/
structure Gen where
  current : Str
  reserved : List Str
deriving Repr, DecidableEq

/-- `Default` (lines 400-407). -/
def Gen.default : Gen := { current := [97], reserved := [] }

/-- `Iterator::next` (lines 366-397). The recursion on a collision is unbounded in the code; here it
has fuel, and `none` means that the fuel ran out. -/
def next : Nat → Gen → Option (Str × Gen)
  | 0, _ => none
  | fuel + 1, g =>
    let s := succ g.current
    let g' := { g with current := s }
    if s ∈ g.reserved then next fuel g' else some (s, g')

/-- Fuel which theorem `next_terminates` shows to be always sufficient. -/
def Gen.fuel (g : Gen) : Nat := g.reserved.length + 1

/-- `insert_prevent_collision` (lines 355-360). -/
def reserve (id : Str) (g : Gen) : Option Gen :=
  let g' := { g with reserved := id :: g.reserved }
  if g'.current ∈ g'.reserved then (next g'.fuel g').map (·.2) else some g'

/-- `set_prevent_collision` (lines 348-353). -/
def setReserved (ids : List Str) (g : Gen) : Option Gen :=
  let g' := { g with reserved := ids }
  if g'.current ∈ g'.reserved then (next g'.fuel g').map (·.2) else some g'

/-- What `exit_document` does for each id seen for the first time (lines 211-220): it uses
`current` and then calls `next`. -/
def take (g : Gen) : Option (Str × Gen) :=
  (next g.fuel g).map fun r => (g.current, r.2)

end Verif.IdGen
