import Verif.IdGen.Model

/-!
# Model: cleaning up ids

`crates/oxvg_optimiser/src/jobs/cleanup_ids.rs`, with `visit_id` and `visit_url` of
`crates/oxvg_collections/src/content_type.rs`. The document is the list of all its attributes, element by element in
document order; an attribute is the ids and addresses that those two functions visit. Strings are lists of bytes, as in
`Verif.IdGen`. Percent-encoding (the crate `urlencoding`) and `char::is_numeric` are parameters. Simplified: an attribute
is found again by its position and not by its name (names are unique in an element), and the order in which the elements
are first gone through is a parameter.
-/

namespace Verif.CleanupIds

open Verif.IdGen

/-- What is outside of the model. -/
structure Env where
  encode : Str → Str
  decode : Str → Option Str
  numeric : Str → Bool

/-- cleanup_ids.rs:72-87, the options. -/
structure Options where
  remove : Bool
  minify : Bool
  preserve : List Str
  preservePrefixes : List Str
  force : Bool

/-- cleanup_ids.rs:89-99. -/
def Options.standard : Options := ⟨true, true, [], [], false⟩

inductive Kind where
  | url | id
deriving DecidableEq

/-- Something that `visit_url` or `visit_id` visits, with its text. -/
structure Ref where
  kind : Kind
  text : Str
deriving DecidableEq

/-- An attribute: whether it is `id`, and what it contains. -/
structure Attr where
  isId : Bool
  refs : List Ref
deriving DecidableEq

/-- The id in an `id` attribute. -/
def idOf (a : Attr) : Option Str := if a.isId then a.refs.head?.map (·.text) else none

/-- cleanup_ids.rs:318-328. -/
def preserved (o : Options) (id : Str) : Bool := o.preservePrefixes.any (·.isPrefixOf id) || o.preserve.contains id

/-- The ids found so far, those preserved, and the attributes dropped. -/
structure Found where
  replaceable : List Str
  kept : List Str
  gone : List Nat

def noFound : Found := ⟨[], [], []⟩

/-- cleanup_ids.rs:309-337: one id. -/
def findId (E : Env) (o : Options) (i : Nat) (s : Found) (id : Str) : Found :=
  if s.replaceable.contains id || E.numeric id then { s with gone := i :: s.gone }
  else if preserved o id then { s with kept := id :: s.kept }
  else { s with replaceable := id :: (if E.encode id ≠ id then E.encode id :: s.replaceable else s.replaceable) }

def findAttr (E : Env) (o : Options) (d : List Attr) (s : Found) (i : Nat) : Found :=
  match d[i]?.bind idOf with
  | none => s
  | some id => findId E o i s id

/-- cleanup_ids.rs:300-344, `prepare_id_rename`; `order` lists the attributes breadth first. -/
def find (E : Env) (o : Options) (order : List Nat) (d : List Attr) : Found := order.foldl (findAttr E o d) noFound

def keepAttrs (gone : List Nat) (d : List Attr) : List Attr :=
  (List.range d.length).filterMap fun i => if gone.contains i then none else d[i]?

/-- cleanup_ids.rs:160-170: the id that is referred to. -/
def target (E : Env) (r : Ref) : Option Str :=
  match r.kind, r.text with
  | .url, 35 :: t => some ((E.decode t).getD t)
  | .url, _ => none
  | .id, t => some t

/-- cleanup_ids.rs:145-156: references to be renamed, and the generator of new ids. -/
structure Tracked where
  renames : List (Nat × Str)
  gen : Gen

def track (R : List Str) (i : Nat) (s : Tracked) : Option Str → Option Tracked
  | none => some s
  | some t => if R.contains t then some { s with renames := s.renames ++ [(i, t)] }
    else (reserve t s.gen).map fun g => { s with gen := g }

def trackAll (R : List Str) (i : Nat) : List (Option Str) → Tracked → Option Tracked
  | [], s => some s
  | t :: l, s => (track R i s t).bind (trackAll R i l)

/-- `visit_url` comes first, then `visit_id`. -/
def visited (a : Attr) : List Ref := a.refs.filter (·.kind = .url) ++ a.refs.filter (·.kind = .id)

/-- cleanup_ids.rs:134-173, `element`, for all attributes from number `i` on. -/
def collect (E : Env) (R : List Str) : Nat → List Attr → Tracked → Option Tracked
  | _, [], s => some s
  | i, a :: l, s => (trackAll R i ((visited a).map (target E)) s).bind (collect E R (i + 1) l)

/-- cleanup_ids.rs:186-188: the state of renaming. -/
structure St where
  map : List (Str × Str)
  gen : Gen
  used : List Str

/-- cleanup_ids.rs:204-210, 235-238: whether the thing visited is the reference searched for. -/
def isRef (E : Env) (t : Str) (r : Ref) : Bool :=
  match r.kind, r.text with
  | .url, 35 :: u => u == t || E.decode u == some t
  | .url, _ => false
  | .id, u => u == t

def addUsed (isId : Bool) (m : Str) (st : St) : St := if isId then st else { st with used := m :: st.used }

/-- cleanup_ids.rs:211-223, 239-251: the new id of `t`. -/
def assign (isId : Bool) (t : Str) (st : St) : Option (St × Str) :=
  match st.map.lookup t with
  | some m => some (addUsed isId m st, m)
  | none => (take st.gen).map fun r => (addUsed isId r.1 { st with map := (t, r.1) :: st.map, gen := r.2 }, r.1)

/-- cleanup_ids.rs:228-232, 256-259. -/
def newText (k : Kind) (m : Str) : Str :=
  match k with
  | .url => 35 :: m
  | .id => m

def visitRef (E : Env) (o : Options) (isId : Bool) (t : Str) (k : Kind) (st : St) (r : Ref) : Option (St × Ref) :=
  if r.kind = k ∧ isRef E t r = true then
    (assign isId t st).map fun q => (q.1, if o.minify then { r with text := newText k q.2 } else r)
  else some (st, r)

def visitRefs (E : Env) (o : Options) (isId : Bool) (t : Str) (k : Kind) : List Ref → St → Option (St × List Ref)
  | [], st => some (st, [])
  | r :: l, st => (visitRef E o isId t k st r).bind fun q =>
    (visitRefs E o isId t k l q.1).map fun z => (z.1, q.2 :: z.2)

/-- cleanup_ids.rs:203-263: all that is visited in one attribute. -/
def visitAttr (E : Env) (o : Options) (t : Str) (a : Attr) (st : St) : Option (St × Attr) :=
  (visitRefs E o a.isId t .url a.refs st).bind fun q =>
    (visitRefs E o a.isId t .id q.2 q.1).map fun z => (z.1, { a with refs := z.2 })

/-- cleanup_ids.rs:190-263: one reference to be renamed. -/
def rename (E : Env) (o : Options) (R : List Str) (s : St × List Attr) (x : Nat × Str) : Option (St × List Attr) :=
  if R.contains x.2 then
    match s.2[x.1]? with
    | none => some s
    | some a => (visitAttr E o x.2 a s.1).map fun q => (q.1, s.2.set x.1 q.2)
  else some s

def renameAll (E : Env) (o : Options) (R : List Str) : List (Nat × Str) → St × List Attr → Option (St × List Attr)
  | [], s => some s
  | x :: l, s => (rename E o R s x).bind (renameAll E o R l)

def keepId (st : St) (a : Attr) : Bool :=
  match idOf a with
  | none => true
  | some id => st.used.contains id || st.gen.reserved.contains id

/-- cleanup_ids.rs:265-274. -/
def removeIds (o : Options) (s : St × List Attr) : List Attr := if o.remove then s.2.filter (keepId s.1) else s.2

/-- cleanup_ids.rs:118-122 with 175-276: the whole job. `none` would mean that no new id is found. -/
def job (E : Env) (o : Options) (order : List Nat) (d : List Attr) : Option (List Attr) :=
  let f := find E o order d
  let d1 := keepAttrs f.gone d
  (setReserved f.kept Gen.default).bind fun g =>
    (collect E f.replaceable 0 d1 ⟨[], g⟩).bind fun c =>
      (renameAll E o f.replaceable c.renames (⟨[], c.gen, []⟩, d1)).map (removeIds o)

/-- cleanup_ids.rs:107-117 with 280-295: the job leaves a document alone that has style sheets, scripts, or nothing but
definitions, unless forced. -/
def run (E : Env) (o : Options) (sheet script onlyDefs : Bool) (order : List Nat) (d : List Attr) : Option (List Attr) :=
  if !o.force && (sheet || script || onlyDefs) then some d else job E o order d

end Verif.CleanupIds
