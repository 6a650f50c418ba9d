import Verif.Names.Model

/-!
# Model: walking over files and writing results

`crates/oxvg/src/walk.rs`, and how `crates/oxvg/src/commands/{optimise,format}.rs` use it.

Paths are lists of components. A file system says what is at each path. The crate `ignore` that walks over directories is modelled as a scheduler: it may hand out, to any
number of threads and in any order, each file below the given path that exists when it looks, once; it must hand out those that were there all the time. Reading a file and writing the
result are separate steps, between which other threads may do theirs.
-/

namespace Verif.Walk

open Verif.Names (Str lit)

abbrev Path := List Str
abbrev Bytes := List Nat

/-- What is at a path. -/
inductive Item where
  | file (b : Bytes)
  | dir
deriving DecidableEq, Repr

abbrev FS := Path → Option Item

/-- walk.rs 19-49, the options of `Walk` that matter here. `filtered` stands for `hidden`, `git_ignore` and `ignore` of the walker (walk.rs 145-147): the paths it leaves out. -/
structure Options where
  paths : List Path
  output : Option (List Path)
  recursive : Bool
  filtered : Path → Bool

/-- optimise.rs 67-105 and format.rs 46-75, what the closure does with the text of a file, without its writing: parsing or a job fails (`fails`), or the document is serialised (`writes`), or serialising fails after some bytes
(`breaks`). -/
inductive Result where
  | fails
  | writes (b : Bytes)
  | breaks (b : Bytes)
deriving DecidableEq, Repr

/-- `Path::extension` is `svg`: the last component ends in `.svg` and has something before. -/
def isSvg (p : Path) : Bool := match p.getLast? with
  | some n => (lit ".svg").isSuffixOf n && decide (n.length > 4)
  | none => false

/-- walk.rs 128-140, `output_path`. The outer `none` is the error of `strip_prefix`. -/
def dest (o : Options) (root p : Path) : Option (Option Path) :=
  match o.output.bind List.head? with
  | none => some none
  | some out => if root <+: p then some (some (if p.drop root.length = [] then out else out ++ p.drop root.length)) else none

/-- `std::fs::create_dir_all` of the parent and `File::create`: fails if an ancestor is a file or the path a directory. -/
def creatable (fs : FS) (p : Path) : Bool := ((List.range p.length).all fun i => match fs (p.take i) with | some (.file _) => false | _ => true) &&
  (match fs p with | some .dir => false | _ => true)

/-- The file system with the file and its parents. -/
def put (fs : FS) (p : Path) (b : Bytes) : FS := fun q =>
  if q = p then some (.file b)
  else if q <+: p ∧ fs q = none then some .dir
  else fs q

/-- walk.rs 63-72 and 88-90, `Output::output` for a file: nothing on the disk changes if there is no destination. The file is created, and so emptied, before the document is serialised into it. -/
def emit (fs : FS) (d : Option Path) (r : Result) : FS :=
  match d, r with
  | some q, .writes b => if creatable fs q then put fs q b else fs
  | some q, .breaks b => if creatable fs q then put fs q b else fs
  | _, _ => fs

/-- walk.rs 141-149: whether the walker looks at a path at all: the given path itself, its children, and with `recursive` everything below. -/
def inScope (o : Options) (root p : Path) : Bool :=
  decide (root <+: p) && (o.recursive || decide (p.length ≤ root.length + 1)) && (p == root || !o.filtered p)

/-- The disk, what threads have read and not yet written, and what has been handed out. -/
structure State where
  fs : FS
  held : List (Path × Bytes)
  seen : List Path

/-- walk.rs 150-173, one thread does something. -/
inductive Step (o : Options) (work : Path → Bytes → Result) (root : Path) : State → State → Prop
  /-- walk.rs 153-170: the walker hands out a file and it is read. -/
  | read {s : State} {p : Path} {b : Bytes} : p ∉ s.seen → inScope o root p = true → isSvg p = true → s.fs p = some (.file b) →
      Step o work root s ⟨s.fs, (p, b) :: s.held, p :: s.seen⟩
  /-- walk.rs 171: the closure runs. -/
  | write {s : State} {l r : List (Path × Bytes)} {p : Path} {b : Bytes} {d : Option Path} : s.held = l ++ (p, b) :: r → dest o root p = some d →
      Step o work root s ⟨emit s.fs d (work p b), l ++ r, s.seen⟩

inductive Steps (o : Options) (work : Path → Bytes → Result) (root : Path) : State → State → Prop
  | refl (s : State) : Steps o work root s s
  | tail {s t u : State} : Steps o work root s t → Step o work root t u → Steps o work root s u

/-- walk.rs 127-175, `handle_path`: a walk that ended. Every file that was there at the start and stayed was handed out. -/
def Walked (o : Options) (work : Path → Bytes → Result) (root : Path) (fs fs' : FS) : Prop :=
  ∃ s : State, Steps o work root ⟨fs, [], []⟩ s ∧ s.fs = fs' ∧ s.held = [] ∧
    ∀ p b, inScope o root p = true → isSvg p = true → fs p = some (.file b) → p ∈ s.seen

/-- walk.rs 111-115: one path after the other. -/
inductive WalkedAll (o : Options) (work : Path → Bytes → Result) : List Path → FS → FS → Prop
  | nil (fs : FS) : WalkedAll o work [] fs fs
  | cons {p : Path} {ps : List Path} {fs fs' fs'' : FS} : Walked o work p fs fs' → WalkedAll o work ps fs' fs'' → WalkedAll o work (p :: ps) fs fs''

/-- What a run does. -/
inductive Outcome where
  | stdin (d : Option Path)
  | error
  | walk (ps : List Path)
deriving DecidableEq, Repr

/-- walk.rs 97-116 and 118-126, `Walk::run` up to the walking, and `handle_stdin`. -/
def start (o : Options) (terminal : Bool) : Outcome :=
  if !terminal && decide (o.paths.length ≤ 1) && (match o.paths.head? with | none => true | some p => p == [lit "."]) then .stdin (o.output.bind List.head?)
  else if o.paths.isEmpty then .error
  else .walk o.paths

end Verif.Walk
