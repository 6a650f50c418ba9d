/-!
# Model: the outcome of linting, on the command line and in an editor

`crates/oxvg_lint/src/parse.rs`, `crates/oxvg_lint/src/rules/mod.rs` (severities),
`crates/oxvg/src/commands/lint.rs`, `crates/oxvg/src/commands/lint/lsp.rs`, `crates/oxvg/src/config.rs`,
`crates/oxvg/src/commands/optimise.rs` (`handle_config`).

The rules themselves are a parameter: what problems a rule finds in a text. `D` are problems, `U` are URIs of documents,
`T` are texts.
-/

namespace Verif.Check

/-- rules/mod.rs:38-46. -/
inductive Severity
  | off | warn | error
  deriving DecidableEq, Repr

/-- The rules (rules/mod.rs:55-80). -/
inductive Rule
  | unknownElements | unknownAttributes | deprecated | defaultAttributes | xlink | unusedIds | unusedXmlns
  | invalidAttributes
  deriving DecidableEq, Repr

/-- All of them, in the order in which an element is checked (rules/mod.rs:134-164); then the ones checked at the end of
an element and of the document. -/
def Rule.all : List Rule :=
  [.unknownElements, .unknownAttributes, .deprecated, .defaultAttributes, .xlink, .invalidAttributes, .unusedXmlns,
    .unusedIds]

/-- rules/mod.rs:55-80, `Rules`. -/
abbrev Rules := Rule → Severity

/-- parse.rs:32-43, `off`. -/
def Rules.off : Rules := fun _ => .off

/-- parse.rs:45-57, `recommended`. -/
def Rules.recommended : Rules
  | .unknownElements => .error
  | .unknownAttributes => .error
  | .deprecated => .error
  | .defaultAttributes => .warn
  | .xlink => .warn
  | .unusedIds => .warn
  | .unusedXmlns => .warn
  | .invalidAttributes => .error

/-- rules/mod.rs:48 (`derive(Default)`) with 44 (`#[default] Error`). -/
def Rules.derived : Rules := fun _ => .error

/-- rules/mod.rs:49-79: a field that is missing in the configuration is off. -/
def Rules.fromConfig (fields : Rule → Option Severity) : Rules := fun r => (fields r).getD .off

/-- lint.rs:23 and 51: without a section on linting the recommended rules are used. -/
def rulesOf : Option Rules → Rules
  | some r => r
  | none => Rules.recommended

variable {D : Type}

/-- rules/mod.rs:134-164, 180-190, 212-215: a rule that is off is not run; its problems get its severity. The
order of the reports is by rule here and by element in the code. -/
def reports (rules : Rules) (problems : Rule → List D) : List (Severity × D) :=
  Rule.all.flatMap fun r => if rules r = .off then [] else (problems r).map fun d => (rules r, d)

/-- error.rs, `LintingError`, and `Ok(())`. -/
inductive Outcome
  | ok
  | parse
  | format
  | reported (errors warnings : Nat)
  deriving DecidableEq, Repr

/-- parse.rs:135-186, `lint_internal`. `parsed` are the problems of the text, or nothing if it cannot be read;
`writes` tells whether the writer takes the report. -/
def lintInternal (rules : Rules) (parsed : Option (Rule → List D)) (writes : Bool) : Outcome :=
  match parsed with
  | none => .parse
  | some problems =>
    let es := reports rules problems
    if es.isEmpty then .ok
    else if !writes then .format
    else
      let errors := (es.filter fun e => e.1 = .error).length
      let warnings := (es.filter fun e => e.1 = .warn).length
      if errors > 0 ∨ warnings > 0 then .reported errors warnings else .ok

/-- How the program ends. -/
inductive Exit
  | success | failure
  deriving DecidableEq, Repr

/-- lint.rs:10-41, `Check`: the closure that is called for each file gives nothing back; `level` and `config` (the
path given with `--config`) are not read. The result is that of `Walk::run` (walk.rs:102-122), which fails only for
want of paths. -/
def check (_level : Severity) (_config : Option (Option Rules)) (found : Option Rules) (hasPaths : Bool)
    (files : List (Option (Rule → List D))) : Exit × List Outcome :=
  if hasPaths then (.success, files.map fun f => lintInternal (rulesOf found) f true) else (.failure, [])

/-! ## The editor -/

variable {U T : Type} [DecidableEq U]

/-- A document is opened or changed (lsp.rs:152-162; `did_change` takes the last content). -/
abbrev Event (U T : Type) := U × T

/-- lsp.rs:68-107, `lint`: a notification is sent only if the text can be read and there are problems. -/
def notify (rules : Rules) (problems : T → Option (Rule → List D)) (e : Event U T) : Option (U × List (Severity × D)) :=
  match problems e.2 with
  | none => none
  | some ps =>
    let es := reports rules ps
    if es.isEmpty then none else some (e.1, es)

/-- What the editor shows for each document: the last notification for it. -/
abbrev Editor (U D : Type) := U → List (Severity × D)

/-- `PublishDiagnostics` replaces the diagnostics of the document. -/
def receive (ed : Editor U D) : Option (U × List (Severity × D)) → Editor U D
  | none => ed
  | some (u, es) => fun v => if v = u then es else ed v

/-- The editor after some events. The server answers in order. -/
def session (rules : Rules) (problems : T → Option (Rule → List D)) (events : List (Event U T)) : Editor U D :=
  events.foldl (fun ed e => receive ed (notify rules problems e)) fun _ => []

/-! ## The configuration that is printed -/

/-- optimise.rs:121-131: `oxvg optimise --config` prints the configuration; without a section on linting
`Rules::default()` is printed. -/
def printed (found : Option Rules) : Option Rules := some (found.getD Rules.derived)

end Verif.Check
