import Verif.Check.Model

/-! # What linting tells its caller -/

namespace Verif.Check

variable {D U T : Type} [DecidableEq U]

theorem mem_all (r : Rule) : r ∈ Rule.all := by cases r <;> decide

/-- **C82 (the reports).** A problem is reported with a severity if and only if it is a problem of a rule that is not off
and has that severity. -/
theorem mem_reports (rules : Rules) (problems : Rule → List D) (s : Severity) (d : D) :
    (s, d) ∈ reports rules problems ↔ ∃ r, s ≠ .off ∧ rules r = s ∧ d ∈ problems r := by
  simp only [reports, List.mem_flatMap]
  constructor
  · rintro ⟨r, _, h⟩
    split at h
    · cases h
    · rename_i hr
      simp only [List.mem_map, Prod.mk.injEq] at h
      obtain ⟨d', hd, rfl, rfl⟩ := h
      exact ⟨r, hr, rfl, hd⟩
  · rintro ⟨r, hs, rfl, hd⟩
    refine ⟨r, mem_all r, ?_⟩
    rw [if_neg hs]
    exact List.mem_map.2 ⟨d, hd, rfl⟩

/-- Specification: the number of problems of the rules with the given severity. -/
def total (rules : Rules) (problems : Rule → List D) (s : Severity) : Nat :=
  ((Rule.all.filter fun r => rules r = s).map fun r => (problems r).length).sum

theorem count_reports (rules : Rules) (problems : Rule → List D) (s : Severity) (hs : s ≠ .off) :
    ((reports rules problems).filter fun e => e.1 = s).length = total rules problems s := by
  unfold reports total
  induction Rule.all with
  | nil => rfl
  | cons r l ih =>
    rw [List.flatMap_cons, List.filter_append, List.length_append, ih, List.filter_cons]
    by_cases h : rules r = s
    · rw [if_neg (by rw [h]; exact hs), if_pos (by simpa using h), List.map_cons, List.sum_cons]
      congr 1
      rw [List.filter_eq_self.2]
      · simp
      · simp [h]
    · rw [if_neg (c := decide (rules r = s) = true) (by simpa using h)]
      suffices (List.filter (fun e : Severity × D => decide (e.1 = s))
          (if rules r = .off then [] else (problems r).map fun d => (rules r, d))).length = 0 by omega
      split
      · rfl
      · rw [List.length_eq_zero_iff, List.filter_eq_nil_iff]
        simp [h]

theorem reports_nil_iff (rules : Rules) (problems : Rule → List D) :
    reports rules problems = [] ↔ ∀ r, rules r ≠ .off → problems r = [] := by
  constructor
  · intro h r hr
    cases hp : problems r with
    | nil => rfl
    | cons d l =>
      have := (mem_reports rules problems (rules r) d).2 ⟨r, hr, rfl, by simp [hp]⟩
      rw [h] at this
      cases this
  · intro h
    rw [List.eq_nil_iff_forall_not_mem]
    rintro ⟨s, d⟩ hm
    obtain ⟨r, hs, rfl, hd⟩ := (mem_reports rules problems s d).1 hm
    rw [h r hs] at hd
    cases hd

theorem lint_ok_some (rules : Rules) (problems : Rule → List D) :
    lintInternal rules (some problems) true = .ok ↔ ∀ r, rules r ≠ .off → problems r = [] := by
  rw [← reports_nil_iff]
  simp only [lintInternal]
  by_cases h : reports rules problems = []
  · simp [h]
  · have he : (reports rules problems).isEmpty = false := by simpa using h
    simp only [he, Bool.false_eq_true, if_false, Bool.not_true, h, iff_false]
    rw [if_pos]
    · simp
    · obtain ⟨⟨s, d⟩, l, hl⟩ := List.exists_cons_of_ne_nil h
      have hm : (s, d) ∈ reports rules problems := by simp [hl]
      obtain ⟨r, hs, _⟩ := (mem_reports rules problems s d).1 hm
      cases s with
      | off => exact absurd rfl hs
      | warn =>
        exact .inr (List.length_pos_of_mem (List.mem_filter.2 ⟨hm, by simp⟩))
      | error =>
        exact .inl (List.length_pos_of_mem (List.mem_filter.2 ⟨hm, by simp⟩))

/-- **C82 (clean).** Linting ends well if and only if the text can be read and no rule that is on finds a problem. -/
theorem lint_ok_iff (rules : Rules) (parsed : Option (Rule → List D)) :
    lintInternal rules parsed true = .ok ↔
      ∃ problems, parsed = some problems ∧ ∀ r, rules r ≠ .off → problems r = [] := by
  cases parsed with
  | none => simp [lintInternal]
  | some problems => simp [lint_ok_some]

/-- **C82 (the numbers).** When problems are reported, the numbers are those of the problems of the rules set to
`error` and to `warn`. -/
theorem lint_counts (rules : Rules) (problems : Rule → List D) (n m : Nat)
    (h : lintInternal rules (some problems) true = .reported n m) :
    n = total rules problems .error ∧ m = total rules problems .warn := by
  simp only [lintInternal, count_reports rules problems .error (by decide),
    count_reports rules problems .warn (by decide)] at h
  split at h
  · cases h
  · simp only [Bool.not_true, Bool.false_eq_true, if_false] at h
    split at h
    · cases h; exact ⟨rfl, rfl⟩
    · cases h

/-! ## The command -/

/-- Specification: the severity is at least the level. -/
def atLeast (level s : Severity) : Prop :=
  match level, s with
  | _, .off => False
  | .error, .warn => False
  | _, _ => True

/-- Specification: "the level at which the program will exit with an error code". -/
def ShouldFail (level : Severity) (rules : Rules) (files : List (Option (Rule → List D))) : Prop :=
  ∃ f ∈ files, ∃ problems, f = some problems ∧ ∃ r, atLeast level (rules r) ∧ problems r ≠ []

/-- **C82 (violated: the exit status).** `oxvg lint check` succeeds for all files, rules and levels, whatever is
reported: `--level` has no effect. -/
theorem check_exit_violated (level : Severity) (config : Option (Option Rules)) (found : Option Rules)
    (files : List (Option (Rule → List D))) (_h : ShouldFail level (rulesOf found) files) :
    (check level config found true files).1 = .success := rfl

/-- **C82 (what holds of the exit status).** Given paths, the exit status is right if and only if nothing at the level
is found. -/
theorem check_exit_partial (level : Severity) (config : Option (Option Rules)) (found : Option Rules)
    (files : List (Option (Rule → List D))) :
    ((check level config found true files).1 = .failure ↔ ShouldFail level (rulesOf found) files) ↔
      ¬ ShouldFail level (rulesOf found) files := by
  simp [check]

/-- **C82 (violated: `--config`).** The file given with `--config` has no influence on what is reported. -/
theorem check_config_violated (level : Severity) (c c' : Option (Option Rules)) (found : Option Rules) (paths : Bool)
    (files : List (Option (Rule → List D))) :
    check level c found paths files = check level c' found paths files := rfl

/-- **C82 (every file).** Each file gets the outcome of its own text, in order. -/
theorem check_outcomes (level : Severity) (config : Option (Option Rules)) (found : Option Rules)
    (files : List (Option (Rule → List D))) (i : Nat) :
    (check level config found true files).2[i]? = files[i]?.map fun f => lintInternal (rulesOf found) f true := by
  simp [check]

/-! ## The configuration -/

/-- **C82 (a section that names one rule turns the others off).** With a section on linting, a rule that it does not
name reports nothing; without a section every rule is on. -/
theorem config_unnamed (fields : Rule → Option Severity) (problems : Rule → List D) (r : Rule) (h : fields r = none) :
    (Rules.fromConfig fields r = .off ∧ rulesOf none r ≠ .off) ∧
      ∀ ps : Rule → List D, (∀ q, q ≠ r → ps q = problems q) →
        reports (Rules.fromConfig fields) ps = reports (Rules.fromConfig fields) problems := by
  have hoff : Rules.fromConfig fields r = .off := by simp [Rules.fromConfig, h]
  refine ⟨⟨hoff, by cases r <;> decide⟩, fun ps hps => ?_⟩
  unfold reports
  congr 1
  funext q
  by_cases hq : q = r
  · subst hq; rw [if_pos hoff, if_pos hoff]
  · rw [hps q hq]

/-- **C82 (violated: the configuration printed).** Without a section on linting, the configuration that is printed does
not stand for the rules in use: exactly the four rules that only warn become errors. -/
theorem printed_violated (r : Rule) :
    rulesOf (printed none) r ≠ rulesOf none r ↔
      r = .defaultAttributes ∨ r = .xlink ∨ r = .unusedIds ∨ r = .unusedXmlns := by
  cases r <;> decide

/-- **C82 (a section is printed as it is).** -/
theorem printed_some (rules : Rules) : rulesOf (printed (some rules)) = rulesOf (some rules) := rfl

/-! ## The editor -/

/-- Specification: the texts of a document, in order. -/
def texts (u : U) (events : List (Event U T)) : List T := (events.filter fun e => e.1 = u).map Prod.snd

/-- Specification: the problems of a text, as they should be shown. -/
def wanted (rules : Rules) (problems : T → Option (Rule → List D)) (t : T) : List (Severity × D) :=
  match problems t with
  | none => []
  | some ps => reports rules ps

theorem texts_append (u : U) (es : List (Event U T)) (e : Event U T) :
    texts u (es ++ [e]) = texts u es ++ if e.1 = u then [e.2] else [] := by
  simp only [texts, List.filter_append, List.map_append]
  congr 1
  by_cases h : e.1 = u <;> simp [h]

theorem notify_wanted (rules : Rules) (problems : T → Option (Rule → List D)) (e : Event U T) :
    notify rules problems e =
      if wanted rules problems e.2 = [] then none else some (e.1, wanted rules problems e.2) := by
  unfold notify wanted
  cases problems e.2 with
  | none => simp
  | some ps => simp [List.isEmpty_iff]

theorem session_append (rules : Rules) (problems : T → Option (Rule → List D)) (es : List (Event U T))
    (e : Event U T) :
    session rules problems (es ++ [e]) = receive (session rules problems es) (notify rules problems e) := by
  simp [session]

theorem reverse_induction {α : Type} {P : List α → Prop} (h0 : P []) (h1 : ∀ l a, P l → P (l ++ [a])) (l : List α) :
    P l := by
  have : ∀ r : List α, P r.reverse := by
    intro r
    induction r with
    | nil => exact h0
    | cons a r ih => rw [List.reverse_cons]; exact h1 _ _ ih
  simpa using this l.reverse

/-- **C82 (what the editor shows).** For every history of opening and changing documents, the editor shows for a document
the problems of the last of its texts that had any. -/
theorem session_shows (rules : Rules) (problems : T → Option (Rule → List D)) (events : List (Event U T)) (u : U) :
    session rules problems events u =
      (((texts u events).map (wanted rules problems)).filter fun l => l ≠ []).getLast?.getD [] := by
  induction events using reverse_induction with
  | h0 => simp [session, texts]
  | h1 es e ih =>
    rw [session_append, notify_wanted, texts_append]
    by_cases hu : e.1 = u
    · rw [if_pos hu]
      by_cases hw : wanted rules problems e.2 = []
      · simp [hw, receive, ih]
      · subst hu
        simp [hw, receive]
    · rw [if_neg hu]
      by_cases hw : wanted rules problems e.2 = []
      · simp [hw, receive, ih]
      · simp [hw, receive, ih, Ne.symm hu]

/-- **C82 (exactly when the editor is right).** After a change of a document the editor shows the problems of its text
if and only if the text has problems or no text of the document before had any. -/
theorem session_right_iff (rules : Rules) (problems : T → Option (Rule → List D)) (events : List (Event U T)) (u : U)
    (t : T) :
    session rules problems (events ++ [(u, t)]) u = wanted rules problems t ↔
      wanted rules problems t ≠ [] ∨ ∀ s ∈ texts u events, wanted rules problems s = [] := by
  rw [session_append, notify_wanted]
  by_cases hw : wanted rules problems t = []
  · simp only [hw, if_true, receive, ne_eq, not_true_eq_false, false_or]
    rw [session_shows]
    generalize texts u events = l
    constructor
    · intro h s hs
      refine Classical.byContradiction fun hne => ?_
      have hm : wanted rules problems s ∈ (l.map (wanted rules problems)).filter fun l => l ≠ [] :=
        List.mem_filter.2 ⟨List.mem_map.2 ⟨s, hs, rfl⟩, by simpa using hne⟩
      have hn : ((l.map (wanted rules problems)).filter fun l => l ≠ []) ≠ [] := List.ne_nil_of_mem hm
      have hl := List.getLast_mem hn
      rw [List.getLast?_eq_some_getLast hn, Option.getD_some] at h
      rw [h, List.mem_filter] at hl
      simp at hl
    · intro h
      have : (l.map (wanted rules problems)).filter (fun l => l ≠ []) = [] := by
        rw [List.filter_eq_nil_iff]
        simpa using h
      rw [this]
      rfl
  · simp [hw, receive]

/-- **C82 (violated: problems that are gone).** When the last problem of a document is repaired, the editor goes on
showing the problems of the text before. -/
theorem stale_violated (rules : Rules) (problems : T → Option (Rule → List D)) (events : List (Event U T)) (u : U)
    (s t : T) (hs : wanted rules problems s ≠ []) (ht : wanted rules problems t = []) :
    session rules problems (events ++ [(u, s)] ++ [(u, t)]) u = wanted rules problems s := by
  rw [session_append, notify_wanted]
  simp only [ht, if_true, receive]
  rw [session_append, notify_wanted]
  simp [hs, receive]

/-! ## Cases -/

/-- Two unknown attributes and an unused id, by the recommended rules. -/
example : lintInternal Rules.recommended
    (some fun | .unknownAttributes => ["a", "b"] | .unusedIds => ["i"] | _ => []) true = .reported 2 1 := by
  decide

/-- A file with errors: the command succeeds at every level. -/
example (level : Severity) : check (D := String) level none none true
    [some fun | .unknownElements => ["x"] | _ => []] = (.success, [.reported 1 0]) := by
  cases level <;> decide

/-- A document with a problem, repaired: the problem stays. -/
example : session (D := String) (U := Nat) (T := Bool) Rules.recommended
    (fun b => some fun r => if b ∧ r = .unusedIds then ["i"] else []) [(0, true), (0, false)] 0 = [(.warn, "i")] := by
  decide

end Verif.Check
