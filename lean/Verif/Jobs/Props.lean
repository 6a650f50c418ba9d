import Verif.Jobs.Model

/-!
# C15 and C16: job sets combine as documented; running a job set

The specification of a combined configuration is pointwise, for an arbitrary job.
-/

namespace Verif.Jobs

variable {α : Type}

/-- The list of fields is complete and without repetition. -/
theorem mem_all (j : Job) : j ∈ all := by cases j <;> decide

theorem all_nodup : all.Nodup := by decide +kernel

/-- Field names identify the jobs. -/
theorem name_injective {j k : Job} (h : j.name = k.name) : j = k := by
  have : ∀ j ∈ all, ∀ k ∈ all, j.name = k.name → j = k := by decide +kernel
  exact this j (mem_all j) k (mem_all k) h

theorem extend_fold (other : Jobs α) (l : List Job) (self : Jobs α) (j : Job) :
    (l.foldl (fun acc j => if (other j).isSome then set acc j (other j) else acc) self) j
      = if j ∈ l ∧ (other j).isSome then other j else self j := by
  induction l generalizing self with
  | nil => simp
  | cons a l ih =>
    rw [List.foldl_cons, ih]
    by_cases h1 : j ∈ l ∧ (other j).isSome
    · rw [if_pos h1, if_pos ⟨by simp [h1.1], h1.2⟩]
    · rw [if_neg h1]
      by_cases h2 : j = a
      · subst h2
        by_cases h3 : (other j).isSome
        · simp [h3, set]
        · simp [h3]
      · by_cases h3 : (other a).isSome
        · simp only [h3, if_true, set, if_neg h2]
          rw [if_neg]; simp [h2]; simpa using h1
        · rw [if_neg h3, if_neg]; simp [h2]; simpa using h1

/-- **C15 (extend).** The user's configuration wins for each job they configured, the preset's stays for
every other job. -/
theorem extend_spec (preset user : Jobs α) (j : Job) :
    extend preset user j = match user j with | some c => some c | none => preset j := by
  unfold extend
  rw [extend_fold]
  simp only [mem_all, true_and]
  cases user j <;> simp

/-- **C15 (omit).** Omitting a job by its name disables it and changes no other job. -/
theorem omit_spec (js : Jobs α) (j k : Job) :
    omitJob js j.name k = if k = j then none else js k := by
  have : all.find? (fun i => i.name == j.name) = some j := by
    have h := List.find?_isSome (p := fun i : Job => i.name == j.name) (xs := all)
    have hs : (all.find? (fun i => i.name == j.name)).isSome := h.2 ⟨j, mem_all j, by simp⟩
    obtain ⟨i, hi⟩ := Option.isSome_iff_exists.1 hs
    have := List.find?_some hi
    have hij : i = j := name_injective (by simpa using this)
    rw [hi, hij]
  simp [omitJob, this, set]

/-- **C15 (omit, unknown names).** A name that is no job's name changes nothing. -/
theorem omit_unknown (js : Jobs α) (s : String) (h : ∀ j : Job, j.name ≠ s) : omitJob js s = js := by
  have : all.find? (fun i => i.name == s) = none := by
    simp only [List.find?_eq_none]
    intro i _; simpa using h i
  simp [omitJob, this]

/-- **C15 (laws).** Extending is associative and idempotent, and the empty set is a unit. -/
theorem extend_assoc (a b c : Jobs α) : extend (extend a b) c = extend a (extend b c) := by
  funext j; simp only [extend_spec]; cases c j <;> rfl
theorem extend_idem (a : Jobs α) : extend a a = a := by
  funext j; simp only [extend_spec]; cases a j <;> rfl
theorem extend_none_right (a : Jobs α) : extend a noJobs = a := by
  funext j; simp [extend_spec, noJobs]
theorem extend_none_left (a : Jobs α) : extend noJobs a = a := by
  funext j; simp only [extend_spec, noJobs]; cases a j <;> rfl
theorem none_disables (j : Job) : (noJobs : Jobs α) j = none := rfl

/-- **C15 (presets).** The safe preset is the default preset together with the precheck. -/
theorem safe_eq_default_with_precheck (dflt : Job → α) (j : Job) :
    safeJobSet dflt j = if j = .precheck then some (dflt .precheck) else defaultJobs dflt j := by
  have h : ∀ j ∈ all, (decide (j ∈ safeJobs)) = (decide (j = .precheck) || j.isDefault) := by
    decide +kernel
  have := h j (mem_all j)
  unfold safeJobSet defaultJobs noJobs
  by_cases hj : j = .precheck
  · subst hj; simp at this; simp [this]
  · have e : (j ∈ safeJobs) = (j.isDefault = true) := by simp [hj] at this; rw [← this]; simp
    simp only [e, if_neg hj]

/-- Specification of a resolved configuration: what a user expects of `extends`, `jobs` and `omit`. -/
def wanted (dflt : Job → α) (o : Optimise α) (j : Job) : Option α :=
  if j.name ∈ o.omitted.getD [] then none
  else match o.jobs j with
    | some c => some c
    | none => match o.extends' with
      | none | some .none => none
      | some .default => if j.isDefault then some (dflt j) else none
      | some .safe => if j.isDefault ∨ j = .precheck then some (dflt j) else none

theorem omit_fold (names : List String) (js : Jobs α) (j : Job) :
    names.foldl omitJob js j = if j.name ∈ names then none else js j := by
  induction names generalizing js with
  | nil => simp
  | cons n names ih =>
    rw [List.foldl_cons, ih]
    by_cases h : j.name ∈ names
    · simp [h]
    · simp only [h, if_false, List.mem_cons, or_false]
      by_cases hn : ∃ k : Job, k.name = n
      · obtain ⟨k, rfl⟩ := hn
        rw [omit_spec]
        by_cases hk : j = k
        · simp [hk]
        · rw [if_neg hk, if_neg (fun h => hk (name_injective h))]
      · rw [omit_unknown js n (fun k hk => hn ⟨k, hk⟩)]
        rw [if_neg (fun h => hn ⟨j, h⟩)]

/-- **C15 (resolving the configuration file).** With a preset given, the resolved jobs are the wanted
ones. Missing: the case without a preset, where `omit` is ignored (`resolve_violated`). -/
theorem resolve_partial (dflt : Job → α) (o : Optimise α) (h : o.extends' ≠ none ∨ o.omitted = none) (j : Job) :
    o.resolve dflt j = wanted dflt o j := by
  unfold Optimise.resolve wanted
  cases he : o.extends' with
  | none =>
    have h0 : o.omitted = none := by simpa [he] using h
    simp [h0]; cases o.jobs j <;> rfl
  | some e =>
    have key : e.extend dflt o.jobs j = match o.jobs j with
      | some c => some c
      | none => match (some e : Option Extends) with
        | none | some .none => none
        | some .default => if j.isDefault then some (dflt j) else none
        | some .safe => if j.isDefault ∨ j = .precheck then some (dflt j) else none := by
      simp only [Extends.extend, extend_spec]
      cases o.jobs j with
      | some c => rfl
      | none =>
        cases e with
        | none => rfl
        | default => rfl
        | safe =>
          simp only [Extends.jobs, safe_eq_default_with_precheck, defaultJobs]
          by_cases hj : j = .precheck
          · subst hj; simp
          · simp [hj]
    cases ho : o.omitted with
    | none => simp [key]
    | some names => simp only [omit_fold, Option.getD_some]; rw [key]

/-- **C15 violated.** Without `extends` an omitted job still runs. -/
theorem resolve_violated : ∃ (o : Optimise Unit) (j : Job),
    j.name ∈ o.omitted.getD [] ∧ o.resolve (fun _ => ()) j ≠ none :=
  ⟨{ extends' := none, jobs := fun _ => some (), omitted := some ["remove_comments"] }, .removeComments,
    by decide, by decide⟩

/-- Non-trivial case for `resolve_partial`. -/
example : (Optimise.resolve (fun _ => 0)
    { extends' := some .default, jobs := fun j => if j = .removeScripts then some 1 else none,
      omitted := some ["remove_comments"] : Optimise Nat }) .removeScripts = some 1 := by decide +kernel

/-! ### C16 -/

/-- The jobs that are configured, in order. -/
def enabled (js : Jobs α) : List Job := all.filter fun j => (js j).isSome

/-- Specification: running the jobs `l` one after another on a document, whatever their outcome. -/
def applyAll {δ ε : Type} (exec : Job → α → δ → δ × Outcome ε) (js : Jobs α) (l : List Job) (d : δ) : δ :=
  l.foldl (fun d j => match js j with | some c => (exec j c d).1 | none => d) d

/-- The outcome of `j` when the jobs `pre` ran before. -/
def outcomeAfter {δ ε : Type} (exec : Job → α → δ → δ × Outcome ε) (js : Jobs α) (pre : List Job) (j : Job) (d : δ) :
    Outcome ε :=
  match js j with
  | some c => (exec j c (applyAll exec js pre d)).2
  | none => .skipped

/-- The outcome is not a failure that ends the run. -/
def Harmless {ε : Type} (important : ε → Bool) : Outcome ε → Prop
  | .failed e => important e = false
  | _ => True

theorem run_jobs_aux {δ ε : Type} (important : ε → Bool) (exec : Job → α → δ → δ × Outcome ε) (js : Jobs α)
    (l : List Job) (count : Nat) (d : δ) :
    ∃ pre, pre <+: l.filter (fun j => (js j).isSome) ∧
      (runJobs important exec js l count d).1 = applyAll exec js pre d ∧
      match (runJobs important exec js l count d).2 with
      | .ok n => pre = l.filter (fun j => (js j).isSome) ∧ count ≤ n ∧ n ≤ count + pre.length ∧
          ∀ a j b, pre = a ++ j :: b → Harmless important (outcomeAfter exec js a j d)
      | .error e => important e = true ∧ ∃ a j, pre = a ++ [j] ∧
          outcomeAfter exec js a j d = .failed e ∧
          ∀ a' j' b', a = a' ++ j' :: b' → Harmless important (outcomeAfter exec js a' j' d) := by
  induction l generalizing count d with
  | nil => exact ⟨[], by simp, rfl, by simp [runJobs]⟩
  | cons j l ih =>
    cases hj : js j with
    | none =>
      have e : runJobs important exec js (j :: l) count d = runJobs important exec js l count d := by
        simp [runJobs, hj]
      rw [e]
      have hf : (j :: l).filter (fun j => (js j).isSome) = l.filter (fun j => (js j).isSome) := by simp [hj]
      rw [hf]
      exact ih count d
    | some c =>
      have hf : (j :: l).filter (fun j => (js j).isSome) = j :: l.filter (fun j => (js j).isSome) := by simp [hj]
      rw [hf]
      -- the continuation after a harmless outcome
      have cont : ∀ count', count ≤ count' → count' ≤ count + 1 →
          runJobs important exec js (j :: l) count d = runJobs important exec js l count' (exec j c d).1 →
          Harmless important (exec j c d).2 → ∃ pre, pre <+: j :: l.filter (fun j => (js j).isSome) ∧
          (runJobs important exec js (j :: l) count d).1 = applyAll exec js pre d ∧
          match (runJobs important exec js (j :: l) count d).2 with
          | .ok n => pre = j :: l.filter (fun j => (js j).isSome) ∧ count ≤ n ∧ n ≤ count + pre.length ∧
              ∀ a j b, pre = a ++ j :: b → Harmless important (outcomeAfter exec js a j d)
          | .error e => important e = true ∧ ∃ a j, pre = a ++ [j] ∧
              outcomeAfter exec js a j d = .failed e ∧
              ∀ a' j' b', a = a' ++ j' :: b' → Harmless important (outcomeAfter exec js a' j' d) := by
        intro count' hc1 hc2 he hh
        obtain ⟨pre, p1, p2, p3⟩ := ih count' (exec j c d).1
        have happ : ∀ a, applyAll exec js (j :: a) d = applyAll exec js a (exec j c d).1 := by
          intro a; simp [applyAll, hj]
        have hout : ∀ a k, outcomeAfter exec js (j :: a) k d = outcomeAfter exec js a k (exec j c d).1 := by
          intro a k; unfold outcomeAfter; rw [happ]
        have hfirst : outcomeAfter exec js [] j d = (exec j c d).2 := by
          simp [outcomeAfter, hj, applyAll]
        refine ⟨j :: pre, by simpa using p1, by rw [he, p2, happ], ?_⟩
        rw [he]
        split at p3
        · rename_i n hn
          obtain ⟨q1, q2, q3, q4⟩ := p3
          refine ⟨by rw [q1], by omega, by simp; omega, ?_⟩
          intro a k b hab
          cases a with
          | nil =>
            simp only [List.nil_append, List.cons.injEq] at hab
            rw [← hab.1, hfirst]; exact hh
          | cons x a =>
            simp only [List.cons_append, List.cons.injEq] at hab
            rw [← hab.1, hout]; exact q4 a k b hab.2
        · rename_i e hn
          obtain ⟨q1, a, k, q2, q3, q4⟩ := p3
          refine ⟨q1, j :: a, k, by rw [q2]; rfl, by rw [hout]; exact q3, ?_⟩
          intro a' k' b' hab
          cases a' with
          | nil =>
            simp only [List.nil_append, List.cons.injEq] at hab
            rw [← hab.1, hfirst]; exact hh
          | cons x a' =>
            simp only [List.cons_append, List.cons.injEq] at hab
            rw [← hab.1, hout]; exact q4 a' k' b' hab.2
      cases ho : exec j c d with
      | mk d' o =>
        cases o with
        | ran => exact cont (count + 1) (by omega) (by omega) (by simp [runJobs, hj, ho]) (by simp [ho, Harmless])
        | skipped => exact cont count (by omega) (by omega) (by simp [runJobs, hj, ho]) (by simp [ho, Harmless])
        | failed e =>
          cases hi : important e with
          | false =>
            exact cont count (by omega) (by omega) (by simp [runJobs, hj, ho, hi]) (by simp [ho, Harmless, hi])
          | true =>
            refine ⟨[j], by simp, ?_, ?_⟩
            · simp [runJobs, hj, ho, hi, applyAll]
            · have : (runJobs important exec js (j :: l) count d).2 = .error e := by simp [runJobs, hj, ho, hi]
              rw [this]
              refine ⟨hi, [], j, rfl, by simp [outcomeAfter, hj, applyAll, ho], ?_⟩
              intro a' j' b' h; simp at h

/-- **C16.** For every configuration, document and behaviour of the jobs: the run applies an initial part
of the enabled jobs, each once and in the documented order. It succeeds exactly when no important failure
occurs, and then has applied all of them; otherwise it has applied the jobs up to the first important
failure and reports that failure. -/
theorem run_spec {δ ε : Type} (important : ε → Bool) (exec : Job → α → δ → δ × Outcome ε) (js : Jobs α) (d : δ) :
    ∃ pre, pre <+: enabled js ∧ pre.Nodup ∧ (run important exec js true d).1 = applyAll exec js pre d ∧
      match (run important exec js true d).2 with
      | .ok _ => pre = enabled js ∧
          ∀ a j b, enabled js = a ++ j :: b → Harmless important (outcomeAfter exec js a j d)
      | .error e => important e = true ∧ ∃ a j, pre = a ++ [j] ∧ outcomeAfter exec js a j d = .failed e ∧
          ∀ a' j' b', a = a' ++ j' :: b' → Harmless important (outcomeAfter exec js a' j' d) := by
  obtain ⟨pre, p1, p2, p3⟩ := run_jobs_aux important exec js all 0 d
  refine ⟨pre, p1, ?_, ?_, ?_⟩
  · exact (all_nodup.sublist List.filter_sublist).sublist p1.sublist
  · rw [← p2]; unfold run; simp only [if_true]
    split <;> rename_i h <;> rw [h]
  · unfold run
    simp only [if_true]
    generalize hr : runJobs important exec js all 0 d = r at p3
    obtain ⟨d', o⟩ := r
    cases o with
    | ok n => simp only at p3 ⊢; exact ⟨p3.1, by have := p3.2.2.2; rw [p3.1] at this; exact this⟩
    | error e => simp only at p3 ⊢; exact p3

/-- **C16 (empty documents).** A document without any element is left alone. -/
theorem run_no_root {δ ε : Type} (important : ε → Bool) (exec : Job → α → δ → δ × Outcome ε) (js : Jobs α) (d : δ) :
    run important exec js false d = (d, .ok ()) := rfl

/-- **C16 (which failures stop the run).** Exactly the computed-style failures are passed over. -/
theorem important_spec (e : JobsError) : e.important = false ↔ e = .computedStyles := by
  cases e <;> simp [JobsError.important]

/-- Non-trivial case: with a failing `removeComments` (unimportant) and failing `cleanupIds` (important)
the log of the run is as expected. -/
example :
    let js : Jobs Unit := fun j => if j ∈ [Job.removeComments, .mergeStyles, .cleanupIds, .removeDesc] then some () else none
    let exec : Job → Unit → List Job → List Job × Outcome Bool := fun j _ d =>
      (d ++ [j], if j = .removeComments then .failed false else if j = .cleanupIds then .failed true else .ran)
    (run id exec js true []).1 = [Job.removeComments, .mergeStyles, .cleanupIds] := by decide +kernel

end Verif.Jobs
