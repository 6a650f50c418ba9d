import Verif.Walk.Model

/-!
# Properties
-/

namespace Verif.Walk

open Verif.Names (Str lit)

/-! ## Vocabulary -/

/-- Nothing is below a file. -/
def Treelike (fs : FS) : Prop := ∀ p b, fs p = some (.file b) → ∀ q, p <+: q → q ≠ p → fs q = none

/-- A file at `p` can be made: nothing above it is a file, and it is no directory. -/
def Free (fs : FS) (p : Path) : Prop := (∀ a, a <+: p → a ≠ p → ∀ b, fs a ≠ some (.file b)) ∧ fs p ≠ some .dir

/-- The file `root ++ rest` is one to be handled, and `b` is what is to be written for it. -/
structure Task (o : Options) (work : Path → Bytes → Result) (root out : Path) (fs : FS) (rest : Path) (b : Bytes) : Prop where
  /-- Only what is directly in the directory, unless `recursive`; paths that are left out are not asked for, but the given one is. -/
  asked : (o.recursive = false → rest.length ≤ 1) ∧ (rest ≠ [] → o.filtered (root ++ rest) = false)
  /-- The name is something with `.svg`. -/
  named : ∃ dir stem, root ++ rest = dir ++ [stem ++ lit ".svg"] ∧ stem ≠ []
  work : ∃ c, fs (root ++ rest) = some (.file c) ∧ (work (root ++ rest) c = .writes b ∨ work (root ++ rest) c = .breaks b)
  free : Free fs (out ++ rest)

/-- The output is the input itself, or neither is within the other. -/
def Apart (root out : Path) : Prop := out = root ∨ ¬root <+: out ∧ ¬out <+: root

/-! ## Lemmas -/

theorem inScope_iff {o : Options} {root rest : Path} : inScope o root (root ++ rest) = true ↔
    (o.recursive = false → rest.length ≤ 1) ∧ (rest ≠ [] → o.filtered (root ++ rest) = false) := by
  simp only [inScope, Bool.and_eq_true, decide_eq_true_eq, Bool.or_eq_true, List.length_append, beq_iff_eq, List.append_right_eq_self, Bool.not_eq_true']
  have h : root <+: root ++ rest := ⟨rest, rfl⟩
  simp only [h, true_and]
  refine and_congr ?_ ?_
  · cases o.recursive <;> simp
  · by_cases e : rest = [] <;> simp [e]

theorem isSvg_iff {p : Path} : isSvg p = true ↔ ∃ dir stem, p = dir ++ [stem ++ lit ".svg"] ∧ stem ≠ [] := by
  rcases List.eq_nil_or_concat p with rfl | ⟨dir, n, rfl⟩
  · simp [isSvg]
  · simp only [isSvg, List.concat_eq_append, List.getLast?_concat, Bool.and_eq_true, List.isSuffixOf_iff_suffix, decide_eq_true_eq]
    have hl : (lit ".svg").length = 4 := by decide
    constructor
    · rintro ⟨⟨stem, rfl⟩, h⟩
      refine ⟨dir, stem, rfl, ?_⟩
      rintro rfl
      simp [hl] at h
    · rintro ⟨d, stem, h, hs⟩
      have := List.append_inj' h rfl
      simp only [List.cons.injEq, and_true] at this
      obtain ⟨rfl, rfl⟩ := this
      refine ⟨⟨stem, rfl⟩, ?_⟩
      have : stem.length ≠ 0 := by simpa using hs
      rw [List.length_append, hl]
      omega

theorem Task.scope {o : Options} {work : Path → Bytes → Result} {root out : Path} {fs : FS} {rest : Path} {b : Bytes} (h : Task o work root out fs rest b) :
    inScope o root (root ++ rest) = true := inScope_iff.2 h.asked

theorem Task.svg {o : Options} {work : Path → Bytes → Result} {root out : Path} {fs : FS} {rest : Path} {b : Bytes} (h : Task o work root out fs rest b) :
    isSvg (root ++ rest) = true := isSvg_iff.2 h.named

theorem creatable_iff {fs : FS} {p : Path} : creatable fs p = true ↔ Free fs p := by
  rw [creatable, Bool.and_eq_true, List.all_eq_true, Free]
  refine and_congr ⟨fun h a ha hne b hb => ?_, fun h i hi => ?_⟩ ?_
  · have hl : a.length < p.length := by
      rcases Nat.lt_or_ge a.length p.length with h | h
      · exact h
      · exact absurd (ha.eq_of_length_le h) hne
    have := h a.length (List.mem_range.2 hl)
    rw [← List.prefix_iff_eq_take.1 ha, hb] at this
    simp at this
  · cases hf : fs (p.take i) with
    | none => rfl
    | some x =>
      cases x with
      | dir => rfl
      | file b =>
        refine absurd hf (h _ (List.take_prefix i p) ?_ b)
        intro e
        have := congrArg List.length e
        rw [List.length_take] at this
        have := List.mem_range.1 hi
        omega
  · cases hf : fs p with
    | none => simp
    | some x => cases x <;> simp

theorem dest_eq {o : Options} {out : Path} (ho : o.output.bind List.head? = some out) {root p : Path} {d : Option Path} (h : dest o root p = some d) :
    ∃ rest, p = root ++ rest ∧ d = some (out ++ rest) := by
  rw [dest, ho] at h
  simp only at h
  split at h
  · rename_i hp
    obtain ⟨rest, rfl⟩ := hp
    refine ⟨rest, rfl, ?_⟩
    simp only [List.drop_left, Option.some.injEq] at h
    rw [← h]
    split
    · rename_i e; rw [e, List.append_nil]
    · rfl
  · simp at h

theorem emit_cases (fs : FS) (d : Option Path) (r : Result) :
    emit fs d r = fs ∨ ∃ q b, d = some q ∧ (r = .writes b ∨ r = .breaks b) ∧ creatable fs q = true ∧ emit fs d r = put fs q b := by
  cases d with
  | none => cases r <;> exact Or.inl rfl
  | some q =>
    cases r with
    | fails => exact Or.inl rfl
    | writes b =>
      by_cases h : creatable fs q = true
      · exact Or.inr ⟨q, b, rfl, Or.inl rfl, h, by simp [emit, h]⟩
      · exact Or.inl (by simp [emit, h])
    | breaks b =>
      by_cases h : creatable fs q = true
      · exact Or.inr ⟨q, b, rfl, Or.inr rfl, h, by simp [emit, h]⟩
      · exact Or.inl (by simp [emit, h])

theorem emit_put {fs : FS} {q : Path} {b : Bytes} {r : Result} (hr : r = .writes b ∨ r = .breaks b) (hc : creatable fs q = true) : emit fs (some q) r = put fs q b := by
  rcases hr with rfl | rfl <;> simp [emit, hc]

/-- What holds all along a walk. -/
structure Inv (o : Options) (work : Path → Bytes → Result) (root out : Path) (fs : FS) (s : State) : Prop where
  held : ∀ x ∈ s.held, x.1 ∈ s.seen ∧ fs x.1 = some (.file x.2)
  seen : ∀ p ∈ s.seen, inScope o root p = true ∧ isSvg p = true ∧ ∃ c, fs p = some (.file c)
  item : ∀ q, s.fs q = fs q ∨ (∃ rest b, root ++ rest ∈ s.seen ∧ Task o work root out fs rest b ∧ q = out ++ rest ∧ s.fs q = some (.file b)) ∨
    (fs q = none ∧ s.fs q = some .dir ∧ ∃ rest b, root ++ rest ∈ s.seen ∧ Task o work root out fs rest b ∧ q <+: out ++ rest ∧ q ≠ out ++ rest)
  done : ∀ rest b, root ++ rest ∈ s.seen → Task o work root out fs rest b → (∃ c, (root ++ rest, c) ∈ s.held) ∨
    s.fs (out ++ rest) = some (.file b) ∧ ∀ a, a <+: out ++ rest → a ≠ out ++ rest → fs a = none → s.fs a = some .dir

theorem inv_start (o : Options) (work : Path → Bytes → Result) (root out : Path) (fs : FS) : Inv o work root out fs ⟨fs, [], []⟩ :=
  ⟨fun _ h => by simp at h, fun _ h => by simp at h, fun _ => Or.inl rfl, fun _ _ h => by simp at h⟩

theorem below {out r₁ r₂ : Path} (h : out ++ r₁ <+: out ++ r₂) (hne : out ++ r₁ ≠ out ++ r₂) (root : Path) : root ++ r₁ <+: root ++ r₂ ∧ root ++ r₂ ≠ root ++ r₁ := by
  obtain ⟨t, ht⟩ := h
  rw [List.append_assoc, List.append_cancel_left_eq] at ht
  exact ⟨⟨t, by rw [List.append_assoc, ht]⟩, fun e => hne (by rw [List.append_cancel_left_eq] at e ⊢; exact e.symm)⟩

theorem comparable {a b p : Path} (h₁ : a <+: p) (h₂ : b <+: p) : a <+: b ∨ b <+: a := List.prefix_or_prefix_of_prefix h₁ h₂

theorem prefix_of_scope {o : Options} {root p : Path} (h : inScope o root p = true) : root <+: p := by
  simp only [inScope, Bool.and_eq_true, decide_eq_true_eq] at h
  exact h.1.1

theorem inv_step {o : Options} {work : Path → Bytes → Result} {root out : Path} {fs : FS} (ho : o.output.bind List.head? = some out) (ht : Treelike fs)
    (ha : Apart root out) {s t : State} (i : Inv o work root out fs s) (h : Step o work root s t) : Inv o work root out fs t := by
  cases h with
  | @read p b hp hsc hsvg hf =>
    have hfile : fs p = some (.file b) := by
      rcases i.item p with h | ⟨rest, c, hs, _, hq, _⟩ | ⟨_, h, _⟩
      · rw [← h, hf]
      · exfalso
        rcases ha with rfl | ha
        · rw [← hq] at hs; exact hp hs
        · rcases comparable (prefix_of_scope hsc) (⟨rest, hq.symm⟩ : out <+: p) with h | h
          · exact ha.1 h
          · exact ha.2 h
      · rw [h] at hf; simp at hf
    refine ⟨?_, ?_, ?_, ?_⟩
    · intro x hx
      rcases List.mem_cons.1 hx with rfl | hx
      · exact ⟨List.mem_cons_self .., hfile⟩
      · exact ⟨List.mem_cons_of_mem _ (i.held x hx).1, (i.held x hx).2⟩
    · intro q hq
      rcases List.mem_cons.1 hq with rfl | hq
      · exact ⟨hsc, hsvg, b, hfile⟩
      · exact i.seen q hq
    · intro q
      rcases i.item q with h | ⟨rest, c, hs, h⟩ | ⟨h₁, h₂, rest, c, hs, h⟩
      · exact Or.inl h
      · exact Or.inr (Or.inl ⟨rest, c, List.mem_cons_of_mem _ hs, h⟩)
      · exact Or.inr (Or.inr ⟨h₁, h₂, rest, c, List.mem_cons_of_mem _ hs, h⟩)
    · intro rest c hs hT
      rcases List.mem_cons.1 hs with e | hs
      · exact Or.inl ⟨b, e ▸ List.mem_cons_self ..⟩
      · rcases i.done rest c hs hT with ⟨c', h⟩ | h
        · exact Or.inl ⟨c', List.mem_cons_of_mem _ h⟩
        · exact Or.inr h
  | @write l r p b d hl hd =>
    have hmem : (p, b) ∈ s.held := by rw [hl]; simp
    have hrest : ∀ x, x ∈ l ++ r → x ∈ s.held := by
      intro x hx
      rw [hl]
      rcases List.mem_append.1 hx with h | h <;> simp [h]
    obtain ⟨rest, rfl, rfl⟩ := dest_eq ho hd
    obtain ⟨hseen, hfile⟩ := i.held _ hmem
    -- whether the file can be made does not depend on what the others did
    have hfree : Free s.fs (out ++ rest) ↔ Free fs (out ++ rest) := by
      have anc : ∀ a, a <+: out ++ rest → a ≠ out ++ rest → ((∀ c, s.fs a ≠ some (.file c)) ↔ (∀ c, fs a ≠ some (.file c))) := by
        intro a hap hne
        rcases i.item a with h | ⟨r', c, hs, hT, rfl, h⟩ | ⟨h₁, h₂, _⟩
        · rw [h]
        · exfalso
          obtain ⟨hb₁, hb₂⟩ := below hap hne root
          obtain ⟨c', hc', _⟩ := hT.work
          rw [ht _ _ hc' _ hb₁ hb₂] at hfile
          simp at hfile
        · rw [h₁, h₂]; simp
      have self : s.fs (out ++ rest) ≠ some .dir ↔ fs (out ++ rest) ≠ some .dir := by
        rcases i.item (out ++ rest) with h | ⟨r', c, hs, hT, hq, h⟩ | ⟨h₁, h₂, r', c, hs, hT, hp, hne⟩
        · rw [h]
        · rw [h]
          refine ⟨fun _ => ?_, fun _ => by simp⟩
          rw [hq]
          exact hT.free.2
        · exfalso
          obtain ⟨hb₁, hb₂⟩ := below hp hne root
          obtain ⟨c', hc', _⟩ := hT.work
          rw [ht _ _ hfile _ hb₁ hb₂] at hc'
          simp at hc'
      exact ⟨fun h => ⟨fun a h₁ h₂ => (anc a h₁ h₂).1 (h.1 a h₁ h₂), self.1 h.2⟩, fun h => ⟨fun a h₁ h₂ => (anc a h₁ h₂).2 (h.1 a h₁ h₂), self.2 h.2⟩⟩
    have hsc := i.seen _ hseen
    by_cases hw : ∃ v, Task o work root out fs rest v
    · obtain ⟨v, hT⟩ := hw
      have hv : work (root ++ rest) b = .writes v ∨ work (root ++ rest) b = .breaks v := by
        obtain ⟨c, h₁, h₂⟩ := hT.work
        rw [hfile] at h₁
        simp only [Option.some.injEq, Item.file.injEq] at h₁
        rw [h₁]; exact h₂
      have he := emit_put (fs := s.fs) hv (creatable_iff.2 (hfree.2 hT.free))
      rw [he]
      have uniq : ∀ c, Task o work root out fs rest c → c = v := by
        intro c hc
        obtain ⟨c', h₁, h₂⟩ := hc.work
        rw [hfile] at h₁
        simp only [Option.some.injEq, Item.file.injEq] at h₁
        subst h₁
        rcases hv with hv | hv <;> rw [hv] at h₂ <;> (simp at h₂; exact h₂.symm)
      have none_of : ∀ q, s.fs q = none → fs q = none := by
        intro q hq
        rcases i.item q with h | ⟨_, _, _, _, _, h⟩ | ⟨h, _⟩
        · rw [← h, hq]
        · rw [hq] at h; simp at h
        · exact h
      refine ⟨fun x hx => i.held x (hrest x hx), i.seen, ?_, ?_⟩
      · intro q
        by_cases hq : q = out ++ rest
        · exact Or.inr (Or.inl ⟨rest, v, hseen, hT, hq, by simp [put, hq]⟩)
        · by_cases hp : q <+: out ++ rest ∧ s.fs q = none
          · exact Or.inr (Or.inr ⟨none_of q hp.2, by simp only [put, if_neg hq, if_pos hp], rest, v, hseen, hT, hp.1, hq⟩)
          · simp only [put, if_neg hq, if_neg hp]
            exact i.item q
      · intro r' c hs hT'
        by_cases e : r' = rest
        · subst e
          right
          refine ⟨by simp [put, uniq c hT'], fun a h₁ h₂ h₃ => ?_⟩
          simp only [put, if_neg h₂]
          by_cases hn : s.fs a = none
          · rw [if_pos ⟨h₁, hn⟩]
          · rw [if_neg (fun h => hn h.2)]
            rcases i.item a with h | ⟨r', _, _, hT'', rfl, h⟩ | ⟨_, h, _⟩
            · rw [h, h₃] at hn; simp at hn
            · obtain ⟨hb₁, hb₂⟩ := below h₁ h₂ root
              obtain ⟨c', hc', _⟩ := hT''.work
              rw [ht _ _ hc' _ hb₁ hb₂] at hfile
              simp at hfile
            · exact h
        · rcases i.done r' c hs hT' with ⟨c', h⟩ | ⟨h₁, h₂⟩
          · refine Or.inl ⟨c', ?_⟩
            rw [hl] at h
            rcases List.mem_append.1 h with h | h
            · exact List.mem_append_left _ h
            · rcases List.mem_cons.1 h with h | h
              · simp only [Prod.mk.injEq, List.append_cancel_left_eq] at h
                exact absurd h.1 e
              · exact List.mem_append_right _ h
          · refine Or.inr ⟨?_, fun a h₃ h₄ h₅ => ?_⟩
            · have hne : out ++ r' ≠ out ++ rest := by rw [Ne, List.append_cancel_left_eq]; exact e
              simp only [put, if_neg hne, h₁]
              rw [if_neg (by simp)]
            · have ha' := h₂ a h₃ h₄ h₅
              by_cases hq : a = out ++ rest
              · exfalso
                subst hq
                obtain ⟨hb₁, hb₂⟩ := below h₃ h₄ root
                obtain ⟨c', hc', _⟩ := hT'.work
                rw [ht _ _ hfile _ hb₁ hb₂] at hc'
                simp at hc'
              · simp only [put, if_neg hq, ha']
                rw [if_neg (by simp)]
    · have he : emit s.fs (some (out ++ rest)) (work (root ++ rest) b) = s.fs := by
        rcases emit_cases s.fs (some (out ++ rest)) (work (root ++ rest) b) with he | ⟨q, v, hq, hv, hc, _⟩
        · exact he
        · exfalso
          simp only [Option.some.injEq] at hq
          subst hq
          exact hw ⟨v, inScope_iff.1 hsc.1, isSvg_iff.1 hsc.2.1, ⟨b, hfile, hv⟩, hfree.1 (creatable_iff.1 hc)⟩
      rw [he]
      refine ⟨fun x hx => i.held x (hrest x hx), i.seen, i.item, ?_⟩
      intro r' c hs hT
      rcases i.done r' c hs hT with ⟨c', h⟩ | h
      · refine Or.inl ⟨c', ?_⟩
        rw [hl] at h
        rcases List.mem_append.1 h with h | h
        · exact List.mem_append_left _ h
        · rcases List.mem_cons.1 h with h | h
          · simp only [Prod.mk.injEq, List.append_cancel_left_eq] at h
            exact absurd ⟨c, h.1 ▸ hT⟩ hw
          · exact List.mem_append_right _ h
      · exact Or.inr h

theorem inv_steps {o : Options} {work : Path → Bytes → Result} {root out : Path} {fs : FS} (ho : o.output.bind List.head? = some out) (ht : Treelike fs)
    (ha : Apart root out) {s : State} (h : Steps o work root ⟨fs, [], []⟩ s) : Inv o work root out fs s := by
  generalize hs : (⟨fs, [], []⟩ : State) = s₀ at h
  induction h with
  | refl => subst hs; exact inv_start ..
  | tail _ h₂ ih => exact inv_step ho ht ha ih h₂

/-! ## Theorems -/

/-- **C66 (every result arrives, for every schedule).** A walk over `root` with an output that is `root` itself or apart from it, in whatever order and on however many threads: for every file that is to be handled and whose result can be
written, the file at the same place below the output has that result, and the directories above it are there. -/
theorem walk_written {o : Options} {work : Path → Bytes → Result} {root out : Path} {fs fs' : FS} (ho : o.output.bind List.head? = some out) (ht : Treelike fs)
    (ha : Apart root out) (h : Walked o work root fs fs') {rest : Path} {b : Bytes} (hT : Task o work root out fs rest b) :
    fs' (out ++ rest) = some (.file b) ∧ ∀ a, a <+: out ++ rest → a ≠ out ++ rest → fs a = none → fs' a = some .dir := by
  obtain ⟨s, hs, rfl, hh, hall⟩ := h
  have i := inv_steps ho ht ha hs
  obtain ⟨c, hc, _⟩ := hT.work
  rcases i.done rest b (hall _ _ hT.scope hT.svg hc) hT with ⟨c, h⟩ | h
  · rw [hh] at h; simp at h
  · exact h

/-- **C66 (nothing else changes, for every schedule).** What is at a path after such a walk was there before, is the result for the file at the same place, or is a directory made for a result below, where there was nothing. -/
theorem walk_else {o : Options} {work : Path → Bytes → Result} {root out : Path} {fs fs' : FS} (ho : o.output.bind List.head? = some out) (ht : Treelike fs)
    (ha : Apart root out) (h : Walked o work root fs fs') (q : Path) :
    fs' q = fs q ∨ (∃ rest b, Task o work root out fs rest b ∧ q = out ++ rest ∧ fs' q = some (.file b)) ∨
      (fs q = none ∧ fs' q = some .dir ∧ ∃ rest b, Task o work root out fs rest b ∧ q <+: out ++ rest ∧ q ≠ out ++ rest) := by
  obtain ⟨s, hs, rfl, _, _⟩ := h
  rcases (inv_steps ho ht ha hs).item q with h | ⟨rest, b, _, h⟩ | ⟨h₁, h₂, rest, b, _, h⟩
  · exact Or.inl h
  · exact Or.inr (Or.inl ⟨rest, b, h⟩)
  · exact Or.inr (Or.inr ⟨h₁, h₂, rest, b, h⟩)

/-- **C66 (the schedule does not matter).** Two such walks over the same files leave the same files, whatever the threads did. -/
theorem walk_same {o : Options} {work : Path → Bytes → Result} {root out : Path} {fs fs₁ fs₂ : FS} (ho : o.output.bind List.head? = some out) (ht : Treelike fs)
    (ha : Apart root out) (h₁ : Walked o work root fs fs₁) (h₂ : Walked o work root fs fs₂) : fs₁ = fs₂ := by
  funext q
  rcases walk_else ho ht ha h₁ q with e₁ | ⟨rest, b, hT, rfl, e₁⟩ | ⟨e₀, e₁, rest, b, hT, hp, hne⟩
  · rcases walk_else ho ht ha h₂ q with e₂ | ⟨rest, b, hT, rfl, e₂⟩ | ⟨e₀, e₂, rest, b, hT, hp, hne⟩
    · rw [e₁, e₂]
    · rw [e₂, (walk_written ho ht ha h₁ hT).1]
    · rw [e₂, (walk_written ho ht ha h₁ hT).2 q hp hne e₀]
  · rw [e₁, (walk_written ho ht ha h₂ hT).1]
  · rw [e₁, (walk_written ho ht ha h₂ hT).2 q hp hne e₀]

/-- **C66 (failures leave files alone).** If parsing a file or a job fails, the file at its place below the output is what it was. -/
theorem walk_fails {o : Options} {work : Path → Bytes → Result} {root out : Path} {fs fs' : FS} (ho : o.output.bind List.head? = some out) (ht : Treelike fs)
    (ha : Apart root out) (h : Walked o work root fs fs') {rest : Path} {c : Bytes} (hf : fs (root ++ rest) = some (.file c)) (hw : work (root ++ rest) c = .fails) :
    fs' (out ++ rest) = fs (out ++ rest) := by
  rcases walk_else ho ht ha h (out ++ rest) with e | ⟨r', b, hT, hq, _⟩ | ⟨_, _, r', b, hT, hp, hne⟩
  · exact e
  · exfalso
    rw [List.append_cancel_left_eq] at hq
    subst hq
    obtain ⟨c', h₁, h₂⟩ := hT.work
    rw [hf] at h₁
    simp only [Option.some.injEq, Item.file.injEq] at h₁
    subst h₁
    rw [hw] at h₂
    simp at h₂
  · exfalso
    obtain ⟨hb₁, hb₂⟩ := below hp hne root
    obtain ⟨c', hc', _⟩ := hT.work
    rw [ht _ _ hf _ hb₁ hb₂] at hc'
    simp at hc'

theorem steps_nothing {o : Options} {work : Path → Bytes → Result} (ho : o.output.bind List.head? = none) {root : Path} {s t : State}
    (h : Steps o work root s t) : t.fs = s.fs := by
  induction h with
  | refl => rfl
  | tail _ h₂ ih =>
    cases h₂ with
    | read => exact ih
    | write hl hd =>
      rw [dest, ho] at hd
      simp only [Option.some.injEq] at hd
      subst hd
      exact ih

/-- **C66 (no output, no change).** Without a path for the output no file changes, whatever paths are given. -/
theorem walk_nothing {o : Options} {work : Path → Bytes → Result} (ho : o.output.bind List.head? = none) {ps : List Path} {fs fs' : FS}
    (h : WalkedAll o work ps fs fs') : fs' = fs := by
  induction h with
  | nil => rfl
  | cons h _ ih =>
    rw [ih]
    obtain ⟨s, hs, rfl, _, _⟩ := h
    exact steps_nothing ho hs

/-- **C66 (a walk goes on to an end).** A thread that holds a file can always go on. -/
theorem walk_goes_on {o : Options} {work : Path → Bytes → Result} {root : Path} {s₀ s : State} (h₀ : s₀.held = []) (h : Steps o work root s₀ s) (hh : s.held ≠ []) :
    ∃ t, Step o work root s t ∧ t.held.length < s.held.length := by
  have hp : ∀ x ∈ s.held, root <+: x.1 := by
    clear hh
    induction h with
    | refl => intro x hx; rw [h₀] at hx; simp at hx
    | tail _ h₂ ih =>
      cases h₂ with
      | read _ hs _ _ =>
        intro x hx
        rcases List.mem_cons.1 hx with rfl | hx
        · exact prefix_of_scope hs
        · exact ih x hx
      | write hl _ =>
        intro x hx
        refine ih x ?_
        rw [hl]
        rcases List.mem_append.1 hx with h | h <;> simp [h]
  cases hs : s.held with
  | nil => exact absurd hs hh
  | cons x l =>
    obtain ⟨p, b⟩ := x
    have hpre : root <+: p := hp (p, b) (by rw [hs]; simp)
    have : ∃ d, dest o root p = some d := by
      rw [dest]
      cases o.output.bind List.head? with
      | none => exact ⟨_, rfl⟩
      | some out => simp only [if_pos hpre]; exact ⟨_, rfl⟩
    obtain ⟨d, hd⟩ := this
    exact ⟨_, Step.write (l := []) hs hd, by simp⟩

end Verif.Walk
