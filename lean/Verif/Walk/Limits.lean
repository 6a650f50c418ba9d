import Verif.Walk.Props

/-!
# Examples, and where the property fails
-/

namespace Verif.Walk

open Verif.Names (Str lit)

def r : Str := lit "r"
def x : Str := lit "x.svg"
def y : Str := lit "y"

/-- A disk with the directory `r` and in it the file `x.svg`. -/
def disk : FS := fun p => if p = [] ∨ p = [r] then some .dir else if p = [r, x] then some (.file [1, 2]) else none

/-- A job that writes what it reads, and one byte more. -/
def copy : Path → Bytes → Result := fun _ b => .writes (b ++ [0])

def opts (out : Option (List Path)) (paths : List Path) : Options := ⟨paths, out, true, fun _ => false⟩

theorem disk_file {p : Path} {b : Bytes} (h : disk p = some (.file b)) : p = [r, x] ∧ b = [1, 2] := by
  unfold disk at h
  split at h
  · simp at h
  · split at h
    · rename_i e; exact ⟨e, by simpa using h.symm⟩
    · simp at h

theorem disk_tree : Treelike disk := by
  intro p b h q hq hne
  obtain ⟨rfl, _⟩ := disk_file h
  obtain ⟨t, rfl⟩ := hq
  cases t with
  | nil => exact absurd rfl hne
  | cons a t => simp [disk]

/-- One file read and written. -/
theorem walked_one (o : Options) (work : Path → Bytes → Result) {d : Option Path} (hd : dest o [r] [r, x] = some d) (hs : inScope o [r] [r, x] = true) :
    Walked o work [r] disk (emit disk d (work [r, x] [1, 2])) := by
  refine ⟨⟨emit disk d (work [r, x] [1, 2]), [], [[r, x]]⟩, ?_, rfl, rfl, ?_⟩
  · refine .tail (.tail (.refl _) (.read (p := [r, x]) (b := [1, 2]) (by simp) hs (by decide) (by decide))) ?_
    exact Step.write (l := []) (r := []) rfl hd
  · intro p b _ _ h
    obtain ⟨rfl, _⟩ := disk_file h
    simp

/-- The theorems apply: with the output `y`, the result is at `y/x.svg`, in every walk. -/
example {fs' : FS} (h : Walked (opts (some [[y]]) [[r]]) copy [r] disk fs') : fs' [y, x] = some (.file [1, 2, 0]) ∧ fs' [y] = some .dir ∧ fs' [r, x] = some (.file [1, 2]) := by
  have ha : Apart [r] [y] := Or.inr ⟨by decide, by decide⟩
  have hT : Task (opts (some [[y]]) [[r]]) copy [r] [y] disk [x] [1, 2, 0] :=
    ⟨inScope_iff.1 (by decide), isSvg_iff.1 (by decide), ⟨[1, 2], by decide, Or.inl rfl⟩, creatable_iff.1 (by decide)⟩
  have hw := walk_written rfl disk_tree ha h hT
  refine ⟨hw.1, hw.2 [y] (by decide) (by decide) (by decide), ?_⟩
  rcases walk_else rfl disk_tree ha h [r, x] with e | ⟨rest, b, _, hq, _⟩ | ⟨e, _⟩
  · rw [e]; decide
  · exact absurd (congrArg List.head? hq) (by simp; decide)
  · exact absurd e (by decide)

/-- In place: `-o r`. -/
example {fs' : FS} (h : Walked (opts (some [[r]]) [[r]]) copy [r] disk fs') : fs' [r, x] = some (.file [1, 2, 0]) :=
  (walk_written rfl disk_tree (Or.inl rfl) h (rest := [x]) ⟨inScope_iff.1 (by decide), isSvg_iff.1 (by decide), ⟨[1, 2], by decide, Or.inl rfl⟩, creatable_iff.1 (by decide)⟩).1

/-- There are such walks. -/
example : ∃ fs', Walked (opts (some [[r]]) [[r]]) copy [r] disk fs' := ⟨_, walked_one _ _ rfl (by decide)⟩

/-- **C66 (`--output` without value, violated).** The help says that the flag without a value uses the input (walk.rs 21-23). Whatever the files are, no file changes. -/
theorem inplace_violated {work : Path → Bytes → Result} {o : Options} (ho : o.output = some []) {ps : List Path} {fs fs' : FS} (h : WalkedAll o work ps fs fs') : fs' = fs :=
  walk_nothing (by rw [ho]; rfl) h

/-- **C66 (output within the input, violated).** With `-o r/y` for the directory `r`, the walker may come across results. Two schedules leave different files. -/
theorem within_violated : ∃ o : Options, ∃ fs₁ fs₂ : FS, Walked o copy [r] disk fs₁ ∧ Walked o copy [r] disk fs₂ ∧ fs₁ [r, y, y, x] = none ∧ fs₂ [r, y, y, x] = some (.file [1, 2, 0, 0]) := by
  refine ⟨opts (some [[r, y]]) [[r]], _, ?_, walked_one _ _ (d := some [r, y, x]) (by decide) (by decide), ?_, ?_, ?_⟩
  · exact emit (emit disk (some [r, y, x]) (copy [r, x] [1, 2])) (some [r, y, y, x]) (copy [r, y, x] [1, 2, 0])
  · refine ⟨⟨_, [], [[r, y, x], [r, x]]⟩, ?_, rfl, rfl, ?_⟩
    · have s₂ : Steps (opts (some [[r, y]]) [[r]]) copy [r] ⟨disk, [], []⟩ ⟨emit disk (some [r, y, x]) (copy [r, x] [1, 2]), [], [[r, x]]⟩ := by
        refine .tail (.tail (.refl _) (.read (p := [r, x]) (b := [1, 2]) (by simp) (by decide) (by decide) (by decide))) ?_
        exact Step.write (l := []) (r := []) rfl (by decide)
      refine .tail (.tail s₂ (.read (p := [r, y, x]) (b := [1, 2, 0]) (by decide) (by decide) (by decide) (by decide))) ?_
      exact Step.write (p := [r, y, x]) (b := [1, 2, 0]) (l := []) (r := []) (d := some [r, y, y, x]) rfl (by decide)
    · intro p b _ _ h
      obtain ⟨rfl, _⟩ := disk_file h
      simp
  · decide
  · decide

/-- **C66 (several inputs, violated).** `oxvg optimise a.svg b.svg -o out.svg` writes both results to the same file: that of the first is lost. -/
theorem several_violated : ∃ o : Options, ∃ fs fs' : FS, Treelike fs ∧ fs [x] = some (.file [1]) ∧ fs [lit "b.svg"] = some (.file [2]) ∧
    WalkedAll o copy [[x], [lit "b.svg"]] fs fs' ∧ ∀ p, fs' p ≠ some (.file [1, 0]) := by
  let fs : FS := fun p => if p = [x] then some (.file [1]) else if p = [lit "b.svg"] then some (.file [2]) else none
  let fs₁ := emit fs (some [y]) (copy [x] [1])
  let fs₂ := emit fs₁ (some [y]) (copy [lit "b.svg"] [2])
  have hfs : ∀ p b, fs p = some (.file b) → p = [x] ∧ b = [1] ∨ p = [lit "b.svg"] ∧ b = [2] := by
    intro p b h
    simp only [fs] at h
    split at h
    · rename_i e; exact Or.inl ⟨e, by simpa using h.symm⟩
    · split at h
      · rename_i e; exact Or.inr ⟨e, by simpa using h.symm⟩
      · simp at h
  have hput : fs₁ = put fs [y] [1, 0] := rfl
  have hput₂ : fs₂ = put fs₁ [y] [2, 0] := rfl
  refine ⟨opts (some [[y]]) [[x], [lit "b.svg"]], fs, fs₂, ?_, by decide, by decide, .cons (fs' := fs₁) ?_ (.cons (fs' := fs₂) ?_ (.nil _)), ?_⟩
  · intro p b h q hq hne
    have key : ∀ n : Str, p = [n] → fs q = none := by
      rintro n rfl
      obtain ⟨t, rfl⟩ := hq
      cases t with
      | nil => exact absurd rfl hne
      | cons a t => simp [fs]
    rcases hfs p b h with ⟨h, _⟩ | ⟨h, _⟩ <;> exact key _ h
  · refine ⟨⟨fs₁, [], [[x]]⟩, ?_, rfl, rfl, ?_⟩
    · refine .tail (.tail (.refl _) (.read (p := [x]) (b := [1]) (by simp) (by decide) (by decide) (by decide))) ?_
      exact Step.write (l := []) (r := []) rfl (by decide)
    · intro p b hs _ h
      rcases hfs p b h with ⟨rfl, _⟩ | ⟨rfl, _⟩
      · simp
      · exact absurd hs (by decide)
  · refine ⟨⟨fs₂, [], [[lit "b.svg"]]⟩, ?_, rfl, rfl, ?_⟩
    · refine .tail (.tail (.refl _) (.read (p := [lit "b.svg"]) (b := [2]) (by simp) (by decide) (by decide) (by decide))) ?_
      exact Step.write (l := []) (r := []) rfl (by decide)
    · intro p b hs _ h
      rw [hput, put] at h
      split at h
      · rename_i e; subst e; exact absurd hs (by decide)
      · split at h
        · simp at h
        · rcases hfs p b h with ⟨rfl, _⟩ | ⟨rfl, _⟩
          · exact absurd hs (by decide)
          · simp
  · intro p h
    rw [hput₂, put] at h
    split at h
    · simp at h
    · split at h
      · simp at h
      · rename_i hne _
        rw [hput, put, if_neg hne] at h
        split at h
        · simp at h
        · rcases hfs p _ h with ⟨_, h⟩ | ⟨_, h⟩ <;> simp at h

/-- **C66 (an error while writing, violated).** The file is emptied before the document is written: if serialising fails, an input that is its own output is lost. -/
theorem torn_violated : ∃ o : Options, ∃ fs' : FS, Walked o (fun _ _ => .breaks []) [r] disk fs' ∧ fs' [r, x] = some (.file []) :=
  ⟨opts (some [[r]]) [[r]], _, walked_one _ _ (d := some [r, x]) rfl (by decide), by decide⟩

/-- **C66 (the current directory, violated).** `oxvg optimise .` reads the standard input rather than the directory, if that is not a terminal (in scripts, say). -/
theorem dot_violated (o : Options) (h : o.paths = [[lit "."]]) : start o false = .stdin (o.output.bind List.head?) ∧ start o true = .walk [[lit "."]] := by
  simp [start, h]

/-- **C66 (names of files, violated).** A file given by name is passed over if its extension is not `svg` in small letters. -/
theorem extension_violated : isSvg [r, lit "x.SVG"] = false ∧ isSvg [r, lit "x"] = false ∧ isSvg [r, lit "x.svg"] = true := by decide

/-- A path that is to be handled, but the output is a directory that exists: nothing is written. -/
example : emit (fun p => if p = [y] then some .dir else none) (some [y]) (.writes [1]) [y] = some .dir := by decide

end Verif.Walk
