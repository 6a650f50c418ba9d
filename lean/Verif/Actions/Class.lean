import Verif.ClassList.Props

/-!
# C40: an action is applied once to every selected element

Model of `crates/oxvg_actions/src/actions/manipulate.rs` 61-81 (`Actor::class`) on class lists
(`Verif.ClassList`), and what it does to the elements of a selection.
-/

namespace Verif.Actions

open Verif.Names Verif.Attrs Verif.ClassList

variable {K : Type} [DecidableEq K]

/-- The attributes of the nodes that are elements. -/
abbrev Elems (K : Type) := Nat → Option (List (Attr K Val))

/-- `manipulate.rs` 68-78, one round of the loop: `find` is `Allocator::get`. -/
def classRound (T : Table K) (cls : K) (find : Int → Option Nat) (t : Str) (E : Elems K) (id : Int) : Elems K :=
  match find id with
  | none => E
  | some a => match E a with
    | none => E
    | some l => fun b => if b = a then some (toggle T cls ⟨l, 0⟩ t).1.attrs else E b

/-- `manipulate.rs` 61-81 (`class`), the part behind the history: `ids` are the selected ids. -/
def classAction (T : Table K) (cls : K) (find : Int → Option Nat) (t : Str) (E : Elems K) (ids : List Int) : Elems K :=
  ids.foldl (classRound T cls find t) E

/-- Specification: how often the node is named by the selected ids. -/
def times (find : Int → Option Nat) (ids : List Int) (a : Nat) : Nat := (ids.filterMap find).count a

/-- Specification: two states of an element that differ at most in whether they have the token: `flips` tells
whether they do. -/
def Flipped (T : Table K) (cls : K) (t : Str) (flips : Prop) (l l' : List (Attr K Val)) : Prop :=
  Ok T cls l' ∧ (t ∈ tokens T cls l' ↔ (flips ↔ t ∉ tokens T cls l)) ∧
  (tokens T cls l').filter (· ≠ t) = (tokens T cls l).filter (· ≠ t) ∧ others T cls l' = others T cls l

theorem round_self {T : Table K} {cls : K} {find : Int → Option Nat} {t : Str} {E : Elems K} {id : Int} {a : Nat}
    {l : List (Attr K Val)} (hf : find id = some a) (he : E a = some l) :
    classRound T cls find t E id a = some (toggle T cls ⟨l, 0⟩ t).1.attrs := by
  simp [classRound, hf, he]

theorem round_other {T : Table K} {cls : K} {find : Int → Option Nat} {t : Str} {E : Elems K} {id : Int} {a : Nat}
    (hf : find id ≠ some a) : classRound T cls find t E id a = E a := by
  unfold classRound
  cases h : find id with
  | none => rfl
  | some b =>
    have : a ≠ b := by rintro rfl; exact hf h
    cases h2 : E b with
    | none => simp [h2]
    | some l => simp [h2, this]

/-- **C40 (how often).** The class is toggled on an element as often as the selection names it. -/
theorem class_spec {T : Table K} {cls : K} (find : Int → Option Nat) (t : Str) (E : Elems K) (ids : List Int) {a : Nat}
    {l : List (Attr K Val)} (he : E a = some l) (ho : Ok T cls l) :
    ∃ l', classAction T cls find t E ids a = some l' ∧ Flipped T cls t (times find ids a % 2 = 1) l l' := by
  induction ids generalizing E l with
  | nil => exact ⟨l, he, ho, by simp [times], rfl, rfl⟩
  | cons id ids ih =>
    show ∃ l', classAction T cls find t (classRound T cls find t E id) ids a = some l' ∧ _
    by_cases hf : find id = some a
    · obtain ⟨o1, a1, b1, d1, e1⟩ := toggle_spec (c := ⟨l, 0⟩) ho t
      obtain ⟨l', h1, h2, h3, h4, h5⟩ := ih _ (round_self (T := T) (cls := cls) (t := t) hf he) o1
      refine ⟨l', h1, h2, ?_, h4.trans d1, h5.trans e1⟩
      have hm : times find (id :: ids) a = times find ids a + 1 := by simp [times, hf]
      have hx : t ∈ tokens T cls (toggle T cls ⟨l, 0⟩ t).1.attrs ↔ t ∉ tokens T cls l := by rw [← a1, b1]
      rw [h3, hm, hx]
      have hp : (times find ids a + 1) % 2 = 1 ↔ ¬ times find ids a % 2 = 1 := by omega
      rw [hp]
      by_cases h6 : times find ids a % 2 = 1 <;> by_cases h7 : t ∈ tokens T cls l <;> simp [h6, h7]
    · obtain ⟨l', h1, h2⟩ := ih _ ((round_other (T := T) (cls := cls) (t := t) (E := E) hf).trans he) ho
      refine ⟨l', h1, ?_⟩
      have hm : times find (id :: ids) a = times find ids a := by
        cases h : find id with
        | none => simp [times, h]
        | some b =>
          have : b ≠ a := by rintro rfl; exact hf h
          simp [times, h, this]
      rw [hm]
      exact h2

/-- **C40 (not selected).** Everything that is not selected stays as it is. -/
theorem class_untouched {T : Table K} {cls : K} (find : Int → Option Nat) (t : Str) (E : Elems K) (ids : List Int)
    {a : Nat} (h : ∀ id ∈ ids, find id ≠ some a) : classAction T cls find t E ids a = E a := by
  induction ids generalizing E with
  | nil => rfl
  | cons id ids ih =>
    show classAction T cls find t (classRound T cls find t E id) ids a = _
    rw [ih _ fun i hi => h i (by simp [hi]), round_other (h id (by simp))]

/-- **C40 (every element once).** If no element is selected twice, the class is toggled on every selected
element. -/
theorem class_partial {T : Table K} {cls : K} (find : Int → Option Nat) (t : Str) (E : Elems K) (ids : List Int)
    (hd : (ids.filterMap find).Nodup) {id : Int} (hid : id ∈ ids) {a : Nat} (hf : find id = some a)
    {l : List (Attr K Val)} (he : E a = some l) (ho : Ok T cls l) :
    ∃ l', classAction T cls find t E ids a = some l' ∧ Flipped T cls t True l l' := by
  obtain ⟨l', h1, h2, h3, h4⟩ := class_spec find t E ids he ho
  have : times find ids a = 1 := by
    have hm : a ∈ ids.filterMap find := List.mem_filterMap.2 ⟨id, hid, hf⟩
    have h5 : 0 < (ids.filterMap find).count a := List.count_pos_iff.2 hm
    have h6 := List.nodup_iff_count.1 hd a
    unfold times
    omega
  rw [this] at h3
  exact ⟨l', h1, h2, by simpa using h3, h4⟩

/-- **C40 (violated).** An element that is already selected and is selected again by `select_more` (the former
and the new ids follow each other, `actions/state.rs` 70-72) is toggled twice: its tokens stay as they were. -/
theorem class_violated {T : Table K} {cls : K} (find : Int → Option Nat) (t : Str) (E : Elems K) {old found : List Int}
    (h1 : (old.filterMap find).Nodup) (h2 : (found.filterMap find).Nodup) {a : Nat} (ha : a ∈ old.filterMap find)
    (hb : a ∈ found.filterMap find) {l : List (Attr K Val)} (he : E a = some l) (ho : Ok T cls l) :
    ∃ l', classAction T cls find t E (old ++ found) a = some l' ∧ Flipped T cls t False l l' := by
  obtain ⟨l', h3, h4, h5, h6⟩ := class_spec find t E (old ++ found) he ho
  have hone : ∀ {ids : List Int}, (ids.filterMap find).Nodup → a ∈ ids.filterMap find →
      (ids.filterMap find).count a = 1 := by
    intro ids hn hm
    have h5 : 0 < (ids.filterMap find).count a := List.count_pos_iff.2 hm
    have h6 := List.nodup_iff_count.1 hn a
    omega
  have : times find (old ++ found) a = 2 := by
    unfold times
    rw [List.filterMap_append, List.count_append, hone h1 ha, hone h2 hb]
  rw [this] at h5
  exact ⟨l', h3, h4, by simpa using h5, h6⟩

/-! ## Examples -/

/-- Two elements; the first has the class `a b`. -/
def demoElems : Elems (Fin 4) := fun n =>
  if n = 1 then some exCL.attrs else if n = 2 then some [] else none

/-- The ids are the nodes. -/
def demoFind (i : Int) : Option Nat := if i = 1 ∨ i = 2 then some i.toNat else none

example : (classAction exTable 3 demoFind (lit "a") demoElems [1, 2, 7] 1).map (tokens exTable 3) = some [lit "b"] ∧
    (classAction exTable 3 demoFind (lit "a") demoElems [1, 2, 7] 2).map (tokens exTable 3) = some [lit "a"] := by
  decide +kernel
example : (classAction exTable 3 demoFind (lit "b") demoElems ([1, 2] ++ [1]) 1).map (tokens exTable 3) =
    some [lit "a", lit "b"] := by decide +kernel

end Verif.Actions
