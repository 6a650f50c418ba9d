import Verif.IdGen.Lemmas

/-!
# C12: generated ids are distinct, valid and avoid reserved ids

A history is any interleaving of reserving an id (`insert_prevent_collision`) and taking an id (use
`current`, then `next`).
-/

namespace Verif.IdGen

/-- One use of the generator by the job. -/
inductive Op where
  | reserve (id : Str)
  | take

/-- Runs a history; gives the taken ids, latest last, each with the ids reserved at that time. `none`
would mean that the generator did not terminate. -/
def run : List Op → Gen → Option (List (Str × List Str) × Gen)
  | [], g => some ([], g)
  | .reserve id :: ops, g => (reserve id g).bind (run ops)
  | .take :: ops, g =>
    (take g).bind fun r => (run ops r.2).map fun q => ((r.1, g.reserved) :: q.1, q.2)

/-- The reachable states. -/
structure Inv (g : Gen) : Prop where
  letters : ∀ b ∈ g.current, Letter b
  nonempty : g.current ≠ []
  free : g.current ∉ g.reserved

theorem inv_default : Inv Gen.default := ⟨by simp [Gen.default, Letter], by simp [Gen.default], by simp [Gen.default]⟩

theorem reserve_inv {g : Gen} (h : Inv g) (id : Str) :
    ∃ g', reserve id g = some g' ∧ Inv g' ∧ g'.reserved = id :: g.reserved ∧
      ord g.current ≤ ord g'.current ∧ g.current.length ≤ g'.current.length := by
  unfold reserve
  dsimp only
  split
  · obtain ⟨s, h1, h2, h3, h4, h5, h6⟩ := next_fuel { g with reserved := id :: g.reserved } h.letters
    simp only at h1 h4 h5 h6
    rw [h1]
    exact ⟨_, rfl, ⟨h2, h3, h4⟩, rfl, by simp; omega, by simpa using h6⟩
  · rename_i hc
    exact ⟨_, rfl, ⟨h.letters, h.nonempty, hc⟩, rfl, Nat.le_refl _, Nat.le_refl _⟩

theorem take_inv {g : Gen} (h : Inv g) :
    ∃ g', take g = some (g.current, g') ∧ Inv g' ∧ g'.reserved = g.reserved ∧
      ord g.current < ord g'.current ∧ g.current.length ≤ g'.current.length := by
  unfold take
  obtain ⟨s, h1, h2, h3, h4, h5, h6⟩ := next_fuel g h.letters
  rw [h1]
  exact ⟨_, rfl, ⟨h2, h3, h4⟩, rfl, h5, h6⟩

/-- Every history runs through; the facts about taken ids that all claims below follow from. -/
theorem run_spec (ops : List Op) (g : Gen) (h : Inv g) :
    ∃ out g', run ops g = some (out, g') ∧ Inv g' ∧
      (∀ t ∈ out, (∀ b ∈ t.1, Letter b) ∧ t.1 ≠ [] ∧ t.1 ∉ t.2 ∧ ord g.current ≤ ord t.1 ∧
        g.current.length ≤ t.1.length ∧ ∀ x ∈ g.reserved, x ∈ t.2) ∧
      out.Pairwise (fun a b => ord a.1 < ord b.1 ∧ a.1.length ≤ b.1.length) := by
  induction ops generalizing g with
  | nil => exact ⟨[], g, rfl, h, by simp, List.Pairwise.nil⟩
  | cons op ops ih =>
    cases op with
    | reserve id =>
      obtain ⟨g1, e1, i1, r1, o1, l1⟩ := reserve_inv h id
      obtain ⟨out, g2, e2, i2, p2, q2⟩ := ih g1 i1
      refine ⟨out, g2, by simp [run, e1, e2], i2, ?_, q2⟩
      intro t ht
      obtain ⟨a, b, c, d, e, f⟩ := p2 t ht
      exact ⟨a, b, c, by omega, by omega, fun x hx => f x (by simp [r1, hx])⟩
    | take =>
      obtain ⟨g1, e1, i1, r1, o1, l1⟩ := take_inv h
      obtain ⟨out, g2, e2, i2, p2, q2⟩ := ih g1 i1
      refine ⟨(g.current, g.reserved) :: out, g2, by simp [run, e1, e2], i2, ?_, ?_⟩
      · intro t ht
        rcases List.mem_cons.1 ht with rfl | ht
        · exact ⟨h.letters, h.nonempty, h.free, Nat.le_refl _, Nat.le_refl _, fun x hx => hx⟩
        · obtain ⟨a, b, c, d, e, f⟩ := p2 t ht
          exact ⟨a, b, c, by omega, by omega, fun x hx => f x (by simpa [r1] using hx)⟩
      · refine List.Pairwise.cons (fun t ht => ?_) q2
        obtain ⟨a, b, c, d, e, f⟩ := p2 t ht
        exact ⟨by simp; omega, by simp; omega⟩

/-- **C12 (termination).** No history makes the generator run forever: the bounded model never runs
out of fuel. -/
theorem ids_terminate (ops : List Op) : (run ops Gen.default).isSome := by
  obtain ⟨out, g', e, -⟩ := run_spec ops _ inv_default
  simp [e]

/-- **C12 (distinct).** In every history all ids taken are different. -/
theorem ids_distinct (ops : List Op) {out g'} (h : run ops Gen.default = some (out, g')) :
    (out.map (·.1)).Nodup := by
  obtain ⟨out1, g1, e, _, _, q⟩ := run_spec ops _ inv_default
  rw [e] at h
  obtain ⟨rfl, rfl⟩ := by simpa using h
  rw [List.nodup_iff_pairwise_ne, List.pairwise_map]
  exact q.imp (fun h e => by rw [e] at h; omega)

/-- **C12 (valid).** Every id taken is a non-empty string of ASCII letters. -/
theorem ids_valid (ops : List Op) {out g'} (h : run ops Gen.default = some (out, g')) :
    ∀ t ∈ out, t.1 ≠ [] ∧ ∀ b ∈ t.1, (97 ≤ b ∧ b ≤ 122) ∨ (65 ≤ b ∧ b ≤ 90) := by
  obtain ⟨out1, g1, e, _, p, _⟩ := run_spec ops _ inv_default
  rw [e] at h
  obtain ⟨rfl, rfl⟩ := by simpa using h
  exact fun t ht => ⟨(p t ht).2.1, (p t ht).1⟩

/-- **C12 (reserved).** No id taken was reserved at the time of taking it. -/
theorem ids_avoid_reserved (ops : List Op) {out g'} (h : run ops Gen.default = some (out, g')) :
    ∀ t ∈ out, t.1 ∉ t.2 := by
  obtain ⟨out1, g1, e, _, p, _⟩ := run_spec ops _ inv_default
  rw [e] at h
  obtain ⟨rfl, rfl⟩ := by simpa using h
  exact fun t ht => (p t ht).2.2.1

/-- **C12 (shortest first).** Ids are taken in order of non-decreasing length. -/
theorem ids_length_monotone (ops : List Op) {out g'} (h : run ops Gen.default = some (out, g')) :
    (out.map (·.1.length)).Pairwise (· ≤ ·) := by
  obtain ⟨out1, g1, e, _, _, q⟩ := run_spec ops _ inv_default
  rw [e] at h
  obtain ⟨rfl, rfl⟩ := by simpa using h
  rw [List.pairwise_map]
  exact q.imp (fun h => h.2)

theorem run_reserves (ids : List Str) (n : Nat) (g : Gen) :
    run (ids.map Op.reserve ++ List.replicate n Op.take) g
      = (ids.foldlM (fun g id => reserve id g) g).bind (run (List.replicate n Op.take)) := by
  induction ids generalizing g with
  | nil => rfl
  | cons a ids ih => simp [run]; cases reserve a g <;> simp [ih]

/-- **C12 (as the job uses it).** When all reservations come first, as in the job, none of the ids
taken afterwards is one of the reserved ids. -/
theorem ids_disjoint (ids : List Str) (n : Nat) {out g'}
    (h : run (ids.map Op.reserve ++ List.replicate n Op.take) Gen.default = some (out, g')) :
    out.length = n ∧ ∀ t ∈ out, t.1 ∉ ids := by
  have key : ∀ (ids : List Str) (g : Gen), Inv g → ∃ g1, ids.foldlM (fun g id => reserve id g) g = some g1
      ∧ Inv g1 ∧ ∀ x, x ∈ ids ∨ x ∈ g.reserved → x ∈ g1.reserved := by
    intro ids
    induction ids with
    | nil => intro g hg; exact ⟨g, rfl, hg, by simp⟩
    | cons a ids ih =>
      intro g hg
      obtain ⟨g1, e1, i1, r1, -, -⟩ := reserve_inv hg a
      obtain ⟨g2, e2, i2, r2⟩ := ih g1 i1
      refine ⟨g2, by simp [e1, e2], i2, fun x hx => r2 x ?_⟩
      rw [r1]; grind
  have len : ∀ n g out g', run (List.replicate n Op.take) g = some (out, g') → out.length = n := by
    intro n
    induction n with
    | zero => intro g out g' h; simp [run] at h; simp [← h.1]
    | succ n ih =>
      intro g out g' h
      simp only [List.replicate_succ, run, Option.bind_eq_some_iff, Option.map_eq_some_iff] at h
      obtain ⟨r, hr, q, hq, he⟩ := h
      have := ih _ _ _ hq
      simp only [Prod.mk.injEq] at he
      simp [← he.1, this]
  obtain ⟨g1, e1, i1, r1⟩ := key ids _ inv_default
  rw [run_reserves, e1] at h
  obtain ⟨out1, g2, e2, _, p, _⟩ := run_spec (List.replicate n Op.take) g1 i1
  simp only [Option.bind_some] at h
  refine ⟨len _ _ _ _ h, fun t ht hm => ?_⟩
  rw [e2] at h
  obtain ⟨rfl, rfl⟩ := by simpa using h
  obtain ⟨_, _, c, _, _, f⟩ := p t ht
  exact c (f _ (r1 _ (Or.inl hm)))

/-- Non-trivial case: with "b" and "c" reserved the ids taken are "a", "d", "e". -/
example : (run [.reserve [98], .reserve [99], .take, .take, .take] Gen.default).map (fun r => r.1.map (·.1))
    = some [[97], [100], [101]] := by decide

/-- Non-trivial case: the carry "Z" -> "aa". -/
example : succ [90] = [97, 97] ∧ succ [122] = [65] ∧ succ [97, 90, 90] = [98, 97, 97] := by decide

end Verif.IdGen
