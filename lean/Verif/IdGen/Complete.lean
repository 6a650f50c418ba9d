import Verif.IdGen.Props

/-!
# C12: no short id is skipped

Every string of letters that is shorter than an id that was taken was taken as well or is reserved, so that the ids are as short as they
can be.
-/

namespace Verif.IdGen

/-- The least value of a string of `n` letters. -/
def least : Nat → Nat
  | 0 => 0
  | n + 1 => 1 + 52 * least n

theorem least_mono {m n : Nat} (h : m ≤ n) : least m ≤ least n := by
  induction h with
  | refl => exact Nat.le_refl _
  | step _ ih => simp only [Nat.succ_eq_add_one, least]; omega

theorem val_bounds {s : Str} (h : ∀ b ∈ s, Letter b) : least s.length ≤ val s ∧ val s < least (s.length + 1) := by
  induction s with
  | nil => simp [least, val]
  | cons a s ih =>
    have h1 := rank_pos (h a (by simp))
    have h2 := ih fun b hb => h b (by simp [hb])
    simp only [List.length_cons, least, val] at *
    omega

theorem ord_lt {s t : Str} (hs : ∀ b ∈ s, Letter b) (ht : ∀ b ∈ t, Letter b) (h : s.length < t.length) : ord s < ord t := by
  have h1 := (val_bounds (s := s.reverse) (by simpa using hs)).2
  have h2 := (val_bounds (s := t.reverse) (by simpa using ht)).1
  rw [List.length_reverse] at h1 h2
  have := least_mono (show s.length + 1 ≤ t.length from h)
  unfold ord
  omega

theorem next_between {fuel : Nat} {g : Gen} (hl : ∀ b ∈ g.current, Letter b) {r : Str × Gen} (h : next fuel g = some r) :
    r.1 = r.2.current ∧ ∀ w, (∀ b ∈ w, Letter b) → ord g.current < ord w → ord w < ord r.1 → w ∈ g.reserved := by
  induction fuel generalizing g with
  | zero => cases h
  | succ n ih =>
    simp only [next] at h
    have hv : ord (succ g.current) = ord g.current + 1 := succ_val hl
    split at h
    · next hm =>
      obtain ⟨h1, h2⟩ := ih (g := { g with current := succ g.current }) (succ_letters hl) h
      refine ⟨h1, fun w hw a b => ?_⟩
      by_cases e : ord w = ord (succ g.current)
      · rw [ord_inj hw (succ_letters hl) e]; exact hm
      · exact h2 w hw (show ord (succ g.current) < ord w by omega) b
    · cases h
      exact ⟨rfl, fun w _ a b => absurd b (by simp only; omega)⟩

theorem reserve_between {g g' : Gen} (hl : ∀ b ∈ g.current, Letter b) {id : Str} (h : reserve id g = some g') :
    ∀ w, (∀ b ∈ w, Letter b) → ord g.current ≤ ord w → ord w < ord g'.current → w ∈ id :: g.reserved := by
  intro w hw a b
  unfold reserve at h
  dsimp only at h
  split at h
  · next hc =>
    cases hn : next ({ g with reserved := id :: g.reserved } : Gen).fuel { g with reserved := id :: g.reserved } with
    | none => rw [hn] at h; cases h
    | some r =>
      rw [hn] at h
      cases h
      obtain ⟨h1, h2⟩ := next_between (g := { g with reserved := id :: g.reserved }) hl hn
      by_cases e : ord w = ord g.current
      · rw [ord_inj hw hl e]; exact hc
      · exact h2 w hw (show ord g.current < ord w by omega) (by rw [h1]; exact b)
  · cases h
    dsimp only at b
    omega

theorem run_between (ops : List Op) {g : Gen} (hg : Inv g) {out g'} (h : run ops g = some (out, g')) :
    ord g.current ≤ ord g'.current ∧ (∀ t ∈ out, ord t.1 < ord g'.current) ∧
      ∀ w, (∀ b ∈ w, Letter b) → ord g.current ≤ ord w → ord w < ord g'.current →
        w ∈ out.map (·.1) ∨ w ∈ g.reserved ∨ Op.reserve w ∈ ops := by
  induction ops generalizing g out with
  | nil =>
    simp only [run, Option.some.injEq, Prod.mk.injEq] at h
    obtain ⟨rfl, rfl⟩ := h
    exact ⟨Nat.le_refl _, by simp, fun w _ a b => by omega⟩
  | cons op ops ih =>
    cases op with
    | reserve id =>
      obtain ⟨g1, e1, i1, r1, o1, -⟩ := reserve_inv hg id
      simp only [run, e1, Option.bind_some] at h
      obtain ⟨h1, h2, h3⟩ := ih i1 h
      refine ⟨by omega, h2, fun w hw a b => ?_⟩
      by_cases c : ord w < ord g1.current
      · rcases List.mem_cons.mp (reserve_between hg.letters e1 w hw a c) with rfl | m
        · exact .inr (.inr (by simp))
        · exact .inr (.inl m)
      · rcases h3 w hw (by omega) b with m | m | m
        · exact .inl m
        · rw [r1] at m
          rcases List.mem_cons.mp m with rfl | m
          · exact .inr (.inr (by simp))
          · exact .inr (.inl m)
        · exact .inr (.inr (List.mem_cons_of_mem _ m))
    | take =>
      obtain ⟨g1, e1, i1, r1, o1, -⟩ := take_inv hg
      simp only [run, e1, Option.bind_some] at h
      cases hr : run ops g1 with
      | none => rw [hr] at h; cases h
      | some q =>
        rw [hr] at h
        simp only [Option.map_some, Option.some.injEq, Prod.mk.injEq] at h
        obtain ⟨rfl, rfl⟩ := h
        obtain ⟨h1, h2, h3⟩ := ih (out := q.1) i1 hr
        refine ⟨by omega, ?_, fun w hw a b => ?_⟩
        · intro t ht
          rcases List.mem_cons.mp ht with rfl | ht
          · show ord g.current < _; omega
          · exact h2 t ht
        · by_cases c : ord w < ord g1.current
          · by_cases e : ord w = ord g.current
            · left; rw [ord_inj hw hg.letters e]; simp
            · right; left
              unfold take at e1
              cases hn : next g.fuel g with
              | none => rw [hn] at e1; cases e1
              | some r =>
                rw [hn] at e1
                simp only [Option.map_some, Option.some.injEq, Prod.mk.injEq, true_and] at e1
                obtain ⟨n1, n2⟩ := next_between hg.letters hn
                exact n2 w hw (by omega) (by rw [n1, e1]; exact c)
          · rcases h3 w hw (by omega) b with m | m | m
            · exact .inl (by rw [List.map_cons]; exact List.mem_cons_of_mem _ m)
            · exact .inr (.inl (r1 ▸ m))
            · exact .inr (.inr (List.mem_cons_of_mem _ m))

/-- **C12 (no short id is skipped).** In every history, each string of letters that is shorter than an id that was taken was taken too or
was reserved. -/
theorem ids_none_skipped (ops : List Op) {out g'} (h : run ops Gen.default = some (out, g')) {t : Str × List Str} (ht : t ∈ out) {w : Str}
    (hw : ∀ b ∈ w, (97 ≤ b ∧ b ≤ 122) ∨ (65 ≤ b ∧ b ≤ 90)) (hne : w ≠ []) (hlen : w.length < t.1.length) :
    w ∈ out.map (·.1) ∨ Op.reserve w ∈ ops := by
  obtain ⟨-, h2, h3⟩ := run_between ops inv_default h
  have hv := ids_valid ops h t ht
  have hlt : ord w < ord t.1 := ord_lt hw hv.2 hlen
  have hpos : ord Gen.default.current ≤ ord w := by
    have h1 := (val_bounds (s := w.reverse) fun b hb => hw b (List.mem_reverse.mp hb)).1
    rw [List.length_reverse] at h1
    have h0 : 1 ≤ w.length := List.length_pos_iff.mpr hne
    have := least_mono h0
    have e : ord Gen.default.current = least 1 := by decide
    unfold ord at *
    omega
  rcases h3 w hw hpos (Nat.lt_trans hlt (h2 t ht)) with m | m | m
  · exact .inl m
  · cases m
  · exact .inr m

/-- With `b` reserved, the ids taken before the first id of two letters are `a` and those from `c` to `Z`; `b` was reserved. -/
example : ∃ out g', run (.reserve [98] :: List.replicate 52 .take) Gen.default = some (out, g') ∧ ([97, 97], [[98]]) ∈ out ∧
    ([90] ∈ out.map (·.1) ∨ Op.reserve [90] ∈ Op.reserve [98] :: List.replicate 52 .take) := by
  obtain ⟨q, hq⟩ := Option.isSome_iff_exists.mp (ids_terminate (.reserve [98] :: List.replicate 52 .take))
  have hm : ([97, 97], [[98]]) ∈ q.1 := by
    have : (run (.reserve [98] :: List.replicate 52 .take) Gen.default).map (fun r => decide (([97, 97], [[98]]) ∈ r.1)) = some true := by
      decide +kernel
    rw [hq] at this
    simpa using this
  exact ⟨q.1, q.2, hq, hm, ids_none_skipped _ (out := q.1) (g' := q.2) hq hm (by decide) (by decide) (by decide)⟩

end Verif.IdGen
