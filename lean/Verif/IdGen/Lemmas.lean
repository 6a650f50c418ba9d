import Verif.IdGen.Model

namespace Verif.IdGen

/-- ASCII letter. -/
def Letter (b : Nat) : Prop := (97 ≤ b ∧ b ≤ 122) ∨ (65 ≤ b ∧ b ≤ 90)

instance : DecidablePred Letter := fun b => by unfold Letter; infer_instance

/-- Position of a letter in the order a..z A..Z, from 1 on. -/
def rank (b : Nat) : Nat := if 97 ≤ b then b - 96 else b - 64 + 26

/-- Bijective base 52, little endian. -/
def val : Str → Nat
  | [] => 0
  | b :: bs => rank b + 52 * val bs

theorem rank_pos {b} (h : Letter b) : 1 ≤ rank b ∧ rank b ≤ 52 := by
  unfold Letter rank at *; split <;> omega

theorem rank_inj {a b} (ha : Letter a) (hb : Letter b) (h : rank a = rank b) : a = b := by
  unfold Letter rank at *; split at h <;> split at h <;> omega

theorem bump_letter {b} (h : Letter b) (inc) : Letter (bump b inc).1 := by
  unfold Letter bump at *; cases inc <;> simp <;> split <;> (try split) <;> simp_all <;> omega

theorem bump_val {b} (h : Letter b) (inc) :
    rank (bump b inc).1 + (if (bump b inc).2 then 52 else 0) = rank b + (if inc then 1 else 0) := by
  unfold Letter at h
  unfold bump rank
  cases inc
  · simp; have : ¬ (90 < b ∧ b < 97) := by omega
    have h2 : ¬ 122 < b := by omega
    simp [this, h2]
  · simp
    split
    · simp; split <;> omega
    · split
      · simp; split <;> omega
      · simp; split <;> split <;> omega

theorem bumpAll_letters (s : Str) (h : ∀ b ∈ s, Letter b) (inc) :
    ∀ b ∈ (bumpAll inc s).1, Letter b := by
  induction s generalizing inc with
  | nil => simp [bumpAll]
  | cons a s ih =>
    intro b hb
    simp only [bumpAll, List.mem_cons] at hb
    rcases hb with rfl | hb
    · exact bump_letter (h a (by simp)) inc
    · exact ih (fun b hb => h b (by simp [hb])) _ b hb

theorem bumpAll_length (s : Str) (inc) : (bumpAll inc s).1.length = s.length := by
  induction s generalizing inc with
  | nil => rfl
  | cons a s ih => simp [bumpAll, ih]

theorem bumpAll_val (s : Str) (h : ∀ b ∈ s, Letter b) (inc) :
    val (bumpAll inc s).1 + (if (bumpAll inc s).2 then 52 ^ s.length else 0)
      = val s + (if inc then 1 else 0) := by
  induction s generalizing inc with
  | nil => cases inc <;> simp [bumpAll, val]
  | cons a s ih =>
    have h1 := bump_val (h a (by simp)) inc
    have h2 := ih (fun b hb => h b (by simp [hb])) (bump a inc).2
    have e : bumpAll inc (a :: s) = ((bump a inc).1 :: (bumpAll (bump a inc).2 s).1,
      (bumpAll (bump a inc).2 s).2) := rfl
    rw [e]
    dsimp only
    simp only [val, List.length_cons, Nat.pow_succ]
    generalize (bumpAll (bump a inc).2 s).1 = t at *
    generalize (bumpAll (bump a inc).2 s).2 = u at *
    generalize (bump a inc).1 = v at *
    generalize (bump a inc).2 = i at *
    cases u <;> cases i <;> simp at * <;> omega

theorem val_append (s t : Str) : val (s ++ t) = val s + 52 ^ s.length * val t := by
  induction s with
  | nil => simp [val]
  | cons a s ih =>
    simp only [List.cons_append, val, List.length_cons, ih, Nat.pow_succ, Nat.mul_add]
    have : 52 * (52 ^ s.length * val t) = 52 ^ s.length * 52 * val t := by
      rw [← Nat.mul_assoc, Nat.mul_comm 52]
    omega

theorem succ_letters {s : Str} (h : ∀ b ∈ s, Letter b) : ∀ b ∈ succ s, Letter b := by
  have := bumpAll_letters s.reverse (by simpa using h) true
  unfold succ
  intro b hb
  dsimp only at hb
  split at hb
  · simp only [List.mem_cons, List.mem_reverse] at hb
    rcases hb with rfl | hb
    · unfold Letter; omega
    · exact this b hb
  · exact this b (by simpa using hb)

theorem succ_val {s : Str} (h : ∀ b ∈ s, Letter b) :
    val (succ s).reverse = val s.reverse + 1 := by
  have hv := bumpAll_val s.reverse (by simpa using h) true
  have hl := bumpAll_length s.reverse true
  unfold succ
  dsimp only
  split <;> rename_i hc
  · simp [hc] at hv
    simp [val_append, val, hl, rank]
    simp at hl; omega
  · simp [hc] at hv
    simpa using hv

theorem succ_length {s : Str} : s.length ≤ (succ s).length := by
  have hl := bumpAll_length s.reverse true
  unfold succ
  dsimp only
  split <;> simp [hl]

theorem succ_ne_nil {s : Str} : succ s ≠ [] := by
  have hl := bumpAll_length s.reverse true
  unfold succ
  dsimp only
  split
  · simp
  · rename_i hc
    intro h
    have : (bumpAll true s.reverse).1 = [] := by simpa using h
    rw [this] at hl
    have hs : s = [] := by simpa using hl.symm
    subst hs
    simp [bumpAll] at hc

theorem val_inj {s t : Str} (hs : ∀ b ∈ s, Letter b) (ht : ∀ b ∈ t, Letter b)
    (h : val s = val t) : s = t := by
  induction s generalizing t with
  | nil =>
    cases t with
    | nil => rfl
    | cons b t => have := rank_pos (ht b (by simp)); simp [val] at h; omega
  | cons a s ih =>
    cases t with
    | nil => have := rank_pos (hs a (by simp)); simp [val] at h; omega
    | cons b t =>
      have h1 := rank_pos (hs a (by simp)); have h2 := rank_pos (ht b (by simp))
      simp only [val] at h
      have h3 : val s = val t := by omega
      have h4 : rank a = rank b := by omega
      rw [ih (fun b hb => hs b (by simp [hb])) (fun b hb => ht b (by simp [hb])) h3,
        rank_inj (hs a (by simp)) (ht b (by simp)) h4]

/-- Value of an id in generation order. -/
def ord (s : Str) : Nat := val s.reverse

theorem ord_inj {s t : Str} (hs : ∀ b ∈ s, Letter b) (ht : ∀ b ∈ t, Letter b)
    (h : ord s = ord t) : s = t := by
  have := val_inj (s := s.reverse) (t := t.reverse) (by simpa using hs) (by simpa using ht) h
  simpa using this

/-- number of reserved ids that lie after `s` in generation order -/
def ahead (s : Str) (r : List Str) : Nat := (r.filter (fun x => ord s < ord x)).length

theorem ahead_le (s r) : ahead s r ≤ r.length := List.length_filter_le _ _

theorem ahead_lt {s : Str} {r : List Str} (hs : ∀ b ∈ s, Letter b) (hm : succ s ∈ r) :
    ahead (succ s) r < ahead s r := by
  unfold ahead
  have hv : ord (succ s) = ord s + 1 := succ_val hs
  rw [← List.countP_eq_length_filter, ← List.countP_eq_length_filter]
  induction r with
  | nil => simp at hm
  | cons a r ih =>
    have mono : ∀ l : List Str, List.countP (fun x => decide (ord (succ s) < ord x)) l
        ≤ List.countP (fun x => decide (ord s < ord x)) l := by
      intro l
      apply List.countP_mono_left
      intro x _ hx; simp at hx ⊢; omega
    simp only [List.countP_cons]
    rcases List.mem_cons.1 hm with h | h
    · subst h
      have := mono r
      have e : decide (ord s < ord (succ s)) = true := by simp; omega
      simp only [e, if_true]
      simp; omega
    · have := ih h
      simp only [decide_eq_true_eq]
      split <;> split <;> omega

/-- `next` succeeds, and what it gives. -/
theorem next_spec (fuel : Nat) (g : Gen) (hl : ∀ b ∈ g.current, Letter b)
    (hf : ahead g.current g.reserved < fuel) :
    ∃ s, next fuel g = some (s, { g with current := s }) ∧ (∀ b ∈ s, Letter b) ∧ s ≠ [] ∧
      s ∉ g.reserved ∧ ord g.current < ord s ∧ g.current.length ≤ s.length := by
  induction fuel generalizing g with
  | zero => omega
  | succ n ih =>
    simp only [next]
    have hv : ord (succ g.current) = ord g.current + 1 := succ_val hl
    by_cases hm : succ g.current ∈ g.reserved
    · rw [if_pos hm]
      have := ahead_lt hl hm
      obtain ⟨s, h1, h2, h3, h4, h5, h6⟩ := ih { g with current := succ g.current }
        (succ_letters hl) (by simp; omega)
      refine ⟨s, by simpa using h1, h2, h3, by simpa using h4, ?_, ?_⟩
      · simp at h5; omega
      · have := succ_length (s := g.current); simp at h6; omega
    · rw [if_neg hm]
      exact ⟨succ g.current, rfl, succ_letters hl, succ_ne_nil, hm, by omega, succ_length⟩

theorem next_fuel (g : Gen) (hl : ∀ b ∈ g.current, Letter b) :
    ∃ s, next g.fuel g = some (s, { g with current := s }) ∧ (∀ b ∈ s, Letter b) ∧ s ≠ [] ∧
      s ∉ g.reserved ∧ ord g.current < ord s ∧ g.current.length ≤ s.length :=
  next_spec _ g hl (by have := ahead_le g.current g.reserved; unfold Gen.fuel; omega)

end Verif.IdGen
