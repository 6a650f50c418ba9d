import Mathlib.Tactic.Linarith
import Mathlib.Tactic.Ring
import Mathlib.Tactic.FieldSimp
import Verif.Gjk.Model

/-!
# The support of a convex hull
-/

namespace Verif.Gjk

variable {K : Type} [Field K] [LinearOrder K] [IsStrictOrderedRing K]

/-! ## Order -/

/-- From left to right, and upwards where that is the same. -/
def Le (a b : Pt K) : Prop := a.1 < b.1 ∨ a.1 = b.1 ∧ a.2 ≤ b.2

theorem le_iff (a b : Pt K) : le a b = true ↔ Le a b := by
  simp only [le, decide_eq_true_eq, Le]
  split
  · next h => simp [h]
  · next h => exact ⟨fun h' => .inl (lt_of_le_of_ne h' h), fun h' => h'.elim le_of_lt fun h' => absurd h'.1 h⟩

theorem Le.trans {a b c : Pt K} (h : Le a b) (h' : Le b c) : Le a c := by
  rcases h with h | ⟨h, k⟩ <;> rcases h' with h' | ⟨h', k'⟩
  · exact .inl (lt_trans h h')
  · exact .inl (h' ▸ h)
  · exact .inl (h ▸ h')
  · exact .inr ⟨h.trans h', le_trans k k'⟩

theorem Le.total (a b : Pt K) : Le a b ∨ Le b a := by
  rcases lt_trichotomy a.1 b.1 with h | h | h
  · exact .inl (.inl h)
  · rcases le_total a.2 b.2 with k | k
    · exact .inl (.inr ⟨h, k⟩)
    · exact .inr (.inr ⟨h.symm, k⟩)
  · exact .inr (.inl h)

theorem Le.fst {a b : Pt K} (h : Le a b) : a.1 ≤ b.1 := h.elim le_of_lt fun h => le_of_eq h.1

theorem sorted (ps : List (Pt K)) : (sortBy le ps).Pairwise Le := by
  have := sortBy_pairwise (le := le (K := K)) (fun a b c h h' => (le_iff a c).mpr (((le_iff a b).mp h).trans ((le_iff b c).mp h')))
    (fun a b => (Le.total a b).imp (le_iff a b).mpr (le_iff b a).mpr) ps
  exact this.imp fun h => (le_iff _ _).mp h

/-! ## The loop for the lower part -/

/-- Consecutive points turn left; the last point is the head of the list. -/
def Turn : List (Pt K) → Prop
  | a :: b :: c :: l => 0 < cross c b a ∧ Turn (b :: c :: l)
  | _ => True

theorem Turn.tail {a : Pt K} {l : List (Pt K)} (h : Turn (a :: l)) : Turn l := by
  match l, h with
  | [], _ => trivial
  | [_], _ => trivial
  | _ :: _ :: _, h => exact h.2

/-- A point above the line between its neighbours is not the lowest. -/
theorem middle {a b p d : Pt K} (hba : Le b a) (hap : Le a p) (hc : cross b a p ≤ 0) (hd : d.2 ≤ 0) : dot a d ≤ dot b d ∨ dot a d ≤ dot p d := by
  by_contra hcon
  simp only [not_or, not_le] at hcon
  obtain ⟨h1, h2⟩ := hcon
  simp only [dot, cross] at *
  have e1 := hba.fst
  have e2 := hap.fst
  -- (p - b).x * (value of a) is at most the same for the point of the line below it
  have key : (p.1 - b.1) * (a.1 * d.1 + a.2 * d.2) ≤ (p.1 - a.1) * (b.1 * d.1 + b.2 * d.2) + (a.1 - b.1) * (p.1 * d.1 + p.2 * d.2) := by
    nlinarith [mul_nonneg (neg_nonneg.mpr hd) (neg_nonneg.mpr hc)]
  rcases lt_or_eq_of_le (le_trans e1 e2) with h | h
  · rcases lt_or_eq_of_le e1 with h' | h'
    · nlinarith [mul_nonneg (sub_nonneg.mpr e2) (le_of_lt (sub_pos.mpr h1)), mul_pos (sub_pos.mpr h') (sub_pos.mpr h2)]
    · have : 0 < p.1 - a.1 := by rw [← h']; linarith
      nlinarith [mul_pos this (sub_pos.mpr h1), mul_nonneg (sub_nonneg.mpr e1) (le_of_lt (sub_pos.mpr h2))]
  · have hb : b.1 = a.1 := le_antisymm e1 (h ▸ e2)
    have hp : a.1 = p.1 := hb ▸ h
    have k1 : b.2 ≤ a.2 := hba.elim (fun h => absurd hb (ne_of_lt h)) fun h => h.2
    rw [hb] at h1
    nlinarith [mul_nonneg (sub_nonneg.mpr k1) (neg_nonneg.mpr hd)]

theorem pops_ne (p : Pt K) : ∀ l : List (Pt K), l ≠ [] → pops p l ≠ []
  | [], h => h
  | [_], h => h
  | a :: b :: l, _ => by
    rw [pops]
    split
    · exact pops_ne p (b :: l) (by simp)
    · simp

theorem pops_suffix (p : Pt K) : ∀ l : List (Pt K), pops p l <:+ l
  | [] => List.suffix_refl _
  | [_] => List.suffix_refl _
  | a :: b :: l => by
    rw [pops]
    split
    · exact (pops_suffix p (b :: l)).trans (List.suffix_cons ..)
    · exact List.suffix_refl _

theorem pops_turn (p : Pt K) : ∀ l : List (Pt K), Turn l → Turn (p :: pops p l)
  | [], _ => trivial
  | [_], _ => trivial
  | a :: b :: l, h => by
    rw [pops]
    split
    · exact pops_turn p (b :: l) h.tail
    · next hc => exact ⟨not_le.mp hc, h⟩

/-- Nothing that is popped is lower than what stays. -/
theorem pops_cover (p : Pt K) : ∀ l : List (Pt K), l.Pairwise (fun a b => Le b a) → (∀ a ∈ l, Le a p) → ∀ d : Pt K, d.2 ≤ 0 →
    ∀ v ∈ l, ∃ w ∈ p :: pops p l, dot v d ≤ dot w d
  | [], _, _ => by simp
  | [a], _, _ => fun d _ v hv => ⟨v, by simp [pops, List.mem_singleton.mp hv], le_refl _⟩
  | a :: b :: l, hl, hp => by
    intro d hd v hv
    have ih := pops_cover p (b :: l) (List.pairwise_cons.mp hl).2 (fun x hx => hp x (List.mem_cons_of_mem _ hx)) d hd
    rw [pops]
    split
    · next hc =>
      rcases List.mem_cons.mp hv with rfl | hv
      · rcases middle ((List.pairwise_cons.mp hl).1 b (by simp)) (hp v (by simp)) hc hd with h | h
        · obtain ⟨w, hw, h'⟩ := ih b (by simp)
          exact ⟨w, hw, le_trans h h'⟩
        · exact ⟨p, by simp, h⟩
      · exact ih v hv
    · exact ⟨v, by simp at hv ⊢; tauto, le_refl _⟩

/-- The lowest point stays where it is; a point that is the same may take its place. -/
theorem pops_low (p v : Pt K) (below : List (Pt K)) (hv : Le v p) (hlow : v.2 ≤ p.2) (hb : ∀ u ∈ below, v.2 < u.2 ∧ Le u v) (ht : Turn (v :: below)) :
    ∀ above : List (Pt K), (∃ above', pops p (above ++ v :: below) = above' ++ v :: below) ∨ p = v ∧ pops p (above ++ v :: below) = below ∧ below ≠ []
  | [] => by
    cases below with
    | nil => exact .inl ⟨[], rfl⟩
    | cons u below =>
      simp only [List.nil_append, pops]
      split
      · next hc =>
        obtain ⟨h1, h2⟩ := hb u (by simp)
        have hux : u.1 < v.1 := h2.elim id fun h => absurd h.2 (not_le.mpr h1)
        have hvx := hv.fst
        simp only [cross] at hc
        have e1 : 0 ≤ (v.1 - u.1) * (p.2 - v.2) := mul_nonneg (by linarith) (by linarith)
        have e2 : 0 ≤ (u.2 - v.2) * (p.1 - v.1) := mul_nonneg (by linarith) (by linarith)
        have e3 : (v.1 - u.1) * (p.2 - v.2) = 0 := by nlinarith
        have e4 : (u.2 - v.2) * (p.1 - v.1) = 0 := by nlinarith
        have f3 : p.2 = v.2 := by rcases mul_eq_zero.mp e3 with h | h <;> linarith
        have f4 : p.1 = v.1 := by rcases mul_eq_zero.mp e4 with h | h <;> linarith
        have hpv : p = v := Prod.ext f4 f3
        refine .inr ⟨hpv, ?_, by simp⟩
        cases below with
        | nil => rfl
        | cons w below => rw [pops, if_neg (by rw [hpv]; exact not_le.mpr ht.1)]
      · exact .inl ⟨[], rfl⟩
  | a :: above => by
    have ih := pops_low p v below hv hlow hb ht above
    cases e : above ++ v :: below with
    | nil => simp at e
    | cons b l =>
      rw [List.cons_append, e, pops]
      split
      · rw [← e]; exact ih
      · exact .inl ⟨a :: above, by rw [List.cons_append, e]⟩

/-- What holds for the variables of the loop after the points `P`. -/
structure Inv (P : List (Pt K)) (c : Chain K) : Prop where
  ne : c.stack ≠ []
  head : c.stack.head? = P.getLast?
  last : c.stack.getLast? = P.head?
  sub : ∀ v ∈ c.stack, v ∈ P
  sort : c.stack.Pairwise fun a b => Le b a
  turn : Turn c.stack
  cover : ∀ d : Pt K, d.2 ≤ 0 → ∀ p ∈ P, ∃ v ∈ c.stack, dot p d ≤ dot v d
  low : ∀ p ∈ P, c.best ≤ p.2
  place : ∃ above v below, c.stack = above ++ v :: below ∧ below.length = c.idx ∧ v.2 = c.best ∧ ∀ u ∈ below, c.best < u.2
  two : 2 ≤ P.length → 2 ≤ c.stack.length

theorem inv_push {P : List (Pt K)} {c : Chain K} (h : Inv P c) (p : Pt K) (hp : ∀ a ∈ P, Le a p) : Inv (P ++ [p]) (push false c p) := by
  have hstack : (push false c p).stack = p :: pops p c.stack := by simp only [push]; split <;> split <;> rfl
  have hsuf := pops_suffix p c.stack
  have hne := pops_ne p c.stack h.ne
  refine ⟨?_, ?_, ?_, ?_, ?_, ?_, ?_, ?_, ?_, ?_⟩
  · rw [hstack]; simp
  · rw [hstack]; simp
  · rw [hstack]
    obtain ⟨t, ht⟩ := hsuf
    have e1 : (p :: pops p c.stack).getLast? = (pops p c.stack).getLast? := by
      cases e : pops p c.stack with
      | nil => exact absurd e hne
      | cons x l => rw [List.getLast?_cons_cons]
    have e2 : c.stack.getLast? = (pops p c.stack).getLast? := by
      conv_lhs => rw [← ht]
      rw [List.getLast?_append]
      cases e : (pops p c.stack).getLast? with
      | none => exact absurd (List.getLast?_eq_none_iff.mp e) hne
      | some x => rfl
    rw [e1, ← e2, h.last]
    cases P with
    | nil => exact absurd (h.last.symm ▸ rfl : c.stack.getLast? = none) (by simp [h.ne])
    | cons x P => rfl
  · rw [hstack]
    intro v hv
    rcases List.mem_cons.mp hv with rfl | hv
    · simp
    · exact List.mem_append_left _ (h.sub v (hsuf.subset hv))
  · rw [hstack]
    exact List.pairwise_cons.mpr ⟨fun v hv => hp v (h.sub v (hsuf.subset hv)), h.sort.sublist hsuf.sublist⟩
  · rw [hstack]; exact pops_turn p _ h.turn
  · intro d hd q hq
    rw [hstack]
    rcases List.mem_append.mp hq with hq | hq
    · obtain ⟨v, hv, e⟩ := h.cover d hd q hq
      obtain ⟨w, hw, e'⟩ := pops_cover p c.stack h.sort (fun a ha => hp a (h.sub a ha)) d hd v hv
      exact ⟨w, hw, le_trans e e'⟩
    · rw [List.mem_singleton.mp hq]; exact ⟨p, by simp, le_refl _⟩
  · intro q hq
    simp only [push, if_neg Bool.false_ne_true]
    split
    · next hlt =>
      rcases List.mem_append.mp hq with hq | hq
      · exact le_trans (le_of_lt hlt) (h.low q hq)
      · rw [List.mem_singleton.mp hq]
    · next hlt =>
      rcases List.mem_append.mp hq with hq | hq
      · exact h.low q hq
      · rw [List.mem_singleton.mp hq]; exact not_lt.mp hlt
  · simp only [push, if_neg Bool.false_ne_true]
    split
    · next hlt =>
      exact ⟨[], p, pops p c.stack, rfl, rfl, rfl, fun u hu => lt_of_lt_of_le hlt (h.low u (h.sub u (hsuf.subset hu)))⟩
    · next hlt =>
      obtain ⟨above, v, below, e1, e2, e3, e4⟩ := h.place
      have hm : v ∈ c.stack := by rw [e1]; simp
      have hturn : Turn (v :: below) := by
        have : ∀ l, Turn (l ++ v :: below) → Turn (v :: below) := by
          intro l
          induction l with
          | nil => exact id
          | cons x l ih => exact fun h => ih (Turn.tail h)
        exact this above (e1 ▸ h.turn)
      have hsort := h.sort
      rw [e1] at hsort
      rcases pops_low p v below (hp v (h.sub v hm)) (e3 ▸ not_lt.mp hlt)
        (fun u hu => ⟨e3 ▸ e4 u hu, (List.pairwise_cons.mp (List.pairwise_append.mp hsort).2.1).1 u hu⟩) hturn above with ⟨a', ha⟩ | ⟨hpv, hb, _⟩
      · exact ⟨p :: a', v, below, by rw [e1, ha]; rfl, e2, e3, e4⟩
      · exact ⟨[], p, below, by rw [e1, hb]; rfl, e2, hpv ▸ e3, e4⟩
  · intro _
    rw [hstack, List.length_cons]
    have := List.length_pos_iff.mpr hne
    omega

theorem inv_fold : ∀ (l P : List (Pt K)) (c : Chain K), Inv P c → (P ++ l).Pairwise Le → Inv (P ++ l) (l.foldl (push false) c)
  | [], P, c, h, _ => by simpa using h
  | p :: l, P, c, h, hs => by
    have hp : ∀ a ∈ P, Le a p := fun a ha => (List.pairwise_append.mp hs).2.2 a ha p (by simp)
    have := inv_fold l (P ++ [p]) (push false c p) (inv_push h p hp) (by rwa [List.append_assoc, List.singleton_append])
    rwa [List.append_assoc, List.singleton_append] at this

theorem inv_one (p : Pt K) : Inv [p] ⟨[p], p.2, 0⟩ :=
  ⟨by simp, rfl, rfl, by simp, by simp, trivial, fun d _ q hq => ⟨q, hq, le_refl _⟩, by simp, ⟨[], p, [], rfl, rfl, rfl, by simp⟩, by simp⟩

theorem inv_lower {s : List (Pt K)} (hs : s.Pairwise Le) {c : Chain K} (h : chain false s = some c) : Inv s c := by
  cases s with
  | nil => cases h
  | cons p l =>
    simp only [chain, Option.some.injEq] at h
    rw [← h]
    exact inv_fold l [p] _ (inv_one p) hs

/-! ## The loop for the upper part is the same for points turned around -/

/-- The variables for points turned around. -/
def Chain.turned (c : Chain K) : Chain K := ⟨c.stack.map (- ·), -c.best, c.idx⟩

theorem cross_neg (o a b : Pt K) : cross (-o) (-a) (-b) = cross o a b := by
  simp only [cross, Prod.fst_neg, Prod.snd_neg]; ring

theorem pops_neg (p : Pt K) : ∀ l : List (Pt K), pops (-p) (l.map (- ·)) = (pops p l).map (- ·)
  | [] => rfl
  | [_] => rfl
  | a :: b :: l => by
    simp only [List.map_cons, pops, cross_neg]
    split
    · exact pops_neg p (b :: l)
    · rfl

theorem push_neg (c : Chain K) (p : Pt K) : push false c.turned (-p) = (push true c p).turned := by
  simp only [push, Chain.turned, pops_neg, if_neg Bool.false_ne_true, if_true, Prod.snd_neg, neg_lt_neg_iff]
  split <;> simp

theorem fold_neg : ∀ (l : List (Pt K)) (c : Chain K), (l.map (- ·)).foldl (push false) c.turned = (l.foldl (push true) c).turned
  | [], _ => rfl
  | p :: l, c => by rw [List.map_cons, List.foldl_cons, push_neg, fold_neg l, List.foldl_cons]

theorem chain_neg (s : List (Pt K)) : chain false (s.map (- ·)) = (chain true s).map Chain.turned := by
  cases s with
  | nil => rfl
  | cons p l =>
    simp only [chain, List.map_cons, Option.map_some, Option.some.injEq]
    exact fold_neg l ⟨[p], p.2, 0⟩

theorem sorted_neg {s : List (Pt K)} (hs : s.Pairwise Le) : (s.reverse.map (- ·)).Pairwise Le := by
  rw [List.pairwise_map, List.pairwise_reverse]
  refine hs.imp fun {a b} h => ?_
  rcases h with h | ⟨h, k⟩
  · exact .inl (by simpa using h)
  · exact .inr ⟨by simp [h], by simpa using k⟩

theorem inv_upper {s : List (Pt K)} (hs : s.Pairwise Le) {c : Chain K} (h : chain true s.reverse = some c) : Inv (s.reverse.map (- ·)) c.turned :=
  inv_lower (sorted_neg hs) (by rw [chain_neg, h]; rfl)

end Verif.Gjk
