import Verif.Hidden.Spec

/-!
# Lemmas about the passes
-/

namespace Verif.Hidden

open Verif.Tree Verif.Names
open Verif.Unknowns (Key Val Attr AId E Item word content items itemsAll)
open Verif.Cascade (Mode)

/-! ## Items of trees with marks -/

mutual
/-- All that is in a tree, with its ancestors. -/
def all (anc : List E) : Marked → List Item
  | .elem n as _ ks => .elem ((n, as) :: anc) :: allAll ((n, as) :: anc) ks
  | .leaf l => [.leaf anc l.node]
def allAll (anc : List E) : List Marked → List Item
  | [] => []
  | m :: ms => all anc m ++ allAll anc ms
end

theorem allAll_append (anc : List E) (a b : List Marked) : allAll anc (a ++ b) = allAll anc a ++ allAll anc b := by
  induction a with
  | nil => rfl
  | cons m ms ih => simp [allAll, ih]

mutual
theorem items_plain (anc : List E) (f : Bool) : ∀ m : Marked, items (fun _ _ _ => false) f anc (plain m) = all anc m
  | .elem n as k ks => by
    simp only [plain, items, Bool.false_eq_true, if_false, all, itemsAll_plain]
  | .leaf l => by cases l <;> rfl
theorem itemsAll_plain (anc : List E) (f : Bool) : ∀ ms : List Marked,
    itemsAll (fun _ _ _ => false) f anc (plainAll ms) = allAll anc ms
  | [] => rfl
  | m :: ms => by simp only [plainAll, itemsAll, allAll, items_plain, itemsAll_plain]
end

theorem content_plain (ms : List Marked) : content (plainAll ms) = allAll [] ms := itemsAll_plain [] false ms

mutual
theorem plain_marked : ∀ n : Node Attr, plain (marked n) = n
  | .elem n as ks => by simp only [marked, plain, plainAll_marked]
  | .text _ => rfl
  | .css _ => rfl
  | .comment _ => rfl
  | .pi _ _ => rfl
theorem plainAll_marked : ∀ ns : List (Node Attr), plainAll (markedAll ns) = ns
  | [] => rfl
  | n :: ns => by simp only [markedAll, plainAll, plain_marked, plainAll_marked]
end

theorem content_marked (doc : List (Node Attr)) : content doc = allAll [] (markedAll doc) := by
  rw [← content_plain, plainAll_marked]

mutual
theorem all_suffix (anc : List E) : ∀ m : Marked, ∀ i ∈ all anc m, anc <:+ chainOf i
  | .elem n as k ks, i, hi => by
    simp only [all, List.mem_cons] at hi
    rcases hi with rfl | hi
    · exact List.suffix_cons _ _
    · exact (List.suffix_cons _ _).trans (allAll_suffix _ ks i hi)
  | .leaf l, i, hi => by
    simp only [all, List.mem_singleton] at hi
    subst hi
    exact List.suffix_refl _
theorem allAll_suffix (anc : List E) : ∀ ms : List Marked, ∀ i ∈ allAll anc ms, anc <:+ chainOf i
  | [], i, hi => by simp [allAll] at hi
  | m :: ms, i, hi => by
    simp only [allAll, List.mem_append] at hi
    exact hi.elim (all_suffix anc m i) (allAll_suffix anc ms i)
end

theorem elem_suffix (anc : List E) (n : EName) (as : List Attr) (k : Mark) (ks : List Marked) (i : Item)
    (hi : i ∈ all anc (.elem n as k ks)) : (n, as) :: anc <:+ chainOf i := by
  simp only [all, List.mem_cons] at hi
  rcases hi with rfl | hi
  · exact List.suffix_refl _
  · exact allAll_suffix _ ks i hi

theorem elements_append (a b : List Marked) : elements (a ++ b) = elements a + elements b := by
  simp [elements]

theorem elements_elem (n : EName) (as : List Attr) (k : Mark) (ks ms : List Marked) :
    elements (.elem n as k ks :: ms) = elements ms + 1 := rfl

theorem elements_leaf (l : Leaf) (ms : List Marked) : elements (.leaf l :: ms) = elements ms := rfl

/-- Without elements there are only leaves. -/
theorem leaves (anc : List E) : ∀ ms : List Marked, elements ms = 0 → ∀ i ∈ allAll anc ms, ∃ n, i = .leaf anc n
  | [], _, i, hi => by simp [allAll] at hi
  | .elem n as k ks :: ms, h, _, _ => by simp [elements_elem] at h
  | .leaf l :: ms, h, i, hi => by
    have h' : elements ms = 0 := by simpa [elements_leaf] using h
    simp only [allAll, all, List.mem_append, List.mem_singleton] at hi
    rcases hi with rfl | hi
    · exact ⟨_, rfl⟩
    · exact leaves anc ms h' i hi

/-! ## One pass -/

variable (rd : Reading) (d : Decide)

/-- The pass over an element, in cases. -/
theorem sweep_elem (anc : List E) (inDefs : Bool) (count : Nat) (n : EName) (as : List Attr) (k : Mark) (ks out : List Marked)
    (g : Bool) (log : Log) (h : sweep rd d anc inDefs count (.elem n as k ks) = .ok (out, g, log)) :
    ∃ v, d anc n as k ks = .ok v ∧ g = (v.gone && !v.direct && inDefs && decide (count = 1)) ∧
      ((v.skip = true ∧ out = (if v.gone then [] else [.elem n as v.mark ks]) ∧
          log = ⟨v.uses, if v.gone && !v.direct && inDefs then idsOf rd as else [], v.seen⟩) ∨
        (v.skip = false ∧ ∃ ks' here log', sweepAll rd d
            (if v.gone then (if g then (n, as) :: anc.take 1 else [(n, as)]) else (n, as) :: anc) (n.is "defs") 0 ks =
              .ok (ks', here, log') ∧ out = (if v.gone || here then [] else [.elem n as v.mark ks']) ∧
          log = Log.add ⟨v.uses, if v.gone && !v.direct && inDefs then idsOf rd as else [], v.seen⟩ log')) := by
  unfold sweep at h
  split at h
  · simp at h
  · next v hv =>
    refine ⟨v, hv, ?_⟩
    simp only at h
    split at h
    · next hs =>
      simp only [Except.ok.injEq, Prod.mk.injEq] at h
      obtain ⟨h1, h2, h3⟩ := h
      exact ⟨h2.symm, .inl ⟨hs, h1.symm, h3.symm⟩⟩
    · next hs =>
      split at h
      · simp at h
      · next ks' here log' hk =>
        simp only [Except.ok.injEq, Prod.mk.injEq] at h
        obtain ⟨h1, h2, h3⟩ := h
        refine ⟨h2.symm, .inr ⟨by simpa using hs, ks', here, log', ?_, h1.symm, h3.symm⟩⟩
        rw [← h2]
        exact hk

/-- The pass over a list, in parts. -/
theorem sweepAll_cons (anc : List E) (inDefs : Bool) (done : Nat) (m : Marked) (ms out : List Marked) (g : Bool) (log : Log)
    (h : sweepAll rd d anc inDefs done (m :: ms) = .ok (out, g, log)) :
    ∃ a g1 l1 b g2 l2, sweep rd d anc inDefs (done + elements (m :: ms)) m = .ok (a, g1, l1) ∧
      sweepAll rd d anc inDefs (done + elements a) ms = .ok (b, g2, l2) ∧ out = a ++ b ∧ g = (g1 || g2) ∧
      log = Log.add l1 l2 := by
  unfold sweepAll at h
  split at h
  · simp at h
  · next a g1 l1 h1 =>
    split at h
    · simp at h
    · next b g2 l2 h2 =>
      simp only [Except.ok.injEq, Prod.mk.injEq] at h
      exact ⟨a, g1, l1, b, g2, l2, h1, h2, h.1.symm, h.2.1.symm, h.2.2.symm⟩

/-- A `defs` is removed by its only element. -/
theorem gone_done (anc : List E) (inDefs : Bool) : ∀ (ms : List Marked) (done : Nat) (out : List Marked) (log : Log),
    sweepAll rd d anc inDefs done ms = .ok (out, true, log) → done = 0 ∧ inDefs = true
  | [], done, out, log, h => by simp [sweepAll] at h
  | m :: ms, done, out, log, h => by
    obtain ⟨a, g1, l1, b, g2, l2, h1, h2, _, hg, _⟩ := sweepAll_cons rd d _ _ _ _ _ _ _ _ h
    rcases (Bool.or_eq_true _ _).mp hg.symm with hg | hg
    · subst hg
      cases m with
      | leaf l => simp [sweep] at h1
      | elem n as k ks =>
        obtain ⟨v, _, hg, _⟩ := sweep_elem rd d _ _ _ _ _ _ _ _ _ _ h1
        simp only [eq_comm (a := true), Bool.and_eq_true, decide_eq_true_eq] at hg
        have h3 : elements (.elem n as k ks :: ms) = elements ms + 1 := elements_elem _ _ _ _ _
        exact ⟨by omega, hg.1.2⟩
    · subst hg
      have := gone_done anc inDefs ms _ b l2 h2
      exact ⟨by omega, this.2⟩

mutual
/-- Nothing is changed or added. -/
theorem sweep_sublist : ∀ (m : Marked) (anc : List E) (inDefs : Bool) (count : Nat) (out : List Marked) (g : Bool) (log : Log),
    sweep rd d anc inDefs count m = .ok (out, g, log) → (allAll anc out).Sublist (all anc m)
  | .leaf l, anc, inDefs, count, out, g, log, h => by
    simp only [sweep, Except.ok.injEq, Prod.mk.injEq] at h
    rw [← h.1]
    simp [allAll]
  | .elem n as k ks, anc, inDefs, count, out, g, log, h => by
    obtain ⟨v, _, _, hr⟩ := sweep_elem rd d _ _ _ _ _ _ _ _ _ _ h
    rcases hr with ⟨_, rfl, _⟩ | ⟨_, ks', here, log', hk, rfl, _⟩
    · split
      · simp [allAll]
      · simp [allAll, all]
    · split
      · simp [allAll]
      · next hg =>
        simp only [Bool.or_eq_true, not_or, Bool.not_eq_true] at hg
        rw [hg.1] at hk
        have := sweepAll_sublist ks _ _ _ _ _ _ hk
        simpa [allAll, all] using this
theorem sweepAll_sublist : ∀ (ms : List Marked) (anc : List E) (inDefs : Bool) (done : Nat) (out : List Marked) (g : Bool)
    (log : Log), sweepAll rd d anc inDefs done ms = .ok (out, g, log) → (allAll anc out).Sublist (allAll anc ms)
  | [], anc, inDefs, done, out, g, log, h => by
    simp only [sweepAll, Except.ok.injEq, Prod.mk.injEq] at h
    rw [← h.1]
  | m :: ms, anc, inDefs, done, out, g, log, h => by
    obtain ⟨a, g1, l1, b, g2, l2, h1, h2, rfl, _, _⟩ := sweepAll_cons rd d _ _ _ _ _ _ _ _ h
    rw [allAll_append, allAll]
    exact (sweep_sublist m _ _ _ _ _ _ h1).append (sweepAll_sublist ms _ _ _ _ _ _ h2)
end

variable (S : List Item) (K : Item → Prop) [DecidablePred K]

/-- What stays whole when elements are removed. -/
structure Keeps : Prop where
  gone : ∀ anc n as k ks v, d anc n as k ks = .ok v → v.gone = true → (∀ i ∈ all anc (.elem n as k ks), i ∈ S) →
    ∀ i ∈ all anc (.elem n as k ks), ¬ K i
  defs : ∀ anc n as, n.is "defs" = true → (.elem ((n, as) :: anc) ∈ S → ¬ K (.elem ((n, as) :: anc))) ∧
    ∀ l, .leaf ((n, as) :: anc) l ∈ S → ¬ K (.leaf ((n, as) :: anc) l)

mutual
theorem sweep_keep (hK : Keeps d S K) : ∀ (m : Marked) (anc : List E) (inDefs : Bool) (count : Nat) (out : List Marked) (g : Bool)
    (log : Log), sweep rd d anc inDefs count m = .ok (out, g, log) → (∀ i ∈ all anc m, i ∈ S) →
    (allAll anc out).filter K = (all anc m).filter K
  | .leaf l, anc, inDefs, count, out, g, log, h, _ => by
    simp only [sweep, Except.ok.injEq, Prod.mk.injEq] at h
    rw [← h.1]
    simp [allAll]
  | .elem n as k ks, anc, inDefs, count, out, g, log, h, hS => by
    obtain ⟨v, hv, _, hr⟩ := sweep_elem rd d _ _ _ _ _ _ _ _ _ _ h
    have hnone : v.gone = true → (all anc (.elem n as k ks)).filter K = [] := by
      intro hg
      rw [List.filter_eq_nil_iff]
      intro i hi
      simpa using hK.gone anc n as k ks v hv hg hS i hi
    rcases hr with ⟨_, rfl, _⟩ | ⟨_, ks', here, log', hk, rfl, _⟩
    · split
      · next hg => rw [hnone hg]; simp [allAll]
      · simp [allAll, all]
    · by_cases hg : v.gone = true
      · rw [hnone hg, hg]; simp [allAll]
      · simp only [Bool.not_eq_true] at hg
        rw [hg] at hk
        have hS' : ∀ i ∈ allAll ((n, as) :: anc) ks, i ∈ S := fun i hi => hS i (by simp [all, hi])
        cases here with
        | true =>
          obtain ⟨_, hd⟩ := gone_done rd d _ _ _ _ _ _ hk
          have hno := sweepAll_gone hK ks _ _ _ _ _ hk hS'
          simp only [hg, Bool.or_true, if_true]
          symm
          simp only [allAll, List.filter_nil]
          rw [List.filter_eq_nil_iff]
          intro i hi
          have hi' := hS i hi
          simp only [all, List.mem_cons] at hi
          simp only [decide_eq_true_eq]
          rcases hi with rfl | hi
          · exact (hK.defs anc n as hd).1 hi'
          · intro hKi
            obtain ⟨l, rfl⟩ := hno i hi hKi
            exact (hK.defs anc n as hd).2 l hi' hKi
        | false =>
          have ih := sweepAll_keep hK ks _ _ _ _ _ _ hk hS'
          have ih' : (allAll ((n, as) :: anc) ks').filter K = (allAll ((n, as) :: anc) ks).filter K := ih
          simp only [hg, Bool.or_self, Bool.false_eq_true, if_false, allAll, all, List.append_nil, List.filter_cons, ih']
theorem sweepAll_keep (hK : Keeps d S K) : ∀ (ms : List Marked) (anc : List E) (inDefs : Bool) (done : Nat) (out : List Marked)
    (g : Bool) (log : Log), sweepAll rd d anc inDefs done ms = .ok (out, g, log) → (∀ i ∈ allAll anc ms, i ∈ S) →
    (allAll anc out).filter K = (allAll anc ms).filter K
  | [], anc, inDefs, done, out, g, log, h, _ => by
    simp only [sweepAll, Except.ok.injEq, Prod.mk.injEq] at h
    rw [← h.1]
  | m :: ms, anc, inDefs, done, out, g, log, h, hS => by
    obtain ⟨a, g1, l1, b, g2, l2, h1, h2, rfl, _, _⟩ := sweepAll_cons rd d _ _ _ _ _ _ _ _ h
    rw [allAll_append, allAll, List.filter_append, List.filter_append]
    rw [sweep_keep hK m _ _ _ _ _ _ h1 fun i hi => hS i (by simp [allAll, hi]),
      sweepAll_keep hK ms _ _ _ _ _ _ h2 fun i hi => hS i (by simp [allAll, hi])]
/-- If the parent is removed, nothing in it was to stay. -/
theorem sweepAll_gone (hK : Keeps d S K) : ∀ (ms : List Marked) (anc : List E) (inDefs : Bool) (done : Nat) (out : List Marked)
    (log : Log), sweepAll rd d anc inDefs done ms = .ok (out, true, log) → (∀ i ∈ allAll anc ms, i ∈ S) →
    ∀ i ∈ allAll anc ms, K i → ∃ n, i = .leaf anc n
  | [], anc, inDefs, done, out, log, h, _ => by simp [sweepAll] at h
  | m :: ms, anc, inDefs, done, out, log, h, hS => by
    obtain ⟨a, g1, l1, b, g2, l2, h1, h2, rfl, hg, _⟩ := sweepAll_cons rd d _ _ _ _ _ _ _ _ h
    have hSm : ∀ i ∈ all anc m, i ∈ S := fun i hi => hS i (by simp [allAll, hi])
    have hSs : ∀ i ∈ allAll anc ms, i ∈ S := fun i hi => hS i (by simp [allAll, hi])
    intro i hi hKi
    simp only [allAll, List.mem_append] at hi
    rcases (Bool.or_eq_true _ _).mp hg.symm with hg | hg
    · subst hg
      cases m with
      | leaf l => simp [sweep] at h1
      | elem n as k ks =>
        obtain ⟨v, hv, hg, _⟩ := sweep_elem rd d _ _ _ _ _ _ _ _ _ _ h1
        simp only [eq_comm (a := true), Bool.and_eq_true, decide_eq_true_eq] at hg
        rcases hi with hi | hi
        · exact absurd hKi (hK.gone anc n as k ks v hv hg.1.1.1 hSm i hi)
        · have h3 : elements (.elem n as k ks :: ms) = elements ms + 1 := elements_elem _ _ _ _ _
          exact leaves anc ms (by omega) i hi
    · subst hg
      rcases hi with hi | hi
      · have h0 := (gone_done rd d _ _ _ _ _ _ h2).1
        have hk := sweep_keep hK m _ _ _ _ _ _ h1 hSm
        have : i ∈ (allAll anc a).filter K := by
          rw [hk, List.mem_filter]
          exact ⟨hi, by simpa using hKi⟩
        exact leaves anc a (by omega) i (List.mem_filter.mp this).1
      · exact sweepAll_gone hK ms _ _ _ _ _ h2 hSs i hi hKi
end

/-! ## Marks -/

mutual
/-- Something holds for all elements of a tree with their ancestors and marks. -/
def Every (P : List E → EName → List Attr → Mark → Prop) (anc : List E) : Marked → Prop
  | .leaf _ => True
  | .elem n as k ks => P anc n as k ∧ EveryAll P ((n, as) :: anc) ks
def EveryAll (P : List E → EName → List Attr → Mark → Prop) (anc : List E) : List Marked → Prop
  | [] => True
  | m :: ms => Every P anc m ∧ EveryAll P anc ms
end

variable (P Q : List E → EName → List Attr → Mark → Prop)

theorem every_append (anc : List E) : ∀ a b : List Marked, EveryAll P anc (a ++ b) ↔ EveryAll P anc a ∧ EveryAll P anc b
  | [], b => by simp [EveryAll]
  | m :: a, b => by simp [EveryAll, every_append anc a b, and_assoc]

mutual
theorem every_mono (h : ∀ anc n as k, P anc n as k → Q anc n as k) : ∀ (m : Marked) (anc : List E), Every P anc m → Every Q anc m
  | .leaf _, _, _ => by simp [Every]
  | .elem n as k ks, anc, hm => by
    simp only [Every] at hm ⊢
    exact ⟨h _ _ _ _ hm.1, everyAll_mono h ks _ hm.2⟩
theorem everyAll_mono (h : ∀ anc n as k, P anc n as k → Q anc n as k) : ∀ (ms : List Marked) (anc : List E),
    EveryAll P anc ms → EveryAll Q anc ms
  | [], _, _ => by simp [EveryAll]
  | m :: ms, anc, hm => by
    simp only [EveryAll] at hm ⊢
    exact ⟨every_mono h m anc hm.1, everyAll_mono h ms anc hm.2⟩
end

mutual
theorem every_and : ∀ (m : Marked) (anc : List E), Every P anc m → Every Q anc m → Every (fun a n as k => P a n as k ∧ Q a n as k) anc m
  | .leaf _, _, _, _ => by simp [Every]
  | .elem n as k ks, anc, h1, h2 => by
    simp only [Every] at h1 h2 ⊢
    exact ⟨⟨h1.1, h2.1⟩, everyAll_and ks _ h1.2 h2.2⟩
theorem everyAll_and : ∀ (ms : List Marked) (anc : List E), EveryAll P anc ms → EveryAll Q anc ms →
    EveryAll (fun a n as k => P a n as k ∧ Q a n as k) anc ms
  | [], _, _, _ => by simp [EveryAll]
  | m :: ms, anc, h1, h2 => by
    simp only [EveryAll] at h1 h2 ⊢
    exact ⟨every_and m anc h1.1 h2.1, everyAll_and ms anc h1.2 h2.2⟩
end

mutual
/-- Marks after a pass. -/
theorem sweep_every (hskip : ∀ anc n as k ks v, d anc n as k ks = .ok v → v.skip = true → EveryAll P ((n, as) :: anc) ks →
      EveryAll Q ((n, as) :: anc) ks)
    (h : ∀ anc n as k ks v, d anc n as k ks = .ok v → v.gone = false → P anc n as k → Q anc n as v.mark) :
    ∀ (m : Marked) (anc : List E) (inDefs : Bool) (count : Nat) (out : List Marked) (g : Bool) (log : Log),
      sweep rd d anc inDefs count m = .ok (out, g, log) → Every P anc m → EveryAll Q anc out
  | .leaf l, anc, inDefs, count, out, g, log, hs, _ => by
    simp only [sweep, Except.ok.injEq, Prod.mk.injEq] at hs
    rw [← hs.1]
    simp [EveryAll, Every]
  | .elem n as k ks, anc, inDefs, count, out, g, log, hs, hm => by
    obtain ⟨v, hv, _, hr⟩ := sweep_elem rd d _ _ _ _ _ _ _ _ _ _ hs
    simp only [Every] at hm
    rcases hr with ⟨hsk, rfl, _⟩ | ⟨_, ks', here, log', hk, rfl, _⟩
    · split
      · simp [EveryAll]
      · next hg =>
        simp only [EveryAll, Every, and_true]
        exact ⟨h _ _ _ _ _ v hv (by simpa using hg) hm.1, hskip _ _ _ _ _ v hv hsk hm.2⟩
    · split
      · simp [EveryAll]
      · next hg =>
        simp only [Bool.or_eq_true, not_or, Bool.not_eq_true] at hg
        rw [hg.1] at hk
        simp only [EveryAll, Every, and_true]
        exact ⟨h _ _ _ _ _ v hv hg.1 hm.1, sweepAll_every hskip h ks _ _ _ _ _ _ hk hm.2⟩
theorem sweepAll_every (hskip : ∀ anc n as k ks v, d anc n as k ks = .ok v → v.skip = true → EveryAll P ((n, as) :: anc) ks →
      EveryAll Q ((n, as) :: anc) ks)
    (h : ∀ anc n as k ks v, d anc n as k ks = .ok v → v.gone = false → P anc n as k → Q anc n as v.mark) :
    ∀ (ms : List Marked) (anc : List E) (inDefs : Bool) (done : Nat) (out : List Marked) (g : Bool) (log : Log),
      sweepAll rd d anc inDefs done ms = .ok (out, g, log) → EveryAll P anc ms → EveryAll Q anc out
  | [], anc, inDefs, done, out, g, log, hs, _ => by
    simp only [sweepAll, Except.ok.injEq, Prod.mk.injEq] at hs
    rw [← hs.1]
    simp [EveryAll]
  | m :: ms, anc, inDefs, done, out, g, log, hs, hm => by
    obtain ⟨a, g1, l1, b, g2, l2, h1, h2, rfl, _, _⟩ := sweepAll_cons rd d _ _ _ _ _ _ _ _ hs
    simp only [EveryAll] at hm
    rw [every_append]
    exact ⟨sweep_every hskip h m _ _ _ _ _ _ h1 hm.1, sweepAll_every hskip h ms _ _ _ _ _ _ h2 hm.2⟩
end

mutual
theorem every_marked (h : ∀ anc n as, P anc n as Mark.blank) : ∀ (n : Node Attr) (anc : List E), Every P anc (marked n)
  | .elem n as ks, anc => by simp only [marked, Every]; exact ⟨h _ _ _, everyAll_marked h ks _⟩
  | .text _, _ => by simp [marked, Every]
  | .css _, _ => by simp [marked, Every]
  | .comment _, _ => by simp [marked, Every]
  | .pi _ _, _ => by simp [marked, Every]
theorem everyAll_marked (h : ∀ anc n as, P anc n as Mark.blank) : ∀ (ns : List (Node Attr)) (anc : List E),
    EveryAll P anc (markedAll ns)
  | [], _ => by simp [markedAll, EveryAll]
  | n :: ns, anc => by simp only [markedAll, EveryAll]; exact ⟨every_marked h n anc, everyAll_marked h ns anc⟩
end

mutual
/-- The ids that are used are collected. -/
theorem sweep_uses (h : ∀ anc n as k ks v, d anc n as k ks = .ok v → v.mark.uses = k.uses ∨ v.mark.uses = v.uses) :
    ∀ (m : Marked) (anc : List E) (inDefs : Bool) (count : Nat) (out : List Marked) (g : Bool) (log : Log),
      sweep rd d anc inDefs count m = .ok (out, g, log) → Every (fun _ _ _ k => k.uses = []) anc m →
      EveryAll (fun _ _ _ k => ∀ i ∈ k.uses, i ∈ log.uses) anc out
  | .leaf l, anc, inDefs, count, out, g, log, hs, _ => by
    simp only [sweep, Except.ok.injEq, Prod.mk.injEq] at hs
    rw [← hs.1]
    simp [EveryAll, Every]
  | .elem n as k ks, anc, inDefs, count, out, g, log, hs, hm => by
    obtain ⟨v, hv, _, hr⟩ := sweep_elem rd d _ _ _ _ _ _ _ _ _ _ hs
    simp only [Every] at hm
    rcases hr with ⟨_, rfl, rfl⟩ | ⟨_, ks', here, log', hk, rfl, rfl⟩
    · by_cases hg : v.gone = true
      · simp [hg, EveryAll]
      · rw [if_neg hg]
        simp only [EveryAll, Every, and_true]
        refine ⟨?_, everyAll_mono _ _ (fun _ _ _ k hk i hi => ?_) ks _ hm.2⟩
        · rcases h _ _ _ _ _ v hv with hu | hu
          · rw [hu, hm.1]; simp
          · rw [hu]; exact fun i hi => hi
        · rw [hk] at hi; simp at hi
    · by_cases hg : (v.gone || here) = true
      · simp [hg, EveryAll]
      · rw [if_neg hg]
        simp only [Bool.or_eq_true, not_or, Bool.not_eq_true] at hg
        rw [hg.1] at hk
        simp only [EveryAll, Every, and_true, Log.add]
        refine ⟨?_, everyAll_mono _ _ (fun _ _ _ k hk i hi => ?_) ks' _ (sweepAll_uses h ks _ _ _ _ _ _ hk hm.2)⟩
        · rcases h _ _ _ _ _ v hv with hu | hu
          · rw [hu, hm.1]; simp
          · rw [hu]; exact fun i hi => List.mem_append_left _ hi
        · exact List.mem_append_right _ (hk i hi)
theorem sweepAll_uses (h : ∀ anc n as k ks v, d anc n as k ks = .ok v → v.mark.uses = k.uses ∨ v.mark.uses = v.uses) :
    ∀ (ms : List Marked) (anc : List E) (inDefs : Bool) (done : Nat) (out : List Marked) (g : Bool) (log : Log),
      sweepAll rd d anc inDefs done ms = .ok (out, g, log) → EveryAll (fun _ _ _ k => k.uses = []) anc ms →
      EveryAll (fun _ _ _ k => ∀ i ∈ k.uses, i ∈ log.uses) anc out
  | [], anc, inDefs, done, out, g, log, hs, _ => by
    simp only [sweepAll, Except.ok.injEq, Prod.mk.injEq] at hs
    rw [← hs.1]
    simp [EveryAll]
  | m :: ms, anc, inDefs, done, out, g, log, hs, hm => by
    obtain ⟨a, g1, l1, b, g2, l2, h1, h2, rfl, _, rfl⟩ := sweepAll_cons rd d _ _ _ _ _ _ _ _ hs
    simp only [EveryAll] at hm
    rw [every_append]
    refine ⟨everyAll_mono _ _ (fun _ _ _ k hk i hi => ?_) a _ (sweep_uses h m _ _ _ _ _ _ h1 hm.1),
      everyAll_mono _ _ (fun _ _ _ k hk i hi => ?_) b _ (sweepAll_uses h ms _ _ _ _ _ _ h2 hm.2)⟩
    · exact List.mem_append_left _ (hk i hi)
    · exact List.mem_append_right _ (hk i hi)
end

/-! ## Ids of what is removed -/

mutual
/-- There is a `defs` in the tree. -/
def defsIn : Marked → Bool
  | .leaf _ => false
  | .elem n _ _ ks => n.is "defs" || defsInAll ks
def defsInAll : List Marked → Bool
  | [] => false
  | m :: ms => defsIn m || defsInAll ms
end

mutual
theorem defsIn_all : ∀ (m : Marked) (anc : List E), defsIn m = true →
    ∃ n as cs, .elem ((n, as) :: cs) ∈ all anc m ∧ n.is "defs" = true
  | .leaf _, _, h => by simp [defsIn] at h
  | .elem n as k ks, anc, h => by
    simp only [defsIn, Bool.or_eq_true] at h
    rcases h with h | h
    · exact ⟨n, as, anc, by simp [all], h⟩
    · obtain ⟨n', as', cs, h1, h2⟩ := defsInAll_all ks ((n, as) :: anc) h
      exact ⟨n', as', cs, by simp [all, h1], h2⟩
theorem defsInAll_all : ∀ (ms : List Marked) (anc : List E), defsInAll ms = true →
    ∃ n as cs, .elem ((n, as) :: cs) ∈ allAll anc ms ∧ n.is "defs" = true
  | [], _, h => by simp [defsInAll] at h
  | m :: ms, anc, h => by
    simp only [defsInAll, Bool.or_eq_true] at h
    rcases h with h | h
    · obtain ⟨n', as', cs, h1, h2⟩ := defsIn_all m anc h
      exact ⟨n', as', cs, by simp [allAll, h1], h2⟩
    · obtain ⟨n', as', cs, h1, h2⟩ := defsInAll_all ms anc h
      exact ⟨n', as', cs, by simp [allAll, h1], h2⟩
end

mutual
theorem sweep_nodefs : ∀ (m : Marked) (anc : List E) (count : Nat) (out : List Marked) (g : Bool) (log : Log),
    sweep rd d anc false count m = .ok (out, g, log) → defsIn m = false → log.removed = []
  | .leaf l, anc, count, out, g, log, h, _ => by
    simp only [sweep, Except.ok.injEq, Prod.mk.injEq] at h
    rw [← h.2.2]
    rfl
  | .elem n as k ks, anc, count, out, g, log, h, hd => by
    obtain ⟨v, _, _, hr⟩ := sweep_elem rd d _ _ _ _ _ _ _ _ _ _ h
    simp only [defsIn, Bool.or_eq_false_iff] at hd
    rcases hr with ⟨_, _, rfl⟩ | ⟨_, ks', here, log', hk, _, rfl⟩
    · simp
    · rw [hd.1] at hk
      have := sweepAll_nodefs ks _ _ _ _ _ hk hd.2
      simp [Log.add, this]
theorem sweepAll_nodefs : ∀ (ms : List Marked) (anc : List E) (done : Nat) (out : List Marked) (g : Bool) (log : Log),
    sweepAll rd d anc false done ms = .ok (out, g, log) → defsInAll ms = false → log.removed = []
  | [], anc, done, out, g, log, h, _ => by
    simp only [sweepAll, Except.ok.injEq, Prod.mk.injEq] at h
    rw [← h.2.2]
    rfl
  | m :: ms, anc, done, out, g, log, h, hd => by
    obtain ⟨a, g1, l1, b, g2, l2, h1, h2, rfl, _, rfl⟩ := sweepAll_cons rd d _ _ _ _ _ _ _ _ h
    simp only [defsInAll, Bool.or_eq_false_iff] at hd
    simp [Log.add, sweep_nodefs m _ _ _ _ _ h1 hd.1, sweepAll_nodefs ms _ _ _ _ _ h2 hd.2]
end

mutual
/-- The ids that are removed are those of elements removed from a `defs`, if no `defs` is within something removed. -/
theorem sweep_removed (hdefs : ∀ anc n as k ks v, d anc n as k ks = .ok v → v.gone = true →
      (∀ i ∈ all anc (.elem n as k ks), i ∈ S) → defsIn (.elem n as k ks) = false) :
    ∀ (m : Marked) (anc : List E) (inDefs : Bool) (count : Nat) (out : List Marked) (g : Bool) (log : Log),
      sweep rd d anc inDefs count m = .ok (out, g, log) → (∀ i ∈ all anc m, i ∈ S) →
      (inDefs = true → ∃ p cs, anc = p :: cs ∧ p.1.is "defs" = true) →
      ∀ i ∈ log.removed, ∃ n as k ks v p cs, d (p :: cs) n as k ks = .ok v ∧ v.gone = true ∧ v.direct = false ∧
        i ∈ idsOf rd as ∧ p.1.is "defs" = true ∧ .elem ((n, as) :: p :: cs) ∈ S
  | .leaf l, anc, inDefs, count, out, g, log, h, _, _ => by
    simp only [sweep, Except.ok.injEq, Prod.mk.injEq] at h
    rw [← h.2.2]
    simp [Log.empty]
  | .elem n as k ks, anc, inDefs, count, out, g, log, h, hS, hin => by
    obtain ⟨v, hv, hg, hr⟩ := sweep_elem rd d _ _ _ _ _ _ _ _ _ _ h
    have hown : ∀ i ∈ (if v.gone && !v.direct && inDefs then idsOf rd as else []),
        ∃ n as k ks v p cs, d (p :: cs) n as k ks = .ok v ∧ v.gone = true ∧ v.direct = false ∧
          i ∈ idsOf rd as ∧ p.1.is "defs" = true ∧ .elem ((n, as) :: p :: cs) ∈ S := by
      intro i hi
      split at hi
      · next hc =>
        simp only [Bool.and_eq_true, Bool.not_eq_true'] at hc
        obtain ⟨p, cs, rfl, hp⟩ := hin hc.2
        exact ⟨n, as, k, ks, v, p, cs, hv, hc.1.1, hc.1.2, hi, hp, hS _ (by simp [all])⟩
      · simp at hi
    rcases hr with ⟨_, _, rfl⟩ | ⟨_, ks', here, log', hk, _, rfl⟩
    · exact hown
    · intro i hi
      simp only [Log.add, List.mem_append] at hi
      rcases hi with hi | hi
      · exact hown i hi
      · by_cases hgone : v.gone = true
        · have hno := hdefs anc n as k ks v hv hgone hS
          simp only [defsIn, Bool.or_eq_false_iff] at hno
          rw [hno.1] at hk
          rw [sweepAll_nodefs rd d ks _ _ _ _ _ hk hno.2] at hi
          simp at hi
        · simp only [Bool.not_eq_true] at hgone
          rw [hgone] at hk
          have hk' : sweepAll rd d ((n, as) :: anc) (n.is "defs") 0 ks = .ok (ks', here, log') := hk
          exact sweepAll_removed hdefs ks _ _ _ _ _ _ hk' (fun i hi => hS i (by simp [all, hi]))
            (fun hd => ⟨_, _, rfl, hd⟩) i hi
theorem sweepAll_removed (hdefs : ∀ anc n as k ks v, d anc n as k ks = .ok v → v.gone = true →
      (∀ i ∈ all anc (.elem n as k ks), i ∈ S) → defsIn (.elem n as k ks) = false) :
    ∀ (ms : List Marked) (anc : List E) (inDefs : Bool) (done : Nat) (out : List Marked) (g : Bool) (log : Log),
      sweepAll rd d anc inDefs done ms = .ok (out, g, log) → (∀ i ∈ allAll anc ms, i ∈ S) →
      (inDefs = true → ∃ p cs, anc = p :: cs ∧ p.1.is "defs" = true) →
      ∀ i ∈ log.removed, ∃ n as k ks v p cs, d (p :: cs) n as k ks = .ok v ∧ v.gone = true ∧ v.direct = false ∧
        i ∈ idsOf rd as ∧ p.1.is "defs" = true ∧ .elem ((n, as) :: p :: cs) ∈ S
  | [], anc, inDefs, done, out, g, log, h, _, _ => by
    simp only [sweepAll, Except.ok.injEq, Prod.mk.injEq] at h
    rw [← h.2.2]
    simp [Log.empty]
  | m :: ms, anc, inDefs, done, out, g, log, h, hS, hin => by
    obtain ⟨a, g1, l1, b, g2, l2, h1, h2, rfl, _, rfl⟩ := sweepAll_cons rd d _ _ _ _ _ _ _ _ h
    intro i hi
    simp only [Log.add, List.mem_append] at hi
    rcases hi with hi | hi
    · exact sweep_removed hdefs m _ _ _ _ _ _ h1 (fun i hi => hS i (by simp [allAll, hi])) hin i hi
    · exact sweepAll_removed hdefs ms _ _ _ _ _ _ h2 (fun i hi => hS i (by simp [allAll, hi])) hin i hi
end

/-! ## The end -/

mutual
theorem clear_keep (removed seen : List (List Char)) (deo : Bool)
    (h : ∀ anc n as k ks, P anc n as k → (∀ i ∈ all anc (.elem n as k ks), i ∈ S) → cleared rd removed seen deo n as k ks = true →
      ∀ i ∈ all anc (.elem n as k ks), ¬ K i) :
    ∀ (m : Marked) (anc : List E), Every P anc m → (∀ i ∈ all anc m, i ∈ S) →
      (allAll anc (clear rd removed seen deo m)).filter K = (all anc m).filter K
  | .leaf l, anc, _, _ => by simp [clear, allAll]
  | .elem n as k ks, anc, hm, hS => by
    simp only [Every] at hm
    unfold clear
    split
    · next hc =>
      symm
      simp only [allAll, List.filter_nil, List.filter_eq_nil_iff]
      intro i hi
      simpa using h anc n as k ks hm.1 hS hc i hi
    · have ih := clearAll_keep removed seen deo h ks _ hm.2 fun i hi => hS i (by simp [all, hi])
      simp only [allAll, all, List.append_nil, List.filter_cons, ih]
theorem clearAll_keep (removed seen : List (List Char)) (deo : Bool)
    (h : ∀ anc n as k ks, P anc n as k → (∀ i ∈ all anc (.elem n as k ks), i ∈ S) → cleared rd removed seen deo n as k ks = true →
      ∀ i ∈ all anc (.elem n as k ks), ¬ K i) :
    ∀ (ms : List Marked) (anc : List E), EveryAll P anc ms → (∀ i ∈ allAll anc ms, i ∈ S) →
      (allAll anc (clearAll rd removed seen deo ms)).filter K = (allAll anc ms).filter K
  | [], anc, _, _ => by simp [clearAll]
  | m :: ms, anc, hm, hS => by
    simp only [EveryAll] at hm
    rw [clearAll, allAll_append, allAll, List.filter_append, List.filter_append,
      clear_keep removed seen deo h m anc hm.1 fun i hi => hS i (by simp [allAll, hi]),
      clearAll_keep removed seen deo h ms anc hm.2 fun i hi => hS i (by simp [allAll, hi])]
end

mutual
theorem clear_sublist (removed seen : List (List Char)) (deo : Bool) : ∀ (m : Marked) (anc : List E),
    (allAll anc (clear rd removed seen deo m)).Sublist (all anc m)
  | .leaf l, anc => by simp [clear, allAll]
  | .elem n as k ks, anc => by
    unfold clear
    split
    · simp [allAll]
    · simpa [allAll, all] using clearAll_sublist removed seen deo ks ((n, as) :: anc)
theorem clearAll_sublist (removed seen : List (List Char)) (deo : Bool) : ∀ (ms : List Marked) (anc : List E),
    (allAll anc (clearAll rd removed seen deo ms)).Sublist (allAll anc ms)
  | [], anc => by simp [clearAll]
  | m :: ms, anc => by
    rw [clearAll, allAll_append, allAll]
    exact (clear_sublist removed seen deo m anc).append (clearAll_sublist removed seen deo ms anc)
end

mutual
theorem clear_every (removed seen : List (List Char)) (deo : Bool) : ∀ (m : Marked) (anc : List E), Every P anc m →
    EveryAll P anc (clear rd removed seen deo m)
  | .leaf l, anc, _ => by simp [clear, EveryAll, Every]
  | .elem n as k ks, anc, hm => by
    simp only [Every] at hm
    unfold clear
    split
    · simp [EveryAll]
    · simp only [EveryAll, Every, and_true]
      exact ⟨hm.1, clearAll_every removed seen deo ks _ hm.2⟩
theorem clearAll_every (removed seen : List (List Char)) (deo : Bool) : ∀ (ms : List Marked) (anc : List E), EveryAll P anc ms →
    EveryAll P anc (clearAll rd removed seen deo ms)
  | [], anc, _ => by simp [clearAll, EveryAll]
  | m :: ms, anc, hm => by
    simp only [EveryAll] at hm
    rw [clearAll, every_append]
    exact ⟨clear_every removed seen deo m anc hm.1, clearAll_every removed seen deo ms anc hm.2⟩
end

/-- Only `defs` are marked so. -/
def DefsOnly (_ : List E) (n : EName) (_ : List Attr) (k : Mark) : Prop := k.defs = true → n.is "defs" = true

theorem items_leaf (anc : List E) (f : Bool) (l : Leaf) : items (fun _ _ _ => false) f anc l.node = [.leaf anc l.node] := by
  cases l <;> rfl

theorem itemsAll_append (drop : Bool → List E → EName → Bool) (f : Bool) (anc : List E) (a b : List (Node Attr)) :
    itemsAll drop f anc (a ++ b) = itemsAll drop f anc a ++ itemsAll drop f anc b := by
  induction a with
  | nil => rfl
  | cons n a ih => simp [itemsAll, ih]

variable (white : Char → Bool) (order : List Nat → Nat)

mutual
theorem strip_sublist : ∀ (m : Marked) (path : List Nat) (anc : List E) (f : Bool),
    (itemsAll (fun _ _ _ => false) f anc (strip white order path m)).Sublist (all anc m)
  | .leaf l, path, anc, f => by simp [strip, itemsAll, items_leaf, all]
  | .elem n as k ks, path, anc, f => by
    unfold strip
    split
    · simp [itemsAll]
    · simpa [itemsAll, items, all] using stripAll_sublist ks path 0 ((n, as) :: anc) (f || n.is "foreignObject")
theorem stripAll_sublist : ∀ (ms : List Marked) (path : List Nat) (i : Nat) (anc : List E) (f : Bool),
    (itemsAll (fun _ _ _ => false) f anc (stripAll white order path i ms)).Sublist (allAll anc ms)
  | [], path, i, anc, f => by simp [stripAll, itemsAll]
  | m :: ms, path, i, anc, f => by
    rw [stripAll, itemsAll_append, allAll]
    exact (strip_sublist m _ anc f).append (stripAll_sublist ms _ _ anc f)
end

mutual
theorem goneAt_none (hd : ∀ anc n as, n.is "defs" = true → (.elem ((n, as) :: anc) ∈ S → ¬ K (.elem ((n, as) :: anc))) ∧
      ∀ l, .leaf ((n, as) :: anc) l ∈ S → ¬ K (.leaf ((n, as) :: anc) l)) :
    ∀ (m : Marked) (path : List Nat) (anc : List E), Every DefsOnly anc m → (∀ i ∈ all anc m, i ∈ S) →
      (goneAt white order path m).isSome = true → ∀ i ∈ all anc m, ¬ K i
  | .leaf l, path, anc, _, _, h => by simp [goneAt] at h
  | .elem n as k ks, path, anc, hm, hS, h => by
    simp only [Every] at hm
    unfold goneAt at h
    split at h
    · next hc =>
      simp only [Bool.and_eq_true] at hc
      have hn := hm.1 hc.1
      intro i hi
      have hi' := hS i hi
      simp only [all, List.mem_cons] at hi
      rcases hi with rfl | hi
      · exact (hd anc n as hn).1 hi'
      · intro hKi
        obtain ⟨l, rfl⟩ := vacant_none hd ks _ _ _ _ hm.2 (fun i hi => hS i (by simp [all, hi])) hc.2 i hi hKi
        exact (hd anc n as hn).2 l hi' hKi
    · simp at h
theorem vacant_none (hd : ∀ anc n as, n.is "defs" = true → (.elem ((n, as) :: anc) ∈ S → ¬ K (.elem ((n, as) :: anc))) ∧
      ∀ l, .leaf ((n, as) :: anc) l ∈ S → ¬ K (.leaf ((n, as) :: anc) l)) :
    ∀ (ms : List Marked) (now : Nat) (path : List Nat) (j : Nat) (anc : List E), EveryAll DefsOnly anc ms →
      (∀ i ∈ allAll anc ms, i ∈ S) → vacant white order now path j ms = true → ∀ i ∈ allAll anc ms, K i → ∃ n, i = .leaf anc n
  | [], now, path, j, anc, _, _, _, i, hi, _ => by simp [allAll] at hi
  | .leaf l :: ms, now, path, j, anc, hm, hS, h, i, hi, hKi => by
    simp only [EveryAll] at hm
    simp only [vacant, Bool.and_eq_true] at h
    simp only [allAll, all, List.mem_append, List.mem_singleton] at hi
    rcases hi with rfl | hi
    · exact ⟨_, rfl⟩
    · exact vacant_none hd ms now path _ anc hm.2 (fun i hi => hS i (by simp [allAll, hi])) h.2 i hi hKi
  | .elem n as k ks :: ms, now, path, j, anc, hm, hS, h, i, hi, hKi => by
    simp only [EveryAll] at hm
    simp only [vacant, Bool.and_eq_true] at h
    simp only [allAll, List.mem_append] at hi
    rcases hi with hi | hi
    · have hg : (goneAt white order (j :: path) (.elem n as k ks)).isSome = true := by
        cases hx : goneAt white order (j :: path) (.elem n as k ks) with
        | none => rw [hx] at h; simp at h
        | some _ => rfl
      exact absurd hKi (goneAt_none hd (.elem n as k ks) _ anc hm.1 (fun i hi => hS i (by simp [allAll, hi])) hg i hi)
    · exact vacant_none hd ms now path _ anc hm.2 (fun i hi => hS i (by simp [allAll, hi])) h.2 i hi hKi
end

mutual
theorem strip_keep (hd : ∀ anc n as, n.is "defs" = true → (.elem ((n, as) :: anc) ∈ S → ¬ K (.elem ((n, as) :: anc))) ∧
      ∀ l, .leaf ((n, as) :: anc) l ∈ S → ¬ K (.leaf ((n, as) :: anc) l)) :
    ∀ (m : Marked) (path : List Nat) (anc : List E) (f : Bool), Every DefsOnly anc m → (∀ i ∈ all anc m, i ∈ S) →
      (itemsAll (fun _ _ _ => false) f anc (strip white order path m)).filter K = (all anc m).filter K
  | .leaf l, path, anc, f, _, _ => by simp [strip, itemsAll, items_leaf, all]
  | .elem n as k ks, path, anc, f, hm, hS => by
    unfold strip
    split
    · next hg =>
      symm
      simp only [itemsAll, List.filter_nil, List.filter_eq_nil_iff]
      intro i hi
      simpa using goneAt_none S K white order hd _ path anc hm hS hg i hi
    · simp only [Every] at hm
      have ih := stripAll_keep hd ks path 0 ((n, as) :: anc) (f || n.is "foreignObject") hm.2 fun i hi => hS i (by simp [all, hi])
      simp only [itemsAll, items, Bool.false_eq_true, if_false, all, List.append_nil, List.filter_cons, ih]
theorem stripAll_keep (hd : ∀ anc n as, n.is "defs" = true → (.elem ((n, as) :: anc) ∈ S → ¬ K (.elem ((n, as) :: anc))) ∧
      ∀ l, .leaf ((n, as) :: anc) l ∈ S → ¬ K (.leaf ((n, as) :: anc) l)) :
    ∀ (ms : List Marked) (path : List Nat) (j : Nat) (anc : List E) (f : Bool), EveryAll DefsOnly anc ms →
      (∀ i ∈ allAll anc ms, i ∈ S) →
      (itemsAll (fun _ _ _ => false) f anc (stripAll white order path j ms)).filter K = (allAll anc ms).filter K
  | [], path, j, anc, f, _, _ => by simp [stripAll, itemsAll, allAll]
  | m :: ms, path, j, anc, f, hm, hS => by
    simp only [EveryAll] at hm
    rw [stripAll, itemsAll_append, allAll, List.filter_append, List.filter_append,
      strip_keep hd m _ anc f hm.1 fun i hi => hS i (by simp [allAll, hi]),
      stripAll_keep hd ms _ _ anc f hm.2 fun i hi => hS i (by simp [allAll, hi])]
end

/-! ## More about one pass -/

/-- A property of elements that does not depend on ancestors. -/
abbrev each (G : E → Prop) : List E → EName → List Attr → Mark → Prop := fun _ n as _ => G (n, as)

mutual
theorem each_anc (G : E → Prop) : ∀ (m : Marked) (a b : List E), Every (each G) a m → Every (each G) b m
  | .leaf _, _, _, _ => by simp [Every]
  | .elem n as k ks, a, b, h => by
    simp only [Every] at h ⊢
    exact ⟨h.1, eachAll_anc G ks _ _ h.2⟩
theorem eachAll_anc (G : E → Prop) : ∀ (ms : List Marked) (a b : List E), EveryAll (each G) a ms → EveryAll (each G) b ms
  | [], _, _, _ => by simp [EveryAll]
  | m :: ms, a, b, h => by
    simp only [EveryAll] at h ⊢
    exact ⟨each_anc G m _ _ h.1, eachAll_anc G ms _ _ h.2⟩
end

mutual
theorem every_of_all : ∀ (m : Marked) (anc : List E), (∀ n as k cs, .elem ((n, as) :: cs) ∈ all anc m → P cs n as k) → Every P anc m
  | .leaf _, _, _ => by simp [Every]
  | .elem n as k ks, anc, h => by
    simp only [Every]
    exact ⟨h n as k anc (by simp [all]), everyAll_of_all ks _ fun n' as' k' cs hi => h n' as' k' cs (by simp [all, hi])⟩
theorem everyAll_of_all : ∀ (ms : List Marked) (anc : List E), (∀ n as k cs, .elem ((n, as) :: cs) ∈ allAll anc ms → P cs n as k) →
    EveryAll P anc ms
  | [], _, _ => by simp [EveryAll]
  | m :: ms, anc, h => by
    simp only [EveryAll]
    exact ⟨every_of_all m anc fun n' as' k' cs hi => h n' as' k' cs (by simp [allAll, hi]),
      everyAll_of_all ms anc fun n' as' k' cs hi => h n' as' k' cs (by simp [allAll, hi])⟩
end

mutual
theorem all_of_every (R : List E → Prop) : ∀ (m : Marked) (anc : List E), Every (fun cs n as _ => R ((n, as) :: cs)) anc m →
    ∀ c, .elem c ∈ all anc m → R c
  | .leaf l, _, _, c, hc => by simp [all] at hc
  | .elem n as k ks, anc, h, c, hc => by
    simp only [Every] at h
    simp only [all, List.mem_cons, Item.elem.injEq] at hc
    rcases hc with rfl | hc
    · exact h.1
    · exact allAll_of_every R ks _ h.2 c hc
theorem allAll_of_every (R : List E → Prop) : ∀ (ms : List Marked) (anc : List E),
    EveryAll (fun cs n as _ => R ((n, as) :: cs)) anc ms → ∀ c, .elem c ∈ allAll anc ms → R c
  | [], _, _, c, hc => by simp [allAll] at hc
  | m :: ms, anc, h, c, hc => by
    simp only [EveryAll] at h
    simp only [allAll, List.mem_append] at hc
    exact hc.elim (all_of_every R m anc h.1 c) (allAll_of_every R ms anc h.2 c)
end

mutual
/-- If the hook never fails, the pass does not. -/
theorem sweep_ok (G : E → Prop) (h : ∀ anc n as k ks, G (n, as) → ∃ v, d anc n as k ks = .ok v) :
    ∀ (m : Marked) (anc : List E) (inDefs : Bool) (count : Nat), Every (each G) anc m → ∃ r, sweep rd d anc inDefs count m = .ok r
  | .leaf _, _, _, _, _ => ⟨_, rfl⟩
  | .elem n as k ks, anc, inDefs, count, hm => by
    simp only [Every] at hm
    obtain ⟨v, hv⟩ := h anc n as k ks hm.1
    unfold sweep
    simp only [hv]
    split
    · exact ⟨_, rfl⟩
    · obtain ⟨⟨a, b, c⟩, hr⟩ := sweepAll_ok G h ks
        (if v.gone then (if (v.gone && !v.direct && inDefs && decide (count = 1)) then (n, as) :: anc.take 1 else [(n, as)])
          else (n, as) :: anc) (n.is "defs") 0 (eachAll_anc G ks _ _ hm.2)
      rw [hr]
      exact ⟨_, rfl⟩
theorem sweepAll_ok (G : E → Prop) (h : ∀ anc n as k ks, G (n, as) → ∃ v, d anc n as k ks = .ok v) :
    ∀ (ms : List Marked) (anc : List E) (inDefs : Bool) (done : Nat), EveryAll (each G) anc ms →
      ∃ r, sweepAll rd d anc inDefs done ms = .ok r
  | [], _, _, _, _ => ⟨_, rfl⟩
  | m :: ms, anc, inDefs, done, hm => by
    simp only [EveryAll] at hm
    obtain ⟨⟨a, b, c⟩, h1⟩ := sweep_ok G h m anc inDefs (done + elements (m :: ms)) hm.1
    obtain ⟨⟨a', b', c'⟩, h2⟩ := sweepAll_ok G h ms anc inDefs (done + elements a) hm.2
    unfold sweepAll
    simp only [h1, h2]
    exact ⟨_, rfl⟩
end

mutual
/-- Where what is collected comes from. -/
theorem sweep_log (G : E → Prop) (U V : List Char → Prop) (h : ∀ anc n as k ks v, G (n, as) → d anc n as k ks = .ok v →
      (∀ i ∈ v.uses, U i) ∧ ∀ i ∈ v.seen, V i) :
    ∀ (m : Marked) (anc : List E) (inDefs : Bool) (count : Nat) (out : List Marked) (g : Bool) (log : Log),
      sweep rd d anc inDefs count m = .ok (out, g, log) → Every (each G) anc m → (∀ i ∈ log.uses, U i) ∧ ∀ i ∈ log.seen, V i
  | .leaf l, anc, inDefs, count, out, g, log, hs, _ => by
    simp only [sweep, Except.ok.injEq, Prod.mk.injEq] at hs
    rw [← hs.2.2]
    simp [Log.empty]
  | .elem n as k ks, anc, inDefs, count, out, g, log, hs, hm => by
    obtain ⟨v, hv, _, hr⟩ := sweep_elem rd d _ _ _ _ _ _ _ _ _ _ hs
    simp only [Every] at hm
    have hown := h _ _ _ _ _ v hm.1 hv
    rcases hr with ⟨_, _, rfl⟩ | ⟨_, ks', here, log', hk, _, rfl⟩
    · exact hown
    · have ih := sweepAll_log G U V h ks _ _ _ _ _ _ hk (eachAll_anc G ks _ _ hm.2)
      simp only [Log.add, List.mem_append]
      exact ⟨fun i hi => hi.elim (hown.1 i) (ih.1 i), fun i hi => hi.elim (hown.2 i) (ih.2 i)⟩
theorem sweepAll_log (G : E → Prop) (U V : List Char → Prop) (h : ∀ anc n as k ks v, G (n, as) → d anc n as k ks = .ok v →
      (∀ i ∈ v.uses, U i) ∧ ∀ i ∈ v.seen, V i) :
    ∀ (ms : List Marked) (anc : List E) (inDefs : Bool) (done : Nat) (out : List Marked) (g : Bool) (log : Log),
      sweepAll rd d anc inDefs done ms = .ok (out, g, log) → EveryAll (each G) anc ms → (∀ i ∈ log.uses, U i) ∧ ∀ i ∈ log.seen, V i
  | [], anc, inDefs, done, out, g, log, hs, _ => by
    simp only [sweepAll, Except.ok.injEq, Prod.mk.injEq] at hs
    rw [← hs.2.2]
    simp [Log.empty]
  | m :: ms, anc, inDefs, done, out, g, log, hs, hm => by
    obtain ⟨a, g1, l1, b, g2, l2, h1, h2, rfl, _, rfl⟩ := sweepAll_cons rd d _ _ _ _ _ _ _ _ hs
    simp only [EveryAll] at hm
    have i1 := sweep_log G U V h m _ _ _ _ _ _ h1 hm.1
    have i2 := sweepAll_log G U V h ms _ _ _ _ _ _ h2 hm.2
    simp only [Log.add, List.mem_append]
    exact ⟨fun i hi => hi.elim (i1.1 i) (i2.1 i), fun i hi => hi.elim (i1.2 i) (i2.2 i)⟩
end

mutual
/-- What is left was looked at and not removed, or is in something whose children are skipped. -/
theorem sweep_visited : ∀ (m : Marked) (anc : List E) (inDefs : Bool) (count : Nat) (out : List Marked) (g : Bool) (log : Log),
    sweep rd d anc inDefs count m = .ok (out, g, log) → ∀ c, .elem c ∈ allAll anc out →
    ∃ n as cs k ks v, (n, as) :: cs <:+ c ∧ anc <:+ cs ∧ d cs n as k ks = .ok v ∧ v.gone = false ∧
      (v.skip = true ∨ c = (n, as) :: cs) ∧ (∀ i ∈ v.seen, i ∈ log.seen) ∧ ∀ i ∈ all cs (.elem n as k ks), i ∈ all anc m
  | .leaf l, anc, inDefs, count, out, g, log, h, c, hc => by
    simp only [sweep, Except.ok.injEq, Prod.mk.injEq] at h
    rw [← h.1] at hc
    simp [allAll, all] at hc
  | .elem n as k ks, anc, inDefs, count, out, g, log, h, c, hc => by
    obtain ⟨v, hv, _, hr⟩ := sweep_elem rd d _ _ _ _ _ _ _ _ _ _ h
    rcases hr with ⟨hsk, rfl, rfl⟩ | ⟨_, ks', here, log', hk, rfl, rfl⟩
    · by_cases hg : v.gone = true
      · simp [hg, allAll] at hc
      · rw [if_neg hg] at hc
        have hsuf : (n, as) :: anc <:+ c := elem_suffix anc n as v.mark ks (.elem c) (by simpa [allAll] using hc)
        exact ⟨n, as, anc, k, ks, v, hsuf, List.suffix_refl _, hv, by simpa using hg, .inl hsk, fun i hi => hi, fun i hi => hi⟩
    · by_cases hg : (v.gone || here) = true
      · simp [hg, allAll] at hc
      · rw [if_neg hg] at hc
        simp only [Bool.or_eq_true, not_or, Bool.not_eq_true] at hg
        rw [hg.1] at hk
        have hk' : sweepAll rd d ((n, as) :: anc) (n.is "defs") 0 ks = .ok (ks', here, log') := hk
        simp only [allAll, all, List.append_nil, List.mem_cons, Item.elem.injEq] at hc
        rcases hc with rfl | hc
        · exact ⟨n, as, anc, k, ks, v, List.suffix_refl _, List.suffix_refl _, hv, hg.1, .inr rfl,
            fun i hi => List.mem_append_left _ hi, fun i hi => hi⟩
        · obtain ⟨n', as', cs, k', ks2, v', h1, h2, h3, h4, h5, h6, h7⟩ := sweepAll_visited ks _ _ _ _ _ _ hk' c hc
          exact ⟨n', as', cs, k', ks2, v', h1, (List.suffix_cons _ _).trans h2, h3, h4, h5,
            fun i hi => List.mem_append_right _ (h6 i hi), fun i hi => by simp [all, h7 i hi]⟩
theorem sweepAll_visited : ∀ (ms : List Marked) (anc : List E) (inDefs : Bool) (done : Nat) (out : List Marked) (g : Bool) (log : Log),
    sweepAll rd d anc inDefs done ms = .ok (out, g, log) → ∀ c, .elem c ∈ allAll anc out →
    ∃ n as cs k ks v, (n, as) :: cs <:+ c ∧ anc <:+ cs ∧ d cs n as k ks = .ok v ∧ v.gone = false ∧
      (v.skip = true ∨ c = (n, as) :: cs) ∧ (∀ i ∈ v.seen, i ∈ log.seen) ∧ ∀ i ∈ all cs (.elem n as k ks), i ∈ allAll anc ms
  | [], anc, inDefs, done, out, g, log, h, c, hc => by
    simp only [sweepAll, Except.ok.injEq, Prod.mk.injEq] at h
    rw [← h.1] at hc
    simp [allAll] at hc
  | m :: ms, anc, inDefs, done, out, g, log, h, c, hc => by
    obtain ⟨a, g1, l1, b, g2, l2, h1, h2, rfl, _, rfl⟩ := sweepAll_cons rd d _ _ _ _ _ _ _ _ h
    rw [allAll_append, List.mem_append] at hc
    rcases hc with hc | hc
    · obtain ⟨n', as', cs, k', ks', v', e1, e2, e3, e4, e5, e6, e7⟩ := sweep_visited m _ _ _ _ _ _ h1 c hc
      exact ⟨n', as', cs, k', ks', v', e1, e2, e3, e4, e5, fun i hi => List.mem_append_left _ (e6 i hi),
        fun i hi => by simp [allAll, e7 i hi]⟩
    · obtain ⟨n', as', cs, k', ks', v', e1, e2, e3, e4, e5, e6, e7⟩ := sweepAll_visited ms _ _ _ _ _ _ h2 c hc
      exact ⟨n', as', cs, k', ks', v', e1, e2, e3, e4, e5, fun i hi => List.mem_append_right _ (e6 i hi),
        fun i hi => by simp [allAll, e7 i hi]⟩
end

mutual
theorem canRemove_all (seen : List (List Char)) : ∀ (m : Marked) (anc : List E), canRemove rd seen m = true →
    ∀ e cs, .elem (e :: cs) ∈ all anc m → isUsed rd seen e.2 = false
  | .leaf l, anc, _, e, cs, h => by simp [all] at h
  | .elem n as k ks, anc, hc, e, cs, h => by
    simp only [canRemove, Bool.and_eq_true, Bool.not_eq_true'] at hc
    simp only [all, List.mem_cons, Item.elem.injEq, List.cons.injEq] at h
    rcases h with ⟨rfl, _⟩ | h
    · exact hc.1
    · exact canRemoveAll_all seen ks _ hc.2 e cs h
theorem canRemoveAll_all (seen : List (List Char)) : ∀ (ms : List Marked) (anc : List E), canRemoveAll rd seen ms = true →
    ∀ e cs, .elem (e :: cs) ∈ allAll anc ms → isUsed rd seen e.2 = false
  | [], anc, _, e, cs, h => by simp [allAll] at h
  | m :: ms, anc, hc, e, cs, h => by
    simp only [canRemoveAll, Bool.and_eq_true] at hc
    simp only [allAll, List.mem_append] at h
    exact h.elim (canRemove_all seen m anc hc.1 e cs) (canRemoveAll_all seen ms anc hc.2 e cs)
end

mutual
theorem canRemove_of_all (seen : List (List Char)) : ∀ (m : Marked) (anc : List E),
    (∀ e cs, .elem (e :: cs) ∈ all anc m → isUsed rd seen e.2 = false) → canRemove rd seen m = true
  | .leaf l, anc, _ => by simp [canRemove]
  | .elem n as k ks, anc, h => by
    simp only [canRemove, Bool.and_eq_true, Bool.not_eq_true']
    exact ⟨h (n, as) anc (by simp [all]), canRemoveAll_of_all seen ks ((n, as) :: anc) fun e cs hi => h e cs (by simp [all, hi])⟩
theorem canRemoveAll_of_all (seen : List (List Char)) : ∀ (ms : List Marked) (anc : List E),
    (∀ e cs, .elem (e :: cs) ∈ allAll anc ms → isUsed rd seen e.2 = false) → canRemoveAll rd seen ms = true
  | [], anc, _ => by simp [canRemoveAll]
  | m :: ms, anc, h => by
    simp only [canRemoveAll, Bool.and_eq_true]
    exact ⟨canRemove_of_all seen m anc fun e cs hi => h e cs (by simp [allAll, hi]),
      canRemoveAll_of_all seen ms anc fun e cs hi => h e cs (by simp [allAll, hi])⟩
end

mutual
theorem within_all (p : List Attr → Bool) : ∀ (m : Marked) (anc : List E), within p m = true ↔
    ∃ e cs, .elem (e :: cs) ∈ all anc m ∧ p e.2 = true
  | .leaf l, anc => by simp [within, all]
  | .elem n as k ks, anc => by
    simp only [within, Bool.or_eq_true, below_all p ks ((n, as) :: anc), all, List.mem_cons, Item.elem.injEq, List.cons.injEq]
    constructor
    · rintro (h | ⟨e, cs, h1, h2⟩)
      · exact ⟨(n, as), anc, .inl ⟨rfl, rfl⟩, h⟩
      · exact ⟨e, cs, .inr h1, h2⟩
    · rintro ⟨e, cs, ⟨rfl, rfl⟩ | h1, h2⟩
      · exact .inl h2
      · exact .inr ⟨e, cs, h1, h2⟩
theorem below_all (p : List Attr → Bool) : ∀ (ms : List Marked) (anc : List E), below p ms = true ↔
    ∃ e cs, .elem (e :: cs) ∈ allAll anc ms ∧ p e.2 = true
  | [], anc => by simp [below, allAll]
  | m :: ms, anc => by
    simp only [below, Bool.or_eq_true, within_all p m anc, below_all p ms anc, allAll, List.mem_append]
    constructor
    · rintro (⟨e, cs, h1, h2⟩ | ⟨e, cs, h1, h2⟩)
      · exact ⟨e, cs, .inl h1, h2⟩
      · exact ⟨e, cs, .inr h1, h2⟩
    · rintro ⟨e, cs, h1 | h1, h2⟩
      · exact .inl ⟨e, cs, h1, h2⟩
      · exact .inr ⟨e, cs, h1, h2⟩
end

mutual
/-- Every ancestor that is not above is part of the tree. -/
theorem all_parent : ∀ (m : Marked) (anc : List E) (e : E) (cs : List E), .elem (e :: cs) ∈ all anc m → cs = anc ∨ .elem cs ∈ all anc m
  | .leaf l, anc, e, cs, h => by simp [all] at h
  | .elem n as k ks, anc, e, cs, h => by
    simp only [all, List.mem_cons, Item.elem.injEq, List.cons.injEq] at h
    rcases h with ⟨_, rfl⟩ | h
    · exact .inl rfl
    · right
      rcases allAll_parent ks _ e cs h with rfl | h'
      · simp [all]
      · simp [all, h']
theorem allAll_parent : ∀ (ms : List Marked) (anc : List E) (e : E) (cs : List E), .elem (e :: cs) ∈ allAll anc ms →
    cs = anc ∨ .elem cs ∈ allAll anc ms
  | [], anc, e, cs, h => by simp [allAll] at h
  | m :: ms, anc, e, cs, h => by
    simp only [allAll, List.mem_append] at h ⊢
    rcases h with h | h
    · exact (all_parent m anc e cs h).imp_right .inl
    · exact (allAll_parent ms anc e cs h).imp_right .inr
end

mutual
/-- The parents of other nodes. -/
theorem all_leaf : ∀ (m : Marked) (anc cs : List E) (l : Node Attr), .leaf cs l ∈ all anc m → cs = anc ∨ .elem cs ∈ all anc m
  | .leaf l, anc, cs, l', h => by
    simp only [all, List.mem_singleton, Item.leaf.injEq] at h
    exact .inl h.1
  | .elem n as k ks, anc, cs, l, h => by
    simp only [all, List.mem_cons, reduceCtorEq, false_or] at h
    right
    rcases allAll_leaf ks _ cs l h with rfl | h'
    · simp [all]
    · simp [all, h']
theorem allAll_leaf : ∀ (ms : List Marked) (anc cs : List E) (l : Node Attr), .leaf cs l ∈ allAll anc ms →
    cs = anc ∨ .elem cs ∈ allAll anc ms
  | [], anc, cs, l, h => by simp [allAll] at h
  | m :: ms, anc, cs, l, h => by
    simp only [allAll, List.mem_append] at h ⊢
    rcases h with h | h
    · exact (all_leaf m anc cs l h).imp_right .inl
    · exact (allAll_leaf ms anc cs l h).imp_right .inr
end

mutual
/-- What is left at the end was not cleared. -/
theorem clear_stays (removed seen : List (List Char)) (deo : Bool) : ∀ (m : Marked) (anc : List E), Every P anc m → ∀ c,
    .elem c ∈ allAll anc (clear rd removed seen deo m) → ∃ n as cs k ks, c = (n, as) :: cs ∧ P cs n as k ∧
      cleared rd removed seen deo n as k ks = false ∧ ∀ i ∈ all cs (.elem n as k ks), i ∈ all anc m
  | .leaf l, anc, _, c, hc => by simp [clear, allAll, all] at hc
  | .elem n as k ks, anc, hm, c, hc => by
    simp only [Every] at hm
    unfold clear at hc
    split at hc
    · simp [allAll] at hc
    · next hcl =>
      simp only [allAll, all, List.append_nil, List.mem_cons, Item.elem.injEq] at hc
      rcases hc with rfl | hc
      · exact ⟨n, as, anc, k, ks, rfl, hm.1, by simpa using hcl, fun i hi => hi⟩
      · obtain ⟨n', as', cs, k', ks', h1, h2, h3, h4⟩ := clearAll_stays removed seen deo ks _ hm.2 c hc
        exact ⟨n', as', cs, k', ks', h1, h2, h3, fun i hi => by simp [all, h4 i hi]⟩
theorem clearAll_stays (removed seen : List (List Char)) (deo : Bool) : ∀ (ms : List Marked) (anc : List E), EveryAll P anc ms → ∀ c,
    .elem c ∈ allAll anc (clearAll rd removed seen deo ms) → ∃ n as cs k ks, c = (n, as) :: cs ∧ P cs n as k ∧
      cleared rd removed seen deo n as k ks = false ∧ ∀ i ∈ all cs (.elem n as k ks), i ∈ allAll anc ms
  | [], anc, _, c, hc => by simp [clearAll, allAll] at hc
  | m :: ms, anc, hm, c, hc => by
    simp only [EveryAll] at hm
    rw [clearAll, allAll_append, List.mem_append] at hc
    rcases hc with hc | hc
    · obtain ⟨n', as', cs, k', ks', h1, h2, h3, h4⟩ := clear_stays removed seen deo m _ hm.1 c hc
      exact ⟨n', as', cs, k', ks', h1, h2, h3, fun i hi => by simp [allAll, h4 i hi]⟩
    · obtain ⟨n', as', cs, k', ks', h1, h2, h3, h4⟩ := clearAll_stays removed seen deo ms _ hm.2 c hc
      exact ⟨n', as', cs, k', ks', h1, h2, h3, fun i hi => by simp [allAll, h4 i hi]⟩
end

/-! ## Style sheets -/

/-- A list that begins with a style sheet. -/
def first : List Marked → Bool
  | .leaf (.css _) :: _ => true
  | _ => false

mutual
/-- An element begins with a style sheet. -/
def sheetIn : Marked → Bool
  | .leaf _ => false
  | .elem _ _ _ ks => first ks || sheetInAll ks
def sheetInAll : List Marked → Bool
  | [] => false
  | m :: ms => sheetIn m || sheetInAll ms
end

theorem sheetInAll_append (a b : List Marked) : sheetInAll (a ++ b) = (sheetInAll a || sheetInAll b) := by
  induction a with
  | nil => simp [sheetInAll]
  | cons m a ih => simp [sheetInAll, ih, Bool.or_assoc]

theorem first_all (anc : List E) (ks : List Marked) (h : first ks = true) : ∃ s, .leaf anc (.css s) ∈ allAll anc ks := by
  unfold first at h
  split at h
  · next s ms => exact ⟨s, by simp [allAll, all, Leaf.node]⟩
  · simp at h

mutual
theorem sheetIn_all : ∀ (m : Marked) (anc : List E), sheetIn m = true → ∃ c s, .leaf c (.css s) ∈ all anc m ∧ c ≠ anc
  | .leaf _, _, h => by simp [sheetIn] at h
  | .elem n as k ks, anc, h => by
    have hne : ∀ c, (n, as) :: anc <:+ c → c ≠ anc := by
      rintro c hc rfl
      have := hc.length_le
      rw [List.length_cons] at this
      omega
    simp only [sheetIn, Bool.or_eq_true] at h
    rcases h with h | h
    · obtain ⟨s, hs⟩ := first_all ((n, as) :: anc) ks h
      exact ⟨_, s, by simp [all, hs], hne _ (List.suffix_refl _)⟩
    · obtain ⟨c, s, hs, _⟩ := sheetInAll_all ks ((n, as) :: anc) h
      exact ⟨c, s, by simp [all, hs], hne _ (allAll_suffix _ ks _ hs)⟩
theorem sheetInAll_all : ∀ (ms : List Marked) (anc : List E), sheetInAll ms = true → ∃ c s, .leaf c (.css s) ∈ allAll anc ms ∧ c ≠ anc
  | [], _, h => by simp [sheetInAll] at h
  | m :: ms, anc, h => by
    simp only [sheetInAll, Bool.or_eq_true] at h
    simp only [allAll, List.mem_append]
    rcases h with h | h
    · obtain ⟨c, s, h1, h2⟩ := sheetIn_all m anc h
      exact ⟨c, s, .inl h1, h2⟩
    · obtain ⟨c, s, h1, h2⟩ := sheetInAll_all ms anc h
      exact ⟨c, s, .inr h1, h2⟩
end

/-- A leaf that is a style sheet. -/
def isSheet : Item → Prop
  | .leaf _ (.css _) => True
  | _ => False

mutual
/-- Style sheets stay where they are. -/
theorem sweep_sheet (hK : Keeps d S isSheet) : ∀ (m : Marked) (anc : List E) (inDefs : Bool) (count : Nat) (out : List Marked) (g : Bool)
    (log : Log), sweep rd d anc inDefs count m = .ok (out, g, log) → (∀ i ∈ all anc m, i ∈ S) → sheetIn m = true →
    sheetInAll out = true
  | .leaf l, anc, inDefs, count, out, g, log, h, _, hs => by simp [sheetIn] at hs
  | .elem n as k ks, anc, inDefs, count, out, g, log, h, hS, hs => by
    classical
    obtain ⟨v, hv, _, hr⟩ := sweep_elem rd d _ _ _ _ _ _ _ _ _ _ h
    have hgone : v.gone = false := by
      by_contra hg
      obtain ⟨c, s, hc, _⟩ := sheetIn_all _ anc hs
      exact hK.gone anc n as k ks v hv (by simpa using hg) hS _ hc trivial
    rcases hr with ⟨_, rfl, _⟩ | ⟨_, ks', here, log', hk, rfl, _⟩
    · rw [hgone]
      simp only [sheetIn, Bool.or_eq_true] at hs
      simp [sheetInAll, sheetIn, hs]
    · rw [hgone] at hk
      have hk' : sweepAll rd d ((n, as) :: anc) (n.is "defs") 0 ks = .ok (ks', here, log') := hk
      have hS' : ∀ i ∈ allAll ((n, as) :: anc) ks, i ∈ S := fun i hi => hS i (by simp [all, hi])
      simp only [sheetIn, Bool.or_eq_true] at hs
      cases here with
      | true =>
        exfalso
        obtain ⟨_, hd⟩ := gone_done rd d _ _ _ _ _ _ hk'
        have hno := sweepAll_gone rd d S isSheet hK ks _ _ _ _ _ hk' hS'
        rcases hs with hs | hs
        · obtain ⟨s, hm⟩ := first_all ((n, as) :: anc) ks hs
          exact (hK.defs anc n as hd).2 _ (hS' _ hm) trivial
        · obtain ⟨c, s, hm, hne⟩ := sheetInAll_all ks ((n, as) :: anc) hs
          obtain ⟨x, hx⟩ := hno _ hm trivial
          simp only [Item.leaf.injEq] at hx
          exact hne hx.1
      | false =>
        rw [hgone]
        have : first ks' = true ∨ sheetInAll ks' = true := by
          rcases hs with hs | hs
          · left
            unfold first at hs
            split at hs
            · next s ms =>
              obtain ⟨a, g1, l1, b, g2, l2, h1, h2, rfl, _, _⟩ := sweepAll_cons rd d _ _ _ _ _ _ _ _ hk'
              simp only [sweep, Except.ok.injEq, Prod.mk.injEq] at h1
              rw [← h1.1]
              rfl
            · simp at hs
          · exact .inr (sweepAll_sheet hK ks _ _ _ _ _ _ hk' hS' hs)
        simpa [sheetInAll, sheetIn] using this
theorem sweepAll_sheet (hK : Keeps d S isSheet) : ∀ (ms : List Marked) (anc : List E) (inDefs : Bool) (done : Nat) (out : List Marked)
    (g : Bool) (log : Log), sweepAll rd d anc inDefs done ms = .ok (out, g, log) → (∀ i ∈ allAll anc ms, i ∈ S) →
    sheetInAll ms = true → sheetInAll out = true
  | [], anc, inDefs, done, out, g, log, h, _, hs => by simp [sheetInAll] at hs
  | m :: ms, anc, inDefs, done, out, g, log, h, hS, hs => by
    obtain ⟨a, g1, l1, b, g2, l2, h1, h2, rfl, _, _⟩ := sweepAll_cons rd d _ _ _ _ _ _ _ _ h
    rw [sheetInAll_append, Bool.or_eq_true]
    simp only [sheetInAll, Bool.or_eq_true] at hs
    exact hs.imp (sweep_sheet hK m _ _ _ _ _ _ h1 fun i hi => hS i (by simp [allAll, hi]))
      (sweepAll_sheet hK ms _ _ _ _ _ _ h2 fun i hi => hS i (by simp [allAll, hi]))
end

theorem first_plain (ks : List Marked) : (match plainAll ks with
    | .css _ :: _ => true
    | _ => false) = first ks := by
  cases ks with
  | nil => rfl
  | cons m ms =>
    cases m with
    | elem n as k ks => rfl
    | leaf l => cases l <;> rfl

mutual
theorem sheet_plain : ∀ m : Marked, Unpainted.someElem (fun _ _ ks => match ks with
    | .css _ :: _ => true
    | _ => false) (plain m) = sheetIn m
  | .leaf l => by cases l <;> rfl
  | .elem n as k ks => by
    simp only [plain, Unpainted.someElem, sheetIn, sheet_plainAll ks]
    rw [first_plain]
theorem sheet_plainAll : ∀ ms : List Marked, Unpainted.anyElem (fun _ _ ks => match ks with
    | .css _ :: _ => true
    | _ => false) (plainAll ms) = sheetInAll ms
  | [] => rfl
  | m :: ms => by simp only [plainAll, Unpainted.anyElem, sheetInAll, sheet_plain m, sheet_plainAll ms]
end

theorem hasSheet_plain (ms : List Marked) : Unpainted.hasSheet (plainAll ms) = sheetInAll ms := sheet_plainAll ms

/-! ## The order of `defs` -/

mutual
/-- No `defs` is directly in a `defs`. -/
def Apart : Marked → Prop
  | .leaf _ => True
  | .elem _ _ k ks => (k.defs = true → ∀ m ∈ ks, ∀ n' as' k' ks', m = .elem n' as' k' ks' → k'.defs = false) ∧ ApartAll ks
def ApartAll : List Marked → Prop
  | [] => True
  | m :: ms => Apart m ∧ ApartAll ms
end

theorem vacant_order (now now' : Nat) (order' : List Nat → Nat) (path : List Nat) : ∀ (ms : List Marked) (j : Nat),
    (∀ m ∈ ms, ∀ n' as' k' ks', m = .elem n' as' k' ks' → k'.defs = false) →
    vacant white order now path j ms = vacant white order' now' path j ms
  | [], _, _ => rfl
  | .leaf l :: ms, j, h => by
    simp only [vacant]
    rw [vacant_order now now' order' path ms _ fun m hm => h m (List.mem_cons_of_mem _ hm)]
  | .elem n as k ks :: ms, j, h => by
    have hk : k.defs = false := h _ (by simp) n as k ks rfl
    simp only [vacant, goneAt, hk, Bool.false_and, Bool.false_eq_true, if_false, Option.any_none]

mutual
theorem strip_order (order' : List Nat → Nat) : ∀ (m : Marked) (path : List Nat), Apart m →
    strip white order path m = strip white order' path m
  | .leaf _, _, _ => by simp [strip]
  | .elem n as k ks, path, h => by
    simp only [Apart] at h
    have hg : (goneAt white order path (.elem n as k ks)).isSome = (goneAt white order' path (.elem n as k ks)).isSome := by
      simp only [goneAt]
      by_cases hk : k.defs = true
      · rw [vacant_order white order (order path) (order' path) order' path ks 0 (h.1 hk)]
        by_cases hv : vacant white order' (order' path) path 0 ks = true <;> simp [hk, hv]
      · simp [hk]
    unfold strip
    rw [hg, stripAll_order order' ks path 0 h.2]
theorem stripAll_order (order' : List Nat → Nat) : ∀ (ms : List Marked) (path : List Nat) (j : Nat), ApartAll ms →
    stripAll white order path j ms = stripAll white order' path j ms
  | [], _, _, _ => by simp [stripAll]
  | m :: ms, path, j, h => by
    simp only [ApartAll] at h
    unfold stripAll
    rw [strip_order order' m _ h.1, stripAll_order order' ms _ _ h.2]
end

mutual
theorem apart_of : ∀ (m : Marked) (anc : List E), Every DefsOnly anc m →
    (∀ e p cs, .elem (e :: p :: cs) ∈ all anc m → e.1.is "defs" = true → p.1.is "defs" = false) → Apart m
  | .leaf _, _, _, _ => by simp [Apart]
  | .elem n as k ks, anc, hm, h => by
    simp only [Every] at hm
    simp only [Apart]
    refine ⟨?_, apartAll_of ks _ hm.2 fun e p cs hi => h e p cs (by simp [all, hi])⟩
    rintro hk m hmem n' as' k' ks' rfl
    by_contra hk'
    have hin : .elem ((n', as') :: (n, as) :: anc) ∈ allAll ((n, as) :: anc) ks ∧ n'.is "defs" = true := by
      have hm2 := hm.2
      clear h hm
      induction ks with
      | nil => simp at hmem
      | cons x xs ih =>
        simp only [EveryAll] at hm2
        rcases List.mem_cons.mp hmem with rfl | hmem
        · have hm3 := hm2.1
          simp only [Every] at hm3
          exact ⟨by simp [allAll, all], hm3.1 (by simpa using hk')⟩
        · have := ih hmem hm2.2
          exact ⟨by simp [allAll, this.1], this.2⟩
    have := h (n', as') (n, as) anc (by simp [all, hin.1]) hin.2
    rw [hm.1 hk] at this
    simp at this
theorem apartAll_of : ∀ (ms : List Marked) (anc : List E), EveryAll DefsOnly anc ms →
    (∀ e p cs, .elem (e :: p :: cs) ∈ allAll anc ms → e.1.is "defs" = true → p.1.is "defs" = false) → ApartAll ms
  | [], _, _, _ => by simp [ApartAll]
  | m :: ms, anc, hm, h => by
    simp only [EveryAll] at hm
    simp only [ApartAll]
    exact ⟨apart_of m anc hm.1 fun e p cs hi => h e p cs (by simp [allAll, hi]),
      apartAll_of ms anc hm.2 fun e p cs hi => h e p cs (by simp [allAll, hi])⟩
end

end Verif.Hidden
