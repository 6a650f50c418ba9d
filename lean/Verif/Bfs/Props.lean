import Verif.Bfs.Model
import Verif.Arena.Props

/-! # C06: breadth-first iteration -/

namespace Verif.Bfs

open Verif.Dom Verif.Arena

variable {h : Heap} {ch : Kids}

/-- The nodes `n` levels below the nodes `as`, from left to right. -/
def level (ch : Kids) (as : List Handle) : Nat → List Handle
  | 0 => as
  | n + 1 => level ch (as.flatMap ch) n

/-- The first `n` levels one after the other. -/
def levels (ch : Kids) (as : List Handle) : Nat → List Handle
  | 0 => []
  | n + 1 => as ++ levels ch (as.flatMap ch) n

theorem childNodes_eq (t : Tree h ch) {p : Handle} (hids : IdsDistinct h (ch p)) (hp : p ∉ ch p) {fuel : Nat}
    (hf : (ch p).length ≤ fuel) : childNodes fuel h p = ch p :=
  (remove_loop_spec t hids hp (fun _ => false) hf).1

/-- The child lists restricted to elements. -/
def elems (isElem : Handle → Bool) (ch : Kids) : Kids := fun p => (ch p).filter isElem

theorem level_append (as bs : List Handle) (n : Nat) : level ch (as ++ bs) n = level ch as n ++ level ch bs n := by
  induction n generalizing as bs with
  | zero => rfl
  | succ n ih => simp [level, ih]

theorem level_nil (n : Nat) : level ch [] n = [] := by
  induction n with
  | zero => rfl
  | succ n ih => simpa [level] using ih

theorem levels_nil (n : Nat) : levels ch [] n = [] := by
  induction n with
  | zero => rfl
  | succ n ih => simpa [levels] using ih

theorem level_le {as : List Handle} {n m : Nat} (le : n ≤ m) (e : level ch as n = []) : level ch as m = [] := by
  induction n generalizing as m with
  | zero => simp [level] at e; subst e; exact level_nil m
  | succ n ih =>
    obtain ⟨m, rfl⟩ : ∃ m', m = m' + 1 := ⟨m - 1, by omega⟩
    exact ih (m := m) (by omega) e

theorem levels_le {as : List Handle} {n m : Nat} (le : n ≤ m) (e : level ch as n = []) :
    levels ch as m = levels ch as n := by
  induction n generalizing as m with
  | zero => simp [level] at e; subst e; simp [levels_nil]
  | succ n ih =>
    obtain ⟨m, rfl⟩ : ∃ m', m = m' + 1 := ⟨m - 1, by omega⟩
    simp [levels, ih (m := m) (by omega) e]

theorem levels_append (as bs : List Handle) (n : Nat) :
    (levels ch (as ++ bs) n).Perm (levels ch as n ++ levels ch bs n) := by
  induction n generalizing as bs with
  | zero => exact .refl _
  | succ n ih =>
    simp only [levels, List.flatMap_append, List.append_assoc]
    refine List.Perm.append_left as ?_
    have := (ih (as.flatMap ch) (bs.flatMap ch)).append_left bs
    refine this.trans ?_
    rw [← List.append_assoc, ← List.append_assoc]
    exact List.perm_append_comm.append_right _

theorem spans_levels {as l : List Handle} (sp : Spans ch as l) :
    ∃ n, level ch as n = [] ∧ ∀ m, n ≤ m → (levels ch as m).Perm l := by
  induction sp with
  | nil => exact ⟨0, rfl, fun m _ => by rw [levels_nil]⟩
  | @cons a as l m _ _ ih1 ih2 =>
    obtain ⟨n1, e1, p1⟩ := ih1
    obtain ⟨n2, e2, p2⟩ := ih2
    refine ⟨n1 + n2 + 1, ?_, ?_⟩
    · rw [show a :: as = [a] ++ as from rfl, level_append, level_le (by omega) e2]
      simp only [level, List.flatMap_cons, List.flatMap_nil, List.append_nil]
      exact level_le (by omega) e1
    · intro k hk
      obtain ⟨k, rfl⟩ : ∃ k', k = k' + 1 := ⟨k - 1, by omega⟩
      refine (levels_append (ch := ch) [a] as (k + 1)).trans ?_
      have := p1 k (by omega)
      have h2 := p2 (k + 1) (by omega)
      simp only [levels, List.flatMap_cons, List.flatMap_nil, List.append_nil, List.singleton_append, List.cons_append]
        at h2 ⊢
      exact (this.append h2).cons a

theorem collect_queue (isElem : Handle → Bool) (fuel : Nat)
    (hc : ∀ p, children isElem fuel h p = elems isElem ch p) (q : List Handle) :
    ∀ (acc : List Handle) (steps : Nat), collect isElem fuel h (q.length + steps) (q ++ acc) =
      q ++ collect isElem fuel h steps (acc ++ q.flatMap (elems isElem ch)) := by
  induction q with
  | nil => intro acc steps; simp
  | cons a q ih =>
    intro acc steps
    have : (a :: q).length + steps = (q.length + steps) + 1 := by simp; omega
    rw [this]
    simp only [collect, List.cons_append, next, hc]
    rw [List.append_assoc, ih]
    simp

theorem collect_levels (isElem : Handle → Bool) (fuel : Nat)
    (hc : ∀ p, children isElem fuel h p = elems isElem ch p) (n : Nat) :
    ∀ (q : List Handle) (steps : Nat), level (elems isElem ch) q n = [] →
      (levels (elems isElem ch) q n).length ≤ steps →
      collect isElem fuel h steps q = levels (elems isElem ch) q n := by
  induction n with
  | zero =>
    intro q steps e _
    simp only [level] at e
    subst e
    cases steps <;> rfl
  | succ n ih =>
    intro q steps e hs
    simp only [levels, List.length_append] at hs ⊢
    obtain ⟨s, rfl⟩ : ∃ s, steps = q.length + s := ⟨steps - q.length, by omega⟩
    have := collect_queue isElem fuel hc q [] s
    rw [List.append_nil] at this
    rw [this, List.nil_append, ih _ _ e (by omega)]

/-- **C06** Breadth-first iteration from `p` yields the element descendants of `p` level by level, each level in
document order; it stops; every element reached from `p` through elements comes exactly once (the result is a
rearrangement of the document order below `p`), and `p` itself never. -/
theorem bfs_spec (t : Tree h ch) (ac : Acyclic ch) {made : List Handle} (ins : Inside made ch)
    (hids : IdsDistinct h made) (isElem : Handle → Bool) (p : Handle) {fuel : Nat}
    (hf : ∀ q, (ch q).length ≤ fuel) :
    ∃ doc n N, Spans (elems isElem ch) [p] (p :: doc) ∧ level (elems isElem ch) (elems isElem ch p) n = [] ∧
      (∀ steps, N ≤ steps → collect isElem fuel h steps (new isElem fuel h p) =
        levels (elems isElem ch) (elems isElem ch p) n) ∧
      (levels (elems isElem ch) (elems isElem ch p) n).Perm doc ∧ doc.Nodup ∧ p ∉ doc ∧
      (∀ x, x ∈ doc ↔ Desc (elems isElem ch) p x) := by
  have sub : ∀ q c, c ∈ elems isElem ch q → c ∈ ch q := fun q c hc => (List.mem_filter.mp hc).1
  have subd : ∀ a b, Desc (elems isElem ch) a b → Desc ch a b := by
    intro a b d
    induction d with
    | child h => exact .child (sub _ _ h)
    | step h _ ih => exact .step (sub _ _ h) ih
  have ace : Acyclic (elems isElem ch) := fun a d => ac a (subd a a d)
  have hc : ∀ q, children isElem fuel h q = elems isElem ch q := by
    intro q
    simp only [children, elems]
    rw [childNodes_eq t (fun a ha b hb e => hids a (ins q a ha).2 b (ins q b hb).2 e) (fun hq => ac q (.child hq)) (hf q)]
  obtain ⟨l, hl⟩ := spans_exists ace made (fun q c hc => (ins q c (sub q c hc)).2) _ p (Nat.le_refl _)
  have nd := hl.nodup_root (fun a b c h1 h2 => t.unique (sub _ _ h1) (sub _ _ h2))
    (fun q => (t.links q).nodup.filter _) ace
  cases hl with
  | @cons _ _ doc m s1 s2 =>
    cases s2
    rw [List.append_nil] at nd
    obtain ⟨n, e, pm⟩ := spans_levels s1
    have nd' := List.nodup_cons.mp nd
    refine ⟨doc, n, (levels (elems isElem ch) (elems isElem ch p) n).length, ?_, e, ?_, pm n (Nat.le_refl _), nd'.2, nd'.1, ?_⟩
    · have := Spans.cons s1 (Spans.nil (ch := elems isElem ch))
      simpa using this
    · intro steps hs
      rw [new, hc]
      exact collect_levels isElem fuel hc n _ _ e hs
    · intro x
      rw [s1.mem_iff]
      constructor
      · rintro (h | ⟨b, h1, h2⟩)
        · exact .child h
        · exact .step h1 h2
      · intro d
        cases d with
        | child h => exact .inl h
        | step h1 h2 => exact .inr ⟨_, h1, h2⟩

theorem findLoop_eq (isElem : Handle → Bool) (fuel : Nat) : ∀ (steps : Nat) (q : List Handle),
    findLoop isElem fuel h steps q = (collect (fun _ => true) fuel h steps q).find? isElem := by
  intro steps
  induction steps with
  | zero => intro q; rfl
  | succ n ih =>
    intro q
    cases q with
    | nil => rfl
    | cons a q =>
      simp only [findLoop, collect, next, List.find?_cons]
      have : children (fun _ => true) fuel h a = childNodes fuel h a := by simp [children]
      rw [this, ih]
      cases isElem a <;> simp

theorem elems_true : elems (fun _ => true) ch = ch := by
  funext p; simp [elems]

/-- **C06 (finding the first element)** `find_element` returns the first element in level order of the node and
everything below it; it finds one whenever there is one, at any depth. -/
theorem find_spec (t : Tree h ch) (ac : Acyclic ch) {made : List Handle} (ins : Inside made ch)
    (hids : IdsDistinct h made) (isElem : Handle → Bool) (p : Handle) {fuel : Nat}
    (hf : ∀ q, (ch q).length ≤ fuel) :
    ∃ n N, level ch [p] n = [] ∧
      (∀ steps, N ≤ steps → findElement isElem fuel steps h p = (levels ch [p] n).find? isElem) ∧
      (∀ steps, N ≤ steps → ((findElement isElem fuel steps h p).isSome ↔
        isElem p = true ∨ ∃ x, Desc ch p x ∧ isElem x = true)) := by
  have hc : ∀ q, children (fun _ => true) fuel h q = elems (fun _ => true) ch q := by
    intro q
    simp only [children, elems]
    rw [childNodes_eq t (fun a ha b hb e => hids a (ins q a ha).2 b (ins q b hb).2 e) (fun hq => ac q (.child hq)) (hf q)]
  obtain ⟨l, hl⟩ := spans_exists ac made (fun q c hc => (ins q c hc).2) _ p (Nat.le_refl _)
  obtain ⟨n, e, pm⟩ := spans_levels hl
  have key : ∀ steps, (levels ch [p] n).length ≤ steps →
      findElement isElem fuel steps h p = (levels ch [p] n).find? isElem := by
    intro steps hs
    have := collect_levels (fun _ => true) fuel hc n [p] steps (by rw [elems_true]; exact e) (by rw [elems_true]; exact hs)
    rw [findElement, findLoop_eq, this, elems_true]
  refine ⟨n, _, e, key, ?_⟩
  intro steps hs
  rw [key steps hs, List.find?_isSome]
  have mem : ∀ x, x ∈ levels ch [p] n ↔ x = p ∨ Desc ch p x := by
    intro x
    rw [(pm n (Nat.le_refl _)).mem_iff, hl.mem_iff]
    simp
  constructor
  · rintro ⟨x, hx, he⟩
    rcases (mem x).mp hx with rfl | hd
    · exact .inl he
    · exact .inr ⟨x, hd, he⟩
  · rintro (he | ⟨x, hd, he⟩)
    · exact ⟨p, (mem p).mpr (.inl rfl), he⟩
    · exact ⟨x, (mem x).mpr (.inr hd), he⟩

/-! ## Concrete cases -/

/-- Root 0 with children 1, 2, 3; 1 has 4 and 5; 5 has 6; 3 has 7. -/
def sample : Heap :=
  (((((((fresh.append 0 1).append 0 2).append 0 3).append 1 4).append 1 5).append 5 6).append 3 7)

example : collect (fun _ => true) 5 sample 20 (new (fun _ => true) 5 sample 0) = [1, 2, 3, 4, 5, 7, 6] := by decide
/- node 5 is text: what hangs below it is not reached -/
example : collect (fun x => x != 5) 5 sample 20 (new (fun x => x != 5) 5 sample 0) = [1, 2, 3, 4, 7] := by decide
example : findElement (fun x => x == 6 || x == 7) 5 20 sample 0 = some 7 := by decide
example : level (fun x => if x = 0 then [1, 2] else if x = 1 then [3] else []) [0] 3 = [] ∧
    levels (fun x => if x = 0 then [1, 2] else if x = 1 then [3] else []) [0] 3 = [0, 1, 2, 3] := by decide

end Verif.Bfs
