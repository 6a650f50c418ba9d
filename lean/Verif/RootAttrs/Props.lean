import Verif.RootAttrs.Model

/-! # C74: adding attributes and classes to the root element -/

namespace Verif.RootAttrs

open Verif.Names (Str lit)
open Verif.CleanAttrs (splitWhitespace)

variable {V : Type}

theorem split_none {s : Str} (h : 58 ∉ s) : splitColon s = [s] := by
  induction s with
  | nil => rfl
  | cons c s ih =>
    have hc : c ≠ 58 := fun e => h (e ▸ List.mem_cons_self)
    simp [splitColon, hc, ih fun hm => h (.tail _ hm)]

theorem split_one {p l : Str} (hp : 58 ∉ p) (hl : 58 ∉ l) : splitColon (p ++ 58 :: l) = [p, l] := by
  induction p with
  | nil => simp [splitColon, split_none hl]
  | cons c p ih =>
    have hc : c ≠ 58 := fun e => hp (e ▸ List.mem_cons_self)
    simp [splitColon, hc, ih fun hm => hp (.tail _ hm)]

/-- Split names, joined again. -/
def joined : List Str → Str
  | [] => []
  | [w] => w
  | w :: ws => w ++ 58 :: joined ws

theorem split_joined (s : Str) : splitColon s ≠ [] ∧ joined (splitColon s) = s := by
  induction s with
  | nil => exact ⟨by simp [splitColon], rfl⟩
  | cons c s ih =>
    obtain ⟨h1, h2⟩ := ih
    simp only [splitColon]
    cases hs : splitColon s with
    | nil => exact absurd hs h1
    | cons w ws =>
      rw [hs] at h2
      split
      · next hc =>
        subst hc
        exact ⟨by simp, by simp [joined, h2]⟩
      · refine ⟨by simp, ?_⟩
        cases ws with
        | nil =>
          simp only [joined] at h2 ⊢
          rw [h2]
        | cons x ws =>
          simp only [joined] at h2 ⊢
          rw [← h2]
          rfl

/-- A name is written as it was given. -/
theorem parse_written {as : List Attr} {n v : Str} {a : Attr} (h : parse as n v = some a) : a.written = n ∧ a.value = v := by
  unfold parse at h
  have hj := (split_joined n).2
  split at h
  · next l hs =>
    cases h
    rw [hs] at hj
    exact ⟨hj, rfl⟩
  · next p l hs =>
    cases h
    rw [hs] at hj
    exact ⟨hj, rfl⟩
  · cases h

/-- **C74 (what is added)**: all attributes stay as they are and in their order; behind them come attributes with names and values as they were given,
none of which has the same namespace and local name as one that was there. -/
theorem addAll_new (cfg : List (Str × Str)) (as bs : List Attr) (h : addAll cfg as = some bs) :
    ∃ new, bs = as ++ new ∧ ∀ a ∈ new, (a.written, a.value) ∈ cfg ∧ ∀ b ∈ as, ¬ (b.ns = a.ns ∧ b.loc = a.loc) := by
  induction cfg generalizing as with
  | nil =>
    cases h
    exact ⟨[], by simp, fun a h => by cases h⟩
  | cons p cfg ih =>
    obtain ⟨n, v⟩ := p
    simp only [addAll] at h
    split at h
    · cases h
    · next a ha =>
      obtain ⟨hw, hv⟩ := parse_written ha
      split at h
      · obtain ⟨new, e, hn⟩ := ih as h
        exact ⟨new, e, fun b hb => ⟨.tail _ (hn b hb).1, (hn b hb).2⟩⟩
      · next hs =>
        obtain ⟨new, e, hn⟩ := ih (as ++ [a]) h
        refine ⟨a :: new, by rw [e]; simp, fun b hb => ?_⟩
        cases hb with
        | head =>
          refine ⟨by rw [hw, hv]; exact List.mem_cons_self, fun c hc hcb => hs ?_⟩
          rw [List.any_eq_true]
          exact ⟨c, hc, by simp [same, hcb.1, hcb.2]⟩
        | tail _ hb => exact ⟨.tail _ (hn b hb).1, fun c hc => (hn b hb).2 c (List.mem_append_left _ hc)⟩

/-- The default namespace is `d`, and no attribute has a prefix for it. -/
structure Usual (as : List Attr) (d : Str) : Prop where
  fallback : findXmlns as none = d
  nonempty : d ≠ []
  plain : ∀ a ∈ as, a.pre = none ↔ a.ns = d

theorem usual_push {as : List Attr} {d n v : Str} (h : Usual as d) (hn : n ≠ lit "xmlns") : Usual (as ++ [⟨none, d, n, v⟩]) d := by
  refine ⟨?_, h.nonempty, fun a ha => ?_⟩
  · rw [← h.fallback]
    unfold findXmlns
    rw [List.find?_append]
    simp [hn]
  · rcases List.mem_append.1 ha with ha | ha
    · exact h.plain a ha
    · rw [List.mem_singleton] at ha
      subst ha
      simp

theorem parse_plain {as : List Attr} {d n v : Str} (h : Usual as d) (hn : 58 ∉ n) : parse as n v = some ⟨none, d, n, v⟩ := by
  unfold parse
  rw [split_none hn]
  simp [h.fallback, nsOf, h.nonempty]

/-- **C74 (names without a prefix)**: for different names without a prefix, exactly those are added that the element does not have, with their values
and in their order. Missing: names with a prefix, see `prefix_violated`. -/
theorem addAll_plain_partial (cfg : List (Str × Str)) (as : List Attr) (d : Str) (h : Usual as d) (hn : ∀ p ∈ cfg, 58 ∉ p.1 ∧ p.1 ≠ lit "xmlns")
    (hd : cfg.Pairwise fun p q => p.1 ≠ q.1) :
    addAll cfg as = some (as ++ (cfg.filter fun p => decide (∀ a ∈ as, ¬ (a.pre = none ∧ a.loc = p.1))).map fun p => ⟨none, d, p.1, p.2⟩) := by
  induction cfg generalizing as with
  | nil => simp [addAll]
  | cons p cfg ih =>
    obtain ⟨n, v⟩ := p
    obtain ⟨h1, h2⟩ := hn (n, v) List.mem_cons_self
    have hn' : ∀ p ∈ cfg, 58 ∉ p.1 ∧ p.1 ≠ lit "xmlns" := fun p hp => hn p (.tail _ hp)
    rw [List.pairwise_cons] at hd
    simp only [addAll]
    rw [parse_plain h h1]
    have hs : as.any (same ⟨none, d, n, v⟩) = true ↔ ∃ a ∈ as, a.pre = none ∧ a.loc = n := by
      rw [List.any_eq_true]
      constructor
      · rintro ⟨a, ha, he⟩
        simp only [same, Bool.and_eq_true, beq_iff_eq] at he
        exact ⟨a, ha, (h.plain a ha).2 he.1.symm, he.2.symm⟩
      · rintro ⟨a, ha, he⟩
        exact ⟨a, ha, by simp [same, (h.plain a ha).1 he.1, he.2]⟩
    simp only
    split
    · next hc =>
      obtain ⟨a, ha, he⟩ := hs.1 hc
      rw [ih as h hn' hd.2, List.filter_cons_of_neg]
      simp only [decide_eq_true_eq]
      exact fun hall => hall a ha he
    · next hc =>
      rw [ih _ (usual_push h h2) hn' hd.2, List.filter_cons_of_pos]
      · rw [List.map_cons, List.append_assoc, List.singleton_append]
        congr 4
        apply List.filter_congr
        intro q hq
        rw [decide_eq_decide]
        constructor
        · exact fun hall a ha => hall a (List.mem_append_left _ ha)
        · intro hall a ha
          rcases List.mem_append.1 ha with ha | ha
          · exact hall a ha
          · rw [List.mem_singleton] at ha
            subst ha
            exact fun he => hd.1 q hq he.2
      · simp only [decide_eq_true_eq]
        exact fun a ha he => hc (hs.2 ⟨a, ha, he⟩)

/-- A document where the attributes of the `svg` elements at the top are changed, and nothing else. -/
inductive Changed (R : List Attr → List Attr → Prop) : List (Node V) → List (Node V) → Prop
  | nil : Changed R [] []
  | leaf (v : V) {l m : List (Node V)} : Changed R l m → Changed R (.leaf v :: l) (.leaf v :: m)
  | other (n : V) (as : List Attr) (ks : List (Node V)) {l m : List (Node V)} : Changed R l m → Changed R (.elem false n as ks :: l) (.elem false n as ks :: m)
  | root (n : V) {as bs : List Attr} (ks : List (Node V)) {l m : List (Node V)} : R as bs → Changed R l m →
      Changed R (.elem true n as ks :: l) (.elem true n bs ks :: m)

mutual
theorem visit_inner (f : List Attr → Option (List Attr)) : ∀ k : Node V, visit f false k = some k
  | .leaf v => rfl
  | .elem s n as ks => by simp [visit, visitAll_inner f ks]
theorem visitAll_inner (f : List Attr → Option (List Attr)) : ∀ ks : List (Node V), visitAll f false ks = some ks
  | [] => rfl
  | k :: ks => by simp [visitAll, visit_inner f k, visitAll_inner f ks]
end

/-- **C74 (only the root element)**: elements inside, and top elements other than `svg`, stay as they are. -/
theorem run_changed (cfg : List (Str × Str)) (doc out : List (Node V)) : run cfg doc = some out ↔ Changed (fun as bs => addAll cfg as = some bs) doc out := by
  unfold run
  induction doc generalizing out with
  | nil =>
    simp only [visitAll, Option.some.injEq]
    constructor
    · rintro rfl; exact .nil
    · intro h; cases h; rfl
  | cons k doc ih =>
    cases k with
    | leaf v =>
      simp only [visitAll, visit]
      constructor
      · intro h
        cases hr : visitAll (addAll cfg) true doc with
        | none => simp [hr] at h
        | some r =>
          simp [hr] at h
          subst h
          exact .leaf v ((ih r).1 hr)
      · intro h
        cases h with
        | leaf _ h => simp [(ih _).2 h]
    | elem s n as ks =>
      simp only [visitAll, visit, visitAll_inner]
      cases s with
      | false =>
        constructor
        · intro h
          cases hr : visitAll (addAll cfg) true doc with
          | none => simp [hr] at h
          | some r =>
            simp [hr] at h
            subst h
            exact .other n as ks ((ih r).1 hr)
        · intro h
          cases h with
          | other _ _ _ h => simp [(ih _).2 h]
      | true =>
        constructor
        · intro h
          cases ha : addAll cfg as with
          | none => simp [ha] at h
          | some bs =>
            cases hr : visitAll (addAll cfg) true doc with
            | none => simp [ha, hr] at h
            | some r =>
              simp [ha, hr] at h
              subst h
              exact .root n ks ha ((ih r).1 hr)
        · intro h
          cases h with
          | root _ _ ha h => simp [(ih _).2 h, ha]

/-- **C74 (classes)**: if the element has classes, it has afterwards exactly these and the given ones, each once. -/
theorem classes_added (o : Options) (names l : List Str) (ho : o.classNames = some names) (c : Option Class) (h : AddClasses o (.classes l) c) :
    ∃ m, c = some (.classes m) ∧ m.Nodup ∧ ∀ x, x ∈ m ↔ x ∈ l ∨ x ∈ names := by
  cases h with
  | names h1 h2 =>
    rw [ho] at h1
    cases h1
    exact ⟨_, rfl, h2.once, h2.all⟩
  | name h1 _ => rw [ho] at h1; cases h1
  | neither h1 _ => rw [ho] at h1; cases h1

/-- **C74 (nothing to add)**: without options nothing changes. -/
theorem classes_neither (o : Options) (h1 : o.classNames = none) (h2 : o.className = none) (l : List Str) (c : Option Class)
    (h : AddClasses o (.classes l) c) : c = some (.classes l) := by
  cases h with
  | names h3 _ => rw [h1] at h3; cases h3
  | name _ h3 => rw [h2] at h3; cases h3
  | neither => rfl

end Verif.RootAttrs
