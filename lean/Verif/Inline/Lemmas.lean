import Verif.Inline.Spec

/-!
# C58: the cascade and the collected rules
-/

namespace Verif.Inline

open Verif.Names

variable {V Q R : Type}

/-! ## Two lists mixed -/

inductive Mix {α : Type} : List α → List α → List α → Prop
  | nil : Mix [] [] []
  | left {a b c} (x : α) : Mix a b c → Mix (x :: a) b (x :: c)
  | right {a b c} (x : α) : Mix a b c → Mix a (x :: b) (x :: c)

theorem Mix.append {α : Type} {a b c a' b' c' : List α} (h : Mix a b c) (h' : Mix a' b' c') : Mix (a ++ a') (b ++ b') (c ++ c') := by
  induction h with
  | nil => exact h'
  | left x _ ih => exact .left x ih
  | right x _ ih => exact .right x ih

theorem Mix.allRight {α : Type} : ∀ b : List α, Mix [] b b
  | [] => .nil
  | x :: b => .right x (Mix.allRight b)

theorem Mix.allLeft {α : Type} : ∀ b : List α, Mix b [] b
  | [] => .nil
  | x :: b => .left x (Mix.allLeft b)

theorem Mix.filterMap {α β : Type} (g : α → Option β) {a b c : List α} (h : Mix a b c) : Mix (a.filterMap g) (b.filterMap g) (c.filterMap g) := by
  induction h with
  | nil => exact .nil
  | left x _ ih =>
    rw [List.filterMap_cons, List.filterMap_cons]
    cases g x with
    | none => exact ih
    | some y => exact .left y ih
  | right x _ ih =>
    rw [List.filterMap_cons, List.filterMap_cons]
    cases g x with
    | none => exact ih
    | some y => exact .right y ih

theorem Mix.nil_left {α : Type} {b c : List α} (h : Mix [] b c) : c = b := by
  generalize ha : ([] : List α) = a at h
  induction h with
  | nil => rfl
  | left x _ _ => simp at ha
  | right x _ ih => rw [ih ha]

theorem Mix.nil_right {α : Type} {a c : List α} (h : Mix a [] c) : c = a := by
  generalize hb : ([] : List α) = b at h
  induction h with
  | nil => rfl
  | left x _ ih => rw [ih hb]
  | right x _ _ => simp at hb

/-! ## The strongest declaration -/

theorem last_append (p : Str) (a b : List (Str × V)) : last p (a ++ b) = (last p b).or (last p a) := by
  simp only [last, List.filter_append, List.getLast?_append]
  cases (b.filter fun d => d.1 = p).getLast? <;> simp

theorem last_none {p : Str} {l : List (Str × V)} : last p l = none ↔ ∀ v, (p, v) ∉ l := by
  simp only [last, Option.map_eq_none_iff, List.getLast?_eq_none_iff, List.filter_eq_nil_iff, decide_eq_true_eq]
  constructor
  · intro h v hv
    exact h _ hv rfl
  · rintro h ⟨q, v⟩ hv rfl
    exact h v hv

/-- What a block says about a property. -/
def say (p : Str) (get : Block V → List (Str × V)) (x : Nat × Block V) : Option (Nat × V) := (last p (get x.2)).map (x.1, ·)

theorem best_say (p : Str) (get : Block V → List (Str × V)) (l : List (Nat × Block V)) :
    best p get l = ((l.filterMap (say p get)).foldl stronger none).map (·.2) := rfl

theorem fold_max (v : V) : ∀ (l : List Nat) (acc : Option (Nat × V)) (m : Nat), (m :: l).max? = some n →
    ((m :: l).map (·, v)).foldl stronger acc = stronger acc (n, v)
  | [], acc, m, h => by
    simp at h
    simp [h]
  | k :: l, acc, m, h => by
    have hs : stronger (stronger acc (m, v)) (k, v) = stronger acc (max m k, v) := by
      cases acc with
      | none =>
        simp only [stronger]
        rcases Nat.le_total m k with hk | hk
        · simp [hk, Nat.max_eq_right hk]
        · rw [Nat.max_eq_left hk]
          split
          · next h => rw [Nat.le_antisymm h hk]
          · rfl
      | some y =>
        by_cases hy : y.1 ≤ m
        · by_cases hk : m ≤ k
          · simp [stronger, hy, hk, Nat.max_eq_right hk, Nat.le_trans hy hk]
          · simp [stronger, hy, hk, Nat.max_eq_left (Nat.le_of_not_le hk)]
        · by_cases hk : y.1 ≤ k
          · simp [stronger, hy, hk, Nat.max_eq_right (Nat.le_trans (Nat.le_of_not_le hy) hk)]
          · simp only [stronger, if_neg hy, if_neg hk]
            rw [if_neg (by omega)]
    have h' : (max m k :: l).max? = some n := by
      rw [← h]
      simp only [List.max?_cons]
      cases l.max? <;> simp [Nat.max_assoc]
    have := fold_max v l acc (max m k) h'
    simp only [List.map_cons, List.foldl_cons] at this ⊢
    rw [hs, this]

/-! ## A rule as one entry for each selector -/

mutual
/-- What a rule declares for an element, with one entry for each selector that matches. -/
def each (sem : Sem V R) (env : Q → Bool) (f : Nat → Token → Bool) (k : Nat) : Rule V Q R → List (Nat × Block V)
  | .style sels b => (sels.filter fun s => matchesSel sem f s k).map fun s => (s.spec, b)
  | .nest sels r => sem.nested f sels r k
  | .group _ c rs => if env c then eachAll sem env f k rs else []
  | .other _ => []
def eachAll (sem : Sem V R) (env : Q → Bool) (f : Nat → Token → Bool) (k : Nat) : List (Rule V Q R) → List (Nat × Block V)
  | [] => []
  | r :: rs => each sem env f k r ++ eachAll sem env f k rs
end

theorem fold_style (p : Str) (get : Block V → List (Str × V)) (acc : Option (Nat × V)) (ns : List Nat) (b : Block V) :
    ((match ns.max? with | some n => [(n, b)] | none => []).filterMap (say p get)).foldl stronger acc =
      ((ns.map fun n => (n, b)).filterMap (say p get)).foldl stronger acc := by
  cases ns with
  | nil => rfl
  | cons m l =>
    cases hm : (m :: l).max? with
    | none => simp at hm
    | some n =>
      cases hv : last p (get b) with
      | none =>
        have : ∀ l : List Nat, (l.map fun n => (n, b)).filterMap (say p get) = [] := by
          intro l
          induction l with
          | nil => rfl
          | cons a l ih => simp [say, hv]
        rw [this]
        simp [say, hv]
      | some v =>
        have : ∀ l : List Nat, (l.map fun n => (n, b)).filterMap (say p get) = l.map (·, v) := by
          intro l
          induction l with
          | nil => rfl
          | cons a l ih =>
            simp only [List.map_cons, List.filterMap_cons, say, hv, Option.map_some]
            exact congrArg _ ih
        rw [this, fold_max v l acc m hm]
        simp [say, hv]

mutual
theorem fold_each (sem : Sem V R) (env : Q → Bool) (f : Nat → Token → Bool) (k : Nat) (p : Str) (get : Block V → List (Str × V)) :
    ∀ (r : Rule V Q R) (acc : Option (Nat × V)), ((entries sem env f k r).filterMap (say p get)).foldl stronger acc =
      ((each sem env f k r).filterMap (say p get)).foldl stronger acc
  | .style sels b, acc => by
    have := fold_style p get acc ((sels.filter fun s => matchesSel sem f s k).map (·.spec)) b
    simp only [entries, each]
    rw [List.map_map] at this
    exact this
  | .nest _ _, _ => by simp [entries, each]
  | .group _ c rs, acc => by
    simp only [entries, each]
    split
    · exact fold_eachAll sem env f k p get rs acc
    · rfl
  | .other _, _ => by simp [entries, each]
theorem fold_eachAll (sem : Sem V R) (env : Q → Bool) (f : Nat → Token → Bool) (k : Nat) (p : Str) (get : Block V → List (Str × V)) :
    ∀ (rs : List (Rule V Q R)) (acc : Option (Nat × V)), ((entriesAll sem env f k rs).filterMap (say p get)).foldl stronger acc =
      ((eachAll sem env f k rs).filterMap (say p get)).foldl stronger acc
  | [], _ => by simp [entriesAll, eachAll]
  | r :: rs, acc => by
    simp only [entriesAll, eachAll, List.filterMap_append, List.foldl_append]
    rw [fold_each sem env f k p get r, fold_eachAll sem env f k p get rs]
end

/-- A style sheet counts. -/
def Counts (env : Q → Bool) (e : Elem V Q R) : Prop :=
  e.name = lit "style" ∧ IsCss e.typ ∧ e.gone = false ∧ (∀ q, e.media = some q → env q = true)

instance (env : Q → Bool) (e : Elem V Q R) : Decidable (Counts env e) := by
  unfold Counts
  infer_instance

/-! ## The collected rules -/

/-- What was collected for an element. -/
def mine (k : Nat) (l : List (Taken V)) : List (Nat × Block V) := (l.filter fun t => t.key = k).map fun t => (t.spec, t.block)

theorem mine_append (k : Nat) (a b : List (Taken V)) : mine k (a ++ b) = mine k a ++ mine k b := by simp [mine]

/-- The selector engine finds the elements that a selector matches. -/
def Sound (sem : Sem V R) (doc : List (Elem V Q R)) (eng : Engine) : Prop :=
  ∀ s ks, eng s = some ks → ks.Nodup ∧ ∀ e ∈ doc, (e.key ∈ ks ↔ matchesSel sem (holds sem doc) s e.key = true)

theorem mine_map (k : Nat) (ts : List Token) (n : Nat) (b : Block V) : ∀ ks : List Nat, ks.Nodup →
    mine k (ks.map fun k => ⟨k, ts, n, b⟩) = if k ∈ ks then [(n, b)] else []
  | [], _ => by simp [mine]
  | j :: ks, h => by
    have ih := mine_map k ts n b ks (List.nodup_cons.mp h).2
    have hj := (List.nodup_cons.mp h).1
    rw [List.map_cons, ← List.singleton_append, mine_append, ih]
    by_cases hk : j = k
    · subst hk
      simp [mine, hj]
    · simp [mine, hk, Ne.symm hk]

/-- What is known about the rules collected from selectors. -/
def FromSels (sem : Sem V R) (doc : List (Elem V Q R)) (t : Taken V) : Prop :=
  ∀ e ∈ doc, e.key = t.key → ∀ x ∈ t.tokens, holds sem doc t.key x = true

theorem removable_cases {test : Nat → Value V → Bool} {o : Opts} {doc : List (Elem V Q R)} {s : Sel} {ks : List Nat} {ts : List Token}
    (h : removable test o doc s ks = some ts) : ts = [] ∨ ts = s.tail ∧ s.heads = [] ∧ s.pseudo = false := by
  unfold removable at h
  split at h
  · simp only [Option.some.injEq] at h
    exact .inl h.symm
  · next hp =>
    split at h
    · simp at h
    · next hh =>
      split at h
      · simp at h
      · simp only [Option.ite_none_right_eq_some, Option.some.injEq] at h
        exact .inr ⟨h.2.symm, by simpa using hh, by simpa using hp⟩

theorem collectSel_cases (test : Nat → Value V → Bool) (eng : Engine) (o : Opts) (doc : List (Elem V Q R)) (b : Block V) (st : State V) (s : Sel) :
    (∃ d, collectSel test eng o doc b st s = (true, ⟨st.dyn ++ d, st.taken⟩)) ∨
      ∃ ks ts, eng s = some ks ∧ removable test o doc s ks = some ts ∧
        collectSel test eng o doc b st s = (false, ⟨st.dyn, st.taken ++ ks.map fun k => ⟨k, ts, s.spec, b⟩⟩) := by
  unfold collectSel
  split
  · exact .inl ⟨s.tail ++ s.heads.flatten, by rw [List.append_assoc]⟩
  · split
    · exact .inl ⟨[], by simp⟩
    · next ks he =>
      split
      · exact .inl ⟨[], by simp⟩
      · next ts hr => exact .inr ⟨ks, ts, he, hr, rfl⟩

theorem collectSel_mix {sem : Sem V R} {doc : List (Elem V Q R)} {eng : Engine} (hs : Sound sem doc eng) (test : Nat → Value V → Bool)
    (o : Opts) (b : Block V) (st : State V) (s : Sel) :
    (∃ new, (collectSel test eng o doc b st s).2.taken = st.taken ++ new ∧ (∀ t ∈ new, FromSels sem doc t) ∧
      ∀ e ∈ doc, Mix (mine e.key new)
        (((if (collectSel test eng o doc b st s).1 then [s] else []).filter fun s => matchesSel sem (holds sem doc) s e.key).map fun s => (s.spec, b))
        (([s].filter fun s => matchesSel sem (holds sem doc) s e.key).map fun s => (s.spec, b))) ∧
      ∀ x ∈ st.dyn, x ∈ (collectSel test eng o doc b st s).2.dyn := by
  rcases collectSel_cases test eng o doc b st s with ⟨d, h⟩ | ⟨ks, ts, he, hr, h⟩
  · rw [h]
    exact ⟨⟨[], by simp, by simp, fun e _ => by simpa [mine] using Mix.allRight _⟩, fun x hx => by simp [hx]⟩
  · rw [h]
    obtain ⟨hn, hm⟩ := hs s ks he
    refine ⟨⟨ks.map fun k => ⟨k, ts, s.spec, b⟩, rfl, ?_, ?_⟩, fun x hx => hx⟩
    · intro t ht e hed hek x hx
      obtain ⟨k, hk, rfl⟩ := List.mem_map.mp ht
      rcases removable_cases hr with rfl | ⟨rfl, hh, hp⟩
      · simp at hx
      · have := (hm e hed).mp (hek ▸ hk)
        rw [matchesSel, if_pos ⟨hh, hp⟩, List.all_eq_true] at this
        simp only at hek hx ⊢
        rw [← hek]
        exact this x hx
    · intro e hed
      rw [mine_map _ _ _ _ ks hn]
      have hm := hm e hed
      by_cases hk : e.key ∈ ks
      · simpa [hk, hm.mp hk] using Mix.allLeft _
      · have : matchesSel sem (holds sem doc) s e.key = false := by
          rw [← Bool.not_eq_true]
          exact fun h => hk (hm.mpr h)
        simpa [hk, this] using Mix.nil

theorem collectSels_mix {sem : Sem V R} {doc : List (Elem V Q R)} {eng : Engine} (hs : Sound sem doc eng) (test : Nat → Value V → Bool)
    (o : Opts) (b : Block V) : ∀ (ss : List Sel) (st : State V),
    (∃ new, (collectSels test eng o doc b st ss).2.taken = st.taken ++ new ∧ (∀ t ∈ new, FromSels sem doc t) ∧
      ∀ e ∈ doc, Mix (mine e.key new)
        (((collectSels test eng o doc b st ss).1.filter fun s => matchesSel sem (holds sem doc) s e.key).map fun s => (s.spec, b))
        ((ss.filter fun s => matchesSel sem (holds sem doc) s e.key).map fun s => (s.spec, b))) ∧
      (∀ x ∈ st.dyn, x ∈ (collectSels test eng o doc b st ss).2.dyn) ∧ ∀ s ∈ (collectSels test eng o doc b st ss).1, s ∈ ss
  | [], st => ⟨⟨[], by simp [collectSels], by simp, fun e _ => by simpa [mine, collectSels] using Mix.nil⟩, fun x hx => hx, by simp [collectSels]⟩
  | s :: ss, st => by
    obtain ⟨⟨n1, h1, t1, m1⟩, d1⟩ := collectSel_mix hs test o b st s
    obtain ⟨⟨n2, h2, t2, m2⟩, d2, u2⟩ := collectSels_mix hs test o b ss (collectSel test eng o doc b st s).2
    refine ⟨⟨n1 ++ n2, ?_, ?_, ?_⟩, ?_, ?_⟩
    · simp only [collectSels]
      rw [h2, h1, List.append_assoc]
    · intro t ht
      rcases List.mem_append.mp ht with h | h
      · exact t1 t h
      · exact t2 t h
    · intro e he
      have := (m1 e he).append (m2 e he)
      simp only [collectSels]
      rw [mine_append]
      cases hc : (collectSel test eng o doc b st s).1 <;> simp only [hc, if_true, if_false, Bool.false_eq_true] at this ⊢ <;>
        simpa [← List.map_append, ← List.filter_append] using this
    · exact fun x hx => d2 x (d1 x hx)
    · intro x hx
      simp only [collectSels] at hx
      split at hx
      · rcases List.mem_cons.mp hx with rfl | hx
        · simp
        · exact List.mem_cons_of_mem _ (u2 x hx)
      · exact List.mem_cons_of_mem _ (u2 x hx)

theorem collectSels_all (test : Nat → Value V → Bool) (eng : Engine) (doc : List (Elem V Q R)) (o : Opts) (b : Block V) :
    ∀ (ss : List Sel) (st : State V), (∀ s ∈ ss, ∃ t ∈ s.tail, t ∈ st.dyn) →
    (collectSels test eng o doc b st ss).1 = ss ∧ (collectSels test eng o doc b st ss).2.taken = st.taken ∧
      ∀ x ∈ st.dyn, x ∈ (collectSels test eng o doc b st ss).2.dyn
  | [], st, _ => by simp [collectSels]
  | s :: ss, st, h => by
    obtain ⟨t, ht, hd⟩ := h s (by simp)
    have hc : collectSel test eng o doc b st s = (true, { st with dyn := st.dyn ++ s.tail ++ s.heads.flatten }) := by
      unfold collectSel
      rw [if_pos]
      rw [List.any_eq_true]
      exact ⟨t, ht, by simpa using hd⟩
    have ih := collectSels_all test eng doc o b ss { st with dyn := st.dyn ++ s.tail ++ s.heads.flatten } fun s' hs' => by
      obtain ⟨t, ht, hd⟩ := h s' (by simp [hs'])
      exact ⟨t, ht, by simp [hd]⟩
    simp only [collectSels, hc, if_true]
    refine ⟨by rw [ih.1], ih.2.1, fun x hx => ih.2.2 x (by simp [hx])⟩

mutual
theorem collect_all (sem : Sem V R) (env : Q → Bool) (f : Nat → Token → Bool) (k : Nat) (test : Nat → Value V → Bool) (eng : Engine)
    (doc : List (Elem V Q R)) (o : Opts) : ∀ (r : Rule V Q R) (st : State V), (∀ s ∈ selsOf r, ∃ t ∈ s.tail, t ∈ st.dyn) →
    each sem env f k (collect test eng o doc st r).1 = each sem env f k r ∧ selsOf (collect test eng o doc st r).1 = selsOf r ∧
      (collect test eng o doc st r).2.taken = st.taken ∧ ∀ x ∈ st.dyn, x ∈ (collect test eng o doc st r).2.dyn
  | .style sels b, st, h => by
    obtain ⟨h1, h2, h3⟩ := collectSels_all test eng doc o b sels st (by simpa [selsOf] using h)
    simp only [collect, each, selsOf, h1, h2]
    refine ⟨?_, trivial, trivial, h3⟩
    cases sels <;> simp
  | .nest _ _, st, h => by simp [collect]
  | .group text c rs, st, h => by
    obtain ⟨h1, h2, h3, h4⟩ := collectAll_all sem env f k test eng doc o rs st (by simpa [selsOf] using h)
    simp only [collect, each, selsOf, h1, h2, h3]
    exact ⟨trivial, trivial, trivial, h4⟩
  | .other _, st, h => by simp [collect]
theorem collectAll_all (sem : Sem V R) (env : Q → Bool) (f : Nat → Token → Bool) (k : Nat) (test : Nat → Value V → Bool) (eng : Engine)
    (doc : List (Elem V Q R)) (o : Opts) : ∀ (rs : List (Rule V Q R)) (st : State V), (∀ s ∈ selsOfAll rs, ∃ t ∈ s.tail, t ∈ st.dyn) →
    eachAll sem env f k (collectAll test eng o doc st rs).1 = eachAll sem env f k rs ∧
      selsOfAll (collectAll test eng o doc st rs).1 = selsOfAll rs ∧
      (collectAll test eng o doc st rs).2.taken = st.taken ∧ ∀ x ∈ st.dyn, x ∈ (collectAll test eng o doc st rs).2.dyn
  | [], st, h => by simp [collectAll]
  | r :: rs, st, h => by
    obtain ⟨h1, h2, h3, h4⟩ := collect_all sem env f k test eng doc o r st fun s hs => h s (by simp [selsOfAll, hs])
    obtain ⟨g1, g2, g3, g4⟩ := collectAll_all sem env f k test eng doc o rs (collect test eng o doc st r).2 fun s hs => by
      obtain ⟨t, ht, hd⟩ := h s (by simp [selsOfAll, hs])
      exact ⟨t, ht, h4 t hd⟩
    simp only [collectAll, eachAll, selsOfAll, h1, h2, g1, g2, g3, h3, true_and]
    exact fun x hx => g4 x (h4 x hx)
end

/-- The tokens behind the last combinator of the selectors that are not within an at-rule. -/
def topTails : Rule V Q R → List Token
  | .style sels _ => sels.flatMap (·.tail)
  | .nest sels _ => sels.flatMap (·.tail)
  | _ => []

mutual
theorem sels_dyn : ∀ (r : Rule V Q R), ∀ s ∈ selsOf r, ∀ t ∈ s.tokens, t ∈ dynOf true r
  | .style sels _, s, hs, t, ht => List.mem_flatMap.mpr ⟨s, hs, by simpa [selDyn, Sel.tokens] using ht⟩
  | .nest sels _, s, hs, t, ht => List.mem_flatMap.mpr ⟨s, hs, by simpa [selDyn, Sel.tokens] using ht⟩
  | .group _ _ rs, s, hs, t, ht => selsAll_dyn rs s hs t ht
  | .other _, s, hs, _, _ => by simp [selsOf] at hs
theorem selsAll_dyn : ∀ (rs : List (Rule V Q R)), ∀ s ∈ selsOfAll rs, ∀ t ∈ s.tokens, t ∈ dynOfAll true rs
  | [], s, hs, _, _ => by simp [selsOfAll] at hs
  | r :: rs, s, hs, t, ht => by
    simp only [selsOfAll, List.mem_append] at hs
    simp only [dynOfAll, List.mem_append]
    rcases hs with hs | hs
    · exact .inl (sels_dyn r s hs t ht)
    · exact .inr (selsAll_dyn rs s hs t ht)
end

/-- At-rules are not among those the options name, and their selectors are not empty. -/
def Closed (o : Opts) : Rule V Q R → Prop
  | .group text _ rs => text ∉ o.mqs ∧ ∀ s ∈ selsOfAll rs, s.tail ≠ []
  | _ => True

theorem collect_mix {sem : Sem V R} {doc : List (Elem V Q R)} {eng : Engine} (hs : Sound sem doc eng) (test : Nat → Value V → Bool)
    (o : Opts) (r : Rule V Q R) (hc : Closed o r) (st : State V) (hd : ∀ t ∈ firstPass o r, t ∈ st.dyn) :
    (∃ new, (collect test eng o doc st r).2.taken = st.taken ++ new ∧ (∀ t ∈ new, FromSels sem doc t) ∧
      ∀ env, ∀ e ∈ doc, Mix (mine e.key new) (each sem env (holds sem doc) e.key (collect test eng o doc st r).1)
        (each sem env (holds sem doc) e.key r)) ∧
      (∀ x ∈ st.dyn, x ∈ (collect test eng o doc st r).2.dyn) ∧
      ∀ s ∈ selsOf (collect test eng o doc st r).1, ∀ t ∈ s.tokens, t ∈ st.dyn ∨ t ∈ topTails (collect test eng o doc st r).1 := by
  have heads : ∀ (sels : List Sel), (∀ t ∈ sels.flatMap (selDyn false), t ∈ st.dyn) → ∀ s ∈ sels, ∀ t ∈ s.tokens, ∀ (l : List Sel), s ∈ l →
      t ∈ st.dyn ∨ t ∈ l.flatMap (·.tail) := by
    intro sels hd s hs t ht l hl
    simp only [Sel.tokens, List.mem_append] at ht
    rcases ht with ht | ht
    · exact .inr (List.mem_flatMap.mpr ⟨s, hl, ht⟩)
    · exact .inl (hd t (List.mem_flatMap.mpr ⟨s, hs, by simp [selDyn, ht]⟩))
  cases r with
  | style sels b =>
    obtain ⟨⟨n, h1, t1, m1⟩, d1, u1⟩ := collectSels_mix hs test o b sels st
    refine ⟨⟨n, h1, t1, fun env e he => ?_⟩, d1, ?_⟩
    · have := m1 e he
      simp only [collect, each]
      cases hx : (collectSels test eng o doc b st sels).1 with
      | nil => simpa [hx] using this
      | cons x l => simpa [hx] using this
    · intro s hs t ht
      simp only [collect, selsOf] at hs
      exact heads sels (by simpa [firstPass, dynOf] using hd) s (u1 s hs) t ht _ hs
  | nest sels r =>
    refine ⟨⟨[], by simp [collect], by simp, fun env e he => by simpa [collect, mine] using Mix.allRight _⟩, fun x hx => hx, ?_⟩
    intro s hs t ht
    simp only [collect, selsOf] at hs
    exact heads sels (by simpa [firstPass, dynOf] using hd) s hs t ht _ hs
  | group text c rs =>
    have hd' : ∀ t ∈ dynOfAll true rs, t ∈ st.dyn := by
      intro t ht
      apply hd
      simp only [firstPass]
      rw [if_neg (by simpa using hc.1)]
      exact ht
    have hh : ∀ s ∈ selsOf (.group text c rs : Rule V Q R), ∃ t ∈ s.tail, t ∈ st.dyn := by
      intro s hs
      obtain ⟨t, l, ht⟩ := List.exists_cons_of_ne_nil (hc.2 s hs)
      exact ⟨t, by simp [ht], hd' t (selsAll_dyn rs s hs t (by simp [Sel.tokens, ht]))⟩
    have h := fun env k => collect_all sem env (holds sem doc) k test eng doc o (.group text c rs) st hh
    refine ⟨⟨[], ?_, by simp, fun env e he => ?_⟩, ?_, ?_⟩
    · simpa using (h (fun _ => true) 0).2.2.1
    · rw [(h env e.key).1]
      exact Mix.allRight _
    · exact (h (fun _ => true) 0).2.2.2
    · intro s hs t ht
      rw [(h (fun _ => true) 0).2.1] at hs
      exact .inl (hd' t (selsAll_dyn rs s hs t ht))
  | other r =>
    exact ⟨⟨[], by simp [collect], by simp, fun env e he => by simpa [collect, mine] using Mix.allRight _⟩, fun x hx => hx,
      by simp [collect, selsOf]⟩

theorem collectAll_mix {sem : Sem V R} {doc : List (Elem V Q R)} {eng : Engine} (hs : Sound sem doc eng) (test : Nat → Value V → Bool)
    (o : Opts) : ∀ (rs : List (Rule V Q R)), (∀ r ∈ rs, Closed o r) → ∀ (st : State V), (∀ r ∈ rs, ∀ t ∈ firstPass o r, t ∈ st.dyn) →
    (∃ new, (collectAll test eng o doc st rs).2.taken = st.taken ++ new ∧ (∀ t ∈ new, FromSels sem doc t) ∧
      ∀ env, ∀ e ∈ doc, Mix (mine e.key new) (eachAll sem env (holds sem doc) e.key (collectAll test eng o doc st rs).1)
        (eachAll sem env (holds sem doc) e.key rs)) ∧
      (∀ x ∈ st.dyn, x ∈ (collectAll test eng o doc st rs).2.dyn) ∧
      ∀ s ∈ selsOfAll (collectAll test eng o doc st rs).1, ∀ t ∈ s.tokens, t ∈ (collectAll test eng o doc st rs).2.dyn ∨
        t ∈ (collectAll test eng o doc st rs).1.flatMap topTails
  | [], _, st, _ => ⟨⟨[], by simp [collectAll], by simp, fun env e _ => by simpa [collectAll, eachAll, mine] using Mix.nil⟩, fun x hx => hx,
      by simp [collectAll, selsOfAll]⟩
  | r :: rs, hc, st, hd => by
    obtain ⟨⟨n1, h1, t1, m1⟩, d1, u1⟩ := collect_mix hs test o r (hc r (by simp)) st (hd r (by simp))
    obtain ⟨⟨n2, h2, t2, m2⟩, d2, u2⟩ := collectAll_mix hs test o rs (fun r hr => hc r (by simp [hr])) (collect test eng o doc st r).2
      fun r hr t ht => d1 t (hd r (by simp [hr]) t ht)
    refine ⟨⟨n1 ++ n2, ?_, ?_, ?_⟩, ?_, ?_⟩
    · simp only [collectAll]
      rw [h2, h1, List.append_assoc]
    · intro t ht
      rcases List.mem_append.mp ht with h | h
      · exact t1 t h
      · exact t2 t h
    · intro env e he
      simp only [collectAll, eachAll, mine_append]
      exact (m1 env e he).append (m2 env e he)
    · exact fun x hx => d2 x (d1 x hx)
    · intro s hs t ht
      simp only [collectAll, selsOfAll, List.mem_append] at hs
      simp only [collectAll, List.flatMap_cons, List.mem_append]
      rcases hs with hs | hs
      · rcases u1 s hs t ht with h | h
        · exact .inl (d2 t (d1 t h))
        · exact .inr (.inl h)
      · rcases u2 s hs t ht with h | h
        · exact .inl h
        · exact .inr (.inr h)

/-! ## Tidying -/

theorem eachAll_append (sem : Sem V R) (env : Q → Bool) (f : Nat → Token → Bool) (k : Nat) (a b : List (Rule V Q R)) :
    eachAll sem env f k (a ++ b) = eachAll sem env f k a ++ eachAll sem env f k b := by
  induction a with
  | nil => simp [eachAll]
  | cons r a ih => simp [eachAll, ih]

theorem selsOfAll_append (a b : List (Rule V Q R)) : selsOfAll (a ++ b) = selsOfAll a ++ selsOfAll b := by
  induction a with
  | nil => simp [selsOfAll]
  | cons r a ih => simp [selsOfAll, ih]

mutual
theorem tidy_each (sem : Sem V R) (env : Q → Bool) (f : Nat → Token → Bool) (k : Nat) : ∀ r : Rule V Q R,
    eachAll sem env f k (tidy r) = each sem env f k r ∧ selsOfAll (tidy r) = selsOf r ∧ (tidy r).flatMap topTails = topTails r
  | .style sels b => by
    simp only [tidy]
    cases sels <;> simp [eachAll, each, selsOfAll, selsOf, topTails]
  | .nest _ _ => by simp [tidy, eachAll, each, selsOfAll, selsOf]
  | .group text c rs => by
    obtain ⟨h1, h2, _⟩ := tidyAll_each sem env f k rs
    simp only [tidy]
    split
    · next he =>
      rw [List.isEmpty_iff] at he
      rw [he] at h1 h2
      simp [eachAll, each, selsOfAll, selsOf, topTails, ← h1, ← h2]
    · simp [eachAll, each, selsOfAll, selsOf, topTails, h1, h2]
  | .other _ => by simp [tidy, eachAll, each, selsOfAll, selsOf]
theorem tidyAll_each (sem : Sem V R) (env : Q → Bool) (f : Nat → Token → Bool) (k : Nat) : ∀ rs : List (Rule V Q R),
    eachAll sem env f k (tidyAll rs) = eachAll sem env f k rs ∧ selsOfAll (tidyAll rs) = selsOfAll rs ∧
      (tidyAll rs).flatMap topTails = rs.flatMap topTails
  | [] => by simp [tidyAll]
  | r :: rs => by
    obtain ⟨h1, h2, h3⟩ := tidy_each sem env f k r
    obtain ⟨g1, g2, g3⟩ := tidyAll_each sem env f k rs
    simp only [tidyAll, eachAll_append, selsOfAll_append, List.flatMap_append, h1, h2, h3, g1, g2, g3, eachAll, selsOfAll, List.flatMap_cons,
      and_self]
end

end Verif.Inline
