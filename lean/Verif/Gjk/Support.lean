import Verif.Gjk.Hull

/-!
# The search for the support finds it
-/

namespace Verif.Gjk

variable {K : Type} [Field K] [LinearOrder K] [IsStrictOrderedRing K]

theorem turn_infix {l : List (Pt K)} : Turn l → ∀ x a b c y, l = x ++ a :: b :: c :: y → 0 < cross c b a := by
  intro h x
  induction x generalizing l with
  | nil => intro a b c y e; subst e; exact h.1
  | cons z x ih => intro a b c y e; subst e; exact ih (Turn.tail h) a b c y rfl

/-- From left to right, turning left. -/
structure Bend (L : List (Pt K)) : Prop where
  sort : L.Pairwise Le
  turn : ∀ x a b c y, L = x ++ a :: b :: c :: y → 0 < cross a b c

theorem Inv.bend {P : List (Pt K)} {c : Chain K} (h : Inv P c) : Bend c.stack.reverse := by
  refine ⟨List.pairwise_reverse.mpr h.sort, ?_⟩
  intro x a b c' y e
  refine turn_infix h.turn y.reverse c' b a x.reverse ?_
  rw [← List.reverse_reverse c.stack, e]
  simp

theorem bend_step {a b c d : Pt K} (hab : Le a b) (hbc : Le b c) (hc : 0 < cross a b c) (hd : d.2 ≤ 0) (h : dot b d ≤ dot a d) : dot c d ≤ dot b d := by
  by_contra hn
  simp only [not_le, dot, cross] at *
  have e1 := hab.fst
  have e2 := hbc.fst
  rcases lt_or_eq_of_le e1 with h' | h'
  · nlinarith [mul_nonneg (sub_nonneg.mpr e2) (sub_nonneg.mpr h), mul_pos (sub_pos.mpr h') (sub_pos.mpr hn), mul_nonneg (neg_nonneg.mpr hd) (le_of_lt hc)]
  · have : a.2 ≤ b.2 := hab.elim (fun k => absurd h' (ne_of_lt k)) fun k => k.2
    rw [h'] at hc
    nlinarith [mul_nonneg (sub_nonneg.mpr this) (sub_nonneg.mpr e2)]

theorem Bend.down {L : List (Pt K)} (h : Bend L) {d : Pt K} (hd : d.2 ≤ 0) : ∀ (rest pre : List (Pt K)) (v w : Pt K), L = pre ++ v :: w :: rest →
    dot w d ≤ dot v d → ∀ x ∈ w :: rest, dot x d ≤ dot v d
  | [], _, v, w, _, hw => by simpa using hw
  | y :: rest, pre, v, w, e, hw => by
    have hs := h.sort
    rw [e] at hs
    obtain ⟨_, hs, _⟩ := List.pairwise_append.mp hs
    have hvw := (List.pairwise_cons.mp hs).1 w (by simp)
    have hwy := (List.pairwise_cons.mp (List.pairwise_cons.mp hs).2).1 y (by simp)
    have hy := bend_step hvw hwy (h.turn pre v w y rest e) hd hw
    have ih := h.down hd rest (pre ++ [v]) w y (by rw [e]; simp) hy
    intro x hx
    rcases List.mem_cons.mp hx with rfl | hx
    · exact hw
    · exact le_trans (ih x hx) hw

/-- The part `L` of the outline `src`, which starts at `off`, has a highest point in the direction `d`. -/
structure Part (src L : List (Pt K)) (off : Nat) (d : Pt K) : Prop where
  pos : 0 < src.length
  ring : ∀ i x, L[i]? = some x → src[(off + i) % src.length]? = some x
  cover : ∀ c ∈ src, ∃ x ∈ L, dot c d ≤ dot x d
  bend : Bend L
  down : d.2 ≤ 0

theorem Part.climb {src L : List (Pt K)} {off : Nat} {d : Pt K} (h : Part src L off d) : ∀ (rest pre : List (Pt K)) (v : Pt K) (n : Nat),
    L = pre ++ v :: rest → (∀ x ∈ pre, dot x d ≤ dot v d) → rest.length < n →
    ∃ k w, Gjk.climb src d n ((off + pre.length + 1) % src.length) (some (dot v d)) = some ((off + k + 1) % src.length) ∧ L[k]? = some w ∧
      ∀ x ∈ L, dot x d ≤ dot w d
  | [], pre, v, n, e, hpre, hn => by
    obtain ⟨n, rfl⟩ : ∃ m, n = m + 1 := ⟨n - 1, by simp at hn; omega⟩
    have hlt : (off + pre.length + 1) % src.length < src.length := Nat.mod_lt _ h.pos
    have hall : ∀ x ∈ L, dot x d ≤ dot v d := by
      intro x hx
      rw [e] at hx
      rcases List.mem_append.mp hx with hx | hx
      · exact hpre x hx
      · rw [List.mem_singleton.mp hx]
    refine ⟨pre.length, v, ?_, by rw [e]; simp, hall⟩
    obtain ⟨x, hx, hle⟩ := h.cover _ (List.getElem_mem hlt)
    simp only [Gjk.climb, List.getElem?_eq_getElem hlt]
    rw [if_pos (le_trans hle (hall x hx))]
  | w :: rest, pre, v, n, e, hpre, hn => by
    obtain ⟨n, rfl⟩ : ∃ m, n = m + 1 := ⟨n - 1, by simp at hn; omega⟩
    have hw : src[(off + pre.length + 1) % src.length]? = some w := by
      have := h.ring (pre.length + 1) w (by rw [e]; simp)
      rwa [← Nat.add_assoc] at this
    simp only [Gjk.climb, hw]
    split
    · next hle =>
      refine ⟨pre.length, v, rfl, by rw [e]; simp, ?_⟩
      intro x hx
      rw [e] at hx
      rcases List.mem_append.mp hx with hx | hx
      · exact hpre x hx
      · rcases List.mem_cons.mp hx with rfl | hx
        · exact le_refl _
        · exact h.bend.down h.down rest pre v w e hle x hx
    · next hlt =>
      have hlt := not_le.mp hlt
      obtain ⟨k, u, h1, h2, h3⟩ := h.climb rest (pre ++ [v]) w n (by rw [e]; simp) (by
        intro x hx
        rcases List.mem_append.mp hx with hx | hx
        · exact le_trans (hpre x hx) (le_of_lt hlt)
        · rw [List.mem_singleton.mp hx]; exact le_of_lt hlt) (by simp at hn ⊢; omega)
      refine ⟨k, u, ?_, h2, h3⟩
      rw [← h1]
      congr 1
      rw [Nat.mod_add_mod]
      simp [Nat.add_assoc]

/-- The whole search, from a point before which there is nothing higher. -/
theorem Part.search {src L : List (Pt K)} {off : Nat} {d : Pt K} (h : Part src L off d) {rest pre : List (Pt K)} {v : Pt K}
    (e : L = pre ++ v :: rest) (hpre : ∀ x ∈ pre, dot x d ≤ dot v d) (hlen : L.length ≤ src.length) {start : Nat}
    (hstart : start = (off + pre.length) % src.length) :
    ∃ i w, Gjk.climb src d (src.length + 1) start none = some i ∧ src[(if i = 0 then src.length else i) - 1]? = some w ∧ w ∈ L ∧
      ∀ x ∈ L, dot x d ≤ dot w d := by
  have hv : src[start]? = some v := by rw [hstart]; exact h.ring pre.length v (by rw [e]; simp)
  have hl : rest.length < src.length := by rw [e] at hlen; simp at hlen; omega
  obtain ⟨k, w, h1, h2, h3⟩ := h.climb rest pre v src.length e hpre hl
  refine ⟨(off + k + 1) % src.length, w, ?_, ?_, List.mem_of_getElem? h2, h3⟩
  · simp only [Gjk.climb, hv]
    rw [← h1, hstart, Nat.mod_add_mod]
  · have hring := h.ring k w h2
    rw [← hring]
    congr 1
    have hp := h.pos
    generalize src.length = n at hp
    have e1 : (off + k + 1) % n = ((off + k) % n + 1) % n := by rw [Nat.mod_add_mod]
    have hm : (off + k) % n < n := Nat.mod_lt _ hp
    rw [e1]
    by_cases hq : (off + k) % n + 1 = n
    · rw [hq, Nat.mod_self, if_pos rfl]; omega
    · rw [Nat.mod_eq_of_lt (by omega : (off + k) % n + 1 < n), if_neg (by omega)]; omega

/-! ## Turning around -/

theorem dot_neg (a b : Pt K) : dot (-a) (-b) = dot a b := by
  simp only [dot, Prod.fst_neg, Prod.snd_neg]; ring

theorem climb_neg (src : List (Pt K)) (d : Pt K) : ∀ (n i : Nat) (m : Option K), climb (src.map (- ·)) (-d) n i m = climb src d n i m
  | 0, _, _ => rfl
  | n + 1, i, m => by
    simp only [climb, List.getElem?_map, List.length_map]
    cases src[i]? with
    | none => rfl
    | some p =>
      simp only [Option.map_some, dot_neg]
      cases m with
      | none => exact climb_neg src d n _ _
      | some m =>
        dsimp only
        split
        · rfl
        · exact climb_neg src d n _ _

/-! ## Convex hulls -/

/-- How the outline is made of its parts. -/
structure Outline (ps : List (Pt K)) (b : Bounds K) (X Y : List (Pt K)) (x y : Pt K) (lo hi : Chain K) : Prop where
  source : b.source = (x :: X) ++ (y :: Y)
  lower : lo.stack.reverse = x :: X ++ [y]
  upper : hi.stack.reverse = y :: Y ++ [x]
  invLo : Inv (sortBy le ps) lo
  invHi : Inv ((sortBy le ps).reverse.map (- ·)) hi.turned
  minY : b.minY = lo.idx
  maxX : b.maxX = X.length + 1
  maxY : b.maxY = (X.length + 1 + hi.idx) % b.source.length

theorem hull_outline (ps : List (Pt K)) (h2 : 2 ≤ ps.length) : ∃ b X Y x y lo hi, convexHull ps = some b ∧ Outline ps b X Y x y lo hi := by
  have hlen : (sortBy le ps).length = ps.length := (sortBy_perm ps).length_eq
  have hsort := sorted ps
  have hchain : ∀ up (s : List (Pt K)), s ≠ [] → ∃ c, chain up s = some c := by
    intro up s hs
    cases s with
    | nil => exact absurd rfl hs
    | cons p l => exact ⟨_, rfl⟩
  have hne : sortBy le ps ≠ [] := by
    intro e
    rw [e] at hlen
    simp at hlen
    omega
  obtain ⟨lo, hlo⟩ := hchain false (sortBy le ps) hne
  obtain ⟨hi, hhi⟩ := hchain true (sortBy le ps).reverse (by simpa using hne)
  have i1 := inv_lower hsort hlo
  have i2 := inv_upper hsort hhi
  have l1 := i1.two (by omega)
  have l2 := i2.two (by simp; omega)
  simp only [Chain.turned, List.length_map] at l2
  -- the ends of the stacks
  obtain ⟨y, lt, e1⟩ : ∃ y lt, lo.stack = y :: lt := by cases e : lo.stack with
    | nil => exact absurd e i1.ne
    | cons y lt => exact ⟨y, lt, rfl⟩
  obtain ⟨x, ht, e2⟩ : ∃ x ht, hi.stack = x :: ht := by cases e : hi.stack with
    | nil => rw [e] at l2; simp at l2
    | cons x ht => exact ⟨x, ht, rfl⟩
  have hx : (sortBy le ps).head? = some x := by
    have := i2.head
    simp only [Chain.turned, e2, List.map_cons, List.head?_cons, List.getLast?_map, List.getLast?_reverse] at this
    cases e : (sortBy le ps).head? with
    | none => rw [e] at this; cases this
    | some z =>
      rw [e] at this
      simp only [Option.map_some, Option.some.injEq, neg_inj] at this
      rw [this]
  have hy : (sortBy le ps).getLast? = some y := by rw [← i1.head, e1]; rfl
  have hx' : lt.getLast? = some x := by
    rw [← hx, ← i1.last, e1]
    cases lt with
    | nil => rw [e1] at l1; simp at l1
    | cons z l => rw [List.getLast?_cons_cons]
  have hy' : ht.getLast? = some y := by
    have := i2.last
    simp only [Chain.turned, e2, List.getLast?_map, List.head?_map, List.head?_reverse, hy] at this
    cases ht with
    | nil => rw [e2] at l2; simp at l2
    | cons z l =>
      rw [List.getLast?_cons_cons] at this
      cases e : (z :: l).getLast? with
      | none => rw [e] at this; cases this
      | some w =>
        rw [e] at this
        simp only [Option.map_some, Option.some.injEq, neg_inj] at this
        rw [this]
  obtain ⟨X, hX⟩ : ∃ X, lt.reverse = x :: X := by
    have : lt.reverse.head? = some x := by rw [List.head?_reverse]; exact hx'
    cases e : lt.reverse with
    | nil => rw [e] at this; cases this
    | cons z X => rw [e] at this; cases this; exact ⟨X, rfl⟩
  obtain ⟨Y, hY⟩ : ∃ Y, ht.reverse = y :: Y := by
    have : ht.reverse.head? = some y := by rw [List.head?_reverse]; exact hy'
    cases e : ht.reverse with
    | nil => rw [e] at this; cases this
    | cons z Y => rw [e] at this; cases this; exact ⟨Y, rfl⟩
  refine ⟨⟨lo.stack.tail.reverse ++ hi.stack.tail.reverse, lo.idx, lo.stack.tail.reverse.length,
    if (lo.stack.tail.reverse ++ hi.stack.tail.reverse).isEmpty then 0 else
      (lo.stack.tail.reverse.length + hi.idx) % (lo.stack.tail.reverse ++ hi.stack.tail.reverse).length⟩, X, Y, x, y, lo, hi, ?_, ?_⟩
  · rw [convexHull]
    simp only [hlo, hhi]
  · exact ⟨by simp only [e1, e2, List.tail_cons, hX, hY], by simp only [e1, List.reverse_cons, hX], by simp only [e2, List.reverse_cons, hY], i1, i2,
      rfl, by simp only [e1, List.tail_cons, hX, List.length_cons], by simp [e1, e2, hX, hY]⟩

theorem ring_lower (X Y : List (Pt K)) (x y : Pt K) (i : Nat) (v : Pt K) (h : (x :: X ++ [y])[i]? = some v) :
    ((x :: X) ++ (y :: Y))[(0 + i) % ((x :: X) ++ (y :: Y)).length]? = some v := by
  obtain ⟨hi, rfl⟩ := List.getElem?_eq_some_iff.mp h
  simp only [List.length_append, List.length_cons, List.length_nil] at hi
  rw [Nat.zero_add, Nat.mod_eq_of_lt (by simp; omega)]
  have e : (x :: X) ++ (y :: Y) = (x :: X ++ [y]) ++ Y := by simp
  rw [e, List.getElem?_append_left (by simp; omega)]
  exact h

theorem ring_upper (X Y : List (Pt K)) (x y : Pt K) (i : Nat) (v : Pt K) (h : (y :: Y ++ [x])[i]? = some v) :
    ((x :: X) ++ (y :: Y))[(X.length + 1 + i) % ((x :: X) ++ (y :: Y)).length]? = some v := by
  obtain ⟨hi, hv⟩ := List.getElem?_eq_some_iff.mp h
  simp only [List.length_append, List.length_cons, List.length_nil] at hi
  rcases Nat.lt_or_ge i (Y.length + 1) with hlt | hge
  · rw [Nat.mod_eq_of_lt (by simp; omega), List.getElem?_append_right (by simp)]
    rw [List.getElem?_append_left (by simpa using hlt)] at h
    rw [← h]
    congr 1
    simp
  · have hi' : i = Y.length + 1 := by omega
    subst hi'
    rw [List.getElem?_append_right (by simp)] at h
    simp only [List.length_cons, Nat.sub_self, List.getElem?_cons_zero, Option.some.injEq] at h
    have : X.length + 1 + (Y.length + 1) = ((x :: X) ++ (y :: Y)).length := by simp; omega
    rw [this, Nat.mod_self, h]
    rfl

/-- The search for the point that is farthest in a direction finds one. -/
theorem support_spec (ps : List (Pt K)) (h2 : 2 ≤ ps.length) : ∃ b, convexHull ps = some b ∧ (∀ c ∈ b.source, c ∈ ps) ∧
    ∀ d, ∃ p ∈ ps, p ∈ b.source ∧ support b d = some p ∧ ∀ q ∈ ps, dot q d ≤ dot p d := by
  obtain ⟨b, X, Y, x, y, lo, hi, hb, o⟩ := hull_outline ps h2
  have hpos : 0 < b.source.length := by rw [o.source]; simp
  have hmem : ∀ c ∈ b.source, c ∈ sortBy le ps := by
    intro c hc
    rw [o.source] at hc
    rcases List.mem_append.mp hc with hc | hc
    · exact o.invLo.sub c (List.mem_reverse.mp (by rw [o.lower]; exact List.mem_append_left _ hc))
    · have := o.invHi.sub (-c) (List.mem_map.mpr ⟨c, List.mem_reverse.mp (by rw [o.upper]; exact List.mem_append_left _ hc), rfl⟩)
      obtain ⟨c', hc', e⟩ := List.mem_map.mp this
      rw [← neg_inj.mp e]
      exact List.mem_reverse.mp hc'
  have hps : ∀ c, c ∈ sortBy le ps ↔ c ∈ ps := fun c => (sortBy_perm ps).mem_iff
  refine ⟨b, hb, fun c hc => (hps c).mp (hmem c hc), fun d => ?_⟩
  -- what the search on one of the parts gives
  have finish : ∀ (L : List (Pt K)) (i : Nat) (w : Pt K), (∀ c ∈ L, c ∈ b.source) → (∀ q ∈ ps, ∃ v ∈ L, dot q d ≤ dot v d) →
      climb b.source d (b.source.length + 1) (if 0 ≤ d.2 then if d.1 < 0 then b.maxY else b.maxX else if d.1 < 0 then 0 else b.minY) none = some i →
      b.source[(if i = 0 then b.source.length else i) - 1]? = some w → w ∈ L → (∀ x ∈ L, dot x d ≤ dot w d) →
      ∃ p ∈ ps, p ∈ b.source ∧ support b d = some p ∧ ∀ q ∈ ps, dot q d ≤ dot p d := by
    intro L i w hL hcov hc hw hwL hmax
    refine ⟨w, (hps w).mp (hmem w (hL w hwL)), hL w hwL, ?_, ?_⟩
    · simp only [support, hc, hw]
    · intro q hq
      obtain ⟨v, hv, hle⟩ := hcov q hq
      exact le_trans hle (hmax v hv)
  have hlen : b.source.length = X.length + 1 + (Y.length + 1) := by rw [o.source]; simp; omega
  by_cases hd : 0 ≤ d.2
  · -- the upper part, turned around
    have hU : ∀ c ∈ hi.stack.reverse, c ∈ b.source := by
      intro c hc
      rw [o.upper] at hc
      rw [o.source]
      simp only [List.mem_append, List.mem_cons, List.not_mem_nil, or_false] at hc ⊢
      tauto
    have hcov : ∀ q ∈ ps, ∃ v ∈ hi.stack.reverse, dot q d ≤ dot v d := by
      intro q hq
      obtain ⟨v, hv, hle⟩ := o.invHi.cover (-d) (by simpa using hd) (-q) (List.mem_map.mpr ⟨q, List.mem_reverse.mpr ((hps q).mpr hq), rfl⟩)
      obtain ⟨v', hv', rfl⟩ := List.mem_map.mp hv
      rw [dot_neg, dot_neg] at hle
      exact ⟨v', List.mem_reverse.mpr hv', hle⟩
    have part : Part (b.source.map (- ·)) (hi.stack.reverse.map (- ·)) (X.length + 1) (-d) := by
      refine ⟨by simpa using hpos, ?_, ?_, ?_, by simpa using hd⟩
      · intro i v hv
        rw [List.getElem?_map] at hv
        rw [List.length_map, List.getElem?_map]
        cases e : (hi.stack.reverse)[i]? with
        | none => rw [e] at hv; cases hv
        | some u =>
          rw [e] at hv
          rw [o.upper] at e
          rw [o.source, ring_upper X Y x y i u e]
          exact hv
      · intro c hc
        obtain ⟨c', hc', rfl⟩ := List.mem_map.mp hc
        obtain ⟨v, hv, hle⟩ := hcov c' ((hps c').mp (hmem c' hc'))
        exact ⟨-v, List.mem_map.mpr ⟨v, hv, rfl⟩, by rw [dot_neg, dot_neg]; exact hle⟩
      · rw [List.map_reverse]; exact o.invHi.bend
    have hl : (hi.stack.reverse.map (- ·)).length ≤ (b.source.map (- ·)).length := by
      rw [List.length_map, List.length_map, o.upper, hlen]; simp; omega
    -- the search from the point with number `k` of this part
    have run : ∀ (pre rest : List (Pt K)) (v : Pt K) (start : Nat), hi.stack.reverse = pre ++ v :: rest → (∀ u ∈ pre, dot u d ≤ dot v d) →
        start = (X.length + 1 + pre.length) % b.source.length →
        (if 0 ≤ d.2 then if d.1 < 0 then b.maxY else b.maxX else if d.1 < 0 then 0 else b.minY) = start →
        ∃ p ∈ ps, p ∈ b.source ∧ support b d = some p ∧ ∀ q ∈ ps, dot q d ≤ dot p d := by
      intro pre rest v start e hpre hstart hif
      obtain ⟨i, w, h1, h3, h4, h5⟩ := part.search (pre := pre.map (- ·)) (v := -v) (rest := rest.map (- ·)) (by rw [e]; simp) (by
        intro u hu
        obtain ⟨u', hu', rfl⟩ := List.mem_map.mp hu
        rw [dot_neg, dot_neg]
        exact hpre u' hu') hl (start := start) (by rw [hstart]; simp)
      rw [List.length_map, climb_neg] at h1
      rw [List.length_map, List.getElem?_map] at h3
      obtain ⟨w', hw', rfl⟩ := List.mem_map.mp h4
      refine finish hi.stack.reverse i w' hU hcov (by rw [hif]; exact h1) ?_ hw' fun u hu => ?_
      · cases e : b.source[(if i = 0 then b.source.length else i) - 1]? with
        | none => rw [e] at h3; cases h3
        | some u => rw [e] at h3; simp only [Option.map_some, Option.some.injEq, neg_inj] at h3; rw [h3]
      · have := h5 (-u) (List.mem_map.mpr ⟨u, hu, rfl⟩)
        rwa [dot_neg, dot_neg] at this
    by_cases hx : d.1 < 0
    · obtain ⟨above, v, below, e1, e2, e3, e4⟩ := o.invHi.place
      have e1' : hi.stack = above.map (- ·) ++ (-v) :: below.map (- ·) := by
        have := congrArg (List.map (- ·)) e1
        simpa [Chain.turned, List.map_map] using this
      refine run (below.map (- ·)).reverse (above.map (- ·)).reverse (-v) _ (by rw [e1']; simp) ?_ rfl ?_
      · intro u hu
        obtain ⟨u', hu', rfl⟩ := List.mem_map.mp (List.mem_reverse.mp hu)
        have hlt := e4 u' hu'
        rw [← e3] at hlt
        have hle : Le u' v := by
          have := o.invHi.sort
          rw [e1] at this
          exact (List.pairwise_cons.mp (List.pairwise_append.mp this).2.1).1 u' hu'
        have := hle.fst
        simp only [dot, Prod.fst_neg, Prod.snd_neg]
        nlinarith [mul_nonneg (sub_nonneg.mpr this) (le_of_lt (neg_pos.mpr hx)), mul_nonneg hd (le_of_lt (sub_pos.mpr hlt))]
      · rw [if_pos hd, if_pos hx, o.maxY]
        simp only [List.length_reverse, List.length_map, e2]
        rfl
    · refine run [] (Y ++ [x]) y _ (by rw [o.upper]; rfl) (by simp) rfl ?_
      rw [if_pos hd, if_neg hx, o.maxX, Nat.mod_eq_of_lt (by rw [hlen]; simp)]
      rfl
  · have hd' : d.2 ≤ 0 := le_of_lt (not_le.mp hd)
    have hL : ∀ c ∈ lo.stack.reverse, c ∈ b.source := by
      intro c hc
      rw [o.lower] at hc
      rw [o.source]
      simp only [List.mem_append, List.mem_cons, List.not_mem_nil, or_false] at hc ⊢
      tauto
    have hcov : ∀ q ∈ ps, ∃ v ∈ lo.stack.reverse, dot q d ≤ dot v d := by
      intro q hq
      obtain ⟨v, hv, hle⟩ := o.invLo.cover d hd' q ((hps q).mpr hq)
      exact ⟨v, List.mem_reverse.mpr hv, hle⟩
    have part : Part b.source lo.stack.reverse 0 d := by
      refine ⟨hpos, ?_, fun c hc => hcov c ((hps c).mp (hmem c hc)), o.invLo.bend, hd'⟩
      intro i v hv
      rw [o.lower] at hv
      rw [o.source]
      exact ring_lower X Y x y i v hv
    have hl : lo.stack.reverse.length ≤ b.source.length := by rw [o.lower, hlen]; simp
    by_cases hx : d.1 < 0
    · obtain ⟨i, w, h1, h3, h4, h5⟩ := part.search (pre := []) (v := x) (rest := X ++ [y]) (by rw [o.lower]; rfl) (by simp) hl (start := 0)
        (by simp)
      exact finish lo.stack.reverse i w hL hcov (by rw [if_neg hd, if_pos hx]; exact h1) h3 h4 h5
    · obtain ⟨above, v, below, e1, e2, e3, e4⟩ := o.invLo.place
      have hidx : lo.idx < b.source.length := by
        have := congrArg List.length e1
        rw [List.length_append, List.length_cons] at this
        rw [List.length_reverse] at hl
        omega
      obtain ⟨i, w, h1, h3, h4, h5⟩ := part.search (pre := below.reverse) (v := v) (rest := above.reverse) (by rw [e1]; simp) (by
        intro u hu
        have hu := List.mem_reverse.mp hu
        have hlt := e4 u hu
        rw [← e3] at hlt
        have hle : Le u v := by
          have := o.invLo.sort
          rw [e1] at this
          exact (List.pairwise_cons.mp (List.pairwise_append.mp this).2.1).1 u hu
        have := hle.fst
        simp only [dot]
        nlinarith [mul_nonneg (sub_nonneg.mpr this) (not_lt.mp hx), mul_nonneg (neg_nonneg.mpr hd') (le_of_lt (sub_pos.mpr hlt))]) hl
        (start := b.minY) (by rw [o.minY, List.length_reverse, e2, Nat.zero_add, Nat.mod_eq_of_lt hidx])
      exact finish lo.stack.reverse i w hL hcov (by rw [if_neg hd, if_neg hx]; exact h1) h3 h4 h5

end Verif.Gjk
