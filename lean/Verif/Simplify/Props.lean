import Verif.Simplify.Lemmas

/-!
# C25: simplification keeps what is drawn
-/

namespace Verif.Simplify

open Verif.Segment (Pt bezier3 sq_nonneg dist2_nonneg Pt.add_def Pt.sub_def)

variable {A : Type} {g : Geo A} {arc : Arc A → Rat → Pt}

theorem AllClose.map {ε : Rat} {set : Segment A → Pt → Prop} {f : Segment A → Segment A} :
    ∀ {l : List (Segment A)}, (∀ s ∈ l, (f s).start = s.start ∧ Close ε (set s) (set (f s))) →
      AllClose ε set l (l.map f)
  | [], _ => .nil
  | s :: _, h => .cons (h s (.head _)).1 (h s (.head _)).2 (.map fun s hs => h s (.tail _ hs))

theorem AllClose.append {ε : Rat} {set : Segment A → Pt → Prop} {l l' m m' : List (Segment A)}
    (h : AllClose ε set l l') (h' : AllClose ε set m m') : AllClose ε set (l ++ m) (l' ++ m') := by
  induction h with
  | nil => exact h'
  | cons h1 h2 _ ih => exact .cons h1 h2 ih

/-! ## Closing -/

theorem outline_eq (s : Segment A) : Outline arc s = fun x => Trace arc s.start s.data x ∨
    ∃ t, 0 ≤ t ∧ t ≤ 1 ∧ x = lineAt (last s.start s.data) s.start t := rfl

/-- **C25 (`CloseSegments`).** Closing segments does not change what is filled. -/
theorem closeSegments_fill (l : List (Segment A)) : AllClose 0 (Outline arc) l (closeSegments l) := by
  apply AllClose.map
  intro s _
  by_cases hc : s.closed = true
  · rw [if_pos hc]; exact ⟨rfl, .refl _⟩
  · rw [if_neg hc]
    refine ⟨rfl, Close.symm ?_⟩
    have := drop_last (arc := arc) (p := s.start) (q := s.start) (m := s.data) (e := 0)
      (by rw [Verif.Segment.dist2_self]; exact sq_nonneg 0)
    simpa only [outline_eq, last_append, last, Data.stop] using this

/-- A closed segment whose last line ends at its start, without that line. -/
theorem popped {f : Data A → Bool} {s : Segment A} (h0 : 0 ≤ g.tol)
    (hf : ∀ m z, s.data = m ++ [z] → f z = true → ∃ q, z = .lineTo q ∧ q.dist2 s.start ≤ g.tol * g.tol) :
    Close g.tol (Outline arc s) (Outline arc { s with data := popIf f s.data }) := by
  rcases popIf_eq f s.data with h | ⟨m, z, h1, h2, h3⟩
  · rw [h]; exact .refl _
  · obtain ⟨q, rfl, hq⟩ := hf m z h1 h2
    rw [h3]
    have := drop_last (arc := arc) (m := m) hq
    simpa only [outline_eq, h1, last_append, last, Data.stop] using this

theorem removeCloseLineOf_start (s : Segment A) : (removeCloseLineOf g s).start = s.start := by
  unfold removeCloseLineOf
  split
  · split <;> rfl
  · rfl

theorem outline_closed (s : Segment A) (b : Bool) : Outline arc { s with closed := b } = Outline arc s := rfl

/-- **C25 (`RemoveCloseLine`).** Leaving out closing lines changes what is filled by no more than the tolerance. (The
option is on only where nothing is stroked, see `closeLine_iff`.) -/
theorem removeCloseLine_fill (h0 : 0 ≤ g.tol) (l : List (Segment A)) :
    AllClose g.tol (Outline arc) l (removeCloseLine g l) := by
  apply AllClose.map
  intro s _
  by_cases hc : s.closed = true
  · rw [if_pos hc]
    refine ⟨removeCloseLineOf_start s, ?_⟩
    unfold removeCloseLineOf
    split
    · rename_i d hd
      split
      · rename_i hn
        apply popped (s := s) h0
        intro m z hm hz
        cases z with
        | lineTo q =>
          refine ⟨q, rfl, ?_⟩
          rw [hm, List.getLast?_concat] at hd
          cases hd
          rw [dist2_comm]
          exact Rat.le_of_lt hn
        | curveTo => cases hz
        | arcTo => cases hz
      · exact .refl _
    · exact .refl _
  · rw [if_neg hc]; exact ⟨rfl, .refl _⟩

/-- **C25 (`RemoveCloseLine`).** Of a closed segment that comes back to its start even what is stroked moves by no more
than the tolerance: the line that is left out is drawn by closing, and closing is left out only where it draws next to
nothing. -/
theorem removeCloseLine_stroke (h0 : 0 ≤ g.tol) {s : Segment A} (hc : s.closed = true)
    (hl : s.start.dist2 (last s.start s.data) < g.tol2) (hne : s.data ≠ []) :
    Close g.tol (Stroke arc s) (Stroke arc (removeCloseLineOf g s)) := by
  have e (s : Segment A) (hc : s.closed = true) : Stroke arc s = Outline arc s := by
    funext x; simp [Stroke, Outline, hc]
  rcases s.data.eq_nil_or_concat with h | ⟨m, z, h⟩
  · exact absurd h hne
  · rw [List.concat_eq_append] at h
    have hz : z.stop = last s.start s.data := by rw [h, last_append]; rfl
    unfold removeCloseLineOf
    simp only [h, List.getLast?_concat]
    rw [← h, if_pos (by rw [hz]; exact hl)]
    cases z with
    | lineTo q =>
      rw [e s hc, e _ rfl]
      refine popped (f := Data.isLine) h0 fun m' z' h1 h2 => ?_
      rw [h] at h1
      obtain ⟨-, h1⟩ := List.append_inj' h1 rfl
      cases h1
      refine ⟨q, rfl, ?_⟩
      rw [dist2_comm]
      rw [← hz] at hl
      exact Rat.le_of_lt hl
    | curveTo a b q =>
      refine ⟨?_, ?_⟩
      · rintro x (hx | ⟨-, t, t0, t1, rfl⟩)
        · refine ⟨x, .inl ?_, by rw [Verif.Segment.dist2_self]; exact sq_nonneg _⟩
          simpa [popIf, h, Data.isLine] using hx
        · refine ⟨s.start, .inl (trace_start _ _), ?_⟩
          have := lineAt_near (p := last s.start s.data) (q := s.start) (p' := s.start) (q' := s.start)
            (e := g.tol * g.tol) t0 t1 (by rw [dist2_comm]; exact Rat.le_of_lt hl)
            (by rw [Verif.Segment.dist2_self]; exact sq_nonneg _)
          rwa [lineAt_self] at this
      · rintro x (hx | ⟨hx, -⟩)
        · refine ⟨x, .inl ?_, by rw [Verif.Segment.dist2_self]; exact sq_nonneg _⟩
          simpa [popIf, h, Data.isLine] using hx
        · exact absurd hx (by simp [Data.isLine])
    | arcTo a =>
      refine ⟨?_, ?_⟩
      · rintro x (hx | ⟨-, t, t0, t1, rfl⟩)
        · refine ⟨x, .inl ?_, by rw [Verif.Segment.dist2_self]; exact sq_nonneg _⟩
          simpa [popIf, h, Data.isLine] using hx
        · refine ⟨s.start, .inl (trace_start _ _), ?_⟩
          have := lineAt_near (p := last s.start s.data) (q := s.start) (p' := s.start) (q' := s.start)
            (e := g.tol * g.tol) t0 t1 (by rw [dist2_comm]; exact Rat.le_of_lt hl)
            (by rw [Verif.Segment.dist2_self]; exact sq_nonneg _)
          rwa [lineAt_self] at this
      · rintro x (hx | ⟨hx, -⟩)
        · refine ⟨x, .inl ?_, by rw [Verif.Segment.dist2_self]; exact sq_nonneg _⟩
          simpa [popIf, h, Data.isLine] using hx
        · exact absurd hx (by simp [Data.isLine])

/-! ## Empty segments -/

/-- **C25 (`RemoveEmptySegments`).** Exactly the segments without commands are removed. -/
theorem removeEmpty_spec (l : List (Segment A)) :
    (∀ s, s ∈ removeEmpty l ↔ s ∈ l ∧ s.data ≠ []) ∧ (removeEmpty l).Sublist l := by
  refine ⟨fun s => ?_, List.filter_sublist⟩
  simp [removeEmpty, List.mem_filter]

/-! ## Commands without extent -/

/-- **C25 (`RemoveNoopCommands`), for paths without thin arcs.** If at most `r` commands in a row are dropped, what is
stroked (and thus also what is filled) moves by no more than `r + 1` times the tolerance. Missing is a bound that does
not depend on the path: there is none (`vanish_violated`). -/
theorem removeNoop_partial (h0 : 0 ≤ g.tol) (r : Nat) {l : List (Segment A)}
    (ha : ∀ s ∈ l, ArcsTiny g arc s.data) (hr : ∀ s ∈ l, Runs (isZero g) r 0 s.start s.data) :
    AllClose ((r + 1 : Nat) * g.tol) (Stroke arc) l (removeNoop g l) := by
  have pos (n : Nat) : 0 ≤ (n : Rat) * g.tol := Rat.mul_nonneg (by exact_mod_cast Nat.zero_le n) h0
  have plus : ((r + 1 : Nat) : Rat) * g.tol = r * g.tol + g.tol := by
    rw [Rat.natCast_add]; grind
  have le : (r : Rat) * g.tol ≤ (r + 1 : Nat) * g.tol := by rw [plus]; grind
  have step (s : Segment A) (hs : s ∈ l) : Close (r * g.tol) (Stroke arc s)
      (Stroke arc { s with data := removeNoopData g s.start s.data }) := by
    obtain ⟨h1, h2⟩ := noop_trace h0 r s.data (ha s hs) s.start s.start 0
      (by rw [Verif.Segment.dist2_self]; exact sq_nonneg _) (hr s hs)
    have z (q : Pt) : q.dist2 q ≤ (r * g.tol) * (r * g.tol) := by
      rw [Verif.Segment.dist2_self]; exact sq_nonneg _
    refine h1.or ⟨?_, ?_⟩
    · rintro x ⟨hc, hx⟩
      obtain ⟨y, hy, e⟩ := closing_near h2 (z s.start) x hx
      exact ⟨y, ⟨hc, hy⟩, e⟩
    · rintro x ⟨hc, hx⟩
      obtain ⟨y, hy, e⟩ := closing_near (by rw [dist2_comm]; exact h2) (z s.start) x hx
      exact ⟨y, ⟨hc, hy⟩, e⟩
  have pop (s : Segment A) : Close g.tol (Stroke arc s) (Stroke arc (popClosing g s)) := by
    unfold popClosing
    split
    · rename_i hc
      have h : Close g.tol (Outline arc s) (Outline arc { s with data := popIf (endsAt g s.start) s.data }) := by
        apply popped h0
        intro m z _ hz
        cases z with
        | lineTo q => exact ⟨q, rfl, Rat.le_of_lt (of_decide_eq_true hz)⟩
        | curveTo => cases hz
        | arcTo => cases hz
      have e (s : Segment A) (hc : s.closed = true) : Stroke arc s = Outline arc s := by
        funext x; simp [Stroke, Outline, hc]
      rw [e s hc, e _ (by exact hc)]
      exact h
    · exact .refl _
  rcases l.eq_nil_or_concat with rfl | ⟨m, z, rfl⟩
  · exact .nil
  · simp only [removeNoop, List.concat_eq_append, List.map_append, List.map_cons, List.map_nil,
      List.getLast?_concat, List.dropLast_concat]
    refine .append (.map fun s hs => ⟨rfl, (step s (by simp [hs])).mono (pos r) le⟩) (.cons ?_ ?_ .nil)
    · unfold popClosing; split <;> rfl
    · rw [plus]
      exact (step z (by simp)).trans (pos r) h0 (pop _)

/-- `n` steps of 1/2000 along the axis, from `k` steps on. -/
def crawl (A : Type) : Nat → Nat → List (Data A)
  | 0, _ => []
  | n + 1, k => .lineTo ⟨(k + 1 : Nat) * (1 / 2000), 0⟩ :: crawl A n (k + 1)

theorem crawl_removed (hg : g.tol = 1 / 1000) (n k : Nat) :
    removeNoopData g ⟨(k : Rat) * (1 / 2000), 0⟩ (crawl A n k) = [] := by
  induction n generalizing k with
  | zero => rfl
  | succ n ih =>
    simp only [crawl, removeNoopData]
    rw [if_pos]
    · exact ih (k + 1)
    · simp only [isZero, decide_eq_true_eq, Pt.dist2, Geo.tol2, hg, Rat.natCast_add]
      grind

theorem crawl_last (n k : Nat) :
    last (⟨(k : Rat) * (1 / 2000), 0⟩ : Pt) (crawl A n k) = ⟨((k + n : Nat) : Rat) * (1 / 2000), 0⟩ := by
  induction n generalizing k with
  | zero => rfl
  | succ n ih =>
    simp only [crawl, last, Data.stop]
    rw [ih (k + 1), show k + 1 + n = k + (n + 1) by omega]

/-- **C25 fails (`RemoveNoopCommands`).** A line of any length that is drawn in steps below the tolerance vanishes. -/
theorem vanish_violated (hg : g.tol = 1 / 1000) (n : Nat) :
    removeNoop g [⟨⟨0, 0⟩, crawl A n 0, false⟩] = [⟨⟨0, 0⟩, [], false⟩] ∧
    Trace arc ⟨0, 0⟩ (crawl A n 0) ⟨(n : Rat) * (1 / 2000), 0⟩ := by
  constructor
  · have h := crawl_removed (A := A) hg n 0
    have e : (⟨((0 : Nat) : Rat) * (1 / 2000), 0⟩ : Pt) = ⟨0, 0⟩ := by decide +kernel
    rw [e] at h
    simp [removeNoop, h, popClosing]
  · have key : ∀ (p : Pt) (ds : List (Data A)), Trace arc p ds (last p ds) := by
      intro p ds
      induction ds generalizing p with
      | nil => rfl
      | cons d ds ih => exact .inr (.inr (ih _))
    have h := key ⟨((0 : Nat) : Rat) * (1 / 2000), 0⟩ (crawl A n 0)
    have e : (⟨((0 : Nat) : Rat) * (1 / 2000), 0⟩ : Pt) = ⟨0, 0⟩ := by decide +kernel
    rw [crawl_last, e, Nat.zero_add] at h
    exact h

end Verif.Simplify
