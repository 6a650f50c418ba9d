import Verif.Overlay.Props

/-!
# The operations as a whole, and the action
-/

namespace Verif.Overlay

open Verif.Gjk
open Verif.Curves (Sq Between Along Cubic)

/-! ## The entries of all of the paths -/

theorem flatten_keys (key : ℕ) (s : Seg) : (flatten key s).2.map Source.key = List.range' key (flatten key s).2.length := by
  by_cases h : s.data = []
  · simp [flatten, h]
  · obtain ⟨rs, e, h1, h2, -⟩ := flatten_points key s h
    rw [e]
    have : rs.length = s.data.length := by rw [← h1, List.length_map]
    rw [h2, this]

theorem contours_keys (key : ℕ) (l : List Seg) : (contours key l).2.map Source.key = List.range' key (contours key l).2.length := by
  induction l generalizing key with
  | nil => rfl
  | cons s l ih =>
    simp only [contours, List.map_append, List.length_append]
    rw [flatten_keys, ih, List.range'_append_1]

theorem subjects_keys (E : Engine) (key : ℕ) (l : List BoolPath) :
    (subjects E key l).2.map Source.key = List.range' key (subjects E key l).2.length := by
  induction l generalizing key with
  | nil => rfl
  | cons p l ih =>
    simp only [subjects, List.map_append, List.length_append]
    rw [contours_keys, ih, List.range'_append_1]

theorem apart_of_keys {rs : List Source} {key : ℕ} (h : rs.map Source.key = List.range' key rs.length) : Apart rs := by
  intro s hs s' hs' e
  have nd : (rs.map Source.key).Nodup := by rw [h]; exact List.nodup_range'
  exact List.inj_on_of_nodup_map nd hs hs' e

theorem mapM_forall {α β : Type} {f : α → Option β} {l : List α} {r : List β} (h : l.mapM f = some r) : List.Forall₂ (fun a b => f a = some b) l r := by
  induction l generalizing r with
  | nil => simp at h; subst h; exact .nil
  | cons a l ih =>
    simp only [List.mapM_cons, Option.bind_eq_bind, Option.bind_eq_some_iff, Option.pure_def, Option.some.injEq] at h
    obtain ⟨b, hb, r', hr, rfl⟩ := h
    exact .cons hb (ih hr)

/-- The parts that paths consist of, each with where it starts. -/
noncomputable def partsFrom (c : Pt ℝ) : List Data → List (Pt ℝ × Data)
  | [] => []
  | d :: ds => (c, d) :: partsFrom (End d) ds

/-- All of the parts of a path. -/
noncomputable def parts (p : BoolPath) : List (Pt ℝ × Data) := p.inner.flatMap fun s => partsFrom s.start s.data

theorem flattenFrom_parts (key : ℕ) (c : Pt ℝ) (ds : List Data) :
    (flattenFrom key c ds).2.map (fun s => (s.start, s.data)) = partsFrom c ds := by
  induction ds generalizing key c with
  | nil => rfl
  | cons d ds ih => simp only [flattenFrom, List.map_cons, partsFrom, ih, endOf_eq]

theorem flatten_parts (key : ℕ) (s : Seg) : (flatten key s).2.map (fun s => (s.start, s.data)) = partsFrom s.start s.data := by
  unfold flatten
  split
  · rename_i h; simp at h; simp [h, partsFrom]
  · exact flattenFrom_parts key s.start s.data

theorem contours_parts (key : ℕ) (l : List Seg) : (contours key l).2.map (fun s => (s.start, s.data)) = l.flatMap fun s => partsFrom s.start s.data := by
  induction l generalizing key with
  | nil => rfl
  | cons s l ih => simp only [contours, List.map_append, List.flatMap_cons, flatten_parts, ih]

theorem subjects_parts (E : Engine) (key : ℕ) (l : List BoolPath) : (subjects E key l).2.map (fun s => (s.start, s.data)) = l.flatMap parts := by
  induction l generalizing key with
  | nil => rfl
  | cons p l ih => simp only [subjects, List.map_append, List.flatMap_cons, contours_parts, ih, parts]

/-- **C79 (what the outcome consists of)** Unless it panics, an operation gives one closed path for each ring of the outcome, that begins at the first vertex of
the ring and follows all of the others, by lines or along parts of the paths that were combined. -/
theorem booleanOp_covers (E : Engine) (order : List Source → List Source) (ho : ∀ l, (order l).Perm l) (op : Op) (paths : List BoolPath) {out : List Seg}
    (h : booleanOp E order op paths = some out) :
    ∃ (shapes : Shapes) (tree : List Source), combine E op (subjects E 0 paths).1 = (if paths = [] then none else some shapes) ∧
      (paths = [] → out = []) ∧ (∀ s ∈ tree, (s.start, s.data) ∈ paths.flatMap parts) ∧
      (∀ x ∈ paths.flatMap parts, ∃ s ∈ tree, (s.start, s.data) = x) ∧
      List.Forall₂ (fun ring s => match ring with
        | [] => s.data = []
        | v :: l => s.start = v ∧ s.closed = true ∧ Covers tree v l ((v :: l).getLast (by simp)) s.data) shapes.flatten out := by
  have hp := ho (subjects E 0 paths).2
  have hparts := subjects_parts E 0 paths
  have h1 : ∀ s ∈ order (subjects E 0 paths).2, (s.start, s.data) ∈ paths.flatMap parts := by
    intro s hs; rw [← hparts]; exact List.mem_map.2 ⟨s, hp.mem_iff.1 hs, rfl⟩
  have h2 : ∀ x ∈ paths.flatMap parts, ∃ s ∈ order (subjects E 0 paths).2, (s.start, s.data) = x := by
    intro x hx; rw [← hparts] at hx
    obtain ⟨s, hs, e⟩ := List.mem_map.1 hx
    exact ⟨s, hp.mem_iff.2 hs, e⟩
  have ha : Apart (order (subjects E 0 paths).2) := by
    have := apart_of_keys (subjects_keys E 0 paths)
    intro s hs s' hs'; exact this s (hp.mem_iff.1 hs) s' (hp.mem_iff.1 hs')
  simp only [booleanOp] at h
  split at h
  · rename_i hn
    have : paths = [] := by
      cases paths with
      | nil => rfl
      | cons p ps => simp [subjects, combine] at hn
    cases h; exact ⟨[], _, by rw [hn, if_pos this], fun _ => rfl, h1, h2, .nil⟩
  · rename_i shapes hc
    have : paths ≠ [] := by rintro rfl; simp [subjects, combine] at hc
    refine ⟨shapes, _, by rw [hc, if_neg this], fun h => absurd h this, h1, h2, (mapM_forall h).imp ?_⟩
    intro ring s hr
    cases ring with
    | nil => simp only [rebuild, Option.some.injEq] at hr; rw [← hr]
    | cons v l => exact rebuild_covers _ ha v l hr

/-! ## The areas -/

/-- What an operation is to do with two areas. -/
def Op.area (A B : Set (Pt ℝ)) : Op → Set (Pt ℝ)
  | .intersect => {x | x ∈ A ∧ x ∈ B}
  | .union => {x | x ∈ A ∨ x ∈ B}
  | .difference => {x | x ∈ A ∧ x ∉ B}
  | .xor => {x | ¬ (x ∈ A ↔ x ∈ B)}

/-- The contract of `i_overlay`: the area of simplified polygons is what they fill, and the operations are those on areas. -/
structure Engine.Sound (E : Engine) (area : Shapes → Set (Pt ℝ)) (fill : List (List (Pt ℝ)) → Bool → Set (Pt ℝ)) : Prop where
  simplify : ∀ cs r, area (E.simplify cs r) = fill cs r
  overlay : ∀ a b op, area (E.overlay a b op) = op.area (area a) (area b)

/-- The polygon of a closed path. -/
def Polygon (s : Seg) (l : List (Pt ℝ)) : Prop :=
  if s.data = [] then l = []
  else ∃ ls : List (List (Pt ℝ)), l = s.start :: ls.flatten ∧ List.Forall₂ (fun x vs => Vertices x.1 x.2 vs) (partsFrom s.start s.data) ls

theorem flattenFrom_polygon (key : ℕ) (c : Pt ℝ) (ds : List Data) : ∃ ls : List (List (Pt ℝ)), (flattenFrom key c ds).1 = ls.flatten ∧
    List.Forall₂ (fun x vs => Vertices x.1 x.2 vs) (partsFrom c ds) ls := by
  induction ds generalizing key c with
  | nil => exact ⟨[], rfl, .nil⟩
  | cons d ds ih =>
    obtain ⟨ls, e, h⟩ := ih (key + 1) (endOf d)
    refine ⟨coords c d :: ls, ?_, .cons (coords_vertices c d) (endOf_eq d ▸ h)⟩
    simp only [flattenFrom, List.flatten_cons, e]

theorem contours_polygon (key : ℕ) (l : List Seg) : List.Forall₂ Polygon l (contours key l).1 := by
  induction l generalizing key with
  | nil => exact .nil
  | cons s l ih =>
    refine .cons ?_ (ih _)
    show Polygon s (flatten key s).1
    unfold Polygon flatten
    split
    · rename_i h; simp [h]
    · rename_i h
      obtain ⟨ls, e, h'⟩ := flattenFrom_polygon key s.start s.data
      rw [if_neg (by simpa using h)]
      exact ⟨ls, by simp [e], h'⟩

theorem subjects_area (E : Engine) (key : ℕ) (l : List BoolPath) : List.Forall₂ (fun p sh => ∃ cs, List.Forall₂ Polygon p.inner cs ∧ sh = E.simplify cs p.evenodd)
    l (subjects E key l).1 := by
  induction l generalizing key with
  | nil => exact .nil
  | cons p l ih => exact .cons ⟨_, contours_polygon key p.inner, rfl⟩ (ih _)

open Classical in
/-- What an operation gives for areas in order. -/
noncomputable def Wanted (op : Op) (A : Set (Pt ℝ)) (Bs : List (Set (Pt ℝ))) : Set (Pt ℝ) :=
  {x | match op with
    | .intersect => x ∈ A ∧ ∀ B ∈ Bs, x ∈ B
    | .union => x ∈ A ∨ ∃ B ∈ Bs, x ∈ B
    | .difference => x ∈ A ∧ ∀ B ∈ Bs, x ∉ B
    | .xor => Odd ((A :: Bs).countP fun B => x ∈ B)}

open Classical in
theorem fold_area (op : Op) (A : Set (Pt ℝ)) (Bs : List (Set (Pt ℝ))) : Bs.foldl (fun a b => op.area a b) A = Wanted op A Bs := by
  induction Bs generalizing A with
  | nil =>
    ext x
    cases op with
    | intersect => simp [Wanted]
    | union => simp [Wanted]
    | difference => simp [Wanted]
    | xor =>
      by_cases h : x ∈ A <;> simp [Wanted, h]
  | cons B Bs ih =>
    rw [List.foldl_cons, ih]
    ext x
    cases op with
    | intersect => simp [Wanted, Op.area, and_assoc]
    | union => simp [Wanted, Op.area, or_assoc]
    | difference => simp [Wanted, Op.area, and_assoc]
    | xor =>
      by_cases h : x ∈ A <;> by_cases h' : x ∈ B <;> simp [Wanted, List.countP_cons, Op.area, h, h', Nat.odd_add]

/-- **C79 (the area of the outcome)** The area of the polygons that the paths are combined to is what the operation is to give for what the polygons of the paths
fill: what all of them fill, what any of them fills, what only the first one fills, or what an odd number of them fills. -/
theorem combine_area (E : Engine) {area : Shapes → Set (Pt ℝ)} {fill : List (List (Pt ℝ)) → Bool → Set (Pt ℝ)} (hE : E.Sound area fill) (op : Op) (p : BoolPath)
    (ps : List BoolPath) : ∃ (shapes : Shapes) (A : Set (Pt ℝ)) (Bs : List (Set (Pt ℝ))), combine E op (subjects E 0 (p :: ps)).1 = some shapes ∧
      (∃ c, List.Forall₂ Polygon p.inner c ∧ A = fill c p.evenodd) ∧
      List.Forall₂ (fun (q : BoolPath) B => ∃ c, List.Forall₂ Polygon q.inner c ∧ B = fill c q.evenodd) ps Bs ∧
      area shapes = Wanted op A Bs := by
  have h := subjects_area E 0 (p :: ps)
  generalize (subjects E 0 (p :: ps)).1 = ss at h
  cases h with
  | cons h1 h2 =>
    rename_i s1 ss
    have key : ∀ (l : List Shapes) (s : Shapes), area (l.foldl (E.overlay · · op) s) = (l.map area).foldl (fun a b => op.area a b) (area s) := by
      intro l
      induction l with
      | nil => intro s; rfl
      | cons x l ih => intro s; rw [List.foldl_cons, ih, List.map_cons, List.foldl_cons, hE.overlay]
    refine ⟨_, area s1, ss.map area, rfl, ?_, ?_, ?_⟩
    · obtain ⟨c, hc, rfl⟩ := h1; exact ⟨c, hc, hE.simplify _ _⟩
    · rw [List.forall₂_map_right_iff]
      exact h2.imp fun q B ⟨c, hc, e⟩ => ⟨c, hc, by rw [e, hE.simplify]⟩
    · rw [key, fold_area]

/-! ## The action -/

/-- **C79 (the action)** The selected elements but the last one are removed, and the last one is kept. -/
theorem action_kept (comb : BoolPath → BoolPath → List Seg) (sel : List (ℕ × BoolPath)) (h : sel ≠ []) :
    ∃ k p, action comb sel = some (k, p) ∧ p.evenodd = true ∧ removed sel ++ [k] = sel.map Prod.fst := by
  obtain ⟨e, he⟩ : ∃ e, sel.getLast? = some e := ⟨_, List.getLast?_eq_some_getLast h⟩
  obtain ⟨q, hq⟩ : ∃ q, cumulate comb (sel.map Prod.snd) = some q := by
    cases sel with
    | nil => exact absurd rfl h
    | cons a l => exact ⟨_, rfl⟩
  refine ⟨e.1, { q with evenodd := true }, by simp only [action, he, hq], rfl, ?_⟩
  have := List.dropLast_append_getLast h
  rw [List.getLast?_eq_some_getLast h] at he
  cases he
  conv_rhs => rw [← this]
  simp [removed]

/-- **C79 (the action)** If combining two paths is right, with a result that both rules fill the same, then the path that is written for two or more selected
elements fills what the operation is to give. -/
theorem action_area (comb : BoolPath → BoolPath → List Seg) (op : Op) (fill : List Seg → Bool → Set (Pt ℝ))
    (hc : ∀ p q r, fill (comb p q) r = op.area (fill p.inner p.evenodd) (fill q.inner q.evenodd)) (e : ℕ × BoolPath) (sel : List (ℕ × BoolPath)) (h : sel ≠ []) :
    ∃ k p, action comb (e :: sel) = some (k, p) ∧
      fill p.inner p.evenodd = Wanted op (fill e.2.inner e.2.evenodd) (sel.map fun x => fill x.2.inner x.2.evenodd) := by
  obtain ⟨k, p, hp, -, -⟩ := action_kept comb (e :: sel) (by simp)
  refine ⟨k, p, hp, ?_⟩
  rw [← fold_area]
  simp only [action] at hp
  split at hp
  · rename_i e' q he hq
    cases hp
    simp only [List.map_cons, cumulate, Option.some.injEq] at hq
    subst hq
    have key : ∀ (l : List BoolPath) (a : BoolPath), fill (l.foldl (fun acc q => ⟨comb acc q, true⟩) a).inner (l.foldl (fun acc q => (⟨comb acc q, true⟩ : BoolPath)) a).evenodd =
        (l.map fun x => fill x.inner x.evenodd).foldl (fun a b => op.area a b) (fill a.inner a.evenodd) := by
      intro l
      induction l with
      | nil => intro a; rfl
      | cons x l ih => intro a; rw [List.foldl_cons, ih, List.map_cons, List.foldl_cons, hc]
    have hev : ∀ (l : List BoolPath), l ≠ [] → ∀ a : BoolPath, (l.foldl (fun acc q => (⟨comb acc q, true⟩ : BoolPath)) a).evenodd = true := by
      intro l hl
      rcases List.eq_nil_or_concat l with rfl | ⟨l', x, rfl⟩
      · exact absurd rfl hl
      · intro a; simp
    have := key (sel.map Prod.snd) e.2
    rw [hev _ (by simpa using h)] at this
    simpa [List.map_map, Function.comp_def] using this
  · cases hp

/-- **C79 (the action on one element)** When just one path is selected, nothing is combined, but it is filled by the rule even-odd from then on: what it fills
stays the same exactly if that was its rule or both rules fill the same. -/
theorem action_single_iff (comb : BoolPath → BoolPath → List Seg) (fill : List Seg → Bool → Set (Pt ℝ)) (e : ℕ × BoolPath) :
    ∃ p, action comb [e] = some (e.1, p) ∧ removed [e] = [] ∧ p.inner = e.2.inner ∧
      (fill p.inner p.evenodd = fill e.2.inner e.2.evenodd ↔ e.2.evenodd = true ∨ fill e.2.inner true = fill e.2.inner false) := by
  refine ⟨⟨e.2.inner, true⟩, rfl, rfl, rfl, ?_⟩
  cases h : e.2.evenodd <;> simp

end Verif.Overlay
