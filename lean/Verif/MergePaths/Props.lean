import Verif.MergePaths.Runs

/-!
# C50: merging paths
-/

namespace Verif.MergePaths

open Verif.Segment

variable {V : Type} {force : Bool} {intersects : List Cmd → List Cmd → Bool} {style : El V → Except String Style}

/-- **C50 (exactly what is merged).** The children are cut into runs, and each run becomes its last element, which
draws what the run draws, with its attributes. In a run each path may follow those before it (`Follows`), and between
two runs there is a reason to stop (`Stop`). An element that is not a plain path is left as it is. -/
theorem merge_runs [DecidableEq V] (kids out : List (El V)) (hp : ∀ e ∈ kids, e.Proper)
    (h : mergePaths force intersects style kids = .ok out) :
    ∃ runs, kids = runs.flatten ∧ List.Forall₂ (Joined force intersects style) runs out ∧
      Stops force intersects style runs ∧ ∀ r ∈ runs, r ≠ [] := by
  match kids with
  | [] =>
    have : out = [] := (Except.ok.inj h).symm
    subst this
    exact ⟨[], rfl, .nil, trivial, by simp⟩
  | [e] =>
    have : out = [e] := (Except.ok.inj h).symm
    subst this
    refine ⟨[[e]], rfl, .cons ?_ .nil, trivial, by simp⟩
    exact joined_flush (o := none) (inv_start (Rewritten.refl e) (hp e (by simp)))
  | e :: e' :: es =>
    obtain ⟨m, rs, h1, h2, h3, h4⟩ := loop_cut (inv_start (Rewritten.refl e) (hp e (by simp)))
      (fun x m => hp x (List.mem_cons_of_mem _ m)) h
    refine ⟨_, h1, h2, h3, ?_⟩
    intro r hr
    rcases List.mem_cons.1 hr with rfl | hr
    · simp
    · exact h4 r hr

theorem loop_error [DecidableEq V] {rest : List (El V)} : ∀ {p : El V} {o : Option (List Cmd)} {x : String},
    loop force intersects style p o rest = .error x → ∃ e ∈ rest, style e = .error x := by
  have map_error : ∀ {a : Except String (List (El V))} {f : List (El V) → List (El V)} {x : String},
      a.map f = .error x → a = .error x := by
    intro a f x h
    cases a with
    | error e => exact h
    | ok a => exact nomatch h
  induction rest with
  | nil => intro p o x h; exact nomatch h
  | cons child rest ih =>
    intro p o x h
    have next : ∀ {q : El V} {o : Option (List Cmd)}, loop force intersects style q o rest = .error x →
        ∃ e ∈ child :: rest, style e = .error x := fun h => by
      obtain ⟨e, m, he⟩ := ih h
      exact ⟨e, List.mem_cons_of_mem _ m, he⟩
    unfold loop at h
    split at h
    · exact next (map_error h)
    · split at h
      · exact next (map_error h)
      · split at h
        · next e he => exact ⟨child, List.mem_cons_self, by rw [he]; exact congrArg _ (Except.error.inj h)⟩
        · split at h
          · exact next (map_error h)
          · dsimp only at h
            split at h
            · exact next (map_error h)
            · split at h
              · exact next (map_error h)
              · split at h
                · exact next h
                · exact next (map_error h)

/-- **C50 (the job fails only if the style of a child cannot be computed).** -/
theorem fails_only [DecidableEq V] (kids : List (El V)) (x : String)
    (h : mergePaths force intersects style kids = .error x) : ∃ e ∈ kids, style e = .error x := by
  match kids with
  | [] => exact nomatch h
  | [e] => exact nomatch h
  | e :: e' :: es =>
    obtain ⟨y, m, hy⟩ := loop_error h
    exact ⟨y, List.mem_cons_of_mem _ m, hy⟩

/-! ## What is drawn -/

theorem run_perm {run : List (El V)} (hp : ∀ l e r, run = l ++ e :: r → l ≠ [] → Follows force intersects style l e) :
    ∀ {last : El V}, run.getLast? = some last → ∀ e ∈ run, (rest e.attrs).Perm (rest last.attrs) := by
  induction hn : run.length generalizing run with
  | zero =>
    intro last hl
    rw [List.length_eq_zero_iff.1 hn] at hl
    exact nomatch hl
  | succ n ih =>
    intro last hl e he
    obtain ⟨l, rfl⟩ := List.getLast?_eq_some_iff.1 hl
    rcases List.mem_append.1 he with he | he
    · have hne : l ≠ [] := by rintro rfl; exact nomatch he
      obtain ⟨b, hb, _, _, _, hperm⟩ := (hp l last [] rfl hne).before
      have := ih (run := l) (fun l' e' r h => hp l' e' (r ++ [last]) (by simp [h])) (by simpa using hn) hb e he
      exact this.trans hperm
    · rw [List.mem_singleton.1 he]

/-- The things drawn by path data, one after the other, each with the other attributes of its element. -/
def strokes (es : List (El V)) : List (List (String × V) × Sub) :=
  es.flatMap fun e => e.subs.map fun s => (rest e.attrs, s)

theorem strokes_append (a b : List (El V)) : strokes (a ++ b) = strokes a ++ strokes b := by simp [strokes]

theorem strokes_run {run : List (El V)} {a : List (String × V)} (h : ∀ e ∈ run, (rest e.attrs).Perm a) :
    List.Forall₂ (fun x y => x.1.Perm y.1 ∧ x.2 = y.2) (strokes run) ((subsAll run).map fun s => (a, s)) := by
  induction run with
  | nil => exact .nil
  | cons e run ih =>
    have h1 := h e List.mem_cons_self
    have h2 := ih fun x m => h x (List.mem_cons_of_mem _ m)
    simp only [strokes, subsAll, List.flatMap_cons, List.map_append] at h2 ⊢
    refine List.rel_append ?_ h2
    generalize e.subs = ss
    induction ss with
    | nil => exact .nil
    | cons s ss ih => exact .cons ⟨h1, rfl⟩ ih

/-- **C50 (the same subpaths are drawn in the same order, with the same attributes).** Also if merging is forced. -/
theorem merge_drawn [DecidableEq V] (kids out : List (El V)) (hp : ∀ e ∈ kids, e.Proper)
    (h : mergePaths force intersects style kids = .ok out) :
    List.Forall₂ (fun x y => x.1.Perm y.1 ∧ x.2 = y.2) (strokes kids) (strokes out) := by
  obtain ⟨runs, rfl, hj, x, y⟩ := merge_runs kids out hp h
  clear h hp x y
  induction hj with
  | nil => exact .nil
  | @cons run o runs out hj _ ih =>
    rw [List.flatten_cons, strokes_append]
    have : strokes (o :: out) = strokes [o] ++ strokes out := strokes_append [o] out
    rw [this]
    refine List.rel_append ?_ ih
    obtain ⟨e, he, _, _, _, hr, _, _⟩ := hj.last
    have := strokes_run (run_perm hj.pairs he)
    simpa [strokes, hj.draws, hr] using this

theorem run_others {run : List (El V)} {o : El V} (hj : Joined force intersects style run o) :
    run.filter (fun e => !(e.path && e.empty)) = [o].filter fun e => !(e.path && e.empty) := by
  obtain ⟨e, he, _, h2, h3, _, _, h6⟩ := hj.last
  obtain ⟨l, rfl⟩ := List.getLast?_eq_some_iff.1 he
  by_cases hl : l = []
  · subst hl
    by_cases hpl : e.Plain
    · simp [h2, h3, hpl.1, hpl.2]
    · rw [h6 hpl]; rfl
  · have f := hj.pairs l e [] rfl hl
    have plain : ∀ x ∈ l, x.Plain := by
      intro x hx
      obtain ⟨a, b, rfl⟩ := List.append_of_mem hx
      rcases b with _ | ⟨y, b⟩
      · obtain ⟨z, hz, hpz, _⟩ := f.before
        simp only [List.getLast?_append, List.getLast?_singleton, Option.some_or, Option.some.injEq] at hz
        rw [hz]; exact hpz
      · obtain ⟨z, hz, hpz, _⟩ := (hj.pairs (a ++ [x]) y (b ++ [e]) (by simp) (by simp)).before
        simp only [List.getLast?_append, List.getLast?_singleton, Option.some_or, Option.some.injEq] at hz
        rw [hz]; exact hpz
    have h1 : l.filter (fun e => !(e.path && e.empty)) = [] := by
      rw [List.filter_eq_nil_iff]
      intro x hx
      simp [(plain x hx).1, (plain x hx).2]
    rw [List.filter_append, h1]
    simp [h2, h3, f.plain.1, f.plain.2]

/-- **C50 (what is not a path, or has content, is left alone).** -/
theorem others_kept [DecidableEq V] (kids out : List (El V)) (hp : ∀ e ∈ kids, e.Proper)
    (h : mergePaths force intersects style kids = .ok out) :
    out.filter (fun e => !(e.path && e.empty)) = kids.filter fun e => !(e.path && e.empty) := by
  obtain ⟨runs, rfl, hj, x, y⟩ := merge_runs kids out hp h
  clear h hp x y
  induction hj with
  | nil => rfl
  | @cons run o runs out hj _ ih =>
    rw [List.flatten_cons, List.filter_append, ← ih, run_others hj]
    rw [← List.filter_append]; rfl

/-- **C50 (an element that can be referred to stays).** A child with an `id` is still there, with all its other
attributes. -/
theorem ids_kept [DecidableEq V] (kids out : List (El V)) (hp : ∀ e ∈ kids, e.Proper)
    (h : mergePaths force intersects style kids = .ok out) (e : El V) (he : e ∈ kids) (v : V)
    (hv : .other "id" v ∈ e.attrs) :
    ∃ o ∈ out, o.node = e.node ∧ o.path = e.path ∧ o.empty = e.empty ∧ rest o.attrs = rest e.attrs := by
  obtain ⟨runs, rfl, hj, x, y⟩ := merge_runs kids out hp h
  clear h hp x y
  induction hj with
  | nil => exact nomatch he
  | @cons run o runs out hj _ ih =>
    rcases List.mem_append.1 (List.flatten_cons ▸ he) with m | m
    · obtain ⟨x, hx, h1, h2, h3, h4, _, _⟩ := hj.last
      obtain ⟨a, b, rfl⟩ := List.append_of_mem m
      rcases b with _ | ⟨y, b⟩
      · obtain rfl : e = x := by simpa using hx
        exact ⟨o, List.mem_cons_self, h1, h2, h3, h4⟩
      · obtain ⟨z, hz, _, hno, _⟩ := (hj.pairs (a ++ [e]) y b (by simp) (by simp)).before
        obtain rfl : e = z := by simpa using hz
        exact absurd hv (hno v)
    · obtain ⟨o, ho, r⟩ := ih m
      exact ⟨o, List.mem_cons_of_mem _ ho, r⟩

/-! ## The picture -/

/-- A step of painting: a path with its attributes, or anything else. -/
inductive Thing (V : Type) where
  | whole (e : El V)
  | paint (attrs : List (String × V)) (subs : List Sub)

def thing (e : El V) : Thing V :=
  if e.path && e.empty then .paint (rest e.attrs) e.subs else .whole e

/-- Lists of painting steps that give the same picture, if shapes that are apart may be painted at once: neighbours with
the same attributes may be joined then, and the order of attributes does not matter. -/
inductive SamePicture (apart : List Sub → List Sub → Prop) : List (Thing V) → List (Thing V) → Prop
  | refl (a) : SamePicture apart a a
  | trans {a b c} : SamePicture apart a b → SamePicture apart b c → SamePicture apart a c
  | join (l r a) {s t} : apart s t →
      SamePicture apart (l ++ .paint a s :: .paint a t :: r) (l ++ .paint a (s ++ t) :: r)
  | perm (l r s) {a b} : a.Perm b → SamePicture apart (l ++ .paint a s :: r) (l ++ .paint b s :: r)

variable {apart : List Sub → List Sub → Prop}

theorem SamePicture.context {a b : List (Thing V)} (h : SamePicture apart a b) (x y : List (Thing V)) :
    SamePicture apart (x ++ a ++ y) (x ++ b ++ y) := by
  induction h with
  | refl => exact .refl _
  | trans _ _ ih1 ih2 => exact ih1.trans ih2
  | join l r a h =>
    have := SamePicture.join (V := V) (x ++ l) (r ++ y) a h
    simpa [List.append_assoc] using this
  | perm l r s h =>
    have := SamePicture.perm (V := V) (apart := apart) (x ++ l) (r ++ y) s h
    simpa [List.append_assoc] using this

theorem SamePicture.append {a b c d : List (Thing V)} (h : SamePicture apart a b) (k : SamePicture apart c d) :
    SamePicture apart (a ++ c) (b ++ d) := by
  have h1 := h.context [] c
  have h2 := k.context b []
  simp only [List.nil_append, List.append_nil] at h1 h2
  exact h1.trans h2

theorem run_picture (sound : ∀ c d, intersects c d = false → apart (drawn c) (drawn d)) {run : List (El V)}
    (hp : ∀ l e r, run = l ++ e :: r → l ≠ [] → Follows false intersects style l e) :
    ∀ {last : El V}, run.getLast? = some last → (run.length = 1 ∨ last.Plain) → last.Plain →
      SamePicture apart (run.map thing) [.paint (rest last.attrs) (subsAll run)] := by
  induction hn : run.length generalizing run with
  | zero =>
    intro last hl
    rw [List.length_eq_zero_iff.1 hn] at hl
    exact nomatch hl
  | succ n ih =>
    intro last hl _ hpl
    obtain ⟨l, rfl⟩ := List.getLast?_eq_some_iff.1 hl
    have hlast : thing last = .paint (rest last.attrs) last.subs := by simp [thing, hpl.1, hpl.2]
    by_cases hne : l = []
    · subst hne
      simp only [List.nil_append, List.map_cons, List.map_nil, hlast, subsAll, List.flatMap_cons, List.flatMap_nil,
        List.append_nil]
      exact .refl _
    · have f := hp l last [] rfl hne
      obtain ⟨b, hb, hbp, _, _, hperm⟩ := f.before
      have h1 := ih (run := l) (fun l' e' r h => hp l' e' (r ++ [last]) (by simp [h])) (by simpa using hn) hb
        (.inr hbp) hbp
      rw [List.map_append, List.map_cons, List.map_nil, hlast, subsAll_append]
      refine (h1.append (.refl _)).trans ?_
      have h2 : SamePicture apart [.paint (rest b.attrs) (subsAll l), .paint (rest last.attrs) last.subs]
          [.paint (rest last.attrs) (subsAll l), .paint (rest last.attrs) last.subs] :=
        SamePicture.perm [] [.paint (rest last.attrs) last.subs] _ hperm
      refine h2.trans ?_
      have hs : subsAll [last] = last.subs := by simp [subsAll]
      rw [hs]
      refine SamePicture.join [] [] _ ?_
      rcases f.apart with h | ⟨c, d, hc, hd, hi⟩
      · exact nomatch h
      · rw [← hc, ← hd]; exact sound c d hi

/-- **C50 (the same picture, unless forced).** If the test for intersections finds all pairs of shapes that may not be
painted at once, the picture is the same. -/
theorem merge_picture_partial [DecidableEq V] (sound : ∀ c d, intersects c d = false → apart (drawn c) (drawn d))
    (kids out : List (El V)) (hp : ∀ e ∈ kids, e.Proper) (h : mergePaths false intersects style kids = .ok out) :
    SamePicture apart (kids.map thing) (out.map thing) := by
  obtain ⟨runs, rfl, hj, x, y⟩ := merge_runs kids out hp h
  clear h hp x y
  induction hj with
  | nil => exact .refl _
  | @cons run o runs out hj _ ih =>
    rw [List.flatten_cons, List.map_append, List.map_cons]
    refine SamePicture.append (b := [thing o]) ?_ ih
    obtain ⟨e, he, _, h2, h3, h4, _, h6⟩ := hj.last
    by_cases hpl : e.Plain
    · have := run_picture sound hj.pairs he (.inr hpl) hpl
      have ho : thing o = .paint (rest e.attrs) (subsAll run) := by
        simp [thing, h2, h3, hpl.1, hpl.2, h4, hj.draws]
      rw [ho]; exact this
    · obtain ⟨l, rfl⟩ := List.getLast?_eq_some_iff.1 he
      by_cases hl : l = []
      · subst hl; rw [h6 hpl]; exact .refl _
      · exact absurd (hj.pairs l e [] rfl hl).plain hpl

/-- **C50 (a run ends only where it has to).** If the test for intersections depends on what is drawn only, the reason
to stop is that the path may not follow. -/
theorem stop_needed (hr : ∀ c c' d d', drawn c = drawn c' → drawn d = drawn d' → intersects c d = intersects c' d')
    (l : List (El V)) (e : El V) (h : Stop force intersects style l e) : ¬ Follows force intersects style l e := by
  intro f
  obtain ⟨b, hb, h⟩ := h
  obtain ⟨b', hb', h1, h2, h3, h4⟩ := f.before
  obtain rfl : b = b' := by rw [hb] at hb'; exact Option.some.inj hb'
  rcases h with h | h | h | h | h | h | ⟨s, hs, h⟩ | ⟨hf, c, d, hc, hd, hi⟩
  · exact h h1
  · exact h h2
  · rw [h] at h3; exact nomatch h3
  · exact h h4
  · exact h f.plain
  · have := f.hasData; rw [h] at this; exact nomatch this
  · obtain ⟨s', hs', hfree⟩ := f.free
    rw [hs] at hs'
    exact h (Except.ok.inj hs' ▸ hfree)
  · rcases f.apart with h | ⟨c', d', hc', hd', hi'⟩
    · rw [hf] at h; exact nomatch h
    · rw [hr c c' d d' (hc.trans hc'.symm) (hd.trans hd'.symm), hi'] at hi
      exact nomatch hi

end Verif.MergePaths
