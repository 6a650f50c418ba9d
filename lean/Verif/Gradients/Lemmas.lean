import Verif.Gradients.Spec

/-! # C75: lemmas -/

namespace Verif.Gradients

open Verif.Names (Str)

variable {C V S : Type}

theorem forest {P : List (Node C V) → Prop} (nil : P []) (leaf : ∀ v s ns, P ns → P (.leaf v s :: ns))
    (elem : ∀ h k e ks ns, P ks → P ns → P (.elem h k e ks :: ns)) : ∀ l, P l
  | [] => nil
  | .leaf v s :: ns => leaf v s ns (forest nil leaf elem ns)
  | .elem h k e ks :: ns => elem h k e ks ns (forest nil leaf elem ks) (forest nil leaf elem ns)

/-- All paints changed. -/
def paint (f : Paint C V → Paint C V) : List (Node C V) → List (Node C V)
  | [] => []
  | .leaf v s :: ns => .leaf v s :: paint f ns
  | .elem h k e ks :: ns => .elem h k { e with paints := e.paints.map f } (paint f ks) :: paint f ns

/-- One node painted. -/
def paint1 (f : Paint C V → Paint C V) : Node C V → Node C V
  | .leaf v s => .leaf v s
  | .elem h k e ks => .elem h k { e with paints := e.paints.map f } (paint f ks)

theorem paint_map (f : Paint C V → Paint C V) : ∀ l : List (Node C V), paint f l = l.map (paint1 f)
  | [] => by simp [paint]
  | .leaf v s :: ns => by simp [paint, paint1, paint_map f ns]
  | .elem h k e ks :: ns => by simp [paint, paint1, paint_map f ns]

theorem update_paint (i : Str) (c : C) (l : List (Node C V)) : update i c l = paint (repaint i c) l := by
  induction l using forest with
  | nil => simp [update, paint]
  | leaf v s ns ih => simp [update, paint, ih]
  | elem h k e ks ns ih1 ih2 => simp [update, paint, ih1, ih2]

theorem paint_paint (f g : Paint C V → Paint C V) (l : List (Node C V)) : paint f (paint g l) = paint (fun p => f (g p)) l := by
  induction l using forest with
  | nil => simp [paint]
  | leaf v s ns ih => simp [paint, ih]
  | elem h k e ks ns ih1 ih2 => simp [paint, ih1, ih2]

theorem paint_id (l : List (Node C V)) : paint (fun p => p) l = l := by
  induction l using forest with
  | nil => simp [paint]
  | leaf v s ns ih => simp [paint, ih]
  | elem h k e ks ns ih1 ih2 => simp [paint, ih1, ih2]

theorem elems_paint (f : Paint C V → Paint C V) (l : List (Node C V)) : elems (paint f l) = (elems l).map (paint1 f) := by
  induction l using forest with
  | nil => simp [paint, elems]
  | leaf v s ns ih => simp [paint, elems, ih]
  | elem h k e ks ns ih1 ih2 => simp [paint, paint1, elems, ih1, ih2]

theorem kids_paint1 (f : Paint C V → Paint C V) (n : Node C V) : kids (paint1 f n) = (kids n).map (paint1 f) := by
  cases n <;> simp [kids, paint1, paint_map]

theorem isElem_paint1 (f : Paint C V → Paint C V) (n : Node C V) : isElem (paint1 f n) = isElem n := by cases n <;> rfl

theorem isStop_paint1 (f : Paint C V → Paint C V) (n : Node C V) : isStop (paint1 f n) = isStop n := by
  cases n with
  | leaf => rfl
  | elem h k e ks => cases k <;> rfl

theorem idOf_paint1 (f : Paint C V → Paint C V) (n : Node C V) : idOf (paint1 f n) = idOf n := by cases n <;> rfl

theorem colorOf_paint1 (f : Paint C V → Paint C V) (n : Node C V) : colorOf (paint1 f n) = colorOf n := by cases n <;> rfl

theorem atDepth_paint (f : Paint C V → Paint C V) (n : Nat) (l : List (Node C V)) : atDepth n (paint f l) = (atDepth n l).map (paint1 f) := by
  induction n generalizing l with
  | zero =>
    rw [paint_map]
    simp only [atDepth, List.filter_map]
    congr 1
    apply List.filter_congr
    intro x _
    exact isElem_paint1 f x
  | succ n ih =>
    simp only [atDepth]
    rw [← ih, paint_map, paint_map, List.flatMap_map, List.map_flatMap]
    congr 2
    funext x
    exact kids_paint1 f x

theorem breadthFirst_paint (f : Paint C V → Paint C V) (l : List (Node C V)) : breadthFirst (paint f l) = (breadthFirst l).map (paint1 f) := by
  unfold breadthFirst
  rw [elems_paint, List.length_map, List.map_flatMap]
  congr 1
  funext n
  exact atDepth_paint f n l

/-- What becomes of a gradient: it stays, it goes, or it goes and is replaced. -/
inductive Fate (C : Type) where
  | stays
  | goes
  | turns (c : Option C)
  deriving DecidableEq

/-- What becomes of a gradient. -/
def fate (doc : List (Node C V)) (e : Elem C V) (ks : List (Node C V)) : Fate C :=
  match effective doc e ks with
  | none => .goes
  | some ks' =>
    match ks'.filter isStop with
    | [stop] => .turns (colorOf stop)
    | _ => .stays

theorem filter_paint (f : Paint C V → Paint C V) (l : List (Node C V)) : (l.map (paint1 f)).filter isStop = (l.filter isStop).map (paint1 f) := by
  rw [List.filter_map]
  congr 1
  apply List.filter_congr
  intro x _
  exact isStop_paint1 f x

theorem fate_paint (f : Paint C V → Paint C V) (doc : List (Node C V)) (e : Elem C V) (ks : List (Node C V)) : fate (paint f doc) e ks = fate doc e ks := by
  unfold fate effective
  cases hs : ks.filter isStop with
  | cons a b => rfl
  | nil =>
    simp only
    cases e.xlink.or e.href with
    | none => rfl
    | some u =>
      rcases u with _ | ⟨x, i⟩
      · rfl
      · by_cases hx : x = 35
        · subst hx
          simp only [breadthFirst_paint, List.find?_map]
          have : ((fun n => decide (idOf n = some i)) ∘ paint1 f : Node C V → Bool) = fun n => decide (idOf n = some i) := by
            funext n
            simp [idOf_paint1]
          rw [this]
          cases (breadthFirst doc).find? fun n => decide (idOf n = some i) with
          | none => rfl
          | some n =>
            simp only [Option.map_some, kids_paint1, filter_paint]
            cases (kids n).filter isStop with
            | nil => rfl
            | cons a l =>
              cases l with
              | nil => simp [colorOf_paint1]
              | cons b l => rfl
        · split
          · next h => simp_all
          · next h => split at h <;> simp_all

/-! ## The walk, without nested `svg` elements -/

/-- The elements in the order of the walk, with the number of the parent if that is `defs`. -/
def events (parent : Option Nat) : List (Node C V) → List (Option Nat × Node C V)
  | [] => []
  | .leaf _ _ :: ns => events parent ns
  | .elem h k e ks :: ns => (parent, .elem h k e ks) :: (events (if k = .defs then some h else none) ks ++ events parent ns)

/-- The first part of a visit. -/
def step (s : State C V) : Option Nat × Node C V → State C V
  | (_, .leaf _ _) => s
  | (p, .elem h k e ks) => enter p h k e ks s

theorem events_elems (l : List (Node C V)) : ∀ parent, (events parent l).map Prod.snd = elems l := by
  induction l using forest with
  | nil => intro _; simp [events, elems]
  | leaf v s ns ih => intro p; simp [events, elems, ih p]
  | elem h k e ks ns ih1 ih2 => intro p; simp [events, elems, ih1, ih2]

/-- The kind of a node. -/
def IsSvg : Node C V → Prop
  | .elem _ .svg _ _ => True
  | _ => False

theorem walk_events (ord : List Nat → List Nat) (l : List (Node C V)) : (∀ n ∈ elems l, ¬ IsSvg n) →
    ∀ parent s, walk ord parent l s = some ((events parent l).foldl step s) := by
  induction l using forest with
  | nil => intro _ _ _; simp [walk, events]
  | leaf v s ns ih =>
    intro h p s
    rw [elems] at h
    simp [walk, events, ih h]
  | elem h k e ks ns ih1 ih2 =>
    intro hn p s
    rw [elems] at hn
    have hk : k ≠ .svg := by
      rintro rfl
      exact hn _ List.mem_cons_self (by simp [IsSvg])
    have h1 : ∀ n ∈ elems ks, ¬ IsSvg n := fun n hm => hn n (.tail _ (List.mem_append_left _ hm))
    have h2 : ∀ n ∈ elems ns, ¬ IsSvg n := fun n hm => hn n (.tail _ (List.mem_append_right _ hm))
    simp only [walk, ih1 h1, ih2 h2, if_neg hk, events, List.foldl_cons, List.foldl_append, step]
    rfl

/-- The gradients that go, by number. -/
def gone (doc : List (Node C V)) : List (Node C V) → List Nat
  | [] => []
  | .elem h .gradient e ks :: ns =>
    match fate doc e ks with
    | .stays => gone doc ns
    | _ => h :: gone doc ns
  | _ :: ns => gone doc ns

/-- The changes of paints. -/
def changes (doc : List (Node C V)) : List (Node C V) → List (Str × C)
  | [] => []
  | .elem _ .gradient e ks :: ns =>
    match e.id, fate doc e ks with
    | some i, .turns (some c) => (i, c) :: changes doc ns
    | _, _ => changes doc ns
  | _ :: ns => changes doc ns

/-- Changes of paints, one after the other. -/
def applied (l : List (Str × C)) (p : Paint C V) : Paint C V := l.foldl (fun p x => repaint x.1 x.2 p) p

end Verif.Gradients
