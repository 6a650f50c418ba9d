import Verif.BySelector.Model

/-! # What removing attributes leaves as it is -/

namespace Verif.BySelector

open Verif.Select

mutual
/-- A tree without the listed attributes. -/
def clean (rm : List Str) : Node → Node
  | .elem n as ks => .elem n (as.filter (keeps rm)) (cleanAll rm ks)
  | .text t => .text t
  | .other => .other
def cleanAll (rm : List Str) : List Node → List Node
  | [] => []
  | x :: xs => clean rm x :: cleanAll rm xs
end

theorem cleanAll_map (rm : List Str) (ks : List Node) : cleanAll rm ks = ks.map (clean rm) := by
  induction ks with
  | nil => rfl
  | cons k ks ih => simp [cleanAll, ih]

/-- An element, with its siblings, without the listed attributes. -/
def cleanFrame (rm : List Str) (f : Frame) : Frame :=
  ⟨f.before.map (clean rm), f.name, f.attrs.filter (keeps rm), f.kids.map (clean rm), f.after.map (clean rm)⟩

/-- An element, with all around it, without the listed attributes. -/
def cleanLoc (rm : List Str) (l : Loc) : Loc := ⟨cleanFrame rm l.here, l.up.map (cleanFrame rm)⟩

theorem clean_node (rm : List Str) (f : Frame) : clean rm f.node = (cleanFrame rm f).node := by
  simp [Frame.node, clean, cleanFrame, cleanAll_map]

theorem parent_clean (rm : List Str) (l : Loc) : (cleanLoc rm l).parent = l.parent.map (cleanLoc rm) := by
  cases l with
  | mk h u => cases u <;> simp [cleanLoc, Loc.parent]

theorem ancestors_clean (rm : List Str) (l : Loc) : (cleanLoc rm l).ancestors = l.ancestors.map (cleanLoc rm) := by
  cases l with
  | mk h u =>
    simp only [Loc.ancestors, cleanLoc]
    induction u with
    | nil => rfl
    | cons f fs ih => simp [ancestorsOf, ih, cleanLoc]

theorem goLeft_clean (rm : List Str) (up : List Frame) (b af : List Node) :
    goLeft (up.map (cleanFrame rm)) (b.map (clean rm)) (af.map (clean rm)) = (goLeft up b af).map (cleanLoc rm) := by
  induction b generalizing af with
  | nil => simp [goLeft]
  | cons x b ih =>
    cases x with
    | elem n as ks =>
      have := ih (.elem n as ks :: af)
      simp only [List.map_cons, clean] at this
      simp only [List.map_cons, clean, goLeft, this]
      simp [cleanLoc, cleanFrame, cleanAll_map]
    | text t => have := ih (.text t :: af); simp only [List.map_cons, clean] at this; simp [clean, goLeft, this]
    | other => have := ih (.other :: af); simp only [List.map_cons, clean] at this; simp [clean, goLeft, this]

theorem goRight_clean (rm : List Str) (up : List Frame) (b af : List Node) :
    goRight (up.map (cleanFrame rm)) (b.map (clean rm)) (af.map (clean rm)) = (goRight up b af).map (cleanLoc rm) := by
  induction af generalizing b with
  | nil => simp [goRight]
  | cons x af ih =>
    cases x with
    | elem n as ks =>
      have := ih (.elem n as ks :: b)
      simp only [List.map_cons, clean] at this
      simp only [List.map_cons, clean, goRight, this]
      simp [cleanLoc, cleanFrame, cleanAll_map]
    | text t => have := ih (.text t :: b); simp only [List.map_cons, clean] at this; simp [clean, goRight, this]
    | other => have := ih (.other :: b); simp only [List.map_cons, clean] at this; simp [clean, goRight, this]

theorem lefts_clean (rm : List Str) (l : Loc) : (cleanLoc rm l).lefts = l.lefts.map (cleanLoc rm) := by
  have := goLeft_clean rm l.up l.here.before (l.here.node :: l.here.after)
  simp only [List.map_cons, clean_node] at this
  simp only [Loc.lefts, cleanLoc, List.isEmpty_map]
  split
  · rfl
  · exact this

theorem rights_clean (rm : List Str) (l : Loc) : (cleanLoc rm l).rights = l.rights.map (cleanLoc rm) := by
  have := goRight_clean rm l.up (l.here.node :: l.here.before) l.here.after
  simp only [List.map_cons, clean_node] at this
  simp only [Loc.rights, cleanLoc, List.isEmpty_map]
  split
  · rfl
  · exact this

theorem getLocal_clean {rm : List Str} {n : Str} (h : n ∉ rm) (as : List Attr) : getLocal (as.filter (keeps rm)) n = getLocal as n := by
  simp only [getLocal, List.find?_filter]
  congr 1
  funext a
  by_cases hp : a.pre = none
  · by_cases hl : a.loc = n
    · simp [keeps, qname, hp, hl, h]
    · simp [hl]
  · cases e : a.pre with
    | none => exact absurd e hp
    | some p => simp [e]

mutual
/-- The selector asks for none of the listed attributes, and for places only if first or last. -/
def Clear (rm : List Str) : Sel → Prop
  | .one c => ClearComp rm c
  | .join s _ c => Clear rm s ∧ ClearComp rm c
def ClearComp (rm : List Str) : Comp → Prop
  | .nil => True
  | .cons s c => ClearSimple rm s ∧ ClearComp rm c
def ClearSimple (rm : List Str) : Simple → Prop
  | .any => True
  | .name _ => True
  | .id _ => lit "id" ∉ rm
  | .cls _ => lit "class" ∉ rm
  | .attr _ n _ _ => lower n ∉ rm
  | .root => True
  | .empty => True
  | .link => lit "href" ∉ rm
  | .scope => False
  | .nth t _ a b => t = false ∧ a = 0 ∧ b = 1
  | .neg ss => ClearSels rm ss
  | .isAny ss => ClearSels rm ss
def ClearSels (rm : List Str) : Sels → Prop
  | .nil => True
  | .cons s ss => Clear rm s ∧ ClearSels rm ss
end

mutual
/-- The selector may ask for the listed attributes of the element itself, but not of its ancestors and siblings. -/
def Steady (rm : List Str) : Sel → Prop
  | .one c => SteadyComp rm c
  | .join s _ c => Clear rm s ∧ SteadyComp rm c
def SteadyComp (rm : List Str) : Comp → Prop
  | .nil => True
  | .cons s c => SteadySimple rm s ∧ SteadyComp rm c
def SteadySimple (rm : List Str) : Simple → Prop
  | .scope => False
  | .nth t _ a b => t = false ∧ a = 0 ∧ b = 1
  | .neg ss => SteadySels rm ss
  | .isAny ss => SteadySels rm ss
  | _ => True
def SteadySels (rm : List Str) : Sels → Prop
  | .nil => True
  | .cons s ss => Steady rm s ∧ SteadySels rm ss
end

theorem any_map {f g : Loc → Run} {h : Loc → Loc} (e : ∀ l, f (h l) = g l) (ls : List Loc) : Run.any f (ls.map h) = Run.any g ls := by
  induction ls with
  | nil => rfl
  | cons l ls ih => simp [Run.any, e, ih]

theorem isEmpty_clean (rm : List Str) (ks : List Node) : ((ks.map (clean rm)).all fun | .text t => t.all CleanAttrs.white | _ => false) =
    ks.all fun | .text t => t.all CleanAttrs.white | _ => false := by
  induction ks with
  | nil => rfl
  | cons k ks ih => cases k <;> simp_all [clean]

theorem nth_clean (E : Env) (rm : List Str) (e : Bool) (l : Loc) : nthChild E false e 0 1 (cleanLoc rm l) = nthChild E false e 0 1 l := by
  funext c
  simp only [nthChild, and_self, if_true, lefts_clean, rights_clean]
  cases e <;> simp

mutual
theorem sel_clean (E : Env) (sc : Option Nat) (rm : List Str) : ∀ (s : Sel) (l : Loc), Clear rm s → sel E sc s (cleanLoc rm l) = sel E sc s l
  | .one c, l, h => by simp only [sel]; exact comp_clean E sc rm c l h
  | .join s .child c, l, h => by
    simp only [sel, comp_clean E sc rm c l h.2, parent_clean, Option.toList_map]
    rw [any_map fun x => sel_clean E sc rm s x h.1]
  | .join s .descendant c, l, h => by
    simp only [sel, comp_clean E sc rm c l h.2, ancestors_clean]
    rw [any_map fun x => sel_clean E sc rm s x h.1]
  | .join s .next c, l, h => by
    simp only [sel, comp_clean E sc rm c l h.2, lefts_clean, List.head?_map, Option.toList_map]
    rw [any_map fun x => sel_clean E sc rm s x h.1]
  | .join s .later c, l, h => by
    simp only [sel, comp_clean E sc rm c l h.2, lefts_clean]
    rw [any_map fun x => sel_clean E sc rm s x h.1]
theorem comp_clean (E : Env) (sc : Option Nat) (rm : List Str) : ∀ (s : Comp) (l : Loc), ClearComp rm s → comp E sc s (cleanLoc rm l) = comp E sc s l
  | .nil, _, _ => by simp only [comp]
  | .cons s c, l, h => by simp only [comp, simple_clean E sc rm s l h.1, comp_clean E sc rm c l h.2]
theorem simple_clean (E : Env) (sc : Option Nat) (rm : List Str) : ∀ (s : Simple) (l : Loc), ClearSimple rm s →
    simple E sc s (cleanLoc rm l) = simple E sc s l
  | .any, _, _ => by simp only [simple]
  | .name n, l, _ => by simp only [simple]; rfl
  | .id n, l, h => by simp only [ClearSimple] at h; simp only [simple, hasId, cleanLoc, cleanFrame, getLocal_clean h]
  | .cls n, l, h => by simp only [ClearSimple] at h; simp only [simple, hasClass, cleanLoc, cleanFrame, getLocal_clean h]
  | .attr w n o f, l, h => by
    simp only [ClearSimple] at h
    have hs : ∀ x : Loc, selectName x n = lower n := fun _ => by simp [selectName, isHtml]
    have hc : caseless E (cleanLoc rm l) n f = caseless E l n f := by cases f <;> rfl
    have hg : getLocal (cleanLoc rm l).here.attrs (lower n) = getLocal l.here.attrs (lower n) := getLocal_clean h _
    have hn : (cleanLoc rm l).here.name = l.here.name := rfl
    simp only [simple, attrMatches, hs, hc, hg, hn]
  | .root, l, _ => by simp only [simple, isRoot, cleanLoc, List.isEmpty_map]
  | .empty, l, _ => by
    simp only [simple, isEmpty, cleanLoc, cleanFrame]
    exact congrArg _ (isEmpty_clean rm l.here.kids)
  | .link, l, h => by
    simp only [ClearSimple] at h
    have hg : getLocal (cleanLoc rm l).here.attrs (lit "href") = getLocal l.here.attrs (lit "href") := getLocal_clean h _
    have hn : (cleanLoc rm l).here.name = l.here.name := rfl
    simp only [simple, isLink, hg, hn]
  | .scope, l, h => by simp [ClearSimple] at h
  | .nth t e a b, l, h => by
    obtain ⟨rfl, rfl, rfl⟩ := h
    simp only [simple, nth_clean]
  | .neg ss, l, h => by simp only [ClearSimple] at h; simp only [simple, sels_clean E sc rm ss l h]
  | .isAny ss, l, h => by simp only [ClearSimple] at h; simp only [simple, sels_clean E sc rm ss l h]
theorem sels_clean (E : Env) (sc : Option Nat) (rm : List Str) : ∀ (s : Sels) (l : Loc), ClearSels rm s → sels E sc s (cleanLoc rm l) = sels E sc s l
  | .nil, _, _ => by simp only [sels]
  | .cons s ss, l, h => by simp only [sels, sel_clean E sc rm s l h.1, sels_clean E sc rm ss l h.2]
end

/-- Two elements with the same attributes, which differ by listed attributes of other elements only. -/
def Around (rm : List Str) (l m : Loc) : Prop := cleanLoc rm l = cleanLoc rm m ∧ l.here.attrs = m.here.attrs

theorem Around.name {rm : List Str} {l m : Loc} (h : Around rm l m) : l.here.name = m.here.name := by
  have := congrArg (fun x => x.here.name) h.1
  exact this

theorem Around.up {rm : List Str} {l m : Loc} (h : Around rm l m) : l.up.isEmpty = m.up.isEmpty := by
  have := congrArg (fun x => x.up.isEmpty) h.1
  simpa [cleanLoc] using this

theorem clear_any {E : Env} {sc : Option Nat} {rm : List Str} {s : Sel} (h : Clear rm s) {ls ms : List Loc}
    (e : ls.map (cleanLoc rm) = ms.map (cleanLoc rm)) : Run.any (sel E sc s) ls = Run.any (sel E sc s) ms := by
  rw [← any_map (fun x => sel_clean E sc rm s x h) ls, ← any_map (fun x => sel_clean E sc rm s x h) ms, e]

mutual
theorem sel_steady (E : Env) (sc : Option Nat) (rm : List Str) : ∀ (s : Sel) (l m : Loc), Steady rm s → Around rm l m → sel E sc s l = sel E sc s m
  | .one c, l, m, h, a => by simp only [sel]; exact comp_steady E sc rm c l m h a
  | .join s .child c, l, m, h, a => by
    simp only [sel, comp_steady E sc rm c l m h.2 a]
    rw [clear_any h.1]
    have := congrArg Loc.parent a.1
    rw [parent_clean, parent_clean] at this
    rw [← Option.toList_map, ← Option.toList_map, this]
  | .join s .descendant c, l, m, h, a => by
    simp only [sel, comp_steady E sc rm c l m h.2 a]
    rw [clear_any h.1]
    rw [← ancestors_clean, ← ancestors_clean, a.1]
  | .join s .next c, l, m, h, a => by
    simp only [sel, comp_steady E sc rm c l m h.2 a]
    rw [clear_any h.1]
    have := congrArg Loc.lefts a.1
    rw [lefts_clean, lefts_clean] at this
    rw [← Option.toList_map, ← Option.toList_map, ← List.head?_map, ← List.head?_map, this]
  | .join s .later c, l, m, h, a => by
    simp only [sel, comp_steady E sc rm c l m h.2 a]
    rw [clear_any h.1]
    rw [← lefts_clean, ← lefts_clean, a.1]
theorem comp_steady (E : Env) (sc : Option Nat) (rm : List Str) : ∀ (s : Comp) (l m : Loc), SteadyComp rm s → Around rm l m →
    comp E sc s l = comp E sc s m
  | .nil, _, _, _, _ => by simp only [comp]
  | .cons s c, l, m, h, a => by simp only [comp, simple_steady E sc rm s l m h.1 a, comp_steady E sc rm c l m h.2 a]
theorem simple_steady (E : Env) (sc : Option Nat) (rm : List Str) : ∀ (s : Simple) (l m : Loc), SteadySimple rm s → Around rm l m →
    simple E sc s l = simple E sc s m
  | .any, _, _, _, _ => by simp only [simple]
  | .name n, l, m, _, a => by simp only [simple, hasLocalName, selectName, isHtml, a.name]
  | .id n, l, m, h, a => by simp only [simple, hasId, a.2]
  | .cls n, l, m, h, a => by simp only [simple, hasClass, a.2]
  | .attr w n o f, l, m, h, a => by
    have hc : caseless E l n f = caseless E m n f := by cases f <;> rfl
    simp only [simple, attrMatches, selectName, isHtml, hc, a.2, a.name]
  | .root, l, m, _, a => by simp only [simple, isRoot, a.up]
  | .empty, l, m, _, a => by
    simp only [simple, isEmpty]
    have := congrArg (fun x => x.here.kids) a.1
    simp only [cleanLoc, cleanFrame] at this
    have hl := isEmpty_clean rm l.here.kids
    rw [this] at hl
    exact congrArg _ (hl.symm.trans (isEmpty_clean rm m.here.kids))
  | .link, l, m, h, a => by simp only [simple, isLink, a.2, a.name]
  | .scope, l, m, h, _ => by simp [SteadySimple] at h
  | .nth t e x y, l, m, h, a => by
    obtain ⟨rfl, rfl, rfl⟩ := h
    simp only [simple]
    rw [← nth_clean E rm e l, ← nth_clean E rm e m, a.1]
  | .neg ss, l, m, h, a => by simp only [SteadySimple] at h; simp only [simple, sels_steady E sc rm ss l m h a]
  | .isAny ss, l, m, h, a => by simp only [SteadySimple] at h; simp only [simple, sels_steady E sc rm ss l m h a]
theorem sels_steady (E : Env) (sc : Option Nat) (rm : List Str) : ∀ (s : Sels) (l m : Loc), SteadySels rm s → Around rm l m →
    sels E sc s l = sels E sc s m
  | .nil, _, _, _, _ => by simp only [sels]
  | .cons s ss, l, m, h, a => by simp only [sels, sel_steady E sc rm s l m h.1 a, sels_steady E sc rm ss l m h.2 a]
end

/-! ## Nothing is kept between elements -/

def Quiet (r : Run) : Prop := ∃ b, r = .ret b

theorem Quiet.neg {r : Run} : Quiet r → Quiet r.neg := by rintro ⟨b, rfl⟩; exact ⟨!b, rfl⟩
theorem Quiet.and {r s : Run} : Quiet r → Quiet s → Quiet (r.and s) := by
  rintro ⟨b, rfl⟩ ⟨d, rfl⟩; exact ⟨b && d, by funext c; cases b <;> rfl⟩
theorem Quiet.or {r s : Run} : Quiet r → Quiet s → Quiet (r.or s) := by
  rintro ⟨b, rfl⟩ ⟨d, rfl⟩; exact ⟨b || d, by funext c; cases b <;> rfl⟩
theorem Quiet.any {f : Loc → Run} (h : ∀ l, Quiet (f l)) (ls : List Loc) : Quiet (Run.any f ls) := by
  induction ls with
  | nil => exact ⟨false, rfl⟩
  | cons l ls ih => exact (h l).or ih
theorem Quiet.nth (E : Env) (e : Bool) (l : Loc) : Quiet (nthChild E false e 0 1 l) :=
  ⟨(if e then l.rights else l.lefts).isEmpty, by funext c; simp [nthChild, Run.ret]⟩

mutual
theorem clear_quiet (E : Env) (sc : Option Nat) (rm : List Str) : ∀ (s : Sel) (l : Loc), Clear rm s → Quiet (sel E sc s l)
  | .one c, l, h => by simp only [sel]; exact clearComp_quiet E sc rm c l h
  | .join s .child c, l, h => by
    simp only [sel]; exact (clearComp_quiet E sc rm c l h.2).and (.any (fun x => clear_quiet E sc rm s x h.1) _)
  | .join s .descendant c, l, h => by
    simp only [sel]; exact (clearComp_quiet E sc rm c l h.2).and (.any (fun x => clear_quiet E sc rm s x h.1) _)
  | .join s .next c, l, h => by
    simp only [sel]; exact (clearComp_quiet E sc rm c l h.2).and (.any (fun x => clear_quiet E sc rm s x h.1) _)
  | .join s .later c, l, h => by
    simp only [sel]; exact (clearComp_quiet E sc rm c l h.2).and (.any (fun x => clear_quiet E sc rm s x h.1) _)
theorem clearComp_quiet (E : Env) (sc : Option Nat) (rm : List Str) : ∀ (s : Comp) (l : Loc), ClearComp rm s → Quiet (comp E sc s l)
  | .nil, _, _ => by simp only [comp]; exact ⟨_, rfl⟩
  | .cons s c, l, h => by simp only [comp]; exact (clearSimple_quiet E sc rm s l h.1).and (clearComp_quiet E sc rm c l h.2)
theorem clearSimple_quiet (E : Env) (sc : Option Nat) (rm : List Str) : ∀ (s : Simple) (l : Loc), ClearSimple rm s → Quiet (simple E sc s l)
  | .any, _, _ => by simp only [simple]; exact ⟨_, rfl⟩
  | .name n, l, _ => by simp only [simple]; exact ⟨_, rfl⟩
  | .id n, l, _ => by simp only [simple]; exact ⟨_, rfl⟩
  | .cls n, l, _ => by simp only [simple]; exact ⟨_, rfl⟩
  | .attr w n o f, l, _ => by simp only [simple]; exact ⟨_, rfl⟩
  | .root, l, _ => by simp only [simple]; exact ⟨_, rfl⟩
  | .empty, l, _ => by simp only [simple]; exact ⟨_, rfl⟩
  | .link, l, _ => by simp only [simple]; exact ⟨_, rfl⟩
  | .scope, l, h => by simp [ClearSimple] at h
  | .nth t e a b, l, h => by obtain ⟨rfl, rfl, rfl⟩ := h; simp only [simple]; exact .nth E e l
  | .neg ss, l, h => by simp only [simple]; exact (clearSels_quiet E sc rm ss l h).neg
  | .isAny ss, l, h => by simp only [simple]; exact clearSels_quiet E sc rm ss l h
theorem clearSels_quiet (E : Env) (sc : Option Nat) (rm : List Str) : ∀ (s : Sels) (l : Loc), ClearSels rm s → Quiet (sels E sc s l)
  | .nil, _, _ => by simp only [sels]; exact ⟨_, rfl⟩
  | .cons s ss, l, h => by simp only [sels]; exact (clear_quiet E sc rm s l h.1).or (clearSels_quiet E sc rm ss l h.2)
end

mutual
theorem sel_quiet (E : Env) (sc : Option Nat) (rm : List Str) : ∀ (s : Sel) (l : Loc), Steady rm s → Quiet (sel E sc s l)
  | .one c, l, h => by simp only [sel]; exact comp_quiet E sc rm c l h
  | .join s .child c, l, h => by
    simp only [sel]; exact (comp_quiet E sc rm c l h.2).and (.any (fun x => clear_quiet E sc rm s x h.1) _)
  | .join s .descendant c, l, h => by
    simp only [sel]; exact (comp_quiet E sc rm c l h.2).and (.any (fun x => clear_quiet E sc rm s x h.1) _)
  | .join s .next c, l, h => by
    simp only [sel]; exact (comp_quiet E sc rm c l h.2).and (.any (fun x => clear_quiet E sc rm s x h.1) _)
  | .join s .later c, l, h => by
    simp only [sel]; exact (comp_quiet E sc rm c l h.2).and (.any (fun x => clear_quiet E sc rm s x h.1) _)
theorem comp_quiet (E : Env) (sc : Option Nat) (rm : List Str) : ∀ (s : Comp) (l : Loc), SteadyComp rm s → Quiet (comp E sc s l)
  | .nil, _, _ => by simp only [comp]; exact ⟨_, rfl⟩
  | .cons s c, l, h => by simp only [comp]; exact (simple_quiet E sc rm s l h.1).and (comp_quiet E sc rm c l h.2)
theorem simple_quiet (E : Env) (sc : Option Nat) (rm : List Str) : ∀ (s : Simple) (l : Loc), SteadySimple rm s → Quiet (simple E sc s l)
  | .any, _, _ => by simp only [simple]; exact ⟨_, rfl⟩
  | .name n, l, _ => by simp only [simple]; exact ⟨_, rfl⟩
  | .id n, l, _ => by simp only [simple]; exact ⟨_, rfl⟩
  | .cls n, l, _ => by simp only [simple]; exact ⟨_, rfl⟩
  | .attr w n o f, l, _ => by simp only [simple]; exact ⟨_, rfl⟩
  | .root, l, _ => by simp only [simple]; exact ⟨_, rfl⟩
  | .empty, l, _ => by simp only [simple]; exact ⟨_, rfl⟩
  | .link, l, _ => by simp only [simple]; exact ⟨_, rfl⟩
  | .scope, l, h => by simp [SteadySimple] at h
  | .nth t e a b, l, h => by obtain ⟨rfl, rfl, rfl⟩ := h; simp only [simple]; exact .nth E e l
  | .neg ss, l, h => by simp only [simple]; exact (sels_quiet E sc rm ss l h).neg
  | .isAny ss, l, h => by simp only [simple]; exact sels_quiet E sc rm ss l h
theorem sels_quiet (E : Env) (sc : Option Nat) (rm : List Str) : ∀ (s : Sels) (l : Loc), SteadySels rm s → Quiet (sels E sc s l)
  | .nil, _, _ => by simp only [sels]; exact ⟨_, rfl⟩
  | .cons s ss, l, h => by simp only [sels]; exact (sel_quiet E sc rm s l h.1).or (sels_quiet E sc rm ss l h.2)
end

end Verif.BySelector
