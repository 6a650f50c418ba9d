import Verif.Unknowns.Lemmas
import Mathlib.Data.List.Nodup

/-!
# Lemmas: styles before and after the job
-/

namespace Verif.Unknowns

open Verif.Tree Verif.Names
open Verif.Cascade (Block Rule Level Computed Mode)

variable {Sel C : Type}

/-! ## Without shorthands -/

theorem flatMap_single (fonts : Val → List (Key × Val)) (l : List (Key × Val))
    (h : ∀ d ∈ l, d.1 ≠ .Marker ∧ d.1 ≠ .Font) : l.flatMap (expand fonts) = l := by
  induction l with
  | nil => rfl
  | cons d l ih =>
    obtain ⟨h1, h2⟩ := h d (by simp)
    have : expand fonts d = [d] := by
      unfold expand
      split
      · next e => exact absurd e h1
      · next e => exact absurd e h2
      · rfl
    rw [List.flatMap_cons, this, ih fun x hx => h x (by simp [hx])]
    rfl

theorem expandBlock_single (fonts : Val → List (Key × Val)) (b : Block Key Val) (h : Single b) : expandBlock fonts b = b := by
  unfold expandBlock
  rw [flatMap_single fonts _ h.1, flatMap_single fonts _ h.2]

mutual
theorem expandRule_single (fonts : Val → List (Key × Val)) : ∀ r : Rule Key Val Sel C, (∀ b ∈ blocksOf r, Single b) →
    expandRule fonts r = r
  | .style ss b, h => by
    rw [expandRule, expandBlock_single fonts b (h b (by simp [blocksOf]))]
  | .media c rs, h => by
    rw [expandRule, expandRules_single fonts rs (by simpa [blocksOf] using h)]
  | .other c rs, h => by
    rw [expandRule, expandRules_single fonts rs (by simpa [blocksOf] using h)]
theorem expandRules_single (fonts : Val → List (Key × Val)) : ∀ rs : List (Rule Key Val Sel C),
    (∀ b ∈ blocksOfAll rs, Single b) → expandRules fonts rs = rs
  | [], _ => rfl
  | r :: rs, h => by
    rw [expandRules, expandRule_single fonts r (fun b hb => h b (by simp [blocksOfAll, hb])),
      expandRules_single fonts rs (fun b hb => h b (by simp [blocksOfAll, hb]))]
end

theorem own_look (fonts : Val → List (Key × Val)) (e : E) (cs : List E) (h : ∀ b, .style b ∈ e.2 → Single b) :
    own fonts (e :: cs) = look (e :: cs) := by
  have hb : inlineBlock = blockOf := by
    funext a
    cases a <;> rfl
  simp only [own, look, presented_eq, hb, Level.mk.injEq, true_and]
  cases hf : e.2.findSome? blockOf with
  | none => rfl
  | some b =>
    obtain ⟨a, ha, hab⟩ := List.exists_of_findSome?_eq_some hf
    cases a with
    | plain => simp [blockOf] at hab
    | style x =>
      simp only [blockOf, Option.some.injEq] at hab
      subst hab
      simp [expandBlock_single fonts x (h x ha)]

/-! ## Selectors see the same -/

mutual
theorem applied_congr {K V N : Type} (test : List Sel → N → Option Bool) (holds : C → Bool) (n m : N)
    (h : ∀ s, test [s] n = test [s] m) : ∀ r : Rule K V Sel C, Cascade.applied test holds n r = Cascade.applied test holds m r
  | .style ss b => by simp only [Cascade.applied, h]
  | .media c rs => by simp only [Cascade.applied, appliedAll_congr test holds n m h rs]
  | .other c rs => by simp only [Cascade.applied, appliedAll_congr test holds n m h rs]
theorem appliedAll_congr {K V N : Type} (test : List Sel → N → Option Bool) (holds : C → Bool) (n m : N)
    (h : ∀ s, test [s] n = test [s] m) : ∀ rs : List (Rule K V Sel C),
    Cascade.appliedAll test holds n rs = Cascade.appliedAll test holds m rs
  | [] => rfl
  | r :: rs => by
    simp only [Cascade.appliedAll, applied_congr test holds n m h r, appliedAll_congr test holds n m h rs]
end

theorem allButLast_congr {N : Type} (test : List Sel → N → Option Bool) (n m : N) (h : ∀ s, test [s] n = test [s] m) :
    ∀ l : List Sel, Cascade.AllButLast test n l → Cascade.AllButLast test m l
  | [], _ => trivial
  | [s], hl => by simpa [Cascade.AllButLast, ← h] using hl
  | s :: t :: l, hl => ⟨(h s) ▸ hl.1, allButLast_congr test n m h (t :: l) hl.2⟩

/-! ## What is kept -/

theorem keeps_core (o : Options) (e : Option El) (b : Bool) (inh : Computed Key Val) (v : Val) (k : Key)
    (h1 : k.prefixed = false) (h2 : k.aria = false) (h3 : k ≠ .Role) (h4 : k.groups = [.Core]) (h5 : k.standard = none) :
    keeps o e b inh (.plain (.known k) v) = true := by
  have hp : permitsAttr e (.known k) = true := by
    cases e <;> simp [permitsAttr, groupsOf, h4]
  simp [keeps, h1, h2, h3, h4, h5, hp]

theorem keeps_class (o : Options) (e : Option El) (b : Bool) (inh : Computed Key Val) (v : Val) :
    keeps o e b inh (.plain (.known .Class) v) = true ∧ keeps o e b inh (.plain (.known .Id) v) = true :=
  ⟨keeps_core o e b inh v .Class rfl rfl (fun h => Key.noConfusion h) rfl rfl,
    keeps_core o e b inh v .Id rfl rfl (fun h => Key.noConfusion h) rfl rfl⟩

theorem filterMap_filter_of {A B : Type} (f : A → Option B) (p : A → Bool) (l : List A)
    (h : ∀ a ∈ l, p a = false → f a = none) : (l.filter p).filterMap f = l.filterMap f := by
  induction l with
  | nil => rfl
  | cons a l ih =>
    rw [List.filter_cons]
    cases hp : p a with
    | true =>
      simp only [if_true, List.filterMap_cons, ih fun x hx => h x (by simp [hx])]
    | false =>
      simp only [Bool.false_eq_true, if_false, List.filterMap_cons, h a (by simp) hp, ih fun x hx => h x (by simp [hx])]

theorem badge_pruned (o : Options) (n : EName) (inh : Computed Key Val) (as : List Attr) :
    badge (n, pruned o n inh as) = badge (n, as) := by
  unfold badge pruned
  simp only [Prod.mk.injEq, true_and]
  apply filterMap_filter_of
  intro a _ ha
  split
  · rw [(keeps_class o _ _ inh _).1] at ha; exact absurd ha (by simp)
  · rw [(keeps_class o _ _ inh _).2] at ha; exact absurd ha (by simp)
  · rfl

theorem Rel.badges {r : Run Sel C} {c c' : List E} (h : Rel r c c') : c.map badge = c'.map badge := by
  induction h with
  | nil => rfl
  | same e _ _ ih => simp [ih]
  | cut n as _ _ inh _ ih => simp [ih, badge_pruned]

theorem properties_plain : ∀ k ∈ inheritedProperties ++ otherProperties,
    k.prefixed = false ∧ k.aria = false ∧ k ≠ .Role := by
  decide +kernel

/-- Why a property is removed. -/
theorem removed_property (o : Options) (e : El) (b : Bool) (inh : Computed Key Val) (k : Key) (v : Val)
    (hk : Group.Presentation ∈ k.groups) (h : keeps o (some e) b inh (.plain (.known k) v) = false) :
    (inheritedValue inh k = none ∧ k.standard = some v) ∨ inheritedValue inh k = some (v, .static) := by
  obtain ⟨h1, h2, h3⟩ := properties_plain k (by rw [List.mem_append]; exact (presentation_iff k).mp hk)
  have hp : permitsAttr (some e) (.known k) = true := by simp [permitsAttr, groupsOf, hk]
  simp only [keeps, h1, h2, h3, hp, Bool.not_true, Bool.and_false, Bool.false_eq_true, if_false] at h
  split at h
  · next hd =>
    simp only [Bool.and_eq_true, Option.isNone_iff_eq_none, decide_eq_true_eq] at hd
    exact .inl ⟨hd.1.2, hd.2⟩
  · split at h
    · next ho =>
      simp only [Bool.and_eq_true] at ho
      have := ho.2
      unfold sameStatic at this
      split at this
      · next w hw =>
        rw [beq_iff_eq] at this
        subst this
        exact .inr hw
      · exact absurd this (by simp)
    · exact absurd h (by simp)

theorem look_pruned_inline (o : Options) (n : EName) (inh : Computed Key Val) (as : List Attr) (cs cs' : List E) :
    (look ((n, pruned o n inh as) :: cs')).inline = (look ((n, as) :: cs)).inline := by
  unfold look pruned
  simp only
  generalize (as.any isId) = b
  induction as with
  | nil => rfl
  | cons a as ih =>
    rw [List.filter_cons]
    cases a with
    | style x => simp [keeps, List.findSome?_cons, blockOf]
    | plain id v =>
      split
      · simp only [List.findSome?_cons, blockOf]; exact ih
      · simp only [List.findSome?_cons, blockOf]; exact ih

theorem look_pruned_sublist (o : Options) (n : EName) (inh : Computed Key Val) (as : List Attr) (cs cs' : List E) :
    (look ((n, pruned o n inh as) :: cs')).attr.Sublist (look ((n, as) :: cs)).attr :=
  List.Sublist.filterMap presented List.filter_sublist

/-! ## The circumstances stay -/

theorem Rel.fits {r : Run Sel C} (hs : ∀ ss c c', c.map badge = c'.map badge → r.test ss c = r.test ss c')
    {c c' : List E} (h : Rel r c c') (hc : c ≠ []) (hf : Cascade.Fits r.test look r.rules c) : Cascade.Fits r.test look r.rules c' := by
  have ht : ∀ s, r.test [s] c = r.test [s] c' := fun s => hs [s] c c' h.badges
  have hap : ∀ holds, Cascade.appliedAll r.test holds c' r.rules = Cascade.appliedAll r.test holds c r.rules :=
    fun holds => (appliedAll_congr r.test holds c c' ht r.rules).symm
  have hl : (look c').inline = (look c).inline ∧ (look c').attr.Sublist (look c).attr := by
    cases h with
    | nil => exact absurd rfl hc
    | same e _ _ => exact ⟨rfl, List.Sublist.refl _⟩
    | cut n as _ _ inh _ => exact ⟨look_pruned_inline .., look_pruned_sublist ..⟩
  refine ⟨fun x hx => allButLast_congr r.test c c' ht _ (hf.selectors x hx), hf.media, ?_, ?_, ?_, ?_⟩
  · intro k; rw [hap]; exact hf.ordered k
  · intro k; rw [hap]; exact hf.orderedImportant k
  · rw [hl.1]; exact hf.inline
  · exact (hl.2.map _).nodup hf.attr

theorem Rel.noClash {r : Run Sel C} (hs : ∀ ss c c', c.map badge = c'.map badge → r.test ss c = r.test ss c')
    {c c' : List E} (h : Rel r c c') (hc : c ≠ []) (hf : Cascade.NoClash r.test look r.rules c) :
    Cascade.NoClash r.test look r.rules c' := by
  have ht : ∀ s, r.test [s] c = r.test [s] c' := fun s => hs [s] c c' h.badges
  have hl : (look c').attr.Sublist (look c).attr := by
    cases h with
    | nil => exact absurd rfl hc
    | same e _ _ => exact List.Sublist.refl _
    | cut n as _ _ inh _ => exact look_pruned_sublist ..
  intro d hd
  rw [← appliedAll_congr r.test _ c c' ht r.rules]
  exact hf d (hl.subset hd)

theorem Rel.tails {r : Run Sel C} {c c' : List E} (h : Rel r c c') :
    ∀ s' ∈ tails c', ∃ s ∈ tails c, s ≠ [] ∧ Rel r s s' := by
  induction h with
  | nil => simp [Unknowns.tails]
  | same e h ha ih =>
    intro s' hs
    rw [Unknowns.tails, List.mem_cons] at hs
    rcases hs with rfl | hs
    · exact ⟨_, by rw [Unknowns.tails]; exact List.mem_cons_self, by simp, .same e h ha⟩
    · obtain ⟨s, h1, h2⟩ := ih s' hs
      exact ⟨s, by rw [Unknowns.tails]; exact List.mem_cons_of_mem _ h1, h2⟩
  | cut n as h ha inh hi ih =>
    intro s' hs
    rw [Unknowns.tails, List.mem_cons] at hs
    rcases hs with rfl | hs
    · exact ⟨_, by rw [Unknowns.tails]; exact List.mem_cons_self, by simp, .cut n as h ha inh hi⟩
    · obtain ⟨s, h1, h2⟩ := ih s' hs
      exact ⟨s, by rw [Unknowns.tails]; exact List.mem_cons_of_mem _ h1, h2⟩

/-! ## The value found above is the value there -/

/-- The value of a property, found with the presentation attributes as the code sees them. -/
def valueAt (r : Run Sel C) (holds : C → Bool) (k : Key) : List E → Option Val
  | [] => none
  | e :: cs => Cascade.value r.test look r.rules Key.inheritable holds (e :: cs) (Unknowns.tails cs) k

theorem get_takeOver (q : Computed Key Val) (k : Key) :
    Cascade.get Key.inheritable (Cascade.takeOver .empty q) k =
      if k.inheritable then (Cascade.takeOver .empty q).inherited k else none := by
  simp [Cascade.get, Cascade.getHigh, Cascade.getInherited, Cascade.takeOver, Computed.empty, Cascade.findFirst]

theorem inherited_agrees (r : Run Sel C) (cs : List E) (inh : Computed Key Val) (hi : inheritedOf r cs = some inh)
    (hf : ∀ s ∈ tails cs, Cascade.Fits r.test look r.rules s) (hn : ∀ s ∈ tails cs, Cascade.NoClash r.test look r.rules s)
    (k : Key) (hk : k.inheritable = true) :
    Cascade.Agrees (Cascade.get Key.inheritable inh k) (fun holds => valueAt r holds k cs) := by
  cases cs with
  | nil =>
    simp only [inheritedOf, Option.some.injEq] at hi
    subst hi
    have : Cascade.get Key.inheritable (Computed.empty : Computed Key Val) k = none := by
      simp [Cascade.get, Cascade.getHigh, Cascade.getInherited, Computed.empty, Cascade.findFirst]
    rw [this]
    exact Cascade.Agrees.const none
  | cons p ps =>
    rw [tails] at hf hn
    obtain ⟨q, h1, h2, h3⟩ := Cascade.withAll_own (inheritable := Key.inheritable) (tails ps) (p :: ps) hf
      (fun m hm => hn m (List.mem_cons_of_mem _ hm))
    simp only [inheritedOf, h1, Option.map_some, Option.some.injEq] at hi
    subst hi
    rw [get_takeOver, if_pos hk]
    exact Cascade.agrees_takeOver (p :: ps) (tails ps) k (hf _ List.mem_cons_self) (hn _ List.mem_cons_self) .empty q rfl h2 hk
      (h3 k hk)

theorem value_getD (r : Run Sel C) (holds : C → Bool) (k : Key) (hk : k.inheritable = true) (e : E) (cs : List E) :
    valueAt r holds k (e :: cs) =
      (Cascade.specified r.test look r.rules holds (e :: cs) k).or (valueAt r holds k cs) := by
  cases cs with
  | nil => simp [valueAt, tails, Cascade.value]
  | cons p ps => simp [valueAt, tails, Cascade.value, hk]

/-! ## Values before and after -/

/-- A chain of elements about which the code is right. -/
structure Good (r : Run Sel C) (e : E) (cs : List E) : Prop where
  inline : ∀ b, .style b ∈ e.2 → Single b
  fits : Cascade.Fits r.test look r.rules (e :: cs)
  apart : Cascade.NoClash r.test look r.rules (e :: cs)
  parsed : elementOf e.1 = none → ∀ a ∈ e.2, property a = none

/-- All elements of the chain are so. -/
def AllGood (r : Run Sel C) : List E → Prop
  | [] => True
  | e :: cs => Good r e cs ∧ AllGood r cs

theorem specified_look (r : Run Sel C) (fonts : Val → List (Key × Val)) (hr : ∀ b ∈ blocksOfAll r.rules, Single b)
    (holds : C → Bool) (e : E) (cs : List E) (h : ∀ b, .style b ∈ e.2 → Single b) (k : Key) :
    Cascade.specified r.test (own fonts) (expandRules fonts r.rules) holds (e :: cs) k =
      Cascade.specified r.test look r.rules holds (e :: cs) k := by
  unfold Cascade.specified
  rw [own_look fonts e cs h, expandRules_single fonts r.rules hr]

theorem typed_all : ∀ k ∈ inheritedProperties, k.typed = true := by
  decide +kernel

theorem style_value (r : Run Sel C) (fonts : Val → List (Key × Val)) (hr : ∀ b ∈ blocksOfAll r.rules, Single b)
    (holds : C → Bool) (k : Key) (hk : k ≠ .Kerning) (hi : k ∈ inheritedProperties) :
    ∀ cs : List E, (∀ e ∈ cs, ∀ b, .style b ∈ e.2 → Single b) →
      styleOf r fonts holds cs k = (valueAt r holds k cs).getD (initial k)
  | [], _ => rfl
  | e :: cs, h => by
    have hk' : k.inheritable = true := by rw [inheritable_eq k hk]; simpa using hi
    rw [styleOf, specified_look r fonts hr holds e cs (h e (by simp)), if_pos hi, value_getD r holds k hk',
      style_value r fonts hr holds k hk hi cs fun x hx => h x (by simp [hx])]
    cases Cascade.specified r.test look r.rules holds (e :: cs) k <;> simp

theorem specified_split (r : Run Sel C) (holds : C → Bool) (c c' : List E) (k : Key)
    (ht : ∀ s, r.test [s] c = r.test [s] c') (hl : (look c').inline = (look c).inline) :
    ∃ o : Option Val,
      Cascade.specified r.test look r.rules holds c k = o.or (Cascade.valuesOf k (look c).attr).head? ∧
      Cascade.specified r.test look r.rules holds c' k = o.or (Cascade.valuesOf k (look c').attr).head? := by
  refine ⟨(Cascade.valuesOf k (((look c).inline.map (·.important)).getD [])).getLast?.or
    (((Cascade.winner (Cascade.candidates (·.important) k (Cascade.appliedAll r.test holds c r.rules))).map (·.2)).or
      ((Cascade.valuesOf k (((look c).inline.map (·.declarations)).getD [])).getLast?.or
        ((Cascade.winner (Cascade.candidates (·.declarations) k (Cascade.appliedAll r.test holds c r.rules))).map (·.2)))),
    ?_, ?_⟩
  · simp only [Cascade.specified, Option.or_assoc]
  · simp only [Cascade.specified, Option.or_assoc, hl, appliedAll_congr r.test holds c c' ht r.rules]

theorem mem_valuesOf (k : Key) (v : Val) (l : List (Key × Val)) : v ∈ Cascade.valuesOf k l ↔ (k, v) ∈ l := by
  unfold Cascade.valuesOf
  rw [List.mem_filterMap]
  constructor
  · rintro ⟨d, hd, h⟩
    split at h
    · next e =>
      simp only [Option.some.injEq] at h
      subst e h
      exact hd
    · simp at h
  · intro h
    exact ⟨_, h, by simp⟩

theorem presented_mem (a : Attr) (k : Key) (v : Val) (h : presented a = some (k, v)) :
    a = .plain (.known k) v ∧ Group.Presentation ∈ k.groups := by
  unfold presented at h
  split at h
  · split at h
    · next hp =>
      simp only [Option.some.injEq, Prod.mk.injEq] at h
      obtain ⟨rfl, rfl⟩ := h
      exact ⟨rfl, hp⟩
    · simp at h
  · simp at h

theorem valuesOf_presented (k : Key) (as : List Attr) :
    Cascade.valuesOf k (as.filterMap presented) =
      as.filterMap fun a => (presented a).bind fun d => if d.1 = k then some d.2 else none := by
  unfold Cascade.valuesOf
  rw [List.filterMap_filterMap]

/-- Either the attributes still say the same, or they said what is no longer said. -/
theorem attr_split (o : Options) (n : EName) (inh : Computed Key Val) (as : List Attr) (k : Key) (cs cs' : List E)
    (hnd : ((look ((n, as) :: cs)).attr.map (·.1)).Nodup) :
    (Cascade.valuesOf k (look ((n, pruned o n inh as) :: cs')).attr).head? =
        (Cascade.valuesOf k (look ((n, as) :: cs)).attr).head? ∨
      ∃ v, .plain (.known k) v ∈ as ∧ Group.Presentation ∈ k.groups ∧
        keeps o (elementOf n) (as.any isId) inh (.plain (.known k) v) = false ∧
        (Cascade.valuesOf k (look ((n, as) :: cs)).attr).head? = some v ∧
        (Cascade.valuesOf k (look ((n, pruned o n inh as) :: cs')).attr).head? = none := by
  by_cases h : ∀ a ∈ as, keeps o (elementOf n) (as.any isId) inh a = false →
      ((presented a).bind fun d => if d.1 = k then some d.2 else none) = none
  · left
    simp only [look, pruned, valuesOf_presented]
    rw [filterMap_filter_of _ _ _ h]
  · right
    push Not at h
    obtain ⟨a, ha, hka, hg⟩ := h
    obtain ⟨v, hv⟩ := Option.ne_none_iff_exists'.mp hg
    rw [Option.bind_eq_some_iff] at hv
    obtain ⟨⟨k', v'⟩, hp, hv⟩ := hv
    dsimp only at hv
    split at hv
    · next e =>
      simp only [Option.some.injEq] at hv
      subst e hv
      obtain ⟨rfl, hP⟩ := presented_mem a _ _ hp
      have hmem : (k', v') ∈ (look ((n, as) :: cs)).attr := by
        simp only [look, List.mem_filterMap]
        exact ⟨_, ha, hp⟩
      have huniq : ∀ w, (k', w) ∈ (look ((n, as) :: cs)).attr → w = v' := by
        intro w hw
        have := List.inj_on_of_nodup_map hnd hw hmem rfl
        exact congrArg Prod.snd this
      refine ⟨v', ha, hP, hka, ?_, ?_⟩
      · cases hh : (Cascade.valuesOf k' (look ((n, as) :: cs)).attr).head? with
        | none =>
          rw [List.head?_eq_none_iff] at hh
          have := (mem_valuesOf k' v' _).mpr hmem
          rw [hh] at this
          simp at this
        | some w =>
          rw [huniq w ((mem_valuesOf k' w _).mp (List.mem_of_head? hh))]
      · rw [List.head?_eq_none_iff, List.eq_nil_iff_forall_not_mem]
        intro w hw
        rw [mem_valuesOf] at hw
        have hw1 := huniq w ((look_pruned_sublist o n inh as cs cs').subset hw)
        subst hw1
        simp only [look, pruned, List.mem_filterMap, List.mem_filter] at hw
        obtain ⟨x, ⟨hx, hkx⟩, hpx⟩ := hw
        obtain ⟨rfl, _⟩ := presented_mem x _ _ hpx
        rw [hka] at hkx
        simp at hkx
    · simp at hv

theorem Rel.single {r : Run Sel C} {c c' : List E} (h : Rel r c c') (hs : ∀ e ∈ c, ∀ b, .style b ∈ e.2 → Single b) :
    ∀ e ∈ c', ∀ b, .style b ∈ e.2 → Single b := by
  induction h with
  | nil => simp
  | same e _ _ ih =>
    intro x hx
    rw [List.mem_cons] at hx
    rcases hx with rfl | hx
    · exact hs x (by simp)
    · exact ih (fun y hy => hs y (by simp [hy])) x hx
  | cut n as _ _ inh _ ih =>
    intro x hx
    rw [List.mem_cons] at hx
    rcases hx with rfl | hx
    · intro b hb
      exact hs (n, as) (by simp) b (List.mem_of_mem_filter hb)
    · exact ih (fun y hy => hs y (by simp [hy])) x hx

theorem AllGood.single {r : Run Sel C} : ∀ {c : List E}, AllGood r c → ∀ e ∈ c, ∀ b, .style b ∈ e.2 → Single b
  | [], _ => by simp
  | e :: cs, h => by
    intro x hx
    rw [List.mem_cons] at hx
    rcases hx with rfl | hx
    · exact h.1.inline
    · exact h.2.single x hx

theorem AllGood.tails {r : Run Sel C} : ∀ {c : List E}, AllGood r c → ∀ s ∈ Unknowns.tails c,
    Cascade.Fits r.test look r.rules s ∧ Cascade.NoClash r.test look r.rules s
  | [], _ => by simp [Unknowns.tails]
  | e :: cs, h => by
    intro x hx
    rw [Unknowns.tails, List.mem_cons] at hx
    rcases hx with rfl | hx
    · exact ⟨h.1.fits, h.1.apart⟩
    · exact h.2.tails x hx

/-- Every property keeps its value. -/
theorem Rel.style {r : Run Sel C} (fonts : Val → List (Key × Val)) (hr : ∀ b ∈ blocksOfAll r.rules, Single b)
    (hs : ∀ ss c c', c.map badge = c'.map badge → r.test ss c = r.test ss c') (holds : C → Bool) (k : Key)
    (hk : k ≠ .Kerning) (ho : k ≠ .TransformOrigin) {c c' : List E} (h : Rel r c c') (hg : AllGood r c) :
    styleOf r fonts holds c' k = styleOf r fonts holds c k := by
  induction h with
  | nil => rfl
  | same e h ha ih =>
    rename_i cs cs'
    have hst := hg.1.inline
    rw [styleOf, styleOf, specified_look r fonts hr holds e cs hst, specified_look r fonts hr holds e cs' hst, ih hg.2]
    obtain ⟨o, h1, h2⟩ := specified_split r holds (e :: cs) (e :: cs') k
      (fun s => hs [s] _ _ (Rel.same e h ha).badges) rfl
    rw [h1, h2]
    rfl
  | cut n as h ha inh hi ih =>
    rename_i cs cs'
    have hrel : Rel r ((n, as) :: cs) ((n, pruned r.options n inh as) :: cs') := .cut n as h ha inh hi
    have hst := hg.1.inline
    have hst' : ∀ e ∈ cs', ∀ b, .style b ∈ e.2 → Single b := h.single hg.2.single
    rw [styleOf, styleOf, specified_look r fonts hr holds (n, as) cs hst,
      specified_look r fonts hr holds (n, pruned r.options n inh as) cs' (fun b hb => hst b (List.mem_of_mem_filter hb)), ← ih hg.2]
    obtain ⟨o, h1, h2⟩ := specified_split r holds ((n, as) :: cs) ((n, pruned r.options n inh as) :: cs') k
      (fun s => hs [s] _ _ hrel.badges) (look_pruned_inline ..)
    rw [h1, h2]
    rcases attr_split r.options n inh as k cs cs' hg.1.fits.attr with he | ⟨v, hmem, hP, hkeep, hv, hv'⟩
    · rw [he]
    · rw [hv, hv']
      cases o with
      | some x => rfl
      | none =>
        simp only [Option.none_or, Option.getD_none, Option.getD_some]
        have hmemP : k ∈ inheritedProperties ∨ k ∈ otherProperties := (presentation_iff k).mp hP
        obtain ⟨el, hel⟩ : ∃ el, elementOf n = some el := by
          cases he : elementOf n with
          | some el => exact ⟨el, rfl⟩
          | none =>
            have := hg.1.parsed he _ hmem
            simp [property, hmemP] at this
        rw [hel] at hkeep
        have hag : k.inheritable = true → Cascade.Agrees (Cascade.get Key.inheritable inh k) (fun holds => valueAt r holds k cs') := by
          intro hki
          refine inherited_agrees r cs' inh hi ?_ ?_ k hki
          · intro s hsm
            obtain ⟨t, ht1, ht2, ht3⟩ := h.tails s hsm
            exact ht3.fits hs ht2 (hg.2.tails t ht1).1
          · intro s hsm
            obtain ⟨t, ht1, ht2, ht3⟩ := h.tails s hsm
            exact ht3.noClash hs ht2 (hg.2.tails t ht1).2
        rcases removed_property r.options el _ inh k v hP hkeep with ⟨hnone, hstd⟩ | hsome
        · have hvi := standard_initial k hP ho v hstd
          subst hvi
          by_cases hin : k ∈ inheritedProperties
          · rw [if_pos hin, style_value r fonts hr holds k hk hin cs' hst']
            have hki : k.inheritable = true := by rw [inheritable_eq k hk]; simpa using hin
            have hty : k.typed = true := typed_all k hin
            have hno := fun h => (hag hki).2.1 h holds
            simp only [inheritedValue, hty, if_true] at hnone
            have h0 : valueAt r holds k cs' = none := hno hnone
            rw [h0]
            rfl
          · rw [if_neg hin]
        · unfold inheritedValue at hsome
          split at hsome
          · have hki : k.inheritable = true := by
              by_contra hne
              have : Cascade.get Key.inheritable inh k = none := by
                cases cs' with
                | nil =>
                  simp only [inheritedOf, Option.some.injEq] at hi
                  subst hi
                  simp [Cascade.get, Cascade.getHigh, Cascade.getInherited, Computed.empty, Cascade.findFirst]
                | cons p ps =>
                  simp only [inheritedOf, Option.map_eq_some_iff] at hi
                  obtain ⟨q, _, rfl⟩ := hi
                  rw [get_takeOver, if_neg hne]
              rw [this] at hsome
              simp at hsome
            have hin : k ∈ inheritedProperties := by rw [inheritable_eq k hk] at hki; simpa using hki
            have h0 : valueAt r holds k cs' = some v := (hag hki).1 v hsome holds
            rw [if_pos hin, style_value r fonts hr holds k hk hin cs' hst', h0]
            rfl
          · simp at hsome

/-! ## Where the chains come from -/

mutual
theorem items_chain (drop drop' : Bool → List E → EName → Bool) (f : Bool) (a : List E) (hd : ∀ f a n, drop' f a n = true → drop f a n = true) :
    ∀ n : Node Attr, ∀ x ∈ items drop f a n, x ∈ items drop' f a n
  | .elem n as ks, x, hx => by
    simp only [items] at hx ⊢
    split at hx
    · simp at hx
    · next hn =>
      rw [if_neg (fun h => hn (hd _ _ _ h))]
      rw [List.mem_cons] at hx ⊢
      exact hx.imp id (itemsAll_chain drop drop' _ _ hd ks x)
  | .text _, x, hx => hx
  | .css _, x, hx => hx
  | .comment _, x, hx => hx
  | .pi _ _, x, hx => hx
theorem itemsAll_chain (drop drop' : Bool → List E → EName → Bool) (f : Bool) (a : List E) (hd : ∀ f a n, drop' f a n = true → drop f a n = true) :
    ∀ l : List (Node Attr), ∀ x ∈ itemsAll drop f a l, x ∈ itemsAll drop' f a l
  | [], x, hx => hx
  | n :: l, x, hx => by
    simp only [itemsAll, List.mem_append] at hx ⊢
    exact hx.imp (items_chain drop drop' f a hd n x) (itemsAll_chain drop drop' f a hd l x)
end

mutual
theorem items_tails (drop : Bool → List E → EName → Bool) (P : List E → Prop) (f : Bool) (a : List E)
    (ha : ∀ s ∈ tails a, P s) : ∀ n : Node Attr, (∀ c, .elem c ∈ items drop f a n → P c) →
    ∀ c, .elem c ∈ items drop f a n → ∀ s ∈ tails c, P s
  | .elem n as ks, hP, c, hc => by
    simp only [items] at hc hP
    split at hc
    · simp at hc
    · next hn =>
      simp only [hn, Bool.false_eq_true, if_false, List.mem_cons, Item.elem.injEq] at hP
      have hnew : ∀ s ∈ tails ((n, as) :: a), P s := by
        intro s hs
        rw [tails, List.mem_cons] at hs
        rcases hs with rfl | hs
        · exact hP _ (.inl rfl)
        · exact ha s hs
      rw [List.mem_cons] at hc
      rcases hc with hc | hc
      · simp only [Item.elem.injEq] at hc
        subst hc
        exact hnew
      · exact itemsAll_tails drop P _ _ hnew ks (fun c hc => hP c (.inr hc)) c hc
  | .text _, _, c, hc => by simp [items] at hc
  | .css _, _, c, hc => by simp [items] at hc
  | .comment _, _, c, hc => by simp [items] at hc
  | .pi _ _, _, c, hc => by simp [items] at hc
theorem itemsAll_tails (drop : Bool → List E → EName → Bool) (P : List E → Prop) (f : Bool) (a : List E)
    (ha : ∀ s ∈ tails a, P s) : ∀ l : List (Node Attr), (∀ c, .elem c ∈ itemsAll drop f a l → P c) →
    ∀ c, .elem c ∈ itemsAll drop f a l → ∀ s ∈ tails c, P s
  | [], _, c, hc => by simp [itemsAll] at hc
  | n :: l, hP, c, hc => by
    simp only [itemsAll, List.mem_append] at hc hP
    rcases hc with hc | hc
    · exact items_tails drop P f a ha n (fun c hc => hP c (.inl hc)) c hc
    · exact itemsAll_tails drop P f a ha l (fun c hc => hP c (.inr hc)) c hc
end

theorem allGood_of_tails (r : Run Sel C) : ∀ c : List E,
    (∀ s ∈ tails c, ∃ e cs, s = e :: cs ∧ Good r e cs) → AllGood r c
  | [], _ => trivial
  | e :: cs, h => by
    refine ⟨?_, allGood_of_tails r cs fun s hs => h s (by rw [tails]; exact List.mem_cons_of_mem _ hs)⟩
    obtain ⟨e', cs', he, hg⟩ := h (e :: cs) (by rw [tails]; exact List.mem_cons_self)
    cases he
    exact hg

mutual
theorem items_ne (drop : Bool → List E → EName → Bool) (f : Bool) (a : List E) : ∀ (n : Node Attr) (c : List E),
    .elem c ∈ items drop f a n → c ≠ []
  | .elem n as ks, c, hc => by
    simp only [items] at hc
    split at hc
    · simp at hc
    · rw [List.mem_cons] at hc
      rcases hc with hc | hc
      · simp only [Item.elem.injEq] at hc
        subst hc
        simp
      · exact itemsAll_ne drop _ _ ks c hc
  | .text _, c, hc => by simp [items] at hc
  | .css _, c, hc => by simp [items] at hc
  | .comment _, c, hc => by simp [items] at hc
  | .pi _ _, c, hc => by simp [items] at hc
theorem itemsAll_ne (drop : Bool → List E → EName → Bool) (f : Bool) (a : List E) : ∀ (l : List (Node Attr)) (c : List E),
    .elem c ∈ itemsAll drop f a l → c ≠ []
  | [], c, hc => by simp [itemsAll] at hc
  | n :: l, c, hc => by
    simp only [itemsAll, List.mem_append] at hc
    rcases hc with hc | hc
    · exact items_ne drop f a n c hc
    · exact itemsAll_ne drop f a l c hc
end

theorem Fair.good {r : Run Sel C} {doc : List (Node Attr)} (h : Fair r doc) (c : List E) (hc : .elem c ∈ content doc) :
    AllGood r c := by
  refine allGood_of_tails r c ?_
  refine itemsAll_tails _ (fun s => ∃ e cs, s = e :: cs ∧ Good r e cs) false [] (by simp [tails]) doc ?_ c hc
  intro c hc
  obtain ⟨e, cs, rfl⟩ : ∃ e cs, c = e :: cs := by
    cases c with
    | nil => exact absurd rfl (itemsAll_ne _ _ _ doc _ hc)
    | cons e cs => exact ⟨e, cs, rfl⟩
  have hin := h.inline e cs hc
  have hl := own_look (fun _ => []) e cs hin
  refine ⟨e, cs, rfl, hin, ?_, ?_, h.parsed e cs hc⟩
  · have := h.fits _ hc
    exact ⟨this.selectors, this.media, this.ordered, this.orderedImportant, hl ▸ this.inline, hl ▸ this.attr⟩
  · have := h.apart _ hc
    unfold Cascade.NoClash at this
    rw [hl] at this
    exact this

end Verif.Unknowns
