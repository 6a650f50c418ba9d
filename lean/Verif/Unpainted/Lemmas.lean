import Mathlib.Data.List.Induction
import Verif.Unpainted.Spec
import Verif.Retain.Lemmas

/-!
# C55: computed styles, attributes and trees
-/

namespace Verif.Unpainted

open Verif.Tree Verif.Names
open Verif.Unknowns (Key Val Attr AId E El Item property inlineBlock inheritedProperties otherProperties initial elementOf word
  look tails presented blockOf isId)
open Verif.Cascade (Computed Mode withAll get getInherited takeOver extendList extendMap Block)
open Verif.Retain (idOf)

/-! ## Values -/

/-- What is said about a property by the first of these elements that says something. -/
def nearest (k : Key) : List E → Option Val
  | [] => none
  | e :: cs => (declared e k).or (nearest k cs)

/-- What the first of these elements hands on. -/
def inh : List E → Key → Option (Val × Mode)
  | [] => fun _ => none
  | p :: ps => (takeOver (.empty : Computed Key Val)
      ⟨inh ps, fun _ => none, p.2.filterMap presented, p.2.findSome? blockOf, fun _ => none⟩).inherited

theorem computed_eq (e : E) (cs : List E) : computed e cs =
    some ⟨inh cs, fun _ => none, e.2.filterMap presented, e.2.findSome? blockOf, fun _ => none⟩ := by
  unfold computed
  induction cs generalizing e with
  | nil =>
    simp only [tails, withAll, Cascade.withStyle, Cascade.withOwn, look, Computed.empty, inh]
    cases e.2.findSome? blockOf <;> rfl
  | cons p ps ih =>
    simp only [tails, withAll, Cascade.withStyle, ih p, Cascade.withOwn, look, Computed.empty, inh, takeOver]
    cases e.2.findSome? blockOf <;> rfl

theorem extendList_eq (m : Key → Option (Val × Mode)) (l : List (Key × Val)) (k : Key) :
    extendList m l k = ((lastOf k l).map fun v => (v, Mode.static)).or (m k) := by
  unfold extendList
  induction l using List.reverseRecOn with
  | nil => simp [lastOf]
  | append_singleton l d ih =>
    rw [List.foldl_append, List.foldl_cons, List.foldl_nil]
    rw [show ∀ (m : Key → Option (Val × Mode)), Cascade.put m d.1 (d.2, Mode.static) k =
      if k = d.1 then some (d.2, Mode.static) else m k from fun _ => rfl]
    split
    · next h =>
      subst h
      simp [lastOf, List.filter_append]
    · next h =>
      rw [ih]
      have : lastOf k (l ++ [d]) = lastOf k l := by
        simp [lastOf, List.filter_append, Ne.symm h]
      rw [this]

theorem spread_filter (k : Key) (h : k ∉ [Key.Marker, .MarkerStart, .MarkerMid, .MarkerEnd]) (l : List (Key × Val)) :
    (l.flatMap spread).filter (fun d => d.1 = k) = l.filter fun d => d.1 = k := by
  simp only [List.mem_cons, List.not_mem_nil, or_false, not_or] at h
  obtain ⟨h1, h2, h3, h4⟩ := h
  induction l with
  | nil => rfl
  | cons d l ih =>
    rw [List.flatMap_cons, List.filter_append, ih]
    unfold spread
    split
    · next hd =>
      have : ¬ d.1 = k := by rw [hd]; exact Ne.symm h1
      simp [Ne.symm h2, Ne.symm h3, Ne.symm h4, this]
    · by_cases hd : d.1 = k <;> simp [hd]

theorem lastOf_spread (k : Key) (h : k ∉ [Key.Marker, .MarkerStart, .MarkerMid, .MarkerEnd]) (l : List (Key × Val)) :
    lastOf k (l.flatMap spread) = lastOf k l := by
  unfold lastOf
  rw [spread_filter k h]

theorem property_id (a : Attr) (d : Key × Val) (h : property a = some d) : idOf a = some (.known d.1) := by
  match a, h with
  | .plain (.known l) v, h =>
    simp only [property] at h
    split at h
    · cases h; rfl
    · simp at h

theorem filter_none (k : Key) (as : List Attr) (h : some (.known k) ∉ as.map idOf) :
    (as.filterMap property).filter (fun d => d.1 = k) = [] := by
  rw [List.filter_eq_nil_iff]
  intro d hd
  simp only [decide_eq_true_eq]
  rintro rfl
  obtain ⟨a, ha, hp⟩ := List.mem_filterMap.mp hd
  exact h (List.mem_map.mpr ⟨a, ha, property_id a d hp⟩)

theorem lastOf_attrs (k : Key) (as : List Attr) (h : (as.map idOf).Nodup) :
    lastOf k (as.filterMap property) = ((as.filterMap property).find? fun d => d.1 = k).map (·.2) := by
  induction as with
  | nil => rfl
  | cons a as ih =>
    rw [List.map_cons, List.nodup_cons] at h
    have ih := ih h.2
    cases hp : property a with
    | none => simpa [hp] using ih
    | some d =>
      simp only [List.filterMap_cons, hp, List.find?_cons]
      by_cases hd : d.1 = k
      · subst hd
        have h1 := filter_none d.1 as (by rw [← property_id a d hp]; exact h.1)
        simp [lastOf, h1]
      · simp only [hd, decide_false]
        rw [← ih]
        simp [lastOf, hd]

theorem blockOf_eq : blockOf = inlineBlock := by
  funext a
  match a with
  | .style _ => rfl
  | .plain _ _ => rfl

theorem inh_nearest (k : Key) (hk : k ∉ [Key.Marker, .MarkerStart, .MarkerMid, .MarkerEnd]) : ∀ cs : List E,
    (∀ e ∈ cs, (e.2.map idOf).Nodup) → inh cs k = (nearest k cs).map fun v => (v, Mode.static)
  | [], _ => rfl
  | e :: cs, h => by
    have h0 := lastOf_attrs k e.2 (h e (by simp))
    have ih := inh_nearest k hk cs fun x hx => h x (by simp [hx])
    simp only [inh, takeOver, Computed.empty, extendMap, extendList_eq, nearest, declared, lastOf_spread k hk, h0, ih,
      Unknowns.presented_eq, blockOf_eq]
    cases e.2.findSome? inlineBlock with
    | none =>
      cases (List.find? (fun d => decide (d.1 = k)) (List.filterMap property e.2)) <;> simp [lastOf]
    | some b =>
      cases (List.find? (fun d => decide (d.1 = k)) (List.filterMap property e.2)) <;>
        cases h1 : lastOf k b.important <;> cases h2 : lastOf k b.declarations <;> simp [h1, h2]

theorem inlineBlock_mem (as : List Attr) (b : Block Key Val) (h : as.findSome? inlineBlock = some b) : .style b ∈ as := by
  obtain ⟨a, ha, h⟩ := List.exists_of_findSome?_eq_some h
  match a, ha, h with
  | .style _, ha, h =>
    simp only [inlineBlock, Option.some.injEq] at h
    subst h
    exact ha

theorem lastOf_silent (k : Key) (l : List (Key × Val)) (h : ∀ d ∈ l, d.1 ≠ k) : lastOf k l = none := by
  unfold lastOf
  have : l.filter (fun d => decide (d.1 = k)) = [] := by
    rw [List.filter_eq_nil_iff]
    intro d hd
    simpa using h d hd
  rw [this]
  rfl

theorem declared_silent (k : Key) (hk : k ∉ [Key.Marker, .MarkerStart, .MarkerMid, .MarkerEnd]) (e : E) (h : Silent k e) :
    declared e k = ((e.2.filterMap property).find? fun d => d.1 = k).map (·.2) := by
  unfold declared
  simp only [lastOf_spread k hk]
  have h0 : ∀ d ∈ ((e.2.findSome? inlineBlock).getD ⟨[], []⟩).declarations ++
      ((e.2.findSome? inlineBlock).getD ⟨[], []⟩).important, d.1 ≠ k := by
    cases hb : e.2.findSome? inlineBlock with
    | none => simp
    | some b => exact h b (inlineBlock_mem e.2 b hb)
  rw [lastOf_silent k _ fun d hd => h0 d (by simp [hd]), lastOf_silent k _ fun d hd => h0 d (by simp [hd])]
  rfl

theorem style_nearest (k : Key) (hk : k ∉ [Key.Marker, .MarkerStart, .MarkerMid, .MarkerEnd]) (hi : Key.inheritable k = true)
    (e : E) (cs : List E) (h : ∀ e ∈ cs, (e.2.map idOf).Nodup) (hs : Silent k e) (c : Computed Key Val)
    (hc : computed e cs = some c) : style c k = (nearest k (e :: cs)).map fun v => (v, Mode.static) := by
  rw [computed_eq] at hc
  cases hc
  have hf : ∀ l : List (Key × Val), (∀ d ∈ l, d.1 ≠ k) → Cascade.findFirst l k = none := by
    intro l hl
    unfold Cascade.findFirst
    rw [List.find?_eq_none.mpr]
    · rfl
    · intro d hd
      simpa using hl d hd
  have h1 : ((e.2.findSome? blockOf).bind fun b => Cascade.findFirst b.important k) = none := by
    rw [blockOf_eq]
    cases hb : e.2.findSome? inlineBlock with
    | none => rfl
    | some b => exact hf _ fun d hd => hs b (inlineBlock_mem e.2 b hb) d (by simp [hd])
  have h2 : ((e.2.findSome? blockOf).bind fun b => Cascade.findFirst b.declarations k) = none := by
    rw [blockOf_eq]
    cases hb : e.2.findSome? inlineBlock with
    | none => rfl
    | some b => exact hf _ fun d hd => hs b (inlineBlock_mem e.2 b hb) d (by simp [hd])
  unfold style Cascade.get Cascade.getHigh getInherited
  simp only [h1, h2, hi, if_true, Option.map_none, Option.none_or, inh_nearest k hk cs h, nearest,
    declared_silent k hk e hs, Unknowns.presented_eq]
  unfold Cascade.findFirst
  cases (List.find? (fun d => decide (d.1 = k)) (List.filterMap property e.2)) <;> simp

theorem value_nearest (k : Key) (hk : k ∈ inheritedProperties) (v : Val) (hv : v ≠ .inherit) : ∀ c : List E,
    nearest k c = some v → value k c = v
  | [], h => by simp [nearest] at h
  | e :: cs, h => by
    unfold nearest at h
    unfold value
    cases hd : declared e k with
    | some w =>
      rw [hd] at h
      simp only [Option.some_or, Option.some.injEq] at h
      subst h
      cases w with
      | inherit => exact absurd rfl hv
      | parts _ => rfl
    | none =>
      rw [hd] at h
      simp only [Option.none_or] at h
      simp only [hk, if_true]
      exact value_nearest k hk v hv cs h

theorem value_none (k : Key) : ∀ c : List E, nearest k c = none → value k c = initial k
  | [], _ => rfl
  | e :: cs, h => by
    unfold nearest at h
    unfold value
    cases hd : declared e k with
    | some w => rw [hd] at h; simp at h
    | none =>
      rw [hd] at h
      simp only [Option.none_or] at h
      simp only
      split
      · exact value_none k cs h
      · rfl

theorem value_head (k : Key) (e e' : E) (cs : List E) (h : declared e' k = declared e k) :
    value k (e' :: cs) = value k (e :: cs) := by
  unfold value
  rw [h]

/-! ## Attributes -/

theorem findSome?_filter (p : Attr → Bool) (hp : ∀ b, p (.style b) = true) (as : List Attr) :
    (as.filter p).findSome? inlineBlock = as.findSome? inlineBlock := by
  induction as with
  | nil => rfl
  | cons a as ih =>
    match a with
    | .style b => rw [List.filter_cons_of_pos (hp b), List.findSome?_cons, List.findSome?_cons]; rfl
    | .plain i v =>
      rw [List.filter_cons]
      split
      · rw [List.findSome?_cons, List.findSome?_cons]; exact ih
      · rw [List.findSome?_cons]; exact ih

theorem declared_filter (n : EName) (as : List Attr) (p : Attr → Bool) (hp : ∀ b, p (.style b) = true) (k : Key)
    (hk : ∀ v, p (.plain (.known k) v) = true) : declared (n, as.filter p) k = declared (n, as) k := by
  unfold declared
  simp only [findSome?_filter p hp]
  congr 2
  induction as with
  | nil => rfl
  | cons a as ih =>
    cases hpa : p a with
    | true => simp only [List.filter_cons_of_pos hpa, List.filterMap_cons]; cases property a <;> simp [List.find?_cons, ih]
    | false =>
      rw [List.filter_cons_of_neg (by simp [hpa]), ih, List.filterMap_cons]
      cases ha : property a with
      | none => rfl
      | some d =>
        have hd : ¬ d.1 = k := by
          rintro rfl
          match a, ha, hpa with
          | .plain (.known l) v, ha, hpa =>
            simp only [property] at ha
            split at ha
            · cases ha
              rw [hk v] at hpa
              simp at hpa
            · simp at ha
        simp [hd]

theorem find_filter_none (as : List Attr) (p : Attr → Bool) (k : Key) (hk : ∀ v, p (.plain (.known k) v) = false) :
    ((as.filter p).filterMap property).find? (fun d => d.1 = k) = none := by
  rw [List.find?_eq_none]
  intro d hd
  simp only [decide_eq_true_eq]
  rintro rfl
  obtain ⟨a, ha, hp⟩ := List.mem_filterMap.mp hd
  have hm := (List.mem_filter.mp ha).2
  match a, hp, hm with
  | .plain (.known l) v, hp, hm =>
    simp only [property] at hp
    split at hp
    · cases hp
      rw [hk v] at hm
      simp at hm
    · simp at hp

theorem silent_filter (k : Key) (n : EName) (as : List Attr) (p : Attr → Bool) (h : Silent k (n, as)) :
    Silent k (n, as.filter p) := fun b hb => h b (List.mem_of_mem_filter hb)

theorem mem_set (l : Key) (v : Val) (as : List Attr) (a : Attr) (h : a ∈ set l v as) :
    a = .plain (.known l) v ∨ a ∈ as := by
  induction as with
  | nil => simpa [set] using h
  | cons b as ih =>
    unfold set at h
    split at h
    · next heq => simp at heq
    · next x w as' heq =>
      cases heq
      split at h
      · rcases List.mem_cons.mp h with h | h
        · exact .inl h
        · exact .inr (by simp [h])
      · rcases List.mem_cons.mp h with h | h
        · exact .inr (by simp [h])
        · exact (ih h).imp id (fun h => by simp [h])
    · next heq =>
      cases heq
      rcases List.mem_cons.mp h with h | h
      · exact .inr (by simp [h])
      · exact (ih h).imp id (fun h => by simp [h])

theorem silent_set (k l : Key) (v : Val) (n : EName) (as : List Attr) (h : Silent k (n, as)) :
    Silent k (n, set l v as) := by
  intro b hb
  rcases mem_set l v as _ hb with h1 | h1
  · simp at h1
  · exact h b h1

theorem set_style (l : Key) (v : Val) (as : List Attr) :
    (set l v as).findSome? inlineBlock = as.findSome? inlineBlock := by
  induction as with
  | nil => rfl
  | cons a as ih =>
    match a with
    | .style b => simp only [set]; rw [List.findSome?_cons, List.findSome?_cons]; rfl
    | .plain (.other p i) w =>
      simp only [set]
      rw [List.findSome?_cons, List.findSome?_cons]
      exact ih
    | .plain (.known x) w =>
      simp only [set]
      split
      · rw [List.findSome?_cons, List.findSome?_cons]; rfl
      · rw [List.findSome?_cons, List.findSome?_cons]; exact ih

theorem declared_set_other (k l : Key) (hne : k ≠ l) (v : Val) (n : EName) (as : List Attr) :
    declared (n, set l v as) k = declared (n, as) k := by
  unfold declared
  simp only [set_style]
  congr 2
  have hnot : ∀ w, property (.plain (.known l) w) = none ∨ ∃ d, property (.plain (.known l) w) = some d ∧ ¬ d.1 = k := by
    intro w
    simp only [property]
    split
    · exact .inr ⟨_, rfl, Ne.symm hne⟩
    · exact .inl rfl
  have hskip : ∀ w (as : List Attr), ((Attr.plain (.known l) w :: as).filterMap property).find? (fun d => d.1 = k) =
      (as.filterMap property).find? (fun d => d.1 = k) := by
    intro w as
    rw [List.filterMap_cons]
    rcases hnot w with h | ⟨d, h, hd⟩
    · rw [h]
    · rw [h]
      simp [hd]
  induction as with
  | nil => simp only [set]; rw [hskip]
  | cons a as ih =>
    match a with
    | .style b => simp only [set]; rw [List.filterMap_cons, List.filterMap_cons]; exact ih
    | .plain (.other p i) w => simp only [set]; rw [List.filterMap_cons, List.filterMap_cons]; exact ih
    | .plain (.known x) w =>
      simp only [set]
      split
      · next hx =>
        subst hx
        rw [hskip, hskip]
      · rw [List.filterMap_cons, List.filterMap_cons]
        cases property (.plain (.known x) w) with
        | none => exact ih
        | some d => simp only [List.find?_cons]; rw [ih]

theorem find_set (k : Key) (hk : k ∈ inheritedProperties ∨ k ∈ otherProperties) (v : Val) (as : List Attr) :
    ((set k v as).filterMap property).find? (fun d => d.1 = k) = some (k, v) := by
  have hp : property (.plain (.known k) v) = some (k, v) := by simp [property, hk]
  have hh : ∀ as : List Attr, ((Attr.plain (.known k) v :: as).filterMap property).find? (fun d => d.1 = k) = some (k, v) := by
    intro as
    rw [List.filterMap_cons, hp]
    simp
  induction as with
  | nil => exact hh []
  | cons a as ih =>
    match a with
    | .style b => simp only [set]; rw [List.filterMap_cons]; exact ih
    | .plain (.other p i) w => simp only [set]; rw [List.filterMap_cons]; exact ih
    | .plain (.known x) w =>
      simp only [set]
      split
      · exact hh as
      · next hx =>
        rw [List.filterMap_cons]
        cases h : property (.plain (.known x) w) with
        | none => exact ih
        | some d =>
          have : ¬ d.1 = k := by
            simp only [property] at h
            split at h
            · cases h; exact hx
            · simp at h
          simp only [List.find?_cons, this, decide_false]
          exact ih

theorem begins_stroke : ∀ k ∈ inheritedProperties ++ otherProperties, ∀ v,
    begins "stroke" (.plain (.known k) v) = decide (k ∈ strokeKeys) := by
  have : ∀ k ∈ inheritedProperties ++ otherProperties,
      (k.pre.isNone && Unknowns.startsWith (lit "stroke") (lit k.loc)) = decide (k ∈ strokeKeys) := by decide +kernel
  exact fun k hk v => this k hk

theorem begins_fill : ∀ k ∈ inheritedProperties ++ otherProperties, ∀ v,
    begins "fill-" (.plain (.known k) v) = decide (k = .FillOpacity ∨ k = .FillRule) := by
  have : ∀ k ∈ inheritedProperties ++ otherProperties,
      (k.pre.isNone && Unknowns.startsWith (lit "fill-") (lit k.loc)) = decide (k = .FillOpacity ∨ k = .FillRule) := by
    decide +kernel
  exact fun k hk v => this k hk

theorem begins_style (b : Block Key Val) : begins "stroke" (.style b) = false ∧ begins "fill-" (.style b) = false :=
  ⟨rfl, rfl⟩

/-! ## Trees -/

/-- An element with its ancestors after the job, and whether one of them has an id. -/
def chain (o : Options) : List E → List E × Bool
  | [] => ([], false)
  | e :: cs =>
    let p := chain o cs
    if p.2 || e.2.any isId then (e :: p.1, true)
    else match hook o p.1 e.1 e.2 with
      | some (as', _) => ((e.1, as') :: p.1, false)
      | none => (e :: p.1, false)

/-- Whether an element or one of its ancestors is removed. -/
def goneChain (o : Options) : List E → Bool
  | [] => false
  | e :: cs => goneChain o cs || (!((chain o cs).2 || e.2.any isId) && match hook o (chain o cs).1 e.1 e.2 with
      | some (_, gone) => gone
      | none => false)

theorem hook_some (o : Options) (anc : List E) (n : EName) (as : List Attr) : ∃ r, hook o anc n as = some r := by
  unfold hook
  split
  · rw [computed_eq]
    exact ⟨_, rfl⟩
  · exact ⟨_, rfl⟩

mutual
theorem visit_some (o : Options) (within : Bool) (anc : List E) : (n : Node Attr) → ∃ l, visit o within anc n = some l
  | .elem n as ks => by
    unfold visit
    split
    · obtain ⟨l, hl⟩ := visitAll_some o true ((n, as) :: anc) ks
      rw [hl]
      exact ⟨_, rfl⟩
    · obtain ⟨⟨as', gone⟩, hr⟩ := hook_some o anc n as
      rw [hr]
      simp only
      split
      · obtain ⟨l, hl⟩ := visitAll_some o false [(n, as')] ks
        rw [hl]
        exact ⟨_, rfl⟩
      · obtain ⟨l, hl⟩ := visitAll_some o false ((n, as') :: anc) ks
        rw [hl]
        exact ⟨_, rfl⟩
  | .text s => ⟨_, by rw [visit]⟩
  | .css s => ⟨_, by rw [visit]⟩
  | .comment s => ⟨_, by rw [visit]⟩
  | .pi t d => ⟨_, by rw [visit]⟩
theorem visitAll_some (o : Options) (within : Bool) (anc : List E) :
    (ns : List (Node Attr)) → ∃ l, visitAll o within anc ns = some l
  | [] => ⟨_, by rw [visitAll]⟩
  | n :: ns => by
    obtain ⟨a, ha⟩ := visit_some o within anc n
    obtain ⟨b, hb⟩ := visitAll_some o within anc ns
    unfold visitAll
    rw [ha, hb]
    exact ⟨_, rfl⟩
end

/-- Whether an item stays. -/
def stays (o : Options) : Item → Bool
  | .elem c => !goneChain o c
  | .leaf a _ => !goneChain o a

/-- An item after the job. -/
def moved (o : Options) : Item → Item
  | .elem c => .elem (chain o c).1
  | .leaf a n => .leaf (chain o a).1 n

mutual
theorem items_gone (o : Options) (d : Bool → List E → EName → Bool) (f : Bool) (anc : List E) (h : goneChain o anc = true) :
    (n : Node Attr) → ∀ i ∈ Unknowns.items d f anc n, stays o i = false
  | .elem n as ks, i, hi => by
    unfold Unknowns.items at hi
    split at hi
    · simp at hi
    · rcases List.mem_cons.mp hi with rfl | hi
      · simp [stays, goneChain, h]
      · exact itemsAll_gone o d _ ((n, as) :: anc) (by simp [goneChain, h]) ks i hi
  | .text s, i, hi => by simp [Unknowns.items] at hi; simp [hi, stays, h]
  | .css s, i, hi => by simp [Unknowns.items] at hi; simp [hi, stays, h]
  | .comment s, i, hi => by simp [Unknowns.items] at hi; simp [hi, stays, h]
  | .pi t d', i, hi => by simp [Unknowns.items] at hi; simp [hi, stays, h]
theorem itemsAll_gone (o : Options) (d : Bool → List E → EName → Bool) (f : Bool) (anc : List E) (h : goneChain o anc = true) :
    (ns : List (Node Attr)) → ∀ i ∈ Unknowns.itemsAll d f anc ns, stays o i = false
  | [], i, hi => by simp [Unknowns.itemsAll] at hi
  | n :: ns, i, hi => by
    unfold Unknowns.itemsAll at hi
    rcases List.mem_append.mp hi with hi | hi
    · exact items_gone o d f anc h n i hi
    · exact itemsAll_gone o d f anc h ns i hi
end

mutual
theorem items_visit (o : Options) (f : Bool) (anc : List E) (h : goneChain o anc = false) : (n : Node Attr) → (l : List (Node Attr)) →
    visit o (chain o anc).2 (chain o anc).1 n = some l →
    Unknowns.itemsAll (fun _ _ _ => false) f (chain o anc).1 l =
      ((Unknowns.items (fun _ _ _ => false) f anc n).filter (stays o)).map (moved o)
  | .elem n as ks, l, hl => by
    have hitems : Unknowns.items (fun _ _ _ => false) f anc (.elem n as ks) = .elem ((n, as) :: anc) ::
        Unknowns.itemsAll (fun _ _ _ => false) (f || n.is "foreignObject") ((n, as) :: anc) ks := by
      rw [Unknowns.items]; simp
    rw [hitems]
    unfold visit at hl
    split at hl
    · next hid =>
      have hch : chain o ((n, as) :: anc) = ((n, as) :: (chain o anc).1, true) := by
        simp only [chain, hid, if_true]
      have hgo : goneChain o ((n, as) :: anc) = false := by
        simp only [goneChain, h, hid, Bool.not_true, Bool.false_and, Bool.or_false]
      obtain ⟨ks', hk⟩ := visitAll_some o true ((n, as) :: (chain o anc).1) ks
      rw [hk] at hl
      cases hl
      have ih := itemsAll_visit o (f || n.is "foreignObject") ((n, as) :: anc) hgo ks ks' (by rw [hch]; exact hk)
      rw [hch] at ih
      simp [Unknowns.itemsAll, Unknowns.items, ih, stays, moved, hgo, hch]
    · next hid =>
      obtain ⟨⟨as', gone⟩, hr⟩ := hook_some o (chain o anc).1 n as
      rw [hr] at hl
      simp only at hl
      have hch : chain o ((n, as) :: anc) = ((n, as') :: (chain o anc).1, false) := by
        simp only [chain, hid, hr]; simp
      have hgo : goneChain o ((n, as) :: anc) = gone := by
        simp only [goneChain, h, hid, hr]; simp
      split at hl
      · next hg =>
        obtain ⟨ks', hk⟩ := visitAll_some o false [(n, as')] ks
        rw [hk] at hl
        cases hl
        rw [List.filter_eq_nil_iff.mpr]
        · rfl
        · intro i hi
          rcases List.mem_cons.mp hi with rfl | hi
          · simp [stays, hgo, hg]
          · rw [itemsAll_gone o _ _ _ (by rw [hgo, hg]) ks i hi]; simp
      · next hg =>
        obtain ⟨ks', hk⟩ := visitAll_some o false ((n, as') :: (chain o anc).1) ks
        rw [hk] at hl
        cases hl
        have hgf : gone = false := by simpa using hg
        have ih := itemsAll_visit o (f || n.is "foreignObject") ((n, as) :: anc) (by rw [hgo, hgf]) ks ks' (by rw [hch]; exact hk)
        rw [hch] at ih
        simp [Unknowns.itemsAll, Unknowns.items, ih, stays, moved, hgo, hch, hgf]
  | .text s, l, hl => by
    rw [visit] at hl; cases hl; simp [Unknowns.itemsAll, Unknowns.items, stays, moved, h]
  | .css s, l, hl => by
    rw [visit] at hl; cases hl; simp [Unknowns.itemsAll, Unknowns.items, stays, moved, h]
  | .comment s, l, hl => by
    rw [visit] at hl; cases hl; simp [Unknowns.itemsAll, Unknowns.items, stays, moved, h]
  | .pi t d, l, hl => by
    rw [visit] at hl; cases hl; simp [Unknowns.itemsAll, Unknowns.items, stays, moved, h]
theorem itemsAll_visit (o : Options) (f : Bool) (anc : List E) (h : goneChain o anc = false) : (ns : List (Node Attr)) →
    (l : List (Node Attr)) → visitAll o (chain o anc).2 (chain o anc).1 ns = some l →
    Unknowns.itemsAll (fun _ _ _ => false) f (chain o anc).1 l =
      ((Unknowns.itemsAll (fun _ _ _ => false) f anc ns).filter (stays o)).map (moved o)
  | [], l, hl => by rw [visitAll] at hl; cases hl; simp [Unknowns.itemsAll]
  | n :: ns, l, hl => by
    obtain ⟨a, ha⟩ := visit_some o (chain o anc).2 (chain o anc).1 n
    obtain ⟨b, hb⟩ := visitAll_some o (chain o anc).2 (chain o anc).1 ns
    unfold visitAll at hl
    rw [ha, hb] at hl
    cases hl
    have happ : ∀ x y : List (Node Attr), Unknowns.itemsAll (fun _ _ _ => false) f (chain o anc).1 (x ++ y) =
        Unknowns.itemsAll (fun _ _ _ => false) f (chain o anc).1 x ++
          Unknowns.itemsAll (fun _ _ _ => false) f (chain o anc).1 y := by
      intro x y
      induction x with
      | nil => simp [Unknowns.itemsAll]
      | cons z x ih => simp only [List.cons_append, Unknowns.itemsAll, ih, List.append_assoc]
    rw [happ, items_visit o f anc h n a ha, itemsAll_visit o f anc h ns b hb, Unknowns.itemsAll, List.filter_append, List.map_append]
end

theorem content_visit (o : Options) (doc l : List (Node Attr)) (h : visitAll o false [] doc = some l) :
    Unknowns.content l = ((Unknowns.content doc).filter (stays o)).map (moved o) :=
  itemsAll_visit o false [] rfl doc l h

end Verif.Unpainted
