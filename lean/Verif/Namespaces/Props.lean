import Verif.Namespaces.Model

/-!
# C42: names keep their namespaces

The meaning of names follows "Namespaces in XML": a prefix stands for the URI of the nearest declaration around
it; an element without prefix is in the default namespace, an attribute without prefix in none.
-/

namespace Verif.Namespaces

variable {P U L : Type} [DecidableEq P] [DecidableEq U]

/-- The URI a prefix stands for: that of the first declaration, the nearest being first. -/
def lookup (sc : List (Decl P U)) (p : Option P) : Option U := (sc.find? (fun d => d.1 == p)).map (·.2)

/-- The namespace of an element name as written; the outer `none` is a prefix that is not declared. -/
def elemNs (blank : U) (sc : List (Decl P U)) : Option P → Option (Option U)
  | none => some ((lookup sc none).filter (· != blank))
  | some p => (lookup sc (some p)).map some

/-- The namespace of an attribute name as written. -/
def attrNs (sc : List (Decl P U)) : Option P → Option (Option U)
  | none => some none
  | some p => (lookup sc (some p)).map some

mutual
/-- What is written has, name by name, the namespaces and local names of the source. -/
def Means (blank : U) (sc : List (Decl P U)) : Out P U L → Src P U L → Prop
  | .other, .other => True
  | .elem xmlns n as ks, .elem _ n' as' style ks' =>
    elemNs blank (xmlns ++ sc) n.1 = some n'.1 ∧ n.2 = n'.2 ∧
    as.map (fun a => (attrNs (xmlns ++ sc) a.1, a.2)) = as'.map (fun a => (some a.1, a.2)) ∧
    (style = false → MeansAll blank (xmlns ++ sc) ks ks')
  | _, _ => False
def MeansAll (blank : U) (sc : List (Decl P U)) : List (Out P U L) → List (Src P U L) → Prop
  | [], [] => True
  | o :: os, k :: ks => Means blank sc o k ∧ MeansAll blank sc os ks
  | _, _ => False
end

mutual
/-- All declarations in the source. -/
def declsOf : Src P U L → List (Decl P U)
  | .elem ds _ _ _ ks => ds ++ declsOfAll ks
  | .other => []
def declsOfAll : List (Src P U L) → List (Decl P U)
  | [] => []
  | k :: ks => declsOf k ++ declsOfAll ks
end

mutual
/-- What the reader guarantees about the names it resolved: an element has the namespace of a prefix in scope or
the default one, an attribute has that of a prefix in scope or none. -/
def Resolved (sc : List (Decl P U)) : Src P U L → Prop
  | .elem ds n as _ ks =>
    (match n.1 with
      | none => lookup (ds ++ sc) none = none
      | some u => ∃ p, lookup (ds ++ sc) p = some u) ∧
    (∀ a ∈ as, ∀ u, a.1 = some u → ∃ p, lookup (ds ++ sc) (some p) = some u) ∧
    ResolvedAll (ds ++ sc) ks
  | .other => True
def ResolvedAll (sc : List (Decl P U)) : List (Src P U L) → Prop
  | [] => True
  | k :: ks => Resolved sc k ∧ ResolvedAll sc ks
end

mutual
/-- No element uses, for its own name, a prefix that is declared on the element itself. -/
def NotOwn : Src P U L → Prop
  | .elem ds n _ _ ks => (∀ d ∈ ds, n.1 = some d.2 → d.1 = none) ∧ NotOwnAll ks
  | .other => True
def NotOwnAll : List (Src P U L) → Prop
  | [] => True
  | k :: ks => NotOwn k ∧ NotOwnAll ks
end

/-- No prefix and no URI occurs twice. -/
def Apart (l : List (Decl P U)) : Prop := (l.map (·.1)).Nodup ∧ (l.map (·.2)).Nodup

/-- The maps hold these declarations. -/
def Holds (m : Maps P U) (seen : List (Decl P U)) : Prop :=
  (∀ p u, m.prefixToUri p = some u ↔ (p, u) ∈ seen) ∧ (∀ u p, m.uriToPrefix u = some p ↔ (p, u) ∈ seen)

theorem Apart.mem_fst {l : List (Decl P U)} (h : Apart l) {p : Option P} {u v : U} (hu : (p, u) ∈ l) (hv : (p, v) ∈ l) :
    u = v := by
  induction l with
  | nil => simp at hu
  | cons d l ih =>
    obtain ⟨h1, h2⟩ := h
    simp only [List.map_cons, List.nodup_cons] at h1 h2
    rw [List.mem_cons] at hu hv
    rcases hu with hu | hu <;> rcases hv with hv | hv
    · rw [← hu] at hv; exact (Prod.mk.inj hv).2.symm
    · exact absurd (List.mem_map.mpr ⟨_, hv, by rw [← hu]⟩) h1.1
    · exact absurd (List.mem_map.mpr ⟨_, hu, by rw [← hv]⟩) h1.1
    · exact ih ⟨h1.2, h2.2⟩ hu hv

theorem Apart.perm {l m : List (Decl P U)} (h : Apart l) (e : l.Perm m) : Apart m :=
  ⟨(e.map _).nodup_iff.mp h.1, (e.map _).nodup_iff.mp h.2⟩

theorem Apart.left {l m : List (Decl P U)} (h : Apart (l ++ m)) : Apart l := by
  simp only [Apart, List.map_append, List.nodup_append] at h
  exact ⟨h.1.1, h.2.1⟩

theorem Apart.right {l m : List (Decl P U)} (h : Apart (l ++ m)) : Apart m := by
  simp only [Apart, List.map_append, List.nodup_append] at h
  exact ⟨h.1.2.1, h.2.2.1⟩

theorem Apart.fresh {d : Decl P U} {l : List (Decl P U)} (h : Apart (d :: l)) :
    (∀ u, (d.1, u) ∉ l) ∧ (∀ p, (p, d.2) ∉ l) := by
  simp only [Apart, List.map_cons, List.nodup_cons] at h
  exact ⟨fun u hu => h.1.1 (List.mem_map.mpr ⟨_, hu, rfl⟩), fun p hp => h.2.1 (List.mem_map.mpr ⟨_, hp, rfl⟩)⟩

/-- Looking up among declarations with different prefixes. -/
theorem lookup_iff {sc : List (Decl P U)} (h : (sc.map (·.1)).Nodup) (p : Option P) (u : U) :
    lookup sc p = some u ↔ (p, u) ∈ sc := by
  induction sc with
  | nil => simp [lookup]
  | cons d sc ih =>
    simp only [List.map_cons, List.nodup_cons] at h
    have ih := ih h.2
    obtain ⟨q, v⟩ := d
    simp only [lookup, List.find?_cons] at ih ⊢
    by_cases e : q = p
    · subst e
      simp only [beq_self_eq_true, if_true, Option.map_some, Option.some.injEq, List.mem_cons, Prod.mk.injEq, true_and]
      constructor
      · rintro rfl; exact .inl rfl
      · rintro (rfl | h')
        · rfl
        · exact absurd (List.mem_map.mpr ⟨_, h', rfl⟩) h.1
    · have : (q == p) = false := by simpa using e
      simp only [this]
      rw [List.mem_cons, Prod.mk.injEq]
      constructor
      · intro h'; exact .inr (ih.mp h')
      · rintro (⟨rfl, _⟩ | h')
        · exact absurd rfl e
        · exact ih.mpr h'

theorem insert_fresh {m : Maps P U} {seen : List (Decl P U)} (hm : Holds m seen) {d : Decl P U}
    (h : Apart (d :: seen)) : Holds (m.insert d.1 d.2).1 (d :: seen) ∧ (m.insert d.1 d.2).2 = none := by
  obtain ⟨f1, f2⟩ := h.fresh
  obtain ⟨p, u⟩ := d
  have e : m.uriToPrefix u = none := by
    cases e : m.uriToPrefix u with
    | none => rfl
    | some q => exact absurd ((hm.2 u q).mp e) (f2 q)
  refine ⟨⟨?_, ?_⟩, ?_⟩
  · intro q v
    simp only [Maps.insert, List.mem_cons, Prod.mk.injEq]
    split
    · next hq =>
      subst hq
      simp only [Option.some.injEq, true_and]
      constructor
      · rintro rfl; exact .inl rfl
      · rintro (rfl | h')
        · rfl
        · exact absurd h' (f1 v)
    · next hq =>
      rw [hm.1]
      constructor
      · exact .inr
      · rintro (⟨rfl, _⟩ | h')
        · exact absurd rfl hq
        · exact h'
  · intro v q
    simp only [Maps.insert, List.mem_cons, Prod.mk.injEq]
    split
    · next hq =>
      subst hq
      simp only [Option.some.injEq, and_true]
      constructor
      · rintro rfl; exact .inl rfl
      · rintro (rfl | h')
        · rfl
        · exact absurd h' (f2 q)
    · next hq =>
      rw [hm.2]
      constructor
      · exact .inr
      · rintro (⟨_, rfl⟩ | h')
        · exact absurd rfl hq
        · exact h'
  · simp [Maps.insert, e]

theorem scan_fresh {blank : U} {s : Scan P U} {seen : List (Decl P U)} (hm : Holds s.maps seen) {d : Decl P U}
    (h : Apart (d :: seen)) (hb : d.2 ≠ blank) :
    Holds (scan blank s d).maps (d :: seen) ∧ (scan blank s d).popped = s.popped ∧
      (scan blank s d).xmlns = s.xmlns ++ [d] := by
  obtain ⟨f1, f2⟩ := h.fresh
  have e1 : ¬ s.maps.prefixToUri d.1 = some d.2 := fun e => f1 _ ((hm.1 _ _).mp e)
  have e2 : s.maps.prefixToUri none ≠ some d.2 := fun e => f2 _ ((hm.1 _ _).mp e)
  obtain ⟨i1, i2⟩ := insert_fresh hm h
  have : scan blank s d = s.put d := by
    simp only [scan, e1, if_false, e2, ne_eq, not_false_eq_true, if_true, hb]
    cases d.1 <;> rfl
  rw [this]
  refine ⟨i1, ?_, rfl⟩
  simp [Scan.put, i2]

theorem scan_known {blank : U} {s : Scan P U} {seen : List (Decl P U)} (hm : Holds s.maps seen) {d : Decl P U}
    (h : d ∈ seen) : scan blank s d = s := by
  have : s.maps.prefixToUri d.1 = some d.2 := (hm.1 _ _).mpr h
  simp [scan, this]

theorem scan_own {blank : U} (own : List (Decl P U)) : ∀ (s : Scan P U) (seen : List (Decl P U)), Holds s.maps seen →
    Apart (own ++ seen) → (∀ d ∈ own, d.2 ≠ blank) →
    Holds (own.foldl (scan blank) s).maps (own ++ seen) ∧ (own.foldl (scan blank) s).popped = s.popped ∧
      (own.foldl (scan blank) s).xmlns = s.xmlns ++ own := by
  induction own with
  | nil => intro s seen h _ _; simpa using h
  | cons d own ih =>
    intro s seen hm ha hb
    have pm : (d :: (own ++ seen)).Perm (own ++ d :: seen) := List.perm_middle.symm
    have ha' : Apart (own ++ d :: seen) := ha.perm pm
    obtain ⟨s1, s2, s3⟩ := scan_fresh (blank := blank) hm ha'.right (hb d (by simp))
    obtain ⟨t1, t2, t3⟩ := ih _ (d :: seen) s1 ha' (fun e he => hb e (by simp [he]))
    simp only [List.foldl_cons]
    refine ⟨⟨?_, ?_⟩, t2.trans s2, ?_⟩
    · intro p u
      rw [t1.1]
      exact pm.symm.mem_iff
    · intro u p
      rw [t1.2]
      exact pm.symm.mem_iff
    · rw [t3, s3]; simp

theorem scan_outer {blank : U} (l : List (Decl P U)) (s : Scan P U) (seen : List (Decl P U)) (hm : Holds s.maps seen)
    (h : ∀ d ∈ l, d ∈ seen) : l.foldl (scan blank) s = s := by
  induction l with
  | nil => rfl
  | cons d l ih =>
    rw [List.foldl_cons, scan_known hm (h d (by simp)), ih (fun e he => h e (by simp [he]))]

/-- Declarations none of which have been seen are all written, and nothing is displaced. -/
theorem scanAll_spec {blank : U} {m : Maps P U} {own outer seen : List (Decl P U)} (hm : Holds m seen)
    (ha : Apart (own ++ seen)) (hb : ∀ d ∈ own, d.2 ≠ blank) (ho : ∀ d ∈ outer, d ∈ seen) :
    Holds (scanAll blank m own outer).maps (own ++ seen) ∧ (scanAll blank m own outer).popped = [] ∧
      (scanAll blank m own outer).xmlns = own := by
  simp only [scanAll, inScope, List.foldl_append]
  obtain ⟨t1, t2, t3⟩ := scan_own (blank := blank) own ⟨m, [], []⟩ seen hm ha hb
  rw [scan_outer _ _ _ t1 (by
    intro d hd
    rw [List.mem_filter] at hd
    rw [List.mem_append]
    exact .inr (ho d hd.1))]
  exact ⟨t1, t2, by simpa using t3⟩

theorem inScope_apart {own outer seen : List (Decl P U)} (ha : Apart (own ++ seen)) (ho : ∀ d ∈ outer, d ∈ seen) :
    inScope own outer = own ++ outer := by
  simp only [inScope]
  congr 1
  rw [List.filter_eq_self]
  intro d hd
  rw [List.all_eq_true]
  intro e he
  simp only [bne_iff_ne, ne_eq]
  intro h
  simp only [Apart, List.map_append, List.nodup_append] at ha
  exact ha.1.2.2 e.1 (List.mem_map.mpr ⟨e, he, rfl⟩) d.1 (List.mem_map.mpr ⟨d, ho d hd, rfl⟩) h

mutual
theorem parseNode_means {blank : U} (src : Src P U L) : ∀ (outer seen : List (Decl P U)) (m : Maps P U) (sc : List (Decl P U)),
    Holds m seen → Apart (declsOf src ++ seen) → (∀ d ∈ declsOf src ++ seen, d.2 ≠ blank) → (∀ d ∈ sc, d ∈ seen) →
    (sc.map (·.1)).Nodup → (∀ d ∈ outer, d ∈ sc) → Resolved sc src → NotOwn src →
    Means blank sc (parseNode blank outer m src).1 src ∧
    ∃ seen', Holds (parseNode blank outer m src).2 seen' ∧ (∀ d ∈ seen, d ∈ seen') ∧
      (∀ d ∈ seen', d ∈ declsOf src ++ seen) ∧ Apart seen' := by
  cases src with
  | other =>
    intro outer seen m sc hm ha hb hs hn ho hr hw
    rw [parseNode]
    exact ⟨by simp [Means], seen, hm, fun d h => h, fun d h => by simp [h], ha.right⟩
  | elem ds n as style ks =>
    intro outer seen m sc hm ha hb hs hn ho hr hw
    rw [declsOf] at ha hb
    have pm : (ds ++ declsOfAll ks ++ seen).Perm (declsOfAll ks ++ (ds ++ seen)) := by
      rw [List.append_assoc]
      exact (List.perm_append_comm_assoc _ _ _)
    have ha' : Apart (declsOfAll ks ++ (ds ++ seen)) := ha.perm pm
    have hos : ∀ d ∈ outer, d ∈ seen := fun d h => hs d (ho d h)
    obtain ⟨s1, s2, s3⟩ := scanAll_spec (blank := blank) hm ha'.right
      (fun d hd => hb d (by simp [hd])) hos
    have hin : inScope ds outer = ds ++ outer := inScope_apart ha'.right hos
    have hnd : ((ds ++ sc).map (·.1)).Nodup := by
      have h1 := ha'.right
      simp only [Apart, List.map_append, List.nodup_append] at h1
      rw [List.map_append, List.nodup_append]
      refine ⟨h1.1.1, hn, ?_⟩
      intro a ha b hb
      rw [List.mem_map] at hb
      obtain ⟨d, hd, rfl⟩ := hb
      exact h1.1.2.2 a ha d.1 (List.mem_map.mpr ⟨d, hs d hd, rfl⟩)
    have hds : ∀ d ∈ ds ++ sc, d ∈ ds ++ seen := by
      intro d hd
      rw [List.mem_append] at hd ⊢
      exact hd.imp id (hs d)
    have hbl : ∀ d ∈ ds ++ sc, d.2 ≠ blank := by
      intro d hd
      have := hds d hd
      rw [List.mem_append] at this
      rcases this with h | h
      · exact hb d (by simp [h])
      · exact hb d (by simp [h])
    rw [Resolved] at hr
    rw [NotOwn] at hw
    obtain ⟨r1, r2, r3⟩ := hr
    -- the name of the element
    have hname : elemNs blank (ds ++ sc) (m.getByUri n.1) = some n.1 := by
      cases hn1 : n.1 with
      | none =>
        rw [hn1] at r1
        simp only at r1
        simp [Maps.getByUri, elemNs, r1]
      | some u =>
        rw [hn1] at r1
        obtain ⟨p, hp⟩ := r1
        rw [lookup_iff hnd] at hp
        have hp' := hp
        rw [List.mem_append] at hp'
        rcases hp' with hp' | hp'
        · have := hw.1 _ hp' hn1
          simp only at this
          subst this
          have hnone : m.uriToPrefix u = none := by
            cases e : m.uriToPrefix u with
            | none => rfl
            | some q =>
              have hq := (hm.2 u q).mp e
              have h1 := ha'.right
              simp only [Apart, List.map_append, List.nodup_append] at h1
              exact absurd rfl (h1.2.2.2 u (List.mem_map.mpr ⟨_, hp', rfl⟩) u (List.mem_map.mpr ⟨_, hq, rfl⟩))
          simp only [Maps.getByUri, Option.bind_some, hnone, Option.join_none, elemNs]
          rw [(lookup_iff hnd none u).mpr hp]
          have := hbl _ hp
          simp at this
          simp [Option.filter, this]
        · have e : m.uriToPrefix u = some p := (hm.2 u p).mpr (hs _ hp')
          simp only [Maps.getByUri, Option.bind_some, e, Option.join_some]
          cases p with
          | none =>
            simp only [elemNs]
            rw [(lookup_iff hnd none u).mpr hp]
            have := hbl _ hp
            simp at this
            simp [Option.filter, this]
          | some p =>
            simp only [elemNs]
            rw [(lookup_iff hnd (some p) u).mpr hp]
            rfl
    -- the attributes
    have hattr : (as.map (nameOf (scanAll blank m ds outer).maps)).map (fun a => (attrNs (ds ++ sc) a.1, a.2)) =
        as.map (fun a => (some a.1, a.2)) := by
      rw [List.map_map]
      apply List.map_congr_left
      intro a hamem
      simp only [Function.comp, nameOf, Prod.mk.injEq, and_true]
      cases ha1 : a.1 with
      | none => simp [Maps.getByUri, attrNs]
      | some u =>
        obtain ⟨p, hp⟩ := r2 a hamem u ha1
        rw [lookup_iff hnd] at hp
        have e : (scanAll blank m ds outer).maps.uriToPrefix u = some (some p) := (s1.2 u _).mpr (hds _ hp)
        simp only [Maps.getByUri, Option.bind_some, e, Option.join_some, attrNs]
        rw [(lookup_iff hnd (some p) u).mpr hp]
        rfl
    rw [parseNode]
    cases style with
    | true =>
      simp only [if_true]
      refine ⟨?_, ds ++ seen, s1, fun d h => by simp [h], ?_, ha'.right⟩
      · rw [Means, s3]
        exact ⟨hname, rfl, hattr, by simp⟩
      · intro d hd
        rw [declsOf]
        simp only [List.mem_append] at hd ⊢
        rcases hd with h | h
        · exact .inl (.inl h)
        · exact .inr h
    | false =>
      simp only [Bool.false_eq_true, if_false]
      rw [hin, s2]
      obtain ⟨k1, seen', k2, k3, k4, k5⟩ := parseAll_means (blank := blank) ks (ds ++ outer) (ds ++ seen) _ (ds ++ sc) s1 ha'
        (fun d hd => hb d (pm.mem_iff.mpr hd)) hds hnd (by
          intro d hd
          rw [List.mem_append] at hd ⊢
          exact hd.imp id (ho d)) r3 hw.2
      refine ⟨?_, seen', k2, fun d h => k3 d (by simp [h]), ?_, k5⟩
      · rw [Means, s3]
        exact ⟨hname, rfl, hattr, fun _ => k1⟩
      · intro d hd
        rw [declsOf]
        exact pm.mem_iff.mpr (k4 d hd)
theorem parseAll_means {blank : U} (ks : List (Src P U L)) : ∀ (outer seen : List (Decl P U)) (m : Maps P U)
    (sc : List (Decl P U)),
    Holds m seen → Apart (declsOfAll ks ++ seen) → (∀ d ∈ declsOfAll ks ++ seen, d.2 ≠ blank) → (∀ d ∈ sc, d ∈ seen) →
    (sc.map (·.1)).Nodup → (∀ d ∈ outer, d ∈ sc) → ResolvedAll sc ks → NotOwnAll ks →
    MeansAll blank sc (parseAll blank outer m ks).1 ks ∧
    ∃ seen', Holds (parseAll blank outer m ks).2 seen' ∧ (∀ d ∈ seen, d ∈ seen') ∧
      (∀ d ∈ seen', d ∈ declsOfAll ks ++ seen) ∧ Apart seen' := by
  cases ks with
  | nil =>
    intro outer seen m sc hm ha hb hs hn ho hr hw
    rw [parseAll]
    exact ⟨by simp [MeansAll], seen, hm, fun d h => h, fun d h => by simp [h], ha.right⟩
  | cons k ks =>
    intro outer seen m sc hm ha hb hs hn ho hr hw
    rw [declsOfAll] at ha hb
    rw [ResolvedAll] at hr
    rw [NotOwnAll] at hw
    have pm : (declsOf k ++ declsOfAll ks ++ seen).Perm (declsOfAll ks ++ (declsOf k ++ seen)) := by
      rw [List.append_assoc]
      exact (List.perm_append_comm_assoc _ _ _)
    have ha' : Apart (declsOfAll ks ++ (declsOf k ++ seen)) := ha.perm pm
    obtain ⟨a1, seen1, a2, a3, a4, a5⟩ := parseNode_means (blank := blank) k outer seen m sc hm ha'.right
      (fun d hd => hb d (by
        rw [List.mem_append] at hd
        rcases hd with h | h <;> simp [h])) hs hn ho hr.1 hw.1
    rw [parseAll]
    have ha1 : Apart (declsOfAll ks ++ seen1) := by
      have h0 := ha'
      simp only [Apart, List.map_append, List.nodup_append] at h0 a5 ⊢
      refine ⟨⟨h0.1.1, a5.1, ?_⟩, ⟨h0.2.1, a5.2, ?_⟩⟩
      · intro x hx y hy
        rw [List.mem_map] at hy
        obtain ⟨d, hd, rfl⟩ := hy
        have := a4 d hd
        refine h0.1.2.2 x hx d.1 ?_
        rw [List.mem_append] at this ⊢
        exact this.imp (fun h => List.mem_map.mpr ⟨d, h, rfl⟩) (fun h => List.mem_map.mpr ⟨d, h, rfl⟩)
      · intro x hx y hy
        rw [List.mem_map] at hy
        obtain ⟨d, hd, rfl⟩ := hy
        have := a4 d hd
        refine h0.2.2.2 x hx d.2 ?_
        rw [List.mem_append] at this ⊢
        exact this.imp (fun h => List.mem_map.mpr ⟨d, h, rfl⟩) (fun h => List.mem_map.mpr ⟨d, h, rfl⟩)
    obtain ⟨b1, seen2, b2, b3, b4, b5⟩ := parseAll_means (blank := blank) ks outer seen1 _ sc a2 ha1
      (fun d hd => hb d (by
        rw [List.mem_append] at hd
        rcases hd with h | h
        · simp [h]
        · have := a4 d h
          rw [List.mem_append] at this
          rcases this with h | h <;> simp [h]))
      (fun d hd => a3 d (hs d hd)) hn ho hr.2 hw.2
    refine ⟨?_, seen2, b2, fun d h => b3 d (a3 d h), ?_, b5⟩
    · rw [MeansAll]; exact ⟨a1, b1⟩
    · intro d hd
      rw [declsOfAll]
      have := b4 d hd
      rw [List.mem_append] at this
      rcases this with h | h
      · simp [h]
      · have := a4 d h
        rw [List.mem_append] at this
        rcases this with h | h <;> simp [h]
end

/-- **C42 (partial)** If no prefix and no URI is declared twice in the document, no declaration is empty, and no
element is named with a prefix that it declares itself, then every name as written stands for the namespace it was
read with, whatever prefix it is written with. Missing: documents that declare a prefix or a URI more than once, and
elements that declare their own prefix, for which it is false (`own_violated`, `again_violated`, `synonym_violated`,
`restore_violated`, `default_violated`). -/
theorem names_partial (blank : U) (xml : P) (xmlUri : U) (doc : List (Src P U L))
    (once : Apart (declsOfAll doc ++ [(some xml, xmlUri)]))
    (full : ∀ d ∈ declsOfAll doc ++ [(some xml, xmlUri)], d.2 ≠ blank)
    (resolved : ResolvedAll [(some xml, xmlUri)] doc) (own : NotOwnAll doc) :
    MeansAll blank [(some xml, xmlUri)] (parseTree blank xml xmlUri doc) doc := by
  refine (parseAll_means doc [] [(some xml, xmlUri)] _ [(some xml, xmlUri)] ?_ once full (fun d h => h) (by simp)
    (by simp) resolved own).1
  have e : Holds (⟨fun _ => none, fun _ => none⟩ : Maps P U) [] := by
    constructor <;> simp
  exact (insert_fresh e (d := (some xml, xmlUri)) (by simp [Apart])).1

/-! ## Documents whose names change -/

mutual
/-- The namespaces of all names as written, in document order; `none` is an undeclared prefix. -/
def written (blank : U) (sc : List (Decl P U)) : Out P U L → List (Option (Option U) × L)
  | .elem xmlns n as ks => (elemNs blank (xmlns ++ sc) n.1, n.2) ::
      as.map (fun a => (attrNs (xmlns ++ sc) a.1, a.2)) ++ writtenAll blank (xmlns ++ sc) ks
  | .other => []
def writtenAll (blank : U) (sc : List (Decl P U)) : List (Out P U L) → List (Option (Option U) × L)
  | [] => []
  | o :: os => written blank sc o ++ writtenAll blank sc os
end

/-- The same of the document as parsed. -/
def after (doc : List (Src String String String)) : List (Option (Option String) × String) :=
  writtenAll "" [(some "xml", "X")] (parseTree "" "xml" "X" doc)

/-- `<s:svg xmlns:s="S"><s:g/></s:svg>` -/
def own : List (Src String String String) :=
  [.elem [(some "s", "S")] (some "S", "svg") [] false [.elem [] (some "S", "g") [] false []]]

/-- **C42 (violated)** An element that declares its own prefix is written without it and so loses its namespace. -/
theorem own_violated : ResolvedAll [(some "xml", "X")] own ∧ after own = [(some none, "svg"), (some (some "S"), "g")] := by
  constructor
  · simp only [own, ResolvedAll, Resolved, and_true, List.not_mem_nil, false_implies, implies_true, true_and]
    exact ⟨⟨some "s", rfl⟩, ⟨some "s", rfl⟩⟩
  · decide +kernel

/-- `<svg xmlns="S"><g xmlns:k="K"><k:a/></g><g xmlns:k="K"><k:a/></g></svg>` -/
def again : List (Src String String String) :=
  [.elem [(none, "S")] (some "S", "svg") [] false
    [.elem [(some "k", "K")] (some "S", "g") [] false [.elem [] (some "K", "a") [] false []],
     .elem [(some "k", "K")] (some "S", "g") [] false [.elem [] (some "K", "a") [] false []]]]

/-- **C42 (violated)** A declaration that is repeated on a later sibling is dropped there: the prefix below it is
written without being declared, and the document can no longer be read. -/
theorem again_violated : ResolvedAll [(some "xml", "X")] again ∧ NotOwnAll again ∧
    after again = [(some (some "S"), "svg"), (some (some "S"), "g"), (some (some "K"), "a"),
      (some (some "S"), "g"), (none, "a")] := by
  refine ⟨?_, ?_, by decide +kernel⟩
  · simp only [again, ResolvedAll, Resolved, and_true, List.not_mem_nil, false_implies, implies_true, true_and]
    exact ⟨⟨none, rfl⟩, ⟨⟨none, rfl⟩, ⟨some "k", rfl⟩⟩, ⟨none, rfl⟩, ⟨some "k", rfl⟩⟩
  · simp [again, NotOwnAll, NotOwn]

/-- `<svg xmlns="S" xmlns:a="K"><g xmlns:b="K"/><a:z/></svg>` -/
def synonym : List (Src String String String) :=
  [.elem [(none, "S"), (some "a", "K")] (some "S", "svg") [] false
    [.elem [(some "b", "K")] (some "S", "g") [] false [], .elem [] (some "K", "z") [] false []]]

/-- **C42 (violated)** A second prefix for a URI goes on being used after the element that declares it. -/
theorem synonym_violated : ResolvedAll [(some "xml", "X")] synonym ∧ NotOwnAll synonym ∧
    after synonym = [(some (some "S"), "svg"), (some (some "S"), "g"), (none, "z")] := by
  refine ⟨?_, ?_, by decide +kernel⟩
  · simp only [synonym, ResolvedAll, Resolved, and_true, List.not_mem_nil, false_implies, implies_true, true_and]
    exact ⟨⟨none, rfl⟩, ⟨none, rfl⟩, ⟨some "a", rfl⟩⟩
  · simp [synonym, NotOwnAll, NotOwn]

/-- `<svg xmlns="S" xmlns:a="K" xmlns:b="M"><g xmlns:b="K"/><b:z/></svg>` -/
def displaced : List (Src String String String) :=
  [.elem [(none, "S"), (some "a", "K"), (some "b", "M")] (some "S", "svg") [] false
    [.elem [(some "b", "K")] (some "S", "g") [] false [], .elem [] (some "M", "z") [(some "M", "t")] false []]]

/-- **C42 (violated)** Putting back what an inner declaration displaced mixes prefix and URI of different
declarations: a following name is written with the prefix of another namespace and silently changes its namespace. -/
theorem restore_violated : ResolvedAll [(some "xml", "X")] displaced ∧ NotOwnAll displaced ∧
    after displaced = [(some (some "S"), "svg"), (some (some "S"), "g"), (some (some "K"), "z"), (some (some "M"), "t")] := by
  refine ⟨?_, ?_, by decide +kernel⟩
  · simp only [displaced, ResolvedAll, Resolved, and_true, List.not_mem_nil, false_implies, implies_true, true_and]
    refine ⟨⟨none, rfl⟩, ⟨none, rfl⟩, ⟨some "b", rfl⟩, ?_⟩
    intro a ha u hu
    simp at ha
    subst ha
    simp at hu
    subst hu
    exact ⟨"b", rfl⟩
  · simp [displaced, NotOwnAll, NotOwn]

/-- `<svg xmlns="S"><f><div xmlns="H"/><div xmlns="H"/></f></svg>`, as in `foreignObject`. -/
def foreign : List (Src String String String) :=
  [.elem [(none, "S")] (some "S", "svg") [] false [.elem [] (some "S", "f") [] false
    [.elem [(none, "H")] (some "H", "div") [] false [], .elem [(none, "H")] (some "H", "div") [] false []]]]

/-- **C42 (violated)** Of two neighbouring elements that declare the same default namespace, the second loses the
declaration and falls into the namespace around it. -/
theorem default_violated : ResolvedAll [(some "xml", "X")] foreign ∧ NotOwnAll foreign ∧
    after foreign = [(some (some "S"), "svg"), (some (some "S"), "f"), (some (some "H"), "div"), (some (some "S"), "div")] := by
  refine ⟨?_, ?_, by decide +kernel⟩
  · simp only [foreign, ResolvedAll, Resolved, and_true, List.not_mem_nil, false_implies, implies_true, true_and]
    exact ⟨⟨none, rfl⟩, ⟨none, rfl⟩, ⟨none, rfl⟩, ⟨none, rfl⟩⟩
  · simp [foreign, NotOwnAll, NotOwn]

/-- `<svg xmlns="S" xmlns:s="S" s:t=""/>` -/
def attrDefault : List (Src String String String) :=
  [.elem [(none, "S"), (some "s", "S")] (some "S", "svg") [(some "S", "t")] false []]

/-- **C42 (violated)** An attribute in the namespace that is also the default one is written without prefix
and so is in no namespace. -/
theorem attribute_violated : ResolvedAll [(some "xml", "X")] attrDefault ∧
    after attrDefault = [(some (some "S"), "svg"), (some none, "t")] := by
  refine ⟨?_, by decide +kernel⟩
  simp only [attrDefault, ResolvedAll, Resolved, and_true]
  refine ⟨⟨none, rfl⟩, ?_⟩
  intro a ha u hu
  simp at ha
  subst ha
  simp at hu
  subst hu
  exact ⟨"s", rfl⟩

/-! ## Example -/

/-- `<svg xmlns="S" xmlns:l="L"><use l:href=""/><g xmlns:k="K"><k:a k:b="" xml:lang=""/></g></svg>` -/
def usual : List (Src String String String) :=
  [.elem [(none, "S"), (some "l", "L")] (some "S", "svg") [] false
    [.elem [] (some "S", "use") [(some "L", "href"), (none, "x")] false [],
     .elem [(some "k", "K")] (some "S", "g") [] false
      [.elem [] (some "K", "a") [(some "K", "b"), (some "X", "lang")] false []]]]

example : Apart (declsOfAll usual ++ [(some "xml", "X")]) ∧ NotOwnAll usual ∧
    after usual = [(some (some "S"), "svg"), (some (some "S"), "use"), (some (some "L"), "href"), (some none, "x"),
      (some (some "S"), "g"), (some (some "K"), "a"), (some (some "K"), "b"), (some (some "X"), "lang")] := by
  refine ⟨?_, ?_, by decide +kernel⟩
  · simp [usual, Apart, declsOf, declsOfAll]
  · simp [usual, NotOwnAll, NotOwn]

end Verif.Namespaces
