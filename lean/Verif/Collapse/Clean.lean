import Verif.Collapse.Props

/-!
# C48: which groups remain
-/

namespace Verif.Collapse

open Verif.Tree Verif.Names Verif.Empty

variable {T V : Type}

/-- Elements that animate their parents, and hatches. -/
def moves (n : EName) : Prop :=
  ∃ s ∈ ["set", "animate", "animateColor", "animateMotion", "animateTransform", "mpath", "hatch"], n.is s = true

theorem isAnimation_iff {n : EName} : isAnimation n = true ↔ moves n := by
  simp only [isAnimation, among, moves, List.any_eq_true]
  constructor <;> rintro ⟨s, hs, h⟩ <;> refine ⟨s, ?_, h⟩ <;> simp at hs ⊢ <;> rcases hs with h | h | h | h | h | h | h <;> simp [h]

/-- A group without attributes remains only for a reason. -/
def Reason (parent : Option EName) (n : EName) (as : List (Attr T V)) (ks : List (Node (Attr T V))) : Prop :=
  n.is "g" = true → as = [] → ∀ p, parent = some p → p.is "switch" = false →
    ks.any isElem = false ∨ anyElems (fun m _ => isAnimation m) ks = true

mutual
def Tidy (parent : Option EName) : Node (Attr T V) → Prop
  | .elem n as ks => Reason parent n as ks ∧ TidyAll (some n) ks
  | .text _ => True
  | .css _ => True
  | .comment _ => True
  | .pi _ _ => True
def TidyAll (parent : Option EName) : List (Node (Attr T V)) → Prop
  | [] => True
  | n :: ns => Tidy parent n ∧ TidyAll parent ns
end

theorem tidyAll_append {parent : Option EName} {a b : List (Node (Attr T V))} :
    TidyAll parent (a ++ b) ↔ TidyAll parent a ∧ TidyAll parent b := by
  induction a with
  | nil => simp [TidyAll]
  | cons n ns ih => simp [TidyAll, ih, and_assoc]

mutual
/-- Tidiness depends on the parent only if this becomes a `g` or something else that is not a switch. -/
theorem Tidy.under {p q : Option EName} (hp : ∀ x, q = some x → x.is "switch" = false → ∃ y, p = some y ∧ y.is "switch" = false)
    (n : Node (Attr T V)) (h : Tidy p n) : Tidy q n := by
  match n with
  | .elem n as ks =>
    refine ⟨fun hg he x hx hs => ?_, h.2⟩
    obtain ⟨y, hy, hs'⟩ := hp x hx hs
    exact h.1 hg he y hy hs'
  | .text _ => trivial
  | .css _ => trivial
  | .comment _ => trivial
  | .pi _ _ => trivial
theorem TidyAll.under {p q : Option EName} (hp : ∀ x, q = some x → x.is "switch" = false → ∃ y, p = some y ∧ y.is "switch" = false)
    (ns : List (Node (Attr T V))) (h : TidyAll p ns) : TidyAll q ns := by
  match ns with
  | [] => trivial
  | n :: ns => exact ⟨Tidy.under hp n h.1, TidyAll.under hp ns h.2⟩
end

theorem loop_grows [DecidableEq T] [DecidableEq V] {animated : List (Attr T V) → String → Bool} {b : Bool} {g c : List (Attr T V)} {rm : List AName}
    {g' c' : List (Attr T V)} {rm' : List AName} {s : Stop} (h : loop animated b g c rm = .ok (g', c', rm', s)) : c.length ≤ c'.length := by
  induction g generalizing c rm g' with
  | nil => rw [loop] at h; cases h; exact Nat.le_refl _
  | cons a as ih =>
    have key : ∀ (a' : Attr T V) (d : List (Attr T V)), c.length ≤ d.length →
        (match loop animated b as d (rm ++ [a.name]) with
          | .ok (g, r) => Except.ok (a' :: g, r)
          | .error e => .error e) = .ok (g', c', rm', s) → c.length ≤ c'.length := by
      intro a' d hd h
      split at h
      · rename_i g'' r e
        obtain ⟨r1, r2, r3⟩ := r
        simp only [Except.ok.injEq, Prod.mk.injEq] at h
        obtain ⟨-, rfl, rfl, rfl⟩ := h
        exact Nat.le_trans hd (ih e)
      · cases h
    have hput : ∀ (n : AName) (v : Val T V), c.length ≤ (put c n v).length := by
      intro n v
      have := congrArg List.length (put_names c n v)
      simp only [List.length_map] at this
      omega
    rw [loop] at h
    split at h
    · cases h
    split at h
    · cases h; exact Nat.le_refl _
    dsimp only at h
    split at h
    · exact key _ _ (by simp) h
    · split at h
      · exact key _ _ (hput _ _) h
      · exact key _ _ (Nat.le_refl _) h
      · exact key _ _ (hput _ _) h
      · exact key _ _ (hput _ _) h
      · exact key _ _ (Nat.le_refl _) h
      · exact key _ _ (Nat.le_refl _) h
      · split at h
        · exact key _ _ (Nat.le_refl _) h
        · cases h; exact Nat.le_refl _

theorem moveAttrs_grows [DecidableEq T] [DecidableEq V] {word : String → V} {styleFilter : V → Bool} {g c : List (Attr T V)} {n : EName} {ks : List (Node (Attr T V))}
    {g' c' : List (Attr T V)} (h : moveAttrs word styleFilter g n c ks = .ok (g', c')) : c' = [] → c = [] := by
  have key : c.length ≤ c'.length := by
    unfold moveAttrs at h
    split at h
    · cases h; exact Nat.le_refl _
    split at h
    · cases h; exact Nat.le_refl _
    split at h
    · cases h; exact Nat.le_refl _
    split at h
    · cases h; exact Nat.le_refl _
    split at h
    · cases h
    · rename_i e; cases h; exact loop_grows e
    · rename_i e; cases h; exact loop_grows e
  intro e
  subst e
  exact List.length_eq_zero_iff.mp (Nat.le_zero.mp key)

theorem setOnly_tidy {p : Option EName} {ks : List (Node (Attr T V))} {m : EName} {c c' : List (Attr T V)} {k : List (Node (Attr T V))}
    (ho : only ks = some (m, c, k)) (hc : c' = [] → c = []) (h : TidyAll p ks) : TidyAll p (setOnly c' ks) := by
  obtain ⟨a, b, rfl, ha, hb⟩ := only_split ho
  rw [setOnly_split c' ha hb]
  rw [tidyAll_append] at h ⊢
  exact And.intro h.1 (And.intro (And.intro (fun hg he => h.2.1.1 hg (hc he)) h.2.1.2) h.2.2)

theorem exit_tidy [DecidableEq T] [DecidableEq V] {word : String → V} {styleFilter : V → Bool} {parent : Option EName} {n : EName} {as : List (Attr T V)}
    {ks out : List (Node (Attr T V))} (hk : TidyAll (some n) ks) (h : exit word styleFilter parent n as ks = .ok out) :
    TidyAll parent out := by
  unfold exit at h
  cases parent with
  | none => cases h; exact ⟨⟨fun _ _ p hp => (nomatch hp), hk⟩, trivial⟩
  | some p =>
    by_cases c1 : p.is "switch" = true
    · simp only [c1, if_true] at h
      cases h
      exact ⟨⟨fun _ _ p' hp hs => (by cases hp; rw [c1] at hs; cases hs), hk⟩, trivial⟩
    by_cases c2 : (!n.is "g" || !ks.any isElem) = true
    · simp only [c1, c2, if_true] at h
      cases h
      refine ⟨⟨fun hg _ p' hp hs => ?_, hk⟩, trivial⟩
      rw [hg] at c2
      exact .inl (by simpa using c2)
    simp only [c1, c2] at h
    simp only [Bool.or_eq_true, Bool.not_eq_true', not_or, Bool.not_eq_false] at c2
    have hns : n.is "switch" = false := by
      have := c2.1
      simp only [EName.is] at this ⊢
      cases hsw : n.loc == lit "switch" with
      | false => simp
      | true =>
        rw [beq_iff_eq] at hsw
        rw [hsw] at this
        simp [lit] at this
    have flat : ∀ (as' : List (Attr T V)) (ks' : List (Node (Attr T V))), TidyAll (some n) ks' →
        TidyAll (some p) (if !as'.isEmpty then [.elem n as' ks'] else if anyElems (fun m _ => isAnimation m) ks' then [.elem n as' ks']
          else ks') := by
      intro as' ks' hk'
      split
      · rename_i he
        exact ⟨⟨fun _ he' => (by rw [he'] at he; cases he), hk'⟩, trivial⟩
      · split
        · rename_i ha
          exact ⟨⟨fun _ _ _ _ _ => .inr ha, hk'⟩, trivial⟩
        · exact TidyAll.under (fun x hx _ => ⟨n, rfl, hns⟩) _ hk'
    simp only [Bool.false_eq_true, if_false] at h
    cases ho : only ks with
    | none =>
      rw [ho] at h
      cases h
      exact flat _ _ hk
    | some x =>
      obtain ⟨m, c, k⟩ := x
      rw [ho] at h
      dsimp only at h
      split at h
      · cases h
      · rename_i as' c' e
        cases h
        exact flat _ _ (setOnly_tidy ho (moveAttrs_grows e) hk)

mutual
theorem run_tidy [DecidableEq T] [DecidableEq V] {word : String → V} {styleFilter : V → Bool} {parent : Option EName} (n : Node (Attr T V)) {out : List (Node (Attr T V))}
    (h : run word styleFilter parent n = .ok out) : TidyAll parent out := by
  match n with
  | .elem n as ks =>
    rw [run] at h
    split at h
    · cases h
    · rename_i ks' e
      exact exit_tidy (runAll_tidy ks e) h
  | .text _ => rw [run] at h; cases h; exact ⟨trivial, trivial⟩
  | .css _ => rw [run] at h; cases h; exact ⟨trivial, trivial⟩
  | .comment _ => rw [run] at h; cases h; exact ⟨trivial, trivial⟩
  | .pi _ _ => rw [run] at h; cases h; exact ⟨trivial, trivial⟩
theorem runAll_tidy [DecidableEq T] [DecidableEq V] {word : String → V} {styleFilter : V → Bool} {parent : Option EName} (ns : List (Node (Attr T V)))
    {out : List (Node (Attr T V))} (h : runAll word styleFilter parent ns = .ok out) : TidyAll parent out := by
  match ns with
  | [] => rw [runAll] at h; cases h; trivial
  | n :: ns =>
    rw [runAll] at h
    split at h
    · cases h
    · rename_i a e1
      split at h
      · cases h
      · rename_i b e2
        cases h
        exact tidyAll_append.mpr ⟨run_tidy n e1, runAll_tidy ns e2⟩
end

mutual
theorem anyElem_occurs (q : EName → List (Attr T V) → Bool) (n : Node (Attr T V)) (h : anyElem q n = true) :
    ∃ m bs js, Occurs [n] (.elem m bs js) ∧ q m bs = true := by
  match n with
  | .elem n as ks =>
    rw [anyElem, Bool.or_eq_true] at h
    rcases h with h | h
    · exact ⟨n, as, ks, occurs_cons.mpr (.inl rfl), h⟩
    · obtain ⟨m, bs, js, h1, h2⟩ := anyElems_occurs q ks h
      exact ⟨m, bs, js, occurs_cons.mpr (.inr (.inl h1)), h2⟩
  | .text _ => cases h
  | .css _ => cases h
  | .comment _ => cases h
  | .pi _ _ => cases h
theorem anyElems_occurs (q : EName → List (Attr T V) → Bool) (ns : List (Node (Attr T V))) (h : anyElems q ns = true) :
    ∃ m bs js, Occurs ns (.elem m bs js) ∧ q m bs = true := by
  match ns with
  | [] => cases h
  | n :: ns =>
    rw [anyElems, Bool.or_eq_true] at h
    rcases h with h | h
    · obtain ⟨m, bs, js, h1, h2⟩ := anyElem_occurs q n h
      exact ⟨m, bs, js, (occurs_append (a := [n])).mpr (.inl h1), h2⟩
    · obtain ⟨m, bs, js, h1, h2⟩ := anyElems_occurs q ns h
      exact ⟨m, bs, js, (occurs_append (a := [n])).mpr (.inr h1), h2⟩
end

/-- The name of an element. -/
def nameOf : Node (Attr T V) → Option EName
  | .elem n _ _ => some n
  | _ => none

mutual
theorem tidy_lines {anc : List (Node (Attr T V))} (n : Node (Attr T V)) (h : Tidy (anc.head?.bind nameOf) n) {m : EName}
    {as : List (Attr T V)} {ks l : List (Node (Attr T V))} (hl : .elem m as ks :: l ∈ n.lines anc) : Reason (l.head?.bind nameOf) m as ks := by
  match n with
  | .elem n as' ks' =>
    simp only [Node.lines, List.mem_cons, List.cons.injEq, Node.elem.injEq] at hl
    rcases hl with ⟨⟨rfl, rfl, rfl⟩, rfl⟩ | hl
    · exact h.1
    · exact tidyAll_lines ks' (anc := .elem n as' ks' :: anc) h.2 hl
  | .text _ => simp [Node.lines] at hl
  | .css _ => simp [Node.lines] at hl
  | .comment _ => simp [Node.lines] at hl
  | .pi _ _ => simp [Node.lines] at hl
theorem tidyAll_lines {anc : List (Node (Attr T V))} (ns : List (Node (Attr T V))) (h : TidyAll (anc.head?.bind nameOf) ns) {m : EName}
    {as : List (Attr T V)} {ks l : List (Node (Attr T V))} (hl : .elem m as ks :: l ∈ linesAll anc ns) :
    Reason (l.head?.bind nameOf) m as ks := by
  match ns with
  | [] => simp [linesAll] at hl
  | n :: ns =>
    simp only [linesAll, List.mem_append] at hl
    rcases hl with hl | hl
    · exact tidy_lines n h.1 hl
    · exact tidyAll_lines ns h.2 hl
end

/-- **C48 (what remains).** In the result a group without attributes, within an element that is not a `switch`, has no elements in
it or an animation (or a hatch) somewhere within. -/
theorem collapse_clean [DecidableEq T] [DecidableEq V] {word : String → V} {styleFilter : V → Bool} {doc out : List (Node (Attr T V))}
    (h : collapseGroups word styleFilter true doc = .ok out) {g p : EName} {pas : List (Attr T V)} {ks pks anc : List (Node (Attr T V))}
    (hl : .elem g [] ks :: .elem p pas pks :: anc ∈ lines out) (hg : g.is "g" = true) (hp : p.is "switch" = false) :
    (∀ m as js, .elem m as js ∉ ks) ∨ ∃ m as js, Occurs ks (.elem m as js) ∧ moves m := by
  have ht : TidyAll none out := runAll_tidy doc h
  rcases tidyAll_lines (anc := []) out ht hl hg rfl p rfl hp with e | e
  · refine .inl fun m as js hm => ?_
    have := List.any_eq_false.mp e _ hm
    simp [isElem] at this
  · obtain ⟨m, as, js, h1, h2⟩ := anyElems_occurs _ ks e
    exact .inr ⟨m, as, js, h1, isAnimation_iff.mp h2⟩

theorem loop_push [DecidableEq T] [DecidableEq V] (animated : List (Attr T V) → String → Bool) (ha : ∀ c s, animated c s = false) (g c : List (Attr T V))
    (rm : List AName) (hn : ((c ++ g).map (·.name)).Nodup) : loop animated false g c rm = .ok (g, c ++ g, rm ++ g.map (·.name), .done) := by
  induction g generalizing c rm with
  | nil => simp [loop]
  | cons a as ih =>
    have hl : look c a.name = none := by
      rw [look_none]
      intro b hb e
      rw [List.map_append, List.nodup_append] at hn
      exact hn.2.2 b.name (List.mem_map_of_mem hb) a.name (by simp) e
    rw [loop, Bool.and_false, if_neg (by simp), ha, if_neg (by simp)]
    simp only [get_look, hl, Option.map_none]
    rw [ih (c ++ [a]) _ (by simpa using hn)]
    simp

/-- **C48 (it does something).** A group around one element goes away and gives all its attributes to the element: if the names of the
attributes are different, the element has no `id` and is not a group with a transform, the group has none of `clip-path`, `mask`,
`filter` and `style`, and neither is an animation. -/
theorem collapse_does [DecidableEq T] [DecidableEq V] (word : String → V) (styleFilter : V → Bool) {s g n : EName} (sas gas as : List (Attr T V))
    (hs : s.is "switch" = false) (hg : g.is "g" = true) (hn : ¬ moves n) (hd : ((as ++ gas).map (·.name)).Nodup)
    (hid : ∀ a ∈ as, a.name ≠ ⟨"", "id"⟩) (hx : n.is "g" = true → ∀ a ∈ as, a.name ≠ ⟨"", "transform"⟩)
    (hf : ∀ a ∈ gas, ∀ w ∈ ["clip-path", "mask", "filter", "style"], a.name ≠ ⟨"", w⟩) :
    collapseGroups word styleFilter true [.elem s sas [.elem g gas [.elem n as []]]] = .ok [.elem s sas [.elem n (as ++ gas) []]] := by
  have hna : isAnimation n = false := by
    rw [← Bool.not_eq_true, isAnimation_iff]; exact hn
  have no : ∀ {l : List (Attr T V)} {w : String}, (∀ a ∈ l, a.name ≠ ⟨"", w⟩) → has l w = false := by
    intro l w h
    rw [has, List.any_eq_false]
    intro a ha
    simpa [plainName] using h a ha
  have hgs := (among_g hg).1
  have hm : moveAttrs word styleFilter gas n as [] = .ok ([], as ++ gas) := by
    unfold moveAttrs
    by_cases he : gas.isEmpty = true
    · rw [List.isEmpty_iff] at he
      subst he
      simp
    · rw [if_neg he]
      have h1 : identifiable gas as = false := by rw [identifiable, no hid]; rfl
      have h2 : unstable gas n as = false := by
        rw [unstable, no (fun a ha => hf a ha "clip-path" (by simp)), no (fun a ha => hf a ha "mask" (by simp))]
        cases hng : n.is "g" with
        | false => rfl
        | true => rw [no (hx hng)]; rfl
      have h3 : withFilter styleFilter gas = false := by
        have hst : look gas (plainName "style") = none := look_none.mpr fun a ha => hf a ha "style" (by simp)
        rw [withFilter, no (fun a ha => hf a ha "filter" (by simp)), get_look, hst]
        rfl
      rw [h1, h2, h3, hna]
      simp only [Bool.false_eq_true, if_false]
      rw [loop_push _ (fun c w => by simp [anyElem, anyElems, animates, hna]) gas as [] hd]
      simp only [List.nil_append]
      have := drop_all (P' := gas) (Q := []) rfl
      simpa using this
  have h0 : ∀ p : EName, p.is "switch" = false → exit word styleFilter (some p) n as [] = .ok [.elem n as []] := by
    intro p hp
    simp [exit, hp]
  have hsw : g.is "switch" = false := by
    simp only [EName.is] at hg ⊢
    cases hsw : g.loc == lit "switch" with
    | false => simp
    | true =>
      rw [beq_iff_eq] at hsw
      rw [hsw] at hg
      simp [lit] at hg
  have h1 : exit word styleFilter (some s) g gas [.elem n as []] = .ok [.elem n (as ++ gas) []] := by
    have ho : only [Node.elem n as []] = some (n, as, []) := rfl
    simp [exit, hs, hg, isElem, ho, hm, setOnly, anyElems, anyElem, hna]
  have h2 : ∀ k, exit word styleFilter none s sas k = .ok [.elem s sas k] := fun k => rfl
  simp [collapseGroups, runAll, run, h0 g hsw, h1, h2]

end Verif.Collapse
