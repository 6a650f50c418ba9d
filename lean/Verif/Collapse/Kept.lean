import Verif.Collapse.Clean

/-!
# C48: groups that stay
-/

namespace Verif.Collapse

open Verif.Tree Verif.Names Verif.Empty

variable {T V : Type}

theorem not_g_of_moves {n : EName} (h : n.is "g" = true) : isAnimation n = false := by
  simp only [EName.is, Bool.and_eq_true, beq_iff_eq] at h
  have key : ∀ w, lit "g" ≠ lit w → n.is w = false := by
    intro w hw
    simp [EName.is, h.2, hw]
  rw [isAnimation, among, List.any_eq_false]
  intro w hw
  rw [key w (by simp only [List.mem_cons, List.not_mem_nil, or_false] at hw; rcases hw with rfl | rfl | rfl | rfl | rfl | rfl | rfl <;> simp [lit])]
  simp

theorem anyElems_append (q : EName → List (Attr T V) → Bool) (a b : List (Node (Attr T V))) :
    anyElems q (a ++ b) = (anyElems q a || anyElems q b) := by
  induction a with
  | nil => simp [anyElems]
  | cons n ns ih => simp [anyElems, ih, Bool.or_assoc]

theorem setOnly_any (q : EName → Bool) (c : List (Attr T V)) (ks : List (Node (Attr T V))) :
    anyElems (fun m _ => q m) (setOnly c ks) = anyElems (fun m _ => q m) ks := by
  induction ks with
  | nil => rfl
  | cons n ns ih =>
    rw [setOnly, List.map_cons, anyElems, anyElems, ← setOnly, ih]
    cases n <;> rfl

theorem exit_any [DecidableEq T] [DecidableEq V] {word : String → V} {styleFilter : V → Bool} {parent : Option EName} {n : EName}
    {as : List (Attr T V)} {ks out : List (Node (Attr T V))} (h : exit word styleFilter parent n as ks = .ok out) :
    anyElems (fun m _ => isAnimation m) out = anyElems (fun m _ => isAnimation m) [.elem n as ks] := by
  unfold exit at h
  cases parent with
  | none => cases h; rfl
  | some p =>
    dsimp only at h
    split at h
    · cases h; rfl
    split at h
    · cases h; rfl
    rename_i c2
    simp only [Bool.or_eq_true, Bool.not_eq_true', not_or, Bool.not_eq_false] at c2
    have hn := not_g_of_moves c2.1
    have flat : ∀ (as' : List (Attr T V)) (ks' : List (Node (Attr T V))),
        anyElems (fun m _ => isAnimation m) ks' = anyElems (fun m _ => isAnimation m) ks →
        anyElems (fun m _ => isAnimation m) (if !as'.isEmpty then [Node.elem n as' ks'] else
          if anyElems (fun m _ => isAnimation m) ks' then [.elem n as' ks'] else ks') =
          anyElems (fun m _ => isAnimation m) [.elem n as ks] := by
      intro as' ks' hk
      split
      · simp [anyElems, anyElem, hk]
      · split
        · simp [anyElems, anyElem, hk]
        · simp [anyElems, anyElem, hk, hn]
    split at h
    · cases h; exact flat _ _ rfl
    · split at h
      · cases h
      · cases h
        exact flat _ _ (setOnly_any _ _ _)

mutual
theorem run_any [DecidableEq T] [DecidableEq V] {word : String → V} {styleFilter : V → Bool} {parent : Option EName}
    (n : Node (Attr T V)) {out : List (Node (Attr T V))} (h : run word styleFilter parent n = .ok out) :
    anyElems (fun m _ => isAnimation m) out = anyElem (fun m _ => isAnimation m) n := by
  match n with
  | .elem n as ks =>
    rw [run] at h
    split at h
    · cases h
    · rename_i ks' e
      rw [exit_any h, anyElems, anyElem, anyElem, runAll_any ks e]
      simp [anyElems]
  | .text _ => rw [run] at h; cases h; rfl
  | .css _ => rw [run] at h; cases h; rfl
  | .comment _ => rw [run] at h; cases h; rfl
  | .pi _ _ => rw [run] at h; cases h; rfl
theorem runAll_any [DecidableEq T] [DecidableEq V] {word : String → V} {styleFilter : V → Bool} {parent : Option EName}
    (ns : List (Node (Attr T V))) {out : List (Node (Attr T V))} (h : runAll word styleFilter parent ns = .ok out) :
    anyElems (fun m _ => isAnimation m) out = anyElems (fun m _ => isAnimation m) ns := by
  match ns with
  | [] => rw [runAll] at h; cases h; rfl
  | n :: ns =>
    rw [runAll] at h
    split at h
    · cases h
    · rename_i a e1
      split at h
      · cases h
      · rename_i b e2
        cases h
        rw [anyElems_append, run_any n e1, runAll_any ns e2, anyElems]
end

mutual
theorem occurs_anyElem (q : EName → List (Attr T V) → Bool) (n : Node (Attr T V)) {m : EName} {bs : List (Attr T V)}
    {js : List (Node (Attr T V))} (h : Occurs [n] (.elem m bs js)) (hq : q m bs = true) : anyElem q n = true := by
  match n with
  | .elem n as ks =>
    rw [anyElem, Bool.or_eq_true]
    rcases occurs_cons.mp h with h | h | h
    · cases h; exact .inl hq
    · exact .inr (occurs_anyElems q ks h hq)
    · exact absurd h not_occurs_nil
  | .text _ | .css _ | .comment _ | .pi _ _ =>
    rcases occurs_cons.mp h with h | h | h
    · cases h
    · exact absurd h not_occurs_nil
    · exact absurd h not_occurs_nil
theorem occurs_anyElems (q : EName → List (Attr T V) → Bool) (ns : List (Node (Attr T V))) {m : EName} {bs : List (Attr T V)}
    {js : List (Node (Attr T V))} (h : Occurs ns (.elem m bs js)) (hq : q m bs = true) : anyElems q ns = true := by
  match ns with
  | [] => exact absurd h not_occurs_nil
  | n :: ns =>
    rw [anyElems, Bool.or_eq_true]
    rcases (occurs_append (a := [n]) (b := ns)).mp h with h | h
    · exact .inl (occurs_anyElem q n h hq)
    · exact .inr (occurs_anyElems q ns h hq)
end

/-- **C48 (animated groups).** A group with an animation somewhere within it stays, also if it has no attributes. -/
theorem animated_kept [DecidableEq T] [DecidableEq V] {word : String → V} {styleFilter : V → Bool} {s g m : EName}
    {sas gas as : List (Attr T V)} {ks js out : List (Node (Attr T V))} (hg : g.is "g" = true) (ho : Occurs ks (.elem m as js)) (hm : moves m)
    (h : collapseGroups word styleFilter true [.elem s sas [.elem g gas ks]] = .ok out) :
    ∃ gas' ks', out = [.elem s sas [.elem g gas' ks']] := by
  have hany : anyElems (fun m _ => isAnimation m) ks = true := occurs_anyElems _ ks ho (isAnimation_iff.mpr hm)
  simp only [collapseGroups, if_true, runAll, run] at h
  cases e : runAll word styleFilter (some g) ks with
  | error _ => rw [e] at h; cases h
  | ok ks' =>
    rw [e] at h
    have ha := (runAll_any ks e).trans hany
    dsimp only at h
    have hex : ∀ o, exit word styleFilter (some s) g gas ks' = .ok o → ∃ gas' ks'', o = [.elem g gas' ks''] := by
      intro o ho
      unfold exit at ho
      dsimp only at ho
      split at ho
      · cases ho; exact ⟨_, _, rfl⟩
      split at ho
      · cases ho; exact ⟨_, _, rfl⟩
      have flat : ∀ (as' : List (Attr T V)) (k : List (Node (Attr T V))), anyElems (fun m _ => isAnimation m) k = true →
          ∃ gas' ks'', (if !as'.isEmpty then [Node.elem g as' k] else
          if anyElems (fun m _ => isAnimation m) k then [.elem g as' k] else k) = [.elem g gas' ks''] := by
        intro as' k hk
        rw [hk]
        split <;> exact ⟨_, _, rfl⟩
      split at ho
      · cases ho
        split <;> exact ⟨_, _, rfl⟩
      · split at ho
        · cases ho
        · cases ho
          exact flat _ _ (by rw [setOnly_any, ha])
    cases e2 : exit word styleFilter (some s) g gas ks' with
    | error _ => rw [e2] at h; cases h
    | ok o =>
      obtain ⟨gas', ks'', rfl⟩ := hex o e2
      rw [e2] at h
      simp only [List.append_nil, exit, Except.ok.injEq] at h
      exact ⟨gas', ks'', h.symm⟩

theorem runAll_switch [DecidableEq T] [DecidableEq V] {word : String → V} {styleFilter : V → Bool} {w : EName}
    (hw : w.is "switch" = true) {ks ks' : List (Node (Attr T V))} (h : runAll word styleFilter (some w) ks = .ok ks') :
    ks'.map Node.bare = ks.map Node.bare := by
  induction ks generalizing ks' with
  | nil => rw [runAll] at h; cases h; rfl
  | cons n ns ih =>
    rw [runAll] at h
    split at h
    · cases h
    · rename_i a e1
      split at h
      · cases h
      · rename_i b e2
        cases h
        rw [List.map_append, ih e2, List.map_cons]
        have : a.map Node.bare = [n.bare] := by
          cases n with
          | elem m as k =>
            rw [run] at e1
            split at e1
            · cases e1
            · simp only [exit, hw, if_true, Except.ok.injEq] at e1
              subst e1
              rfl
          | text _ => rw [run] at e1; cases e1; rfl
          | css _ => rw [run] at e1; cases e1; rfl
          | comment _ => rw [run] at e1; cases e1; rfl
          | pi _ _ => rw [run] at e1; cases e1; rfl
        rw [this]
        rfl

/-- **C48 (choices).** The choices of a `switch` stay, in their order and with their attributes. -/
theorem switch_kept [DecidableEq T] [DecidableEq V] {word : String → V} {styleFilter : V → Bool} {s w : EName} {sas was : List (Attr T V)}
    {ks out : List (Node (Attr T V))} (hs : s.is "switch" = false) (hw : w.is "switch" = true)
    (h : collapseGroups word styleFilter true [.elem s sas [.elem w was ks]] = .ok out) :
    ∃ ks', out = [.elem s sas [.elem w was ks']] ∧ ks'.map Node.bare = ks.map Node.bare := by
  simp only [collapseGroups, if_true, runAll, run] at h
  cases e : runAll word styleFilter (some w) ks with
  | error _ => rw [e] at h; cases h
  | ok ks' =>
    rw [e] at h
    have hwg : w.is "g" = false := by
      cases hg : w.is "g" with
      | false => rfl
      | true =>
        simp only [EName.is, Bool.and_eq_true, beq_iff_eq] at hg hw
        rw [hg.2] at hw
        simp [lit] at hw
    simp [exit, hs, hwg] at h
    exact ⟨ks', h.symm, runAll_switch hw e⟩

end Verif.Collapse
