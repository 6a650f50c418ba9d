import Verif.Dom.Lemmas

/-! # The child iterator -/

namespace Verif.Dom

variable {h : Heap} {ch : Kids}

/-- Ids tell nodes of the list apart. -/
def IdsDistinct (h : Heap) (l : List Handle) : Prop := ∀ a ∈ l, ∀ b ∈ l, h.id a = h.id b → a = b

/-- A loop over the children with a callback that may edit the tree: the nodes handed to the callback and
the tree at the end. At most `fuel` calls. -/
def walk (f : Handle → Heap → Heap) : Nat → Heap → Iter → List Handle × Heap
  | 0, h, _ => ([], h)
  | fuel + 1, h, i => match i.next h with
    | none => ([], h)
    | some (c, i) =>
      let r := walk f fuel (f c h) i
      (c :: r.1, r.2)

/-- The loop sees exactly the nodes `rest` when every callback leaves the `next` links of the later
nodes as they were. -/
theorem walk_eq (f : Handle → Heap → Heap) (I : List Handle → Heap → Prop) (l : List Handle)
    (hnext : ∀ c rest h, I (c :: rest) h → h.next c = rest.head?)
    (hdist : ∀ rest h, I rest h → IdsDistinct h l)
    (step : ∀ c rest h, I (c :: rest) h → I rest (f c h))
    (keep : ∀ c rest h, I (c :: rest) h → ∀ d ∈ rest, (f c h).next d = h.next d)
    (back : Handle) (hback : l.getLast? = some back) (ndl : l.Nodup) :
    ∀ (rest : List Handle) (h : Heap) (i : Iter) (fuel : Nat), I rest h → (∃ pre, l = pre ++ rest) →
      rest.length ≤ fuel → i.front = rest.head? → i.frontNext = rest.tail.head? →
      (rest ≠ [] → i.back = some back) →
      (walk f fuel h i).1 = rest ∧ I [] (walk f fuel h i).2 := by
  intro rest
  induction rest with
  | nil =>
    intro h i fuel hI _ _ hf _ _
    cases fuel with
    | zero => exact ⟨rfl, hI⟩
    | succ n =>
      simp only [List.head?_nil] at hf
      simp only [walk, Iter.next, hf]
      exact ⟨trivial, hI⟩
  | cons c rest ih =>
    intro h i fuel hI ⟨pre, hl⟩ hfuel hf hfn hb
    cases fuel with
    | zero => simp at hfuel
    | succ n =>
      have hcl : c ∈ l := by simp [hl]
      have hbl : back ∈ l := List.mem_of_getLast? hback
      have hd := hdist _ _ hI
      simp only [List.head?_cons] at hf
      have hb' := hb (by simp)
      have eqb : (i.back.any fun e => h.id e == h.id c) = decide (back = c) := by
        rw [hb']
        simp only [Option.any_some]
        rw [Bool.eq_iff_iff]
        simp only [beq_iff_eq, decide_eq_true_eq]
        exact ⟨fun e => hd _ hbl _ hcl e, fun e => by rw [e]⟩
      simp only [walk, Iter.next, hf, eqb]
      have hI' := step c rest h hI
      cases rest with
      | nil =>
        have : back = c := by
          rw [hl] at hback; simpa using hback.symm
        simp only [this, decide_true, if_true]
        obtain ⟨h1, h2⟩ := ih (f c h) Iter.done n hI' ⟨pre ++ [c], by simp [hl]⟩ (by simp) rfl rfl (by simp)
        simp only [h1]
        exact ⟨trivial, h2⟩
      | cons d rest =>
        have : back ≠ c := by
          rw [hl] at hback ndl
          rcases rest.eq_nil_or_concat with rfl | ⟨r, z, rfl⟩
          · simp at hback; grind
          · simp [List.getLast?_cons] at hback; grind
        simp only [this, decide_false]
        have hd2 : h.next d = rest.head? := by
          have := hnext d rest _ hI'
          rw [keep c (d :: rest) h hI d (by simp)] at this
          exact this
        have hfn' : i.frontNext = some d := by simpa using hfn
        obtain ⟨h1, h2⟩ := ih (f c h) { i with front := i.frontNext, frontNext := i.frontNext.bind h.next } n hI'
          ⟨pre ++ [c], by simp [hl]⟩ (by simpa using hfuel) (by simpa using hfn')
          (by simp [hfn', hd2]) (by intro _; exact hb')
        refine ⟨?_, ?_⟩
        · simpa using h1
        · simpa using h2

theorem new_front {p : Handle} {l : List Handle} (t : Links h p l) :
    (Iter.new h p).front = l.head? ∧ (Iter.new h p).frontNext = l.tail.head? ∧
      (Iter.new h p).back = l.getLast? ∧ (Iter.new h p).endPrev = l.dropLast.getLast? := by
  simp only [Iter.new, t.first, t.last, true_and]
  constructor
  · cases l with
    | nil => rfl
    | cons c l => simpa using (t.child [] c l rfl).2.2
  · rcases l.eq_nil_or_concat with rfl | ⟨l, c, rfl⟩
    · rfl
    · simpa using (t.child l c [] (by simp)).2.1

theorem without_of_free {n : Handle} (free : ∀ q, n ∉ ch q) : without ch n = ch := by
  funext q
  exact List.erase_of_not_mem (free q)

theorem replaceWith_tree (t : Tree h ch) {p c n : Handle} {a b : List Handle} (hc : c ∈ ch p) (ne : n ≠ c)
    (e : without ch n p = a ++ c :: b) :
    Tree (h.replaceWith c n) (upd (without ch n) p (a ++ n :: b)) := by
  have t1 := insertAfter_tree t e
  have t2 := remove_tree t1 c
  have hp := t.parent hc
  have e1 : h.replaceWith c n = (h.insertAfter p n c).remove c := by
    simp only [Heap.replaceWith, Heap.after, hp]
  have e2 : without (upd (without ch n) p (a ++ c :: n :: b)) c = upd (without ch n) p (a ++ n :: b) := by
    funext q
    simp only [without, upd_apply]
    split
    · have := ((remove_tree t n).links p).nodup
      rw [e] at this
      grind
    · next hq =>
      have : c ∉ ch q := fun hm => hq (t.unique hm hc)
      exact List.erase_of_not_mem (fun hm => this (List.mem_of_mem_erase hm))
  rw [e1, ← e2]
  exact t2

theorem insertAfter_id (h : Heap) (p c r : Handle) : (h.insertAfter p c r).id = h.id := by
  funext x
  simp only [Heap.insertAfter, Heap.setParent, Heap.setPrev, Heap.setNext, Heap.setFirst, Heap.setLast]
  split <;> exact remove_id h c x

theorem replaceWith_id (h : Heap) (c n : Handle) : (h.replaceWith c n).id = h.id := by
  funext x
  rw [Heap.replaceWith, remove_id, Heap.after]
  split
  · rfl
  · rw [insertAfter_id]

/-- What the code that is handed a child may do with it. -/
inductive Edit where
  | keep
  | drop
  | unwrap
  | replace (n : Handle)

/-- The edit done on the heap, by `Node::remove`, `Element::flatten` and `Element::replace_with`. -/
def Edit.apply (fuel : Nat) (c : Handle) (h : Heap) : Edit → Heap
  | .keep => h
  | .drop => h.remove c
  | .unwrap => (Heap.flatten fuel h c).getD h
  | .replace n => h.replaceWith c n

/-- What the edit leaves in place of the child. -/
def Edit.result (ch : Kids) (c : Handle) : Edit → List Handle
  | .keep => [c]
  | .drop => []
  | .unwrap => ch c
  | .replace n => [n]

/-- The replacement that the edit brings in. -/
def Edit.fresh : Edit → List Handle
  | .replace n => [n]
  | _ => []

theorem Edit.apply_id (fuel : Nat) (c : Handle) (h : Heap) (ed : Edit) : (ed.apply fuel c h).id = h.id := by
  cases ed with
  | keep => rfl
  | drop => funext x; exact remove_id h c x
  | unwrap =>
    simp only [Edit.apply, Heap.flatten]
    have key : ∀ (par : Option Handle) (fuel : Nat) (g : Heap) (o : Option Handle) (g' : Heap),
        Heap.reparent par fuel g o = some g' → g'.id = g.id := by
      intro par fuel
      induction fuel with
      | zero => intro g o g' e; cases o <;> simp [Heap.reparent] at e; simp [e]
      | succ n ih =>
        intro g o g' e
        cases o with
        | none => simp [Heap.reparent] at e; simp [e]
        | some x =>
          simp only [Heap.reparent] at e
          have := ih _ _ _ e
          exact this
    cases hr : Heap.reparent (h.parent c) fuel (h.setParent c none) ((h.setParent c none).first c) with
    | none => rfl
    | some g =>
      have := key _ _ _ _ _ hr
      simp only [Option.map_some, Option.getD_some, Heap.splice, Heap.setParent, Heap.setPrev, Heap.setNext,
        Heap.setFirst, Heap.setLast] at *
      repeat' split
      all_goals exact this
  | replace n => exact replaceWith_id h c n

/-- One edit inside a loop: the child is replaced by the result, everything else stays. -/
theorem Edit.apply_tree (t : Tree h ch) {p c : Handle} {a b : List Handle} (e : ch p = a ++ c :: b)
    (ne : p ≠ c) {fuel : Nat} (hf : (ch c).length ≤ fuel) (ed : Edit)
    (free : ∀ n ∈ ed.fresh, ∀ q, n ∉ ch q) :
    ∃ ch', Tree (ed.apply fuel c h) ch' ∧ ch' p = a ++ ed.result ch c ++ b ∧
      (∀ q, q ≠ p → q ≠ c → ch' q = ch q) ∧ (∀ q, ∀ x ∈ ch' q, x ∈ ed.fresh ∨ ∃ q', x ∈ ch q') := by
  have hc : c ∈ ch p := by simp [e]
  have nd := (t.links p).nodup
  rw [e] at nd
  cases ed with
  | keep => exact ⟨ch, t, by simp [Edit.result, e], fun _ _ _ => rfl, fun q x hx => .inr ⟨q, hx⟩⟩
  | drop =>
    refine ⟨_, remove_tree t c, ?_, ?_, ?_⟩
    · simp only [without, Edit.result, e]; grind
    · intro q hq hqc
      have : c ∉ ch q := fun hm => hq (t.unique hm hc)
      exact List.erase_of_not_mem this
    · intro q x hx
      exact .inr ⟨q, List.mem_of_mem_erase hx⟩
  | unwrap =>
    obtain ⟨h', e1, t', _⟩ := flatten_tree t e ne hf
    refine ⟨_, by simp only [Edit.apply, e1, Option.getD_some]; exact t', ?_, ?_, ?_⟩
    · simp [upd_apply, ne, Edit.result]
    · intro q hq hqc
      simp [upd_apply, hq, hqc]
    · intro q x hx
      right
      simp only [upd_apply] at hx
      split at hx
      · simp at hx
      · split at hx
        · simp only [List.mem_append] at hx
          rcases hx with (hx | hx) | hx
          · exact ⟨p, by simp [e, hx]⟩
          · exact ⟨c, hx⟩
          · exact ⟨p, by simp [e, hx]⟩
        · exact ⟨q, hx⟩
  | replace n =>
    have fr := free n (by simp [Edit.fresh])
    have w := without_of_free fr
    have nc : n ≠ c := fun h => fr p (h ▸ hc)
    have := replaceWith_tree t hc nc (by rw [w]; exact e)
    rw [w] at this
    refine ⟨_, this, ?_, ?_, ?_⟩
    · simp [upd_apply, Edit.result]
    · intro q hq hqc
      simp [upd_apply, hq]
    · intro q x hx
      simp only [upd_apply] at hx
      split at hx
      · simp only [List.mem_append, List.mem_cons] at hx
        rcases hx with hx | rfl | hx
        · exact .inr ⟨p, by simp [e, hx]⟩
        · exact .inl (by simp [Edit.fresh])
        · exact .inr ⟨p, by simp [e, hx]⟩
      · exact .inr ⟨q, hx⟩

theorem walk_edits (t : Tree h ch) {p : Handle} (hids : IdsDistinct h (ch p)) (hp : p ∉ ch p)
    (ed : Handle → Edit) {fuel fuel' : Nat} (hf : ∀ c ∈ ch p, (ch c).length ≤ fuel)
    (hf' : (ch p).length ≤ fuel')
    (free : ∀ c ∈ ch p, ∀ n ∈ (ed c).fresh, ∀ q, n ∉ ch q)
    (nd : ((ch p).flatMap fun c => (ed c).fresh).Nodup) :
    (walk (fun c g => (ed c).apply fuel c g) fuel' h (Iter.new h p)).1 = ch p ∧
    ∃ ch', Tree (walk (fun c g => (ed c).apply fuel c g) fuel' h (Iter.new h p)).2 ch' ∧
      ch' p = (ch p).flatMap (fun c => (ed c).result ch c) := by
  obtain ⟨f1, f2, f3, f4⟩ := new_front (t.links p)
  generalize hl : ch p = l at *
  have ndl := (t.links p).nodup
  rw [hl] at ndl
  cases hb : l.getLast? with
  | none =>
    have : l = [] := by simpa using hb
    subst this
    have : Iter.new h p = Iter.done := by
      rcases hi : Iter.new h p with ⟨a, b, c, d⟩
      simp_all [Iter.done]
    rw [this]
    cases fuel' with
    | zero => exact ⟨rfl, ch, t, by simp [hl]⟩
    | succ n => exact ⟨rfl, ch, t, by simp [hl]⟩
  | some back =>
    let I : List Handle → Heap → Prop := fun rest g => ∃ dn ch', l = dn ++ rest ∧ Tree g ch' ∧ g.id = h.id ∧
      ch' p = dn.flatMap (fun c => (ed c).result ch c) ++ rest ∧ (∀ c ∈ rest, ch' c = ch c) ∧
      (∀ c ∈ rest, ∀ n ∈ (ed c).fresh, ∀ q, n ∉ ch' q)
    have step : ∀ c rest g, I (c :: rest) g → I rest ((ed c).apply fuel c g) := by
      rintro c rest g ⟨dn, ch', e1, t', e2, e3, e4, e5⟩
      have pc : p ≠ c := fun h => hp (h ▸ (by simp [e1]))
      obtain ⟨ch2, t2, g1, g2, g3⟩ := Edit.apply_tree t' e3 pc
        (by rw [e4 c (by simp)]; exact hf c (by simp [e1])) (ed c) (e5 c (by simp))
      refine ⟨dn ++ [c], ch2, by simp [e1], t2, by rw [Edit.apply_id, e2], ?_, ?_, ?_⟩
      · rw [g1]
        have : (ed c).result ch' c = (ed c).result ch c := by
          cases ed c <;> simp [Edit.result, e4 c (by simp)]
        rw [this]; simp
      · intro d hd
        rw [g2 d]
        · exact e4 d (by simp [hd])
        · exact fun h => hp (h ▸ (by simp [e1, hd]))
        · rw [e1] at ndl
          have : (c :: rest).Nodup := by grind
          grind
      · intro d hd n hn q hm
        rcases g3 q n hm with h1 | ⟨q', h1⟩
        · rw [e1] at nd
          simp only [List.flatMap_append, List.flatMap_cons] at nd
          have : n ∈ rest.flatMap fun c => (ed c).fresh := List.mem_flatMap.mpr ⟨d, hd, hn⟩
          grind
        · exact e5 d (by simp [hd]) n hn q' h1
    have key := walk_eq (fun c g => (ed c).apply fuel c g) I l ?_ ?_ step ?_ back hb ndl l h (Iter.new h p) fuel'
      ⟨[], ch, by simp, t, rfl, by simp [hl], fun _ _ => rfl, free⟩ ⟨[], rfl⟩ hf' f1 f2 (fun _ => by rw [f3, hb])
    · obtain ⟨k1, dn, ch', k2, k3, _, k4, _⟩ := key
      refine ⟨k1, ch', k3, ?_⟩
      have : dn = l := by simpa using k2.symm
      simpa [this] using k4
    · rintro c rest g ⟨dn, ch', e1, t', e2, e3, _⟩
      exact (t'.at_split e3).2.2
    · rintro rest g ⟨dn, ch', e1, t', e2, e3, _⟩ a ha b hb hab
      rw [e2] at hab
      exact hids a ha b hb hab
    · intro c rest g hI d hd
      obtain ⟨m, post, rfl⟩ := List.append_of_mem hd
      obtain ⟨dn', ch2, _, t2, _, e3', _⟩ := step c _ g hI
      obtain ⟨dn, ch', _, t', _, e3, _⟩ := hI
      rw [← List.append_assoc] at e3'
      have a1 := (t2.at_split e3').2.2
      have a2 := (t'.at_split (a := dn.flatMap (fun c => (ed c).result ch c) ++ c :: m) (by simpa using e3)).2.2
      rw [a1, a2]

/-- Taking children from both ends in any order. -/
def Iter.run (h : Heap) : List Bool → Iter → List (Option Handle)
  | [], _ => []
  | front :: w, i => match (if front then i.next h else i.nextBack h) with
    | none => none :: Iter.run h w i
    | some (c, i) => some c :: Iter.run h w i

/-- A double-ended queue. -/
def deque : List Bool → List Handle → List (Option Handle)
  | [], _ => []
  | true :: w, l => l.head? :: deque w l.tail
  | false :: w, l => l.getLast? :: deque w l.dropLast

theorem run_deque {p : Handle} {l : List Handle} (t : Links h p l) (hids : IdsDistinct h l) (w : List Bool) :
    ∀ (a mid b : List Handle) (i : Iter), l = a ++ mid ++ b → i.front = mid.head? →
      i.back = mid.getLast? → (mid ≠ [] → i.frontNext = i.front.bind h.next ∧ i.endPrev = i.back.bind h.prev) →
      Iter.run h w i = deque w mid := by
  have nd := t.nodup
  induction w with
  | nil => intros; rfl
  | cons front w ih =>
    intro a mid b i hl hf hb hn
    cases mid with
    | nil =>
      simp only [List.head?_nil] at hf
      simp only [List.getLast?_nil] at hb
      have := ih a [] b i hl (by simpa using hf) (by simpa using hb) (by simp)
      cases front <;> simp [Iter.run, deque, Iter.next, Iter.nextBack, hf, hb, this]
    | cons c mid =>
      obtain ⟨n1, n2⟩ := hn (by simp)
      have mem : ∀ x ∈ c :: mid, x ∈ l := by intro x hx; rw [hl]; grind
      have done := ih a [] (c :: mid ++ b) Iter.done (by simp [hl]) rfl rfl (by simp)
      have tst : ∀ x ∈ c :: mid, ∀ y ∈ c :: mid, (h.id x == h.id y) = decide (x = y) := by
        intro x hx y hy
        rw [Bool.eq_iff_iff]
        simp only [beq_iff_eq, decide_eq_true_eq]
        exact ⟨fun e => hids _ (mem x hx) _ (mem y hy) e, fun e => by rw [e]⟩
      have ndm : (c :: mid).Nodup := by rw [hl] at nd; grind
      simp only [List.head?_cons] at hf
      cases front with
      | true =>
        simp only [Iter.run, if_true, Iter.next, hf, deque, List.head?_cons, List.tail_cons, hb]
        rcases mid.eq_nil_or_concat with rfl | ⟨m, z, rfl⟩
        · simp [done]
        · have hz : (c :: m.concat z).getLast? = some z := by simp [List.getLast?_cons]
          have zc : z ≠ c := by grind
          rw [hz]
          simp only [Option.any_some, tst z (by simp) c (by simp), zc, decide_false]
          have nx := (t.child a c (m.concat z ++ b) (by simp [hl])).2.2
          refine congrArg _ (ih (a ++ [c]) (m.concat z) b _ (by simp [hl]) ?_ ?_ ?_)
          · simp only [Bool.false_eq_true, if_false, n1, hf, Option.bind_some, nx]
            cases m <;> simp
          · simp
          · intro _
            simp [n2, hb, List.getLast?_cons]
      | false =>
        simp only [Iter.run, Bool.false_eq_true, if_false, Iter.nextBack, deque, hf, hb]
        rcases mid.eq_nil_or_concat with rfl | ⟨m, z, rfl⟩
        · simp [done]
        · have hz : (c :: m.concat z).getLast? = some z := by simp [List.getLast?_cons]
          have zc : c ≠ z := by grind
          rw [hz]
          simp only [Option.any_some, tst c (by simp) z (by simp), zc, decide_false]
          have nx := (t.child (a ++ c :: m) z b (by simp [hl])).2.1
          have dl : (c :: m.concat z).dropLast = c :: m := by
            simp [List.dropLast_cons_of_ne_nil]
          rw [dl]
          refine congrArg _ (ih a (c :: m) (z :: b) _ (by simp [hl]) ?_ ?_ ?_)
          · simp [hf]
          · simp only [Bool.false_eq_true, if_false, n2, hb, hz, Option.bind_some, nx]
            simp [List.getLast?_cons]
          · intro _
            simp [n1, hf]

end Verif.Dom
