import Verif.Scripts.Model
import Verif.Bfs.Model
import Verif.Dom.RetainProps
import Verif.Dom.IterProps
import Mathlib.Data.List.Chain
import Mathlib.Data.List.Perm.Subperm

/-!
# What `retain_children` and `flatten` make of the links

On the heap of `Verif.Dom`: what one sees of the children of the parent afterwards is what `dissolve` says.
-/

namespace Verif.Scripts

open Verif.Dom

/-- What an iterator over children gives while nothing changes. -/
inductive Sees (h : Heap) : Iter → List Handle → Prop
  | nil {i : Iter} : i.front = none → Sees h i []
  | stop {i : Iter} {c : Handle} : i.front = some c → (i.back.any fun e => h.id e == h.id c) = true → Sees h i [c]
  | more {i : Iter} {c : Handle} {l : List Handle} : i.front = some c → (i.back.any fun e => h.id e == h.id c) = false →
      Sees h { i with front := i.frontNext, frontNext := i.frontNext.bind h.next } l → Sees h i (c :: l)

theorem sees_walk {h : Heap} {i : Iter} {l : List Handle} (s : Sees h i l) : ∀ {fuel : Nat}, l.length ≤ fuel → (walk (fun _ g => g) fuel h i).1 = l := by
  induction s with
  | nil hf =>
    intro fuel _
    cases fuel with
    | zero => rfl
    | succ n => simp [walk, Iter.next, hf]
  | @stop i c hf hb =>
    intro fuel hl
    cases fuel with
    | zero => simp at hl
    | succ n =>
      simp only [walk, Iter.next, hf, hb, if_true]
      cases n with
      | zero => rfl
      | succ n => simp [walk, Iter.next, Iter.done]
  | @more i c l hf hb _ ih =>
    intro fuel hl
    cases fuel with
    | zero => simp at hl
    | succ n =>
      simp only [walk, Iter.next, hf, hb, Bool.false_eq_true, if_false]
      rw [ih (by simpa using hl)]

/-- The list along `next_sibling`. -/
def Linked (h : Heap) (l : List Handle) : Prop := l.IsChain fun c d => h.next c = some d

theorem sees_linked {h : Heap} {bk ep : Option Handle} {l : List Handle} (hl : Linked h l) (nd : l.Nodup)
    (h1 : ∀ x ∈ l, (bk.any fun e => h.id e == h.id x) = true → l.getLast? = some x)
    (h2 : ∀ c, l.getLast? = some c → (bk.any fun e => h.id e == h.id c) = true ∨ h.next c = none) :
    Sees h ⟨l.head?, l.head?.bind h.next, ep, bk⟩ l := by
  induction l with
  | nil => exact .nil rfl
  | cons c l ih =>
    cases l with
    | nil =>
      cases hb : bk.any fun e => h.id e == h.id c with
      | true => exact .stop rfl hb
      | false =>
        refine .more rfl hb (.nil ?_)
        rcases h2 c rfl with h | h
        · rw [hb] at h; cases h
        · exact h
    | cons d l =>
      rw [Linked, List.isChain_cons_cons] at hl
      have hb : (bk.any fun e => h.id e == h.id c) = false := by
        rw [Bool.eq_false_iff]
        intro hb
        have := h1 c List.mem_cons_self hb
        rw [List.getLast?_cons_cons] at this
        have := List.mem_of_getLast? this
        grind
      refine .more rfl hb ?_
      have := ih hl.2 (by grind) (fun x hx hb' => ?_) (fun x hx => h2 x (by rw [List.getLast?_cons_cons]; exact hx))
      · simpa [hl.1] using this
      · have := h1 x (.tail _ hx) hb'
        rw [List.getLast?_cons_cons] at this
        exact this

theorem linked_congr {h g : Heap} {l : List Handle} (hl : Linked h l) (nd : l.Nodup) (e : ∀ c ∈ l, l.getLast? ≠ some c → g.next c = h.next c) : Linked g l := by
  induction l with
  | nil => exact List.IsChain.nil
  | cons c l ih =>
    cases l with
    | nil => exact List.IsChain.singleton c
    | cons d l =>
      rw [Linked, List.isChain_cons_cons] at hl ⊢
      refine ⟨?_, ih hl.2 (by grind) fun x hx hne => e x (.tail _ hx) ?_⟩
      · rw [e c List.mem_cons_self, hl.1]
        rw [List.getLast?_cons_cons]
        intro h
        have := List.mem_of_getLast? h
        grind
      · rw [List.getLast?_cons_cons]
        exact hne

theorem linked_append {h : Heap} {a b : List Handle} : Linked h (a ++ b) ↔ Linked h a ∧ Linked h b ∧
    ∀ x, a.getLast? = some x → ∀ y, b.head? = some y → h.next x = some y := List.isChain_append

theorem links_linked {h : Heap} {p : Handle} {l : List Handle} (t : Links h p l) : Linked h l := by
  have key : ∀ l : List Handle, (∀ pre c post, l = pre ++ c :: post → h.next c = post.head?) → Linked h l := by
    intro l
    induction l with
    | nil => exact fun _ => List.IsChain.nil
    | cons c l ih =>
      intro hn
      cases l with
      | nil => exact List.IsChain.singleton c
      | cons d l =>
        rw [Linked, List.isChain_cons_cons]
        exact ⟨hn [] c (d :: l) rfl, ih fun pre x post e => hn (c :: pre) x post (by rw [e]; rfl)⟩
  exact key l fun pre c post e => (t.child pre c post e).2.2

/-- The cells `next`, `first` and `last` after the second part of `flatten`. -/
theorem splice_cells (h : Heap) (p e : Handle) (ne : p ≠ e) (hF : h.first e = none ↔ h.last e = none)
    (hLe : ∀ x, h.last e = some x → x ≠ e ∧ h.prev e ≠ some x) (hPe : h.prev e ≠ some e) :
    (∀ x, (h.splice (some p) e).next x = if h.last e = some x ∧ h.next e ≠ none then h.next e else if h.prev e = some x then (h.first e).or (h.next e)
      else if x = e then none else h.next x) ∧
    (h.splice (some p) e).first p = (if h.prev e = none then (h.first e).or (h.next e) else h.first p) ∧
    (h.splice (some p) e).last p = (if h.next e = none then (h.last e).or (h.prev e) else h.last p) ∧ (h.splice (some p) e).id = h.id := by
  unfold Heap.splice
  cases hp : h.prev e <;> cases hn : h.next e <;> cases hf : h.first e <;> cases hl : h.last e <;>
    simp [hp, hf, hl, Heap.setPrev, Heap.setNext, Heap.setFirst, Heap.setLast, upd_apply] at hF hLe hPe ⊢ <;> grind

theorem dissolve_split {A : Type} (isText : A → Bool) (l : List A) :
    ∃ x y z, l = x ++ y ++ z ∧ (∀ c ∈ x, isText c = true) ∧ (∀ c ∈ y, isText c = false) ∧ (y = [] → z = []) ∧
      (∀ t r, z = t :: r → isText t = true) ∧
      dissolve isText l = if z.any (fun k => !isText k) then (y ++ z.take 1, true) else (y, false) := by
  refine ⟨l.takeWhile isText, (l.dropWhile isText).takeWhile (fun k => !isText k), (l.dropWhile isText).dropWhile (fun k => !isText k), ?_, ?_, ?_, ?_, ?_, rfl⟩
  · rw [List.append_assoc, List.takeWhile_append_dropWhile, List.takeWhile_append_dropWhile]
  · have : ∀ l : List A, ∀ c ∈ l.takeWhile isText, isText c = true := by
      intro l
      induction l with
      | nil => intro c h; cases h
      | cons a l ih =>
        intro c h
        by_cases ha : isText a = true
        · rw [List.takeWhile_cons_of_pos ha] at h
          cases h with
          | head => exact ha
          | tail _ h => exact ih c h
        · rw [List.takeWhile_cons_of_neg ha] at h
          cases h
    exact this l
  · generalize l.dropWhile isText = m
    induction m with
    | nil => intro c h; cases h
    | cons a l ih =>
      intro c h
      by_cases ha : (!isText a) = true
      · rw [List.takeWhile_cons_of_pos (p := fun k => !isText k) ha] at h
        cases h with
        | head => simpa using ha
        | tail _ h => exact ih c h
      · rw [List.takeWhile_cons_of_neg (p := fun k => !isText k) ha] at h
        cases h
  · intro h
    have hd : ∀ l : List A, l.dropWhile isText = [] ∨ ∃ c r, l.dropWhile isText = c :: r ∧ isText c = false := by
      intro l
      induction l with
      | nil => exact .inl rfl
      | cons a l ih =>
        by_cases ha : isText a = true
        · rw [List.dropWhile_cons_of_pos ha]
          exact ih
        · rw [List.dropWhile_cons_of_neg ha]
          exact .inr ⟨a, l, rfl, by simpa using ha⟩
    rcases hd l with hd | ⟨c, r, hd, hc⟩
    · rw [hd]
      rfl
    · rw [hd, List.takeWhile_cons_of_pos (by simp [hc])] at h
      cases h
  · generalize l.dropWhile isText = m
    induction m with
    | nil => intro t r h; cases h
    | cons a l ih =>
      intro t r h
      by_cases ha : (!isText a) = true
      · rw [List.dropWhile_cons_of_pos (p := fun k => !isText k) ha] at h
        exact ih t r h
      · rw [List.dropWhile_cons_of_neg (p := fun k => !isText k) ha] at h
        cases h
        simpa using ha

theorem linked_next {h : Heap} {l : List Handle} (hl : Linked h l) (he : ∀ c, l.getLast? = some c → h.next c = none) :
    ∀ pre c post, l = pre ++ c :: post → h.next c = post.head? := by
  rintro pre c post rfl
  cases post with
  | nil => exact he c (by simp)
  | cons d post =>
    rw [linked_append] at hl
    have := hl.2.1
    rw [Linked, List.isChain_cons_cons] at this
    exact this.1

theorem retainLoop_id (f : Handle → Bool) (p : Handle) : ∀ (fuel : Nat) (h : Heap) (c k : Option Handle) (g : Heap),
    Heap.retainLoop f p fuel h c k = some g → g.id = h.id := by
  intro fuel
  induction fuel with
  | zero =>
    intro h c k g e
    cases c with
    | none => simp only [Heap.retainLoop, Option.some.injEq] at e; rw [e]
    | some c => simp [Heap.retainLoop] at e
  | succ n ih =>
    intro h c k g e
    cases c with
    | none => simp only [Heap.retainLoop, Option.some.injEq] at e; rw [e]
    | some c =>
      simp only [Heap.retainLoop] at e
      split at e
      · rw [ih _ _ _ _ e]
        split <;> rfl
      · rw [ih _ _ _ _ e]
        rfl

theorem filter_none {A : Type} {p : A → Bool} {l : List A} (h : ∀ c ∈ l, p c = false) : l.filter p = [] := by
  rw [List.filter_eq_nil_iff]
  intro c hc
  simp [h c hc]

/-- **C72 (the links)**: in a well formed tree, taking the texts out of an element and flattening it leaves the children of its parent as `dissolve`
says. -/
theorem dissolve_links {h : Heap} {ch : Kids} (t : Tree h ch) {p e : Handle} {a b : List Handle} (hp : ch p = a ++ e :: b) (ne : p ≠ e)
    (ids : IdsDistinct h (ch p ++ ch e)) (isText : Handle → Bool) {fuel : Nat} (hf : (ch e).length ≤ fuel) {seen : Nat}
    (hs : (ch p).length + (ch e).length ≤ seen) :
    ∃ h', ((h.retainChildren fuel e fun c => !isText c).bind fun g => g.flatten fuel e) = some h' ∧
      Verif.Bfs.childNodes seen h' p = a ++ (dissolve isText (ch e)).1 ++ if (dissolve isText (ch e)).2 then [] else b := by
  have tp := t.links p
  have te := t.links e
  have ex := t.at_split hp
  have dis : ∀ x ∈ ch e, x ∉ ch p := fun x hx hm => ne (t.unique hm hx)
  have hlp := links_linked tp
  have hle := links_linked te
  obtain ⟨x, y, z, hl, hx, hy, hyz, hz, hd⟩ := dissolve_split isText (ch e)
  rw [hd]
  clear hd
  obtain ⟨g, hg, g1, g2, g3, g4, g5, g6, g7⟩ := retainLoop_cells (fun c => !isText c) e (ch e) ((h.setLast e none).setFirst e none) none fuel te.nodup
    (fun pre c post e' => (te.child pre c post e').2.2) hf
  have hg' : h.retainChildren fuel e (fun c => !isText c) = some g := by
    rw [← hg]
    unfold Heap.retainChildren
    show Heap.retainLoop _ e fuel _ (h.first e) none = _
    rw [te.first]
  have hid : g.id = h.id := (retainLoop_id _ _ _ _ _ _ _ hg).trans rfl
  rw [hg', Option.bind_some]
  have hec : e ∉ ch e := fun hm => dis e hm (by rw [hp]; simp)
  -- the list without texts
  have hfil : (ch e).filter (fun c => !isText c) = y ++ z.filter fun c => !isText c := by
    rw [hl, List.filter_append, List.filter_append, filter_none (l := x) (by simpa using hx), List.nil_append]
    congr 1
    rw [List.filter_eq_self]
    simpa using hy
  have gpar : g.parent e = some p := by
    rw [g1, if_neg fun h => hec h.1]
    exact ex.1
  have gprev : g.prev e = a.getLast? := by
    rw [g3 e hec]
    exact ex.2.1
  have gnext : ∀ c, g.next c = if c ∈ ch e ∧ isText c = true then none else h.next c := by
    intro c
    rw [g2]
    simp [Heap.setFirst, Heap.setLast]
  have gnexte : g.next e = b.head? := by
    rw [gnext, if_neg fun h => hec h.1]
    exact ex.2.2
  have gfirste : g.first e = (y ++ z.filter fun c => !isText c).head? := by
    rw [g6, if_pos ⟨rfl, rfl⟩, hfil]
    simp [Heap.setFirst, Heap.setLast, upd_apply]
  have glaste : g.last e = (y ++ z.filter fun c => !isText c).getLast? := by
    rw [g7, if_pos rfl, hfil]
    simp [Heap.setFirst, Heap.setLast, upd_apply]
  have gfirstp : g.first p = h.first p := by
    rw [g6, if_neg fun h => ne h.1]
    simp [Heap.setFirst, Heap.setLast, upd_apply, ne]
  have glastp : g.last p = h.last p := by
    rw [g7, if_neg ne]
    simp [Heap.setFirst, Heap.setLast, upd_apply, ne]
  clear g1 g2 g3 g4 g5 g6 g7
  -- what `flatten` walks along
  have nde := te.nodup
  have ndp := tp.nodup
  rw [hl] at nde hle
  have hyz1 : Linked h (y ++ z) := by
    rw [List.append_assoc] at hle
    exact (linked_append.1 hle).2.1
  have hy1 : Linked g y := by
    refine linked_congr (linked_append.1 hyz1).1 (by grind) fun c hc _ => ?_
    rw [gnext, if_neg]
    rintro ⟨_, h2⟩
    rw [hy c hc] at h2
    cases h2
  have hwalk : Linked g (y ++ z.take 1) ∧ ∀ c, (y ++ z.take 1).getLast? = some c → g.next c = none := by
    cases z with
    | nil =>
      simp only [List.take_nil, List.append_nil] at *
      refine ⟨hy1, fun c hc => ?_⟩
      rw [gnext, if_neg]
      · obtain ⟨r, hr⟩ := List.getLast?_eq_some_iff.1 hc
        exact (te.child (x ++ r) c [] (by rw [hl, hr, List.append_assoc])).2.2
      · rintro ⟨_, h2⟩
        rw [hy c (List.mem_of_getLast? hc)] at h2
        cases h2
    | cons k z =>
      have hk := hz k z rfl
      have hkm : k ∈ ch e := by rw [hl]; simp
      refine ⟨linked_append.2 ⟨hy1, List.IsChain.singleton k, fun c hc d hd => ?_⟩, fun c hc => ?_⟩
      · obtain rfl : k = d := by simpa using hd
        rw [gnext, if_neg]
        · exact (linked_append.1 hyz1).2.2 c hc k rfl
        · rintro ⟨_, h2⟩
          rw [hy c (List.mem_of_getLast? hc)] at h2
          cases h2
      · obtain rfl : k = c := by simpa using hc
        rw [gnext, if_pos ⟨hkm, hk⟩]
  have hstart : g.first e = (y ++ z.take 1).head? := by
    rw [gfirste]
    cases y with
    | nil => rw [hyz rfl]; rfl
    | cons => rfl
  obtain ⟨par, r1, -⟩ := reparent_chain (g.parent e) (y ++ z.take 1) (g.setParent e none) fuel (by
      cases z with
      | nil => grind
      | cons k z => simp only [List.take_succ_cons, List.take_zero]; grind)
    (linked_next hwalk.1 hwalk.2) (by
      rw [hl] at hf
      simp only [List.length_append, List.length_take] at hf ⊢
      omega)
  refine ⟨({ g.setParent e none with parent := par } : Heap).splice (g.parent e) e, by
    unfold Heap.flatten
    show (Heap.reparent (g.parent e) fuel (g.setParent e none) (g.first e)).map _ = _
    rw [hstart, r1]
    rfl, ?_⟩
  rw [gpar]
  generalize hk : ({ g.setParent e none with parent := par } : Heap) = k
  have knext : k.next = g.next := by rw [← hk]; rfl
  have kprev : k.prev = g.prev := by rw [← hk]; rfl
  have kfirst : k.first = g.first := by rw [← hk]; rfl
  have klast : k.last = g.last := by rw [← hk]; rfl
  have kid : k.id = h.id := by rw [← hk, ← hid]; rfl
  clear hk r1
  have hfm : ∀ c, (y ++ z.filter fun c => !isText c).getLast? = some c → c ∈ ch e := by
    intro c hc
    rw [← hfil] at hc
    exact List.mem_of_mem_filter (List.mem_of_getLast? hc)
  obtain ⟨c1, c2, c3, c4⟩ := splice_cells k p e ne (by rw [kfirst, klast, gfirste, glaste]; rw [List.head?_eq_none_iff, List.getLast?_eq_none_iff])
    (by
      rw [klast, kprev, glaste, gprev]
      intro c hc
      have hm := hfm c hc
      refine ⟨fun h => hec (h ▸ hm), fun h => dis c hm ?_⟩
      rw [hp]
      exact List.mem_append_left _ (List.mem_of_getLast? h))
    (by
      rw [kprev, gprev]
      intro h
      have := List.mem_of_getLast? h
      rw [hp] at ndp
      grind)
  generalize k.splice (some p) e = w at c1 c2 c3 c4 ⊢
  rw [klast, knext, kprev, kfirst, glaste, gnexte, gprev, gfirste] at c1
  rw [kprev, kfirst, knext, gprev, gfirste, gnexte, gfirstp, tp.first, hp] at c2
  rw [knext, klast, kprev, gnexte, glaste, gprev, glastp, tp.last, hp] at c3
  rw [kid] at c4
  -- what is seen
  have see : ∀ R : List Handle, Linked w R → R.Nodup → (∀ c ∈ R, c ∈ ch p ++ ch e) → w.first p = R.head? →
      (∀ c ∈ R, w.last p = some c → R.getLast? = some c) → (∀ c, R.getLast? = some c → w.last p = some c ∨ w.next c = none) →
      (∀ c, w.last p = some c → c ∈ ch p ++ ch e) → Verif.Bfs.childNodes seen w p = R := by
    intro R h1 h2 h3 h4 h5 h6 h7
    have any : ∀ c ∈ R, ((w.last p).any fun d => w.id d == w.id c) = true ↔ w.last p = some c := by
      intro c hc
      cases hlw : w.last p with
      | none => simp
      | some d =>
        simp only [Option.any_some, beq_iff_eq, Option.some.injEq, c4]
        exact ⟨fun hi => ids d (h7 d hlw) c (h3 c hc) hi, fun hi => by rw [hi]⟩
    refine sees_walk (?_ : Sees w (Iter.new w p) R) ?_
    · have := sees_linked (ep := (w.last p).bind w.prev) (bk := w.last p) h1 h2 (fun c hc hb => h5 c hc ((any c hc).1 hb))
        (fun c hc => (h6 c hc).imp_left ((any c (List.mem_of_getLast? hc)).2))
      rw [← h4] at this
      exact this
    · have := (h2.subperm h3).length_le
      rw [List.length_append] at this
      omega
  rw [hp] at hlp ndp dis
  have la : Linked h a := (linked_append.1 hlp).1
  have lb : Linked h b := by
    have := (linked_append.1 hlp).2.1
    rw [← List.singleton_append, linked_append] at this
    exact this.2.1
  have gn : ∀ c ∈ a ++ e :: b, g.next c = h.next c := by
    intro c hc
    rw [gnext, if_neg]
    exact fun h => dis c h.1 hc
  have hLm : ∀ c, (y ++ z.filter fun c => !isText c).getLast? = some c → c ∉ a ++ e :: b := fun c hc => dis c (hfm c hc)
  have wa : Linked w a := by
    refine linked_congr la (by grind) fun c hc hne => ?_
    rw [c1, if_neg fun h => hLm c h.1 (List.mem_append_left _ hc), if_neg hne, if_neg (by grind), gn c (by grind)]
  have wb : Linked w b := by
    refine linked_congr lb (by grind) fun c hc hne => ?_
    rw [c1, if_neg fun h => hLm c h.1 (by grind), if_neg (fun h => by have := List.mem_of_getLast? h; grind), if_neg (by grind), gn c (by grind)]
  have wy : ∀ c ∈ y, (y ++ z.filter fun c => !isText c).getLast? ≠ some c → w.next c = g.next c := by
    intro c hc hne
    have hm : c ∈ ch e := by rw [hl]; simp [hc]
    rw [c1, if_neg fun h => hne h.1, if_neg (fun h => dis c hm (List.mem_append_left _ (List.mem_of_getLast? h))),
      if_neg (fun h : c = e => hec (h ▸ hm))]
  have we : ∀ c, (a ++ e :: b).getLast? = some c → b ≠ [] → b.getLast? = some c := by
    intro c hc hb
    cases b with
    | nil => exact absurd rfl hb
    | cons d b => simpa [List.getLast?_append, List.getLast?_cons_cons] using hc
  have hsub : ∀ c ∈ y, c ∈ ch e := fun c hc => by rw [hl]; simp [hc]
  by_cases hb : (z.any fun k => !isText k) = true
  · rw [if_pos hb]
    cases z with
    | nil => cases hb
    | cons k z =>
      have hkt := hz k z rfl
      have hyn : y ≠ [] := fun h => by cases hyz h
      have hkm : k ∈ ch e := by rw [hl]; simp
      have hzf : (k :: z).filter (fun c => !isText c) = z.filter fun c => !isText c := by simp [hkt]
      rw [hzf] at hfil gfirste glaste hfm c1 c2 c3 hLm wy
      have hzn : z.filter (fun c => !isText c) ≠ [] := by
        simpa [hkt] using hb
      obtain ⟨d, hd⟩ : ∃ d, (z.filter fun c => !isText c).getLast? = some d := by
        cases h : (z.filter fun c => !isText c).getLast? with
        | none => exact absurd (List.getLast?_eq_none_iff.1 h) hzn
        | some d => exact ⟨d, rfl⟩
      have hL : (y ++ z.filter fun c => !isText c).getLast? = some d := by simp [List.getLast?_append, hd]
      have hdz : d ∈ z := List.mem_of_mem_filter (List.mem_of_getLast? hd)
      have hdm : d ∈ ch e := by rw [hl]; simp [hdz]
      simp only [List.take_succ_cons, List.take_zero, if_true, List.append_nil] at hwalk ⊢
      obtain ⟨f, y', rfl⟩ : ∃ f y', y = f :: y' := by
        cases y with
        | nil => exact absurd rfl hyn
        | cons f y' => exact ⟨f, y', rfl⟩
      have hwk : w.next k = none := by
        rw [c1, if_neg, if_neg (fun h => dis k hkm (List.mem_append_left _ (List.mem_of_getLast? h))), if_neg (fun h : k = e => hec (h ▸ hkm)), gnext, if_pos ⟨hkm, hkt⟩]
        rw [hL]
        rintro ⟨h, _⟩
        cases h
        grind
      have nR : (f :: y' ++ [k]).Nodup := by
        rw [List.append_assoc, List.nodup_append] at nde
        have := nde.2.1
        rw [← List.singleton_append (l := z), ← List.append_assoc, List.nodup_append] at this
        exact this.1
      have dR : d ∉ f :: y' ++ [k] := by
        rw [List.append_assoc, List.nodup_append] at nde
        have := nde.2.1
        rw [← List.singleton_append (l := z), ← List.append_assoc, List.nodup_append] at this
        exact fun h => this.2.2 d h d hdz rfl
      have sR : ∀ c ∈ f :: y' ++ [k], c ∈ ch e := by
        intro c hc
        rw [hl]
        rcases List.mem_append.1 hc with hc | hc
        · exact List.mem_append_left _ (List.mem_append_right _ hc)
        · rw [List.mem_singleton] at hc
          subst hc
          exact List.mem_append_right _ List.mem_cons_self
      have dis2 : ∀ c ∈ f :: y' ++ [k], c ∉ a ++ e :: b := fun c hc => dis c (sR c hc)
      refine see _ ?_ ?_ ?_ ?_ ?_ ?_ ?_
      · refine linked_append.2 ⟨wa, ?_, fun c hc d hd => ?_⟩
        · refine linked_congr hwalk.1 nR fun c hc hne => wy c ?_ ?_
          · rw [List.getLast?_concat] at hne
            rcases List.mem_append.1 hc with hc | hc
            · exact hc
            · rw [List.mem_singleton] at hc
              exact absurd (by rw [hc]) hne
          · rw [hL]
            intro h
            cases h
            exact dR hc
        · rw [c1, if_neg fun h => hLm c h.1 (List.mem_append_left _ (List.mem_of_getLast? hc)), if_pos hc]
          simpa using hd
      · refine List.nodup_append.2 ⟨(List.nodup_append.1 ndp).1, nR, fun c hc d hd h => ?_⟩
        subst h
        exact dis2 c hd (List.mem_append_left _ hc)
      · intro c hc
        rw [hp]
        rcases List.mem_append.1 hc with hc | hc
        · exact List.mem_append_left _ (List.mem_append_left _ hc)
        · exact List.mem_append_right _ (sR c hc)
      · rw [c2]
        cases a with
        | nil => simp
        | cons c a => simp
      · intro c hc hw
        exfalso
        rw [c3] at hw
        split at hw
        · rw [hL] at hw
          cases hw
          rcases List.mem_append.1 hc with hc | hc
          · exact dis d hdm (List.mem_append_left _ hc)
          · exact dR hc
        · next h =>
          have hcb := List.mem_of_getLast? (we c hw (by rintro rfl; exact h rfl))
          rcases List.mem_append.1 hc with hc | hc
          · exact (List.nodup_append.1 ndp).2.2 c hc c (.tail _ hcb) rfl
          · exact dis2 c hc (List.mem_append_right _ (.tail _ hcb))
      · intro c hc
        right
        rw [← List.append_assoc, List.getLast?_concat] at hc
        cases hc
        exact hwk
      · intro c hw
        rw [hp]
        rw [c3] at hw
        split at hw
        · rw [hL] at hw
          cases hw
          exact List.mem_append_right _ hdm
        · next h => exact List.mem_append_left _ (List.mem_of_getLast? hw)
  · rw [if_neg hb]
    have hzf : z.filter (fun c => !isText c) = [] := by
      rw [List.filter_eq_nil_iff]
      rw [List.any_eq_true] at hb
      intro c hc h
      exact hb ⟨c, hc, h⟩
    rw [hzf, List.append_nil] at hfil gfirste glaste hfm c1 c2 c3 hLm wy
    simp only [Bool.false_eq_true, if_false]
    have hmem : ∀ c ∈ a ++ y ++ b, c ∈ a ++ e :: b ++ ch e := by
      intro c hc
      rcases List.mem_append.1 hc with hc | hc
      · rcases List.mem_append.1 hc with hc | hc
        · exact List.mem_append_left _ (List.mem_append_left _ hc)
        · exact List.mem_append_right _ (hsub c hc)
      · exact List.mem_append_left _ (List.mem_append_right _ (.tail _ hc))
    have hyl : Linked w y := linked_congr hy1 (by grind) fun c hc hne => wy c hc hne
    have hend : ∀ c, (a ++ y ++ b).getLast? = some c → w.last p = some c := by
      intro c hc
      rw [c3]
      cases b with
      | nil =>
        rw [List.append_nil, List.getLast?_append] at hc
        simpa using hc
      | cons d b =>
        simp only [List.head?_cons, reduceCtorEq, if_false]
        rw [List.getLast?_append] at hc ⊢
        rw [List.getLast?_cons_cons]
        cases h : (d :: b).getLast? with
        | none => simp at h
        | some z => rw [h] at hc; exact hc
    have hend' : ∀ c, w.last p = some c → (a ++ y ++ b).getLast? = some c := by
      intro c hc
      rw [c3] at hc
      cases b with
      | nil =>
        rw [List.append_nil, List.getLast?_append]
        simpa using hc
      | cons d b =>
        simp only [List.head?_cons, reduceCtorEq, if_false] at hc
        rw [List.getLast?_append] at hc ⊢
        rw [List.getLast?_cons_cons] at hc
        cases h : (d :: b).getLast? with
        | none => simp at h
        | some z => rw [h] at hc; exact hc
    refine see _ ?_ ?_ ?_ ?_ (fun c _ hc => hend' c hc) (fun c hc => .inl (hend c hc)) ?_
    · refine linked_append.2 ⟨linked_append.2 ⟨wa, hyl, fun c hc d hd => ?_⟩, wb, fun c hc d hd => ?_⟩
      · rw [c1, if_neg fun h => hLm c h.1 (List.mem_append_left _ (List.mem_of_getLast? hc)), if_pos hc, hd]
        rfl
      · rw [c1]
        rw [List.getLast?_append] at hc
        cases hyc : y.getLast? with
        | none =>
          rw [hyc] at hc
          have : y = [] := List.getLast?_eq_none_iff.1 hyc
          subst this
          rw [if_neg (by simp), if_pos (by simpa using hc), hd]
          rfl
        | some l =>
          rw [hyc] at hc
          cases hc
          rw [if_pos ⟨rfl, by rw [hd]; simp⟩, hd]
    · have n1 := List.nodup_append.1 ndp
      have n2 := List.nodup_cons.1 n1.2.1
      have n3 : y.Nodup := by grind
      refine List.nodup_append.2 ⟨List.nodup_append.2 ⟨n1.1, n3, fun c hc d hd h => ?_⟩, n2.2, fun c hc d hd h => ?_⟩
      · subst h
        exact dis c (hsub c hd) (List.mem_append_left _ hc)
      · subst h
        rcases List.mem_append.1 hc with hc | hc
        · exact n1.2.2 c hc c (.tail _ hd) rfl
        · exact dis c (hsub c hc) (List.mem_append_right _ (.tail _ hd))
    · intro c hc
      rw [hp]
      exact hmem c hc
    · rw [c2]
      cases a with
      | nil => simp [List.head?_append]
      | cons c a => simp
    · intro c hc
      rw [hp]
      exact hmem c (List.mem_of_getLast? (hend' c hc))

end Verif.Scripts
