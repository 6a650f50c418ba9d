import Verif.Reuse.Collect

/-! # The treatment of the lists -/

namespace Verif.Reuse

variable {D P A E : Type} [DecidableEq D] [DecidableEq P]

/-- No children added. -/
def nowhere : Nat → List Tree := fun _ => []

/-- Children added to one element. -/
def only (hd : Nat) (ns : List Tree) : Nat → List Tree := fun h => if h = hd then ns else []

mutual
theorem appendTo_eq (hd : Nat) (n : Tree) : ∀ t, appendTo hd n t = image nowhere (only hd [n]) t
  | .node h ks => by simp [appendTo, image, nowhere, only, appendAll_eq hd n ks]
theorem appendAll_eq (hd : Nat) (n : Tree) : ∀ ts, appendAll hd n ts = imageAll nowhere (only hd [n]) ts
  | [] => by simp [appendAll, imageAll]
  | t :: ts => by simp [appendAll, imageAll, appendTo_eq hd n t, appendAll_eq hd n ts]
end

mutual
theorem prependTo_eq (hd : Nat) (n : Tree) : ∀ t, prependTo hd n t = image (only hd [n]) nowhere t
  | .node h ks => by simp [prependTo, image, nowhere, only, prependAll_eq hd n ks]
theorem prependAll_eq (hd : Nat) (n : Tree) : ∀ ts, prependAll hd n ts = imageAll (only hd [n]) nowhere ts
  | [] => by simp [prependAll, imageAll]
  | t :: ts => by simp [prependAll, imageAll, prependTo_eq hd n t, prependAll_eq hd n ts]
end

mutual
theorem image_nowhere : ∀ t, image nowhere nowhere t = t
  | .node h ks => by
    rw [image, imageAll_nowhere ks]
    simp [nowhere]
theorem imageAll_nowhere : ∀ ts, imageAll nowhere nowhere ts = ts
  | [] => by simp [imageAll]
  | t :: ts => by rw [imageAll, image_nowhere t, imageAll_nowhere ts]
end

theorem only_nil (hd : Nat) : only hd [] = nowhere := by
  funext h; simp [only, nowhere]

/-- The nodes of the definitions. -/
def leaves (ns : List Nat) : List Tree := ns.map fun n => .node n []

theorem imageAll_append (pre post : Nat → List Tree) (a b : List Tree) :
    imageAll pre post (a ++ b) = imageAll pre post a ++ imageAll pre post b := by
  induction a with
  | nil => simp [imageAll]
  | cons t a ih => simp [imageAll, ih]

theorem imageAll_leaves (hd : Nat) (x : List Tree) (ns : List Nat) (hn : hd ∉ ns) :
    imageAll nowhere (only hd x) (leaves ns) = leaves ns := by
  induction ns with
  | nil => simp [leaves, imageAll]
  | cons n ns ih =>
    rw [List.mem_cons, not_or] at hn
    have hne : ¬ n = hd := fun h => hn.1 h.symm
    have := ih hn.2
    rw [leaves] at this
    simp [leaves, imageAll, image, nowhere, only, hne, this]

mutual
theorem append_image (hd n : Nat) (ns : List Nat) (hn : hd ∉ ns) : ∀ t,
    appendTo hd (.node n []) (image nowhere (only hd (leaves ns)) t) =
      image nowhere (only hd (leaves (ns ++ [n]))) t
  | .node h ks => by
    have ih := append_imageAll hd n ns hn ks
    rw [appendAll_eq] at ih
    rw [appendTo_eq, image, image, image]
    simp only [nowhere, List.nil_append, imageAll_append]
    rw [ih]
    by_cases hh : h = hd
    · subst hh
      have : only h (leaves ns) h = leaves ns := by simp [only]
      rw [this, imageAll_leaves h _ ns hn]
      simp [leaves, only]
    · simp [only, hh, imageAll]
theorem append_imageAll (hd n : Nat) (ns : List Nat) (hn : hd ∉ ns) : ∀ ts,
    appendAll hd (.node n []) (imageAll nowhere (only hd (leaves ns)) ts) =
      imageAll nowhere (only hd (leaves (ns ++ [n]))) ts
  | [] => by simp [appendAll, imageAll]
  | t :: ts => by
    rw [imageAll, appendAll, imageAll, append_image hd n ns hn t, append_imageAll hd n ns hn ts]
end

mutual
theorem dropKids_eq (x : Nat) : ∀ t, (∀ u ∈ subs t, u.handle = x → u.kids = []) → dropKids x t = t
  | .node h ks, hu => by
    rw [dropKids]
    have h1 := hu (.node h ks) (by simp [subs])
    simp only [Tree.handle, Tree.kids] at h1
    split
    · rename_i hx; rw [h1 hx]
    · rw [dropKidsAll_eq x ks fun u hm => hu u (by simp [subs, hm])]
theorem dropKidsAll_eq (x : Nat) : ∀ ts, (∀ u ∈ subsAll ts, u.handle = x → u.kids = []) → dropKidsAll x ts = ts
  | [], _ => by simp [dropKidsAll]
  | t :: ts, hu => by
    rw [dropKidsAll, dropKids_eq x t fun u hm => hu u (by simp [subsAll, hm]),
      dropKidsAll_eq x ts fun u hm => hu u (by simp [subsAll, hm])]
end

/-- The element has no children and is not among the definitions. -/
structure Leaf (root : Tree) (hd h : Nat) : Prop where
  kids : ∀ u ∈ subs root, u.handle = h → u.kids = []
  outside : ∀ u ∈ subs root, u.handle = hd → ∀ v ∈ subsAll u.kids, v.handle ≠ h

theorem mem_subsAll_leaves {u : Tree} {ns : List Nat} : u ∈ subsAll (leaves ns) ↔ ∃ n ∈ ns, u = .node n [] := by
  rw [mem_subsAll]
  simp only [leaves, List.mem_map]
  constructor
  · rintro ⟨t, ⟨n, hn, rfl⟩, hu⟩
    simp [subs, subsAll] at hu
    exact ⟨n, hn, hu⟩
  · rintro ⟨n, hn, rfl⟩
    exact ⟨_, ⟨n, hn, rfl⟩, mem_subs_self _⟩

theorem mem_subs_only {root : Tree} {hd : Nat} {ns : List Nat} {u : Tree}
    (h : u ∈ subs (image nowhere (only hd (leaves ns)) root)) :
    (∃ v ∈ subs root, u = image nowhere (only hd (leaves ns)) v) ∨ ∃ n ∈ ns, u = .node n [] := by
  rcases (mem_subs_image _ _).1 h with h | ⟨v, hv, h | h⟩
  · exact .inl h
  · simp [nowhere, subsAll] at h
  · unfold only at h
    split at h
    · exact .inr (mem_subsAll_leaves.1 h)
    · simp [subsAll] at h

theorem Leaf.image {root : Tree} {hd h : Nat} (l : Leaf root hd h) (hne : h ≠ hd) {ns : List Nat} (hn : h ∉ ns)
    (hd' : hd ∉ ns) : Leaf (image nowhere (only hd (leaves ns)) root) hd h where
  kids := by
    intro u hu he
    rcases mem_subs_only hu with ⟨v, hv, rfl⟩ | ⟨n, hm, rfl⟩
    · rw [image_handle] at he
      have := l.kids v hv he
      cases v with
      | node x ks =>
        simp only [Tree.kids, Tree.handle] at this he
        subst he this
        simp [Reuse.image, Tree.kids, nowhere, only, hne, imageAll]
    · simp [Tree.kids]
  outside := by
    intro u hu he v hv hvh
    rcases mem_subs_only hu with ⟨w, hw, rfl⟩ | ⟨n, hm, rfl⟩
    · rw [image_handle] at he
      have := l.outside w hw he
      cases w with
      | node x ks =>
        simp only [Tree.kids, Tree.handle] at this he
        simp only [Reuse.image, Tree.kids, nowhere, List.nil_append, subsAll_append, List.mem_append] at hv
        rcases hv with hv | hv
        · rw [mem_subsAll_image] at hv
          rcases hv with ⟨y, hy, rfl⟩ | ⟨y, hy, h | h⟩
          · rw [image_handle] at hvh
            exact this y hy hvh
          · simp [nowhere, subsAll] at h
          · unfold only at h
            split at h
            · obtain ⟨n, hn', rfl⟩ := mem_subsAll_leaves.1 h
              exact hn (by rw [← hvh]; exact hn')
            · simp [subsAll] at h
        · simp only [only, he, if_true] at hv
          obtain ⟨n, hn', rfl⟩ := mem_subsAll_leaves.1 hv
          exact hn (by rw [← hvh]; exact hn')
    · simp [Tree.kids, subsAll] at hv

theorem convert_leaf (svg hd : Nat) (url : Text) (s : State D P A) (h : Nat) (l : Leaf s.root hd h) :
    convert svg hd url s h = s.upd h fun e => become url (strip e) := by
  have hin : inside s.root hd h = false := by
    rw [← Bool.not_eq_true, inside, List.any_eq_true]
    rintro ⟨u, hu, hh⟩
    simp only [Bool.and_eq_true, decide_eq_true_eq, List.any_eq_true] at hh
    obtain ⟨h1, v, hv, h2⟩ := hh
    exact l.outside u hu h1 v hv h2
  have ht : tidy svg hd url (s.upd h strip) h = s.upd h strip := by
    unfold tidy
    rw [if_neg]
    simp [State.upd, hin]
  unfold convert
  simp only [ht]
  simp only [State.upd, dropKids_eq h s.root l.kids, State.mk.injEq, true_and, and_true]
  funext x
  by_cases hx : x = h <;> simp [hx]

theorem become_strip_idem (url : Text) (e : El D P A) :
    become url (strip (become url (strip e))) = become url (strip e) := by
  simp [become, strip]

theorem convert_fold (svg hd : Nat) (url : Text) (l : List Nat) : ∀ (s : State D P A),
    (∀ h ∈ l, Leaf s.root hd h) →
    l.foldl (convert svg hd url) s =
      { s with heap := fun x => if x ∈ l then become url (strip (s.heap x)) else s.heap x } := by
  induction l with
  | nil => intro s _; simp
  | cons h l ih =>
    intro s hs
    rw [List.foldl_cons, convert_leaf svg hd url s h (hs h (by simp)),
      ih (s.upd h fun e => become url (strip e)) fun x hx => hs x (by simp [hx])]
    simp only [State.upd, State.mk.injEq, true_and, and_true]
    funext x
    by_cases hx : x = h
    · by_cases hl : x ∈ l
      · subst hx; simp [hl, become_strip_idem]
      · subst hx; simp [hl]
    · simp [hx]

/-- A treated list: the list, the handle and the number of its definition. -/
structure Entry where
  list : List Nat
  n : Nat
  index : Nat

/-- The first path of a list. -/
def Entry.head (e : Entry) : Nat := e.list.headD 0

variable (sel : Text → Bool) (reuse : Nat → Text)

/-- The definition of a list, from the data at the start. -/
def Entry.def' (e : Entry) (hrefs : List Text) (H : Nat → El D P A) : El D P A :=
  definition sel reuse hrefs e.index (H e.head)

/-- The reference of a list. -/
def Entry.url (e : Entry) (hrefs : List Text) (H : Nat → El D P A) : Text :=
  35 :: (e.def' sel reuse hrefs H).id.getD []

/-- What becomes of a path of the list. -/
def Entry.conv (e : Entry) (hrefs : List Text) (H : Nat → El D P A) (x : Nat) : El D P A :=
  become (e.url sel reuse hrefs H)
    (strip (if x = e.head ∧ moves sel hrefs (H x) = true then { H x with id := none } else H x))

/-- The state after some lists. -/
structure Treated (hd : Nat) (s1 : State D P A) (es : List Entry) (index : Nat) (s : State D P A) : Prop where
  root : s.root = image nowhere (only hd (leaves (es.map Entry.n))) s1.root
  hrefs : s.hrefs = s1.hrefs
  next : s1.next ≤ s.next
  between : ∀ e ∈ es, s1.next ≤ e.n ∧ e.n < s.next
  def' : ∀ e ∈ es, s.heap e.n = e.def' sel reuse s1.hrefs s1.heap
  conv : ∀ e ∈ es, ∀ x ∈ e.list, s.heap x = e.conv sel reuse s1.hrefs s1.heap x
  kept : ∀ x, x < s1.next → (∀ e ∈ es, x ∉ e.list) → s.heap x = s1.heap x
  lists : ∀ e ∈ es, 2 ≤ e.list.length
  small : ∀ e ∈ es, ∀ x ∈ e.list, x < s1.next
  index : ∀ e ∈ es, moves sel s1.hrefs (s1.heap e.head) = false → e.index < index
  numbers : ∀ e ∈ es, ∀ e' ∈ es, moves sel s1.hrefs (s1.heap e.head) = false →
    moves sel s1.hrefs (s1.heap e'.head) = false → e.index = e'.index → e.n = e'.n
  handles : ∀ e ∈ es, ∀ e' ∈ es, e.n = e'.n → e = e'
  apart : ∀ e ∈ es, ∀ e' ∈ es, ∀ x ∈ e.list, x ∈ e'.list → e = e'

theorem Treated.group {svg hd : Nat} {s1 : State D P A} {es : List Entry} {index : Nat} {s : State D P A}
    (t : Treated sel reuse hd s1 es index s) (g : Key D P × List Nat)
    (hdn : hd < s1.next) (hlt : ∀ x ∈ g.2, x < s1.next) (hleaf : ∀ x ∈ g.2, Leaf s1.root hd x)
    (hne : ∀ x ∈ g.2, x ≠ hd) (hdis : ∀ e ∈ es, ∀ x ∈ g.2, x ∉ e.list) (hlen : 2 ≤ g.2.length) :
    Treated sel reuse hd s1
      (es ++ [⟨g.2, s.next, index⟩])
      (group sel reuse svg hd (s, index) g).2 (group sel reuse svg hd (s, index) g).1 := by
  obtain ⟨k, l⟩ := g
  match l, hlen with
  | h :: h2 :: rest, _ =>
  simp only at hlt hleaf hne hdis
  obtain ⟨list, hlist⟩ : ∃ list, list = h :: h2 :: rest := ⟨_, rfl⟩
  have hkept : ∀ x ∈ list, s.heap x = s1.heap x := fun x hx =>
    t.kept x (hlt x (hlist ▸ hx)) fun e he hm => hdis e he x (hlist ▸ hx) hm
  have hhead : s.heap h = s1.heap h := hkept h (by simp [hlist])
  have hdnot : hd ∉ es.map Entry.n := by
    rw [List.mem_map]
    rintro ⟨e, he, rfl⟩
    exact absurd hdn (Nat.not_lt.2 (t.between e he).1)
  have hdnot' : hd ∉ es.map Entry.n ++ [s.next] := by
    rw [List.mem_append, List.mem_singleton, not_or]
    exact ⟨hdnot, by have := t.next; omega⟩
  have hroot : appendTo hd (.node s.next []) s.root =
      image nowhere (only hd (leaves (es.map Entry.n ++ [s.next]))) s1.root := by
    rw [t.root]
    exact append_image hd s.next _ hdnot s1.root
  obtain ⟨s2, hs2⟩ : ∃ s2 : State D P A, s2 =
      if moves sel s1.hrefs (s1.heap h) = true then
        (({ s with root := appendTo hd (.node s.next []) s.root, next := s.next + 1 } : State D P A).upd s.next
          fun _ => definition sel reuse s1.hrefs index (s1.heap h)).upd h fun e => { e with id := none }
      else ({ s with root := appendTo hd (.node s.next []) s.root, next := s.next + 1 } : State D P A).upd s.next
          fun _ => definition sel reuse s1.hrefs index (s1.heap h) := ⟨_, rfl⟩
  have hroot2 : s2.root = image nowhere (only hd (leaves (es.map Entry.n ++ [s.next]))) s1.root := by
    rw [hs2]
    split <;> simp [State.upd, hroot]
  have hnext2 : s2.next = s.next + 1 := by
    rw [hs2]
    split <;> simp [State.upd]
  have hhrefs2 : s2.hrefs = s1.hrefs := by
    rw [hs2]
    split <;> simp [State.upd, t.hrefs]
  have hn : h ≠ s.next := by
    have := hlt h (by simp)
    have := t.next
    omega
  have hheap2 : ∀ x, s2.heap x =
      if x = s.next then definition sel reuse s1.hrefs index (s1.heap h)
      else if x = h ∧ moves sel s1.hrefs (s1.heap h) = true then { s1.heap h with id := none }
      else s.heap x := by
    intro x
    rw [hs2]
    simp only [State.upd]
    by_cases hm : moves sel s1.hrefs (s1.heap h) = true
    · by_cases hx : x = h
      · subst hx
        simp [hm, hn, hhead]
      · simp [hm, hx]
    · simp [hm]
  have hleaf2 : ∀ x ∈ list, Leaf s2.root hd x := by
    intro x hx
    rw [hroot2]
    rw [hlist] at hx
    refine (hleaf x hx).image (hne x hx) ?_ hdnot'
    rw [List.mem_append, List.mem_singleton, not_or, List.mem_map]
    have hxl := hlt x hx
    constructor
    · rintro ⟨e, he, rfl⟩
      have := (t.between e he).1
      omega
    · have := t.next
      omega
  obtain ⟨url, hurl⟩ : ∃ url : Text, url = 35 :: (definition sel reuse s1.hrefs index (s1.heap h)).id.getD [] :=
    ⟨_, rfl⟩
  have hg : Reuse.group sel reuse svg hd (s, index) (k, h :: h2 :: rest) =
      (list.foldl (convert svg hd url) s2,
        if moves sel s1.hrefs (s1.heap h) then index else index + 1) := by
    rw [hs2, hurl]
    simp only [Reuse.group, ← hlist, t.hrefs, hhead]
  rw [hg, convert_fold svg hd url list s2 hleaf2]
  simp only
  rw [← hlist]
  have hnl : s.next ∉ list := by
    intro hm
    have := hlt s.next (hlist ▸ hm)
    have := t.next
    omega
  have hen : ∀ e ∈ es, e.n ∉ list := by
    intro e he hm
    have := hlt e.n (hlist ▸ hm)
    have := (t.between e he).1
    omega
  have hheadE : (⟨list, s.next, index⟩ : Entry).head = h := by simp [Entry.head, hlist]
  have hmemh : h ∈ list := by simp [hlist]
  refine ⟨?_, ?_, ?_, ?_, ?_, ?_, ?_, ?_, ?_, ?_, ?_, ?_, ?_⟩
  · simp [hroot2]
  · simp [hhrefs2]
  · simp only [hnext2]; have := t.next; omega
  · simp only [hnext2, List.mem_append, List.mem_singleton]
    rintro e (he | rfl)
    · have := t.between e he; omega
    · have := t.next; simp only; omega
  · simp only [List.mem_append, List.mem_singleton]
    rintro e (he | rfl)
    · rw [if_neg (hen e he), hheap2, if_neg (by have := (t.between e he).2; omega), if_neg ?_, t.def' e he]
      rintro ⟨h3, _⟩
      exact hen e he (h3 ▸ hmemh)
    · simp only
      rw [if_neg hnl, hheap2, if_pos rfl, Entry.def', hheadE]
  · simp only [List.mem_append, List.mem_singleton]
    rintro e (he | rfl) x hx
    · have hxl : x ∉ list := fun hm => hdis e he x (hlist ▸ hm) hx
      rw [if_neg hxl, hheap2, if_neg ?_, if_neg ?_, t.conv e he x hx]
      · rintro ⟨h3, _⟩
        exact hxl (h3 ▸ hmemh)
      · intro h3
        have := t.small e he x hx
        have := t.next
        omega
    · simp only at hx
      rw [if_pos hx, hheap2, if_neg ?_, Entry.conv, Entry.url, Entry.def', hheadE, ← hurl]
      · congr 2
        by_cases hxh : x = h
        · subst hxh; simp [hkept x hx]
        · simp [hxh, hkept x hx]
      · rintro rfl; exact hnl hx
  · intro x hx hall
    simp only [List.mem_append, List.mem_singleton] at hall
    have hxl : x ∉ list := hall _ (.inr rfl)
    simp only
    rw [if_neg hxl, hheap2, if_neg (by have := t.next; omega), if_neg ?_]
    · exact t.kept x hx fun e he => hall e (.inl he)
    · rintro ⟨h3, _⟩
      exact hxl (h3 ▸ hmemh)
  · simp only [List.mem_append, List.mem_singleton]
    rintro e (he | rfl)
    · exact t.lists e he
    · simp [hlist]
  · simp only [List.mem_append, List.mem_singleton]
    rintro e (he | rfl) x hx
    · exact t.small e he x hx
    · exact hlt x (hlist ▸ hx)
  · simp only [List.mem_append, List.mem_singleton]
    rintro e (he | rfl) hm
    · have := t.index e he hm
      split <;> omega
    · rw [hheadE] at hm
      simp [hm]
  · simp only [List.mem_append, List.mem_singleton]
    rintro e (he | rfl) e' (he' | rfl) hm hm' hi
    · exact t.numbers e he e' he' hm hm' hi
    · have := t.index e he hm; simp only at hi; omega
    · have := t.index e' he' hm'; simp only at hi; omega
    · rfl
  · simp only [List.mem_append, List.mem_singleton]
    rintro e (he | rfl) e' (he' | rfl) hi
    · exact t.handles e he e' he' hi
    · have := (t.between e he).2; simp only at hi; omega
    · have := (t.between e' he').2; simp only at hi; omega
    · rfl
  · simp only [List.mem_append, List.mem_singleton]
    rintro e (he | rfl) e' (he' | rfl) x hx hx'
    · exact t.apart e he e' he' x hx hx'
    · exact absurd hx (hdis e he x (hlist ▸ hx'))
    · exact absurd hx' (hdis e' he' x (hlist ▸ hx))
    · rfl

end Verif.Reuse
