import Verif.Reuse.Groups

/-! # The whole job -/

namespace Verif.Reuse

variable {D P A E : Type} [DecidableEq D] [DecidableEq P]

variable (sel : Text → Bool) (reuse : Nat → Text)

theorem treat_all {svg hd : Nat} {s1 : State D P A} (hdn : hd < s1.next) :
    ∀ (gs : List (Key D P × List Nat)) (es : List Entry) (index : Nat) (s : State D P A),
      Treated sel reuse hd s1 es index s →
      (∀ g ∈ gs, g.2 ≠ []) →
      (∀ g ∈ gs, 2 ≤ g.2.length → ∀ x ∈ g.2, x < s1.next ∧ Leaf s1.root hd x ∧ x ≠ hd) →
      (∀ e ∈ es, ∀ g ∈ gs, ∀ x ∈ g.2, x ∉ e.list) →
      gs.Pairwise (fun g g' => ∀ x ∈ g.2, x ∉ g'.2) →
      ∃ es' index', Treated sel reuse hd s1 es' index' (gs.foldl (group sel reuse svg hd) (s, index)).1 ∧
        (∀ e, e ∈ es' ∧ e ∉ es → ∃ g ∈ gs, 2 ≤ g.2.length ∧ e.list = g.2) ∧ (∀ e ∈ es, e ∈ es') ∧
        (∀ g ∈ gs, 2 ≤ g.2.length → ∃ e ∈ es', e.list = g.2)
  | [], es, index, s, t, _, _, _, _ => ⟨es, index, t, fun e he => absurd he.1 he.2, fun e he => he, by simp⟩
  | g :: gs, es, index, s, t, hne, hl, hdis, hpw => by
    rw [List.pairwise_cons] at hpw
    rw [List.foldl_cons]
    by_cases h2 : 2 ≤ g.2.length
    · have hg := hl g (by simp) h2
      have t' := t.group sel reuse (svg := svg) g hdn (fun x hx => (hg x hx).1) (fun x hx => (hg x hx).2.1)
        (fun x hx => (hg x hx).2.2) (fun e he x hx => hdis e he g (by simp) x hx) h2
      obtain ⟨es', index', h1, h3, h4, h5⟩ := treat_all hdn gs _ _ _ t' (fun g hg => hne g (by simp [hg]))
        (fun g hg => hl g (by simp [hg])) (by
          intro e he g' hg' x hx
          rw [List.mem_append, List.mem_singleton] at he
          rcases he with he | rfl
          · exact hdis e he g' (by simp [hg']) x hx
          · exact fun hm => hpw.1 g' hg' x hm hx) hpw.2
      refine ⟨es', index', h1, ?_, fun e he => h4 e (by simp [he]), ?_⟩
      · rintro e ⟨he, hn⟩
        by_cases hee : e = ⟨g.2, s.next, index⟩
        · exact ⟨g, by simp, h2, by rw [hee]⟩
        · obtain ⟨g', hg', h6⟩ := h3 e ⟨he, by simp [hn, hee]⟩
          exact ⟨g', by simp [hg'], h6⟩
      · intro g' hg' hl'
        rw [List.mem_cons] at hg'
        rcases hg' with rfl | hg'
        · exact ⟨_, h4 ⟨g'.2, s.next, index⟩ (by simp), rfl⟩
        · exact h5 g' hg' hl'
    · have hsame : group sel reuse svg hd (s, index) g = (s, index) := by
        obtain ⟨k, l⟩ := g
        match l, h2 with
        | [], _ => rfl
        | [_], _ => rfl
        | _ :: _ :: _, h2 => exact absurd (by simp) h2
      rw [hsame]
      obtain ⟨es', index', h1, h3, h4, h5⟩ := treat_all hdn gs es index s t (fun g hg => hne g (by simp [hg]))
        (fun g hg => hl g (by simp [hg])) (fun e he g hg => hdis e he g (by simp [hg])) hpw.2
      refine ⟨es', index', h1, ?_, h4, ?_⟩
      · intro e he
        obtain ⟨g', hg', h6⟩ := h3 e he
        exact ⟨g', by simp [hg'], h6⟩
      · intro g' hg' hl'
        rw [List.mem_cons] at hg'
        rcases hg' with rfl | hg'
        · exact absurd hl' h2
        · exact h5 g' hg' hl'

/-! ## The paints -/

/-- Nothing is said by no attributes. -/
structure Sem.Silent (S : Sem P A E) : Prop where
  fill : S.styleFill [] = none
  stroke : S.styleStroke [] = none

/-- The attributes of a path mean the same on a reference to a path without them: `style` and style sheets do not compete
with the attributes for fill and stroke, and everything else acts alike on `path` and `use`. -/
structure Harmless (S : Sem P A E) (e : El D P A) : Prop where
  fill : ∀ a b, S.styleFill e.rest = some a → e.fill = some b → a = b
  stroke : ∀ a b, S.styleStroke e.rest = some a → e.stroke = some b → a = b
  env : ∀ x, S.env .path [] (S.env .use e.rest x) = S.env .path e.rest x

theorem getD_iff (s f : Option P) :
    (∀ c : P, f.getD (s.getD c) = (s.or f).getD c) ↔ ∀ a b, s = some a → f = some b → a = b := by
  cases s with
  | none => simp
  | some a =>
    cases f with
    | none => simp
    | some b =>
      simp only [Option.getD_some, Option.some_or, Option.some.injEq]
      constructor
      · rintro h _ _ rfl rfl; exact (h a).symm
      · intro h _; exact (h a b rfl rfl).symm

/-- **C83 (when a reference draws like the path).** A reference with the other attributes of a path to a path with its
data, fill and stroke draws in all surroundings what the path draws if and only if its attributes are harmless. -/
theorem same_iff [Nonempty P] [Nonempty E] {S : Sem P A E} (hS : S.Silent) (e f : El D P A) (url : Text) (id' : Option Text)
    (hk : e.kind = .path) :
    (∀ c, within S { kind := .path, id := id', d := e.d, fill := e.fill, stroke := e.stroke }
      (within S (become url (strip { e with id := f.id })) c) = within S e c) ↔ Harmless S e := by
  have key : ∀ c : Ctx P E, within S { kind := .path, id := id', d := e.d, fill := e.fill, stroke := e.stroke }
      (within S (become url (strip { e with id := f.id })) c) = within S e c ↔
      (e.fill.getD ((S.styleFill e.rest).getD c.fill) = ((S.styleFill e.rest).or e.fill).getD c.fill ∧
        e.stroke.getD ((S.styleStroke e.rest).getD c.stroke) =
          ((S.styleStroke e.rest).or e.stroke).getD c.stroke ∧
        S.env .path [] (S.env .use e.rest c.env) = S.env .path e.rest c.env) := by
    intro c
    simp [within, become, strip, hS.fill, hS.stroke, hk]
  constructor
  · intro h
    obtain ⟨p⟩ := ‹Nonempty P›
    obtain ⟨x⟩ := ‹Nonempty E›
    refine ⟨(getD_iff _ _).1 fun c => ((key ⟨c, p, x⟩).1 (h _)).1,
      (getD_iff _ _).1 fun c => ((key ⟨p, c, x⟩).1 (h _)).2.1, fun y => ((key ⟨p, p, y⟩).1 (h _)).2.2⟩
  · intro h c
    exact (key c).2 ⟨(getD_iff _ _).2 h.fill _, (getD_iff _ _).2 h.stroke _, h.env _⟩

theorem harmless_same {S : Sem P A E} (hS : S.Silent) (e def' conv : El D P A)
    (hk : e.kind = .path) (h : Harmless S e) (d1 : def'.kind = .path) (d2 : def'.rest = []) (d3 : def'.fill = e.fill)
    (d4 : def'.stroke = e.stroke) (c1 : conv.kind = .use) (c2 : conv.fill = none) (c3 : conv.stroke = none)
    (c4 : conv.rest = e.rest) (c : Ctx P E) : within S def' (within S conv c) = within S e c := by
  simp only [within, d1, d2, d3, d4, c1, c2, c3, c4, hS.fill, hS.stroke, hk, Option.or_none, Option.none_or,
    (getD_iff _ _).2 h.fill, (getD_iff _ _).2 h.stroke, h.env]

/-! ## The document before the lists are treated -/

/-- What is needed of the document when the lists are treated. -/
structure Ready (S : Sem P A E) (hd : Nat) (s : State D P A) : Prop where
  distinct : Distinct s.root
  ids : IdsUnique s
  small : ∀ u ∈ subs s.root, u.handle < s.next
  defs : ∃ u ∈ subs s.root, u.handle = hd ∧ (s.heap hd).kind = .defs
  names : ∀ u ∈ subs s.root, ∀ k, (s.heap u.handle).id ≠ some (reuse k)
  points : ∀ u ∈ subs s.root, (s.heap u.handle).kind = .use → ∀ k, (s.heap u.handle).points ≠ some (reuse k)

/-- What is needed of the lists. -/
structure Lists (S : Sem P A E) (hd : Nat) (s : State D P A) (es : List Entry) : Prop where
  key : ∀ e ∈ es, ∀ x ∈ e.list, ∀ y ∈ e.list, keyOf s.heap x = keyOf s.heap y
  path : ∀ e ∈ es, ∀ x ∈ e.list, (s.heap x).kind = .path ∧ ∃ d, (s.heap x).d = some d
  mem : ∀ e ∈ es, ∀ x ∈ e.list, ∃ u ∈ subs s.root, u.handle = x
  href : ∀ e ∈ es, ∀ x ∈ e.list, (s.heap x).href = none
  harmless : ∀ e ∈ es, ∀ x ∈ e.list, Harmless S (s.heap x)
  disjoint : ∀ e ∈ es, ∀ e' ∈ es, ∀ x ∈ e.list, x ∈ e'.list → e = e'
  first : ∀ e ∈ es, ∀ i, (s.heap e.head).id = some i →
    (∃ u ∈ subs s.root, (s.heap u.handle).kind = .use ∧ (s.heap u.handle).points = some i) →
    (s.heap e.head).rest = []

theorem head_mem {e : Entry} (h : 2 ≤ e.list.length) : e.head ∈ e.list := by
  obtain ⟨l, n, i⟩ := e
  cases l with
  | nil => simp at h
  | cons x l => simp [Entry.head]

theorem keyOf_path {heap : Nat → El D P A} {h : Nat} {d : D} (hk : (heap h).kind = .path) (hd : (heap h).d = some d) :
    keyOf heap h = some (d, (heap h).stroke, (heap h).fill) := by
  simp [keyOf, hk, hd]

variable {sel reuse}

theorem treated_carries {S : Sem P A E} (hS : S.Silent) (hinj : ∀ j k, reuse j = reuse k → j = k) {hd : Nat}
    {s s3 s4 : State D P A} {es : List Entry} {index : Nat} (r : Ready reuse S hd s) (L : Lists S hd s es)
    (t : Treated sel reuse hd s es index s3) (hroot : s4.root = s3.root)
    (hheap : ∀ x, x ≠ hd → s4.heap x = s3.heap x)
    (hhd : Kept (s3.heap hd) (s4.heap hd) ∧ (s4.heap hd).id = (s3.heap hd).id) :
    Carries S s s4 nowhere (only hd (leaves (es.map Entry.n))) := by
  obtain ⟨ud, hud, hudh, hdk⟩ := r.defs
  have hdsmall : hd < s.next := hudh ▸ r.small ud hud
  have hdlist : ∀ e ∈ es, hd ∉ e.list := by
    intro e he hm
    have := (L.path e he hd hm).1
    rw [hdk] at this
    cases this
  have hden : ∀ e ∈ es, e.n ≠ hd := by
    intro e he h
    have := (t.between e he).1
    omega
  have h4n : ∀ e ∈ es, s4.heap e.n = e.def' sel reuse s.hrefs s.heap := fun e he => by
    rw [hheap _ (hden e he), t.def' e he]
  have h4c : ∀ e ∈ es, ∀ x ∈ e.list, s4.heap x = e.conv sel reuse s.hrefs s.heap x := fun e he x hx => by
    rw [hheap x fun h => hdlist e he (h ▸ hx), t.conv e he x hx]
  have h4k : ∀ u ∈ subs s.root, (∀ e ∈ es, u.handle ∉ e.list) →
      Kept (s.heap u.handle) (s4.heap u.handle) ∧ (s4.heap u.handle).id = (s.heap u.handle).id := by
    intro u hu hn
    have hk := t.kept u.handle (r.small u hu) hn
    by_cases hx : u.handle = hd
    · rw [hx] at hk ⊢
      rw [← hk]
      exact hhd
    · rw [hheap _ hx, hk]
      exact ⟨⟨rfl, rfl, rfl, rfl, rfl, rfl, rfl⟩, rfl⟩
  obtain ⟨post, hpost⟩ : ∃ post, post = only hd (leaves (es.map Entry.n)) := ⟨_, rfl⟩
  have hroot4 : s4.root = image nowhere post s.root := by rw [hroot, t.root, hpost]
  have hmem4 : ∀ u, u ∈ subs s4.root → (∃ v ∈ subs s.root, u = image nowhere post v) ∨
      ∃ e ∈ es, u = .node e.n [] := by
    intro u hu
    rw [hroot4, hpost] at hu
    rcases mem_subs_only hu with h | ⟨n, hn, rfl⟩
    · rw [hpost]; exact .inl h
    · obtain ⟨e, he, rfl⟩ := List.mem_map.1 hn
      exact .inr ⟨e, he, rfl⟩
  have himg : ∀ v ∈ subs s.root, image nowhere post v ∈ subs s4.root := fun v hv => by
    rw [hroot4]; exact (mem_subs_image _ _).2 (.inl ⟨v, hv, rfl⟩)
  have hnew : ∀ e ∈ es, Tree.node e.n [] ∈ subs s4.root := by
    intro e he
    rw [hroot4]
    refine (mem_subs_image _ _).2 (.inr ⟨ud, hud, .inr ?_⟩)
    rw [hpost, hudh, only, if_pos rfl]
    exact mem_subsAll_leaves.2 ⟨e.n, List.mem_map.2 ⟨e, he, rfl⟩, rfl⟩
  have hdist4 : Distinct s4.root := by
    intro u hu v hv h
    rcases hmem4 u hu with ⟨u', hu', rfl⟩ | ⟨e, he, rfl⟩ <;> rcases hmem4 v hv with ⟨v', hv', rfl⟩ | ⟨e', he', rfl⟩
    · rw [image_handle, image_handle] at h
      rw [r.distinct u' hu' v' hv' h]
    · rw [image_handle] at h
      have h1 := r.small u' hu'
      have h2 := (t.between e' he').1
      simp only [Tree.handle] at h h1
      omega
    · rw [image_handle] at h
      have h1 := r.small v' hv'
      have h2 := (t.between e he).1
      simp only [Tree.handle] at h h1
      omega
    · simp only [Tree.handle] at h
      rw [h]
  -- ids after the lists are treated
  have hidOld : ∀ v ∈ subs s.root, ∀ i, (s4.heap v.handle).id = some i → (s.heap v.handle).id = some i ∧
      ∀ e ∈ es, v.handle = e.head → moves sel s.hrefs (s.heap e.head) = false := by
    intro v hv i hi
    by_cases hl : ∃ e ∈ es, v.handle ∈ e.list
    · obtain ⟨e, he, hm⟩ := hl
      rw [h4c e he _ hm, Entry.conv] at hi
      split at hi
      · simp [become, strip] at hi
      · rename_i hn
        refine ⟨by simpa [become, strip] using hi, fun e' he' hh => ?_⟩
        have : e' = e := L.disjoint e' he' e he _ (hh ▸ head_mem (t.lists e' he')) hm
        subst this
        rw [hh] at hn
        simpa using hn
    · have hn : ∀ e ∈ es, v.handle ∉ e.list := fun e he hm => hl ⟨e, he, hm⟩
      rw [(h4k v hv hn).2] at hi
      exact ⟨hi, fun e he hh => absurd (hh ▸ head_mem (t.lists e he)) (hn e he)⟩
  have hidNew : ∀ e ∈ es, (s4.heap e.n).id =
      if moves sel s.hrefs (s.heap e.head) then (s.heap e.head).id else some (reuse e.index) := by
    intro e he
    rw [h4n e he]
    rfl
  have hmoved : ∀ e : Entry, moves sel s.hrefs (s.heap e.head) = true → ∃ i, (s.heap e.head).id = some i := by
    intro e h
    unfold moves at h
    split at h
    · cases h
    · rename_i i hi; exact ⟨i, hi⟩
  have hheadT : ∀ e ∈ es, ∃ u ∈ subs s.root, u.handle = e.head := fun e he =>
    L.mem e he _ (head_mem (t.lists e he))
  have hids4 : IdsUnique s4 := by
    have mixed : ∀ v ∈ subs s.root, ∀ e ∈ es, ∀ i, (s4.heap v.handle).id = some i → (s4.heap e.n).id ≠ some i := by
      intro v hv e he i hi hn
      obtain ⟨h1, h2⟩ := hidOld v hv i hi
      rw [hidNew e he] at hn
      split at hn
      · rename_i hm
        obtain ⟨w, hw, hwh⟩ := hheadT e he
        have := r.ids v hv w hw i h1 (by rw [hwh]; exact hn)
        rw [hwh] at this
        have := h2 e he this
        rw [hm] at this
        cases this
      · exact r.names v hv e.index (h1.trans hn.symm)
    intro u hu v hv i hui hvi
    rcases hmem4 u hu with ⟨u', hu', rfl⟩ | ⟨e, he, rfl⟩ <;> rcases hmem4 v hv with ⟨v', hv', rfl⟩ | ⟨e', he', rfl⟩
    · rw [image_handle] at hui hvi ⊢
      rw [image_handle]
      exact r.ids u' hu' v' hv' i (hidOld u' hu' i hui).1 (hidOld v' hv' i hvi).1
    · rw [image_handle] at hui
      exact absurd hvi (mixed u' hu' e' he' i hui)
    · rw [image_handle] at hvi
      exact absurd hui (mixed v' hv' e he i hvi)
    · simp only [Tree.handle] at hui hvi ⊢
      have hui' := hui
      have hvi' := hvi
      rw [hidNew e he] at hui
      rw [hidNew e' he'] at hvi
      by_cases hm : moves sel s.hrefs (s.heap e.head) = true
      · by_cases hm' : moves sel s.hrefs (s.heap e'.head) = true
        · rw [if_pos hm] at hui
          rw [if_pos hm'] at hvi
          obtain ⟨w, hw, hwh⟩ := hheadT e he
          obtain ⟨w', hw', hwh'⟩ := hheadT e' he'
          have := r.ids w hw w' hw' i (by rw [hwh]; exact hui) (by rw [hwh']; exact hvi)
          rw [hwh, hwh'] at this
          rw [L.disjoint e he e' he' e.head (head_mem (t.lists e he)) (this ▸ head_mem (t.lists e' he'))]
        · rw [if_pos hm] at hui
          rw [if_neg hm'] at hvi
          obtain ⟨w, hw, hwh⟩ := hheadT e he
          exact absurd ((by rw [hwh]; exact hui : (s.heap w.handle).id = some i).trans hvi.symm)
            (r.names w hw _)
      · by_cases hm' : moves sel s.hrefs (s.heap e'.head) = true
        · rw [if_neg hm] at hui
          rw [if_pos hm'] at hvi
          obtain ⟨w, hw, hwh⟩ := hheadT e' he'
          exact absurd ((by rw [hwh]; exact hvi : (s.heap w.handle).id = some i).trans hui.symm)
            (r.names w hw _)
        · rw [if_neg hm] at hui
          rw [if_neg hm'] at hvi
          have : reuse e.index = reuse e'.index := Option.some.inj (hui.trans hvi.symm)
          exact t.numbers e he e' he' (by simpa using hm) (by simpa using hm') (hinj _ _ this)
  have hidSome : ∀ e ∈ es, ∃ i, (s4.heap e.n).id = some i := by
    intro e he
    rw [hidNew e he]
    split
    · rename_i hm; exact hmoved e hm
    · exact ⟨_, rfl⟩
  have hsamekey : ∀ e ∈ es, ∀ x ∈ e.list, (s.heap e.head).d = (s.heap x).d ∧ (s.heap e.head).fill = (s.heap x).fill ∧
      (s.heap e.head).stroke = (s.heap x).stroke := by
    intro e he x hx
    have hh := head_mem (t.lists e he)
    obtain ⟨k1, d1, hd1⟩ := L.path e he _ hh
    obtain ⟨k2, d2, hd2⟩ := L.path e he x hx
    have := L.key e he _ hh x hx
    rw [keyOf_path k1 hd1, keyOf_path k2 hd2] at this
    simp only [Option.some.injEq, Prod.mk.injEq] at this
    exact ⟨by rw [hd1, hd2, this.1], this.2.2, this.2.1⟩
  rw [← hpost]
  refine ⟨?_, ?_, ?_, ?_, ?_⟩
  · intro h u hu; simp [nowhere] at hu
  · intro u hu hne
    have : u.handle = hd := Classical.byContradiction fun h => hne (by simp [hpost, only, h])
    rw [this]; exact hdk
  · intro u hu
    by_cases hl : ∃ e ∈ es, u.handle ∈ e.list
    · obtain ⟨e, he, hm⟩ := hl
      right
      obtain ⟨hk, d, hdd⟩ := L.path e he _ hm
      have hc := h4c e he _ hm
      obtain ⟨i, hi⟩ := hidSome e he
      have hconv : (s4.heap u.handle).kind = .use ∧ (s4.heap u.handle).fill = none ∧
          (s4.heap u.handle).stroke = none ∧ (s4.heap u.handle).rest = (s.heap u.handle).rest ∧
          (s4.heap u.handle).href = (s.heap u.handle).href ∧
          (s4.heap u.handle).xlink = some (e.url sel reuse s.hrefs s.heap) := by
        rw [hc, Entry.conv]
        split <;> simp [become, strip]
      refine ⟨hk, hconv.1, i, .node e.n [], ?_, target_of hdist4 hids4 (hnew e he) hi, ?_⟩
      · rw [El.points, hconv.2.2.2.2.1, L.href e he _ hm, Option.none_or, hconv.2.2.2.2.2, Entry.url,
          ← h4n e he, hi]
        rfl
      · obtain ⟨e1, e2, e3⟩ := hsamekey e he _ hm
        refine ⟨by simp only [Tree.handle]; rw [h4n e he]; rfl, ?_, fun c => ?_⟩
        · simp only [Tree.handle]; rw [h4n e he]; exact e1
        · refine harmless_same hS _ _ _ hk (L.harmless e he _ hm) ?_ ?_ ?_ ?_ hconv.1 hconv.2.1 hconv.2.2.1
            hconv.2.2.2.1 c <;> (simp only [Tree.handle]; rw [h4n e he])
          · rfl
          · rfl
          · exact e2
          · exact e3
    · left
      exact (h4k u hu fun e he hm => hl ⟨e, he, hm⟩).1
  · intro u hu huse i v hp hv
    obtain ⟨hvm, hvi⟩ := target_mem hv
    by_cases hl : ∃ e ∈ es, v.handle = e.head ∧ moves sel s.hrefs (s.heap e.head) = true
    · obtain ⟨e, he, hh, hm⟩ := hl
      right
      obtain ⟨hk, d, hdd⟩ := L.path e he _ (head_mem (t.lists e he))
      rw [hh] at hvi ⊢
      refine ⟨hk, .node e.n [], target_of hdist4 hids4 (hnew e he) ?_, ?_⟩
      · simp only [Tree.handle]
        rw [hidNew e he, if_pos hm, hvi]
      · have hrest := L.first e he i hvi ⟨u, hu, huse, hp⟩
        refine ⟨by simp only [Tree.handle]; rw [h4n e he]; rfl, by simp only [Tree.handle]; rw [h4n e he]; rfl,
          fun c => ?_⟩
        simp only [Tree.handle, id]
        rw [h4n e he]
        simp [Entry.def', definition, within, hrest, hk]
    · left
      refine target_of hdist4 hids4 (himg v hvm) ?_
      rw [image_handle]
      by_cases hl' : ∃ e ∈ es, v.handle ∈ e.list
      · obtain ⟨e, he, hm⟩ := hl'
        rw [h4c e he _ hm, Entry.conv, if_neg ?_]
        · simpa [become, strip] using hvi
        · rintro ⟨h1, h2⟩
          exact hl ⟨e, he, h1, h1 ▸ h2⟩
      · rw [(h4k v hvm fun e he hm => hl' ⟨e, he, hm⟩).2]
        exact hvi
  · intro u hu huse i hp hv
    rw [target_none] at hv ⊢
    intro w hw hi
    rcases hmem4 w hw with ⟨w', hw', rfl⟩ | ⟨e, he, rfl⟩
    · rw [image_handle] at hi
      exact hv w' hw' (hidOld w' hw' i hi).1
    · simp only [Tree.handle] at hi
      rw [hidNew e he] at hi
      split at hi
      · obtain ⟨x, hx, hxh⟩ := hheadT e he
        exact hv x hx (by rw [hxh]; exact hi)
      · rw [← Option.some.inj hi] at hp
        exact r.points u hu huse _ hp

end Verif.Reuse
