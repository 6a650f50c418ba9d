import Verif.Background.Spec

/-! # C70: cleaning up `enable-background` -/

namespace Verif.Background

variable {N V : Type}

theorem retained_iff (d : Decl V) : retained d = true ↔ ¬ Renews d := by
  constructor
  · intro h hr
    cases hr with
    | mk rest => simp [retained] at h
  · intro h
    cases d with
    | known v => rfl
    | custom name value =>
      simp only [retained, Bool.or_eq_true, bne_iff_ne, ne_eq]
      by_cases hn : name = "enable-background"
      · right
        subst hn
        match value with
        | [] => rfl
        | .other v :: _ => rfl
        | .ident s :: rest =>
          simp only [bne_iff_ne, ne_eq]
          intro hs
          subst hs
          exact h ⟨rest⟩
      · exact .inl hn

theorem without_filter {A : Type} {P : A → Prop} {p : A → Bool} (hp : ∀ a, p a = true ↔ ¬ P a) (l : List A) : Without P l (l.filter p) := by
  induction l with
  | nil => exact .nil
  | cons a l ih =>
    by_cases h : p a = true
    · rw [List.filter_cons_of_pos h]
      exact .keep ((hp a).1 h) ih
    · rw [List.filter_cons_of_neg h]
      exact .drop (Classical.byContradiction fun hc => h ((hp a).2 hc)) ih

theorem without_mem {A : Type} {P : A → Prop} {l r : List A} (h : Without P l r) (a : A) : a ∈ r ↔ a ∈ l ∧ ¬ P a := by
  induction h with
  | nil => simp
  | drop hP _ ih =>
    rw [ih]
    constructor
    · rintro ⟨h1, h2⟩
      exact ⟨.tail _ h1, h2⟩
    · rintro ⟨h1, h2⟩
      cases h1 with
      | head => exact absurd hP h2
      | tail _ h1 => exact ⟨h1, h2⟩
  | keep hP _ ih =>
    constructor
    · intro h1
      cases h1 with
      | head => exact ⟨.head _, hP⟩
      | tail _ h1 => exact ⟨.tail _ (ih.1 h1).1, (ih.1 h1).2⟩
    · rintro ⟨h1, h2⟩
      cases h1 with
      | head => exact .head _
      | tail _ h1 => exact .tail _ (ih.2 ⟨h1, h2⟩)

theorem without_unique {A : Type} {P : A → Prop} {l r s : List A} (h : Without P l r) (h' : Without P l s) : r = s := by
  induction h generalizing s with
  | nil => cases h'; rfl
  | drop hP _ ih =>
    cases h' with
    | drop _ h' => exact ih h'
    | keep hn _ => exact absurd hP hn
  | keep hP _ ih =>
    cases h' with
    | drop hn _ => exact absurd hn hP
    | keep _ h' => rw [ih h']

/-- What the job does to one attribute, if it puts `bg h` in the place of an attribute `enable-background`. -/
def each (bg : Held N → List (Item N V)) : Item N V → List (Item N V)
  | .style b => if (cleanBlock b).important.isEmpty && (cleanBlock b).normal.isEmpty then [] else [.style (cleanBlock b)]
  | .background h => bg h
  | a => [a]

theorem flatMap_same {A : Type} {g : A → List A} {l : List A} (h : ∀ a ∈ l, g a = [a]) : l.flatMap g = l := by
  induction l with
  | nil => rfl
  | cons a l ih =>
    rw [List.flatMap_cons, h a List.mem_cons_self, ih fun b hb => h b (.tail _ hb)]
    rfl

theorem each_same {bg : Held N → List (Item N V)} {l : List (Item N V)} (hs : ∀ b, .style b ∉ l) (hb : ∀ h, .background h ∈ l → bg h = [.background h]) :
    l.flatMap (each bg) = l := by
  apply flatMap_same
  intro a ha
  cases a with
  | style b => exact absurd ha (hs b)
  | background h => exact hb h ha
  | width s => rfl
  | height s => rfl
  | other v => rfl

theorem Once.tail {a : Item N V} {l : List (Item N V)} (h : Once (a :: l)) : Once l := (List.pairwise_cons.1 h).2

theorem Once.noStyle {b : Block V} {l : List (Item N V)} (h : Once (.style b :: l)) (c : Block V) : .style c ∉ l :=
  fun hc => (List.pairwise_cons.1 h).1 _ hc (.style b c)

theorem Once.noBackground {b : Held N} {l : List (Item N V)} (h : Once (.background b :: l)) (c : Held N) : .background c ∉ l :=
  fun hc => (List.pairwise_cons.1 h).1 _ hc (.background b c)

theorem cleanStyle_each {l : List (Item N V)} (h : Once l) {bg : Held N → List (Item N V)} (hb : ∀ h, .background h ∈ l → bg h = [.background h]) :
    cleanStyle l = l.flatMap (each bg) := by
  induction l with
  | nil => rfl
  | cons a l ih =>
    have ih := ih h.tail fun x hx => hb x (.tail _ hx)
    cases a with
    | style b =>
      simp only [cleanStyle, List.flatMap_cons, each, each_same h.noStyle fun x hx => hb x (.tail _ hx)]
      split <;> rfl
    | background x => simp only [cleanStyle, List.flatMap_cons, each, ih, hb x List.mem_cons_self]; rfl
    | width s => simp only [cleanStyle, List.flatMap_cons, each, ih]; rfl
    | height s => simp only [cleanStyle, List.flatMap_cons, each, ih]; rfl
    | other v => simp only [cleanStyle, List.flatMap_cons, each, ih]; rfl

theorem remove_plain {l : List (Item N V)} (h : Once l) (hs : ∀ b, .style b ∉ l) : remove l = l.flatMap (each fun _ => []) := by
  induction l with
  | nil => rfl
  | cons a l ih =>
    have ih := ih h.tail fun b hb => hs b (.tail _ hb)
    cases a with
    | style b => exact absurd List.mem_cons_self (hs b)
    | background x =>
      simp only [remove, List.flatMap_cons, each, List.nil_append]
      exact (each_same (fun b hb => hs b (.tail _ hb)) fun y hy => absurd hy (h.noBackground y)).symm
    | width s => simp only [remove, List.flatMap_cons, each, ih]; rfl
    | height s => simp only [remove, List.flatMap_cons, each, ih]; rfl
    | other v => simp only [remove, List.flatMap_cons, each, ih]; rfl

theorem remove_each {l : List (Item N V)} (h : Once l) : remove (cleanStyle l) = l.flatMap (each fun _ => []) := by
  induction l with
  | nil => rfl
  | cons a l ih =>
    have ih := ih h.tail
    cases a with
    | style b =>
      have hp := remove_plain h.tail h.noStyle
      simp only [cleanStyle, List.flatMap_cons, each]
      split
      · rw [hp]; rfl
      · simp only [remove, hp]; rfl
    | background x =>
      simp only [cleanStyle, remove, List.flatMap_cons, each, List.nil_append]
      exact cleanStyle_each h.tail fun y hy => absurd hy (h.noBackground y)
    | width s => simp only [cleanStyle, remove, List.flatMap_cons, each, ih]; rfl
    | height s => simp only [cleanStyle, remove, List.flatMap_cons, each, ih]; rfl
    | other v => simp only [cleanStyle, remove, List.flatMap_cons, each, ih]; rfl

theorem set_plain {l : List (Item N V)} {x y : Held N} (h : Once l) (hs : ∀ b, .style b ∉ l) (hy : .background y ∈ l) :
    set x l = l.flatMap (each fun _ => [.background x]) := by
  induction l with
  | nil => cases hy
  | cons a l ih =>
    have hs' : ∀ b, .style b ∉ l := fun b hb => hs b (.tail _ hb)
    cases a with
    | style b => exact absurd List.mem_cons_self (hs b)
    | background z =>
      simp only [set, List.flatMap_cons, each]
      rw [each_same hs' fun y hy => absurd hy (h.noBackground y)]
      rfl
    | width s => cases hy with | tail _ hy => simp only [set, List.flatMap_cons, each, ih h.tail hs' hy]; rfl
    | height s => cases hy with | tail _ hy => simp only [set, List.flatMap_cons, each, ih h.tail hs' hy]; rfl
    | other v => cases hy with | tail _ hy => simp only [set, List.flatMap_cons, each, ih h.tail hs' hy]; rfl

theorem set_each {l : List (Item N V)} {x y : Held N} (h : Once l) (hy : .background y ∈ l) :
    set x (cleanStyle l) = l.flatMap (each fun _ => [.background x]) := by
  induction l with
  | nil => cases hy
  | cons a l ih =>
    cases a with
    | style b =>
      cases hy with
      | tail _ hy =>
        have hp := set_plain (x := x) h.tail h.noStyle hy
        simp only [cleanStyle, List.flatMap_cons, each]
        split
        · rw [hp]; rfl
        · simp only [set, hp]; rfl
    | background z =>
      simp only [cleanStyle, set, List.flatMap_cons, each]
      rw [cleanStyle_each h.tail fun y hy => absurd hy (h.noBackground y)]
      rfl
    | width s => cases hy with | tail _ hy => simp only [cleanStyle, set, List.flatMap_cons, each, ih h.tail hy]; rfl
    | height s => cases hy with | tail _ hy => simp only [cleanStyle, set, List.flatMap_cons, each, ih h.tail hy]; rfl
    | other v => cases hy with | tail _ hy => simp only [cleanStyle, set, List.flatMap_cons, each, ih h.tail hy]; rfl

theorem get_clean (l : List (Item N V)) : get (cleanStyle l) = get l := by
  induction l with
  | nil => rfl
  | cons a l ih =>
    cases a with
    | style b =>
      simp only [cleanStyle, get]
      split <;> rfl
    | _ => simp [cleanStyle, get, ih]

theorem getWidth_clean (l : List (Item N V)) : getWidth (cleanStyle l) = getWidth l := by
  induction l with
  | nil => rfl
  | cons a l ih =>
    cases a with
    | style b =>
      simp only [cleanStyle, getWidth]
      split <;> rfl
    | _ => simp [cleanStyle, getWidth, ih]

theorem getHeight_clean (l : List (Item N V)) : getHeight (cleanStyle l) = getHeight l := by
  induction l with
  | nil => rfl
  | cons a l ih =>
    cases a with
    | style b =>
      simp only [cleanStyle, getHeight]
      split <;> rfl
    | _ => simp [cleanStyle, getHeight, ih]

theorem get_iff {l : List (Item N V)} (h : Once l) (x : Held N) : get l = some x ↔ .background x ∈ l := by
  induction l with
  | nil => simp [get]
  | cons a l ih =>
    cases a with
    | background y =>
      simp only [get, Option.some.injEq, List.mem_cons, Item.background.injEq]
      exact ⟨fun e => .inl e.symm, fun e => e.elim Eq.symm fun e => absurd e (h.noBackground x)⟩
    | _ => simp [get, ih h.tail]

theorem getWidth_iff {l : List (Item N V)} (h : Once l) (x : Size N) : getWidth l = some x ↔ .width x ∈ l := by
  induction l with
  | nil => simp [getWidth]
  | cons a l ih =>
    cases a with
    | width y =>
      simp only [getWidth, Option.some.injEq, List.mem_cons, Item.width.injEq]
      exact ⟨fun e => .inl e.symm, fun e => e.elim Eq.symm fun e => absurd (.width y x) ((List.pairwise_cons.1 h).1 _ e)⟩
    | _ => simp [getWidth, ih h.tail]

theorem getHeight_iff {l : List (Item N V)} (h : Once l) (x : Size N) : getHeight l = some x ↔ .height x ∈ l := by
  induction l with
  | nil => simp [getHeight]
  | cons a l ih =>
    cases a with
    | height y =>
      simp only [getHeight, Option.some.injEq, List.mem_cons, Item.height.injEq]
      exact ⟨fun e => .inl e.symm, fun e => e.elim Eq.symm fun e => absurd (.height y x) ((List.pairwise_cons.1 h).1 _ e)⟩
    | _ => simp [getHeight, ih h.tail]

theorem Once.same {l : List (Item N V)} (h : Once l) {x y : Held N} (hx : .background x ∈ l) (hy : .background y ∈ l) : x = y :=
  Option.some.inj (((get_iff h x).2 hx).symm.trans ((get_iff h y).2 hy))

theorem fits_clean [DecidableEq N] (l : List (Item N V)) : fits (cleanStyle l) = fits l := by
  simp only [fits, get_clean, getWidth_clean, getHeight_clean]

theorem fits_iff [DecidableEq N] {l : List (Item N V)} (h : Once l) : fits l = true ↔ ∃ x, .background x ∈ l ∧ Fits l x := by
  constructor
  · intro hf
    unfold fits at hf
    split at hf
    · next x y w t e =>
      split at hf
      · next w' e1 =>
        split at hf
        · next t' e2 =>
          have : w' = w ∧ t' = t := by simpa using hf
          obtain ⟨rfl, rfl⟩ := this
          exact ⟨_, (get_iff h _).1 e, x, y, _, _, rfl, (getWidth_iff h _).1 e1, (getHeight_iff h _).1 e2⟩
        · cases hf
      · cases hf
    · cases hf
  · rintro ⟨_, hx, x, y, w, t, rfl, hw, ht⟩
    simp [fits, (get_iff h _).2 hx, (getWidth_iff h _).2 hw, (getHeight_iff h _).2 ht]

theorem fate_style {P : Prop} {k : Kind} {as : List (Item N V)} (bg : Held N → List (Item N V)) (b : Block V) :
    Fate P k as (.style b) (each bg (.style b)) := by
  simp only [each]
  split
  · next h =>
    simp only [cleanBlock, Bool.and_eq_true, List.isEmpty_iff, List.filter_eq_nil_iff, retained_iff, Classical.not_not] at h
    exact .empty h.1 h.2
  · next h =>
    refine .style (without_filter retained_iff _) (without_filter retained_iff _) ?_
    simp only [Bool.and_eq_true, List.isEmpty_iff] at h
    by_cases e : (cleanBlock b).important = []
    · exact .inr fun e' => h ⟨e, e'⟩
    · exact .inl e

theorem fates_each {P : Prop} {k : Kind} {as l : List (Item N V)} {bg : Held N → List (Item N V)}
    (hb : ∀ h, .background h ∈ l → Fate P k as (.background h) (bg h)) : Fates P k as l (l.flatMap (each bg)) := by
  induction l with
  | nil => exact .nil
  | cons a l ih =>
    rw [List.flatMap_cons]
    refine .cons ?_ (ih fun h hh => hb h (.tail _ hh))
    cases a with
    | style b => exact fate_style bg b
    | background h => exact hb h List.mem_cons_self
    | width s => exact .width s
    | height s => exact .height s
    | other v => exact .other v

/-- **C70 (exactly what becomes of attributes)**: every attribute of an element meets its fate, in order. -/
theorem element_fates [DecidableEq N] {P : Prop} {f : Bool} (hf : f = true ↔ P) (k : Kind) {as : List (Item N V)} (h : Once as) :
    Fates P k as as (element f k as) := by
  simp only [element]
  cases f with
  | false =>
    simp only [Bool.not_false, if_true]
    rw [remove_each h]
    exact fates_each fun x _ => .unused x fun hp => by cases hf.2 hp
  | true =>
    have hp : P := hf.1 rfl
    simp only [Bool.not_true, Bool.false_eq_true, if_false, fits_clean]
    cases hfit : fits as with
    | false =>
      simp only [Bool.not_false, if_true]
      rw [cleanStyle_each h (bg := fun x => [.background x]) fun _ _ => rfl]
      refine fates_each fun x hx => .kept hp fun hx' => ?_
      rw [(fits_iff h).2 ⟨x, hx, hx'⟩] at hfit
      cases hfit
    | true =>
      simp only [Bool.not_true, Bool.false_eq_true, if_false]
      obtain ⟨y, hy, hfy⟩ := (fits_iff h).1 hfit
      have hfx : ∀ x, .background x ∈ as → Fits as x := fun x hx => h.same hx hy ▸ hfy
      cases k with
      | svg =>
        show Fates P _ as as (remove (cleanStyle as))
        rw [remove_each h]
        exact fates_each fun x hx => .svg hp (hfx x hx) rfl
      | mask =>
        show Fates P _ as as (set _ (cleanStyle as))
        rw [set_each h hy]
        exact fates_each fun x hx => .inner hp (hfx x hx) (.inl rfl)
      | pattern =>
        show Fates P _ as as (set _ (cleanStyle as))
        rw [set_each h hy]
        exact fates_each fun x hx => .inner hp (hfx x hx) (.inr rfl)
      | filter =>
        show Fates P _ as as (cleanStyle as)
        rw [cleanStyle_each h (bg := fun x => [.background x]) fun _ _ => rfl]
        exact fates_each fun x hx => .kept hp fun _ => ⟨(by intro h; cases h), (by intro h; cases h), (by intro h; cases h)⟩
      | other =>
        show Fates P _ as as (cleanStyle as)
        rw [cleanStyle_each h (bg := fun x => [.background x]) fun _ _ => rfl]
        exact fates_each fun x hx => .kept hp fun _ => ⟨(by intro h; cases h), (by intro h; cases h), (by intro h; cases h)⟩

theorem all_renew {b c : List (Decl V)} (h : Without Renews b c) (ha : ∀ d ∈ b, Renews d) : c = [] :=
  List.eq_nil_iff_forall_not_mem.2 fun d hd => ((without_mem h d).1 hd).2 (ha d ((without_mem h d).1 hd).1)

theorem Block.eq {b c : Block V} (h : b.important = c.important) (h' : b.normal = c.normal) : b = c := by
  cases b
  cases c
  simp only at h h'
  rw [h, h']

/-- **C70 (there is no choice)**: the fate of an attribute is determined. -/
theorem fate_unique {P : Prop} {k : Kind} {as : List (Item N V)} {a : Item N V} {x y : List (Item N V)} (h : Fate P k as a x)
    (h' : Fate P k as a y) : x = y := by
  cases h with
  | style h1 h2 h3 =>
    cases h' with
    | style g1 g2 _ =>
      have e1 := without_unique h1 g1
      have e2 := without_unique h2 g2
      exact congrArg (fun c => [Item.style c]) (Block.eq e1 e2)
    | empty g1 g2 => exact absurd (all_renew h2 g2) (h3.resolve_left fun h => h (all_renew h1 g1))
  | empty g1 g2 =>
    cases h' with
    | style h1 h2 h3 => exact absurd (all_renew h2 g2) (h3.resolve_left fun h => h (all_renew h1 g1))
    | empty _ _ => rfl
  | unused _ hn =>
    cases h' with
    | unused => rfl
    | svg hp => exact absurd hp hn
    | inner hp => exact absurd hp hn
    | kept hp => exact absurd hp hn
  | svg hp hf hk =>
    cases h' with
    | unused _ hn => exact absurd hp hn
    | svg => rfl
    | inner _ _ hk' => subst hk; cases hk' <;> contradiction
    | kept _ hk' => exact absurd hk (hk' hf).1
  | inner hp hf hk =>
    cases h' with
    | unused _ hn => exact absurd hp hn
    | svg _ _ hk' => subst hk'; cases hk <;> contradiction
    | inner => rfl
    | kept _ hk' => exact hk.elim (fun h => absurd h (hk' hf).2.1) fun h => absurd h (hk' hf).2.2
  | kept hp hk =>
    cases h' with
    | unused _ hn => exact absurd hp hn
    | svg _ hf hk' => exact absurd hk' (hk hf).1
    | inner _ hf hk' => exact hk'.elim (fun h => absurd h (hk hf).2.1) fun h => absurd h (hk hf).2.2
    | kept => rfl
  | width => cases h'; rfl
  | height => cases h'; rfl
  | other => cases h'; rfl

theorem fates_unique {P : Prop} {k : Kind} {as l x y : List (Item N V)} (h : Fates P k as l x) (h' : Fates P k as l y) : x = y := by
  induction h generalizing y with
  | nil => cases h'; rfl
  | cons h1 _ ih =>
    cases h' with
    | cons g1 g2 => rw [fate_unique h1 g1, ih g2]

mutual
theorem isFilter_iff : ∀ n : Node N V, isFilter n = true ↔ Has n
  | .leaf v => by
    simp only [isFilter, Bool.false_eq_true, false_iff]
    intro h
    cases h
  | .elem k n as ks => by
    simp only [isFilter, Bool.or_eq_true, beq_iff_eq, anyFilter_iff ks]
    constructor
    · rintro (rfl | ⟨x, hx, h⟩)
      · exact .here _ _ _
      · exact .deep _ _ _ hx h
    · intro h
      cases h with
      | here => exact .inl rfl
      | deep _ _ _ hx h => exact .inr ⟨_, hx, h⟩
theorem anyFilter_iff : ∀ ns : List (Node N V), anyFilter ns = true ↔ ∃ x ∈ ns, Has x
  | [] => by simp [anyFilter]
  | n :: ns => by simp [anyFilter, isFilter_iff n, anyFilter_iff ns]
end

mutual
theorem visit_cleaned [DecidableEq N] {P : Prop} {f : Bool} (hf : f = true ↔ P) : ∀ n : Node N V, Cleaned P n (visit f n)
  | .leaf v => .leaf v
  | .elem k n _ ks => .elem k n (fun h => element_fates hf k h) (visitAll_cleaned hf ks)
theorem visitAll_cleaned [DecidableEq N] {P : Prop} {f : Bool} (hf : f = true ↔ P) : ∀ ns : List (Node N V), CleanedAll P ns (visitAll f ns)
  | [] => .nil
  | n :: ns => .cons (visit_cleaned hf n) (visitAll_cleaned hf ns)
end

theorem find_some {doc ks : List (Node N V)} (h : findElement doc = some ks) :
    ∃ before k n as after, doc = before ++ .elem k n as ks :: after ∧ ∀ m ∈ before, ∃ v, m = .leaf v := by
  induction doc with
  | nil => cases h
  | cons m doc ih =>
    cases m with
    | leaf v =>
      obtain ⟨before, k, n, as, after, e, hb⟩ := ih h
      exact ⟨.leaf v :: before, k, n, as, after, by rw [e]; rfl, fun m hm => by
        cases hm with
        | head => exact ⟨v, rfl⟩
        | tail _ hm => exact hb m hm⟩
    | elem k n as ls =>
      cases h
      exact ⟨[], k, n, as, doc, rfl, fun m hm => by cases hm⟩

theorem find_none {doc : List (Node N V)} (h : findElement doc = none) : ¬ Rooted doc := by
  induction doc with
  | nil => rintro ⟨_, _, _, _, h⟩; cases h
  | cons m doc ih =>
    cases m with
    | leaf v =>
      rintro ⟨k, n, as, ks, hm⟩
      cases hm with
      | tail _ hm => exact ih h ⟨k, n, as, ks, hm⟩
    | elem k n as ls => cases h

theorem split_unique {x y : List (Node N V)} {k k' n n' as as' ks ks' a b} (e : x ++ Node.elem k n as ks :: a = y ++ Node.elem k' n' as' ks' :: b)
    (hx : ∀ m ∈ x, ∃ v, m = Node.leaf v) (hy : ∀ m ∈ y, ∃ v, m = Node.leaf v) : ks = ks' := by
  induction x generalizing y with
  | nil =>
    cases y with
    | nil => simp only [List.nil_append, List.cons.injEq, Node.elem.injEq] at e; exact e.1.2.2.2
    | cons m y =>
      obtain ⟨v, rfl⟩ := hy m List.mem_cons_self
      simp at e
  | cons m x ih =>
    cases y with
    | nil =>
      obtain ⟨v, rfl⟩ := hx m List.mem_cons_self
      simp at e
    | cons m' y =>
      simp only [List.cons_append, List.cons.injEq] at e
      exact ih e.2 (fun z hz => hx z (.tail _ hz)) fun z hz => hy z (.tail _ hz)

theorem find_filtered {doc ks : List (Node N V)} (h : findElement doc = some ks) : anyFilter ks = true ↔ Filtered doc := by
  obtain ⟨before, k, n, as, after, e, hb⟩ := find_some h
  rw [anyFilter_iff]
  constructor
  · exact fun hx => ⟨before, k, n, as, ks, after, e, hb, hx⟩
  · rintro ⟨before', k', n', as', ks', after', e', hb', hx⟩
    rw [split_unique (e.symm.trans e') hb hb']
    exact hx

/-- **C70 (exactly the result)**: the tree, the names and everything that is not an attribute stay as they are; every attribute of every element meets
its fate. -/
theorem run_exact [DecidableEq N] (doc : List (Node N V)) (h : Rooted doc) : CleanedAll (Filtered doc) doc (run true doc) := by
  simp only [run, Bool.not_true, Bool.false_eq_true, if_false]
  cases hf : findElement doc with
  | none => exact absurd h (find_none hf)
  | some ks => exact visitAll_cleaned (find_filtered hf) doc

/-- **C70 (nothing to do)**: a document without elements, or if the job is not enabled. -/
theorem run_else [DecidableEq N] (enabled : Bool) (doc : List (Node N V)) (h : enabled = false ∨ ¬ Rooted doc) : run enabled doc = doc := by
  simp only [run]
  rcases h with rfl | h
  · rfl
  · split
    · rfl
    · split
      · rfl
      · next ks hk =>
        obtain ⟨before, k, n, as, after, e, _⟩ := find_some hk
        exact absurd ⟨k, n, as, ks, by rw [e]; simp⟩ h

theorem clean_same {l : List (Item N V)}
    (h : ∀ b, .style b ∈ l → cleanBlock b = b ∧ (b.important.isEmpty && b.normal.isEmpty) = false) : cleanStyle l = l := by
  induction l with
  | nil => rfl
  | cons a l ih =>
    have ih := ih fun b hb => h b (.tail _ hb)
    cases a with
    | style b =>
      obtain ⟨h1, h2⟩ := h b List.mem_cons_self
      simp only [cleanStyle, h1, h2, Bool.false_eq_true, if_false]
    | _ => simp only [cleanStyle, ih]

theorem remove_same {l : List (Item N V)} (h : ∀ x, .background x ∉ l) : remove l = l := by
  induction l with
  | nil => rfl
  | cons a l ih =>
    have ih := ih fun b hb => h b (.tail _ hb)
    cases a with
    | background x => exact absurd List.mem_cons_self (h x)
    | _ => simp only [remove, ih]

theorem each_style {bg : Held N → List (Item N V)} (hbg : ∀ h b, .style b ∉ bg h) {l : List (Item N V)} {b : Block V}
    (h : .style b ∈ l.flatMap (each bg)) : cleanBlock b = b ∧ (b.important.isEmpty && b.normal.isEmpty) = false := by
  obtain ⟨a, _, ha⟩ := List.mem_flatMap.1 h
  cases a with
  | style c =>
    simp only [each] at ha
    split at ha
    · cases ha
    · next hn =>
      simp only [List.mem_singleton, Item.style.injEq] at ha
      subst ha
      exact ⟨by simp [cleanBlock, List.filter_filter], by simpa using hn⟩
  | background x => exact absurd ha (hbg x b)
  | width s => simp [each] at ha
  | height s => simp [each] at ha
  | other v => simp [each] at ha

theorem each_clean {bg : Held N → List (Item N V)} (hbg : ∀ h b, .style b ∉ bg h) (l : List (Item N V)) :
    cleanStyle (l.flatMap (each bg)) = l.flatMap (each bg) := clean_same fun _ hb => each_style hbg hb

theorem each_background {bg : Held N → List (Item N V)} {l : List (Item N V)} {x : Held N} :
    .background x ∈ l.flatMap (each bg) ↔ ∃ h, .background h ∈ l ∧ .background x ∈ bg h := by
  rw [List.mem_flatMap]
  constructor
  · rintro ⟨a, ha, hx⟩
    cases a with
    | style b =>
      simp only [each] at hx
      split at hx <;> simp at hx
    | background h => exact ⟨h, ha, hx⟩
    | width s => simp [each] at hx
    | height s => simp [each] at hx
    | other v => simp [each] at hx
  · rintro ⟨h, hh, hx⟩
    exact ⟨_, hh, hx⟩

theorem get_set (l : List (Item N V)) (x : Held N) : get (set x l) = some x := by
  induction l with
  | nil => rfl
  | cons a l ih => cases a <;> simp [set, get, ih]

theorem get_none {l : List (Item N V)} (h : ∀ x, .background x ∉ l) : get l = none := by
  induction l with
  | nil => rfl
  | cons a l ih =>
    have ih := ih fun b hb => h b (.tail _ hb)
    cases a with
    | background x => exact absurd List.mem_cons_self (h x)
    | _ => simp only [get, ih]

theorem element_twice [DecidableEq N] (f : Bool) (k : Kind) {as : List (Item N V)} (h : Once as) :
    element f k (element f k as) = element f k as := by
  have hr : cleanStyle (remove (cleanStyle as)) = remove (cleanStyle as) := by rw [remove_each h]; exact each_clean (by simp) _
  have hn : ∀ x, Item.background x ∉ remove (cleanStyle as) := by
    intro x hx
    rw [remove_each h, each_background] at hx
    obtain ⟨_, _, hx⟩ := hx
    cases hx
  have hc : cleanStyle (cleanStyle as) = cleanStyle as := by
    rw [cleanStyle_each h (bg := fun x => [.background x]) fun _ _ => rfl]
    exact each_clean (by simp) _
  cases f with
  | false =>
    simp only [element, Bool.not_false, if_true]
    rw [hr, remove_same hn]
  | true =>
    cases hfit : fits as with
    | false => simp only [element, fits_clean, hfit, Bool.not_true, Bool.not_false, Bool.false_eq_true, if_true, if_false, hc]
    | true =>
      have hnofit : fits (remove (cleanStyle as)) = false := by simp only [fits, get_none hn]
      have hset : fits (set (.defined (.fresh none)) (cleanStyle as)) = false := by simp only [fits, get_set]
      obtain ⟨y, hy, _⟩ := (fits_iff h).1 hfit
      have hcs : cleanStyle (set (.defined (.fresh none)) (cleanStyle as)) = set (.defined (.fresh none)) (cleanStyle as) := by
        rw [set_each h hy]
        exact each_clean (by simp) _
      cases k <;> simp [element, fits_clean, hfit, hc, hr, hnofit, hset, hcs]

mutual
/-- Everywhere in a node, attributes have different names. -/
def Fine : Node N V → Prop
  | .leaf _ => True
  | .elem _ _ as ks => Once as ∧ FineAll ks
/-- The same for lists. -/
def FineAll : List (Node N V) → Prop
  | [] => True
  | n :: ns => Fine n ∧ FineAll ns
end

mutual
theorem visit_twice [DecidableEq N] (f : Bool) : ∀ n : Node N V, Fine n → visit f (visit f n) = visit f n
  | .leaf _, _ => rfl
  | .elem k n as ks, h => by simp only [visit, element_twice f k h.1, visitAll_twice f ks h.2]
theorem visitAll_twice [DecidableEq N] (f : Bool) : ∀ ns : List (Node N V), FineAll ns → visitAll f (visitAll f ns) = visitAll f ns
  | [], _ => rfl
  | n :: ns, h => by simp only [visitAll, visit_twice f n h.1, visitAll_twice f ns h.2]
end

mutual
theorem isFilter_visit [DecidableEq N] (f : Bool) : ∀ n : Node N V, isFilter (visit f n) = isFilter n
  | .leaf _ => rfl
  | .elem k n as ks => by simp only [visit, isFilter, anyFilter_visit f ks]
theorem anyFilter_visit [DecidableEq N] (f : Bool) : ∀ ns : List (Node N V), anyFilter (visitAll f ns) = anyFilter ns
  | [] => rfl
  | n :: ns => by simp only [visitAll, anyFilter, isFilter_visit f n, anyFilter_visit f ns]
end

theorem find_visit [DecidableEq N] (f : Bool) (doc : List (Node N V)) : findElement (visitAll f doc) = (findElement doc).map (visitAll f) := by
  induction doc with
  | nil => rfl
  | cons n doc ih => cases n <;> simp [visitAll, visit, findElement, ih]

/-- **C70 (once is enough)**: a second run changes nothing. -/
theorem run_twice [DecidableEq N] (enabled : Bool) (doc : List (Node N V)) (h : FineAll doc) : run enabled (run enabled doc) = run enabled doc := by
  cases enabled with
  | false => rfl
  | true =>
    simp only [run, Bool.not_true, Bool.false_eq_true, if_false]
    cases hf : findElement doc with
    | none => simp only [hf]
    | some ks => simp only [find_visit, hf, Option.map_some, anyFilter_visit, visitAll_twice _ doc h]

theorem declares_unique {d : Decl V} {v w : List (Token V)} (h : Declares d v) (h' : Declares d w) : v = w := by
  cases h
  cases h'
  rfl

theorem element_background [DecidableEq N] {k : Kind} {as : List (Item N V)} (h : Once as)
    (hk : ∀ x, .background x ∈ as → Fits as x → k ≠ .svg ∧ k ≠ .mask ∧ k ≠ .pattern) : element true k as = cleanStyle as := by
  simp only [element, Bool.not_true, Bool.false_eq_true, if_false, fits_clean]
  cases hfit : fits as with
  | false => simp
  | true =>
    obtain ⟨y, hy, hfy⟩ := (fits_iff h).1 hfit
    have := hk y hy hfy
    cases k <;> simp_all

theorem clean_mem {as : List (Item N V)} (h : Once as) {b : Block V} (hb : .style b ∈ as) (hr : ∀ d, d ∈ b.important ∨ d ∈ b.normal → ¬ Renews d)
    (hn : b.important ≠ [] ∨ b.normal ≠ []) : .style b ∈ cleanStyle as := by
  have hc : cleanBlock b = b := by
    apply Block.eq
    · exact List.filter_eq_self.2 fun d hd => (retained_iff d).2 (hr d (.inl hd))
    · exact List.filter_eq_self.2 fun d hd => (retained_iff d).2 (hr d (.inr hd))
  rw [cleanStyle_each h (bg := fun x => [.background x]) fun _ _ => rfl, List.mem_flatMap]
  refine ⟨_, hb, ?_⟩
  simp only [each, hc]
  rw [if_neg]
  · exact List.mem_singleton.2 rfl
  · simp only [Bool.and_eq_true, List.isEmpty_iff]
    rintro ⟨e1, e2⟩
    exact hn.elim (fun h => h e1) fun h => h e2

theorem clean_style {as : List (Item N V)} (h : Once as) {c : Block V} (hc : .style c ∈ cleanStyle as) :
    ∃ b, .style b ∈ as ∧ (∀ d, d ∈ c.important ↔ d ∈ b.important ∧ ¬ Renews d) ∧ ∀ d, d ∈ c.normal ↔ d ∈ b.normal ∧ ¬ Renews d := by
  rw [cleanStyle_each h (bg := fun x => [.background x]) fun _ _ => rfl, List.mem_flatMap] at hc
  obtain ⟨a, ha, hc⟩ := hc
  cases a with
  | style b =>
    refine ⟨b, ha, ?_⟩
    simp only [each] at hc
    split at hc
    · cases hc
    · simp only [List.mem_singleton, Item.style.injEq] at hc
      subst hc
      simp only [cleanBlock, List.mem_filter, retained_iff]
      exact ⟨fun _ => trivial, fun _ => trivial⟩
  | background x => simp [each] at hc
  | width s => simp [each] at hc
  | height s => simp [each] at hc
  | other v => simp [each] at hc

theorem clean_background {as : List (Item N V)} (h : Once as) (x : Held N) : .background x ∈ cleanStyle as ↔ .background x ∈ as := by
  rw [cleanStyle_each h (bg := fun x => [.background x]) fun _ _ => rfl, each_background]
  simp

/-- **C70 (documents with filters)**: if there is a filter, the background of every element stays what it is, unless the `style` attribute asks for a
new one, or the attribute fits on `<svg>`, `<mask>` or `<pattern>`. -/
theorem counts_partial [DecidableEq N] {k : Kind} {as : List (Item N V)} (h : Once as)
    (hr : ∀ b, .style b ∈ as → ∀ d, d ∈ b.important ∨ d ∈ b.normal → ¬ Renews d)
    (hk : ∀ x, .background x ∈ as → Fits as x → k ≠ .svg ∧ k ≠ .mask ∧ k ≠ .pattern) {s : Source N V} (hs : Counts as s) :
    Counts (element true k as) s := by
  rw [element_background h hk]
  cases hs with
  | important hb hl =>
    refine .important (clean_mem h hb (hr _ hb) (.inl ?_)) hl
    obtain ⟨x, d, y, e, _⟩ := hl
    rw [e]
    simp
  | normal hb hn hl =>
    refine .normal (clean_mem h hb (hr _ hb) (.inr ?_)) hn hl
    obtain ⟨x, d, y, e, _⟩ := hl
    rw [e]
    simp
  | attr hn hx =>
    refine .attr (fun c hc => ?_) ((clean_background h _).2 hx)
    obtain ⟨b, hb, h1, h2⟩ := clean_style h hc
    exact ⟨fun d hd => (hn b hb).1 d ((h1 d).1 hd).1, fun d hd => (hn b hb).2 d ((h2 d).1 hd).1⟩
  | initial hn hx =>
    refine .initial (fun c hc => ?_) fun x hm => hx x ((clean_background h _).1 hm)
    obtain ⟨b, hb, h1, h2⟩ := clean_style h hc
    exact ⟨fun d hd => (hn b hb).1 d ((h1 d).1 hd).1, fun d hd => (hn b hb).2 d ((h2 d).1 hd).1⟩

end Verif.Background
