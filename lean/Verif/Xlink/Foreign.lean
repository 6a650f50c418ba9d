import Verif.Xlink.Props

/-!
# Other attributes, declarations and panics
-/

namespace Verif.Xlink

open Verif.Tree
open Verif.Names (Str lit StdNs)

/-! ## Panics -/

theorem showOf_isSome {v : Str} : (showOf v).isSome ↔ v ∈ ["new", "replace", "embed", "other", "none"].map lit := by
  unfold showOf
  repeat' split
  all_goals simp_all

theorem getX_mem {k : XK} {as : List Attr} {p v : Str} (h : getX k as = some (p, v)) : .xlink k p v ∈ as := by
  induction as with
  | nil => simp [getX] at h
  | cons a as ih =>
    cases a with
    | xlink j q w =>
      simp only [getX, List.findSome?_cons] at h ih
      by_cases e : j = k
      · simp only [e, if_true, Option.some.injEq, Prod.mk.injEq] at h
        obtain ⟨rfl, rfl⟩ := h
        subst e
        exact List.mem_cons_self ..
      · simp only [if_neg e] at h
        exact List.mem_cons_of_mem _ (ih h)
    | _ => exact List.mem_cons_of_mem _ (ih h)

theorem getX_of_mem {k : XK} {as : List Attr} (w : (as.filter (isX k)).length ≤ 1) {p v : Str} (h : .xlink k p v ∈ as) : getX k as = some (p, v) := by
  induction as with
  | nil => simp at h
  | cons a as ih =>
    cases ha : isX k a with
    | true =>
      rw [List.filter_cons, if_pos ha] at w
      have hn : as.filter (isX k) = [] := by
        cases hf : as.filter (isX k) with
        | nil => rfl
        | cons b bs => rw [hf] at w; simp at w
      rcases List.mem_cons.1 h with rfl | h
      · simp [getX, List.findSome?_cons]
      · have : Attr.xlink k p v ∈ as.filter (isX k) := List.mem_filter.2 ⟨h, by simp [isX]⟩
        rw [hn] at this; simp at this
    | false =>
      rw [List.filter_cons, if_neg (by simp [ha])] at w
      rcases List.mem_cons.1 h with rfl | h'
      · simp [isX] at ha
      · clear h
        cases a with
        | xlink j q u =>
          simp only [isX, decide_eq_false_iff_not] at ha
          simp only [getX, List.findSome?_cons, if_neg ha]
          exact ih w h'
        | _ => exact ih w h'

theorem show_none {as : List Attr} (w : Wf as) : handleShow (as.filter plain) = none ↔ Bad as := by
  have wp := w.sublist (List.filter_sublist (p := plain))
  have ht : targetOf (as.filter plain) = targetOf as := (view_plain as).2.1
  rw [handleShow, hasTarget_iff, ht, Bad]
  by_cases h : (targetOf as).isSome = true
  · rw [if_pos h]
    cases hg : getX .shows (as.filter plain) with
    | none =>
      simp only [reduceCtorEq, false_iff]
      rintro ⟨_, p, v, hm, _⟩
      have := getX_of_mem (wp.once .shows) (List.mem_filter.2 ⟨hm, rfl⟩)
      rw [hg] at this
      simp at this
    | some pv =>
      obtain ⟨p, v⟩ := pv
      have hm := (List.mem_filter.1 (getX_mem hg)).1
      simp only
      constructor
      · intro hn
        split at hn
        · simp at hn
        · rename_i hc
          rw [showOf_isSome] at hc
          simp only [not_or] at hc
          exact ⟨h, p, v, hm, hc.1, hc.2⟩
      · rintro ⟨_, q, u, hq, h₁, h₂⟩
        have := getX_of_mem (wp.once .shows) (List.mem_filter.2 ⟨hq, rfl⟩)
        rw [hg] at this
        simp only [Option.some.injEq, Prod.mk.injEq] at this
        obtain ⟨rfl, rfl⟩ := this
        exact if_neg (by rw [showOf_isSome]; simp only [not_or]; exact ⟨h₁, h₂⟩)
  · rw [if_neg h]
    simp only [h, false_and, iff_false, Bool.false_eq_true]
    split
    · split <;> simp
    · simp

theorem enter_none {legacy : Bool} {n : EName} {as : List Attr} {ks : List (Node Attr)} {st : List Entry} (w : Wf as) :
    enter legacy n as ks st = none ↔ Bad as := by
  rw [← show_none w, enter]
  cases handleShow (as.filter plain) <;> simp

mutual
theorem visit_total {legacy : Bool} : ∀ (t : Node Attr) (st : List Entry), Every (fun _ as _ => Wf as) t →
    ((visit legacy t st).isSome ↔ Every (fun _ as _ => ¬Bad as) t)
  | .elem n as ks, st, hw => by
    rw [Every] at hw
    rw [visit, Every]
    cases he : enter legacy n as ks st with
    | none => simp [(enter_none hw.1).1 he]
    | some r =>
      obtain ⟨as', new, st₁⟩ := r
      have hb : ¬Bad as := fun hb => by rw [(enter_none hw.1).2 hb] at he; simp at he
      have := visitAll_total (legacy := legacy) ks st₁ hw.2
      simp only [hb, not_false_eq_true, true_and]
      rw [← this]
      cases visitAll legacy ks st₁ <;> simp
  | .text s, _, _ => by simp [visit, Every]
  | .css s, _, _ => by simp [visit, Every]
  | .comment s, _, _ => by simp [visit, Every]
  | .pi t d, _, _ => by simp [visit, Every]
theorem visitAll_total {legacy : Bool} : ∀ (ns : List (Node Attr)) (st : List Entry), EveryAll (fun _ as _ => Wf as) ns →
    ((visitAll legacy ns st).isSome ↔ EveryAll (fun _ as _ => ¬Bad as) ns)
  | [], _, _ => by simp [visitAll, EveryAll]
  | n :: ns, st, hw => by
    rw [EveryAll] at hw
    rw [visitAll, EveryAll, ← visit_total (legacy := legacy) n st hw.1]
    cases visit legacy n st with
    | none => simp
    | some r =>
      obtain ⟨n', st₁⟩ := r
      rw [← visitAll_total (legacy := legacy) ns st₁ hw.2]
      simp only [Option.isSome_some, true_and]
      cases visitAll legacy ns st₁ <;> simp
end

/-- **C65 (panics, exactly).** The job panics iff some element has a `target` and an `xlink:show` whose prefix is not `xlink` and whose value has no meaning. -/
theorem run_total_iff {legacy : Bool} {doc : List (Node Attr)} (w : EveryAll (fun _ as _ => Wf as) doc) :
    (run legacy doc).isSome ↔ EveryAll (fun _ as _ => ¬Bad as) doc := by
  rw [← visitAll_total (legacy := legacy) doc [] w, run]
  simp

/-! ## With the option -/

theorem foreign_dropX (k : XK) (as : List Attr) : (dropX k as).filter isForeign = as.filter isForeign := by
  induction as with
  | nil => rfl
  | cons a as ih =>
    cases a with
    | xlink j p v =>
      rw [dropX_cons]
      split
      · simp [List.filter_cons, isForeign]
      · simpa [List.filter_cons, isForeign] using ih
    | _ => simp only [dropX, List.filter_cons, ih]

theorem foreign_setNamed {n : Str} {a : Attr} (ha : isForeign a = false) {as : List Attr} (h : ∀ v, .unknown none n v ∉ as) :
    (setNamed n a as).filter isForeign = as.filter isForeign := by
  induction as with
  | nil => simp [setNamed, ha]
  | cons b as ih =>
    rw [setNamed]
    split
    · rename_i hb
      have : isForeign b = false := by
        cases b with
        | unknown p l v =>
          cases p with
          | none => simp only [Attr.named, beq_iff_eq] at hb; subst hb; exact absurd (List.mem_cons_self ..) (h v)
          | some p => simp [Attr.named] at hb
        | decl l u => simp [Attr.named] at hb
        | _ => rfl
      simp [List.filter_cons, this, ha]
    · rw [List.filter_cons, List.filter_cons, ih fun v hm => h v (List.mem_cons_of_mem _ hm)]

theorem Clear.of {as bs : List Attr} (c : Clear as) (h : bs.filter isForeign = as.filter isForeign) : Clear bs := by
  have key : ∀ a, isForeign a = true → a ∈ bs → a ∈ as := by
    intro a ha hm
    have : a ∈ bs.filter isForeign := List.mem_filter.2 ⟨hm, ha⟩
    rw [h] at this
    exact (List.mem_filter.1 this).1
  exact fun v => ⟨fun hm => (c v).1 (key _ rfl hm), fun hm => (c v).2 (key _ rfl hm)⟩

theorem enter_foreign {legacy : Bool} {n : EName} {as as' : List Attr} {ks new : List (Node Attr)} {st st' : List Entry} (c : Clear as)
    (h : enter legacy n as ks st = some (as', new, st')) : as'.filter isForeign = as.filter isForeign := by
  rw [enter] at h
  simp only at h
  cases hs : handleShow (as.filter plain) with
  | none => rw [hs] at h; simp at h
  | some bs =>
    rw [hs] at h
    simp only [Option.some.injEq, Prod.mk.injEq] at h
    obtain ⟨rfl, rfl, rfl⟩ := h
    have h₀ : (as.filter plain).filter isForeign = as.filter isForeign := by
      rw [List.filter_filter]
      apply List.filter_congr
      intro a _
      cases a with
      | xlink k p v => cases k <;> rfl
      | _ => simp [plain]
    have c₀ := c.of h₀
    have h₁ : bs.filter isForeign = (as.filter plain).filter isForeign := by
      rw [handleShow] at hs
      split at hs
      · split at hs
        · split at hs
          · simp only [Option.some.injEq] at hs; rw [← hs, foreign_dropX]
          · simp at hs
        · simp only [Option.some.injEq] at hs; rw [hs]
      · split at hs
        · split at hs
          · simp only [Option.some.injEq] at hs
            rw [← hs, foreign_dropX, foreign_setNamed rfl fun v => (c₀ v).2]
          · simp only [Option.some.injEq] at hs; rw [hs]
        · simp only [Option.some.injEq] at hs; rw [hs]
    have c₁ := c₀.of h₁
    have h₂ : (handleTitle bs ks).1.filter isForeign = bs.filter isForeign := by
      rw [handleTitle]
      split
      · rfl
      · split
        · exact foreign_dropX _ _
        · rfl
    have c₂ := c₁.of h₂
    have h₃ : (handleHref legacy n (handleTitle bs ks).1 (as.foldl note st)).1.filter isForeign = (handleTitle bs ks).1.filter isForeign := by
      generalize (handleTitle bs ks).1 = cs at c₂
      rw [handleHref]
      split
      · rfl
      · split
        · rfl
        · split
          · rw [foreign_setNamed rfl, foreign_dropX]
            exact fun v hm => (c₂ v).1 ((dropX_sublist _ _).mem hm)
          · rfl
    rw [h₃, h₂, h₁, h₀]

mutual
theorem visit_match' {legacy : Bool} {P : EName → List Attr → List (Node Attr) → Prop} {Q : EName → List Attr → List (Node Attr) → List Attr → List (Node Attr) → Prop} {S : List Entry → Prop}
    (he : ∀ {n as ks st as' new st'}, P n as ks → S st → enter legacy n as ks st = some (as', new, st') → S st' ∧
      ∀ st'', S st'' → Q n as ks (leave legacy st'' as').1 new ∧ S (leave legacy st'' as').2) :
    ∀ (t : Node Attr) {st st' : List Entry} {t' : Node Attr}, Every P t → S st → visit legacy t st = some (t', st') → Match Q t t' ∧ S st'
  | .elem n as ks, st, st', t', hw, hS, h => by
    rw [Every] at hw
    rw [visit] at h
    split at h
    · simp at h
    · rename_i as' new st₁ hen
      split at h
      · simp at h
      · rename_i ks' st₂ hv
        simp only [Option.some.injEq, Prod.mk.injEq] at h
        obtain ⟨rfl, rfl⟩ := h
        have h₁ := he hw.1 hS hen
        have h₂ := visitAll_match' he ks hw.2 h₁.1 hv
        have h₃ := h₁.2 st₂ h₂.2
        rw [Match]
        exact ⟨⟨_, new, ks', rfl, h₃.1, h₂.1⟩, h₃.2⟩
  | .text s, _, _, _, _, hS, h => by rw [visit] at h; simp only [Option.some.injEq, Prod.mk.injEq] at h; rw [Match]; exact ⟨h.1.symm, h.2 ▸ hS⟩
  | .css s, _, _, _, _, hS, h => by rw [visit] at h; simp only [Option.some.injEq, Prod.mk.injEq] at h; rw [Match]; exact ⟨h.1.symm, h.2 ▸ hS⟩
  | .comment s, _, _, _, _, hS, h => by rw [visit] at h; simp only [Option.some.injEq, Prod.mk.injEq] at h; rw [Match]; exact ⟨h.1.symm, h.2 ▸ hS⟩
  | .pi t d, _, _, _, _, hS, h => by rw [visit] at h; simp only [Option.some.injEq, Prod.mk.injEq] at h; rw [Match]; exact ⟨h.1.symm, h.2 ▸ hS⟩
theorem visitAll_match' {legacy : Bool} {P : EName → List Attr → List (Node Attr) → Prop} {Q : EName → List Attr → List (Node Attr) → List Attr → List (Node Attr) → Prop} {S : List Entry → Prop}
    (he : ∀ {n as ks st as' new st'}, P n as ks → S st → enter legacy n as ks st = some (as', new, st') → S st' ∧
      ∀ st'', S st'' → Q n as ks (leave legacy st'' as').1 new ∧ S (leave legacy st'' as').2) :
    ∀ (ns : List (Node Attr)) {st st' : List Entry} {ns' : List (Node Attr)}, EveryAll P ns → S st → visitAll legacy ns st = some (ns', st') → MatchAll Q ns ns' ∧ S st'
  | [], _, _, _, _, hS, h => by rw [visitAll] at h; simp only [Option.some.injEq, Prod.mk.injEq] at h; rw [MatchAll]; exact ⟨h.1.symm, h.2 ▸ hS⟩
  | n :: ns, st, st', ns', hw, hS, h => by
    rw [EveryAll] at hw
    rw [visitAll] at h
    split at h
    · simp at h
    · rename_i n' st₁ hen
      split at h
      · simp at h
      · rename_i ms st₂ hv
        simp only [Option.some.injEq, Prod.mk.injEq] at h
        obtain ⟨rfl, rfl⟩ := h
        have h₁ := visit_match' he n hw.1 hS hen
        have h₂ := visitAll_match' he ns hw.2 h₁.2 hv
        rw [MatchAll]
        exact ⟨⟨n', ms, rfl, h₁.1, h₂.1⟩, h₂.2⟩
end

theorem run_some {legacy : Bool} {doc doc' : List (Node Attr)} (h : run legacy doc = some doc') : ∃ st, visitAll legacy doc [] = some (doc', st) := by
  rw [run] at h
  cases hv : visitAll legacy doc [] with
  | none => rw [hv] at h; simp at h
  | some r => rw [hv] at h; simp only [Option.map_some, Option.some.injEq] at h; subst h; exact ⟨_, rfl⟩

/-- **C65 (other attributes, with the option).** With `includeLegacy`, every element keeps its unknown attributes and the declarations of other namespaces, in
order, if no unknown attribute is called `href` or `target`. -/
theorem foreign_kept {doc doc' : List (Node Attr)} (c : EveryAll (fun _ as _ => Clear as) doc) (h : run true doc = some doc') :
    MatchAll (fun _ as _ as' _ => as'.filter isForeign = as.filter isForeign) doc doc' := by
  obtain ⟨st, hv⟩ := run_some h
  refine (visitAll_match' (P := fun _ as _ => Clear as) (S := fun _ => True) ?_ doc c trivial hv).1
  intro n as ks st as' new st' hc _ he
  refine ⟨trivial, fun st'' _ => ⟨?_, trivial⟩⟩
  rw [leave_legacy, List.filter_filter, ← enter_foreign hc he]
  apply List.filter_congr
  intro a _
  cases a <;> simp [isForeign, isXDecl]

/-! ## Without the option -/

/-- Entries that say nothing, about the prefixes for which `X` holds. -/
def Quiet (X : Str → Prop) (st : List Entry) : Prop := ∀ e ∈ st, e.overridden = false ∧ e.legacy = false ∧ X e.loc

theorem note_quiet {X : Str → Prop} {st : List Entry} (q : Quiet X st) {a : Attr}
    (h : ∀ l u, a = .decl l u → (X l ↔ u = StdNs.uri .xlink)) : Quiet X (note st a) := by
  cases a with
  | decl l u =>
    have hx := h l u rfl
    simp only [note]
    split
    · rename_i e
      intro e' he
      rcases List.mem_cons.1 he with rfl | he
      · exact ⟨rfl, rfl, hx.2 e⟩
      · exact q e' he
    · rename_i hn
      cases st with
      | nil => exact q
      | cons e st =>
        simp only
        rw [if_neg]
        · exact q
        · intro hl
          exact hn (hx.1 (hl ▸ (q e (List.mem_cons_self ..)).2.2))
  | _ => exact q

theorem leave_gone {X : Str → Prop} {st : List Entry} (q : Quiet X st) (as : List Attr) :
    (leave false st as).1.filter isForeign = [] ∧ Quiet X (leave false st as).2 := by
  induction as generalizing st with
  | nil => exact ⟨rfl, q⟩
  | cons a as ih =>
    have pop : Quiet X st.tail := fun e he => q e (List.mem_of_mem_tail he)
    rw [leave]
    by_cases hf : isForeign a = true
    · have : leaveAttr false st a = (false, st.tail) := by
        cases a with
        | decl l u =>
          simp only [isForeign, decide_eq_true_eq] at hf
          simp only [leaveAttr, if_neg hf]
          cases st with
          | nil => rfl
          | cons e st => have := q e (List.mem_cons_self ..); simp [this.1, this.2.1]
        | unknown p l v =>
          simp only [leaveAttr]
          cases st with
          | nil => rfl
          | cons e st => have := q e (List.mem_cons_self ..); simp [this.1, this.2.1]
        | _ => simp [isForeign] at hf
      rw [this]
      simpa using ih pop
    · have h₂ : (leaveAttr false st a).2 = st := by
        cases a with
        | decl l u => simp only [isForeign, decide_eq_true_eq, Decidable.not_not] at hf; simp [leaveAttr, hf]
        | unknown p l v => simp [isForeign] at hf
        | _ => rfl
      rw [h₂]
      have := ih q
      simp only
      split
      · rw [List.filter_cons, if_neg hf]; exact this
      · exact this

/-- **C65 (other attributes, without the option: they go).** In every document without legacy elements that declares no prefix both for XLink and for something else,
the job without `includeLegacy` (the default) removes every unknown attribute (`data-*`, those of editors) and every declaration of a namespace other than XLink
and the default one, whether or not XLink is used. So the job does not only remove XLink. -/
theorem foreign_gone {doc doc' : List (Node Attr)} (X : Str → Prop)
    (c : EveryAll (fun n as _ => isLegacy n = false ∧ ∀ l u, .decl l u ∈ as → (X l ↔ u = StdNs.uri .xlink)) doc) (h : run false doc = some doc') :
    MatchAll (fun _ _ _ as' _ => as'.filter isForeign = []) doc doc' := by
  obtain ⟨st, hv⟩ := run_some h
  refine (visitAll_match' (P := fun n as _ => isLegacy n = false ∧ ∀ l u, .decl l u ∈ as → (X l ↔ u = StdNs.uri .xlink)) (S := Quiet X) ?_ doc c
    (fun e he => by simp at he) hv).1
  intro n as ks st as' new st' hc hq he
  refine ⟨?_, fun st'' hq' => leave_gone hq' _⟩
  have hn : Quiet X (as.foldl note st) := by
    have := hc.2
    clear he hc
    induction as generalizing st with
    | nil => exact hq
    | cons a as ih =>
      rw [List.foldl_cons]
      exact ih (note_quiet hq fun l u e => this l u (e ▸ List.mem_cons_self ..)) fun l u hm => this l u (List.mem_cons_of_mem _ hm)
  rw [enter] at he
  simp only at he
  split at he
  · simp at he
  · simp only [Option.some.injEq, Prod.mk.injEq] at he
    obtain ⟨_, _, rfl⟩ := he
    rw [handleHref, hc.1]
    split
    · exact hn
    · split
      · rename_i hl; simp at hl
      · split <;> exact hn

/-! ## Dangling prefixes -/

mutual
theorem bound_stays {legacy : Bool} : ∀ (t : Node Attr) {t' : Node Attr} (scope : List (List Attr)), (∀ bs ∈ scope, ∀ a ∈ bs, isXDecl a = false) →
    Match (Kept legacy) t t' → (Bound scope t' ↔ Every (fun n as ks => ∀ k, ¬Stays legacy n as ks k) t)
  | .elem n as ks, t', scope, hs, h => by
    rw [Match] at h
    obtain ⟨as', new, rest, rfl, hk, hr⟩ := h
    have hs' : ∀ bs ∈ as' :: scope, ∀ a ∈ bs, isXDecl a = false := by
      intro bs hb
      rcases List.mem_cons.1 hb with rfl | hb
      · exact hk.decl
      · exact hs bs hb
    have hnew : BoundAll (as' :: scope) (new ++ rest) ↔ BoundAll (as' :: scope) rest := by
      rcases hk.new with rfl | ⟨v, _, rfl⟩
      · rfl
      · simp [BoundAll, Bound, titleElement]
    rw [Bound, Every, hnew, boundAll_stays ks (as' :: scope) hs' hr]
    refine and_congr ?_ Iff.rfl
    constructor
    · intro hb k hk'
      obtain ⟨p, v, hm⟩ := (hk.stay k).2 hk'
      obtain ⟨bs, hbs, hd⟩ := hb k p v hm
      have := hs' bs hbs _ hd
      simp [isXDecl] at this
    · intro hn k p v hm
      exact absurd ((hk.stay k).1 ⟨p, v, hm⟩) (hn k)
  | .text s, _, _, _, h => by rw [Match] at h; subst h; simp [Bound, Every]
  | .css s, _, _, _, h => by rw [Match] at h; subst h; simp [Bound, Every]
  | .comment s, _, _, _, h => by rw [Match] at h; subst h; simp [Bound, Every]
  | .pi t d, _, _, _, h => by rw [Match] at h; subst h; simp [Bound, Every]
theorem boundAll_stays {legacy : Bool} : ∀ (ns : List (Node Attr)) {ns' : List (Node Attr)} (scope : List (List Attr)), (∀ bs ∈ scope, ∀ a ∈ bs, isXDecl a = false) →
    MatchAll (Kept legacy) ns ns' → (BoundAll scope ns' ↔ EveryAll (fun n as ks => ∀ k, ¬Stays legacy n as ks k) ns)
  | [], _, _, _, h => by rw [MatchAll] at h; subst h; simp [BoundAll, EveryAll]
  | n :: ns, _, scope, hs, h => by
    rw [MatchAll] at h
    obtain ⟨m, ms, rfl, h₁, h₂⟩ := h
    rw [BoundAll, EveryAll, bound_stays n scope hs h₁, boundAll_stays ns scope hs h₂]
end

/-- **C65 (dangling prefixes, exactly).** After the job every attribute of XLink has a declared prefix iff none stays at all: iff no element has an
`xlink:show` that is not `new` without `target`, an `xlink:title` beside a `title`, an `xlink:href` beside an `href`, nor (without the option) an `xlink:href` on
a legacy element. Otherwise the result is not a well-formed document with namespaces, whatever the document was. -/
theorem dangling_iff {legacy : Bool} {doc doc' : List (Node Attr)} (w : EveryAll (fun _ as _ => Wf as) doc) (h : run legacy doc = some doc') :
    BoundAll [] doc' ↔ EveryAll (fun n as ks => ∀ k, ¬Stays legacy n as ks k) doc :=
  boundAll_stays doc [] (fun _ h => by simp at h) (run_kept_partial w h)

end Verif.Xlink
