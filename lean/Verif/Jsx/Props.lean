import Verif.Jsx.Names

/-!
# The JSX of a document stands for the document
-/

namespace Verif.Jsx

/-- An attribute that arrives. -/
def Kept (a : Name × Val) : Prop :=
  (∃ p, attrName a.1 = .ok p) ∧ ∀ n i, a.2 = .style n i → i = []

mutual
/-- A document that arrives: no element has a prefix, every attribute arrives, and nothing but
characters that stand for themselves is written: neither texts nor style sheets have others, and
processing instructions inside of elements have no content. -/
def Faithful : Doc → Prop
  | .element pre loc attrs kids =>
    pre = none ∧
      (∀ a ∈ attrs, ¬ (loc = "svg" ∧ a.1.std = none ∧ a.1.loc = "xmlns") → Kept a) ∧ FaithfulAll kids
  | .text v => ∀ s, v = some s → ∀ c ∈ trim s, literal c
  | .pi v => ∀ s, v = some s → trim s = []
  | .comment => True
  | .style css => ∀ c ∈ css, literal c
/-- The same for children. -/
def FaithfulAll : List Doc → Prop
  | [] => True
  | d :: ds => Faithful d ∧ FaithfulAll ds
end

mutual
/-- What is read of a node. -/
private def view : Doc → List V
  | .element pre loc attrs kids =>
    if pre ≠ none then []
    else [.el loc (attrsJsx (withoutXmlns loc attrs)) (views kids)]
  | .text v => match v with | some s => (trim s).map .ch | none => []
  | .pi v => match v with | some s => (trim s).map .ch | none => []
  | .comment => []
  | .style css => css.map .ch
private def views : List Doc → List V
  | [] => []
  | d :: ds => view d ++ views ds
end

mutual
/-- Every character written stands for itself. -/
private def lits : Doc → Bool
  | .element pre _ _ kids => pre != none || litss kids
  | .text v => match v with | some s => (trim s).all literal | none => true
  | .pi v => match v with | some s => (trim s).all literal | none => true
  | .comment => true
  | .style css => css.all literal
private def litss : List Doc → Bool
  | [] => true
  | d :: ds => lits d && litss ds
end

private theorem steps_append (s : List V × List Frame) (a b : List Tok) :
    steps s (a ++ b) = (steps s a).bind fun s => steps s b := by
  induction a generalizing s with
  | nil => rfl
  | cons t a ih =>
    simp only [List.cons_append, steps]
    rcases step s t with _ | s'
    · rfl
    · simpa using ih s'

private theorem steps_chars (ks : List V) (fs : List Frame) (s : List Char) :
    steps (ks, fs) (s.map .chr) = if s.all literal then some ((s.map V.ch).reverse ++ ks, fs) else none := by
  induction s generalizing ks with
  | nil => simp [steps]
  | cons c s ih =>
    simp only [List.map_cons, steps, step]
    cases hc : literal c
    · simp [hc]
    · simp only [if_true, Option.bind_some, ih, List.all_cons, hc, Bool.true_and]
      split <;> simp

mutual
private theorem steps_emit (d : Doc) (ks : List V) (fs : List Frame) :
    steps (ks, fs) (emit (toJsx d)) = if lits d then some ((view d).reverse ++ ks, fs) else none := by
  match d with
  | .element pre loc attrs kids =>
    rcases pre with _ | p
    · have ih := steps_emits kids [] ((some (loc, attrsJsx (withoutXmlns loc attrs)), ks) :: fs)
      rcases kids with _ | ⟨k, kids⟩
      · simp [toJsx, toJsxs, emit, emits, steps, step, lits, litss, view, views]
      · simp only [toJsx, ne_eq, not_true_eq_false, if_false, emit, List.isEmpty_cons,
          Bool.false_eq_true, steps, step, Option.bind_some]
        rw [steps_append, ih]
        simp only [lits, bne_self_eq_false, Bool.false_or]
        split
        · simp [steps, step, view]
        · rfl
    · simp [toJsx, emit, steps, step, lits, view]
  | .text none => simp [toJsx, emit, steps, step, lits, view]
  | .text (some s) => simp only [toJsx, emit, lits, view]; exact steps_chars ks fs _
  | .pi none => simp [toJsx, emit, steps, step, lits, view]
  | .pi (some s) => simp only [toJsx, emit, lits, view]; exact steps_chars ks fs _
  | .comment => simp [toJsx, emit, steps, step, lits, view]
  | .style css => simp only [toJsx, emit, lits, view]; exact steps_chars ks fs _
private theorem steps_emits (ds : List Doc) (ks : List V) (fs : List Frame) :
    steps (ks, fs) (emits (toJsxs ds)) = if litss ds then some ((views ds).reverse ++ ks, fs) else none := by
  match ds with
  | [] => simp [toJsxs, emits, steps, litss, views]
  | d :: ds =>
    have e1 : litss (d :: ds) = (lits d && litss ds) := by rw [litss]
    have e2 : views (d :: ds) = view d ++ views ds := by rw [views]
    rw [toJsxs, emits, steps_append, steps_emit d, e1, e2]
    by_cases hd : lits d = true
    · rw [if_pos hd, hd]
      simp only [Option.bind_some, Bool.true_and]
      rw [steps_emits ds]
      split <;> simp
    · rw [if_neg hd]
      have hd : lits d = false := by simpa using hd
      simp [hd]
end

/-- The JSX is read back exactly if everything written stands for itself. -/
private theorem read_emit (d : Doc) :
    read (emit (toJsx d)) = if lits d then some (view d) else none := by
  simp only [read, steps_emit]
  split
  · rename_i h
    split at h
    · rename_i hd
      simp at h
      rw [← h, if_pos hd]
      simp
    · cases h
  · rename_i h
    split at h
    · simp at h
    · simp_all

private theorem attrsJsx_cons (a : Name × Val) (as : List (Name × Val)) :
    attrsJsx (a :: as) = (match attrName a.1 with
      | .ok n => [JAttr.attr n (some (attrValue a.2))]
      | .error _ => []) ++ attrsJsx as := by
  simp only [attrsJsx, List.filterMap_cons]
  split <;> rename_i h <;> split at h <;> simp_all

private theorem attrs_length {as : List (Name × Val)} {js : List JAttr} (h : Attrs as js) :
    as.length = js.length := by
  induction h with
  | nil => rfl
  | cons _ _ _ ih => simp [ih]

private theorem attrsJsx_length (as : List (Name × Val)) : (attrsJsx as).length ≤ as.length :=
  List.length_filterMap_le _ _

private theorem gives_iff (v : Val) : Gives v (attrValue v) ↔ ∀ n i, v = .style n i → i = [] := by
  cases v <;> simp [Gives, attrValue]

private theorem attrs_iff (as : List (Name × Val)) : Attrs as (attrsJsx as) ↔ ∀ a ∈ as, Kept a := by
  induction as with
  | nil => simp [attrsJsx, Attrs.nil]
  | cons a as ih =>
    obtain ⟨n, v⟩ := a
    rw [attrsJsx_cons]
    rcases hn : attrName n with e | p
    · constructor
      · intro h
        have := attrs_length h
        have h2 := attrsJsx_length as
        simp only [List.nil_append, List.length_cons] at this
        omega
      · intro h
        obtain ⟨⟨p, hp⟩, -⟩ := h (n, v) (by simp)
        simp [hn] at hp
    · simp only [List.singleton_append]
      constructor
      · intro h
        cases h with
        | cons h1 h2 h3 =>
          intro a ha
          rcases List.mem_cons.mp ha with rfl | ha
          · exact ⟨⟨p, hn⟩, (gives_iff v).mp h2⟩
          · exact ih.mp h3 a ha
      · intro h
        refine Attrs.cons (attrName_spells n p hn) ?_ (ih.mpr fun a ha => h a (List.mem_cons_of_mem _ ha))
        exact (gives_iff v).mpr (h (n, v) (by simp)).2

private theorem dropWhile_split (s : List Char) :
    ∃ a, s = a ++ s.dropWhile white ∧ ∀ c ∈ a, white c := by
  refine ⟨s.takeWhile white, (List.takeWhile_append_dropWhile).symm, ?_⟩
  intro c hc
  induction s with
  | nil => simp at hc
  | cons d s ih =>
    simp only [List.takeWhile_cons] at hc
    split at hc
    · rename_i hd
      rcases List.mem_cons.mp hc with rfl | hc
      · exact hd
      · exact ih hc
    · cases hc

private theorem head_dropWhile (s : List Char) (c : Char) (h : (s.dropWhile white).head? = some c) :
    white c = false := by
  induction s with
  | nil => simp at h
  | cons d s ih =>
    simp only [List.dropWhile_cons] at h
    split at h
    · exact ih h
    · simp at h
      subst h
      simp_all

/-- `trim` takes away the white space around. -/
theorem trim_spec (s : List Char) :
    ∃ a b, s = a ++ trim s ++ b ∧ (∀ c ∈ a, white c) ∧ (∀ c ∈ b, white c) ∧
      (∀ c, (trim s).head? = some c → white c = false) ∧
      (∀ c, (trim s).getLast? = some c → white c = false) := by
  obtain ⟨a, ha, ha'⟩ := dropWhile_split s
  obtain ⟨b, hb, hb'⟩ := dropWhile_split (s.dropWhile white).reverse
  have hb2 : s.dropWhile white = trim s ++ b.reverse := by
    have := congrArg List.reverse hb
    simpa [trim] using this
  refine ⟨a, b.reverse, ?_, ha', ?_, ?_, ?_⟩
  · rw [List.append_assoc, ← hb2]; exact ha
  · intro c hc; exact hb' c (by simpa using hc)
  · intro c hc
    refine head_dropWhile s c ?_
    rw [hb2]
    cases ht : trim s with
    | nil => rw [ht] at hc; cases hc
    | cons x t => rw [ht] at hc; simpa using hc
  · intro c hc
    refine head_dropWhile (s.dropWhile white).reverse c ?_
    have : ((s.dropWhile white).reverse.dropWhile white) = (trim s).reverse := by simp [trim]
    rw [this, List.head?_reverse]
    exact hc

private theorem withoutXmlns_eq (loc : String) (as : List (Name × Val)) :
    withoutXmlns loc as =
      as.filter fun a => !(loc == "svg" && a.1.std == none && a.1.loc == "xmlns") := by
  simp only [withoutXmlns]
  split
  · rename_i h; simp [h]
  · rename_i h
    have h : (loc == "svg") = false := by simpa using h
    symm
    apply List.filter_eq_self.mpr
    intro a _
    simp [h]

private theorem kept_filter (loc : String) (as : List (Name × Val)) :
    (∀ a ∈ as.filter (fun a => !(loc == "svg" && a.1.std == none && a.1.loc == "xmlns")), Kept a) ↔
      ∀ a ∈ as, ¬ (loc = "svg" ∧ a.1.std = none ∧ a.1.loc = "xmlns") → Kept a := by
  simp only [List.mem_filter, Bool.not_eq_true', and_imp]
  constructor
  · intro h a ha hn
    apply h a ha
    cases hb : (loc == "svg" && a.1.std == none && a.1.loc == "xmlns")
    · rfl
    · simp only [Bool.and_eq_true, beq_iff_eq] at hb
      exact absurd ⟨hb.1.1, hb.1.2, hb.2⟩ hn
  · intro h a ha hb
    apply h a ha
    rintro ⟨h1, h2, h3⟩
    simp [h1, h2, h3] at hb

private theorem map_ch_inj {s t : List Char} (h : s.map V.ch = t.map V.ch) : s = t := by
  induction s generalizing t with
  | nil => cases t with
    | nil => rfl
    | cons => cases h
  | cons c s ih => cases t with
    | nil => cases h
    | cons d t => simp at h; rw [h.1, ih (by simpa using h.2)]

mutual
private theorem shows_of (d : Doc) (h : Faithful d) : lits d = true ∧ Shows d (view d) := by
  match d with
  | .element pre loc attrs kids =>
    obtain ⟨h1, h2, h3⟩ := h
    obtain ⟨i1, i2⟩ := shows_all_of kids h3
    subst h1
    refine ⟨by simpa [lits] using i1, ?_⟩
    simp only [view, ne_eq, not_true_eq_false, if_false]
    refine Shows.element ?_ i2
    rw [← withoutXmlns_eq, attrs_iff, withoutXmlns_eq]
    exact (kept_filter loc attrs).mpr h2
  | .text none => exact ⟨rfl, Shows.noText⟩
  | .text (some s) =>
    obtain ⟨a, b, hs, ha, hb, hh, hl⟩ := trim_spec s
    refine ⟨List.all_eq_true.mpr (h s rfl), ?_⟩
    have := Shows.text ha hb hh hl
    rw [← hs] at this
    exact this
  | .pi none => exact ⟨rfl, Shows.noPi⟩
  | .pi (some s) =>
    have := h s rfl
    refine ⟨by simp [lits, this], ?_⟩
    simp only [view, this]
    exact Shows.noPi
  | .comment => exact ⟨rfl, Shows.comment⟩
  | .style css => exact ⟨List.all_eq_true.mpr h, Shows.style⟩
private theorem shows_all_of (ds : List Doc) (h : FaithfulAll ds) :
    litss ds = true ∧ ShowsAll ds (views ds) := by
  match ds with
  | [] => exact ⟨rfl, ShowsAll.nil⟩
  | d :: ds =>
    obtain ⟨h1, h2⟩ := shows_of d h.1
    obtain ⟨h3, h4⟩ := shows_all_of ds h.2
    exact ⟨by simp [litss, h1, h3], ShowsAll.cons h2 h4⟩
end

/-- A character. -/
private def isCh : V → Bool
  | .ch _ => true
  | _ => false

/-- How many characters a node has to show, and how many elements. -/
private def chs : Doc → Nat
  | .text (some s) => (trim s).length
  | .style css => css.length
  | _ => 0

private def els : Doc → Nat
  | .element .. => 1
  | _ => 0

private theorem countP_ch (s : List Char) : s.countP (isCh ∘ V.ch) = s.length := by
  induction s with
  | nil => rfl
  | cons c s ih => simp [List.countP_cons, ih, isCh]

private theorem trim_unique {a s b : List Char} (ha : ∀ c ∈ a, white c) (hb : ∀ c ∈ b, white c)
    (hh : ∀ c, s.head? = some c → white c = false)
    (hl : ∀ c, s.getLast? = some c → white c = false) : trim (a ++ s ++ b) = s := by
  have drop : ∀ (a s : List Char), (∀ c ∈ a, white c) → (∀ c, s.head? = some c → white c = false) →
      (a ++ s).dropWhile white = s := by
    intro a s ha hh
    induction a with
    | nil =>
      cases s with
      | nil => rfl
      | cons c s => simp [hh c rfl]
    | cons c a ih =>
      simp only [List.cons_append, List.dropWhile_cons, ha c (by simp), if_true]
      exact ih fun c hc => ha c (by simp [hc])
  cases s with
  | nil =>
    have : (a ++ [] ++ b).dropWhile white = [] := by
      have := drop (a ++ b) [] (by
        intro c hc
        rcases List.mem_append.mp hc with h | h
        · exact ha c h
        · exact hb c h) (by simp)
      simpa using this
    simp only [trim, this]
    rfl
  | cons x t =>
    have h1 : (a ++ (x :: t) ++ b).dropWhile white = (x :: t) ++ b := by
      rw [List.append_assoc]
      exact drop a _ ha (by simpa using hh)
    have h2 : (((x :: t) ++ b).reverse).dropWhile white = (x :: t).reverse := by
      rw [List.reverse_append]
      refine drop b.reverse _ (fun c hc => hb c (by simpa using hc)) ?_
      intro c hc
      rw [List.head?_reverse] at hc
      exact hl c hc
    simp only [trim, h1, h2, List.reverse_reverse]

private theorem shows_count {d : Doc} {v : List V} (h : Shows d v) :
    v.countP isCh = chs d ∧ v.length = chs d + els d := by
  cases h with
  | element => simp [chs, els, isCh]
  | text ha hb hh hl => simp only [chs, els, trim_unique ha hb hh hl, List.countP_map, countP_ch, List.length_map, Nat.add_zero, and_self]
  | noText => simp [chs, els]
  | comment => simp [chs, els]
  | noPi => simp [chs, els]
  | style => simp only [chs, els, List.countP_map, countP_ch, List.length_map, Nat.add_zero, and_self]

private theorem showsAll_count {ds : List Doc} {v : List V} (h : ShowsAll ds v) :
    v.countP isCh = (ds.map chs).sum ∧ v.length = (ds.map fun d => chs d + els d).sum := by
  induction ds generalizing v with
  | nil => cases h; simp
  | cons d ds ih =>
    cases h with
    | cons h1 h2 =>
      have := shows_count h1
      have := ih h2
      simp_all

private theorem view_count (d : Doc) :
    chs d ≤ (view d).countP isCh ∧
      (view d).length - (view d).countP isCh ≤ els d ∧ (view d).countP isCh ≤ (view d).length ∧
      ((view d).countP isCh = chs d → (view d).length = chs d + els d →
        (∀ s, d = .pi (some s) → trim s = []) ∧ ∀ p l as ks, d = .element p l as ks → p = none) := by
  match d with
  | .element none loc attrs kids =>
    simp only [view, chs, els, isCh, ne_eq, not_true_eq_false, if_false]
    refine ⟨by simp, by simp, by simp [isCh], fun _ _ => ⟨by simp, ?_⟩⟩
    intro p l as ks h
    cases h
    rfl
  | .element (some p) loc attrs kids => simp [view, chs, els]
  | .text none => simp [view, chs, els]
  | .text (some s) => simp only [view, chs, els, List.countP_map, countP_ch, List.length_map]; simp
  | .pi none => simp [view, chs, els]
  | .pi (some s) => simp only [view, chs, els, List.countP_map, countP_ch, List.length_map]; simp
  | .comment => simp [view, chs, els]
  | .style css => simp only [view, chs, els, List.countP_map, countP_ch, List.length_map]; simp

private theorem views_count (ds : List Doc) :
    (ds.map chs).sum ≤ (views ds).countP isCh ∧
      (views ds).length - (views ds).countP isCh ≤ (ds.map els).sum ∧
      (views ds).countP isCh ≤ (views ds).length := by
  induction ds with
  | nil => simp [views]
  | cons d ds ih =>
    have := view_count d
    simp only [views, List.map_cons, List.sum_cons, List.countP_append, List.length_append]
    omega

private theorem sum_add (ds : List Doc) :
    (ds.map fun d => chs d + els d).sum = (ds.map chs).sum + (ds.map els).sum := by
  induction ds with
  | nil => rfl
  | cons d ds ih => simp only [List.map_cons, List.sum_cons, ih]; omega

/-- The parts of what the children show. -/
private theorem showsAll_cons {d : Doc} {ds : List Doc} (h : ShowsAll (d :: ds) (views (d :: ds))) :
    Shows d (view d) ∧ ShowsAll ds (views ds) ∧
      (∀ s, d = .pi (some s) → trim s = []) ∧ ∀ p l as ks, d = .element p l as ks → p = none := by
  have hc := showsAll_count h
  rw [sum_add] at hc
  have h1 := view_count d
  have h2 := views_count ds
  simp only [views, List.map_cons, List.sum_cons, List.countP_append, List.length_append] at hc
  have e1 : (view d).countP isCh = chs d := by omega
  have e2 : (view d).length = chs d + els d := by omega
  generalize hv : views (d :: ds) = w at h
  cases h with
  | @cons _ _ v vs g1 g2 =>
    have := shows_count g1
    have hv : v ++ vs = view d ++ views ds := hv.symm
    obtain ⟨rfl, rfl⟩ := List.append_inj hv (by omega)
    exact ⟨g1, g2, h1.2.2.2 e1 e2⟩

mutual
private theorem faithful_of (d : Doc) (hl : lits d = true) (h : Shows d (view d))
    (hp : ∀ s, d = .pi (some s) → trim s = [])
    (he : ∀ p l as ks, d = .element p l as ks → p = none) : Faithful d := by
  match d with
  | .element pre loc attrs kids =>
    have := he _ _ _ _ rfl
    subst this
    simp only [view, ne_eq, not_true_eq_false, if_false] at h
    generalize hw : views kids = w at h
    cases h with
    | element h1 h2 =>
      subst hw
      refine ⟨rfl, ?_, faithful_all_of kids (by simpa [lits] using hl) h2⟩
      rw [← withoutXmlns_eq, attrs_iff, withoutXmlns_eq] at h1
      exact (kept_filter loc attrs).mp h1
  | .text v =>
    intro s hs
    subst hs
    exact List.all_eq_true.mp hl
  | .pi v => exact fun s hs => hp s (by rw [hs])
  | .comment => trivial
  | .style css => exact List.all_eq_true.mp hl
private theorem faithful_all_of (ds : List Doc) (hl : litss ds = true) (h : ShowsAll ds (views ds)) :
    FaithfulAll ds := by
  match ds with
  | [] => trivial
  | d :: ds =>
    obtain ⟨h1, h2, h3, h4⟩ := showsAll_cons h
    simp only [litss, Bool.and_eq_true] at hl
    exact ⟨faithful_of d hl.1 h1 h3 h4, faithful_all_of ds hl.2 h2⟩
end

/-- **C85 (the document)**: the JSX written for an element reads as the element of the document
exactly if no element in it has a prefix, all of its attributes arrive, and all that is written
as text stands for itself. -/
theorem toJsx_shows_iff (pre : Option String) (loc : String) (attrs : List (Name × Val))
    (kids : List Doc) :
    (∃ v, read (emit (toJsx (.element pre loc attrs kids))) = some v ∧
        Shows (.element pre loc attrs kids) v) ↔ Faithful (.element pre loc attrs kids) := by
  constructor
  · rintro ⟨v, hv, hs⟩
    rw [read_emit] at hv
    split at hv
    · rename_i hl
      simp only [Option.some.injEq] at hv
      subst hv
      refine faithful_of _ hl hs (fun s h => by cases h) ?_
      intro p l as ks h
      cases h
      have := (shows_count hs).2
      rcases pre with _ | p
      · rfl
      · simp [view, chs, els] at this
    · cases hv
  · intro h
    obtain ⟨h1, h2⟩ := shows_of _ h
    exact ⟨_, by rw [read_emit, if_pos h1], h2⟩

/-- **C85 (documents)**: for documents as they are parsed, with one element and no text besides. -/
theorem docJsx_shows_iff (before behind : List Doc) (pre : Option String) (loc : String)
    (attrs : List (Name × Val)) (kids : List Doc)
    (hb : ∀ d ∈ before, (∀ p l as ks, d ≠ .element p l as ks) ∧ ∀ t, d ≠ .text t)
    (ha : ∀ d ∈ behind, (∀ p l as ks, d ≠ .element p l as ks) ∧ ∀ t, d ≠ .text t) :
    (∃ v, read (emit (docJsx (before ++ .element pre loc attrs kids :: behind))) = some v ∧
        Shows (.element pre loc attrs kids) v) ↔ Faithful (.element pre loc attrs kids) := by
  have h1 : ∀ l : List Doc, (∀ d ∈ l, (∀ p l as ks, d ≠ .element p l as ks) ∧ ∀ t, d ≠ .text t) → l.filter Doc.shown = [] := by
    intro l hl
    apply List.filter_eq_nil_iff.mpr
    intro d hd
    have := hl d hd
    cases d with
    | element p l as ks => exact absurd rfl (this.1 p l as ks)
    | text t => exact absurd rfl (this.2 t)
    | _ => simp [Doc.shown]
  have : docJsx (before ++ .element pre loc attrs kids :: behind) = toJsx (.element pre loc attrs kids) := by
    simp only [docJsx, List.filter_append, List.filter_cons, h1 before hb, h1 behind ha,
      Doc.shown, if_true, List.nil_append, toJsxs]
  rw [this]
  exact toJsx_shows_iff pre loc attrs kids

end Verif.Jsx
