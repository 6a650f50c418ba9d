import Verif.UnusedNs.Model

/-!
# C27: removal of unused namespace declarations keeps every used prefix bound
-/

namespace Verif.UnusedNs

open Verif.Tree Verif.Names

variable {K : Type}

/-! ## Vocabulary -/

/-- The attributes of a node. -/
def attrsOf : Node (Attr K Str) → List (Attr K Str)
  | .elem _ as _ => as
  | _ => []

/-- The prefixes of the names of a node: of the element and of its attributes. -/
def prefixesOf (T : Table K) : Node (Attr K Str) → List Prefix
  | .elem n as _ => n.pre :: as.map (·.prefix' T)
  | _ => []

/-- Some element or attribute of the document has a name with a prefix that stands for the namespace. -/
def Used (T : Table K) (doc : List (Node (Attr K Str))) (uri : Str) : Prop :=
  ∃ n, Occurs doc n ∧ ∃ p ∈ prefixesOf T n, p.value ≠ none ∧ p.ns.uri = uri

/-- The attribute is written `xmlns:name="uri"`. -/
def Declares (T : Table K) (a : Attr K Str) (name uri : Str) : Prop :=
  a.prefix' T = .std .xmlns ∧ a.loc T = name ∧ a.value = uri

/-- Whether the attribute declares the prefix. -/
def declaresName (T : Table K) (name : Str) (a : Attr K Str) : Bool :=
  a.prefix' T == .std .xmlns && a.loc T == name

/-- The namespace that a prefix stands for at a node, given with its ancestors (nearest first). -/
def resolve (T : Table K) (name : Str) : List (Node (Attr K Str)) → Option Str
  | [] => none
  | n :: anc => match (attrsOf n).find? (declaresName T name) with
    | some a => some a.value
    | none => resolve T name anc

/-- The prefixes that are bound without a declaration. -/
def reserved (name : Str) : Bool := name == lit "xml" || name == lit "xmlns"

/-- Every prefix of every name is bound to its namespace where it is used. -/
def Bound (T : Table K) (doc : List (Node (Attr K Str))) : Prop :=
  ∀ n anc, (n :: anc) ∈ lines doc → ∀ p ∈ prefixesOf T n, ∀ name, p.value = some name →
    reserved name = true ∨ resolve T name (n :: anc) = some p.ns.uri

/-! ## The set of unused namespaces -/

theorem markName_mem (p : Prefix) (s : List Str) (u : Str) :
    u ∈ markName p s ↔ u ∈ s ∧ ¬ (p.value ≠ none ∧ p.ns.uri = u) := by
  unfold markName Prefix.isEmpty
  cases hv : p.value with
  | none => simp
  | some v =>
    simp only [Option.isNone_some, Bool.false_eq_true, if_false, List.mem_filter, bne_iff_ne, ne_eq, reduceCtorEq,
      not_false_eq_true, true_and]
    constructor
    · rintro ⟨h, h'⟩; exact ⟨h, fun e => h' e.symm⟩
    · rintro ⟨h, h'⟩; exact ⟨h, fun e => h' e.symm⟩

theorem markAttrs_mem (T : Table K) (as : List (Attr K Str)) : ∀ (s : List Str) (u : Str),
    u ∈ markAttrs T as s ↔ u ∈ s ∧ ∀ a ∈ as, ¬ ((a.prefix' T).value ≠ none ∧ (a.prefix' T).ns.uri = u) := by
  induction as with
  | nil => intro s u; simp [markAttrs]
  | cons a as ih =>
    intro s u
    simp only [markAttrs, ih, markName_mem, List.mem_cons, forall_eq_or_imp, and_assoc]

theorem markElement_mem (T : Table K) (n : EName) (as : List (Attr K Str)) (ks : List (Node (Attr K Str)))
    (s : List Str) (u : Str) :
    u ∈ markElement T n as s ↔ u ∈ s ∧ ∀ p ∈ prefixesOf T (.elem n as ks), ¬ (p.value ≠ none ∧ p.ns.uri = u) := by
  unfold markElement
  cases s with
  | nil => simp
  | cons x s =>
    simp only [List.isEmpty_cons, Bool.false_eq_true, if_false, markAttrs_mem, markName_mem, prefixesOf,
      List.mem_cons, forall_eq_or_imp, and_assoc, List.mem_map, forall_exists_index, and_imp,
      forall_apply_eq_imp_iff₂]

/-- A used namespace below a node, stated on the nodes. -/
def UsedIn (T : Table K) (ns : List (Node (Attr K Str))) (u : Str) : Prop :=
  ∃ n, Occurs ns n ∧ ∃ p ∈ prefixesOf T n, p.value ≠ none ∧ p.ns.uri = u

theorem usedIn_cons (T : Table K) (n : Node (Attr K Str)) (ns : List (Node (Attr K Str))) (u : Str) :
    UsedIn T (n :: ns) u ↔
      (∃ p ∈ prefixesOf T n, p.value ≠ none ∧ p.ns.uri = u) ∨ UsedIn T n.kids u ∨ UsedIn T ns u := by
  unfold UsedIn
  constructor
  · rintro ⟨m, hm, h⟩
    rcases occurs_cons.1 hm with rfl | hm | hm
    · exact Or.inl h
    · exact Or.inr (Or.inl ⟨m, hm, h⟩)
    · exact Or.inr (Or.inr ⟨m, hm, h⟩)
  · rintro (h | ⟨m, hm, h⟩ | ⟨m, hm, h⟩)
    · exact ⟨n, occurs_cons.2 (Or.inl rfl), h⟩
    · exact ⟨m, occurs_cons.2 (Or.inr (Or.inl hm)), h⟩
    · exact ⟨m, occurs_cons.2 (Or.inr (Or.inr hm)), h⟩

theorem not_usedIn_nil (T : Table K) (u : Str) : ¬ UsedIn T [] u := by
  rintro ⟨m, hm, -⟩; exact not_occurs_nil hm

mutual
theorem mark_mem (T : Table K) (s : List Str) (n : Node (Attr K Str)) (u : Str) :
    u ∈ mark T s n ↔ u ∈ s ∧ ¬ UsedIn T [n] u := by
  have hnil := not_usedIn_nil T u
  match n with
  | .elem nm as ks =>
    have ih := markAll_mem T (markElement T nm as s) ks u
    simp only [mark, ih, markElement_mem T nm as ks, usedIn_cons, Node.kids, hnil, or_false]
    constructor
    · rintro ⟨⟨h1, h2⟩, h3⟩
      refine ⟨h1, ?_⟩
      rintro (⟨p, hp, h⟩ | h)
      · exact h2 p hp h
      · exact h3 h
    · rintro ⟨h1, h2⟩
      exact ⟨⟨h1, fun p hp h => h2 (Or.inl ⟨p, hp, h⟩)⟩, fun h => h2 (Or.inr h)⟩
  | .text _ => simp [mark, usedIn_cons, Node.kids, hnil, prefixesOf]
  | .css _ => simp [mark, usedIn_cons, Node.kids, hnil, prefixesOf]
  | .comment _ => simp [mark, usedIn_cons, Node.kids, hnil, prefixesOf]
  | .pi _ _ => simp [mark, usedIn_cons, Node.kids, hnil, prefixesOf]
theorem markAll_mem (T : Table K) (s : List Str) (ns : List (Node (Attr K Str))) (u : Str) :
    u ∈ markAll T s ns ↔ u ∈ s ∧ ¬ UsedIn T ns u := by
  match ns with
  | [] => simp [markAll, not_usedIn_nil]
  | n :: ns =>
    have h1 := mark_mem T s n u
    have h2 := markAll_mem T (mark T s n) ns u
    have hnil := not_usedIn_nil T u
    simp only [markAll, h2, h1, usedIn_cons, hnil, or_false, not_or, and_assoc]
end

/-! ## What is removed -/

/-- Whether the root keeps the attribute. -/
def keeps (T : Table K) (doc : List (Node (Attr K Str))) (a : Attr K Str) : Bool :=
  retained (markAll T (collect doc) doc) a

/-- **C27 (exactness)** Only attributes of `svg` elements at the top of the document go away. Such an
attribute goes away exactly when it is a namespace declaration for a URI which no prefixed name in the
document stands for. Everything else is unchanged and in order. -/
theorem exact_spec (T : Table K) (doc : List (Node (Attr K Str))) : ∃ keep : Attr K Str → Bool,
    removeUnused T true doc = doc.map (fun n => match n with
      | .elem n as ks => if n.is "svg" then .elem n (as.filter keep) ks else .elem n as ks
      | n => n) ∧
    ∀ n as ks, (.elem n as ks) ∈ doc → n.is "svg" = true → ∀ a ∈ as,
      (keep a = false ↔ ∃ name uri, a = .unparsed (.unknown (.std .xmlns) name) uri ∧ ¬ Used T doc uri) := by
  refine ⟨keeps T doc, ?_, ?_⟩
  · simp only [removeUnused, if_true]
    apply List.map_congr_left
    intro n _
    cases n <;> rfl
  · intro n as ks hmem hsvg a ha
    have hcol : ∀ v, declared a = some v → v ∈ collect doc := by
      intro v hv
      simp only [collect, List.mem_flatMap]
      exact ⟨_, hmem, by simp only [rootElement, hsvg, if_true, List.mem_filterMap]; exact ⟨a, ha, hv⟩⟩
    unfold keeps retained
    cases hd : declared a with
    | none =>
      simp only [Bool.true_eq_false, false_iff]
      rintro ⟨name, uri, rfl, -⟩
      simp [declared] at hd
    | some v =>
      simp only [Bool.not_eq_false', List.contains_iff_mem, markAll_mem]
      have : ∃ name, a = .unparsed (.unknown (.std .xmlns) name) v := by
        unfold declared at hd
        split at hd
        · split at hd
          · rename_i p l v' hp
            cases hd
            exact ⟨l, by rw [hp]⟩
          · cases hd
        · cases hd
      obtain ⟨name, rfl⟩ := this
      constructor
      · rintro ⟨-, h⟩
        exact ⟨name, v, rfl, h⟩
      · rintro ⟨name', uri, e, h⟩
        cases e
        exact ⟨hcol _ hd, h⟩

/-! ## Bindings -/

theorem find_filter {α : Type} {p q : α → Bool} {l : List α} {a : α} (h : l.find? p = some a) (hq : q a = true) :
    (l.filter q).find? p = some a := by
  induction l with
  | nil => simp at h
  | cons x l ih =>
    by_cases hp : p x = true
    · rw [List.find?_cons_of_pos hp] at h
      cases h
      rw [List.filter_cons_of_pos hq, List.find?_cons_of_pos hp]
    · rw [List.find?_cons_of_neg hp] at h
      by_cases hx : q x = true
      · rw [List.filter_cons_of_pos hx, List.find?_cons_of_neg hp]
        exact ih h
      · rw [List.filter_cons_of_neg hx]
        exact ih h

theorem resolve_append (T : Table K) (name : Str) (a b : List (Node (Attr K Str))) :
    resolve T name (a ++ b) = (resolve T name a).or (resolve T name b) := by
  induction a with
  | nil => simp [resolve]
  | cons x a ih =>
    simp only [List.cons_append, resolve]
    cases List.find? (declaresName T name) (attrsOf x) with
    | some _ => rfl
    | none => exact ih

/-- A change of the topmost ancestor only. -/
theorem linesAll_map_top (f : Node (Attr K Str) → Node (Attr K Str))
    (hk : ∀ n, (f n).kids = n.kids) (doc : List (Node (Attr K Str))) (n : Node (Attr K Str))
    (anc : List (Node (Attr K Str))) (h : (n :: anc) ∈ lines (doc.map f)) :
    (∃ m, m ∈ doc ∧ n = f m ∧ anc = [] ∧ [m] ∈ lines doc) ∨
      ∃ l m, m ∈ doc ∧ n :: anc = n :: l ++ [f m] ∧ (n :: l ++ [m]) ∈ lines doc := by
  have shape : ∀ (m : Node (Attr K Str)) (top : Node (Attr K Str)) (x : List (Node (Attr K Str))),
      top.kids = m.kids → (x ∈ top.lines [] ↔ x = [top] ∨ x ∈ linesAll [top] m.kids) := by
    intro m top x e
    rw [← e]
    cases top <;> simp [Node.lines, Node.kids, linesAll]
  have swap : ∀ (ns : List (Node (Attr K Str))) (a b : List (Node (Attr K Str))) (x : List (Node (Attr K Str))),
      x ∈ linesAll a ns → ∃ l, x = l ++ a ∧ l ≠ [] ∧ (l ++ b) ∈ linesAll b ns := by
    intro ns a b
    suffices H : (∀ (n : Node (Attr K Str)) (c : List (Node (Attr K Str))) x, x ∈ n.lines (c ++ a) →
        ∃ l, x = l ++ a ∧ l ≠ [] ∧ (l ++ b) ∈ n.lines (c ++ b)) by
      intro x hx
      induction ns with
      | nil => simp [linesAll] at hx
      | cons n ns ih =>
        simp only [linesAll, List.mem_append] at hx ⊢
        rcases hx with hx | hx
        · obtain ⟨l, h1, h2, h3⟩ := H n [] x hx
          exact ⟨l, h1, h2, Or.inl h3⟩
        · obtain ⟨l, h1, h2, h3⟩ := ih hx
          exact ⟨l, h1, h2, Or.inr h3⟩
    intro n
    refine Node.rec (motive_1 := fun n => ∀ c x, x ∈ n.lines (c ++ a) → ∃ l, x = l ++ a ∧ l ≠ [] ∧ (l ++ b) ∈ n.lines (c ++ b))
      (motive_2 := fun ns => ∀ c x, x ∈ linesAll (c ++ a) ns → ∃ l, x = l ++ a ∧ l ≠ [] ∧ (l ++ b) ∈ linesAll (c ++ b) ns)
      ?_ ?_ ?_ ?_ ?_ ?_ ?_ n
    · intro nm as ks ih c x hx
      simp only [Node.lines, List.mem_cons] at hx ⊢
      rcases hx with rfl | hx
      · exact ⟨.elem nm as ks :: c, rfl, by simp, Or.inl rfl⟩
      · obtain ⟨l, h1, h2, h3⟩ := ih (.elem nm as ks :: c) x hx
        exact ⟨l, h1, h2, Or.inr h3⟩
    · intro s c x hx
      simp only [Node.lines, List.mem_singleton] at hx ⊢
      exact ⟨.text s :: c, hx, by simp, rfl⟩
    · intro s c x hx
      simp only [Node.lines, List.mem_singleton] at hx ⊢
      exact ⟨.css s :: c, hx, by simp, rfl⟩
    · intro s c x hx
      simp only [Node.lines, List.mem_singleton] at hx ⊢
      exact ⟨.comment s :: c, hx, by simp, rfl⟩
    · intro s d c x hx
      simp only [Node.lines, List.mem_singleton] at hx ⊢
      exact ⟨.pi s d :: c, hx, by simp, rfl⟩
    · intro c x hx
      simp [linesAll] at hx
    · intro n ns ih1 ih2 c x hx
      simp only [linesAll, List.mem_append] at hx ⊢
      rcases hx with hx | hx
      · obtain ⟨l, h1, h2, h3⟩ := ih1 c x hx
        exact ⟨l, h1, h2, Or.inl h3⟩
      · obtain ⟨l, h1, h2, h3⟩ := ih2 c x hx
        exact ⟨l, h1, h2, Or.inr h3⟩
  simp only [lines] at h ⊢
  induction doc with
  | nil => simp [linesAll] at h
  | cons m doc ih =>
    simp only [List.map_cons, linesAll, List.mem_append] at h ⊢
    rcases h with h | h
    · rcases (shape m (f m) _ (hk m)).1 h with h | h
      · simp only [List.cons.injEq] at h
        exact Or.inl ⟨m, by simp, h.1, h.2, Or.inl (lines_self [] m)⟩
      · obtain ⟨l, h1, h2, h3⟩ := swap m.kids [f m] [m] _ h
        cases l with
        | nil => exact absurd rfl h2
        | cons y l =>
          simp only [List.cons_append, List.cons.injEq] at h1
          obtain ⟨rfl, rfl⟩ := h1
          exact Or.inr ⟨l, m, by simp, rfl, Or.inl ((shape m m _ rfl).2 (Or.inr h3))⟩
    · rcases ih h with ⟨m', h1, h2, h3, h4⟩ | ⟨l, m', h1, h2, h3⟩
      · exact Or.inl ⟨m', by simp [h1], h2, h3, Or.inr h4⟩
      · exact Or.inr ⟨l, m', by simp [h1], h2, Or.inr h3⟩

theorem exitRoot_kids (u : List Str) (n : Node (Attr K Str)) : (exitRoot u n).kids = n.kids := by
  cases n with
  | elem n as ks => simp only [exitRoot]; split <;> rfl
  | _ => rfl

theorem exitRoot_prefixes (T : Table K) (u : List Str) (n : Node (Attr K Str)) :
    ∀ p ∈ prefixesOf T (exitRoot u n), p ∈ prefixesOf T n := by
  intro p hp
  cases n with
  | elem n as ks =>
    simp only [exitRoot] at hp
    split at hp
    · simp only [prefixesOf, List.mem_cons, List.mem_map, List.mem_filter] at hp ⊢
      rcases hp with h | ⟨a, ⟨ha, -⟩, e⟩
      · exact Or.inl h
      · exact Or.inr ⟨a, ha, e⟩
    · exact hp
  | _ => simp [exitRoot, prefixesOf] at hp

/-- The lookup on the root is not disturbed for a namespace that is used. -/
theorem exitRoot_resolve (T : Table K) (doc : List (Node (Attr K Str))) (m : Node (Attr K Str)) (name u : Str)
    (hu : Used T doc u) (h : resolve T name [m] = some u) :
    resolve T name [exitRoot (markAll T (collect doc) doc) m] = some u := by
  cases m with
  | elem n as ks =>
    simp only [exitRoot]
    split
    · simp only [resolve, attrsOf] at h ⊢
      cases hf : as.find? (declaresName T name) with
      | none => rw [hf] at h; cases h
      | some a =>
        rw [hf] at h
        simp only [Option.some.injEq] at h
        have : retained (markAll T (collect doc) doc) a = true := by
          unfold retained
          cases hd : declared a with
          | none => rfl
          | some v =>
            have hv : v = a.value := by
              unfold declared at hd
              split at hd
              · split at hd
                · cases hd; rfl
                · cases hd
              · cases hd
            simp only [Bool.not_eq_true', ← Bool.not_eq_true, List.contains_iff_mem, markAll_mem, not_and]
            intro _
            rw [hv, h]
            exact Classical.not_not.2 hu
        rw [find_filter hf this]
        simp [h]
    · exact h
  | _ => simp [resolve, attrsOf] at h

/-- **C27 (bindings)** If every prefix in the document is bound to its namespace where it is used, this is
still so after the job. -/
theorem bound_spec (T : Table K) (on : Bool) (doc : List (Node (Attr K Str))) (h : Bound T doc) :
    Bound T (removeUnused T on doc) := by
  cases on with
  | false => simpa [removeUnused] using h
  | true =>
    simp only [removeUnused, if_true]
    intro n anc hl p hp name hv
    rcases linesAll_map_top _ (exitRoot_kids _) doc n anc hl with ⟨m, hm, rfl, rfl, hml⟩ | ⟨l, m, hm, e, hml⟩
    · have hp' := exitRoot_prefixes T _ m p hp
      rcases h m [] hml p hp' name hv with h | h
      · exact Or.inl h
      · exact Or.inr (exitRoot_resolve T doc m name _ ⟨m, ⟨[], hml⟩, p, hp', by simp [hv], rfl⟩ h)
    · rcases h n (l ++ [m]) hml p hp name hv with h | h
      · exact Or.inl h
      · right
        rw [e]
        have e1 : n :: (l ++ [m]) = (n :: l) ++ [m] := rfl
        rw [e1, resolve_append] at h
        rw [resolve_append]
        cases hr : resolve T name (n :: l) with
        | some x => rw [hr] at h; exact h
        | none =>
          rw [hr] at h
          simp only [Option.none_or] at h ⊢
          exact exitRoot_resolve T doc m name _ ⟨n, ⟨_, hml⟩, p, hp, by simp [hv], rfl⟩ h

/-- **C27 (switch)** -/
theorem off_spec (T : Table K) (doc : List (Node (Attr K Str))) : removeUnused T false doc = doc := rfl

theorem used_after (T : Table K) (doc : List (Node (Attr K Str))) (uri : Str) (h : Used T doc uri)
    (hx : uri ≠ StdNs.uri .xmlns) : Used T (removeUnused T true doc) uri := by
  obtain ⟨n, hn, p, hp, hv, hu⟩ := h
  simp only [removeUnused, if_true]
  generalize hU : markAll T (collect doc) doc = U
  clear hU
  suffices H : ∀ d : List (Node (Attr K Str)), Occurs d n → UsedIn T (d.map (exitRoot U)) uri from H doc hn
  intro d
  induction d with
  | nil => intro h; exact absurd h not_occurs_nil
  | cons m d ih =>
    intro h
    rw [List.map_cons, usedIn_cons]
    rcases occurs_cons.1 h with rfl | h | h
    · left
      cases n with
      | elem nm as ks =>
        simp only [exitRoot]
        split
        · simp only [prefixesOf, List.mem_cons, List.mem_map] at hp
          rcases hp with rfl | ⟨a, ha, rfl⟩
          · exact ⟨_, by simp [prefixesOf], hv, hu⟩
          · refine ⟨a.prefix' T, ?_, hv, hu⟩
            simp only [prefixesOf, List.mem_cons, List.mem_map, List.mem_filter]
            refine Or.inr ⟨a, ⟨ha, ?_⟩, rfl⟩
            unfold retained
            cases hd : declared a with
            | none => rfl
            | some v =>
              exfalso
              apply hx
              rw [← hu]
              unfold declared at hd
              split at hd
              · split at hd
                · rename_i hp
                  simp only [Attr.prefix', AttrId.prefix', hp, Prefix.ns, NS.uri]
                · cases hd
              · cases hd
        · exact ⟨p, hp, hv, hu⟩
      | _ => simp [prefixesOf] at hp
    · right; left
      rw [exitRoot_kids]
      exact ⟨n, h, p, hp, hv, hu⟩
    · exact Or.inr (Or.inr (ih h))

/-- **C27 (idempotence)** A second run changes nothing. -/
theorem unused_idem (T : Table K) (doc : List (Node (Attr K Str))) :
    removeUnused T true (removeUnused T true doc) = removeUnused T true doc := by
  obtain ⟨k1, e1, h1⟩ := exact_spec T doc
  obtain ⟨k2, e2, h2⟩ := exact_spec T (removeUnused T true doc)
  rw [e2]
  generalize hD : removeUnused T true doc = D at *
  have : ∀ n ∈ D, (match n with
      | .elem n as ks => if n.is "svg" then .elem n (as.filter k2) ks else .elem n as ks
      | n => n) = n := by
    intro n hn
    cases n with
    | elem nm as ks =>
      simp only
      split
      · rename_i hsvg
        congr 1
        rw [List.filter_eq_self]
        intro a ha
        false_or_by_contra
        rename_i hk
        obtain ⟨name, uri, ea, hnu⟩ := (h2 nm as ks hn hsvg a ha).1 (by simpa using hk)
        apply hnu
        by_cases hx : uri = StdNs.uri .xmlns
        · refine ⟨.elem nm as ks, ?_, .std .xmlns, ?_, ?_, ?_⟩
          · exact mem_occurs hn
          · simp only [prefixesOf, List.mem_cons, List.mem_map]
            exact Or.inr ⟨a, ha, by rw [ea]; rfl⟩
          · simp [Prefix.value, StdNs.name]
          · rw [hx]; rfl
        · rw [← hD]
          apply used_after T doc uri _ hx
          rw [e1, List.mem_map] at hn
          obtain ⟨m, hm, e⟩ := hn
          cases m with
          | elem nm' as' ks' =>
            simp only at e
            split at e
            · rename_i hs
              cases e
              rw [List.mem_filter] at ha
              false_or_by_contra
              rename_i hnu'
              have := (h1 _ _ _ hm hs a ha.1).2 ⟨name, uri, ea, hnu'⟩
              rw [ha.2] at this
              cases this
            · cases e
              rename_i hs
              exact absurd hsvg hs
          | _ => simp at e
      · rfl
    | _ => rfl
  rw [List.map_congr_left this]
  simp

/-! ## Examples -/

/-- A table with a single known attribute. -/
def table : Table Unit := ⟨fun _ => .svg, fun _ => lit "fill"⟩

/-- `xmlns:name="uri"`. -/
def decl (name uri : String) : Attr Unit Str := .unparsed (.unknown (.std .xmlns) (lit name)) (lit uri)

/-- An attribute with a prefix of an unknown namespace. -/
def foreign (pre uri name : String) : Attr Unit Str :=
  .unparsed (.unknown (.unknown (some (lit pre)) (.unknown (lit uri))) (lit name)) []

/-- `a` is used deep in the tree, `b` is used only below a redeclaration, `c` is not used. -/
def sample (root : List (Attr Unit Str)) : List (Node (Attr Unit Str)) :=
  [.comment [], .elem ⟨.std .svg, lit "svg"⟩ root
    [.elem ⟨.std .svg, lit "g"⟩ [decl "b" "v"]
      [.elem ⟨.unknown (some (lit "b")) (.unknown (lit "v")), lit "x"⟩ [foreign "a" "u" "y"] []]]]

example : removeUnused table true (sample [decl "a" "u", decl "b" "w", decl "c" "z"]) = sample [decl "a" "u"] := by
  have : markAll table (collect (sample [decl "a" "u", decl "b" "w", decl "c" "z"]))
      (sample [decl "a" "u", decl "b" "w", decl "c" "z"]) = [lit "w", lit "z"] := by decide +kernel
  simp only [removeUnused, if_true, this]
  rfl

/-- The sample is bound, before and (by `bound_spec`) after the job. -/
example : Bound table (sample [decl "a" "u", decl "b" "w", decl "c" "z"]) := by
  intro n anc hl p hp name hv
  simp only [lines, sample, linesAll, Node.lines, List.append_nil, List.nil_append, List.cons_append,
    List.mem_cons, List.cons.injEq, List.not_mem_nil, or_false] at hl
  rcases hl with ⟨rfl, rfl⟩ | ⟨rfl, rfl⟩ | ⟨rfl, rfl⟩ | ⟨rfl, rfl⟩
  · simp [prefixesOf] at hp
  · simp only [prefixesOf, List.map_cons, List.map_nil, List.mem_cons, List.not_mem_nil, or_false] at hp
    rcases hp with rfl | rfl | rfl | rfl <;>
      (simp only [decl, Attr.prefix', AttrId.prefix', Prefix.value, StdNs.name] at hv; cases hv) <;>
      exact Or.inl (by decide +kernel)
  · simp only [prefixesOf, List.map_cons, List.map_nil, List.mem_cons, List.not_mem_nil, or_false] at hp
    rcases hp with rfl | rfl <;>
      (simp only [decl, Attr.prefix', AttrId.prefix', Prefix.value, StdNs.name] at hv; cases hv) <;>
      exact Or.inl (by decide +kernel)
  · simp only [prefixesOf, List.map_cons, List.map_nil, List.mem_cons, List.not_mem_nil, or_false] at hp
    rcases hp with rfl | rfl <;>
      (simp only [foreign, Attr.prefix', AttrId.prefix', Prefix.value] at hv; cases hv) <;>
      exact Or.inr (by decide +kernel)

end Verif.UnusedNs
