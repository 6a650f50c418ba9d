import Verif.Attrs.Model
import Verif.Names.Props

/-!
# C07: attribute storage behaves as an ordered map

The specification identifies attributes by their expanded name (namespace URI and local name), as
Namespaces in XML does: a well-formed element has at most one attribute per expanded name.
-/

set_option linter.unusedSectionVars false

namespace Verif.Attrs

open Verif.Names

variable {K V : Type} [DecidableEq K]

/-- Specification: no two attributes share an expanded name. -/
def Distinct (T : Table K) (l : List (Attr K V)) : Prop := l.Pairwise (fun a b => a.expanded T ≠ b.expanded T)

/-- All attributes are of the kind the parser makes. -/
def AllWF (T : Table K) (l : List (Attr K V)) : Prop := ∀ a ∈ l, a.WF T

/-- Specification: the attribute stored under an expanded name. -/
def at? (T : Table K) (l : List (Attr K V)) (e : Str × Str) : Option (Attr K V) :=
  l.find? (fun a => a.expanded T == e)

theorem find_congr {α : Type} {p q : α → Bool} {l : List α} (h : ∀ a ∈ l, p a = q a) : l.find? p = l.find? q := by
  induction l with
  | nil => rfl
  | cons a l ih =>
    rw [List.find?_cons, List.find?_cons, h a (by simp), ih (fun b hb => h b (by simp [hb]))]

theorem findIdx_congr {α : Type} {p q : α → Bool} {l : List α} (h : ∀ a ∈ l, p a = q a) :
    l.findIdx? p = l.findIdx? q := by
  induction l with
  | nil => rfl
  | cons a l ih =>
    rw [List.findIdx?_cons, List.findIdx?_cons, h a (by simp), ih (fun b hb => h b (by simp [hb]))]

/-- A position found splits the list there. -/
theorem findIdx_split {α : Type} {p : α → Bool} {l : List α} {i : Nat} (h : l.findIdx? p = some i) :
    ∃ pre x post, l = pre ++ x :: post ∧ pre.length = i ∧ p x = true ∧ ∀ a ∈ pre, p a = false := by
  induction l generalizing i with
  | nil => simp at h
  | cons a l ih =>
    rw [List.findIdx?_cons] at h
    by_cases ha : p a
    · simp [ha] at h; subst h
      exact ⟨[], a, l, rfl, rfl, ha, by simp⟩
    · simp only [ha, Bool.false_eq_true, if_false] at h
      cases hf : l.findIdx? p with
      | none => simp [hf] at h
      | some j =>
        simp [hf] at h; subst h
        obtain ⟨pre, x, post, rfl, hl, hx, hp⟩ := ih hf
        exact ⟨a :: pre, x, post, rfl, by simp [hl], hx, by
          intro b hb; rcases List.mem_cons.1 hb with rfl | hb
          · simpa using ha
          · exact hp b hb⟩

theorem name_beq_iff (T : Table K) {a b : Attr K V} (ha : a.WF T) (hb : b.WF T) :
    ((a.prefix' T).eq (b.prefix' T) && a.loc T == b.loc T) = (a.expanded T == b.expanded T) := by
  rw [Bool.eq_iff_iff, Bool.and_eq_true, beq_iff_eq, beq_iff_eq,
    prefix_eq_iff (attr_name_wf T ha).2.2 (attr_name_wf T hb).2.2]
  simp [Attr.expanded, Prod.ext_iff]

/-- **C07 (set, shape).** Setting replaces the attribute of the same expanded name in its place and
returns it, or appends and returns nothing when there is none. -/
theorem set_spec (T : Table K) (l : List (Attr K V)) (a : Attr K V) (hl : AllWF T l) (ha : a.WF T) :
    (∃ pre old post, l = pre ++ old :: post ∧ old.expanded T = a.expanded T ∧
      (∀ b ∈ pre, b.expanded T ≠ a.expanded T) ∧ set T l a = (pre ++ a :: post, some old)) ∨
    ((∀ b ∈ l, b.expanded T ≠ a.expanded T) ∧ set T l a = (l ++ [a], none)) := by
  have e : l.findIdx? (fun b => (b.prefix' T).eq (a.prefix' T) && b.loc T == a.loc T)
      = l.findIdx? (fun b => b.expanded T == a.expanded T) :=
    findIdx_congr (fun b hb => name_beq_iff T (hl b hb) ha)
  unfold set
  rw [e]
  cases h : l.findIdx? (fun b => b.expanded T == a.expanded T) with
  | none =>
    right
    refine ⟨fun b hb => ?_, rfl⟩
    have := List.findIdx?_eq_none_iff.1 h b hb
    simpa using this
  | some i =>
    left
    obtain ⟨pre, x, post, rfl, hi, hx, hp⟩ := findIdx_split h
    refine ⟨pre, x, post, rfl, by simpa using hx, fun b hb => by simpa using hp b hb, ?_⟩
    subst hi
    simp

/-- **C07 (set then read).** Whatever was stored, reading the name of the attribute just set gives it. -/
theorem set_get (T : Table K) (l : List (Attr K V)) (a : Attr K V) (hl : AllWF T l) (ha : a.WF T) :
    get (set T l a).1 a.name = some a := by
  have self : a.name.eq a.name = true := id_eq_refl T (attr_name_wf T ha).1
  have other : ∀ b : Attr K V, b.WF T → b.expanded T ≠ a.expanded T → b.name.eq a.name = false := by
    intro b hb hne
    apply Bool.eq_false_iff.2
    intro h
    apply hne
    rw [← (attr_name_wf T hb).2.1, ← (attr_name_wf T ha).2.1]
    exact id_eq_expanded T (attr_name_wf T hb).1 (attr_name_wf T ha).1 h
  rcases set_spec T l a hl ha with ⟨pre, old, post, rfl, _, hp, e⟩ | ⟨hn, e⟩ <;> rw [e] <;> unfold get
  · rw [List.find?_append, List.find?_eq_none.2, List.find?_cons_of_pos (p := fun b : Attr K V => b.name.eq a.name) self]; rfl
    intro b hb
    simp [other b (hl b (by simp [hb])) (hp b hb)]
  · rw [List.find?_append, List.find?_eq_none.2, List.find?_cons_of_pos (p := fun b : Attr K V => b.name.eq a.name) self]; rfl
    intro b hb
    simp [other b (hl b hb) (hn b hb)]

/-- **C07 (set, as a map).** Under every expanded name the collection holds the new attribute if it is
the name set, and what it held before otherwise. -/
theorem set_at (T : Table K) (l : List (Attr K V)) (a : Attr K V) (hl : AllWF T l) (ha : a.WF T) (e : Str × Str) :
    at? T (set T l a).1 e = if e = a.expanded T then some a else at? T l e := by
  unfold at?
  rcases set_spec T l a hl ha with ⟨pre, old, post, rfl, ho, hp, h⟩ | ⟨hn, h⟩ <;> rw [h]
  · by_cases he : e = a.expanded T
    · subst he
      rw [if_pos rfl, List.find?_append, List.find?_eq_none.2 (by intro b hb; simpa using hp b hb)]
      simp
    · rw [if_neg he, List.find?_append, List.find?_append, List.find?_cons_of_neg, List.find?_cons_of_neg]
      · simpa [ho] using fun h => he h.symm
      · simpa using fun h => he h.symm
  · by_cases he : e = a.expanded T
    · subst he
      rw [if_pos rfl, List.find?_append, List.find?_eq_none.2 (by intro b hb; simpa using hn b hb)]
      simp
    · rw [if_neg he, List.find?_append]
      have : ([a].find? fun b => b.expanded T == e) = none := by
        simpa using fun h => he h.symm
      simp [this]

/-- **C07 (set, others untouched).** The attributes of all other names are the same, in the same order. -/
theorem set_others (T : Table K) (l : List (Attr K V)) (a : Attr K V) (hl : AllWF T l) (ha : a.WF T)
    (hd : Distinct T l) :
    (set T l a).1.filter (fun b => b.expanded T ≠ a.expanded T) = l.filter (fun b => b.expanded T ≠ a.expanded T) ∧
    ((set T l a).1.filter (fun b => b.expanded T = a.expanded T)) = [a] := by
  rcases set_spec T l a hl ha with ⟨pre, old, post, rfl, ho, hp, h⟩ | ⟨hn, h⟩ <;> rw [h]
  · have hpost : ∀ b ∈ post, b.expanded T ≠ a.expanded T := by
      intro b hb h
      have := (List.pairwise_append.1 hd).2.1
      exact (List.pairwise_cons.1 this).1 b hb (ho.trans h.symm)
    constructor
    · simp [List.filter_append, ho]
    · have e1 : pre.filter (fun b => decide (b.expanded T = a.expanded T)) = [] := by
        simpa [List.filter_eq_nil_iff] using hp
      have e2 : post.filter (fun b => decide (b.expanded T = a.expanded T)) = [] := by
        simpa [List.filter_eq_nil_iff] using hpost
      simp [List.filter_append, e1, e2]
  · constructor
    · simp [List.filter_append]
    · have e1 : l.filter (fun b => decide (b.expanded T = a.expanded T)) = [] := by
        simpa [List.filter_eq_nil_iff] using hn
      simp [List.filter_append, e1]

theorem set_length (T : Table K) (l : List (Attr K V)) (a : Attr K V) (hl : AllWF T l) (ha : a.WF T) :
    (set T l a).1.length = l.length + if (at? T l (a.expanded T)).isSome then 0 else 1 := by
  unfold at?
  rcases set_spec T l a hl ha with ⟨pre, old, post, rfl, ho, hp, h⟩ | ⟨hn, h⟩ <;> rw [h]
  · have : ((pre ++ old :: post).find? fun b => b.expanded T == a.expanded T).isSome := by
      rw [List.find?_isSome]; exact ⟨old, by simp, by simpa using ho⟩
    rw [if_pos this]; simp
  · have : (l.find? fun b => b.expanded T == a.expanded T) = none :=
      List.find?_eq_none.2 (by intro b hb; simpa using hn b hb)
    simp [this]

/-- **C07 (remove, shape).** Removing takes out the attribute that reading the same name gives, and
returns it; it changes nothing when reading gives nothing. -/
theorem remove_spec (l : List (Attr K V)) (n : AttrId K) :
    (∃ pre x post, l = pre ++ x :: post ∧ get l n = some x ∧ remove l n = (pre ++ post, some x)) ∨
    (get l n = none ∧ remove l n = (l, none)) := by
  unfold remove get
  cases h : l.findIdx? (fun a => a.name.eq n) with
  | none =>
    right
    refine ⟨?_, rfl⟩
    rw [List.find?_eq_none]
    intro b hb
    simp [List.findIdx?_eq_none_iff.1 h b hb]
  | some i =>
    left
    obtain ⟨pre, x, post, rfl, hi, hx, hp⟩ := findIdx_split h
    refine ⟨pre, x, post, rfl, ?_, ?_⟩
    · rw [List.find?_append, List.find?_eq_none.2 (fun b hb => by simp [hp b hb]), List.find?_cons_of_pos (p := fun b : Attr K V => b.name.eq n) hx]; rfl
    · subst hi; simp [List.eraseIdx_append_of_length_le]

theorem set_wf (T : Table K) (l : List (Attr K V)) (a : Attr K V) (hl : AllWF T l) (ha : a.WF T) :
    AllWF T (set T l a).1 := by
  rcases set_spec T l a hl ha with ⟨pre, old, post, rfl, ho, hp, h⟩ | ⟨hn, h⟩ <;> rw [h] <;> intro b hb
  · simp only [List.mem_append, List.mem_cons] at hb
    rcases hb with hb | rfl | hb
    · exact hl b (by simp [hb])
    · exact ha
    · exact hl b (by simp [hb])
  · simp only [List.mem_append, List.mem_singleton] at hb
    rcases hb with hb | rfl
    · exact hl b hb
    · exact ha

theorem set_distinct (T : Table K) (l : List (Attr K V)) (a : Attr K V) (hl : AllWF T l) (ha : a.WF T)
    (hd : Distinct T l) : Distinct T (set T l a).1 := by
  unfold Distinct at *
  rcases set_spec T l a hl ha with ⟨pre, old, post, rfl, ho, hp, h⟩ | ⟨hn, h⟩ <;> rw [h]
  · rw [List.pairwise_append, List.pairwise_cons] at hd ⊢
    refine ⟨hd.1, ⟨fun b hb => by rw [← ho]; exact hd.2.1.1 b hb, hd.2.1.2⟩, fun b hb c hc => ?_⟩
    rcases List.mem_cons.1 hc with rfl | hc
    · exact hp b hb
    · exact hd.2.2 b hb c (by simp [hc])
  · rw [List.pairwise_append]
    exact ⟨hd, by simp, fun b hb c hc => by rw [List.mem_singleton.1 hc]; exact hn b hb⟩

/-- What is asked of the argument of a change: a set attribute is one the parser makes. -/
def Op.Ok (T : Table K) : Op K V → Prop
  | .set a => a.WF T
  | _ => True

theorem step_inv (T : Table K) (l : List (Attr K V)) (op : Op K V) (ho : op.Ok T)
    (h : AllWF T l ∧ Distinct T l) : AllWF T (step T l op) ∧ Distinct T (step T l op) := by
  cases op with
  | set a => exact ⟨set_wf T l a h.1 ho, set_distinct T l a h.1 ho h.2⟩
  | remove n =>
    simp only [step]
    rcases remove_spec l n with ⟨pre, x, post, rfl, _, e⟩ | ⟨_, e⟩ <;> rw [e]
    · refine ⟨fun b hb => h.1 b ?_, List.Pairwise.sublist ?_ h.2⟩
      · simp only [List.mem_append, List.mem_cons] at hb ⊢
        grind
      · exact (List.sublist_cons_self x post).append_left pre
    · exact h
  | retain f =>
    exact ⟨fun b hb => h.1 b (List.mem_filter.1 hb).1, h.2.sublist List.filter_sublist⟩

/-- **C07 (every history).** After any history of sets, removes and retains no two attributes share an
expanded name. -/
theorem history_distinct (T : Table K) (ops : List (Op K V)) (ho : ∀ op ∈ ops, op.Ok T)
    (l : List (Attr K V)) (h : AllWF T l ∧ Distinct T l) :
    AllWF T (run T l ops) ∧ Distinct T (run T l ops) := by
  unfold run
  induction ops generalizing l with
  | nil => exact h
  | cons op ops ih =>
    rw [List.foldl_cons]
    exact ih (fun o h => ho o (by simp [h])) _ (step_inv T l op (ho op (by simp)) h)

/-- Same expanded name, same id: holds for names recognised by one element (`recognised_coherent`). -/
def Coherent (T : Table K) (l : List (Attr K V)) (n : AttrId K) : Prop :=
  ∀ a ∈ l, a.expanded T = n.expanded T → a.name.eq n = true

/-- Attributes and names that come from one element's name recognition are coherent. -/
theorem recognised_coherent (T : Table K) {S : Type} (parse : K → S → Option V) (raw : S → V) (attrs : List K)
    (l : List (Attr K V)) (p : Prefix) (hp : p.WF) (loc : Str)
    (hl : ∀ a ∈ l, ∃ (q : Prefix) (m : Str) (s : S), q.WF ∧ a = Attr.new parse raw (parseAttrId T attrs q m) s) :
    Coherent T l (parseAttrId T attrs p loc) := by
  intro a ha he
  obtain ⟨q, m, s, hq, rfl⟩ := hl a ha
  have hw := parseAttrId_wf T attrs hq m
  have hx : (parseAttrId T attrs q m).expanded T = (parseAttrId T attrs p loc).expanded T := by
    rw [← he]
    obtain ⟨h1, h2⟩ := attrNew_name T parse raw hw s
    simp [Attr.expanded, AttrId.expanded, h1, h2]
  rw [parseAttrId_expanded T attrs hq, parseAttrId_expanded T attrs hp] at hx
  simp only [Prod.mk.injEq] at hx
  obtain ⟨hu, rfl⟩ := hx
  have hn : (Attr.new parse raw (parseAttrId T attrs q m) s).name.eq (parseAttrId T attrs q m) = true := by
    match parseAttrId T attrs q m, hw with
    | .known k, _ =>
      unfold Attr.new
      split <;> simp [Attr.name, AttrId.eq, AttrId.unaliased]
    | .aliased r (.known k), _ =>
      unfold Attr.new Attr.new
      split <;> simp [Attr.name, AttrId.eq, AttrId.unaliased]
    | .unknown r x, h =>
      exact id_eq_refl T (i := .unknown r x) h
  exact id_eq_trans T (attr_name_wf T (attrNew_wf T parse raw hw s)).1 hw (parseAttrId_wf T attrs hp m) hn
    (parseAttrId_eq T attrs hq hp hu m)

/-- **C07 (reading).** Reading a name gives the attribute stored under its expanded name. Missing: names
whose id was recognised for another element (`get_violated`). -/
theorem get_partial (T : Table K) (l : List (Attr K V)) (n : AttrId K) (hl : AllWF T l) (hn : n.WF T)
    (hc : Coherent T l n) : get l n = at? T l (n.expanded T) := by
  unfold get at?
  apply find_congr
  intro a ha
  rw [Bool.eq_iff_iff, beq_iff_eq]
  refine ⟨fun h => ?_, fun h => hc a ha h⟩
  rw [← (attr_name_wf T (hl a ha)).2.1]
  exact id_eq_expanded T (attr_name_wf T (hl a ha)).1 hn h

/-- The mutable reader goes by expanded name for all ids. -/
theorem getMut_spec (T : Table K) (l : List (Attr K V)) (n : AttrId K) (hl : AllWF T l) (hn : n.WF T) :
    getMut T l n = at? T l (n.expanded T) := by
  unfold getMut at?
  apply find_congr
  intro a ha
  have hw : (n.prefix' T).WF := by
    rcases id_wf_cases T hn with ⟨k, u, l, m, w⟩ | ⟨p, l, u, e, m, w⟩
    · exact w
    · rw [m]; exact w
  rw [Bool.eq_iff_iff, Bool.and_eq_true, beq_iff_eq, beq_iff_eq,
    prefix_eq_iff (attr_name_wf T (hl a ha)).2.2 hw]
  simp [Attr.expanded, AttrId.expanded, Prod.ext_iff]

/-- **C07 (reading by namespace).** With a namespace made from a URI, the reader gives the attribute stored under
this URI and local name. -/
theorem getNs_spec (T : Table K) (l : List (Attr K V)) (uri loc : Str) (hl : AllWF T l) :
    getNs T l (NS.new uri) loc = at? T l (uri, loc) := by
  unfold getNs at?
  apply find_congr
  intro a ha
  have hw := (attr_name_wf T (hl a ha)).2.2
  have hi : (a.prefix' T).isNs (NS.new uri) = true ↔ (a.prefix' T).uri = uri := by
    have hn : (∃ s : StdNs, NS.new uri = .std s ∧ s.uri = uri) ∨
        (NS.new uri = .unknown uri ∧ ∀ s : StdNs, s.uri ≠ uri) := by
      unfold NS.new
      split
      · rename_i s hs
        exact .inl ⟨s, rfl, by simpa using List.find?_some hs⟩
      · rename_i hs
        exact .inr ⟨rfl, fun s h => by simpa [h] using List.find?_eq_none.1 hs s (mem_all s)⟩
    unfold Prefix.uri
    rcases wf_cases hw with ⟨s, e, hs⟩ | ⟨u, e, hu, hs⟩ <;> rcases hn with ⟨t, f, ht⟩ | ⟨f, hw⟩ <;>
      rw [hs, f, e] <;> simp only [Prefix.isNs, NS.uri]
    · rw [← ht, beq_iff_eq]
      exact ⟨fun h => by rw [h], uri_injective⟩
    · simpa using hw s
    · rw [← ht]; simpa using fun h => hu t h.symm
    · simp
  rw [Bool.eq_iff_iff, Bool.and_eq_true, hi]
  simp [Attr.expanded, Prod.ext_iff]

/-- **C07 (reading by local name).** The reader gives the first attribute that is written without a prefix and has
the local name. -/
theorem getLocal_spec (T : Table K) (l : List (Attr K V)) (loc : Str) (a : Attr K V) :
    getLocal T l loc = some a ↔ ((a.prefix' T).value = none ∧ a.loc T = loc) ∧
      ∃ pre post, l = pre ++ a :: post ∧ ∀ b ∈ pre, ¬ ((b.prefix' T).value = none ∧ b.loc T = loc) := by
  unfold getLocal
  rw [List.find?_eq_some_iff_append]
  simp only [Prefix.isEmpty, Bool.and_eq_true, Option.isNone_iff_eq_none, beq_iff_eq, Bool.not_eq_true',
    Bool.and_eq_false_imp, beq_eq_false_iff_ne, ne_eq, not_and]

/-- **C07 (retain).** Afterwards a name holds what it held before if the callback keeps it, and nothing otherwise;
the order is unchanged. -/
theorem retain_spec (T : Table K) (l : List (Attr K V)) (f : Attr K V → Bool) (hd : Distinct T l) (e : Str × Str) :
    (retain l f).Sublist l ∧ at? T (retain l f) e = (at? T l e).filter f := by
  refine ⟨List.filter_sublist, ?_⟩
  unfold at? retain
  unfold Distinct at hd
  induction l with
  | nil => rfl
  | cons a l ih =>
    obtain ⟨h1, h2⟩ := List.pairwise_cons.1 hd
    rw [List.filter_cons, List.find?_cons]
    by_cases hf : f a = true
    · rw [if_pos hf, List.find?_cons]
      by_cases he : (a.expanded T == e) = true
      · rw [he]; simp [Option.filter, hf]
      · rw [Bool.not_eq_true] at he
        rw [he]; exact ih h2
    · rw [if_neg hf]
      by_cases he : (a.expanded T == e) = true
      · rw [he, ih h2]
        have : (l.find? fun b => b.expanded T == e) = none := by
          rw [List.find?_eq_none]
          intro b hb
          have := h1 b hb
          rw [beq_iff_eq] at he ⊢
          rw [← he]
          exact fun h => this h.symm
        rw [this]; simp [Option.filter, hf]
      · rw [Bool.not_eq_true] at he
        rw [he]; exact ih h2

/-- **C07 (remove).** Afterwards nothing is stored under the name and everything else is stored as before,
in the same order. Missing: as in `get_partial`. -/
theorem remove_partial (T : Table K) (l : List (Attr K V)) (n : AttrId K) (hl : AllWF T l) (hd : Distinct T l)
    (hn : n.WF T) (hc : Coherent T l n) :
    (remove l n).1 = l.filter (fun a => a.expanded T ≠ n.expanded T) ∧
    (remove l n).2 = at? T l (n.expanded T) := by
  have hg := get_partial T l n hl hn hc
  rcases remove_spec l n with ⟨pre, x, post, rfl, h, e⟩ | ⟨h, e⟩ <;> rw [e]
  · rw [h] at hg
    have hx : x.expanded T = n.expanded T := by
      have := List.find?_some hg.symm
      simpa using this
    unfold Distinct at hd
    rw [List.pairwise_append, List.pairwise_cons] at hd
    refine ⟨?_, hg⟩
    have e1 : pre.filter (fun a => decide (a.expanded T ≠ n.expanded T)) = pre := by
      rw [List.filter_eq_self]; intro b hb
      have := hd.2.2 b hb x (by simp)
      simpa [hx] using this
    have e2 : post.filter (fun a => decide (a.expanded T ≠ n.expanded T)) = post := by
      rw [List.filter_eq_self]; intro b hb
      have := hd.2.1.1 b hb
      simpa using fun h => this (hx.trans h.symm)
    rw [List.filter_append, List.filter_cons, e1, e2]
    simp [hx]
  · rw [h] at hg
    refine ⟨?_, hg⟩
    symm
    rw [List.filter_eq_self]
    intro b hb
    have := List.find?_eq_none.1 hg.symm b hb
    simpa using this

/-- The `type` attribute of one element, set where the `type` attribute of another is stored (the two
variants 2 and 3 of the example table). -/
def typeAttr : List (Attr (Fin 4) Nat) := [.typed 2 7]

/-- **C07 violated.** Reading, and removing, a name goes by the variant of the id, setting by the
expanded name: an attribute that a set would replace cannot be read or removed under the other id. The
code has 27 names shared by several variants (e.g. `type`, `href`, `fill`). -/
theorem get_violated : ∃ (l : List (Attr (Fin 4) Nat)) (n : AttrId (Fin 4)),
    AllWF exTable l ∧ Distinct exTable l ∧ n.WF exTable ∧
    at? exTable l (n.expanded exTable) ≠ none ∧ get l n = none ∧ (remove l n).1 = l :=
  ⟨typeAttr, .known 3, by simp [AllWF, typeAttr, Attr.WF], by simp [Distinct, typeAttr], trivial,
    by decide +kernel, by decide +kernel, by decide +kernel⟩

/-- The hypotheses are satisfiable: two attributes `href` in two namespaces, one spelled with an alias. -/
def exAttrs : List (Attr (Fin 4) Nat) :=
  [.typed 1 5, .aliased (Prefix.new StdNs.xlink.uri (some (lit "xl"))) (.typed 0 6)]

example : AllWF exTable exAttrs ∧ Distinct exTable exAttrs ∧ (Attr.typed 0 9 : Attr (Fin 4) Nat).WF exTable := by
  refine ⟨?_, ?_, trivial⟩
  · intro a ha
    simp only [exAttrs, List.mem_cons, List.not_mem_nil, or_false] at ha
    rcases ha with rfl | rfl
    · trivial
    · have : Prefix.new StdNs.xlink.uri (some (lit "xl")) = .aliased (.std .xlink) (some (lit "xl")) := by
        decide +kernel
      rw [this]
      exact ⟨trivial, rfl⟩
  · unfold Distinct exAttrs; decide +kernel

/-- Setting `xlink:href` replaces the attribute spelled `xl:href`. -/
example : (set exTable exAttrs (.typed 0 9)).1 = [.typed 1 5, .typed 0 9] := by decide +kernel
example : Coherent exTable exAttrs (.known 0) := by unfold Coherent exAttrs; decide +kernel

end Verif.Attrs
