import Verif.Merge.Spec

/-!
# C57: merging style elements
-/

namespace Verif.Merge

open Verif.Tree

variable {Q R B : Type}

/-! ## Rules -/

def Rule.isHead : Rule Q R → Bool
  | .head _ => true
  | _ => false

theorem withinAll_append (qs : List Q) (a b : List (Rule Q R)) : withinAll qs (a ++ b) = withinAll qs a ++ withinAll qs b := by
  induction a with
  | nil => simp [withinAll]
  | cons r a ih => simp [withinAll, ih]

theorem counting_none (qs : List Q) : ∀ a : List (Rule Q R), (∀ r ∈ a, r.isHead = false) → counting qs a = withinAll qs a
  | [], _ => by simp [counting]
  | .head r :: _, h => by simp [Rule.isHead] at h
  | .media q rs :: _, _ => by simp [counting]
  | .other r :: _, _ => by simp [counting]

theorem counting_append (qs : List Q) (b : List (Rule Q R)) (hb : ∀ r ∈ b, r.isHead = false) :
    ∀ a : List (Rule Q R), counting qs (a ++ b) = counting qs a ++ withinAll qs b
  | [] => by simpa [counting, withinAll] using counting_none qs b hb
  | .head r :: a => by simp [counting, counting_append qs b hb a]
  | .media q rs :: a => by
    show withinAll qs (.media q rs :: (a ++ b)) = withinAll qs (.media q rs :: a) ++ _
    simp [withinAll, withinAll_append]
  | .other r :: a => by
    show withinAll qs (.other r :: (a ++ b)) = withinAll qs (.other r :: a) ++ _
    simp [withinAll, withinAll_append]

/-- A style sheet: the attributes of its element, and its rules. -/
abbrev Sheet (Q R B : Type) := List (Attr Q B) × List (Rule Q R)

def Sheet.wrap (s : Sheet Q R B) : List (Rule Q R) := wrapped s.1 s.2

/-- What counts of it. -/
def Sheet.counts (s : Sheet Q R B) : List (List Q × R) :=
  match mediaOf s.1 with
  | none => counting [] s.2
  | some (some q) => counting [q] s.2
  | some none => []

theorem wrap_headless (s : Sheet Q R B) (h : ∀ r ∈ s.2, r.isHead = false) : ∀ r ∈ s.wrap, r.isHead = false := by
  intro r hr
  simp only [Sheet.wrap, wrapped] at hr
  split at hr
  · simp only [List.mem_singleton] at hr
    rw [hr]
    rfl
  · exact h r hr

theorem wrap_counts (s : Sheet Q R B) (hm : mediaOf s.1 ≠ some none) (h : mediaOf s.1 = none ∨ ∀ r ∈ s.2, r.isHead = false) :
    counting [] s.wrap = s.counts := by
  unfold Sheet.wrap wrapped Sheet.counts
  rcases hx : mediaOf s.1 with _ | _ | q
  · rfl
  · exact absurd hx hm
  · rcases h with h | h
    · simp [hx] at h
    · simp [counting, withinAll, Rule.within, counting_none _ _ h]

theorem wraps_counts (hm : ∀ s ∈ (l : List (Sheet Q R B)), mediaOf s.1 ≠ some none)
    (h : ∀ s ∈ l, ∀ r ∈ s.2, r.isHead = false) : withinAll [] (l.flatMap Sheet.wrap) = l.flatMap Sheet.counts := by
  induction l with
  | nil => rfl
  | cons s l ih =>
    rw [List.flatMap_cons, List.flatMap_cons, withinAll_append, ih (fun x hx => hm x (by simp [hx])) fun x hx => h x (by simp [hx]),
      ← wrap_counts s (hm s (by simp)) (.inr (h s (by simp))), counting_none _ _ (wrap_headless s (h s (by simp)))]

/-- Only the first style sheet may begin with rules that count at the beginning only. -/
def HeadsFirst : List (Sheet Q R B) → Prop
  | [] => True
  | s :: l => (mediaOf s.1 = none ∨ ∀ r ∈ s.2, r.isHead = false) ∧ ∀ t ∈ l, ∀ r ∈ t.2, r.isHead = false

theorem all_counts (l : List (Sheet Q R B)) (hm : ∀ s ∈ l, mediaOf s.1 ≠ some none) (h : HeadsFirst l) :
    counting [] (l.flatMap Sheet.wrap) = l.flatMap Sheet.counts := by
  cases l with
  | nil => simp [counting, withinAll]
  | cons s l =>
    have hm' : ∀ x ∈ l, mediaOf x.1 ≠ some none := fun x hx => hm x (by simp [hx])
    have hw : ∀ r ∈ l.flatMap Sheet.wrap, r.isHead = false := by
      intro r hr
      obtain ⟨t, ht, hr⟩ := List.mem_flatMap.mp hr
      exact wrap_headless t (h.2 t ht) r hr
    rw [List.flatMap_cons, List.flatMap_cons, counting_append _ _ hw, wraps_counts hm' h.2, wrap_counts s (hm s (by simp)) h.1]

/-! ## The pass over the document -/

/-- A node within these elements is within a `foreignObject`. -/
def foreignIn (anc : List (EName × List (Attr Q B))) : Bool := anc.any fun e => e.1.is "foreignObject"

/-- A style element that is merged. -/
def Merged (anc : List (EName × List (Attr Q B))) (n : EName) (as : List (Attr Q B)) : Prop :=
  n.is "style" = true ∧ supported as = true ∧ foreignIn anc = false

theorem style_foreign {n : EName} (h : n.is "style" = true) : n.is "foreignObject" = false := by
  rw [← Bool.not_eq_true]
  intro hf
  simp only [EName.is, Bool.and_eq_true, beq_iff_eq] at h hf
  exact absurd (h.2.symm.trans hf.2) (by decide +kernel)

mutual
/-- The style sheets that are merged. -/
def sheets (foreign : Bool) : Node Q R B → List (Sheet Q R B)
  | .elem n as ks =>
    if n.is "style" && supported as && !(foreign || n.is "foreignObject") then
      if (ks.flatMap rulesOf).isEmpty then [] else [(as, ks.flatMap rulesOf)]
    else sheetsAll (foreign || n.is "foreignObject") ks
  | _ => []
def sheetsAll (foreign : Bool) : List (Node Q R B) → List (Sheet Q R B)
  | [] => []
  | n :: ns => sheets foreign n ++ sheetsAll foreign ns
end

mutual
/-- Style elements that are merged have style nodes only. -/
def Parsed (foreign : Bool) : Node Q R B → Prop
  | .elem n as ks => (n.is "style" && supported as && !(foreign || n.is "foreignObject") → ∀ k ∈ ks, ∃ rs, k = .css rs) ∧
      ParsedAll (foreign || n.is "foreignObject") ks
  | _ => True
def ParsedAll (foreign : Bool) : List (Node Q R B) → Prop
  | [] => True
  | n :: ns => Parsed foreign n ∧ ParsedAll foreign ns
end

mutual
/-- All style elements are merged. -/
def Every (foreign : Bool) : Node Q R B → Prop
  | .elem n as ks => (n.is "style" = true ∧ IsCss as → supported as = true ∧ foreign = false) ∧
      EveryAll (foreign || n.is "foreignObject") ks
  | _ => True
def EveryAll (foreign : Bool) : List (Node Q R B) → Prop
  | [] => True
  | n :: ns => Every foreign n ∧ EveryAll foreign ns
end

/-- The rules collected, given those so far. -/
def collect (acc : Option (List (Rule Q R))) (l : List (Sheet Q R B)) : Option (List (Rule Q R)) :=
  match acc, l with
  | none, [] => none
  | none, l => some (l.flatMap Sheet.wrap)
  | some rs, l => some (rs ++ l.flatMap Sheet.wrap)

theorem collect_append (acc : Option (List (Rule Q R))) (a b : List (Sheet Q R B)) : collect (collect acc a) b = collect acc (a ++ b) := by
  cases acc with
  | none => cases a <;> cases b <;> simp [collect]
  | some rs => cases a <;> cases b <;> simp [collect]

theorem collect_nil (acc : Option (List (Rule Q R))) : collect acc ([] : List (Sheet Q R B)) = acc := by
  cases acc <;> simp [collect]

theorem leaves_visit (foreign : Bool) : ∀ (ks : List (Node Q R B)) (acc : Option (List (Rule Q R))), (∀ k ∈ ks, ∃ rs, k = .css rs) →
    (visitAll foreign acc ks).2 = acc
  | [], _, _ => by simp [visitAll]
  | k :: ks, acc, h => by
    obtain ⟨rs, rfl⟩ := h k (by simp)
    simp only [visitAll, visit]
    exact leaves_visit foreign ks acc fun k hk => h k (by simp [hk])

mutual
theorem visit_acc (foreign : Bool) (acc : Option (List (Rule Q R))) : ∀ n : Node Q R B, Parsed foreign n →
    (visit foreign acc n).2 = collect acc (sheets foreign n)
  | .elem n as ks, h => by
    simp only [Parsed] at h
    simp only [visit, sheets]
    split
    · next hm =>
      have hk := h.1 hm
      split
      · rw [leaves_visit _ _ _ hk, collect_nil]
      · cases acc with
        | none => simp [collect, Sheet.wrap]
        | some rs => simp [leaves_visit _ _ _ hk, collect, Sheet.wrap]
    · exact visitAll_acc _ acc ks h.2
  | .css _, _ => by simp [visit, sheets, collect_nil]
  | .text _, _ => by simp [visit, sheets, collect_nil]
  | .leaf _, _ => by simp [visit, sheets, collect_nil]
theorem visitAll_acc (foreign : Bool) (acc : Option (List (Rule Q R))) : ∀ ns : List (Node Q R B), ParsedAll foreign ns →
    (visitAll foreign acc ns).2 = collect acc (sheetsAll foreign ns)
  | [], _ => by simp [visitAll, sheetsAll, collect_nil]
  | n :: ns, h => by
    simp only [ParsedAll] at h
    simp only [visitAll, sheetsAll, visit_acc foreign acc n h.1, visitAll_acc foreign _ ns h.2, collect_append]
end

/-- What is left of the rules where the first style element was found. -/
def left (acc : Option (List (Rule Q R))) (l : List (Sheet Q R B)) (rs : List (Rule Q R)) : List (List Q × R) :=
  match acc, l with
  | none, _ :: _ => counting [] rs
  | _, _ => []

theorem left_append (acc : Option (List (Rule Q R))) (a b : List (Sheet Q R B)) (rs : List (Rule Q R)) :
    left acc a rs ++ left (collect acc a) b rs = left acc (a ++ b) rs := by
  cases acc <;> cases a <;> cases b <;> simp [left, collect]

theorem typeOf_drop (as : List (Attr Q B)) : typeOf (dropMedia as) = typeOf as := by
  induction as with
  | nil => rfl
  | cons a as ih =>
    cases a with
    | typ s =>
      rw [dropMedia, List.eraseP_cons]
      rfl
    | media q =>
      rw [dropMedia, List.eraseP_cons]
      rfl
    | other b => simpa [dropMedia, typeOf, Attr.isMedia, List.eraseP_cons, List.findSome?_cons] using ih

theorem supported_css {as : List (Attr Q B)} (h : supported as = true) : IsCss as := by
  intro s hs
  simp only [supported, hs, Bool.or_eq_true, List.isEmpty_iff, beq_iff_eq] at h
  refine h.imp id fun h => ?_
  rw [h]
  decide +kernel

theorem rulesAll_append (recover : List Char → List (Rule Q R)) (a b : List (Node Q R B)) :
    rulesAll recover (a ++ b) = rulesAll recover a ++ rulesAll recover b := by
  induction a with
  | nil => simp [rulesAll]
  | cons n a ih => simp [rulesAll, ih]

/-- No attribute is given twice. -/
def OneMedia (as : List (Attr Q B)) : Prop := (as.filter Attr.isMedia).length ≤ 1

theorem media_drop (as : List (Attr Q B)) (h : OneMedia as) : mediaOf (dropMedia as) = none := by
  induction as with
  | nil => rfl
  | cons a as ih =>
    cases a with
    | media q =>
      simp only [OneMedia, List.filter_cons, Attr.isMedia, if_true, List.length_cons] at h
      have hnil : as.filter Attr.isMedia = [] := by
        apply List.eq_nil_of_length_eq_zero
        omega
      simp only [dropMedia, List.eraseP_cons, Attr.isMedia, cond_true, mediaOf, List.findSome?_eq_none_iff]
      intro x hx
      cases x with
      | media q => exact absurd (List.mem_filter.mpr ⟨hx, rfl⟩) (by rw [hnil]; simp)
      | _ => rfl
    | typ s =>
      have := ih (by simpa [OneMedia, Attr.isMedia] using h)
      simpa [dropMedia, Attr.isMedia, mediaOf] using this
    | other b =>
      have := ih (by simpa [OneMedia, Attr.isMedia] using h)
      simpa [dropMedia, Attr.isMedia, mediaOf] using this

mutual
def Once : Node Q R B → Prop
  | .elem n as ks => (n.is "style" = true ∧ supported as = true → OneMedia as) ∧ OnceAll ks
  | _ => True
def OnceAll : List (Node Q R B) → Prop
  | [] => True
  | n :: ns => Once n ∧ OnceAll ns
end

mutual
theorem visit_rules (recover : List Char → List (Rule Q R)) (rs : List (Rule Q R)) (foreign : Bool) (acc : Option (List (Rule Q R))) :
    ∀ n : Node Q R B, Parsed foreign n → Every foreign n → Once n →
      rulesAll recover ((visit foreign acc n).1 rs) = left acc (sheets foreign n) rs
  | .elem n as ks, h, he, ho => by
    simp only [Parsed] at h
    simp only [Every] at he
    simp only [Once] at ho
    simp only [visit, sheets]
    split
    · next hm =>
      have hst : n.is "style" = true := by simp only [Bool.and_eq_true] at hm; exact hm.1.1
      have hsup : supported as = true := by simp only [Bool.and_eq_true] at hm; exact hm.1.2
      split
      · next hc => simp [rulesAll, left]
      · next hc =>
        cases acc with
        | none =>
          have hcss : IsCss (dropMedia as) := by
            intro s hs
            rw [typeOf_drop] at hs
            exact supported_css hsup s hs
          simp only [rulesAll, rules, hst, hcss, true_and, if_true, sheetOf, media_drop as (ho.1 ⟨hst, hsup⟩), left]
          simp [contentOf]
        | some r => simp [rulesAll, left]
    · next hm =>
      have hn : ¬ (n.is "style" = true ∧ IsCss as) := by
        intro hc
        obtain ⟨hsup, hf⟩ := he.1 hc
        apply hm
        simp [hc.1, hsup, hf, style_foreign hc.1]
      simp only [rulesAll, rules, if_neg hn, List.nil_append, List.append_nil]
      exact visitAll_rules recover rs _ acc ks h.2 he.2 ho.2
  | .css _, _, _, _ => by cases acc <;> simp [visit, sheets, rulesAll, rules, left]
  | .text _, _, _, _ => by cases acc <;> simp [visit, sheets, rulesAll, rules, left]
  | .leaf _, _, _, _ => by cases acc <;> simp [visit, sheets, rulesAll, rules, left]
theorem visitAll_rules (recover : List Char → List (Rule Q R)) (rs : List (Rule Q R)) (foreign : Bool) (acc : Option (List (Rule Q R))) :
    ∀ ns : List (Node Q R B), ParsedAll foreign ns → EveryAll foreign ns → OnceAll ns →
      rulesAll recover ((visitAll foreign acc ns).1 rs) = left acc (sheetsAll foreign ns) rs
  | [], _, _, _ => by cases acc <;> simp [visitAll, sheetsAll, rulesAll, left]
  | n :: ns, h, he, ho => by
    simp only [ParsedAll] at h
    simp only [EveryAll] at he
    simp only [OnceAll] at ho
    simp only [visitAll, sheetsAll, rulesAll_append]
    rw [visit_rules recover rs foreign acc n h.1 he.1 ho.1, visitAll_rules recover rs foreign _ ns h.2 he.2 ho.2,
      visit_acc foreign acc n h.1, left_append]
end

theorem css_content (recover : List Char → List (Rule Q R)) : ∀ ks : List (Node Q R B), (∀ k ∈ ks, ∃ rs, k = .css rs) →
    ks.flatMap (contentOf recover) = ks.flatMap rulesOf ∧ rulesAll recover ks = []
  | [], _ => by simp [rulesAll]
  | k :: ks, h => by
    obtain ⟨rs, rfl⟩ := h k (by simp)
    have ih := css_content recover ks fun k hk => h k (by simp [hk])
    simp [ih.1, ih.2, rulesAll, rules, contentOf, rulesOf]

mutual
theorem doc_rules (recover : List Char → List (Rule Q R)) (foreign : Bool) : ∀ n : Node Q R B, Parsed foreign n → Every foreign n →
    rules recover n = (sheets foreign n).flatMap Sheet.counts
  | .elem n as ks, h, he => by
    simp only [Parsed] at h
    simp only [Every] at he
    simp only [rules, sheets]
    split
    · next hc =>
      obtain ⟨hsup, hf⟩ := he.1 hc
      have hm : (n.is "style" && supported as && !(foreign || n.is "foreignObject")) = true := by
        simp [hc.1, hsup, hf, style_foreign hc.1]
      obtain ⟨hx, hy⟩ := css_content recover ks (h.1 hm)
      simp only [hm, if_true, hy, List.append_nil, sheetOf, hx]
      split
      · split
        · next hr =>
          rw [List.isEmpty_iff] at hr
          simp [hr, counting, withinAll]
        · simp [Sheet.counts, *]
      · split
        · next hr =>
          rw [List.isEmpty_iff] at hr
          simp [hr, counting, withinAll]
        · simp [Sheet.counts, *]
      · split
        · rfl
        · simp [Sheet.counts, *]
    · next hc =>
      have hm : ¬ (n.is "style" && supported as && !(foreign || n.is "foreignObject")) = true := by
        intro hm
        simp only [Bool.and_eq_true] at hm
        exact hc ⟨hm.1.1, supported_css hm.1.2⟩
      simp only [if_neg hm, List.nil_append]
      exact docAll_rules recover _ ks h.2 he.2
  | .css _, _, _ => by simp [rules, sheets]
  | .text _, _, _ => by simp [rules, sheets]
  | .leaf _, _, _ => by simp [rules, sheets]
theorem docAll_rules (recover : List Char → List (Rule Q R)) (foreign : Bool) : ∀ ns : List (Node Q R B), ParsedAll foreign ns →
    EveryAll foreign ns → rulesAll recover ns = (sheetsAll foreign ns).flatMap Sheet.counts
  | [], _, _ => by simp [rulesAll, sheetsAll]
  | n :: ns, h, he => by
    simp only [ParsedAll] at h
    simp only [EveryAll] at he
    simp only [rulesAll, sheetsAll, List.flatMap_append]
    rw [doc_rules recover foreign n h.1 he.1, docAll_rules recover foreign ns h.2 he.2]
end

/-! ## The nodes of a document -/

/-- What the parser makes of a style element: its type is spelled as expected, it is not within a `foreignObject`, it contains rules
only, its media query can be read and is there once. -/
def Plain (anc : List (EName × List (Attr Q B))) (as : List (Attr Q B)) (ks : List (Node Q R B)) : Prop :=
  (∀ s, typeOf as = some s → s = [] ∨ s = "text/css".toList) ∧ (∀ e ∈ anc, e.1.is "foreignObject" = false) ∧
  (∀ k ∈ ks, ∃ rs, k = .css rs) ∧ mediaOf as ≠ some none ∧ (as.filter fun | .media _ => true | _ => false).length ≤ 1

theorem plain_supported {anc : List (EName × List (Attr Q B))} {as : List (Attr Q B)} {ks : List (Node Q R B)} (h : Plain anc as ks) :
    supported as = true := by
  have h1 := h.1
  unfold supported
  split
  · rfl
  · next s hs => simpa using h1 s hs

theorem plain_foreign {anc : List (EName × List (Attr Q B))} {as : List (Attr Q B)} {ks : List (Node Q R B)} (h : Plain anc as ks) :
    foreignIn anc = false := by
  simpa [foreignIn] using h.2.1

theorem one_media {as : List (Attr Q B)} (h : (as.filter fun | .media _ => true | _ => false).length ≤ 1) : OneMedia as := by
  have hf : (fun x : Attr Q B => match x with | .media _ => true | _ => false) = Attr.isMedia := by
    funext x
    cases x <;> rfl
  rw [hf] at h
  exact h

theorem plain_once {anc : List (EName × List (Attr Q B))} {as : List (Attr Q B)} {ks : List (Node Q R B)} (h : Plain anc as ks) :
    OneMedia as := one_media h.2.2.2.2

theorem foreignIn_cons (n : EName) (as : List (Attr Q B)) (anc : List (EName × List (Attr Q B))) :
    foreignIn ((n, as) :: anc) = (foreignIn anc || n.is "foreignObject") := by
  simp [foreignIn, Bool.or_comm]

mutual
theorem of_nodes : ∀ (n : Node Q R B) (anc : List (EName × List (Attr Q B))),
    (∀ a m as ks, (a, .elem m as ks) ∈ nodes anc n → m.is "style" = true → IsCss as → Plain a as ks) →
    Parsed (foreignIn anc) n ∧ Every (foreignIn anc) n ∧ Once n ∧ ∀ s ∈ sheets (foreignIn anc) n, mediaOf s.1 ≠ some none
  | .elem n as ks, anc, h => by
    obtain ⟨h1, h2, ho, h3⟩ := ofAll_nodes ks ((n, as) :: anc) fun a m bs ls hx => h a m bs ls (by simp [nodes, hx])
    have h0 := h anc n as ks (by simp [nodes])
    rw [foreignIn_cons] at h1 h2 h3
    refine ⟨⟨fun hm => ?_, h1⟩, ⟨fun hc => ?_, h2⟩, ⟨fun hc => plain_once (h0 hc.1 (supported_css hc.2)), ho⟩, ?_⟩
    · simp only [Bool.and_eq_true] at hm
      exact (h0 hm.1.1 (supported_css hm.1.2)).2.2.1
    · exact ⟨plain_supported (h0 hc.1 hc.2), plain_foreign (h0 hc.1 hc.2)⟩
    · intro s hs
      simp only [sheets] at hs
      split at hs
      · next hm =>
        simp only [Bool.and_eq_true] at hm
        split at hs
        · simp at hs
        · simp only [List.mem_singleton] at hs
          rw [hs]
          exact (h0 hm.1.1 (supported_css hm.1.2)).2.2.2.1
      · exact h3 s hs
  | .css _, _, _ => by simp [Parsed, Every, Once, sheets]
  | .text _, _, _ => by simp [Parsed, Every, Once, sheets]
  | .leaf _, _, _ => by simp [Parsed, Every, Once, sheets]
theorem ofAll_nodes : ∀ (ns : List (Node Q R B)) (anc : List (EName × List (Attr Q B))),
    (∀ a m as ks, (a, .elem m as ks) ∈ nodesAll anc ns → m.is "style" = true → IsCss as → Plain a as ks) →
    ParsedAll (foreignIn anc) ns ∧ EveryAll (foreignIn anc) ns ∧ OnceAll ns ∧ ∀ s ∈ sheetsAll (foreignIn anc) ns, mediaOf s.1 ≠ some none
  | [], _, _ => by simp [ParsedAll, EveryAll, OnceAll, sheetsAll]
  | n :: ns, anc, h => by
    obtain ⟨a, b, o, c⟩ := of_nodes n anc fun x m as ks hx => h x m as ks (by simp [nodesAll, hx])
    obtain ⟨a', b', o', c'⟩ := ofAll_nodes ns anc fun x m as ks hx => h x m as ks (by simp [nodesAll, hx])
    refine ⟨⟨a, a'⟩, ⟨b, b'⟩, ⟨o, o'⟩, ?_⟩
    intro s hs
    simp only [sheetsAll, List.mem_append] at hs
    exact hs.elim (c s) (c' s)
end

/-- The style sheet of a node that is merged. -/
def pick (x : List (EName × List (Attr Q B)) × Node Q R B) : Option (Sheet Q R B) :=
  match x.2 with
  | .elem n as ks =>
    if n.is "style" && supported as && !foreignIn x.1 && !(ks.flatMap rulesOf).isEmpty then some (as, ks.flatMap rulesOf) else none
  | _ => none

theorem pick_css (anc : List (EName × List (Attr Q B))) : ∀ ks : List (Node Q R B), (∀ k ∈ ks, ∃ rs, k = .css rs) →
    (nodesAll anc ks).filterMap pick = []
  | [], _ => by simp [nodesAll]
  | k :: ks, h => by
    obtain ⟨rs, rfl⟩ := h k (by simp)
    have ih := pick_css anc ks fun k hk => h k (by simp [hk])
    rw [nodesAll, List.filterMap_append, ih, nodes]
    · rfl
    · simp

mutual
theorem sheets_nodes : ∀ (n : Node Q R B) (anc : List (EName × List (Attr Q B))), Parsed (foreignIn anc) n →
    sheets (foreignIn anc) n = (nodes anc n).filterMap pick
  | .elem n as ks, anc, h => by
    simp only [Parsed] at h
    simp only [sheets, nodes, List.filterMap_cons]
    by_cases hm : (n.is "style" && supported as && !(foreignIn anc || n.is "foreignObject")) = true
    · rw [if_pos hm, pick_css _ ks (h.1 hm)]
      simp only [Bool.and_eq_true, Bool.not_eq_true', Bool.or_eq_false_iff] at hm
      simp only [pick, hm.1.1, hm.1.2, hm.2.1]
      cases (ks.flatMap rulesOf).isEmpty <;> simp
    · rw [if_neg hm]
      have hp : pick (anc, Node.elem n as ks) = none := by
        simp only [pick, ite_eq_right_iff, reduceCtorEq, imp_false]
        intro hc
        apply hm
        simp only [Bool.and_eq_true, Bool.not_eq_true'] at hc ⊢
        exact ⟨hc.1.1, by rw [hc.1.2, style_foreign hc.1.1.1]; rfl⟩
      rw [hp, ← foreignIn_cons n as anc]
      refine sheetsAll_nodes ks ((n, as) :: anc) ?_
      rw [foreignIn_cons]
      exact h.2
  | .css _, _, _ => by simp [sheets, nodes, pick]
  | .text _, _, _ => by simp [sheets, nodes, pick]
  | .leaf _, _, _ => by simp [sheets, nodes, pick]
theorem sheetsAll_nodes : ∀ (ns : List (Node Q R B)) (anc : List (EName × List (Attr Q B))), ParsedAll (foreignIn anc) ns →
    sheetsAll (foreignIn anc) ns = (nodesAll anc ns).filterMap pick
  | [], _, _ => by simp [sheetsAll, nodesAll]
  | n :: ns, anc, h => by
    simp only [ParsedAll] at h
    simp only [sheetsAll, nodesAll, List.filterMap_append, sheets_nodes n anc h.1, sheetsAll_nodes ns anc h.2]
end

theorem heads_first : ∀ l : List (List (EName × List (Attr Q B)) × Node Q R B),
    (∀ pre x post s, l = pre ++ x :: post → pick x = some s → (∃ r ∈ s.2, r.isHead = true) →
      mediaOf s.1 = none ∧ ∀ y ∈ pre, pick y = none) → HeadsFirst (l.filterMap pick)
  | [], _ => trivial
  | y :: l, h => by
    rw [List.filterMap_cons]
    split
    · refine heads_first l fun pre x post s he hp hr => ?_
      obtain ⟨a, b⟩ := h (y :: pre) x post s (by rw [he]; rfl) hp hr
      exact ⟨a, fun z hz => b z (by simp [hz])⟩
    · next s hs =>
      have none_of : ∀ t : Sheet Q R B, ¬ (∃ r ∈ t.2, r.isHead = true) → ∀ r ∈ t.2, r.isHead = false := by
        intro t ht r hr
        cases hx : r.isHead with
        | false => rfl
        | true => exact absurd ⟨r, hr, hx⟩ ht
      constructor
      · by_cases hc : ∃ r ∈ s.2, r.isHead = true
        · exact .inl (h [] y l s rfl hs hc).1
        · exact .inr (none_of s hc)
      · intro t ht
        apply none_of t
        intro hc
        obtain ⟨x, hx, hp⟩ := List.mem_filterMap.mp ht
        obtain ⟨pre, post, rfl⟩ := List.append_of_mem hx
        have := (h (y :: pre) x post t rfl hp hc).2 y (by simp)
        rw [hs] at this
        simp at this

/-- **C57 (rules, partial)**: the rules that count in the document, in their order and with the media queries they are within, are the
same afterwards, if every CSS style element is one the parser reads completely, spells its type in lower case, is not within a
`foreignObject`, has a media query that can be read, and only the first style element that has rules begins with rules such as `@import`
(and has no media query then). Without these conditions rules are lost or change their order or conditions (`Limits.lean`). -/
theorem rules_kept_partial (recover : List Char → List (Rule Q R)) (on : Bool) (doc : List (Node Q R B))
    (hp : ∀ a m as ks, (a, .elem m as ks) ∈ nodesAll [] doc → m.is "style" = true → IsCss as → Plain a as ks)
    (hh : ∀ pre a m as ks post, nodesAll [] doc = pre ++ (a, .elem m as ks) :: post → m.is "style" = true → IsCss as →
      (∃ rs r, .css rs ∈ ks ∧ .head r ∈ rs) →
      mediaOf as = none ∧ ∀ b m' as' ks', (b, .elem m' as' ks') ∈ pre → m'.is "style" = true → IsCss as' → ∀ rs, .css rs ∈ ks' → rs = []) :
    rulesAll recover (job on doc) = rulesAll recover doc := by
  cases on with
  | false => rfl
  | true =>
    obtain ⟨h1, h2, h3, h4⟩ := ofAll_nodes doc [] hp
    have hf : foreignIn ([] : List (EName × List (Attr Q B))) = false := rfl
    have hs := sheetsAll_nodes doc [] h1
    have hd : HeadsFirst (sheetsAll false doc) := by
      rw [← hf, hs]
      refine heads_first _ fun pre x post s he hx hr => ?_
      obtain ⟨a, n⟩ := x
      cases n with
      | elem m as ks =>
        simp only [pick, Option.ite_none_right_eq_some, Bool.and_eq_true, Option.some.injEq] at hx
        obtain ⟨⟨⟨⟨hst, hsup⟩, hfo⟩, hne⟩, rfl⟩ := hx
        obtain ⟨r, hr, hhd⟩ := hr
        obtain ⟨k, hk, hrk⟩ := List.mem_flatMap.mp hr
        have hin : (a, Node.elem m as ks) ∈ nodesAll [] doc := by simp [he]
        obtain ⟨rs, rfl⟩ := (hp a m as ks hin hst (supported_css hsup)).2.2.1 k hk
        have hw : ∃ rs r, Node.css rs ∈ ks ∧ Rule.head r ∈ rs := by
          cases r with
          | head r => exact ⟨rs, r, hk, hrk⟩
          | _ => simp [Rule.isHead] at hhd
        obtain ⟨c, d⟩ := hh pre a m as ks post he hst (supported_css hsup) hw
        refine ⟨c, fun y hy => ?_⟩
        obtain ⟨b, n⟩ := y
        cases n with
        | elem m' as' ks' =>
          simp only [pick, ite_eq_right_iff, reduceCtorEq, imp_false]
          intro hc
          simp only [Bool.and_eq_true, Bool.not_eq_true', List.isEmpty_eq_false_iff] at hc
          apply hc.2
          rw [List.flatMap_eq_nil_iff]
          intro k hk
          obtain ⟨rs', rfl⟩ := (hp b m' as' ks' (by simp [he, hy]) hc.1.1.1 (supported_css hc.1.1.2)).2.2.1 k hk
          exact d b m' as' ks' hy hc.1.1.1 (supported_css hc.1.1.2) rs' hk
        | _ => rfl
      | _ => simp [pick] at hx
    rw [docAll_rules recover false doc h1 h2]
    simp only [job, if_true]
    rw [visitAll_rules recover _ false none doc h1 h2 h3, visitAll_acc false none doc h1]
    have hc := all_counts _ h4 hd
    rw [hf] at hc
    cases hl : sheetsAll false doc with
    | nil => simp [left]
    | cons s l =>
      rw [hl] at hc
      simpa [left, collect] using hc

/-! ## What else happens -/

mutual
/-- The document without the style elements that can be merged. -/
def prune (foreign : Bool) : Node Q R B → List (Node Q R B)
  | .elem n as ks =>
    if n.is "style" = true ∧ (∀ s ∈ typeOf as, s = [] ∨ s = "text/css".toList) ∧ foreign = false then []
    else [.elem n as (pruneAll (foreign || n.is "foreignObject") ks)]
  | n => [n]
def pruneAll (foreign : Bool) : List (Node Q R B) → List (Node Q R B)
  | [] => []
  | n :: ns => prune foreign n ++ pruneAll foreign ns
end

theorem pruneAll_append (foreign : Bool) (a b : List (Node Q R B)) :
    pruneAll foreign (a ++ b) = pruneAll foreign a ++ pruneAll foreign b := by
  induction a with
  | nil => simp [pruneAll]
  | cons n a ih => simp [pruneAll, ih]

theorem merged_iff (foreign : Bool) (n : EName) (as : List (Attr Q B)) :
    (n.is "style" && supported as && !(foreign || n.is "foreignObject")) = true ↔
      n.is "style" = true ∧ (∀ s ∈ typeOf as, s = [] ∨ s = "text/css".toList) ∧ foreign = false := by
  have hs : supported as = true ↔ ∀ s ∈ typeOf as, s = [] ∨ s = "text/css".toList := by
    unfold supported
    cases typeOf as <;> simp
  rw [← hs]
  simp only [Bool.and_eq_true, Bool.not_eq_true', Bool.or_eq_false_iff]
  exact ⟨fun h => ⟨h.1.1, h.1.2, h.2.1⟩, fun h => ⟨⟨h.1, h.2.1⟩, h.2.2, style_foreign h.1⟩⟩

mutual
theorem visit_prune (rs : List (Rule Q R)) (foreign : Bool) (acc : Option (List (Rule Q R))) : ∀ n : Node Q R B,
    pruneAll foreign ((visit foreign acc n).1 rs) = prune foreign n
  | .elem n as ks => by
    simp only [visit, prune]
    by_cases hm : (n.is "style" && supported as && !(foreign || n.is "foreignObject")) = true
    · rw [if_pos hm, if_pos ((merged_iff foreign n as).mp hm)]
      split
      · simp [pruneAll]
      · cases acc with
        | none =>
          have := (merged_iff foreign n as).mp hm
          simp only [pruneAll, prune, typeOf_drop]
          rw [if_pos this]
          rfl
        | some r => simp [pruneAll]
    · have hm' := fun h => hm ((merged_iff foreign n as).mpr h)
      rw [if_neg hm, if_neg hm']
      simp only [pruneAll, prune]
      rw [if_neg hm', visitAll_prune rs _ acc ks, List.append_nil]
  | .css _ => by simp [visit, pruneAll, prune]
  | .text _ => by simp [visit, pruneAll, prune]
  | .leaf _ => by simp [visit, pruneAll, prune]
theorem visitAll_prune (rs : List (Rule Q R)) (foreign : Bool) (acc : Option (List (Rule Q R))) : ∀ ns : List (Node Q R B),
    pruneAll foreign ((visitAll foreign acc ns).1 rs) = pruneAll foreign ns
  | [] => by simp [visitAll, pruneAll]
  | n :: ns => by simp only [visitAll, pruneAll_append, pruneAll, visit_prune rs foreign acc n, visitAll_prune rs foreign _ ns]
end

/-- **C57 (nothing else)**: apart from style elements of a supported type outside of `foreignObject`s, the document is as it was: all
other nodes, their attributes, children and order. -/
theorem others_kept (on : Bool) (doc : List (Node Q R B)) : pruneAll false (job on doc) = pruneAll false doc := by
  cases on with
  | false => rfl
  | true => exact visitAll_prune _ false none doc

mutual
/-- The style elements that can be merged, outermost only. -/
def styles (foreign : Bool) : Node Q R B → List (List (Attr Q B) × List (Node Q R B))
  | .elem n as ks =>
    if n.is "style" = true ∧ (∀ s ∈ typeOf as, s = [] ∨ s = "text/css".toList) ∧ foreign = false then [(as, ks)]
    else stylesAll (foreign || n.is "foreignObject") ks
  | _ => []
def stylesAll (foreign : Bool) : List (Node Q R B) → List (List (Attr Q B) × List (Node Q R B))
  | [] => []
  | n :: ns => styles foreign n ++ stylesAll foreign ns
end

theorem stylesAll_append (foreign : Bool) (a b : List (Node Q R B)) :
    stylesAll foreign (a ++ b) = stylesAll foreign a ++ stylesAll foreign b := by
  induction a with
  | nil => simp [stylesAll]
  | cons n a ih => simp [stylesAll, ih]

mutual
theorem visit_some (rs : List (Rule Q R)) (foreign : Bool) : ∀ (n : Node Q R B) (acc : List (Rule Q R)),
    (visit foreign (some acc) n).2.isSome = true ∧ stylesAll foreign ((visit foreign (some acc) n).1 rs) = []
  | .elem n as ks, acc => by
    simp only [visit]
    by_cases hm : (n.is "style" && supported as && !(foreign || n.is "foreignObject")) = true
    · rw [if_pos hm]
      split
      · exact ⟨(visitAll_some rs _ ks acc).1, by simp [stylesAll]⟩
      · exact ⟨(visitAll_some rs _ ks _).1, by simp [stylesAll]⟩
    · have hm' := fun h => hm ((merged_iff foreign n as).mpr h)
      rw [if_neg hm]
      refine ⟨(visitAll_some rs _ ks acc).1, ?_⟩
      simp only [stylesAll, styles]
      rw [if_neg hm', List.append_nil]
      exact (visitAll_some rs _ ks acc).2
  | .css _, _ => by simp [visit, stylesAll, styles]
  | .text _, _ => by simp [visit, stylesAll, styles]
  | .leaf _, _ => by simp [visit, stylesAll, styles]
theorem visitAll_some (rs : List (Rule Q R)) (foreign : Bool) : ∀ (ns : List (Node Q R B)) (acc : List (Rule Q R)),
    (visitAll foreign (some acc) ns).2.isSome = true ∧ stylesAll foreign ((visitAll foreign (some acc) ns).1 rs) = []
  | [], _ => by simp [visitAll, stylesAll]
  | n :: ns, acc => by
    obtain ⟨h1, h2⟩ := visit_some rs foreign n acc
    obtain ⟨acc', ha⟩ := Option.isSome_iff_exists.mp h1
    obtain ⟨h3, h4⟩ := visitAll_some rs foreign ns acc'
    simp only [visitAll, stylesAll_append, h2, ha, h3, h4, List.append_nil, and_self]
end

mutual
theorem visit_none (rs : List (Rule Q R)) (foreign : Bool) : ∀ n : Node Q R B,
    stylesAll foreign ((visit foreign none n).1 rs) = [] ∨
      (visit foreign none n).2.isSome = true ∧ ∃ as ks, (as, ks) ∈ styles foreign n ∧
        stylesAll foreign ((visit foreign none n).1 rs) = [(dropMedia as, [.css rs])]
  | .elem n as ks => by
    simp only [visit]
    by_cases hm : (n.is "style" && supported as && !(foreign || n.is "foreignObject")) = true
    · rw [if_pos hm]
      split
      · exact .inl (by simp [stylesAll])
      · have := (merged_iff foreign n as).mp hm
        refine .inr ⟨rfl, as, ks, by simp only [styles, if_pos this, List.mem_singleton], ?_⟩
        simp only [stylesAll, styles, typeOf_drop]
        rw [if_pos this]
        rfl
    · have hm' := fun h => hm ((merged_iff foreign n as).mpr h)
      rw [if_neg hm]
      simp only [stylesAll, styles]
      rw [if_neg hm', List.append_nil, if_neg hm']
      exact visitAll_none rs _ ks
  | .css _ => by simp [visit, stylesAll, styles]
  | .text _ => by simp [visit, stylesAll, styles]
  | .leaf _ => by simp [visit, stylesAll, styles]
theorem visitAll_none (rs : List (Rule Q R)) (foreign : Bool) : ∀ ns : List (Node Q R B),
    stylesAll foreign ((visitAll foreign none ns).1 rs) = [] ∨
      (visitAll foreign none ns).2.isSome = true ∧ ∃ as ks, (as, ks) ∈ stylesAll foreign ns ∧
        stylesAll foreign ((visitAll foreign none ns).1 rs) = [(dropMedia as, [.css rs])]
  | [] => by simp [visitAll, stylesAll]
  | n :: ns => by
    simp only [visitAll, stylesAll_append]
    cases ha : (visit foreign none n).2 with
    | none =>
      rcases visit_none rs foreign n with h | ⟨h, _⟩
      · rw [h, List.nil_append]
        refine (visitAll_none rs foreign ns).imp id ?_
        rintro ⟨a, as, ks, b, c⟩
        exact ⟨a, as, ks, by simp [stylesAll, b], c⟩
      · rw [ha] at h
        simp at h
    | some acc =>
      obtain ⟨h3, h4⟩ := visitAll_some rs foreign ns acc
      rw [h3, h4, List.append_nil]
      rcases visit_none rs foreign n with h | ⟨_, as, ks, b, c⟩
      · exact .inl h
      · exact .inr ⟨rfl, as, ks, by simp [stylesAll, b], c⟩
end

/-- **C57 (one is left)**: at most one style element that can be merged is left, and it contains one style node. -/
theorem single (doc : List (Node Q R B)) :
    stylesAll false (job true doc) = [] ∨ ∃ as rs, stylesAll false (job true doc) = [(as, [.css rs])] := by
  rcases visitAll_none ((visitAll false none doc).2.getD []) false doc with h | ⟨_, as, _, _, h⟩
  · exact .inl h
  · exact .inr ⟨_, _, h⟩

theorem drop_none {as : List (Attr Q B)} (h : mediaOf as = none) : dropMedia as = as := by
  unfold dropMedia
  apply List.eraseP_of_forall_not
  intro a ha
  have := List.findSome?_eq_none_iff.mp h a ha
  cases a with
  | media q => simp at this
  | _ => simp [Attr.isMedia]

mutual
theorem visit_clean (foreign : Bool) (acc : Option (List (Rule Q R))) : ∀ n : Node Q R B, styles foreign n = [] →
    visit foreign acc n = (fun _ => [n], acc)
  | .elem n as ks, h => by
    simp only [visit]
    simp only [styles] at h
    by_cases hm : (n.is "style" && supported as && !(foreign || n.is "foreignObject")) = true
    · rw [if_pos ((merged_iff foreign n as).mp hm)] at h
      simp at h
    · rw [if_neg fun h => hm ((merged_iff foreign n as).mpr h)] at h
      rw [if_neg hm, visitAll_clean _ acc ks h]
  | .css _, _ => by simp [visit]
  | .text _, _ => by simp [visit]
  | .leaf _, _ => by simp [visit]
theorem visitAll_clean (foreign : Bool) (acc : Option (List (Rule Q R))) : ∀ ns : List (Node Q R B), stylesAll foreign ns = [] →
    visitAll foreign acc ns = (fun _ => ns, acc)
  | [], _ => by simp [visitAll]
  | n :: ns, h => by
    simp only [stylesAll, List.append_eq_nil_iff] at h
    simp [visitAll, visit_clean foreign acc n h.1, visitAll_clean foreign acc ns h.2]
end

mutual
theorem visit_one (foreign : Bool) (as : List (Attr Q B)) (rs : List (Rule Q R)) (hm : mediaOf as = none) (hr : rs ≠ []) :
    ∀ n : Node Q R B, styles foreign n = [(as, [.css rs])] → (visit foreign none n).1 rs = [n] ∧ (visit foreign none n).2 = some rs
  | .elem n bs ks, h => by
    simp only [visit]
    simp only [styles] at h
    by_cases hc : (n.is "style" && supported bs && !(foreign || n.is "foreignObject")) = true
    · rw [if_pos ((merged_iff foreign n bs).mp hc)] at h
      simp only [List.cons.injEq, Prod.mk.injEq, and_true] at h
      obtain ⟨rfl, rfl⟩ := h
      rw [if_pos hc]
      simp [rulesOf, hr, drop_none hm, wrapped, hm]
    · rw [if_neg fun h => hc ((merged_iff foreign n bs).mpr h)] at h
      rw [if_neg hc]
      obtain ⟨h1, h2⟩ := visitAll_one _ as rs hm hr ks h
      exact ⟨by simp only [h1], h2⟩
  | .css _, h => by simp [styles] at h
  | .text _, h => by simp [styles] at h
  | .leaf _, h => by simp [styles] at h
theorem visitAll_one (foreign : Bool) (as : List (Attr Q B)) (rs : List (Rule Q R)) (hm : mediaOf as = none) (hr : rs ≠ []) :
    ∀ ns : List (Node Q R B), stylesAll foreign ns = [(as, [.css rs])] →
      (visitAll foreign none ns).1 rs = ns ∧ (visitAll foreign none ns).2 = some rs
  | [], h => by simp [stylesAll] at h
  | n :: ns, h => by
    simp only [stylesAll, List.append_eq_cons_iff] at h
    simp only [visitAll]
    rcases h with ⟨h1, h2⟩ | ⟨l, h1, h2⟩
    · rw [visit_clean foreign none n h1]
      obtain ⟨h3, h4⟩ := visitAll_one foreign as rs hm hr ns h2
      exact ⟨by rw [h3]; rfl, h4⟩
    · obtain ⟨rfl, h3⟩ : l = [] ∧ stylesAll foreign ns = [] := by simpa using h2.symm
      obtain ⟨h4, h5⟩ := visit_one foreign as rs hm hr n h1
      rw [visitAll_clean foreign _ ns h3]
      exact ⟨by rw [h4]; rfl, h5⟩
end

/-- **C57 (nothing to merge)**: a document that has no style element to merge, or one only with rules and without a media query, stays
as it is. -/
theorem fixed (on : Bool) (doc : List (Node Q R B))
    (h : stylesAll false doc = [] ∨ ∃ as rs, stylesAll false doc = [(as, [.css rs])] ∧ mediaOf as = none ∧ rs ≠ []) :
    job on doc = doc := by
  cases on with
  | false => rfl
  | true =>
    simp only [job, if_true]
    rcases h with h | ⟨as, rs, h, hm, hr⟩
    · rw [visitAll_clean false none doc h]
    · obtain ⟨h1, h2⟩ := visitAll_one false as rs hm hr doc h
      rw [h2]
      exact h1

theorem wrapped_ne (as : List (Attr Q B)) {css : List (Rule Q R)} (h : css.isEmpty = false) : wrapped as css ≠ [] := by
  unfold wrapped
  split
  · simp
  · simpa using h

mutual
theorem visit_ne (foreign : Bool) : ∀ (n : Node Q R B) (acc : Option (List (Rule Q R))), (∀ rs, acc = some rs → rs ≠ []) →
    ∀ rs, (visit foreign acc n).2 = some rs → rs ≠ []
  | .elem n as ks, acc, h => by
    simp only [visit]
    split
    · split
      · exact visitAll_ne _ ks acc h
      · next hc =>
        have hw := wrapped_ne as (Bool.not_eq_true _ ▸ hc)
        cases acc with
        | none =>
          simp only [Option.some.injEq]
          rintro rs rfl
          exact hw
        | some r =>
          refine visitAll_ne _ ks _ ?_
          simp only [Option.some.injEq]
          rintro rs rfl
          simp [hw]
    · exact visitAll_ne _ ks acc h
  | .css _, _, h => by simpa [visit] using h
  | .text _, _, h => by simpa [visit] using h
  | .leaf _, _, h => by simpa [visit] using h
theorem visitAll_ne (foreign : Bool) : ∀ (ns : List (Node Q R B)) (acc : Option (List (Rule Q R))), (∀ rs, acc = some rs → rs ≠ []) →
    ∀ rs, (visitAll foreign acc ns).2 = some rs → rs ≠ []
  | [], _, h => by simpa [visitAll] using h
  | n :: ns, acc, h => by
    simp only [visitAll]
    exact visitAll_ne foreign ns _ (visit_ne foreign n acc h)
end

/-- **C57 (again)**: the job changes nothing when it is run again, if no element has two media attributes. -/
theorem again (on : Bool) (doc : List (Node Q R B))
    (h : ∀ as ks, (as, ks) ∈ stylesAll false doc → (as.filter fun | .media _ => true | _ => false).length ≤ 1) :
    job on (job on doc) = job on doc := by
  cases on with
  | false => rfl
  | true =>
    apply fixed
    rcases visitAll_none ((visitAll false none doc).2.getD []) false doc with hs | ⟨hi, as, ks, hin, hs⟩
    · exact .inl hs
    · obtain ⟨rs, hr⟩ := Option.isSome_iff_exists.mp hi
      refine .inr ⟨_, _, hs, media_drop as (one_media (h as ks hin)), ?_⟩
      rw [hr]
      exact visitAll_ne false doc none (by simp) rs hr

/-- **C57 (off)** -/
theorem off (doc : List (Node Q R B)) : job false doc = doc := rfl

end Verif.Merge
