import Verif.Jsx.Spec

/-!
# Facts about the tables
-/

namespace Verif.Jsx

/-- The names are distinct. -/
theorem known_names : (known.map fun r => r.2.2).Nodup := by decide +kernel

/-- Known attributes without an arm have none, and no arm has their name. -/
theorem plain_known : ∀ l ∈ plain, ∀ r ∈ known, ¬ (r.1 = none ∧ r.2.1 = l) ∧ r.2.2 ≠ l := by
  decide +kernel

/-- They have no other arm either. -/
theorem plain_html : ∀ l ∈ plain, ∀ r ∈ html, r.1 ≠ l := by decide +kernel

/-- They have no punctuation. -/
theorem plain_alnum : ∀ l ∈ plain, l.toList.all Char.isAlphanum = true := by decide +kernel

/-- The arms spell the names of the attributes. -/
theorem known_spells :
    ∀ r ∈ known, canon (Name.qual ⟨r.1, r.1, r.2.1, true⟩) = canon r.2.2 ∨
      (Name.qual ⟨r.1, r.1, r.2.1, true⟩, r.2.2) ∈ renamed := by decide +kernel

/-- The other arms do too. -/
theorem html_spells :
    ∀ r ∈ html, canon r.1 = canon r.2 ∨ (r.1, r.2) ∈ renamed := by decide +kernel

end Verif.Jsx
