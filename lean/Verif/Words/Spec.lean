import Verif.Parse.Lemmas

/-!
# Names of XML

Nothing here uses the model.
-/

namespace Verif.Words

/-- NameStartChar of XML 1.0, fifth edition. -/
def xmlStart : List (Nat × Nat) := [(0x3A, 0x3A), (0x41, 0x5A), (0x5F, 0x5F), (0x61, 0x7A), (0xC0, 0xD6), (0xD8, 0xF6), (0xF8, 0x2FF),
  (0x370, 0x37D), (0x37F, 0x1FFF), (0x200C, 0x200D), (0x2070, 0x218F), (0x2C00, 0x2FEF), (0x3001, 0xD7FF), (0xF900, 0xFDCF), (0xFDF0, 0xFFFD),
  (0x10000, 0xEFFFF)]

/-- The other characters of names. -/
def xmlMore : List (Nat × Nat) := [(0x2D, 0x2D), (0x2E, 0x2E), (0x30, 0x39), (0xB7, 0xB7), (0x300, 0x36F), (0x203F, 0x2040)]

def Among (l : List (Nat × Nat)) (c : Char) : Prop := ∃ r ∈ l, r.1 ≤ c.toNat ∧ c.toNat ≤ r.2

/-- A name of XML. -/
def XmlName (s : List Char) : Prop := ∃ c m, s = c :: m ∧ Among xmlStart c ∧ ∀ x ∈ m, Among xmlStart x ∨ Among xmlMore x

/-- The text begins with an ASCII character. -/
def Ascii (s : List Char) : Prop := ∃ c m, s = c :: m ∧ c.toNat < 128

end Verif.Words
