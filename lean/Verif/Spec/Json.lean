/-!
# Specification: a part of the JSON grammar (RFC 8259)

Everything derivable here is a JSON text: strings have no escapes, numbers are integers.
-/

namespace PathPlanning.Spec

/-- A character that may stand in a JSON string without an escape. -/
def PlainChar (c : Char) : Prop := c ≠ '"' ∧ c ≠ '\\' ∧ 0x20 ≤ c.toNat

/-- A JSON string. -/
def jsonString (s : List Char) : List Char := '"' :: (s ++ ['"'])

/-- JSON white space. -/
def IsSpace (c : Char) : Prop := c = ' ' ∨ c = '\n' ∨ c = '\t' ∨ c = '\r'

/-- JSON values. -/
inductive Json : List Char → Prop
  | string (s : List Char) : (∀ c ∈ s, PlainChar c) → Json (jsonString s)
  | int (n : Int) : Json (toString n).toList
  | array (items : List (List Char)) : (∀ i ∈ items, Json i) →
      Json ('[' :: ((items.intersperse [',']).flatten ++ [']']))
  | object (members : List (List Char × List Char)) :
      (∀ m ∈ members, ∀ c ∈ m.1, PlainChar c) → (∀ m ∈ members, Json m.2) →
      Json ('{' :: (((members.map fun m => jsonString m.1 ++ ':' :: m.2).intersperse [',']).flatten ++
        ['}']))
  | space (w s : List Char) : (∀ c ∈ w, IsSpace c) → Json s → Json (w ++ s)

end PathPlanning.Spec
