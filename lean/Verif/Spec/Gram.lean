import Verif.Model.Basic
/-
Grammars as relations.  `G w v` means: the text `w` can be derived from `G`, and denotes the value
`v`.  Unlike a parser a grammar makes no choice: alternatives are symmetric, repetition is not greedy.
-/
namespace EmailParser.Spec

/-- A grammar for values of type `α`. -/
def Gram (α : Type) := Bytes → α → Prop

/-- `pure v`: the empty text with value `v`.  `do let a ← G; H a`: a text of `G` followed by a text
of `H a`. -/
instance : Monad Gram where
  pure a := fun w v => w = [] ∧ v = a
  bind G F := fun w v => ∃ w₁ w₂ a, w = w₁ ++ w₂ ∧ G w₁ a ∧ F a w₂ v

namespace Gram
variable {α β : Type}

/-- Exactly this text. -/
def lit (s : Bytes) : Gram Unit := fun w _ => w = s

/-- A text equal to `s` up to the case of ASCII letters. -/
def litNoCase (s : Bytes) : Gram Unit := fun w _ => w.map asciiLower = s.map asciiLower

/-- Any number of characters of a class. -/
def chars (p : UInt8 → Bool) : Gram Bytes := fun w v => v = w ∧ ∀ c ∈ w, p c = true

/-- At least one character of a class. -/
def chars1 (p : UInt8 → Bool) : Gram Bytes := fun w v => v = w ∧ w ≠ [] ∧ ∀ c ∈ w, p c = true

/-- One character of a class. -/
def char (p : UInt8 → Bool) : Gram UInt8 := fun w v => w = [v] ∧ p v = true

/-- `G / H`. -/
def or (G H : Gram α) : Gram α := fun w v => G w v ∨ H w v

/-- `[G]`. -/
def opt (G : Gram α) : Gram (Option α) := fun w v =>
  (w = [] ∧ v = none) ∨ ∃ a, v = some a ∧ G w a

/-- `*G`. -/
inductive star (G : Gram α) : Gram (List α)
  | nil : star G [] []
  | cons {w₁ w₂ a as} : G w₁ a → star G w₂ as → star G (w₁ ++ w₂) (a :: as)

/-- `1*G`. -/
def plus (G : Gram α) : Gram (List α) := do
  let a ← G
  let as ← star G
  pure (a :: as)

/-- `G`, forgetting the value. -/
def skip (G : Gram α) : Gram Unit := fun w _ => ∃ v, G w v

/-- The texts of `G` whose value satisfies a condition. -/
def filter (p : α → Prop) (G : Gram α) : Gram α := fun w v => G w v ∧ p v

/-- `G`, with another value. -/
def map (f : α → β) (G : Gram α) : Gram β := fun w v => ∃ a, v = f a ∧ G w a

/-- No text. -/
def fail : Gram α := fun _ _ => False

end Gram
end EmailParser.Spec
