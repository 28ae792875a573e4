import Mathlib.Data.List.Basic

/-! # What the text of an argument may look like -/

namespace Bilby.Spec

/-- Names as Python's constructors have them: none of the characters with a meaning for the printed form. -/
def PlainName (k : List Char) : Prop := ∀ c ∈ k, c ∉ [',', '=', '(', ')'] ∧ c.isWhitespace = false

/-- Texts of values with at most one level of parentheses: either no comma outside parentheses and none inside, or
one parenthesised group `a(b)c` that contains all the commas. -/
def FlatValue (v : List Char) : Prop :=
  (',' ∉ v ∧ ('(' ∈ v → ')' ∈ v)) ∨
  ∃ a b c, v = a ++ '(' :: (b ++ ')' :: c) ∧ ',' ∉ a ∧ ',' ∉ c ∧
    '(' ∉ b ∧ ')' ∉ a ∧ ')' ∉ b ∧ '(' ∉ c

end Bilby.Spec

namespace Bilby.Spec

/-- Bracket depth after reading a text, `none` once a closing bracket has no partner. -/
def bracketDepth : ℕ → List Char → Option ℕ
  | n, [] => some n
  | n, '(' :: s => bracketDepth (n + 1) s
  | 0, ')' :: _ => none
  | n + 1, ')' :: s => bracketDepth n s
  | n, _ :: s => bracketDepth n s

/-- Balanced parentheses. -/
def BalancedText (s : List Char) : Prop := bracketDepth 0 s = some 0

end Bilby.Spec
