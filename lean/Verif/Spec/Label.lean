import Mathlib.Data.List.Infix
import Mathlib.Data.Int.Notation

/-!
# What the label of a lambda expression should be
-/

namespace Verif
namespace Label

/-- `p` is the first position from `start` at which `sub` occurs in `s` -/
def FirstAt (sub s : List Char) (start p : Nat) : Prop :=
  start ≤ p ∧ sub <+: s.drop p ∧ ∀ i, start ≤ i → i < p → ¬ sub <+: s.drop i

/-- brackets opened minus brackets closed -/
def depth (s : List Char) : Int :=
  (s.countP (fun c => decide (c ∈ ['(', '[', '{'])) : Int) - (s.countP (fun c => decide (c ∈ [')', ']', '}'])) : Int)

/-- an expression as it is written: brackets are balanced, and commas are within brackets -/
structure Expression (s : List Char) : Prop where
  nonneg : ∀ p r, s = p ++ r → 0 ≤ depth p
  balanced : depth s = 0
  commas : ∀ p r, s = p ++ ',' :: r → depth p ≠ 0

/-- what can follow an argument: the end of the line, a comma or a closing bracket -/
def Ends (s : List Char) : Prop := s = [] ∨ ∃ c r, s = c :: r ∧ c ∈ [',', ')', ']', '}']

end Label
end Verif
