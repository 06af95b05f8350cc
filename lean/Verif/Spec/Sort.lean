import Mathlib.Data.List.Pairwise

/-! # The requirements on a comparison that is used for sorting -/

namespace Verif

/-- the requirements of the C++ standard on a comparison used for sorting objects with the property `S` (strict weak ordering): it is
irreflexive and transitive, and so is not being comparable -/
structure StrictWeak {α : Type} (S : α → Prop) (lt : α → α → Prop) : Prop where
  irrefl : ∀ {a}, S a → ¬ lt a a
  trans : ∀ {a b c}, S a → S b → S c → lt a b → lt b c → lt a c
  incomp : ∀ {a b c}, S a → S b → S c → ¬ lt a b → ¬ lt b a → ¬ lt b c → ¬ lt c b → ¬ lt a c ∧ ¬ lt c a

/-- no element of the list is less than an earlier one -/
def SortedBy {α : Type} (lt : α → α → Prop) (l : List α) : Prop := l.Pairwise fun a b => ¬ lt b a

/-- what `std::is_sorted` tests: no element is less than the one before it -/
def NeighboursSorted {α : Type} (lt : α → α → Prop) (l : List α) : Prop := l.IsChain fun a b => ¬ lt b a

end Verif
