import Verif.Spec

/-!
# Specification: strict weak orderings

The requirement of the C++ standard on the function object `Compare` (and of ICL on the parameter `Compare` of intervals and
containers), and what `++` and `--` of a discrete domain type have to do with it.
-/

namespace ICL.Spec

variable {E : Type}

/-- A strict weak ordering. -/
structure WeakOrder (lt : E → E → Prop) : Prop where
  irrefl : ∀ a, ¬ lt a a
  trans : ∀ a b c, lt a b → lt b c → lt a c
  /-- Being equivalent is transitive. -/
  equiv_trans : ∀ a b c, ¬ lt a b → ¬ lt b a → ¬ lt b c → ¬ lt c b → ¬ lt a c ∧ ¬ lt c a

/-- Values that the order does not tell apart. -/
def Tied (lt : E → E → Prop) (a b : E) : Prop := ¬ lt a b ∧ ¬ lt b a

/-- `++` and `--` lead to the next larger and smaller values, up to equivalence. -/
structure StepsOf (lt : E → E → Prop) (inc dec : E → E) : Prop where
  inc_alike : ∀ a b, Tied lt a b → Tied lt (inc a) (inc b)
  dec_alike : ∀ a b, Tied lt a b → Tied lt (dec a) (dec b)
  inc_next : ∀ a b, lt a b → lt a (inc a) ∧ ¬ lt b (inc a)
  dec_prior : ∀ a b, lt a b → ¬ lt (dec b) a ∧ lt (dec b) b

end ICL.Spec
