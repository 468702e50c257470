import Verif.Model.Seeding

/-! Specification for C187: reproducible runs. -/
namespace Verif.Spec

open Verif.Model

variable {P K M G : Type*}

/-- Given the state of the generator, proposing and training do not look at the entropy of the operating system. -/
def NoEntropy (L : GenLearner P K M G) : Prop :=
  (∀ s m w w', w.gen = w'.gen → (L.ask s m w).1 = (L.ask s m w').1 ∧ (L.ask s m w).2.gen = (L.ask s m w').2.gen) ∧
    ∀ s X m w w', w.gen = w'.gen → (L.train s X m w).1 = (L.train s X m w').1 ∧ (L.train s X m w).2.gen = (L.train s X m w').2.gen

end Verif.Spec
