import Verif.DepGraph.Schedule
import Verif.Snapshot.IntegrityDecide
/-! What is assumed of checkpoints can be decided. -/
namespace Pulumi.DepGraph
open Pulumi.Snapshot (State Provider Ref Env Intact Backed)

theorem intact_iff_at (E : Env) (rs : List State) :
    Intact E rs ↔ ∀ i, (h : i < rs.length) → Backed E (rs.take i) rs[i] := by
  constructor
  · intro h i hi
    exact h (rs.take i) rs[i] (rs.drop (i + 1)) (by simp)
  · rintro h pre s post rfl
    have := h pre.length (by simp)
    simpa using this

instance (E : Env) (rs : List State) : Decidable (Intact E rs) := decidable_of_iff' _ (intact_iff_at E rs)
instance (rs : List State) : Decidable (Once rs) := inferInstanceAs (Decidable (List.Nodup _))
instance (rs : List State) : Decidable (Settled rs) :=
  decidable_of_iff ((∀ s ∈ rs, s.delete = false) ∧ ∀ s ∈ rs, s.urn ≠ "")
    ⟨fun h => ⟨h.1, h.2⟩, fun h => ⟨h.1, h.2⟩⟩

end Pulumi.DepGraph
