import Verif.Snapshot.IntegritySpec
import Verif.Snapshot.Decide
/-! What is assumed of orderly updates can be decided. -/
namespace Pulumi.Snapshot

instance decExcept {ε α : Type} [DecidableEq ε] [DecidableEq α] : DecidableEq (Except ε α)
  | .ok a, .ok b => decidable_of_iff (a = b) (by simp)
  | .error a, .error b => decidable_of_iff (a = b) (by simp)
  | .ok _, .error _ => isFalse (by simp)
  | .error _, .ok _ => isFalse (by simp)

instance (E : Env) (x : State) (r : Ref) : Decidable (Provides E x r) := inferInstanceAs (Decidable (_ ∧ _ ∧ _))

def providerOk (E : Env) (l : List State) : Provider → Bool
  | .none => true
  | .malformed _ => false
  | .ref r => l.any (fun x => decide (Provides E x r))

theorem backed_iff (E : Env) (b : List State) (s : State) : Backed E b s ↔
    (E.isProviderType s.type = true → E.validProviderUrn s.urn = true) ∧ providerOk E (b ++ [s]) s.provider = true ∧
    (s.parent = "" ∨ ∃ x ∈ b, x.urn = s.parent) ∧ (∀ d ∈ s.deps, ∃ x ∈ b, x.urn = d) ∧
    (s.delete = true ∨ ∀ x ∈ b, x.urn ≠ s.urn) := by
  have hp : providerOk E (b ++ [s]) s.provider = true ↔
      (s.provider = .none ∨ ∃ r, s.provider = .ref r ∧ ∃ x ∈ b ++ [s], Provides E x r) := by
    cases hs : s.provider with
    | none => simp [providerOk]
    | malformed m => simp [providerOk]
    | ref r =>
      simp only [providerOk, List.any_eq_true, decide_eq_true_eq, reduceCtorEq, Provider.ref.injEq, false_or]
      exact ⟨fun h => ⟨r, rfl, h⟩, fun ⟨_, he, h⟩ => he ▸ h⟩
  rw [hp]
  exact ⟨fun h => ⟨h.referenceable, h.provider, h.parent, h.deps, h.unique⟩, fun ⟨a, b, c, d, e⟩ => ⟨a, b, c, d, e⟩⟩

instance (E : Env) (b : List State) (s : State) : Decidable (Backed E b s) := decidable_of_iff' _ (backed_iff E b s)
instance (s : Sys) (q : Ptr) : Decidable (Remaining s q) := inferInstanceAs (Decidable (_ ∧ _))
instance (E : Env) (s : Sys) (q : Ptr) : Decidable (Placed E s q) := inferInstanceAs (Decidable (Backed _ _ _))

theorem succeeds_iff (s : Sys) (o n : Ptr) : Succeeds s o n ↔ ((s.heap n).urn = (s.heap o).urn ∧
    (s.heap n).type = (s.heap o).type ∧ (s.heap n).delete = false ∧ (s.heap o).delete = false ∧ o ∉ s.mgr.dones) :=
  ⟨fun h => ⟨h.urn, h.type, h.liveNew, h.liveOld, h.remaining⟩, fun ⟨a, b, c, d, e⟩ => ⟨a, b, c, d, e⟩⟩
instance (s : Sys) (o n : Ptr) : Decidable (Succeeds s o n) := decidable_of_iff' _ (succeeds_iff s o n)

instance (s : Sys) (n : Ptr) (o : Option Ptr) : Decidable (OthersDeleted s n o) :=
  decidable_of_iff (∀ q ∈ s.mgr.base, q ∉ s.mgr.dones → some q ≠ o → (s.heap q).urn = (s.heap n).urn →
      (s.heap q).delete = true)
    ⟨fun h q hq => h q hq.1 hq.2, fun h q h1 h2 => h q ⟨h1, h2⟩⟩

def usesProvider (E : Env) (x : State) : Provider → Bool
  | .ref r => decide (Provides E x r)
  | _ => false

theorem usesProvider_iff (E : Env) (x : State) (p : Provider) :
    usesProvider E x p = false ↔ ∀ r, p = .ref r → ¬ Provides E x r := by
  cases p <;> simp [usesProvider]

instance (E : Env) (s : Sys) (o : Ptr) : Decidable (ProviderUnused E s o) :=
  decidable_of_iff (∀ q ∈ s.mgr.base, q ∉ s.mgr.dones → q ≠ o →
      usesProvider E (s.heap o) (s.heap q).provider = false)
    ⟨fun h q hq hne => (usesProvider_iff _ _ _).mp (h q hq.1 hq.2 hne),
      fun h q h1 h2 hne => (usesProvider_iff _ _ _).mpr (h q ⟨h1, h2⟩ hne)⟩

instance (E : Env) (s : Sys) (o : Ptr) : Decidable (MayGo E s o) :=
  decidable_of_iff (ProviderUnused E s o ∧ ∀ q ∈ s.mgr.base, q ∉ s.mgr.dones → q ≠ o →
      (s.heap q).parent = (s.heap o).urn ∨ (s.heap o).urn ∈ (s.heap q).deps →
      (∃ z ∈ s.mgr.resources, (s.heap z).urn = (s.heap o).urn) ∨
      (∃ z ∈ s.mgr.base, z ∉ s.mgr.dones ∧ z ≠ o ∧ (s.heap z).delete = false ∧ (s.heap z).urn = (s.heap o).urn))
    ⟨fun h => ⟨h.1, fun q hq hne hr => by
        rcases h.2 q hq.1 hq.2 hne hr with h0 | ⟨z, h1, h2, h3⟩
        · exact Or.inl h0
        · exact Or.inr ⟨z, ⟨h1, h2⟩, h3⟩⟩,
      fun h => ⟨h.unused, fun q h1 h2 hne hr => by
        rcases h.unreferenced q ⟨h1, h2⟩ hne hr with h0 | ⟨z, ⟨h1, h2⟩, h3⟩
        · exact Or.inl h0
        · exact Or.inr ⟨z, h1, h2, h3⟩⟩⟩

instance (E : Env) (s : Sys) (st : Step) (ok : Bool) : Decidable (EndsOrderly E s st ok) := by
  unfold EndsOrderly; split <;> infer_instance

theorem endsOrderly_iff (E : Env) (s : Sys) (i : Nat) :
    (∀ st ok, s.active[i]? = some (st, .applied ok) → EndsOrderly E s st ok) ↔
    (∀ a, s.active[i]? = some a → ∀ ok ∈ [true, false], a.2 = .applied ok → EndsOrderly E s a.1 ok) := by
  constructor
  · intro h a ha ok _ hp
    exact h a.1 ok (by rw [ha, ← hp])
  · intro h st ok ha
    exact h _ ha ok (by cases ok <;> simp) rfl

theorem rebuildsOrderly_iff (E : Env) (s : Sys) (f : List (Ptr × Option Ptr)) : RebuildsOrderly E s f ↔
    ((s.mgr.resources = [] ∧ s.mgr.dones = []) ∧ (s.mgr.base.filterMap (stepFor f)).Nodup ∧
    (∀ q ∈ s.mgr.base, ∀ q', stepFor f q = some q' →
      (s.heap q').type = (s.heap q).type ∧ (s.heap q').urn = (s.heap q).urn ∧ (s.heap q').id = (s.heap q).id ∧
      (s.heap q').parent = (s.heap q).parent ∧ (s.heap q').deps = (s.heap q).deps ∧
      (s.heap q').provider = (s.heap q).provider ∧ (s.heap q').delete = (s.heap q).delete) ∧
    (∀ q ∈ s.mgr.base, stepFor f q ≠ none → ∀ y ∈ s.mgr.base, stepFor f y ≠ none ∨
      usesProvider E (s.heap y) (s.heap q).provider = false)) := by
  constructor
  · intro h
    refine ⟨h.first, h.nodup, h.same, fun q hq hf y hy => ?_⟩
    by_cases hy' : stepFor f y = none
    · refine Or.inr ((usesProvider_iff _ _ _).mpr (fun r hr hp => h.providers q hq hf r hr y hy hp hy'))
    · exact Or.inl hy'
  · rintro ⟨h1, h2, h3, h4⟩
    refine ⟨h1, h2, h3, fun q hq hf r hr y hy hp => ?_⟩
    rcases h4 q hq hf y hy with h0 | h0
    · exact h0
    · exact absurd hp ((usesProvider_iff _ _ _).mp h0 r hr)

instance (s : Sys) : Decidable (NoAliases s) := inferInstanceAs (Decidable (∀ q ∈ _, _))

instance (E : Env) (s : Sys) : (e : Event) → Decidable (Orderly E s e)
  | .finish i _ =>
    have : Decidable (∀ st ok, s.active[i]? = some (st, .applied ok) → EndsOrderly E s st ok) :=
      decidable_of_iff' _ (endsOrderly_iff E s i)
    inferInstanceAs (Decidable (NoAliases s ∧ _))
  | .rebuild f =>
    have : Decidable (RebuildsOrderly E s f) := decidable_of_iff' _ (rebuildsOrderly_iff E s f)
    inferInstanceAs (Decidable (NoAliases s ∧ _))
  | .begin .. => inferInstanceAs (Decidable (NoAliases s ∧ True))
  | .act .. => inferInstanceAs (Decidable (NoAliases s ∧ True))
  | .ret .. => inferInstanceAs (Decidable (NoAliases s ∧ True))
  | .abandon .. => inferInstanceAs (Decidable (NoAliases s ∧ True))
  | .outputs .. => inferInstanceAs (Decidable (NoAliases s ∧ True))
  | .condemn .. => inferInstanceAs (Decidable (NoAliases s ∧ True))
  | .close .. => inferInstanceAs (Decidable (NoAliases s ∧ True))

end Pulumi.Snapshot
