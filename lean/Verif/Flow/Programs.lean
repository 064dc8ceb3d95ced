import Verif.Flow.Theorems
/-!
# Programs of many resources (C126)

A program declares resources one after the other. The inputs of each are expressions over the properties of the
resources declared before it; the engine, or the mocks, answer each registration with the properties of the new resource.
-/
namespace Pulumi.Flow
open Pulumi.Async Pulumi.Output

/-- The inputs of the `n`-th resource. -/
abbrev Program := Nat → List (String × Expr)

/-- What the engine answers for the `n`-th resource, given its inputs: what each property shows. -/
abbrev Engine := Nat → List (String × View) → String → View

/-- The properties of the resources, when the first `n` have been registered. A property depends on its own resource and
on whatever the engine reports (`runtime/rpc.py:739-757`: `do_resolve` adds the resource to the dependencies). -/
def worldAt (dry : Bool) (prog : Program) (engine : Engine) : Nat → World
  | 0 => fun _ _ => .ofPlain .none
  | n + 1 => fun r p =>
    if r = n then
      let w := engine n ((prog n).map fun ke => (ke.1, ke.2.view dry (worldAt dry prog engine n))) p
      { w with deps := fun x => x = n ∨ w.deps x }
    else worldAt dry prog engine n r p

/-- The inputs with which the `n`-th resource is registered. -/
def requestAt (dry : Bool) (prog : Program) (engine : Engine) (n : Nat) : List (String × View) :=
  (prog n).map fun ke => (ke.1, ke.2.view dry (worldAt dry prog engine n))

/-- The `n`-th resource is registered with a dependency on `r`. -/
def DependsOn (dry : Bool) (prog : Program) (engine : Engine) (n r : Nat) : Prop :=
  ∃ k w, (k, w) ∈ requestAt dry prog engine n ∧ w.deps r

/-- Dependencies of dependencies. -/
inductive Reaches (dry : Bool) (prog : Program) (engine : Engine) : Nat → Nat → Prop
  | direct {n r} : DependsOn dry prog engine n r → Reaches dry prog engine n r
  | trans {n m r} : DependsOn dry prog engine n m → Reaches dry prog engine m r → Reaches dry prog engine n r

/-- Resources use only resources declared before them. -/
def Program.Ok (prog : Program) : Prop := ∀ n, ∀ ke ∈ prog n, ke.2.Ok fun r _ => r < n

/-- The engine answers with data. -/
def Engine.Ok (engine : Engine) : Prop :=
  ∀ n ins p, isData (engine n ins p).value = true ∧
    ((engine n ins p).known = true → containsUnknowns (engine n ins p).value = false)

variable {dry : Bool} {prog : Program} {engine engine' : Engine}

theorem worldAt_lt {n r : Nat} (h : r < n) (p : String) :
    worldAt dry prog engine n r p =
      { engine r (requestAt dry prog engine r) p with
        deps := fun x => x = r ∨ (engine r (requestAt dry prog engine r) p).deps x } := by
  induction n with
  | zero => omega
  | succ n ih =>
    by_cases hr : r = n
    · subst hr; simp [worldAt, requestAt]
    · have : worldAt dry prog engine (n + 1) r p = worldAt dry prog engine n r p := by
        simp only [worldAt, if_neg hr]
      rw [this]; exact ih (by omega)

theorem worldAt_ok (he : engine.Ok) (n : Nat) : (worldAt dry prog engine n).Ok fun r _ => r < n := by
  constructor
  · intro r p h; rw [worldAt_lt h]; exact (he _ _ _).1
  · intro r p h; rw [worldAt_lt h]; exact (he _ _ _).2
  · intro r p h; rw [worldAt_lt h]; exact .inl rfl

/-- **C126.** Let two engines differ only in how they answer the resource `R`. Every resource that does not depend on `R`,
directly or through other resources, is registered with the same inputs: changing a resource affects only what
declares a dependency on it. -/
theorem unrelated_unaffected (hp : prog.Ok) (he : engine.Ok) (he' : engine'.Ok) {R : Nat}
    (hag : ∀ n, n ≠ R → engine n = engine' n) :
    ∀ n, ¬ Reaches dry prog engine n R → requestAt dry prog engine n = requestAt dry prog engine' n := by
  intro n
  induction n using Nat.strongRecOn with
  | ind n ih =>
    intro hn
    unfold requestAt
    apply List.map_congr_left
    intro ke hke
    have hv : ke.2.view dry (worldAt dry prog engine n) = ke.2.view dry (worldAt dry prog engine' n) := by
      refine view_agree (worldAt_ok he n) ke.2 (hp n ke hke) ?_
      intro r hr p hlt
      have hdep : DependsOn dry prog engine n r :=
        ⟨ke.1, _, List.mem_map.2 ⟨ke, hke, rfl⟩, hr⟩
      have hne : r ≠ R := by rintro rfl; exact hn (.direct hdep)
      have hreach : ¬ Reaches dry prog engine r R := fun h => hn (.trans hdep h)
      rw [worldAt_lt hlt, worldAt_lt hlt, ih r hlt hreach, hag r hne]
    rw [hv]

/-- **C126.** The same for the properties of such a resource: they show the same. -/
theorem unrelated_outputs (hp : prog.Ok) (he : engine.Ok) (he' : engine'.Ok) {R : Nat}
    (hag : ∀ n, n ≠ R → engine n = engine' n) {r : Nat} (hr : r ≠ R) (hn : ¬ Reaches dry prog engine r R) {n : Nat} (hlt : r < n)
    (p : String) : worldAt dry prog engine n r p = worldAt dry prog engine' n r p := by
  rw [worldAt_lt hlt, worldAt_lt hlt, unrelated_unaffected hp he he' hag r hn, hag r hr]

/-- A chain and a bystander: 0; 1 uses 0; 2 uses nothing; 3 uses 2. -/
def sampleProgram : Program
  | 1 => [("in", .map (.prop 0 "x") fun v => .list [v])]
  | 3 => [("in", .prop 2 "x")]
  | _ => []

/-- An engine that answers every property of resource 0 with `v` and of the others with their number. -/
def sampleEngine (v : String) : Engine := fun n _ _ =>
  if n = 0 then .ofPlain (.str v) else .ofPlain (.int n)

theorem sample_not_reaches (dry : Bool) (v : String) : ¬ Reaches dry sampleProgram (sampleEngine v) 3 0 := by
  have h2 : ∀ r, ¬ DependsOn dry sampleProgram (sampleEngine v) 2 r := by
    rintro r ⟨k, w, h, _⟩; simp [requestAt, sampleProgram] at h
  have h3 : ∀ r, DependsOn dry sampleProgram (sampleEngine v) 3 r → r = 2 := by
    rintro r ⟨k, w, h, hr⟩
    simp only [requestAt, sampleProgram, List.map_cons, List.map_nil, List.mem_singleton, Prod.mk.injEq] at h
    obtain ⟨_, rfl⟩ := h
    simpa [Expr.view, worldAt, sampleEngine, View.ofPlain, noDeps] using hr
  intro h
  cases h with
  | direct h => exact absurd (h3 _ h) (by decide)
  | trans h hr =>
    rw [h3 _ h] at hr
    cases hr with
    | direct h => exact h2 _ h
    | trans h _ => exact h2 _ h

/-- Non-vacuity of C126: resource 3 is unaffected, resource 1 is not (and does depend on 0). -/
example : sampleProgram.Ok ∧ (sampleEngine "a").Ok ∧ (sampleEngine "b").Ok ∧
    (∀ n, n ≠ 0 → sampleEngine "a" n = sampleEngine "b" n) ∧ ¬ Reaches false sampleProgram (sampleEngine "a") 3 0 ∧
    requestAt false sampleProgram (sampleEngine "a") 1 ≠ requestAt false sampleProgram (sampleEngine "b") 1 ∧
    DependsOn false sampleProgram (sampleEngine "a") 1 0 := by
  refine ⟨?_, ?_, ?_, ?_, sample_not_reaches _ _, ?_, ?_⟩
  · intro n ke hke
    unfold sampleProgram at hke
    split at hke
    · rw [List.mem_singleton] at hke; subst hke
      refine ⟨Nat.zero_lt_one, ?_⟩
      intro v hv; simp [isData, isDataList, hv]
    · rw [List.mem_singleton] at hke; subst hke
      show 2 < 3; decide
    · simp at hke
  · intro n ins p; unfold sampleEngine; split <;> simp [View.ofPlain, isData]
  · intro n ins p; unfold sampleEngine; split <;> simp [View.ofPlain, isData]
  · intro n hn; funext ins p; simp [sampleEngine, hn]
  · simp [requestAt, sampleProgram, Expr.view, thenView, worldAt, sampleEngine, View.ofPlain, View.after]
  · refine ⟨_, _, List.mem_singleton.2 rfl, ?_⟩
    simp [Expr.view, thenView, worldAt, sampleEngine, View.ofPlain, View.after]

end Pulumi.Flow
