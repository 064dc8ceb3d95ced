import Verif.StepGen.Theorems
/-!
# What an update does not keep to

Concrete updates in which what `Theorems` proves of programs without aliases is false.
-/
namespace Pulumi.StepGen
open Pulumi.Snapshot (State Provider Ref)

/-- C157: `b` is deleted ahead of the replacement of `a`, on which it depends. The program now calls it `b2`, with `b` as an alias, and
the update finds nothing to change: it keeps a resource it has deleted. -/
theorem aliases_can_keep_what_is_deleted :
    ∃ l, update (prevOf [res "a", res "b" ["a"]]) plainOpts
        [.register (reg "a" (answer .some true true)), .register { reg "b2" with aliases := ["b"] }] = some l ∧
      dropsOf 1 l = 1 ∧ keepsOf 1 l = 1 ∧ .same 1 "b2" ∈ l :=
  ⟨[.deleteReplacement 1 true, .deleteReplacement 0 true, .replace 0 "a" false, .createReplacement 0 "a" false, .same 1 "b2"], by decide +kernel, by decide +kernel, by decide +kernel, List.mem_of_elem_eq_true (by decide +kernel)⟩

/-- C157: the same, where `b2` is to be replaced: `b` is deleted twice. -/
theorem aliases_can_delete_twice :
    ∃ l, update (prevOf [res "a", res "b" ["a"]]) plainOpts
        [.register (reg "a" (answer .some true true)),
         .register { reg "b2" (answer .some true false) with aliases := ["b"] }] = some l ∧ dropsOf 1 l = 2 :=
  ⟨[.deleteReplacement 1 true, .deleteReplacement 0 true, .replace 0 "a" false, .createReplacement 0 "a" false,
    .createReplacement 1 "b2" true, .replace 1 "b2" true, .deleteReplacement 1 false], by decide +kernel, by decide +kernel⟩

/-- C157: `b` is deleted ahead of the replacement of `a` and then read with another ID: it is deleted twice. -/
theorem reading_what_was_deleted_deletes_twice :
    ∃ l, update (prevOf [res "a", res "b" ["a"]]) plainOpts
        [.register (reg "a" (answer .some true true)), .read { type := "t", name := "b", parent := "", id := "7" }] = some l ∧
      dropsOf 1 l = 2 :=
  ⟨[.deleteReplacement 1 true, .deleteReplacement 0 true, .replace 0 "a" false, .createReplacement 0 "a" false,
    .readReplacement 1 "b", .replace 1 "b" true, .deleteReplacement 1 false], by decide +kernel, by decide +kernel⟩

/-- C157: a resource that an earlier update deleted and did not get to make again is kept as if it was there, if nothing about it
seems to have changed. -/
theorem what_awaits_replacement_can_be_kept :
    ∃ l, update (prevOf [{ res "a" with pendingReplacement := true }]) plainOpts [.register (reg "a")] = some l ∧
      l = [.same 0 "a"] :=
  ⟨[.same 0 "a"], by decide +kernel, rfl⟩

/-- C158: two resources of the program are given the same resource of the checkpoint: one by its URN and one by an alias. -/
theorem aliases_can_share_a_resource :
    ∃ l, update (prevOf [res "a"]) plainOpts [.register (reg "a"), .register { reg "b" with aliases := ["a"] }] = some l ∧
      l = [.same 0 "a", .same 0 "b"] :=
  ⟨[.same 0 "a", .same 0 "b"], by decide +kernel, rfl⟩

/-- C158: and the other way round -/
theorem aliases_can_share_a_resource' :
    ∃ l, update (prevOf [res "a"]) plainOpts [.register { reg "b" with aliases := ["a"] }, .register (reg "a")] = some l ∧
      l = [.same 0 "b", .same 0 "a"] :=
  ⟨[.same 0 "b", .same 0 "a"], by decide +kernel, rfl⟩

/-- C158: that an alias is used twice is not held against imports, but the second one finds the old state marked for deletion,
which fails an assertion. -/
theorem imports_by_the_same_alias_crash :
    handleAll (prevOf [res "a"]) plainOpts (initial (prevOf [res "a"]) none)
      [.register { reg "b" with aliases := ["a"], id := "1" }, .register { reg "c" with aliases := ["a"], id := "2" }] =
      Made.crash := by rfl

/-- C159: a protected resource is deleted ahead of the replacement of a resource it depends on, although the program still protects
it. -/
theorem protected_dependents_are_deleted :
    ∃ l, update (prevOf [res "a", { res "b" ["a"] with protect := true }]) plainOpts
        [.register (reg "a" (answer .some true true)), .register { reg "b" with protect := true }] = some l ∧
      dropsOf 1 l = 1 ∧ l.all (fun x => !refused (prevOf [res "a", { res "b" ["a"] with protect := true }]) x) = true :=
  ⟨[.deleteReplacement 1 true, .deleteReplacement 0 true, .replace 0 "a" false, .createReplacement 0 "a" false,
    .replace 1 "b" false, .createReplacement 1 "b" false], by decide +kernel, by decide +kernel, by decide +kernel⟩

/-- C159: a protected resource is deleted where another is imported in its place. -/
theorem importing_deletes_protected_resources :
    ∃ l, update (prevOf [{ res "a" with protect := true }]) plainOpts [.register { reg "a" with protect := true, id := "7" }] = some l ∧
      dropsOf 0 l = 1 ∧ l.all (fun x => !refused (prevOf [{ res "a" with protect := true }]) x) = true :=
  ⟨[.importReplacement 0 "a", .replace 0 "a" true, .deleteReplacement 0 false], by decide +kernel, by decide +kernel, by decide +kernel⟩

/-- C159: a protected resource is deleted where another is read in its place. -/
theorem reading_deletes_protected_resources :
    ∃ l, update (prevOf [{ res "a" with protect := true }]) plainOpts
        [.read { type := "t", name := "a", parent := "", id := "7" }] = some l ∧
      dropsOf 0 l = 1 ∧ l.all (fun x => !refused (prevOf [{ res "a" with protect := true }]) x) = true :=
  ⟨[.readReplacement 0 "a", .replace 0 "a" true, .deleteReplacement 0 false], by decide +kernel, by decide +kernel, by decide +kernel⟩

/-- C159: a protected resource that an earlier update left to be deleted makes every update fail, whatever the program. -/
theorem protected_leftovers_block_updates (o : Opts) (es : List Ev) :
    update (prevOf [{ res "a" with protect := true, delete := true }]) o es = none := by rfl

/-- C161: a resource that depends on a replaced one, and that an earlier update left to be deleted, fails an assertion. -/
theorem leftover_dependents_crash :
    handleAll (prevOf [res "a", { res "b" ["a"] with delete := true }]) plainOpts
      (initial (prevOf [res "a", { res "b" ["a"] with delete := true }]) none)
      [.register (reg "a" (answer .some true true))] = Made.crash := by rfl

/-- C161: so does taking over by an alias what is about to be replaced. -/
theorem aliases_of_a_replaced_resource_crash :
    handleAll (prevOf [res "a"]) plainOpts (initial (prevOf [res "a"]) none)
      [.register (reg "a" (answer .some true false)), .register { reg "b" with aliases := ["a"] }] = Made.crash := by rfl

end Pulumi.StepGen
