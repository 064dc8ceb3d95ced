import Verif.Props.Ignored
import Verif.Props.Same
/-!
# Cases

Values the theorems about comparing properties are about.
-/
namespace Pulumi.Props
open Pulumi.Engine (EV Blob RefId)
open Pulumi.Paths (Text Key Path Kind Changes PropertyDiff DiffResult IState Ignored processIgnoreChanges parse pathText get IsPath)

/-- what hashes are in the cases -/
def anyHash : Blob → Option String := fun _ => some "h"

/-- a bucket as it was: a name, tags, rules, an unset policy -/
def bucket : List (String × EV) :=
  [("name", .str "logs"), ("tags", .object [("env", .str "dev"), ("team", .str "a")]), ("rules", .array [.num 1, .num 2, .object [("days", .num 3)]]),
    ("policy", .null), ("key", .secret (.str "k"))]

/-- and as it is to be -/
def bucket' : List (String × EV) :=
  [("name", .str "logs"), ("tags", .object [("env", .str "prod"), ("owner", .str "b")]), ("rules", .array [.num 1, .num 5, .object [("days", .num 4)], .null]),
    ("policy", .str "p"), ("size", .computed (.str ""))]

example : proper anyHash (.object bucket) = true ∧ proper anyHash (.object bucket') = true ∧ noOutputs (.object bucket) = true ∧
    noOutputs (.object bucket') = true ∧ plainKeys (.object bucket) = true ∧ plainKeys (.object bucket') = true := by
  refine ⟨?_, ?_, ?_, ?_, ?_, ?_⟩ <;> decide

/-- A null is as good as nothing, and the order of keys is not looked at: the hypotheses of `equal_symm` and `equal_trans`. -/
example : deepEq anyHash (.object bucket) (.object (bucket.reverse.filter (fun kv => decide (kv.1 ≠ "policy")))) = some true ∧
    deepEq anyHash (.object bucket) (.object bucket') = some false := ⟨by rfl, by rfl⟩

/-- What the diff of the two says: the hypotheses of `diff_sorts`, `diff_patches` and of the detailed diffs. -/
example : ∃ d, mapDiff anyHash nothing bucket bucket' = some (some d) ∧
    d.adds.map (·.1) = ["policy", "size"] ∧ d.dels.map (·.1) = ["key"] ∧ d.sames.map (·.1) = ["name"] ∧ d.ups.map (·.1) = ["tags", "rules"] ∧
    detailed (some d) = [("key".toList, ⟨.delete, false⟩), ("size".toList, ⟨.add, false⟩), ("policy".toList, ⟨.add, false⟩),
      ("rules[3]".toList, ⟨.add, false⟩), ("rules[2].days".toList, ⟨.update, false⟩), ("rules[1]".toList, ⟨.update, false⟩),
      ("tags.team".toList, ⟨.delete, false⟩), ("tags.owner".toList, ⟨.add, false⟩), ("tags.env".toList, ⟨.update, false⟩)] := by
  refine ⟨_, rfl, ?_, ?_, ?_, ?_, ?_⟩ <;> decide

/-- a place where the two differ: the hypothesis of `detailed_misses_nothing_partial` -/
example : DifferAt anyHash [.name "rules".toList, .idx 2, .name "days".toList] (.object bucket) (.object bucket') :=
  .inr (.inr ⟨.num 3, .num 4, rfl, rfl, rfl⟩)

/-- with `tags` and `rules` ignored, and all else -/
example : mapDiff anyHash (fun k => k != "name") bucket bucket' = some none ∧
    Through (fun k => k == "env") [.name "tags".toList, .name "env".toList] :=
  ⟨rfl, ["tags"], "env", [], rfl, rfl⟩

/-- a provider that cannot tell -/
def unsure : DiffResult :=
  { changes := .unknown, replaceKeys := ["name".toList], stableKeys := [], changedKeys := [], detailed := none, deleteBeforeReplace := false }

/-- `tags.env` is ignored: the hypotheses of `unknown_is_decided_partial` and `unknown_spares_ignored_partial`. -/
example : (match processIgnoreChanges bucket' bucket ["tags.env".toList] with
    | .done s => proper anyHash (.object (inputsOf s)) && noOutputs (.object (inputsOf s)) && plainKeys (.object (inputsOf s))
    | _ => false) = true ∧
    (match diffResource anyHash unsure bucket bucket' ["tags.env".toList] with
    | .told d' => d'.changes == .some && d'.changedKeys == ["key", "policy", "rules", "size", "tags"].map String.toList &&
      (d'.detailed.getD []).map (·.1) == ["key", "size", "policy", "rules[3]", "rules[2].days", "rules[1]", "tags.team", "tags.owner"].map String.toList
    | _ => false) = true := by decide +kernel

/-- with everything that changed ignored, there are no changes -/
example : (match diffResource anyHash unsure bucket bucket' (["tags", "rules", "policy", "key", "size"].map String.toList) with
    | .told d' => d'.changes == .none
    | _ => false) = true := by decide +kernel

/-- **Keys with dots in them are not told apart from keys of keys**: two changes have one entry, and it may be either. -/
theorem dotted_keys_collide : ∃ d, mapDiff anyHash nothing [("a.b", .num 1), ("a", .object [("b", .num 1)])] [("a", .object [])] = some (some d) ∧
    detailed (some d) = [("a.b".toList, ⟨.delete, false⟩)] := ⟨_, rfl, by decide⟩

/-- and the path of an entry need not be one that changed -/
theorem dotted_keys_mislead : ∃ d, mapDiff anyHash nothing [("a.b", .num 1), ("a", .object [("b", .num 1)])]
      [("a.b", .num 2), ("a", .object [("b", .num 1)])] = some (some d) ∧
    detailed (some d) = [("a.b".toList, ⟨.update, false⟩)] ∧ parse "a.b".toList = .ok [.name "a".toList, .name "b".toList] ∧
    ¬ DifferAt anyHash [.name "a".toList, .name "b".toList] (.object [("a.b", .num 1), ("a", .object [("b", .num 1)])])
      (.object [("a.b", .num 2), ("a", .object [("b", .num 1)])]) := by
  refine ⟨_, rfl, by decide, ?_, ?_⟩
  · exact Paths.path_round_trip [.name "a".toList, .name "b".toList] (by
      intro k hk
      rcases List.mem_cons.mp hk with rfl | hk
      · exact ⟨by decide, by decide⟩
      · rw [List.mem_singleton.mp hk]; exact ⟨by decide, by decide⟩)
  · rintro (⟨x, h1, h2, h3⟩ | ⟨x, h1, h2, h3⟩ | ⟨x, y, h1, h2, h3⟩)
    · rcases h3 with h3 | h3 <;> cases h3
    · rcases h3 with h3 | h3 <;> cases h3
    · cases h1; cases h2; cases h3

end Pulumi.Props
