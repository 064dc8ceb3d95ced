import Verif.Steps.Model
/-
What a step asks of its provider, and what becomes of the states.
-/
namespace Pulumi.Steps

/-! ## What is asked -/

/-- what changes something outside the engine -/
def Call.changes : Call → Bool
  | .create _ _ preview => !preview
  | .update _ _ _ _ preview => !preview
  | .delete .. => true
  | .read .. => false

/-- **A preview changes nothing**: whatever the step, its provider is asked nothing but to read, or to create or update with
the word that it is a preview. -/
theorem preview_changes_nothing (prov : Except String Provider) (s : Step) : ∀ c ∈ (apply true prov s).calls, c.changes = false := by
  intro c hc
  cases s with
  | same => simp [apply, applySame] at hc
  | create old new r d =>
    simp only [apply, applyCreate] at hc
    split at hc
    · cases prov with
      | error m => simp at hc
      | ok p =>
        simp only at hc
        split at hc
        · simp at hc; subst hc; rfl
        · split at hc <;> (simp at hc; subst hc; rfl)
    · simp at hc
  | delete old r =>
    simp only [apply, applyDelete] at hc
    split at hc
    · simp at hc
    · simp at hc
  | removePendingReplace => simp [apply] at hc
  | update old new =>
    simp only [apply, applyUpdate] at hc
    split at hc
    · cases prov with
      | error m => simp at hc
      | ok p =>
        simp only at hc
        split at hc <;> (simp at hc; subst hc; rfl)
    · simp at hc
  | replace => simp [apply] at hc
  | read old new r =>
    simp only [apply, applyRead] at hc
    split at hc
    · simp at hc
    · cases prov with
      | error m => simp at hc
      | ok p =>
        simp only at hc
        split at hc
        · simp at hc; subst hc; rfl
        · split at hc <;> (simp at hc; subst hc; rfl)
  | refresh old =>
    simp only [apply, applyRefresh] at hc
    split at hc
    · simp at hc
    · cases prov with
      | error m => simp at hc
      | ok p =>
        simp only at hc
        split at hc <;> (simp at hc; subst hc; rfl)

/-- **What is deleted**: the provider is asked to delete a resource exactly if this is no preview, the resource is the engine's
own and custom, it is not to be retained, it is not protected (or was let through for a replacement), and there is a provider;
and then it is asked once, with the id and the outputs of the state. -/
theorem delete_asks (preview : Bool) (prov : Except String Provider) (old : State) (replacing : Bool) :
    (apply preview prov (.delete old replacing)).calls =
      if preview = false ∧ old.external = false ∧ old.retainOnDelete = false ∧ old.custom = true ∧
          (old.protect = true → replacing = true) ∧ prov.isOk = true
      then [.delete old.urn old.id old.outputs] else [] := by
  simp only [apply, applyDelete]
  cases replacing <;> cases hp : old.protect <;> cases preview <;> cases he : old.external <;>
    cases hr : old.retainOnDelete <;> cases hc : old.custom <;> cases prov <;> simp [Except.isOk, Except.toBool]
  all_goals split <;> rfl

/-- **A protected resource is not deleted** unless it is replaced: the step fails, in a preview too, and asks nothing. -/
theorem protected_kept (preview : Bool) (prov : Except String Provider) (old : State) (hp : old.protect = true) :
    (apply preview prov (.delete old false)).calls = [] ∧ (apply preview prov (.delete old false)).err ≠ none ∧
    (apply preview prov (.delete old false)).completes = false := by
  simp [apply, applyDelete, hp]

/-- **A provider is asked at most once in a step** -/
theorem asks_once (preview : Bool) (prov : Except String Provider) (s : Step) : (apply preview prov s).calls.length ≤ 1 := by
  cases s with
  | same => simp [apply, applySame]
  | create old new r d =>
    simp only [apply, applyCreate]
    split
    · cases prov with
      | error m => simp
      | ok p =>
        simp only
        split
        · simp
        · split <;> simp
    · simp
  | delete old r => rw [delete_asks]; split <;> simp
  | removePendingReplace => simp [apply]
  | update old new =>
    simp only [apply, applyUpdate]
    split
    · cases prov with
      | error m => simp
      | ok p => simp only; split <;> simp
    · simp
  | replace => simp [apply]
  | read old new r =>
    simp only [apply, applyRead]
    split
    · simp
    · cases prov with
      | error m => simp
      | ok p =>
        simp only
        split
        · simp
        · split <;> simp
  | refresh old =>
    simp only [apply, applyRefresh]
    split
    · simp
    · cases prov with
      | error m => simp
      | ok p => simp only; split <;> simp

/-- **No provider is asked for a component** -/
theorem components_ask_nothing (preview : Bool) (prov : Except String Provider) (old new : State) (o : Option State) (r d : Bool)
    (hn : new.custom = false) (ho : old.custom = false) :
    (apply preview prov (.create o new r d)).calls = [] ∧ (apply preview prov (.update old new)).calls = [] ∧
    (apply preview prov (.delete old r)).calls = [] ∧ (apply preview prov (.refresh old)).calls = [] := by
  refine ⟨by simp [apply, applyCreate, hn], by simp [apply, applyUpdate, hn], ?_, by simp [apply, applyRefresh, ho]⟩
  rw [delete_asks, if_neg]
  simp [ho]

/-! ## What becomes of the states -/

/-- **What is the same keeps its id and its outputs**, and the rest of its state is the one registered now -/
theorem same_keeps (preview : Bool) (prov : Except String Provider) (old new : State) :
    (apply preview prov (.same old new)).calls = [] ∧ (apply preview prov (.same old new)).err = none ∧
    (apply preview prov (.same old new)).new = some { new with id := old.id, outputs := old.outputs } ∧
    (apply preview prov (.same old new)).old = some old :=
  ⟨rfl, rfl, rfl, rfl⟩

/-- the answer of a provider leaves a resource behind: no error, or a partial failure -/
def Answer.exists_ (a : Answer) : Prop := a.err = none ∨ a.status = .partialFailure

theorem failed_iff (a : Answer) : a.failed = false ↔ a.exists_ := by
  unfold Answer.failed Answer.exists_
  cases a.err <;> simp

/-- **A resource that was created is known by its id**: if the provider created it, perhaps with errors in its initialisation,
and gave an id, the new state has that id and the outputs given, the reasons of the failure are noted in it, the error is
passed on, and the step is not taken for a failure. -/
theorem created {preview : Bool} {p : Provider} {old : Option State} {new : State} {r d : Bool} (hc : new.custom = true)
    (he : (p (.create new.urn new.inputs preview)).exists_) (hid : preview = true ∨ (p (.create new.urn new.inputs preview)).id ≠ "") :
    ∃ n, (apply preview (.ok p) (.create old new r d)).new = some n ∧
      n.id = (p (.create new.urn new.inputs preview)).id ∧
      n.outputs = (p (.create new.urn new.inputs preview)).outputs.getD [] ∧
      n.inputs = new.inputs ∧ n.urn = new.urn ∧
      (∀ reasons, (p (.create new.urn new.inputs preview)).err = some (.init reasons) → n.initErrors = reasons) ∧
      (apply preview (.ok p) (.create old new r d)).err = (p (.create new.urn new.inputs preview)).err ∧
      (apply preview (.ok p) (.create old new r d)).completes = true := by
  have hf := (failed_iff _).mpr he
  have hid' : (!preview && (p (.create new.urn new.inputs preview)).id == "") = false := by
    rcases hid with h | h
    · simp [h]
    · simp [h]
  simp only [apply, applyCreate, hc, if_true, hf, hid', Bool.false_eq_true, if_false]
  refine ⟨_, rfl, rfl, rfl, ?_, ?_, ?_, trivial, trivial⟩
  · cases h : (p (.create new.urn new.inputs preview)).err with
    | none => rfl
    | some e => cases e <;> rfl
  · cases h : (p (.create new.urn new.inputs preview)).err with
    | none => rfl
    | some e => cases e <;> rfl
  · intro reasons hr
    rw [hr]
    rfl

/-- **What was created has an id**: a custom resource whose creation ended without error, not in a preview, has one. -/
theorem created_has_id {prov : Except String Provider} {old : Option State} {new n : State} {r d : Bool} (hc : new.custom = true)
    (he : (apply false prov (.create old new r d)).err = none) (hn : (apply false prov (.create old new r d)).new = some n) :
    n.id ≠ "" := by
  simp only [apply, applyCreate, hc, if_true] at he hn
  cases prov with
  | error m => cases he
  | ok p =>
    simp only at he hn
    split at he
    · rename_i hf
      simp only at he
      rw [Answer.failed, he] at hf
      simp at hf
    · rename_i hf
      rw [if_neg hf] at hn
      split at he
      · cases he
      · rename_i hid
        rw [if_neg hid] at hn
        cases hn
        simpa using hid

/-- **A replaced resource is marked for deletion exactly if its replacement exists**: the old state of a replacement is as
before where the creation failed, and where it did not the only change is the mark. -/
theorem replaced_marked (preview : Bool) (prov : Except String Provider) (o new : State) (r d : Bool) :
    (apply preview prov (.create (some o) new r d)).old =
      some (if (apply preview prov (.create (some o) new r d)).completes && r && d then { o with delete := true } else o) := by
  simp only [apply, applyCreate]
  split
  · cases prov with
    | error m => rfl
    | ok p =>
      simp only
      split
      · rfl
      · split
        · rfl
        · simp only [pended, Bool.true_and]
          split <;> rfl
  · simp only [pended, Bool.true_and]
    split <;> rfl

/-- the same for what is read in place of it -/
theorem read_marked (preview : Bool) (prov : Except String Provider) (o new : State) (r : Bool) :
    (apply preview prov (.read (some o) new r)).old =
      some (if (apply preview prov (.read (some o) new r)).completes && r then { o with delete := true } else o) := by
  simp only [apply, applyRead]
  split
  · cases r <;> rfl
  · cases prov with
    | error m => rfl
    | ok p =>
      simp only
      split
      · rfl
      · split
        · rfl
        · cases r <;> rfl

/-- **An update keeps the id**, and asks the provider with the old outputs and the new inputs -/
theorem update_keeps_id (preview : Bool) (prov : Except String Provider) (old new : State) :
    (∃ n, (apply preview prov (.update old new)).new = some n ∧ n.id = old.id ∧ n.inputs = new.inputs) ∧
    (∀ c ∈ (apply preview prov (.update old new)).calls, c = .update new.urn old.id old.outputs new.inputs preview) := by
  simp only [apply, applyUpdate]
  split
  · cases prov with
    | error m => exact ⟨⟨_, rfl, rfl, rfl⟩, by simp⟩
    | ok p =>
      simp only
      split
      · exact ⟨⟨_, rfl, rfl, rfl⟩, by simp⟩
      · refine ⟨⟨_, rfl, ?_, ?_⟩, by simp⟩
        · cases h : (p (.update new.urn old.id old.outputs new.inputs preview)).err with
          | none => rfl
          | some e => cases e <;> rfl
        · cases h : (p (.update new.urn old.id old.outputs new.inputs preview)).err with
          | none => rfl
          | some e => cases e <;> rfl
  · exact ⟨⟨_, rfl, rfl, rfl⟩, by simp⟩

/-- **What an update leaves**: if the provider updated the resource, perhaps only in part, the new state has the outputs it
gave and the reasons of the failure, and the error is passed on. -/
theorem updated {preview : Bool} {p : Provider} {old new : State} (hc : new.custom = true)
    (he : (p (.update new.urn old.id old.outputs new.inputs preview)).exists_) :
    ∃ n, (apply preview (.ok p) (.update old new)).new = some n ∧
      n.outputs = (p (.update new.urn old.id old.outputs new.inputs preview)).outputs.getD [] ∧ n.urn = new.urn ∧
      (∀ reasons, (p (.update new.urn old.id old.outputs new.inputs preview)).err = some (.init reasons) → n.initErrors = reasons) ∧
      (apply preview (.ok p) (.update old new)).err = (p (.update new.urn old.id old.outputs new.inputs preview)).err ∧
      ((apply preview (.ok p) (.update old new)).status = .partialFailure ↔
        (p (.update new.urn old.id old.outputs new.inputs preview)).err ≠ none) ∧
      (apply preview (.ok p) (.update old new)).completes = true := by
  have hf := (failed_iff _).mpr he
  simp only [apply, applyUpdate, hc, if_true, hf, Bool.false_eq_true, if_false]
  refine ⟨_, rfl, rfl, ?_, ?_, trivial, ?_, trivial⟩
  · cases h : (p (.update new.urn old.id old.outputs new.inputs preview)).err with
    | none => rfl
    | some e => cases e <;> rfl
  · intro reasons hr
    rw [hr]
    rfl
  · unfold Answer.kept
    rcases he with he | he
    · simp [he]
    · cases h : (p (.update new.urn old.id old.outputs new.inputs preview)).err <;> simp [he]

/-- **A step whose provider failed is a failure**: the error and the status are the provider's, the program is told nothing -/
theorem failure_passed {preview : Bool} {p : Provider} {s : Step} {c : Call} (hc : (apply preview (.ok p) s).calls = [c])
    (he : ¬ (p c).exists_) :
    (apply preview (.ok p) s).err = (p c).err ∧ (apply preview (.ok p) s).err ≠ none ∧
    (apply preview (.ok p) s).status = (p c).status ∧ (apply preview (.ok p) s).completes = false := by
  have hf : (p c).failed = true := by
    cases h : (p c).failed with
    | true => rfl
    | false => exact absurd ((failed_iff _).mp h) he
  have hne : (p c).err ≠ none := fun h => he (Or.inl h)
  cases s with
  | same => simp [apply, applySame] at hc
  | create old new r d =>
    simp only [apply, applyCreate] at hc ⊢
    split at hc
    · rename_i hcu
      rw [if_pos hcu]
      have : c = .create new.urn new.inputs preview := by
        split at hc
        · simpa using hc.symm
        · split at hc <;> simpa using hc.symm
      subst this
      rw [if_pos hf]
      exact ⟨rfl, hne, rfl, rfl⟩
    · simp at hc
  | delete old r =>
    have hd := hc
    rw [delete_asks] at hd
    split at hd
    · rename_i h
      obtain ⟨h1, h2, h3, h4, h5, _⟩ := h
      have hcc : Call.delete old.urn old.id old.outputs = c := by simpa using hd
      subst hcc
      have hp : (!r && old.protect) = false := by
        cases hr : r <;> cases hp : old.protect <;> simp_all
      simp only [apply, applyDelete, hp, h1, h2, h3, h4, Bool.false_eq_true, if_false, if_true]
      cases h : (p (.delete old.urn old.id old.outputs)).err with
      | none => exact absurd h hne
      | some e => exact ⟨rfl, by simp, rfl, rfl⟩
    · cases hd
  | removePendingReplace => simp [apply] at hc
  | update old new =>
    simp only [apply, applyUpdate] at hc ⊢
    split at hc
    · rename_i hcu
      rw [if_pos hcu]
      have : c = .update new.urn old.id old.outputs new.inputs preview := by
        split at hc <;> simpa using hc.symm
      subst this
      rw [if_pos hf]
      exact ⟨rfl, hne, rfl, rfl⟩
    · simp at hc
  | replace => simp [apply] at hc
  | read old new r =>
    simp only [apply, applyRead] at hc ⊢
    split at hc
    · simp at hc
    · rename_i hcu
      rw [if_neg hcu]
      have : c = .read new.urn new.id [] new.inputs := by
        split at hc
        · simpa using hc.symm
        · split at hc <;> simpa using hc.symm
      subst this
      rw [if_pos hf]
      exact ⟨rfl, hne, rfl, rfl⟩
  | refresh old =>
    simp only [apply, applyRefresh] at hc ⊢
    split at hc
    · simp at hc
    · rename_i hcu
      rw [if_neg hcu]
      have : c = .read old.urn old.id old.inputs old.outputs := by
        split at hc <;> simpa using hc.symm
      subst this
      rw [if_pos hf]
      exact ⟨rfl, hne, rfl, rfl⟩

/-- **What is read is there**: a read that gives a state without an error has the id asked for or the one the provider gave, and
the outputs the provider gave; an unknown id is not read. -/
theorem read_exists {preview : Bool} {p : Provider} {old : Option State} {new n : State} {r : Bool} (hid : new.id ≠ unknownID)
    (hd : (apply preview (.ok p) (.read old new r)).completes = true) (hn : (apply preview (.ok p) (.read old new r)).new = some n) :
    (p (.read new.urn new.id [] new.inputs)).outputs = some n.outputs ∧
    n.id = (if (p (.read new.urn new.id [] new.inputs)).id = "" then new.id else (p (.read new.urn new.id [] new.inputs)).id) := by
  simp only [apply, applyRead, if_neg hid] at hd hn
  split at hd
  · cases hd
  · rename_i hf
    rw [if_neg hf] at hn
    split at hd
    · cases hd
    · rename_i outs ho
      rw [ho] at hn
      cases hn
      exact ⟨ho, rfl⟩

/-- **A refresh changes nothing but id, inputs, outputs and initialisation errors**, and the old state not at all -/
theorem refresh_keeps {preview : Bool} {prov : Except String Provider} {old n : State}
    (hn : (apply preview prov (.refresh old)).new = some n) :
    { n with id := old.id, inputs := old.inputs, outputs := old.outputs, initErrors := old.initErrors } = old ∧
    (apply preview prov (.refresh old)).old = some old := by
  simp only [apply, applyRefresh] at hn ⊢
  split at hn
  · rename_i h
    cases hn
    exact ⟨rfl, by rw [if_pos h]⟩
  · rename_i h
    rw [if_neg h]
    cases prov with
    | error m => cases hn; exact ⟨rfl, rfl⟩
    | ok p =>
      simp only at hn ⊢
      split at hn
      · rename_i h2
        cases hn
        exact ⟨rfl, by rw [if_pos h2]⟩
      · rename_i h2
        rw [if_neg h2]
        rw [Option.map_eq_some_iff] at hn
        obtain ⟨outs, _, hn⟩ := hn
        subst hn
        exact ⟨rfl, rfl⟩

/-- **A refresh drops a resource exactly if its provider was asked and answered, without failing, that there is nothing**: never
components, providers or what waits for its replacement, and not because of a failure. -/
theorem refresh_drops_iff (preview : Bool) (prov : Except String Provider) (old : State) :
    (apply preview prov (.refresh old)).new = none ↔
      old.custom = true ∧ old.provider = false ∧ old.pendingReplacement = false ∧
      ∃ p, prov = .ok p ∧ (p (.read old.urn old.id old.inputs old.outputs)).exists_ ∧
        (p (.read old.urn old.id old.inputs old.outputs)).outputs = none := by
  simp only [apply, applyRefresh]
  split
  · rename_i h
    simp only [Bool.or_eq_true, Bool.not_eq_true'] at h
    constructor
    · intro hh; cases hh
    · rintro ⟨h1, h2, h3, _⟩
      rcases h with (h | h) | h <;> simp_all
  · rename_i h
    have h' : old.custom = true ∧ old.provider = false ∧ old.pendingReplacement = false := by
      cases h1 : old.custom <;> cases h2 : old.provider <;> cases h3 : old.pendingReplacement <;> simp_all
    cases prov with
    | error m =>
      constructor
      · intro hh; cases hh
      · rintro ⟨_, _, _, p, hp, _⟩; cases hp
    | ok p =>
      simp only
      split
      · rename_i hf
        constructor
        · intro hh; cases hh
        · rintro ⟨_, _, _, q, hq, he, _⟩
          cases hq
          rw [(failed_iff _).mpr he] at hf
          cases hf
      · rename_i hf
        have he := (failed_iff _).mp (by simpa using hf)
        constructor
        · intro hh
          rw [Option.map_eq_none_iff] at hh
          exact ⟨h'.1, h'.2.1, h'.2.2, p, rfl, he, hh⟩
        · rintro ⟨_, _, _, q, hq, _, ho⟩
          cases hq
          rw [ho]
          rfl

/-- **A resource that is there but not healthy does not fail a refresh**: its errors are noted in the state. -/
theorem refresh_unhealthy {preview : Bool} {p : Provider} {old : State} {reasons : List String} {outs : Props}
    (hc : old.custom = true) (hp : old.provider = false) (hr : old.pendingReplacement = false)
    (ha : (p (.read old.urn old.id old.inputs old.outputs)).err = some (.init reasons))
    (hs : (p (.read old.urn old.id old.inputs old.outputs)).status = .partialFailure)
    (ho : (p (.read old.urn old.id old.inputs old.outputs)).outputs = some outs) :
    (apply preview (.ok p) (.refresh old)).err = none ∧
    ∃ n, (apply preview (.ok p) (.refresh old)).new = some n ∧ n.initErrors = reasons ∧ n.outputs = outs := by
  have hf : (p (.read old.urn old.id old.inputs old.outputs)).failed = false := (failed_iff _).mpr (Or.inr hs)
  simp only [apply, applyRefresh, hc, hp, hr, Bool.not_true, Bool.or_self, Bool.false_eq_true, if_false, hf, ha, ho]
  exact ⟨trivial, _, rfl, rfl, rfl⟩

/-- **What a refresh finds is what the state becomes**: the outputs read, the id and inputs read where there are any, and no
errors of initialisation if the provider reports none. -/
theorem refreshed {preview : Bool} {p : Provider} {old : State} {outs : Props}
    (hc : old.custom = true) (hp : old.provider = false) (hr : old.pendingReplacement = false)
    (ha : (p (.read old.urn old.id old.inputs old.outputs)).err = none)
    (ho : (p (.read old.urn old.id old.inputs old.outputs)).outputs = some outs) :
    (apply preview (.ok p) (.refresh old)).err = none ∧
    ∃ n, (apply preview (.ok p) (.refresh old)).new = some n ∧ n.outputs = outs ∧ n.initErrors = [] ∧
      n.id = (if (p (.read old.urn old.id old.inputs old.outputs)).id = "" then old.id
        else (p (.read old.urn old.id old.inputs old.outputs)).id) ∧
      n.inputs = (match (p (.read old.urn old.id old.inputs old.outputs)).inputs with | some i => i | none => old.inputs) := by
  have hf : (p (.read old.urn old.id old.inputs old.outputs)).failed = false := (failed_iff _).mpr (Or.inl ha)
  simp only [apply, applyRefresh, hc, hp, hr, Bool.not_true, Bool.or_self, Bool.false_eq_true, if_false, hf, ha, ho]
  refine ⟨trivial, _, rfl, rfl, rfl, rfl, ?_⟩
  cases (p (.read old.urn old.id old.inputs old.outputs)).inputs <;> rfl

/-! ## Cases -/

def bucket : State := { urn := "bucket", id := "b-1", outputs := [("size", .plain "3")], secretOutputs := ["key", "id"] }

def cloud : Provider := fun c =>
  match c with
  | .create _ i _ => { id := "b-2", outputs := some (("key", .plain "k") :: i) }
  | .update _ _ _ n _ => { outputs := some n, status := .partialFailure, err := some (.init ["not ready"]) }
  | .delete .. => {}
  | .read .. => { outputs := none }

example : (apply false (.ok cloud) (.delete bucket false)).calls = [.delete "bucket" "b-1" [("size", .plain "3")]] := by decide
example : (apply true (.ok cloud) (.delete bucket false)).calls = [] := by decide
example : (apply false (.ok cloud) (.refresh bucket)).new = none := by decide
example : (cloud (.create "bucket" [] false)).exists_ ∧ (cloud (.create "bucket" [] false)).id ≠ "" := ⟨Or.inl rfl, by decide⟩
example : (apply false (.ok cloud) (.create (some bucket) { urn := "bucket" } true true)).old = some { bucket with delete := true } := by
  decide

end Pulumi.Steps
