import Verif.StepGen.Order
/-!
# What a registration does, given what the provider says
-/
namespace Pulumi.StepGen
open Pulumi.Snapshot (State Provider Ref)
open Pulumi.DepGraph (oldOf)
open Pulumi.Paths (DiffResult applyReplaceOnChanges)

/-- A registration that nothing keeps from being made: its parent is there, its URN is new, its `ignoreChanges` apply, its provider is
there and accepts its inputs, no policy objects, it is not an import, has no aliases and depends on nothing that was skipped. -/
structure Accepted (o : Opts) (st : St) (g : Reg) (urn parent : String) : Prop where
  parentOk : checkParent o st g.parent g.type = .ok parent
  named : urn = o.urnOf parent g.type g.name
  fresh : urn ∉ st.seen.urns
  ignore : g.ignoreFails = none
  load : g.load = .ok true
  check : g.check = .ok false
  policy : g.policy = .ok false
  id : g.id = ""
  aliases : g.aliases = []
  deps : ∀ d ∈ g.deps, d ∉ st.skipped
  kept : urn ∉ st.deletes

/-- Nothing is a target, or the resource is one. -/
def Wanted (st : St) (urn : String) : Prop := st.targets = none ∨ ∃ ts, st.targets = some ts ∧ urn ∈ ts

theorem wanted_targeted {o : Opts} {st : St} {urn parent : String} {deps : List String} {provider : Provider} (h : Wanted st urn) :
    isTargeted o st urn parent deps provider = some true := by
  unfold isTargeted
  rcases h with h | ⟨ts, h, hu⟩
  · rw [h]
  · rw [h]; simp [hu]

theorem accepted_steps {p : Prev} {o : Opts} {st : St} {g : Reg} {urn parent : String} (h : Accepted o st g urn parent) :
    generateSteps p o st g = chooseSteps p o (withUrn st urn) g urn parent (oldFor p urn []) true := by
  unfold generateSteps
  rw [h.parentOk]
  simp only
  have hu : generateURN o st parent g.type g.name = some (urn, withUrn st urn) := by
    unfold generateURN
    simp only
    rw [← h.named, if_neg h.fresh]
    rfl
  rw [hu]
  simp only
  unfold settled
  have hlk : (noteAlias (withUrn st urn) urn (findOld p (urn :: g.aliases))).1 = withUrn st urn := lookedUp_direct p _ g urn h.aliases
  have htk : (noteAlias (withUrn st urn) urn (findOld p (urn :: g.aliases))).2 = false := by
    rw [h.aliases]
    unfold noteAlias
    split
    · rfl
    · next u i hf =>
      have := (findOld_some p _ u i hf).1
      rw [List.mem_singleton] at this
      rw [if_pos this]
  have himp : ∀ old, isImport p g old = false := by
    intro old; unfold isImport; simp [h.id]
  simp only [h.ignore, h.load, himp, h.check, h.policy, htk, hlk]
  rw [h.aliases]
  simp [oldFor, withUrn]

theorem checked_of_steps {p : Prev} {o : Opts} {st st' : St} {g : Reg} {l : List Step}
    (h : generateSteps p o st g = .steps l st') (hd : ∀ d ∈ g.deps, d ∉ st'.skipped) :
    handle p o st (.register g) = .steps l st' := by
  change generateStepsChecked p o st g = _
  unfold generateStepsChecked
  rw [h]
  simp only
  rw [if_neg]
  intro hc
  simp only [Bool.and_eq_true, List.any_eq_true, decide_eq_true_eq] at hc
  obtain ⟨_, d, hd1, hd2⟩ := hc
  exact hd d hd1 hd2

/-- C163: a resource the checkpoint does not have is created. -/
theorem new_resources_are_created (p : Prev) (o : Opts) (st : St) (g : Reg) (urn parent : String)
    (h : Accepted o st g urn parent) (hw : Wanted st urn) (hold : oldOf p.rs urn = none) :
    ∃ st', handle p o st (.register g) = .steps [.create urn] st' := by
  have hs := accepted_steps (p := p) h
  rw [(oldFor_direct_none p urn).mpr hold] at hs
  unfold chooseSteps at hs
  rw [if_neg (show urn ∉ (withUrn st urn).deletes from h.kept)] at hs
  have ht : isTargeted o (withUrn st urn) urn parent g.deps g.provider = some true := wanted_targeted hw
  simp only [ht] at hs
  exact ⟨_, checked_of_steps hs h.deps⟩

/-- The provider's answer about a resource the checkpoint has, after `replaceOnChanges`. -/
structure Diffing (p : Prev) (o : Opts) (st : St) (g : Reg) (urn : String) (i : Nat) (s : State) (d : DiffResult) : Prop where
  old : oldOf p.rs urn = some i
  get : p.rs[i]? = some s
  own : s.external = false
  unmarked : isDelete p st i = false
  free : isTargetedReplace o urn = false
  diff : ∃ d₀, g.diff = .diff d₀ ∧ d₀.changes ≠ .unknown ∧ applyReplaceOnChanges d₀ g.replaceOnChanges (p.initErrors i) = .ok d

theorem diffing_steps {p : Prev} {o : Opts} {st : St} {g : Reg} {urn parent : String} {i : Nat} {s : State} {d : DiffResult}
    (h : Accepted o st g urn parent) (hw : Wanted st urn) (hd : Diffing p o st g urn i s d) :
    generateSteps p o st g =
      match stepsFromDiff p o (addTarget (withUrn st urn) urn true) g urn i s true with
      | .steps [] st' => sameStep p st' urn i
      | r => r := by
  rw [accepted_steps (p := p) h, (oldFor_direct_some p urn i s).mpr ⟨hd.old, hd.get⟩]
  unfold chooseSteps
  rw [if_neg (show urn ∉ (withUrn st urn).deletes from h.kept)]
  have ht : isTargeted o (withUrn st urn) urn parent g.deps g.provider = some true := wanted_targeted hw
  simp only [ht, hd.own]
  rfl

theorem diffing_answer {p : Prev} {o : Opts} {st st₁ : St} {g : Reg} {urn : String} {i : Nat} {s : State} {d : DiffResult}
    (hd : Diffing p o st g urn i s d) (hid : g.id = "") (hs1 : st₁.superseded = st.superseded)
    (hre : d.changes = .some → d.replace = true → g.recheck = .ok false) :
    stepsFromDiff p o st₁ g urn i s true =
      if d.changes = .some then
        if d.replace then
          if g.protect && s.protect then .bail
          else replaceSteps p o { st₁ with seen := { st₁.seen with replaces := urn :: st₁.seen.replaces } } urn i
            (g.deleteBeforeReplace.getD d.deleteBeforeReplace)
        else .steps [.update i urn] { st₁ with seen := { st₁.seen with updates := urn :: st₁.seen.updates } }
      else if p.initErrors i then .steps [.update i urn] { st₁ with seen := { st₁.seen with updates := urn :: st₁.seen.updates } }
      else .steps [] st₁ := by
  obtain ⟨d₀, h1, h2, h3⟩ := hd.diff
  have hda : diffAnswer (diffOf o urn g) = .ok d₀ := by unfold diffOf; rw [hd.free, h1]; rfl
  have hx : isDelete p st₁ i = false := by
    have := hd.unmarked
    unfold isDelete at this ⊢
    rw [hs1]; exact this
  unfold stepsFromDiff
  rw [hda]
  simp only
  rw [if_neg h2, h3]
  by_cases hc : d.changes = .some
  · by_cases hr : d.replace = true
    · simp only [hid, hre hc hr, hd.free, hx]
      simp
    · simp [hx, hr]
  · simp [hx, hc]

/-- C163: a resource without changes is left as it is, unless its creation did not finish before. -/
theorem unchanged_resources_stay (p : Prev) (o : Opts) (st : St) (g : Reg) (urn parent : String) (i : Nat) (s : State)
    (d : DiffResult) (h : Accepted o st g urn parent) (hw : Wanted st urn) (hd : Diffing p o st g urn i s d)
    (hc : d.changes ≠ .some) (hi : p.initErrors i = false) :
    ∃ st', handle p o st (.register g) = .steps [.same i urn] st' := by
  have hs := diffing_steps h hw hd
  rw [diffing_answer (st₁ := addTarget (withUrn st urn) urn true) hd h.id rfl (fun hx => absurd hx hc), if_neg hc, hi] at hs
  have hx : isDelete p (addTarget (withUrn st urn) urn true) i = false := hd.unmarked
  simp only [Bool.false_eq_true, if_false] at hs
  unfold sameStep at hs
  rw [hx] at hs
  exact ⟨_, checked_of_steps hs h.deps⟩

/-- C163: a resource with changes none of which calls for a replacement is updated, and so is one whose creation did not finish. -/
theorem changed_resources_are_updated (p : Prev) (o : Opts) (st : St) (g : Reg) (urn parent : String) (i : Nat) (s : State)
    (d : DiffResult) (h : Accepted o st g urn parent) (hw : Wanted st urn) (hd : Diffing p o st g urn i s d)
    (hc : d.changes = .some ∧ d.replace = false ∨ d.changes ≠ .some ∧ p.initErrors i = true) :
    ∃ st', handle p o st (.register g) = .steps [.update i urn] st' := by
  have hs := diffing_steps h hw hd
  rw [diffing_answer (st₁ := addTarget (withUrn st urn) urn true) hd h.id rfl (fun h1 h2 => by rcases hc with ⟨_, hr⟩ | ⟨hr, _⟩ <;> simp_all)] at hs
  rcases hc with ⟨hc, hr⟩ | ⟨hc, hi⟩
  · rw [if_pos hc, hr] at hs
    exact ⟨_, checked_of_steps hs h.deps⟩
  · rw [if_neg hc, hi] at hs
    exact ⟨_, checked_of_steps hs h.deps⟩

/-- C163: a resource with a change that calls for a replacement is replaced, unless both the checkpoint and the program protect it:
the new one is created first, unless the program or else the provider wants the old one to be deleted first. Then what must be deleted
with it goes before it. -/
theorem replaced_resources_are_replaced (p : Prev) (o : Opts) (st : St) (g : Reg) (urn parent : String) (i : Nat) (s : State)
    (d : DiffResult) (h : Accepted o st g urn parent) (hw : Wanted st urn) (hd : Diffing p o st g urn i s d)
    (hre : g.recheck = .ok false) (hc : d.changes = .some) (hr : d.replace = true) :
    ((g.protect = true ∧ s.protect = true) → handle p o st (.register g) = .bail) ∧
    (¬ (g.protect = true ∧ s.protect = true) → g.deleteBeforeReplace.getD d.deleteBeforeReplace = false →
      ∃ st', handle p o st (.register g) = .steps [.createReplacement i urn true, .replace i urn true] st') ∧
    (¬ (g.protect = true ∧ s.protect = true) → g.deleteBeforeReplace.getD d.deleteBeforeReplace = true → ∀ l st',
      handle p o st (.register g) = .steps l st' → ∃ is : List Nat, l = is.map (fun j => Step.deleteReplacement j true) ++
        [.deleteReplacement i true, .replace i urn false, .createReplacement i urn false]) := by
  have hs := diffing_steps h hw hd
  rw [diffing_answer (st₁ := addTarget (withUrn st urn) urn true) hd h.id rfl (fun _ _ => hre), if_pos hc, if_pos hr] at hs
  refine ⟨fun hp => ?_, fun hp hb => ?_, fun hp hb l st' hl => ?_⟩
  · rw [if_pos (by rw [hp.1, hp.2]; rfl)] at hs
    change generateStepsChecked p o st g = _
    unfold generateStepsChecked
    rw [hs]
  · rw [if_neg (by simpa using hp), hb] at hs
    unfold replaceSteps at hs
    rw [if_neg (by simp)] at hs
    have hx' : isDelete p { addTarget (withUrn st urn) urn true with
        seen := { (addTarget (withUrn st urn) urn true).seen with
          replaces := urn :: (addTarget (withUrn st urn) urn true).seen.replaces } } i = false := hd.unmarked
    rw [hx'] at hs
    exact ⟨_, checked_of_steps hs h.deps⟩
  · rw [if_neg (by simpa using hp), hb] at hs
    obtain ⟨st₀, hgs, _⟩ := checked_steps p o st g l st' hl
    rw [hgs] at hs
    unfold replaceSteps at hs
    rw [if_pos rfl] at hs
    generalize hcd : condemnDependents p o _ i = r at hs
    cases r with
    | none => cases hs
    | some r =>
      cases r with
      | error e => cases hs
      | ok x =>
        obtain ⟨l', s₂⟩ := x
        obtain ⟨_, cond, hq⟩ := condemnDependents_shape _ _ _ _ _ _ hcd
        simp only at hs
        by_cases hxx : isDelete p s₂ i = true
        · rw [if_pos hxx] at hs; cases hs
        · rw [if_neg hxx] at hs
          split at hs
          · next heq =>
            injection heq with heq _
            simp at heq
          · injection hs with hs _
            exact ⟨cond, by rw [hs, hq.steps]⟩

/-- C164: a resource's parent was registered before it, and the stack has no parent. -/
theorem parents_come_first (p : Prev) (o : Opts) (st : St) (g : Reg) (l : List Step) (st' : St)
    (h : handle p o st (.register g) = .steps l st') :
    (g.type ≠ o.rootType → g.parent ≠ "" → g.parent ∈ st.seen.urns) ∧ (g.type = o.rootType → g.parent = "") := by
  obtain ⟨urn, parent, e1, _⟩ := register_outcome p o st g l st' h
  unfold checkParent at e1
  refine ⟨fun h1 h2 => ?_, fun h1 => ?_⟩
  · rw [if_neg h1, if_pos h2] at e1
    split at e1
    · assumption
    · cases e1
  · rw [if_pos h1] at e1
    split at e1
    · cases e1
    · next hx => exact Classical.byContradiction (fun hne => hx hne)

/-- C164: and so was the parent of a resource that is read. -/
theorem parents_come_before_reads (p : Prev) (o : Opts) (st : St) (r : Rd) (l : List Step) (st' : St)
    (h : handle p o st (.read r) = .steps l st') :
    (r.type ≠ o.rootType → r.parent ≠ "" → r.parent ∈ st.seen.urns) ∧ (r.type = o.rootType → r.parent = "") := by
  change generateReadSteps p o st r = _ at h
  unfold generateReadSteps at h
  cases e1 : checkParent o st r.parent r.type with
  | error e => rw [e1] at h; cases h
  | ok parent =>
    unfold checkParent at e1
    refine ⟨fun h1 h2 => ?_, fun h1 => ?_⟩
    · rw [if_neg h1, if_pos h2] at e1
      split at e1
      · assumption
      · cases e1
    · rw [if_pos h1] at e1
      split at e1
      · cases e1
      · next hx => exact Classical.byContradiction (fun hne => hx hne)

/-! ### Registrations that meet the hypotheses -/

/-- A program that has registered the stack -/
def atStart : St := { initial (prevOf []) none with seen := { (initial (prevOf []) none).seen with urns := ["app"] } }

example (diff : Diffed) : Accepted plainOpts atStart (reg "db" diff) "db" "" :=
  ⟨rfl, rfl, by decide +kernel, rfl, rfl, rfl, rfl, rfl, rfl, by intro d hd; simp [reg] at hd, by decide +kernel⟩

theorem shop_diffing (c : Paths.Changes) (hc : c = .some ∨ c = .none) (r dbr : Bool) (d : DiffResult)
    (hd : ∃ d₀, answer c r dbr = .diff d₀ ∧ applyReplaceOnChanges d₀ [] false = .ok d) :
    Diffing (prevOf [res "db"]) plainOpts atStart (reg "db" (answer c r dbr)) "db" 0 (res "db") d := by
  obtain ⟨d₀, h1, h2⟩ := hd
  refine ⟨by decide +kernel, rfl, rfl, by decide +kernel, by decide +kernel, d₀, h1, ?_, h2⟩
  unfold answer at h1
  injection h1 with h1
  rw [← h1]
  rcases hc with rfl | rfl <;> simp

example : ∃ st', handle (prevOf [res "db"]) plainOpts atStart (.register (reg "db" (answer .none false false))) =
    .steps [.same 0 "db"] st' :=
  unchanged_resources_stay _ _ _ _ "db" "" 0 (res "db") _
    ⟨rfl, rfl, by decide +kernel, rfl, rfl, rfl, rfl, rfl, rfl, by intro d hd; simp [reg] at hd, by decide +kernel⟩ (Or.inl rfl)
    (shop_diffing .none (Or.inr rfl) false false _ ⟨_, rfl, rfl⟩) (by decide) rfl

example : ∃ st', handle (prevOf [res "db"]) plainOpts atStart (.register (reg "db" (answer .some false false))) =
    .steps [.update 0 "db"] st' :=
  changed_resources_are_updated _ _ _ _ "db" "" 0 (res "db") _
    ⟨rfl, rfl, by decide +kernel, rfl, rfl, rfl, rfl, rfl, rfl, by intro d hd; simp [reg] at hd, by decide +kernel⟩ (Or.inl rfl)
    (shop_diffing .some (Or.inl rfl) false false _ ⟨_, rfl, rfl⟩) (Or.inl ⟨by decide +kernel, by decide +kernel⟩)

example : ∃ st', handle (prevOf [res "db"]) plainOpts atStart (.register (reg "db" (answer .some true false))) =
    .steps [.createReplacement 0 "db" true, .replace 0 "db" true] st' :=
  (replaced_resources_are_replaced _ _ _ _ "db" "" 0 (res "db") _
    ⟨rfl, rfl, by decide +kernel, rfl, rfl, rfl, rfl, rfl, rfl, by intro d hd; simp [reg] at hd, by decide +kernel⟩ (Or.inl rfl)
    (shop_diffing .some (Or.inl rfl) true false _ ⟨_, rfl, rfl⟩) rfl (by decide +kernel) (by decide +kernel)).2.1
    (by decide) (by decide +kernel)

example : ∃ st', handle (prevOf []) plainOpts atStart (.register (reg "db")) = .steps [.create "db"] st' :=
  new_resources_are_created _ _ _ _ "db" ""
    ⟨rfl, rfl, by decide +kernel, rfl, rfl, rfl, rfl, rfl, rfl, by intro d hd; simp [reg] at hd, by decide +kernel⟩ (Or.inl rfl)
    (by decide +kernel)

/-- A component's child is registered after it, and not before it. -/
example : (∃ l st', handle (prevOf []) plainOpts atStart (.register { reg "db" with parent := "app" }) = .steps l st') ∧
    handle (prevOf []) plainOpts (initial (prevOf []) none) (.register { reg "db" with parent := "app" }) =
      .error "could not find parent resource" := ⟨⟨[.create "db"], _, rfl⟩, rfl⟩

end Pulumi.StepGen
