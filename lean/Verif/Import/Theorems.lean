import Verif.Import.Lemmas
import Verif.Snapshot.IntegrityDecide
/-!
# Imports keep what there is and add what was asked for (C204)
-/
namespace Pulumi.Import
open Pulumi.Snapshot (State Provider Ref Env Intact IntactFrom Backed Provides intact_iff intactFrom_iff)

/-! ## What is said about it -/

/-- Where the resource of an import goes: below the parent it names, or else below the stack -/
def parentOf (stackUrn : String) (i : Import) : String := if i.parent = "" then stackUrn else i.parent

/-- The URN of the stack: of the one that there is, or of the one that is made -/
def World.theStack (W : World) (prev : List State) : String := (W.findStack prev).getD W.stackUrn

/-- The URN of the provider of an import: the one it names, or else the default provider of its package -/
def World.provOf (W : World) (i : Import) : String := if i.provider = "" then W.provUrn ⟨i.version, W.pkg i.type, i.url⟩ else i.provider

/-- A default provider that an import needs and that is not there: one that the plugin has made -/
def NewProvider (W : World) (prev : List State) (imps : List Import) (s : State) : Prop :=
  ∃ i ∈ imps, ∃ inputs id outs, i.provider = "" ∧ W.provInputs ⟨i.version, W.pkg i.type, i.url⟩ = some inputs ∧ W.create (W.provOf i) = some (id, outs) ∧ id ≠ "" ∧
    (∀ x ∈ prev, x.delete = false → x.urn ≠ W.provOf i) ∧
    s = { type := W.provType (W.pkg i.type), urn := W.provOf i, custom := true, delete := false, id := id, inputs := inputs, outputs := outs, parent := "", protect := false,
          external := false, deps := [], provider := .none, propDeps := [], pendingReplacement := false, aliases := [], timeouts := "", retainOnDelete := false, rest := "" }

/-- The resource of an import: the one that the provider has read, with its outputs and inputs, or those of the inputs that were asked for -/
def Imported (W : World) (prev saved : List State) (imps : List Import) (i : Import) (s : State) : Prop :=
  ∃ (r : Ref) (rd : Read) (ins outs : String) (p : List String), r.urn = W.provOf i ∧ (∃ x ∈ saved, Provides W.env x r) ∧
    W.read r (W.urn (parentOf (W.theStack prev) i) i.type i.name) i.id = some rd ∧ rd.inputs = some ins ∧ rd.outputs = some outs ∧
    (p = askedFor imps (if rd.id ≠ "" then rd.id else i.id)) ∧
    (∀ x ∈ prev, x.delete = false → x.urn ≠ W.urn (parentOf (W.theStack prev) i) i.type i.name) ∧
    (W.typeOf (parentOf (W.theStack prev) i) = W.rootType ∨ ∃ x ∈ prev, x.delete = false ∧ x.urn = parentOf (W.theStack prev) i) ∧
    s = { type := W.typeOf (W.urn (parentOf (W.theStack prev) i) i.type i.name), urn := W.urn (parentOf (W.theStack prev) i) i.type i.name, custom := true, delete := false,
          id := if rd.id ≠ "" then rd.id else i.id, inputs := if p = [] then ins else W.select p ins, outputs := outs, parent := parentOf (W.theStack prev) i, protect := i.protect,
          external := false, deps := [], provider := .ref r, propDeps := [], pendingReplacement := false, aliases := [], timeouts := "", retainOnDelete := false, rest := rd.initErrors }

/-- What there may be that was not there before -/
inductive Added (W : World) (prev saved : List State) (imps : List Import) (s : State) : Prop
  | stack : (∀ x ∈ prev, x.type ≠ W.rootType) → s = W.stack → Added W prev saved imps s
  | provider : NewProvider W prev imps s → Added W prev saved imps s
  | imported (i : Import) : i ∈ imps → Imported W prev saved imps i s → Added W prev saved imps s

/-! ## What the phases do -/

theorem requests_spec {W : World} {prev : List State} {imps : List Import} {refs : Refs} {reqs : List Request} (h : W.requests prev imps = some (.ok (refs, reqs))) :
    (∀ r ∈ reqs, ∃ i ∈ imps, i.provider = "" ∧ r = W.request i ∧ old prev (W.provUrn r) = none) ∧
    (∀ e ∈ refs, (∃ s, old prev e.1 = some s ∧ W.env.validProviderUrn e.1 = true ∧ e.2 = .ref ⟨e.1, s.id⟩) ∨ e.2 = .malformed e.1) ∧
    ∀ i ∈ imps, W.provOf i ∈ refs.map (·.1) ∨ i.provider = "" ∧ W.request i ∈ reqs := by
  induction imps generalizing refs reqs with
  | nil => cases h; simp
  | cons i l ih =>
    have key : ∀ {f : Refs × List Request → Refs × List Request}, (W.requests prev l).map (fun r => r.map f) = some (.ok (refs, reqs)) →
        ∃ p, W.requests prev l = some (.ok p) ∧ (refs, reqs) = f p := by
      intro f hf
      cases hr : W.requests prev l with
      | none => rw [hr] at hf; cases hf
      | some e =>
        rw [hr] at hf
        cases e with
        | error e => cases hf
        | ok p =>
          simp only [Option.map_some, Except.map, Option.some.injEq, Except.ok.injEq] at hf
          exact ⟨p, rfl, hf.symm⟩
    unfold World.requests at h
    by_cases hp : i.provider ≠ ""
    · rw [if_pos hp] at h
      have hpo : W.provOf i = i.provider := by unfold World.provOf; rw [if_neg hp]
      cases ho : old prev i.provider with
      | none =>
        rw [ho] at h
        obtain ⟨⟨rf, rq⟩, h1, h2⟩ := key h
        cases h2
        obtain ⟨g1, g2, g3⟩ := ih h1
        refine ⟨fun r hr => ?_, fun e he => ?_, fun j hj => ?_⟩
        · obtain ⟨j, hj, hj2⟩ := g1 r hr
          exact ⟨j, List.mem_cons_of_mem _ hj, hj2⟩
        · rcases List.mem_cons.mp he with rfl | he
          · exact .inr rfl
          · exact g2 e he
        · rcases List.mem_cons.mp hj with rfl | hj
          · exact .inl (by rw [hpo]; exact List.mem_cons_self)
          · rcases g3 j hj with h3 | h3
            · exact .inl (List.mem_cons_of_mem _ h3)
            · exact .inr h3
      | some s =>
        rw [ho] at h
        simp only at h
        cases hv : W.env.validProviderUrn i.provider with
        | false => simp [hv] at h
        | true =>
          simp only [hv, Bool.not_true, Bool.false_eq_true, if_false] at h
          obtain ⟨⟨rf, rq⟩, h1, h2⟩ := key h
          cases h2
          obtain ⟨g1, g2, g3⟩ := ih h1
          refine ⟨fun r hr => ?_, fun e he => ?_, fun j hj => ?_⟩
          · obtain ⟨j, hj, hj2⟩ := g1 r hr
            exact ⟨j, List.mem_cons_of_mem _ hj, hj2⟩
          · rcases List.mem_cons.mp he with rfl | he
            · exact .inl ⟨s, ho, hv, rfl⟩
            · exact g2 e he
          · rcases List.mem_cons.mp hj with rfl | hj
            · exact .inl (by rw [hpo]; exact List.mem_cons_self)
            · rcases g3 j hj with h3 | h3
              · exact .inl (List.mem_cons_of_mem _ h3)
              · exact .inr h3
    · rw [if_neg hp] at h
      have hp' : i.provider = "" := Classical.byContradiction hp
      have hpo : W.provOf i = W.provUrn (W.request i) := by unfold World.provOf; rw [if_pos hp']; rfl
      by_cases hk : W.pkg i.type = ""
      · rw [if_pos hk] at h; cases h
      · rw [if_neg hk] at h
        cases ho : old prev (W.provUrn (W.request i)) with
        | none =>
          rw [ho] at h
          obtain ⟨⟨rf, rq⟩, h1, h2⟩ := key h
          cases h2
          obtain ⟨g1, g2, g3⟩ := ih h1
          refine ⟨fun r hr => ?_, g2, fun j hj => ?_⟩
          · rcases List.mem_cons.mp hr with rfl | hr
            · exact ⟨i, List.mem_cons_self, hp', rfl, ho⟩
            · obtain ⟨j, hj, hj2⟩ := g1 r hr
              exact ⟨j, List.mem_cons_of_mem _ hj, hj2⟩
          · rcases List.mem_cons.mp hj with rfl | hj
            · exact .inr ⟨hp', List.mem_cons_self⟩
            · rcases g3 j hj with h3 | h3
              · exact .inl h3
              · exact .inr ⟨h3.1, List.mem_cons_of_mem _ h3.2⟩
        | some s =>
          rw [ho] at h
          simp only at h
          cases hv : W.env.validProviderUrn (W.provUrn (W.request i)) with
          | false => simp [hv] at h
          | true =>
            simp only [hv, Bool.not_true, Bool.false_eq_true, if_false] at h
            obtain ⟨⟨rf, rq⟩, h1, h2⟩ := key h
            cases h2
            obtain ⟨g1, g2, g3⟩ := ih h1
            refine ⟨fun r hr => ?_, fun e he => ?_, fun j hj => ?_⟩
            · obtain ⟨j, hj, hj2⟩ := g1 r hr
              exact ⟨j, List.mem_cons_of_mem _ hj, hj2⟩
            · rcases List.mem_cons.mp he with rfl | he
              · exact .inl ⟨s, ho, hv, rfl⟩
              · exact g2 e he
            · rcases List.mem_cons.mp hj with rfl | hj
              · exact .inl (by rw [hpo]; exact List.mem_cons_self)
              · rcases g3 j hj with h3 | h3
                · exact .inl (List.mem_cons_of_mem _ h3)
                · exact .inr h3

theorem distinct_spec (W : World) (l : List Request) (seen : List String) :
    (W.distinct l seen).Sublist l ∧ ((W.distinct l seen).map W.provUrn).Nodup ∧ (∀ r ∈ W.distinct l seen, W.provUrn r ∉ seen) ∧
    ∀ r ∈ l, W.provUrn r ∈ seen ∨ ∃ r' ∈ W.distinct l seen, W.provUrn r' = W.provUrn r := by
  induction l generalizing seen with
  | nil => simp [World.distinct]
  | cons r l ih =>
    unfold World.distinct
    by_cases h : W.provUrn r ∈ seen
    · rw [if_pos h]
      obtain ⟨h1, h2, h3, h4⟩ := ih seen
      refine ⟨h1.cons r, h2, h3, fun q hq => ?_⟩
      rcases List.mem_cons.mp hq with rfl | hq
      · exact .inl h
      · exact h4 q hq
    · rw [if_neg h]
      obtain ⟨h1, h2, h3, h4⟩ := ih (W.provUrn r :: seen)
      refine ⟨h1.cons_cons r, ?_, fun q hq => ?_, fun q hq => ?_⟩
      · rw [List.map_cons, List.nodup_cons]
        refine ⟨fun hm => ?_, h2⟩
        obtain ⟨q, hq, e⟩ := List.mem_map.mp hm
        exact h3 q hq (e ▸ List.mem_cons_self)
      · rcases List.mem_cons.mp hq with rfl | hq
        · exact h
        · exact fun hm => h3 q hq (List.mem_cons_of_mem _ hm)
      · rcases List.mem_cons.mp hq with rfl | hq
        · exact .inr ⟨q, List.mem_cons_self, rfl⟩
        · rcases h4 q hq with hm | ⟨r', hr', e⟩
          · rcases List.mem_cons.mp hm with e | hm
            · exact .inr ⟨r, List.mem_cons_self, e.symm⟩
            · exact .inl hm
          · exact .inr ⟨r', List.mem_cons_of_mem _ hr', e⟩

theorem provSteps_spec {W : World} {l : List Request} {steps : List State} (h : W.provSteps l = some steps) :
    steps.map (·.urn) = l.map W.provUrn ∧ ∀ s ∈ steps, ∃ r ∈ l, ∃ inputs, W.provInputs r = some inputs ∧ s = W.provider r inputs := by
  induction l generalizing steps with
  | nil => cases h; simp
  | cons r l ih =>
    unfold World.provSteps at h
    cases hi : W.provInputs r with
    | none => rw [hi] at h; cases h
    | some inputs =>
      rw [hi] at h
      simp only at h
      cases hl : W.provSteps l with
      | none => rw [hl] at h; cases h
      | some st =>
        rw [hl] at h
        cases h
        obtain ⟨h1, h2⟩ := ih hl
        refine ⟨by rw [List.map_cons, h1]; rfl, fun s hs => ?_⟩
        rcases List.mem_cons.mp hs with rfl | hs
        · exact ⟨r, List.mem_cons_self, inputs, hi, rfl⟩
        · obtain ⟨r', hr', q⟩ := h2 s hs
          exact ⟨r', List.mem_cons_of_mem _ hr', q⟩

theorem made_spec {W : World} {s s' : State} (h : W.made s = some s') : ∃ id outs, W.create s.urn = some (id, outs) ∧ id ≠ "" ∧ s' = { s with id := id, outputs := outs } := by
  unfold World.made at h
  cases hc : W.create s.urn with
  | none => rw [hc] at h; cases h
  | some p =>
    rw [hc] at h
    simp only at h
    split at h
    · cases h
    · rename_i hid
      cases h
      exact ⟨p.1, p.2, rfl, hid, rfl⟩

/-- the state of an import before it is read -/
def World.asked (W : World) (stackUrn : String) (i : Import) (p : Provider) : State :=
  { type := W.typeOf (W.urn (parentOf stackUrn i) i.type i.name), urn := W.urn (parentOf stackUrn i) i.type i.name, custom := true, delete := false, id := i.id, inputs := W.noProps,
    outputs := W.noProps, parent := parentOf stackUrn i, protect := i.protect, external := false, deps := [], provider := p, propDeps := [], pendingReplacement := false, aliases := [],
    timeouts := "", retainOnDelete := false, rest := "" }

theorem importSteps_spec {W : World} {prev : List State} {stackUrn : String} {refs : Refs} {imps : List Import} {seen : List String} {steps : List State}
    (h : W.importSteps prev stackUrn refs imps seen = some (.ok steps)) :
    (steps.map (·.urn)).Nodup ∧ (∀ s ∈ steps, s.urn ∉ seen) ∧
    (∀ s ∈ steps, ∃ i ∈ imps, ∃ p, refs.lookup (W.provOf i) = some p ∧ s = W.asked stackUrn i p) ∧
    ∀ i ∈ imps, (∃ x, old prev (W.urn (parentOf stackUrn i) i.type i.name) = some x ∧ W.oldId x = i.id) ∨ ∃ p, refs.lookup (W.provOf i) = some p ∧ W.asked stackUrn i p ∈ steps := by
  induction imps generalizing seen steps with
  | nil => cases h; simp
  | cons i l ih =>
    unfold World.importSteps at h
    simp only [show (if i.parent = "" then stackUrn else i.parent) = parentOf stackUrn i from rfl,
      show (if i.provider = "" then W.provUrn (W.request i) else i.provider) = W.provOf i from rfl] at h
    split at h
    · cases h
    · rename_i hseen
      split at h
      · rename_i hold
        obtain ⟨h1, h2, h3, h4⟩ := ih h
        refine ⟨h1, fun s hs hm => h2 s hs (List.mem_cons_of_mem _ hm), fun s hs => ?_, fun j hj => ?_⟩
        · obtain ⟨j, hj, q⟩ := h3 s hs
          exact ⟨j, List.mem_cons_of_mem _ hj, q⟩
        · rcases List.mem_cons.mp hj with rfl | hj
          · cases ho : old prev (W.urn (parentOf stackUrn j) j.type j.name) with
            | none => rw [ho] at hold; cases hold
            | some x =>
              rw [ho] at hold
              simp only [Option.map_some, Option.some.injEq] at hold
              exact .inl ⟨x, rfl, hold⟩
          · exact h4 j hj
      · cases hl : refs.lookup (W.provOf i) with
        | none => rw [hl] at h; cases h
        | some p =>
          rw [hl] at h
          simp only at h
          split at h
          · cases h
          · cases hr : W.importSteps prev stackUrn refs l (W.urn (parentOf stackUrn i) i.type i.name :: seen) with
            | none => rw [hr] at h; cases h
            | some e =>
              rw [hr] at h
              cases e with
              | error e => cases h
              | ok st =>
                cases h
                obtain ⟨h1, h2, h3, h4⟩ := ih hr
                refine ⟨?_, fun s hs => ?_, fun s hs => ?_, fun j hj => ?_⟩
                · rw [List.map_cons, List.nodup_cons]
                  refine ⟨fun hm => ?_, h1⟩
                  obtain ⟨s, hs, e⟩ := List.mem_map.mp hm
                  exact h2 s hs (by rw [e]; exact List.mem_cons_self)
                · rcases List.mem_cons.mp hs with rfl | hs
                  · exact hseen
                  · exact fun hm => h2 s hs (List.mem_cons_of_mem _ hm)
                · rcases List.mem_cons.mp hs with rfl | hs
                  · exact ⟨i, List.mem_cons_self, p, hl, rfl⟩
                  · obtain ⟨j, hj, q⟩ := h3 s hs
                    exact ⟨j, List.mem_cons_of_mem _ hj, q⟩
                · rcases List.mem_cons.mp hj with rfl | hj
                  · exact .inr ⟨p, hl, List.mem_cons_self⟩
                  · rcases h4 j hj with h5 | ⟨p', h5, h6⟩
                    · exact .inl h5
                    · exact .inr ⟨p', h5, List.mem_cons_of_mem _ h6⟩

theorem imported_spec {W : World} {prev known : List State} {imps : List Import} {s s' : State} (h : W.imported prev known imps s = some s') :
    old prev s.urn = none ∧ (W.typeOf s.parent = W.rootType ∨ ∃ x, old prev s.parent = some x) ∧
    ∃ r rd ins outs, s.provider = .ref r ∧ (∃ x ∈ known, Provides W.env x r) ∧ W.read r s.urn s.id = some rd ∧ rd.inputs = some ins ∧ rd.outputs = some outs ∧
      s' = { s with id := if rd.id ≠ "" then rd.id else s.id, outputs := outs, rest := rd.initErrors,
                    inputs := if askedFor imps (if rd.id ≠ "" then rd.id else s.id) = [] then ins else W.select (askedFor imps (if rd.id ≠ "" then rd.id else s.id)) ins } := by
  unfold World.imported at h
  split at h
  · cases h
  · rename_i ho
    split at h
    · cases h
    · rename_i hp
      refine ⟨by simpa using ho, ?_, ?_⟩
      · by_cases ht : W.typeOf s.parent = W.rootType
        · exact .inl ht
        · cases hq : old prev s.parent with
          | none => exact absurd ⟨ht, by simp [hq]⟩ hp
          | some x => exact .inr ⟨x, rfl⟩
      · cases hpr : s.provider with
        | none => rw [hpr] at h; cases h
        | malformed m => rw [hpr] at h; cases h
        | ref r =>
          rw [hpr] at h
          simp only at h
          split at h
          · cases h
          · rename_i hk
            simp only [Bool.not_eq_true', Bool.not_eq_false, List.any_eq_true, Bool.and_eq_true, beq_iff_eq] at hk
            obtain ⟨x, hx, ⟨hx1, hx2⟩, hx3⟩ := hk
            cases hrd : W.read r s.urn s.id with
            | none => rw [hrd] at h; cases h
            | some rd =>
              rw [hrd] at h
              simp only at h
              cases hout : rd.outputs with
              | none => rw [hout] at h; cases h
              | some outs =>
                cases hin : rd.inputs with
                | none => rw [hout, hin] at h; cases h
                | some ins =>
                  rw [hout, hin] at h
                  simp only at h
                  generalize hid : (if rd.id ≠ "" then rd.id else s.id) = id at h
                  generalize hq : (if askedFor imps id = [] then ins else W.select (askedFor imps id) ins) = q at h
                  split at h
                  · cases h
                    exact ⟨r, rd, ins, outs, rfl, ⟨x, hx, hx1, hx2, hx3⟩, hrd, hin, hout, by subst hq hid; rfl⟩
                  · cases h

/-- the resources that the registry has, as references by URN -/
def refsOf (l : List State) : Refs := l.map fun p => (p.urn, .ref ⟨p.urn, p.id⟩)

/-- What is imported, if it comes to that -/
def ThirdPhase (W : World) (prev : List State) (imps : List Import) (order : List Nat) (provs : List State) (refs : Refs) (imported : List State) (o : Outcome) : Prop :=
  (imported = [] ∧ o ≠ .ok) ∨
  ∃ isteps, W.importSteps prev (W.theStack prev) (refsOf provs ++ refs) imps [] = some (.ok isteps) ∧ imported = run (W.imported prev (prev ++ provs) imps) isteps order ∧
    (o = .ok → allRun (W.imported prev (prev ++ provs) imps) isteps order = true)

/-- The providers that are made, if it comes to that -/
def SecondPhase (W : World) (prev : List State) (imps : List Import) (S : Schedule) (provs imported : List State) (o : Outcome) : Prop :=
  (provs = [] ∧ imported = [] ∧ o ≠ .ok) ∨
  ∃ refs reqs steps, W.requests prev imps = some (.ok (refs, reqs)) ∧ W.provSteps (W.sort (W.distinct reqs [])) = some steps ∧ provs = run W.made steps S.providers ∧
    ThirdPhase W prev imps S.imports provs refs imported o

theorem go_shape (W : World) (prev : List State) (imps : List Import) (S : Schedule) (kept base stack : List State) :
    ∃ provs imported, (World.importResources.go W prev imps S kept base stack (W.theStack prev)).saved = kept ++ stack ++ provs ++ imported ++ base ∧
      SecondPhase W prev imps S provs imported (World.importResources.go W prev imps S kept base stack (W.theStack prev)).outcome := by
  unfold World.importResources.go
  cases hr : W.requests prev imps with
  | none => exact ⟨[], [], by simp, .inl ⟨rfl, rfl, by simp⟩⟩
  | some e =>
    cases e with
    | error e => exact ⟨[], [], by simp, .inl ⟨rfl, rfl, by simp⟩⟩
    | ok p =>
      obtain ⟨refs, reqs⟩ := p
      simp only
      cases hs : W.provSteps (W.sort (W.distinct reqs [])) with
      | none => exact ⟨[], [], by simp, .inl ⟨rfl, rfl, by simp⟩⟩
      | some steps =>
        simp only
        cases ha : allRun W.made steps S.providers with
        | false => exact ⟨_, [], by simp, .inr ⟨refs, reqs, steps, hr, hs, rfl, .inl ⟨rfl, by simp⟩⟩⟩
        | true =>
          simp only [Bool.not_true, Bool.false_eq_true, if_false]
          cases hi : W.importSteps prev (W.theStack prev) (refsOf (run W.made steps S.providers) ++ refs) imps [] with
          | none =>
            simp only [refsOf] at hi
            simp only [hi]
            exact ⟨_, [], by simp, .inr ⟨refs, reqs, steps, hr, hs, rfl, .inl ⟨rfl, by simp⟩⟩⟩
          | some e =>
            have hi' := hi
            simp only [refsOf] at hi
            simp only [hi]
            cases e with
            | error e => exact ⟨_, [], by simp, .inr ⟨refs, reqs, steps, hr, hs, rfl, .inl ⟨rfl, by simp⟩⟩⟩
            | ok isteps =>
              refine ⟨_, _, rfl, .inr ⟨refs, reqs, steps, hr, hs, rfl, .inr ⟨isteps, hi', rfl, fun ho => ?_⟩⟩⟩
              simp only at ho
              cases hh : allRun (W.imported prev (prev ++ run W.made steps S.providers) imps) isteps S.imports with
              | true => rfl
              | false => rw [hh] at ho; simp at ho

/-- The stack that is made, if there is none -/
def FirstPhase (W : World) (prev : List State) (k : Nat) (stack : List State) : Prop :=
  (prev.filter (!·.delete)).length ≤ k ∧ (stack = [] ∧ (∃ x ∈ prev, x.type = W.rootType ∧ x.urn = W.theStack prev) ∨ stack = [W.stack] ∧ (∀ x ∈ prev, x.type ≠ W.rootType) ∧ W.theStack prev = W.stackUrn)

theorem shape (W : World) (prev : List State) (imps : List Import) (S : Schedule) :
    ∃ stack provs imported, (W.importResources prev imps S).saved = (existing S.existing prev).1 ++ stack ++ provs ++ imported ++ (existing S.existing prev).2 ∧
      ((stack = [] ∧ provs = [] ∧ imported = [] ∧ (W.importResources prev imps S).outcome ≠ .ok) ∨
       (FirstPhase W prev S.existing stack ∧ SecondPhase W prev imps S provs imported (W.importResources prev imps S).outcome)) := by
  unfold World.importResources
  simp only
  split
  · exact ⟨[], [], [], by simp, .inl ⟨rfl, rfl, rfl, by simp⟩⟩
  · rename_i hk
    cases hf : W.findStack prev with
    | none =>
      have hts : W.theStack prev = W.stackUrn := by unfold World.theStack; rw [hf]; rfl
      cases hs : S.stack with
      | false => exact ⟨[], [], [], by simp, .inl ⟨rfl, rfl, rfl, by simp⟩⟩
      | true =>
        simp only [if_true]
        rw [← hts]
        obtain ⟨provs, imported, h1, h2⟩ := go_shape W prev imps S (existing S.existing prev).1 (existing S.existing prev).2 [W.stack]
        refine ⟨[W.stack], provs, imported, h1, .inr ⟨⟨by omega, .inr ⟨rfl, fun x hx e => ?_, hts⟩⟩, h2⟩⟩
        unfold World.findStack at hf
        simp only [Option.map_eq_none_iff, List.find?_eq_none, beq_iff_eq] at hf
        exact hf x hx e
    | some u =>
      have hts : W.theStack prev = u := by unfold World.theStack; rw [hf]; rfl
      simp only
      rw [← hts]
      obtain ⟨provs, imported, h1, h2⟩ := go_shape W prev imps S (existing S.existing prev).1 (existing S.existing prev).2 []
      refine ⟨[], provs, imported, h1, .inr ⟨⟨by omega, .inl ⟨rfl, ?_⟩⟩, h2⟩⟩
      unfold World.findStack at hf
      obtain ⟨x, hx, e⟩ := Option.map_eq_some_iff.mp hf
      have := List.find?_some hx
      exact ⟨x, List.mem_of_find?_eq_some hx, by simpa using this, by rw [hts, e]⟩

/-- Sorting the requests loses none of them. -/
def World.Sorts (W : World) : Prop := ∀ l, (W.sort l).Perm l

theorem provs_are {W : World} (hs : W.Sorts) {prev : List State} {imps : List Import} {refs : Refs} {reqs : List Request} {steps : List State} {order : List Nat}
    (hr : W.requests prev imps = some (.ok (refs, reqs))) (hp : W.provSteps (W.sort (W.distinct reqs [])) = some steps) {s : State} (h : s ∈ run W.made steps order) : NewProvider W prev imps s := by
  obtain ⟨s0, hs0, hm⟩ := mem_run h
  obtain ⟨r, hr1, inputs, hin, rfl⟩ := (provSteps_spec hp).2 s0 hs0
  have hr2 : r ∈ reqs := (distinct_spec W reqs []).1.subset ((hs _).mem_iff.mp hr1)
  obtain ⟨i, hi, hip, rfl, ho⟩ := (requests_spec hr).1 r hr2
  obtain ⟨id, outs, hc, hid, rfl⟩ := made_spec hm
  have hpo : W.provOf i = W.provUrn (W.request i) := by unfold World.provOf; rw [if_pos hip]; rfl
  refine ⟨i, hi, inputs, id, outs, hip, hin, by rw [hpo]; exact hc, hid, by rw [hpo]; exact old_none.mp ho, ?_⟩
  rw [hpo]
  rfl

theorem ref_urn {W : World} {prev : List State} {imps : List Import} {refs : Refs} {reqs : List Request} {provs : List State} {u : String} {r : Ref}
    (hr : W.requests prev imps = some (.ok (refs, reqs))) (hl : (refsOf provs ++ refs).lookup u = some (.ref r)) : r.urn = u := by
  have hmem : (u, Provider.ref r) ∈ refsOf provs ++ refs := by
    rw [List.lookup_eq_some_iff] at hl
    obtain ⟨a, b, e, -⟩ := hl
    rw [e]; simp
  rcases List.mem_append.mp hmem with hm2 | hm2
  · unfold refsOf at hm2
    obtain ⟨y, -, e⟩ := List.mem_map.mp hm2
    simp only [Prod.mk.injEq, Provider.ref.injEq] at e
    rw [← e.2, ← e.1]
  · rcases (requests_spec hr).2.1 _ hm2 with ⟨y, -, -, e⟩ | e
    · simp only [Provider.ref.injEq] at e
      rw [e]
    · simp at e

theorem imported_are {W : World} {prev : List State} {imps : List Import} {refs : Refs} {reqs : List Request} {provs isteps : List State} {order : List Nat}
    (hr : W.requests prev imps = some (.ok (refs, reqs))) (hi : W.importSteps prev (W.theStack prev) (refsOf provs ++ refs) imps [] = some (.ok isteps)) {s : State}
    {saved : List State} (hsv : ∀ x ∈ prev ++ provs, x ∈ saved)
    (h : s ∈ run (W.imported prev (prev ++ provs) imps) isteps order) : ∃ i ∈ imps, Imported W prev saved imps i s := by
  obtain ⟨s0, hs0, hm⟩ := mem_run h
  obtain ⟨-, -, h3, -⟩ := importSteps_spec hi
  obtain ⟨i, hii, p, hl, rfl⟩ := h3 s0 hs0
  obtain ⟨ho, hpar, r, rd, ins, outs, hp, ⟨x, hx, hP⟩, hrd, hin, hout, rfl⟩ := imported_spec hm
  have hp' : p = .ref r := hp
  subst hp'
  refine ⟨i, hii, r, rd, ins, outs, _, ?_, ⟨x, hsv x hx, hP⟩, hrd, hin, hout, rfl, old_none.mp ho, ?_, rfl⟩
  · exact ref_urn hr hl
  · rcases hpar with h1 | ⟨x, h1⟩
    · exact .inl h1
    · obtain ⟨a, b, c⟩ := old_some h1
      exact .inr ⟨x, a, b, c⟩

/-- **C204** However an import ends, every resource that was there is there as it was, and those that are not to be deleted are in the order in which they were; everything else is the
stack, if there was none, a default provider that an import needs and that was not there, or the resource of an import, as its provider has read it, with the parent, the provider and
the protection that were asked for. -/
theorem import_keeps_and_adds {W : World} (hs : W.Sorts) (prev : List State) (imps : List Import) (S : Schedule) :
    ∃ a new b, (W.importResources prev imps S).saved = a ++ new ++ b ∧ (a ++ b).Perm prev ∧ a.Sublist prev ∧ b.Sublist prev ∧
      ∀ s ∈ new, Added W prev (W.importResources prev imps S).saved imps s := by
  obtain ⟨stack, provs, imported, h1, h2⟩ := shape W prev imps S
  refine ⟨(existing S.existing prev).1, stack ++ provs ++ imported, (existing S.existing prev).2, by rw [h1]; simp, existing_perm _ _, existing_fst_sublist _ _, existing_snd_sublist _ _, fun s hm => ?_⟩
  have hprev : ∀ x ∈ prev ++ provs, x ∈ (W.importResources prev imps S).saved := by
    intro x hx
    rw [h1]
    rcases List.mem_append.mp hx with hx | hx
    · have := (existing_perm S.existing prev).mem_iff.mpr hx
      rcases List.mem_append.mp this with h3 | h3 <;> simp [h3]
    · simp [hx]
  rcases h2 with ⟨rfl, rfl, rfl, -⟩ | ⟨hf, hsec⟩
  · cases hm
  · rcases List.mem_append.mp hm with hm1 | hm1
    · clear hm
      rcases List.mem_append.mp hm1 with hm | hm
      · clear hm1
        rcases hf.2 with ⟨rfl, -⟩ | ⟨rfl, h3, -⟩
        · cases hm
        · exact .stack h3 (List.mem_singleton.mp hm)
      · clear hm1
        rcases hsec with ⟨rfl, -⟩ | ⟨refs, reqs, steps, hr, hp, rfl, -⟩
        · cases hm
        · exact .provider (provs_are hs hr hp hm)
    · clear hm
      rcases hsec with ⟨-, rfl, -⟩ | ⟨refs, reqs, steps, hr, hp, rfl, h3⟩
      · cases hm1
      · rcases h3 with ⟨rfl, -⟩ | ⟨isteps, hi, rfl, -⟩
        · cases hm1
        · obtain ⟨i, hi1, hi2⟩ := imported_are hr hi hprev hm1
          exact .imported i hi1 hi2

/-- **C204** If an import ends well, the resource of every import is there: it was there with the ID, or it has been imported. -/
theorem import_complete {W : World} {prev : List State} {imps : List Import} {S : Schedule} (h : (W.importResources prev imps S).outcome = .ok) {i : Import} (hi : i ∈ imps) :
    (∃ x ∈ prev, x.delete = false ∧ x.urn = W.urn (parentOf (W.theStack prev) i) i.type i.name ∧ W.oldId x = i.id) ∨
    ∃ s ∈ (W.importResources prev imps S).saved, Imported W prev (W.importResources prev imps S).saved imps i s := by
  obtain ⟨stack, provs, imported, h1, h2⟩ := shape W prev imps S
  have hprev : ∀ x ∈ prev ++ provs, x ∈ (W.importResources prev imps S).saved := by
    intro x hx
    rw [h1]
    rcases List.mem_append.mp hx with hx | hx
    · have := (existing_perm S.existing prev).mem_iff.mpr hx
      rcases List.mem_append.mp this with h3 | h3 <;> simp [h3]
    · simp [hx]
  rcases h2 with ⟨-, -, -, h3⟩ | ⟨-, ⟨-, -, h3⟩ | ⟨refs, reqs, steps, hr, hp, rfl, ⟨-, h3⟩ | ⟨isteps, hst, rfl, h3⟩⟩⟩
  · exact absurd h h3
  · exact absurd h h3
  · exact absurd h h3
  · obtain ⟨-, -, -, h4⟩ := importSteps_spec hst
    rcases h4 i hi with ⟨x, hx, e⟩ | ⟨p, hl, hm⟩
    · obtain ⟨a, b, c⟩ := old_some hx
      exact .inl ⟨x, a, b, c, e⟩
    · obtain ⟨s', hs', hmem⟩ := allRun_mem (h3 h) hm
      refine .inr ⟨s', by rw [h1]; simp [hmem], ?_⟩
      obtain ⟨ho, hpar, r, rd, ins, outs, hp2, ⟨x, hx, hP⟩, hrd, hin, hout, rfl⟩ := imported_spec hs'
      have hp' : p = .ref r := hp2
      subst hp'
      refine ⟨r, rd, ins, outs, _, ?_, ⟨x, hprev x hx, hP⟩, hrd, hin, hout, rfl, old_none.mp ho, ?_, rfl⟩
      · exact ref_urn hr hl
      · rcases hpar with h5 | ⟨x, h5⟩
        · exact .inl h5
        · obtain ⟨a, b, c⟩ := old_some h5
          exact .inr ⟨x, a, b, c⟩

/-! ## What is saved is intact -/

/-- URNs and types fit together, the stack is not to be deleted, no provider and no stack is imported, and no import names as its parent a stack that is not the one that there is. -/
structure Proper (W : World) (prev : List State) (imps : List Import) : Prop where
  urns : ∀ i ∈ imps, W.typeOf (W.urn (parentOf (W.theStack prev) i) i.type i.name) = i.type
  typeOf_stack : W.typeOf W.stackUrn = W.rootType
  types : ∀ x ∈ prev, x.type = W.typeOf x.urn
  provType : ∀ k, W.env.isProviderType (W.provType k) = true
  valid : ∀ u, W.env.validProviderUrn u = true → W.env.isProviderType (W.typeOf u) = true
  provUrn : ∀ r, W.env.validProviderUrn (W.provUrn r) = true ∧ W.typeOf (W.provUrn r) = W.provType r.pkg
  root : W.env.isProviderType W.rootType = false
  stackLives : ∀ x ∈ prev, x.type = W.rootType → x.delete = false
  imports : ∀ i ∈ imps, W.env.isProviderType i.type = false ∧ i.type ≠ W.rootType
  parents : ∀ i ∈ imps, i.parent ≠ "" → W.typeOf i.parent = W.rootType → i.parent = W.theStack prev

theorem ref_from {W : World} {prev : List State} {imps : List Import} {refs : Refs} {reqs : List Request} {provs : List State} {u : String} {r : Ref}
    (hr : W.requests prev imps = some (.ok (refs, reqs))) (hl : (refsOf provs ++ refs).lookup u = some (.ref r)) :
    (∃ y ∈ provs, y.urn = r.urn ∧ y.id = r.id) ∨ ∃ y ∈ prev, y.delete = false ∧ y.urn = r.urn ∧ y.id = r.id ∧ W.env.validProviderUrn y.urn = true := by
  have hmem : (u, Provider.ref r) ∈ refsOf provs ++ refs := by
    rw [List.lookup_eq_some_iff] at hl
    obtain ⟨a, b, e, -⟩ := hl
    rw [e]; simp
  rcases List.mem_append.mp hmem with hm2 | hm2
  · unfold refsOf at hm2
    obtain ⟨y, hy, e⟩ := List.mem_map.mp hm2
    simp only [Prod.mk.injEq, Provider.ref.injEq] at e
    exact .inl ⟨y, hy, by rw [← e.2], by rw [← e.2]⟩
  · rcases (requests_spec hr).2.1 _ hm2 with ⟨y, hy, hv, e⟩ | e
    · simp only [Provider.ref.injEq] at e
      obtain ⟨h1, h2, h3⟩ := old_some hy
      simp only at h3 hv
      exact .inr ⟨y, h1, h2, by rw [e, h3], by rw [e], by rw [h3]; exact hv⟩
    · simp at e

/-- **C204** What an import saves is intact, however it ends, if what was there is, with what is to be deleted and without. -/
theorem import_intact_partial {W : World} (hs : W.Sorts) {prev : List State} {imps : List Import} {S : Schedule} (hp : Proper W prev imps) (hS : S.providers.Nodup ∧ S.imports.Nodup)
    (h : Intact W.env prev) (hlive : Intact W.env (prev.filter (!·.delete))) : Intact W.env (W.importResources prev imps S).saved := by
  rw [intact_iff] at h hlive ⊢
  have hold : IntactFrom W.env [] (existing S.existing prev).1 := by
    rw [existing_fst]
    have := hlive
    rw [← List.take_append_drop S.existing (prev.filter (!·.delete))] at this
    exact intactFrom_prefix this
  obtain ⟨stack, provs, imported, h1, h2⟩ := shape W prev imps S
  rw [h1]
  rcases h2 with ⟨rfl, rfl, rfl, -⟩ | ⟨hf, hsec⟩
  · simp only [List.append_nil]
    rw [Snapshot.intactFrom_append]
    exact ⟨hold, existing_intact_from h fun x => by simp⟩
  · rw [existing_all hf.1]
    simp only
    have hstack : IntactFrom W.env (prev.filter (!·.delete)) stack := by
      rcases hf.2 with ⟨rfl, -⟩ | ⟨rfl, h3, -⟩
      · trivial
      · refine ⟨⟨fun e => ?_, .inl rfl, .inl rfl, fun d hd => (by cases hd), .inr fun x hx e => ?_⟩, trivial⟩
        · have : W.env.isProviderType W.rootType = true := e
          rw [hp.root] at this; cases this
        · have hx' := (List.mem_filter.mp hx).1
          refine h3 x hx' ?_
          rw [hp.types x hx', e]
          exact hp.typeOf_stack
    have hstackType : ∀ x ∈ stack, W.typeOf x.urn = W.rootType := by
      intro x hx
      rcases hf.2 with ⟨rfl, -⟩ | ⟨rfl, -⟩
      · cases hx
      · rw [List.mem_singleton.mp hx]; exact hp.typeOf_stack
    have hTheStack : ∃ x ∈ prev.filter (!·.delete) ++ stack, x.urn = W.theStack prev := by
      rcases hf.2 with ⟨rfl, x, hx, e1, e2⟩ | ⟨rfl, -, e⟩
      · exact ⟨x, by simp [hx, hp.stackLives x hx e1], e2⟩
      · exact ⟨W.stack, by simp, e.symm⟩
    have hprovs : ∀ s ∈ provs, NewProvider W prev imps s := by
      intro s hm
      rcases hsec with ⟨rfl, -⟩ | ⟨refs, reqs, steps, hr, hps, rfl, -⟩
      · cases hm
      · exact provs_are hs hr hps hm
    have hprovType : ∀ s ∈ provs, W.env.isProviderType s.type = true ∧ W.typeOf s.urn = s.type := by
      intro s hm
      obtain ⟨i, hi, inputs, id, outs, hip, -, -, -, -, rfl⟩ := hprovs s hm
      refine ⟨hp.provType _, ?_⟩
      show W.typeOf (W.provOf i) = _
      unfold World.provOf
      rw [if_pos hip]
      exact (hp.provUrn _).2
    have hprov : IntactFrom W.env (prev.filter (!·.delete) ++ stack) provs := by
      refine independent_intact (fun s hm => ?_) ?_
      · have ht := hprovType s hm
        obtain ⟨i, hi, inputs, id, outs, hip, -, -, -, hno, rfl⟩ := hprovs s hm
        refine ⟨fun _ => ?_, .inl rfl, .inl rfl, fun d hd => (by cases hd), .inr fun x hx e => ?_⟩
        · show W.env.validProviderUrn (W.provOf i) = true
          unfold World.provOf
          rw [if_pos hip]
          exact (hp.provUrn _).1
        · rcases List.mem_append.mp hx with hx | hx
          · simp only [List.mem_filter, Bool.not_eq_true'] at hx
            exact hno x hx.1 hx.2 e
          · have h3 := hstackType x hx
            rw [e] at h3
            rw [h3] at ht
            rw [← ht.2, hp.root] at ht
            exact Bool.false_ne_true ht.1
      · rcases hsec with ⟨rfl, -⟩ | ⟨refs, reqs, steps, hr, hps, rfl, -⟩
        · simp
        · refine run_nodup (fun s s' hm => ?_) ?_ hS.1
          · obtain ⟨id, outs, -, -, rfl⟩ := made_spec hm; rfl
          · rw [(provSteps_spec hps).1]
            exact ((hs _).map _).nodup_iff.mpr (distinct_spec W reqs []).2.1
    have himported : IntactFrom W.env (prev.filter (!·.delete) ++ stack ++ provs) imported := by
      rcases hsec with ⟨-, rfl, -⟩ | ⟨refs, reqs, steps, hr, hps, rfl, ⟨rfl, -⟩ | ⟨isteps, hi, rfl, -⟩⟩
      · trivial
      · trivial
      · obtain ⟨hn, -, hall, -⟩ := importSteps_spec hi
        refine independent_intact (fun s hm => ?_) (run_nodup (fun s s' hm => ?_) hn hS.2)
        · obtain ⟨s0, hs0, hm⟩ := mem_run hm
          obtain ⟨i, hii, p, hl, rfl⟩ := hall s0 hs0
          obtain ⟨ho, hpar, r, rd, ins, outs, hpr, -, hrd, hin, hout, rfl⟩ := imported_spec hm
          have hp' : p = .ref r := hpr
          subst hp'
          have hty : W.typeOf (W.urn (parentOf (W.theStack prev) i) i.type i.name) = i.type := hp.urns i hii
          refine ⟨fun e => ?_, .inr ⟨r, rfl, ?_⟩, .inr ?_, fun d hd => (by cases hd), .inr fun x hx e => ?_⟩
          · have e' : W.env.isProviderType (W.typeOf (W.urn (parentOf (W.theStack prev) i) i.type i.name)) = true := e
            rw [hty, (hp.imports i hii).1] at e'; cases e'
          · rcases ref_from hr hl with ⟨y, hy, e1, e2⟩ | ⟨y, hy, hd, e1, e2, hv⟩
            · exact ⟨y, by simp [hy], (hprovType y hy).1, e1, e2⟩
            · refine ⟨y, by simp [hy, hd], ?_, e1, e2⟩
              rw [hp.types y hy]
              exact hp.valid _ hv
          · show ∃ x ∈ prev.filter (!·.delete) ++ stack ++ run W.made steps S.providers, State.urn x = parentOf (W.theStack prev) i
            have hst : ∃ x ∈ prev.filter (!·.delete) ++ stack ++ run W.made steps S.providers, x.urn = W.theStack prev := by
              obtain ⟨x, hx, e⟩ := hTheStack
              exact ⟨x, List.mem_append_left _ hx, e⟩
            have hpar' : W.typeOf (parentOf (W.theStack prev) i) = W.rootType ∨ ∃ x, old prev (parentOf (W.theStack prev) i) = some x := hpar
            rcases hpar' with h5 | ⟨x, h5⟩
            · by_cases hip : i.parent = ""
              · have : parentOf (W.theStack prev) i = W.theStack prev := by unfold parentOf; rw [if_pos hip]
                rw [this]; exact hst
              · have h6 : parentOf (W.theStack prev) i = i.parent := by unfold parentOf; rw [if_neg hip]
                rw [h6] at h5 ⊢
                rw [hp.parents i hii hip h5]; exact hst
            · obtain ⟨a, b, c⟩ := old_some h5
              exact ⟨x, by simp [a, b], c⟩
          · have e' : x.urn = W.urn (parentOf (W.theStack prev) i) i.type i.name := e
            rcases List.mem_append.mp hx with hx1 | hx1
            · rcases List.mem_append.mp hx1 with hx2 | hx2
              · simp only [List.mem_filter, Bool.not_eq_true'] at hx2
                exact old_none.mp ho x hx2.1 hx2.2 e
              · have h3 := hstackType x hx2
                rw [e', hty] at h3
                exact (hp.imports i hii).2 h3
            · have h3 := hprovType x hx1
              rw [e', hty] at h3
              rw [← h3.2, (hp.imports i hii).1] at h3
              exact Bool.false_ne_true h3.1
        · obtain ⟨-, -, r, rd, ins, outs, -, -, -, -, -, rfl⟩ := imported_spec hm; rfl
    rw [Snapshot.intactFrom_append, Snapshot.intactFrom_append, Snapshot.intactFrom_append, Snapshot.intactFrom_append]
    refine ⟨⟨⟨⟨hlive, ?_⟩, ?_⟩, ?_⟩, ?_⟩
    · simpa using hstack
    · simpa using hprov
    · simpa using himported
    · refine deleted_intact h (fun x hx => by cases hx) fun x hx hd => ?_
      simp [hx, hd]

/-- **C204** If the IDs that are imported differ and a provider gives no ID or the one that was asked for, the inputs of what is imported are those that the provider has read, or, if
properties are named, the ones of these names. -/
theorem asked_properties_partial {W : World} {prev saved : List State} {imps : List Import} {i : Import} {s : State} (hn : (imps.map (·.id)).Nodup) (hi : i ∈ imps)
    (hr : ∀ r rd, W.read r (W.urn (parentOf (W.theStack prev) i) i.type i.name) i.id = some rd → rd.id = "" ∨ rd.id = i.id) (h : Imported W prev saved imps i s) :
    s.id = i.id ∧ ∃ r rd ins, W.read r (W.urn (parentOf (W.theStack prev) i) i.type i.name) i.id = some rd ∧ rd.inputs = some ins ∧
      s.inputs = if i.properties = [] then ins else W.select i.properties ins := by
  obtain ⟨r, rd, ins, outs, p, -, -, hrd, hin, -, hp, -, -, rfl⟩ := h
  have hid : (if rd.id ≠ "" then rd.id else i.id) = i.id := by
    split
    · rename_i h1
      rcases hr r rd hrd with h2 | h2
      · exact absurd h2 h1
      · exact h2
    · rfl
  refine ⟨hid, r, rd, ins, hrd, hin, ?_⟩
  rw [hid] at hp
  have : askedFor imps i.id = i.properties := by
    clear hr hrd hp
    unfold askedFor
    suffices imps.find? (fun j => j.id == i.id) = some i by rw [this]; rfl
    induction imps with
    | nil => cases hi
    | cons j l ih =>
      rw [List.map_cons, List.nodup_cons] at hn
      rcases List.mem_cons.mp hi with rfl | hi
      · simp
      · have hne : j.id ≠ i.id := fun e => hn.1 (e ▸ List.mem_map_of_mem hi)
        rw [List.find?_cons_of_neg (by simpa using hne)]
        exact ih hn.2 hi
  rw [this] at hp
  rw [hp]

/-- **C204** A provider that has been made is saved, whatever fails after it or beside it. -/
theorem made_is_saved {W : World} {prev : List State} {imps : List Import} {S : Schedule} {refs : Refs} {reqs : List Request} {steps : List State} {j : Nat} {s s' : State}
    (hk : (prev.filter (!·.delete)).length ≤ S.existing) (hst : S.stack = true) (hr : W.requests prev imps = some (.ok (refs, reqs)))
    (hp : W.provSteps (W.sort (W.distinct reqs [])) = some steps) (hj : j ∈ S.providers) (hs : steps[j]? = some s) (hm : W.made s = some s') :
    s' ∈ (W.importResources prev imps S).saved := by
  have hrun : s' ∈ run W.made steps S.providers := by
    unfold run
    exact List.mem_filterMap.mpr ⟨j, hj, by rw [hs]; exact hm⟩
  have hgo : ∀ kept base stack u, s' ∈ (World.importResources.go W prev imps S kept base stack u).saved := by
    intro kept base stack u
    unfold World.importResources.go
    rw [hr]
    simp only
    rw [hp]
    simp only
    split
    · simp [hrun]
    · split <;> simp [hrun]
  unfold World.importResources
  simp only [hst, if_true]
  rw [if_neg (by omega)]
  split
  · exact hgo _ _ _ _
  · exact hgo _ _ _ _

/-! ## A case -/

/-- A provider, `prov`, that reads everything; it calls what it is asked for as `long` by the name `short`. -/
def exWorld : World where
  env := ⟨(· == "provider"), (· == "prov")⟩
  rootType := "stack"
  typeOf u := if u = "the-stack" ∨ u = "other-stack" then "stack" else if u = "prov" then "provider" else "bucket"
  urn _ t n := if t = "provider" then "prov" else n
  stackUrn := "the-stack"
  pkg _ := "aws"
  provType _ := "provider"
  provName _ := "default"
  provInputs _ := some "{}"
  create _ := some ("p1", "{}")
  sort l := l
  read _ _ id := some ⟨if id = "long" then "short" else id, some "acl,tags", some "arn", ""⟩
  checks _ _ := true
  select p _ := ",".intercalate p
  importId _ := ""
  noProps := "{}"

def exImports : List Import := [{ type := "bucket", name := "a", id := "1", properties := ["acl"] }, { type := "bucket", name := "b", id := "2" }]
def exOlds : List State := [{ exWorld.stack with urn := "old", type := "bucket", delete := true }, { exWorld.stack with urn := "c", type := "bucket" }]

theorem exSorts : exWorld.Sorts := fun _ => .refl _

theorem exProper : Proper exWorld exOlds exImports where
  urns := by decide +kernel
  typeOf_stack := by decide +kernel
  types := by decide +kernel
  provType _ := rfl
  valid u h := by
    have : u = "prov" := by simpa [exWorld] using h
    subst this; decide +kernel
  provUrn _ := ⟨rfl, rfl⟩
  root := by decide +kernel
  stackLives := by decide +kernel
  imports := by decide +kernel
  parents := by decide +kernel

/-- Two buckets are imported next to one that there is; the second of them is read first. The one that is to be deleted goes to the end, and the stack and the provider are made. -/
example : (exWorld.importResources exOlds exImports ⟨1, true, [0], [1, 0]⟩).outcome = .ok ∧
    (exWorld.importResources exOlds exImports ⟨1, true, [0], [1, 0]⟩).saved.map (fun s => (s.urn, s.id, s.inputs)) =
      [("c", "", "{}"), ("the-stack", "", "{}"), ("prov", "p1", "{}"), ("b", "2", "acl,tags"), ("a", "1", "acl"), ("old", "", "{}")] := by decide +kernel

/-- It stops after the provider has been made. -/
example : (exWorld.importResources exOlds exImports ⟨1, true, [0], [1]⟩).outcome = .failed ∧
    (exWorld.importResources exOlds exImports ⟨1, true, [0], [1]⟩).saved.map (·.urn) = ["c", "the-stack", "prov", "b", "old"] := by decide +kernel

theorem exIntact : Intact exWorld.env exOlds ∧ Intact exWorld.env (exOlds.filter (!·.delete)) := by
  constructor
  · exact (Snapshot.verify_ok_iff exWorld.env ⟨_, []⟩).mp (by decide +kernel)
  · exact (Snapshot.verify_ok_iff exWorld.env ⟨_, []⟩).mp (by decide +kernel)

example : Intact exWorld.env (exWorld.importResources exOlds exImports ⟨1, true, [0], [1, 0]⟩).saved :=
  import_intact_partial exSorts exProper (by decide) exIntact.1 exIntact.2

example : (exImports.map (·.id)).Nodup ∧ (∀ i ∈ exImports, ∀ r rd, exWorld.read r (exWorld.urn (parentOf (exWorld.theStack exOlds) i) i.type i.name) i.id = some rd → rd.id = "" ∨ rd.id = i.id) := by
  refine ⟨by decide +kernel, fun i hi r rd h => .inr ?_⟩
  simp only [exWorld, Option.some.injEq] at h
  rw [← h]
  have : i.id ≠ "long" := by
    have h1 : ∀ i ∈ exImports, i.id ≠ "long" := by decide +kernel
    exact h1 i hi
  simp [this]

/-! ## What does not hold -/

/-- **C204** Properties are looked up by ID: if two imports have the same ID, the second one gets the inputs that the first one names. -/
theorem properties_of_another :
    ∃ s ∈ (exWorld.importResources [] [{ type := "bucket", name := "a", id := "1", properties := ["acl"] }, { type := "bucket", name := "b", id := "1", properties := ["tags"] }]
      ⟨0, true, [0], [0, 1]⟩).saved, s.urn = "b" ∧ s.inputs = exWorld.select ["acl"] "acl,tags" ∧ s.inputs ≠ exWorld.select ["tags"] "acl,tags" := by decide +kernel

/-- **C204** If the provider gives another ID than the one that was asked for, the properties that were named are forgotten: all inputs are taken. -/
theorem properties_forgotten :
    ∃ s ∈ (exWorld.importResources [] [{ type := "bucket", name := "a", id := "long", properties := ["acl"] }] ⟨0, true, [0], [0]⟩).saved,
      s.urn = "a" ∧ s.id = "short" ∧ s.inputs = "acl,tags" ∧ s.inputs ≠ exWorld.select ["acl"] "acl,tags" := by decide +kernel

/-- **C204** A parent that has the type of a stack is not looked for: what is imported below a stack that there is not has no parent, and the import ends well. -/
theorem import_below_nothing :
    (exWorld.importResources [] [{ type := "bucket", name := "a", id := "1", parent := "other-stack" }] ⟨0, true, [0], [0]⟩).outcome = .ok ∧
    ¬ Intact exWorld.env (exWorld.importResources [] [{ type := "bucket", name := "a", id := "1", parent := "other-stack" }] ⟨0, true, [0], [0]⟩).saved := by
  refine ⟨by decide +kernel, fun h => ?_⟩
  exact absurd ((Snapshot.verify_ok_iff exWorld.env ⟨_, []⟩).mpr h) (by decide +kernel)

/-- **C204** To import the same thing again is to do nothing, but not if the provider has given it another ID: then it is an error. -/
theorem import_again_fails :
    (exWorld.importResources (exWorld.importResources [] [{ type := "bucket", name := "a", id := "1" }] ⟨0, true, [0], [0]⟩).saved
      [{ type := "bucket", name := "a", id := "1" }] ⟨3, true, [0], [0]⟩).outcome = .ok ∧
    (exWorld.importResources (exWorld.importResources [] [{ type := "bucket", name := "a", id := "long" }] ⟨0, true, [0], [0]⟩).saved
      [{ type := "bucket", name := "a", id := "long" }] ⟨3, true, [0], [0]⟩).outcome = .failed := by decide +kernel

/-- **C204** A resource that there is and that is no provider, but is named as one, ends the process. -/
theorem not_a_provider_panics :
    (exWorld.importResources exOlds [{ type := "bucket", name := "a", id := "1", provider := "c" }] ⟨1, true, [0], [0]⟩).outcome = .panic := by decide +kernel

end Pulumi.Import
