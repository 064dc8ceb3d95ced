import Verif.StepGen.Protect
/-!
# Updates with targets
-/
namespace Pulumi.StepGen
open Pulumi.Snapshot (State Provider Ref)
open Pulumi.DepGraph (Seen oldOf Parsed Later)

/-- The resources that are chosen by `--target`, and with `--target-dependents` what depends on them, is their child or has them for
its provider. -/
inductive Chosen (o : Opts) (es : List Ev) (T : List String) : String → Prop where
  | target {u} : u ∈ T → Chosen o es T u
  | child {g parent} : o.targetDependents = true → Ev.register g ∈ es → parent ≠ "" → Chosen o es T parent →
      Chosen o es T (o.urnOf parent g.type g.name)
  | dependent {g parent d} : o.targetDependents = true → Ev.register g ∈ es → d ∈ g.deps → Chosen o es T d →
      Chosen o es T (o.urnOf parent g.type g.name)
  | provided {g parent} {r : Ref} : o.targetDependents = true → Ev.register g ∈ es → g.provider = .ref r → Chosen o es T r.urn →
      Chosen o es T (o.urnOf parent g.type g.name)

/-- The URN of the resource the step creates, updates, replaces, imports or reads. -/
def Step.touches : Step → Option String
  | .create u => some u
  | .createReplacement _ u _ => some u
  | .replace _ u _ => some u
  | .update _ u => some u
  | .importNew u => some u
  | .importReplacement _ u => some u
  | .read _ u => some u
  | .readReplacement _ u => some u
  | _ => none

/-- Why a resource that was not chosen may be touched: it is read or imported, it is a provider that is not there, the checkpoint has it
as one that was read, or it was deleted ahead of a replacement. -/
inductive Excused (p : Prev) (o : Opts) (es : List Ev) (l : List Step) : String → Prop where
  | read {r parent} : Ev.read r ∈ es → Excused p o es l (o.urnOf parent r.type r.name)
  | imported {g parent} : Ev.register g ∈ es → g.custom = true → g.id ≠ "" → Excused p o es l (o.urnOf parent g.type g.name)
  | provider {g parent} : Ev.register g ∈ es → o.isProviderType g.type = true → Excused p o es l (o.urnOf parent g.type g.name)
  | wasRead {i s u} : p.rs[i]? = some s → s.external = true → Step.createReplacement i u true ∈ l → Excused p o es l u
  | deleted {i s u} : p.rs[i]? = some s → s.urn = u → Step.deleteReplacement i true ∈ l → Excused p o es l u

theorem Chosen.mono {o : Opts} {es es' : List Ev} {T : List String} (h : ∀ e ∈ es, e ∈ es') {u : String} (hc : Chosen o es T u) :
    Chosen o es' T u := by
  induction hc with
  | target h1 => exact .target h1
  | child h1 h2 h3 _ ih => exact .child h1 (h _ h2) h3 ih
  | dependent h1 h2 h3 _ ih => exact .dependent h1 (h _ h2) h3 ih
  | provided h1 h2 h3 _ ih => exact .provided h1 (h _ h2) h3 ih

theorem Excused.mono {p : Prev} {o : Opts} {es es' : List Ev} {l l' : List Step} (h : ∀ e ∈ es, e ∈ es') (hl : ∀ x ∈ l, x ∈ l')
    {u : String} (hc : Excused p o es l u) : Excused p o es' l' u := by
  cases hc with
  | read h1 => exact .read (h _ h1)
  | imported h1 h2 h3 => exact .imported (h _ h1) h2 h3
  | provider h1 h2 => exact .provider (h _ h1) h2
  | wasRead h1 h2 h3 => exact .wasRead h1 h2 (hl _ h3)
  | deleted h1 h2 h3 => exact .deleted h1 h2 (hl _ h3)

theorem isTargeted_chosen {o : Opts} {es : List Ev} {T ts : List String} {st : St} (hts : st.targets = some ts)
    (hsub : ∀ u ∈ ts, Chosen o es T u) {g : Reg} (hg : Ev.register g ∈ es) {urn parent : String}
    (hu : urn = o.urnOf parent g.type g.name) (h : isTargeted o st urn parent g.deps g.provider = some true) :
    Chosen o es T urn := by
  unfold isTargeted at h
  rw [hts] at h
  simp only at h
  by_cases h1 : urn ∈ ts
  · exact hsub _ h1
  · rw [if_neg h1] at h
    by_cases h2 : (!o.targetDependents) = true
    · rw [if_pos h2] at h; cases h
    · rw [if_neg h2] at h
      have htd : o.targetDependents = true := by simpa using h2
      have hrest : ((decide (parent ≠ "") && decide (parent ∈ ts)) || g.deps.any (fun d => decide (d ≠ "") && decide (d ∈ ts))) = true →
          Chosen o es T urn := by
        intro hr
        rw [hu]
        simp only [Bool.or_eq_true, Bool.and_eq_true, decide_eq_true_eq, List.any_eq_true] at hr
        rcases hr with ⟨h3, h4⟩ | ⟨d, h3, _, h4⟩
        · exact .child htd hg h3 (hsub _ h4)
        · exact .dependent htd hg h3 (hsub _ h4)
      cases hpv : g.provider with
      | none => rw [hpv] at h; exact hrest (Option.some.inj h)
      | malformed m => rw [hpv] at h; cases h
      | ref r =>
        rw [hpv] at h
        have h := Option.some.inj h
        rw [Bool.or_eq_true] at h
        rcases h with h | h
        · rw [hu]; exact .provided htd hg hpv (hsub _ (of_decide_eq_true h))
        · exact hrest h

/-- The steps of the replacement that a resource is deleted for: its own, or that of a resource it depends on, which was chosen. -/
def ForChosen (p : Prev) (o : Opts) (es : List Ev) (T : List String) (l : List Step) (i : Nat) : Prop :=
  ∃ k u, Chosen o es T u ∧ Step.replace k u false ∈ l ∧ (i = k ∨ Later p.rs (fun _ => false) false k i)

theorem handle_targets {p : Prev} (hp : Parsed p.rs) {o : Opts} {T ts : List String} {es : List Ev} {pre : List Step} {st st' : St}
    {e : Ev} (he : e ∈ es) {l : List Step} (hts : st.targets = some ts) (hsub : ∀ u ∈ ts, Chosen o es T u)
    (hde : ∀ u ∈ st.deletes, ∃ i s, p.rs[i]? = some s ∧ s.urn = u ∧ Step.deleteReplacement i true ∈ pre)
    (h : handle p o st e = .steps l st') :
    (∃ ts', st'.targets = some ts' ∧ ∀ u ∈ ts', Chosen o es T u) ∧
    (∀ u ∈ st'.deletes, ∃ i s, p.rs[i]? = some s ∧ s.urn = u ∧ Step.deleteReplacement i true ∈ pre ++ l) ∧
    (∀ x ∈ l, ∀ u, x.touches = some u → Chosen o es T u ∨ Excused p o es (pre ++ l) u) ∧
    (∀ i b, Step.deleteReplacement i b ∈ l → ForChosen p o es T l i) := by
  have weaken : ∀ {ig : String → Bool} {j k : Nat}, Later p.rs ig false j k → Later p.rs (fun _ => false) false j k := by
    intro ig j k hl
    induction hl with
    | child _ _ _ _ hc _ => cases hc
    | direct h1 h2 _ h4 => exact .direct h1 h2 rfl h4
    | through _ h2 h3 _ h5 ih => exact .through ih h2 h3 rfl h5
  have hdeS : ∀ {l : List Step}, ∀ u ∈ st.deletes, ∃ i s, p.rs[i]? = some s ∧ s.urn = u ∧ Step.deleteReplacement i true ∈ pre ++ l := by
    intro l u hu
    obtain ⟨i, s, h1, h2, h3⟩ := hde u hu
    exact ⟨i, s, h1, h2, List.mem_append.mpr (.inl h3)⟩
  cases e with
  | read r =>
    obtain ⟨urn, parent, h1, h2, h3, h4⟩ := read_outcome p o st r l st' h
    refine ⟨⟨ts, by cases h4 <;> exact hts, hsub⟩, by cases h4 <;> exact hdeS, ?_, ?_⟩
    · intro x hx u hu
      right
      have : u = urn := by
        cases h4 with
        | over j t =>
          simp at hx; rcases hx with rfl | rfl <;> exact (Option.some.inj hu).symm
        | known j t => simp at hx; subst hx; exact (Option.some.inj hu).symm
        | fresh => simp at hx; subst hx; exact (Option.some.inj hu).symm
      rw [this, h2]
      exact .read he
    · intro i b hb
      cases h4 <;> simp at hb
  | register g =>
    obtain ⟨urn, parent, h1, h2, h3, h4, _⟩ := register_outcome p o st g l st' h
    have hlt : (lookedUp p (withUrn st urn) g urn).targets = some ts := by
      unfold lookedUp noteAlias
      split
      · exact hts
      · split <;> exact hts
    have hld : (lookedUp p (withUrn st urn) g urn).deletes = st.deletes := by
      unfold lookedUp noteAlias
      split
      · rfl
      · split <;> rfl
    have hch : isTargeted o (lookedUp p (withUrn st urn) g urn) urn parent g.deps g.provider = some true → Chosen o es T urn :=
      isTargeted_chosen hlt hsub he h2
    have keep : ∀ {s' : St}, s'.targets = (lookedUp p (withUrn st urn) g urn).targets →
        ∃ ts', s'.targets = some ts' ∧ ∀ u ∈ ts', Chosen o es T u := fun h => ⟨ts, h.trans hlt, hsub⟩
    have add : ∀ {s' : St}, TargetsFrom o (lookedUp p (withUrn st urn) g urn) s' g urn parent →
        ∃ ts', s'.targets = some ts' ∧ ∀ u ∈ ts', Chosen o es T u := by
      intro s' h
      rcases h with h | ⟨h, h'⟩
      · exact keep h
      · rw [hlt] at h'
        refine ⟨urn :: ts, h', fun u hu => ?_⟩
        rcases List.mem_cons.mp hu with hu | hu
        · rw [hu]; exact hch h
        · exact hsub u hu
    have imp : isImport p g (oldFor p urn g.aliases) = true → Excused p o es (pre ++ l) urn := by
      intro hi
      unfold isImport at hi
      simp only [Bool.and_eq_true, decide_eq_true_eq] at hi
      rw [h2]
      exact .imported he hi.1.1 hi.1.2
    cases h4 with
    | importFresh _ hi _ ht c =>
      refine ⟨keep ht, by rw [c.deletes, hld]; exact hdeS, fun x hx u hu => ?_, fun i b hb => by simp at hb⟩
      simp at hx; subst hx
      rw [← Option.some.inj hu]
      exact .inr (imp hi)
    | importOver _ j t hi _ _ _ ht c =>
      refine ⟨keep ht, by rw [c.deletes, hld]; exact hdeS, fun x hx u hu => ?_, fun i b hb => by simp at hb⟩
      simp at hx
      have : urn = u := by rcases hx with rfl | rfl <;> exact Option.some.inj hu
      rw [← this]
      exact .inr (imp hi)
    | recreate _ j t hm _ _ ht c =>
      rw [hld] at hm
      refine ⟨keep ht, ?_, fun x hx u hu => ?_, fun i b hb => by simp at hb⟩
      · rw [c.deletes, hld]
        intro u hu
        exact hdeS u (List.mem_filter.mp hu).1
      · simp at hx
        have : urn = u := by rcases hx with rfl | rfl <;> exact Option.some.inj hu
        rw [← this]
        obtain ⟨i, s, h1, h2, h3⟩ := hdeS urn hm
        exact .inr (.deleted h1 h2 h3)
    | external _ j t _ ho hx' _ ht c =>
      refine ⟨keep ht, by rw [c.deletes, hld]; exact hdeS, fun x hx u hu => ?_, fun i b hb => by simp at hb⟩
      simp at hx
      have : urn = u := by rcases hx with rfl | rfl <;> exact Option.some.inj hu
      rw [← this]
      have hs : p.rs[j]? = some t := by
        unfold oldFor at ho
        cases hf : findOld p (urn :: g.aliases) with
        | none => rw [hf] at ho; cases ho
        | some f =>
          rw [hf] at ho
          simp only [Option.bind_some] at ho
          cases hr : p.rs[f.2]? with
          | none => rw [hr] at ho; cases ho
          | some s =>
            rw [hr] at ho
            simp only [Option.map_some, Option.some.injEq, Prod.mk.injEq] at ho
            rw [← ho.1, hr, ho.2]
      exact .inr (.wasRead hs hx' (by simp))
    | same _ j t _ _ _ _ ht c =>
      refine ⟨add ht, by rw [c.deletes, hld]; exact hdeS, fun x hx u hu => ?_, fun i b hb => by simp at hb⟩
      simp at hx; subst hx; cases hu
    | update _ j t _ _ _ _ hi ht c =>
      refine ⟨add ht, by rw [c.deletes, hld]; exact hdeS, fun x hx u hu => ?_, fun i b hb => by simp at hb⟩
      simp at hx; subst hx
      rw [← Option.some.inj hu]
      exact .inl (hch hi)
    | before _ s₁ s₂ j t l _ ho _ _ hi _ c1 hc ht c =>
      have hs : p.rs[j]? = some t := by
        unfold oldFor at ho
        cases hf : findOld p (urn :: g.aliases) with
        | none => rw [hf] at ho; cases ho
        | some f =>
          rw [hf] at ho
          simp only [Option.bind_some] at ho
          cases hr : p.rs[f.2]? with
          | none => rw [hr] at ho; cases ho
          | some s =>
            rw [hr] at ho
            simp only [Option.map_some, Option.some.injEq, Prod.mk.injEq] at ho
            rw [← ho.1, hr, ho.2]
      obtain ⟨is, cond, hq, _, hlater⟩ := condemnDependents_spec p hp o s₁ j t hs l s₂ hc
      refine ⟨add ht, ?_, fun x hx u hu => ?_, fun i b hb => ?_⟩
      · rw [c.deletes]
        intro u hu
        rcases (hq.deletes u).mp hu with hu | ⟨k, hk, s, h1, h2⟩
        · rw [c1.deletes, hld] at hu
          exact hdeS u hu
        · refine ⟨k, s, h1, h2, ?_⟩
          rw [hq.steps]
          simp [hk]
      · rw [hq.steps] at hx
        simp at hx
        have : urn = u := by
          rcases hx with ⟨k, _, rfl⟩ | rfl | rfl | rfl
          · cases hu
          · cases hu
          · exact Option.some.inj hu
          · exact Option.some.inj hu
        rw [← this]
        exact .inl (hch hi)
      · refine ⟨j, urn, hch hi, by simp, ?_⟩
        rw [hq.steps] at hb
        simp at hb
        rcases hb with ⟨k, hb, rfl, _⟩ | ⟨hb, _⟩
        · exact .inr (weaken (hlater k (hq.sub.subset hb)))
        · exact .inl hb
    | after _ j t _ _ _ _ hi _ ht c =>
      refine ⟨add ht, by rw [c.deletes, hld]; exact hdeS, fun x hx u hu => ?_, fun i b hb => by simp at hb⟩
      simp at hx
      have : urn = u := by rcases hx with rfl | rfl <;> exact Option.some.inj hu
      rw [← this]
      exact .inl (hch hi)
    | skip _ _ _ _ ht c =>
      refine ⟨keep ht, by rw [c.deletes, hld]; exact hdeS, fun x hx u hu => ?_, fun i b hb => by simp at hb⟩
      simp at hx; subst hx; cases hu
    | create _ _ _ hi ht c =>
      refine ⟨add ht, by rw [c.deletes, hld]; exact hdeS, fun x hx u hu => ?_, fun i b hb => by simp at hb⟩
      simp at hx; subst hx
      rw [← Option.some.inj hu]
      rcases hi with hi | hi
      · exact .inl (hch hi)
      · right; rw [h2]; exact .provider he hi

theorem handleAll_targets {p : Prev} (hp : Parsed p.rs) {o : Opts} {T : List String} {all : List Ev} :
    ∀ (es : List Ev) (pre : List Step) (st : St) (ts : List String) (l : List Step) (st' : St), (∀ e ∈ es, e ∈ all) →
    st.targets = some ts → (∀ u ∈ ts, Chosen o all T u) →
    (∀ u ∈ st.deletes, ∃ i s, p.rs[i]? = some s ∧ s.urn = u ∧ Step.deleteReplacement i true ∈ pre) →
    handleAll p o st es = .steps l st' →
    (∀ x ∈ l, ∀ u, x.touches = some u → Chosen o all T u ∨ Excused p o all (pre ++ l) u) ∧
    (∀ i b, Step.deleteReplacement i b ∈ l → ForChosen p o all T l i) := by
  intro es
  induction es with
  | nil =>
    intro pre st ts l st' _ _ _ _ h
    simp only [handleAll] at h
    injection h with h1 h2
    subst h1
    exact ⟨fun x hx => (by cases hx), fun i b hb => (by cases hb)⟩
  | cons e es ih =>
    intro pre st ts l st' hall hts hsub hde h
    obtain ⟨l₁, st₁, l₂, h1, h2, h3⟩ := handleAll_cons h
    obtain ⟨⟨ts', a1, a2⟩, b, c, d⟩ := handle_targets hp (hall e List.mem_cons_self) hts hsub hde h1
    obtain ⟨c', d'⟩ := ih (pre ++ l₁) st₁ ts' l₂ st' (fun e he => hall e (List.mem_cons_of_mem _ he)) a1 a2 b h2
    subst h3
    refine ⟨fun x hx u hu => ?_, fun i b' hb => ?_⟩
    · rcases List.mem_append.mp hx with hx | hx
      · rcases c x hx u hu with h | h
        · exact .inl h
        · exact .inr (h.mono (fun _ h => h) (fun x hx => by
            rw [← List.append_assoc]; exact List.mem_append.mpr (.inl hx)))
      · rw [← List.append_assoc]; exact c' x hx u hu
    · rcases List.mem_append.mp hb with hb | hb
      · obtain ⟨k, u, h1, h2, h3⟩ := d i b' hb
        exact ⟨k, u, h1, List.mem_append.mpr (.inl h2), h3⟩
      · obtain ⟨k, u, h1, h2, h3⟩ := d' i b' hb
        exact ⟨k, u, h1, List.mem_append.mpr (.inr h2), h3⟩

/-- C160: in an update with targets, the program's events only create, update, replace, import or read resources that were chosen, but
for reads, imports, providers that are not there yet, resources that were read before and now are the program's own, and those that
were deleted ahead of a replacement.

What is missing (`_partial`): the exceptions; each is real, see the examples below. -/
theorem targeted_updates_touch_what_was_chosen_partial (p : Prev) (hp : Parsed p.rs) (o : Opts) (T : List String) (es : List Ev)
    (l : List Step) (st : St) (h : handleAll p o (initial p (some T)) es = .steps l st) (x : Step) (hx : x ∈ l) (u : String)
    (hu : x.touches = some u) : Chosen o es T u ∨ Excused p o es l u := by
  have := (handleAll_targets hp es [] (initial p (some T)) T l st (fun _ h => h) rfl (fun u hu => .target hu)
    (fun u hu => by cases hu) h).1 x hx u hu
  simpa using this

/-- C160: a resource is deleted while the program runs only for the replacement of a resource that was chosen: it is that resource, or
depends on it. -/
theorem targeted_updates_delete_for_what_was_chosen (p : Prev) (hp : Parsed p.rs) (o : Opts) (T : List String) (es : List Ev)
    (l : List Step) (st : St) (h : handleAll p o (initial p (some T)) es = .steps l st) (i : Nat) (b : Bool)
    (hd : Step.deleteReplacement i b ∈ l) :
    ∃ k u, Chosen o es T u ∧ Step.replace k u false ∈ l ∧ (i = k ∨ Later p.rs (fun _ => false) false k i) :=
  (handleAll_targets hp es [] (initial p (some T)) T l st (fun _ h => h) rfl (fun u hu => .target hu)
    (fun u hu => by cases hu) h).2 i b hd

/-- The steps of an event, for examples -/
def Made.list : Made → Option (List Step)
  | .steps l _ => some l
  | _ => none

/-- `b` would be updated and `c` created, but only `a` is a target; with `--target-dependents`, so is `c`, which depends on it. -/
example : (handleAll (prevOf [res "a", res "b"]) plainOpts (initial (prevOf [res "a", res "b"]) (some ["a"]))
    [.register (reg "a" (answer .some false false)), .register (reg "b" (answer .some false false)),
     .register { reg "c" with deps := ["a"] }]).list = some [.update 0 "a", .same 1 "b", .skippedCreate "c"] ∧
    (handleAll (prevOf [res "a", res "b"]) { plainOpts with targetDependents := true }
      (initial (prevOf [res "a", res "b"]) (some ["a"]))
    [.register (reg "a" (answer .some false false)), .register (reg "b" (answer .some false false)),
     .register { reg "c" with deps := ["a"] }]).list = some [.update 0 "a", .same 1 "b", .create "c"] := by decide +kernel

/-- The exceptions: a provider, a read, an import, what was read before, and `e`, which was deleted ahead of the replacement of `a`. -/
example : (handleAll (prevOf [res "a", { res "d" with external := true }, res "e" ["a"]]) plainOpts
    (initial (prevOf [res "a", { res "d" with external := true }, res "e" ["a"]]) (some ["a"]))
    [.register { reg "p" with type := "provider" }, .read { type := "t", name := "r", parent := "", id := "7" },
     .register { reg "i" with id := "8" }, .register (reg "d"), .register (reg "a" (answer .some true true)),
     .register (reg "e")]).list =
    some [.create "p", .read none "r", .importNew "i", .createReplacement 1 "d" true, .replace 1 "d" true,
      .deleteReplacement 2 true, .deleteReplacement 0 true, .replace 0 "a" false, .createReplacement 0 "a" false,
      .replace 2 "e" false, .createReplacement 2 "e" false] := by decide +kernel

/-- An update with targets goes on being one. -/
theorem handle_targeted {p : Prev} {o : Opts} {st st' : St} {e : Ev} {l : List Step} (h : handle p o st e = .steps l st')
    (hs : st.targets ≠ none) : st'.targets ≠ none := by
  cases e with
  | read r =>
    obtain ⟨urn, parent, _, _, _, h4⟩ := read_outcome p o st r l st' h
    cases h4 <;> exact hs
  | register g =>
    obtain ⟨urn, parent, h1, h2, h3, h4, _⟩ := register_outcome p o st g l st' h
    have hl : (lookedUp p (withUrn st urn) g urn).targets = st.targets := by
      unfold lookedUp noteAlias
      split
      · rfl
      · split <;> rfl
    have tf : TargetsFrom o (lookedUp p (withUrn st urn) g urn) st' g urn parent → st'.targets ≠ none := by
      intro h
      rcases h with h | ⟨_, h⟩
      · rw [h, hl]; exact hs
      · rw [h, hl]; simpa using hs
    cases h4 with
    | importFresh _ _ _ ht => exact tf (.inl ht)
    | importOver _ _ _ _ _ _ _ ht => exact tf (.inl ht)
    | recreate _ _ _ _ _ _ ht => exact tf (.inl ht)
    | external _ _ _ _ _ _ _ ht => exact tf (.inl ht)
    | same _ _ _ _ _ _ _ ht => exact tf ht
    | update _ _ _ _ _ _ _ _ ht => exact tf ht
    | before _ _ _ _ _ _ _ _ _ _ _ _ _ _ ht => exact tf ht
    | after _ _ _ _ _ _ _ _ _ ht => exact tf ht
    | skip _ _ _ _ ht => exact tf (.inl ht)
    | create _ _ _ _ ht => exact tf ht

theorem condemn_skipped (p : Prev) : ∀ (is : List Nat) (st : St) (l : List Step) (st' : St),
    condemn p is st = some (l, st') → st'.skipped = st.skipped := by
  intro is
  induction is with
  | nil => intro st l st' h; simp only [condemn, Option.some.injEq, Prod.mk.injEq] at h; rw [← h.2]
  | cons i is ih =>
    intro st l st' h
    simp only [condemn] at h
    cases hs : p.rs[i]? with
    | none => rw [hs] at h; cases h
    | some s =>
      rw [hs] at h
      simp only at h
      by_cases hd : s.urn ∈ st.deletes
      · rw [if_pos hd] at h; exact ih st l st' h
      · rw [if_neg hd] at h
        by_cases hx : isDelete p st i = true
        · rw [if_pos hx] at h; cases h
        · rw [if_neg hx] at h
          split at h
          · cases h
          · next l' st'' hc =>
            simp only [Option.some.injEq, Prod.mk.injEq] at h
            rw [← h.2]
            have := ih _ _ _ hc
            exact this

theorem replaceSteps_skipped (p : Prev) (o : Opts) (st : St) (urn : String) (i : Nat) (dbr : Bool) (l : List Step) (st' : St)
    (h : replaceSteps p o st urn i dbr = .steps l st') : st'.skipped = st.skipped := by
  unfold replaceSteps at h
  split at h
  · split at h
    · cases h
    · cases h
    · next l' st₁ hc =>
      split at h
      · cases h
      · injection h with _ h
        rw [← h]
        change st₁.skipped = st.skipped
        unfold condemnDependents at hc
        split at hc
        · injection hc with hc; injection hc with hc
          simp only [Prod.mk.injEq] at hc
          rw [← hc.2]
        · split at hc
          · cases hc
          · injection hc with hc; cases hc
          · next deps _ =>
            cases hcc : condemn p deps.reverse st with
            | none => rw [hcc] at hc; cases hc
            | some x =>
              rw [hcc] at hc
              simp only [Option.map_some, Option.some.injEq, Except.ok.injEq] at hc
              rw [hc] at hcc
              exact condemn_skipped p _ _ _ _ hcc
  · split at h
    · cases h
    · injection h with _ h
      rw [← h]

theorem stepsFromDiff_skipped (p : Prev) (o : Opts) (st : St) (g : Reg) (urn : String) (i : Nat) (s : State) (prov : Bool)
    (l : List Step) (st' : St) (h : stepsFromDiff p o st g urn i s prov = .steps l st') : st'.skipped = st.skipped := by
  rcases stepsFromDiff_cases p o st g urn i s prov l st' h with ⟨_, rfl⟩ | ⟨_, _, rfl⟩ | ⟨_, dbr, hr⟩
  · rfl
  · rfl
  · have := replaceSteps_skipped p o _ urn i dbr l st' hr
    exact this

/-- What is skipped is remembered. -/
theorem chooseSteps_skipped (p : Prev) (o : Opts) (st : St) (g : Reg) (urn parent : String) (old : Option (Nat × State))
    (prov : Bool) (l : List Step) (st' : St) (h : chooseSteps p o st g urn parent old prov = .steps l st') :
    ∀ u, u ∈ st.skipped ∨ Step.skippedCreate u ∈ l → u ∈ st'.skipped := by
  have quiet : ∀ {l : List Step} {s' : St}, s'.skipped = st.skipped → (∀ u, Step.skippedCreate u ∉ l) →
      ∀ u, u ∈ st.skipped ∨ Step.skippedCreate u ∈ l → u ∈ s'.skipped := by
    intro l s' h1 h2 u hu
    rcases hu with hu | hu
    · rw [h1]; exact hu
    · exact absurd hu (h2 u)
  have same : ∀ {s₀ : St} {i : Nat}, s₀.skipped = st.skipped → sameStep p s₀ urn i = .steps l st' →
      ∀ u, u ∈ st.skipped ∨ Step.skippedCreate u ∈ l → u ∈ st'.skipped := by
    intro s₀ i hs₀ h
    unfold sameStep at h
    split at h
    · cases h
    · injection h with h1 h2
      subst h1; subst h2
      exact quiet hs₀ (by simp)
  unfold chooseSteps at h
  split at h
  · split at h
    · cases h
    · split at h
      · cases h
      · injection h with h1 h2
        subst h1; subst h2
        exact quiet rfl (by simp)
  · split at h
    · next i s =>
      split at h
      · split at h
        · cases h
        · injection h with h1 h2
          subst h1; subst h2
          exact quiet rfl (by simp)
      · split at h
        · cases h
        · exact same rfl h
        · cases hd : stepsFromDiff p o (addTarget st urn true) g urn i s prov with
          | error e => rw [hd] at h; cases h
          | bail => rw [hd] at h; cases h
          | crash => rw [hd] at h; cases h
          | steps l₁ st₁ =>
            rw [hd] at h
            have hk : st₁.skipped = st.skipped := by
              have := stepsFromDiff_skipped p o _ g urn i s prov l₁ st₁ hd
              exact this
            cases l₁ with
            | nil => exact same hk h
            | cons x xs =>
              simp only at h
              injection h with h1 h2
              subst h1; subst h2
              refine quiet hk ?_
              intro u hu
              rcases stepsFromDiff_cases p o _ g urn i s prov _ _ hd with ⟨hl, _⟩ | ⟨hl, _⟩ | ⟨_, dbr, hr⟩
              · cases hl
              · rw [hl] at hu; simp at hu
              · unfold replaceSteps at hr
                split at hr
                · split at hr
                  · cases hr
                  · cases hr
                  · next l' s₂ hc =>
                    split at hr
                    · cases hr
                    · injection hr with hr _
                      obtain ⟨_, cond, hq⟩ := condemnDependents_shape _ _ _ _ _ _ hc
                      rw [← hr, hq.steps] at hu
                      simp at hu
                · split at hr
                  · cases hr
                  · injection hr with hr _
                    rw [← hr] at hu
                    simp at hu
    · split at h
      · cases h
      · split at h
        · injection h with h1 h2
          subst h1; subst h2
          intro u hu
          rcases hu with hu | hu
          · exact List.mem_cons_of_mem _ hu
          · simp at hu; rw [hu]; exact List.mem_cons_self
        · injection h with h1 h2
          subst h1; subst h2
          refine quiet ?_ (by simp)
          change (addTarget st urn _).skipped = _
          unfold addTarget
          split <;> rfl

theorem generateSteps_skipped (p : Prev) (o : Opts) (st : St) (g : Reg) (l : List Step) (st' : St)
    (h : generateSteps p o st g = .steps l st') : ∀ u, u ∈ st.skipped ∨ Step.skippedCreate u ∈ l → u ∈ st'.skipped := by
  unfold generateSteps at h
  split at h
  · cases h
  · split at h
    · cases h
    · next urn st₁ hu =>
      have h1 : st₁.skipped = st.skipped := by rw [(generateURN_some o st _ _ _ _ _ hu).2]; rfl
      unfold settled at h
      have h2 : (noteAlias st₁ urn (findOld p (urn :: g.aliases))).1.skipped = st.skipped := by
        rw [← h1]
        unfold noteAlias
        split
        · rfl
        · split <;> rfl
      simp only at h
      split at h
      · cases h
      · cases h
      · split at h
        · unfold importSteps at h
          have quiet : ∀ {l : List Step} {s' : St}, s'.skipped = st.skipped → (∀ u, Step.skippedCreate u ∉ l) →
              ∀ u, u ∈ st.skipped ∨ Step.skippedCreate u ∈ l → u ∈ s'.skipped := by
            intro l s' h1 h2 u hu
            rcases hu with hu | hu
            · rw [h1]; exact hu
            · exact absurd hu (h2 u)
          split at h
          · split at h
            · injection h with a b; subst a; subst b; exact quiet h2 (by simp)
            · split at h
              · cases h
              · injection h with a b; subst a; subst b; exact quiet h2 (by simp)
          · injection h with a b; subst a; subst b; exact quiet h2 (by simp)
        · split at h
          · cases h
          · cases h
          · split at h
            · cases h
            · intro u hu
              exact chooseSteps_skipped _ _ _ _ _ _ _ _ _ _ h u (by
                rcases hu with hu | hu
                · left; rw [h2]; exact hu
                · exact .inr hu)

theorem handleAll_skipped (p : Prev) (o : Opts) (hpre : o.preview = false) : ∀ (es : List Ev) (st : St) (l : List Step) (st' : St),
    handleAll p o st es = .steps l st' → ∀ u, u ∈ st.skipped ∨ Step.skippedCreate u ∈ l → u ∈ st'.skipped := by
  intro es
  induction es with
  | nil =>
    intro st l st' h u hu
    simp only [handleAll] at h
    injection h with h1 h2
    subst h1; subst h2
    rcases hu with hu | hu
    · exact hu
    · cases hu
  | cons e es ih =>
    intro st l st' h u hu
    obtain ⟨l₁, st₁, l₂, h1, h2, h3⟩ := handleAll_cons h
    have hone : ∀ u, u ∈ st.skipped ∨ Step.skippedCreate u ∈ l₁ → u ∈ st₁.skipped := by
      cases e with
      | read r =>
        obtain ⟨urn, parent, _, _, _, h4⟩ := read_outcome p o st r l₁ st₁ h1
        intro v hv
        rcases hv with hv | hv
        · cases h4 <;> exact hv
        · cases h4 <;> simp at hv
      | register g =>
        change generateStepsChecked p o st g = _ at h1
        unfold generateStepsChecked at h1
        cases hm : generateSteps p o st g with
        | error e => rw [hm] at h1; cases h1
        | bail => rw [hm] at h1; cases h1
        | crash => rw [hm] at h1; cases h1
        | steps l₀ st₀ =>
          rw [hm] at h1
          simp only at h1
          split at h1
          · rw [hpre] at h1; cases h1
          · injection h1 with a b
            subst a; subst b
            exact generateSteps_skipped p o st g _ _ hm
    rw [h3] at hu
    refine ih st₁ l₂ st' h2 u ?_
    rcases hu with hu | hu
    · exact .inl (hone u (.inl hu))
    · rcases List.mem_append.mp hu with hu | hu
      · exact .inl (hone u (.inr hu))
      · exact .inr hu

/-- C160: nothing that is made in an update with targets depends on a resource whose creation was skipped before: the update fails
instead. (A preview tells of the error and goes on.) -/
theorem nothing_made_depends_on_what_was_skipped (p : Prev) (o : Opts) (T : List String) (es : List Ev) (g : Reg)
    (pre l : List Step) (st st' : St) (hpre : o.preview = false) (h₀ : handleAll p o (initial p (some T)) es = .steps pre st)
    (h : handle p o st (.register g) = .steps l st') (x : Step) (hx : x ∈ l)
    (u : String) (hu : x.touches = some u) (d : String) (hd : d ∈ g.deps) : Step.skippedCreate d ∉ pre := by
  intro hsk₀
  have hsk₁ : d ∈ st.skipped := handleAll_skipped p o hpre es _ pre st h₀ d (.inr hsk₀)
  have hts : st'.targets ≠ none := by
    have htar : ∀ (es : List Ev) (st : St) (l : List Step) (st' : St), st.targets ≠ none →
        handleAll p o st es = .steps l st' → st'.targets ≠ none := by
      intro es
      induction es with
      | nil =>
        intro st l st' hs h
        simp only [handleAll] at h
        injection h with h1 h2
        subst h2
        exact hs
      | cons e es ih =>
        intro st l st' hs h
        obtain ⟨l₁, st₁, l₂, h1, h2, h3⟩ := handleAll_cons h
        exact ih st₁ l₂ st' (handle_targeted h1 hs) h2
    exact handle_targeted h (htar es _ pre st (by simp [initial]) h₀)
  change generateStepsChecked p o st g = _ at h
  unfold generateStepsChecked at h
  cases hm : generateSteps p o st g with
  | error e => rw [hm] at h; cases h
  | bail => rw [hm] at h; cases h
  | crash => rw [hm] at h; cases h
  | steps l₀ st₀ =>
    rw [hm] at h
    simp only at h
    by_cases hc : (isTargetedUpdate o st₀ && l₀.any Step.changes && g.deps.any (fun d => decide (d ∈ st₀.skipped))) = true
    · rw [if_pos hc, hpre] at h; cases h
    · rw [if_neg hc] at h
      injection h with h1 h2
      subst h1; subst h2
      have hsk := generateSteps_skipped p o st g _ _ hm d (.inl hsk₁)
      apply hc
      have h1 : isTargetedUpdate o st₀ = true := by
        unfold isTargetedUpdate
        cases ht : st₀.targets with
        | none => exact absurd ht hts
        | some t => rfl
      have h2 : l₀.any Step.changes = true := List.any_eq_true.mpr ⟨x, hx, by cases x <;> first | rfl | cases hu⟩
      have h3 : g.deps.any (fun d => decide (d ∈ st₀.skipped)) = true := List.any_eq_true.mpr ⟨d, hd, by simpa using hsk⟩
      rw [h1, h2, h3]; rfl

example : (handleAll (prevOf []) plainOpts (initial (prevOf []) (some ["b"]))
    [.register (reg "a"), .register { reg "b" with deps := ["a"] }]) = Made.bail ∧
    (handleAll (prevOf []) plainOpts (initial (prevOf []) (some ["b"]))
    [.register (reg "a"), .register (reg "b")]).list = some [.skippedCreate "a", .create "b"] := ⟨rfl, rfl⟩

end Pulumi.StepGen
