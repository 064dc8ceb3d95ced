import Verif.Steps.Apply
/-
The execution of a step: secrets in its outputs, what is written to the checkpoint, and when the program hears of it.
-/
namespace Pulumi.Steps

/-! ## Secret outputs -/

theorem mark_keys (m : Props) (k : String) : (mark m k).map Prod.fst = m.map Prod.fst := by
  unfold mark
  rw [List.map_map]
  apply List.map_congr_left
  intro e _
  simp only [Function.comp]
  split <;> rfl

theorem markAll_keys (m : Props) (ks : List String) : (markAll m ks).map Prod.fst = m.map Prod.fst := by
  induction ks generalizing m with
  | nil => rfl
  | cons k ks ih =>
    rw [markAll, ih]
    split
    · rfl
    · exact mark_keys m k

/-- what the marking makes of a value -/
def sealed (ks : List String) (k : String) (v : Val) : Val :=
  if k ∈ ks ∧ k ≠ "id" ∧ v.isSecret = false then .secret v else v

/-- **Exactly the outputs named are made secret**, those that were not yet: no output is added, dropped or changed otherwise,
`id` is not made secret, and no secret is wrapped twice, however often it is named. -/
theorem markAll_eq (m : Props) (ks : List String) : markAll m ks = m.map (fun e => (e.1, sealed ks e.1 e.2)) := by
  induction ks generalizing m with
  | nil => simp [markAll, sealed]
  | cons k ks ih =>
    rw [markAll, ih]
    by_cases hk : k = "id"
    · rw [if_pos hk]
      apply List.map_congr_left
      intro e _
      subst hk
      congr 1
      unfold sealed
      by_cases he : e.1 = "id" <;> simp [he]
    · rw [if_neg hk]
      unfold mark
      rw [List.map_map]
      apply List.map_congr_left
      intro e _
      obtain ⟨k', v⟩ := e
      simp only [Function.comp]
      by_cases h1 : k' = k
      · subst h1
        cases v <;> simp [sealed, Val.isSecret, hk]
      · simp [h1, sealed]

/-! ## What is written -/

/-- **A step whose beginning cannot be written is not carried out**: nobody is asked anything -/
theorem pre_failed (preview : Bool) (prov : Except String Provider) (w : Around) (s : Step) {m : String} (h : w.pre = some m) :
    (∀ c, Ev.asked c ∉ (execute preview prov w s).1) ∧ (execute preview prov w s).2 ≠ none := by
  unfold execute
  rw [h]
  simp

/-- **The beginning of a step is written before a provider is asked**: it is the first that happens, and happens once -/
theorem began_first (preview : Bool) (prov : Except String Provider) (w : Around) (s : Step) :
    ∃ es, (execute preview prov w s).1 = .began :: es ∧ Ev.began ∉ es := by
  unfold execute
  split
  · exact ⟨[], rfl, by simp⟩
  · simp only
    split
    · exact ⟨_, rfl, by simp⟩
    · split
      · refine ⟨_, rfl, ?_⟩
        split <;> simp
      · split
        · exact ⟨_, rfl, by simp⟩
        · refine ⟨_, rfl, ?_⟩
          split <;> simp

/-- **The program hears of a resource only after it was written, and hears what was written**: unless the update was terminated,
what the program is told is the new state of a record written before. -/
theorem told_after_recorded {preview : Bool} {prov : Except String Provider} {w : Around} {s : Step} {new : Option State}
    {pre post : List Ev} (ht : w.terminated = false) (h : (execute preview prov w s).1 = pre ++ .told new :: post) :
    post = [] ∧ (execute preview prov w s).2 = (apply preview prov s).err ∧ w.post = none ∧
    ∃ before ok old, pre = before ++ [.recorded ok old new] := by
  unfold execute at h ⊢
  split at h
  · exfalso
    rcases pre with _ | ⟨a, pre⟩
    · simp at h
    · simp at h
  · rename_i hpre
    simp only at h ⊢
    split at h
    · exfalso
      simp only at h
      have : Ev.told new ∈ Ev.began :: (apply preview prov s).calls.map .asked := by rw [h]; simp
      simp at this
    · rename_i htw
      rw [if_neg htw]
      rw [ht] at h ⊢
      simp only [Bool.false_eq_true, if_false] at h ⊢
      split at h
      · exfalso
        have hm : Ev.told new ∈ pre ++ Ev.told new :: post := by simp
        rw [← h] at hm
        simp at hm
      · rename_i hpost
        simp only [hpost]
        cases hc : (apply preview prov s).completes with
        | false =>
          exfalso
          rw [hc] at h
          have hm : Ev.told new ∈ pre ++ Ev.told new :: post := by simp
          rw [← h] at hm
          simp at hm
        | true =>
          rw [hc] at h
          simp only [if_true] at h
          have hr := congrArg List.reverse h
          simp only [List.reverse_append, List.reverse_cons, List.append_assoc] at hr
          have hno : Ev.told new ∉ (Ev.began :: (apply preview prov s).calls.map .asked) := by simp
          rcases List.eq_nil_or_concat post with hp | ⟨post', x, hp⟩
          · subst hp
            simp at hr
            obtain ⟨h1, h2⟩ := hr
            refine ⟨rfl, trivial, trivial, ?_⟩
            have h3 := congrArg List.reverse h2
            simp at h3
            exact ⟨Ev.began :: (apply preview prov s).calls.map .asked, _, _, by rw [← h1]; simpa using h3.symm⟩
          · exfalso
            subst hp
            simp at hr
            obtain ⟨_, h2⟩ := hr
            rcases List.eq_nil_or_concat post' with hp | ⟨post'', y, hp⟩
            · subst hp
              simp at h2
            · subst hp
              simp at h2
              have h3 := h2.2
              have : Ev.told new ∈ ((apply preview prov s).calls.map Ev.asked).reverse ++ [Ev.began] := by
                rw [h3]; simp
              simp at this

/-- **A success is written exactly if the step succeeded or failed in part**, and always with the states it left (the outputs
named secret), unless the update was terminated. -/
theorem recorded_spec {preview : Bool} {prov : Except String Provider} {w : Around} {s : Step} (hp : w.pre = none)
    (ht : w.terminated = false) (htw : w.twice = false) (ok : Bool) (old new : Option State) :
    Ev.recorded ok old new ∈ (execute preview prov w s).1 ↔
      (ok = true ↔ (apply preview prov s).err = none ∨ (apply preview prov s).status = .partialFailure) ∧
      old = (apply preview prov s).old ∧
      new = restore s (apply preview prov s).status (apply preview prov s).old ((apply preview prov s).new.map State.marked) := by
  have key : Ev.recorded ok old new ∈ (execute preview prov w s).1 ↔
      Ev.recorded ok old new = Ev.recorded ((apply preview prov s).err.isNone || (apply preview prov s).status == .partialFailure)
        (apply preview prov s).old
        (restore s (apply preview prov s).status (apply preview prov s).old ((apply preview prov s).new.map State.marked)) := by
    unfold execute
    simp only [hp, htw, Bool.and_false, Bool.false_eq_true, if_false, ht]
    split
    · simp
    · split <;> simp
  rw [key, Ev.recorded.injEq]
  constructor
  · rintro ⟨h1, h2, h3⟩
    refine ⟨?_, h2, h3⟩
    rw [h1]
    simp
  · rintro ⟨h1, h2, h3⟩
    refine ⟨?_, h2, h3⟩
    rw [Bool.eq_iff_iff, h1]
    simp

/-- **What is written of a resource has the outputs named secret as secrets** -/
theorem recorded_secret {preview : Bool} {prov : Except String Provider} {w : Around} {s : Step} {ok : Bool} {old : Option State}
    {n : State} (hr : Ev.recorded ok old (some n) ∈ (execute preview prov w s).1) {k : String} {v : Val}
    (hk : k ∈ n.secretOutputs) (hid : k ≠ "id") (hv : (k, v) ∈ n.outputs) : v.isSecret = true := by
  have hw : w.pre = none ∧ w.terminated = false ∧
      (∃ m, some n = restore s (apply preview prov s).status (apply preview prov s).old m ∧ m = (apply preview prov s).new.map State.marked) := by
    unfold execute at hr
    split at hr
    · simp at hr
    · rename_i hp
      simp only at hr
      split at hr
      · simp at hr
      · split at hr
        · rename_i ht
          exfalso
          split at hr <;> simp at hr
        · rename_i ht
          refine ⟨hp, by simpa using ht, _, ?_, rfl⟩
          split at hr
          · simp at hr
            exact hr.2.2
          · split at hr <;> simp at hr <;> exact hr.2.2
  obtain ⟨_, _, m, hm, hm'⟩ := hw
  have hn : ∃ a : State, n.outputs = markAll a.outputs a.secretOutputs ∧ n.secretOutputs = a.secretOutputs := by
    cases ha : (apply preview prov s).new with
    | none =>
      rw [ha] at hm'
      subst hm'
      unfold restore at hm
      split at hm
      · split at hm
        · simp_all
        · cases hm
      · cases hm
    | some a =>
      rw [ha] at hm'
      subst hm'
      unfold restore at hm
      split at hm
      · split at hm
        · rename_i o n' _ hn'
          cases hn'
          cases hm
          exact ⟨a, rfl, rfl⟩
        · cases hm
          exact ⟨a, rfl, rfl⟩
      · cases hm
        exact ⟨a, rfl, rfl⟩
  obtain ⟨a, h1, h2⟩ := hn
  rw [h1, markAll_eq, List.mem_map] at hv
  obtain ⟨e, _, he⟩ := hv
  injection he with he1 he2
  rw [h2] at hk
  rw [← he2, he1]
  unfold sealed
  cases hs : e.2.isSecret with
  | true => simp [hs]
  | false => simp [hk, hid, Val.isSecret]

/-- **An update that failed in part leaves the old inputs and the new outputs**: that is what is written, as a success, with the
old id and the reasons; and the error is passed on. -/
theorem partial_update {p : Provider} {w : Around} {old new : State} {reasons : List String} {outs : Props} (hp : w.pre = none)
    (ht : w.terminated = false) (htw : w.twice = false) (hpo : w.post = none) (hc : new.custom = true)
    (ha : p (.update new.urn old.id old.outputs new.inputs false) =
      { outputs := some outs, status := .partialFailure, err := some (.init reasons) }) :
    execute false (.ok p) w (.update old new) =
      ([.began, .asked (.update new.urn old.id old.outputs new.inputs false),
        .recorded true (some old)
          (some { new with id := old.id, inputs := old.inputs, outputs := markAll outs new.secretOutputs, initErrors := reasons }),
        .told
          (some { new with id := old.id, inputs := old.inputs, outputs := markAll outs new.secretOutputs, initErrors := reasons })],
       some (.init reasons)) := by
  unfold execute
  simp [hp, ht, htw, hpo, apply, applyUpdate, hc, ha, Answer.failed, Answer.kept, State.note, restore, Step.isUpdate, State.marked]

/-! ## What is registered twice -/

/-- **What was created is forgotten where its resource was registered before**: the provider created it, but nothing is
written.  (The step generator refuses such a registration, so that this is not met with: C156.) -/
theorem twice_is_forgotten : ∃ (p : Provider) (s : Step), (∃ c ∈ (apply false (.ok p) s).calls, c.changes = true) ∧
    ∀ ok old new, Ev.recorded ok old new ∉ (execute false (.ok p) { twice := true } s).1 := by
  refine ⟨cloud, .create none { urn := "bucket" } false false, ⟨.create "bucket" [] false, by decide, rfl⟩, ?_⟩
  intro ok old new h
  have : (execute false (.ok cloud) { twice := true } (.create none { urn := "bucket" } false false)).1 =
      [.began, .asked (.create "bucket" [] false)] := by decide
  rw [this] at h
  simp at h

/-! ## Outputs that are registered -/

/-- **The outputs a program registers replace all there were** -/
theorem registered_outputs (s : State) (outs : Props) :
    (registerOutputs s outs).outputs = outs ∧ { registerOutputs s outs with outputs := s.outputs } = s :=
  ⟨rfl, rfl⟩

/-- **The outputs a program registers are not made secret, though they are named as secret**: a component that names `key` among
its secret outputs, and registers it, has it in plain text in the checkpoint. -/
theorem registered_not_secret : ∃ (p : Provider) (new n : State) (outs : Props) (k : String) (v : Val),
    Ev.recorded true none (some n) ∈ (execute false (.ok p) {} (.create none new false false)).1 ∧
    k ∈ (registerOutputs n outs).secretOutputs ∧ k ≠ "id" ∧ (k, v) ∈ (registerOutputs n outs).outputs ∧ v.isSecret = false :=
  ⟨cloud, { urn := "site", custom := false, secretOutputs := ["key"] }, { urn := "site", custom := false, secretOutputs := ["key"] },
    [("key", .plain "k")], "key", .plain "k", by decide, by decide, by decide, by decide, rfl⟩

/-! ## The rest of what a step leaves -/

/-- the states a step begins with (`Old` and `New` in step.go) -/
def Step.old? : Step → Option State
  | .same old _ | .delete old _ | .removePendingReplace old | .update old _ | .replace old _ | .refresh old => some old
  | .create old _ _ _ | .read old _ _ => old

def Step.new? : Step → Option State
  | .same _ new | .create _ new _ _ | .update _ new | .replace _ new | .read _ new _ => some new
  | .delete .. | .removePendingReplace .. => none
  | .refresh old => some old

/-- **No step changes the old state but for the mark that it is to be deleted** -/
theorem old_kept (preview : Bool) (prov : Except String Provider) (s : Step) :
    (apply preview prov s).old = s.old? ∨ (apply preview prov s).old = s.old?.map (fun o => { o with delete := true }) := by
  have hp : ∀ (o : Option State) b, pended o b = o ∨ pended o b = o.map (fun o => { o with delete := true }) := by
    intro o b
    cases b
    · exact Or.inl rfl
    · exact Or.inr rfl
  cases s with
  | same => exact Or.inl rfl
  | create old new r d =>
    simp only [apply, applyCreate, Step.old?]
    split
    · cases prov with
      | error m => exact Or.inl rfl
      | ok p =>
        simp only
        split
        · exact Or.inl rfl
        · split
          · exact Or.inl rfl
          · exact hp _ _
    · exact hp _ _
  | delete old r =>
    left
    simp only [apply, applyDelete, Step.old?]
    repeat' split
    all_goals rfl
  | removePendingReplace => exact Or.inl rfl
  | update old new =>
    left
    simp only [apply, applyUpdate, Step.old?]
    repeat' split
    all_goals rfl
  | replace => exact Or.inl rfl
  | read old new r =>
    simp only [apply, applyRead, Step.old?]
    split
    · exact hp _ _
    · cases prov with
      | error m => exact Or.inl rfl
      | ok p =>
        simp only
        split
        · exact Or.inl rfl
        · split
          · exact Or.inl rfl
          · exact hp _ _
  | refresh old =>
    left
    simp only [apply, applyRefresh, Step.old?]
    repeat' split
    all_goals rfl

theorem note_urn (s : State) (e : Option Err) : (s.note e).urn = s.urn := by
  cases e with
  | none => rfl
  | some e => cases e <;> rfl

/-- **A step has a new state exactly if it began with one, for the same URN**; only a refresh can lose it -/
theorem new_urn (preview : Bool) (prov : Except String Provider) (s : Step) :
    (apply preview prov s).new.map State.urn = s.new?.map State.urn ∨
    (∃ old, s = .refresh old ∧ (apply preview prov s).new = none) := by
  cases s with
  | same => exact Or.inl rfl
  | create old new r d =>
    left
    simp only [apply, applyCreate, Step.new?]
    repeat' split
    all_goals simp [note_urn]
  | delete old r =>
    left
    simp only [apply, applyDelete, Step.new?]
    repeat' split
    all_goals rfl
  | removePendingReplace => exact Or.inl rfl
  | update old new =>
    left
    simp only [apply, applyUpdate, Step.new?]
    repeat' split
    all_goals simp [note_urn]
  | replace => exact Or.inl rfl
  | read old new r =>
    left
    simp only [apply, applyRead, Step.new?]
    repeat' split
    all_goals simp [note_urn]
  | refresh old =>
    cases h : (apply preview prov (.refresh old)).new with
    | none => exact Or.inr ⟨old, rfl, rfl⟩
    | some n =>
      left
      have := (refresh_keeps h).1
      simp only [Option.map_some, Step.new?]
      rw [← this]

/-- **A deletion fails only for a reason**: it succeeds where nobody has to be asked and the resource is not protected, and else
as its provider says -/
theorem delete_outcome (preview : Bool) (p : Provider) (old : State) (r : Bool) (hp : old.protect = true → r = true) :
    (apply preview (.ok p) (.delete old r)).err =
      (if (apply preview (.ok p) (.delete old r)).calls = [] then none else (p (.delete old.urn old.id old.outputs)).err) ∧
    ((apply preview (.ok p) (.delete old r)).completes = true ↔ (apply preview (.ok p) (.delete old r)).err = none) := by
  have hp' : (!r && old.protect) = false := by
    cases r <;> cases h : old.protect <;> simp_all
  simp only [apply, applyDelete, hp', Bool.false_eq_true, if_false]
  cases preview <;> cases old.external <;> cases old.retainOnDelete <;> cases old.custom <;> simp
  cases (p (.delete old.urn old.id old.outputs)).err <;> simp

/-- **What a provider reports of a read is passed on**; without a provider, or without the resource, the read fails, and the new
state is the one asked for but for the reasons given -/
theorem read_outcome (preview : Bool) (prov : Except String Provider) (old : Option State) (new : State) (r : Bool)
    (hid : new.id ≠ unknownID) :
    ((apply preview prov (.read old new r)).completes = true →
      ∃ p, prov = .ok p ∧ (apply preview prov (.read old new r)).err = (p (.read new.urn new.id [] new.inputs)).err ∧
        ((apply preview prov (.read old new r)).status = .partialFailure ↔ (p (.read new.urn new.id [] new.inputs)).err ≠ none)) ∧
    ((apply preview prov (.read old new r)).completes = false →
      (apply preview prov (.read old new r)).err ≠ none ∧
      ∃ n, (apply preview prov (.read old new r)).new = some n ∧ n.id = new.id ∧ n.outputs = new.outputs) := by
  simp only [apply, applyRead, if_neg hid]
  cases prov with
  | error m => exact ⟨(fun h => by cases h), fun _ => ⟨by simp, _, rfl, rfl, rfl⟩⟩
  | ok p =>
    simp only
    split
    · rename_i hf
      refine ⟨(fun h => by cases h), fun _ => ⟨?_, _, rfl, rfl, rfl⟩⟩
      intro h
      simp only at h
      rw [Answer.failed, h] at hf
      simp at hf
    · rename_i hf
      have he := (failed_iff _).mp (by simpa using hf)
      split
      · refine ⟨(fun h => by cases h), fun _ => ⟨by simp, _, rfl, ?_, ?_⟩⟩
        · cases (p (.read new.urn new.id [] new.inputs)).err with
          | none => rfl
          | some e => cases e <;> rfl
        · cases (p (.read new.urn new.id [] new.inputs)).err with
          | none => rfl
          | some e => cases e <;> rfl
      · refine ⟨fun _ => ⟨p, rfl, rfl, ?_⟩, (fun h => by cases h)⟩
        unfold Answer.kept
        rcases he with he | he
        · simp [he]
        · cases h : (p (.read new.urn new.id [] new.inputs)).err <;> simp [he]

/-- **A terminated update writes nothing more**, but still tells the program of what succeeded -/
theorem terminated_writes_nothing (preview : Bool) (prov : Except String Provider) (w : Around) (s : Step)
    (ht : w.terminated = true) (hp : w.pre = none) (htw : w.twice = false) :
    (∀ ok old new, Ev.recorded ok old new ∉ (execute preview prov w s).1) ∧
    ((∃ new, Ev.told new ∈ (execute preview prov w s).1) ↔ (apply preview prov s).completes = true) := by
  unfold execute
  simp only [hp, ht, htw, Bool.and_false, Bool.false_eq_true, if_false, if_true]
  constructor
  · intro ok old new
    split <;> simp
  · cases (apply preview prov s).completes <;> simp

/-- **A replacement, or a refresh, of what was registered is not taken for a second registration** -/
theorem twice_not (preview : Bool) (prov : Except String Provider) (w : Around) (old new : State) (o : Option State) (d : Bool) :
    ∀ s ∈ [Step.create o new true d, .read o new true, .refresh old, .delete old true, .delete old false, .removePendingReplace old],
      execute preview prov { w with twice := true } s = execute preview prov { w with twice := false } s := by
  intro s hs
  have hnew : ∀ r, (apply preview prov (.delete old r)).new = none := by
    intro r
    have h := new_urn preview prov (.delete old r)
    rcases h with h | ⟨_, h, _⟩
    · simpa [Step.new?] using h
    · cases h
  simp only [List.mem_cons, List.mem_nil_iff, or_false] at hs
  rcases hs with rfl | rfl | rfl | rfl | rfl | rfl <;> unfold execute <;> simp [Step.logical, hnew]

/-- and a second registration of the same resource is refused, whatever its kind -/
theorem twice_refused {preview : Bool} {prov : Except String Provider} {w : Around} {old new : State} {o : Option State} {d : Bool}
    (htw : w.twice = true) :
    ∀ s ∈ [Step.same old new, .update old new, .create o new false d, .read o new false, .replace old new],
      (execute preview prov w s).2 ≠ none := by
  intro s hs
  have hnew : (apply preview prov s).new.isSome = true := by
    simp only [List.mem_cons, List.mem_nil_iff, or_false] at hs
    rcases new_urn preview prov s with h | ⟨_, h, _⟩
    · rcases hs with rfl | rfl | rfl | rfl | rfl <;>
        (simp only [Step.new?, Option.map_some, Option.map_eq_some_iff] at h; obtain ⟨n, hn, _⟩ := h; rw [hn]; rfl)
    · rcases hs with rfl | rfl | rfl | rfl | rfl <;> cases h
  have hlog : s.logical = true := by
    simp only [List.mem_cons, List.mem_nil_iff, or_false] at hs
    rcases hs with rfl | rfl | rfl | rfl | rfl <;> rfl
  unfold execute
  split
  · simp
  · simp only
    cases he : (apply preview prov s).err with
    | none => simp [hlog, hnew, htw]
    | some e =>
      simp only [Option.isNone_some, Bool.false_and, Bool.false_eq_true, if_false]
      split
      · simp
      · split <;> simp

/-! ## Cases -/

example : execute false (.ok cloud) {} (.create none { bucket with id := "", outputs := [], inputs := [("size", .plain "3")] } false false) =
    ([.began, .asked (.create "bucket" [("size", .plain "3")] false),
      .recorded true none (some { bucket with id := "b-2", inputs := [("size", .plain "3")], outputs := [("key", .secret (.plain "k")), ("size", .plain "3")] }),
      .told (some { bucket with id := "b-2", inputs := [("size", .plain "3")], outputs := [("key", .secret (.plain "k")), ("size", .plain "3")] })],
     none) := by decide

example : (execute false (.ok cloud) { post := some "disk full" } (.create none { urn := "bucket" } false false)).2 =
    some (.other "disk full") := by decide

end Pulumi.Steps
