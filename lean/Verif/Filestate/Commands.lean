import Verif.Filestate.Theorems
/-! # Creating, removing, renaming and updating stacks (C191 to C193) -/
namespace Pulumi.Filestate

variable {C S α β : Type}

/-! ## Creating -/

/-- **C191** If no call fails, creating a stack that is there and can be read changes nothing, and tells that it exists. -/
theorem create_exists (K : Coder C S) {gz : Bool} {keepAll : Option Nat} {s : String} {b b' : Bucket C} {p : Prog C Out} {c : C} {st : S}
    (hc : b.current s = some c) (hl : K.load c = some st) (hr : Reach false (create K gz keepAll s) b p b') :
    b' = b ∧ ∀ r, p = .done r → r = .exists := by
  have : Always false (fun b' => b' = b) (create K gz keepAll s) b fun r _ => r = .exists := by
    unfold create
    refine always_bind' (always_getStack K rfl (fun _ _ _ _ => always_pure rfl rfl) (fun h => ?_) (fun h => ?_))
    · rcases h with h | ⟨h, _⟩
      · rw [hc] at h; cases h
      · cases h
    · rcases h with h | ⟨c', h, h'⟩
      · cases h
      · rw [hc] at h; cases h; rw [hl] at h'; cases h'
  exact always_reach this hr

/-- **C191** If no call fails, creating a stack that is not there makes one that was never updated. -/
theorem create_new (K : Coder C S) {gz : Bool} {keepAll : Option Nat} {s : String} {b b' : Bucket C} {r : Out}
    (hc : b.current s = none) (hs : K.sound K.new = true) (hr : Reach false (create K gz keepAll s) b (.done r) b') :
    r = .ok ∧ b'.current s = some (K.save gz K.new) ∧ Only gz s b' := by
  have : Always false (fun _ => True) (create K gz keepAll s) b fun r b' => r = .ok ∧ b'.current s = some (K.save gz K.new) ∧ Only gz s b' := by
    have sv : Always false (fun _ => True)
        (do if ← saveStack K gz keepAll s K.new then return Out.ok else return Out.error) b
        fun r b' => r = .ok ∧ b'.current s = some (K.save gz K.new) ∧ Only gz s b' := by
      refine always_bind' (always_mono (always_saveStack false K s gz keepAll K.new b) (fun _ _ => trivial) fun r b2 _ h => ?_)
      obtain ⟨h1, h2, h3⟩ := h.2 rfl
      rw [h3, hs]
      exact always_pure trivial ⟨rfl, by rw [current_only h2]; exact h1, h2⟩
    unfold create
    refine always_bind' (always_getStack K trivial (fun c st _ h => ?_) (fun _ => sv) (fun _ => sv))
    rcases h with h | ⟨h, _⟩
    · rw [hc] at h; cases h
    · cases h
  exact (always_reach this hr).2 r rfl

/-- **C191** Creating a stack changes no file of another one. -/
theorem create_frame {φ : Bool} (K : Coder C S) {gz : Bool} {keepAll : Option Nat} {s : String} {b b' : Bucket C} {p : Prog C Out}
    (hr : Reach φ (create K gz keepAll s) b p b') (f : File) (hf : f.stack ≠ s) : b'.get f = b.get f := by
  have fr : ∀ b', Saving φ s gz (K.save gz K.new) b b' → b'.get f = b.get f := fun b' h => by
    refine h.frame f ?_ ?_ ?_ <;> intro g <;> first | (intro t e; subst e; exact hf rfl) | (intro e; subst e; exact hf rfl)
  have : Always φ (fun b' => b'.get f = b.get f) (create K gz keepAll s) b fun _ _ => True := by
    have sv : Always φ (fun b' => b'.get f = b.get f)
        (do if ← saveStack K gz keepAll s K.new then return Out.ok else return Out.error) b fun _ _ => True := by
      refine always_bind' (always_mono (always_saveStack φ K s gz keepAll K.new b) fr fun r b2 h _ => ?_)
      cases r <;> exact always_pure (fr _ h) trivial
    unfold create
    exact always_bind' (always_getStack K rfl (fun _ _ _ _ => always_pure rfl trivial) (fun _ => sv) (fun _ => sv))
  exact (always_reach this hr).1

example : demoPlain.current "dev" = some 7 ∧ demo.load 7 = some 7 := by decide
example : ∃ b', Reach false (create demo false none "prod") demoPlain (.done .ok) b' ∧ b'.current "prod" = some 0 ∧ b'.current "dev" = some 7 :=
  ⟨_, play_reach false (oks 9) _ _ (oks_ok 9), by decide⟩

/-- **C191, finding** A stack whose file cannot be read, say because it was written by a newer version or is broken, is taken for one that is
not there: creating it succeeds and writes an empty state over it. -/
theorem create_overwrites_unreadable : ∃ b', Reach false (create demo false none "dev") demoBad (.done .ok) b' ∧
    demoBad.current "dev" = some 99 ∧ b'.current "dev" = some 0 :=
  ⟨_, play_reach false (oks 9) _ _ (oks_ok 9), by decide⟩

/-- **C191, finding** So is any stack, if reading it fails once. -/
theorem create_overwrites_on_error : ∃ b', Reach true (create demo false none "dev") demoPlain (.done .ok) b' ∧
    demoPlain.current "dev" = some 7 ∧ b'.current "dev" = some 0 :=
  ⟨_, play_reach true ([.ok, .fail] ++ oks 7) _ _ (fun h => by cases h), by decide⟩

/-! ## Removing -/

theorem always_deleteAll {φ : Bool} {I : Bucket C → Prop} {l : List File} {b : Bucket C}
    (hI : ∀ b', (∀ f, f ∉ l → b'.get f = b.get f) → I b') :
    Always φ I (deleteAll l) b fun _ b' => (∀ f, f ∉ l → b'.get f = b.get f) ∧ (φ = false → ∀ f ∈ l, b'.get f = none) := by
  induction l generalizing b with
  | nil => exact ⟨hI _ (fun _ _ => rfl), fun _ _ => rfl, fun _ f hf => by cases hf⟩
  | cons g l ih =>
    unfold deleteAll
    refine always_call (hI _ fun _ _ => rfl) fun r b1 ha => ?_
    have fr : ∀ f, f ∉ g :: l → b1.get f = b.get f := fun f hf => act_frame ha f (fun h => hf (by
      simp only [Op.touches] at h; rw [h]; exact List.mem_cons_self))
    refine always_mono (ih (b := b1) fun b' h => hI b' fun f hf => ?_) (fun _ h => h) fun _ b' _ h => ⟨fun f hf => ?_, fun hφ f hf => ?_⟩
    · rw [h f (fun hm => hf (List.mem_cons_of_mem _ hm)), fr f hf]
    · rw [h.1 f (fun hm => hf (List.mem_cons_of_mem _ hm)), fr f hf]
    · by_cases hm : f ∈ l
      · exact h.2 hφ f hm
      · rcases List.mem_cons.mp hf with e | e
        · subst e
          rw [h.1 f hm]
          rcases act_delete ha with ⟨_, _, hx⟩ | hx
          · rw [hφ] at hx; cases hx
          · exact hx
        · exact absurd e hm

/-- **C192** A stack with resources is not removed unless that is forced: wherever it stops, nothing has changed. -/
theorem remove_refuses {φ : Bool} (K : Coder C S) {gz : Bool} {s : String} {b b' : Bucket C} {p : Prog C Out} {c : C} {st : S}
    (ho : Only gz s b ∨ φ = false) (hc : b.current s = some c) (hl : K.load c = some st) (he : K.empty st = false)
    (hr : Reach φ (remove K false s) b p b') : b' = b ∧ ∀ r, p = .done r → r = .notEmpty ∨ (φ = true ∧ r = .error) := by
  have : Always φ (fun b' => b' = b) (remove K false s) b fun r _ => r = .notEmpty ∨ (φ = true ∧ r = .error) := by
    unfold remove
    have hok : ∀ c' st', K.load c' = some st' → b.current s = some c' →
        Always φ (fun b' => b' = b) (if (!false && !K.empty st') = true then return Out.notEmpty
          else do if ← removeStack s then return Out.ok else return Out.error) b fun r _ => r = .notEmpty ∨ (φ = true ∧ r = .error) := by
      intro c' st' hl' hc'
      rw [hc] at hc'; cases hc'; rw [hl] at hl'; cases hl'
      rw [he]
      exact always_pure rfl (.inl rfl)
    rcases ho with ho | hφ
    · cases φ with
      | true =>
        refine always_bind' (always_getStack_only K ho rfl hok fun r hn => ?_)
        cases r with
        | ok st => exact absurd rfl (hn st)
        | notFound => exact always_pure rfl (.inr ⟨rfl, rfl⟩)
        | err => exact always_pure rfl (.inr ⟨rfl, rfl⟩)
      | false =>
        refine always_bind' (always_getStack K rfl (fun c' st' h1 h2 => ?_) (fun h => ?_) (fun h => ?_))
        · rcases h2 with h2 | ⟨h2, _⟩
          · exact hok c' st' h1 h2
          · cases h2
        · rcases h with h | ⟨h, _⟩
          · rw [hc] at h; cases h
          · cases h
        · rcases h with h | ⟨c', h, h'⟩
          · cases h
          · rw [hc] at h; cases h; rw [hl] at h'; cases h'
    · subst hφ
      refine always_bind' (always_getStack K rfl (fun c' st' h1 h2 => ?_) (fun h => ?_) (fun h => ?_))
      · rcases h2 with h2 | ⟨h2, _⟩
        · exact hok c' st' h1 h2
        · cases h2
      · rcases h with h | ⟨h, _⟩
        · rw [hc] at h; cases h
        · cases h
      · rcases h with h | ⟨c', h, h'⟩
        · cases h
        · rw [hc] at h; cases h; rw [hl] at h'; cases h'
  exact always_reach this hr

theorem get_mem {b : Bucket C} {f : File} (h : b.get f ≠ none) : f ∈ b.files.map (·.1) := by
  unfold Bucket.get at h
  generalize b.files = l at h
  induction l with
  | nil => exact absurd rfl h
  | cons x l ih =>
    by_cases e : x.1 = f
    · rw [← e]; exact List.mem_cons_self
    · refine List.mem_cons_of_mem _ (ih ?_)
      obtain ⟨k, v⟩ := x
      simp only [ConfigMap.find] at h
      rw [if_neg (fun h => e (by first | exact h | exact h.symm))] at h
      exact h

/-- Removing a stack of one state file, with every point at which it may stop: what is left, and what is not touched. -/
theorem always_removeStack {φ : Bool} {gz : Bool} {s : String} {b : Bucket C} (ho : Only gz s b) :
    Always φ (fun b' => Only gz s b' ∧ (∀ f : File, f.stack ≠ s → b'.get f = b.get f) ∧
        (φ = false → b'.content (.state s gz) = b.content (.state s gz) ∨ b'.content (.bak s gz) = b.content (.state s gz)))
      (removeStack s) b fun r b' => (φ = false → b.get (.state s gz) ≠ none → r = true ∧ b'.get (.state s gz) = none ∧
        b'.content (.bak s gz) = b.content (.state s gz) ∧ ∀ f, f.inHistory s = true → b'.get f = none) := by
  have none_inHistory : ∀ f : File, f.stack ≠ s → f.inHistory s = false := by
    intro f hf
    cases f <;> simp_all [File.inHistory, File.stack]
  unfold removeStack
  have hI0 : Only gz s b ∧ (∀ f : File, f.stack ≠ s → b.get f = b.get f) ∧
      (φ = false → b.content (.state s gz) = b.content (.state s gz) ∨ b.content (.bak s gz) = b.content (.state s gz)) :=
    ⟨ho, fun _ _ => rfl, fun _ => .inl rfl⟩
  refine always_bind' (always_stackPath hI0 fun g hg => ?_)
  have inv : ∀ b', Backed φ s g false b b' → Only gz s b' ∧ (∀ f : File, f.stack ≠ s → b'.get f = b.get f) ∧
      (φ = false → b'.content (.state s gz) = b.content (.state s gz) ∨ b'.content (.bak s gz) = b.content (.state s gz)) := by
    intro b' h
    refine ⟨?_, fun f hf => h.frame f (fun e => hf (by rw [e]; rfl)) (fun e => hf (by rw [e]; rfl)), fun hφ => ?_⟩
    · unfold Only at *
      by_cases e : g = !gz
      · subst e
        rcases h.state with h | ⟨_, h⟩
        · rw [h, ho]
        · exact h
      · rw [h.frame _ (fun h => by cases h) (fun h => e (by cases h; rfl)), ho]
    · by_cases e : g = gz
      · subst e; exact h.bak hφ
      · left
        rw [Bucket.content, h.frame _ (fun h => by cases h) (fun h => e (by cases h; rfl))]; rfl
  refine always_bind' (always_backupTarget inv fun b1 hb1 hn hk => ?_)
  have hI1 := inv b1 hb1
  refine always_call hI1 fun r b2 ha => ?_
  obtain ⟨rfl, hr⟩ := act_listHistory ha
  rcases hr with ⟨rfl, hφ⟩ | rfl
  · exact always_pure hI1 fun h => by rw [hφ] at h; cases h
  · refine always_bind' (always_mono (always_deleteAll fun b' h => ?_) (fun _ h => h) fun _ b3 hI3 h => ?_)
    · have nt : ∀ f : File, f.inHistory s = false → b'.get f = b2.get f := fun f hf => h f (fun hm => by
        rw [List.mem_filter] at hm; rw [hf] at hm; cases hm.2)
      refine ⟨?_, fun f hf => ?_, fun hφ => ?_⟩
      · have := hI1.1; unfold Only at *; rw [nt _ rfl]; exact this
      · rw [nt f (none_inHistory f hf)]; exact hI1.2.1 f hf
      · have e1 : b'.content (.state s gz) = b2.content (.state s gz) := by rw [Bucket.content, nt _ rfl]; rfl
        have e2 : b'.content (.bak s gz) = b2.content (.bak s gz) := by rw [Bucket.content, nt _ rfl]; rfl
        rw [e1, e2]; exact hI1.2.2 hφ
    · have nt : ∀ f : File, f.inHistory s = false → b3.get f = b2.get f := fun f hf => h.1 f (fun hm => by
        rw [List.mem_filter] at hm; rw [hf] at hm; cases hm.2)
      refine always_pure hI3 fun hφ hs => ?_
      have e : g = gz := by
        rcases hg with hg | ⟨hg, _⟩
        · rw [current_only ho] at hg
          by_cases e : g = gz
          · exact e
          · have e : g = !gz := by cases g <;> cases gz <;> simp_all
            subst e
            unfold Only at ho
            rw [Bucket.content, ho, Bucket.content] at hg
            cases hx : b.get (.state s gz) with
            | none => exact absurd hx hs
            | some o => rw [hx] at hg; cases hg
        · rw [hφ] at hg; cases hg
      subst e
      refine ⟨rfl, by rw [nt _ rfl]; exact hn hφ rfl, ?_, fun f hf => ?_⟩
      · have e2 : b3.content (.bak s g) = b2.content (.bak s g) := by rw [Bucket.content, nt _ rfl]; rfl
        rw [e2]
        exact (hk hφ).resolve_left hs
      · by_cases hm : b2.get f = none
        · rw [← hm]
          by_cases hin : f ∈ (b2.files.map (·.1)).filter (File.inHistory s)
          · rw [h.2 hφ f hin, hm]
          · exact h.1 f hin
        · exact h.2 hφ f (List.mem_filter.mpr ⟨get_mem hm, hf⟩)

/-- **C192** If no call fails, a stack that was removed has no state file and no history any more, its last state is in the backup, and
the files of other stacks are as they were, wherever it stops. -/
theorem remove_removes (K : Coder C S) {gz force : Bool} {s : String} {b b' : Bucket C} {c : C} {st : S}
    (ho : Only gz s b) (hc : b.current s = some c) (hl : K.load c = some st) (he : force = true ∨ K.empty st = true) {r : Out}
    (hr : Reach false (remove K force s) b (.done r) b') :
    r = .ok ∧ b'.current s = none ∧ b'.content (.bak s gz) = some c ∧ ∀ f, f.inHistory s = true → b'.get f = none := by
  have hs : b.get (.state s gz) ≠ none := fun h => by rw [current_only ho, Bucket.content, h] at hc; cases hc
  have : Always false (fun b' => Only gz s b') (remove K force s) b fun r b' =>
      r = .ok ∧ b'.get (.state s gz) = none ∧ b'.content (.bak s gz) = some c ∧ ∀ f, f.inHistory s = true → b'.get f = none := by
    unfold remove
    refine always_bind' (always_getStack K ho (fun c' st' h1 h2 => ?_) (fun h => ?_) (fun h => ?_))
    · rcases h2 with h2 | ⟨h2, _⟩
      · rw [hc] at h2; cases h2; rw [hl] at h1; cases h1
        have hcond : ¬ ((!force && !K.empty st) = true) := by
          rcases he with he | he <;> rw [he] <;> simp
        show Always false _ (if (!force && !K.empty st) = true then _ else _) _ _
        rw [if_neg hcond]
        refine always_bind' (always_mono (always_removeStack ho) (fun _ h => h.1) fun r b2 hI h => ?_)
        obtain ⟨h1, h2, h3, h4⟩ := h rfl hs
        rw [h1]
        exact always_pure hI.1 ⟨rfl, h2, by rw [h3, ← hc, current_only ho], h4⟩
      · cases h2
    · rcases h with h | ⟨h, _⟩
      · rw [hc] at h; cases h
      · cases h
    · rcases h with h | ⟨c', h, h'⟩
      · cases h
      · rw [hc] at h; cases h; rw [hl] at h'; cases h'
  obtain ⟨h1, h2⟩ := always_reach this hr
  obtain ⟨h3, h4, h5, h6⟩ := h2 r rfl
  exact ⟨h3, by rw [current_only h1, Bucket.content, h4]; rfl, h5, h6⟩

/-- **C192** Removing a stack changes no file of another one, however calls fail. -/
theorem remove_frame {φ : Bool} (K : Coder C S) {gz force : Bool} {s : String} {b b' : Bucket C} {p : Prog C Out}
    (ho : Only gz s b) (hr : Reach φ (remove K force s) b p b') (f : File) (hf : f.stack ≠ s) : b'.get f = b.get f := by
  have : Always φ (fun b' => b'.get f = b.get f) (remove K force s) b fun _ _ => True := by
    unfold remove
    refine always_bind' (always_getStack_only K ho rfl (fun c st _ _ => ?_) fun r hn => ?_)
    · show Always φ _ (if _ then _ else _) _ _
      split
      · exact always_pure rfl trivial
      · refine always_bind' (always_mono (always_removeStack ho) (fun b' h => h.2.1 f hf) fun r b2 hI _ => ?_)
        cases r <;> exact always_pure (hI.2.1 f hf) trivial
    · cases r with
      | ok st => exact absurd rfl (hn st)
      | notFound => exact always_pure rfl trivial
      | err => exact always_pure rfl trivial
  exact (always_reach this hr).1

example : Only false "dev" demoPlain ∧ demo.load 7 = some 7 ∧ demo.empty 7 = false := by decide
example : ∃ b', Reach false (remove demo true "dev") demoPlain (.done .ok) b' ∧ b'.current "dev" = none ∧ b'.content (.bak "dev" false) = some 7 ∧
    b'.files.length = 1 := ⟨_, play_reach false (oks 9) _ _ (oks_ok 9), by decide⟩

/-- **C192, finding** That the state file could not be deleted is ignored: removing a stack reports success and the stack is still there. -/
theorem remove_reports_success : ∃ b', Reach true (remove demo true "dev") demoPlain (.done .ok) b' ∧ b'.current "dev" = some 7 :=
  ⟨_, play_reach true ([.ok, .ok, .ok, .ok, .fail] ++ oks 4) _ _ (fun h => by cases h), by decide⟩

/-- **C192, finding** Of a stack with a plain and a compressed file, as `switching_stale` leaves it, only the newer one is removed: the stack is
there again with the older state, although no call failed. -/
theorem remove_uncovers : ∃ b', Reach false (remove demo true "dev") ⟨[(.state "dev" false, ⟨8, 2⟩), (.state "dev" true, ⟨7, 1⟩)], 2⟩
    (.done .ok) b' ∧ b'.current "dev" = some 7 :=
  ⟨_, play_reach false (oks 9) _ _ (oks_ok 9), by decide⟩

end Pulumi.Filestate
