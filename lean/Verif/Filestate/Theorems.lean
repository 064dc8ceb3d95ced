import Verif.Filestate.Save
/-!
# What saving, creating, removing and renaming stacks do to the bucket

`Reach φ p b p' b'` says that the bucket may be `b'` while the program `p`, started on `b`, still has to do `p'`; calls fail only if
`φ` is true. So a theorem about every such `b'` holds wherever the program crashes.
-/
namespace Pulumi.Filestate

variable {C S α β : Type}

/-! ## Running programs for the examples -/

/-- What a call comes to. -/
inductive Fate
  | ok | fail | late
deriving DecidableEq

/-- The program after calls that come to this. -/
def play : List Fate → Prog C α → Bucket C → Prog C α × Bucket C
  | [], p, b => (p, b)
  | _ :: _, .done a, b => (.done a, b)
  | .ok :: l, .op o k, b => play l (k (perform (b.clock + 1) b o).1) (perform (b.clock + 1) b o).2
  | .fail :: l, .op _ k, b => play l (k .err) b
  | .late :: l, .op o k, b => play l (k .err) (perform (b.clock + 1) b o).2

theorem play_reach (φ : Bool) (l : List Fate) (p : Prog C α) (b : Bucket C) (h : φ = false → ∀ x ∈ l, x = .ok) :
    Reach φ p b (play l p b).1 (play l p b).2 := by
  induction l generalizing p b with
  | nil => exact .refl _ _
  | cons x l ih =>
    have hl : φ = false → ∀ x ∈ l, x = .ok := fun hφ y hy => h hφ y (List.mem_cons_of_mem _ hy)
    have hφ : x ≠ .ok → φ = true := fun hx => by
      cases φ with
      | true => rfl
      | false => exact absurd (h rfl x List.mem_cons_self) hx
    cases p with
    | done a => exact .refl _ _
    | op o k =>
      cases x with
      | ok => exact .step (.ok (b.clock + 1) (Nat.le_succ _)) (ih _ _ hl)
      | fail => exact .step (.fail (hφ (by decide))) (ih _ _ hl)
      | late => exact .step (.late (b.clock + 1) (hφ (by decide)) (Nat.le_succ _)) (ih _ _ hl)

/-- States are numbers; 99 cannot be read, 0 has no resources. -/
def demo : Coder Nat Nat := { load := fun c => if c = 99 then none else some c, save := fun _ s => s, new := 0, empty := (· == 0), sound := fun _ => true }

/-- A bucket with a plain state file, one with a compressed one, one that cannot be read, and one for two. -/
def demoPlain : Bucket Nat := ⟨[(.state "dev" false, ⟨7, 1⟩), (.history "dev" 1 false, ⟨50, 1⟩), (.checkpoint "dev" 1 false, ⟨7, 1⟩)], 1⟩
def demoGz : Bucket Nat := ⟨[(.state "dev" true, ⟨7, 1⟩)], 1⟩
def demoBad : Bucket Nat := ⟨[(.state "dev" false, ⟨99, 1⟩)], 1⟩
def demoTwo : Bucket Nat := ⟨[(.state "dev" false, ⟨7, 1⟩), (.state "prod" false, ⟨8, 1⟩)], 1⟩

def oks (n : Nat) : List Fate := List.replicate n .ok

theorem oks_ok (n : Nat) : false = false → ∀ x ∈ oks n, x = .ok := fun _ _ hx => List.eq_of_mem_replicate hx

/-! ## Saving (C190) -/

/-- **C190** Wherever saving stops, however calls fail: the state file of the stack has the state from before, or the new one. -/
theorem save_atomic_partial {φ : Bool} (K : Coder C S) {gz : Bool} {keepAll : Option Nat} {s : String} {st : S} {b b' : Bucket C}
    {p : Prog C Bool} (ho : Only gz s b) (hr : Reach φ (saveStack K gz keepAll s st) b p b') :
    (b'.current s = b.current s ∨ b'.current s = some (K.save gz st)) ∧ Only gz s b' := by
  have h := (always_reach (always_saveStack φ K s gz keepAll st b) hr).1
  have ho' : Only gz s b' := by
    unfold Only at *
    rcases h.other with h | h
    · rw [h, ho]
    · exact h
  refine ⟨?_, ho'⟩
  rw [current_only ho, current_only ho']
  rcases h.state with h | h
  · left; rw [Bucket.content, h]; rfl
  · exact .inr h

/-- **C190** When saving reports success, the state file has the new state, whatever failed on the way. -/
theorem save_durable {φ : Bool} (K : Coder C S) {gz : Bool} {keepAll : Option Nat} {s : String} {st : S} {b b' : Bucket C}
    (ho : Only gz s b) (hr : Reach φ (saveStack K gz keepAll s st) b (.done true) b') : b'.current s = some (K.save gz st) := by
  have ho' := (save_atomic_partial K ho hr).2
  rw [current_only ho']
  exact ((always_reach (always_saveStack φ K s gz keepAll st b) hr).2 true rfl).1 rfl

/-- **C190** If no call fails, saving leaves the new state whichever files there were, and nothing else is read any more. -/
theorem save_completes (K : Coder C S) {gz : Bool} {keepAll : Option Nat} {s : String} {st : S} {b b' : Bucket C} {r : Bool}
    (hr : Reach false (saveStack K gz keepAll s st) b (.done r) b') :
    b'.current s = some (K.save gz st) ∧ Only gz s b' ∧ r = K.sound st := by
  have h := ((always_reach (always_saveStack false K s gz keepAll st b) hr).2 r rfl).2 rfl
  exact ⟨by rw [current_only h.2.1]; exact h.1, h.2⟩

/-- **C190** If no call fails, the state from before is in its file or in the backup of it, wherever saving stops. -/
theorem save_backup (K : Coder C S) {gz : Bool} {keepAll : Option Nat} {s : String} {st : S} {b b' : Bucket C} {p : Prog C Bool}
    (hr : Reach false (saveStack K gz keepAll s st) b p b') {c : C} (hc : b.current s = some c) :
    ∃ g, b'.content (.state s g) = some c ∨ b'.content (.bak s g) = some c := by
  have h := (always_reach (always_saveStack false K s gz keepAll st b) hr).1
  have key : ∀ g, b.content (.state s g) = some c → b'.content (.state s g) = some c ∨ b'.content (.bak s g) = some c := by
    intro g hg
    by_cases e : g = gz
    · subst e
      rcases h.old rfl with h | h | h
      · left; rw [h, hg]
      · rw [Bucket.content, h] at hg; cases hg
      · right; rw [h, hg]
    · have e : g = !gz := by cases g <;> cases gz <;> simp_all
      subst e
      rcases h.bak rfl with h | h
      · left; rw [h, hg]
      · right; rw [h, hg]
  unfold Bucket.current at hc
  cases hp : b.get (.state s false) with
  | none =>
    cases hg : b.get (.state s true) with
    | none => rw [hp, hg] at hc; cases hc
    | some g => rw [hp, hg] at hc; exact ⟨true, key true (by rw [Bucket.content, hg]; exact hc)⟩
  | some q =>
    cases hg : b.get (.state s true) with
    | none => rw [hp, hg] at hc; exact ⟨false, key false (by rw [Bucket.content, hp]; exact hc)⟩
    | some g =>
      rw [hp, hg] at hc
      by_cases ht : q.time > g.time
      · simp only [if_pos ht] at hc
        exact ⟨false, key false (by rw [Bucket.content, hp]; exact hc)⟩
      · simp only [if_neg ht] at hc
        exact ⟨true, key true (by rw [Bucket.content, hg]; exact hc)⟩

/-- **C190** Saving changes no file of another stack, and nothing of the history. -/
theorem save_frame {φ : Bool} (K : Coder C S) {gz : Bool} {keepAll : Option Nat} {s : String} {st : S} {b b' : Bucket C}
    {p : Prog C Bool} (hr : Reach φ (saveStack K gz keepAll s st) b p b') (f : File) (hf : f.stack ≠ s ∨ f.inHistory s = true) :
    b'.get f = b.get f := by
  have h := (always_reach (always_saveStack φ K s gz keepAll st b) hr).1
  refine h.frame f ?_ ?_ ?_ <;> intro g <;> first | (intro t e; subst e) | (intro e; subst e)
  all_goals
    rcases hf with hf | hf
    · exact hf rfl
    · cases hf

/-- A file of another stack does not take part in what is read of a stack. -/
theorem current_frame {s : String} {b b' : Bucket C} (h : ∀ f : File, f.stack = s → b'.get f = b.get f) : b'.current s = b.current s := by
  unfold Bucket.current
  rw [h _ rfl, h _ rfl]

/-- **C190** What was saved is what is read, if reading gives back what was written. -/
theorem save_read {φ : Bool} (K : Coder C S) {gz : Bool} {keepAll : Option Nat} {s : String} {st : S} {b b' b'' : Bucket C} {r : Got S}
    (hk : K.load (K.save gz st) = some st) (ho : Only gz s b) (hr : Reach φ (saveStack K gz keepAll s st) b (.done true) b')
    (hg : Reach false (getStack K s) b' (.done r) b'') : r = .ok st := by
  have hc := save_durable K ho hr
  have : Always false (fun _ => True) (getStack K s) b' fun r _ => r = .ok st := by
    refine always_getStack K trivial (fun c st' hl h => ?_) (fun h => ?_) (fun h => ?_)
    · rcases h with h | ⟨h, _⟩
      · rw [hc] at h; cases h; rw [hk] at hl; cases hl; rfl
      · cases h
    · rcases h with h | ⟨h, _⟩
      · rw [hc] at h; cases h
      · cases h
    · rcases h with h | ⟨c, h, h'⟩
      · cases h
      · rw [hc] at h; cases h; rw [hk] at h'; cases h'
  exact (always_reach this hg).2 r rfl

example : Only false "dev" demoPlain := by decide
example : ∃ b', Reach true (saveStack demo false none "dev" 8) demoPlain (.done true) b' ∧ b'.current "dev" = some 8 :=
  ⟨_, play_reach true [.fail, .ok, .late, .fail, .fail, .late, .ok] _ _ (fun h => by cases h), by decide⟩
example : ∃ b' p, Reach true (saveStack demo false none "dev" 8) demoPlain p b' ∧ b'.current "dev" = some 7 :=
  ⟨_, _, play_reach true [.fail, .ok, .late, .fail, .fail] _ _ (fun h => by cases h), by decide⟩
example : ∃ b', Reach false (saveStack demo false (some 5) "dev" 8) demoPlain (.done true) b' ∧ b'.content (.bak "dev" false) = some 7 :=
  ⟨_, play_reach false (oks 8) _ _ (oks_ok 8), by decide⟩
example : ∃ b', Reach false (saveStack demo true none "dev" 8) demoPlain (.done true) b' ∧ b'.current "dev" = some 8 ∧ Only true "dev" b' :=
  ⟨_, play_reach false (oks 8) _ _ (oks_ok 8), by decide⟩

/-- **C190, finding** When the setting for compression was changed, the old state file is deleted before the new one is written: a crash in
between leaves the stack without a state file, although no call failed; what was in it is only in the backup. -/
theorem switching_not_atomic : ∃ p b', Reach false (saveStack demo true none "dev" 8) demoPlain p b' ∧
    demoPlain.current "dev" = some 7 ∧ b'.current "dev" = none ∧ b'.content (.bak "dev" false) = some 7 :=
  ⟨_, _, play_reach false (oks 4) _ _ (oks_ok 4), by decide⟩

/-- **C190, finding** If moreover copying fails, which is only logged, nothing of the state is left. -/
theorem switching_loses : ∃ b', Reach true (saveStack demo true none "dev" 8) demoPlain (.done false) b' ∧
    demoPlain.current "dev" = some 7 ∧ ∀ g, b'.content (.state "dev" g) = none ∧ b'.content (.bak "dev" g) = none :=
  ⟨_, play_reach true ([.ok, .ok, .fail, .ok] ++ List.replicate 13 .fail) _ _ (fun h => by cases h), by decide, by decide⟩

/-- **C190, finding** If deleting the old file fails instead, saving reports success and leaves both; a clock that is not finer than the two
writes then decides which is read. -/
theorem switching_stale : ∃ b', Reach true (saveStack demo false none "dev" 8) demoGz (.done true) b' ∧ b'.get (.state "dev" true) ≠ none :=
  ⟨_, play_reach true [.ok, .ok, .fail, .ok, .ok] _ _ (fun h => by cases h), by decide⟩

end Pulumi.Filestate
