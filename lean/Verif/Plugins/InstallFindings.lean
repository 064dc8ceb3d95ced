import Verif.Plugins.Install
/-!
# Installing plugins: examples, and what installing anew and deleting break (C197)
-/
namespace Pulumi.Plugins

/-- Two files -/
def demoContent : Content Nat := [("bin", 1), ("data", 2)]

/-- Process 0 installs anew, the others do not. -/
def demoJobs : Nat → Job Nat := fun i => ⟨demoContent, i == 0⟩

/-- Nothing is there, and nobody does anything. -/
def demoEmpty : World Nat Nat := ⟨fun _ => .idle, none, false, none, 0, fun _ => none⟩

def demoDir : Dir Nat := fun f => (demoContent.reverse.lookup f).map some

/-- The plugin is there. -/
def demoThere : World Nat Nat := { demoEmpty with dir := some demoDir }

theorem demoEmpty_initial : demoEmpty.Initial (· = demoContent) := ⟨fun _ => rfl, fun _ => rfl, fun _ d h => by cases h⟩

theorem demoThere_initial : demoThere.Initial (· = demoContent) := ⟨fun _ => rfl, fun _ => rfl, fun _ d h => by cases h; exact ⟨_, rfl, fun _ => rfl⟩⟩

/-- Two processes install a plugin: the first crashes amid writing a file, the second starts again and reports success. -/
example : ∃ w', Run false (fun _ : Nat => (⟨demoContent, false⟩ : Job Nat)) demoEmpty w' ∧ w'.phase 1 = .crashed ∧ w'.phase 2 = .over true ∧ w'.marked = false := by
  let r := Run.refl (deletes := false) (jobs := fun _ : Nat => (⟨demoContent, false⟩ : Job Nat)) demoEmpty
  let r := r.step (.create 1 rfl rfl)
  let r := r.step (.lock 1 0 rfl (fun j h => by cases h))
  let r := r.step (.absent 1 rfl rfl)
  let r := r.step (.mark 1 rfl)
  let r := r.step (.mkdir 1 rfl)
  let r := r.step (.begin 1 _ "bin" 1 [("data", 2)] rfl rfl)
  let r := r.step (.crash 1)
  let r := r.step (.open 2 0 rfl rfl)
  let r := r.step (.lock 2 0 rfl (fun j h => by
    by_cases e : j = 1
    · subst e; cases h
    · replace h : (if j = 1 then none else if j = 1 then some 0 else none) = some 0 := h
      rw [if_neg e, if_neg e] at h; cases h))
  let r := r.step (.again 2 _ rfl rfl (.inl rfl))
  let r := r.step (.removeDir 2 rfl)
  let r := r.step (.mark 2 rfl)
  let r := r.step (.mkdir 2 rfl)
  let r := r.step (.begin 2 _ "bin" 1 [("data", 2)] rfl rfl)
  let r := r.step (.finish 2 _ "bin" 1 [("data", 2)] rfl rfl)
  let r := r.step (.begin 2 _ "data" 2 [] rfl rfl)
  let r := r.step (.finish 2 _ "data" 2 [] rfl rfl)
  let r := r.step (.written 2 rfl)
  let r := r.step (.unmark 2 rfl)
  exact ⟨_, r, rfl, rfl, rfl⟩

/-- **C197, finding** Installing anew removes the old directory before it is marked: if that is interrupted, what is left passes for the plugin, and a later
installation reports success without doing anything. -/
theorem reinstall_breaks_plugin : ∃ w' d, Run false demoJobs demoThere w' ∧ w'.phase 1 = .over true ∧ w'.marked = false ∧ w'.dir = some d ∧
    ¬ Complete demoContent d := by
  let r := Run.refl (deletes := false) (jobs := demoJobs) demoThere
  let r := r.step (.create 0 rfl rfl)
  let r := r.step (.lock 0 0 rfl (fun j h => by cases h))
  let r := r.step (.again 0 _ rfl rfl (.inr rfl))
  let r := r.step (.removeFile 0 _ "bin" rfl rfl)
  let r := r.step (.crash 0)
  let r := r.step (.open 1 0 rfl rfl)
  let r := r.step (.lock 1 0 rfl (fun j h => by
    by_cases e : j = 0
    · subst e; cases h
    · replace h : (if j = 0 then none else if j = 0 then some 0 else none) = some 0 := h
      rw [if_neg e, if_neg e] at h; cases h))
  let r := r.step (.present 1 _ rfl rfl rfl rfl)
  exact ⟨_, _, r, rfl, rfl, rfl, fun h => by have := h "bin"; revert this; decide⟩

/-- **C197, finding** Deleting a plugin that is interrupted leaves what passes for the plugin. -/
theorem delete_breaks_plugin : ∃ w' d, Run true demoJobs demoThere w' ∧ w'.phase 1 = .crashed ∧ w'.marked = false ∧ w'.dir = some d ∧ ¬ Complete demoContent d := by
  let r := Run.refl (deletes := true) (jobs := demoJobs) demoThere
  let r := r.step (.delete 1 rfl rfl)
  let r := r.step (.deleteFile 1 _ "bin" rfl rfl)
  let r := r.step (.crash 1)
  exact ⟨_, _, r, rfl, rfl, rfl, fun h => by have := h "bin"; revert this; decide⟩

/-- **C197, finding** Deleting a plugin deletes the lock file too, also while another process has it locked: a third one then makes and locks another one. Both
install at the same time, and one of them reports success when a file is torn. -/
theorem delete_breaks_lock : ∃ w' d, Run true demoJobs demoEmpty w' ∧ w'.phase 1 = .over true ∧ (w'.phase 3).works = true ∧ w'.marked = false ∧ w'.dir = some d ∧
    d "bin" = some none := by
  let r := Run.refl (deletes := true) (jobs := demoJobs) demoEmpty
  let r := r.step (.create 1 rfl rfl)
  let r := r.step (.lock 1 0 rfl (fun j h => by cases h))
  let r := r.step (.absent 1 rfl rfl)
  let r := r.step (.mark 1 rfl)
  let r := r.step (.mkdir 1 rfl)
  let r := r.step (.delete 2 rfl rfl)
  let r := r.step (.deleteDir 2 rfl)
  let r := r.step (.deleteMark 2 rfl)
  let r := r.step (.deleteLock 2 rfl)
  let r := r.step (.create 3 rfl rfl)
  let r := r.step (.lock 3 1 rfl (fun j h => by
    replace h : (if j = 1 then some 0 else none) = some 1 := h
    by_cases e : j = 1
    · rw [if_pos e] at h; cases h
    · rw [if_neg e] at h; cases h))
  let r := r.step (.absent 3 rfl rfl)
  let r := r.step (.mark 3 rfl)
  let r := r.step (.mkdir 3 rfl)
  let r := r.step (.begin 1 _ "bin" 1 [("data", 2)] rfl rfl)
  let r := r.step (.finish 1 _ "bin" 1 [("data", 2)] rfl rfl)
  let r := r.step (.begin 1 _ "data" 2 [] rfl rfl)
  let r := r.step (.finish 1 _ "data" 2 [] rfl rfl)
  let r := r.step (.written 1 rfl)
  let r := r.step (.begin 3 _ "bin" 1 [("data", 2)] rfl rfl)
  let r := r.step (.unmark 1 rfl)
  exact ⟨_, _, r, rfl, rfl, rfl, rfl, by decide⟩

end Pulumi.Plugins
