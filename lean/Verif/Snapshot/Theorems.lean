import Verif.Snapshot.CrashRun
import Verif.Snapshot.Pending
import Verif.Snapshot.Decide
/-!
# The checkpoint and the world

What the checkpoint says about the physical resources of a stack, whenever an update stops.
-/
namespace Pulumi.Snapshot

/-! ## Cases to look at -/

/-- An environment in which every URN may name a provider and no type is one. -/
def plainEnv : Env := ⟨fun _ => false, fun _ => true⟩

/-- A custom resource without anything special about it. -/
def plain (urn : String) : State :=
  { type := "t", urn := urn, custom := true, delete := false, id := "", inputs := "", outputs := "", parent := "",
    protect := false, external := false, deps := [], provider := .none, propDeps := [], pendingReplacement := false,
    aliases := [], timeouts := "", retainOnDelete := false, rest := "" }

/-- Even cells are for `a`, odd ones for `b`; cell 4 is for reading `a`. -/
def cells : Heap := fun n =>
  if n = 4 then { plain "a" with external := true, id := "x" } else if n % 2 = 0 then plain "a" else plain "b"

def emptyStack : Sys := ⟨cells, newManager [] [], ⟨[], []⟩, [], [], []⟩

/-- The physical resources the checkpoint does not account for. -/
def forgotten (s : Sys) : List Phys :=
  s.world.filter (fun p => ¬((s.disk.resources.any (fun r => r.external = false ∧ r.id = p.id)) ∨
    (s.disk.ops.any (fun o => o.2 = .creating ∧ o.1.urn = p.urn))))

theorem forgotten_spec {s : Sys} {p : Phys} (h : p ∈ forgotten s) : p ∈ s.world ∧ ¬ Accounts s.disk p := by
  simp only [forgotten, List.mem_filter, decide_eq_true_eq, List.any_eq_true, not_or, not_exists, not_and] at h
  refine ⟨h.1, ?_⟩
  rintro (⟨r, hr, h1, h2⟩ | ⟨o, ho, h1, h2⟩)
  · exact h.2.1 r hr h1 h2
  · exact h.2.2 o ho h1 h2

/-- An update in which `a` is created: the cell is 0. -/
def createA : List Event := [.begin (.create none 0 false) true, .act 0 (.created "1"), .ret 0 "" "", .finish 0 true]
/-- … and `b`, in cell 1. -/
def createB : List Event := [.begin (.create none 1 false) true, .act 0 (.created "2"), .ret 0 "" "", .finish 0 true]

/-- A whole update in which the steps are performed. -/
def after (es : List Event) (s : Sys) : Sys := (run plainEnv s es).getD s

/-- The next update begins with what the checkpoint lists, in the given cells. -/
def restart (base : List Ptr) (s : Sys) : Sys := { s with mgr := newManager base [], active := [], gone := [] }

theorem reach_after {A : Sys → Event → Prop} {es : List Event} {s : Sys} (h : Reach plainEnv A s)
    (ha : AllowedRun plainEnv A s es) (hr : (run plainEnv s es).isSome = true) : Reach plainEnv A (after es s) := by
  unfold after
  cases hr' : run plainEnv s es with
  | none => rw [hr'] at hr; simp at hr
  | some t => exact reach_run h ha hr'

theorem reach_restart {A : Sys → Event → Prop} {s : Sys} (base : List Ptr) (h : Reach plainEnv A s)
    (hd : s.disk = ⟨base.map s.heap, []⟩) : Reach plainEnv A (restart base s) :=
  .again h ⟨rfl, rfl, rfl, rfl, hd, by simp [restart]⟩

theorem reach_empty {A : Sys → Event → Prop} : Reach plainEnv A emptyStack := .new cells

/-! ## Crash safety -/

/-- C133. Whenever an update stops, after any number of updates before it that may each have been stopped anywhere, the
checkpoint accounts for every physical resource that belongs to the stack: it lists the resource, or a create that may have
made it. This holds as long as no resource is read in the place of an owned one, no create happens and is then reported
to have failed with an unknown status, states are only dropped as already deleted if they have been, and the base is only
rebuilt while no step is in progress. The full claim has none of these provisos; the theorems after this one show that it
needs each of them. -/
theorem crash_safe_partial {E : Env} {s : Sys} (h : Reach E Careful s) : ∀ p ∈ s.world, Accounts s.disk p :=
  (inv_reach h).disk

/-- `a` is created, then `b` while `a` is replaced; the update stops when the new `a` has been made but not recorded: three
physical resources, all accounted for. -/
def replaceA : List Event :=
  [.begin (.create (some 0) 2 true) true, .begin (.create none 1 false) true, .act 0 (.created "3"),
   .act 1 (.created "2"), .ret 1 "" "", .finish 1 true, .ret 0 "" ""]

example : Reach plainEnv Careful (after replaceA (restart [0] (after createA emptyStack))) ∧
    (after replaceA (restart [0] (after createA emptyStack))).world = [⟨"b", "2"⟩, ⟨"a", "3"⟩, ⟨"a", "1"⟩] :=
  ⟨reach_after (reach_restart [0] (reach_after reach_empty (by decide) (by decide)) (by decide)) (by decide) (by decide),
    by decide⟩

/-- C133. Reading a resource in the place of one that the stack owns makes the checkpoint forget the latter before it is
deleted. -/
theorem read_replacement_forgets : ∃ s p,
    Reach plainEnv (fun s e => Engine s e ∧ NoUnknownCreate s e ∧ DropsOnlyDeleted s e ∧ KeepsExisting s e) s ∧
      p ∈ s.world ∧ ¬ Accounts s.disk p := by
  refine ⟨after [.begin (.read (some 0) 4 true) true, .act 0 .ok, .ret 0 "" "", .finish 0 true]
    (restart [0] (after createA emptyStack)), ⟨"a", "1"⟩, ?_, forgotten_spec (by decide)⟩
  exact reach_after (reach_restart [0] (reach_after reach_empty (by decide) (by decide)) (by decide)) (by decide)
    (by decide)

/-- C133. A resource whose create is reported to have failed with an unknown status is forgotten. -/
theorem unknown_create_forgets : ∃ s p,
    Reach plainEnv (fun s e => Engine s e ∧ NoReadReplacement s e ∧ DropsOnlyDeleted s e ∧ KeepsExisting s e) s ∧
      p ∈ s.world ∧ ¬ Accounts s.disk p := by
  refine ⟨after [.begin (.create none 0 false) true, .act 0 (.createdUnknown "1"), .ret 0 "" "", .finish 0 true]
    emptyStack, ⟨"a", "1"⟩, ?_, forgotten_spec (by decide)⟩
  exact reach_after reach_empty (by decide) (by decide)

/-- C133. A resource that was to be deleted before its replacement is created, and could not be, is forgotten by the next
update of a program that no longer has it. -/
theorem failed_delete_forgets : ∃ s p,
    Reach plainEnv (fun s e => Engine s e ∧ NoReadReplacement s e ∧ NoUnknownCreate s e ∧ KeepsExisting s e) s ∧
      p ∈ s.world ∧ ¬ Accounts s.disk p := by
  refine ⟨after [.begin (.removePendingReplace 0) true, .act 0 .ok, .ret 0 "" "", .finish 0 true] (restart [0]
      (after [.condemn 0 true, .begin (.delete 0 true) true, .act 0 .failed, .ret 0 "" "", .finish 0 true]
        (restart [0] (after createA emptyStack)))), ⟨"a", "1"⟩, ?_, forgotten_spec (by decide)⟩
  exact reach_after (reach_restart [0] (reach_after (reach_restart [0] (reach_after reach_empty (by decide) (by decide))
    (by decide)) (by decide) (by decide)) (by decide)) (by decide) (by decide)

/-- C133. When two targeted resources are deleted at once and the first cannot be, the base is rebuilt without either of
them while the second is being deleted, and the checkpoint written at its end forgets the first. -/
theorem targeted_delete_forgets : ∃ s p,
    Reach plainEnv (fun s e => Engine s e ∧ NoReadReplacement s e ∧ NoUnknownCreate s e ∧ DropsOnlyDeleted s e) s ∧
      p ∈ s.world ∧ ¬ Accounts s.disk p := by
  refine ⟨after [.begin (.delete 0 false) true, .begin (.delete 1 false) true, .act 0 .failed, .ret 0 "" "",
      .finish 0 true, .rebuild [(0, none), (1, none)], .act 0 .ok, .ret 0 "" "", .finish 0 true] (restart [0, 1]
      (after (createA ++ createB) emptyStack)), ⟨"a", "1"⟩, ?_, forgotten_spec (by decide)⟩
  exact reach_after (reach_restart [0, 1] (reach_after reach_empty (by decide) (by decide)) (by decide)) (by decide)
    (by decide)

/-! ## Creates that may have happened -/

/-- C134. From when the engine goes ahead with the creation of a resource until its end is recorded, the checkpoint lists
it as a pending operation, whatever else is written to the checkpoint in the meantime. -/
theorem create_in_progress_is_pending_partial {E : Env} {s : Sys} (h : Reach E Careful s) {old : Option Ptr} {new : Ptr}
    {b : Bool} {ph : Phase} (ha : (.create old new b, ph) ∈ s.active) :
    ∃ o ∈ s.disk.ops, o.2 = .creating ∧ o.1.urn = (s.heap new).urn :=
  ((inv_reach h).entries _ ha).2.2.2.2

example : (Step.create (some 0) 2 true, Phase.applied true) ∈
    (after replaceA (restart [0] (after createA emptyStack))).active := by decide

/-- C134. A create that was pending when an update began, because the one before was stopped, is in the checkpoint for
ever: no update, whatever happens in it, and no later one removes it. (The user does, with `pulumi stack export` and
`import`.) -/
theorem interrupted_create_stays {E : Env} {s t u : Sys} (hr : Reloads s t) (hl : Later E t u) {o : State × OpType}
    (ho : o ∈ s.disk.ops) (hc : o.2 = .creating) : ∃ o' ∈ u.disk.ops, o'.2 = .creating ∧ o'.1.urn = o.1.urn :=
  (stays_later hl (stays_reload hr ⟨o, ho, hc, rfl⟩)).disk

example : ∃ s, Reloads (after [.begin (.create none 0 false) true] emptyStack) s ∧
    (plain "a", OpType.creating) ∈ (after [.begin (.create none 0 false) true] emptyStack).disk.ops :=
  ⟨{ after [.begin (.create none 0 false) true] emptyStack with active := [], mgr := newManager [] [(0, .creating)] },
    ⟨rfl, rfl, rfl, rfl, by decide, by decide⟩, by decide⟩

end Pulumi.Snapshot
