import Verif.Async.Termination
/-!
# Scheduling (C09)

"Results do not depend on the event-loop schedule": for any program built from futures, tasks, `await` and `gather`,
every complete execution resolves the same futures to the same results; a resolved future never changes.
-/
namespace Pulumi.Async

/-- **C09.** Two complete executions of the same program, under any two schedules, end in the same state: the same
tasks, the same futures resolved to the same results, the same callback invocations. -/
theorem schedule_independent {roots : Nat → Option Prog} {d d' : Config}
    (h : Completes roots d) (h' : Completes roots d') : d = d' := by
  obtain ⟨n, hs, hq⟩ := h
  obtain ⟨m, hs', hq'⟩ := h'
  obtain ⟨hle, h1⟩ := confluence (inv_start _) hs hq hs'
  cases h2 : n - m with
  | zero => rw [h2] at h1; cases h1; rfl
  | succ k =>
    rw [h2] at h1
    cases h1 with
    | cons hst _ => obtain ⟨t, ht⟩ := hst; rw [hq' t] at ht; simp at ht

/-- **C09.** No schedule gets stuck early, runs forever, or takes more steps than another: for a program with
finitely many root tasks there is one final state, and every partial execution continues to it. -/
theorem every_schedule_completes {roots : Nat → Option Prog} {N : Nat} (h : ∀ i, N ≤ i → roots i = none) :
    ∃ n d, Steps n (start roots) d ∧ Quiescent d ∧
      ∀ m e, Steps m (start roots) e → m ≤ n ∧ Steps (n - m) e d := by
  obtain ⟨L, hL⟩ := enum_start h
  obtain ⟨n, d, hs, hq⟩ := exists_quiescent (inv_start roots) hL
  exact ⟨n, d, hs, hq, fun m e he => confluence (inv_start _) hs hq he⟩

/-- **C09.** A resolved future never changes. -/
theorem future_write_once {n c d f r} (h : Steps n c d) (hf : c.futs f = some r) : d.futs f = some r := by
  induction h with
  | refl => exact hf
  | cons hs _ ih => obtain ⟨t, ht⟩ := hs; exact ih (step_mono ht _ _ hf)

/-- The program with the single root task `p`. -/
def single (p : Prog) : Nat → Option Prog := fun i => if i = 0 then some p else none

/-- A program with one root task always has a (unique) complete execution. -/
theorem single_completes (p : Prog) : ∃ d, Completes (single p) d := by
  obtain ⟨n, d, hs, hq, _⟩ := every_schedule_completes (roots := single p) (N := 1) (by
    intro i hi; simp [single]; omega)
  exact ⟨d, n, hs, hq⟩

/-- Run synchronous code as the whole program. -/
def mainProg {α : Type} (s : Sync α) : Prog := s.run fun _ => .ret .none

theorem step_root {c c' : Config} {u : TaskId} (h : stepTask c u = some c') {i p}
    (hT : Has c (.root i) p) : Has c' (.root i) p := by
  obtain ⟨T, hT, ho⟩ := hT
  obtain ⟨U, hU, hc⟩ := stepTask_cases h
  have key : ∀ (c1 : Config) (V : Task) (futs : Store), c1.tasks (.root i) = some T → (u = .root i → V.origin = T.origin) →
      Has { (c1.setTask u V) with futs := futs } (.root i) p := by
    intro c1 V futs h1 h2
    by_cases hv : TaskId.root i = u
    · subst hv; exact ⟨_, Config.setTask_same _ _ _, by rw [h2 rfl, ho]⟩
    · exact ⟨T, by
        show (c1.setTask u V).tasks _ = _
        rw [Config.setTask_other _ _ hv]; exact h1, ho⟩
  have hu : u = .root i → U.origin = T.origin := by
    rintro rfl; rw [hU] at hT; cases hT; rfl
  cases hc with
  | spawn q k hp =>
    refine key (c.setTask (.child u U.children) (Task.fresh q)) _ c.futs ?_ hu
    rw [Config.setTask_other _ _ (by simp)]; exact hT
  | ret v hp => exact key c _ _ hT hu
  | raise e hp => exact key c _ _ hT hu
  | await f k r hp hr => exact key c { U with prog := some (k r) } c.futs hT hu
  | gather fs k r hp hr => exact key c { U with prog := some (k r) } c.futs hT hu
  | setNew i r k hp hs => exact key c _ _ hT hu
  | setOld i r k r' hp hs => exact key c { U with prog := some (k false) } c.futs hT hu
  | call v k hp => exact key c { U with prog := some k, calls := U.calls ++ [v] } c.futs hT hu

theorem completes_root {roots d} (h : Completes roots d) {i p} (hp : roots i = some p) : Has d (.root i) p := by
  obtain ⟨n, hs, hq⟩ := h
  clear hq
  have h0 : Has (start roots) (.root i) p := ⟨Task.fresh p, by simp [start, hp], rfl⟩
  revert h0
  generalize start roots = c at hs
  intro h0
  induction hs with
  | refl => exact h0
  | cons hs _ ih => obtain ⟨t, ht⟩ := hs; exact ih (step_root ht h0)

/-- Whatever synchronous code is run as the whole program, there is a complete execution in which it ran. -/
theorem main_ran {α : Type} (s : Sync α) :
    ∃ d r n', Completes (single (mainProg s)) d ∧ Ran d (.root 0) 0 s r n' := by
  obtain ⟨d, hd⟩ := single_completes (mainProg s)
  have hs := settled_of_completes hd
  have hroot : Has d (.root 0) (mainProg s) := completes_root hd rfl
  obtain ⟨r, n', xs, he, hr⟩ := eval_run (σ := d.futs) (t := .root 0) s (fun _ => .ret .none) Outcome.init
  refine ⟨d, r, n', hd, hr d ?_⟩
  intro c p hm
  apply hs.child hroot
  show _ ∈ (eval d.futs (.root 0) (s.run fun _ => .ret .none) Outcome.init).spawned
  rw [he]
  simp [eval, hm]

/-- The hypotheses of `schedule_independent` are met by a program with two tasks, one of which waits for the
other: it has a complete execution, at the end of which both have finished. -/
example : ∃ d, Completes (single (.spawn (.ret (.int 1)) fun t => .await (.result t) fun r =>
      match r with | .ok v => .ret v | .exn e => .raise e)) d ∧ d.futs (.result (.root 0)) = some (.ok (.int 1)) := by
  obtain ⟨d, hd⟩ := single_completes (.spawn (.ret (.int 1)) fun t => .await (.result t) fun r =>
      match r with | .ok v => .ret v | .exn e => .raise e)
  refine ⟨d, hd, ?_⟩
  have hs := settled_of_completes hd
  have hroot := completes_root hd (i := 0) rfl
  have hc : Has d (.child (.root 0) 0) (.ret (.int 1)) := by
    apply hs.child hroot
    simp only [eval]
    split <;> first | exact List.mem_singleton.2 rfl | skip
    obtain ⟨xs, hx⟩ := eval_spawned (σ := d.futs) (t := .root 0)
      (match ‹Res› with | .ok v => Prog.ret v | .exn e => .raise e)
      { Outcome.init with children := 1, spawned := [(.child (.root 0) 0, .ret (.int 1))] }
    exact hx ▸ List.mem_append_left _ (List.mem_singleton.2 rfl)
  have h1 : d.futs (.result (.child (.root 0) 0)) = some (.ok (.int 1)) := by rw [hs.res hc]; rfl
  rw [hs.res hroot]
  simp only [eval]
  show (match d.futs (.result (.child (.root 0) 0)) with | none => _ | some r => _ : Outcome).result = _
  rw [h1]; rfl

end Pulumi.Async
