import Verif.Inline.Lemmas

/-!
# Runs that disturb each other, step by step
-/
namespace Pulumi.Inline
open Pulumi.Loop

theorem not_sleeping {i : Nat} {r : Run} {m : Manager} (h : ∀ f, r.main ≠ .sleeping f) : ¬ PopsForeign i r m :=
  fun ⟨⟨f, hf⟩, _⟩ => h f hf

theorem own_next {i k : Nat} {r : Run} {m : Manager} (h : m.rpcs.getLast? = some (i, k)) : ¬ PopsForeign i r m := by
  rintro ⟨_, j, k', h1, h2⟩
  rw [h] at h1
  simp only [Option.some.injEq, Prod.mk.injEq] at h1
  exact h2 h1.1.symm

/-- A step of the event loop of run `i`, whose main task is not about to pop. -/
theorem Steps.loop {p : Proc} (h : Steps .init p) (i : Nat) {r : Run} {s' : State} (hr : p.runs[i]? = some r) (hp : r.phase = .running)
    (hs : ∀ f, r.main ≠ .sleeping f) (hstep : Loop.Step true (view r p.mgr) s') :
    Steps .init ⟨p.runs.set i (runAfter r s'), managerAfter i p.mgr s'⟩ :=
  .tail h (.loop hr hp (not_sleeping hs) hstep)

theorem Sequential.loop {p : Proc} (h : Sequential p) (i : Nat) {r : Run} {s' : State} (hr : p.runs[i]? = some r) (hp : r.phase = .running)
    (hs : ∀ f, r.main ≠ .sleeping f) (hstep : Loop.Step true (view r p.mgr) s') :
    Sequential ⟨p.runs.set i (runAfter r s'), managerAfter i p.mgr s'⟩ :=
  .step h (.loop hr hp (not_sleeping hs) hstep) (by simp)

/-- The main task of run `i` pops an RPC of its own. -/
theorem Sequential.pop {p : Proc} (h : Sequential p) (i k : Nat) {r : Run} {f : Option Nat} (hr : p.runs[i]? = some r) (hp : r.phase = .running)
    (hs : r.main = .sleeping f) (hl : p.mgr.rpcs.getLast? = some (i, k)) :
    Sequential ⟨p.runs.set i { r with main := .awaiting f k }, { p.mgr with rpcs := p.mgr.rpcs.dropLast }⟩ := by
  have h1 : Loop.Step true (view r p.mgr) { view r p.mgr with main := .awaiting f k, rpcs := (view r p.mgr).rpcs.dropLast } := by
    have := Loop.Step.popped (awaitAll := true) (s := view r p.mgr) (f := f) hs
    simp only [view, List.getLast?_map, hl, Option.map_some] at this
    exact this
  have h2 := Sequential.step h (.loop hr hp (own_next hl) h1) (by simp)
  refine Eq.mp (congrArg Sequential ?_) h2
  have : relabel i p.mgr.rpcs (p.mgr.rpcs.map (·.2)).dropLast = p.mgr.rpcs.dropLast := by
    simp only [relabel, List.length_dropLast, List.length_map, ← List.dropLast_eq_take]
    rw [List.drop_eq_nil_of_le (by simp)]
    simp
  simp only [runAfter, managerAfter, view, this]

theorem Sequential.foreign {p : Proc} (h : Sequential p) (i j k : Nat) {r : Run} {f : Option Nat} (hr : p.runs[i]? = some r) (hp : r.phase = .running)
    (hs : r.main = .sleeping f) (hl : p.mgr.rpcs.getLast? = some (j, k)) (hj : j ≠ i) :
    Sequential ⟨p.runs.set i { r with main := afterForeign f (p.resultOf j k) }, { p.mgr with rpcs := p.mgr.rpcs.dropLast }⟩ :=
  .step h (.foreign hr hp hs hl hj) (by simp)

theorem Steps.foreign {p : Proc} (h : Steps .init p) (i j k : Nat) {r : Run} {f : Option Nat} (hr : p.runs[i]? = some r) (hp : r.phase = .running)
    (hs : r.main = .sleeping f) (hl : p.mgr.rpcs.getLast? = some (j, k)) (hj : j ≠ i) :
    Steps .init ⟨p.runs.set i { r with main := afterForeign f (p.resultOf j k) }, { p.mgr with rpcs := p.mgr.rpcs.dropLast }⟩ :=
  .tail h (.foreign hr hp hs hl hj)

/-- The pending tasks, in their order. -/
def pending (r : Run) : List Nat := (List.range r.tasks.length).filter fun k => (r.resultOf k).isNone

theorem finally_pending {p : Proc} (i : Nat) {r : Run} (hr : p.runs[i]? = some r) (hp : r.phase = .running) (he : r.main.ended) :
    Step p { p with runs := p.runs.set i { r with phase := .closing (pending r) } } := by
  refine .finally_ hr hp he (fun k => ?_) ?_
  · simp [pending, List.mem_filter]
  · exact List.Nodup.filter _ List.nodup_range

theorem Sequential.finally_ {p : Proc} (h : Sequential p) (i : Nat) {r : Run} (hr : p.runs[i]? = some r) (hp : r.phase = .running) (he : r.main.ended) :
    Sequential { p with runs := p.runs.set i { r with phase := .closing (pending r) } } :=
  .step h (finally_pending i hr hp he) (by simp)

theorem Steps.finally_ {p : Proc} (h : Steps .init p) (i : Nat) {r : Run} (hr : p.runs[i]? = some r) (hp : r.phase = .running) (he : r.main.ended) :
    Steps .init { p with runs := p.runs.set i { r with phase := .closing (pending r) } } :=
  .tail h (finally_pending i hr hp he)

theorem Sequential.close {p : Proc} (h : Sequential p) (i : Nat) {r : Run} (hr : p.runs[i]? = some r) (hp : r.phase = .closing []) :
    Sequential ⟨p.runs.set i { r with phase := .closed }, .clear⟩ := .step h (.close hr hp) (by simp)

theorem Steps.close {p : Proc} (h : Steps .init p) (i : Nat) {r : Run} (hr : p.runs[i]? = some r) (hp : r.phase = .closing []) :
    Steps .init ⟨p.runs.set i { r with phase := .closed }, .clear⟩ := .tail h (.close hr hp)

theorem Sequential.next {p : Proc} (h : Sequential p) (i k : Nat) {r : Run} {todo : List Nat} (hr : p.runs[i]? = some r)
    (hp : r.phase = .closing (k :: todo)) (hk : r.resultOf k = some .ok ∨ r.resultOf k = some (.exn cancelled)) :
    Sequential { p with runs := p.runs.set i { r with phase := .closing todo } } := .step h (.next hr hp hk) (by simp)

theorem Sequential.crash {p : Proc} (h : Sequential p) (i k e : Nat) {r : Run} {todo : List Nat} (hr : p.runs[i]? = some r)
    (hp : r.phase = .closing (k :: todo)) (hk : r.resultOf k = some (.exn e)) (he : e ≠ cancelled) :
    Sequential { p with runs := p.runs.set i { r with phase := .crashed e } } := .step h (.crash hr hp hk he) (by simp)

/-- Two programs at the same time. The first registers something, and that fails. The second does nothing; it pops the RPC of the first and raises its
exception. The first then finds no RPC left and returns. -/
theorem swapped : Steps .init
    ⟨[⟨[⟨.wrapper (some 1), some .ok⟩, ⟨.rpc, some (.exn 7)⟩], .returned, .closed⟩, ⟨[], .raised 7, .closed⟩], .clear⟩ := by
  have a0 : Steps .init ⟨[⟨[], .user, .running⟩], .clear⟩ := .tail .refl .start
  have a1 : Steps .init ⟨[⟨[], .user, .running⟩, ⟨[], .user, .running⟩], .clear⟩ := .tail a0 .start
  have a2 : Steps .init ⟨[⟨[⟨.wrapper none, none⟩], .user, .running⟩, ⟨[], .user, .running⟩], .clear⟩ :=
    a1.loop 0 rfl rfl (by simp) (.userSpawn (k := .wrapper none) rfl rfl)
  have a3 : Steps .init ⟨[⟨[⟨.wrapper none, none⟩], .top none, .running⟩, ⟨[], .user, .running⟩], .clear⟩ :=
    a2.loop 0 rfl rfl (by simp) (.userEnd (f := none) rfl)
  have a4 : Steps .init ⟨[⟨[⟨.wrapper none, none⟩], .waiting none [0], .running⟩, ⟨[], .user, .running⟩], .clear⟩ :=
    a3.loop 0 rfl rfl (by simp) (.top (f := none) rfl)
  have a5 : Steps .init ⟨[⟨[⟨.wrapper (some 1), none⟩, ⟨.rpc, none⟩], .waiting none [0], .running⟩, ⟨[], .user, .running⟩], ⟨[(0, 1)], none⟩⟩ :=
    a4.loop 0 rfl rfl (by simp) (.wrapStart (i := 0) (by simp [view, Main.ended]) rfl)
  have a6 : Steps .init ⟨[⟨[⟨.wrapper (some 1), none⟩, ⟨.rpc, some (.exn 7)⟩], .waiting none [0], .running⟩, ⟨[], .user, .running⟩], ⟨[(0, 1)], none⟩⟩ :=
    a5.loop 0 rfl rfl (by simp) (.taskEnd (i := 1) (r := .exn 7) (by simp [view, Main.ended]) rfl rfl rfl)
  have a7 : Steps .init ⟨[⟨[⟨.wrapper (some 1), some .ok⟩, ⟨.rpc, some (.exn 7)⟩], .waiting none [0], .running⟩, ⟨[], .user, .running⟩], ⟨[(0, 1)], some 7⟩⟩ :=
    a6.loop 0 rfl rfl (by simp) (.wrapEnd (i := 0) (j := 1) (r := .exn 7) (by simp [view, Main.ended]) rfl rfl)
  have a8 : Steps .init ⟨[⟨[⟨.wrapper (some 1), some .ok⟩, ⟨.rpc, some (.exn 7)⟩], .waiting none [0], .running⟩, ⟨[], .top none, .running⟩], ⟨[(0, 1)], some 7⟩⟩ :=
    a7.loop 1 rfl rfl (by simp) (.userEnd (f := none) rfl)
  have a9 : Steps .init ⟨[⟨[⟨.wrapper (some 1), some .ok⟩, ⟨.rpc, some (.exn 7)⟩], .waiting none [0], .running⟩, ⟨[], .sleeping none, .running⟩], ⟨[(0, 1)], some 7⟩⟩ :=
    a8.loop 1 rfl rfl (by simp) (.top (f := none) rfl)
  have a10 : Steps .init ⟨[⟨[⟨.wrapper (some 1), some .ok⟩, ⟨.rpc, some (.exn 7)⟩], .waiting none [0], .running⟩, ⟨[], .raised 7, .running⟩], ⟨[], some 7⟩⟩ :=
    a9.foreign 1 0 1 rfl rfl rfl rfl (by decide)
  have a11 : Steps .init ⟨[⟨[⟨.wrapper (some 1), some .ok⟩, ⟨.rpc, some (.exn 7)⟩], .returned, .running⟩, ⟨[], .raised 7, .running⟩], ⟨[], some 7⟩⟩ :=
    a10.loop 0 rfl rfl (by simp) (.waitDone (f := none) (ids := [0]) rfl (by intro i hi; simp at hi; subst hi; rfl))
  have a12 : Steps .init ⟨[⟨[⟨.wrapper (some 1), some .ok⟩, ⟨.rpc, some (.exn 7)⟩], .returned, .closing []⟩, ⟨[], .raised 7, .running⟩], ⟨[], some 7⟩⟩ :=
    a11.finally_ 0 rfl rfl rfl
  have a13 : Steps .init ⟨[⟨[⟨.wrapper (some 1), some .ok⟩, ⟨.rpc, some (.exn 7)⟩], .returned, .closed⟩, ⟨[], .raised 7, .running⟩], .clear⟩ :=
    a12.close 0 rfl rfl
  have a14 : Steps .init ⟨[⟨[⟨.wrapper (some 1), some .ok⟩, ⟨.rpc, some (.exn 7)⟩], .returned, .closed⟩, ⟨[], .raised 7, .closing []⟩], .clear⟩ :=
    a13.finally_ 1 rfl rfl rfl
  exact a14.close 1 rfl rfl

/-- The tasks of a program that makes a resource and, in an `apply` on one of its outputs, another one with two `apply`s on its outputs. -/
def nested : List Task :=
  [⟨.wrapper (some 2), some .ok⟩, ⟨.plain, some .ok⟩, ⟨.rpc, some .ok⟩, ⟨.wrapper (some 6), some .ok⟩, ⟨.plain, none⟩, ⟨.plain, none⟩,
    ⟨.rpc, some (.exn 7)⟩]

/-- The second resource fails while the main task awaits its RPC. The two `apply`s have not ended by then. -/
theorem nested_fails : Sequential ⟨[⟨nested, .raised 7, .running⟩], ⟨[(0, 2)], some 7⟩⟩ := by
  have a0 : Sequential ⟨[⟨[], .user, .running⟩], .clear⟩ := .start .init (by simp [Proc.init])
  have a1 : Sequential ⟨[⟨[⟨.wrapper none, none⟩], .user, .running⟩], .clear⟩ :=
    a0.loop 0 rfl rfl (by simp) (.userSpawn (k := .wrapper none) rfl rfl)
  have a2 : Sequential ⟨[⟨[⟨.wrapper none, none⟩, ⟨.plain, none⟩], .user, .running⟩], .clear⟩ :=
    a1.loop 0 rfl rfl (by simp) (.userSpawn (k := .plain) rfl rfl)
  have a3 : Sequential ⟨[⟨[⟨.wrapper none, none⟩, ⟨.plain, none⟩], .top none, .running⟩], .clear⟩ :=
    a2.loop 0 rfl rfl (by simp) (.userEnd (f := none) rfl)
  have a4 : Sequential ⟨[⟨[⟨.wrapper none, none⟩, ⟨.plain, none⟩], .waiting none [0, 1], .running⟩], .clear⟩ :=
    a3.loop 0 rfl rfl (by simp) (.top (f := none) rfl)
  have a5 : Sequential ⟨[⟨[⟨.wrapper (some 2), none⟩, ⟨.plain, none⟩, ⟨.rpc, none⟩], .waiting none [0, 1], .running⟩], ⟨[(0, 2)], none⟩⟩ :=
    a4.loop 0 rfl rfl (by simp) (.wrapStart (i := 0) (by simp [view, Main.ended]) rfl)
  have a6 : Sequential ⟨[⟨[⟨.wrapper (some 2), none⟩, ⟨.plain, none⟩, ⟨.rpc, some .ok⟩], .waiting none [0, 1], .running⟩], ⟨[(0, 2)], none⟩⟩ :=
    a5.loop 0 rfl rfl (by simp) (.taskEnd (i := 2) (r := .ok) (by simp [view, Main.ended]) rfl rfl rfl)
  have a7 : Sequential ⟨[⟨[⟨.wrapper (some 2), some .ok⟩, ⟨.plain, none⟩, ⟨.rpc, some .ok⟩], .waiting none [0, 1], .running⟩], ⟨[(0, 2)], none⟩⟩ :=
    a6.loop 0 rfl rfl (by simp) (.wrapEnd (i := 0) (j := 2) (r := .ok) (by simp [view, Main.ended]) rfl rfl)
  have a8 : Sequential ⟨[⟨[⟨.wrapper (some 2), some .ok⟩, ⟨.plain, none⟩, ⟨.rpc, some .ok⟩, ⟨.wrapper none, none⟩], .waiting none [0, 1], .running⟩],
      ⟨[(0, 2)], none⟩⟩ :=
    a7.loop 0 rfl rfl (by simp) (.taskSpawn (i := 1) (k := .wrapper none) (by simp [view, Main.ended]) rfl rfl rfl rfl)
  have a9 : Sequential ⟨[⟨[⟨.wrapper (some 2), some .ok⟩, ⟨.plain, none⟩, ⟨.rpc, some .ok⟩, ⟨.wrapper none, none⟩, ⟨.plain, none⟩],
      .waiting none [0, 1], .running⟩], ⟨[(0, 2)], none⟩⟩ :=
    a8.loop 0 rfl rfl (by simp) (.taskSpawn (i := 1) (k := .plain) (by simp [view, Main.ended]) rfl rfl rfl rfl)
  have a10 : Sequential ⟨[⟨[⟨.wrapper (some 2), some .ok⟩, ⟨.plain, none⟩, ⟨.rpc, some .ok⟩, ⟨.wrapper none, none⟩, ⟨.plain, none⟩, ⟨.plain, none⟩],
      .waiting none [0, 1], .running⟩], ⟨[(0, 2)], none⟩⟩ :=
    a9.loop 0 rfl rfl (by simp) (.taskSpawn (i := 1) (k := .plain) (by simp [view, Main.ended]) rfl rfl rfl rfl)
  have a11 : Sequential ⟨[⟨[⟨.wrapper (some 2), some .ok⟩, ⟨.plain, some .ok⟩, ⟨.rpc, some .ok⟩, ⟨.wrapper none, none⟩, ⟨.plain, none⟩, ⟨.plain, none⟩],
      .waiting none [0, 1], .running⟩], ⟨[(0, 2)], none⟩⟩ :=
    a10.loop 0 rfl rfl (by simp) (.taskEnd (i := 1) (r := .ok) (by simp [view, Main.ended]) rfl rfl rfl)
  have a12 : Sequential ⟨[⟨[⟨.wrapper (some 2), some .ok⟩, ⟨.plain, some .ok⟩, ⟨.rpc, some .ok⟩, ⟨.wrapper (some 6), none⟩, ⟨.plain, none⟩, ⟨.plain, none⟩,
      ⟨.rpc, none⟩], .waiting none [0, 1], .running⟩], ⟨[(0, 2), (0, 6)], none⟩⟩ :=
    a11.loop 0 rfl rfl (by simp) (.wrapStart (i := 3) (by simp [view, Main.ended]) rfl)
  have a13 : Sequential ⟨[⟨[⟨.wrapper (some 2), some .ok⟩, ⟨.plain, some .ok⟩, ⟨.rpc, some .ok⟩, ⟨.wrapper (some 6), none⟩, ⟨.plain, none⟩, ⟨.plain, none⟩,
      ⟨.rpc, none⟩], .top none, .running⟩], ⟨[(0, 2), (0, 6)], none⟩⟩ :=
    a12.loop 0 rfl rfl (by simp) (.waitDone (f := none) (ids := [0, 1]) rfl (by
      intro i hi; simp at hi; rcases hi with rfl | rfl <;> rfl))
  have a14 : Sequential ⟨[⟨[⟨.wrapper (some 2), some .ok⟩, ⟨.plain, some .ok⟩, ⟨.rpc, some .ok⟩, ⟨.wrapper (some 6), none⟩, ⟨.plain, none⟩, ⟨.plain, none⟩,
      ⟨.rpc, none⟩], .sleeping none, .running⟩], ⟨[(0, 2), (0, 6)], none⟩⟩ :=
    a13.loop 0 rfl rfl (by simp) (.top (f := none) rfl)
  have a15 : Sequential ⟨[⟨[⟨.wrapper (some 2), some .ok⟩, ⟨.plain, some .ok⟩, ⟨.rpc, some .ok⟩, ⟨.wrapper (some 6), none⟩, ⟨.plain, none⟩, ⟨.plain, none⟩,
      ⟨.rpc, none⟩], .awaiting none 6, .running⟩], ⟨[(0, 2)], none⟩⟩ :=
    a14.pop 0 6 rfl rfl rfl rfl
  have a16 : Sequential ⟨[⟨[⟨.wrapper (some 2), some .ok⟩, ⟨.plain, some .ok⟩, ⟨.rpc, some .ok⟩, ⟨.wrapper (some 6), none⟩, ⟨.plain, none⟩, ⟨.plain, none⟩,
      ⟨.rpc, some (.exn 7)⟩], .awaiting none 6, .running⟩], ⟨[(0, 2)], none⟩⟩ :=
    a15.loop 0 rfl rfl (by simp) (.taskEnd (i := 6) (r := .exn 7) (by simp [view, Main.ended]) rfl rfl rfl)
  have a17 : Sequential ⟨[⟨nested, .awaiting none 6, .running⟩], ⟨[(0, 2)], some 7⟩⟩ :=
    a16.loop 0 rfl rfl (by simp) (.wrapEnd (i := 3) (j := 6) (r := .exn 7) (by simp [view, Main.ended]) rfl rfl)
  exact a17.loop 0 rfl rfl (by simp [nested]) (.awaited (f := none) (i := 6) (r := .exn 7) rfl rfl)

/-- The tasks after the first `apply` was cancelled; the second ended with the failure of the resource in the meantime. -/
def nestedAfter : List Task :=
  [⟨.wrapper (some 2), some .ok⟩, ⟨.plain, some .ok⟩, ⟨.rpc, some .ok⟩, ⟨.wrapper (some 6), some .ok⟩, ⟨.plain, some (.exn cancelled)⟩,
    ⟨.plain, some (.exn 7)⟩, ⟨.rpc, some (.exn 7)⟩]

/-- The cleanup of that run fails, so that the manager is not cleared; the next run does nothing and raises the old exception. -/
theorem poisoned : Sequential
    ⟨[⟨nestedAfter, .raised 7, .crashed 7⟩, ⟨[], .raised 7, .running⟩], ⟨[], some 7⟩⟩ := by
  have a1 : Sequential ⟨[⟨nested, .raised 7, .closing [4, 5]⟩], ⟨[(0, 2)], some 7⟩⟩ :=
    nested_fails.finally_ 0 rfl rfl rfl
  have a2 := Sequential.step a1 (.dying (i := 0) 4 (.exn cancelled) [] none rfl rfl rfl) rfl
  have a3 := Sequential.step a2 (.dying (i := 0) 5 (.exn 7) [] none rfl rfl rfl) rfl
  have a4 : Sequential ⟨[⟨nestedAfter, .raised 7, .closing [5]⟩], ⟨[(0, 2)], some 7⟩⟩ :=
    a3.next 0 4 rfl rfl (.inr rfl)
  have a5 : Sequential ⟨[⟨nestedAfter, .raised 7, .crashed 7⟩], ⟨[(0, 2)], some 7⟩⟩ :=
    a4.crash 0 5 7 rfl rfl rfl (by decide)
  have a6 : Sequential ⟨[⟨nestedAfter, .raised 7, .crashed 7⟩, ⟨[], .user, .running⟩], ⟨[(0, 2)], some 7⟩⟩ :=
    .start a5 (by simp [Run.over])
  have a7 : Sequential ⟨[⟨nestedAfter, .raised 7, .crashed 7⟩, ⟨[], .top none, .running⟩], ⟨[(0, 2)], some 7⟩⟩ :=
    a6.loop 1 rfl rfl (by simp) (.userEnd (f := none) rfl)
  have a8 : Sequential ⟨[⟨nestedAfter, .raised 7, .crashed 7⟩, ⟨[], .sleeping none, .running⟩], ⟨[(0, 2)], some 7⟩⟩ :=
    a7.loop 1 rfl rfl (by simp) (.top (f := none) rfl)
  have a9 : Sequential ⟨[⟨nestedAfter, .raised 7, .crashed 7⟩, ⟨[], .top none, .running⟩], ⟨[], some 7⟩⟩ :=
    a8.foreign 1 0 2 rfl rfl rfl rfl (by decide)
  exact a9.loop 1 rfl rfl (by simp) (.top (f := none) rfl)

/-- Two programs that run one after the other. The first fails as a whole (its function raises), and is cleaned up; the second registers something and
returns. -/
theorem one_then_other : Sequential
    ⟨[⟨[], .raised 9, .closed⟩, ⟨[⟨.wrapper (some 1), some .ok⟩, ⟨.rpc, some .ok⟩], .returned, .closed⟩], .clear⟩ := by
  have a0 : Sequential ⟨[⟨[], .user, .running⟩], .clear⟩ := .start .init (by simp [Proc.init])
  have a1 : Sequential ⟨[⟨[], .top (some 9), .running⟩], .clear⟩ := a0.loop 0 rfl rfl (by simp) (.userEnd (f := some 9) rfl)
  have a2 : Sequential ⟨[⟨[], .raised 9, .running⟩], .clear⟩ := a1.loop 0 rfl rfl (by simp) (.top (f := some 9) rfl)
  have a3 : Sequential ⟨[⟨[], .raised 9, .closing []⟩], .clear⟩ := a2.finally_ 0 rfl rfl rfl
  have a4 : Sequential ⟨[⟨[], .raised 9, .closed⟩], .clear⟩ := a3.close 0 rfl rfl
  have b0 : Sequential ⟨[⟨[], .raised 9, .closed⟩, ⟨[], .user, .running⟩], .clear⟩ := .start a4 (by simp [Run.over])
  have b1 : Sequential ⟨[⟨[], .raised 9, .closed⟩, ⟨[⟨.wrapper none, none⟩], .user, .running⟩], .clear⟩ :=
    b0.loop 1 rfl rfl (by simp) (.userSpawn (k := .wrapper none) rfl rfl)
  have b2 : Sequential ⟨[⟨[], .raised 9, .closed⟩, ⟨[⟨.wrapper none, none⟩], .top none, .running⟩], .clear⟩ :=
    b1.loop 1 rfl rfl (by simp) (.userEnd (f := none) rfl)
  have b3 : Sequential ⟨[⟨[], .raised 9, .closed⟩, ⟨[⟨.wrapper none, none⟩], .waiting none [0], .running⟩], .clear⟩ :=
    b2.loop 1 rfl rfl (by simp) (.top (f := none) rfl)
  have b4 : Sequential ⟨[⟨[], .raised 9, .closed⟩, ⟨[⟨.wrapper (some 1), none⟩, ⟨.rpc, none⟩], .waiting none [0], .running⟩], ⟨[(1, 1)], none⟩⟩ :=
    b3.loop 1 rfl rfl (by simp) (.wrapStart (i := 0) (by simp [view, Main.ended]) rfl)
  have b5 : Sequential ⟨[⟨[], .raised 9, .closed⟩, ⟨[⟨.wrapper (some 1), none⟩, ⟨.rpc, some .ok⟩], .waiting none [0], .running⟩], ⟨[(1, 1)], none⟩⟩ :=
    b4.loop 1 rfl rfl (by simp) (.taskEnd (i := 1) (r := .ok) (by simp [view, Main.ended]) rfl rfl rfl)
  have b6 : Sequential ⟨[⟨[], .raised 9, .closed⟩, ⟨[⟨.wrapper (some 1), some .ok⟩, ⟨.rpc, some .ok⟩], .waiting none [0], .running⟩], ⟨[(1, 1)], none⟩⟩ :=
    b5.loop 1 rfl rfl (by simp) (.wrapEnd (i := 0) (j := 1) (r := .ok) (by simp [view, Main.ended]) rfl rfl)
  have b7 : Sequential ⟨[⟨[], .raised 9, .closed⟩, ⟨[⟨.wrapper (some 1), some .ok⟩, ⟨.rpc, some .ok⟩], .top none, .running⟩], ⟨[(1, 1)], none⟩⟩ :=
    b6.loop 1 rfl rfl (by simp) (.waitDone (f := none) (ids := [0]) rfl (by intro i hi; simp at hi; subst hi; rfl))
  have b8 : Sequential ⟨[⟨[], .raised 9, .closed⟩, ⟨[⟨.wrapper (some 1), some .ok⟩, ⟨.rpc, some .ok⟩], .sleeping none, .running⟩], ⟨[(1, 1)], none⟩⟩ :=
    b7.loop 1 rfl rfl (by simp) (.top (f := none) rfl)
  have b9 : Sequential ⟨[⟨[], .raised 9, .closed⟩, ⟨[⟨.wrapper (some 1), some .ok⟩, ⟨.rpc, some .ok⟩], .awaiting none 1, .running⟩], .clear⟩ :=
    b8.pop 1 1 rfl rfl rfl rfl
  have b10 : Sequential ⟨[⟨[], .raised 9, .closed⟩, ⟨[⟨.wrapper (some 1), some .ok⟩, ⟨.rpc, some .ok⟩], .top none, .running⟩], .clear⟩ :=
    b9.loop 1 rfl rfl (by simp) (.awaited (f := none) (i := 1) (r := .ok) rfl rfl)
  have b11 : Sequential ⟨[⟨[], .raised 9, .closed⟩, ⟨[⟨.wrapper (some 1), some .ok⟩, ⟨.rpc, some .ok⟩], .returned, .running⟩], .clear⟩ :=
    b10.loop 1 rfl rfl (by simp) (.top (f := none) rfl)
  have b12 : Sequential ⟨[⟨[], .raised 9, .closed⟩, ⟨[⟨.wrapper (some 1), some .ok⟩, ⟨.rpc, some .ok⟩], .returned, .closing []⟩], .clear⟩ :=
    b11.finally_ 1 rfl rfl rfl
  exact b12.close 1 rfl rfl

end Pulumi.Inline
