import Verif.Async.Eval
namespace Pulumi.Async

/-- `τ` knows at least the results `σ` knows. -/
def Store.le (σ τ : Store) : Prop := ∀ f r, σ f = some r → τ f = some r

theorem Store.le_refl (σ : Store) : σ.le σ := fun _ _ h => h
theorem Store.le_trans {σ τ ρ : Store} (h : σ.le τ) (h' : τ.le ρ) : σ.le ρ :=
  fun f r hf => h' f r (h f r hf)

theorem Store.le_write (σ : Store) (f : FutId) (r : Res) : σ.le (σ.write f r) := by
  intro g s hg
  unfold Store.write
  split
  · subst_vars; simp [hg]
  · exact hg

theorem Store.write_same {σ : Store} {f : FutId} {r : Res} (h : σ f = none) : σ.write f r f = some r := by
  simp [Store.write, h]

theorem Store.write_other {σ : Store} {f g : FutId} {r : Res} (h : g ≠ f) : σ.write f r g = σ g := by
  simp [Store.write, h]

theorem gatherRes_exn {σ : Store} : ∀ {fs e}, gatherRes σ fs = some (.exn e) → e = gatherExc
  | [], e, h => by simp [gatherRes] at h
  | f :: fs, e, h => by
    unfold gatherRes at h
    split at h
    · simp at h; exact h.symm
    · rename_i h2 _
      simp at h; subst h; exact gatherRes_exn h2
    · simp at h
    · simp at h

/-- A failed member makes the gather fail, whatever the others do. -/
theorem gatherRes_fail {σ : Store} : ∀ {fs f e}, f ∈ fs → σ f = some (.exn e) →
    gatherRes σ fs = some (.exn gatherExc)
  | [], _, _, h, _ => by simp at h
  | g :: fs, f, e, h, hf => by
    unfold gatherRes
    rcases List.mem_cons.1 h with h | h
    · subst h; rw [hf]
    · rw [gatherRes_fail h hf]
      cases hg : σ g with
      | none => rfl
      | some r => cases r <;> rfl

/-- `gather` succeeds exactly when every member has succeeded, with the results in order. -/
theorem gatherRes_ok {σ : Store} : ∀ {fs v}, gatherRes σ fs = some (.ok v) ↔
    ∃ vs : List Val, v = .list vs ∧ fs.map σ = vs.map (fun w => some (.ok w))
  | [], v => by
    simp only [gatherRes, Option.some.injEq, Res.ok.injEq]
    constructor
    · intro h; exact ⟨[], h.symm, rfl⟩
    · rintro ⟨vs, rfl, h⟩; cases vs <;> simp_all
  | f :: fs, v => by
    constructor
    · intro h
      unfold gatherRes at h
      split at h
      · simp at h
      · simp at h
      · rename_i w vs hf hfs
        simp at h; subst h
        obtain ⟨us, hu, hall⟩ := gatherRes_ok.1 hfs
        simp at hu; subst hu
        exact ⟨w :: vs, rfl, by simp [hf, hall]⟩
      · simp at h
    · rintro ⟨vs, rfl, h⟩
      cases vs with
      | nil => simp at h
      | cons w vs =>
        simp at h
        have := (gatherRes_ok (σ := σ) (fs := fs)).2 ⟨vs, rfl, by simpa using h.2⟩
        simp [gatherRes, h.1, this]

theorem gatherRes_exn_iff {σ : Store} {fs e} : gatherRes σ fs = some (.exn e) ↔
    e = gatherExc ∧ ∃ f ∈ fs, ∃ e, σ f = some (.exn e) := by
  constructor
  · intro h
    have := gatherRes_exn h; subst this
    refine ⟨rfl, ?_⟩
    induction fs with
    | nil => simp [gatherRes] at h
    | cons f fs ih =>
      unfold gatherRes at h
      split at h
      · rename_i e hf; exact ⟨f, by simp, e, hf⟩
      · rename_i e' h2 _
        simp at h; subst h
        obtain ⟨g, hg, e, he⟩ := ih h2
        exact ⟨g, by simp [hg], e, he⟩
      · simp at h
      · simp at h
  · rintro ⟨rfl, f, hf, e, he⟩
    exact gatherRes_fail hf he

theorem gatherRes_mono {σ τ : Store} (hle : σ.le τ) {fs r} (h : gatherRes σ fs = some r) :
    gatherRes τ fs = some r := by
  cases r with
  | ok v =>
    rw [gatherRes_ok] at h ⊢
    obtain ⟨vs, rfl, hall⟩ := h
    refine ⟨vs, rfl, ?_⟩
    induction fs generalizing vs with
    | nil => simpa using hall
    | cons f fs ih =>
      cases vs with
      | nil => simp at hall
      | cons v vs =>
        simp only [List.map_cons, List.cons.injEq] at hall ⊢
        exact ⟨hle _ _ hall.1, ih _ hall.2⟩
  | exn e =>
    rw [gatherRes_exn_iff] at h ⊢
    obtain ⟨rfl, f, hf, e, he⟩ := h
    exact ⟨rfl, f, hf, e, hle _ _ he⟩

/-! ## The invariant of executions -/

/-- What task `t` has done so far. -/
def cur (c : Config) (t : TaskId) (T : Task) : Outcome :=
  { result := c.futs (.result t), slots := fun i => c.futs (.slot t i),
    children := T.children, spawned := T.spawned, calls := T.calls }

/-- What the rest of a task will do. -/
def afterQ (σ : Store) (t : TaskId) : Option Prog → Outcome → Outcome
  | some p, o => eval σ t p o
  | none, o => o

structure Inv (c : Config) : Prop where
  running : ∀ t T p, c.tasks t = some T → T.prog = some p → c.futs (.result t) = none
  progress : ∀ t T, c.tasks t = some T → ∀ σ, c.futs.le σ →
    eval σ t T.origin Outcome.init = afterQ σ t T.prog (cur c t T)
  absent : ∀ f : FutId, c.tasks f.task = none → c.futs f = none
  parent : ∀ t n T, c.tasks (.child t n) = some T → ∃ P, c.tasks t = some P ∧ n < P.children
  spawned : ∀ t T, c.tasks t = some T → ∀ u p, (u, p) ∈ T.spawned →
    ∃ T', c.tasks u = some T' ∧ T'.origin = p

theorem child_ne (t : TaskId) (n : Nat) : TaskId.child t n ≠ t := by
  intro h
  have := congrArg sizeOf h
  simp at this
  omega

theorem inv_start (roots) : Inv (start roots) := by
  refine ⟨?_, ?_, ?_, ?_, ?_⟩
  · intros; rfl
  · intro t T hT σ _
    cases t with
    | child t n => simp [start] at hT
    | root i =>
      simp only [start, Option.map_eq_some_iff] at hT
      obtain ⟨p, hp, rfl⟩ := hT
      rfl
  · intros; rfl
  · intro t n T h; simp [start] at h
  · intro t T hT u p hmem
    cases t with
    | child t n => simp [start] at hT
    | root i =>
      simp only [start, Option.map_eq_some_iff] at hT
      obtain ⟨q, hq, rfl⟩ := hT
      simp [Task.fresh] at hmem

/-- What one step of task `t` does, as cases. -/
inductive StepCase (c : Config) (t : TaskId) (T : Task) : Config → Prop
  | ret (v) : T.prog = some (.ret v) → StepCase c t T
      { (c.setTask t { T with prog := none }) with futs := c.futs.write (.result t) (.ok v) }
  | raise (e) : T.prog = some (.raise e) → StepCase c t T
      { (c.setTask t { T with prog := none }) with futs := c.futs.write (.result t) (.exn e) }
  | await (f k r) : T.prog = some (.await f k) → c.futs f = some r → StepCase c t T
      (c.setTask t { T with prog := some (k r) })
  | gather (fs k r) : T.prog = some (.gather fs k) → gatherRes c.futs fs = some r → StepCase c t T
      (c.setTask t { T with prog := some (k r) })
  | spawn (p k) : T.prog = some (.spawn p k) → StepCase c t T
      ((c.setTask (.child t T.children) (Task.fresh p)).setTask t
        { T with prog := some (k (.child t T.children)), children := T.children + 1,
                 spawned := T.spawned ++ [(.child t T.children, p)] })
  | setNew (i r k) : T.prog = some (.set i r k) → c.futs (.slot t i) = none → StepCase c t T
      { (c.setTask t { T with prog := some (k true) }) with futs := c.futs.write (.slot t i) r }
  | setOld (i r k r') : T.prog = some (.set i r k) → c.futs (.slot t i) = some r' → StepCase c t T
      (c.setTask t { T with prog := some (k false) })
  | call (v k) : T.prog = some (.call v k) → StepCase c t T
      (c.setTask t { T with prog := some k, calls := T.calls ++ [v] })

theorem stepTask_cases {c t c'} (h : stepTask c t = some c') :
    ∃ T, c.tasks t = some T ∧ StepCase c t T c' := by
  unfold stepTask at h
  split at h
  · simp at h
  · rename_i T hT
    refine ⟨T, hT, ?_⟩
    split at h
    · simp at h
    · rename_i v hp; simp at h; subst h; exact .ret v hp
    · rename_i e hp; simp at h; subst h; exact .raise e hp
    · rename_i f k hp
      split at h
      · simp at h
      · rename_i r hr; simp at h; subst h; exact .await f k r hp hr
    · rename_i fs k hp
      split at h
      · simp at h
      · rename_i r hr; simp at h; subst h; exact .gather fs k r hp hr
    · rename_i p k hp; simp at h; subst h; exact .spawn p k hp
    · rename_i i r k hp
      split at h
      · rename_i hs; simp at h; subst h; exact .setNew i r k hp hs
      · rename_i r' hs; simp at h; subst h; exact .setOld i r k r' hp hs
    · rename_i v k hp; simp at h; subst h; exact .call v k hp

theorem stepTask_of_case {c t T c'} (hT : c.tasks t = some T) (h : StepCase c t T c') :
    stepTask c t = some c' := by
  cases h <;> simp_all [stepTask]

theorem Config.setTask_same (c : Config) (t T) : (c.setTask t T).tasks t = some T := by
  simp [Config.setTask]
theorem Config.setTask_other (c : Config) {t u} (T) (h : u ≠ t) : (c.setTask t T).tasks u = c.tasks u := by
  simp [Config.setTask, h]

/-- Steps that only change the program and history of an existing task. -/
theorem inv_local {c : Config} (hc : Inv c) {t T} (hT : c.tasks t = some T) {q : Prog} {calls' : List Val}
    {p : Prog} (hp : T.prog = some p)
    (hev : ∀ σ, c.futs.le σ → eval σ t p (cur c t T) = eval σ t q { cur c t T with calls := calls' }) :
    Inv (c.setTask t { T with prog := some q, calls := calls' }) := by
  refine ⟨?_, ?_, ?_, ?_, ?_⟩
  · intro u U p' hU hp'
    by_cases hu : u = t
    · subst hu; exact hc.running _ _ _ hT hp
    · rw [Config.setTask_other _ _ hu] at hU; exact hc.running _ _ _ hU hp'
  · intro u U hU σ hσ
    by_cases hu : u = t
    · subst hu
      rw [Config.setTask_same] at hU
      cases hU
      have h1 := hc.progress _ _ hT σ hσ
      rw [hp] at h1
      rw [h1]; exact hev σ hσ
    · rw [Config.setTask_other _ _ hu] at hU
      exact hc.progress _ _ hU σ hσ
  · intro f hf
    by_cases hu : f.task = t
    · rw [hu, Config.setTask_same] at hf; simp at hf
    · rw [Config.setTask_other _ _ hu] at hf; exact hc.absent _ hf
  · intro u n U hU
    have : ∃ U', c.tasks (.child u n) = some U' := by
      by_cases hu : TaskId.child u n = t
      · exact ⟨T, hu ▸ hT⟩
      · rw [Config.setTask_other _ _ hu] at hU; exact ⟨_, hU⟩
    obtain ⟨U', hU'⟩ := this
    obtain ⟨P, hP, hn⟩ := hc.parent _ _ _ hU'
    by_cases hu : u = t
    · subst hu; rw [hT] at hP; cases hP
      exact ⟨_, Config.setTask_same _ _ _, hn⟩
    · exact ⟨P, by rw [Config.setTask_other _ _ hu]; exact hP, hn⟩
  · intro u U hU w p' hmem
    have hm : ∃ U', c.tasks u = some U' ∧ (w, p') ∈ U'.spawned := by
      by_cases hu : u = t
      · subst hu; rw [Config.setTask_same] at hU; cases hU; exact ⟨T, hT, hmem⟩
      · rw [Config.setTask_other _ _ hu] at hU; exact ⟨U, hU, hmem⟩
    obtain ⟨U', hU', hm⟩ := hm
    obtain ⟨W, hW, ho⟩ := hc.spawned _ _ hU' _ _ hm
    by_cases hw : w = t
    · subst hw; rw [hT] at hW; cases hW; exact ⟨_, Config.setTask_same _ _ _, ho⟩
    · exact ⟨W, by rw [Config.setTask_other _ _ hw]; exact hW, ho⟩

/-- Steps that write a fresh future of the stepping task. -/
theorem inv_write {c : Config} (hc : Inv c) {t T} (hT : c.tasks t = some T) {q : Option Prog}
    {f : FutId} {r : Res} (hft : f.task = t)
    {p : Prog} (hp : T.prog = some p)
    (hq : q ≠ none → f ≠ .result t)
    (hev : ∀ σ, (c.futs.write f r).le σ → eval σ t p (cur c t T) =
      afterQ σ t q { cur c t T with
          result := c.futs.write f r (.result t), slots := fun i => c.futs.write f r (.slot t i) }) :
    Inv { (c.setTask t { T with prog := q }) with futs := c.futs.write f r } := by
  refine ⟨?_, ?_, ?_, ?_, ?_⟩
  · intro u U p' hU hp'
    by_cases hu : u = t
    · subst hu
      have hU : (c.setTask u { T with prog := q }).tasks u = some U := hU
      rw [Config.setTask_same] at hU; cases hU
      have : FutId.result u ≠ f := fun h => hq (by simp at hp'; simp [hp']) h.symm
      show c.futs.write f r (.result u) = none
      rw [Store.write_other this]
      exact hc.running _ _ _ hT hp
    · have hU : (c.setTask t { T with prog := q }).tasks u = some U := hU
      rw [Config.setTask_other _ _ hu] at hU
      show c.futs.write f r (.result u) = none
      rw [Store.write_other (by intro h; rw [← h] at hft; exact hu hft)]
      exact hc.running _ _ _ hU hp'
  · intro u U hU σ hσ
    have hσ' : c.futs.le σ := Store.le_trans (Store.le_write _ _ _) hσ
    by_cases hu : u = t
    · subst hu
      have hU : (c.setTask u { T with prog := q }).tasks u = some U := hU
      rw [Config.setTask_same] at hU; cases hU
      have h1 := hc.progress _ _ hT σ hσ'
      rw [hp] at h1
      rw [h1]
      exact hev σ hσ
    · have hU : (c.setTask t { T with prog := q }).tasks u = some U := hU
      rw [Config.setTask_other _ _ hu] at hU
      have h1 := hc.progress _ _ hU σ hσ'
      rw [h1]
      have hcur : cur { (c.setTask t { T with prog := q }) with futs := c.futs.write f r } u U = cur c u U := by
        have h2 : ∀ g : FutId, g.task = u → c.futs.write f r g = c.futs g := by
          intro g hg
          exact Store.write_other (by intro h; rw [h, hft] at hg; exact hu hg.symm)
        simp only [cur]
        congr 1
        · exact h2 _ rfl
        · funext i; exact h2 _ rfl
      rw [hcur]
  · intro g hg
    by_cases hu : g.task = t
    · have hg : (c.setTask t { T with prog := q }).tasks g.task = none := hg
      rw [hu, Config.setTask_same] at hg; simp at hg
    · have hg : (c.setTask t { T with prog := q }).tasks g.task = none := hg
      rw [Config.setTask_other _ _ hu] at hg
      show c.futs.write f r g = none
      rw [Store.write_other (by intro h; rw [h] at hu; exact hu hft)]
      exact hc.absent _ hg
  · intro u n U hU
    have hU : (c.setTask t { T with prog := q }).tasks (.child u n) = some U := hU
    have : ∃ U', c.tasks (.child u n) = some U' := by
      by_cases hu : TaskId.child u n = t
      · exact ⟨T, hu ▸ hT⟩
      · rw [Config.setTask_other _ _ hu] at hU; exact ⟨_, hU⟩
    obtain ⟨U', hU'⟩ := this
    obtain ⟨P, hP, hn⟩ := hc.parent _ _ _ hU'
    by_cases hu : u = t
    · subst hu; rw [hT] at hP; cases hP
      exact ⟨_, Config.setTask_same _ _ _, hn⟩
    · exact ⟨P, by
        show (c.setTask t { T with prog := q }).tasks u = some P
        rw [Config.setTask_other _ _ hu]; exact hP, hn⟩
  · intro u U hU w p' hmem
    have hU : (c.setTask t { T with prog := q }).tasks u = some U := hU
    have hm : ∃ U', c.tasks u = some U' ∧ (w, p') ∈ U'.spawned := by
      by_cases hu : u = t
      · subst hu; rw [Config.setTask_same] at hU; cases hU; exact ⟨T, hT, hmem⟩
      · rw [Config.setTask_other _ _ hu] at hU; exact ⟨U, hU, hmem⟩
    obtain ⟨U', hU', hm⟩ := hm
    obtain ⟨W, hW, ho⟩ := hc.spawned _ _ hU' _ _ hm
    by_cases hw : w = t
    · subst hw; rw [hT] at hW; cases hW; exact ⟨_, Config.setTask_same _ _ _, ho⟩
    · exact ⟨W, by
        show (c.setTask t { T with prog := q }).tasks w = some W
        rw [Config.setTask_other _ _ hw]; exact hW, ho⟩

theorem inv_no_child {c : Config} (hc : Inv c) {t T} (hT : c.tasks t = some T) :
    c.tasks (.child t T.children) = none := by
  cases h : c.tasks (.child t T.children) with
  | none => rfl
  | some U =>
    obtain ⟨P, hP, hn⟩ := hc.parent _ _ _ h
    rw [hT] at hP; cases hP; omega

/-- The parent's entry after it started a task. -/
def Task.spawning (T : Task) (t : TaskId) (p : Prog) (k : TaskId → Prog) : Task :=
  { T with prog := some (k (.child t T.children)), children := T.children + 1,
           spawned := T.spawned ++ [(.child t T.children, p)] }

theorem inv_spawn {c : Config} (hc : Inv c) {t T} (hT : c.tasks t = some T) {p k}
    (hp : T.prog = some (.spawn p k)) :
    Inv ((c.setTask (.child t T.children) (Task.fresh p)).setTask t
        (T.spawning t p k)) := by
  have hnc := inv_no_child hc hT
  have hne := child_ne t T.children
  -- lookups in the new state
  have hlk : ∀ u U, ((c.setTask (.child t T.children) (Task.fresh p)).setTask t
        (T.spawning t p k)).tasks u = some U →
      (u = t ∧ U = (T.spawning t p k)) ∨
      (u = .child t T.children ∧ U = Task.fresh p) ∨ (u ≠ t ∧ u ≠ .child t T.children ∧ c.tasks u = some U) := by
    intro u U hU
    by_cases hu : u = t
    · subst hu; rw [Config.setTask_same] at hU; cases hU; exact .inl ⟨rfl, rfl⟩
    · rw [Config.setTask_other _ _ hu] at hU
      by_cases hu' : u = .child t T.children
      · subst hu'; rw [Config.setTask_same] at hU; cases hU; exact .inr (.inl ⟨rfl, rfl⟩)
      · rw [Config.setTask_other _ _ hu'] at hU; exact .inr (.inr ⟨hu, hu', hU⟩)
  have hnewfut : ∀ f : FutId, f.task = .child t T.children → c.futs f = none := by
    intro f hf; exact hc.absent f (by rw [hf]; exact hnc)
  refine ⟨?_, ?_, ?_, ?_, ?_⟩
  · intro u U p' hU hp'
    rcases hlk u U hU with ⟨rfl, rfl⟩ | ⟨rfl, rfl⟩ | ⟨_, _, h⟩
    · exact hc.running _ _ _ hT hp
    · exact hnewfut _ rfl
    · exact hc.running _ _ _ h hp'
  · intro u U hU σ hσ
    rcases hlk u U hU with ⟨rfl, rfl⟩ | ⟨rfl, rfl⟩ | ⟨_, _, h⟩
    · have h1 := hc.progress _ _ hT σ hσ
      rw [hp] at h1
      show eval σ u T.origin Outcome.init = _
      rw [h1]; rfl
    · show eval σ _ p Outcome.init = eval σ _ p _
      congr 1
      simp only [cur, Outcome.init, Task.fresh]
      congr 1
      · exact (hnewfut _ rfl).symm
      · funext i; exact (hnewfut _ rfl).symm
    · exact hc.progress _ _ h σ hσ
  · intro f hf
    by_cases hu : f.task = t
    · rw [hu, Config.setTask_same] at hf; simp at hf
    · rw [Config.setTask_other _ _ hu] at hf
      by_cases hu' : f.task = .child t T.children
      · exact hnewfut _ hu'
      · rw [Config.setTask_other _ _ hu'] at hf; exact hc.absent _ hf
  · intro u n U hU
    rcases hlk _ _ hU with ⟨h1, rfl⟩ | ⟨h1, rfl⟩ | ⟨_, _, h⟩
    · rw [← h1] at hT
      obtain ⟨P, hP, hn⟩ := hc.parent _ _ _ hT
      have hut : u ≠ t := by rw [← h1]; exact fun h => child_ne u n h.symm
      have huc : u ≠ .child t T.children := by
        intro h; rw [h] at hP; rw [hnc] at hP; simp at hP
      exact ⟨P, by rw [Config.setTask_other _ _ hut, Config.setTask_other _ _ huc]; exact hP, hn⟩
    · cases h1
      exact ⟨_, Config.setTask_same _ _ _, Nat.lt_succ_self _⟩
    · obtain ⟨P, hP, hn⟩ := hc.parent _ _ _ h
      by_cases hu : u = t
      · subst hu; rw [hT] at hP; cases hP
        exact ⟨_, Config.setTask_same _ _ _, Nat.lt_succ_of_lt hn⟩
      · have huc : u ≠ .child t T.children := by
          intro h; rw [h] at hP; rw [hnc] at hP; simp at hP
        exact ⟨P, by rw [Config.setTask_other _ _ hu, Config.setTask_other _ _ huc]; exact hP, hn⟩
  · have hold : ∀ u U, c.tasks u = some U → ∀ w p', (w, p') ∈ U.spawned → ∃ W, ((c.setTask (.child t T.children) (Task.fresh p)).setTask t
        (T.spawning t p k)).tasks w = some W ∧ W.origin = p' := by
      intro u U hU w p' hmem
      obtain ⟨W, hW, ho⟩ := hc.spawned _ _ hU _ _ hmem
      by_cases hw : w = t
      · subst hw; rw [hT] at hW; cases hW; exact ⟨_, Config.setTask_same _ _ _, ho⟩
      · have hwc : w ≠ .child t T.children := by
          intro h; rw [h] at hW; rw [hnc] at hW; simp at hW
        exact ⟨W, by rw [Config.setTask_other _ _ hw, Config.setTask_other _ _ hwc]; exact hW, ho⟩
    intro u U hU w p' hmem
    rcases hlk u U hU with ⟨rfl, rfl⟩ | ⟨rfl, rfl⟩ | ⟨_, _, h⟩
    · rcases List.mem_append.1 hmem with h | h
      · exact hold _ _ hT _ _ h
      · simp at h
        obtain ⟨rfl, rfl⟩ := h
        exact ⟨_, by rw [Config.setTask_other _ _ hne, Config.setTask_same], rfl⟩
    · simp [Task.fresh] at hmem
    · exact hold _ _ h _ _ hmem

theorem inv_step {c c' : Config} (hc : Inv c) {t} (h : stepTask c t = some c') : Inv c' := by
  obtain ⟨T, hT, hs⟩ := stepTask_cases h
  cases hs with
  | ret v hp =>
    refine inv_write hc hT rfl hp (by simp) ?_
    intro σ _
    simp only [eval, cur]
    rw [Store.write_same (hc.running _ _ _ hT hp)]
    congr 1
  | raise e hp =>
    refine inv_write hc hT rfl hp (by simp) ?_
    intro σ _
    simp only [eval, cur]
    rw [Store.write_same (hc.running _ _ _ hT hp)]
    congr 1
  | await f k r hp hr =>
    refine inv_local hc hT hp (calls' := T.calls) ?_
    intro σ hσ
    simp only [eval, hσ _ _ hr]; rfl
  | gather fs k r hp hr =>
    refine inv_local hc hT hp (calls' := T.calls) ?_
    intro σ hσ
    simp only [eval, gatherRes_mono hσ hr]; rfl
  | spawn p k hp => exact inv_spawn hc hT hp
  | setNew i r k hp hs =>
    refine inv_write hc hT (f := .slot t i) rfl hp (by simp) ?_
    intro σ _
    simp only [eval, cur, hs]
    congr 2
    funext j
    by_cases hj : j = i
    · subst hj; simp [Store.write, hs]
    · simp [Store.write, hj]
  | setOld i r k r' hp hs =>
    refine inv_local hc hT hp (calls' := T.calls) ?_
    intro σ _
    simp only [eval, cur, hs]
  | call v k hp =>
    refine inv_local hc hT hp ?_
    intro σ _
    simp only [eval, cur]

theorem inv_steps {n c d} (h : Steps n c d) (hc : Inv c) : Inv d := by
  induction h with
  | refl => exact hc
  | cons hs _ ih => obtain ⟨t, ht⟩ := hs; exact ih (inv_step hc ht)

/-- At the end of every execution every task has done what its body prescribes. -/
theorem settled_of_quiescent {d : Config} (hd : Inv d) (hq : Quiescent d) : Settled d := by
  have key : ∀ t T, d.tasks t = some T → eval d.futs t T.origin Outcome.init = cur d t T := by
    intro t T hT
    rw [hd.progress t T hT _ (Store.le_refl _)]
    have hqt := hq t
    unfold stepTask at hqt
    rw [hT] at hqt
    cases hp : T.prog with
    | none => rfl
    | some p =>
      simp only [hp] at hqt
      cases p with
      | ret v => simp at hqt
      | raise e => simp at hqt
      | await f k =>
        cases hf : d.futs f with
        | none => simp [afterQ, eval, hf]
        | some r => simp [hf] at hqt
      | gather fs k =>
        cases hf : gatherRes d.futs fs with
        | none => simp [afterQ, eval, hf]
        | some r => simp [hf] at hqt
      | spawn p k => simp at hqt
      | set i r k =>
        cases hf : d.futs (.slot t i) with
        | none => simp [hf] at hqt
        | some r => simp [hf] at hqt
      | call v k => simp at hqt
  refine ⟨?_, ?_, ?_, ?_, hd.absent⟩
  · intro t T hT; rw [key t T hT]; rfl
  · intro t T hT i; rw [key t T hT]; rfl
  · intro t T hT; rw [key t T hT]; rfl
  · intro t T hT u p hm; rw [key t T hT] at hm; exact hd.spawned _ _ hT _ _ hm

theorem settled_of_completes {roots d} (h : Completes roots d) : Settled d := by
  obtain ⟨n, hs, hq⟩ := h
  exact settled_of_quiescent (inv_steps hs (inv_start _)) hq

/-! ## Confluence -/

theorem step_mono {c c' t} (h : stepTask c t = some c') : c.futs.le c'.futs := by
  obtain ⟨T, hT, hs⟩ := stepTask_cases h
  cases hs <;> first | exact Store.le_refl _ | exact Store.le_write _ _ _

theorem Config.ext' {c d : Config} (h1 : ∀ t, c.tasks t = d.tasks t) (h2 : ∀ f, c.futs f = d.futs f) : c = d := by
  cases c; cases d
  simp only [Config.mk.injEq]
  exact ⟨funext h1, funext h2⟩

/-- What a step of `t` changes: its own entry, one fresh child, one future of `t`. -/
structure Frame (c : Config) (t : TaskId) (c' : Config) (T T' : Task) : Prop where
  own : c'.tasks t = some T'
  others : ∀ u, u ≠ t → u ≠ .child t T.children → c'.tasks u = c.tasks u
  futs : ∀ f : FutId, f.task ≠ t → c'.futs f = c.futs f

/-- The step as a function of the task's own view: everything except the awaited results is local. -/
theorem step_frame {c c' t T} (h : StepCase c t T c') : ∃ T', Frame c t c' T T' := by
  have w : ∀ (f : FutId) r (g : FutId), f.task = t → g.task ≠ t → c.futs.write f r g = c.futs g := by
    intro f r g hf hg
    exact Store.write_other (by intro h; rw [h] at hg; exact hg hf)
  cases h with
  | ret v hp => exact ⟨_, Config.setTask_same _ _ _, fun u hu _ => Config.setTask_other _ _ hu, fun f hf => w _ _ f rfl hf⟩
  | raise e hp => exact ⟨_, Config.setTask_same _ _ _, fun u hu _ => Config.setTask_other _ _ hu, fun f hf => w _ _ f rfl hf⟩
  | await f k r hp hr => exact ⟨_, Config.setTask_same _ _ _, fun u hu _ => Config.setTask_other _ _ hu, fun f hf => rfl⟩
  | gather fs k r hp hr => exact ⟨_, Config.setTask_same _ _ _, fun u hu _ => Config.setTask_other _ _ hu, fun f hf => rfl⟩
  | spawn p k hp =>
    exact ⟨_, Config.setTask_same _ _ _, fun u hu hu' => by
      rw [Config.setTask_other _ _ hu, Config.setTask_other _ _ hu'], fun f hf => rfl⟩
  | setNew i r k hp hs => exact ⟨_, Config.setTask_same _ _ _, fun u hu _ => Config.setTask_other _ _ hu, fun f hf => w _ _ f rfl hf⟩
  | setOld i r k r' hp hs => exact ⟨_, Config.setTask_same _ _ _, fun u hu _ => Config.setTask_other _ _ hu, fun f hf => rfl⟩
  | call v k hp => exact ⟨_, Config.setTask_same _ _ _, fun u hu _ => Config.setTask_other _ _ hu, fun f hf => rfl⟩

/-- A step of `t` can be replayed in any state that agrees on `t`, its futures, and knows at least as much; its
effect there is the same on everything it touches and nothing else. -/
theorem step_replay {c c' b t T} (hT : c.tasks t = some T) (h : StepCase c t T c')
    (hTb : b.tasks t = some T) (hle : c.futs.le b.futs)
    (hown : ∀ f : FutId, f.task = t → b.futs f = c.futs f) :
    ∃ b', StepCase b t T b' ∧
      (∀ u, u = t ∨ u = .child t T.children → (c'.tasks u = c.tasks u ∧ b'.tasks u = b.tasks u) ∨ b'.tasks u = c'.tasks u) ∧
      (∀ f : FutId, f.task = t → b'.futs f = c'.futs f) := by
  have hne := child_ne t T.children
  have w : ∀ (f : FutId) r (g : FutId), f.task = t → g.task = t → b.futs.write f r g = c.futs.write f r g := by
    intro f r g hf hg
    unfold Store.write
    rw [hown f hf, hown g hg]
  have loc : ∀ T' : Task, ∀ u, u = t ∨ u = .child t T.children →
      ((c.setTask t T').tasks u = c.tasks u ∧ (b.setTask t T').tasks u = b.tasks u) ∨
      (b.setTask t T').tasks u = (c.setTask t T').tasks u := by
    intro T' u hu
    rcases hu with rfl | rfl
    · right; rw [Config.setTask_same, Config.setTask_same]
    · left; exact ⟨Config.setTask_other _ _ hne, Config.setTask_other _ _ hne⟩
  cases h with
  | ret v hp => exact ⟨_, .ret v hp, loc _, fun f hf => w _ _ f rfl hf⟩
  | raise e hp => exact ⟨_, .raise e hp, loc _, fun f hf => w _ _ f rfl hf⟩
  | await f k r hp hr => exact ⟨_, .await f k r hp (hle _ _ hr), loc _, fun f hf => hown f hf⟩
  | gather fs k r hp hr => exact ⟨_, .gather fs k r hp (gatherRes_mono hle hr), loc _, fun f hf => hown f hf⟩
  | spawn p k hp =>
    refine ⟨_, .spawn p k hp, ?_, fun f hf => hown f hf⟩
    intro u hu
    right
    rcases hu with rfl | rfl
    · rw [Config.setTask_same, Config.setTask_same]
    · rw [Config.setTask_other _ _ hne, Config.setTask_other _ _ hne, Config.setTask_same, Config.setTask_same]
  | setNew i r k hp hs =>
    exact ⟨_, .setNew i r k hp (by rw [hown _ rfl]; exact hs), loc _, fun f hf => w _ _ f rfl hf⟩
  | setOld i r k r' hp hs =>
    exact ⟨_, .setOld i r k r' hp (by rw [hown _ rfl]; exact hs), loc _, fun f hf => hown f hf⟩
  | call v k hp => exact ⟨_, .call v k hp, loc _, fun f hf => hown f hf⟩

/-- Two different tasks' steps commute. -/
theorem diamond {c a b : Config} (hc : Inv c) {t u} (htu : t ≠ u)
    (ha : stepTask c t = some a) (hb : stepTask c u = some b) :
    ∃ d, stepTask a u = some d ∧ stepTask b t = some d := by
  obtain ⟨T, hT, sa⟩ := stepTask_cases ha
  obtain ⟨U, hU, sb⟩ := stepTask_cases hb
  obtain ⟨T', fa⟩ := step_frame sa
  obtain ⟨U', fb⟩ := step_frame sb
  have hnt := inv_no_child hc hT
  have hnu := inv_no_child hc hU
  have hut' : u ≠ .child t T.children := by intro h; rw [h] at hU; rw [hnt] at hU; simp at hU
  have htu' : t ≠ .child u U.children := by intro h; rw [h] at hT; rw [hnu] at hT; simp at hT
  have hcc : TaskId.child t T.children ≠ .child u U.children := by
    intro h; simp at h; exact htu h.1
  have hUa : a.tasks u = some U := by rw [fa.others u (Ne.symm htu) hut']; exact hU
  have hTb : b.tasks t = some T := by rw [fb.others t htu htu']; exact hT
  obtain ⟨d1, sd1, d1t, d1f⟩ := step_replay hU sb hUa (step_mono ha)
    (fun f hf => fa.futs f (by rw [hf]; exact Ne.symm htu))
  obtain ⟨d2, sd2, d2t, d2f⟩ := step_replay hT sa hTb (step_mono hb)
    (fun f hf => fb.futs f (by rw [hf]; exact htu))
  obtain ⟨U1, f1⟩ := step_frame sd1
  obtain ⟨T2, f2⟩ := step_frame sd2
  have hd : d1 = d2 := by
    apply Config.ext'
    · intro x
      by_cases hx1 : x = t ∨ x = .child t T.children
      · have hxu : x ≠ u ∧ x ≠ .child u U.children := by
          rcases hx1 with rfl | rfl
          · exact ⟨htu, htu'⟩
          · exact ⟨Ne.symm hut', hcc⟩
        rw [f1.others x hxu.1 hxu.2]
        rcases d2t x hx1 with ⟨e1, e2⟩ | e
        · rw [e1, e2, fb.others x hxu.1 hxu.2]
        · rw [e]
      · have hxt : x ≠ t ∧ x ≠ .child t T.children := ⟨fun h => hx1 (.inl h), fun h => hx1 (.inr h)⟩
        rw [f2.others x hxt.1 hxt.2]
        by_cases hx2 : x = u ∨ x = .child u U.children
        · rcases d1t x hx2 with ⟨e1, e2⟩ | e
          · rw [e1, e2, fa.others x hxt.1 hxt.2]
          · rw [e]
        · have hxu : x ≠ u ∧ x ≠ .child u U.children := ⟨fun h => hx2 (.inl h), fun h => hx2 (.inr h)⟩
          rw [f1.others x hxu.1 hxu.2, fa.others x hxt.1 hxt.2, fb.others x hxu.1 hxu.2]
    · intro f
      by_cases hft : f.task = t
      · rw [d2f f hft, f1.futs f (by rw [hft]; exact htu)]
      · rw [f2.futs f hft]
        by_cases hfu : f.task = u
        · rw [d1f f hfu]
        · rw [f1.futs f hfu, fa.futs f hft, fb.futs f hfu]
  subst hd
  exact ⟨d1, stepTask_of_case hUa sd1, stepTask_of_case hTb sd2⟩

/-- If one execution from `c` ends, every execution from `c` is a prefix of one that ends in the same state after
the same number of steps. -/
theorem confluence : ∀ {n c d}, Inv c → Steps n c d → Quiescent d →
    ∀ {m e}, Steps m c e → m ≤ n ∧ Steps (n - m) e d := by
  intro n
  induction n with
  | zero =>
    intro c d hc hs hq m e hm
    cases hs
    cases hm with
    | refl => exact ⟨Nat.le_refl _, .refl _⟩
    | cons h _ => obtain ⟨t, ht⟩ := h; rw [hq t] at ht; simp at ht
  | succ n ih =>
    intro c d hc hs hq m e hm
    cases hm with
    | refl => exact ⟨Nat.zero_le _, hs⟩
    | cons h1 hm =>
      rename_i m c1
      cases hs with
      | cons h2 hs =>
        rename_i c2
        obtain ⟨t, ht⟩ := h1
        obtain ⟨u, hu⟩ := h2
        have hc1 := inv_step hc ht
        have hc2 := inv_step hc hu
        have : Steps n c1 d := by
          by_cases htu : t = u
          · subst htu; rw [ht] at hu; cases hu; exact hs
          · obtain ⟨x, hx1, hx2⟩ := diamond hc htu ht hu
            -- from c2, the step of t leads to x, so n ≥ 1 and x reaches d in n-1
            obtain ⟨hle, hxd⟩ := ih hc2 hs hq (.cons ⟨t, hx2⟩ (.refl x))
            cases n with
            | zero => omega
            | succ n => exact .cons ⟨u, hx1⟩ hxd
        obtain ⟨hle, hed⟩ := ih hc1 this hq hm
        exact ⟨by omega, by rw [Nat.succ_sub_succ]; exact hed⟩

/-! ## Synchronous code inside a task -/

theorem eval_run {α : Type} {σ : Store} {t : TaskId} (s : Sync α) (k : Except Exc α → Prog) (o : Outcome) :
    ∃ r n' xs, eval σ t (s.run k) o = eval σ t (k r) { o with children := n', spawned := o.spawned ++ xs } ∧
      ∀ d : Config, (∀ c p, (c, p) ∈ xs → ∃ T, d.tasks c = some T ∧ T.origin = p) →
        Ran d t o.children s r n' := by
  induction s generalizing o with
  | pure a => exact ⟨.ok a, o.children, [], by simp [Sync.run], fun _ _ => .pure⟩
  | raise e => exact ⟨.error e, o.children, [], by simp [Sync.run], fun _ _ => .raise⟩
  | spawn p q ih =>
    obtain ⟨r, n', xs, he, hr⟩ := ih (.child t o.children)
      { o with children := o.children + 1, spawned := o.spawned ++ [(.child t o.children, p)] }
    refine ⟨r, n', (.child t o.children, p) :: xs, ?_, ?_⟩
    · simp only [Sync.run, eval]
      rw [he]
      simp
    · intro d hd
      exact .spawn (hd _ _ (by simp)) (hr d (fun c p h => hd c p (by simp [h])))

theorem eval_spawned {σ : Store} {t : TaskId} (p : Prog) (o : Outcome) :
    ∃ xs, (eval σ t p o).spawned = o.spawned ++ xs := by
  induction p generalizing o with
  | ret v => exact ⟨[], by simp [eval]⟩
  | raise e => exact ⟨[], by simp [eval]⟩
  | await f k ih =>
    simp only [eval]
    split
    · exact ⟨[], by simp⟩
    · exact ih _ _
  | gather fs k ih =>
    simp only [eval]
    split
    · exact ⟨[], by simp⟩
    · exact ih _ _
  | spawn p k _ ih =>
    simp only [eval]
    obtain ⟨xs, h⟩ := ih (.child t o.children)
      { o with children := o.children + 1, spawned := o.spawned ++ [(.child t o.children, p)] }
    exact ⟨(.child t o.children, p) :: xs, by rw [h]; simp⟩
  | set i r k ih =>
    simp only [eval]
    split
    · exact ih _ _
    · exact ih _ _
  | call v k ih => exact ih _

theorem eval_calls {σ : Store} {t : TaskId} (p : Prog) (o : Outcome) :
    ∃ xs, (eval σ t p o).calls = o.calls ++ xs := by
  induction p generalizing o with
  | ret v => exact ⟨[], by simp [eval]⟩
  | raise e => exact ⟨[], by simp [eval]⟩
  | await f k ih =>
    simp only [eval]
    split
    · exact ⟨[], by simp⟩
    · exact ih _ _
  | gather fs k ih =>
    simp only [eval]
    split
    · exact ⟨[], by simp⟩
    · exact ih _ _
  | spawn p k _ ih => exact ih _ _
  | set i r k ih =>
    simp only [eval]
    split
    · exact ih _ _
    · exact ih _ _
  | call v k ih =>
    obtain ⟨xs, h⟩ := ih { o with calls := o.calls ++ [v] }
    exact ⟨v :: xs, by simp only [eval]; rw [h]; simp⟩

theorem Ran.bind {α β : Type} {d t n} {s : Sync α} {f : α → Sync β} {r n'}
    (h : Ran d t n (s.bind f) r n') :
    (∃ a m, Ran d t n s (.ok a) m ∧ Ran d t m (f a) r n') ∨ (∃ e, Ran d t n s (.error e) n' ∧ r = .error e) := by
  induction s generalizing n with
  | pure a => exact .inl ⟨a, n, .pure, h⟩
  | raise e =>
    cases h
    exact .inr ⟨e, .raise, rfl⟩
  | spawn p k ih =>
    cases h with
    | spawn hT h =>
      rcases ih _ h with ⟨a, m, h1, h2⟩ | ⟨e, h1, h2⟩
      · exact .inl ⟨a, m, .spawn hT h1, h2⟩
      · exact .inr ⟨e, .spawn hT h1, h2⟩

theorem Ran.bind_ok {α β : Type} {d t n} {s : Sync α} {f : α → Sync β} {b n'}
    (h : Ran d t n (s.bind f) (.ok b) n') :
    ∃ a m, Ran d t n s (.ok a) m ∧ Ran d t m (f a) (.ok b) n' := by
  rcases Ran.bind h with h | ⟨e, _, h⟩
  · exact h
  · simp at h

theorem Ran.pure_ok {α : Type} {d t n n'} {a b : α} (h : Ran d t n (Sync.pure a) (.ok b) n') : b = a ∧ n' = n := by
  cases h; exact ⟨rfl, rfl⟩

/-- Synchronous code is deterministic. -/
theorem Ran.det {α : Type} {d t n} {s : Sync α} {r r' m m'} (h : Ran d t n s r m) (h' : Ran d t n s r' m') :
    r = r' ∧ m = m' := by
  induction h with
  | pure => cases h'; exact ⟨rfl, rfl⟩
  | raise => cases h'; exact ⟨rfl, rfl⟩
  | spawn _ _ ih => cases h' with | spawn _ h' => exact ih h'

/-- The task `t` of `d` was created with body `p`. -/
def Has (d : Config) (t : TaskId) (p : Prog) : Prop := ∃ T, d.tasks t = some T ∧ T.origin = p

theorem Ran.spawn_ok {α : Type} {d t n n' p} {k : TaskId → Sync α} {b : α}
    (h : Ran d t n (.spawn p k) (.ok b) n') : Has d (.child t n) p ∧ Ran d t (n + 1) (k (.child t n)) (.ok b) n' := by
  cases h with
  | spawn h1 h2 => exact ⟨h1, h2⟩

theorem Settled.res {d t p} (hs : Settled d) (h : Has d t p) :
    d.futs (.result t) = (eval d.futs t p Outcome.init).result := by
  obtain ⟨T, hT, rfl⟩ := h; exact hs.result t T hT

theorem Settled.slot {d t p} (hs : Settled d) (h : Has d t p) (i : Nat) :
    d.futs (.slot t i) = (eval d.futs t p Outcome.init).slots i := by
  obtain ⟨T, hT, rfl⟩ := h; exact hs.slots t T hT i

theorem Settled.callsOf {d t p} (hs : Settled d) (h : Has d t p) :
    ∃ T, d.tasks t = some T ∧ T.calls = (eval d.futs t p Outcome.init).calls := by
  obtain ⟨T, hT, rfl⟩ := h; exact ⟨T, hT, hs.calls t T hT⟩

theorem Settled.child {d t p c q} (hs : Settled d) (h : Has d t p)
    (hm : (c, q) ∈ (eval d.futs t p Outcome.init).spawned) : Has d c q := by
  obtain ⟨T, hT, rfl⟩ := h; exact hs.spawned t T hT c q hm

end Pulumi.Async
