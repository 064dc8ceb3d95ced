import Verif.Filestate.Updates
/-!
# The lock of a stack (C189)

Models `pkg/backend/filestate/lock.go`, line numbers are of it. Any number of processes, each with its own lock id (backend.go:165-177), run commands
on one stack. Listing the directory with the locks takes time: a lock that is there all the while is found, one that is written or deleted
meanwhile may be found or not. Simplifications: what is in a lock file is not modelled (reading it is only for the message); a listing may always fail; a
process runs one command on the stack at a time; other stacks have other directories (`Names.lean`).
-/
namespace Pulumi.Filestate

variable {ι C α S : Type}

/-- Where a process is in `Lock` (105-131), the command, and `Unlock` (133-141). The two listings (62) have the locks that were there when they
began and still are. -/
inductive Phase (ι C α : Type)
  | idle
  | list1 (must : ι → Bool)
  | write
  | wrote
  | list2 (must : ι → Bool)
  | hold (p : Prog C α)
  | leave
  | back
  | over
  | crashed

/-- All processes, the lock files, and the rest of the bucket. -/
structure Locks (ι C α : Type) where
  phase : ι → Phase ι C α
  locks : ι → Bool
  bucket : Bucket C

/-- A lock was deleted: a listing need not have it. -/
def Phase.forget [DecidableEq ι] (i : ι) : Phase ι C α → Phase ι C α
  | .list1 m => .list1 fun j => m j && !decide (j = i)
  | .list2 m => .list2 fun j => m j && !decide (j = i)
  | p => p

def Locks.set [DecidableEq ι] (σ : Locks ι C α) (i : ι) (p : Phase ι C α) : Locks ι C α := { σ with phase := fun j => if j = i then p else σ.phase j }

def Locks.delete [DecidableEq ι] (σ : Locks ι C α) (i : ι) : Locks ι C α :=
  { σ with locks := fun j => σ.locks j && !decide (j = i), phase := fun j => (σ.phase j).forget i }

/-- Steps. `cmds i` are the commands process `i` may run, `faults` says whether calls may fail, and `cancels` whether someone deletes locks with
`pulumi cancel` (backend.go:890-917). -/
inductive LockStep [DecidableEq ι] (faults cancels : Bool) (cmds : ι → Prog C α → Prop) : Locks ι C α → Locks ι C α → Prop
  /-- the first check begins (107, 62) -/
  | list1 {σ} (i) : σ.phase i = .idle → LockStep faults cancels cmds σ (σ.set i (.list1 σ.locks))
  /-- it finds no lock but its own (67-75, 102) -/
  | clear1 {σ} (i m) (found : ι → Bool) : σ.phase i = .list1 m → (∀ j, m j = true → found j = true) → (∀ j, found j = true → j = i) →
      LockStep faults cancels cmds σ (σ.set i .write)
  /-- it finds one, or fails (63-65, 77-101, 108-110) -/
  | fail1 {σ} (i m) : σ.phase i = .list1 m → LockStep faults cancels cmds σ (σ.set i .over)
  /-- the lock is written (119) -/
  | write {σ} (i) : σ.phase i = .write → LockStep faults cancels cmds σ { (σ.set i .wrote) with locks := fun j => decide (j = i) || σ.locks j }
  /-- or that fails, with or without effect (120-122) -/
  | writeFail {σ} (i) (late : Bool) : faults = true → σ.phase i = .write →
      LockStep faults cancels cmds σ { (σ.set i .over) with locks := fun j => (decide (j = i) && late) || σ.locks j }
  /-- the second check begins (123) -/
  | list2 {σ} (i) : σ.phase i = .wrote → LockStep faults cancels cmds σ (σ.set i (.list2 σ.locks))
  /-- it finds no lock but its own: the command runs (128, backend.go:308-312) -/
  | clear2 {σ} (i m) (found : ι → Bool) (c) : σ.phase i = .list2 m → (∀ j, m j = true → found j = true) → (∀ j, found j = true → j = i) → cmds i c →
      LockStep faults cancels cmds σ (σ.set i (.hold c))
  /-- it finds one, or fails (124) -/
  | fail2 {σ} (i m) : σ.phase i = .list2 m → LockStep faults cancels cmds σ (σ.set i .back)
  /-- a call of the command -/
  | act {σ} (i o k r b) : σ.phase i = .hold (.op o k) → Act faults o σ.bucket r b →
      LockStep faults cancels cmds σ { (σ.set i (.hold (k r))) with bucket := b }
  /-- the command is over -/
  | finish {σ} (i a) : σ.phase i = .hold (.done a) → LockStep faults cancels cmds σ (σ.set i .leave)
  /-- the lock is deleted (125, 134) -/
  | unlock {σ} (i) : σ.phase i = .leave ∨ σ.phase i = .back → LockStep faults cancels cmds σ ((σ.delete i).set i .over)
  /-- or stays, as deleting it fails (135-140) -/
  | unlockFail {σ} (i) : faults = true → σ.phase i = .leave ∨ σ.phase i = .back → LockStep faults cancels cmds σ (σ.set i .over)
  /-- the next command of the process -/
  | again {σ} (i) : σ.phase i = .over → LockStep faults cancels cmds σ (σ.set i .idle)
  /-- the process dies -/
  | crash {σ} (i) : LockStep faults cancels cmds σ (σ.set i .crashed)
  /-- `pulumi cancel` deletes a lock -/
  | cancel {σ} (i) : cancels = true → LockStep faults cancels cmds σ (σ.delete i)

/-- Schedules -/
inductive LockRun [DecidableEq ι] (faults cancels : Bool) (cmds : ι → Prog C α → Prop) : Locks ι C α → Locks ι C α → Prop
  | refl (σ) : LockRun faults cancels cmds σ σ
  | step {σ σ' σ''} : LockRun faults cancels cmds σ σ' → LockStep faults cancels cmds σ' σ'' → LockRun faults cancels cmds σ σ''

/-- At first no process does anything; there may be locks of earlier ones. -/
def Locks.Initial (σ : Locks ι C α) : Prop := ∀ i, σ.phase i = .idle ∨ σ.phase i = .crashed

/-- The process runs a command. -/
def Locks.runs (σ : Locks ι C α) (i : ι) : Prop := ∃ p, σ.phase i = .hold p

/-! ## Invariant -/

/-- Phases with a lock -/
def Phase.owns : Phase ι C α → Bool
  | .wrote => true
  | .list2 _ => true
  | .hold _ => true
  | .leave => true
  | .back => true
  | _ => false

/-- Phases of the command -/
def Phase.inside : Phase ι C α → Bool
  | .hold _ => true
  | .leave => true
  | _ => false

structure LockInv (σ : Locks ι C α) : Prop where
  own : ∀ i, (σ.phase i).owns = true → σ.locks i = true
  both : ∀ i j mi mj, i ≠ j → σ.phase i = .list2 mi → σ.phase j = .list2 mj → mi j = true ∨ mj i = true
  seen : ∀ i j m, i ≠ j → (σ.phase i).inside = true → σ.phase j = .list2 m → m i = true
  one : ∀ i j, i ≠ j → (σ.phase i).inside = true → (σ.phase j).inside = true → False

variable [DecidableEq ι]

/-- A process goes to a phase that is not in the invariant. -/
theorem inv_set {σ : Locks ι C α} (h : LockInv σ) (i : ι) (p : Phase ι C α) (h1 : p.owns = true → σ.locks i = true) (h2 : ∀ m, p ≠ .list2 m)
    (h3 : p.inside = true → (σ.phase i).inside = true) : LockInv (σ.set i p) := by
  have hin : ∀ j, ((σ.set i p).phase j).inside = true → (σ.phase j).inside = true := by
    intro j hj
    simp only [Locks.set] at hj
    by_cases e : j = i
    · rw [if_pos e] at hj; rw [e]; exact h3 hj
    · rw [if_neg e] at hj; exact hj
  have hl : ∀ j m, (σ.set i p).phase j = .list2 m → σ.phase j = .list2 m := by
    intro j m hj
    simp only [Locks.set] at hj
    by_cases e : j = i
    · rw [if_pos e] at hj; exact absurd hj (h2 m)
    · rw [if_neg e] at hj; exact hj
  refine ⟨fun j hj => ?_, fun a b ma mb hne ha hb => h.both a b ma mb hne (hl _ _ ha) (hl _ _ hb),
    fun a b m hne ha hb => h.seen a b m hne (hin _ ha) (hl _ _ hb), fun a b hne ha hb => h.one a b hne (hin _ ha) (hin _ hb)⟩
  simp only [Locks.set] at hj ⊢
  by_cases e : j = i
  · rw [if_pos e] at hj; rw [e]; exact h1 hj
  · rw [if_neg e] at hj; exact h.own j hj

omit [DecidableEq ι] in
/-- The bucket, and more locks, do not matter. -/
theorem inv_locks {σ : Locks ι C α} (h : LockInv σ) (l : ι → Bool) (hl : ∀ i, σ.locks i = true → l i = true) (b : Bucket C) :
    LockInv { σ with locks := l, bucket := b } :=
  ⟨fun i hi => hl i (h.own i hi), h.both, h.seen, h.one⟩

theorem forget_inside (i : ι) (p : Phase ι C α) : (p.forget i).inside = p.inside := by cases p <;> rfl
theorem forget_owns (i : ι) (p : Phase ι C α) : (p.forget i).owns = p.owns := by cases p <;> rfl

theorem forget_list2 {i : ι} {p : Phase ι C α} {m : ι → Bool} (h : p.forget i = .list2 m) :
    ∃ m', p = .list2 m' ∧ ∀ j, j ≠ i → m' j = true → m j = true := by
  cases p <;> simp only [Phase.forget] at h <;> cases h
  exact ⟨_, rfl, fun j hj hm => by simp [hm, hj]⟩

theorem inv_step {faults : Bool} {cmds : ι → Prog C α → Prop} {σ σ' : Locks ι C α} (h : LockInv σ) (hs : LockStep faults false cmds σ σ') :
    LockInv σ' := by
  cases hs with
  | list1 i hi => exact inv_set h i _ (fun h => by cases h) (fun m h => by cases h) (fun h => by cases h)
  | clear1 i m found hi => exact inv_set h i _ (fun h => by cases h) (fun m h => by cases h) (fun h => by cases h)
  | fail1 i m hi => exact inv_set h i _ (fun h => by cases h) (fun m h => by cases h) (fun h => by cases h)
  | write i hi =>
    refine inv_set (σ := { σ with locks := fun j => decide (j = i) || σ.locks j }) (inv_locks h _ (fun j hj => by simp [hj]) σ.bucket) i _
      (fun _ => by simp) (fun m h => by cases h) (fun h => by cases h)
  | writeFail i late hf hi =>
    refine inv_set (σ := { σ with locks := fun j => (decide (j = i) && late) || σ.locks j }) (inv_locks h _ (fun j hj => by simp [hj]) σ.bucket) i _
      (fun h => by cases h) (fun m h => by cases h) (fun h => by cases h)
  | list2 i hi =>
    have hown : σ.locks i = true := h.own i (by rw [hi]; rfl)
    have hph : ∀ j, j ≠ i → (σ.set i (.list2 σ.locks)).phase j = σ.phase j := fun j e => by simp only [Locks.set]; rw [if_neg e]
    have hpi : (σ.set i (.list2 σ.locks)).phase i = .list2 σ.locks := if_pos rfl
    refine ⟨fun j hj => ?_, fun a b ma mb hne ha hb => ?_, fun a b m hne ha hb => ?_, fun a b hne ha hb => ?_⟩
    · by_cases e : j = i
      · rw [e]; exact hown
      · rw [hph j e] at hj; exact h.own j hj
    · by_cases ea : a = i
      · subst ea
        rw [hpi] at ha; cases ha
        rw [hph b (Ne.symm hne)] at hb
        exact .inl (h.own b (by rw [hb]; rfl))
      · rw [hph a ea] at ha
        by_cases eb : b = i
        · subst eb
          rw [hpi] at hb; cases hb
          exact .inr (h.own a (by rw [ha]; rfl))
        · rw [hph b eb] at hb
          exact h.both a b ma mb hne ha hb
    · by_cases ea : a = i
      · subst ea; rw [hpi] at ha; cases ha
      · rw [hph a ea] at ha
        by_cases eb : b = i
        · subst eb
          rw [hpi] at hb; cases hb
          refine h.own a ?_
          cases hx : σ.phase a <;> rw [hx] at ha <;> first | rfl | cases ha
        · rw [hph b eb] at hb
          exact h.seen a b m hne ha hb
    · have ha' : a ≠ i := fun e => by rw [e, hpi] at ha; cases ha
      have hb' : b ≠ i := fun e => by rw [e, hpi] at hb; cases hb
      rw [hph a ha'] at ha; rw [hph b hb'] at hb
      exact h.one a b hne ha hb
  | clear2 i m found c hi hsup hown hc =>
    have hm : ∀ j, j ≠ i → m j = false := fun j e => by
      cases hx : m j with
      | false => rfl
      | true => exact absurd (hown j (hsup j hx)) e
    have hph : ∀ j, j ≠ i → (σ.set i (.hold c)).phase j = σ.phase j := fun j e => by simp only [Locks.set]; rw [if_neg e]
    have hpi : (σ.set i (.hold c)).phase i = .hold c := if_pos rfl
    refine ⟨fun j hj => ?_, fun a b ma mb hne ha hb => ?_, fun a b m' hne ha hb => ?_, fun a b hne ha hb => ?_⟩
    · by_cases e : j = i
      · rw [e]; exact h.own i (by rw [hi]; rfl)
      · rw [hph j e] at hj; exact h.own j hj
    · have ha' : a ≠ i := fun e => by rw [e, hpi] at ha; cases ha
      have hb' : b ≠ i := fun e => by rw [e, hpi] at hb; cases hb
      rw [hph a ha'] at ha; rw [hph b hb'] at hb
      exact h.both a b ma mb hne ha hb
    · have hb' : b ≠ i := fun e => by rw [e, hpi] at hb; cases hb
      rw [hph b hb'] at hb
      by_cases ea : a = i
      · subst ea
        rcases h.both a b m m' hne hi hb with h1 | h1
        · rw [hm b hb'] at h1; cases h1
        · exact h1
      · rw [hph a ea] at ha
        exact h.seen a b m' hne ha hb
    · by_cases ea : a = i
      · subst ea
        have hb' : b ≠ a := Ne.symm hne
        rw [hph b hb'] at hb
        have := h.seen b a m hb' hb hi
        rw [hm b hb'] at this; cases this
      · rw [hph a ea] at ha
        by_cases eb : b = i
        · subst eb
          have := h.seen a b m hne ha hi
          rw [hm a ea] at this; cases this
        · rw [hph b eb] at hb
          exact h.one a b hne ha hb
  | fail2 i m hi => exact inv_set h i _ (fun _ => h.own i (by rw [hi]; rfl)) (fun m h => by cases h) (fun h => by cases h)
  | act i o k r b hi ha =>
    have := inv_set h i (.hold (k r)) (fun _ => h.own i (by rw [hi]; rfl)) (fun m h => by cases h) (fun _ => by rw [hi]; rfl)
    exact inv_locks this _ (fun _ h => h) b
  | finish i a hi => exact inv_set h i _ (fun _ => h.own i (by rw [hi]; rfl)) (fun m h => by cases h) (fun _ => by rw [hi]; rfl)
  | unlock i hi =>
    have hph : ∀ j, j ≠ i → ((σ.delete i).set i .over).phase j = (σ.phase j).forget i := fun j e => by
      simp only [Locks.set, Locks.delete]; rw [if_neg e]
    have hpi : ((σ.delete i).set i .over).phase i = .over := if_pos rfl
    refine ⟨fun j hj => ?_, fun a b ma mb hne ha hb => ?_, fun a b m hne ha hb => ?_, fun a b hne ha hb => ?_⟩
    · by_cases e : j = i
      · rw [e, hpi] at hj; cases hj
      · rw [hph j e, forget_owns] at hj
        have := h.own j hj
        simp only [Locks.set, Locks.delete]
        simp [this, e]
    · have ha' : a ≠ i := fun e => by rw [e, hpi] at ha; cases ha
      have hb' : b ≠ i := fun e => by rw [e, hpi] at hb; cases hb
      rw [hph a ha'] at ha; rw [hph b hb'] at hb
      obtain ⟨ma', ha1, ha2⟩ := forget_list2 ha
      obtain ⟨mb', hb1, hb2⟩ := forget_list2 hb
      rcases h.both a b ma' mb' hne ha1 hb1 with h1 | h1
      · exact .inl (ha2 b hb' h1)
      · exact .inr (hb2 a ha' h1)
    · have ha' : a ≠ i := fun e => by rw [e, hpi] at ha; cases ha
      have hb' : b ≠ i := fun e => by rw [e, hpi] at hb; cases hb
      rw [hph a ha', forget_inside] at ha; rw [hph b hb'] at hb
      obtain ⟨mb', hb1, hb2⟩ := forget_list2 hb
      exact hb2 a ha' (h.seen a b mb' hne ha hb1)
    · have ha' : a ≠ i := fun e => by rw [e, hpi] at ha; cases ha
      have hb' : b ≠ i := fun e => by rw [e, hpi] at hb; cases hb
      rw [hph a ha', forget_inside] at ha; rw [hph b hb', forget_inside] at hb
      exact h.one a b hne ha hb
  | unlockFail i hf hi => exact inv_set h i _ (fun h => by cases h) (fun m h => by cases h) (fun h => by cases h)
  | again i hi => exact inv_set h i _ (fun h => by cases h) (fun m h => by cases h) (fun h => by cases h)
  | crash i => exact inv_set h i _ (fun h => by cases h) (fun m h => by cases h) (fun h => by cases h)
  | cancel i hc => cases hc

omit [DecidableEq ι] in
theorem inv_initial {σ : Locks ι C α} (h : σ.Initial) : LockInv σ := by
  refine ⟨fun i hi => ?_, fun i j mi mj _ hi _ => ?_, fun i j m _ hi _ => ?_, fun i j _ hi _ => ?_⟩ <;> rcases h i with e | e <;> rw [e] at hi <;> cases hi

theorem inv_run {faults : Bool} {cmds : ι → Prog C α → Prop} {σ σ' : Locks ι C α} (h : σ.Initial) (hr : LockRun faults false cmds σ σ') : LockInv σ' := by
  induction hr with
  | refl => exact inv_initial h
  | step _ hs ih => exact inv_step ih hs

/-- **C189** At no time do two processes run commands on a stack, in every schedule, wherever processes crash and whichever calls fail, as long
as nobody cancels. -/
theorem lock_excludes_partial {faults : Bool} {cmds : ι → Prog C α → Prop} {σ σ' : Locks ι C α} (h : σ.Initial)
    (hr : LockRun faults false cmds σ σ') {i j : ι} (hi : σ'.runs i) (hj : σ'.runs j) : i = j := by
  obtain ⟨p, hp⟩ := hi
  obtain ⟨q, hq⟩ := hj
  by_cases e : i = j
  · exact e
  · exact ((inv_run h hr).one i j e (by rw [hp]; rfl) (by rw [hq]; rfl)).elim

/-! ## Commands run one after the other -/

/-- The bucket after commands one after the other, each of them up to some point. -/
inductive Serial (φ : Bool) (cmds : ι → Prog C α → Prop) (b0 : Bucket C) : Bucket C → Prop
  | nil : Serial φ cmds b0 b0
  | snoc {b1 b2 i c p} : Serial φ cmds b0 b1 → cmds i c → Reach φ c b1 p b2 → Serial φ cmds b0 b2

theorem reach_snoc {φ : Bool} {c : Prog C α} {b b1 b2 : Bucket C} {o : Op C} {k : Res C → Prog C α} {r : Res C}
    (h : Reach φ c b (.op o k) b1) (ha : Act φ o b1 r b2) : Reach φ c b (k r) b2 := by
  generalize hp : Prog.op o k = p at h
  induction h with
  | refl p b => subst hp; exact .step ha (.refl _ _)
  | step h1 _ ih => exact .step h1 (ih ha hp)

structure SerialInv (φ : Bool) (cmds : ι → Prog C α → Prop) (b0 : Bucket C) (σ : Locks ι C α) : Prop where
  running : ∀ i p, σ.phase i = .hold p → ∃ c b1, cmds i c ∧ Serial φ cmds b0 b1 ∧ Reach φ c b1 p σ.bucket
  quiet : (∀ i p, σ.phase i ≠ .hold p) → Serial φ cmds b0 σ.bucket

omit [DecidableEq ι] in
theorem serial_any {φ : Bool} {cmds : ι → Prog C α → Prop} {b0 : Bucket C} {σ : Locks ι C α} (h : SerialInv φ cmds b0 σ) : Serial φ cmds b0 σ.bucket := by
  by_cases hx : ∃ i p, σ.phase i = .hold p
  · obtain ⟨i, p, hp⟩ := hx
    obtain ⟨c, b1, h1, h2, h3⟩ := h.running i p hp
    exact .snoc h2 h1 h3
  · exact h.quiet fun i p hp => hx ⟨i, p, hp⟩

omit [DecidableEq ι] in
/-- Steps without a change of the bucket where no process begins a command. -/
theorem serial_same {φ : Bool} {cmds : ι → Prog C α → Prop} {b0 : Bucket C} {σ σ' : Locks ι C α} (h : SerialInv φ cmds b0 σ)
    (hb : σ'.bucket = σ.bucket) (hp : ∀ i p, σ'.phase i = .hold p → σ.phase i = .hold p) : SerialInv φ cmds b0 σ' := by
  refine ⟨fun i p hi => ?_, fun _ => ?_⟩
  · rw [hb]; exact h.running i p (hp i p hi)
  · rw [hb]; exact serial_any h

theorem hold_set {σ : Locks ι C α} {i : ι} {q : Phase ι C α} (hq : ∀ p, q ≠ .hold p) {j : ι} {p : Prog C α} (h : (σ.set i q).phase j = .hold p) :
    σ.phase j = .hold p := by
  simp only [Locks.set] at h
  by_cases e : j = i
  · rw [if_pos e] at h; exact absurd h (hq p)
  · rw [if_neg e] at h; exact h

theorem forget_hold {i : ι} {q : Phase ι C α} {p : Prog C α} (h : q.forget i = .hold p) : q = .hold p := by
  cases q <;> simp only [Phase.forget] at h <;> cases h
  rfl

theorem serial_step {φ : Bool} {cmds : ι → Prog C α → Prop} {b0 : Bucket C} {σ σ' : Locks ι C α} (hl : LockInv σ) (h : SerialInv φ cmds b0 σ)
    (hs : LockStep φ false cmds σ σ') : SerialInv φ cmds b0 σ' := by
  have hl' := inv_step hl hs
  cases hs with
  | list1 i hi => exact serial_same h rfl fun j p hj => hold_set (fun p e => by cases e) hj
  | clear1 i m found hi => exact serial_same h rfl fun j p hj => hold_set (fun p e => by cases e) hj
  | fail1 i m hi => exact serial_same h rfl fun j p hj => hold_set (fun p e => by cases e) hj
  | write i hi => exact serial_same h rfl fun j p hj => hold_set (σ := σ) (i := i) (fun p e => by cases e) hj
  | writeFail i late hf hi => exact serial_same h rfl fun j p hj => hold_set (σ := σ) (i := i) (fun p e => by cases e) hj
  | list2 i hi => exact serial_same h rfl fun j p hj => hold_set (fun p e => by cases e) hj
  | clear2 i m found c hi hsup hown hc =>
    have hpi : (σ.set i (.hold c)).phase i = .hold c := if_pos rfl
    refine ⟨fun j p hj => ?_, fun hn => absurd hpi (hn i c)⟩
    by_cases e : j = i
    · subst e
      rw [hpi] at hj; cases hj
      exact ⟨c, σ.bucket, hc, serial_any h, .refl _ _⟩
    · exact (hl'.one j i e (by rw [hj]; rfl) (by rw [hpi]; rfl)).elim
  | fail2 i m hi => exact serial_same h rfl fun j p hj => hold_set (fun p e => by cases e) hj
  | act i o k r b hi ha =>
    have hpi : (σ.set i (.hold (k r))).phase i = .hold (k r) := if_pos rfl
    refine ⟨fun j p hj => ?_, fun hn => absurd hpi (hn i _)⟩
    by_cases e : j = i
    · subst e
      have hj' : (σ.set j (.hold (k r))).phase j = .hold p := hj
      rw [hpi] at hj'; cases hj'
      obtain ⟨c, b1, h1, h2, h3⟩ := h.running j _ hi
      exact ⟨c, b1, h1, h2, reach_snoc h3 ha⟩
    · exact (hl'.one j i e (by rw [hj]; rfl) (by rw [show _ = _ from hpi]; rfl)).elim
  | finish i a hi => exact serial_same h rfl fun j p hj => hold_set (fun p e => by cases e) hj
  | unlock i hi => exact serial_same h rfl fun j p hj => forget_hold (i := i) (hold_set (σ := σ.delete i) (fun p e => by cases e) hj)
  | unlockFail i hf hi => exact serial_same h rfl fun j p hj => hold_set (fun p e => by cases e) hj
  | again i hi => exact serial_same h rfl fun j p hj => hold_set (fun p e => by cases e) hj
  | crash i => exact serial_same h rfl fun j p hj => hold_set (fun p e => by cases e) hj
  | cancel i hc => cases hc

/-- **C189** Whatever the schedule, the bucket is as if the commands had run one after the other, each of them to its end or to where its process
crashed. -/
theorem lock_serializes_partial {φ : Bool} {cmds : ι → Prog C α → Prop} {σ σ' : Locks ι C α} (h : σ.Initial) (hr : LockRun φ false cmds σ σ') :
    Serial φ cmds σ.bucket σ'.bucket := by
  have : LockInv σ' ∧ SerialInv φ cmds σ.bucket σ' := by
    induction hr with
    | refl =>
      refine ⟨inv_initial h, ⟨fun i p hi => ?_, fun _ => .nil⟩⟩
      rcases h i with e | e <;> rw [e] at hi <;> cases hi
    | step _ hs ih => exact ⟨inv_step ih.1 hs, serial_step ih.1 ih.2 hs⟩
  exact serial_any this.2

/-- **C189** So what every command keeps, wherever it stops, holds in every schedule. -/
theorem lock_keeps {φ : Bool} {cmds : ι → Prog C α → Prop} {σ σ' : Locks ι C α} (h : σ.Initial) (hr : LockRun φ false cmds σ σ')
    {Good : Bucket C → Prop} (hg : Good σ.bucket) (hk : ∀ i c, cmds i c → ∀ b p b', Good b → Reach φ c b p b' → Good b') : Good σ'.bucket := by
  have := lock_serializes_partial h hr
  generalize σ'.bucket = b at this
  induction this with
  | nil => exact hg
  | snoc _ hc hreach ih => exact hk _ _ hc _ _ _ ih hreach

/-- The stack has a state file that can be read. -/
def Readable (K : Coder C S) (gz : Bool) (s : String) (b : Bucket C) : Prop := Only gz s b ∧ ∃ c st, b.current s = some c ∧ K.load c = some st

omit [DecidableEq ι] in
theorem readable_save {φ : Bool} (K : Coder C S) {gz : Bool} {s : String} {st : S} {b b' : Bucket C} (hK : ∀ st, K.load (K.save gz st) = some st)
    (h : Readable K gz s b) (hs : Saving φ s gz (K.save gz st) b b') : Readable K gz s b' := by
  obtain ⟨ho, c, st0, h1, h2⟩ := h
  have ho' : Only gz s b' := by
    unfold Only at *
    rcases hs.other with h | h
    · rw [h, ho]
    · exact h
  refine ⟨ho', ?_⟩
  rw [current_only ho']
  rcases hs.state with h | h
  · refine ⟨c, st0, ?_, h2⟩
    rw [← h1, current_only ho, Bucket.content, h]; rfl
  · exact ⟨_, st, h, hK st⟩

/-- What may be run on a stack without removing or renaming it: updates, imports of a state, and attempts to create it. -/
inductive Safe (K : Coder C S) (gz : Bool) (s : String) : Prog C Out → Prop
  | update (keepAll t info engine) : Safe K gz s (update K gz keepAll s t info engine)
  | import (keepAll st) : Safe K gz s (importState K gz keepAll s st)
  | create (keepAll) : Safe K gz s (create K gz keepAll s)

omit [DecidableEq ι] in
theorem readable_safe {φ : Bool} (K : Coder C S) {gz : Bool} {s : String} (hK : ∀ st, K.load (K.save gz st) = some st) {c : Prog C Out}
    (hc : Safe K gz s c) {b b' : Bucket C} {p : Prog C Out} (h : Readable K gz s b) (hr : Reach φ c b p b') : Readable K gz s b' := by
  have sv : ∀ keepAll st, Always φ (Readable K gz s) (do if ← saveStack K gz keepAll s st then return Out.ok else return Out.error) b fun _ _ => True := by
    intro keepAll st
    refine always_bind' (always_mono (always_saveStack φ K s gz keepAll st b) (fun b' hs => readable_save K hK h hs) fun r b2 hs _ => ?_)
    cases r <;> exact always_pure (readable_save K hK h hs) trivial
  cases hc with
  | update keepAll t info engine =>
    obtain ⟨ho, c, st, h1, h2⟩ := h
    refine ⟨(always_reach (always_update K ho h1 h2) hr).1.1, ?_⟩
    rcases update_never_lost_partial K ho h1 h2 hr with h3 | ⟨st', _, h3⟩
    · exact ⟨c, st, h3, h2⟩
    · exact ⟨_, st', h3, hK st'⟩
  | «import» keepAll st =>
    have : Always φ (Readable K gz s) (importState K gz keepAll s st) b fun _ _ => True := by
      unfold importState
      exact always_bind' (always_getStack K h (fun _ _ _ _ => sv keepAll st) (fun _ => always_pure h trivial) (fun _ => always_pure h trivial))
    exact (always_reach this hr).1
  | create keepAll =>
    have : Always φ (Readable K gz s) (create K gz keepAll s) b fun _ _ => True := by
      unfold create
      exact always_bind' (always_getStack K h (fun _ _ _ _ => always_pure h trivial) (fun _ => sv keepAll _) (fun _ => sv keepAll _))
    exact (always_reach this hr).1

/-- **C189, C194** Any number of updates, imports of a state and attempts to create the stack that run at the same time, whichever calls
fail and wherever processes crash: the stack always has a state file that can be read, if what is saved can. -/
theorem concurrent_updates_safe_partial {φ : Bool} (K : Coder C S) {gz : Bool} {s : String} (hK : ∀ st, K.load (K.save gz st) = some st)
    {cmds : ι → Prog C Out → Prop} (hc : ∀ i c, cmds i c → Safe K gz s c) {σ σ' : Locks ι C Out} (h : σ.Initial)
    (hr : LockRun φ false cmds σ σ') (ho : Only gz s σ.bucket) {c : C} {st : S} (hcur : σ.bucket.current s = some c) (hl : K.load c = some st) :
    ∃ c' st', σ'.bucket.current s = some c' ∧ K.load c' = some st' :=
  (lock_keeps h hr (Good := Readable K gz s) ⟨ho, c, st, hcur, hl⟩ fun i p hp _ _ _ hg hreach => readable_safe K hK (hc i p hp) hg hreach).2

/-! ## A lock that stays -/

/-- **C189** While the lock of a process that crashed is there, no process that begins after that gets to run a command. -/
theorem stale_lock_blocks {faults : Bool} {cmds : ι → Prog C α → Prop} {σ σ' : Locks ι C α} (hr : LockRun faults false cmds σ σ') {i j : ι}
    (hc : σ.phase j = .crashed) (hlock : σ.locks j = true) (hi : σ.phase i = .idle) : σ'.locks j = true ∧ ¬ σ'.runs i := by
  have key : σ'.phase j = .crashed ∧ σ'.locks j = true ∧
      (σ'.phase i = .idle ∨ (∃ m, σ'.phase i = .list1 m ∧ m j = true) ∨ σ'.phase i = .over ∨ σ'.phase i = .crashed) := by
    induction hr with
    | refl => exact ⟨hc, hlock, .inl hi⟩
    | step hrun hs ih =>
      rename_i σ1 σ2
      obtain ⟨h1, h2, h3⟩ := ih
      -- how a change of one process leaves the others
      have other : ∀ (τ : Locks ι C α) a (q : Phase ι C α) x, x ≠ a → (τ.set a q).phase x = τ.phase x := fun τ a q x e => by
        simp only [Locks.set]; rw [if_neg e]
      have self : ∀ (τ : Locks ι C α) a (q : Phase ι C α), (τ.set a q).phase a = q := fun τ a q => if_pos rfl
      have fg : ∀ a, a ≠ j → (σ1.phase i = .idle ∨ (∃ m, σ1.phase i = .list1 m ∧ m j = true) ∨ σ1.phase i = .over ∨ σ1.phase i = .crashed) →
          (((σ1.phase i).forget a = .idle) ∨ (∃ m, (σ1.phase i).forget a = .list1 m ∧ m j = true) ∨ (σ1.phase i).forget a = .over ∨ (σ1.phase i).forget a = .crashed) := by
        intro a ha h
        rcases h with h | ⟨m, h, hm⟩ | h | h
        · exact .inl (by rw [h]; rfl)
        · exact .inr (.inl ⟨_, by rw [h]; rfl, by simp [hm, Ne.symm ha]⟩)
        · exact .inr (.inr (.inl (by rw [h]; rfl)))
        · exact .inr (.inr (.inr (by rw [h]; rfl)))
      cases hs with
      | list1 a ha =>
        have ej : j ≠ a := fun e => by rw [← e, h1] at ha; cases ha
        refine ⟨by rw [other _ _ _ _ ej]; exact h1, h2, ?_⟩
        by_cases e : i = a
        · subst e; rw [self]; exact .inr (.inl ⟨_, rfl, h2⟩)
        · rw [other _ _ _ _ e]; exact h3
      | clear1 a m found ha hsup hown =>
        have ej : j ≠ a := fun e => by rw [← e, h1] at ha; cases ha
        refine ⟨by rw [other _ _ _ _ ej]; exact h1, h2, ?_⟩
        by_cases e : i = a
        · subst e
          rcases h3 with h | ⟨m', h, hm⟩ | h | h <;> rw [ha] at h <;> cases h
          exact absurd (hown j (hsup j hm)) ej
        · rw [other _ _ _ _ e]; exact h3
      | fail1 a m ha =>
        have ej : j ≠ a := fun e => by rw [← e, h1] at ha; cases ha
        refine ⟨by rw [other _ _ _ _ ej]; exact h1, h2, ?_⟩
        by_cases e : i = a
        · subst e; rw [self]; exact .inr (.inr (.inl rfl))
        · rw [other _ _ _ _ e]; exact h3
      | write a ha =>
        have ej : j ≠ a := fun e => by rw [← e, h1] at ha; cases ha
        have ei : i ≠ a := fun e => by rw [← e] at ha; rcases h3 with h | ⟨m', h, _⟩ | h | h <;> rw [ha] at h <;> cases h
        refine ⟨(other σ1 a .wrote j ej).trans h1, by simp [h2], ?_⟩
        rw [show _ = σ1.phase i from other σ1 a .wrote i ei]; exact h3
      | writeFail a late hf ha =>
        have ej : j ≠ a := fun e => by rw [← e, h1] at ha; cases ha
        have ei : i ≠ a := fun e => by rw [← e] at ha; rcases h3 with h | ⟨m', h, _⟩ | h | h <;> rw [ha] at h <;> cases h
        refine ⟨(other σ1 a .over j ej).trans h1, by simp [h2], ?_⟩
        rw [show _ = σ1.phase i from other σ1 a .over i ei]; exact h3
      | list2 a ha =>
        have ej : j ≠ a := fun e => by rw [← e, h1] at ha; cases ha
        have ei : i ≠ a := fun e => by rw [← e] at ha; rcases h3 with h | ⟨m', h, _⟩ | h | h <;> rw [ha] at h <;> cases h
        exact ⟨by rw [other _ _ _ _ ej]; exact h1, h2, by rw [other _ _ _ _ ei]; exact h3⟩
      | clear2 a m found c ha hsup hown hcc =>
        have ej : j ≠ a := fun e => by rw [← e, h1] at ha; cases ha
        have ei : i ≠ a := fun e => by rw [← e] at ha; rcases h3 with h | ⟨m', h, _⟩ | h | h <;> rw [ha] at h <;> cases h
        exact ⟨by rw [other _ _ _ _ ej]; exact h1, h2, by rw [other _ _ _ _ ei]; exact h3⟩
      | fail2 a m ha =>
        have ej : j ≠ a := fun e => by rw [← e, h1] at ha; cases ha
        have ei : i ≠ a := fun e => by rw [← e] at ha; rcases h3 with h | ⟨m', h, _⟩ | h | h <;> rw [ha] at h <;> cases h
        exact ⟨by rw [other _ _ _ _ ej]; exact h1, h2, by rw [other _ _ _ _ ei]; exact h3⟩
      | act a o k r b ha hact =>
        have ej : j ≠ a := fun e => by rw [← e, h1] at ha; cases ha
        have ei : i ≠ a := fun e => by rw [← e] at ha; rcases h3 with h | ⟨m', h, _⟩ | h | h <;> rw [ha] at h <;> cases h
        refine ⟨(other σ1 a (.hold (k r)) j ej).trans h1, h2, ?_⟩
        rw [show _ = σ1.phase i from other σ1 a (.hold (k r)) i ei]; exact h3
      | finish a x ha =>
        have ej : j ≠ a := fun e => by rw [← e, h1] at ha; cases ha
        have ei : i ≠ a := fun e => by rw [← e] at ha; rcases h3 with h | ⟨m', h, _⟩ | h | h <;> rw [ha] at h <;> cases h
        exact ⟨by rw [other _ _ _ _ ej]; exact h1, h2, by rw [other _ _ _ _ ei]; exact h3⟩
      | unlock a ha =>
        have ej : j ≠ a := fun e => by rw [← e, h1] at ha; rcases ha with h | h <;> cases h
        have ei : i ≠ a := fun e => by rw [← e] at ha; rcases h3 with h | ⟨m', h, _⟩ | h | h <;> rw [h] at ha <;> rcases ha with h | h <;> cases h
        refine ⟨?_, ?_, ?_⟩
        · rw [other _ _ _ _ ej]; simp only [Locks.delete]; rw [h1]; rfl
        · simp [Locks.set, Locks.delete, h2, ej]
        · rw [other _ _ _ _ ei]
          exact fg a (Ne.symm ej) h3
      | unlockFail a hf ha =>
        have ej : j ≠ a := fun e => by rw [← e, h1] at ha; rcases ha with h | h <;> cases h
        have ei : i ≠ a := fun e => by rw [← e] at ha; rcases h3 with h | ⟨m', h, _⟩ | h | h <;> rw [h] at ha <;> rcases ha with h | h <;> cases h
        exact ⟨by rw [other _ _ _ _ ej]; exact h1, h2, by rw [other _ _ _ _ ei]; exact h3⟩
      | again a ha =>
        have ej : j ≠ a := fun e => by rw [← e, h1] at ha; cases ha
        refine ⟨by rw [other _ _ _ _ ej]; exact h1, h2, ?_⟩
        by_cases e : i = a
        · subst e; rw [self]; exact .inl rfl
        · rw [other _ _ _ _ e]; exact h3
      | crash a =>
        refine ⟨?_, h2, ?_⟩
        · by_cases e : j = a
          · subst e; rw [self]
          · rw [other _ _ _ _ e]; exact h1
        · by_cases e : i = a
          · subst e; rw [self]; exact .inr (.inr (.inr rfl))
          · rw [other _ _ _ _ e]; exact h3
      | cancel a hcc => cases hcc
  refine ⟨key.2.1, fun ⟨p, hp⟩ => ?_⟩
  rcases key.2.2 with h | ⟨m, h, _⟩ | h | h <;> rw [hp] at h <;> cases h

/-! ## Examples and findings -/

/-- Two processes, none of which does anything, with a command of one call. -/
def demoLocks : Locks Bool Nat Out := ⟨fun _ => .idle, fun _ => false, demoPlain⟩
def demoCmd : Prog Nat Out := update demo false none "dev" 9 60 demoEngine

/-- The first process gets the lock. -/
theorem demo_first (cancels : Bool) : LockRun true cancels (fun _ c => c = demoCmd) demoLocks
    ((({ ((demoLocks.set true (.list1 demoLocks.locks)).set true .write).set true .wrote with locks := fun j => decide (j = true) || false } : Locks Bool Nat Out).set true
      (.list2 fun j => decide (j = true) || false)).set true (.hold demoCmd)) :=
  .step (.step (.step (.step (.step (.refl _) (.list1 true rfl)) (.clear1 true _ _ rfl (fun _ h => h) (by decide))) (.write true rfl)) (.list2 true rfl))
    (.clear2 true _ _ _ rfl (fun _ h => h) (by decide) rfl)

example : demoLocks.Initial := fun _ => .inl rfl
/-- A process gets to run its command, so the theorems are about something. -/
example : ∃ σ, LockRun true false (fun _ c => c = demoCmd) demoLocks σ ∧ σ.runs true := ⟨_, demo_first false, _, rfl⟩
/-- `concurrent_updates_safe_partial` for a way to write states that can be read. -/
example {σ : Locks Bool Nat Out}
    (hr : LockRun true false (fun _ c => Safe { demo with load := some } false "dev" c) demoLocks σ) : ∃ c', σ.bucket.current "dev" = some c' := by
  obtain ⟨c', _, h, _⟩ := concurrent_updates_safe_partial { demo with load := some } (gz := false) (s := "dev") (fun _ => rfl) (fun _ _ h => h)
    (fun _ => .inl rfl) hr (by decide) (c := 7) (by decide) rfl
  exact ⟨c', h⟩

/-- A process crashes with the lock: then `stale_lock_blocks` is about what comes after. -/
example : ∃ σ, LockRun true false (fun _ c => c = demoCmd) demoLocks σ ∧ σ.phase true = .crashed ∧ σ.locks true = true ∧ σ.phase false = .idle :=
  ⟨_, .step (demo_first false) (.crash true), rfl, rfl, rfl⟩

/-- **C189, finding** `pulumi cancel` deletes the locks of processes that are still running: after it another process gets the lock while
the first one goes on, and both run commands on the stack. -/
theorem cancel_breaks_exclusion : ∃ σ, LockRun true true (fun _ c => c = demoCmd) demoLocks σ ∧ σ.runs true ∧ σ.runs false :=
  ⟨_, .step (.step (.step (.step (.step (.step (demo_first true) (.cancel true rfl)) (.list1 false rfl)) (.clear1 false _ _ rfl (fun _ h => h) (by decide)))
    (.write false rfl)) (.list2 false rfl)) (.clear2 false _ _ _ rfl (fun _ h => h) (by decide) rfl), ⟨_, rfl⟩, ⟨_, rfl⟩⟩

/-- **C189, finding** Two processes that start at the same time may both give up, although no call fails. -/
theorem both_give_up : ∃ σ, LockRun false false (fun _ c => c = demoCmd) demoLocks σ ∧ σ.phase true = .over ∧ σ.phase false = .over ∧
    (∀ i, σ.locks i = false) :=
  ⟨_, .step (.step (.step (.step (.step (.step (.step (.step (.step (.step (.step (.step (.refl _)
    (.list1 true rfl)) (.list1 false rfl)) (.clear1 true _ _ rfl (fun _ h => h) (by decide))) (.clear1 false _ _ rfl (fun _ h => h) (by decide)))
    (.write true rfl)) (.write false rfl)) (.list2 true rfl)) (.list2 false rfl)) (.fail2 true _ rfl)) (.fail2 false _ rfl))
    (.unlock true (.inr rfl))) (.unlock false (.inr rfl)), rfl, rfl, by decide⟩

/-! ## Cancelling -/

/-- What deleting a lock file comes to. -/
inductive Deleted
  | ok | notFound | err
deriving DecidableEq

/-- `CancelCurrentUpdate` (backend.go:890-917) after the listing: the locks it has deleted, and whether it reports success. -/
def cancelAll (result : ι → Deleted) : List ι → List ι × Bool
  | [] => ([], true)
  | i :: l =>
    match result i with
    | .ok => let (d, r) := cancelAll result l; (i :: d, r)
    | .notFound => ([], true)
    | .err => ([], false)

omit [DecidableEq ι] in
/-- **C189** If every lock that was listed can be deleted, cancelling deletes all of them and reports success. -/
theorem cancel_deletes {result : ι → Deleted} {l : List ι} (h : ∀ i ∈ l, result i = .ok) : cancelAll result l = (l, true) := by
  induction l with
  | nil => rfl
  | cons i l ih =>
    unfold cancelAll
    rw [h i List.mem_cons_self, ih fun j hj => h j (List.mem_cons_of_mem _ hj)]

omit [DecidableEq ι] in
/-- **C189** What it deletes was listed, and deleting it succeeded. -/
theorem cancel_only {result : ι → Deleted} {l : List ι} {i : ι} (h : i ∈ (cancelAll result l).1) : i ∈ l ∧ result i = .ok := by
  induction l with
  | nil => cases h
  | cons j l ih =>
    unfold cancelAll at h
    cases hj : result j with
    | ok =>
      rw [hj] at h
      rcases List.mem_cons.mp h with e | h
      · subst e; exact ⟨List.mem_cons_self, hj⟩
      · exact ⟨List.mem_cons_of_mem _ (ih h).1, (ih h).2⟩
    | notFound => rw [hj] at h; cases h
    | err => rw [hj] at h; cases h

example : cancelAll (fun _ : Nat => .ok) [1, 2] = ([1, 2], true) := by decide

/-- **C189, finding** If a lock that was listed is gone when its turn comes, cancelling stops there and reports success: the locks after it stay. -/
theorem cancel_stops_early : cancelAll (fun i : Nat => if i = 1 then .notFound else .ok) [1, 2] = ([], true) := by decide

end Pulumi.Filestate
