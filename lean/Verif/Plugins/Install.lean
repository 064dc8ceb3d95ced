import Verif.Plugins.InstallModel
/-!
# An installed plugin is complete (C197)
-/
namespace Pulumi.Plugins

variable {ι D : Type} [DecidableEq ι]

/-! ## Exclusion -/

structure LockInv (w : World ι D) : Prop where
  waits : ∀ i n, w.phase i = .waiting n → w.lockFile = some n
  held : ∀ i n, w.holds i = some n → w.lockFile = some n
  one : ∀ i j n, w.holds i = some n → w.holds j = some n → i = j
  has : ∀ i, (w.phase i).works = true → ∃ n, w.holds i = some n
  keeps : ∀ i, w.phase i ≠ .deleting ∧ w.phase i ≠ .delMark ∧ w.phase i ≠ .delLock

omit [DecidableEq ι] in
theorem LockInv.alone {w : World ι D} (h : LockInv w) {i j : ι} (hi : (w.phase i).works = true) (hj : (w.phase j).works = true) : i = j := by
  obtain ⟨n, hn⟩ := h.has i hi
  obtain ⟨m, hm⟩ := h.has j hj
  have := h.held i n hn
  rw [h.held j m hm] at this
  cases this
  exact h.one i j _ hn hm

omit [DecidableEq ι] in
/-- What is on disk does not matter. -/
theorem LockInv.disk {w : World ι D} (h : LockInv w) (d : Option (Dir D)) (m : Bool) : LockInv { w with dir := d, marked := m } :=
  ⟨h.waits, h.held, h.one, h.has, h.keeps⟩

theorem LockInv.go {w : World ι D} (h : LockInv w) {i : ι} {p : Phase D} (hw : p.works = true → (w.phase i).works = true)
    (hp : ∀ n, p = .waiting n → w.lockFile = some n) (hd : p ≠ .deleting ∧ p ≠ .delMark ∧ p ≠ .delLock) : LockInv (w.go i p) := by
  refine ⟨fun j n hj => ?_, h.held, h.one, fun j hj => ?_, fun j => ?_⟩
  · simp only [World.go] at hj
    by_cases e : j = i
    · rw [if_pos e] at hj; exact hp n hj
    · rw [if_neg e] at hj; exact h.waits j n hj
  · simp only [World.go] at hj ⊢
    by_cases e : j = i
    · rw [if_pos e] at hj; rw [e]; exact h.has i (hw hj)
    · rw [if_neg e] at hj; exact h.has j hj
  · simp only [World.go]
    by_cases e : j = i
    · rw [if_pos e]; exact hd
    · rw [if_neg e]; exact h.keeps j

theorem LockInv.stop {w : World ι D} (h : LockInv w) {i : ι} {p : Phase D} (hw : p.works = false)
    (hp : ∀ n, p ≠ .waiting n) (hd : p ≠ .deleting ∧ p ≠ .delMark ∧ p ≠ .delLock) : LockInv (w.stop i p) := by
  have hold : ∀ j n, (w.stop i p).holds j = some n → w.holds j = some n := by
    intro j n hj
    simp only [World.stop] at hj
    by_cases e : j = i
    · rw [if_pos e] at hj; cases hj
    · rw [if_neg e] at hj; exact hj
  refine ⟨fun j n hj => ?_, fun j n hj => h.held j n (hold j n hj), fun j k n hj hk => h.one j k n (hold j n hj) (hold k n hk), fun j hj => ?_, fun j => ?_⟩
  · simp only [World.stop, World.go] at hj
    by_cases e : j = i
    · rw [if_pos e] at hj; exact absurd hj (hp n)
    · rw [if_neg e] at hj; exact h.waits j n hj
  · simp only [World.stop, World.go] at hj ⊢
    by_cases e : j = i
    · rw [if_pos e, hw] at hj; cases hj
    · rw [if_neg e] at hj; rw [if_neg e]; exact h.has j hj
  · simp only [World.stop, World.go]
    by_cases e : j = i
    · rw [if_pos e]; exact hd
    · rw [if_neg e]; exact h.keeps j

theorem lockInv_step {jobs : ι → Job D} {w w' : World ι D} (h : LockInv w) (hs : Step false jobs w w') : LockInv w' := by
  cases hs with
  | «open» i n hi hl =>
    exact h.go (fun h => by cases h) (fun m e => by cases e; exact hl) ⟨by simp, by simp, by simp⟩
  | create i hi hl =>
    have hn : ∀ j n, w.phase j ≠ .waiting n := fun j n e => by rw [h.waits j n e] at hl; cases hl
    have hh : ∀ j n, w.holds j ≠ some n := fun j n e => by rw [h.held j n e] at hl; cases hl
    refine ⟨fun j n hj => ?_, fun j n hj => absurd hj (hh j n), fun j k n hj => absurd hj (hh j n), fun j hj => ?_, fun j => ?_⟩
    · simp only [World.go] at hj
      by_cases e : j = i
      · rw [if_pos e] at hj; cases hj; rfl
      · rw [if_neg e] at hj; exact absurd hj (hn j n)
    · simp only [World.go] at hj
      by_cases e : j = i
      · rw [if_pos e] at hj; cases hj
      · rw [if_neg e] at hj; exact h.has j hj
    · simp only [World.go]
      by_cases e : j = i
      · rw [if_pos e]; simp
      · rw [if_neg e]; exact h.keeps j
  | lock i n hi hfree =>
    have hold : ∀ j m, (if j = i then some n else w.holds j) = some m → (j = i ∧ m = n) ∨ (j ≠ i ∧ w.holds j = some m) := by
      intro j m hj
      by_cases e : j = i
      · rw [if_pos e] at hj; cases hj; exact .inl ⟨e, rfl⟩
      · rw [if_neg e] at hj; exact .inr ⟨e, hj⟩
    refine ⟨fun j m hj => ?_, fun j m hj => ?_, fun j k m hj hk => ?_, fun j hj => ?_, fun j => ?_⟩
    · simp only [World.go] at hj
      by_cases e : j = i
      · rw [if_pos e] at hj; cases hj
      · rw [if_neg e] at hj; exact h.waits j m hj
    · rcases hold j m hj with ⟨_, rfl⟩ | ⟨_, hj⟩
      · exact h.waits i _ hi
      · exact h.held j m hj
    · rcases hold j m hj with ⟨e, rfl⟩ | ⟨_, hj'⟩ <;> rcases hold k _ hk with ⟨e', e2⟩ | ⟨_, hk'⟩
      · exact e.trans e'.symm
      · exact absurd hk' (hfree k)
      · rw [e2] at hj'; exact absurd hj' (hfree j)
      · exact h.one j k m hj' hk'
    · simp only [World.go] at hj ⊢
      by_cases e : j = i
      · exact ⟨n, if_pos e⟩
      · rw [if_neg e] at hj; rw [if_neg e]; exact h.has j hj
    · simp only [World.go]
      by_cases e : j = i
      · rw [if_pos e]; simp
      · rw [if_neg e]; exact h.keeps j
  | absent i hi _ => exact h.go (fun _ => by rw [hi]; rfl) (fun n e => by cases e) ⟨by simp, by simp, by simp⟩
  | present i d hi _ _ _ => exact h.stop rfl (fun n e => by cases e) ⟨by simp, by simp, by simp⟩
  | again i d hi _ _ => exact h.go (fun _ => by rw [hi]; rfl) (fun n e => by cases e) ⟨by simp, by simp, by simp⟩
  | removeFile i d f hi _ => exact h.disk _ _
  | removeDir i hi => exact (h.go (i := i) (p := .mark) (fun _ => by rw [hi]; rfl) (fun n e => by cases e) ⟨by simp, by simp, by simp⟩).disk _ _
  | mark i hi => exact (h.go (i := i) (p := .mkdir) (fun _ => by rw [hi]; rfl) (fun n e => by cases e) ⟨by simp, by simp, by simp⟩).disk _ _
  | mkdir i hi =>
    exact (h.go (i := i) (p := .writing (jobs i).content) (fun _ => by rw [hi]; rfl) (fun n e => by cases e) ⟨by simp, by simp, by simp⟩).disk _ _
  | begin i d f x todo hi _ =>
    exact (h.go (i := i) (p := .midway f x todo) (fun _ => by rw [hi]; rfl) (fun n e => by cases e) ⟨by simp, by simp, by simp⟩).disk _ _
  | finish i d f x todo hi _ =>
    exact (h.go (i := i) (p := .writing todo) (fun _ => by rw [hi]; rfl) (fun n e => by cases e) ⟨by simp, by simp, by simp⟩).disk _ _
  | written i hi => exact h.go (fun _ => by rw [hi]; rfl) (fun n e => by cases e) ⟨by simp, by simp, by simp⟩
  | unmark i hi => exact (h.stop (i := i) (p := .over true) rfl (fun n e => by cases e) ⟨by simp, by simp, by simp⟩).disk _ _
  | fail i hi => exact h.stop rfl (fun n e => by cases e) ⟨by simp, by simp, by simp⟩
  | crash i => exact h.stop rfl (fun n e => by cases e) ⟨by simp, by simp, by simp⟩
  | delete i hd => cases hd
  | deleteFile i d f hi => exact absurd hi (h.keeps i).1
  | deleteDir i hi => exact absurd hi (h.keeps i).1
  | deleteMark i hi => exact absurd hi (h.keeps i).2.1
  | deleteLock i hi => exact absurd hi (h.keeps i).2.2

/-! ## What is on disk -/

/-- What holds of the disk while a process is in a phase -/
def PhaseOK (c : Content D) (marked : Bool) (dir : Option (Dir D)) : Phase D → Prop
  | .removing => marked = true
  | .mark => dir = none
  | .mkdir => marked = true ∧ dir = none
  | .writing todo => marked = true ∧ ∃ pre d, c = pre ++ todo ∧ dir = some d ∧ Complete pre d
  | .midway f x todo => marked = true ∧ ∃ pre d, c = pre ++ (f, x) :: todo ∧ dir = some d ∧ ∀ g, g ≠ f → d g = (pre.reverse.lookup g).map some
  | .unmark => marked = true ∧ ∃ d, dir = some d ∧ Complete c d
  | _ => True

theorem phaseOK_rest {c : Content D} {m : Bool} {d : Option (Dir D)} {p : Phase D} (h : p.works = false) : PhaseOK c m d p := by
  cases p <;> first | trivial | cases h

structure Inv (good : Content D → Prop) (jobs : ι → Job D) (w : World ι D) : Prop extends LockInv w where
  intact : w.marked = false → ∀ d, w.dir = some d → ∃ c, good c ∧ Complete c d
  phases : ∀ i, PhaseOK (jobs i).content w.marked w.dir (w.phase i)

/-- A process that works changes the disk and goes on. -/
theorem inv_work {good : Content D → Prop} {jobs : ι → Job D} {w w' : World ι D} (h : Inv good jobs w) (hl : LockInv w') {i : ι}
    (hi : (w.phase i).works = true) (hj : ∀ j, j ≠ i → w'.phase j = w.phase j)
    (hp : PhaseOK (jobs i).content w'.marked w'.dir (w'.phase i)) (hg : w'.marked = false → ∀ d, w'.dir = some d → ∃ c, good c ∧ Complete c d) :
    Inv good jobs w' := by
  refine ⟨hl, hg, fun j => ?_⟩
  by_cases e : j = i
  · rw [e]; exact hp
  · refine phaseOK_rest ?_
    rw [hj j e]
    cases hx : (w.phase j).works with
    | false => rfl
    | true => exact absurd (h.alone hx hi) e

/-- A process that does not change the disk. -/
theorem inv_still {good : Content D → Prop} {jobs : ι → Job D} {w w' : World ι D} (h : Inv good jobs w) (hl : LockInv w') {i : ι}
    (hj : ∀ j, j ≠ i → w'.phase j = w.phase j) (hp : PhaseOK (jobs i).content w.marked w.dir (w'.phase i)) (hd : w'.dir = w.dir) (hm : w'.marked = w.marked) :
    Inv good jobs w' := by
  refine ⟨hl, by rw [hd, hm]; exact h.intact, fun j => ?_⟩
  rw [hd, hm]
  by_cases e : j = i
  · rw [e]; exact hp
  · rw [hj j e]; exact h.phases j

theorem go_other (w : World ι D) {i j : ι} (p : Phase D) (h : j ≠ i) : (w.go i p).phase j = w.phase j := if_neg h
theorem go_self (w : World ι D) (i : ι) (p : Phase D) : (w.go i p).phase i = p := if_pos rfl

theorem lookup_snoc (pre : Content D) (f : String) (x : D) (g : String) :
    (pre ++ [(f, x)]).reverse.lookup g = if g = f then some x else pre.reverse.lookup g := by
  rw [List.reverse_append]
  simp only [List.reverse_cons, List.reverse_nil, List.nil_append, List.cons_append, List.lookup_cons]
  by_cases e : g = f
  · rw [if_pos e]; simp [e]
  · rw [if_neg e]
    have : (g == f) = false := by simpa using e
    rw [this]

theorem inv_step {good : Content D → Prop} {jobs : ι → Job D} (hgood : ∀ i, good (jobs i).content) (hre : ∀ i, (jobs i).reinstall = false)
    {w w' : World ι D} (h : Inv good jobs w) (hs : Step false jobs w w') : Inv good jobs w' := by
  have hl := lockInv_step h.toLockInv hs
  cases hs with
  | «open» i n hi _ => exact inv_still h hl (i := i) (fun j e => go_other w _ e) (by rw [go_self]; trivial) rfl rfl
  | create i hi _ => exact inv_still h hl (i := i) (fun j e => go_other w _ e) (by show PhaseOK _ _ _ ((w.go i _).phase i); rw [go_self]; trivial) rfl rfl
  | lock i n hi _ => exact inv_still h hl (i := i) (fun j e => go_other w _ e) (by show PhaseOK _ _ _ ((w.go i _).phase i); rw [go_self]; trivial) rfl rfl
  | absent i hi hd => exact inv_still h hl (i := i) (fun j e => go_other w _ e) (by rw [go_self]; exact hd) rfl rfl
  | present i d hi _ _ _ =>
    exact inv_still h hl (i := i) (fun j e => go_other w _ e) (by show PhaseOK _ _ _ ((w.go i _).phase i); rw [go_self]; trivial) rfl rfl
  | again i d hi _ hm =>
    refine inv_still h hl (i := i) (fun j e => go_other w _ e) ?_ rfl rfl
    rw [go_self]
    rcases hm with hm | hm
    · exact hm
    · rw [hre i] at hm; cases hm
  | removeFile i d f hi _ =>
    have hm : w.marked = true := by have := h.phases i; rw [hi] at this; exact this
    refine inv_work h hl (i := i) (by rw [hi]; rfl) (fun j e => rfl) ?_ (fun e => ?_)
    · show PhaseOK _ _ _ (w.phase i)
      rw [hi]; exact hm
    · replace e : w.marked = false := e
      rw [hm] at e; cases e
  | removeDir i hi =>
    refine inv_work h hl (i := i) (by rw [hi]; rfl) (fun j e => go_other w _ e) ?_ (fun _ d e => by cases e)
    show PhaseOK _ _ _ ((w.go i _).phase i)
    rw [go_self]; rfl
  | mark i hi =>
    have hd : w.dir = none := by have := h.phases i; rw [hi] at this; exact this
    refine inv_work h hl (i := i) (by rw [hi]; rfl) (fun j e => go_other w _ e) ?_ (fun e => by cases e)
    show PhaseOK _ _ _ ((w.go i _).phase i)
    rw [go_self]; exact ⟨rfl, hd⟩
  | mkdir i hi =>
    have hm : w.marked = true ∧ w.dir = none := by have := h.phases i; rw [hi] at this; exact this
    refine inv_work h hl (i := i) (by rw [hi]; rfl) (fun j e => go_other w _ e) ?_ (fun e => ?_)
    · show PhaseOK _ _ _ ((w.go i _).phase i)
      rw [go_self]; exact ⟨hm.1, [], _, rfl, rfl, fun f => rfl⟩
    · replace e : w.marked = false := e
      rw [hm.1] at e; cases e
  | begin i d f x todo hi hd =>
    have hp := h.phases i
    rw [hi] at hp
    obtain ⟨hm, pre, d', hc, hd', hcomp⟩ := hp
    rw [hd] at hd'; cases hd'
    refine inv_work h hl (i := i) (by rw [hi]; rfl) (fun j e => go_other w _ e) ?_ (fun e => ?_)
    · show PhaseOK _ _ _ ((w.go i _).phase i)
      rw [go_self]; exact ⟨hm, pre, _, hc, rfl, fun g hg => by rw [show (d.put f (some none)) g = d g from if_neg hg]; exact hcomp g⟩
    · replace e : w.marked = false := e
      rw [hm] at e; cases e
  | finish i d f x todo hi hd =>
    have hp := h.phases i
    rw [hi] at hp
    obtain ⟨hm, pre, d', hc, hd', hcomp⟩ := hp
    rw [hd] at hd'; cases hd'
    refine inv_work h hl (i := i) (by rw [hi]; rfl) (fun j e => go_other w _ e) ?_ (fun e => ?_)
    · show PhaseOK _ _ _ ((w.go i _).phase i)
      rw [go_self]
      refine ⟨hm, pre ++ [(f, x)], _, by rw [hc, List.append_assoc]; rfl, rfl, fun g => ?_⟩
      rw [lookup_snoc]
      by_cases e : g = f
      · rw [if_pos e]; exact if_pos e
      · rw [if_neg e, show (d.put f (some (some x))) g = d g from if_neg e]; exact hcomp g e
    · replace e : w.marked = false := e
      rw [hm] at e; cases e
  | written i hi =>
    have hp := h.phases i
    rw [hi] at hp
    obtain ⟨hm, pre, d, hc, hd, hcomp⟩ := hp
    refine inv_still h hl (i := i) (fun j e => go_other w _ e) ?_ rfl rfl
    rw [go_self]
    exact ⟨hm, d, hd, by rw [hc, List.append_nil]; exact hcomp⟩
  | unmark i hi =>
    have hp := h.phases i
    rw [hi] at hp
    obtain ⟨hm, d, hd, hcomp⟩ := hp
    refine inv_work h hl (i := i) (by rw [hi]; rfl) (fun j e => go_other w _ e) ?_ (fun _ d' e => ?_)
    · show PhaseOK _ _ _ ((w.go i _).phase i)
      rw [go_self]; trivial
    · replace e : w.dir = some d' := e
      rw [hd] at e; cases e
      exact ⟨_, hgood i, hcomp⟩
  | fail i hi => exact inv_still h hl (i := i) (fun j e => go_other w _ e) (by show PhaseOK _ _ _ ((w.go i _).phase i); rw [go_self]; trivial) rfl rfl
  | crash i => exact inv_still h hl (i := i) (fun j e => go_other w _ e) (by show PhaseOK _ _ _ ((w.go i _).phase i); rw [go_self]; trivial) rfl rfl
  | delete i hd => cases hd
  | deleteFile i d f hi => exact absurd hi (h.keeps i).1
  | deleteDir i hi => exact absurd hi (h.keeps i).1
  | deleteMark i hi => exact absurd hi (h.keeps i).2.1
  | deleteLock i hi => exact absurd hi (h.keeps i).2.2

omit [DecidableEq ι] in
theorem initial_lock {good : Content D → Prop} {w : World ι D} (h : w.Initial good) : LockInv w :=
  ⟨fun i n e => (by rw [h.idle i] at e; cases e), fun i n e => (by rw [h.free i] at e; cases e), fun i j n e => (by rw [h.free i] at e; cases e),
    fun i e => (by rw [h.idle i] at e; cases e), fun i => (by rw [h.idle i]; simp)⟩

theorem lockInv_run {jobs : ι → Job D} {w w' : World ι D} (h : LockInv w) (hr : Run false jobs w w') : LockInv w' := by
  induction hr with
  | refl => exact h
  | step _ hs ih => exact lockInv_step ih hs

theorem inv_run {good : Content D → Prop} {jobs : ι → Job D} (hgood : ∀ i, good (jobs i).content) (hre : ∀ i, (jobs i).reinstall = false)
    {w w' : World ι D} (h : Inv good jobs w) (hr : Run false jobs w w') : Inv good jobs w' := by
  induction hr with
  | refl => exact h
  | step _ hs ih => exact inv_step hgood hre ih hs

omit [DecidableEq ι] in
theorem initial_inv {good : Content D → Prop} {jobs : ι → Job D} {w : World ι D} (h : w.Initial good) : Inv good jobs w :=
  ⟨initial_lock h, h.intact, fun i => phaseOK_rest (by rw [h.idle i]; rfl)⟩

/-! ## Properties -/

/-- **C197** Never do two processes work on a plugin at the same time, whatever fails and crashes. Missing: deleting it, which does not ask for the lock. -/
theorem install_excludes_partial {good : Content D → Prop} {jobs : ι → Job D} {w w' : World ι D} (h : w.Initial good) (hr : Run false jobs w w') {i j : ι}
    (hi : (w'.phase i).works = true) (hj : (w'.phase j).works = true) : i = j :=
  (lockInv_run (initial_lock h) hr).alone hi hj

/-- **C197** Whatever was going on and failed or crashed: if the directory was there when it was looked for, and the mark is not there when it is looked for after
that, as `HasPlugin` does, then the plugin is there as a whole. Missing: installing anew, and deleting. -/
theorem has_plugin_is_complete_partial {good : Content D → Prop} {jobs : ι → Job D} (hgood : ∀ i, good (jobs i).content)
    (hre : ∀ i, (jobs i).reinstall = false) {w w₁ w₂ : World ι D} (h : w.Initial good) (hr₁ : Run false jobs w w₁) (hdir : w₁.dir ≠ none)
    (hr₂ : Run false jobs w₁ w₂) (hm : w₂.marked = false) : ∃ c d, good c ∧ w₂.dir = some d ∧ Complete c d := by
  have h₁ := inv_run hgood hre (initial_inv h) hr₁
  have key : Inv good jobs w₂ ∧ (w₂.dir = none → w₂.marked = true) := by
    clear hm
    induction hr₂ with
    | refl => exact ⟨h₁, fun e => absurd e hdir⟩
    | step hr hs ih =>
      rename_i a b
      refine ⟨inv_step hgood hre ih.1 hs, ?_⟩
      have hI := ih.1
      cases hs with
      | removeFile i d f hi _ => intro e; cases e
      | removeDir i hi =>
        intro _
        have := hI.phases i
        rw [hi] at this; exact this
      | mark i hi => intro _; rfl
      | mkdir i hi => intro e; cases e
      | begin => intro e; cases e
      | finish => intro e; cases e
      | unmark i hi =>
        intro e
        replace e : a.dir = none := e
        have := hI.phases i
        rw [hi] at this
        obtain ⟨_, d, hd, _⟩ := this
        rw [hd] at e; cases e
      | deleteFile i d f hi => exact absurd hi (hI.keeps i).1
      | deleteDir i hi => exact absurd hi (hI.keeps i).1
      | deleteMark i hi => exact absurd hi (hI.keeps i).2.1
      | deleteLock i hi => exact absurd hi (hI.keeps i).2.2
      | _ => exact ih.2
  cases hd : w₂.dir with
  | none => rw [key.2 hd] at hm; cases hm
  | some d =>
    obtain ⟨c, hc, hcomp⟩ := key.1.intact hm d hd
    exact ⟨c, d, hc, rfl, hcomp⟩

/-- **C197** Once an installation has reported success the plugin is there as a whole, and stays there. Missing: installing anew, and deleting. -/
theorem installed_stays_partial {good : Content D → Prop} {jobs : ι → Job D} (hgood : ∀ i, good (jobs i).content) (hre : ∀ i, (jobs i).reinstall = false)
    {w w' : World ι D} (h : w.Initial good) (hr : Run false jobs w w') {i : ι} (hi : w'.phase i = .over true) :
    w'.marked = false ∧ ∃ c d, good c ∧ w'.dir = some d ∧ Complete c d := by
  have key : Inv good jobs w' ∧ ((∃ i, w'.phase i = .over true) →
      w'.marked = false ∧ w'.dir ≠ none ∧ ∀ j, (w'.phase j).works = true → w'.phase j = .check) := by
    clear hi
    induction hr with
    | refl => exact ⟨initial_inv h, fun ⟨i, e⟩ => by rw [h.idle i] at e; cases e⟩
    | step hr hs ih =>
      rename_i a b
      have hI := ih.1
      refine ⟨inv_step hgood hre ih.1 hs, fun ⟨k, hk⟩ => ?_⟩
      have hex : ∀ {v : World ι D} {i : ι} {p : Phase D}, (∀ j, v.phase j = (a.go i p).phase j) → p ≠ .over true → v.phase k = .over true →
          a.phase k = .over true := by
        intro v i p hv hp e
        rw [hv k] at e
        by_cases hki : k = i
        · rw [hki, go_self] at e; exact absurd e hp
        · rwa [go_other a p hki] at e
      have hno : ∀ {i : ι}, (a.phase i).works = true → a.phase i ≠ .check → ¬ ∃ i, a.phase i = .over true := by
        intro i h1 h2 hx
        exact h2 ((ih.2 hx).2.2 i h1)
      have hstill : ∀ {v : World ι D} {i : ι} {p : Phase D}, (∀ j, v.phase j = (a.go i p).phase j) → p ≠ .over true → v.phase k = .over true →
          v.dir = a.dir → v.marked = a.marked → (p.works = true → p = .check) →
          v.marked = false ∧ v.dir ≠ none ∧ ∀ j, (v.phase j).works = true → v.phase j = .check := by
        intro v i p hv hp e hd hm hw
        obtain ⟨h1, h2, h3⟩ := ih.2 ⟨k, hex hv hp e⟩
        refine ⟨hm.trans h1, by rw [hd]; exact h2, fun j hj => ?_⟩
        rw [hv j] at hj ⊢
        by_cases hji : j = i
        · rw [hji, go_self] at hj ⊢; exact hw hj
        · rw [go_other a p hji] at hj ⊢; exact h3 j hj
      cases hs with
      | «open» i n hi hl => exact hstill (fun _ => rfl) (by simp) hk rfl rfl (fun e => by cases e)
      | create i hi hl => exact hstill (i := i) (p := .waiting a.fresh) (fun _ => rfl) (by simp) hk rfl rfl (fun e => by cases e)
      | lock i n hi hf => exact hstill (i := i) (p := .check) (fun _ => rfl) (by simp) hk rfl rfl (fun _ => rfl)
      | absent i hi hd => exact absurd hd (ih.2 ⟨k, hex (i := i) (p := .mark) (fun _ => rfl) (by simp) hk⟩).2.1
      | present i d hi hd hm hr =>
        refine ⟨hm, fun e => ?_, fun j hj => ?_⟩
        · replace e : a.dir = none := e
          rw [hd] at e; cases e
        · replace hj : ((a.go i (.over true)).phase j).works = true := hj
          by_cases hji : j = i
          · rw [hji, go_self] at hj; cases hj
          · rw [go_other a _ hji] at hj
            exact absurd (hI.alone hj (by rw [hi]; rfl)) hji
      | again i d hi hd hm =>
        have := (ih.2 ⟨k, hex (i := i) (p := .removing) (fun _ => rfl) (by simp) hk⟩).1
        rcases hm with hm | hm
        · rw [this] at hm; cases hm
        · rw [hre i] at hm; cases hm
      | removeFile i d f hi hd => exact absurd ⟨k, hk⟩ (hno (i := i) (by rw [hi]; rfl) (by rw [hi]; simp))
      | removeDir i hi => exact absurd ⟨k, hex (i := i) (p := .mark) (fun _ => rfl) (by simp) hk⟩ (hno (i := i) (by rw [hi]; rfl) (by rw [hi]; simp))
      | mark i hi => exact absurd ⟨k, hex (i := i) (p := .mkdir) (fun _ => rfl) (by simp) hk⟩ (hno (i := i) (by rw [hi]; rfl) (by rw [hi]; simp))
      | mkdir i hi =>
        exact absurd ⟨k, hex (i := i) (p := .writing (jobs i).content) (fun _ => rfl) (by simp) hk⟩ (hno (i := i) (by rw [hi]; rfl) (by rw [hi]; simp))
      | begin i d f x todo hi hd =>
        exact absurd ⟨k, hex (i := i) (p := .midway f x todo) (fun _ => rfl) (by simp) hk⟩ (hno (i := i) (by rw [hi]; rfl) (by rw [hi]; simp))
      | finish i d f x todo hi hd =>
        exact absurd ⟨k, hex (i := i) (p := .writing todo) (fun _ => rfl) (by simp) hk⟩ (hno (i := i) (by rw [hi]; rfl) (by rw [hi]; simp))
      | written i hi => exact absurd ⟨k, hex (i := i) (p := .unmark) (fun _ => rfl) (by simp) hk⟩ (hno (i := i) (by rw [hi]; rfl) (by rw [hi]; simp))
      | unmark i hi =>
        have hp := hI.phases i
        rw [hi] at hp
        obtain ⟨_, d, hd, _⟩ := hp
        refine ⟨rfl, fun e => ?_, fun j hj => ?_⟩
        · replace e : a.dir = none := e
          rw [hd] at e; cases e
        · replace hj : ((a.go i (.over true)).phase j).works = true := hj
          by_cases hji : j = i
          · rw [hji, go_self] at hj; cases hj
          · rw [go_other a _ hji] at hj
            exact absurd (hI.alone hj (by rw [hi]; rfl)) hji
      | fail i hi => exact hstill (i := i) (p := .over false) (fun _ => rfl) (by simp) hk rfl rfl (fun e => by cases e)
      | crash i => exact hstill (i := i) (p := .crashed) (fun _ => rfl) (by simp) hk rfl rfl (fun e => by cases e)
      | delete i hd => cases hd
      | deleteFile i d f hi => exact absurd hi (hI.keeps i).1
      | deleteDir i hi => exact absurd hi (hI.keeps i).1
      | deleteMark i hi => exact absurd hi (hI.keeps i).2.1
      | deleteLock i hi => exact absurd hi (hI.keeps i).2.2
  obtain ⟨h1, h2, _⟩ := key.2 ⟨i, hi⟩
  cases hd : w'.dir with
  | none => exact absurd hd h2
  | some d =>
    obtain ⟨c, hc, hcomp⟩ := key.1.intact h1 d hd
    exact ⟨h1, c, d, hc, rfl, hcomp⟩

/-! ## Going on after a crash -/

theorem run_one {jobs : ι → Job D} {x : Bool} {a b c : World ι D} (h : Step x jobs a b) (h' : Run x jobs b c) : Run x jobs a c :=
  Run.trans (.step (.refl a) h) h'

theorem run_write {jobs : ι → Job D} {x : Bool} {i : ι} (todo : Content D) {w : World ι D} {d : Dir D} (hp : w.phase i = .writing todo) (hd : w.dir = some d) :
    ∃ w' d', Run x jobs w w' ∧ w'.phase i = .writing [] ∧ w'.dir = some d' := by
  induction todo generalizing w d with
  | nil => exact ⟨w, d, .refl w, hp, hd⟩
  | cons fx todo ih =>
    obtain ⟨f, v⟩ := fx
    have s1 := Step.begin (deletes := x) (jobs := jobs) i d f v todo hp hd
    obtain ⟨v', d₁, s2, p2, e2⟩ : ∃ v' d₁, Step x jobs { (w.go i (.midway f v todo)) with dir := some (d.put f (some none)) } v' ∧
        v'.phase i = .writing todo ∧ v'.dir = some d₁ := ⟨_, _, Step.finish i _ f v todo (go_self w i _) rfl, go_self _ i _, rfl⟩
    obtain ⟨w', d', hr, h1, h2⟩ := ih p2 e2
    exact ⟨w', d', run_one s1 (run_one s2 hr), h1, h2⟩

/-- **C197** Whatever was left by processes that failed or crashed, once none has the lock a process can install the plugin. -/
theorem install_can_complete {jobs : ι → Job D} {x : Bool} {w : World ι D} {i : ι} (hidle : w.phase i = .idle) (hfree : ∀ j, w.holds j = none) :
    ∃ w', Run x jobs w w' ∧ w'.phase i = .over true := by
  -- the lock
  obtain ⟨a, ha, pa⟩ : ∃ a, Run x jobs w a ∧ a.phase i = .check := by
    cases hl : w.lockFile with
    | none =>
      refine ⟨_, .step (.step (.refl w) (Step.create i hidle hl)) (Step.lock i w.fresh (go_self w i _) fun j e => ?_), go_self _ i _⟩
      replace e : w.holds j = _ := e
      rw [hfree j] at e; cases e
    | some n =>
      refine ⟨_, .step (.step (.refl w) (Step.open i n hidle hl)) (Step.lock i n (go_self w i _) fun j e => ?_), go_self _ i _⟩
      replace e : w.holds j = _ := e
      rw [hfree j] at e; cases e
  have fresh : ∀ b : World ι D, Run x jobs a b → b.phase i = .mark → ∃ w', Run x jobs w w' ∧ w'.phase i = .over true := by
    intro b hb pb
    have s1 := Step.mark (deletes := x) (jobs := jobs) i pb
    have s2 := Step.mkdir (deletes := x) (jobs := jobs) i (w := { (b.go i .mkdir) with marked := true }) (go_self b i _)
    obtain ⟨c, d, hr, pc, _⟩ := run_write (jobs := jobs) (x := x) (i := i) (jobs i).content
      (w := { (({ (b.go i .mkdir) with marked := true } : World ι D).go i (.writing (jobs i).content)) with dir := some fun _ => none }) (go_self _ i _) rfl
    have s3 := Step.written (deletes := x) (jobs := jobs) i pc
    have s4 := Step.unmark (deletes := x) (jobs := jobs) i (w := c.go i .unmark) (go_self c i _)
    exact ⟨_, ha.trans (hb.trans (run_one s1 (run_one s2 (hr.trans (run_one s3 (run_one s4 (.refl _))))))), go_self _ i _⟩
  cases hd : a.dir with
  | none => exact fresh _ (.step (.refl a) (Step.absent i pa hd)) (go_self a i _)
  | some d =>
    have hcase : (a.marked = true ∨ (jobs i).reinstall = true) ∨ (a.marked = false ∧ (jobs i).reinstall = false) := by
      cases a.marked <;> cases (jobs i).reinstall <;> simp
    rcases hcase with hc | ⟨hm, hre⟩
    · exact fresh _ (.step (.step (.refl a) (Step.again i d pa hd hc)) (Step.removeDir i (go_self a i _))) (go_self _ i _)
    · exact ⟨_, .step ha (Step.present i d pa hd hm hre), go_self a i _⟩

end Pulumi.Plugins
