/-!
# Installing a plugin

Models `InstallWithContext` (1171-1271), `installLock` (884-902), `HasPlugin` (1319-1333) and `Delete` (695-705) of
`sdk/go/common/workspace/plugins.go`, line numbers are of it, and `FileMutex` (`sdk/go/common/util/fsutil/lock.go`).

Any number of processes install or delete one plugin. What is on disk are its directory, the file that marks an installation that is not complete, and the
lock file. Simplifications: directories of older versions of the CLI (1274-1294) are left out; what installing dependencies writes (1240-1265) counts
as part of the content; a lock on a file excludes everyone who has opened the same file, and ends with its process; the directory with the plugins exists. Calls may fail at any time,
and processes may crash; files are removed one by one, and written in two steps, between which they are torn.
-/
namespace Pulumi.Plugins

/-- What is in a directory: no file, a torn one, or one with its content. -/
abbrev Dir (D : Type) := String → Option (Option D)

def Dir.put {D : Type} (d : Dir D) (f : String) (x : Option (Option D)) : Dir D := fun g => if g = f then x else d g

/-- The content of a plugin: files in the order in which they are written -/
abbrev Content (D : Type) := List (String × D)

/-- Where a process is. -/
inductive Phase (D : Type)
  | idle
  /-- has opened the lock file, which may have been another one before that one (`n`), and waits for the lock (896) -/
  | waiting (n : Nat)
  /-- looks at what is there (1199-1227) -/
  | check
  /-- removes the directory (1222) -/
  | removing
  /-- is about to mark the installation (1230) -/
  | mark
  /-- is about to make the directory (1235) -/
  | mkdir
  /-- writes files (1239): what is left -/
  | writing (todo : Content D)
  /-- amid writing a file -/
  | midway (f : String) (x : D) (todo : Content D)
  /-- is about to remove the mark (1270) -/
  | unmark
  | over (ok : Bool)
  | crashed
  /-- `Delete`: removes the directory (697), the mark (702) and the lock file (703) -/
  | deleting
  | delMark
  | delLock

/-- What a process is to do: install this content, perhaps anew -/
structure Job (D : Type) where
  content : Content D
  reinstall : Bool

structure World (ι D : Type) where
  phase : ι → Phase D
  dir : Option (Dir D)
  marked : Bool
  /-- the lock file, by a number that tells it from deleted ones -/
  lockFile : Option Nat
  fresh : Nat
  /-- which lock file a process has locked -/
  holds : ι → Option Nat

variable {ι D : Type} [DecidableEq ι]

def World.go (w : World ι D) (i : ι) (p : Phase D) : World ι D := { w with phase := fun j => if j = i then p else w.phase j }

/-- The process is over, and has no lock. -/
def World.stop (w : World ι D) (i : ι) (p : Phase D) : World ι D :=
  { (w.go i p) with holds := fun j => if j = i then none else w.holds j }

/-- Phases in which a process works on the plugin -/
def Phase.works : Phase D → Bool
  | .check => true
  | .removing => true
  | .mark => true
  | .mkdir => true
  | .writing _ => true
  | .midway .. => true
  | .unmark => true
  | _ => false

/-- Steps. `deletes` says whether someone deletes the plugin. -/
inductive Step (deletes : Bool) (jobs : ι → Job D) : World ι D → World ι D → Prop
  /-- the lock file is opened, or made (890-896) -/
  | «open» {w} (i n) : w.phase i = .idle → w.lockFile = some n → Step deletes jobs w (w.go i (.waiting n))
  | create {w} (i) : w.phase i = .idle → w.lockFile = none →
      Step deletes jobs w { (w.go i (.waiting w.fresh)) with lockFile := some w.fresh, fresh := w.fresh + 1 }
  /-- and locked, once no other one has it locked -/
  | lock {w} (i n) : w.phase i = .waiting n → (∀ j, w.holds j ≠ some n) →
      Step deletes jobs w { (w.go i .check) with holds := fun j => if j = i then some n else w.holds j }
  /-- nothing is there (1224) -/
  | absent {w} (i) : w.phase i = .check → w.dir = none → Step deletes jobs w (w.go i .mark)
  /-- the plugin is there, and not to be installed anew (1208-1212) -/
  | present {w} (i d) : w.phase i = .check → w.dir = some d → w.marked = false → (jobs i).reinstall = false →
      Step deletes jobs w (w.stop i (.over true))
  /-- it is not complete, or to be installed anew (1219-1222) -/
  | again {w} (i d) : w.phase i = .check → w.dir = some d → w.marked = true ∨ (jobs i).reinstall = true → Step deletes jobs w (w.go i .removing)
  | removeFile {w} (i d f) : w.phase i = .removing → w.dir = some d → Step deletes jobs w { w with dir := some (d.put f none) }
  | removeDir {w} (i) : w.phase i = .removing → Step deletes jobs w { (w.go i .mark) with dir := none }
  /-- the mark is made (1230) -/
  | mark {w} (i) : w.phase i = .mark → Step deletes jobs w { (w.go i .mkdir) with marked := true }
  | mkdir {w} (i) : w.phase i = .mkdir → Step deletes jobs w { (w.go i (.writing (jobs i).content)) with dir := some fun _ => none }
  /-- files are written -/
  | begin {w} (i d f x todo) : w.phase i = .writing ((f, x) :: todo) → w.dir = some d →
      Step deletes jobs w { (w.go i (.midway f x todo)) with dir := some (d.put f (some none)) }
  | finish {w} (i d f x todo) : w.phase i = .midway f x todo → w.dir = some d →
      Step deletes jobs w { (w.go i (.writing todo)) with dir := some (d.put f (some (some x))) }
  | written {w} (i) : w.phase i = .writing [] → Step deletes jobs w (w.go i .unmark)
  /-- the mark is removed (1270) and the lock given up (1185) -/
  | unmark {w} (i) : w.phase i = .unmark → Step deletes jobs w { (w.stop i (.over true)) with marked := false }
  /-- a call fails -/
  | fail {w} (i) : (w.phase i).works = true → Step deletes jobs w (w.stop i (.over false))
  | crash {w} (i) : Step deletes jobs w (w.stop i .crashed)
  /-- `Delete` -/
  | delete {w} (i) : deletes = true → w.phase i = .idle → Step deletes jobs w (w.go i .deleting)
  | deleteFile {w} (i d f) : w.phase i = .deleting → w.dir = some d → Step deletes jobs w { w with dir := some (d.put f none) }
  | deleteDir {w} (i) : w.phase i = .deleting → Step deletes jobs w { (w.go i .delMark) with dir := none }
  | deleteMark {w} (i) : w.phase i = .delMark → Step deletes jobs w { (w.go i .delLock) with marked := false }
  | deleteLock {w} (i) : w.phase i = .delLock → Step deletes jobs w { (w.go i (.over true)) with lockFile := none }

inductive Run (deletes : Bool) (jobs : ι → Job D) : World ι D → World ι D → Prop
  | refl (w) : Run deletes jobs w w
  | step {w w' w''} : Run deletes jobs w w' → Step deletes jobs w' w'' → Run deletes jobs w w''

theorem Run.trans {x : Bool} {jobs : ι → Job D} {a b c : World ι D} (h : Run x jobs a b) (h' : Run x jobs b c) : Run x jobs a c := by
  induction h' with
  | refl => exact h
  | step _ hs ih => exact .step ih hs

/-! ## Specification -/

/-- A directory with exactly the files of a plugin -/
def Complete (c : Content D) (d : Dir D) : Prop := ∀ f, d f = (c.reverse.lookup f).map some

/-- At first no process does anything; the plugin is not there, or not marked as incomplete and then one of the contents that it may have -/
structure World.Initial (good : Content D → Prop) (w : World ι D) : Prop where
  idle : ∀ i, w.phase i = .idle
  free : ∀ i, w.holds i = none
  intact : w.marked = false → ∀ d, w.dir = some d → ∃ c, good c ∧ Complete c d

end Pulumi.Plugins
