import Verif.ConfigMap.Model
/-!
# The file backend: stacks as files of a bucket

Models `pkg/backend/filestate/state.go` and `backend.go`. Line numbers are of `state.go` if no file is given.

A program is what a command does to the bucket, one call after the other: each call may succeed, fail, or fail after it has had its
effect, and a crash leaves the program where it is. Simplifications: a file is named by what it is for (`Names.lean` has the texts of
the names); what is in a file is a `C`, of which a `Coder` says what it reads as; calls to the bucket are atomic, as the code assumes
of `WriteAll` (210-213); times do not go backwards. Displays, logs, and the engine are left out: an update is the states it saves.
-/
namespace Pulumi.Filestate

open ConfigMap (put drop find)

/-- Files of the bucket. The flag tells compressed files, the number is a time: the state of a stack (352-395) and its backup (300),
states that are kept (264-268), the two files of an update in the history (530-552), a backup elsewhere (334-349). -/
inductive File
  | state (stack : String) (gz : Bool)
  | bak (stack : String) (gz : Bool)
  | retained (stack : String) (gz : Bool) (time : Nat)
  | history (stack : String) (time : Nat) (gz : Bool)
  | checkpoint (stack : String) (time : Nat) (gz : Bool)
  | backup (stack : String) (time : Nat) (gz : Bool)
deriving DecidableEq, Repr

/-- An object of the bucket: what is in it, and when it was changed. -/
structure Obj (C : Type) where
  content : C
  time : Nat
deriving DecidableEq, Repr

structure Bucket (C : Type) where
  files : List (File × Obj C)
  clock : Nat
deriving DecidableEq, Repr

/-- What a file reads as, or `none` if it cannot be read: `UnmarshalVersionedCheckpointToLatestCheckpoint`, `DeserializeCheckpoint`
and `VerifyIntegrity` (152-179); and what is written for a state (`SerializeCheckpoint`, 201-208). `new` is the state of a stack that was never
updated, `empty` tells states without resources, `sound` what passes the check after writing (270-280). -/
structure Coder (C S : Type) where
  load : C → Option S
  save : Bool → S → C
  new : S
  empty : S → Bool
  sound : S → Bool

/-- Calls to the bucket (bucket.go:16-24). `listState` lists what starts with the plain name of a stack (358-369), `listHistory` the
directory with its history. -/
inductive Op (C : Type)
  | read (f : File)
  | write (f : File) (c : C)
  | copy (dst src : File)
  | delete (f : File)
  | «exists» (f : File)
  | listState (stack : String)
  | listHistory (stack : String)

/-- Results of calls. The times of the plain and of the compressed file of a stack are what is made of the listing of its files. -/
inductive Res (C : Type)
  | ok | err | notFound
  | content (c : C)
  | is (b : Bool)
  | found (plain gz : Option Nat)
  | files (l : List File)

def Bucket.get {C : Type} (b : Bucket C) (f : File) : Option (Obj C) := find f b.files

/-- The history files of a stack -/
def File.inHistory (s : String) : File → Bool
  | .history s' _ _ => s' = s
  | .checkpoint s' _ _ => s' = s
  | _ => false

/-- A call that succeeds, at this time. -/
def perform {C : Type} (now : Nat) (b : Bucket C) : Op C → Res C × Bucket C
  | .read f =>
    match b.get f with
    | some o => (.content o.content, b)
    | none => (.notFound, b)
  | .write f c => (.ok, ⟨put f ⟨c, now⟩ b.files, now⟩)
  | .copy dst src =>
    match b.get src with
    | some o => (.ok, ⟨put dst ⟨o.content, now⟩ b.files, now⟩)
    | none => (.notFound, b)
  | .delete f =>
    match b.get f with
    | some _ => (.ok, ⟨drop f b.files, now⟩)
    | none => (.notFound, b)
  | .exists f => (.is (b.get f).isSome, b)
  | .listState s => (.found ((b.get (.state s false)).map (·.time)) ((b.get (.state s true)).map (·.time)), b)
  | .listHistory s => (.files ((b.files.map (·.1)).filter (File.inHistory s)), b)

/-- What a call may do: succeed, and if there are faults also fail, or fail with its effect. -/
inductive Act {C : Type} (faults : Bool) (o : Op C) (b : Bucket C) : Res C → Bucket C → Prop
  | ok (now : Nat) : b.clock ≤ now → Act faults o b (perform now b o).1 (perform now b o).2
  | fail : faults = true → Act faults o b .err b
  | late (now : Nat) : faults = true → b.clock ≤ now → Act faults o b .err (perform now b o).2

/-- A program: calls, one after the other, each depending on the results of those before. -/
inductive Prog (C α : Type)
  | done (a : α)
  | op (o : Op C) (k : Res C → Prog C α)

def Prog.bind {C α β : Type} : Prog C α → (α → Prog C β) → Prog C β
  | .done a, f => f a
  | .op o k, f => .op o fun r => (k r).bind f

instance {C : Type} : Monad (Prog C) where
  pure := .done
  bind := Prog.bind

/-- A call -/
def call {C : Type} (o : Op C) : Prog C (Res C) := .op o .done

/-- Where a program may be after some calls: a crash leaves the bucket there. -/
inductive Reach {C α : Type} (faults : Bool) : Prog C α → Bucket C → Prog C α → Bucket C → Prop
  | refl (p b) : Reach faults p b p b
  | step {o k b r b' p' b''} : Act faults o b r b' → Reach faults (k r) b' p' b'' → Reach faults (.op o k) b p' b''

/-! ## Reading -/

/-- `stackPath` (352-395): the compressed file, unless there is only a plain one or that is newer. -/
def stackPath {C : Type} (s : String) : Prog C File := do
  match ← call (.listState s) with
  | .found (some p) (some g) => return .state s (!(p > g))
  | .found none (some _) => return .state s true
  | _ => return .state s false

/-- Results of reading a stack -/
inductive Got (S : Type)
  | ok (s : S) | notFound | err
deriving DecidableEq, Repr

/-- `getStack` (137-165) and `getCheckpoint` (168-180); the error for a missing file is told apart (backend.go:348-355). The first call
of `stackPath` (144) is only for the name in messages and left out. -/
def getStack {C S : Type} (K : Coder C S) (s : String) : Prog C (Got S) := do
  let f ← stackPath s
  match ← call (.read f) with
  | .content c =>
    match K.load c with
    | some st => return .ok st
    | none => return .err
  | .notFound => return .notFound
  | _ => return .err

/-! ## Writing -/

/-- `backupTarget` (298-316); the backup of a state file is another file with the name of the stack -/
def backupTarget {C : Type} (s : String) (gz keep : Bool) : Prog C Unit := do
  let _ ← call (.copy (.bak s gz) (.state s gz))
  if !keep then
    let _ ← call (.delete (.state s gz))
  return ()

/-- `Until` with the function of `saveStack` (228-259 and `sdk/go/common/util/retry/until.go:42-87`): `n` more tries. -/
def retry {C : Type} (f : File) (c : C) : Nat → Prog C Bool
  | 0 => .done false
  | n + 1 => do
    match ← call (.write f c) with
    | .ok => return true
    | _ => retry f c n

/-- Twelve tries: the numbers 0 to 11 (248). -/
def tries : Nat := 12

/-- `saveStack` (182-283). `keepAll` is PULUMI_RETAIN_CHECKPOINTS and `time` the time in the name. The name of the file does not
depend on what `stackPath` says but for the ending that is taken away or added (184-199). -/
def saveStack {C S : Type} (K : Coder C S) (gz : Bool) (keepAll : Option Nat) (s : String) (st : S) : Prog C Bool := do
  let _ ← stackPath (C := C) s
  backupTarget s true gz
  backupTarget s false (!gz)
  match ← call (.write (.state s gz) (K.save gz st)) with
  | .ok => finish
  | _ =>
    if ← retry (.state s gz) (K.save gz st) tries then finish else return false
where
  /-- lines 263-282 -/
  finish : Prog C Bool := do
    match keepAll with
    | none => return K.sound st
    | some t =>
      match ← call (.write (.retained s gz t) (K.save gz st)) with
      | .ok => return K.sound st
      | _ => return false

/-- lines 101-106 of bucket.go -/
def deleteAll {C : Type} : List File → Prog C Unit
  | [] => .done ()
  | f :: l => do
    let _ ← call (.delete f)
    deleteAll l

/-- `backupTarget` of a state file that `stackPath` found -/
def backupFile {C : Type} (s : String) (f : File) : Prog C Unit :=
  match f with
  | .state _ gz => backupTarget s gz false
  | _ => .done ()

/-- `removeStack` (286-295) with `removeAllByPrefix` (bucket.go:95-109) -/
def removeStack {C : Type} (s : String) : Prog C Bool := do
  let f ← stackPath s
  backupFile s f
  match ← call (.listHistory s) with
  | .files l => do
    deleteAll l
    return true
  | _ => return false

/-- The file with the name of another stack (498-511); others are left alone. -/
def File.moved (old new : String) : File → Option File
  | .history s t gz => if s = old then some (.history new t gz) else none
  | .checkpoint s t gz => if s = old then some (.checkpoint new t gz) else none
  | _ => none

/-- the loop of `renameHistory` (497-519) -/
def moveAll {C : Type} (old new : String) : List File → Prog C Bool
  | [] => .done true
  | f :: l =>
    match f.moved old new with
    | none => moveAll old new l
    | some f' => do
      match ← call (.copy f' f) with
      | .ok =>
        match ← call (.delete f) with
        | .ok => moveAll old new l
        | _ => return false
      | _ => return false

/-- `renameHistory` (481-522) -/
def renameHistory {C : Type} (old new : String) : Prog C Bool := do
  match ← call (.listHistory old) with
  | .files l => moveAll old new l
  | .notFound => return true
  | _ => return false

/-! ## Commands, once they have the lock -/

/-- Results of commands -/
inductive Out
  | ok | exists | notEmpty | error
deriving DecidableEq, Repr

/-- `CreateStack` (backend.go:305-342) -/
def create {C S : Type} (K : Coder C S) (gz : Bool) (keepAll : Option Nat) (s : String) : Prog C Out := do
  match ← getStack K s with
  | .ok _ => return .exists
  | _ => if ← saveStack K gz keepAll s K.new then return .ok else return .error

/-- `RemoveStack` (backend.go:384-404) -/
def remove {C S : Type} (K : Coder C S) (force : Bool) (s : String) : Prog C Out := do
  match ← getStack K s with
  | .ok st =>
    if !force && !K.empty st then return .notEmpty
    else if ← removeStack s then return .ok else return .error
  | _ => return .error

/-- `RenameStack` (backend.go:406-460); `edit` is what it does to the state (`edit.RenameStack`, see `Rename`). -/
def rename {C S : Type} (K : Coder C S) (gz : Bool) (keepAll : Option Nat) (edit : S → S) (old new : String) : Prog C Out := do
  match ← getStack K old with
  | .ok st => do
    let f ← stackPath new
    match ← call (.exists f) with
    | .is true => return .exists
    | .is false =>
      if ← saveStack K gz keepAll new (edit st) then do
        let f ← stackPath old
        backupFile old f
        if ← renameHistory old new then return .ok else return .error
      else return .error
    | _ => return .error
  | _ => return .error

/-- `ImportDeployment` (backend.go:803-825) of a state that was read -/
def importState {C S : Type} (K : Coder C S) (gz : Bool) (keepAll : Option Nat) (s : String) (st : S) : Prog C Out := do
  match ← getStack K s with
  | .ok _ => if ← saveStack K gz keepAll s st then return .ok else return .error
  | _ => return .error

/-- What the engine does to the state of a stack: it saves a state, and goes on as saving succeeds or not, or stops. -/
inductive Engine (S : Type)
  | stop
  | save (st : S) (next : Bool → Engine S)

/-- The states an update saves (`localSnapshotPersister`, snapshot.go:35-39). -/
def saveAll {C S : Type} (K : Coder C S) (gz : Bool) (keepAll : Option Nat) (s : String) : Engine S → Prog C Unit
  | .stop => .done ()
  | .save st next => (saveStack K gz keepAll s st).bind fun r => saveAll K gz keepAll s (next r)

/-- `addToHistory` (525-553) -/
def addToHistory {C : Type} (gz : Bool) (s : String) (time : Nat) (info : C) : Prog C Bool := do
  match ← call (.write (.history s time gz) info) with
  | .ok => do
    let f ← stackPath s
    match ← call (.copy (.checkpoint s time gz) f) with
    | .ok => return true
    | _ => return false
  | _ => return false

/-- `backupStack` (319-350) -/
def backupStack {C : Type} (s : String) (time : Nat) : Prog C Bool := do
  let f ← stackPath s
  match ← call (.read f) with
  | .content c =>
    match ← call (.write (.backup s time (match f with | .state _ gz => gz | _ => false)) c) with
    | .ok => return true
    | _ => return false
  | _ => return false

/-- `apply` (backend.go:555-717) that is no preview: what it saves depends on the state it reads. -/
def update {C S : Type} (K : Coder C S) (gz : Bool) (keepAll : Option Nat) (s : String) (time : Nat) (info : C) (engine : S → Engine S) :
    Prog C Out := do
  match ← getStack K s with
  | .ok st => do
    saveAll K gz keepAll s (engine st)
    let a ← addToHistory gz s time info
    let b ← backupStack s time
    return if a && b then .ok else .error
  | _ => return .error

/-! ## History -/

/-- The files of a page of the history (424-475), of the listing in order of names; the times in names are of one length, so that
older ones come first. Pages are counted from one; a page size of zero is everything. -/
def page (files : List File) (size : Nat) (number : Int) : List File :=
  let entries := (files.filter fun | .history .. => true | _ => false).reverse
  if size = 0 then entries
  else
    let number := if number < 1 then 1 else number
    (entries.drop ((number - 1).toNat * size)).take size

end Pulumi.Filestate
