import Verif.Filestate.Model
/-! # Specification of the file backend -/
namespace Pulumi.Filestate

variable {C S : Type}

/-- What the state file of a stack has in it: if there are a plain and a compressed one, the plain one if it is newer. -/
def Bucket.current (b : Bucket C) (s : String) : Option C :=
  match b.get (.state s false), b.get (.state s true) with
  | some p, some g => if p.time > g.time then some p.content else some g.content
  | some p, none => some p.content
  | none, some g => some g.content
  | none, none => none

/-- The stack a file is of. -/
def File.stack : File → String
  | .state s _ => s
  | .bak s _ => s
  | .retained s _ _ => s
  | .history s _ _ => s
  | .checkpoint s _ _ => s
  | .backup s _ _ => s

/-- There is no state file of the stack but with this compression. -/
def Only (gz : Bool) (s : String) (b : Bucket C) : Prop := b.get (.state s (!gz)) = none

instance [DecidableEq C] (gz : Bool) (s : String) (b : Bucket C) : Decidable (Only gz s b) := by unfold Only; infer_instance

/-- What is in a file. -/
def Bucket.content (b : Bucket C) (f : File) : Option C := (b.get f).map (·.content)

/-- What may be in the state file of a stack during an update: what was there, or what the engine saved; after a save that it was told
had succeeded, that or something later. -/
inductive Kept (save : S → C) : Engine S → Option C → Option C → Prop
  | same (e o) : Kept save e o o
  | saved (st next o x) : Kept save (next true) (some (save st)) x → Kept save (.save st next) o x
  | failed (st next o x) : Kept save (next false) o x → Kept save (.save st next) o x
  | unsure (st next o x) : Kept save (next false) (some (save st)) x → Kept save (.save st next) o x

end Pulumi.Filestate
