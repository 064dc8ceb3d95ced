import Verif.Filestate.Spec
/-!
# Names of the files of stacks (C196)

Models how `pkg/backend/filestate` names files: `state.go` and `backend.go`. Line numbers are of `state.go` if no file is given. A name is a list of
characters; separators of paths are slashes (bucket.go:27-31). Of Go's `path.Join` with a last part without slashes only what it does to "." and ".." is modelled.
-/
namespace Pulumi.Filestate

abbrev Text := List Char

/-! ## Model -/

/-- The text before and after the last occurrence of a character -/
def splitLast (c : Char) : Text → Option (Text × Text)
  | [] => none
  | x :: t =>
    match splitLast c t with
    | some (a, b) => some (x :: a, b)
    | none => if x = c then some ([], t) else none

/-- `ValidateStackName` (backend.go:287-298) -/
def validName (s : Text) : Bool :=
  s.all (fun c => (decide (c.toNat < 128) && c.isAlphanum) || c == '_' || c == '.' || c == '-') && decide (1 ≤ s.length) && decide (s.length ≤ 100)

/-- `path.Join` of a directory and a name without slashes -/
def join (dir name : Text) : Text :=
  if name = ['.'] then dir
  else if name = ['.', '.'] then ((splitLast '/' dir).map (·.1)).getD []
  else dir ++ '/' :: name

def stacksDir : Text := ".pulumi/stacks".toList
/-- `historyDirectory` (397-400) -/
def historyDir (s : Text) : Text := join ".pulumi/history".toList s
/-- `backupDirectory` (402-405) -/
def backupDir (s : Text) : Text := join ".pulumi/backups".toList s
/-- `stackLockDir` (lock.go:147-150) -/
def lockDir (s : Text) : Text := join ".pulumi/locks".toList s

def gzExt (gz : Bool) : Text := if gz then ".gz".toList else []
def digits (n : Nat) : Text := Nat.toDigits 10 n

/-- The plain or compressed state file (361-362) -/
def statePath (s : Text) (gz : Bool) : Text := join stacksDir s ++ ".json".toList ++ gzExt gz

/-- Names of files: the state (361-362), its backup (300), what is kept (264-265), the history (530-552), backups (337-349). -/
def File.path : File → Text
  | .state s gz => statePath s.toList gz
  | .bak s gz => statePath s.toList gz ++ ".bak".toList
  | .retained s gz t => statePath s.toList gz ++ '.' :: digits t
  | .history s t gz => historyDir s.toList ++ '/' :: (s.toList ++ '-' :: (digits t ++ ".history.json".toList ++ gzExt gz))
  | .checkpoint s t gz => historyDir s.toList ++ '/' :: (s.toList ++ '-' :: (digits t ++ ".checkpoint.json".toList ++ gzExt gz))
  | .backup s t gz => backupDir s.toList ++ '/' :: (s.toList ++ '.' :: (digits t ++ ".json".toList ++ gzExt gz))

/-- `lockPath` (lock.go:152-155) -/
def lockPath (s id : Text) : Text := lockDir s ++ '/' :: (id ++ ".json".toList)

/-- `listBucket` (bucket.go:67-87) and `objectName` (89-92): the files right in a directory. -/
def inDir (dir key : Text) : Option Text :=
  match splitLast '/' key with
  | some (d, b) => if d = dir then some b else none
  | none => none

/-- The name of a stack from the name of its file (backend.go:862-876) -/
def listedName (fn : Text) : Option Text :=
  let fn := match splitLast '.' fn with
    | some (a, e) => if e = "gz".toList then a else fn
    | none => fn
  match splitLast '.' fn with
  | some (a, e) => if e = "json".toList ∨ e = "yaml".toList then some a else none
  | none => none

/-- `getLocalStacks` (backend.go:843-880) -/
def localStacks (keys : List Text) : List Text := keys.filterMap fun k => (inDir stacksDir k).bind listedName

/-- The new name of a file of the history (497-508) -/
def movedName (old new fn : Text) : Option Text :=
  match splitLast '-' fn with
  | some (a, r) => if a = old then some (new ++ '-' :: r) else none
  | none => none

/-- The loop of `stackPath` (370-394), with the time of the plain file once it was found. -/
def pickPath (plain : Text) : List (Text × Nat) → Option Nat → Text
  | [], _ => plain
  | (k, t) :: l, p =>
    if k = plain then pickPath plain l (some t)
    else if k = plain ++ ".gz".toList then
      match p with
      | some tp => if tp > t then plain else plain ++ ".gz".toList
      | none => plain ++ ".gz".toList
    else pickPath plain l p

/-! ## Specification -/

/-- Names of stacks that are no path of their own -/
def Normal (s : Text) : Prop := validName s = true ∧ s ≠ ['.'] ∧ s ≠ ['.', '.']

instance (s : Text) : Decidable (Normal s) := by unfold Normal; infer_instance

/-! ## Lemmas -/

theorem splitLast_none {c : Char} {t : Text} (h : c ∉ t) : splitLast c t = none := by
  induction t with
  | nil => rfl
  | cons x t ih =>
    simp only [List.mem_cons, not_or] at h
    simp only [splitLast, ih h.2]
    rw [if_neg (Ne.symm h.1)]

theorem splitLast_append {c : Char} (a : Text) {b : Text} (h : c ∉ b) : splitLast c (a ++ c :: b) = some (a, b) := by
  induction a with
  | nil => simp only [List.nil_append, splitLast, splitLast_none h, if_true]
  | cons x a ih => simp only [List.cons_append, splitLast, ih]

theorem split_inj {c : Char} {a b a' b' : Text} (hb : c ∉ b) (hb' : c ∉ b') (h : a ++ c :: b = a' ++ c :: b') : a = a' ∧ b = b' := by
  have := congrArg (splitLast c) h
  rw [splitLast_append a hb, splitLast_append a' hb'] at this
  cases this
  exact ⟨rfl, rfl⟩

theorem digits_inj {m n : Nat} (h : digits m = digits n) : m = n := by
  have := congrArg (fun l => Nat.ofDigitChars 10 l 0) h
  simpa [digits, Nat.ofDigitChars_toDigits] using this

theorem digits_digit {n : Nat} {c : Char} (h : c ∈ digits n) : c.isDigit = true := Nat.isDigit_of_mem_toDigits (by decide) (by decide) h

theorem digits_not {n : Nat} {c : Char} (hc : c.isDigit = false) : c ∉ digits n := fun h => by rw [digits_digit h] at hc; cases hc

theorem digits_ne {n : Nat} {t : Text} (h : t.all Char.isDigit = false) : digits n ≠ t := by
  intro e
  have : t.all Char.isDigit = true := by
    rw [← e, List.all_eq_true]
    exact fun c hc => digits_digit hc
  rw [this] at h; cases h

theorem normal_slash {s : Text} (h : Normal s) : '/' ∉ s := by
  intro hm
  have := h.1
  unfold validName at this
  simp only [Bool.and_eq_true, List.all_eq_true] at this
  have := this.1.1 _ hm
  revert this
  decide

theorem normal_join {s : Text} (h : Normal s) (dir : Text) : join dir s = dir ++ '/' :: s := by
  unfold join
  rw [if_neg h.2.1, if_neg h.2.2]

/-- The name of the state file in its directory -/
def sbase (s : Text) (gz : Bool) : Text := s ++ ".json".toList ++ gzExt gz

theorem sbase_split (s : Text) (gz : Bool) :
    splitLast '.' (sbase s gz) = some (if gz then s ++ ".json".toList else s, if gz then "gz".toList else "json".toList) := by
  cases gz with
  | false =>
    have : sbase s false = s ++ '.' :: "json".toList := by simp [sbase, gzExt]
    rw [this, splitLast_append s (by decide)]; rfl
  | true =>
    have : sbase s true = (s ++ ".json".toList) ++ '.' :: "gz".toList := by simp [sbase, gzExt]
    rw [this, splitLast_append _ (by decide)]; rfl

theorem sbase_inj {s s' : Text} {g g' : Bool} (h : sbase s g = sbase s' g') : s = s' ∧ g = g' := by
  have := congrArg (splitLast '.') h
  rw [sbase_split, sbase_split] at this
  cases g <;> cases g' <;> simp at this
  · exact ⟨this, rfl⟩
  · exact ⟨this, rfl⟩

/-- Directories and names in them -/
def File.dir : File → Text
  | .state .. => stacksDir
  | .bak .. => stacksDir
  | .retained .. => stacksDir
  | .history s _ _ => ".pulumi/history".toList ++ '/' :: s.toList
  | .checkpoint s _ _ => ".pulumi/history".toList ++ '/' :: s.toList
  | .backup s _ _ => ".pulumi/backups".toList ++ '/' :: s.toList

def File.base : File → Text
  | .state s gz => sbase s.toList gz
  | .bak s gz => sbase s.toList gz ++ '.' :: "bak".toList
  | .retained s gz t => sbase s.toList gz ++ '.' :: digits t
  | .history s t gz => s.toList ++ '-' :: (digits t ++ ".history.json".toList ++ gzExt gz)
  | .checkpoint s t gz => s.toList ++ '-' :: (digits t ++ ".checkpoint.json".toList ++ gzExt gz)
  | .backup s t gz => s.toList ++ '.' :: (digits t ++ ".json".toList ++ gzExt gz)

theorem statePath_eq {s : Text} (h : Normal s) (g : Bool) : statePath s g = stacksDir ++ '/' :: sbase s g := by
  unfold statePath sbase
  rw [normal_join h, List.append_assoc, List.append_assoc, List.cons_append, List.append_assoc]

theorem path_eq {f : File} (h : Normal f.stack.toList) : f.path = f.dir ++ '/' :: f.base := by
  cases f with
  | state s g => exact statePath_eq h g
  | bak s g =>
    show statePath s.toList g ++ _ = stacksDir ++ '/' :: (sbase s.toList g ++ _)
    rw [statePath_eq (s := s.toList) h, List.append_assoc, List.cons_append]; rfl
  | retained s g t =>
    show statePath s.toList g ++ _ = stacksDir ++ '/' :: (sbase s.toList g ++ _)
    rw [statePath_eq (s := s.toList) h, List.append_assoc, List.cons_append]
  | history s t g => exact congrArg (· ++ '/' :: _) (normal_join h _)
  | checkpoint s t g => exact congrArg (· ++ '/' :: _) (normal_join h _)
  | backup s t g => exact congrArg (· ++ '/' :: _) (normal_join h _)

theorem gz_slash (g : Bool) : '/' ∉ gzExt g := by cases g <;> decide

theorem app_slash {a b : Text} (ha : '/' ∉ a) (hb : '/' ∉ b) : '/' ∉ a ++ b := by
  rw [List.mem_append, not_or]; exact ⟨ha, hb⟩

theorem cons_slash {c : Char} {b : Text} (hc : '/' ≠ c) (hb : '/' ∉ b) : '/' ∉ c :: b := by
  rw [List.mem_cons, not_or]; exact ⟨hc, hb⟩

theorem sbase_slash {s : Text} (h : '/' ∉ s) (g : Bool) : '/' ∉ sbase s g := app_slash (app_slash h (by decide)) (gz_slash g)

theorem base_slash {f : File} (h : Normal f.stack.toList) : '/' ∉ f.base := by
  have hs := normal_slash h
  have nd : ∀ {n : Nat}, '/' ∉ digits n := digits_not (by decide)
  cases f with
  | state s g => exact sbase_slash hs g
  | bak s g => exact app_slash (sbase_slash hs g) (cons_slash (by decide) (by decide))
  | retained s g t => exact app_slash (sbase_slash hs g) (cons_slash (by decide) nd)
  | history s t g => exact app_slash hs (cons_slash (by decide) (app_slash (app_slash nd (by decide)) (gz_slash g)))
  | checkpoint s t g => exact app_slash hs (cons_slash (by decide) (app_slash (app_slash nd (by decide)) (gz_slash g)))
  | backup s t g => exact app_slash hs (cons_slash (by decide) (sbase_slash nd g))

theorem stacks_ne {s d : Text} (hs : '/' ∉ s) (hd : d ≠ ".pulumi".toList) : stacksDir ≠ d ++ '/' :: s := fun h =>
  hd (split_inj (a := ".pulumi".toList) (b := "stacks".toList) (by decide +kernel) hs h).1.symm

theorem dirs_ne {s s' d d' : Text} (hs : '/' ∉ s) (hs' : '/' ∉ s') (hd : d ≠ d') : d ++ '/' :: s ≠ d' ++ '/' :: s' := fun h =>
  hd (split_inj hs hs' h).1

/-- What comes after the time -/
theorem tail_split (t : Nat) (k : Text) (gz : Bool) :
    splitLast '.' (digits t ++ ('.' :: k ++ ".json".toList) ++ gzExt gz) =
      some (if gz then digits t ++ ('.' :: k ++ ".json".toList) else digits t ++ '.' :: k, if gz then "gz".toList else "json".toList) := by
  cases gz with
  | false =>
    have : digits t ++ ('.' :: k ++ ".json".toList) ++ gzExt false = (digits t ++ '.' :: k) ++ '.' :: "json".toList := by simp [gzExt]
    rw [this, splitLast_append _ (by decide)]; rfl
  | true =>
    have : digits t ++ ('.' :: k ++ ".json".toList) ++ gzExt true = (digits t ++ ('.' :: k ++ ".json".toList)) ++ '.' :: "gz".toList := by simp [gzExt]
    rw [this, splitLast_append _ (by decide)]; rfl

theorem tail_inj {t t' : Nat} {k k' : Text} {g g' : Bool} (hk : '.' ∉ k) (hk' : '.' ∉ k')
    (h : digits t ++ ('.' :: k ++ ".json".toList) ++ gzExt g = digits t' ++ ('.' :: k' ++ ".json".toList) ++ gzExt g') : t = t' ∧ k = k' ∧ g = g' := by
  have key : digits t ++ '.' :: k = digits t' ++ '.' :: k' ∧ g = g' := by
    have := congrArg (splitLast '.') h
    rw [tail_split, tail_split] at this
    cases g <;> cases g' <;> simp at this
    · exact ⟨by simpa using this, rfl⟩
    · refine ⟨?_, rfl⟩
      have h2 : (digits t ++ '.' :: k) ++ ".json".toList = (digits t' ++ '.' :: k') ++ ".json".toList := by simpa using this
      exact List.append_cancel_right h2
  obtain ⟨h1, h2⟩ := split_inj hk hk' key.1
  exact ⟨digits_inj h1, h2, key.2⟩

/-- **C196** Two files of stacks have the same name only if they are the same file of the same stack, for all stacks but the two
whose names are paths. -/
theorem path_inj_partial {f g : File} (hf : Normal f.stack.toList) (hg : Normal g.stack.toList) (h : f.path = g.path) : f = g := by
  rw [path_eq hf, path_eq hg] at h
  obtain ⟨hd, hb⟩ := split_inj (base_slash hf) (base_slash hg) h
  have inj : ∀ {a b : String}, a.toList = b.toList → a = b := fun h => String.toList_inj.mp h
  have dot : ∀ {a b a' b' : Text}, '.' ∉ b → '.' ∉ b' → a ++ '.' :: b = a' ++ '.' :: b' → a = a' ∧ b = b' := fun h1 h2 h => split_inj h1 h2 h
  have slash : ∀ {d d' : Text} {s s' : Text}, '/' ∉ s → '/' ∉ s' → d ++ '/' :: s = d' ++ '/' :: s' → d = d' ∧ s = s' := fun h1 h2 h => split_inj h1 h2 h
  have nd : ∀ {n : Nat}, '.' ∉ digits n := digits_not (by decide)
  have notDash : ∀ (t : Nat) (k : Text) (g : Bool), '-' ∉ k → '-' ∉ digits t ++ ('.' :: k ++ ".json".toList) ++ gzExt g := by
    intro t k g hk
    simp only [List.mem_append, List.mem_cons, not_or]
    exact ⟨⟨digits_not (by decide), ⟨by decide, hk⟩, by decide⟩, by cases g <;> decide⟩
  cases f with
  | state s gz =>
    cases g with
    | state s' gz' => obtain ⟨h1, h2⟩ := sbase_inj hb; rw [inj h1, h2]
    | bak s' gz' =>
      have := congrArg (splitLast '.') hb
      simp only [File.base] at this
      rw [sbase_split, splitLast_append _ (by decide)] at this
      cases gz <;> simp at this
    | retained s' gz' t' =>
      have := congrArg (splitLast '.') hb
      simp only [File.base] at this
      rw [sbase_split, splitLast_append _ nd] at this
      cases gz
      · exact absurd (congrArg Prod.snd (Option.some.inj this)).symm (digits_ne (t := "json".toList) (by decide +kernel))
      · exact absurd (congrArg Prod.snd (Option.some.inj this)).symm (digits_ne (t := "gz".toList) (by decide +kernel))
    | history s' t' gz' => exact absurd hd (stacks_ne (normal_slash hg) (by decide +kernel))
    | checkpoint s' t' gz' => exact absurd hd (stacks_ne (normal_slash hg) (by decide +kernel))
    | backup s' t' gz' => exact absurd hd (stacks_ne (normal_slash hg) (by decide +kernel))
  | bak s gz =>
    cases g with
    | state s' gz' =>
      have := congrArg (splitLast '.') hb
      simp only [File.base] at this
      rw [sbase_split, splitLast_append _ (by decide)] at this
      cases gz' <;> simp at this
    | bak s' gz' => obtain ⟨h1, _⟩ := dot (by decide) (by decide) hb; obtain ⟨h1, h2⟩ := sbase_inj h1; rw [inj h1, h2]
    | retained s' gz' t' => obtain ⟨_, h2⟩ := dot (by decide) nd hb; exact absurd h2.symm (digits_ne (by decide))
    | history s' t' gz' => exact absurd hd (stacks_ne (normal_slash hg) (by decide +kernel))
    | checkpoint s' t' gz' => exact absurd hd (stacks_ne (normal_slash hg) (by decide +kernel))
    | backup s' t' gz' => exact absurd hd (stacks_ne (normal_slash hg) (by decide +kernel))
  | retained s gz t =>
    cases g with
    | state s' gz' =>
      have := congrArg (splitLast '.') hb
      simp only [File.base] at this
      rw [sbase_split, splitLast_append _ nd] at this
      cases gz'
      · exact absurd (congrArg Prod.snd (Option.some.inj this)) (digits_ne (t := "json".toList) (by decide +kernel))
      · exact absurd (congrArg Prod.snd (Option.some.inj this)) (digits_ne (t := "gz".toList) (by decide +kernel))
    | bak s' gz' => obtain ⟨_, h2⟩ := dot nd (by decide) hb; exact absurd h2 (digits_ne (by decide))
    | retained s' gz' t' =>
      obtain ⟨h1, h3⟩ := dot nd nd hb
      obtain ⟨h1, h2⟩ := sbase_inj h1
      rw [inj h1, h2, digits_inj h3]
    | history s' t' gz' => exact absurd hd (stacks_ne (normal_slash hg) (by decide +kernel))
    | checkpoint s' t' gz' => exact absurd hd (stacks_ne (normal_slash hg) (by decide +kernel))
    | backup s' t' gz' => exact absurd hd (stacks_ne (normal_slash hg) (by decide +kernel))
  | history s t gz =>
    cases g with
    | history s' t' gz' =>
      have h1 : s.toList = s'.toList := (slash (normal_slash hf) (normal_slash hg) hd).2
      obtain ⟨_, h2⟩ := split_inj (c := '-') (notDash t "history".toList gz (by decide)) (notDash t' "history".toList gz' (by decide)) hb
      obtain ⟨h3, _, h4⟩ := tail_inj (by decide) (by decide) h2
      rw [inj h1, h3, h4]
    | checkpoint s' t' gz' =>
      obtain ⟨_, h2⟩ := split_inj (c := '-') (notDash t "history".toList gz (by decide)) (notDash t' "checkpoint".toList gz' (by decide)) hb
      obtain ⟨_, h3, _⟩ := tail_inj (by decide) (by decide) h2
      exact absurd h3 (by decide)
    | state s' gz' => exact absurd hd.symm (stacks_ne (normal_slash hf) (by decide +kernel))
    | bak s' gz' => exact absurd hd.symm (stacks_ne (normal_slash hf) (by decide +kernel))
    | retained s' gz' t' => exact absurd hd.symm (stacks_ne (normal_slash hf) (by decide +kernel))
    | backup s' t' gz' => exact absurd hd (dirs_ne (normal_slash hf) (normal_slash hg) (by decide +kernel))
  | checkpoint s t gz =>
    cases g with
    | checkpoint s' t' gz' =>
      have h1 : s.toList = s'.toList := (slash (normal_slash hf) (normal_slash hg) hd).2
      obtain ⟨_, h2⟩ := split_inj (c := '-') (notDash t "checkpoint".toList gz (by decide)) (notDash t' "checkpoint".toList gz' (by decide)) hb
      obtain ⟨h3, _, h4⟩ := tail_inj (by decide) (by decide) h2
      rw [inj h1, h3, h4]
    | history s' t' gz' =>
      obtain ⟨_, h2⟩ := split_inj (c := '-') (notDash t "checkpoint".toList gz (by decide)) (notDash t' "history".toList gz' (by decide)) hb
      obtain ⟨_, h3, _⟩ := tail_inj (by decide) (by decide) h2
      exact absurd h3 (by decide)
    | state s' gz' => exact absurd hd.symm (stacks_ne (normal_slash hf) (by decide +kernel))
    | bak s' gz' => exact absurd hd.symm (stacks_ne (normal_slash hf) (by decide +kernel))
    | retained s' gz' t' => exact absurd hd.symm (stacks_ne (normal_slash hf) (by decide +kernel))
    | backup s' t' gz' => exact absurd hd (dirs_ne (normal_slash hf) (normal_slash hg) (by decide +kernel))
  | backup s t gz =>
    cases g with
    | backup s' t' gz' =>
      have h1 : s.toList = s'.toList := (slash (normal_slash hf) (normal_slash hg) hd).2
      simp only [File.base, ← h1] at hb
      have hb2 := List.append_cancel_left hb
      simp only [List.cons.injEq, true_and] at hb2
      have hb3 : sbase (digits t) gz = sbase (digits t') gz' := hb2
      obtain ⟨h3, h4⟩ := sbase_inj hb3
      rw [inj h1, digits_inj h3, h4]
    | state s' gz' => exact absurd hd.symm (stacks_ne (normal_slash hf) (by decide +kernel))
    | bak s' gz' => exact absurd hd.symm (stacks_ne (normal_slash hf) (by decide +kernel))
    | retained s' gz' t' => exact absurd hd.symm (stacks_ne (normal_slash hf) (by decide +kernel))
    | history s' t' gz' => exact absurd hd (dirs_ne (normal_slash hf) (normal_slash hg) (by decide +kernel))
    | checkpoint s' t' gz' => exact absurd hd (dirs_ne (normal_slash hf) (normal_slash hg) (by decide +kernel))

/-- **C196** Locks of other stacks, or of other processes, are other files, and no other file of a stack is taken for a lock. -/
theorem lockPath_inj_partial {s s' id id' : Text} (hs : Normal s) (hs' : Normal s') (hi : '/' ∉ id) (hi' : '/' ∉ id') :
    (lockPath s id = lockPath s' id' → s = s' ∧ id = id') ∧ (inDir (lockDir s) (lockPath s' id')).isSome = decide (s = s') ∧
      ∀ f : File, Normal f.stack.toList → inDir (lockDir s) f.path = none := by
  have no : ∀ {x : Text}, '/' ∉ x → '/' ∉ x ++ ".json".toList := fun h => by simp only [List.mem_append, not_or]; exact ⟨h, by decide⟩
  refine ⟨fun h => ?_, ?_, fun f hf => ?_⟩
  · unfold lockPath lockDir at h
    rw [normal_join hs, normal_join hs'] at h
    obtain ⟨h1, h2⟩ := split_inj (no hi) (no hi') h
    exact ⟨(split_inj (normal_slash hs) (normal_slash hs') h1).2, List.append_cancel_right h2⟩
  · unfold inDir lockPath lockDir
    rw [splitLast_append _ (no hi'), normal_join hs, normal_join hs']
    by_cases e : s = s'
    · subst e; simp
    · have : ¬ (".pulumi/locks".toList ++ '/' :: s' = ".pulumi/locks".toList ++ '/' :: s) := fun h =>
        e (split_inj (normal_slash hs') (normal_slash hs) h).2.symm
      simp only [if_neg this, e]; rfl
  · unfold inDir lockDir
    rw [path_eq hf, splitLast_append _ (base_slash hf), normal_join hs]
    have : f.dir ≠ ".pulumi/locks".toList ++ '/' :: s := by
      cases f with
      | state | bak | retained => exact stacks_ne (normal_slash hs) (by decide +kernel)
      | history | checkpoint | backup => exact dirs_ne (normal_slash hf) (normal_slash hs) (by decide +kernel)
    simp only [if_neg this]

/-! ## Listing -/

theorem inDir_path {f : File} (h : Normal f.stack.toList) (dir : Text) : inDir dir f.path = if f.dir = dir then some f.base else none := by
  unfold inDir
  rw [path_eq h, splitLast_append _ (base_slash h)]

theorem inDir_pos {f : File} (h : Normal f.stack.toList) {dir : Text} (e : f.dir = dir) : inDir dir f.path = some f.base := by
  rw [inDir_path h, if_pos e]

theorem inDir_neg {f : File} (h : Normal f.stack.toList) {dir : Text} (e : f.dir ≠ dir) : inDir dir f.path = none := by
  rw [inDir_path h, if_neg e]

theorem listed_state (s : Text) (g : Bool) : listedName (sbase s g) = some s := by
  have h0 : splitLast '.' (s ++ ".json".toList) = some (s, "json".toList) := splitLast_append s (b := "json".toList) (by decide)
  unfold listedName
  rw [sbase_split]
  cases g with
  | false =>
    have : ¬ ("json".toList = "gz".toList) := by decide +kernel
    simp only [Bool.false_eq_true, if_false, if_neg this, sbase_split]
    simp
  | true =>
    simp only [if_true, h0]
    simp

theorem listed_other (a : Text) {e : Text} (hd : '.' ∉ e) (h1 : e ≠ "gz".toList) (h2 : e ≠ "json".toList) (h3 : e ≠ "yaml".toList) :
    listedName (a ++ '.' :: e) = none := by
  unfold listedName
  simp only [splitLast_append a hd, if_neg h1]
  rw [if_neg (fun h => h.elim h2 h3)]

/-- **C196** The stacks that are listed are those with a state file. -/
theorem localStacks_exact_partial {files : List File} (h : ∀ f ∈ files, Normal f.stack.toList) (s : String) :
    s.toList ∈ localStacks (files.map File.path) ↔ ∃ gz, File.state s gz ∈ files := by
  unfold localStacks
  rw [List.mem_filterMap]
  constructor
  · rintro ⟨k, hk, hs⟩
    obtain ⟨f, hf, rfl⟩ := List.mem_map.mp hk
    cases f with
    | state s' g =>
      rw [inDir_pos (dir := stacksDir) (h _ hf) rfl] at hs
      have : listedName (sbase s'.toList g) = some s.toList := hs
      rw [listed_state] at this
      have e : s' = s := String.toList_inj.mp (Option.some.inj this)
      subst e
      exact ⟨g, hf⟩
    | bak s' g =>
      rw [inDir_pos (dir := stacksDir) (h _ hf) rfl] at hs
      have : listedName (sbase s'.toList g ++ '.' :: "bak".toList) = some s.toList := hs
      rw [listed_other _ (by decide) (by decide +kernel) (by decide +kernel) (by decide +kernel)] at this
      cases this
    | retained s' g t =>
      rw [inDir_pos (dir := stacksDir) (h _ hf) rfl] at hs
      have : listedName (sbase s'.toList g ++ '.' :: digits t) = some s.toList := hs
      rw [listed_other _ (digits_not (by decide)) (digits_ne (by decide +kernel)) (digits_ne (by decide +kernel)) (digits_ne (by decide +kernel))] at this
      cases this
    | history s' t g => rw [inDir_neg (h _ hf) (fun e => stacks_ne (normal_slash (h _ hf)) (by decide +kernel) e.symm)] at hs; cases hs
    | checkpoint s' t g => rw [inDir_neg (h _ hf) (fun e => stacks_ne (normal_slash (h _ hf)) (by decide +kernel) e.symm)] at hs; cases hs
    | backup s' t g => rw [inDir_neg (h _ hf) (fun e => stacks_ne (normal_slash (h _ hf)) (by decide +kernel) e.symm)] at hs; cases hs
  · rintro ⟨g, hf⟩
    refine ⟨_, List.mem_map.mpr ⟨_, hf, rfl⟩, ?_⟩
    rw [inDir_pos (dir := stacksDir) (h _ hf) rfl]
    exact listed_state s.toList g

/-- **C196** The directory with the history of a stack has just the files of its history. -/
theorem historyDir_exact_partial {f : File} (hf : Normal f.stack.toList) {s : String} (hs : Normal s.toList) :
    (inDir (historyDir s.toList) f.path).isSome = f.inHistory s := by
  unfold historyDir
  rw [normal_join hs]
  have key : ∀ s' : String, Normal s'.toList → (".pulumi/history".toList ++ '/' :: s'.toList = ".pulumi/history".toList ++ '/' :: s.toList ↔ s' = s) := by
    intro s' hs'
    constructor
    · intro h; exact String.toList_inj.mp (split_inj (normal_slash hs') (normal_slash hs) h).2
    · rintro rfl; rfl
  cases f with
  | state | bak | retained => rw [inDir_neg hf (stacks_ne (normal_slash hs) (by decide +kernel))]; rfl
  | history s' t g =>
    by_cases e : s' = s
    · rw [inDir_pos hf ((key s' hf).mpr e)]; simp [File.inHistory, e]
    · rw [inDir_neg hf (fun h => e ((key s' hf).mp h))]; simp [File.inHistory, e]
  | checkpoint s' t g =>
    by_cases e : s' = s
    · rw [inDir_pos hf ((key s' hf).mpr e)]; simp [File.inHistory, e]
    · rw [inDir_neg hf (fun h => e ((key s' hf).mp h))]; simp [File.inHistory, e]
  | backup s' t g => rw [inDir_neg hf (dirs_ne (normal_slash hf) (normal_slash hs) (by decide +kernel))]; rfl

/-- **C196** The name that a file of the history gets when its stack is renamed is that of the same file of the new stack, even if names have
dashes. -/
theorem movedName_exact_partial {f f' : File} {old new : String} (ho : Normal old.toList) (h : f.moved old new = some f') :
    ∃ fn fn', inDir (historyDir old.toList) f.path = some fn ∧ movedName old.toList new.toList fn = some fn' ∧
      historyDir new.toList ++ '/' :: fn' = f'.path := by
  have notDash : ∀ (t : Nat) (k : Text) (g : Bool), '-' ∉ k → '-' ∉ digits t ++ k ++ gzExt g := by
    intro t k g hk
    simp only [List.mem_append, not_or]
    exact ⟨⟨digits_not (by decide), hk⟩, by cases g <;> decide⟩
  cases f with
  | history s t g =>
    simp only [File.moved] at h
    split at h
    · rename_i e
      subst e; cases h
      refine ⟨(File.history s t g).base, new.toList ++ '-' :: (digits t ++ ".history.json".toList ++ gzExt g), ?_, ?_, rfl⟩
      · exact inDir_pos (f := .history s t g) ho (normal_join ho _).symm
      · show movedName _ _ (s.toList ++ '-' :: (digits t ++ ".history.json".toList ++ gzExt g)) = _
        unfold movedName
        rw [splitLast_append _ (notDash _ _ _ (by decide))]
        simp only [if_true]
    · cases h
  | checkpoint s t g =>
    simp only [File.moved] at h
    split at h
    · rename_i e
      subst e; cases h
      refine ⟨(File.checkpoint s t g).base, new.toList ++ '-' :: (digits t ++ ".checkpoint.json".toList ++ gzExt g), ?_, ?_, rfl⟩
      · exact inDir_pos (f := .checkpoint s t g) ho (normal_join ho _).symm
      · show movedName _ _ (s.toList ++ '-' :: (digits t ++ ".checkpoint.json".toList ++ gzExt g)) = _
        unfold movedName
        rw [splitLast_append _ (notDash _ _ _ (by decide))]
        simp only [if_true]
    · cases h
  | state => cases h
  | bak => cases h
  | retained => cases h
  | backup => cases h

/-! ## Which state file is read -/

theorem lt_ext (a : Text) (c : Char) (b : Text) : a < a ++ c :: b := by
  induction a with
  | nil => exact List.Lex.nil
  | cons x a ih => exact List.Lex.cons ih

theorem not_lt_ext (a b : Text) : ¬ a ++ b < a := by
  induction a with
  | nil => intro h; cases h
  | cons x a ih =>
    intro h
    cases h with
    | rel h => exact absurd h (by simp)
    | cons h => exact ih h

/-- Of a listing in the order of names, in which files of other stacks may be, the compressed file is taken unless it is not there or the
plain one is newer. -/
theorem pickPath_exact (plain : Text) (l : List (Text × Nat)) (hs : l.Pairwise fun a b => a.1 < b.1) (p : Option Nat)
    (hp : p.isSome → ∀ x ∈ l, x.1 ≠ plain) :
    pickPath plain l p =
      match (p <|> l.lookup plain), l.lookup (plain ++ ".gz".toList) with
      | some tp, some tg => if tp > tg then plain else plain ++ ".gz".toList
      | none, some _ => plain ++ ".gz".toList
      | _, none => plain := by
  have hne : plain ≠ plain ++ ".gz".toList := fun h => by
    have := congrArg List.length h
    simp at this
  induction l generalizing p with
  | nil => cases p <;> rfl
  | cons x l ih =>
    obtain ⟨k, t⟩ := x
    have hs' := List.pairwise_cons.mp hs
    unfold pickPath
    by_cases h1 : k = plain
    · subst h1
      have hp0 : p = none := by
        cases p with
        | none => rfl
        | some q => exact absurd rfl (hp rfl _ List.mem_cons_self)
      subst hp0
      rw [if_pos rfl, ih hs'.2 (some t) (fun _ x hx e => absurd (hs'.1 x hx) (by
        show ¬ k < x.1
        rw [e]
        have := not_lt_ext k []
        rwa [List.append_nil] at this))]
      have e1 : List.lookup k ((k, t) :: l) = some t := by simp [List.lookup]
      have e2 : List.lookup (k ++ ".gz".toList) ((k, t) :: l) = l.lookup (k ++ ".gz".toList) := by
        have : ((k ++ ".gz".toList) == k) = false := by rw [beq_eq_false_iff_ne]; exact Ne.symm hne
        simp only [List.lookup, this]
      rw [e1, e2]
      rfl
    · rw [if_neg h1]
      have e1 : List.lookup plain ((k, t) :: l) = l.lookup plain := by
        have : (plain == k) = false := by rw [beq_eq_false_iff_ne]; exact Ne.symm h1
        simp only [List.lookup, this]
      by_cases h2 : k = plain ++ ".gz".toList
      · rw [if_pos h2, e1]
        have e2 : List.lookup (plain ++ ".gz".toList) ((k, t) :: l) = some t := by
          rw [h2]; simp [List.lookup]
        have e3 : l.lookup plain = none := by
          rw [List.lookup_eq_none_iff]
          intro x hx
          rw [bne_iff_ne]
          intro e
          have := hs'.1 x hx
          rw [← e] at this
          simp only [h2] at this
          exact not_lt_ext _ _ this
        rw [e2, e3]
        cases p <;> rfl
      · rw [if_neg h2, e1]
        have e2 : List.lookup (plain ++ ".gz".toList) ((k, t) :: l) = l.lookup (plain ++ ".gz".toList) := by
          have : ((plain ++ ".gz".toList) == k) = false := by rw [beq_eq_false_iff_ne]; exact Ne.symm h2
          simp only [List.lookup, this]
        rw [e2]
        exact ih hs'.2 p fun h x hx => hp h x (List.mem_cons_of_mem _ hx)

/-- **C196** Of a listing in the order of names, in which files of other stacks may be, the compressed file is read unless it is not there or the
plain one is newer. -/
theorem stackPath_picks (plain : Text) (l : List (Text × Nat)) (hs : l.Pairwise fun a b => a.1 < b.1) :
    pickPath plain l none =
      match l.lookup plain, l.lookup (plain ++ ".gz".toList) with
      | some tp, some tg => if tp > tg then plain else plain ++ ".gz".toList
      | none, some _ => plain ++ ".gz".toList
      | _, none => plain :=
  pickPath_exact plain l hs none fun h => by cases h

/-! ## Examples and findings -/

example : Normal "my-app.dev".toList := by decide +kernel
example : (File.state "dev" true).path = ".pulumi/stacks/dev.json.gz".toList := by decide +kernel
example : (File.history "my-dev" 12 false).path = ".pulumi/history/my-dev/my-dev-12.history.json".toList := by decide +kernel
example : localStacks [(File.state "dev.json" true).path, (File.bak "dev" false).path, (File.state "x" false).path] = ["dev.json".toList, "x".toList] := by
  decide +kernel
example : movedName "my-dev".toList "prod".toList "my-dev-12.history.json".toList = some "prod-12.history.json".toList := by decide +kernel
example : pickPath "d.json".toList [("d.json".toList, 3), ("d.json.bak".toList, 9), ("d.json.gz".toList, 2), ("d.json.json".toList, 1)] none = "d.json".toList := by
  decide +kernel
example : lockPath "dev".toList "a1".toList = ".pulumi/locks/dev/a1.json".toList := by decide +kernel

/-- **C196, finding** ".." and "." are valid names of stacks, but paths of their own: the files of such a stack are elsewhere and it is not listed. -/
theorem dots_not_listed : validName "..".toList = true ∧ validName ".".toList = true ∧
    (File.state ".." false).path = ".pulumi.json".toList ∧ (File.state "." false).path = ".pulumi/stacks.json".toList ∧
    localStacks [(File.state ".." false).path, (File.state "." false).path] = [] := by decide +kernel

/-- **C196, finding** The directory with the history of the stack "..", all files of which are deleted when it is removed, has the state file of the
stack "." in it; and so has the directory with its locks. -/
theorem dots_collide : (inDir (historyDir "..".toList) (File.state "." false).path).isSome = true ∧
    (inDir (lockDir "..".toList) (File.state "." false).path).isSome = true := by decide +kernel

/-- **C196, finding** A stack with a plain and a compressed state file is listed twice. -/
theorem listed_twice : localStacks [(File.state "dev" false).path, (File.state "dev" true).path] = ["dev".toList, "dev".toList] := by decide +kernel

end Pulumi.Filestate
