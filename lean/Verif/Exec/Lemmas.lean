import Verif.Exec.Spec
import Verif.Json.Lemmas

/-!
# Starting a program: lemmas
-/

namespace Pulumi.Exec

open Json (Text intText)

/-! ## What arguments are -/

theorem parseOptional_plain {a : Text} (h : Plain a) : parseOptional a = some .plain := by
  unfold parseOptional
  have h' : a.head? ≠ some '-' := h
  rw [if_pos h']

theorem plain_not_dashes {a : Text} (h : Plain a) : a ≠ "--".toList := by
  rintro rfl; exact h rfl

/-- The name of an option on the command line. -/
def flag : Opt → Text
  | .help => "--help".toList
  | .project => "--project".toList
  | .stack => "--stack".toList
  | .parallel => "--parallel".toList
  | .dryRun => "--dry_run".toList
  | .pwd => "--pwd".toList
  | .monitor => "--monitor".toList
  | .engine => "--engine".toList
  | .tracing => "--tracing".toList
  | .organization => "--organization".toList

theorem parseOptional_flag (o : Opt) : parseOptional (flag o) = some (.known o none) := by cases o <;> rfl

theorem flag_not_dashes (o : Opt) : flag o ≠ "--".toList := by cases o <;> decide

theorem tags_cons {a : Text} {t : Tag} (hd : a ≠ "--".toList) (h : parseOptional a = some t) (as : List Text) :
    tags (a :: as) = (tags as).map ((a, some t) :: ·) := by
  rw [tags, if_neg hd, h]
  cases tags as <;> rfl

theorem tags_none {a : Text} (hd : a ≠ "--".toList) (h : parseOptional a = none) (as : List Text) : tags (a :: as) = none := by
  rw [tags, if_neg hd, h]

/-- An argument that is a plain one. -/
def ArgLike (a : Text) : Prop := a ≠ "--".toList ∧ parseOptional a = some .plain

theorem Plain.argLike {a : Text} (h : Plain a) : ArgLike a := ⟨plain_not_dashes h, parseOptional_plain h⟩

theorem tags_args (as bs : List Text) (h : ∀ a ∈ as, ArgLike a) :
    tags (as ++ bs) = (tags bs).map ((as.map fun a => (a, some Tag.plain)) ++ ·) := by
  induction as with
  | nil => simp
  | cons a as ih =>
    rw [List.cons_append, tags_cons (h a (by simp)).1 (h a (by simp)).2, ih (fun x hx => h x (List.mem_cons_of_mem _ hx))]
    cases tags bs <;> simp

/-- Options with their values, on the command line. -/
def words (ps : List (Opt × Text)) : List Text := ps.flatMap fun p => [flag p.1, p.2]

def wordTags (ps : List (Opt × Text)) : List (Text × Option Tag) :=
  ps.flatMap fun p => [(flag p.1, some (.known p.1 none)), (p.2, some .plain)]

theorem tags_words (ps : List (Opt × Text)) (bs : List Text) (h : ∀ p ∈ ps, ArgLike p.2) :
    tags (words ps ++ bs) = (tags bs).map (wordTags ps ++ ·) := by
  induction ps with
  | nil => simp [words, wordTags]
  | cons p ps ih =>
    have hp := h p (by simp)
    have e : words (p :: ps) ++ bs = flag p.1 :: p.2 :: (words ps ++ bs) := by simp [words]
    rw [e, tags_cons (flag_not_dashes _) (parseOptional_flag _), tags_cons hp.1 hp.2,
      ih (fun x hx => h x (List.mem_cons_of_mem _ hx))]
    cases tags bs <;> simp [wordTags]

def setAll (n : Namespace) (ps : List (Opt × Text)) : Namespace := ps.foldl (fun n p => n.set p.1 p.2) n

theorem consume_pair (n : Namespace) (o : Opt) (a v : Text) (ts : List (Text × Option Tag)) (ho : o ≠ .help) :
    consume n ((a, some (.known o none)) :: (v, some .plain) :: ts) = consume (n.set o v) ts := by
  rw [consume.eq_def]
  cases o <;> first | rfl | exact absurd rfl ho

theorem consume_missing (n : Namespace) (o : Opt) (a : Text) (ts : List (Text × Option Tag)) (ho : o ≠ .help)
    (h : ∀ v r, ts ≠ (v, some .plain) :: r) : consume n ((a, some (.known o none)) :: ts) = .error := by
  rw [consume.eq_def]
  cases o <;> first
    | exact absurd rfl ho
    | (simp only; done)
    | (simp only; split <;> simp_all)

theorem consume_words (n : Namespace) (ps : List (Opt × Text)) (ts : List (Text × Option Tag))
    (h : ∀ p ∈ ps, p.1 ≠ .help) : consume n (wordTags ps ++ ts) = consume (setAll n ps) ts := by
  induction ps generalizing n with
  | nil => rfl
  | cons p ps ih =>
    have e : wordTags (p :: ps) ++ ts = (flag p.1, some (.known p.1 none)) :: (p.2, some .plain) :: (wordTags ps ++ ts) := by
      simp [wordTags]
    rw [e, consume_pair _ _ _ _ _ (h p (by simp)), ih _ (fun x hx => h x (List.mem_cons_of_mem _ hx))]
    rfl

/-! ## The host's arguments -/

def maybeP (o : Opt) (v : Text) : List (Opt × Text) := if v = [] then [] else [(o, v)]

/-- The options that the host writes. -/
def pairs (r : Request) : List (Opt × Text) :=
  maybeP .monitor r.monitor ++ maybeP .engine r.engine ++ maybeP .project r.project ++ maybeP .stack r.stack ++
  maybeP .pwd r.pwd ++ maybeP .dryRun (if r.dryRun then "true".toList else "false".toList) ++
  maybeP .parallel (intText r.parallel) ++ maybeP .tracing r.tracing ++ maybeP .organization r.organization

theorem words_append (a b : List (Opt × Text)) : words (a ++ b) = words a ++ words b := by simp [words]

theorem maybe_words (o : Opt) (k : String) (v : Text) (h : ("--" ++ k).toList = flag o) : maybe k v = words (maybeP o v) := by
  unfold maybe maybeP
  by_cases e : v = [] <;> simp [e, words, ← h]

/-- The program that the host names. -/
def progOf (r : Request) : Text := if r.program = [] then ".".toList else r.program

theorem constructArguments_eq (r : Request) : constructArguments r = words (pairs r) ++ progOf r :: r.args := by
  unfold constructArguments pairs progOf
  rw [maybe_words .monitor "monitor" _ rfl, maybe_words .engine "engine" _ rfl, maybe_words .project "project" _ rfl,
    maybe_words .stack "stack" _ rfl, maybe_words .pwd "pwd" _ rfl, maybe_words .dryRun "dry_run" _ rfl,
    maybe_words .parallel "parallel" _ rfl, maybe_words .tracing "tracing" _ rfl,
    maybe_words .organization "organization" _ rfl]
  simp [words_append]

theorem setAll_append (n : Namespace) (a b : List (Opt × Text)) : setAll n (a ++ b) = setAll (setAll n a) b := by
  simp [setAll]

theorem setAll_maybe (n : Namespace) (o p : Opt) (v : Text) :
    (setAll n (maybeP o v)).opts p = if p = o ∧ v ≠ [] then some v else n.opts p := by
  unfold maybeP
  by_cases e : v = []
  · simp [e, setAll]
  · by_cases h : p = o <;> simp [e, h, setAll, Namespace.set]

theorem setAll_rest (n : Namespace) (ps : List (Opt × Text)) :
    (setAll n ps).program = n.program ∧ (setAll n ps).args = n.args ∧ (setAll n ps).extras = n.extras := by
  induction ps generalizing n with
  | nil => exact ⟨rfl, rfl, rfl⟩
  | cons p ps ih => have := ih (n.set p.1 p.2); simpa [setAll, Namespace.set] using this

theorem intText_ne (n : Int) : intText n ≠ [] := by
  cases n with
  | ofNat n => exact Json.natText_ne n
  | negSucc n => simp [intText]

/-! ## One dash -/

theorem lookup_short (c : Char) (t : Text) (h1 : c ≠ '-') (h2 : c ≠ 'h') : table.lookup ('-' :: c :: t) = none := by
  simp [table, List.lookup, h1, h2, beq_eq_false_iff_ne.2]

theorem optionTuples_short (c : Char) (t : Text) (h1 : c ≠ '-') (h2 : c ≠ 'h') : optionTuples ('-' :: c :: t) = [] := by
  have h1' := Ne.symm h1
  have h2' := Ne.symm h2
  simp [optionTuples, table, h1, h1', h2', h2]

theorem explicit_short (c : Char) (t : Text) (h1 : c ≠ '-') (h2 : c ≠ 'h') : explicitOption ('-' :: c :: t) = none := by
  unfold explicitOption
  have e : (partition ('-' :: c :: t)).2 = none ∨
      (partition ('-' :: c :: t)).1 = ['-'] ∨ ∃ u, (partition ('-' :: c :: t)).1 = '-' :: c :: u := by
    unfold partition
    by_cases hc : c = '='
    · subst hc; right; left; simp
    · split
      · left; rfl
      · right; right; exact ⟨t.takeWhile (· ≠ '='), by simp [hc]⟩
  split
  · next k v heq =>
    rw [heq] at e
    rcases e with e | e | ⟨u, e⟩
    · cases e
    · simp only at e; subst e; rfl
    · simp only at e; subst e; rw [lookup_short c u h1 h2]; rfl
  · rfl

theorem parseOptional_short (c : Char) (t : Text) (h1 : c ≠ '-') (h2 : c ≠ 'h') :
    parseOptional ('-' :: c :: t) =
      if negativeNumber ('-' :: c :: t) then some .plain
      else if List.contains ('-' :: c :: t) ' ' then some .plain else some .unknown := by
  unfold parseOptional
  rw [if_neg (by simp), lookup_short c t h1 h2]
  simp only
  rw [if_neg (by simp), explicit_short c t h1 h2]
  simp only
  rw [optionTuples_short c t h1 h2]

theorem intText_argLike (n : Int) : ArgLike (intText n) := by
  cases n with
  | ofNat n =>
    refine Plain.argLike ?_
    show (Json.natText n).head? ≠ some '-'
    intro h
    have hm : '-' ∈ Json.natText n := List.mem_of_mem_head? (by rw [h]; rfl)
    have := Json.natText_digits n _ hm
    revert this; decide
  | negSucc n =>
    have hd := Json.natText_digits (n + 1)
    have hne := Json.natText_ne (n + 1)
    have e : intText (.negSucc n) = '-' :: Json.natText (n + 1) := rfl
    generalize Json.natText (n + 1) = w at *
    cases w with
    | nil => exact absurd rfl hne
    | cons c t =>
      have hc := hd c (by simp)
      have h1 : c ≠ '-' := by rintro rfl; revert hc; decide
      have h2 : c ≠ 'h' := by rintro rfl; revert hc; decide
      rw [e]
      refine ⟨fun h => h1 ?_, ?_⟩
      · have : '-' :: c :: t = ['-', '-'] := h
        simp at this; exact this.1
      · rw [parseOptional_short c t h1 h2, if_pos]
        have : (c :: t).all isDigit = true := List.all_eq_true.2 hd
        simp only [negativeNumber, this]; rfl

theorem pairs_argLike (r : Request) (h : ∀ v ∈ r.names, ArgLike v) : ∀ p ∈ pairs r, ArgLike p.2 := by
  have hm : ∀ (o : Opt) (v : Text), ArgLike v → ∀ p ∈ maybeP o v, ArgLike p.2 := by
    intro o v hv p hp
    unfold maybeP at hp
    split at hp
    · cases hp
    · simp at hp; subst hp; exact hv
  simp only [Request.names, List.mem_cons, List.not_mem_nil, or_false] at h
  intro p hp
  simp only [pairs, List.mem_append] at hp
  rcases hp with (((((((hp | hp) | hp) | hp) | hp) | hp) | hp) | hp) | hp
  · exact hm _ _ (h _ (by simp)) _ hp
  · exact hm _ _ (h _ (by simp)) _ hp
  · exact hm _ _ (h _ (by simp)) _ hp
  · exact hm _ _ (h _ (by simp)) _ hp
  · exact hm _ _ (h _ (by simp)) _ hp
  · exact hm _ _ (Plain.argLike (by split <;> (intro h; revert h; decide))) _ hp
  · exact hm _ _ (intText_argLike _) _ hp
  · exact hm _ _ (h _ (by simp)) _ hp
  · exact hm _ _ (h _ (by simp)) _ hp

theorem pairs_not_help (r : Request) : ∀ p ∈ pairs r, p.1 ≠ .help := by
  have hm : ∀ (o : Opt) (v : Text), o ≠ .help → ∀ p ∈ maybeP o v, p.1 ≠ .help := by
    intro o v ho p hp
    unfold maybeP at hp
    split at hp
    · cases hp
    · simp at hp; subst hp; exact ho
  intro p hp
  simp only [pairs, List.mem_append] at hp
  rcases hp with (((((((hp | hp) | hp) | hp) | hp) | hp) | hp) | hp) | hp <;> exact hm _ _ (by decide) _ hp

theorem opts_pairs (r : Request) : (setAll {} (pairs r)).opts =
    fun
      | .help => none
      | .project => given r.project
      | .stack => given r.stack
      | .parallel => some (intText r.parallel)
      | .dryRun => some (if r.dryRun then "true".toList else "false".toList)
      | .pwd => given r.pwd
      | .monitor => given r.monitor
      | .engine => given r.engine
      | .tracing => given r.tracing
      | .organization => given r.organization := by
  funext o
  simp only [pairs, setAll_append, setAll_maybe]
  cases o <;> simp [given, intText_ne] <;> split <;> simp_all

/-- What the executor does once the parser is through. -/
def conclude (int : Text → Option Int) : Outcome → Begin
  | .error => .exits 2
  | .help => .exits 0
  | .parsed n =>
    match n.program, (n.opts .parallel).bind int with
    | some p, some k =>
      .runs
        { monitor := n.opts .monitor
          engine := n.opts .engine
          project := n.opts .project
          stack := n.opts .stack
          parallel := k
          dryRun := n.opts .dryRun = some "true".toList
          organization := n.opts .organization
          pwd := n.opts .pwd
          argv := p :: n.args }
    | _, _ => .exits 1

theorem start_eq (int : Text → Option Int) (argv : List Text) : start int argv = conclude int (parseArgs argv) := by
  unfold start conclude
  cases parseArgs argv <;> rfl

theorem progOf_argLike (r : Request) (h : ArgLike r.program) : ArgLike (progOf r) := by
  unfold progOf
  split
  · exact Plain.argLike (by decide)
  · exact h

/-- From the request to the program and its arguments. -/
theorem parseArgs_request (r : Request) (h : ∀ v ∈ r.names, ArgLike v) (ts : List (Text × Option Tag))
    (ht : tags r.args = some ts) :
    parseArgs (constructArguments r) = consume (setAll {} (pairs r)) ((progOf r, some .plain) :: ts) := by
  have hp := progOf_argLike r (h r.program (by simp [Request.names]))
  unfold parseArgs
  rw [constructArguments_eq, tags_words _ _ (pairs_argLike r h), tags_cons hp.1 hp.2, ht]
  exact consume_words _ _ _ (pairs_not_help r)

theorem consume_chunk (n : Namespace) (x : Text × Option Tag) (hx : isPositional x.2 = true) (ts : List (Text × Option Tag)) :
    consume n (x :: ts) =
      consume (positionals n (x :: ts.takeWhile fun y => isPositional y.2)) (ts.dropWhile fun y => isPositional y.2) := by
  obtain ⟨a, t⟩ := x
  match t, hx with
  | none, _ => rw [consume] <;> (intros; simp_all)
  | some .plain, _ => rw [consume] <;> (intros; simp_all)

end Pulumi.Exec
