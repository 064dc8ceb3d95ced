import Verif.Exec.Lemmas
import Verif.Inline.Model

/-!
# Starting a program: theorems
-/

namespace Pulumi.Exec

open Json (Text intText)

/-! ## Helpers -/

theorem names_argLike {r : Request} (h : ∀ v ∈ r.names, Plain v) : ∀ v ∈ r.names, ArgLike v := fun v hv => (h v hv).argLike

theorem takeWhile_plain (as : List Text) (y : Text × Option Tag) (ys : List (Text × Option Tag)) (hy : isPositional y.2 = false) :
    ((as.map fun a => (a, some Tag.plain)) ++ y :: ys).takeWhile (fun z => isPositional z.2) =
      as.map fun a => (a, some Tag.plain) := by
  induction as with
  | nil => simp [hy]
  | cons a as ih => simp only [List.map_cons, List.cons_append, List.takeWhile_cons, ih]; rfl

theorem dropWhile_plain (as : List Text) (y : Text × Option Tag) (ys : List (Text × Option Tag)) (hy : isPositional y.2 = false) :
    ((as.map fun a => (a, some Tag.plain)) ++ y :: ys).dropWhile (fun z => isPositional z.2) = y :: ys := by
  induction as with
  | nil => simp [hy]
  | cons a as ih => simp only [List.map_cons, List.cons_append, List.dropWhile_cons, ih]; rfl

theorem takeWhile_all (ts : List (Text × Option Tag)) (h : ∀ y ∈ ts, isPositional y.2 = true) :
    ts.takeWhile (fun z => isPositional z.2) = ts ∧ ts.dropWhile (fun z => isPositional z.2) = [] := by
  induction ts with
  | nil => exact ⟨rfl, rfl⟩
  | cons a as ih =>
    have := ih (fun y hy => h y (List.mem_cons_of_mem _ hy))
    simp [h a (by simp), this]

theorem erase_plain (as : List Text) (h : ∀ a ∈ as, Plain a) : as.erase "--".toList = as :=
  List.erase_of_not_mem fun hm => plain_not_dashes (h _ hm) rfl

theorem positionals_plain (n : Namespace) (hn : n.program = none) (p : Text) (as : List Text) (h : ∀ a ∈ as, Plain a) :
    positionals n ((p, some .plain) :: as.map fun a => (a, some Tag.plain)) = { n with program := some p, args := as } := by
  unfold positionals
  rw [hn]
  cases as with
  | nil => rfl
  | cons a as =>
    have := erase_plain (a :: as) h
    simp [Function.comp_def] at this ⊢
    exact this

theorem tags_plain (as : List Text) (h : ∀ a ∈ as, Plain a) : tags as = some (as.map fun a => (a, some Tag.plain)) := by
  have := tags_args as [] (fun a ha => (h a ha).argLike)
  simpa [tags] using this

theorem conclude_asked (int : Text → Option Int) (hint : ReadsInts int) (r : Request) (args : List Text) (n : Namespace)
    (ho : n.opts = (setAll {} (pairs r)).opts) (hp : n.program = some (progOf r)) (ha : n.args = args) :
    conclude int (.parsed n) = .runs (r.asked args) := by
  have e : (if r.program = [] then ".".toList else r.program) = (given r.program).getD ".".toList := by
    unfold given; split <;> rfl
  simp only [conclude]
  rw [hp, ho, opts_pairs]
  simp only [Option.bind_some, hint r.parallel]
  unfold Request.asked
  rw [ha, progOf, e]
  congr 2
  cases r.dryRun <;> simp

/-- The program and its plain arguments come before whatever is not plain. -/
theorem parse_upto (r : Request) (h : ∀ v ∈ r.names, Plain v) (as : List Text) (has : ∀ a ∈ as, Plain a)
    (u : Text) (hu : u ≠ "--".toList) (t : Tag) (htag : parseOptional u = some t) (ht : isPositional (some t) = false)
    (bs : List Text) (ts : List (Text × Option Tag)) (hb : tags bs = some ts) (hr : r.args = as ++ u :: bs) :
    parseArgs (constructArguments r) =
      consume { setAll {} (pairs r) with program := some (progOf r), args := as } ((u, some t) :: ts) := by
  have ht' : tags r.args = some ((as.map fun a => (a, some Tag.plain)) ++ (u, some t) :: ts) := by
    rw [hr, tags_args _ _ (fun a ha => (has a ha).argLike), tags_cons hu htag, hb]; rfl
  rw [parseArgs_request r (names_argLike h) _ ht', consume_chunk _ _ rfl, takeWhile_plain _ _ _ ht, dropWhile_plain _ _ _ ht,
    positionals_plain _ (setAll_rest _ _).1 _ _ has]

/-! ## The properties -/

/-- C120 (what holds): if nothing in a request begins with a dash, the program is run with exactly what the request asks for. -/
theorem request_runs_partial (int : Text → Option Int) (hint : ReadsInts int) (r : Request) (h : ∀ v ∈ r.names, Plain v)
    (hargs : ∀ a ∈ r.args, Plain a) : start int (constructArguments r) = .runs (r.asked r.args) := by
  rw [start_eq, parseArgs_request r (names_argLike h) _ (tags_plain _ hargs), consume_chunk _ _ rfl]
  obtain ⟨h1, h2⟩ := takeWhile_all (r.args.map fun a => (a, some Tag.plain)) (by
    intro y hy; obtain ⟨a, _, rfl⟩ := List.mem_map.1 hy; rfl)
  rw [h1, h2, positionals_plain _ (setAll_rest _ _).1 _ _ hargs, consume, finish, (setAll_rest {} (pairs r)).2.2]
  exact conclude_asked int hint r r.args _ rfl rfl rfl

/-- C120: arguments of any kind reach the program if the request puts two `--` before them. -/
theorem two_dashes (int : Text → Option Int) (hint : ReadsInts int) (r : Request) (h : ∀ v ∈ r.names, Plain v)
    (bs : List Text) (hr : r.args = "--".toList :: "--".toList :: bs) :
    start int (constructArguments r) = .runs (r.asked bs) := by
  have ht : tags r.args = some (("--".toList, none) :: ("--".toList, some .plain) :: bs.map fun a => (a, some Tag.plain)) := by
    rw [hr, tags, if_pos rfl]; rfl
  rw [start_eq, parseArgs_request r (names_argLike h) _ ht, consume_chunk _ _ rfl]
  obtain ⟨h1, h2⟩ := takeWhile_all
    (("--".toList, none) :: ("--".toList, some .plain) :: bs.map fun a => (a, some Tag.plain)) (by
      intro y hy
      simp only [List.mem_cons, List.mem_map] at hy
      rcases hy with rfl | rfl | ⟨a, _, rfl⟩ <;> rfl)
  have hprog := (setAll_rest {} (pairs r)).1
  have hex := (setAll_rest {} (pairs r)).2.2
  rw [h1, h2, consume, finish]
  unfold positionals
  rw [hprog]
  simp only [Option.isSome_none, Bool.false_eq_true, if_false, hex]
  refine conclude_asked int hint r bs _ rfl rfl ?_
  simp [Function.comp_def]

/-- C120, the code's failing: with one `--` the program gets the rest as it is only if something precedes the `--`; otherwise
a second `--` is lost too. -/
theorem one_dashes (int : Text → Option Int) (hint : ReadsInts int) (r : Request) (h : ∀ v ∈ r.names, Plain v)
    (as bs : List Text) (has : ∀ a ∈ as, Plain a) (hr : r.args = as ++ "--".toList :: bs) :
    start int (constructArguments r) = .runs (r.asked (as ++ if as = [] then bs.erase "--".toList else bs)) := by
  have ht : tags r.args = some ((as.map fun a => (a, some Tag.plain)) ++ ("--".toList, none) ::
      bs.map fun a => (a, some Tag.plain)) := by
    rw [hr, tags_args _ _ (fun a ha => (has a ha).argLike), tags, if_pos rfl]; rfl
  rw [start_eq, parseArgs_request r (names_argLike h) _ ht, consume_chunk _ _ rfl]
  obtain ⟨h1, h2⟩ := takeWhile_all
    ((as.map fun a => (a, some Tag.plain)) ++ ("--".toList, none) :: bs.map fun a => (a, some Tag.plain)) (by
      intro y hy
      simp only [List.mem_cons, List.mem_map, List.mem_append] at hy
      rcases hy with ⟨a, _, rfl⟩ | rfl | ⟨a, _, rfl⟩ <;> rfl)
  have hprog := (setAll_rest {} (pairs r)).1
  have hex := (setAll_rest {} (pairs r)).2.2
  rw [h1, h2, consume, finish]
  unfold positionals
  rw [hprog]
  simp only [Option.isSome_none, Bool.false_eq_true, if_false]
  cases as with
  | nil =>
    simp only [List.map_nil, List.nil_append, hex]
    refine conclude_asked int hint r _ _ rfl rfl ?_
    simp [Function.comp_def]
  | cons a as =>
    simp only [List.map_cons, List.cons_append, hex]
    refine conclude_asked int hint r _ _ rfl rfl ?_
    have hn : "--".toList ∉ a :: as := fun hm => plain_not_dashes (has _ hm) rfl
    have : ((a :: as) ++ "--".toList :: bs).erase "--".toList = (a :: as) ++ bs := by
      rw [List.erase_append_right _ hn]; simp
    simpa [Function.comp_def] using this

/-- C120, the code's failing: an argument of the program that is the name of one of the executor's options is taken by the
executor, and replaces what the request says: with `--stack s` after the program's own arguments, the program runs for the
stack `s`, and does not see the two arguments. -/
theorem stack_overridden (int : Text → Option Int) (hint : ReadsInts int) (r : Request) (h : ∀ v ∈ r.names, Plain v)
    (as : List Text) (has : ∀ a ∈ as, Plain a) (s : Text) (hs : Plain s) (hr : r.args = as ++ ["--stack".toList, s]) :
    start int (constructArguments r) = .runs { r.asked as with stack := some s } := by
  have hb : tags [s] = some [(s, some .plain)] := tags_plain [s] (by simpa using hs)
  rw [start_eq, parse_upto r h as has "--stack".toList (by decide) (.known .stack none) rfl rfl [s] _ hb hr,
    consume_pair _ _ _ _ _ (by decide), consume, finish]
  simp only [Namespace.set, (setAll_rest {} (pairs r)).2.2, Option.isNone_some, Bool.or_self, Bool.false_eq_true, if_false]
  unfold conclude
  simp only [opts_pairs, reduceCtorEq, if_false, if_true, Option.bind_some, hint r.parallel]
  have e : progOf r = (given r.program).getD ".".toList := by
    unfold progOf given; split <;> rfl
  unfold Request.asked
  rw [e]
  congr 2
  cases r.dryRun <;> simp

/-- C120, the code's failing: with `-h` among the arguments of the program, the program does not run, and the engine is told
that it has run to its end. -/
theorem help_reports_success (int : Text → Option Int) (exit : Started → Nat) (r : Request) (h : ∀ v ∈ r.names, Plain v)
    (as bs : List Text) (has : ∀ a ∈ as, Plain a) (hbs : ∀ b ∈ bs, Plain b) (hr : r.args = as ++ "-h".toList :: bs) :
    start int (constructArguments r) = .exits 0 ∧ hostRun int exit r = .success := by
  have : start int (constructArguments r) = .exits 0 := by
    rw [start_eq, parse_upto r h as has "-h".toList (by decide) (.known .help none) rfl rfl bs _ (tags_plain _ hbs) hr, consume]
    rfl
  refine ⟨this, ?_⟩
  unfold hostRun
  rw [this]; rfl

/-- C120, the code's failing: with an argument that begins with one dash, is no number, and has no blank, the program does not
run; the engine is told that it failed. -/
theorem dash_argument_refused (int : Text → Option Int) (exit : Started → Nat) (r : Request) (h : ∀ v ∈ r.names, Plain v)
    (as bs : List Text) (has : ∀ a ∈ as, Plain a) (hbs : ∀ b ∈ bs, Plain b) (c : Char) (t : Text) (hc : c ≠ '-') (hh : c ≠ 'h')
    (hnum : negativeNumber ('-' :: c :: t) = false) (hsp : ' ' ∉ c :: t) (hr : r.args = as ++ ('-' :: c :: t) :: bs) :
    start int (constructArguments r) = .exits 2 ∧ hostRun int exit r = .failed 2 := by
  have hp : parseOptional ('-' :: c :: t) = some .unknown := by
    have hs : List.contains ('-' :: c :: t) ' ' = false := by
      simpa [List.contains_eq_mem] using hsp
    rw [parseOptional_short c t hc hh, hnum, hs]; rfl
  have hd : ('-' :: c :: t) ≠ "--".toList := by
    intro e
    have : '-' :: c :: t = ['-', '-'] := e
    simp at this; exact hc this.1
  have : start int (constructArguments r) = .exits 2 := by
    rw [start_eq, parse_upto r h as has _ hd .unknown hp rfl bs _ (tags_plain _ hbs) hr, consume]
    cases bs with
    | nil =>
      rw [List.map_nil, consume, finish]
      simp [conclude]
    | cons b bs =>
      rw [List.map_cons, consume_chunk _ _ rfl]
      obtain ⟨h1, h2⟩ := takeWhile_all (bs.map fun a => (a, some Tag.plain)) (by
        intro y hy; obtain ⟨a, _, rfl⟩ := List.mem_map.1 hy; rfl)
      rw [h1, h2, consume, finish]
      unfold positionals
      simp [conclude]
  refine ⟨this, ?_⟩
  unfold hostRun
  rw [this]; rfl

/-- C120, the code's failing: for a stack whose name begins with a dash, is no number, and has no blank, programs do not run at
all. Pulumi allows such names. -/
theorem dash_stack_refused (int : Text → Option Int) (r : Request) (hm : Plain r.monitor) (he : Plain r.engine)
    (hp : Plain r.project) (c : Char) (t : Text) (hs : r.stack = '-' :: c :: t)
    (hnum : negativeNumber r.stack = false) (hsp : ' ' ∉ r.stack) :
    start int (constructArguments r) = .exits 2 := by
  let pre := maybeP .monitor r.monitor ++ maybeP .engine r.engine ++ maybeP .project r.project
  have hne : r.stack ≠ [] := by rw [hs]; simp
  obtain ⟨rest, hrest⟩ : ∃ rest, constructArguments r = words pre ++ flag .stack :: r.stack :: rest := by
    rw [constructArguments_eq]
    refine ⟨words (maybeP .pwd r.pwd ++ maybeP .dryRun (if r.dryRun then "true".toList else "false".toList) ++
      maybeP .parallel (intText r.parallel) ++ maybeP .tracing r.tracing ++ maybeP .organization r.organization) ++
      progOf r :: r.args, ?_⟩
    have : maybeP .stack r.stack = [(.stack, r.stack)] := by rw [maybeP, if_neg hne]
    simp [pairs, pre, words_append, this, words]
  have hpre : ∀ p ∈ pre, ArgLike p.2 ∧ p.1 ≠ .help := by
    have hg : ∀ (o : Opt) (v : Text), o ≠ .help → Plain v → ∀ p ∈ maybeP o v, ArgLike p.2 ∧ p.1 ≠ .help := by
      intro o v ho hv p hp
      unfold maybeP at hp
      split at hp
      · cases hp
      · simp at hp; subst hp; exact ⟨hv.argLike, ho⟩
    intro p hp'
    simp only [pre, List.mem_append] at hp'
    rcases hp' with (hp' | hp') | hp'
    · exact hg _ _ (by decide) hm _ hp'
    · exact hg _ _ (by decide) he _ hp'
    · exact hg _ _ (by decide) hp _ hp'
  have hplain : parseOptional r.stack ≠ some .plain := by
    have hhead : r.stack.head? = some '-' := by rw [hs]; rfl
    have hlen : r.stack.length ≠ 1 := by rw [hs]; simp
    have hc : r.stack.contains ' ' = false := by simpa [List.contains_eq_mem] using hsp
    unfold parseOptional
    rw [if_neg (by simp [hhead])]
    split
    · simp
    · rw [if_neg hlen]
      split
      · simp
      · split
        · simp
        · simp
        · rw [hnum, hc]; simp
  rw [start_eq, parseArgs, hrest, tags_words _ _ (fun p hp => (hpre p hp).1)]
  have key : ∀ ts, tags (flag .stack :: r.stack :: rest) = some ts →
      ∃ x ts', ts = (flag .stack, some (.known .stack none)) :: x :: ts' ∧ x.2 ≠ some .plain := by
    intro ts
    rw [tags_cons (flag_not_dashes _) (parseOptional_flag _)]
    by_cases hd : r.stack = "--".toList
    · rw [tags, if_pos hd]
      intro e
      simp only [Option.map_some, Option.some.injEq] at e
      exact ⟨_, _, e.symm, by simp⟩
    · cases hq : parseOptional r.stack with
      | none => rw [tags_none hd hq]; simp
      | some q =>
        rw [tags_cons hd hq]
        cases tags rest with
        | none => simp
        | some zs =>
          intro e
          simp only [Option.map_some, Option.some.injEq] at e
          exact ⟨_, _, e.symm, fun h => hplain (by rw [hq]; simpa using h)⟩
  cases htg : tags (flag .stack :: r.stack :: rest) with
  | none => rfl
  | some ts =>
    obtain ⟨x, ts', rfl, hx⟩ := key ts htg
    simp only [Option.map_some]
    rw [consume_words _ _ _ (fun p hp => (hpre p hp).2), consume_missing _ _ _ _ (by decide)]
    · rfl
    · intro v r' e
      simp only [List.cons.injEq] at e
      exact hx (by rw [e.1])

/-- C120: the engine is told that a program has run to its end only if the executor ends with code 0. -/
theorem success_iff (int : Text → Option Int) (exit : Started → Nat) (r : Request) :
    hostRun int exit r = .success ↔
      (start int (constructArguments r) = .exits 0 ∨ ∃ s, start int (constructArguments r) = .runs s ∧ exit s = 0) := by
  have hr : ∀ c, respond c = .success ↔ c = 0 := by
    intro c; unfold respond
    by_cases h : c = 0
    · simp [h]
    · by_cases h2 : c = 32 <;> simp [h, h2]
  unfold hostRun
  cases hst : start int (constructArguments r) with
  | runs s => simp [hr]
  | exits c => simp [hr]

/-- C120: of a program that ran, the engine is told that it succeeded exactly if it returned, and that the user has seen a
message exactly if it raised something other than a `RunError` (for `SystemExit`, the program chooses the code). -/
theorem told_of_end (e : Inline.Ended) (n : Nat) (h : Inline.exitCode e = some n) :
    (respond n = .success ↔ e = .returned) ∧
    (respond n = .bail ↔ ∃ x, e = .raised x ∧ ∀ m, x ≠ .run m) := by
  cases e with
  | returned => simp only [Inline.exitCode, Option.some.injEq] at h; subst h; simp [respond]
  | raised x =>
    cases x <;> simp only [Inline.exitCode, Option.some.injEq, reduceCtorEq] at h <;> subst h <;> simp [respond]

example : Inline.exitCode (.raised (.other "ValueError")) = some 32 ∧ respond 32 = .bail := ⟨rfl, rfl⟩

/-! ## Examples -/

/-- A concrete reader of numbers. -/
def readInt (t : Text) : Option Int :=
  match t with
  | '-' :: w => (Json.readNat w).map fun n => -(n : Int)
  | w => (Json.readNat w).map Int.ofNat

theorem readInt_reads : ReadsInts readInt := by
  intro n
  cases n with
  | ofNat n =>
    have hne : ∀ w, Json.natText n ≠ '-' :: w := by
      intro w e
      have := Json.natText_digits n '-' (by rw [e]; simp)
      revert this; decide
    show readInt (Json.natText n) = _
    unfold readInt
    split
    · next w e => exact absurd e (hne w)
    · rw [Json.readNat_natText]; rfl
  | negSucc n =>
    show readInt ('-' :: Json.natText (n + 1)) = _
    unfold readInt
    simp only [Json.readNat_natText]
    rfl

def exampleRequest : Request where
  monitor := "127.0.0.1:1".toList
  engine := "127.0.0.1:2".toList
  project := "website".toList
  stack := "dev".toList
  pwd := "/home/me/website".toList
  dryRun := true
  parallel := -1
  tracing := []
  organization := "acme".toList
  program := []
  args := ["a".toList, "".toList]

example : (∀ v ∈ exampleRequest.names, Plain v) ∧ (∀ a ∈ exampleRequest.args, Plain a) := by decide

example : (exampleRequest.asked exampleRequest.args).argv = [".".toList, "a".toList, "".toList] ∧
    (exampleRequest.asked exampleRequest.args).parallel = -1 := ⟨rfl, rfl⟩

example : ∀ b : Started → Nat, hostRun readInt b { exampleRequest with args := ["plan".toList, "-h".toList] } = .success :=
  fun b => (help_reports_success readInt b _ (by decide) ["plan".toList] [] (by decide) (by simp) rfl).2

example : start readInt (constructArguments { exampleRequest with stack := "-dev".toList }) = .exits 2 :=
  dash_stack_refused readInt _ (by decide) (by decide) (by decide) 'd' "ev".toList rfl (by decide) (by decide)

example : start readInt (constructArguments { exampleRequest with args := ["--stack".toList, "prod".toList] }) =
    .runs { exampleRequest.asked [] with stack := some "prod".toList } :=
  stack_overridden readInt readInt_reads { exampleRequest with args := ["--stack".toList, "prod".toList] } (by decide) [] (by simp)
    "prod".toList (by decide) rfl

end Pulumi.Exec
