import Verif.Cli.Spec

/-! # Lemmas on argument lists -/

namespace Pulumi.Cli

/-! ## Names of flags -/

/-- A text that is the name of a flag. -/
def NameOk (n : Text) : Prop := n ≠ [] ∧ n.head? ≠ some '-' ∧ '=' ∉ n

instance (n : Text) : Decidable (NameOk n) := by unfold NameOk; infer_instance

theorem splitEq_none (n : Text) (h : '=' ∉ n) : splitEq n = (n, none) := by
  induction n with
  | nil => rfl
  | cons c r ih =>
    have hc : c ≠ '=' := fun e => h (by simp [e])
    have hr : '=' ∉ r := fun e => h (by simp [e])
    simp [splitEq, hc, ih hr]

theorem splitEq_some (n v : Text) (h : '=' ∉ n) : splitEq (n ++ '=' :: v) = (n, some v) := by
  induction n with
  | nil => simp [splitEq]
  | cons c r ih =>
    have hc : c ≠ '=' := fun e => h (by simp [e])
    have hr : '=' ∉ r := fun e => h (by simp [e])
    simp [splitEq, hc, ih hr]

theorem word_flag (n : Text) (h : NameOk n) : word ('-' :: '-' :: n) = .flag n := by
  obtain ⟨h1, h2, h3⟩ := h
  cases n with
  | nil => exact absurd rfl h1
  | cons c r =>
    have hc : ¬ (c = '-' ∨ c = '=') := by
      rintro (e | e)
      · exact h2 (by simp [e])
      · exact h3 (by simp [e])
    simp only [word]
    rw [if_neg hc, splitEq_none _ h3]

theorem word_flagIs (n v : Text) (h : NameOk n) :
    word ('-' :: '-' :: (n ++ '=' :: v)) = .flagIs n v := by
  obtain ⟨h1, h2, h3⟩ := h
  cases n with
  | nil => exact absurd rfl h1
  | cons c r =>
    have hc : ¬ (c = '-' ∨ c = '=') := by
      rintro (e | e)
      · exact h2 (by simp [e])
      · exact h3 (by simp [e])
    have hs := splitEq_some (c :: r) v h3
    rw [List.cons_append] at hs
    simp only [List.cons_append, word]
    rw [if_neg hc, hs]

/-! ## Segments -/

def Parsed.prepend (fs : List (Text × Text)) (p : Parsed) : Parsed :=
  { p with flags := fs ++ p.flags }

/-- A segment of strings that the parser reads as these flags, whatever follows. -/
def Reads (kind : Text → Option Kind) (seg : List Arg) (fs : List (Text × Text)) : Prop :=
  ∃ ts, texts seg = some ts ∧
    ∀ rest, cliParse kind (ts ++ rest) = (cliParse kind rest).map (Parsed.prepend fs)

theorem texts_append (a b : List Arg) (ta tb : List Text) (ha : texts a = some ta)
    (hb : texts b = some tb) : texts (a ++ b) = some (ta ++ tb) := by
  induction a generalizing ta with
  | nil =>
    simp only [texts, Option.some.injEq] at ha
    subst ha
    simpa using hb
  | cons x r ih =>
    cases x with
    | i n => simp [texts] at ha
    | s t =>
      simp only [texts, Option.map_eq_some_iff] at ha
      obtain ⟨tr, hr, rfl⟩ := ha
      simp [texts, ih tr hr]

theorem texts_append_none (a b : List Arg) (h : texts b = none) : texts (a ++ b) = none := by
  induction a with
  | nil => simpa using h
  | cons x r ih => cases x <;> simp [texts, ih]

theorem texts_append_none_left (a b : List Arg) (h : texts a = none) :
    texts (a ++ b) = none := by
  induction a with
  | nil => simp [texts] at h
  | cons x r ih =>
    cases x with
    | i n => rfl
    | s t =>
      simp only [texts, Option.map_eq_none_iff] at h
      simp [texts, ih h]

theorem Reads.nil (kind : Text → Option Kind) : Reads kind [] [] :=
  ⟨[], rfl, fun rest => by
    rw [List.nil_append]
    cases cliParse kind rest <;> rfl⟩

theorem Reads.append {kind : Text → Option Kind} {a b : List Arg} {fa fb : List (Text × Text)}
    (ha : Reads kind a fa) (hb : Reads kind b fb) : Reads kind (a ++ b) (fa ++ fb) := by
  obtain ⟨ta, ha1, ha2⟩ := ha
  obtain ⟨tb, hb1, hb2⟩ := hb
  refine ⟨ta ++ tb, texts_append a b ta tb ha1 hb1, fun rest => ?_⟩
  rw [List.append_assoc, ha2, hb2]
  cases cliParse kind rest with
  | none => rfl
  | some p => simp [Parsed.prepend]

theorem reads_switch (kind : Text → Option Kind) (f : String) (n : Text)
    (hf : f.toList = '-' :: '-' :: n) (hn : NameOk n) (hk : kind n = some .switch) :
    Reads kind [lit f] [(n, "true".toList)] := by
  refine ⟨[f.toList], rfl, fun rest => ?_⟩
  rw [List.singleton_append, hf]
  simp only [cliParse, word_flag n hn, hk]
  rfl

theorem reads_value (kind : Text → Option Kind) (f : String) (n v : Text)
    (hf : f.toList = '-' :: '-' :: n) (hn : NameOk n) (hk : kind n = some .value) :
    Reads kind [lit f, .s v] [(n, v)] := by
  refine ⟨[f.toList, v], rfl, fun rest => ?_⟩
  rw [hf]
  simp only [List.cons_append, List.nil_append]
  conv => lhs; unfold cliParse
  simp only [word_flag n hn, hk]
  rfl

/-! ## Tables -/

/-- The flags of a table. -/
def flat (t : List (String × List Text)) : List (Text × Text) :=
  t.flatMap fun e => e.2.map fun v => (e.1.toList, v)

theorem flat_append (a b : List (String × List Text)) : flat (a ++ b) = flat a ++ flat b := by
  simp [flat]

theorem flat_one (n : String) (vs : List Text) :
    flat [(n, vs)] = vs.map fun v => (n.toList, v) := by simp [flat]

theorem filter_same (n : Text) (vs : List Text) :
    ((vs.map fun v => (n, v)).filter (fun e => decide (e.1 = n))).map (·.2) = vs := by
  induction vs with
  | nil => rfl
  | cons v r ih => simpa using ih

theorem filter_other (n m : Text) (vs : List Text) (h : n ≠ m) :
    ((vs.map fun v => (n, v)).filter (fun e => decide (e.1 = m))).map (·.2) = [] := by
  induction vs with
  | nil => rfl
  | cons v r ih => simp [h]

theorem values_none (t : List (String × List Text)) (name : Text)
    (h : name ∉ t.map fun e => e.1.toList) :
    ((flat t).filter (fun e => decide (e.1 = name))).map (·.2) = [] := by
  induction t with
  | nil => rfl
  | cons e r ih =>
    have h1 : e.1.toList ≠ name := fun x => h (by simp [x])
    have h2 : name ∉ r.map fun e => e.1.toList := fun x => h (by
      rw [List.map_cons]; exact List.mem_cons_of_mem _ x)
    have he : flat (e :: r) = (e.2.map fun v => (e.1.toList, v)) ++ flat r := rfl
    rw [he, List.filter_append, List.map_append, filter_other _ _ _ h1, ih h2]
    rfl

theorem values_flat (t : List (String × List Text)) (hd : (t.map fun e => e.1.toList).Nodup)
    (name : Text) :
    ((flat t).filter (fun e => decide (e.1 = name))).map (·.2) = askedFor t name := by
  induction t with
  | nil => rfl
  | cons e r ih =>
    obtain ⟨n, vs⟩ := e
    simp only [List.map_cons, List.nodup_cons] at hd
    have he : flat ((n, vs) :: r) = (vs.map fun v => (n.toList, v)) ++ flat r := rfl
    rw [he, List.filter_append, List.map_append]
    by_cases hn : n.toList = name
    · subst hn
      rw [filter_same, values_none r _ hd.1]
      simp [askedFor]
    · rw [filter_other _ _ _ hn, ih hd.2]
      simp [askedFor, hn]

/-! ## The pieces of `_parse_extra_args` -/

theorem reads_bool (kind : Text → Option Kind) (b : Option Bool) (f n : String)
    (hf : f.toList = '-' :: '-' :: n.toList) (hn : NameOk n.toList)
    (hk : kind n.toList = some .switch) :
    Reads kind (boolFlag b f) (flat [(n, switchOf b)]) := by
  unfold boolFlag switchOf
  by_cases h : b = some true
  · rw [if_pos h, if_pos h, flat_one]
    exact reads_switch kind f n.toList hf hn hk
  · rw [if_neg h, if_neg h, flat_one]
    exact Reads.nil kind

theorem reads_text (kind : Text → Option Kind) (t : Option Text) (f n : String)
    (hf : f.toList = '-' :: '-' :: n.toList) (hn : NameOk n.toList)
    (hk : kind n.toList = some .value) :
    Reads kind (textFlag t f) (flat [(n, textOf t)]) := by
  match t with
  | none => exact Reads.nil kind
  | some [] => exact Reads.nil kind
  | some (c :: r) => exact reads_value kind f n.toList (c :: r) hf hn hk

theorem reads_list (kind : Text → Option Kind) (l : Option (List Text)) (f n : String)
    (hf : f.toList = '-' :: '-' :: n.toList) (hn : NameOk n.toList)
    (hk : kind n.toList = some .value) :
    Reads kind (listFlag l f) (flat [(n, l.getD [])]) := by
  unfold listFlag
  rw [flat_one]
  induction l.getD [] with
  | nil => exact Reads.nil kind
  | cons v r ih => exact (reads_value kind f n.toList v hf hn hk).append ih

theorem reads_parallel (kind : Text → Option Kind) (p : Option Int) (hp : p ≠ some 0)
    (hk : kind "parallel".toList = some .value) :
    Reads kind (parallelFlag p) (flat [("parallel", (p.map decimal).toList)]) := by
  match p with
  | none => exact Reads.nil kind
  | some n =>
    have hn : n ≠ 0 := fun e => hp (by rw [e])
    simp only [parallelFlag, if_neg hn]
    exact reads_value kind "--parallel" "parallel".toList (decimal n) rfl (by decide) hk

theorem reads_opt (kind : Text → Option Kind) (t : Option Text) (f n : String)
    (hf : f.toList = '-' :: '-' :: n.toList) (hn : NameOk n.toList)
    (hk : kind n.toList = some .value) :
    Reads kind (planArg t f) (flat [(n, t.toList)]) := by
  match t with
  | none => exact Reads.nil kind
  | some v => exact reads_value kind f n.toList v hf hn hk

theorem textOf_color (t : Option Text) (h : t ≠ some []) : textOf t = t.toList := by
  match t with
  | none => rfl
  | some [] => exact absurd rfl h
  | some (c :: r) => rfl

theorem reads_exec (b : Bool) :
    Reads opKind (execKind b)
      (flat [("exec-kind", [if b then "auto.inline".toList else "auto.local".toList])]) := by
  cases b
  · exact reads_value opKind "--exec-kind" "exec-kind".toList _ rfl (by decide) (by decide)
  · exact reads_value opKind "--exec-kind" "exec-kind".toList _ rfl (by decide) (by decide)

theorem reads_client (c : Call) :
    Reads opKind (clientArg c)
      (flat [("client", (c.port.map fun p => "127.0.0.1:".toList ++ p).toList)]) := by
  unfold clientArg
  cases c.port with
  | none => exact Reads.nil opKind
  | some p =>
    refine ⟨["--client=127.0.0.1:".toList ++ p], rfl, fun rest => ?_⟩
    have hw := word_flagIs "client".toList ("127.0.0.1:".toList ++ p) (by decide)
    have he : "--client=127.0.0.1:".toList ++ p
        = '-' :: '-' :: ("client".toList ++ '=' :: ("127.0.0.1:".toList ++ p)) := rfl
    have hk : opKind "client".toList = some .value := by decide
    rw [List.singleton_append, he]
    simp only [cliParse, hw, hk]
    rfl

theorem reads_eventLog (c : Call) :
    Reads opKind (eventLogArg c) (flat [("event-log", c.eventLog.toList)]) := by
  unfold eventLogArg
  cases c.eventLog with
  | none => exact Reads.nil opKind
  | some f => exact reads_value opKind "--event-log" "event-log".toList f rfl (by decide) (by decide)

/-- The flags of `_parse_extra_args`. -/
def extraAsked (o : Opts) : List (String × List Text) :=
  [("message", textOf o.message),
   ("expect-no-changes", switchOf o.expectNoChanges),
   ("diff", switchOf o.diff),
   ("replace", o.replace.getD []),
   ("target", o.target.getD []),
   ("policy-pack", o.policyPacks.getD []),
   ("policy-pack-config", o.policyPackConfigs.getD []),
   ("target-dependents", switchOf o.targetDependents),
   ("parallel", (o.parallel.map decimal).toList),
   ("color", o.color.toList),
   ("logflow", switchOf o.logFlow),
   ("verbose", numberOf o.logVerbosity),
   ("logtostderr", switchOf o.logToStdErr),
   ("tracing", textOf o.tracing),
   ("debug", switchOf o.debug)]

theorem reads_extra (o : Opts) (hp : o.parallel ≠ some 0) (hc : o.color ≠ some [])
    (hv : o.logVerbosity = none ∨ o.logVerbosity = some 0) : Reads opKind (extraArgs o) (flat (extraAsked o)) := by
  have e : flat (extraAsked o) =
      flat [("message", textOf o.message)]
      ++ flat [("expect-no-changes", switchOf o.expectNoChanges)]
      ++ flat [("diff", switchOf o.diff)]
      ++ flat [("replace", o.replace.getD [])]
      ++ flat [("target", o.target.getD [])]
      ++ flat [("policy-pack", o.policyPacks.getD [])]
      ++ flat [("policy-pack-config", o.policyPackConfigs.getD [])]
      ++ flat [("target-dependents", switchOf o.targetDependents)]
      ++ flat [("parallel", (o.parallel.map decimal).toList)]
      ++ flat [("color", textOf o.color)]
      ++ flat [("logflow", switchOf o.logFlow)]
      ++ flat [("verbose", numberOf o.logVerbosity)]
      ++ flat [("logtostderr", switchOf o.logToStdErr)]
      ++ flat [("tracing", textOf o.tracing)]
      ++ flat [("debug", switchOf o.debug)] := by
    rw [textOf_color _ hc]
    simp only [← flat_append]
    rfl
  rw [e]
  have hverb : Reads opKind (verboseFlag o.logVerbosity)
      (flat [("verbose", numberOf o.logVerbosity)]) := by
    rcases hv with hv | hv
    · rw [hv]
      exact Reads.nil opKind
    · rw [hv]
      exact Reads.nil opKind
  exact
    ((((((((((((((reads_text opKind _ "--message" "message" rfl (by decide) (by decide)).append
    (reads_bool opKind _ "--expect-no-changes" "expect-no-changes" rfl (by decide) (by decide))).append
    (reads_bool opKind _ "--diff" "diff" rfl (by decide) (by decide))).append
    (reads_list opKind _ "--replace" "replace" rfl (by decide) (by decide))).append
    (reads_list opKind _ "--target" "target" rfl (by decide) (by decide))).append
    (reads_list opKind _ "--policy-pack" "policy-pack" rfl (by decide) (by decide))).append
    (reads_list opKind _ "--policy-pack-config" "policy-pack-config" rfl (by decide) (by decide))).append
    (reads_bool opKind _ "--target-dependents" "target-dependents" rfl (by decide) (by decide))).append
    (reads_parallel opKind _ hp (by decide))).append
    (reads_text opKind _ "--color" "color" rfl (by decide) (by decide))).append
    (reads_bool opKind _ "--logflow" "logflow" rfl (by decide) (by decide))).append
    hverb).append
    (reads_bool opKind _ "--logtostderr" "logtostderr" rfl (by decide) (by decide))).append
    (reads_text opKind _ "--tracing" "tracing" rfl (by decide) (by decide))).append
    (reads_bool opKind _ "--debug" "debug" rfl (by decide) (by decide))

/-! ## The whole operation -/

/-- The flags after those of `_parse_extra_args`. -/
def tailAsked (op : Op) (o : Opts) (c : Call) : List (String × List Text) :=
  (match op with
   | .up => [("plan", o.plan.toList)]
   | .preview => [("save-plan", o.plan.toList)]
   | _ => [])
  ++ (if op = .up ∨ op = .preview then
        [("client", (c.port.map fun p => "127.0.0.1:".toList ++ p).toList),
         ("exec-kind", [if c.port.isSome then "auto.inline".toList else "auto.local".toList])]
      else
        [("exec-kind", [if c.workspaceProgram then "auto.inline".toList
                        else "auto.local".toList])])
  ++ [("event-log", c.eventLog.toList)]

theorem asked_eq (op : Op) (o : Opts) (c : Call) :
    asked op o c =
      (if op = .preview then []
        else [("yes", ["true".toList]), ("skip-preview", ["true".toList])])
      ++ extraAsked o ++ tailAsked op o c ++ [("stack", [c.stack])]
      ++ [("non-interactive", ["true".toList])] := by
  cases op <;> rfl

theorem asked_nodup (op : Op) (o : Opts) (c : Call) :
    ((asked op o c).map fun e => e.1.toList).Nodup := by
  cases op
  · show (["yes", "skip-preview", "message", "expect-no-changes", "diff", "replace", "target",
      "policy-pack", "policy-pack-config", "target-dependents", "parallel", "color", "logflow",
      "verbose", "logtostderr", "tracing", "debug", "plan", "client", "exec-kind", "event-log",
      "stack", "non-interactive"].map String.toList).Nodup
    decide
  · show (["message", "expect-no-changes", "diff", "replace", "target",
      "policy-pack", "policy-pack-config", "target-dependents", "parallel", "color", "logflow",
      "verbose", "logtostderr", "tracing", "debug", "save-plan", "client", "exec-kind",
      "event-log", "stack", "non-interactive"].map String.toList).Nodup
    decide
  all_goals
    show (["yes", "skip-preview", "message", "expect-no-changes", "diff", "replace", "target",
      "policy-pack", "policy-pack-config", "target-dependents", "parallel", "color", "logflow",
      "verbose", "logtostderr", "tracing", "debug", "exec-kind", "event-log",
      "stack", "non-interactive"].map String.toList).Nodup
    decide

/-- The command's name. -/
def opName : Op → String
  | .up => "up"
  | .preview => "preview"
  | .refresh => "refresh"
  | .destroy => "destroy"

theorem reads_words (op : Op) :
    ∃ seg, opWords op = lit (opName op) :: seg ∧
      Reads opKind seg (flat (if op = .preview then []
        else [("yes", ["true".toList]), ("skip-preview", ["true".toList])])) := by
  have hy : Reads opKind [lit "--yes", lit "--skip-preview"]
      (flat [("yes", ["true".toList]), ("skip-preview", ["true".toList])]) :=
    (reads_switch opKind "--yes" "yes".toList rfl (by decide) (by decide)).append
      (reads_switch opKind "--skip-preview" "skip-preview".toList rfl (by decide) (by decide))
  cases op
  · exact ⟨_, rfl, hy⟩
  · exact ⟨[], rfl, Reads.nil opKind⟩
  · exact ⟨_, rfl, hy⟩
  · exact ⟨_, rfl, hy⟩

theorem reads_tail (op : Op) (o : Opts) (c : Call) :
    Reads opKind (opTail op o c) (flat (tailAsked op o c)) := by
  cases op
  · have h := (((reads_opt opKind o.plan "--plan" "plan" rfl (by decide) (by decide)).append
      (reads_client c)).append (reads_exec c.port.isSome)).append (reads_eventLog c)
    rw [← flat_append, ← flat_append, ← flat_append] at h
    exact h
  · have h := (((reads_opt opKind o.plan "--save-plan" "save-plan" rfl (by decide)
      (by decide)).append (reads_client c)).append (reads_exec c.port.isSome)).append
      (reads_eventLog c)
    rw [← flat_append, ← flat_append, ← flat_append] at h
    exact h
  · exact (reads_exec _).append (reads_eventLog c)
  · exact (reads_exec _).append (reads_eventLog c)

theorem n_not_digit (n : Int) : 'n' ∉ decimal n := by
  intro h
  unfold decimal at h
  have hd : ∀ m : Nat, 'n' ∉ m.repr.toList := by
    intro m hm
    rw [Nat.toList_repr] at hm
    have := Nat.isDigit_of_mem_toDigits (by decide) (by decide) hm
    simp at this
  cases n with
  | ofNat m => exact hd m h
  | negSucc m =>
    have h' : 'n' ∈ ("-" ++ (m + 1).repr).toList := h
    rw [String.toList_append, List.mem_append] at h'
    rcases h' with h' | h'
    · simp at h'
    · exact hd _ h'

end Pulumi.Cli
