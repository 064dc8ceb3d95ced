import Verif.Cli.Lemmas

/-! # Lemmas on whole argument lists -/

namespace Pulumi.Cli

/-- The flag that keeps the CLI from asking questions. -/
def NI : Text := "--non-interactive".toList

theorem ni_eq : lit "--non-interactive" = .s NI := rfl

theorem ne_lit (f : String) (h : NI ≠ f.toList) : Arg.s NI ≠ lit f := by
  intro e
  exact h (Arg.s.inj e)

theorem ni_bool (b : Option Bool) (f : String) (h : NI ≠ f.toList) :
    Arg.s NI ∉ boolFlag b f := by
  unfold boolFlag
  by_cases hb : b = some true
  · rw [if_pos hb]
    simpa using ne_lit f h
  · rw [if_neg hb]
    simp

theorem ni_pair (f : String) (v : Text) (h : NI ≠ f.toList) (hv : NI ≠ v) :
    Arg.s NI ∉ [lit f, Arg.s v] := by
  simp only [List.mem_cons, List.not_mem_nil, or_false, not_or]
  exact ⟨ne_lit f h, fun e => hv (Arg.s.inj e)⟩

theorem ni_text (t : Option Text) (f : String) (h : NI ≠ f.toList) (ht : NI ∉ t.toList) :
    Arg.s NI ∉ textFlag t f := by
  match t with
  | none => simp [textFlag]
  | some [] => simp [textFlag]
  | some (c :: r) => exact ni_pair f _ h (fun e => ht (by simp [e]))

theorem ni_plan (t : Option Text) (f : String) (h : NI ≠ f.toList) (ht : NI ∉ t.toList) :
    Arg.s NI ∉ planArg t f := by
  match t with
  | none => simp [planArg]
  | some v => exact ni_pair f _ h (fun e => ht (by simp [e]))

theorem ni_list (l : Option (List Text)) (f : String) (h : NI ≠ f.toList)
    (hl : NI ∉ l.getD []) : Arg.s NI ∉ listFlag l f := by
  intro hm
  simp only [listFlag, List.mem_flatMap] at hm
  obtain ⟨v, hv, hm⟩ := hm
  exact ni_pair f v h (fun e => hl (e ▸ hv)) hm

theorem ni_parallel (n : Option Int) : Arg.s NI ∉ parallelFlag n := by
  match n with
  | none => simp [parallelFlag]
  | some n =>
    by_cases hn : n = 0
    · simp [parallelFlag, hn]
    · simp only [parallelFlag, if_neg hn]
      refine ni_pair "--parallel" _ (by decide) (fun e => ?_)
      have : 'n' ∈ decimal n := by rw [← e]; decide
      exact n_not_digit n this

theorem ni_verbose (n : Option Int) : Arg.s NI ∉ verboseFlag n := by
  match n with
  | none => simp [verboseFlag]
  | some n =>
    by_cases hn : n = 0
    · simp [verboseFlag, hn]
    · simp only [verboseFlag, if_neg hn, List.mem_cons, List.not_mem_nil, or_false, not_or]
      exact ⟨ne_lit _ (by decide), Arg.noConfusion⟩

theorem ni_client (c : Call) : Arg.s NI ∉ clientArg c := by
  unfold clientArg
  cases c.port with
  | none => simp
  | some p =>
    simp only [List.mem_cons, List.not_mem_nil, or_false]
    intro e
    have e' := Arg.s.inj e
    have : NI[2]? = ("--client=127.0.0.1:".toList ++ p)[2]? := by rw [e']
    have h1 : NI[2]? = some 'n' := by decide
    have h2 : ("--client=127.0.0.1:".toList ++ p)[2]? = some 'c' := rfl
    rw [h1, h2] at this
    simp at this

theorem ni_exec (b : Bool) : Arg.s NI ∉ execKind b := by
  cases b <;> decide

theorem ni_eventLog (c : Call) (h : NI ∉ c.eventLog.toList) : Arg.s NI ∉ eventLogArg c := by
  unfold eventLogArg
  cases hc : c.eventLog with
  | none => simp
  | some f => exact ni_pair _ _ (by decide) (fun e => h (by simp [hc, e]))

theorem ni_not_mem (op : Op) (o : Opts) (c : Call) (h : NI ∉ optionTexts o c) :
    lit "--non-interactive" ∉ opArgs op o c := by
  simp only [optionTexts, List.mem_append, not_or] at h
  obtain ⟨⟨⟨⟨⟨⟨⟨⟨⟨h1, h2⟩, h3⟩, h4⟩, h5⟩, h6⟩, h7⟩, h8⟩, h9⟩, h10⟩ := h
  rw [ni_eq]
  have hx : Arg.s NI ∉ extraArgs o := by
    simp only [extraArgs, List.mem_append, not_or]
    exact ⟨⟨⟨⟨⟨⟨⟨⟨⟨⟨⟨⟨⟨⟨ni_text _ _ (by decide) h1, ni_bool _ _ (by decide)⟩,
      ni_bool _ _ (by decide)⟩, ni_list _ _ (by decide) h2⟩, ni_list _ _ (by decide) h3⟩,
      ni_list _ _ (by decide) h4⟩, ni_list _ _ (by decide) h5⟩, ni_bool _ _ (by decide)⟩,
      ni_parallel _⟩, ni_text _ _ (by decide) h6⟩, ni_bool _ _ (by decide)⟩, ni_verbose _⟩,
      ni_bool _ _ (by decide)⟩, ni_text _ _ (by decide) h7⟩, ni_bool _ _ (by decide)⟩
  have hw : Arg.s NI ∉ opWords op := by cases op <;> decide
  have ht : Arg.s NI ∉ opTail op o c := by
    cases op <;> simp only [opTail, List.mem_append, not_or]
    · exact ⟨⟨⟨ni_plan _ _ (by decide) h8, ni_client c⟩, ni_exec _⟩, ni_eventLog c h9⟩
    · exact ⟨⟨⟨ni_plan _ _ (by decide) h8, ni_client c⟩, ni_exec _⟩, ni_eventLog c h9⟩
    · exact ⟨ni_exec _, ni_eventLog c h9⟩
    · exact ⟨ni_exec _, ni_eventLog c h9⟩
  have hs : Arg.s NI ∉ [lit "--stack", Arg.s c.stack] :=
    ni_pair _ _ (by decide) (fun e => h10 (by simp [e]))
  simp only [opArgs, List.mem_append, not_or]
  exact ⟨⟨⟨hw, hx⟩, ht⟩, hs⟩

theorem operation_reads (op : Op) (o : Opts) (c : Call) (hp : o.parallel ≠ some 0)
    (hc : o.color ≠ some []) (hv : o.logVerbosity = none ∨ o.logVerbosity = some 0)
    (hn : NI ∉ optionTexts o c) :
    ∃ argv, launch (opArgs op o c) = some argv ∧ ReadsAsAsked op o c argv := by
  obtain ⟨seg, hw, hr⟩ := reads_words op
  have hst := reads_value opKind "--stack" "stack".toList c.stack rfl (by decide) (by decide)
  have hni := reads_switch opKind "--non-interactive" "non-interactive".toList rfl (by decide)
    (by decide)
  have h := (((hr.append (reads_extra o hp hc hv)).append (reads_tail op o c)).append hst).append
    hni
  obtain ⟨ts, h1, h2⟩ := h
  have hmem := ni_not_mem op o c hn
  have hl : launch (opArgs op o c) = some ((opName op).toList :: ts) := by
    unfold launch nonInteractive
    rw [if_neg hmem, opArgs, hw]
    simp only [List.cons_append] at h1 ⊢
    show Option.map _ (texts _) = _
    rw [h1]
    rfl
  refine ⟨_, hl, ts, ⟨flat (asked op o c), []⟩, ?_, ?_, rfl, ?_⟩
  · cases op <;> rfl
  · have := h2 []
    rw [List.append_nil] at this
    rw [this, asked_eq]
    simp only [cliParse, Option.map_some, Parsed.prepend, flat_append, flat_one, List.append_nil,
      List.map_cons, List.map_nil]
  · intro name
    exact values_flat _ (asked_nodup op o c) name

theorem verbose_none (op : Op) (o : Opts) (c : Call) (n : Int) (hn : n ≠ 0)
    (hv : o.logVerbosity = some n) : launch (opArgs op o c) = none := by
  have hx : texts (extraArgs o) = none := by
    have hvb : texts (verboseFlag o.logVerbosity) = none := by
      rw [hv]
      simp [verboseFlag, hn, texts, lit]
    simp only [extraArgs]
    exact texts_append_none_left _ _ (texts_append_none_left _ _ (texts_append_none_left _ _
      (texts_append_none _ _ hvb)))
  have ha : texts (opArgs op o c) = none := by
    unfold opArgs
    exact texts_append_none_left _ _ (texts_append_none_left _ _ (texts_append_none _ _ hx))
  unfold launch nonInteractive
  by_cases hm : lit "--non-interactive" ∈ opArgs op o c
  · rw [if_pos hm, ha]
  · rw [if_neg hm]
    exact texts_append_none_left _ _ ha

/-! ## Slices -/

theorem commas_plain (t : Text) (h : ',' ∉ t) : commas t = [t] := by
  induction t with
  | nil => rfl
  | cons c r ih =>
    have hc : c ≠ ',' := fun e => h (by simp [e])
    have hr : ',' ∉ r := fun e => h (by simp [e])
    simp [commas, hc, ih hr]

theorem slice_plain (l : List Text) (h : ∀ t ∈ l, t ≠ [] ∧ ',' ∉ t) :
    (l.flatMap fun v => if v = [] then [] else commas v) = l := by
  induction l with
  | nil => rfl
  | cons t r ih =>
    obtain ⟨h1, h2⟩ := h t (by simp)
    rw [List.flatMap_cons, ih (fun x hx => h x (by simp [hx])), if_neg h1, commas_plain t h2]
    rfl

/-! ## Config -/

theorem parse_arg (kind : Text → Option Kind) (a : Text) (rest : List Text) (h : Plain a) :
    cliParse kind (a :: rest) = (cliParse kind rest).map (·.addArg a) := by
  have h' : word a = .argument := h
  conv => lhs; unfold cliParse
  simp only [h']

theorem parse_args (kind : Text → Option Kind) (l : List Text) (h : ∀ a ∈ l, Plain a)
    (rest : List Text) :
    cliParse kind (l ++ rest)
      = (cliParse kind rest).map fun p => { p with args := l ++ p.args } := by
  induction l with
  | nil =>
    rw [List.nil_append]
    cases cliParse kind rest <;> rfl
  | cons a r ih =>
    rw [List.cons_append, parse_arg kind a _ (h a (by simp)), ih (fun x hx => h x (by simp [hx]))]
    cases cliParse kind rest <;> rfl

theorem parse_switch (kind : Text → Option Kind) (f : Text) (n : Text) (rest : List Text)
    (hf : f = '-' :: '-' :: n) (hn : NameOk n) (hk : kind n = some .switch) :
    cliParse kind (f :: rest) = (cliParse kind rest).map (·.addFlag n "true".toList) := by
  subst hf
  conv => lhs; unfold cliParse
  simp only [word_flag n hn, hk]

theorem parse_value (kind : Text → Option Kind) (f : Text) (n v : Text) (rest : List Text)
    (hf : f = '-' :: '-' :: n) (hn : NameOk n) (hk : kind n = some .value) :
    cliParse kind (f :: v :: rest) = (cliParse kind rest).map (·.addFlag n v) := by
  subst hf
  conv => lhs; unfold cliParse
  simp only [word_flag n hn, hk]

theorem parse_end (kind : Text → Option Kind) (rest : List Text) :
    cliParse kind ("--".toList :: rest) = some ⟨[], rest⟩ := by
  have h : word "--".toList = .endOfFlags := rfl
  conv => lhs; unfold cliParse
  simp only [h]

theorem plain_ne_ni (t : Text) (h : Plain t) : NI ≠ t := by
  intro e
  subst e
  have : word NI = .flag "non-interactive".toList := rfl
  rw [Plain, this] at h
  exact Word.noConfusion h

theorem parsePair_ok (k v : Text) (h : PairKey k) : parsePair (k ++ '=' :: v) = some (k, v) := by
  obtain ⟨h1, h2, h3, h4⟩ := h
  have hs := splitEq_some k v h2
  cases k with
  | nil => exact absurd rfl h1
  | cons c r =>
    have hc : ¬ (c = '"' ∨ c = '\'') := by
      rintro (e | e)
      · exact h3 (by simp [e])
      · exact h4 (by simp [e])
    rw [List.cons_append] at hs ⊢
    simp only [parsePair, if_neg hc, hs]

/-- What follows the arguments given: nothing, or the flag that `_run_pulumi_cmd`
adds. -/
def Suffix (tail : List Text) (fs : List (Text × Text)) : Prop :=
  (tail = [] ∧ fs = []) ∨ (tail = [NI] ∧ fs = [("non-interactive".toList, "true".toList)])

theorem launch_suffix (args : List Arg) (ts : List Text) (h : texts args = some ts) :
    ∃ tail fs, Suffix tail fs ∧ launch args = some (ts ++ tail) := by
  unfold launch nonInteractive
  by_cases hm : lit "--non-interactive" ∈ args
  · rw [if_pos hm]
    exact ⟨[], [], Or.inl ⟨rfl, rfl⟩, by rw [h, List.append_nil]⟩
  · rw [if_neg hm]
    exact ⟨[NI], _, Or.inr ⟨rfl, rfl⟩, texts_append args _ ts [NI] h rfl⟩

theorem filter_hit (n v : Text) (r : List (Text × Text)) :
    ((n, v) :: r).filter (fun e => decide (e.1 = n))
      = (n, v) :: r.filter (fun e => decide (e.1 = n)) :=
  List.filter_cons_of_pos (decide_eq_true rfl)

theorem filter_miss (m n v : Text) (r : List (Text × Text)) (h : m ≠ n) :
    ((m, v) :: r).filter (fun e => decide (e.1 = n)) = r.filter (fun e => decide (e.1 = n)) :=
  List.filter_cons_of_neg (fun e => h (of_decide_eq_true e))

theorem parse_suffix (kind : Text → Option Kind) (tail : List Text) (fs : List (Text × Text))
    (h : Suffix tail fs) (hk : kind "non-interactive".toList = some .switch) :
    cliParse kind tail = some ⟨fs, []⟩ := by
  rcases h with ⟨h1, h2⟩ | ⟨h1, h2⟩
  · rw [h1, h2]
    rfl
  · rw [h1, h2]
    have hp := parse_switch kind NI "non-interactive".toList [] rfl (by decide) hk
    rw [hp]
    simp only [cliParse, Option.map_some, Parsed.addFlag]

theorem suffix_values (tail : List Text) (fs : List (Text × Text)) (h : Suffix tail fs)
    (n : Text) (hn : "non-interactive".toList ≠ n) :
    fs.filter (fun e => decide (e.1 = n)) = [] := by
  rcases h with ⟨-, h2⟩ | ⟨-, h2⟩
  · rw [h2]
    rfl
  · rw [h2, filter_miss _ _ _ _ hn]
    rfl

theorem texts_map (l : List Text) : texts (l.map Arg.s) = some l := by
  induction l with
  | nil => rfl
  | cons t r ih => simp [texts, ih]

/-- The flags of the pairs of `set-all`. -/
def pairFlags (cfg : List (Text × ConfigValue)) : List (Text × Text) :=
  cfg.map fun kv => (if kv.2.secret then "secret".toList else "plaintext".toList,
    kv.1 ++ '=' :: kv.2.value)

theorem reads_pairs (cfg : List (Text × ConfigValue)) :
    Reads setAllKind (cfg.flatMap fun kv => [secretArg kv.2, .s (kv.1 ++ '=' :: kv.2.value)])
      (pairFlags cfg) := by
  induction cfg with
  | nil => exact Reads.nil setAllKind
  | cons kv r ih =>
    obtain ⟨k, v, s⟩ := kv
    cases s
    · exact (reads_value setAllKind "--plaintext" "plaintext".toList _ rfl (by decide)
        (by decide)).append ih
    · exact (reads_value setAllKind "--secret" "secret".toList _ rfl (by decide)
        (by decide)).append ih

theorem pairFlags_other (cfg : List (Text × ConfigValue)) (n : Text) (h1 : "secret".toList ≠ n)
    (h2 : "plaintext".toList ≠ n) :
    (pairFlags cfg).filter (fun e => decide (e.1 = n)) = [] := by
  induction cfg with
  | nil => rfl
  | cons kv r ih =>
    obtain ⟨k, v, s⟩ := kv
    have he : pairFlags ((k, ⟨v, s⟩) :: r)
        = (if s then "secret".toList else "plaintext".toList, k ++ '=' :: v) :: pairFlags r := rfl
    rw [he, filter_miss, ih]
    cases s
    · exact h2
    · exact h1

theorem pairFlags_kind (cfg : List (Text × ConfigValue)) (h : ∀ kv ∈ cfg, PairKey kv.1)
    (b : Bool) (n : Text) (hn : n = if b then "secret".toList else "plaintext".toList) :
    allSome parsePair (((pairFlags cfg).filter (fun e => decide (e.1 = n))).map (·.2))
      = some ((cfg.filter (fun kv => kv.2.secret == b)).map fun kv => (kv.1, kv.2.value)) := by
  induction cfg with
  | nil => rfl
  | cons kv r ih =>
    obtain ⟨k, v, s⟩ := kv
    have he : pairFlags ((k, ⟨v, s⟩) :: r)
        = (if s then "secret".toList else "plaintext".toList, k ++ '=' :: v) :: pairFlags r := rfl
    have ih' := ih (fun kv hkv => h kv (by simp [hkv]))
    have hk := h (k, ⟨v, s⟩) (by simp)
    rw [he]
    by_cases hs : s = b
    · subst hs
      rw [← hn, filter_hit, List.filter_cons_of_pos (by simp)]
      simp only [List.map_cons, allSome, parsePair_ok k v hk, ih']
    · rw [filter_miss, List.filter_cons_of_neg (by simpa using hs), ih']
      rw [hn]
      cases s <;> cases b <;> first | exact absurd rfl hs | decide

end Pulumi.Cli
