import Verif.Policy.Parse
/-
How the policy packs of an update are loaded and configured before it begins.

Code: pkg/engine/update.go:259-366 (`installAndLoadPolicyPlugins`), 404-407 (its caller gives up where it fails),
sdk/go/common/resource/plugin/analyzer_plugin.go:380-412 (`Configure`).

Installing a pack, starting its plugin and the answers of the plugin are given with the pack.
-/
namespace Pulumi.Policy

/-- A started policy pack: what `GetAnalyzerInfo` says, and whether the plugin refuses to be configured -/
structure Analyzer where
  name : String
  supports : Bool
  policies : List Info
  initial : Map Conf
  refuses : Option String

/-- A pack the service requires, or one given on the command line.  `install`/`abs` are the errors of `Install` and
`filepath.Abs`; `load` is what `PolicyAnalyzer` and `GetAnalyzerInfo` give. -/
inductive Pack where
  | required (install : Option String) (load : Except String Analyzer) (config : Map (Option Val))
  | localPack (abs : Option String) (load : Except String (Option Analyzer)) (config : Option (Except String (Option Val)))

inductive LoadErr where
  | other (e : String)
  | parse (e : Err)
  | unsupported (pack : String)
  | badLevel (pack : String) (level : String)
  | validating
  deriving DecidableEq

/-- what packs were configured with so far, and the complaints so far -/
structure Loaded where
  sent : List (String × Map Conf)
  complaints : List (String × String × String)

/-- `analyzer.Configure` (analyzer_plugin.go:380-412): nothing is sent of an empty configuration; a level that is none of
the three is an error -/
def configure (a : Analyzer) (c : Map Conf) (st : Loaded) : Except LoadErr Loaded :=
  if c.isEmpty then .ok st
  else match c.find? (fun e => !valid e.2.level) with
    | some e => .error (.badLevel a.name e.2.level)
    | none => match a.refuses with
      | some e => .error (.other e)
      | none => .ok { st with sent := st.sent ++ [(a.name, c)] }

/-- 299-307 and 345-353: put the configuration together, note the complaints, and pass on what there is -/
def settle (check : Check) (a : Analyzer) (config : Map Conf) (st : Loaded) : Except LoadErr Loaded :=
  match reconcile check a.policies a.initial config with
  | .failed e => .error (.parse e)
  | .invalid cs => configure a [] { st with complaints := st.complaints ++ cs.map (fun c => (a.name, c)) }
  | .ok r => configure a r st

/-- One round of one of the two loops (272-308, 311-354) -/
def loadOne (check : Check) (st : Loaded) : Pack → Except LoadErr Loaded
  | .required install load config => match install with
    | some e => .error (.other e)
    | none => match load with
      | .error e => .error (.other e)
      | .ok a =>
        if !a.supports then .ok st
        else match parseApi config with
          | .error e => .error (.parse e)
          | .ok c => settle check a c st
  | .localPack abs load config => match abs with
    | some e => .error (.other e)
    | none => match load with
      | .error e => .error (.other e)
      | .ok none => .error (.other "policy analyzer could not be loaded")
      | .ok (some a) =>
        if !a.supports then (if config.isSome then .error (.unsupported a.name) else .ok st)
        else match config with
          | none => settle check a [] st
          | some (.error e) => .error (.other e)
          | some (.ok f) => match parseFile f with
            | .error e => .error (.parse e)
            | .ok c => settle check a c st

def loadLoop (check : Check) : List Pack → Loaded → Except LoadErr Loaded
  | [], st => .ok st
  | p :: ps, st => match loadOne check st p with
    | .error e => .error e
    | .ok st' => loadLoop check ps st'

/-- `installAndLoadPolicyPlugins` (259-366), with the required packs before the local ones; where it succeeds, what the
packs were configured with -/
def load (check : Check) (ps : List Pack) : Except LoadErr (List (String × Map Conf)) :=
  match loadLoop check ps { sent := [], complaints := [] } with
  | .error e => .error e
  | .ok st => if st.complaints.isEmpty then .ok st.sent else .error .validating

/-! ## Specification -/

/-- the plugin of a pack, where it was started -/
def Pack.analyzer : Pack → Option Analyzer
  | .required none (.ok a) _ => some a
  | .localPack none (.ok (some a)) _ => some a
  | _ => none

/-- `Reads p c`: the user's configuration of the pack can be read, and is `c` -/
inductive Reads : Pack → Map Conf → Prop where
  | required (i l config c) : parseApi config = .ok c → Reads (.required i l config) c
  | noFile (i l) : Reads (.localPack i l none) []
  | file (i l f c) : parseFile f = .ok c → Reads (.localPack i l (some (.ok f))) c

/-! ## Lemmas -/

theorem configure_ok {a : Analyzer} {c : Map Conf} {st st' : Loaded} (h : configure a c st = .ok st') :
    (c = [] ∧ st' = st) ∨ (c ≠ [] ∧ (∀ e ∈ c, valid e.2.level = true) ∧
      st'.sent = st.sent ++ [(a.name, c)] ∧ st'.complaints = st.complaints) := by
  unfold configure at h
  by_cases he : c.isEmpty = true
  · simp only [he, if_true, Except.ok.injEq] at h
    exact Or.inl ⟨by simpa using he, h.symm⟩
  · simp only [he] at h
    have hne : c ≠ [] := by simpa using he
    cases hf : c.find? (fun e => !valid e.2.level) with
    | some e => simp [hf] at h
    | none =>
      rw [hf] at h
      cases hr : a.refuses with
      | some e => simp [hr] at h
      | none =>
        simp only [hr, Except.ok.injEq, Bool.false_eq_true, if_false] at h
        subst h
        refine Or.inr ⟨hne, ?_, rfl, rfl⟩
        intro e hem
        have := List.find?_eq_none.mp hf e hem
        simpa using this

/-- what one round that ends well has done -/
def Done (check : Check) (p : Pack) (st st' : Loaded) : Prop :=
  ∃ a, p.analyzer = some a ∧
    ((a.supports = false ∧ st' = st) ∨
     (a.supports = true ∧ ∃ c, Reads p c ∧
       ((∃ cs, reconcile check a.policies a.initial c = .invalid cs ∧ st'.sent = st.sent ∧ st'.complaints ≠ []) ∨
        (∃ r, reconcile check a.policies a.initial c = .ok r ∧ st'.complaints = st.complaints ∧
          (∀ e ∈ r, valid e.2.level = true) ∧
          ((r = [] ∧ st'.sent = st.sent) ∨ (r ≠ [] ∧ st'.sent = st.sent ++ [(a.name, r)])))) ∧
       (st.complaints ≠ [] → st'.complaints ≠ [])))

theorem reconcile_invalid_ne {check : Check} {ps : List Info} {i c : Map Conf} {cs : List (String × String)}
    (h : reconcile check ps i c = .invalid cs) : cs ≠ [] :=
  (refused_with_all_complaints check ps i c cs h).1

theorem settle_done {check : Check} {p : Pack} {a : Analyzer} {c : Map Conf} {st st' : Loaded}
    (ha : p.analyzer = some a) (hs : a.supports = true) (hr : Reads p c) (h : settle check a c st = .ok st') :
    Done check p st st' := by
  unfold settle at h
  refine ⟨a, ha, Or.inr ⟨hs, c, hr, ?_⟩⟩
  cases hrec : reconcile check a.policies a.initial c with
  | failed e => rw [hrec] at h; cases h
  | invalid cs =>
    rw [hrec] at h
    simp only at h
    rcases configure_ok h with ⟨_, he⟩ | ⟨hne, _⟩
    · subst he
      have hne := reconcile_invalid_ne hrec
      exact ⟨Or.inl ⟨cs, rfl, rfl, by simp [hne]⟩, fun _ => by simp [hne]⟩
    · exact absurd rfl hne
  | ok r =>
    rw [hrec] at h
    simp only at h
    rcases configure_ok h with ⟨hn, he⟩ | ⟨hne, hv, hsent, hco⟩
    · subst he
      subst hn
      exact ⟨Or.inr ⟨[], rfl, rfl, by simp, Or.inl ⟨rfl, rfl⟩⟩, id⟩
    · exact ⟨Or.inr ⟨r, rfl, hco, hv, Or.inr ⟨hne, hsent⟩⟩, fun hh => by rw [hco]; exact hh⟩

theorem loadOne_done {check : Check} {p : Pack} {st st' : Loaded} (h : loadOne check st p = .ok st') :
    Done check p st st' := by
  cases p with
  | required i l config =>
    unfold loadOne at h
    cases i with
    | some e => cases h
    | none =>
      cases l with
      | error e => cases h
      | ok a =>
        simp only at h
        by_cases hs : a.supports = true
        · simp only [hs, Bool.not_true, Bool.false_eq_true, if_false] at h
          cases hp : parseApi config with
          | error e => rw [hp] at h; cases h
          | ok c =>
            rw [hp] at h
            exact settle_done rfl hs (.required _ _ _ c hp) h
        · simp only [Bool.not_eq_true] at hs
          simp only [hs, Bool.not_false, if_true, Except.ok.injEq] at h
          exact ⟨a, rfl, Or.inl ⟨hs, h.symm⟩⟩
  | localPack i l config =>
    unfold loadOne at h
    cases i with
    | some e => cases h
    | none =>
      cases l with
      | error e => cases h
      | ok oa =>
        cases oa with
        | none => cases h
        | some a =>
          simp only at h
          by_cases hs : a.supports = true
          · simp only [hs, Bool.not_true, Bool.false_eq_true, if_false] at h
            cases config with
            | none => exact settle_done rfl hs (.noFile _ _) h
            | some f =>
              cases f with
              | error e => cases h
              | ok f =>
                simp only at h
                cases hp : parseFile f with
                | error e => rw [hp] at h; cases h
                | ok c =>
                  rw [hp] at h
                  exact settle_done rfl hs (.file _ _ _ c hp) h
          · simp only [Bool.not_eq_true] at hs
            simp only [hs, Bool.not_false, if_true] at h
            split at h
            · cases h
            · cases h
              exact ⟨a, rfl, Or.inl ⟨hs, rfl⟩⟩

theorem Done.complaints {check : Check} {p : Pack} {st st' : Loaded} (h : Done check p st st')
    (hc : st'.complaints = []) : st.complaints = [] := by
  obtain ⟨a, _, ⟨_, he⟩ | ⟨_, c, _, _, hmono⟩⟩ := h
  · rw [← he]; exact hc
  · exact Classical.byContradiction fun hn => hmono hn hc

theorem Done.sent {check : Check} {p : Pack} {st st' : Loaded} (h : Done check p st st') :
    ∃ l, st'.sent = st.sent ++ l := by
  obtain ⟨a, _, ⟨_, he⟩ | ⟨_, c, _, hx, _⟩⟩ := h
  · exact ⟨[], by rw [he]; simp⟩
  · rcases hx with ⟨_, _, he, _⟩ | ⟨r, _, _, _, ⟨_, he⟩ | ⟨_, he⟩⟩
    · exact ⟨[], by rw [he]; simp⟩
    · exact ⟨[], by rw [he]; simp⟩
    · exact ⟨_, he⟩

theorem loadLoop_complaints {check : Check} {ps : List Pack} {st st' : Loaded} (h : loadLoop check ps st = .ok st')
    (hc : st'.complaints = []) : st.complaints = [] := by
  induction ps generalizing st with
  | nil =>
    unfold loadLoop at h
    cases h
    exact hc
  | cons p ps ih =>
    unfold loadLoop at h
    cases hp : loadOne check st p with
    | error e => rw [hp] at h; cases h
    | ok st₁ =>
      rw [hp] at h
      exact (loadOne_done hp).complaints (ih h)

theorem loadLoop_sent {check : Check} {ps : List Pack} {st st' : Loaded} (h : loadLoop check ps st = .ok st') :
    ∃ l, st'.sent = st.sent ++ l := by
  induction ps generalizing st with
  | nil =>
    unfold loadLoop at h
    cases h
    exact ⟨[], by simp⟩
  | cons p ps ih =>
    unfold loadLoop at h
    cases hp : loadOne check st p with
    | error e => rw [hp] at h; cases h
    | ok st₁ =>
      rw [hp] at h
      obtain ⟨l, hl⟩ := ih h
      obtain ⟨l', hl'⟩ := (loadOne_done hp).sent
      exact ⟨l' ++ l, by rw [hl, hl', List.append_assoc]⟩

/-- what is known of each pack where loading ends well -/
def Good (check : Check) (sent : List (String × Map Conf)) (p : Pack) : Prop :=
  ∃ a, p.analyzer = some a ∧ (a.supports = true →
    ∃ c r, Reads p c ∧ reconcile check a.policies a.initial c = .ok r ∧ (∀ e ∈ r, IsLevel e.2.level) ∧
      (r ≠ [] → (a.name, r) ∈ sent))

theorem loadLoop_good {check : Check} {ps : List Pack} {st st' : Loaded} (h : loadLoop check ps st = .ok st')
    (hc : st'.complaints = []) : ∀ p ∈ ps, Good check st'.sent p := by
  induction ps generalizing st with
  | nil => intro p hp; cases hp
  | cons q ps ih =>
    unfold loadLoop at h
    cases hq : loadOne check st q with
    | error e => rw [hq] at h; cases h
    | ok st₁ =>
      rw [hq] at h
      simp only at h
      intro p hp
      rcases List.mem_cons.mp hp with hpq | hpp
      · subst hpq
        obtain ⟨l, hl⟩ := loadLoop_sent h
        have hc₁ := loadLoop_complaints h hc
        obtain ⟨a, ha, hx⟩ := loadOne_done hq
        refine ⟨a, ha, ?_⟩
        intro hs
        rcases hx with ⟨hs', _⟩ | ⟨_, c, hr, hy, _⟩
        · rw [hs] at hs'; cases hs'
        · rcases hy with ⟨_, _, _, hbad⟩ | ⟨r, hrec, _, hv, hsent⟩
          · exact absurd hc₁ hbad
          · refine ⟨c, r, hr, hrec, fun e he => (valid_iff _).mp (hv e he), fun hne => ?_⟩
            rcases hsent with ⟨hz, _⟩ | ⟨_, hs⟩
            · exact absurd hz hne
            · rw [hl, hs]
              simp
      · exact ih h p hpp

/-! ## What a user relies on -/

/-- Where an update goes on after loading its policy packs, each pack was started; and each pack that can be configured was
configured with the configuration put together from what the user gave, which each of its policies accepts and in which each
policy has one of the three levels. -/
theorem packs_are_configured (check : Check) (ps : List Pack) (sent : List (String × Map Conf)) (h : load check ps = .ok sent)
    (p : Pack) (hp : p ∈ ps) :
    ∃ a, p.analyzer = some a ∧ (a.supports = true →
      ∃ c r, Reads p c ∧ reconcile check a.policies a.initial c = .ok r ∧ (∀ e ∈ r, IsLevel e.2.level) ∧
        (r ≠ [] → (a.name, r) ∈ sent)) := by
  unfold load at h
  cases hl : loadLoop check ps { sent := [], complaints := [] } with
  | error e => rw [hl] at h; cases h
  | ok st =>
    rw [hl] at h
    simp only at h
    split at h
    · rename_i he
      cases h
      exact loadLoop_good hl (by simpa using he) p hp
    · cases h

/-- Where the configuration of any pack cannot be read, or is refused by any of its policies, the update does not begin. -/
theorem bad_configuration_stops (check : Check) (ps : List Pack) (p : Pack) (hp : p ∈ ps) (a : Analyzer)
    (ha : p.analyzer = some a) (hs : a.supports = true)
    (hbad : ∀ c, Reads p c → ∀ r, reconcile check a.policies a.initial c ≠ .ok r) : ∃ e, load check ps = .error e := by
  cases h : load check ps with
  | error e => exact ⟨e, rfl⟩
  | ok sent =>
    obtain ⟨a', ha', hx⟩ := packs_are_configured check ps sent h p hp
    rw [ha] at ha'
    cases ha'
    obtain ⟨c, r, hr, hrec, _⟩ := hx hs
    exact absurd hrec (hbad c hr r)

theorem loadLoop_from {check : Check} {ps : List Pack} {st st' : Loaded} (h : loadLoop check ps st = .ok st')
    (n : String) (r : Map Conf) (hm : (n, r) ∈ st'.sent) :
    (n, r) ∈ st.sent ∨ ∃ p ∈ ps, ∃ a c, p.analyzer = some a ∧ a.name = n ∧ a.supports = true ∧ Reads p c ∧
      reconcile check a.policies a.initial c = .ok r := by
  induction ps generalizing st with
  | nil =>
    unfold loadLoop at h
    cases h
    exact Or.inl hm
  | cons q ps ih =>
    unfold loadLoop at h
    cases hq : loadOne check st q with
    | error e => rw [hq] at h; cases h
    | ok st₁ =>
      rw [hq] at h
      simp only at h
      rcases ih h with h₁ | ⟨p, hp, hx⟩
      · obtain ⟨a, ha, hx⟩ := loadOne_done hq
        rcases hx with ⟨_, he⟩ | ⟨hs, c, hr, hy, _⟩
        · rw [he] at h₁; exact Or.inl h₁
        · rcases hy with ⟨_, _, he, _⟩ | ⟨r', hrec, _, _, ⟨_, he⟩ | ⟨_, he⟩⟩
          · rw [he] at h₁; exact Or.inl h₁
          · rw [he] at h₁; exact Or.inl h₁
          · rw [he, List.mem_append, List.mem_singleton] at h₁
            rcases h₁ with h₁ | h₁
            · exact Or.inl h₁
            · cases h₁
              exact Or.inr ⟨q, List.mem_cons_self, a, c, ha, rfl, hs, hr, hrec⟩
      · exact Or.inr ⟨p, List.mem_cons_of_mem _ hp, hx⟩

/-- A pack is configured with nothing but what was put together for a pack of its name. -/
theorem nothing_else_is_sent (check : Check) (ps : List Pack) (sent : List (String × Map Conf))
    (h : load check ps = .ok sent) (n : String) (r : Map Conf) (hm : (n, r) ∈ sent) :
    ∃ p ∈ ps, ∃ a c, p.analyzer = some a ∧ a.name = n ∧ a.supports = true ∧ Reads p c ∧
      reconcile check a.policies a.initial c = .ok r := by
  unfold load at h
  cases hl : loadLoop check ps { sent := [], complaints := [] } with
  | error e => rw [hl] at h; cases h
  | ok st =>
    rw [hl] at h
    simp only at h
    split at h
    · cases h
      rcases loadLoop_from hl n r hm with h' | h'
      · cases h'
      · exact h'
    · cases h

/-- A configuration file given for a pack that cannot be configured stops the update. -/
theorem unsupported_file_stops (check : Check) (ps : List Pack) (a : Analyzer) (f : Except String (Option Val))
    (hp : Pack.localPack none (.ok (some a)) (some f) ∈ ps) (hs : a.supports = false) : ∃ e, load check ps = .error e := by
  have key : ∀ st, ∃ e, loadLoop check ps st = .error e := by
    induction ps with
    | nil => cases hp
    | cons q ps ih =>
      intro st
      unfold loadLoop
      cases hq : loadOne check st q with
      | error e => exact ⟨e, rfl⟩
      | ok st' =>
        rcases List.mem_cons.mp hp with hh | hh
        · subst hh
          unfold loadOne at hq
          simp [hs] at hq
        · exact ih hh st'
  obtain ⟨e, he⟩ := key { sent := [], complaints := [] }
  unfold load
  rw [he]
  exact ⟨e, rfl⟩

def tagger : Analyzer := { name := "tagger", supports := true, policies := pack, initial := [], refuses := none }

example : ∃ sent, load noComplaints [.required none (.ok tagger) [("tags", some (.obj [("enforcementLevel", .str "disabled")]))],
    .localPack none (.ok (some tagger)) none] = .ok sent ∧ sent.length = 2 := ⟨_, rfl, rfl⟩

example : (∀ c, Reads (.required none (.ok tagger) [("tags", some (.str "mandatory"))]) c → ∀ r,
    reconcile noComplaints tagger.policies tagger.initial c ≠ .ok r) := by
  intro c hr
  cases hr with
  | required _ _ _ _ h => cases h

/-! ## Where it goes wrong -/

/-- A pack as above that cannot be configured -/
def oldTagger : Analyzer := { tagger with supports := false }

/-- What the service configures of a pack that cannot be configured is dropped without a word: a policy it disables stays
as it is. -/
theorem required_configuration_is_dropped :
    load noComplaints [.required none (.ok oldTagger) [("tags", some (.obj [("enforcementLevel", .str "disabled")]))]] = .ok [] ∧
    load noComplaints [.localPack none (.ok (some oldTagger)) (some (.ok (some (.obj [("tags", .str "disabled")]))))] =
      .error (.unsupported "tagger") := ⟨rfl, rfl⟩

/-- Properties under "all" do not reach a policy; they stop the update, with a complaint about an empty level. -/
theorem properties_of_all_stop_the_update :
    load noComplaints [.localPack none (.ok (some tagger)) (some (.ok (some (.obj [("all", .obj [("x", .other 1)])]))))] =
      .error (.badLevel "tagger" "") := rfl

/-- So does the property of a policy the pack has not, while a level for it is accepted. -/
theorem unknown_policy_with_properties :
    load noComplaints [.localPack none (.ok (some tagger)) (some (.ok (some (.obj [("tgas", .obj [("x", .other 1)])]))))] =
      .error (.badLevel "tagger" "") ∧
    ∃ sent, load noComplaints [.localPack none (.ok (some tagger)) (some (.ok (some (.obj [("tgas", .str "disabled")]))))] =
      .ok sent := ⟨rfl, _, rfl⟩

end Pulumi.Policy
