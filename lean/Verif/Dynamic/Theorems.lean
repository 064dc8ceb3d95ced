import Verif.Dynamic.Echo

/-! # Theorems on dynamic providers -/

namespace Pulumi.Dynamic

open Pulumi.Wire (PV W Env setKey UserKey Plain dropNonesKvs)

/-! ## Sample providers -/

/-- A provider whose resources remember their size. -/
def sampleProvider : Provider :=
  { Provider.base with
    create := fun d => .ok ({ id := "i", outs := some [("size", (d.lookup "size").getD .none), ("__provider", .none)] }, d)
    update := fun _ _ n => .ok ({ outs := some [("size", (n.lookup "size").getD .none)] }, n)
    diff := fun _ _ _ => .ok { changes := some true, replaces := some ["size"], stables := some ["name"] } }

def sampleLoad (c : String) : Option Provider :=
  if c = "p1" ∨ c = "p2" then some sampleProvider else none

theorem sample_good (v : PV) : GoodOuts [("size", v), ("__provider", .none)] ∧ GoodOuts [("size", v)] := by
  refine ⟨⟨by simp, ?_⟩, ⟨by simp, ?_⟩⟩ <;> simp [Wire.sigKey]

theorem sample_behaves : ∀ c p, sampleLoad c = some p → Behaves p := by
  intro c p h
  unfold sampleLoad at h
  split at h
  · cases h
    constructor
    · intro d r d' _ h
      cases h
      exact ⟨rfl, fun o ho => by cases ho; exact (sample_good _).1⟩
    · intro id o n r n' _ _ h
      cases h
      exact ⟨rfl, fun o ho => by cases ho; exact (sample_good _).2⟩
    · intro id d r d' hd h
      cases h
      exact ⟨rfl, fun o ho => by cases ho; exact hd⟩
  · cases h

/-! ## C99 -/

/-- **C99.** Through every history of creating, updating and refreshing, the state of a dynamic resource holds the
provider of the program that last created or updated it, so deleting it runs the `delete` of that provider, with the id
and the state of the resource, and refreshing it runs its `read`. -/
theorem provider_kept {env : Env} {load : String → Option Provider} (hb : ∀ c p, load c = some p → Behaves p)
    {c id : String} {s : Struct} (h : Lives env load c id s) :
    s.lookup "__provider" = some (.str c) ∧ ∃ p, load c = some p ∧
      (∀ d, readProps env false s = .ok d → delete env load id s = ran (p.delete id d)) ∧
      (∀ d m, readProps env false s = .ok d → p.read id d = .error m → read env load id s = .error (.provider m)) ∧
      (∀ d r d' id' s', readProps env false s = .ok d → p.read id d = .ok (r, d') → read env load id s = .ok (id', s') →
        id' = r.id.getD "") := by
  obtain ⟨hc, hne, p, hp⟩ := lives_carries hb h
  have hg : ∀ d, readProps env false s = .ok d → getProvider load d = .ok p :=
    fun d hd => getProvider_of (read_code_known hc hne hd) hp
  refine ⟨hc.code, p, hp, ?_, ?_, ?_⟩
  · intro d hd
    unfold delete
    rw [ok_bind hd, ok_bind (hg d hd)]
  · intro d m hd hm
    unfold read
    rw [ok_bind hd, ok_bind (hg d hd), hm]
    rfl
  · intro d r d' id' s' hd hr hres
    obtain ⟨d1, p1, r1, d1', o, h1, h2, h3, _, _, h6⟩ := read_ok hres
    rw [hd] at h1
    cases h1
    rw [hg d hd] at h2
    cases h2
    rw [hr] at h3
    cases h3
    exact h6

/-- Non-trivial instance: created by one program, refreshed, updated by another, refreshed. -/
example : ∃ s, Lives Wire.sampleEnv sampleLoad "p2" "i" s ∧ s = [("size", .num 5), ("__provider", .str "p2")] := by
  refine ⟨_, .refreshed (id := "i") (.updated (news := [("size", .num 5), ("__provider", .str "p2")])
    (.refreshed (id' := "i") (.created (props := [("size", .num 3), ("__provider", .str "p1")]) (id := "i") (c := "p1")
      ⟨by simp, rfl, rfl⟩ rfl) rfl) ⟨by simp, rfl, rfl⟩ rfl) rfl, rfl⟩

/-! ## C100 -/

/-- **C100.** Creating: the id and the properties that the provider gives, and the provider itself, are what is
reported, for plain properties. -/
theorem create_reports {env : Env} {load : String → Option Provider} {props : Struct} {c : String} {d : Dict}
    {p : Provider} {r : CreateResult} {d' : Dict} {o : Dict} (hs : Carries props c) (hc : c ≠ Wire.UNKNOWN)
    (hd : readProps env false props = .ok d) (hp : load c = some p) (hr : p.create d = .ok (r, d'))
    (hk : d'.lookup "__provider" = d.lookup "__provider") (ho : r.outs = some o) (hpl : Plain (.dict o)) :
    ∃ s, create env load props = .ok (r.id, s) ∧ Reports s o c := by
  have hl := read_code_known hs hc hd
  obtain ⟨s, hw, hrep⟩ := write_reports env hpl hc
  refine ⟨s, ?_, hrep⟩
  have hl' : d'.lookup providerKey = some (.str c) := by rw [← hl]; exact hk
  unfold create
  rw [ok_bind hd, ok_bind (getProvider_of hl hp), ok_bind (ran_ok.2 hr)]
  show (stamp (r.outs.getD []) d' >>= _) = _
  rw [ho]
  show (stamp o d' >>= _) = _
  rw [ok_bind (stamp_of hl'), ok_bind hw]
  rfl

/-- **C100.** Updating: the same, with the provider of the new properties. -/
theorem update_reports {env : Env} {load : String → Option Provider} {id : String} {olds news : Struct} {c : String}
    {od n : Dict} {p : Provider} {r : UpdateResult} {n' : Dict} {o : Dict} (hs : Carries news c) (hc : c ≠ Wire.UNKNOWN)
    (hod : readProps env false olds = .ok od) (hn : readProps env false news = .ok n) (hp : load c = some p)
    (hr : p.update id od n = .ok (r, n')) (hk : n'.lookup "__provider" = n.lookup "__provider")
    (ho : r.outs = some o) (hpl : Plain (.dict o)) :
    ∃ s, update env load id olds news = .ok s ∧ Reports s o c := by
  have hl := read_code_known hs hc hn
  obtain ⟨s, hw, hrep⟩ := write_reports env hpl hc
  refine ⟨s, ?_, hrep⟩
  have hl' : n'.lookup providerKey = some (.str c) := by rw [← hl]; exact hk
  unfold update
  rw [ok_bind hod, ok_bind hn, ok_bind (getProvider_of hl hp), ok_bind (ran_ok.2 hr)]
  show (stamp (r.outs.getD []) n' >>= _) = _
  rw [ho]
  show (stamp o n' >>= _) = _
  rw [ok_bind (stamp_of hl'), hw]

/-- **C100.** Checking: the inputs that the provider gives are what is used, and its failures are reported, in order. -/
theorem check_reports {env : Env} {load : String → Option Provider} {olds news : Struct} {c : String}
    {od n : Dict} {p : Provider} {n' : Dict} {o : Dict} {fs : List (String × String)} (hs : Carries news c)
    (hc : c ≠ Wire.UNKNOWN) (hod : readProps env true olds = .ok od) (hn : readProps env true news = .ok n)
    (hp : load c = some p) (hr : p.check od n = .ok ({ inputs := some o, failures := some fs }, n'))
    (hk : n'.lookup "__provider" = n.lookup "__provider") (hpl : Plain (.dict o)) :
    ∃ s, check env load olds news = .ok { inputs := s, failures := fs } ∧ Reports s o c := by
  have hl := read_code_known hs hc hn
  obtain ⟨s, hw, hrep⟩ := write_reports env hpl hc
  refine ⟨s, ?_, hrep⟩
  have hl' : n'.lookup providerKey = some (.str c) := by rw [← hl]; exact hk
  have hch : chooseProvider load od n = .ok p := by
    unfold chooseProvider
    rw [ok_bind (a := PV.str c) (by unfold item; rw [hl])]
    have : isSentinel (.str c) = false := by simpa [isSentinel] using hc
    rw [this]
    exact getProvider_of hl hp
  unfold check
  rw [ok_bind hod, ok_bind hn, ok_bind hch, ok_bind (ran_ok.2 hr)]
  show (stamp o n' >>= _) = _
  rw [ok_bind (stamp_of hl'), ok_bind hw]
  rfl

/-- **C100.** An exception of a method of the provider is the failure of the request. -/
theorem failures_reported {env : Env} {load : String → Option Provider} {id m : String} {olds news : Struct} {c : String}
    {p : Provider} (hs : Carries news c) (hc : c ≠ Wire.UNKNOWN) (hp : load c = some p) :
    (∀ d, readProps env false news = .ok d → p.create d = .error m → create env load news = .error (.provider m)) ∧
    (∀ o d, readProps env false olds = .ok o → readProps env false news = .ok d → p.update id o d = .error m →
      update env load id olds news = .error (.provider m)) ∧
    (∀ d, readProps env false news = .ok d → p.delete id d = .error m → delete env load id news = .error (.provider m)) ∧
    (∀ d, readProps env false news = .ok d → p.read id d = .error m → read env load id news = .error (.provider m)) := by
  have hg : ∀ d, readProps env false news = .ok d → getProvider load d = .ok p :=
    fun d hd => getProvider_of (read_code_known hs hc hd) hp
  refine ⟨?_, ?_, ?_, ?_⟩
  · intro d hd h
    unfold create; rw [ok_bind hd, ok_bind (hg d hd), h]; rfl
  · intro o d ho hd h
    unfold update; rw [ok_bind ho, ok_bind hd, ok_bind (hg d hd), h]; rfl
  · intro d hd h
    unfold delete; rw [ok_bind hd, ok_bind (hg d hd), h]; rfl
  · intro d hd h
    unfold read; rw [ok_bind hd, ok_bind (hg d hd), h]; rfl

/-- Non-trivial instance: the provider gives its own `__provider`, which is overridden. -/
example : create Wire.sampleEnv sampleLoad [("size", .num 3), ("__provider", .str "p1")] =
    .ok ("i", [("size", .num 3), ("__provider", .str "p1")]) := rfl

/-- A provider that does not override `update` loses all properties of the resource when it is updated: only the
provider is left. -/
theorem default_update_empties : update Wire.sampleEnv (fun _ => some Provider.base) "i"
      [("size", .num 3), ("__provider", .str "p1")] [("size", .num 4), ("__provider", .str "p1")] =
    .ok [("__provider", .str "p1")] := rfl

/-! ## C101 -/

/-- **C101.** The plain inputs that a program declares, without the `None` entries, are what `check` and `create` of the
provider are called with, together with the provider itself; the `check` that is not overridden accepts them and passes
them on. -/
theorem inputs_reach_provider {env env' : Env} (hk : ∀ k, env.translate k = k) {stmts : List ClassStmt}
    (hst : stmts ≠ []) {props : Dict} (hpl : Plain (.dict props)) (hno : "__provider" ∉ props.map (·.1)) {c : String}
    (hc : c ≠ Wire.UNKNOWN) (keep : Bool) {load : String → Option Provider} {p : Provider} (hp : load c = some p)
    (hdef : p.check = Provider.base.check) {olds : Struct} {od : Dict} (ho : readProps env' true olds = .ok od) :
    ∃ t sent P s, (construct stmts (.ok c) (some props)).result = .ok (t, sent) ∧
      Wire.serializeProperties env none keep sent = .ok P ∧
      check env' load olds P.fields = .ok { inputs := s, failures := [] } ∧
      (∀ k, readProps env' k P.fields = .ok (dropNonesKvs props ++ [("__provider", .str c)])) ∧
      (∀ k, readProps env' k s = .ok (dropNonesKvs props ++ [("__provider", .str c)])) := by
  have hlook : props.lookup providerKey = none := Wire.lookup_none hno
  obtain ⟨x, hx⟩ : ∃ x, stmts.getLast? = some x := by
    cases h : stmts.getLast? with
    | none => exact absurd (List.getLast?_eq_none_iff.1 h) hst
    | some x => exact ⟨x, rfl⟩
  have hcon : (construct stmts (.ok c) (some props)).result =
      .ok ("pulumi-python:" ++ typeName (x.module.getD "") (x.name.getD "Resource"), setKey props providerKey (.str c)) := by
    simp only [construct, hlook, classTypeName, hx, Option.isSome_none, Bool.false_eq_true, if_false]
  have hpl1 := plain_setKey hpl hc
  obtain ⟨P, hP, hsays⟩ := program_says hk hpl1 keep
  have hD : dropNonesKvs (setKey props providerKey (.str c)) = dropNonesKvs props ++ [("__provider", .str c)] := by
    rw [show setKey props providerKey (PV.str c) = props ++ [("__provider", .str c)] from Wire.setKey_fresh hno, drop_append]
    rfl
  have hplD : Plain (.dict (dropNonesKvs (setKey props providerKey (.str c)))) := (plain_drop hpl1).1
  have hidem := drop_idem hpl1
  have hlk := dropNonesKvs_setKey_self props providerKey c
  rw [← hD]
  generalize dropNonesKvs (setKey props providerKey (.str c)) = D at *
  obtain ⟨s, hw, hs⟩ := writeProps_says env' hplD
  rw [hidem] at hs
  refine ⟨_, _, P, s, hcon, hP, ?_, says_read hsays, says_read hs⟩
  have hch : chooseProvider load od D = .ok p := by
    unfold chooseProvider
    rw [ok_bind (a := PV.str c) (by unfold item; rw [hlk])]
    have : isSentinel (.str c) = false := by simpa [isSentinel] using hc
    rw [this]
    exact getProvider_of hlk hp
  unfold check
  rw [ok_bind ho, ok_bind (says_read hsays true), ok_bind hch, hdef]
  show (stamp D D >>= _) = _
  rw [ok_bind (stamp_of hlk), setKey_self_id hlk, ok_bind hw]
  rfl

/-- Non-trivial instance. -/
example : Plain (.dict [("size", .num 3), ("tags", .dict [("a", .none)])]) ∧ sampleProvider.check = Provider.base.check ∧
    dropNonesKvs [("size", .num 3), ("tags", .dict [("a", .none)])] = [("size", .num 3), ("tags", .dict [])] := by
  refine ⟨.dict (by simp) ?_ ?_, rfl, rfl⟩
  · intro kv h
    simp at h
    rcases h with rfl | rfl <;> exact ⟨by decide, fun h => absurd h (by decide)⟩
  · intro kv h
    simp at h
    rcases h with rfl | rfl
    · exact .num 3
    · refine .dict (by simp) ?_ ?_
      · intro kv h
        simp at h
        subst h
        exact ⟨by decide, fun h => absurd h (by decide)⟩
      · intro kv h
        simp at h
        subst h
        exact .none

/-- **C101.** The `check` that is not overridden passes on what the engine sends, also in a preview: unknown values
stay unknown, at any depth, and only null entries of objects are left out. -/
theorem default_check_echo {env : Env} {load : String → Option Provider} {olds news : Struct} {od : Dict} {c : String}
    {p : Provider} (ho : readProps env true olds = .ok od) (hn : PlainW (.struct news))
    (hcode : news.lookup "__provider" = some (.str c)) (hc : c ≠ Wire.UNKNOWN) (hp : load c = some p)
    (hdef : p.check = Provider.base.check) :
    check env load olds news = .ok { inputs := dropNullsKvs news, failures := [] } := by
  cases hn with
  | struct hnd hu hpl =>
    have hcar : Carries news c := ⟨hnd, Wire.lookup_none (fun hm => by
      obtain ⟨kv, hkv, e⟩ := List.mem_map.1 hm
      exact (hu kv hkv).1 e), hcode⟩
    have hread : readProps env true news = .ok (valKvs news) := by
      unfold readProps
      rw [desProps_val (env := plugin env) hu (fun kv hkv => des_val rfl (hpl kv hkv))]
    have hlk := read_code_known hcar hc hread
    have hch : chooseProvider load od (valKvs news) = .ok p := by
      unfold chooseProvider
      rw [ok_bind (a := PV.str c) (by unfold item; rw [hlk])]
      have : isSentinel (.str c) = false := by simpa [isSentinel] using hc
      rw [this]
      exact getProvider_of hlk hp
    obtain ⟨P, h1, h2⟩ := serProps_val (env := plugin env) (plugin_keeps env) (kvs := news)
      (acc := { fields := [], deps := [] }) (by simpa using hnd) hpl
    have hw : writeProps env (valKvs news) = .ok (dropNullsKvs news) := by
      unfold writeProps Wire.serializeProperties
      rw [h1]
      simp [h2]
    unfold check
    rw [ok_bind ho, ok_bind hread, ok_bind hch, hdef]
    show (stamp (valKvs news) (valKvs news) >>= _) = _
    rw [ok_bind (stamp_of hlk), setKey_self_id hlk, ok_bind hw]
    rfl

/-- Non-trivial instance: an unknown value inside a list, and a null. -/
example : check Wire.sampleEnv sampleLoad [] [("a", .list [.str Wire.UNKNOWN, .null]), ("b", .null),
      ("__provider", .str "p1")] =
    .ok { inputs := [("a", .list [.str Wire.UNKNOWN, .null]), ("__provider", .str "p1")], failures := [] } :=
  default_check_echo (od := []) (c := "p1") (p := sampleProvider) rfl
    (.struct (by simp) (by
      intro kv h
      simp at h
      rcases h with rfl | rfl | rfl
      · exact ⟨by decide, fun h => absurd h (by decide)⟩
      · exact ⟨by decide, fun h => absurd h (by decide)⟩
      · exact userKey_provider) (by
      intro kv h
      simp at h
      rcases h with rfl | rfl | rfl
      · refine .list ?_
        intro x hx
        simp at hx
        rcases hx with rfl | rfl
        · exact .str _
        · exact .null
      · exact .null
      · exact .str _)) rfl (by decide) rfl rfl

/-! ## C102 -/

/-- **C102.** Fails: when the provider of the new properties is not known yet, the provider of the old properties is to
be used, but both `Check` and `Diff` always fail. -/
theorem unknown_provider_raises {env : Env} {load : String → Option Provider} {olds news : Struct}
    (hs : Carries news Wire.UNKNOWN) (id : String) :
    (∀ r, check env load olds news ≠ .ok r) ∧ ∀ r, diff env load id olds news ≠ .ok r := by
  have key : ∀ o n p, readProps env true news = .ok n → chooseProvider load o n ≠ .ok p := by
    intro o n p hn h
    have hr := read_code hs hn
    unfold chooseProvider at h
    obtain ⟨v, hv, h⟩ := bind_ok.1 h
    unfold item at hv
    split at hv
    · rename_i v' hl
      cases hv
      have hl' : n.lookup "__provider" = some v := hl
      rw [hl'] at hr
      have : v = .unknown := by simpa [Wire.desStr] using hr
      subst this
      simp only [isSentinel, Bool.false_eq_true, if_false] at h
      obtain ⟨c, h1, _⟩ := getProvider_ok h
      rw [hl] at h1
      cases h1
    · cases hv
  constructor
  · intro r h
    obtain ⟨o, _, h⟩ := bind_ok.1 h
    obtain ⟨n, hn, h⟩ := bind_ok.1 h
    obtain ⟨p, hp, _⟩ := bind_ok.1 h
    exact key o n p hn hp
  · intro r h
    obtain ⟨o, _, h⟩ := bind_ok.1 h
    obtain ⟨n, hn, h⟩ := bind_ok.1 h
    obtain ⟨p, hp, _⟩ := bind_ok.1 h
    exact key o n p hn hp

/-- Non-trivial instance: the old properties have a provider that could be used. -/
example : Carries [("__provider", .str Wire.UNKNOWN)] Wire.UNKNOWN ∧
    check Wire.sampleEnv sampleLoad [("__provider", .str "p1")] [("__provider", .str Wire.UNKNOWN)] = .error .typeError :=
  ⟨⟨by simp, rfl, rfl⟩, rfl⟩

/-- **C102**, the part that holds: a known provider of the new properties is the one that checks and compares, whatever
the old properties say. -/
theorem new_provider_used_partial {env : Env} {load : String → Option Provider} {olds news : Struct} {o n : Dict}
    {c m id : String} {p : Provider} (hs : Carries news c) (hc : c ≠ Wire.UNKNOWN) (hp : load c = some p)
    (ho : readProps env true olds = .ok o) (hn : readProps env true news = .ok n) :
    (p.check o n = .error m → check env load olds news = .error (.provider m)) ∧
    (p.diff id o n = .error m → diff env load id olds news = .error (.provider m)) ∧
    ∀ r, p.diff id o n = .ok r → diff env load id olds news = .ok (diffResponse r) := by
  have hl := read_code_known hs hc hn
  have hch : chooseProvider load o n = .ok p := by
    unfold chooseProvider
    rw [ok_bind (a := PV.str c) (by unfold item; rw [hl])]
    have : isSentinel (.str c) = false := by simpa [isSentinel] using hc
    rw [this]
    exact getProvider_of hl hp
  refine ⟨?_, ?_, ?_⟩
  · intro h
    unfold check; rw [ok_bind ho, ok_bind hn, ok_bind hch, h]; rfl
  · intro h
    unfold diff; rw [ok_bind ho, ok_bind hn, ok_bind hch, h]; rfl
  · intro r h
    unfold diff; rw [ok_bind ho, ok_bind hn, ok_bind hch, h]; rfl

/-! ## C103 -/

/-- **C103.** What the engine is told of a `DiffResult`: whether there are changes (a `None` is "unknown"), which
properties require a replacement, and whether to delete first; and a different answer for results that differ there. -/
theorem diff_reported (r r' : DiffResult) :
    ((diffResponse r).changes = .some ↔ r.changes = some true) ∧
    ((diffResponse r).changes = .none ↔ r.changes = some false) ∧
    ((diffResponse r).changes = .unknown ↔ r.changes = none) ∧
    (∀ k, k ∈ (diffResponse r).replaces ↔ ∃ l, r.replaces = some l ∧ k ∈ l) ∧
    ((diffResponse r).deleteBeforeReplace = true ↔ r.deleteBeforeReplace = some true) ∧
    (diffResponse r = diffResponse r' ↔ r.changes = r'.changes ∧ r.replaces.getD [] = r'.replaces.getD [] ∧
      (r.deleteBeforeReplace = some true ↔ r'.deleteBeforeReplace = some true)) := by
  obtain ⟨c, rp, st, db⟩ := r
  obtain ⟨c', rp', st', db'⟩ := r'
  refine ⟨?_, ?_, ?_, ?_, ?_, ?_⟩
  · cases c with
    | none => simp [diffResponse]
    | some b => cases b <;> simp [diffResponse]
  · cases c with
    | none => simp [diffResponse]
    | some b => cases b <;> simp [diffResponse]
  · cases c with
    | none => simp [diffResponse]
    | some b => cases b <;> simp [diffResponse]
  · intro k
    cases rp <;> simp [diffResponse]
  · cases db with
    | none => simp [diffResponse]
    | some b => cases b <;> simp [diffResponse]
  · have hd : (db.getD false = db'.getD false) ↔ (db = some true ↔ db' = some true) := by
      rcases db with _ | _ | _ <;> rcases db' with _ | _ | _ <;> simp
    rcases c with _ | _ | _ <;> rcases c' with _ | _ | _ <;> simp [diffResponse, hd]

/-- Non-trivial instance. -/
example : diff Wire.sampleEnv sampleLoad "i" [] [("__provider", .str "p1")] =
    .ok { changes := .some, replaces := ["size"], stables := [], deleteBeforeReplace := false } := rfl

/-- **C103.** Fails for `stables`: the properties that the provider says will not change are never reported. -/
theorem stables_dropped {env : Env} {load : String → Option Provider} {id : String} {olds news : Struct}
    {r : DiffResponse} (h : diff env load id olds news = .ok r) : r.stables = [] := by
  obtain ⟨o, _, h⟩ := bind_ok.1 h
  obtain ⟨n, _, h⟩ := bind_ok.1 h
  obtain ⟨p, _, h⟩ := bind_ok.1 h
  obtain ⟨x, _, h⟩ := bind_ok.1 h
  cases h
  rfl

/-! ## C104 -/

/-- **C104.** Refreshing a resource that exists: the id and the properties that the provider reads are reported. -/
theorem read_reports_partial {env : Env} {load : String → Option Provider} {id : String} {props : Struct} {c : String}
    {d : Dict} {p : Provider} {r : ReadResult} {d' : Dict} {o : Dict} (hs : Carries props c) (hc : c ≠ Wire.UNKNOWN)
    (hd : readProps env false props = .ok d) (hp : load c = some p) (hr : p.read id d = .ok (r, d'))
    (hk : d'.lookup "__provider" = d.lookup "__provider") (ho : r.outs = some o) (hpl : Plain (.dict o)) :
    ∃ s, read env load id props = .ok (r.id.getD "", s) ∧ Reports s o c := by
  have hl := read_code_known hs hc hd
  obtain ⟨s, hw, hrep⟩ := write_reports env hpl hc
  refine ⟨s, ?_, hrep⟩
  have hl' : d'.lookup providerKey = some (.str c) := by rw [← hl]; exact hk
  unfold read
  rw [ok_bind hd, ok_bind (getProvider_of hl hp), ok_bind (ran_ok.2 hr)]
  show (stampOpt r.outs d' >>= _) = _
  rw [ho]
  show (stamp o d' >>= _) = _
  rw [ok_bind (stamp_of hl'), ok_bind hw]
  rfl

/-- **C104.** Fails for a resource that is missing: a provider that says so as documented, with `ReadResult()`, makes
the refresh fail, for every state of the resource. -/
theorem missing_raises {env : Env} {load : String → Option Provider} {id : String} {props : Struct} {c : String}
    {d : Dict} {p : Provider} {d' : Dict} (hs : Carries props c) (hc : c ≠ Wire.UNKNOWN)
    (hd : readProps env false props = .ok d) (hp : load c = some p) (hr : p.read id d = .ok ({}, d'))
    (hk : d'.lookup "__provider" = d.lookup "__provider") : read env load id props = .error .typeError := by
  have hl := read_code_known hs hc hd
  have hl' : d'.lookup providerKey = some (.str c) := by rw [← hl]; exact hk
  unfold read
  rw [ok_bind hd, ok_bind (getProvider_of hl hp), ok_bind (ran_ok.2 hr)]
  show (stampOpt none d' >>= _) = _
  unfold stampOpt item
  simp only [hl']
  rfl

/-- Non-trivial instances: a provider whose `read` is not overridden, and one that finds nothing. -/
example : read Wire.sampleEnv sampleLoad "i" [("size", .num 3), ("__provider", .str "p1")] =
    .ok ("i", [("size", .num 3), ("__provider", .str "p1")]) := rfl
example : read Wire.sampleEnv (fun _ => some { Provider.base with read := fun _ d => .ok ({}, d) }) "i"
    [("size", .num 3), ("__provider", .str "p1")] = .error .typeError := rfl

/-! ## C105 -/

/-- **C105.** A dynamic resource is registered with the declared properties and the pickled provider, or the constructor
raises before changing anything if the properties define the reserved key or the provider cannot be pickled. -/
theorem construct_registers {stmts : List ClassStmt} {props : Dict} :
    (∀ v pickled, props.lookup "__provider" = some v →
      construct stmts pickled (some props) = { callerProps := some props, result := .error .reserved }) ∧
    (∀ e, props.lookup "__provider" = none →
      construct stmts (.error e) (some props) = { callerProps := some props, result := .error e }) ∧
    (∀ c, props.lookup "__provider" = none → stmts ≠ [] →
      ∃ t, (construct stmts (.ok c) (some props)).result = .ok (t, props ++ [("__provider", .str c)])) := by
  refine ⟨?_, ?_, ?_⟩
  · intro v pickled h
    have h' : props.lookup providerKey = some v := h
    simp [construct, h']
  · intro e h
    have h' : props.lookup providerKey = none := h
    simp [construct, h']
  · intro c h hst
    have h' : props.lookup providerKey = none := h
    obtain ⟨x, hx⟩ : ∃ x, stmts.getLast? = some x := by
      cases h : stmts.getLast? with
      | none => exact absurd (List.getLast?_eq_none_iff.1 h) hst
      | some x => exact ⟨x, rfl⟩
    have hm : providerKey ∉ props.map (·.1) := by
      intro hm
      obtain ⟨kv, hkv, e⟩ := List.mem_map.1 hm
      exact Wire.lookup_eq_none h' kv hkv e
    refine ⟨"pulumi-python:" ++ typeName (x.module.getD "") (x.name.getD "Resource"), ?_⟩
    simp only [construct, h', classTypeName, hx, Option.isSome_none, Bool.false_eq_true, if_false]
    rw [Wire.setKey_fresh hm]
    rfl

/-- **C105.** Fails when the dict of properties is used again: the first constructor call adds the reserved key to the
caller's dict, so a second call with the same dict always raises. -/
theorem props_reuse_raises {stmts stmts' : List ClassStmt} {c : String} {pickled : Except Err String} {props : Dict}
    {t : String} {sent : Dict} (h : (construct stmts (.ok c) (some props)).result = .ok (t, sent)) :
    (construct stmts' pickled (construct stmts (.ok c) (some props)).callerProps).result = .error .reserved := by
  unfold construct at h ⊢
  by_cases hl : (props.lookup providerKey).isSome = true
  · simp only [hl, if_true] at h
    cases h
  · simp only [hl, Bool.false_eq_true, if_false] at h ⊢
    cases hc : classTypeName stmts with
    | error e =>
      rw [hc] at h
      cases h
    | ok t' =>
      simp only [Wire.setKey_lookup_self, Option.isSome_some, if_true]

/-- Non-trivial instance. -/
example : (construct [{ name := some "Size" }] (.ok "p1") (some [("size", .num 3)])).result =
    .ok ("pulumi-python:dynamic:Size", [("size", .num 3), ("__provider", .str "p1")]) := rfl

/-! ## C106 -/

/-- **C106.** Two classes whose names contain no colon have the same resource type only
if they have the same module and the same name. -/
theorem type_names_distinct_partial {m n m' n' : String} (hn : ':' ∉ n.toList) (hn' : ':' ∉ n'.toList)
    (h : typeName m n = typeName m' n') : m = m' ∧ n = n' := by
  have split : ∀ (a b x y : List Char), ':' ∉ x → ':' ∉ y → a ++ ':' :: x = b ++ ':' :: y → a = b ∧ x = y := by
    intro a b x y hx hy e
    have e' := congrArg List.reverse e
    simp only [List.reverse_append, List.reverse_cons, List.append_assoc] at e'
    have key : ∀ (u v s t : List Char), ':' ∉ u → ':' ∉ v → u ++ ':' :: s = v ++ ':' :: t → u = v ∧ s = t := by
      intro u
      induction u with
      | nil =>
        intro v s t _ hv e
        cases v with
        | nil => simpa using e
        | cons q v =>
          simp only [List.nil_append, List.cons_append, List.cons.injEq] at e
          exact absurd (List.mem_cons_self ..) (e.1 ▸ hv)
      | cons q u ih =>
        intro v s t hu hv e
        cases v with
        | nil =>
          simp only [List.nil_append, List.cons_append, List.cons.injEq] at e
          exact absurd (List.mem_cons_self ..) (e.1 ▸ hu)
        | cons q' v =>
          simp only [List.cons_append, List.cons.injEq] at e
          obtain ⟨h1, h2⟩ := ih v s t (fun hm => hu (List.mem_cons_of_mem _ hm))
            (fun hm => hv (List.mem_cons_of_mem _ hm)) e.2
          exact ⟨by rw [e.1, h1], h2⟩
    obtain ⟨h1, h2⟩ := key x.reverse y.reverse a.reverse b.reverse (by simpa using hx) (by simpa using hy)
      (by simpa using e')
    exact ⟨List.reverse_inj.1 h2, List.reverse_inj.1 h1⟩
  have e := congrArg String.toList h
  unfold typeName at e
  simp only [String.toList_append] at e
  have e2 := split _ _ n.toList n'.toList hn hn' (by simpa using e)
  refine ⟨?_, String.toList_inj.1 e2.2⟩
  have e3 := e2.1
  by_cases hm : m = ""
  · by_cases hm' : m' = ""
    · rw [hm, hm']
    · rw [if_pos hm, if_neg hm'] at e3
      simp at e3
  · by_cases hm' : m' = ""
    · rw [if_neg hm, if_pos hm'] at e3
      simp at e3
    · rw [if_neg hm, if_neg hm'] at e3
      exact String.toList_inj.1 (by simpa using e3)

/-- **C106.** Fails for a subclass of a class: the module and name of the base class are not kept, the resource gets
the default type. -/
theorem inherited_type_lost (stmts : List ClassStmt) :
    classTypeName (stmts ++ [({} : ClassStmt)]) = .ok "dynamic:Resource" := by
  simp only [classTypeName, List.getLast?_append, List.getLast?_singleton, Option.some_or]
  rfl

/-- **C106.** Fails for `Resource` itself: an instance of it cannot be made, whatever the properties. -/
theorem base_class_raises (pickled : Except Err String) (props : Option Dict) :
    ∃ e, (construct [] pickled props).result = .error e := by
  unfold construct
  cases props with
  | none => exact ⟨_, rfl⟩
  | some d =>
    simp only
    by_cases hl : (d.lookup providerKey).isSome = true
    · rw [if_pos hl]; exact ⟨_, rfl⟩
    · rw [if_neg hl]
      cases pickled with
      | error e => exact ⟨_, rfl⟩
      | ok c => exact ⟨_, rfl⟩

/-- Non-trivial instance. -/
example : typeName "aws/lambda" "Func" = "dynamic/aws/lambda:Func" ∧ ':' ∉ "Func".toList := ⟨rfl, by decide⟩

/-- The hypothesis on colons is needed. -/
theorem colon_collision : typeName "a:b" "c" = typeName "a" "b:c" := rfl

end Pulumi.Dynamic
