import Verif.Invoke.Spec
import Verif.Server.Theorems
import Verif.Construct.Lemmas
import Verif.Resolve.Lemmas
/-!
# Invokes and calls: the properties (C58-C61)
-/
namespace Pulumi.Invoke
open Pulumi.Wire (Env PV W ResId)
open Pulumi.Resolve (RV Exc M Store)
open Pulumi.Construct (Provider Dict PackageIs packageOf_iff)

variable {env : Env} {P : Providers} {C : Resolve.Classes} {var : String} {monitor : Request → Answer} {tok : Urn.Text}
  {props : List (String × PV)} {typ : Option String} {o : Opts}

/-! ## Lemmas -/

theorem choose_uses (o : Opts) (tok : Urn.Text) : Uses o tok (chooseProvider o tok).provider := by
  unfold chooseProvider
  split
  · rename_i d h1 h2
    simp only [Construct.getProvider]
    split
    · rename_i hp
      exact .noPackage h2 fun k hk => by rw [(packageOf_iff ..).2 hk] at hp; cases hp
    · rename_i k hp
      exact .parent h2 h1 ((packageOf_iff ..).1 hp)
  · rename_i h
    cases hp : o.provider with
    | some p => exact .given hp
    | none =>
      cases hd : o.parent with
      | none => exact .noParent hp hd
      | some d => exact absurd hp (h d hd)

theorem uses_unique {o : Opts} {tok : Urn.Text} {p q : Option Provider} (h1 : Uses o tok p) (h2 : Uses o tok q) : p = q := by
  have key : ∀ {r}, Uses o tok r → r = (chooseProvider o tok).provider := by
    intro r hr
    cases hr with
    | given h => unfold chooseProvider; simp [h]
    | parent h hd hk => unfold chooseProvider; simp [h, hd, Construct.getProvider, (packageOf_iff ..).2 hk]
    | noPackage h hk =>
      have : Construct.packageOf tok = none := by
        cases hp : Construct.packageOf tok with
        | none => rfl
        | some k => exact absurd ((packageOf_iff ..).1 hp) (hk k)
      unfold chooseProvider
      split
      · simp [Construct.getProvider, this]
      · exact h.symm
    | noParent h hd => unfold chooseProvider; simp [h, hd]
  rw [key h1, key h2]

theorem choose_other (o : Opts) (tok : Urn.Text) :
    (chooseProvider o tok).parent = o.parent ∧ (chooseProvider o tok).version = o.version ∧
      (chooseProvider o tok).url = o.url := by
  unfold chooseProvider
  split <;> exact ⟨rfl, rfl, rfl⟩

/-! ## C58: what an invoke returns and raises -/

/-- **C58** An invoke sends one request, with the function's token, the arguments as serialised, the provider it is to use,
and version and URL of its options; or none, if the arguments cannot be serialised. -/
theorem invoke_request (req : Request) :
    (invoke env P C var monitor tok props typ o).request = some req ↔
      ∃ p q, Wire.serializeProperties { env with transform := none } none false props = .ok p ∧ Uses o tok q ∧
        req.tok = tok ∧ req.args = p.fields ∧ req.provider = q.map (providerRef P) ∧ req.version = o.version.getD "" ∧
        req.url = o.url.getD "" ∧ (req.acceptResources = true ↔ var.toUpper ≠ "TRUE" ∧ var.toUpper ≠ "1") := by
  obtain ⟨-, hv, hu⟩ := choose_other o tok
  have hacc : acceptResources var = true ↔ var.toUpper ≠ "TRUE" ∧ var.toUpper ≠ "1" := by
    simp [acceptResources]
  unfold invoke prepare
  cases hs : Wire.serializeProperties { env with transform := none } none false props with
  | error e => simp
  | ok p =>
    simp only [Option.some.injEq]
    constructor
    · rintro rfl
      exact ⟨p, _, rfl, choose_uses o tok, rfl, rfl, rfl, by rw [hv], by rw [hu], hacc⟩
    · rintro ⟨p', q, h1, h2, h3, h4, h5, h6, h7, h8⟩
      cases h1
      have : req.acceptResources = acceptResources var := by
        rw [Bool.eq_iff_iff, h8, hacc]
      cases req
      simp only at h3 h4 h5 h6 h7 this
      rw [h3, h4, h5, h6, h7, this, uses_unique h2 (choose_uses o tok), hv, hu]

theorem readReturn_iff (object : List (String × W)) (r : Option RV) :
    readReturn env C typ object = .ok r ↔ Returned env C typ object r := by
  unfold readReturn
  cases object with
  | nil =>
    constructor
    · rintro ⟨⟩; exact .empty
    · intro h
      cases h with
      | empty => rfl
      | plain h => exact absurd rfl h
      | typed h => exact absurd rfl h
  | cons kv object =>
    simp only
    cases hd : Wire.deserializeProperties env false false (kv :: object) with
    | error e =>
      constructor
      · rintro ⟨⟩
      · intro h
        cases h with
        | plain _ h => rw [hd] at h; cases h
        | typed _ h => rw [hd] at h; cases h
    | ok v =>
      cases typ with
      | none =>
        constructor
        · rintro ⟨⟩; exact .plain (by simp) hd
        · intro h
          cases h with
          | plain _ h => rw [hd] at h; cases h; rfl
      | some cls =>
        simp only
        cases ht : Resolve.trans C false id (.output cls) v with
        | error e =>
          constructor
          · rintro ⟨⟩
          · intro h
            cases h with
            | typed _ h h' => rw [hd] at h; cases h; rw [ht] at h'; cases h'
        | ok x =>
          constructor
          · rintro ⟨⟩; exact .typed (by simp) hd ht
          · intro h
            cases h with
            | typed _ h h' => rw [hd] at h; cases h; rw [ht] at h'; cases h'; rfl

/-- **C58** An invoke returns a value exactly if its request was answered with an object and without failures, and the value
is what is read from the object. So after any failure it raises. -/
theorem invoke_returns (r : Option RV) :
    (invoke env P C var monitor tok props typ o).result = .ok r ↔
      ∃ req object, (invoke env P C var monitor tok props typ o).request = some req ∧ monitor req = .reply [] object ∧
        Returned env C typ object r := by
  unfold invoke
  simp only
  cases hp : prepare env P var tok props (chooseProvider o tok) with
  | error e => simp
  | ok req =>
    simp only [Option.some.injEq]
    constructor
    · intro h
      unfold finish at h
      split at h
      · cases h
      · cases h
      · cases h
      · rename_i object ha
        split at h
        · cases h
        · rename_i x hx
          cases h
          exact ⟨req, object, rfl, ha, (readReturn_iff ..).1 hx⟩
    · rintro ⟨req', object, rfl, ha, hr⟩
      simp only [finish, ha, (readReturn_iff ..).2 hr]

/-- **C58** A failure of the provider is raised with the first reason it gives, a failure of the monitor with its details;
the caller may catch these and go on, for they are not recorded. Anything else that goes wrong is raised as well, and
recorded, so that the program fails. -/
theorem invoke_raises {req : Request} (hreq : (invoke env P C var monitor tok props typ o).request = some req) :
    (∀ reason property rest object, monitor req = .reply ((reason, property) :: rest) object →
      (invoke env P C var monitor tok props typ o).result = .error (.failure tok reason property)) ∧
    (∀ details, monitor req = .failed details →
      (invoke env P C var monitor tok props typ o).result = .error (.rpc tok details)) ∧
    (monitor req = .unavailable → ∃ m, (invoke env P C var monitor tok props typ o).result = .error (.rpc tok m)) ∧
    ((invoke env P C var monitor tok props typ o).recorded = none ↔
      ∀ object, monitor req = .reply [] object → ∃ r, Returned env C typ object r) := by
  unfold invoke at hreq ⊢
  simp only at hreq ⊢
  cases hp : prepare env P var tok props (chooseProvider o tok) with
  | error e => rw [hp] at hreq; cases hreq
  | ok req' =>
    rw [hp] at hreq
    simp only [Option.some.injEq] at hreq ⊢
    subst hreq
    refine ⟨?_, ?_, ?_, ?_⟩
    · intro reason property rest object h; simp only [finish, h]
    · intro details h; simp only [finish, h]
    · intro h; exact ⟨_, by simp only [finish, h]; rfl⟩
    · unfold finish
      split
      · rename_i h; simp [recorded, h]
      · rename_i d h; simp [recorded, h]
      · rename_i a b c d h; simp [recorded, h]
      · rename_i object h
        rw [h]
        cases hr : readReturn env C typ object with
        | error e =>
          simp only [recorded, reduceCtorEq, false_iff]
          intro hall
          obtain ⟨r, hr'⟩ := hall object rfl
          rw [← readReturn_iff, hr] at hr'
          cases hr'
        | ok r =>
          simp only [recorded, true_iff]
          intro object' h'
          cases h'
          exact ⟨r, (readReturn_iff ..).1 hr⟩

/-- **C58** Arguments that cannot be serialised make the invoke raise, too. -/
theorem bad_arguments_raise {e : Wire.Err}
    (h : Wire.serializeProperties { env with transform := none } none false props = .error e) :
    (invoke env P C var monitor tok props typ o).result = .error (.internal e) ∧
      (invoke env P C var monitor tok props typ o).recorded = some e := by
  unfold invoke prepare
  rw [h]
  exact ⟨rfl, rfl⟩

/-- **C58** A provider is referred to by its URN and its id; an id that is not known yet is replaced by the marker for
unknowns. -/
theorem provider_reference {p : Provider} {u : String} (hu : P.urn p = some u) :
    (∀ i, P.id p = some i → i ≠ "" → providerRef P p = u ++ "::" ++ i) ∧
    ((P.id p = none ∨ P.id p = some "") → providerRef P p = u ++ "::" ++ "04da6b54-80e4-46f7-96ec-b56ff0331ba9") := by
  constructor
  · intro i hi hne; simp [providerRef, hu, hi, hne]
  · rintro (h | h) <;> simp [providerRef, hu, h, Wire.UNKNOWN]

/-- **C58** fails for a provider whose URN is not known: the invoke refers to a provider named `None`. -/
theorem unnamed_provider_reference {p : Provider} (hu : P.urn p = none) (hi : P.id p = none) :
    providerRef P p = "None::04da6b54-80e4-46f7-96ec-b56ff0331ba9" := by
  simp [providerRef, hu, hi, Wire.UNKNOWN]

/-- A provider of package `a` and one of package `b`, and a parent that has both. -/
def provA : Provider := ⟨1, ['a']⟩
def provB : Provider := ⟨2, ['b']⟩
def bothOpts : Opts := { parent := some [(['a'], provA), (['b'], provB)] }
def sampleProviders : Providers := { urn := fun p => some (if p.id = 1 then "urnA" else "urnB"), id := fun _ => some "i" }
def sampleEnv : Env := Wire.sampleEnv
def sampleClasses : Resolve.Classes := { output := fun _ => ⟨[], none⟩, enum := fun _ => [] }

/-- Non-trivial instance: an invoke of a function of package `a` that succeeds, and one that fails. -/
example : ∃ req, (invoke sampleEnv sampleProviders sampleClasses "" (fun _ => .reply [] [("x", .num 3)]) "a:m:f".toList [("y", .str "z")]
      none bothOpts).request = some req ∧ req.provider = some "urnA::i" ∧
    (invoke sampleEnv sampleProviders sampleClasses "" (fun _ => .reply [] [("x", .num 3)]) "a:m:f".toList [("y", .str "z")]
      none bothOpts).result = .ok (some (.leaf (.dict [("x", .num 3)]))) := ⟨_, rfl, rfl, rfl⟩

example : (invoke sampleEnv sampleProviders sampleClasses "" (fun _ => .reply [("bad", "p")] []) "a:m:f".toList [("y", .str "z")]
      none bothOpts).result = .error (.failure "a:m:f".toList "bad" "p") := rfl

/-! ## C59: the provider of an invoke -/

theorem invoke_opts : (invoke env P C var monitor tok props typ o).opts = chooseProvider o tok := by
  unfold invoke
  simp only
  split <;> rfl

theorem choose_again {o : Opts} {tok : Urn.Text} {k : Urn.Text} (hk : PackageIs tok k) {tok' : Urn.Text} (hk' : PackageIs tok' k)
    {q : Option Provider} (h : Uses (chooseProvider o tok) tok' q) : Uses o tok' q := by
  have h1 := uses_unique h (choose_uses _ _)
  subst h1
  have h2 : (chooseProvider (chooseProvider o tok) tok').provider = (chooseProvider o tok').provider := by
    unfold chooseProvider
    cases hd : o.parent with
    | none => simp [hd]
    | some d =>
      cases hp : o.provider with
      | some p => simp [hd, hp]
      | none =>
        simp only [Construct.getProvider, (packageOf_iff ..).2 hk, (packageOf_iff ..).2 hk']
        generalize hl : d.lookup k = l
        cases l with
        | none => exact hl
        | some p => rfl
  rw [h2]
  exact choose_uses _ _

/-- **C59**, for functions of one package: each of several invokes with the same options object uses the provider that the
options give. (For functions of different packages this is not so, see `reused_options`.) -/
theorem provider_used_partial {k : Urn.Text} (jobs : List (Urn.Text × List (String × PV) × Option String))
    (hk : ∀ j ∈ jobs, PackageIs j.1 k) (o : Opts) (i : Nat) (job : Urn.Text × List (String × PV) × Option String)
    (hj : jobs[i]? = some job) (out : Outcome) (ho : (invokes env P C var monitor jobs o)[i]? = some out) (req : Request)
    (hreq : out.request = some req) : ∃ q, Uses o job.1 q ∧ req.provider = q.map (providerRef P) := by
  induction jobs generalizing o i with
  | nil => simp at hj
  | cons j jobs ih =>
    obtain ⟨tok, props, typ⟩ := j
    cases i with
    | zero =>
      simp only [List.getElem?_cons_zero, Option.some.injEq, invokes] at hj ho
      subst hj; subst ho
      obtain ⟨_, q, _, h1, _, _, h2, _⟩ := (invoke_request req).1 hreq
      exact ⟨q, h1, h2⟩
    | succ i =>
      simp only [List.getElem?_cons_succ, invokes] at hj ho
      obtain ⟨q, h1, h2⟩ := ih (fun j hj => hk j (List.mem_cons_of_mem _ hj)) _ i hj ho
      rw [invoke_opts] at h1
      exact ⟨q, choose_again (hk _ (List.mem_cons_self ..)) (hk _ (List.mem_cons_of_mem _ (List.mem_of_getElem? hj))) h1, h2⟩

/-- **C59** does not hold in general: the first invoke writes the provider it found into the options. The second one here
goes to the provider of package `a`, although its function is of package `b` and the parent has a provider for `b`. -/
theorem reused_options :
    ∃ out req, (invokes sampleEnv sampleProviders sampleClasses "" (fun _ => .reply [] [])
        [("a:m:f".toList, [], none), ("b:m:g".toList, [], none)] bothOpts)[1]? = some out ∧ out.request = some req ∧
      Uses bothOpts "b:m:g".toList (some provB) ∧ req.provider = some (providerRef sampleProviders provA) ∧
      providerRef sampleProviders provA ≠ providerRef sampleProviders provB := by
  refine ⟨_, _, rfl, rfl, ?_, rfl, by decide⟩
  exact .parent (d := [(['a'], provA), (['b'], provB)]) (k := ['b']) rfl rfl
    ⟨['m'], ['g'], rfl, by decide, by decide, by decide⟩

/-- Non-trivial instance of `provider_used_partial`: two functions of package `b`. -/
example : ∀ j ∈ [("b:m:f".toList, ([] : List (String × PV)), (none : Option String)), ("b:n:g".toList, [], none)],
    PackageIs j.1 ['b'] := by
  intro j hj
  simp only [List.mem_cons, List.not_mem_nil, or_false] at hj
  rcases hj with rfl | rfl
  · exact ⟨['m'], ['f'], rfl, by decide, by decide, by decide⟩
  · exact ⟨['n'], ['g'], rfl, by decide, by decide, by decide⟩

/-! ## C60: merging invoke options -/

/-- The options an argument stands for. -/
def given (h : Heap) : Option Nat → Option Opts
  | none => some {}
  | some i => h[i]?.map (·.opts)

theorem arg_spec {h h' : Heap} {a : Option Nat} {i : Nat} (ha : arg h a = some (h', i)) :
    h <+: h' ∧ h'[i]?.map (·.opts) = given h a := by
  unfold arg at ha
  cases a with
  | none =>
    simp only [new, Option.some.injEq, Prod.mk.injEq] at ha
    obtain ⟨rfl, rfl⟩ := ha
    exact ⟨List.prefix_append _ _, by simp [given]⟩
  | some j =>
    simp only at ha
    split at ha
    · cases ha; exact ⟨List.prefix_refl _, rfl⟩
    · cases ha

theorem given_mono {h h' : Heap} (hp : h <+: h') {b : Option Nat} {y : Opts} (hy : given h b = some y) : given h' b = some y := by
  cases b with
  | none => exact hy
  | some i =>
    simp only [given, Option.map_eq_some_iff] at hy ⊢
    obtain ⟨x, h1, h2⟩ := hy
    obtain ⟨t, rfl⟩ := hp
    exact ⟨x, by rw [List.getElem?_append_left (List.getElem?_eq_some_iff.1 h1).1]; exact h1, h2⟩

/-- **C60** Options can always be merged. -/
theorem merge_total {h : Heap} {a b : Option Nat} {x y : Opts} (hx : given h a = some x) (hy : given h b = some y) :
    ∃ h' i, merge h a b = some (h', i) := by
  have key : ∀ {h : Heap} {a : Option Nat} {x : Opts}, given h a = some x → ∃ h' i, arg h a = some (h', i) := by
    intro h a x hx
    cases a with
    | none => exact ⟨_, _, rfl⟩
    | some i =>
      simp only [given, Option.map_eq_some_iff] at hx
      obtain ⟨o, h1, _⟩ := hx
      exact ⟨h, i, by simp [arg, (List.getElem?_eq_some_iff.1 h1).1]⟩
  obtain ⟨h1, i, ha⟩ := key hx
  obtain ⟨p1, e1⟩ := arg_spec ha
  have hy1 := given_mono p1 hy
  obtain ⟨h2, j, hb⟩ := key hy1
  obtain ⟨p2, e2⟩ := arg_spec hb
  rw [hx] at e1
  have e1' : h2[i]?.map (·.opts) = some x := given_mono (b := some i) p2 e1
  rw [hy1] at e2
  simp only [Option.map_eq_some_iff] at e1' e2
  obtain ⟨x', q1, _⟩ := e1'
  obtain ⟨y', q2, _⟩ := e2
  exact ⟨_, _, by simp only [merge, ha, hb, q1, q2]; rfl⟩

/-- **C60** The merged options have what the second bag has, and else what the first has; existing bags stay as they are.
For the version this holds only where "has" includes the empty string, which is what a bag has that was given no version;
see `merge_loses_version`. -/
theorem merge_partial {h h' : Heap} {a b : Option Nat} {i : Nat} (hm : merge h a b = some (h', i)) {x y : Opts}
    (hx : given h a = some x) (hy : given h b = some y) :
    (∃ r, given h' (some i) = some r ∧ Overrides x.parent y.parent r.parent ∧ Overrides x.provider y.provider r.provider ∧
      Overrides x.url y.url r.url ∧ Overrides x.version y.version r.version) ∧ h <+: h' := by
  unfold merge at hm
  split at hm
  · cases hm
  · rename_i h1 i1 ha
    split at hm
    · cases hm
    · rename_i h2 i2 hb
      split at hm
      · rename_i x' y' hx' hy'
        simp only [Option.some.injEq, Prod.mk.injEq] at hm
        obtain ⟨rfl, rfl⟩ := hm
        obtain ⟨p1, e1⟩ := arg_spec ha
        obtain ⟨p2, e2⟩ := arg_spec hb
        rw [hx] at e1
        rw [given_mono p1 hy] at e2
        have e1' : h2[i1]?.map (·.opts) = some x := given_mono (b := some i1) p2 e1
        rw [hx'] at e1'
        rw [hy'] at e2
        simp only [Option.map_some, Option.some.injEq] at e1' e2
        subst e1'; subst e2
        refine ⟨⟨over x'.opts y'.opts, by simp [given], ?_, ?_, ?_, ?_⟩, (p1.trans p2).trans (List.prefix_append _ _)⟩
        all_goals
          simp only [over, Overrides]
          constructor
          · intro hne
            rw [if_neg (by simpa using hne)]
          · intro he
            simp [he]
      · cases hm

/-- Non-trivial instance. -/
example : ∃ h' r, merge [⟨{ version := some "1.0", url := some "u" }, 0⟩, ⟨{ provider := some provA, version := none }, 1⟩] (some 0) (some 1)
      = some (h', 2) ∧ given h' (some 2) = some r ∧ r = { provider := some provA, version := some "1.0", url := some "u" } :=
  ⟨_, _, rfl, rfl, rfl⟩

/-- **C60** does not hold for the version: merging a bag that was given no version, even `None` in place of a bag, loses the
version of the first bag. -/
theorem merge_loses_version (v : String) :
    (∃ h' r, merge [⟨{ version := some v }, 0⟩, ⟨{ provider := some provA }, 1⟩] (some 0) (some 1) = some (h', 2) ∧
      given h' (some 2) = some r ∧ r.version = some "") ∧
    (∃ h' i r, merge [⟨{ version := some v }, 0⟩] (some 0) none = some (h', i) ∧ given h' (some i) = some r ∧
      r.version = some "") := ⟨⟨_, _, rfl, rfl, rfl⟩, ⟨_, _, _, rfl, rfl, rfl⟩⟩

/-- **C60** does not hold for `a.merge(b).merge(c)`: the result of `a.merge(b)` has the `merge` of `a`, so `b` is lost. -/
theorem chained_merge_loses :
    ∃ h1 h2 r, mergeInstance [⟨{}, 0⟩, ⟨{ provider := some provA }, 1⟩, ⟨{ url := some "u" }, 2⟩] 0 (some 1) = some (h1, 3) ∧
      mergeInstance h1 3 (some 2) = some (h2, 4) ∧ given h1 (some 3) = some { provider := some provA } ∧
      given h2 (some 4) = some r ∧ r.provider = none := ⟨_, _, _, rfl, rfl, rfl, rfl, rfl⟩

/-! ## C61: the Output of a call -/

theorem unwrap_marking {w : W} {v : PV} (hd : Wire.des env false w = .ok v) (x : PV) :
    x = Wire.unwrapSecret v ↔ ∃ b, Resolve.Marking v x b := by
  rcases Wire.des_bubbled env w false v hd with h | ⟨y, rfl, hy⟩
  · have h0 : Wire.isRpcSecret v = false := Wire.noMarker_not_secret h
    have h1 : Wire.unwrapSecret v = v := by simp [Wire.unwrapSecret, h0]
    rw [h1]
    constructor
    · rintro rfl; exact ⟨false, .plain h⟩
    · rintro ⟨b, hb⟩
      cases hb with
      | plain _ => rfl
      | secret _ => simp [Wire.isRpcSecret] at h0
  · have h1 : Wire.isRpcSecret (.dict [(Wire.sigKey, .str Wire.secretSig), ("value", y)]) = true := by
      simp [Wire.isRpcSecret]
    have hne : ("value" == Wire.sigKey) = false := by decide
    have h2 : Wire.unwrapSecret (.dict [(Wire.sigKey, .str Wire.secretSig), ("value", y)]) = y := by
      simp [Wire.unwrapSecret, h1, List.lookup, hne]
    show x = Wire.unwrapSecret (.dict [(Wire.sigKey, .str Wire.secretSig), ("value", y)]) ↔ _
    rw [h2]
    constructor
    · rintro rfl; exact ⟨true, .secret hy⟩
    · rintro ⟨b, hb⟩
      cases hb with
      | plain h =>
        have h3 := Wire.noMarker_not_secret h
        exact absurd (h3.symm.trans h1) (by decide)
      | secret _ => rfl

theorem containsUnknown_dict {kvs : List (String × PV)} :
    Wire.ContainsUnknown (.dict kvs) ↔ ∃ k v, (k, v) ∈ kvs ∧ Wire.ContainsUnknown v := by
  constructor
  · intro h
    cases h with
    | dict h1 h2 => exact ⟨_, _, h1, h2⟩
  · rintro ⟨k, v, h1, h2⟩; exact .dict h1 h2

/-- **C61** What the Output of a call is resolved with. -/
theorem call_result {r : CallReply} (hsig : r.object.lookup Wire.sigKey = none) (hne : r.object ≠ []) {c : CallResult}
    (h : readCall env C typ r = .ok c) : CallSpec env C typ r c := by
  unfold readCall at h
  split at h
  · contradiction
  · rename_i object _
    simp only at h
    split at h
    · cases h
    · rename_i kvs hd
      split at h
      · cases h
      · rename_i v hv
        cases h
        have hm := fun k v => Wire.object_entries (k := k) (v := v) hsig hd
        have hknown : (!Wire.hasUnknown (.dict kvs)) = true ↔ ∀ k w v, (k, w) ∈ r.object → Wire.Visible k →
            Wire.des env false w = .ok v → ¬ Wire.ContainsUnknown v := by
          rw [Bool.not_eq_true', Wire.hasUnknown_false_iff, containsUnknown_dict]
          constructor
          · intro hn k w v h1 h2 h3 hc
            refine hn ⟨k, v, (hm k v).2 ⟨.inr h2, ?_, w, h1, h3⟩, hc⟩
            rintro rfl; cases hc
          · rintro hall ⟨k, v, h1, hc⟩
            obtain ⟨h2, _, w, h3, h4⟩ := (hm k v).1 h1
            exact hall k w v h3 (by simpa using h2) h4 hc
        refine ⟨hknown, ?_, ?_, ?_, ?_⟩
        · rw [List.any_eq_true]
          constructor
          · rintro ⟨⟨k, v⟩, h1, h2⟩
            obtain ⟨h3, _, w, h4, h5⟩ := (hm k v).1 h1
            exact ⟨k, w, h4, by simpa using h3,
              (Wire.marked_iff h5).1 ((Wire.des_bubbled env w false v h5).secret_iff.1 h2)⟩
          · rintro ⟨k, w, h1, h2, h3⟩
            have hok : ∃ v, Wire.des env false w = .ok v := by
              cases Wire.structCase hd with
              | ordinary _ hc _ => exact Wire.collect_all hc h1 (.inr h2)
              | _ => simp_all
            obtain ⟨v, h4⟩ := hok
            have hsec := (Wire.marked_iff h4).2 h3
            refine ⟨(k, v), (hm k v).2 ⟨.inr h2, ?_, w, h1, h4⟩, (Wire.des_bubbled env w false v h4).secret_iff.2 hsec⟩
            rintro rfl
            obtain ⟨x, hx, _⟩ := hsec
            cases hx
        · intro d
          simp only [List.mem_map, Server.urnSet]
          constructor
          · rintro ⟨u, h1, rfl⟩
            rw [Server.mem_urnSet_go] at h1
            rcases h1 with h1 | h1
            · cases h1
            · obtain ⟨⟨k, us⟩, h2, h3⟩ := List.mem_flatMap.1 h1
              exact ⟨k, us, u, h2, h3, rfl⟩
          · rintro ⟨k, us, u, h1, h2, rfl⟩
            exact ⟨u, (Server.mem_urnSet_go ..).2 (.inr (List.mem_flatMap.2 ⟨(k, us), h1, h2⟩)), rfl⟩
        · intro hk
          simp only at hk
          simp only [callValue, hk] at hv
          cases hv; rfl
        · intro hk
          simp only at hk
          simp only [callValue, hk, if_true] at hv
          refine ⟨kvs.map fun kv => (kv.1, Wire.unwrapSecret kv.2), ?_, ?_, ?_⟩
          · intro k x
            rw [List.mem_map]
            constructor
            · rintro ⟨⟨k', v⟩, h1, h2⟩
              simp only [Prod.mk.injEq] at h2
              obtain ⟨rfl, rfl⟩ := h2
              obtain ⟨h3, h4, w, h5, h6⟩ := (hm k' v).1 h1
              obtain ⟨b, hb⟩ := (unwrap_marking h6 _).1 rfl
              exact ⟨by simpa using h3, w, v, b, h5, h6, h4, hb⟩
            · rintro ⟨h1, w, v, b, h2, h3, h4, h5⟩
              exact ⟨(k, v), (hm k v).2 ⟨.inr h1, h4, w, h2, h3⟩, by rw [(unwrap_marking h3 x).2 ⟨b, h5⟩]⟩
          · rintro rfl
            simp only [Except.ok.injEq] at hv
            exact hv.symm
          · rintro cls rfl
            exact hv
    · cases h

/-- **C61** An empty answer, too, resolves the Output. -/
theorem call_empty {r : CallReply} (h : r.object = []) :
    readCall env C typ r = .ok { value := .leaf .none, known := true, secret := false, deps := [] } := by
  simp only [readCall, h]

/-- The call of `tok` is answered, without failures, by something that can be read. -/
def Answered (env : Env) (P : Providers) (C : Resolve.Classes) (monitor : CallRequest → Except String (Option CallReply))
    (tok : Urn.Text) (props : List (String × PV)) (res : Option Self) (typ : Option String) (c : CallResult) : Prop :=
  ∃ req reply, prepareCall env P tok props res = .ok req ∧ monitor req = .ok (some reply) ∧ reply.failures = [] ∧
    readCall env C typ reply = .ok c

theorem resolveCall_run (c : CallResult) : resolveCall c [] = (.ok (), [((out, .value), .value c.value),
    ((out, .known), .flag c.known), ((out, .secret), .flag c.secret), ((out, .deps), .deps c.deps)]) := rfl

theorem failCall_run (e : Exc) : failCall e [] = (.ok (), [((out, .value), .failed e),
    ((out, .known), .failed e), ((out, .secret), .failed e), ((out, .deps), .deps [])]) := rfl

/-- **C61** Whatever happens, the Output of a call is resolved exactly once, all four parts of it: with the result if there is
one, and otherwise with an exception, which is raised as well, so that the program fails. (A monitor never answers `None`.) -/
theorem call_settles {monitor : CallRequest → Except String (Option CallReply)} {res : Option Self}
    (hm : ∀ req, monitor req ≠ .ok none) :
    (∃ c, Answered env P C monitor tok props res typ c ∧ (call env P C monitor tok props res typ []).1 = .ok () ∧
      Resolve.Resolved (call env P C monitor tok props res typ []).2 out c.value c.known c.secret ∧
      Resolve.Holds (call env P C monitor tok props res typ []).2 out .deps (.deps c.deps)) ∨
    ((¬ ∃ c, Answered env P C monitor tok props res typ c) ∧ ∃ e, (call env P C monitor tok props res typ []).1 = .error e ∧
      Resolve.Raises (call env P C monitor tok props res typ []).2 out e ∧
      Resolve.Holds (call env P C monitor tok props res typ []).2 out .deps (.deps [])) := by
  have failed : ∀ e : Exc, (¬ ∃ c, Answered env P C monitor tok props res typ c) →
      call env P C monitor tok props res typ [] = (.error e, (failCall e []).2) →
      (¬ ∃ c, Answered env P C monitor tok props res typ c) ∧ ∃ e, (call env P C monitor tok props res typ []).1 = .error e ∧
        Resolve.Raises (call env P C monitor tok props res typ []).2 out e ∧
        Resolve.Holds (call env P C monitor tok props res typ []).2 out .deps (.deps []) := by
    intro e hne h
    refine ⟨hne, e, by rw [h], ?_⟩
    rw [h, failCall_run]
    simp [Resolve.Raises, Resolve.Holds, Resolve.timesSet]
  unfold call Resolve.onError at *
  simp only [Resolve.bindM, Resolve.liftE] at *
  cases hp : prepareCall env P tok props res with
  | error e =>
    right
    simp only [hp, Except.mapError] at failed ⊢
    exact failed (.err e) (by rintro ⟨c, req, _, h, _⟩; rw [hp] at h; cases h) rfl
  | ok req =>
    simp only [hp, Except.mapError] at failed ⊢
    cases hr : monitor req with
    | error e =>
      right
      simp only [hr] at failed ⊢
      refine failed (.raised e) ?_ rfl
      rintro ⟨c, req', reply, h, h', _⟩
      rw [hp] at h; cases h
      rw [hr] at h'; cases h'
    | ok reply =>
      cases reply with
      | none => exact absurd hr (hm req)
      | some reply =>
        simp only [hr, answerCall] at failed ⊢
        cases hf : reply.failures with
        | cons f fs =>
          right
          obtain ⟨reason, property⟩ := f
          simp only [hf, Resolve.raiseM] at failed ⊢
          refine failed _ ?_ rfl
          rintro ⟨c, req', reply', h, h', h'', _⟩
          rw [hp] at h; cases h
          rw [hr] at h'; cases h'
          rw [hf] at h''; cases h''
        | nil =>
          simp only [hf, Resolve.bindM, Resolve.liftE] at failed ⊢
          cases hc : readCall env C typ reply with
          | error e =>
            right
            simp only [hc] at failed ⊢
            refine failed e ?_ rfl
            rintro ⟨c, req', reply', h, h', h'', h3⟩
            rw [hp] at h; cases h
            rw [hr] at h'; cases h'
            rw [hc] at h3; cases h3
          | ok c =>
            left
            refine ⟨c, ⟨req, reply, hp, hr, hf, hc⟩, ?_⟩
            simp only [resolveCall_run]
            simp [Resolve.Resolved, Resolve.Holds, Resolve.timesSet]

theorem argDeps_lookup {ds : List (String × List ResId)} {es : List (String × List String)}
    (h : argDeps env ds = .ok es) (k : String) {rs : List ResId} (hk : ds.lookup k = some rs) :
    ∃ us, es.lookup k = some (Server.urnSet us) ∧ Server.urnsOf env rs = .ok us := by
  induction ds generalizing es with
  | nil => cases hk
  | cons d ds ih =>
    obtain ⟨k', rs'⟩ := d
    rw [argDeps] at h
    split at h
    · cases h
    · rename_i us hu
      cases hr : argDeps env ds with
      | error e => rw [hr] at h; cases h
      | ok es' =>
        rw [hr] at h
        cases h
        rw [List.lookup_cons] at hk
        simp only [List.lookup_cons]
        cases hb : k == k' with
        | true => rw [hb] at hk; cases hk; exact ⟨us, rfl, hu⟩
        | false => rw [hb] at hk; exact ih hr hk

/-- **C61** The request of a call has the token, every argument as it is serialised (unless that is `None`) with the URNs of
exactly the resources it mentions, and provider, version and URL of the resource. -/
theorem call_request {res : Option Self} {req : CallRequest} (h : prepareCall env P tok props res = .ok req)
    (hn : (props.map (·.1)).Nodup) :
    req.tok = tok ∧
    (∀ k x, (k, x) ∈ props → ∃ v d, Wire.ser { env with transform := none } true .any x = .ok (v, d) ∧
      (v ≠ .none → ∃ w, Wire.toWire v = some w ∧ req.args.lookup k = some w ∧
        ∃ us, req.argDependencies.lookup k = some us ∧
          ∀ u, u ∈ us ↔ ∃ r, Wire.Mentions env x r ∧ (env.info r).urn.value = some u)) ∧
    (∀ k, (∀ x, (k, x) ∉ props) → req.args.lookup k = none) ∧
    (res = none → req.provider = none ∧ req.version = "" ∧ req.url = "") ∧
    (∀ r, res = some r → req.provider = r.provider.map (providerRef P) ∧ req.version = r.version.getD "" ∧
      req.url = r.url.getD "") := by
  unfold prepareCall at h
  split at h
  · cases h
  · rename_i p hP
    split at h
    · cases h
    · rename_i d hd
      cases h
      have hkey : ∀ k, Env.topKey { env with transform := none } none k = k := fun k => rfl
      refine ⟨rfl, ?_, ?_, ?_, ?_⟩
      · intro k x hx
        obtain ⟨v, ds, h1, h2⟩ := Wire.serProps_entry hP (by simpa [hkey] using hn) hx
        refine ⟨v, ds, h1, fun hv => ?_⟩
        obtain ⟨h3, w, h4, h5⟩ := h2 hv
        obtain ⟨us, h6, h7⟩ := argDeps_lookup hd k h3
        refine ⟨w, h4, h5, _, h6, fun u => ?_⟩
        rw [Server.urnSet, Server.mem_urnSet_go, Server.mem_urnsOf h7]
        constructor
        · rintro (h8 | ⟨r, h8, h9⟩)
          · cases h8
          · exact ⟨r, Server.mentions_transform (env := { env with transform := none }) (t := env.transform)
              ((Wire.dependencies_exact h1 r).1 h8), h9⟩
        · rintro ⟨r, h8, h9⟩
          exact .inr ⟨r, (Wire.dependencies_exact h1 r).2 (Server.mentions_transform h8), h9⟩
      · intro k hk
        obtain ⟨_, h2⟩ := Wire.serProps_untouched hP (k := k) (by
          intro kv hkv he
          rw [hkey] at he
          subst he
          exact hk kv.2 hkv)
        exact h2
      · rintro rfl; exact ⟨rfl, rfl, rfl⟩
      · rintro r rfl; exact ⟨rfl, rfl, rfl⟩

/-- A monitor that answers with a secret and dependencies. -/
def sampleMonitor : CallRequest → Except String (Option CallReply) := fun _ =>
  .ok (some { failures := [], dependencies := [("x", ["u", "v"]), ("y", ["u"])]
              object := [("x", .struct [(Wire.sigKey, .str Wire.secretSig), ("value", .num 3)])] })

/-- Non-trivial instances: a call that is answered with a secret and dependencies, and one that fails. -/
example : call sampleEnv sampleProviders sampleClasses sampleMonitor "a:m:f".toList [("y", .str "z")] none none [] =
    (.ok (), [((out, .value), .value (.leaf (.dict [("x", .num 3)]))), ((out, .known), .flag true),
      ((out, .secret), .flag true), ((out, .deps), .deps [.dep "u", .dep "v"])]) := rfl

example : call sampleEnv sampleProviders sampleClasses (fun _ => .error "no") "a:m:f".toList [("y", .str "z")] none none [] =
    (.error (.raised "no"), [((out, .value), .failed (.raised "no")), ((out, .known), .failed (.raised "no")),
      ((out, .secret), .failed (.raised "no")), ((out, .deps), .deps [])]) := rfl

end Pulumi.Invoke
