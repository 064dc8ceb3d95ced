import Verif.Flow.Theorems
import Verif.Wire.Props
/-!
# From the program to the request (C127)

The outputs that a program computes (`Flow.Model`) are serialised into the request (`Wire.Model`). The request is put
together without output values, as for every custom resource (`runtime/resource.py`: `keep_output_values=remote`).
-/
namespace Pulumi.Flow
open Pulumi.Async Pulumi.Output

mutual
/-- A value of the event loop model as a value of the wire model. Inputs nested in a value are not data. -/
def toPV : Val → Wire.PV
  | .none => .none
  | .bool b => .bool b
  | .int i => .num i
  | .str s => .str s
  | .unknown => .unknown
  | .list xs => .list (toPVList xs)
  | .dict kvs => .dict (toPVDict kvs)
  | .resource r => .resource (.decl r)
  | .input .. | .resSet _ | .fut _ | .out _ => .illegal
def toPVList : List Val → List Wire.PV
  | [] => []
  | x :: xs => toPV x :: toPVList xs
def toPVDict : List (String × Val) → List (String × Wire.PV)
  | [] => []
  | (k, x) :: xs => (k, toPV x) :: toPVDict xs
end

/-- The Output `o` as the serialiser finds it: the four futures as they have settled. -/
def Settled (σ : Store) (o : OutRef) (x : Wire.PV) : Prop :=
  ∃ (ids : List Nat) (k s : Bool) (v : Val), σ o.resources = some (.ok (.resSet ids)) ∧ σ o.known = some (.ok (.bool k)) ∧
    σ o.secret = some (.ok (.bool s)) ∧ σ o.value = some (.ok v) ∧ x = .output (ids.map .decl) k s (toPV v)

variable {d d' : Config} {roots roots' : Nat → Option Prog} {dry : Bool} {has : Nat → String → Prop}

theorem settled_shows {σ : Store} {o : OutRef} {w : View} {x : Wire.PV} (h : Shows σ o w) (hx : Settled σ o x) :
    ∃ ids : List Nat, x = .output (ids.map .decl) w.known w.secret (toPV w.value) ∧ ∀ r, r ∈ ids ↔ w.deps r := by
  obtain ⟨ids, k, s, v, h1, h2, h3, h4, rfl⟩ := hx
  obtain ⟨ids', h1', hm⟩ := h.deps
  rw [h1] at h1'; cases h1'
  have h2' := h.known; rw [h2] at h2'; cases h2'
  have h3' := h.secret; rw [h3] at h3'; cases h3'
  have h4' := h.value; rw [h4] at h4'; cases h4'
  exact ⟨ids, rfl, hm⟩

/-- What the serialiser makes of an Output when output values are not kept. -/
theorem ser_output (env : Wire.Env) (ty : Wire.Ty) (rs : List Wire.ResId) (k s : Bool) (v : Wire.PV) :
    Wire.ser env false ty (.output rs k s v) =
      match (if Wire.hasUnknown v then Except.ok (Wire.PV.none, []) else Wire.ser env false ty v) with
      | .ok p => .ok (Wire.finishOutput env k s p.1, rs ++ p.2)
      | .error e => .error e := by
  conv => lhs; unfold Wire.ser
  by_cases hu : Wire.hasUnknown v = true
  · simp only [hu, if_true]; rfl
  · simp only [if_neg hu]
    cases Wire.ser env false ty v <;> rfl

/-- Two Outputs that differ only in the list of their resources. -/
theorem ser_output_same {env : Wire.Env} {ty : Wire.Ty} {rs : List Wire.ResId} {k s : Bool} {v a : Wire.PV}
    {ds : List Wire.ResId} (h : Wire.ser env false ty (.output rs k s v) = .ok (a, ds)) (rs' : List Wire.ResId) :
    ∃ pd, ds = rs ++ pd ∧ Wire.ser env false ty (.output rs' k s v) = .ok (a, rs' ++ pd) := by
  rw [ser_output] at h ⊢
  split at h
  · rename_i p hp; cases h; exact ⟨p.2, rfl, rfl⟩
  · cases h

theorem isNone_false {v : Wire.PV} (h : v ≠ .none) : Wire.isNone v = false := by
  cases v <;> first | rfl | exact absurd rfl h

/-- A property that serialises to `None` is left out. -/
theorem serProps_none {env : Wire.Env} {typ : Option String} {keep : Bool} {acc : Wire.Props} {kvs : List (String × Wire.PV)}
    {P : Wire.Props} (h : Wire.serProps env typ keep acc kvs = .ok P) (hn : (kvs.map fun kv => env.topKey typ kv.1).Nodup)
    {k : String} {x : Wire.PV} (hm : (k, x) ∈ kvs) {ds : List Wire.ResId}
    (hx : Wire.ser env keep (env.topTy typ k) x = .ok (.none, ds)) :
    P.deps.lookup (env.topKey typ k) = acc.deps.lookup (env.topKey typ k) ∧
      P.fields.lookup (env.topKey typ k) = acc.fields.lookup (env.topKey typ k) := by
  induction kvs generalizing acc with
  | nil => cases hm
  | cons kv kvs ih =>
    obtain ⟨k0, x0⟩ := kv
    simp only [List.map_cons, List.nodup_cons] at hn
    obtain ⟨v, d, hv, hc⟩ := Wire.serProps_cons_ok h
    rcases List.mem_cons.1 hm with hh | hm
    · cases hh
      rw [hx] at hv; cases hv
      rcases hc with ⟨_, hc⟩ | ⟨hne, _⟩
      · exact Wire.serProps_untouched hc (k := env.topKey typ k) (fun kv hkv hh => hn.1 (List.mem_map.2 ⟨kv, hkv, hh⟩))
      · exact absurd rfl hne
    · have hk : env.topKey typ k0 ≠ env.topKey typ k := fun hh => hn.1 (List.mem_map.2 ⟨(k, x), hm, hh.symm⟩)
      rcases hc with ⟨_, hc⟩ | ⟨_, w, _, hc⟩
      · exact ih hc hn.2 hm
      · have := ih hc hn.2 hm
        rw [this.1, this.2]
        exact ⟨Wire.setKey_lookup_ne _ _ (Ne.symm hk), Wire.setKey_lookup_ne _ _ (Ne.symm hk)⟩

/-- What the request has for a property: nothing if it serialises to `None`, otherwise its value and its dependencies. -/
theorem request_entry {env : Wire.Env} {typ : Option String} {keep : Bool} {inputs : List (String × Wire.PV)} {P : Wire.Props}
    (h : Wire.serializeProperties env typ keep inputs = .ok P) (hn : (inputs.map fun kv => env.topKey typ kv.1).Nodup)
    {k : String} {x : Wire.PV} (hm : (k, x) ∈ inputs) :
    ∃ a ds, Wire.ser env keep (env.topTy typ k) x = .ok (a, ds) ∧
      ((a = .none ∧ P.fields.lookup (env.topKey typ k) = none ∧ P.deps.lookup (env.topKey typ k) = none) ∨
       (∃ w, a ≠ .none ∧ Wire.toWire a = some w ∧ P.fields.lookup (env.topKey typ k) = some w ∧
         P.deps.lookup (env.topKey typ k) = some ds)) := by
  obtain ⟨a, ds, hser, hp⟩ := Wire.serProps_entry h hn hm
  refine ⟨a, ds, hser, ?_⟩
  by_cases ha : a = .none
  · subst ha
    have := serProps_none h hn hm hser
    exact .inl ⟨rfl, by simpa using this.2, by simpa using this.1⟩
  · obtain ⟨h1, w, h2, h3⟩ := hp ha
    exact .inr ⟨w, ha, h2, h3, h1⟩

/-- **C127.** Two runs of a program, under any schedules, each putting together a request for a custom resource. Take a
property of the first request whose input is the Output of an expression. If the resources that the request lists as the
dependencies of that property have the same outputs in the second run, the second request has the same value for the
property and lists the same dependencies.

Missing: a property that is left out of the first request, see `absent_property_untracked`. -/
theorem request_dependencies_sound_partial (hd : Completes roots d) (hd' : Completes roots' d') {fuel fuel' : Nat}
    {src src' : Nat → String → OutRef} {world world' : World} (hw : world.Ok has) (hw' : world'.Ok has)
    (hsrc : ∀ r p, has r p → Shows d.futs (src r p) (world r p))
    (hsrc' : ∀ r p, has r p → Shows d'.futs (src' r p) (world' r p))
    {e : Expr} (hok : e.Ok has) (hf : e.need dry world ≤ fuel) (hf' : e.need dry world' ≤ fuel') {t n o n' t' m o' m'}
    (h : Ran d t n (e.run dry fuel src) (.ok o) n') (h' : Ran d' t' m (e.run dry fuel' src') (.ok o') m')
    -- the two requests
    {env : Wire.Env} {typ : Option String} {inputs inputs' : List (String × Wire.PV)} {P P' : Wire.Props}
    (hP : Wire.serializeProperties env typ false inputs = .ok P) (hP' : Wire.serializeProperties env typ false inputs' = .ok P')
    (hn : (inputs.map fun kv => env.topKey typ kv.1).Nodup) (hn' : (inputs'.map fun kv => env.topKey typ kv.1).Nodup)
    -- the property
    {k : String} {x x' : Wire.PV} (hx : Settled d.futs o x) (hx' : Settled d'.futs o' x')
    (hm : (k, x) ∈ inputs) (hm' : (k, x') ∈ inputs')
    {v : Wire.W} (hv : P.fields.lookup (env.topKey typ k) = some v)
    {ds : List Wire.ResId} (hds : P.deps.lookup (env.topKey typ k) = some ds)
    (hag : ∀ r, .decl r ∈ ds → ∀ p, has r p → world r p = world' r p) :
    P'.fields.lookup (env.topKey typ k) = some v ∧
    ∃ ds', P'.deps.lookup (env.topKey typ k) = some ds' ∧ ∀ r, r ∈ ds' ↔ r ∈ ds := by
  obtain ⟨_, he, h1⟩ := run_shows hd hw hsrc e hok hf _ _ _ _ h
  cases he
  obtain ⟨_, he, h2⟩ := run_shows hd' hw' hsrc' e hok hf' _ _ _ _ h'
  cases he
  obtain ⟨ids, rfl, hids⟩ := settled_shows h1 hx
  obtain ⟨a, da, hser, hcase⟩ := request_entry hP hn hm
  rcases hcase with ⟨_, hno, _⟩ | ⟨w, hne, hw1, hw2, hda⟩
  · rw [hv] at hno; cases hno
  rw [hds] at hda; cases hda
  rw [hv] at hw2; cases hw2
  obtain ⟨pd, hpd, _⟩ := ser_output_same hser []
  have hagree : e.view dry world = e.view dry world' := by
    refine view_agree hw e hok ?_
    intro r hr p hp
    refine hag r ?_ p hp
    rw [hpd]
    exact List.mem_append_left _ (List.mem_map.2 ⟨r, (hids r).2 hr, rfl⟩)
  rw [← hagree] at h2
  obtain ⟨ids', rfl, hids'⟩ := settled_shows h2 hx'
  obtain ⟨pd', hpd', hser'⟩ := ser_output_same hser (ids'.map .decl)
  obtain ⟨a', da', hser2, hcase'⟩ := request_entry hP' hn' hm'
  rw [hser'] at hser2; cases hser2
  rcases hcase' with ⟨hh, _⟩ | ⟨w', _, hw1', hw2', hd1⟩
  · exact absurd hh hne
  rw [hw1] at hw1'; cases hw1'
  refine ⟨hw2', _, hd1, ?_⟩
  intro r
  rw [hpd']
  simp only [List.mem_append, List.mem_map]
  constructor
  · rintro (⟨a, ha, rfl⟩ | h)
    · exact .inl ⟨a, (hids a).2 ((hids' a).1 ha), rfl⟩
    · exact .inr h
  · rintro (⟨a, ha, rfl⟩ | h)
    · exact .inl ⟨a, (hids' a).2 ((hids a).1 ha), rfl⟩
    · exact .inr h

/-- The wire form of a secret: a struct with the secret signature (`rpc.py:402-408`). -/
def SecretWire (w : Wire.W) : Prop := ∃ v, w = .struct [(Wire.sigKey, .str Wire.secretSig), ("value", v)]

theorem toWire_secretDict {v : Wire.PV} {w : Wire.W} (h : Wire.toWire (Wire.secretDict v) = some w) : SecretWire w := by
  cases hv : Wire.toWire v with
  | none => simp [Wire.secretDict, Wire.toWire, Wire.toWireKvs, hv] at h
  | some u =>
    simp [Wire.secretDict, Wire.toWire, Wire.toWireKvs, hv] at h
    exact ⟨u, h.symm⟩

/-- **C128.** Two runs of a program without `unsecret`, under any schedules, whose resources show the same where they are
not secret. Each puts together a request to an engine that supports secrets. What the first request has for a property
whose input is the Output of an expression, unless it is marked secret or not known, is what the second has: a value or
nothing. So the plain part of a request tells nothing about secrets. -/
theorem request_secrets_contained (hd : Completes roots d) (hd' : Completes roots' d') {fuel fuel' : Nat}
    {src src' : Nat → String → OutRef} {world world' : World} (hw : world.Ok has) (hw' : world'.Ok has)
    (hsrc : ∀ r p, has r p → Shows d.futs (src r p) (world r p))
    (hsrc' : ∀ r p, has r p → Shows d'.futs (src' r p) (world' r p))
    {e : Expr} (hok : e.Ok has) (hnu : e.NoUnsecret) (hf : e.need dry world ≤ fuel) (hf' : e.need dry world' ≤ fuel')
    {t n o n' t' m o' m'}
    (h : Ran d t n (e.run dry fuel src) (.ok o) n') (h' : Ran d' t' m (e.run dry fuel' src') (.ok o') m')
    (hag : ∀ r p, has r p → (world r p).secret = false → world r p = world' r p)
    -- the two requests
    {env : Wire.Env} (hsup : env.secrets = true) {typ : Option String} {inputs inputs' : List (String × Wire.PV)} {P P' : Wire.Props}
    (hP : Wire.serializeProperties env typ false inputs = .ok P) (hP' : Wire.serializeProperties env typ false inputs' = .ok P')
    (hn : (inputs.map fun kv => env.topKey typ kv.1).Nodup) (hn' : (inputs'.map fun kv => env.topKey typ kv.1).Nodup)
    -- the property
    {k : String} {x x' : Wire.PV} (hx : Settled d.futs o x) (hx' : Settled d'.futs o' x')
    (hm : (k, x) ∈ inputs) (hm' : (k, x') ∈ inputs')
    (hplain : ∀ w, P.fields.lookup (env.topKey typ k) = some w → ¬ SecretWire w)
    (hknown : P.fields.lookup (env.topKey typ k) ≠ some (.str Wire.UNKNOWN)) :
    P'.fields.lookup (env.topKey typ k) = P.fields.lookup (env.topKey typ k) := by
  obtain ⟨_, he, h1⟩ := run_shows hd hw hsrc e hok hf _ _ _ _ h
  cases he
  obtain ⟨_, he, h2⟩ := run_shows hd' hw' hsrc' e hok hf' _ _ _ _ h'
  cases he
  obtain ⟨ids, rfl, hids⟩ := settled_shows h1 hx
  obtain ⟨a, da, hser, hcase⟩ := request_entry hP hn hm
  have hsec : (e.view dry world).secret = false := by
    cases hs : (e.view dry world).secret with
    | false => rfl
    | true =>
      exfalso
      rw [ser_output, hs] at hser
      split at hser
      · rename_i p _
        cases hk : (e.view dry world).known with
        | false =>
          rw [hk] at hser; simp only [Wire.finishOutput] at hser
          cases hser
          rcases hcase with ⟨hh, _⟩ | ⟨w, _, hw1, hw2, _⟩
          · cases hh
          · have hw1 : some (Wire.W.str Wire.UNKNOWN) = some w := by simpa [Wire.toWire] using hw1
            rw [← hw1] at hw2
            exact hknown hw2
        | true =>
          rw [hk] at hser
          simp only [Wire.finishOutput, hsup] at hser
          cases hser
          rcases hcase with ⟨hh, _⟩ | ⟨w, _, hw1, hw2, _⟩
          · cases hh
          · exact hplain w hw2 (toWire_secretDict hw1)
      · cases hser
  rw [← view_public hw hag e hok hnu hsec] at h2
  obtain ⟨ids', rfl, hids'⟩ := settled_shows h2 hx'
  obtain ⟨pd', hpd', hser'⟩ := ser_output_same hser (ids'.map .decl)
  obtain ⟨a', da', hser2, hcase'⟩ := request_entry hP' hn' hm'
  rw [hser'] at hser2; cases hser2
  rcases hcase with ⟨ha, hf1, _⟩ | ⟨w, ha, hw1, hf1, _⟩ <;> rcases hcase' with ⟨ha', hf2, _⟩ | ⟨w', ha', hw1', hf2, _⟩
  · rw [hf1, hf2]
  · exact absurd ha ha'
  · exact absurd ha' ha
  · rw [hw1] at hw1'; cases hw1'
    rw [hf1, hf2]

/-! ## Cases -/

theorem shows_settled {σ : Store} {o : OutRef} {w : View} (h : Shows σ o w) : ∃ x, Settled σ o x := by
  obtain ⟨ids, h1, _⟩ := h.deps
  exact ⟨_, ids, _, _, _, h1, h.known, h.secret, h.value, rfl⟩

theorem request_str (env : Wire.Env) (k s : String) (rs : List Wire.ResId) :
    Wire.serializeProperties env none false [(k, .output rs true false (.str s))] =
      .ok { fields := [(env.topKey none k, .str s)], deps := [(env.topKey none k, rs)] } := by
  unfold Wire.serializeProperties Wire.serProps
  rw [ser_output]
  simp [Wire.hasUnknown, Wire.ser, Wire.finishOutput, Wire.isNone, Wire.toWire, Wire.serProps, Wire.setKey, bind, Except.bind]

theorem request_none (env : Wire.Env) (k : String) (rs : List Wire.ResId) :
    Wire.serializeProperties env none false [(k, .output rs true false .none)] = .ok { fields := [], deps := [] } := by
  unfold Wire.serializeProperties Wire.serProps
  rw [ser_output]
  simp [Wire.hasUnknown, Wire.ser, Wire.finishOutput, Wire.isNone, Wire.serProps, bind, Except.bind]

/-- Non-vacuity of `request_dependencies_sound_partial` and `request_secrets_contained`: two runs of `choose` that differ
in a secret that is not used. The request has the value "off" and lists resource 0. -/
example (dry : Bool) (b b' : String) (env : Wire.Env) : ∀ s ∈ [b, b'],
    ∃ roots d src t n o n' x P, Completes roots d ∧
      (∀ r p, twoHas r p → Shows d.futs (src r p) (twoWorld (.str "off") (.str s) r p)) ∧
      Ran d t n (choose.run dry 9 src) (.ok o) n' ∧ Settled d.futs o x ∧
      Wire.serializeProperties env none false [("p", x)] = .ok P ∧
      P.fields.lookup (env.topKey none "p") = some (.str "off") ∧
      (∀ ds, P.deps.lookup (env.topKey none "p") = some ds → ∀ r, .decl r ∈ ds → ∀ p,
        twoHas r p → twoWorld (.str "off") (.str b) r p = twoWorld (.str "off") (.str b') r p) ∧
      (∀ w, P.fields.lookup (env.topKey none "p") = some w → ¬ SecretWire w) ∧
      P.fields.lookup (env.topKey none "p") ≠ some (.str Wire.UNKNOWN) := by
  intro s _
  obtain ⟨roots, d, src, t, n, o, n', h1, h2, h3, h4⟩ := (two_runs dry (a := .str "off") (b := .str s) rfl rfl rfl rfl choose_ok (by
    cases dry <;> simp [choose, Expr.need, Expr.view, twoWorld, chooseNext, depth])).2
  obtain ⟨x, hx⟩ := shows_settled h4
  obtain ⟨ids, rfl, hids⟩ := settled_shows h4 hx
  have hdeps : ∀ r, (choose.view dry (twoWorld (.str "off") (.str s))).deps r ↔ r = 0 := by
    intro r
    cases dry <;> simp [choose, Expr.view, thenView, twoWorld, chooseNext, View.after, View.ofPlain, noDeps]
  have hval : (choose.view dry (twoWorld (.str "off") (.str s))).value = .str "off" := by
    cases dry <;> simp [choose, Expr.view, thenView, twoWorld, chooseNext, View.after, View.ofPlain]
  have hknown : (choose.view dry (twoWorld (.str "off") (.str s))).known = true := by
    cases dry <;> simp [choose, Expr.view, thenView, twoWorld, chooseNext, View.after, View.ofPlain, containsUnknowns]
  have hsec : (choose.view dry (twoWorld (.str "off") (.str s))).secret = false := by
    cases dry <;> simp [choose, Expr.view, thenView, twoWorld, chooseNext, View.after, View.ofPlain]
  rw [hval, hknown, hsec] at hx
  refine ⟨roots, d, src, t, n, o, n', _, _, h1, h2, h3, hx, request_str env "p" "off" _, ?_, ?_, ?_, ?_⟩
  · simp
  · intro ds hds r hr p _
    simp at hds
    subst hds
    obtain ⟨r', hr', he⟩ := List.mem_map.1 hr
    cases he
    rw [(hdeps _).1 ((hids _).1 hr')]
    rfl
  · intro w hw
    simp at hw
    subst hw
    rintro ⟨v, hv⟩
    cases hv
  · simp [Wire.UNKNOWN]

/-- `lambda v: None if v == "a" else v`. -/
def dropA : Val → Val
  | .str "a" => .none
  | v => v

/-- C127 fails for a property that is left out: with the input `r.x.apply(lambda v: None if v == "a" else v)` and a
resource that shows "a", the request has neither the property nor a dependency on the resource; when the resource shows
"b", the request has "b". So the first request depends on a resource that it does not list (`rpc.py:210-223`: the
dependencies are recorded only when the serialised value is not `None`). -/
theorem absent_property_untracked (dry : Bool) (c : String) (env : Wire.Env) :
    (Expr.map (.prop 0 "x") dropA).Ok twoHas ∧ ∀ s ∈ ["a", "b"],
      ∃ roots d src t n o n' x P, Completes roots d ∧
        (∀ r p, twoHas r p → Shows d.futs (src r p) (twoWorld (.str s) (.str c) r p)) ∧
        Ran d t n ((Expr.map (.prop 0 "x") dropA).run dry 9 src) (.ok o) n' ∧ Settled d.futs o x ∧
        Wire.serializeProperties env none false [("p", x)] = .ok P ∧
        (s = "a" → P.fields = [] ∧ P.deps = []) ∧
        (s = "b" → P.fields.lookup (env.topKey none "p") = some (.str "b")) := by
  have hok : (Expr.map (.prop 0 "x") dropA).Ok twoHas := by
    refine ⟨⟨.inl rfl, rfl⟩, ?_⟩
    intro v hv
    unfold dropA
    split
    · rfl
    · exact hv
  refine ⟨hok, ?_⟩
  intro s hs
  obtain ⟨roots, d, src, t, n, o, n', h1, h2, h3, h4⟩ := (two_runs dry (a := .str s) (b := .str c) rfl rfl rfl rfl hok (by
    simp [Expr.need])).2
  obtain ⟨x, hx⟩ := shows_settled h4
  obtain ⟨ids, rfl, hids⟩ := settled_shows h4 hx
  have hw : ∀ s ∈ ["a", "b"],
      ((Expr.map (.prop 0 "x") dropA).view dry (twoWorld (.str s) (.str c))).known = true ∧
      ((Expr.map (.prop 0 "x") dropA).view dry (twoWorld (.str s) (.str c))).secret = false ∧
      ((Expr.map (.prop 0 "x") dropA).view dry (twoWorld (.str s) (.str c))).value = dropA (.str s) := by
    intro s hs
    simp only [List.mem_cons, List.not_mem_nil, or_false] at hs
    rcases hs with rfl | rfl <;>
    cases dry <;> simp [Expr.view, thenView, twoWorld, dropA, View.after, View.ofPlain, containsUnknowns]
  obtain ⟨hk, hsec, hval⟩ := hw s hs
  rw [hval, hk, hsec] at hx
  simp only [List.mem_cons, List.not_mem_nil, or_false] at hs
  rcases hs with rfl | rfl
  · exact ⟨roots, d, src, t, n, o, n', _, _, h1, h2, h3, hx, request_none env "p" _, fun _ => ⟨rfl, rfl⟩, fun h => by simp at h⟩
  · exact ⟨roots, d, src, t, n, o, n', _, _, h1, h2, h3, hx, request_str env "p" "b" _, fun h => by simp at h, fun _ => by simp⟩

end Pulumi.Flow
