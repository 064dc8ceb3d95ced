import Verif.Wire.Theorems
/-! # C45, C46: names, and references to resources -/
namespace Pulumi.Wire

theorem find_nodup {α : Type} {l : List α} {f : α → String} (hn : (l.map f).Nodup) {q : α} (hq : q ∈ l) :
    l.find? (fun p => f p == f q) = some q := by
  induction l with
  | nil => cases hq
  | cons a l ih =>
    simp only [List.map_cons, List.nodup_cons] at hn
    rcases List.mem_cons.1 hq with rfl | hq
    · simp
    · have hne : (f a == f q) = false := by
        simpa using fun h => hn.1 (List.mem_map.2 ⟨q, hq, h.symm⟩)
      simp [List.find?, hne, ih hn.2 hq]

theorem pulumiName_eq {env : Env} {cls : String} (hw : WellNamed env cls) {q : PropInfo} (hq : q ∈ env.classes cls) :
    env.pulumiName cls q.pyName = q.pulumiName := by
  rw [Env.pulumiName, find_nodup hw.1 hq]
  simp [hw.2.2 q hq]

theorem propTy_eq {env : Env} {cls : String} (hw : WellNamed env cls) {q : PropInfo} (hq : q ∈ env.classes cls) :
    env.propTy cls q.pulumiName = q.ty := by
  rw [Env.propTy, find_nodup hw.2.1 hq]

theorem lookup_of_mem {α : Type} {kvs : List (String × α)} (hn : (kvs.map (·.1)).Nodup) {k : String} {x : α}
    (h : (k, x) ∈ kvs) : kvs.lookup k = some x := by
  induction kvs with
  | nil => cases h
  | cons p kvs ih =>
    obtain ⟨k0, x0⟩ := p
    simp only [List.map_cons, List.nodup_cons] at hn
    rcases List.mem_cons.1 h with hh | hmem
    · cases hh; simp [List.lookup]
    · have hne : (k == k0) = false := by
        simp only [beq_eq_false_iff_ne, ne_eq]
        rintro rfl
        exact hn.1 (List.mem_map.2 ⟨(k, x), hmem, rfl⟩)
      simp only [List.lookup, hne]
      exact ih hn.2 hmem

theorem serList_get {env : Env} {keep : Bool} {t : Ty} {xs vs : List PV} {d : List ResId}
    (h : serList env keep t xs = .ok (vs, d)) {i : Nat} {x : PV} (hx : xs[i]? = some x) :
    ∃ v e, ser env keep t x = .ok (v, e) ∧ vs[i]? = some v := by
  induction xs generalizing vs d i with
  | nil => simp at hx
  | cons y xs ih =>
    obtain ⟨v, d1, vs', d2, h1, h2, rfl, rfl⟩ := serList_cons_ok h
    cases i with
    | zero => simp at hx; subst hx; exact ⟨v, d1, h1, rfl⟩
    | succ i => simp at hx; simpa using ih h2 hx

theorem serKvs_untouched {env : Env} {keep : Bool} {t : Ty} {acc kvs es : List (String × PV)} {d : List ResId}
    (h : serKvs env keep t acc kvs = .ok (es, d)) {k : String} (hk : ∀ kv ∈ kvs, env.mapKey t kv.1 ≠ k) :
    es.lookup k = acc.lookup k := by
  induction kvs generalizing acc d with
  | nil => simp only [serKvs, Except.ok.injEq, Prod.mk.injEq] at h; rw [h.1]
  | cons p kvs ih =>
    obtain ⟨k0, x⟩ := p
    obtain ⟨v, d1, d2, _, h2, _⟩ := serKvs_cons_ok h
    rw [ih h2 (fun kv hkv => hk kv (List.mem_cons_of_mem _ hkv))]
    exact setKey_lookup_ne _ _ (Ne.symm (hk (k0, x) (List.mem_cons_self ..)))

theorem serKvs_lookup {env : Env} {keep : Bool} {t : Ty} {acc kvs es : List (String × PV)} {d : List ResId}
    (h : serKvs env keep t acc kvs = .ok (es, d)) (hn : (kvs.map fun kv => env.mapKey t kv.1).Nodup)
    {k : String} {x : PV} (hm : (k, x) ∈ kvs) :
    ∃ v e, ser env keep (env.mapTy t (env.mapKey t k)) x = .ok (v, e) ∧ es.lookup (env.mapKey t k) = some v := by
  induction kvs generalizing acc d with
  | nil => cases hm
  | cons p kvs ih =>
    obtain ⟨k0, x0⟩ := p
    simp only [List.map_cons, List.nodup_cons] at hn
    obtain ⟨v, d1, d2, h1, h2, _⟩ := serKvs_cons_ok h
    rcases List.mem_cons.1 hm with hh | hm
    · cases hh
      refine ⟨v, d1, h1, ?_⟩
      rw [serKvs_untouched h2 (fun kv hkv hh => hn.1 (List.mem_map.2 ⟨kv, hkv, hh⟩))]
      exact setKey_lookup_self ..
    · exact ih h2 hn.2 hm

theorem serFields_untouched {env : Env} {keep : Bool} {c : String} {acc kvs es : List (String × PV)} {d : List ResId}
    (h : serFields env keep c acc kvs = .ok (es, d)) {k : String} (hk : ∀ kv ∈ kvs, kv.1 ≠ k) :
    es.lookup k = acc.lookup k := by
  induction kvs generalizing acc d with
  | nil => simp only [serFields, Except.ok.injEq, Prod.mk.injEq] at h; rw [h.1]
  | cons p kvs ih =>
    obtain ⟨k0, x⟩ := p
    have hrest := fun kv hkv => hk kv (List.mem_cons_of_mem (k0, x) hkv)
    cases hn : isNone x with
    | true =>
      have := isNone_eq hn
      subst this
      rw [serFields_none] at h
      exact ih h hrest
    | false =>
      obtain ⟨v, d1, d2, _, h2, _⟩ := serFields_cons_ok hn h
      rw [ih h2 hrest]
      exact setKey_lookup_ne _ _ (Ne.symm (hk (k0, x) (List.mem_cons_self ..)))

theorem serFields_lookup {env : Env} {keep : Bool} {c : String} {acc kvs es : List (String × PV)} {d : List ResId}
    (h : serFields env keep c acc kvs = .ok (es, d)) (hn : (kvs.map (·.1)).Nodup)
    (hacc : ∀ kv ∈ kvs, acc.lookup kv.1 = none)
    {k : String} {x : PV} (hm : (k, x) ∈ kvs) :
    ∃ v e, ser env keep (env.propTy c k) x = .ok (v, e) ∧ (es.lookup k).getD .none = v := by
  induction kvs generalizing acc d with
  | nil => cases hm
  | cons p kvs ih =>
    obtain ⟨k0, x0⟩ := p
    simp only [List.map_cons, List.nodup_cons] at hn
    have hne : ∀ kv ∈ kvs, kv.1 ≠ k0 := fun kv hkv hh => hn.1 (List.mem_map.2 ⟨kv, hkv, hh⟩)
    cases hnn : isNone x0 with
    | true =>
      have := isNone_eq hnn
      subst this
      rw [serFields_none] at h
      rcases List.mem_cons.1 hm with hh | hm
      · cases hh
        refine ⟨.none, [], rfl, ?_⟩
        rw [serFields_untouched h hne, hacc (k, .none) (List.mem_cons_self ..)]
        rfl
      · exact ih h hn.2 (fun kv hkv => hacc kv (List.mem_cons_of_mem _ hkv)) hm
    | false =>
      obtain ⟨v, d1, d2, h1, h2, _⟩ := serFields_cons_ok hnn h
      rcases List.mem_cons.1 hm with hh | hm
      · cases hh
        refine ⟨v, d1, h1, ?_⟩
        rw [serFields_untouched h2 hne, setKey_lookup_self]
        rfl
      · refine ih h2 hn.2 (fun kv hkv => ?_) hm
        rw [setKey_lookup_ne _ _ (hne kv hkv)]
        exact hacc kv (List.mem_cons_of_mem _ hkv)

/-- **C45.** Everything inside a value is sent under the names its declared types give it, at any depth: following the
translated path in what is sent gives the serialisation of what the Python path leads to, by its own declared type. -/
theorem names_translated {env : Env} {t t' : Ty} {v v' : PV} {p p' : List Step} (h : Sent env t v p t' v' p')
    {keep : Bool} {x : PV} {d : List ResId} (hx : ser env keep t v = .ok (x, d)) :
    ∃ x' d', ser env keep t' v' = .ok (x', d') ∧ x.at p' = x' := by
  induction h generalizing x d with
  | here t v => exact ⟨x, d, hx, rfl⟩
  | @untypedElem xs i y p t' v' p' hi _ ih =>
    obtain ⟨t, vs, ht, hl, rfl⟩ := ser_list_ok hx
    cases ht
    obtain ⟨u, e, hu, hg⟩ := serList_get hl hi
    obtain ⟨x', d', h1, h2⟩ := ih hu
    exact ⟨x', d', h1, by simp [PV.at, hg, h2]⟩
  | @elem t xs i y p t' v' p' hi _ ih =>
    obtain ⟨t, vs, ht, hl, rfl⟩ := ser_list_ok hx
    cases ht
    obtain ⟨u, e, hu, hg⟩ := serList_get hl hi
    obtain ⟨x', d', h1, h2⟩ := ih hu
    exact ⟨x', d', h1, by simp [PV.at, hg, h2]⟩
  | @untyped t kvs k y p t' v' p' ht hn hm _ ih =>
    obtain ⟨es, hs, rfl⟩ := ser_dict_ok hx
    have hk : ∀ k, env.mapKey t k = env.translate k := by rcases ht with rfl | rfl <;> exact fun _ => rfl
    have hty : ∀ k, env.mapTy t k = .any := by rcases ht with rfl | rfl <;> exact fun _ => rfl
    obtain ⟨u, e, hu, hg⟩ := serKvs_lookup hs (by simpa [hk] using hn) hm
    rw [hty] at hu
    rw [hk] at hg
    obtain ⟨x', d', h1, h2⟩ := ih hu
    exact ⟨x', d', h1, by simp [PV.at, hg, h2]⟩
  | @entry t kvs k y p t' v' p' hn hm _ ih =>
    obtain ⟨es, hs, rfl⟩ := ser_dict_ok hx
    obtain ⟨u, e, hu, hg⟩ := serKvs_lookup hs hn hm
    obtain ⟨x', d', h1, h2⟩ := ih hu
    rw [show env.mapKey (.dict t) k = k from rfl] at hg
    exact ⟨x', d', h1, by simp [PV.at, hg, h2]⟩
  | @property cls kvs q y p t' v' p' hw hn hdecl hq hm _ ih =>
    obtain ⟨es, hs, rfl⟩ := ser_dict_ok hx
    have hinj : (kvs.map fun kv => env.mapKey (.input cls) kv.1).Nodup := by
      have key : ∀ (l : List (String × PV)), (l.map (·.1)).Nodup →
          (∀ kv ∈ l, ∃ q ∈ env.classes cls, q.pyName = kv.1) →
          (l.map fun kv => env.mapKey (.input cls) kv.1).Nodup := by
        intro l
        induction l with
        | nil => intro _ _; simp
        | cons a l ihl =>
          intro hn hd
          simp only [List.map_cons, List.nodup_cons] at hn ⊢
          refine ⟨?_, ihl hn.2 (fun kv hkv => hd kv (List.mem_cons_of_mem _ hkv))⟩
          intro hmem
          obtain ⟨b, hb, he⟩ := List.mem_map.1 hmem
          obtain ⟨q1, hq1, e1⟩ := hd a (List.mem_cons_self ..)
          obtain ⟨q2, hq2, e2⟩ := hd b (List.mem_cons_of_mem _ hb)
          simp only [Env.mapKey, ← e1, ← e2, pulumiName_eq hw hq1, pulumiName_eq hw hq2] at he
          have h3 := find_nodup hw.2.1 hq1
          rw [← he, find_nodup hw.2.1 hq2] at h3
          cases h3
          exact hn.1 (List.mem_map.2 ⟨b, hb, by rw [← e1, ← e2]⟩)
      exact key kvs hn hdecl
    obtain ⟨u, e, hu, hg⟩ := serKvs_lookup hs hinj hm
    simp only [Env.mapKey, Env.mapTy, pulumiName_eq hw hq, propTy_eq hw hq] at hu hg
    obtain ⟨x', d', h1, h2⟩ := ih hu
    exact ⟨x', d', h1, by simp [PV.at, hg, h2]⟩
  | @field t cls fields q y p t' v' p' hw hn hq hm _ ih =>
    obtain ⟨es, hs, rfl⟩ := ser_input_ok hx
    obtain ⟨u, e, hu, hg⟩ := serFields_lookup hs hn (by simp) hm
    rw [propTy_eq hw hq] at hu
    obtain ⟨x', d', h1, h2⟩ := ih hu
    exact ⟨x', d', h1, by simp [PV.at, hg, h2]⟩

/-- **C45**, at the top: the inputs of a resource whose input type is known are sent under their Pulumi names and
serialised by their declared types. -/
theorem property_names {env : Env} {cls : String} (hw : WellNamed env cls) {keep : Bool} {inputs : List (String × PV)}
    {P : Props} (h : serializeProperties env (some cls) keep inputs = .ok P)
    (hn : (inputs.map fun kv => env.topKey (some cls) kv.1).Nodup) {q : PropInfo} (hq : q ∈ env.classes cls) {x : PV}
    (hm : (q.pyName, x) ∈ inputs) :
    ∃ v d, ser env keep q.ty x = .ok (v, d) ∧
      (v ≠ .none → ∃ w, toWire v = some w ∧ P.fields.lookup q.pulumiName = some w) := by
  obtain ⟨v, d, h1, h2⟩ := serProps_entry h hn hm
  simp only [Env.topTy, Env.topKey, pulumiName_eq hw hq, propTy_eq hw hq] at h1 h2
  exact ⟨v, d, h1, fun hne => (h2 hne).2⟩

/-- Sample: a class `Args` with a list of `Item`s. -/
def namesEnv : Env :=
  { sampleEnv with
    classes := fun c =>
      if c = "Args" then [⟨"the_items", "theItems", .list (.input "Item")⟩, ⟨"tags", "tags", .dict .any⟩]
      else if c = "Item" then [⟨"item_name", "itemName", .any⟩]
      else []
    transform := some fun k => k ++ "!" }

/-- Non-trivial instance: a property of an element of a list of input-typed dicts; keys of a `Dict[str, T]` are kept. -/
example : Sent namesEnv (.input "Args")
    (.dict [("the_items", .list [.dict [("item_name", .str "n")]]), ("tags", .dict [("a_b", .num 1)])])
    [.key "the_items", .idx 0, .key "item_name"] .any (.str "n") [.key "theItems", .idx 0, .key "itemName"] ∧
  (∃ d, ser namesEnv false (.input "Args")
    (.dict [("the_items", .list [.dict [("item_name", .str "n")]]), ("tags", .dict [("a_b", .num 1)])]) =
    .ok (.dict [("theItems", .list [.dict [("itemName", .str "n")]]), ("tags", .dict [("a_b", .num 1)])], d)) := by
  constructor
  · refine .property (q := ⟨"the_items", "theItems", .list (.input "Item")⟩) ?_ (by decide) ?_ (by simp [namesEnv])
      (List.mem_cons_self ..) ?_
    · simp [WellNamed, namesEnv]
    · intro kv hkv
      simp at hkv
      rcases hkv with rfl | rfl <;> simp [namesEnv]
    · refine .elem rfl ?_
      refine .property (q := ⟨"item_name", "itemName", .any⟩) ?_ (by decide) ?_ (by simp [namesEnv])
        (List.mem_cons_self ..) (.here ..)
      · simp [WellNamed, namesEnv]
      · intro kv hkv
        simp at hkv
        subst hkv
        simp [namesEnv]
  · exact ⟨_, rfl⟩

/-! ## References -/

/-- What is sent for a resource whose URN is known and public, and not `None`. -/
theorem reference_sent {env : Env} (hr : env.resourceRefs = true) {n : Nat} {u : String}
    (hk : (env.res n).urn.known = true) (hs : (env.res n).urn.secret = false) (hu : (env.res n).urn.value = some u)
    (keep : Bool) (ty : Ty) :
    ∃ x d, ser env keep ty (.resource (.decl n)) = .ok (x, d) ∧
      ((env.res n).custom = false ∧
          toWire x = some (.struct [(sigKey, .str resourceSig), ("urn", .str u)]) ∨
       (env.res n).custom = true ∧ ∃ w, toWire (serStrOut env (env.res n).id).1 = some w ∧
          toWire x = some (.struct [(sigKey, .str resourceSig), ("urn", .str u), ("id", w)])) := by
  have hurn : (serStrOut env (env.res n).urn).1 = .str u := by simp [serStrOut, finishOutput, hk, hs, hu]
  cases hc : (env.res n).custom with
  | false =>
    refine ⟨.dict [(sigKey, .str resourceSig), ("urn", .str u)], (serStrOut env (env.res n).urn).2, ?_, .inl ⟨rfl, rfl⟩⟩
    simp [ser, serResource, hr, Env.info, hc, ← hurn]
  | true =>
    refine ⟨.dict [(sigKey, .str resourceSig), ("urn", .str u), ("id", (serStrOut env (env.res n).id).1)],
      (serStrOut env (env.res n).urn).2 ++ (serStrOut env (env.res n).id).2, ?_, .inr ⟨rfl, ?_⟩⟩
    · simp [ser, serResource, hr, Env.info, hc, ← hurn]
    · have hl : ∃ w, toWire (serStrOut env (env.res n).id).1 = some w := by
        simp only [serStrOut, finishOutput]
        split
        · exact ⟨_, rfl⟩
        · split <;> cases (env.res n).id.value <;> exact ⟨_, rfl⟩
      obtain ⟨w, hw⟩ := hl
      exact ⟨w, hw, by simp [toWire, toWireKvs, hw]⟩

/-- A reference with this URN, without a version, is built by `c` in `env`: the class registered for the module of its
type, or the package of a provider. -/
def Builder (env : Env) (parts : Urn.Parts) : Option (Urn.Parts → String → ResId) :=
  if parts.pkgName = "pulumi".toList ∧ parts.modName = "providers".toList then
    env.providerPackage (String.ofList parts.typName) ""
  else env.resourceModule (String.ofList parts.pkgName) (String.ofList parts.modName) ""

theorem des_reference {env : Env} {keep : Bool} {kvs : List (String × W)} {u : String} {parts : Urn.Parts}
    (hsig : kvs.lookup sigKey = some (.str resourceSig)) (hu : kvs.lookup "urn" = some (.str u))
    (hv : kvs.lookup "packageVersion" = none) (hp : Urn.parseUrn u.toList = .ok parts) :
    des env keep (.struct kvs) = (match Builder env parts with
      | some c => .ok (.resource (c parts u))
      | none => match kvs.lookup "id" with
        | some (.str "") => .ok (desStr env.dryRun keep UNKNOWN)
        | some w => (des env keep w).map bubbleDict
        | none => .ok (.str u)) := by
  have hne1 : resourceSig ≠ assetSig := by decide
  have hne2 : resourceSig ≠ archiveSig := by decide
  have hne3 : resourceSig ≠ secretSig := by decide
  have hr : rebuild env kvs = .ok (u, (Builder env parts).map fun c => c parts u) := by
    simp only [rebuild, hu, hv, hp, Builder]
  simp only [des, desStruct, hsig, hne1, hne2, hne3, if_false, if_true, desResource, hr]
  cases Builder env parts with
  | some c => rfl
  | none =>
    have hstr : ∀ t, bubbleDict (desStr env.dryRun keep t) = desStr env.dryRun keep t := by
      intro t; simp only [desStr]; split
      · split <;> rfl
      · rfl
    simp only [Option.map_none]
    cases hid : kvs.lookup "id" with
    | none => rfl
    | some w =>
      have hget : (desKvs env keep kvs).get "id" = des env keep w := by rw [Decoded.get, desKvs_lookup, hid]; rfl
      cases w with
      | str s =>
        by_cases hs : s = ""
        · subst hs; simp only [Except.map, hstr]
        · rw [hget]; simp [hs]
      | _ => simp only [hget]

/-- **C46.** A reference to a resource with a known, public URN arrives as a resource built from the URN (and the name
and type in it) by the module registered for its type, or by the package for a provider. -/
theorem reference_rebuilt {env env' : Env} (hr : env.resourceRefs = true) {n : Nat} {u : String} {parts : Urn.Parts}
    (hk : (env.res n).urn.known = true) (hs : (env.res n).urn.secret = false) (hu : (env.res n).urn.value = some u)
    (hp : Urn.parseUrn u.toList = .ok parts) {c : Urn.Parts → String → ResId} (hc : Builder env' parts = some c)
    (keep keep' : Bool) (ty : Ty) :
    ∃ x d w, ser env keep ty (.resource (.decl n)) = .ok (x, d) ∧ toWire x = some w ∧
      des env' keep' w = .ok (.resource (c parts u)) := by
  obtain ⟨x, d, h1, h2⟩ := reference_sent hr hk hs hu keep ty
  rcases h2 with ⟨_, h2⟩ | ⟨_, w, _, h2⟩
  all_goals
    refine ⟨x, d, _, h1, h2, ?_⟩
    rw [des_reference (by simp [List.lookup]) (by simp [List.lookup, sigKey]) (by simp [List.lookup, sigKey]) hp, hc]

/-- Non-trivial instance: the sample custom resource, of type `t:m:T`, read where the module `t:m` is registered. -/
example : let env' := { sampleEnv with
      resourceModule := fun pkg mod v => if pkg = "t" ∧ mod = "m" ∧ v = "" then some fun _ u => .dep u else none }
    ∃ x d w, ser sampleEnv false .any (.resource (.decl 0)) = .ok (x, d) ∧ toWire x = some w ∧
      des env' false w = .ok (.resource (.dep "urn:pulumi:s::p::t:m:T::a")) :=
  reference_rebuilt (parts := ⟨"a".toList, "t:m:T".toList, "t".toList, "m".toList, "T".toList⟩) rfl rfl rfl rfl
    (by rfl) (c := fun _ u => .dep u) (by rfl) false false .any

/-- **C46.** When nothing is registered for its type, a component arrives as its URN ... -/
theorem component_reference_urn {env env' : Env} (hr : env.resourceRefs = true) {n : Nat} {u : String}
    {parts : Urn.Parts}
    (hk : (env.res n).urn.known = true) (hs : (env.res n).urn.secret = false) (hu : (env.res n).urn.value = some u)
    (hp : Urn.parseUrn u.toList = .ok parts) (hc : Builder env' parts = none) (hcomp : (env.res n).custom = false)
    (keep keep' : Bool) (ty : Ty) :
    ∃ x d w, ser env keep ty (.resource (.decl n)) = .ok (x, d) ∧ toWire x = some w ∧
      des env' keep' w = .ok (.str u) := by
  obtain ⟨x, d, h1, h2⟩ := reference_sent hr hk hs hu keep ty
  rw [hcomp] at h2
  rcases h2 with ⟨_, h2⟩ | ⟨hh, _⟩
  · refine ⟨x, d, _, h1, h2, ?_⟩
    rw [des_reference (by simp [List.lookup]) (by simp [List.lookup, sigKey]) (by simp [List.lookup, sigKey]) hp, hc]
    simp [List.lookup, sigKey]
  · cases hh

/-- Non-trivial instance: the sample component. -/
example : ∃ x d w, ser sampleEnv false .any (.resource (.decl 1)) = .ok (x, d) ∧ toWire x = some w ∧
    des sampleEnv false w = .ok (.str "urn:pulumi:s::p::t:m:C::b") :=
  component_reference_urn (parts := ⟨"b".toList, "t:m:C".toList, "t".toList, "m".toList, "C".toList⟩) rfl rfl rfl rfl
    (by rfl) rfl rfl false false .any

/-- ... and a custom resource as its id: the id itself if it is known, public and not empty, the unknown value (`None`
in an update where unknowns are not kept) if it is unknown or empty, and a secret if it is secret and the engine
supports secrets. -/
theorem custom_reference_id {env env' : Env} (hr : env.resourceRefs = true) {n : Nat} {u : String} {parts : Urn.Parts}
    (hk : (env.res n).urn.known = true) (hs : (env.res n).urn.secret = false) (hu : (env.res n).urn.value = some u)
    (hp : Urn.parseUrn u.toList = .ok parts) (hc : Builder env' parts = none) (hcust : (env.res n).custom = true)
    (keep keep' : Bool) (ty : Ty) :
    ∃ x d w, ser env keep ty (.resource (.decl n)) = .ok (x, d) ∧ toWire x = some w ∧
      ((env.res n).id.known = false →
        des env' keep' w = .ok (if env'.dryRun = true ∨ keep' = true then .unknown else .none)) ∧
      (∀ s, (env.res n).id.value = some s → (env.res n).id.known = true → (env.res n).id.secret = false → s ≠ UNKNOWN →
        des env' keep' w = .ok (if s ≠ "" then .str s
          else if env'.dryRun = true ∨ keep' = true then .unknown else .none)) ∧
      (∀ s, (env.res n).id.value = some s → (env.res n).id.known = true → (env.res n).id.secret = true → s ≠ UNKNOWN → env.secrets = true →
        des env' keep' w = .ok (.dict [(sigKey, .str secretSig), ("value", .str s)])) := by
  obtain ⟨x, d, h1, h2⟩ := reference_sent hr hk hs hu keep ty
  rw [hcust] at h2
  rcases h2 with ⟨hh, _⟩ | ⟨_, w, hw, h2⟩
  · cases hh
  · refine ⟨x, d, _, h1, h2, ?_⟩
    rw [des_reference (by simp [List.lookup]) (by simp [List.lookup, sigKey]) (by simp [List.lookup, sigKey]) hp, hc]
    have hid : List.lookup "id" [(sigKey, W.str resourceSig), ("urn", .str u), ("id", w)] = some w := by
      simp [List.lookup, sigKey]
    simp only [hid]
    have hune : UNKNOWN ≠ "" := by decide
    refine ⟨fun hunk => ?_, fun s hid hkn hns hs => ?_, fun s hid hkn hns hs hsec => ?_⟩
    · simp [serStrOut, finishOutput, hunk, toWire] at hw
      subst hw
      simp [hune, des, desStr, Except.map]
      split <;> rfl
    · simp [serStrOut, finishOutput, hid, hkn, hns, toWire] at hw
      subst hw
      by_cases he : s = ""
      · subst he; simp [desStr]
      · simp [he, des, desStr, hs, Except.map, bubbleDict]
    · simp [serStrOut, finishOutput, hid, hkn, hns, hsec, secretDict, toWire, toWireKvs] at hw
      subst hw
      simp [des, desStruct, desKvs, desStr, hs, Decoded.get, List.lookup, sigKey, secretSig, assetSig, archiveSig,
        Except.map, wrapSecret, isRpcSecret, bubbleDict, secretDict]

/-- Non-trivial instance: the sample custom resource, whose id is `id0`. -/
example : ∃ x d w, ser sampleEnv false .any (.resource (.decl 0)) = .ok (x, d) ∧ toWire x = some w ∧
    des sampleEnv false w = .ok (.str "id0") := by
  obtain ⟨x, d, w, h1, h2, _, h3, _⟩ := custom_reference_id (env := sampleEnv) (env' := sampleEnv) (n := 0)
    (parts := ⟨"a".toList, "t:m:T".toList, "t".toList, "m".toList, "T".toList⟩) rfl rfl rfl rfl (by rfl) rfl rfl
    false false .any
  exact ⟨x, d, w, h1, h2, h3 "id0" rfl rfl rfl (by decide)⟩

end Pulumi.Wire
