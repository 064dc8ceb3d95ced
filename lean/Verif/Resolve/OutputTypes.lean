import Verif.Resolve.Theorems
import Verif.Wire.Names
/-! # C48: names and types of output values; C23 for reading -/
namespace Pulumi.Resolve
open Pulumi.Wire

/-! ## Helper lemmas -/

theorem transList_get {C : Classes} {m : Bool} {tr : String → String} {t : OTy} {xs : List PV} {vs : List RV}
    (h : transList C m tr t xs = .ok vs) {i : Nat} {x : PV} (hx : xs[i]? = some x) :
    ∃ y, trans C m tr t x = .ok y ∧ vs[i]? = some y := by
  induction xs generalizing vs i with
  | nil => simp at hx
  | cons a xs ih =>
    rw [transList, bind_ok] at h
    obtain ⟨v, hv, h⟩ := h
    rw [bind_ok] at h
    obtain ⟨vs', hvs, h⟩ := h
    cases h
    cases i with
    | zero => simp at hx; subst hx; exact ⟨v, hv, rfl⟩
    | succ i => simpa using ih hvs (by simpa using hx)

theorem transList_length {C : Classes} {m : Bool} {tr : String → String} {t : OTy} {xs : List PV} {vs : List RV}
    (h : transList C m tr t xs = .ok vs) : vs.length = xs.length := by
  induction xs generalizing vs with
  | nil => cases h; rfl
  | cons a xs ih =>
    rw [transList, bind_ok] at h
    obtain ⟨v, hv, h⟩ := h
    rw [bind_ok] at h
    obtain ⟨vs', hvs, h⟩ := h
    cases h
    simp [ih hvs]

theorem construct_untouched {c : OClass} {vals : List (String × RV)} {ps : List OProp} {acc : List (String × RV)} {k : String}
    (h : ∀ p ∈ ps, storeKey c p ≠ k) :
    (ps.foldl (fun acc p =>
      let v := (vals.lookup p.pulumiName).getD (.leaf .none)
      if p.optional && v.isNone then acc else setKey acc (storeKey c p) v) acc).lookup k = acc.lookup k := by
  induction ps generalizing acc with
  | nil => rfl
  | cons p ps ih =>
    rw [List.foldl_cons, ih (fun q hq => h q (List.mem_cons_of_mem _ hq))]
    dsimp only
    split
    · rfl
    · rw [setKey_lookup_ne _ _ (Ne.symm (h p (List.mem_cons_self ..)))]

theorem isNone_eq {v : RV} (h : v.isNone = true) : v = .leaf .none := by
  cases v with
  | leaf p => cases p <;> first | rfl | cases h
  | _ => cases h

theorem construct_lookup {c : OClass} {vals : List (String × RV)} {ps : List OProp} (hn : (ps.map (storeKey c)).Nodup)
    {acc : List (String × RV)} {q : OProp} (hq : q ∈ ps) (ha : acc.lookup (storeKey c q) = none) :
    ((ps.foldl (fun acc p =>
      let v := (vals.lookup p.pulumiName).getD (.leaf .none)
      if p.optional && v.isNone then acc else setKey acc (storeKey c p) v) acc).lookup (storeKey c q)).getD (.leaf .none) =
      (vals.lookup q.pulumiName).getD (.leaf .none) := by
  induction ps generalizing acc with
  | nil => cases hq
  | cons p ps ih =>
    simp only [List.map_cons, List.nodup_cons] at hn
    rw [List.foldl_cons]
    rcases List.mem_cons.1 hq with h | h
    · subst h
      rw [construct_untouched (fun r hr hh => hn.1 (List.mem_map.2 ⟨r, hr, hh⟩))]
      dsimp only
      split
      · rename_i hh
        simp only [Bool.and_eq_true] at hh
        rw [ha, isNone_eq hh.2]
        rfl
      · rw [setKey_lookup_self]; rfl
    · refine ih hn.2 h ?_
      dsimp only
      split
      · exact ha
      · rw [setKey_lookup_ne _ _ (fun hh => hn.1 (List.mem_map.2 ⟨q, h, hh⟩)), ha]

theorem storeKeys_nodup {c : OClass} (h : WellDefined c) : (c.props.map (storeKey c)).Nodup := by
  cases hc : c.translate with
  | none =>
    have : c.props.map (storeKey c) = c.props.map (·.pyName) := by
      apply List.map_congr_left
      intro p _
      simp [storeKey, hc]
    rw [this]
    exact h.1
  | some f =>
    have : c.props.map (storeKey c) = c.props.map fun q => f q.pulumiName := by
      apply List.map_congr_left
      intro p _
      simp [storeKey, hc]
    rw [this]
    exact h.2.2.2 f hc

theorem find_py {ps : List OProp} (h : (ps.map (·.pyName)).Nodup) {q : OProp} (hq : q ∈ ps) :
    ps.find? (fun p => p.pyName == q.pyName) = some q := by
  induction ps with
  | nil => cases hq
  | cons p ps ih =>
    simp only [List.map_cons, List.nodup_cons] at h
    rw [List.find?_cons]
    rcases List.mem_cons.1 hq with h' | h'
    · subst h'; simp
    · have : (p.pyName == q.pyName) = false := by
        simp only [beq_eq_false_iff_ne]
        exact fun hh => h.1 (List.mem_map.2 ⟨q, h', hh.symm⟩)
      rw [this]
      exact ih h.2 h'

theorem find_pulumi {ps : List OProp} (h : (ps.map (·.pulumiName)).Nodup) {q : OProp} (hq : q ∈ ps) :
    ps.find? (fun p => p.pulumiName == q.pulumiName) = some q := by
  induction ps with
  | nil => cases hq
  | cons p ps ih =>
    simp only [List.map_cons, List.nodup_cons] at h
    rw [List.find?_cons]
    rcases List.mem_cons.1 hq with h' | h'
    · subst h'; simp
    · have : (p.pulumiName == q.pulumiName) = false := by
        simp only [beq_eq_false_iff_ne]
        exact fun hh => h.1 (List.mem_map.2 ⟨q, h', hh.symm⟩)
      rw [this]
      exact ih h.2 h'

theorem attr_eq {C : Classes} {cls : String} (h : WellDefined (C.output cls)) {fields : List (String × RV)} {q : OProp}
    (hq : q ∈ (C.output cls).props) :
    attr C cls fields q.pyName = (fields.lookup (storeKey (C.output cls) q)).getD (.leaf .none) := by
  cases ht : (C.output cls).translate with
  | none => simp [attr, storeKey, ht]
  | some f => simp [attr, storeKey, ht, find_py h.1 hq, h.2.2.1 q hq]

theorem at_leaf (C : Classes) (p : List RStep) : (RV.leaf .none).at C p = .leaf .none := by
  cases p <;> simp [RV.at]

theorem at_attr (C : Classes) (v : RV) (n : String) (p : List RStep) :
    v.at C (.attr n :: p) = (v.at C [.attr n]).at C p := by
  cases v <;> simp [RV.at, at_leaf]

/-- Reading a property of an instance gives what it was constructed with. -/
theorem construct_attr {C : Classes} {cls : String} (h : WellDefined (C.output cls)) {vals : List (String × RV)} {q : OProp}
    (hq : q ∈ (C.output cls).props) :
    (construct C cls vals).at C [.attr q.pyName] = (vals.lookup q.pulumiName).getD (.leaf .none) := by
  rw [construct, RV.at, attr_eq h hq]
  simp only [RV.at]
  exact construct_lookup (storeKeys_nodup h) hq rfl

theorem noMarker_elem {xs : List PV} (h : NoMarker (.list xs)) {x : PV} (hx : x ∈ xs) : NoMarker x := by
  cases h with
  | list h => exact h x hx
  | leaf h _ => exact absurd rfl (h _)

theorem noMarker_entry {kvs : List (String × PV)} (h : NoMarker (.dict kvs)) {k : String} {x : PV} (hx : (k, x) ∈ kvs) :
    NoMarker x := by
  cases h with
  | dict _ h => exact h _ hx
  | leaf _ h => exact absurd rfl (h _)

/-! ## C48 -/

/-- **C48.** Whatever the engine sends, if it can be translated at all: a value that the engine has at a path in a
property is found by the program at the corresponding path (element of a list at its index, entry of a dict under its
own or the translated name, property of an output type as the attribute with its Python name), and is itself
translated to the type declared for it. -/
theorem output_found {C : Classes} {m : Bool} {tr : String → String} {t t' : OTy} {v v' : PV} {p : List Step}
    {p' : List RStep} (h : Received C m tr t v p t' v' p') :
    ∀ x, NoMarker v → trans C m tr t v = .ok x → ∃ x', trans C m tr t' v' = .ok x' ∧ x.at C p' = x' := by
  induction h with
  | here t v => intro x _ hx; exact ⟨x, hx, by cases x <;> rfl⟩
  | untypedElem hi _ ih =>
    intro x hv hx
    rw [trans] at hx
    simp only [elemTy, map_ok] at hx
    obtain ⟨vs, hvs, rfl⟩ := hx
    obtain ⟨y, hy, hl⟩ := transList_get hvs hi
    obtain ⟨x', h1, h2⟩ := ih y (noMarker_elem hv (List.mem_of_getElem? hi)) hy
    exact ⟨x', h1, by rw [RV.at, hl]; exact h2⟩
  | elem hi _ ih =>
    intro x hv hx
    rw [trans] at hx
    simp only [elemTy, map_ok] at hx
    obtain ⟨vs, hvs, rfl⟩ := hx
    obtain ⟨y, hy, hl⟩ := transList_get hvs hi
    obtain ⟨x', h1, h2⟩ := ih y (noMarker_elem hv (List.mem_of_getElem? hi)) hy
    exact ⟨x', h1, by rw [RV.at, hl]; exact h2⟩
  | @untyped t kvs k y p t' v' p' ht hn hm _ ih =>
    intro x hv hx
    rw [trans, noMarker_not_secret hv] at hx
    have hx' : (sequence (transKvs C m tr (fun _ => .any) kvs)).map (fun es => RV.dict (es.foldl (fun acc kv => setKey acc (tr kv.1) kv.2) [])) = .ok x := by
      rcases ht with rfl | rfl <;> exact hx
    rw [map_ok] at hx'
    obtain ⟨es, hes, rfl⟩ := hx'
    obtain ⟨h1, h2, _⟩ := transKvs_mem hes
    obtain ⟨z, hz, hzm⟩ := h2 k y hm
    obtain ⟨x', h3, h4⟩ := ih z (noMarker_entry hv hm) hz
    refine ⟨x', h3, ?_⟩
    rw [RV.at, foldl_setKey_lookup ?_ hzm]
    · exact h4
    · have : es.map (fun kv => tr kv.1) = (es.map (·.1)).map tr := by simp
      rw [this, h1, List.map_map]
      exact hn
  | @keptEntry t kvs k y p t' v' p' hm' hn hm _ ih =>
    intro x hv hx
    subst hm'
    rw [trans, noMarker_not_secret hv] at hx
    have hx' : (sequence (transKvs C true tr (fun _ => t) kvs)).map (fun es => RV.dict (es.foldl (fun acc kv => setKey acc (id kv.1) kv.2) [])) = .ok x := hx
    rw [map_ok] at hx'
    obtain ⟨es, hes, rfl⟩ := hx'
    obtain ⟨h1, h2, _⟩ := transKvs_mem hes
    obtain ⟨z, hz, hzm⟩ := h2 k y hm
    obtain ⟨x', h3, h4⟩ := ih z (noMarker_entry hv hm) hz
    refine ⟨x', h3, ?_⟩
    have hl := foldl_setKey_lookup (f := id) (acc := []) (es := es) (by
      have : es.map (fun kv => id kv.1) = es.map (·.1) := rfl
      rw [this, h1]
      exact hn) hzm
    rw [RV.at]
    simp only [id] at hl ⊢
    rw [hl]
    exact h4
  | @renamedEntry t kvs k y p t' v' p' hm' hn hm _ ih =>
    intro x hv hx
    subst hm'
    rw [trans, noMarker_not_secret hv] at hx
    have hx' : (sequence (transKvs C false tr (fun _ => t) kvs)).map (fun es => RV.dict (es.foldl (fun acc kv => setKey acc (tr kv.1) kv.2) [])) = .ok x := hx
    rw [map_ok] at hx'
    obtain ⟨es, hes, rfl⟩ := hx'
    obtain ⟨h1, h2, _⟩ := transKvs_mem hes
    obtain ⟨z, hz, hzm⟩ := h2 k y hm
    obtain ⟨x', h3, h4⟩ := ih z (noMarker_entry hv hm) hz
    refine ⟨x', h3, ?_⟩
    rw [RV.at, foldl_setKey_lookup ?_ hzm]
    · exact h4
    · have : es.map (fun kv => tr kv.1) = (es.map (·.1)).map tr := by simp
      rw [this, h1, List.map_map]
      exact hn
  | @property cls kvs q y p t' v' p' hw hn hq hm _ ih =>
    intro x hv hx
    rw [trans, noMarker_not_secret hv] at hx
    have hx' : (sequence (transKvs C m tr (propTy (C.output cls)) kvs)).map (construct C cls) = .ok x := hx
    rw [map_ok] at hx'
    obtain ⟨es, hes, rfl⟩ := hx'
    obtain ⟨h1, h2, _⟩ := transKvs_mem hes
    obtain ⟨z, hz, hzm⟩ := h2 _ y hm
    have hty : propTy (C.output cls) q.pulumiName = q.ty := by
      simp only [propTy, find_pulumi hw.2.1 hq]
    rw [hty] at hz
    obtain ⟨x', h3, h4⟩ := ih z (noMarker_entry hv hm) hz
    refine ⟨x', h3, ?_⟩
    rw [at_attr, construct_attr hw hq, lookup_of_mem (h1 ▸ hn) hzm]
    exact h4

/-- **C48.** A property of an output type that the engine does not send is `None`. -/
theorem absent_property {C : Classes} {m : Bool} {tr : String → String} {cls : String} (hw : WellDefined (C.output cls))
    {kvs : List (String × PV)} (hv : NoMarker (.dict kvs)) {q : OProp} (hq : q ∈ (C.output cls).props)
    (hm : q.pulumiName ∉ kvs.map (·.1)) {x : RV} (hx : trans C m tr (.output cls) (.dict kvs) = .ok x) :
    x.at C [.attr q.pyName] = .leaf .none := by
  rw [trans, noMarker_not_secret hv] at hx
  have hx' : (sequence (transKvs C m tr (propTy (C.output cls)) kvs)).map (construct C cls) = .ok x := hx
  rw [map_ok] at hx'
  obtain ⟨es, hes, rfl⟩ := hx'
  obtain ⟨h1, _, _⟩ := transKvs_mem hes
  rw [construct_attr hw hq, lookup_none (h1 ▸ hm)]
  rfl

/-- **C48.** A list keeps its length. -/
theorem list_length {C : Classes} {m : Bool} {tr : String → String} {t : OTy} {xs : List PV} {x : RV}
    (hx : trans C m tr t (.list xs) = .ok x) : ∃ ys, x = .list ys ∧ ys.length = xs.length := by
  rw [trans] at hx
  split at hx
  · cases hx
  · rw [map_ok] at hx
    obtain ⟨ys, hys, rfl⟩ := hx
    exact ⟨ys, rfl, transList_length hys⟩

/-- **C48.** A number declared as `int` is given as one; a scalar declared as an enum is the member with that value, and
if there is none, resolution fails; a string, number, boolean or asset of any other declared type is given as it is. -/
theorem scalar_values {C : Classes} {m : Bool} {tr : String → String} :
    (∀ n, trans C m tr .int (.num n) = .ok (.int n)) ∧
    (∀ cls s, .str s ∈ C.enum cls → trans C m tr (.enum cls) (.str s) = .ok (.enum cls (.str s))) ∧
    (∀ cls s, .str s ∉ C.enum cls → trans C m tr (.enum cls) (.str s) = .error .value) ∧
    (∀ t s, (∀ cls, t ≠ .enum cls) → trans C m tr t (.str s) = .ok (.leaf (.str s))) ∧
    (∀ t n, (∀ cls, t ≠ .enum cls) → t ≠ .int → trans C m tr t (.num n) = .ok (.leaf (.num n))) ∧
    (∀ t b, (∀ cls, t ≠ .enum cls) → trans C m tr t (.bool b) = .ok (.leaf (.bool b))) ∧
    (∀ t k s, trans C m tr t (.asset k s) = .ok (.leaf (.asset k s))) ∧
    (∀ t, trans C m tr t .none = .ok (.leaf .none)) := by
  have hstr : ∀ s p, scalarEq (.str s) p = true ↔ p = .str s := by
    intro s p
    cases p with
    | str a =>
      simp only [scalarEq, beq_iff_eq, PV.str.injEq]
      exact eq_comm
    | _ => simp [scalarEq]
  refine ⟨fun _ => rfl, ?_, ?_, ?_, ?_, ?_, ?_, ?_⟩
  · intro cls s h
    simp only [trans, transLeaf, isScalar, if_true, enumOf]
    cases hf : (C.enum cls).find? (scalarEq (.str s)) with
    | none => exact absurd ((hstr s _).2 rfl) (by simpa using List.find?_eq_none.1 hf _ h)
    | some p =>
      have := List.find?_some hf
      rw [hstr] at this
      rw [this]
  · intro cls s h
    simp only [trans, transLeaf, isScalar, if_true, enumOf]
    cases hf : (C.enum cls).find? (scalarEq (.str s)) with
    | none => rfl
    | some p =>
      have := List.find?_some hf
      rw [hstr] at this
      exact absurd (this ▸ List.mem_of_find?_eq_some hf) h
  · intro t s ht
    cases t <;> first | rfl | exact absurd rfl (ht _)
  · intro t s ht hi
    cases t <;> first | rfl | exact absurd rfl (ht _) | exact absurd rfl hi
  · intro t s ht
    cases t <;> first | rfl | exact absurd rfl (ht _)
  · intro t k s
    cases t <;> rfl
  · intro t
    cases t <;> rfl

/-- The hypotheses hold for a list of typed objects with renamed properties. -/
example : let C := sampleClass.classes
    let v := PV.list [.dict [("firstName", .num 3)]]
    Received C true id (.list (.output "Person")) v [.idx 0, .key "firstName"] .int (.num 3) [.idx 0, .attr "first_name"] ∧
    NoMarker v ∧ ∃ x, trans C true id (.list (.output "Person")) v = .ok x ∧
      x.at C [.idx 0, .attr "first_name"] = .int 3 ∧ x.at C [.idx 0, .attr "tag"] = .leaf .none := by
  intro C v
  have hw : WellDefined (C.output "Person") := by
    refine ⟨?_, ?_, ?_, ?_⟩ <;> simp [C, sampleClass]
  have hv : NoMarker v := by
    refine .list ?_
    intro x hx
    simp at hx
    subst hx
    refine .dict ?_ ?_
    · intro kv hkv; simp at hkv; subst hkv; simp [sigKey]
    · intro kv hkv; simp at hkv; subst hkv; exact .leaf (by simp) (by simp)
  refine ⟨.elem (by rfl) ?_, hv, _, rfl, rfl, rfl⟩
  exact .property (q := ⟨"first_name", "firstName", .int, true⟩) hw (by simp) (by simp [C, sampleClass]) (by simp) (.here ..)

/-- Without type metadata a value of an enum type that the enum does not have makes the property fail. -/
example : trans sampleClass.classes true id (.enum "Level") (.num 2) = .error .value := rfl

/-- **C48.** Which names are used: with type metadata, a property of the resource has the Python name that the metadata
give and the names inside it are left to the types; without, `translate_output_property` of the resource gives both. -/
theorem property_naming (c : ResClass) :
    (∀ f, c.metaNames = some f → c.translate = f ∧ c.pass = id ∧
      ∀ k v, c.trans k v = trans c.classes true id (c.types k) v) ∧
    (c.metaNames = none → c.translate = c.translateOutput ∧ c.pass = c.translateOutput ∧
      ∀ k v, c.trans k v = trans c.classes false c.translateOutput (c.types k) v) := by
  constructor
  · intro f h
    simp [ResClass.translate, ResClass.pass, ResClass.trans, h]
  · intro h
    simp [ResClass.translate, ResClass.pass, ResClass.trans, h]

/-! ## C23 for `read_resource` and the lookup by URN -/

/-- **C23.** If reading or looking up a resource succeeds, everything is set exactly once, here too. -/
theorem read_resolved_once {c : Ctx} (hn : c.props.Nodup) {id : RV} {prep : Except Exc (List (String × W))}
    {rpc : Except Exc (Option Response)} {rpc' : Except Exc Response} {s : Store} :
    (read c id prep rpc [] = (.ok (), s) → OnceEach { c with custom := true } s) ∧
    (getResource c prep rpc' [] = (.ok (), s) → OnceEach c s) := by
  have hprop : ∀ all, (all.map (·.1)).Nodup → ∀ n, Declared c n → ∀ f,
      timesSet (propEntries c.env.dryRun c.res c.resolvers all (translateDeps c.cls [])) (.prop n) f = 1 := by
    intro all ha n hd f
    obtain ⟨_, _, _, ho⟩ := prop_owns hn ha (translateDeps c.cls []) hd
    rw [ho.2]
    exact entries_times ..
  constructor
  · intro h
    rw [read, bindM, request_run hn] at h
    cases prep with
    | error e => cases h
    | ok inputs =>
      cases rpc with
      | error e => cases h
      | ok r =>
        cases r with
        | none => cases h
        | some resp =>
          simp only at h
          have hhead := head_run (custom := true) (urn := .leaf (.str resp.urn)) (id := id) (known := true)
          rw [bindM, resolveOwn_ok (Fresh.nil _)] at hhead
          simp only [List.nil_append, if_true] at hhead
          rw [bindM, resolveOwn_ok (Fresh.nil _)] at h
          simp only [List.nil_append] at h
          rw [bindM, hhead] at h
          simp only at h
          rw [resolveOutputs_run hn (fun n _ => headEntries_fresh _ _ _ _ _)] at h
          cases ha : allProperties c.env c.legacyApply c.cls inputs resp.object with
          | error e => rw [ha] at h; cases h
          | ok all =>
            rw [ha] at h
            cases h
            exact with_head_once (c := { c with custom := true }) (hprop all (allProperties_nodup ha)) prop_targets
  · intro h
    rw [getResource, bindM, request_run hn] at h
    cases prep with
    | error e => cases h
    | ok inputs =>
      cases rpc' with
      | error e => cases h
      | ok resp =>
        simp only at h
        have hhead := head_run (custom := c.custom) (urn := .leaf (.str resp.urn)) (id := .leaf (.str resp.id))
          (known := resp.id != "")
        rw [bindM, resolveOwn_ok (Fresh.nil _)] at hhead
        simp only [List.nil_append] at hhead
        rw [bindM, resolveOwn_ok (Fresh.nil _)] at h
        simp only [List.nil_append] at h
        have h' : resolveOutputs c.env c.legacyApply c.cls c.res inputs resp.object [] c.resolvers
            (headEntries c.custom (.leaf (.str resp.urn)) (.leaf (.str resp.id)) (resp.id != "")) = (.ok (), s) := by
          cases hc : c.custom with
          | true =>
            rw [hc] at h hhead
            simp only [if_true] at h hhead
            rw [bindM, hhead] at h
            exact h
          | false =>
            rw [hc] at h hhead
            simp only [Bool.false_eq_true, if_false, pureM, Prod.mk.injEq, true_and] at h hhead
            rw [hhead] at h
            exact h
        rw [resolveOutputs_run hn (fun n _ => headEntries_fresh _ _ _ _ _)] at h'
        cases ha : allProperties c.env c.legacyApply c.cls inputs resp.object with
        | error e => rw [ha] at h'; cases h'
        | ok all =>
          rw [ha] at h'
          cases h'
          exact with_head_once (hprop all (allProperties_nodup ha)) prop_targets

example : ∃ s, read sampleCtx (.leaf (.str "i-1")) (.ok []) (.ok (some sampleResponse)) [] = (.ok (), s) := ⟨_, rfl⟩

end Pulumi.Resolve
