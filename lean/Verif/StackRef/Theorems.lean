import Verif.StackRef.Lemmas
/-!
# Outputs of another stack (C66)
-/
namespace Pulumi.StackRef
open Pulumi.Async Pulumi.Output

variable {roots : Nat → Option Prog} {d : Config}

theorem callbackArg_known {dry w} (h : w.known = true) : callbackArg dry w = w.value := by
  simp [callbackArg, h]

/-- **C66.** With the name and the outputs known: the named output's value; if there is none, `None` from `get_output` and a
`KeyError` from `require_output`. Either way the result depends on exactly what the name and the reference's outputs depend
on. -/
theorem fetched (hd : Completes roots d) {ref : Ref} {dry fuel n0 k require name t n out n' wn wo s kvs}
    (h : Ran d t n (getOutput dry fuel require ref name) (.ok out) n')
    (hn : Unwraps dry d.futs n0 name wn) (hs : wn.value = .str s) (hkn : wn.known = true)
    (ho : Shows d.futs ref.outputs wo) (hio : IsOutput d ref.outputs) (hkvs : wo.value = .dict kvs) (hko : wo.known = true)
    (hdata : Data k (.dict kvs)) (hdist : Distinct kvs) (hfuel : n0 ≤ fuel) (hfuel' : k + 2 ≤ fuel) :
    (∀ v, HasOutput kvs s v →
      d.futs out.value = some (.ok v) ∧ d.futs out.known = some (.ok (.bool true))) ∧
    ((∀ v, ¬ HasOutput kvs s v) → require = false →
      d.futs out.value = some (.ok .none) ∧ d.futs out.known = some (.ok (.bool true))) ∧
    ((∀ v, ¬ HasOutput kvs s v) → require = true →
      d.futs out.value = some (.exn "KeyError") ∧ d.futs out.known = some (.ok (.bool false))) ∧
    HoldsSet (d.futs out.resources) (fun r => wn.deps r ∨ wo.deps r) := by
  have hset := settled_of_completes hd
  obtain ⟨o, both, value, n1, n2, n3, n4, ts, tv, h1, h2, h3, h4, h5, h6⟩ := getOutput_ran hset h
  have hok : KnownOk wo := fun hk => known_has_no_unknown hd hio ho hk
  have hk1 : 1 ≤ k := by cases hdata <;> omega
  obtain ⟨w, b1, b2, b3, b4⟩ := both_spec hd (k := k) h1 h2 hn hfuel ho hok
    (by rw [hs]; cases k with | zero => omega | succ k => exact .prompt trivial) (by rw [hkvs]; exact hdata) hfuel' (.inr ⟨hkn, hko⟩)
  have hwk : w.known = true := b3.2 ⟨hkn, hko⟩
  obtain ⟨_, r, m, c1, c2, c3⟩ := apply_invoked hset h3 b1 (.inr (.inl hwk))
  rw [callbackArg_known hwk, b2 hkn hko, hs, hkvs] at c1
  simp only [fetch] at c1
  obtain ⟨e1, e2, e3, u, e4, hu⟩ := mkOutput_ran h6
  have hv := getValue_res hset h5
  have hku := isValueKnown_res hset hu
  have hdeps : ∀ {S : Nat → Prop} {S' : Nat → Prop}, HoldsSet (d.futs value.resources) S → (∀ r, S r ↔ S' r) →
      HoldsSet (d.futs out.resources) S' := by
    rintro S S' ⟨ids, hi, hi'⟩ hSS
    exact ⟨ids, by rw [e1, hi], fun x => by rw [hi', hSS]⟩
  -- a value `v` without unknowns is returned
  have hret : ∀ v, Plain v → containsUnknowns v = false → r = .ok v →
      d.futs out.value = some (.ok v) ∧ d.futs out.known = some (.ok (.bool true)) ∧
        HoldsSet (d.futs out.resources) (fun r => wn.deps r ∨ wo.deps r) := by
    intro v hp hc hr
    have hsh := c2 v (.ofPlain v) hr (.plain hp)
    have hvv := hsh.value
    have hkk := hsh.known
    simp only [View.after, View.ofPlain, hc, Bool.not_false, Bool.and_self] at hvv hkk
    rw [hvv] at hv
    simp only [hc, Bool.and_false, Bool.false_eq_true, if_false] at hv
    rw [hkk, hv] at hku
    simp only [truthy, if_true, hc, Bool.not_false] at hku
    refine ⟨by rw [e2, hv], by rw [e4, hku], hdeps hsh.deps ?_⟩
    intro x; simp [View.after, View.ofPlain, noDeps, b4]
  have hnu := hok hko
  rw [hkvs] at hnu
  have hplain : ∀ v, (s, v) ∈ kvs → Plain v ∧ containsUnknowns v = false := by
    intro v hv
    refine ⟨?_, ?_⟩
    · cases hdata with
      | prompt hp => cases kvs with
        | nil => cases hv
        | cons => exact hp.elim
      | dict h => cases h _ _ hv with
        | prompt hp => cases v <;> first | trivial | exact hp.elim
        | list => trivial
        | dict => trivial
    · cases hc : containsUnknowns v with
      | false => rfl
      | true => exact absurd (.dict hv ((containsUnknowns_iff v).1 hc)) hnu
  by_cases hex : ∃ v, HasOutput kvs s v
  · obtain ⟨v, hv'⟩ := hex
    rw [find_some hdist hv'] at c1
    simp only at c1
    cases c1
    obtain ⟨hp, hc⟩ := hplain v hv'
    obtain ⟨g1, g2, g3⟩ := hret v hp hc rfl
    refine ⟨?_, fun hh => absurd hv' (hh v), fun hh => absurd hv' (hh v), g3⟩
    intro v' hh
    have hf := find_some hdist hh
    rw [find_some hdist hv'] at hf
    cases hf
    exact ⟨g1, g2⟩
  · have hne : ∀ v, ¬ HasOutput kvs s v := fun v hv => hex ⟨v, hv⟩
    rw [find_none hne] at c1
    simp only at c1
    cases require with
    | false =>
      simp only [Bool.false_eq_true, if_false] at c1
      cases c1
      obtain ⟨g1, g2, g3⟩ := hret .none trivial rfl rfl
      exact ⟨fun v hv => absurd hv (hne v), fun _ _ => ⟨g1, g2⟩, (fun _ h => nomatch h), g3⟩
    | true =>
      simp only [if_true] at c1
      cases c1
      obtain ⟨g1, g2, g3, g4⟩ := c3 _ rfl
      rw [g1] at hv
      rw [g3] at hku
      simp only [truthy, Bool.false_eq_true, if_false] at hku
      refine ⟨fun v hv => absurd hv (hne v), (fun _ h => nomatch h), fun _ _ => ⟨by rw [e2, hv], by rw [e4, hku]⟩, hdeps g2 b4⟩

/-- **C66.** During a preview in which the name or the outputs are not known, neither is the result, and it has no value: nothing is
looked up and `require_output` does not fail. -/
theorem unknown_in_preview (hd : Completes roots d) {ref : Ref} {fuel n0 k require name t n out n' wn wo}
    (h : Ran d t n (getOutput true fuel require ref name) (.ok out) n')
    (hn : Unwraps true d.futs n0 name wn) (hdn : Data k wn.value)
    (ho : Shows d.futs ref.outputs wo) (hio : IsOutput d ref.outputs) (hdo : Data k wo.value)
    (hu : wn.known = false ∨ wo.known = false) (hfuel : n0 ≤ fuel) (hfuel' : k + 2 ≤ fuel) :
    d.futs out.value = some (.ok .none) ∧ d.futs out.known = some (.ok (.bool false)) ∧
    HoldsSet (d.futs out.resources) (fun r => wn.deps r ∨ wo.deps r) := by
  have hset := settled_of_completes hd
  obtain ⟨o, both, value, n1, n2, n3, n4, ts, tv, h1, h2, h3, h4, h5, h6⟩ := getOutput_ran hset h
  have hok : KnownOk wo := fun hk => known_has_no_unknown hd hio ho hk
  obtain ⟨w, b1, b2, b3, b4⟩ := both_spec hd (k := k) h1 h2 hn hfuel ho hok hdn hdo hfuel' (.inl rfl)
  have hwk : w.known = false := by
    cases hk : w.known with
    | false => rfl
    | true =>
      have := b3.1 hk
      rcases hu with hu | hu <;> simp [hu] at this
  have hsh := apply_applied hset h3 b1 (w' := .ofPlain .none) (by
    rintro (hh | hh)
    · cases hh
    · rw [hwk] at hh; cases hh)
  simp only [applied, hwk, Bool.not_false, Bool.and_self, if_true] at hsh
  obtain ⟨e1, e2, e3, u, e4, hu'⟩ := mkOutput_ran h6
  have hv := getValue_res hset h5
  have hku := isValueKnown_res hset hu'
  rw [hsh.value] at hv
  rw [hsh.known] at hku
  simp only [truthy, Bool.false_eq_true, if_false] at hku
  obtain ⟨ids, hi, hi'⟩ := hsh.deps
  exact ⟨by rw [e2, hv]; rfl, by rw [e4, hku], ids, by rw [e1, hi], fun x => by rw [hi', b4]⟩

/-- **C66** (partial). If the engine said which outputs are secret, the result is secret exactly if the name is listed. If it did not,
or the name or the list is not known, the result is secret exactly if the reference's outputs as a whole are.

Full statement: in addition, the result is secret if the *name* is a secret. False: `secret_name_lost`. -/
theorem secretness_partial (hd : Completes roots d) {ref : Ref} {dry fuel n0 require name t n out n' wn wo ws}
    (h : Ran d t n (getOutput dry fuel require ref name) (.ok out) n')
    (hn : Unwraps dry d.futs n0 name wn) (hfuel : n0 ≤ fuel) (ho : Shows d.futs ref.outputs wo)
    (hw : Shows d.futs ref.names ws) (hiw : IsOutput d ref.names) :
    (∀ s names, wn.known = true → wn.value = .str s → ws.known = true → ws.value = .list names →
      ∃ b, d.futs out.secret = some (.ok (.bool b)) ∧ (b = true ↔ Listed names s)) ∧
    (wn.known = false ∨ ws.known = false ∨ ws.value = .none → d.futs out.secret = some (.ok (.bool wo.secret))) := by
  have hset := settled_of_completes hd
  obtain ⟨o, both, value, n1, n2, n3, n4, ts, tv, h1, h2, h3, h4, h5, h6⟩ := getOutput_ran hset h
  obtain ⟨e1, e2, e3, u, e4, hu'⟩ := mkOutput_ran h6
  have hok : KnownOk ws := fun hk => known_has_no_unknown hd hiw hw hk
  obtain ⟨s1, s2⟩ := isSecretName_spec hset h4 hn hfuel hw ho
  rw [e3]
  exact ⟨fun s names a b c e => s2 s names a c hok b e, s1⟩

/-- **C66**, negation: looking up a *secret* name that is not on the list gives an `Output` that is not secret, although its value
reveals the name (it says whether there is an output of that name). -/
theorem secret_name_lost (hd : Completes roots d) {ref : Ref} {dry fuel n0 require name t n out n' wn wo ws s names}
    (h : Ran d t n (getOutput dry fuel require ref name) (.ok out) n')
    (hn : Unwraps dry d.futs n0 name wn) (hfuel : n0 ≤ fuel) (ho : Shows d.futs ref.outputs wo)
    (hw : Shows d.futs ref.names ws) (hiw : IsOutput d ref.names)
    (hkn : wn.known = true) (hs : wn.value = .str s) (hkw : ws.known = true) (hnames : ws.value = .list names)
    (hnot : ¬ Listed names s) : d.futs out.secret = some (.ok (.bool false)) := by
  obtain ⟨b, hb, hb'⟩ := (secretness_partial hd h hn hfuel ho hw hiw).1 s names hkn hs hkw hnames
  cases b with
  | false => exact hb
  | true => exact absurd (hb'.1 rfl) hnot

/-! ## A complete execution -/

/-- A reference with outputs `v`, of which `b` is secret, and a secret name. -/
theorem scenario' (dry : Bool) (require : Bool) (name : String) (v : Val) (known : Bool) : ∃ roots d, ∃ ref : Ref, ∃ o t n r n', Completes roots d ∧
    Shows d.futs ref.outputs { value := v, known := known && !containsUnknowns v, secret := true, deps := (· ∈ [7]) } ∧
    IsOutput d ref.outputs ∧
    Shows d.futs ref.names { value := .list [.str "b"], known := true, secret := false, deps := (· ∈ [7]) } ∧ IsOutput d ref.names ∧
    Shows d.futs o { value := .str name, known := true, secret := true, deps := (· ∈ [9]) } ∧
    Ran d t n (getOutput dry 4 require ref (.out o)) r n' := by
  obtain ⟨d, r, n', hd, hr⟩ := main_ran ((sample v known true [7]).bind fun o1 =>
    (sample (.list [.str "b"]) true false [7]).bind fun o2 => (sample (.str name) true true [9]).bind fun o3 =>
    getOutput dry 4 require ⟨o1, o2⟩ (.out o3))
  have hs := settled_of_completes hd
  rcases hr.bind with ⟨o1, m, h1, h2⟩ | ⟨e, h1, _⟩
  · obtain ⟨_, he, hsh1, hi1⟩ := sample_ran hs h1
    cases he
    rcases h2.bind with ⟨o2, m', h3, h4⟩ | ⟨e, h3, _⟩
    · obtain ⟨_, he, hsh2, hi2⟩ := sample_ran hs h3
      cases he
      rcases h4.bind with ⟨o3, m'', h5, h6⟩ | ⟨e, h5, _⟩
      · obtain ⟨_, he, hsh3, hi3⟩ := sample_ran hs h5
        cases he
        exact ⟨_, d, ⟨o1, o2⟩, o3, _, _, _, _, hd, hsh1, hi1, hsh2, hi2, hsh3, h6⟩
      · obtain ⟨_, he, _⟩ := sample_ran hs h5
        simp at he
    · obtain ⟨_, he, _⟩ := sample_ran hs h3
      simp at he
  · obtain ⟨_, he, _⟩ := sample_ran hs h1
    simp at he

/-- A reference whose stack has outputs `a` and `b`, of which `b` is secret, and a secret name. -/
theorem scenario (dry : Bool) (require : Bool) (name : String) : ∃ roots d, ∃ ref : Ref, ∃ o t n r n', Completes roots d ∧
    Shows d.futs ref.outputs { value := .dict [("a", .int 1), ("b", .int 2)], known := true, secret := true, deps := (· ∈ [7]) } ∧
    IsOutput d ref.outputs ∧
    Shows d.futs ref.names { value := .list [.str "b"], known := true, secret := false, deps := (· ∈ [7]) } ∧ IsOutput d ref.names ∧
    Shows d.futs o { value := .str name, known := true, secret := true, deps := (· ∈ [9]) } ∧
    Ran d t n (getOutput dry 4 require ref (.out o)) r n' :=
  scenario' dry require name (.dict [("a", .int 1), ("b", .int 2)]) true

theorem getOutput_returns (hd : Completes roots d) {ref : Ref} {dry fuel n0 k require name t n r n' wn wo}
    (h : Ran d t n (getOutput dry fuel require ref name) r n')
    (hn : Unwraps dry d.futs n0 name wn) (hdn : Data k wn.value)
    (ho : Shows d.futs ref.outputs wo) (hio : IsOutput d ref.outputs) (hdo : Data k wo.value)
    (hdry : dry = true ∨ (wn.known = true ∧ wo.known = true)) (hfuel : n0 ≤ fuel) (hfuel' : k + 2 ≤ fuel) :
    ∃ out, r = .ok out := by
  have hs := settled_of_completes hd
  have hok : KnownOk wo := fun hk => known_has_no_unknown hd hio ho hk
  have hkn : KnownOk wn := fun h => by
    rw [← containsUnknowns_iff, unwraps_known hn h]; simp
  unfold getOutput at h
  rcases h.bind with ⟨o, m, h1, h2⟩ | ⟨e, h1, _⟩
  · obtain ⟨_, he, hsh⟩ := fromInput_shows hs _ _ _ _ hn hfuel _ _ _ _ h1
    cases he
    rcases h2.bind with ⟨both, m', h3, h4⟩ | ⟨e, h3, _⟩
    · rcases h4.bind with ⟨value, m', h5, h6⟩ | ⟨e, h5, _⟩
      · cases h6 with
        | spawn _ h6 => cases h6 with
          | spawn _ h6 => exact mkOutput_no_raise' h6
      · obtain ⟨_, he⟩ := apply_no_raise' h5
        simp at he
    · obtain ⟨wa, a1, _⟩ := out_unwraps (dry := dry) hsh hdn hkn (hdry.imp id (·.1))
      obtain ⟨wb, b1, _⟩ := out_unwraps (dry := dry) ho hdo hok (hdry.imp id (·.2))
      obtain ⟨_, w, e, _⟩ := all_args hd h3 (.cons a1 (.cons b1 .nil)) hfuel'
      simp at e
  · obtain ⟨_, he, _⟩ := fromInput_shows hs _ _ _ _ hn hfuel _ _ _ _ h1
    simp at he

theorem name_unwraps {dry σ o n s} {ids : List Nat}
    (h : Shows σ o { value := .str s, known := true, secret := true, deps := (· ∈ ids) }) :
    Unwraps dry σ (n + 2) (.out o) { value := .str s, known := true, secret := true, deps := (· ∈ ids) } := by
  have := Unwraps.output (dry := dry) (n := n + 1) h (w := .ofPlain (.str s)) (by
    simp only [Bool.not_true, Bool.and_false, Bool.false_and, Bool.false_eq_true, if_false]
    exact .prompt trivial)
  refine Eq.mp (congrArg _ ?_) this
  apply View.ext <;> simp [View.after, View.ofPlain, containsUnknowns, noDeps]

theorem outputs_data : Data 2 (.dict [("a", .int 1), ("b", .int 2)]) := by
  refine .dict ?_
  intro k x h
  simp at h
  rcases h with ⟨_, rfl⟩ | ⟨_, rfl⟩ <;> exact .prompt trivial

/-- Non-vacuity of `fetched`, `secretness_partial` and `secret_name_lost`: a complete execution in which the secret name "a" is looked up
and gives the non-secret value 1, and one in which the missing "c" is required. -/
theorem secret_name_lost_witness (dry : Bool) : ∃ roots d, ∃ ref : Ref, ∃ o t n out n', Completes roots d ∧
    Ran d t n (getOutput dry 4 true ref (.out o)) (.ok out) n' ∧
    d.futs o.secret = some (.ok (.bool true)) ∧ d.futs ref.outputs.secret = some (.ok (.bool true)) ∧
    d.futs out.value = some (.ok (.int 1)) ∧ d.futs out.secret = some (.ok (.bool false)) := by
  obtain ⟨roots, d, ref, o, t, n, r, n', hd, h1, h2, h3, h4, h5, h6⟩ := scenario dry true "a"
  have hu := name_unwraps (dry := dry) (n := 1) h5
  obtain ⟨out, rfl⟩ := getOutput_returns hd h6 hu (k := 2) (.prompt trivial) h1 h2 outputs_data (.inr ⟨rfl, rfl⟩) (by omega) (by omega)
  refine ⟨roots, d, ref, o, t, n, out, n', hd, h6, h5.secret, h1.secret, ?_, ?_⟩
  · exact ((fetched hd h6 hu rfl rfl h1 h2 rfl rfl outputs_data (by simp [Distinct]) (by omega) (by omega)).1 (.int 1)
      (by simp [HasOutput])).1
  · exact secret_name_lost hd h6 hu (by omega) h1 h3 h4 rfl rfl rfl rfl (by simp [Listed])

example (dry : Bool) : ∃ roots d, ∃ ref : Ref, ∃ o t n out n', Completes roots d ∧
    Ran d t n (getOutput dry 4 true ref (.out o)) (.ok out) n' ∧ d.futs out.value = some (.exn "KeyError") := by
  obtain ⟨roots, d, ref, o, t, n, r, n', hd, h1, h2, h3, h4, h5, h6⟩ := scenario dry true "c"
  have hu := name_unwraps (dry := dry) (n := 1) h5
  obtain ⟨out, rfl⟩ := getOutput_returns hd h6 hu (k := 2) (.prompt trivial) h1 h2 outputs_data (.inr ⟨rfl, rfl⟩) (by omega) (by omega)
  refine ⟨roots, d, ref, o, t, n, out, n', hd, h6, ?_⟩
  exact ((fetched hd h6 hu rfl rfl h1 h2 rfl rfl outputs_data (by simp [Distinct]) (by omega) (by omega)).2.2.1
    (by intro v; simp [HasOutput]) rfl).1

/-- Non-vacuity of `unknown_in_preview`: outputs that are not known yet. -/
example : ∃ roots d, ∃ ref : Ref, ∃ o t n out n', Completes roots d ∧
    Ran d t n (getOutput true 4 true ref (.out o)) (.ok out) n' ∧ d.futs out.known = some (.ok (.bool false)) := by
  obtain ⟨roots, d, ref, o, t, n, r, n', hd, h1, h2, h3, h4, h5, h6⟩ := scenario' true true "c" .none false
  have hu := name_unwraps (dry := true) (n := 1) h5
  obtain ⟨out, rfl⟩ := getOutput_returns hd h6 hu (k := 2) (.prompt trivial) h1 h2 (.prompt trivial) (.inl rfl) (by omega) (by omega)
  exact ⟨roots, d, ref, o, t, n, out, n', hd, h6,
    (unknown_in_preview hd h6 hu (k := 2) (.prompt trivial) h1 h2 (.prompt trivial) (.inr rfl) (by omega) (by omega)).2.1⟩

/-- **C66.** The list of secret names arrives in the property the methods read. -/
theorem names_property (prop : String) :
    (translateOutputProperty prop = "secret_output_names" ↔ prop = "secretOutputNames" ∨ prop = "secret_output_names") ∧
    (prop ≠ "secretOutputNames" → translateOutputProperty prop = prop) := by
  unfold translateOutputProperty
  constructor
  · split <;> simp_all
  · intro h; rw [if_neg h]

example : translateOutputProperty "secretOutputNames" = "secret_output_names" ∧ translateOutputProperty "outputs" = "outputs" := by
  decide

end Pulumi.StackRef
