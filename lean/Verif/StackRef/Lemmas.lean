import Verif.StackRef.Spec
namespace Pulumi.StackRef
open Pulumi.Async Pulumi.Output

variable {roots : Nat → Option Prog} {d : Config}

theorem find_some {s v} {kvs : List (String × Val)} (hn : Distinct kvs) (h : (s, v) ∈ kvs) : find s kvs = some v := by
  induction kvs with
  | nil => cases h
  | cons kv kvs ih =>
    obtain ⟨k, x⟩ := kv
    simp only [Distinct, List.map_cons, List.nodup_cons] at hn
    rcases List.mem_cons.1 h with h | h
    · cases h; simp [find]
    · have : k ≠ s := by
        rintro rfl
        exact hn.1 (List.mem_map_of_mem (f := (·.1)) h)
      simp only [find, this, if_false]
      exact ih hn.2 h

theorem find_none {s} {kvs : List (String × Val)} (h : ∀ v, (s, v) ∉ kvs) : find s kvs = none := by
  induction kvs with
  | nil => rfl
  | cons kv kvs ih =>
    obtain ⟨k, x⟩ := kv
    have : k ≠ s := by
      rintro rfl
      exact h x (by simp)
    simp only [find, this, if_false]
    exact ih fun v hv => h v (by simp [hv])

theorem member_iff {s : String} {names : List Val} : ∃ b, member (.str s) (.list names) = .ok b ∧ (b = true ↔ Listed names s) := by
  refine ⟨_, rfl, ?_⟩
  simp only [List.any_eq_true, Listed]
  constructor
  · rintro ⟨n, hn, h⟩
    split at h
    · simp at h; subst h; exact hn
    · simp at h
  · intro h; exact ⟨_, h, by simp⟩

/-- The pieces of a call. -/
theorem getOutput_ran (hs : Settled d) {dry fuel req ref name t n out n'}
    (h : Ran d t n (getOutput dry fuel req ref name) (.ok out) n') :
    ∃ o both value n1 n2 n3 n4 ts tv,
      Ran d t n (fromInput dry fuel name) (.ok o) n1 ∧
      Ran d t n1 (outputAll dry fuel [.out o, .out ref.outputs] []) (.ok both) n2 ∧
      Ran d t n2 (apply dry both (fun l => match fetch req l with
        | .ok v => .pure v
        | .error e => .raise e) false) (.ok value) n3 ∧
      Has d ts (isSecretName dry fuel ref name) ∧ Has d tv (getValue value false) ∧
      Ran d t n4 (mkOutput value.resources (.result tv) value.known (.result ts)) (.ok out) n' := by
  unfold getOutput at h
  obtain ⟨o, m, h1, h⟩ := h.bind_ok
  obtain ⟨both, m', h2, h⟩ := h.bind_ok
  obtain ⟨value, m'', h3, h⟩ := h.bind_ok
  obtain ⟨h4, h⟩ := h.spawn_ok
  obtain ⟨h5, h⟩ := h.spawn_ok
  exact ⟨o, both, value, _, _, _, _, _, _, h1, h2, h3, h4, h5, h⟩

/-- An output of plain data, unwrapped: the same value, known and dependencies; a value only if it is known. -/
theorem out_unwraps {dry o k} {w : View} (h : Shows d.futs o w) (hv : Data k w.value) (hk : KnownOk w) (hdry : dry = true ∨ w.known = true) :
    ∃ w', Unwraps dry d.futs (k + 2) (.out o) w' ∧ (w.known = true → w'.value = w.value) ∧ w'.known = w.known ∧
      (∀ r, w'.deps r ↔ w.deps r) := by
  cases hkn : w.known with
  | true =>
    refine ⟨_, .output h (w := .ofPlain w.value) ?_, fun _ => rfl, ?_, ?_⟩
    · simp only [hkn, Bool.not_true, Bool.and_false, Bool.false_and, Bool.false_eq_true, if_false]
      exact hv.succ.unwraps
    · have := hk hkn
      rw [← containsUnknowns_iff] at this
      simp [View.after, View.ofPlain, this]
    · intro r; simp [View.after, View.ofPlain, noDeps]
  | false =>
    rcases hdry with rfl | hd
    · cases hc : containsUnknowns w.value with
      | true =>
        refine ⟨_, .output h (w := .ofPlain w.value) ?_, (fun h => nomatch h), ?_, ?_⟩
        · simp only [hkn, hc, Bool.not_true, Bool.and_false, Bool.false_eq_true, if_false]
          exact hv.succ.unwraps
        · simp [View.after, View.ofPlain, hc]
        · intro r; simp [View.after, View.ofPlain, noDeps]
      | false =>
        refine ⟨_, .output h (w := .ofPlain .unknown) ?_, (fun h => nomatch h), ?_, ?_⟩
        · simp only [hkn, hc, Bool.not_false, Bool.and_self, if_true]
          exact .prompt trivial
        · simp [View.after, View.ofPlain, containsUnknowns]
        · intro r; simp [View.after, View.ofPlain, noDeps]
    · rw [hkn] at hd; cases hd

theorem both_spec (hd : Completes roots d) {ref : Ref} {dry fuel n0 k name o both t n n1 n2 wn wo}
    (h1 : Ran d t n (fromInput dry fuel name) (.ok o) n1)
    (h2 : Ran d t n1 (outputAll dry fuel [.out o, .out ref.outputs] []) (.ok both) n2)
    (hn : Unwraps dry d.futs n0 name wn) (hfn : n0 ≤ fuel) (ho : Shows d.futs ref.outputs wo) (hko : KnownOk wo)
    (hdn : Data k wn.value) (hdo : Data k wo.value) (hfk : k + 2 ≤ fuel)
    (hdry : dry = true ∨ (wn.known = true ∧ wo.known = true)) :
    ∃ w, Shows d.futs both w ∧ (wn.known = true → wo.known = true → w.value = .list [wn.value, wo.value]) ∧
      (w.known = true ↔ wn.known = true ∧ wo.known = true) ∧ (∀ r, w.deps r ↔ wn.deps r ∨ wo.deps r) := by
  have hs := settled_of_completes hd
  obtain ⟨o', e, hsh⟩ := fromInput_shows hs _ _ _ _ hn hfn _ _ _ _ h1
  cases e
  have hkn : KnownOk wn := fun h => by
    rw [← containsUnknowns_iff, unwraps_known hn h]; simp
  obtain ⟨wa, a1, a2, a3, a4⟩ := out_unwraps (dry := dry) hsh hdn hkn (hdry.imp id (·.1))
  obtain ⟨wb, b1, b2, b3, b4⟩ := out_unwraps (dry := dry) ho hdo hko (hdry.imp id (·.2))
  obtain ⟨_, w, e, c1, c2, c3, c4, c5⟩ := all_args hd h2 (.cons a1 (.cons b1 .nil)) hfk
  cases e
  refine ⟨w, c1, ?_, ?_, ?_⟩
  · intro x y; rw [c2]; simp [a2 x, b2 y]
  · rw [c3]; simp [a3, b3]
  · intro r; rw [c5]; simp [a4, b4]

/-- The flags of the result. -/
theorem isSecretName_spec (hs : Settled d) {dry fuel n0 ref name t wn ws wo}
    (h : Has d t (isSecretName dry fuel ref name))
    (hn : Unwraps dry d.futs n0 name wn) (hfn : n0 ≤ fuel) (hw : Shows d.futs ref.names ws) (ho : Shows d.futs ref.outputs wo) :
    (wn.known = false ∨ ws.known = false ∨ ws.value = .none → d.futs (.result t) = some (.ok (.bool wo.secret))) ∧
    (∀ s names, wn.known = true → ws.known = true → KnownOk ws → wn.value = .str s → ws.value = .list names →
      ∃ b, d.futs (.result t) = some (.ok (.bool b)) ∧ (b = true ↔ Listed names s)) := by
  obtain ⟨p, hf⟩ : ∃ p, Follows d t p (isSecretName dry fuel ref name) := ⟨_, .start h⟩
  unfold isSecretName at hf
  obtain ⟨n, r, n', h1, hf⟩ := hf.runs hs
  obtain ⟨o, rfl, hsh⟩ := fromInput_shows hs _ _ _ _ hn hfn _ _ _ _ h1
  simp only at hf
  have hf := hf.awaits hsh.known
  constructor
  · intro hc
    cases hk : wn.known with
    | false =>
      simp only [hk, truthy, Bool.false_eq_true, if_false] at hf
      exact (hf.awaits ho.secret).returns hs
    | true =>
      simp only [hk, truthy, if_true] at hf
      have hf := hf.awaits hw.known
      cases hk' : ws.known with
      | false =>
        simp only [hk', truthy, Bool.false_eq_true, if_false] at hf
        exact (hf.awaits ho.secret).returns hs
      | true =>
        simp only [hk, hk', Bool.true_eq_false, false_or] at hc
        simp only [hk', truthy, if_true] at hf
        unfold awaitNames at hf
        obtain ⟨c, h2, hf⟩ := hf.spawns hs
        have h3 := getValue_res hs h2
        rw [hw.value, hc] at h3
        have hf := hf.awaits h3
        exact (Follows.awaits (f := ref.outputs.secret) (k := .ret) hf ho.secret).returns hs
  · intro s names hk hk' hks hv hns
    simp only [hk, truthy, if_true] at hf
    have hf := hf.awaits hw.known
    simp only [hk', truthy, if_true] at hf
    unfold awaitNames at hf
    obtain ⟨c, h2, hf⟩ := hf.spawns hs
    have h3 := getValue_res hs h2
    have hcu := hks hk'
    rw [← containsUnknowns_iff, hns, Bool.not_eq_true] at hcu
    simp only [hw.value, hns, hcu, Bool.and_false, Bool.false_eq_true, if_false] at h3
    have hf := hf.awaits h3
    unfold secretByList at hf
    obtain ⟨n, r, n', h4, hf⟩ := hf.runs hs
    obtain ⟨o', rfl, hsh'⟩ := fromInput_shows hs _ _ _ _ hn hfn _ _ _ _ h4
    simp only at hf
    obtain ⟨c', h5, hf⟩ := hf.spawns hs
    have h6 := getValue_res hs h5
    simp only [hsh'.value, hv, containsUnknowns, Bool.and_false, Bool.false_eq_true, if_false] at h6
    have hf := hf.awaits h6
    obtain ⟨b, hb, hb'⟩ := member_iff (s := s) (names := names)
    simp only [hb] at hf
    exact ⟨b, hf.returns hs, hb'⟩

end Pulumi.StackRef
