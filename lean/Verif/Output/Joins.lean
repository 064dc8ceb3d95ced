import Verif.Output.Aggregates
/-! # Joining two inputs (C11) -/
namespace Pulumi.Output
open Pulumi.Async

variable {roots : Nat → Option Prog} {d : Config}

/-- The value of the join of two outputs that hold `v1` and `v2`: the merged value, or unknown if either is absent. -/
def Joined (merge : Val → Val → Except Exc Val) (v1 v2 x : Val) : Prop :=
  ((v1 = .none ∨ UnknownInside v1 ∨ v2 = .none ∨ UnknownInside v2) ∧ x = .unknown) ∨
  (v1 ≠ .none ∧ ¬ UnknownInside v1 ∧ v2 ≠ .none ∧ ¬ UnknownInside v2 ∧ merge v1 v2 = .ok x)

theorem eval_spawned_mem {σ : Store} {t : TaskId} {p : Prog} {o : Outcome} {x} (h : x ∈ o.spawned) :
    x ∈ (eval σ t p o).spawned := by
  obtain ⟨xs, hx⟩ := eval_spawned (σ := σ) (t := t) p o
  rw [hx]; simp [h]

theorem setUnion_sets (a b : List Nat) : ∃ ids, setUnion (.resSet a) (.resSet b) = some (.resSet ids) ∧
    ∀ r, r ∈ ids ↔ r ∈ a ∨ r ∈ b := by
  exact ⟨_, rfl, by simp⟩

theorem map2Output_shows (hs : Settled d) {o1 o2 merge t n n' out w1 w2 x}
    (h : Ran d t n (map2Output o1 o2 merge) (.ok out) n') (h1 : Shows d.futs o1 w1) (h2 : Shows d.futs o2 w2)
    (hx : Joined merge w1.value w2.value x) :
    Shows d.futs out { value := x, known := w2.known && !containsUnknowns x, secret := w2.secret,
                       deps := fun r => w1.deps r ∨ w2.deps r } := by
  unfold map2Output at h
  obtain ⟨hr, h⟩ := h.spawn_ok
  obtain ⟨hf, h⟩ := h.spawn_ok
  obtain ⟨e1, e2, e3, u, e4, hu⟩ := mkOutput_ran h
  obtain ⟨i1, hi1, hd1⟩ := h1.deps
  obtain ⟨i2, hi2, hd2⟩ := h2.deps
  obtain ⟨ids, hun, hids⟩ := setUnion_sets i1 i2
  have hval : d.futs out.value = some (.ok x) := by
    have hv1 : d.futs (.result (.child (.child t (n + 1)) 0)) =
        some (.ok (if containsUnknowns w1.value then .none else w1.value)) := by
      rw [getValue_res hs (hs.child hf (c := .child (.child t (n + 1)) 0) (q := getValue o1 false)
        (by simp only [eval]; exact eval_spawned_mem (by simp [Outcome.init]))), h1.value]
      simp
    have hv2 : d.futs (.result (.child (.child t (n + 1)) 1)) =
        some (.ok (if containsUnknowns w2.value then .none else w2.value)) := by
      rw [getValue_res hs (hs.child hf (c := .child (.child t (n + 1)) 1) (q := getValue o2 false) (by
        simp only [eval, Outcome.init]
        rw [eval_await', hv1]
        simp only [eval]
        exact eval_spawned_mem (by simp))), h2.value]
      simp
    rw [e2, hs.res hf]
    simp only [eval, Outcome.init]
    rw [eval_await', hv1]
    simp only [eval]
    rw [eval_await', hv2]
    simp only
    rcases hx with ⟨hu, rfl⟩ | ⟨ha, hb, hc, hd, he⟩
    · rcases hu with hu | hu | hu | hu
      · simp [hu, containsUnknowns, joinValues, eval]
      · rw [← containsUnknowns_iff] at hu; simp [hu, joinValues, eval]
      · simp only [hu, containsUnknowns]; cases hc : (if containsUnknowns w1.value then Val.none else w1.value) <;> simp [joinValues, eval]
      · rw [← containsUnknowns_iff] at hu; simp only [hu, if_true]
        cases hc : (if containsUnknowns w1.value then Val.none else w1.value) <;> simp [joinValues, eval]
    · rw [← containsUnknowns_iff] at hb hd
      simp only [hb, hd, Bool.false_eq_true, if_false]
      unfold joinValues
      split
      · exact absurd (by assumption) ha
      · exact absurd (by assumption) hc
      · rw [he]; rfl
  refine ⟨hval, ?_, by rw [e3]; exact h2.secret, ids, ?_, ?_⟩
  · rw [e4, isValueKnown_res hs hu, h2.known, ← e2, hval]
    cases w2.known <;> simp [truthy]
  · rw [e1, hs.res hr, eval_await', hi1]
    simp only
    rw [eval_await', hi2]
    simp only [hun]; rfl
  · intro r; rw [hids, hd1, hd2]

theorem map2Input_outputs {o1 o2 merge t n n' x}
    (h : Ran d t n (map2Input (.out o1) (.out o2) merge) (.ok x) n') :
    ∃ out m, x = .out out ∧ Ran d t n (map2Output o1 o2 merge) (.ok out) m := by
  simp only [map2Input, isPrompt, Bool.false_eq_true, if_false, fromInputShallow] at h
  obtain ⟨o1', m, h1, h⟩ := h.bind_ok
  obtain ⟨o2', m', h2, h'⟩ := h.bind_ok
  obtain ⟨out, m'', h3, h''⟩ := h'.bind_ok
  obtain ⟨rfl, rfl⟩ := h1.pure_ok
  obtain ⟨rfl, rfl⟩ := h2.pure_ok
  obtain ⟨rfl, rfl⟩ := h''.pure_ok
  exact ⟨out, _, rfl, h3⟩

/-- An output that is not known does not carry a concrete value. (True of outputs made by `apply`, `all`, `from_input` and by the
engine in a preview; a hand-made `Output(..., is_known=False)` may violate it.) -/
def UnknownHasNoValue (w : View) : Prop := w.known = false → w.value = .none ∨ UnknownInside w.value

/-- **C11** (partial). Joining two outputs: the merged value, depending on exactly the union; known only if both are known; secret
if the *second* is. Full statement: secret if *either* is; false, see `join_loses_secret`. -/
theorem join_outputs_partial (hd : Completes roots d) {o1 o2 merge t n n' y w1 w2 x}
    (h : Ran d t n (map2Input (.out o1) (.out o2) merge) (.ok y) n')
    (h1 : Shows d.futs o1 w1) (h2 : Shows d.futs o2 w2) (hx : Joined merge w1.value w2.value x) :
    ∃ out w, y = .out out ∧ Shows d.futs out w ∧ w.value = x ∧
      (∀ r, w.deps r ↔ w1.deps r ∨ w2.deps r) ∧
      (UnknownHasNoValue w1 → w.known = true → w1.known = true ∧ w2.known = true) ∧
      (w2.secret = true → w.secret = true) := by
  have hs := settled_of_completes hd
  obtain ⟨out, m, rfl, hj⟩ := map2Input_outputs h
  refine ⟨out, _, rfl, map2Output_shows hs hj h1 h2 hx, rfl, fun _ => Iff.rfl, ?_, fun h => h⟩
  intro hu hk
  simp only [Bool.and_eq_true, Bool.not_eq_true'] at hk
  refine ⟨?_, hk.1⟩
  cases hk1 : w1.known with
  | true => rfl
  | false =>
    exfalso
    have hc := hk.2
    rcases hx with ⟨_, rfl⟩ | ⟨ha, hb, _⟩
    · simp [containsUnknowns] at hc
    · rcases hu hk1 with h | h
      · exact ha h
      · exact hb h

/-- **C11**, negation: joining a secret output with a non-secret one never gives a secret output. -/
theorem join_loses_secret (hd : Completes roots d) {o1 o2 merge t n n' y w1 w2 x}
    (h : Ran d t n (map2Input (.out o1) (.out o2) merge) (.ok y) n')
    (h1 : Shows d.futs o1 w1) (h2 : Shows d.futs o2 w2) (hx : Joined merge w1.value w2.value x)
    (hsec : w2.secret = false) : ∃ out, y = .out out ∧ d.futs out.secret = some (.ok (.bool false)) := by
  have hs := settled_of_completes hd
  obtain ⟨out, m, rfl, hj⟩ := map2Input_outputs h
  refine ⟨out, rfl, ?_⟩
  have := (map2Output_shows hs hj h1 h2 hx).secret
  rw [hsec] at this; exact this

/-- Non-vacuity of both: a complete execution that joins a secret and a non-secret output. -/
theorem join_loses_secret_witness :
    ∃ roots d t n n' o1 o2 out w1 w2, Completes roots d ∧
      Ran d t n (map2Input (.out o1) (.out o2) fun a b => .ok (.list [a, b])) (.ok (.out out)) n' ∧
      Shows d.futs o1 w1 ∧ Shows d.futs o2 w2 ∧ w1.secret = true ∧
      Shows d.futs out { value := .list [.int 1, .int 2], known := true, secret := false, deps := fun r => r ∈ [7] ∨ r ∈ [8] } := by
  obtain ⟨d, r, n', hd, hr⟩ := main_ran ((sample (.int 1) true true [7]).bind fun o1 =>
    (sample (.int 2) true false [8]).bind fun o2 => map2Input (.out o1) (.out o2) fun a b => .ok (.list [a, b]))
  have hs := settled_of_completes hd
  rcases hr.bind with ⟨o1, m, h1, h2⟩ | ⟨e, h1, _⟩
  · obtain ⟨o1', he, hsh1, _⟩ := sample_ran hs h1
    cases he
    rcases h2.bind with ⟨o2, m', h3, h4⟩ | ⟨e, h3, _⟩
    · obtain ⟨o2', he, hsh2, _⟩ := sample_ran hs h3
      cases he
      have hj : Joined (fun a b => .ok (.list [a, b])) (.int 1) (.int 2) (.list [.int 1, .int 2]) := by
        right
        exact ⟨by simp, (by intro h; cases h), by simp, (by intro h; cases h), rfl⟩
      have hok : ∃ y, r = .ok y := by
        cases r with
        | ok y => exact ⟨y, rfl⟩
        | error e =>
          exfalso
          simp only [map2Input, isPrompt, Bool.false_eq_true, if_false, fromInputShallow] at h4
          cases h4 with
          | spawn _ h => cases h with
            | spawn _ h => cases h with
              | spawn _ h => cases h
      obtain ⟨y, rfl⟩ := hok
      obtain ⟨out, m2, rfl, h5⟩ := map2Input_outputs h4
      exact ⟨_, d, _, _, _, o1, o2, out, _, _, hd, h4, hsh1, hsh2, rfl, map2Output_shows hs h5 hsh1 hsh2 hj⟩
    · obtain ⟨o2', he, _⟩ := sample_ran hs h3
      simp at he
  · obtain ⟨o1', he, _⟩ := sample_ran hs h1
    simp at he

end Pulumi.Output
