import Verif.Output.Follow
/-!
# Joining inputs of any kind (C11)

`Joins.lean` joins two outputs; here each input may be a plain value, an awaitable or an output.
-/
namespace Pulumi.Output
open Pulumi.Async

variable {roots : Nat → Option Prog} {d : Config}

/-- The value of an input is there: not `None` and without unknowns. -/
def Present (w : View) : Prop := w.value ≠ .none ∧ ¬ UnknownInside w.value

theorem mapOutput_shows (hs : Settled d) {o f t n r n' w x} (h : Ran d t n (mapOutput o f) r n') (ho : Shows d.futs o w)
    (hp : Present w) (hx : f w.value = .ok x) :
    ∃ out, r = .ok out ∧ Shows d.futs out { value := x, known := w.known && !containsUnknowns x, secret := w.secret, deps := w.deps } := by
  unfold mapOutput at h
  have hr : ∃ out, r = .ok out := by
    cases h with
    | spawn _ h => exact mkOutput_no_raise' h
  obtain ⟨out, rfl⟩ := hr
  obtain ⟨h1, h⟩ := h.spawn_ok
  obtain ⟨e1, e2, e3, u, e4, hu⟩ := mkOutput_ran h
  obtain ⟨c, h2, hf⟩ := (Follows.start h1).spawns hs
  have h3 := getValue_res hs h2
  obtain ⟨hne, hcu⟩ := hp
  rw [← containsUnknowns_iff, Bool.not_eq_true] at hcu
  simp only [ho.value, hcu, Bool.and_false, Bool.false_eq_true, if_false] at h3
  have hf := hf.awaits h3
  have hval : d.futs out.value = some (.ok x) := by
    rw [e2]
    refine Follows.returns (t := .child t n) (p := .spawn (getValue o false) fun tv => await' (.result tv) fun v =>
      match v with
      | .none => .ret .unknown
      | v => match f v with | .ok w => .ret w | .error e => .raise e) hs ?_
    refine Eq.mp (congrArg _ ?_) hf
    cases hv : w.value with
    | none => exact absurd hv hne
    | _ => rw [← hv] at *; simp only [hx]
  refine ⟨out, rfl, hval, ?_, by rw [e3]; exact ho.secret, ?_⟩
  · rw [e4, isValueKnown_res hs hu, ho.known, ← e2, hval]
    cases w.known <;> simp [truthy]
  · obtain ⟨ids, hi, hi'⟩ := ho.deps
    exact ⟨ids, by rw [e1, hi], hi'⟩

/-- What a plain transformation of an input amounts to. -/
theorem mapInput_yields (hs : Settled d) {i f t n r n' w x} (h : Ran d t n (mapInput i f) r n') (hi : Yields d.futs i w)
    (hp : Present w) (hx : f w.value = .ok x) (hpl : Plain x) :
    ∃ y w', r = .ok y ∧ Yields d.futs y w' ∧ w'.value = x ∧ (w'.known = true → w.known = true) ∧
      (¬ UnknownInside x → w'.known = w.known) ∧ w'.secret = w.secret ∧ (∀ s, w'.deps s ↔ w.deps s) := by
  cases hi with
  | plain hv =>
    have hm : mapInput i f = .pure x := by
      cases i <;> first | exact hv.elim | (simp only [mapInput, View.ofPlain] at hx ⊢; simp only [hx])
    rw [hm] at h
    cases h
    have hk : (View.ofPlain i).known = true := by
      have := hp.2; rw [← containsUnknowns_iff] at this; simpa [View.ofPlain] using this
    refine ⟨x, _, rfl, .plain hpl, rfl, fun _ => hk, ?_, rfl, fun _ => Iff.rfl⟩
    intro hu
    rw [← containsUnknowns_iff] at hu
    rw [hk]; simpa [View.ofPlain] using hu
  | awaitable hf =>
    rename_i g v
    simp only [View.ofPlain] at hx
    simp only [mapInput] at h
    have hr : ∃ y, r = .ok y := by cases h with | spawn _ h => cases h; exact ⟨_, rfl⟩
    obtain ⟨y, rfl⟩ := hr
    obtain ⟨h1, h⟩ := h.spawn_ok
    obtain ⟨rfl, _⟩ := h.pure_ok
    have hk : (View.ofPlain v).known = true := by
      have := hp.2; rw [← containsUnknowns_iff] at this; simpa [View.ofPlain] using this
    have hres : d.futs (.result (.child t n)) = some (.ok x) := by
      have hfl := (Follows.start h1).awaits hf
      simp only [hx] at hfl
      exact hfl.returns hs
    refine ⟨_, _, rfl, .awaitable hres, rfl, fun _ => hk, ?_, rfl, fun _ => Iff.rfl⟩
    intro hu
    rw [← containsUnknowns_iff] at hu
    rw [hk]; simpa [View.ofPlain] using hu
  | output ho =>
    rename_i o
    simp only [mapInput] at h
    rcases h.bind with ⟨out, m, h1, h2⟩ | ⟨e, h1, _⟩
    · obtain ⟨_, he, hsh⟩ := mapOutput_shows hs h1 ho hp hx
      cases he; cases h2
      refine ⟨_, _, rfl, .output hsh, rfl, ?_, ?_, rfl, fun _ => Iff.rfl⟩
      · intro hk; simp only [Bool.and_eq_true] at hk; exact hk.1
      · intro hu
        rw [← containsUnknowns_iff, Bool.not_eq_true] at hu
        simp [hu]
    · obtain ⟨_, he, _⟩ := mapOutput_shows hs h1 ho hp hx
      simp at he

theorem fromInputShallow_shows (hs : Settled d) {i t n r n' w} (h : Ran d t n (fromInputShallow i) r n') (hi : Yields d.futs i w) :
    ∃ o, r = .ok o ∧ Shows d.futs o w := by
  cases hi with
  | plain hv =>
    have hm : fromInputShallow i = sample i true false [] := by
      cases i <;> first | exact hv.elim | rfl
    rw [hm] at h
    obtain ⟨o, he, hsh, _⟩ := sample_ran hs h
    refine ⟨o, he, Eq.mp (congrArg _ ?_) hsh⟩
    apply View.ext <;> simp [View.ofPlain, noDeps]
  | awaitable hf =>
    rename_i f v
    simp only [fromInputShallow] at h
    rcases h.bind with ⟨fk, _, h1, h⟩ | ⟨e, h, _⟩
    · rcases h.bind with ⟨fs, _, h2, h⟩ | ⟨e, h, _⟩
      · rcases h.bind with ⟨fr, _, h3, h⟩ | ⟨e, h, _⟩
        · obtain ⟨o, rfl⟩ := mkOutput_no_raise' h
          have h1 := resolved_ran hs h1
          have h2 := resolved_ran hs h2
          have h3 := resolved_ran hs h3
          obtain ⟨a, b, c, u, e, hu⟩ := mkOutput_ran h
          refine ⟨o, rfl, by rw [b, hf]; rfl, ?_, by rw [c, h2]; rfl, _, by rw [a, h3], by simp [View.ofPlain, noDeps]⟩
          rw [e, isValueKnown_res hs hu, h1, hf]
          simp [truthy, View.ofPlain]
        · obtain ⟨_, h⟩ := resolved_no_raise' h; simp at h
      · obtain ⟨_, h⟩ := resolved_no_raise' h; simp at h
    · obtain ⟨_, h⟩ := resolved_no_raise' h; simp at h
  | output ho =>
    cases h
    exact ⟨_, rfl, ho⟩

theorem map2Output_no_raise {t n r n' o1 o2 f} (h : Ran d t n (map2Output o1 o2 f) r n') : ∃ o, r = .ok o := by
  cases h with
  | spawn _ h => cases h with
    | spawn _ h => exact mkOutput_no_raise' h

/-- An input that is an `Output`. -/
def IsOut (i : Val) : Prop := ∃ o, i = .out o

/-- **C11** (partial). Joining two inputs, each a plain value, an awaitable or an output, whose values are there: the merged value,
depending on exactly what they depend on, known if and only if both are (unless the first is an output that has a value
although it is not known), and secret if and only if either is - unless the first is an output and the
second is not a plain value: then it is secret exactly if the second is, see `join_loses_secret`. -/
theorem join_inputs_partial (hd : Completes roots d) {i1 i2 merge t n r n' w1 w2 x}
    (h : Ran d t n (map2Input i1 i2 merge) r n') (h1 : Yields d.futs i1 w1) (h2 : Yields d.futs i2 w2)
    (hp1 : Present w1) (hp2 : Present w2) (hx : merge w1.value w2.value = .ok x) (hpl : Plain x) (hxu : ¬ UnknownInside x) :
    ∃ y w, r = .ok y ∧ Yields d.futs y w ∧ w.value = x ∧ (∀ s, w.deps s ↔ w1.deps s ∨ w2.deps s) ∧
      (Plain i1 ∨ Plain i2 ∨ UnknownHasNoValue w1 → (w.known = true ↔ w1.known = true ∧ w2.known = true)) ∧
      (w.known = true → w2.known = true) ∧
      (Plain i2 ∨ ¬ IsOut i1 → (w.secret = true ↔ w1.secret = true ∨ w2.secret = true)) ∧
      (IsOut i1 → ¬ Plain i2 → w.secret = w2.secret) := by
  have hs := settled_of_completes hd
  have hk1 : Plain i1 → w1 = .ofPlain i1 ∧ w1.known = true := by
    intro hv
    cases h1 with
    | plain _ =>
      refine ⟨rfl, ?_⟩
      have := hp1.2; rw [← containsUnknowns_iff] at this; simpa [View.ofPlain] using this
    | awaitable => exact hv.elim
    | output => exact hv.elim
  have hk2 : Plain i2 → w2 = .ofPlain i2 ∧ w2.known = true := by
    intro hv
    cases h2 with
    | plain _ =>
      refine ⟨rfl, ?_⟩
      have := hp2.2; rw [← containsUnknowns_iff] at this; simpa [View.ofPlain] using this
    | awaitable => exact hv.elim
    | output => exact hv.elim
  have hpr : ∀ i, isPrompt i = true ↔ Plain i := by intro i; cases i <;> simp [isPrompt, Plain]
  by_cases hi1 : Plain i1
  · obtain ⟨e1, k1⟩ := hk1 hi1
    subst e1
    unfold map2Input at h
    rw [if_pos ((hpr _).2 hi1)] at h
    obtain ⟨y, w, rfl, a1, a2, a3, a4, a5, a6⟩ := mapInput_yields hs h h2 hp2 hx hpl
    have hno : ¬ IsOut i1 := by rintro ⟨o, rfl⟩; exact hi1
    refine ⟨y, w, rfl, a1, a2, ?_, ?_, a3, ?_, fun hh => absurd hh hno⟩
    · intro s; rw [a6]; simp [View.ofPlain, noDeps]
    · intro _; rw [a4 hxu]; exact ⟨fun hh => ⟨k1, hh⟩, fun hh => hh.2⟩
    · intro _; rw [a5]; simp [View.ofPlain]
  · by_cases hi2 : Plain i2
    · obtain ⟨e2, k2⟩ := hk2 hi2
      subst e2
      unfold map2Input at h
      rw [if_neg (by rw [hpr]; exact hi1), if_pos ((hpr _).2 hi2)] at h
      obtain ⟨y, w, rfl, a1, a2, a3, a4, a5, a6⟩ := mapInput_yields hs h h1 hp1 (f := fun v1 => merge v1 i2) hx hpl
      refine ⟨y, w, rfl, a1, a2, ?_, ?_, fun _ => k2, ?_, fun _ hh => absurd hi2 hh⟩
      · intro s; rw [a6]; simp [View.ofPlain, noDeps]
      · intro _; rw [a4 hxu]; exact ⟨fun hh => ⟨hh, k2⟩, fun hh => hh.1⟩
      · intro _; rw [a5]; simp [View.ofPlain]
    · have hjoin : ∀ {o1 o2 : OutRef} {m m' r'}, Shows d.futs o1 w1 → Shows d.futs o2 w2 → Ran d t m (map2Output o1 o2 merge) r' m' →
          ∃ out, r' = .ok out ∧ Shows d.futs out { value := x, known := w2.known && !containsUnknowns x, secret := w2.secret, deps := fun r => w1.deps r ∨ w2.deps r } := by
        intro o1 o2 m m' r' s1 s2 hr
        obtain ⟨out, rfl⟩ := map2Output_no_raise hr
        exact ⟨out, rfl, map2Output_shows hs hr s1 s2 (.inr ⟨hp1.1, hp1.2, hp2.1, hp2.2, hx⟩)⟩
      have hgen : ((∃ o1, i1 = .out o1) ∨ ∃ o2, i2 = .out o2) → Ran d t n ((fromInputShallow i1).bind fun o1 => (fromInputShallow i2).bind fun o2 =>
          (map2Output o1 o2 merge).bind fun r => .pure (.out r)) r n' := by
        unfold map2Input at h
        rw [if_neg (by rw [hpr]; exact hi1), if_neg (by rw [hpr]; exact hi2)] at h
        intro hh
        split at h
        · rcases hh with ⟨_, hh⟩ | ⟨_, hh⟩ <;> cases hh
        · exact h
      by_cases hout : (∃ o1, i1 = .out o1) ∨ ∃ o2, i2 = .out o2
      · have h := hgen hout
        rcases h.bind with ⟨o1, m, s1, h⟩ | ⟨e, h, _⟩
        · obtain ⟨_, he, s1⟩ := fromInputShallow_shows hs s1 h1
          cases he
          rcases h.bind with ⟨o2, m, s2, h⟩ | ⟨e, h, _⟩
          · obtain ⟨_, he, s2⟩ := fromInputShallow_shows hs s2 h2
            cases he
            rcases h.bind with ⟨out, m, s3, h⟩ | ⟨e, h, _⟩
            · obtain ⟨_, he, s4⟩ := hjoin s1 s2 s3
              cases he; cases h
              refine ⟨_, _, rfl, .output s4, rfl, fun _ => Iff.rfl, ?_, ?_, ?_, fun _ _ => rfl⟩
              · rintro (hh | hh | hh)
                · exact absurd hh hi1
                · exact absurd hh hi2
                · have hk : w1.known = true := by
                    cases hk : w1.known with
                    | true => rfl
                    | false => rcases hh hk with hh | hh
                               · exact absurd hh hp1.1
                               · exact absurd hh hp1.2
                  rw [← containsUnknowns_iff, Bool.not_eq_true] at hxu
                  simp [hk, hxu]
              · intro hh; simp only [Bool.and_eq_true] at hh; exact hh.1
              · rintro (hh | hh)
                · exact absurd hh hi2
                · cases h1 with
                  | plain hv => exact absurd hv hi1
                  | awaitable => simp [View.ofPlain]
                  | output => exact absurd ⟨_, rfl⟩ hh
            · obtain ⟨_, he, _⟩ := hjoin s1 s2 h
              simp at he
          · obtain ⟨_, he, _⟩ := fromInputShallow_shows hs h h2
            simp at he
        · obtain ⟨_, he, _⟩ := fromInputShallow_shows hs h h1
          simp at he
      · cases h1 with
        | plain hv => exact absurd hv hi1
        | output => exact absurd (.inl ⟨_, rfl⟩) hout
        | awaitable hf1 =>
          cases h2 with
          | plain hv => exact absurd hv hi2
          | output => exact absurd (.inr ⟨_, rfl⟩) hout
          | awaitable hf2 =>
            simp only [map2Input, isPrompt, Bool.false_eq_true, if_false] at h
            have hr : ∃ y, r = .ok y := by cases h with | spawn _ h => cases h; exact ⟨_, rfl⟩
            obtain ⟨y, rfl⟩ := hr
            obtain ⟨g1, h⟩ := h.spawn_ok
            obtain ⟨rfl, _⟩ := h.pure_ok
            simp only [View.ofPlain] at hx
            have hres : d.futs (.result (.child t n)) = some (.ok x) := by
              have hfl := ((Follows.start g1).awaits hf1).awaits hf2
              simp only [hx] at hfl
              exact hfl.returns hs
            refine ⟨_, _, rfl, .awaitable hres, rfl, by simp [View.ofPlain, noDeps], ?_, ?_, by simp [View.ofPlain], ?_⟩
            · intro _
              have a := hp1.2
              have b := hp2.2
              rw [← containsUnknowns_iff, Bool.not_eq_true] at a b hxu
              simp only [View.ofPlain] at a b
              simp [View.ofPlain, a, b, hxu]
            · intro _
              have := hp2.2; rw [← containsUnknowns_iff] at this; simpa [View.ofPlain] using this
            · rintro ⟨o, ho⟩; cases ho

/-- Non-vacuity: a complete execution joining an awaitable with a secret output. -/
theorem join_inputs_witness : ∃ roots d t n r n' f o, Completes roots d ∧
    Ran d t n (map2Input (.fut f) (.out o) fun a b => .ok (.list [a, b])) r n' ∧
    Yields d.futs (.fut f) (.ofPlain (.int 1)) ∧ Yields d.futs (.out o) sampleView ∧
    Present (.ofPlain (.int 1)) ∧ Present sampleView := by
  obtain ⟨d, r, n', hd, hr⟩ := main_ran ((resolved (.int 1)).bind fun f => (sample (.str "s") true true [7]).bind fun o =>
    map2Input (.fut f) (.out o) fun a b => .ok (.list [a, b]))
  have hs := settled_of_completes hd
  rcases hr.bind with ⟨f, m, h1, h2⟩ | ⟨e, h1, _⟩
  · rcases h2.bind with ⟨o, m', h3, h4⟩ | ⟨e, h3, _⟩
    · obtain ⟨_, he, hsh, _⟩ := sample_ran hs h3
      cases he
      refine ⟨_, d, _, _, _, _, f, o, hd, h4, .awaitable (resolved_ran hs h1), .output hsh, ?_, ?_⟩
      · refine ⟨?_, ?_⟩
        · simp [View.ofPlain]
        · intro h; cases h
      · refine ⟨?_, ?_⟩
        · simp [sampleView]
        · intro h; cases h
    · obtain ⟨_, he, _⟩ := sample_ran hs h3
      simp at he
  · obtain ⟨_, he⟩ := resolved_no_raise' h1
    simp at he

end Pulumi.Output
