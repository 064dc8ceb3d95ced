import Verif.Output.Sample
/-!
# Properties of `Output` (C01-C05, C08, C10)

All statements are about the end of an arbitrary complete execution (`Completes roots d`), under any schedule, of any
program, in which some task executed the operation in question (`Ran`).
-/
namespace Pulumi.Output
open Pulumi.Async

variable {roots : Nat → Option Prog} {d : Config}

/-- The futures of the output returned by `apply`, in terms of the coroutine it started (child `n` of the caller). -/
theorem apply_futs (hs : Settled d) {t n n' dry o f rwu out} (h : Ran d t n (apply dry o f rwu) (.ok out) n') :
    ∃ R, R = (eval d.futs (.child t n) (applyRun dry o f rwu) Outcome.init).runOut ∧
      Has d (.child t n) (applyRun dry o f rwu) ∧
      d.futs out.value = R.result ∧ d.futs out.resources = R.resources ∧ d.futs out.secret = R.secret ∧
      d.futs out.known = match R.known with
        | none => none
        | some (.exn e) => some (.exn e)
        | some (.ok k) =>
          if truthy k then
            match R.result with
            | none => none
            | some (.exn e) => some (.exn e)
            | some (.ok v) => some (.ok (.bool (!containsUnknowns v)))
          else some (.ok k) := by
  unfold apply at h
  obtain ⟨h1, h2⟩ := h.spawn_ok
  obtain ⟨a, b, c, u, e, hu⟩ := mkOutput_ran h2
  refine ⟨_, rfl, h1, ?_, ?_, ?_, ?_⟩
  · rw [b, hs.res h1]; rfl
  · rw [a, hs.slot h1]; rfl
  · rw [c, hs.slot h1]; rfl
  · rw [e, isValueKnown_res hs hu, hs.slot h1, hs.res h1]; rfl

/-- What `apply` shows once the callback has returned an input amounting to `w'`. -/
theorem shows_of_call {out : OutRef} {R : RunOut} {ids : List Nat} {w w' : View} {x : Val}
    (hids : ∀ r, r ∈ ids ↔ w.deps r)
    (hR : R = afterCallOut d.futs (.resSet ids) (.bool w.secret) (.ok x))
    (hv : d.futs out.value = R.result) (hr : d.futs out.resources = R.resources) (hsec : d.futs out.secret = R.secret)
    (hk : d.futs out.known = match R.known with
        | none => none
        | some (.exn e) => some (.exn e)
        | some (.ok k) =>
          if truthy k then
            match R.result with
            | none => none
            | some (.exn e) => some (.exn e)
            | some (.ok v) => some (.ok (.bool (!containsUnknowns v)))
          else some (.ok k))
    (hy : Yields d.futs x w') : Shows d.futs out (w.after w') := by
  subst hR
  cases hy with
  | plain hp =>
    rw [afterCallOut_plain hp] at hv hr hsec hk
    simp only [truthy, if_true] at hk
    refine ⟨hv, ?_, hsec, ids, hr, ?_⟩
    · rw [hk]; simp [View.after, View.ofPlain]
    · intro r; rw [hids]; simp [View.after, View.ofPlain, noDeps]
  | awaitable hf =>
    simp only [afterCallOut, hf] at hv hr hsec hk
    simp only [truthy, if_true] at hk
    refine ⟨hv, ?_, hsec, ids, hr, ?_⟩
    · rw [hk]; simp [View.after, View.ofPlain]
    · intro r; rw [hids]; simp [View.after, View.ofPlain, noDeps]
  | output ho =>
    obtain ⟨ids', hr', hm⟩ := ho.deps
    simp only [afterCallOut, hr', ho.known, ho.secret, ho.value, setUnion] at hv hr hsec hk
    refine ⟨hv, ?_, ?_, ids ++ ids', hr, ?_⟩
    · rw [hk]
      cases hw : w'.known <;> simp [truthy, View.after, hw]
    · rw [hsec]
      cases hw : w'.secret <;> simp [truthy, View.after, hw]
    · intro r
      rw [List.mem_append, hids, hm]; rfl

/-- The argument the callback is given: the value itself, except that in a preview an output that is not known
(and whose value does not show that already) is represented by the unknown marker. -/
def callbackArg (dry : Bool) (w : View) : Val :=
  if dry && !w.known && !containsUnknowns w.value then .unknown else w.value

/-- `apply`, when it does invoke the callback. -/
theorem apply_invoked (hs : Settled d) {t n n' dry o f rwu out w}
    (h : Ran d t n (apply dry o f rwu) (.ok out) n') (ho : Shows d.futs o w)
    (hrun : dry = false ∨ w.known = true ∨ rwu = true) :
    Invoked d (.child t n) [callbackArg dry w] ∧
    ∃ r m', Ran d (.child t n) 0 (f (callbackArg dry w)) r m' ∧
      (∀ x w', r = .ok x → Yields d.futs x w' → Shows d.futs out (w.after w')) ∧
      (∀ e, r = .error e → d.futs out.value = some (.exn e) ∧ HoldsSet (d.futs out.resources) w.deps ∧
        d.futs out.known = some (.ok (.bool false)) ∧ d.futs out.secret = some (.ok (.bool false))) := by
  obtain ⟨R, hR, hhas, hv, hr, hsec, hk⟩ := apply_futs hs h
  obtain ⟨ids, hids, hm⟩ := ho.deps
  have hspec := applyRun_spec hs hhas
  rw [← hR] at hspec
  simp only [hids, ho.known, ho.secret, ho.value] at hspec
  have hcond : (dry && !truthy (.bool w.known) && !rwu) = false := by
    rcases hrun with h | h | h <;> simp [h, truthy]
  rw [hcond] at hspec
  simp only [Bool.false_eq_true, if_false] at hspec
  have harg : (if dry && !truthy (.bool w.known) && !containsUnknowns w.value then Val.unknown else w.value) =
      callbackArg dry w := rfl
  rw [harg] at hspec
  obtain ⟨h1, r, m', h2, h3⟩ := hspec
  refine ⟨h1, r, m', h2, ?_, ?_⟩
  · rintro x w' rfl hy
    exact shows_of_call hm h3 hv hr hsec hk hy
  · rintro e rfl
    subst h3
    simp only [afterCallOut] at hv hr hsec hk
    exact ⟨hv, ⟨ids, hr, hm⟩, by rw [hk]; simp [truthy], hsec⟩

/-! ## C01 -/

/-- **C01.** On an update, `o.apply(f)` runs the callback exactly once, on `o`'s value (known or not), and the result
shows what the callback returned: the value itself, the awaited value, or the inner output's value. If the
callback raises, the result raises the same exception. -/
theorem apply_update (hd : Completes roots d) {t n n' o f rwu out w}
    (h : Ran d t n (apply false o f rwu) (.ok out) n') (ho : Shows d.futs o w) :
    Invoked d (.child t n) [w.value] ∧
    ∃ r m', Ran d (.child t n) 0 (f w.value) r m' ∧
      (∀ x, r = .ok x → Plain x → d.futs out.value = some (.ok x)) ∧
      (∀ g v, r = .ok (.fut g) → d.futs g = some (.ok v) → d.futs out.value = some (.ok v)) ∧
      (∀ o' w', r = .ok (.out o') → Shows d.futs o' w' → d.futs out.value = some (.ok w'.value)) ∧
      (∀ e, r = .error e → d.futs out.value = some (.exn e)) := by
  have hs := settled_of_completes hd
  obtain ⟨h1, r, m', h2, h3, h4⟩ := apply_invoked hs h ho (.inl rfl)
  refine ⟨h1, r, m', h2, ?_, ?_, ?_, ?_⟩
  · intro x hx hp; exact (h3 _ _ hx (.plain hp)).value
  · intro g v hx hg; exact (h3 _ _ hx (.awaitable hg)).value
  · intro o' w' hx ho'; exact (h3 _ _ hx (.output ho')).value
  · intro e he; exact (h4 e he).1

/-- The full picture on an update for a callback whose result amounts to `w'`. -/
theorem apply_update_shows (hd : Completes roots d) {t n n' o f rwu out w w'}
    (h : Ran d t n (apply false o f rwu) (.ok out) n') (ho : Shows d.futs o w)
    (hf : Denotes d f w.value w') : Shows d.futs out (w.after w') := by
  have hs := settled_of_completes hd
  obtain ⟨_, r, m', h2, h3, _⟩ := apply_invoked hs h ho (.inl rfl)
  obtain ⟨x, hx, hy⟩ := hf _ _ _ _ h2
  exact h3 x w' hx hy

/-- Non-vacuity of `apply_update` and `apply_update_shows`: a secret output of 20 applied to `x ↦ x + 1`, in a complete execution. -/
example : ∃ d t n n' o out w w', Completes (single (mainProg ((sample (.int 20) true true [7]).bind fun o => apply false o plusOne))) d ∧
    Ran d t n (apply false o plusOne) (.ok out) n' ∧ Shows d.futs o w ∧ Denotes d plusOne w.value w' ∧
    w.value = .int 20 ∧ d.futs out.value = some (.ok (.int 21)) := by
  obtain ⟨d, o, out, t, n, n', w, hd, hr, ho, _, hw⟩ := sample_apply (.int 20) true true [7] false plusOne
  have hden : Denotes d plusOne w.value (.ofPlain (.int 21)) := by rw [hw]; exact plusOne_denotes
  exact ⟨d, t, n, n', o, out, w, _, hd, hr, ho, hden, by rw [hw], (apply_update_shows hd hr ho hden).value⟩

/-! ## C02 -/

/-- An unknown somewhere inside a value, reachable through list elements and dict values. -/
inductive UnknownInside : Val → Prop
  | here : UnknownInside .unknown
  | list {x xs} : x ∈ xs → UnknownInside x → UnknownInside (.list xs)
  | dict {k x kvs} : (k, x) ∈ kvs → UnknownInside x → UnknownInside (.dict kvs)

mutual
theorem containsUnknowns_sound : ∀ v, containsUnknowns v = true → UnknownInside v
  | .unknown, _ => .here
  | .list xs, h => by
    obtain ⟨x, hx, hu⟩ := containsUnknownsList_sound xs (by simpa [containsUnknowns] using h)
    exact .list hx hu
  | .dict kvs, h => by
    obtain ⟨k, x, hx, hu⟩ := containsUnknownsDict_sound kvs (by simpa [containsUnknowns] using h)
    exact .dict hx hu
  | .none, h | .bool _, h | .int _, h | .str _, h | .input .., h | .resource _, h | .resSet _, h | .fut _, h | .out _, h => by
    simp [containsUnknowns] at h
theorem containsUnknownsList_sound : ∀ xs, containsUnknownsList xs = true → ∃ x ∈ xs, UnknownInside x
  | [], h => by simp [containsUnknownsList] at h
  | x :: xs, h => by
    simp only [containsUnknownsList, Bool.or_eq_true] at h
    rcases h with h | h
    · exact ⟨x, by simp, containsUnknowns_sound x h⟩
    · obtain ⟨y, hy, hu⟩ := containsUnknownsList_sound xs h
      exact ⟨y, by simp [hy], hu⟩
theorem containsUnknownsDict_sound : ∀ kvs, containsUnknownsDict kvs = true → ∃ k x, (k, x) ∈ kvs ∧ UnknownInside x
  | [], h => by simp [containsUnknownsDict] at h
  | (k, x) :: xs, h => by
    simp only [containsUnknownsDict, Bool.or_eq_true] at h
    rcases h with h | h
    · exact ⟨k, x, by simp, containsUnknowns_sound x h⟩
    · obtain ⟨k', y, hy, hu⟩ := containsUnknownsDict_sound xs h
      exact ⟨k', y, by simp [hy], hu⟩
end

theorem containsUnknowns_complete {v} (h : UnknownInside v) : containsUnknowns v = true := by
  induction h with
  | here => rfl
  | list hm _ ih =>
    simp only [containsUnknowns]
    clear * - hm ih
    rename_i x xs
    induction xs with
    | nil => simp at hm
    | cons y ys ihy =>
      simp only [containsUnknownsList, Bool.or_eq_true]
      rcases List.mem_cons.1 hm with rfl | h
      · exact .inl ih
      · exact .inr (ihy h)
  | dict hm _ ih =>
    simp only [containsUnknowns]
    rename_i k x kvs _
    clear * - hm ih
    induction kvs with
    | nil => simp at hm
    | cons y ys ihy =>
      obtain ⟨k', y⟩ := y
      simp only [containsUnknownsDict, Bool.or_eq_true]
      rcases List.mem_cons.1 hm with h | h
      · cases h; exact .inl ih
      · exact .inr (ihy h)

theorem containsUnknowns_iff (v) : containsUnknowns v = true ↔ UnknownInside v :=
  ⟨containsUnknowns_sound v, containsUnknowns_complete⟩

/-- A known output has no unknown inside its value, whatever it was constructed from. -/
theorem known_has_no_unknown (hd : Completes roots d) {o w} (ho : IsOutput d o) (hw : Shows d.futs o w)
    (hk : w.known = true) : ¬ UnknownInside w.value := by
  have hs := settled_of_completes hd
  obtain ⟨t, n, n', r, v, k, s, h⟩ := ho
  obtain ⟨_, hv, _, u, hu, hhas⟩ := mkOutput_ran h
  have h1 := isValueKnown_res hs hhas
  have h2 := hw.known
  rw [hu, h1, hk] at h2
  have h3 := hw.value
  rw [hv] at h3
  rw [h3] at h2
  rw [← containsUnknowns_iff]
  cases hkk : d.futs k with
  | none => rw [hkk] at h2; simp at h2
  | some r =>
    rw [hkk] at h2
    cases r with
    | exn e => simp at h2
    | ok kv =>
      simp only at h2
      split at h2
      · simpa using h2
      · simp at h2; subst h2; simp [truthy] at *

/-- **C02.** In a preview the callback of `o.apply(f)` runs only if `o` is known and has no unknown inside its value;
otherwise it is not run at all, and the result is unknown, has no value, and keeps secretness and dependencies. -/
theorem apply_preview (hd : Completes roots d) {t n n' o f out w}
    (h : Ran d t n (apply true o f) (.ok out) n') (hout : IsOutput d o) (ho : Shows d.futs o w) :
    (w.known = true → ¬ UnknownInside w.value ∧ Invoked d (.child t n) [w.value]) ∧
    (w.known = false → Invoked d (.child t n) [] ∧
      Shows d.futs out { value := .none, known := false, secret := w.secret, deps := w.deps }) := by
  have hs := settled_of_completes hd
  constructor
  · intro hk
    have hu := known_has_no_unknown hd hout ho hk
    refine ⟨hu, ?_⟩
    obtain ⟨h1, _⟩ := apply_invoked hs h ho (.inr (.inl hk))
    simpa [callbackArg, hk] using h1
  · intro hk
    obtain ⟨R, hR, hhas, hv, hr, hsec, hkn⟩ := apply_futs hs h
    obtain ⟨ids, hids, hm⟩ := ho.deps
    have hspec := applyRun_spec hs hhas
    rw [← hR] at hspec
    simp only [hids, ho.known, ho.secret, ho.value, hk, truthy] at hspec
    simp at hspec
    obtain ⟨h1, rfl⟩ := hspec
    simp only [truthy] at hkn
    exact ⟨h1, hv, by simpa using hkn, hsec, ids, hr, hm⟩

/-- **C02**, internal callbacks that tolerate unknowns (`run_with_unknowns`): an output that is not known is never
passed as if it were known; the argument contains an unknown. -/
theorem apply_preview_with_unknowns (hd : Completes roots d) {t n n' o f out w}
    (h : Ran d t n (apply true o f true) (.ok out) n') (ho : Shows d.futs o w) :
    ∃ arg, Invoked d (.child t n) [arg] ∧
      (w.known = false → UnknownInside arg) ∧ (w.known = true → arg = w.value) := by
  have hs := settled_of_completes hd
  obtain ⟨h1, _⟩ := apply_invoked hs h ho (.inr (.inr rfl))
  refine ⟨_, h1, ?_, ?_⟩
  · intro hk
    unfold callbackArg
    rw [hk]
    cases hc : containsUnknowns w.value with
    | true => simpa using (containsUnknowns_iff _).1 hc
    | false => simpa using UnknownInside.here
  · intro hk; simp [callbackArg, hk]

/-- Non-vacuity of `apply_preview`, known and unknown source, in complete executions of a preview. -/
example (k : Bool) : ∃ d t n n' o out w, Completes (single (mainProg ((sample (.int 20) k true [7]).bind fun o => apply true o plusOne))) d ∧
    Ran d t n (apply true o plusOne) (.ok out) n' ∧ IsOutput d o ∧ Shows d.futs o w ∧ w.known = k := by
  obtain ⟨d, o, out, t, n, n', w, hd, hr, ho, hi, hw⟩ := sample_apply (.int 20) k true [7] true plusOne
  exact ⟨d, t, n, n', o, out, w, hd, hr, hi, ho, by rw [hw]; cases k <;> rfl⟩

/-- Non-vacuity of `apply_preview_with_unknowns`: a list with an unknown inside. -/
example : ∃ d t n n' o out w, Completes (single (mainProg ((sample (.list [.unknown]) true false []).bind fun o => apply true o (fun x => .pure x) true))) d ∧
    Ran d t n (apply true o (fun x => .pure x) true) (.ok out) n' ∧ Shows d.futs o w ∧ w.known = false := by
  obtain ⟨d, o, out, t, n, n', w, hd, hr, ho, hi, hw⟩ := sample_apply (.list [.unknown]) true false [] true (fun x => .pure x) true
  exact ⟨d, t, n, n', o, out, w, hd, hr, ho, by rw [hw]; rfl⟩

/-! ## C03 -/

/-- What the coroutine of `apply` did if the result has a value. -/
theorem apply_value_ok (hs : Settled d) {t n n' dry o f rwu out v}
    (h : Ran d t n (apply dry o f rwu) (.ok out) n') (hv : d.futs out.value = some (.ok v)) :
    ∃ rs k s v0, d.futs o.resources = some (.ok rs) ∧ d.futs o.known = some (.ok k) ∧
      d.futs o.secret = some (.ok s) ∧ d.futs o.value = some (.ok v0) ∧
      ((Invoked d (.child t n) [] ∧ d.futs out.resources = some (.ok rs) ∧ d.futs out.secret = some (.ok s)) ∨
       ∃ arg r m R, Invoked d (.child t n) [arg] ∧ Ran d (.child t n) 0 (f arg) r m ∧
        R = afterCallOut d.futs rs s r ∧
        R.result = some (.ok v) ∧ d.futs out.resources = R.resources ∧ d.futs out.secret = R.secret) := by
  obtain ⟨R, hR, hhas, hval, hr, hsec, hk⟩ := apply_futs hs h
  have hspec := applyRun_spec hs hhas
  rw [← hR] at hspec
  rw [hval] at hv
  cases hres : d.futs o.resources with
  | none => rw [hres] at hspec; obtain ⟨_, rfl⟩ := hspec; simp at hv
  | some x =>
    cases x with
    | exn e => rw [hres] at hspec; obtain ⟨_, rfl⟩ := hspec; simp at hv
    | ok rs =>
      rw [hres] at hspec
      simp only at hspec
      split at hspec
      · rename_i k s v0 hk' hs' hv'
        refine ⟨rs, k, s, v0, rfl, hk', hs', hv', ?_⟩
        split at hspec
        · obtain ⟨h1, rfl⟩ := hspec
          exact .inl ⟨h1, hr, hsec⟩
        · obtain ⟨h1, r, m, h2, h3⟩ := hspec
          exact .inr ⟨_, r, m, R, h1, h2, h3, hv, hr, hsec⟩
      · obtain ⟨_, ⟨e, _, rfl⟩ | ⟨_, rfl⟩⟩ := hspec <;> simp at hv

/-- If a callback's result led to a value, the secret flag is the "or" and the dependencies are the union. -/
theorem afterCallOut_ok {σ : Store} {rs s : Val} {r : Except Exc Val} {v : Val}
    (h : (afterCallOut σ rs s r).result = some (.ok v)) :
    (∃ x, r = .ok x ∧ (∀ o', x ≠ .out o') ∧ (afterCallOut σ rs s r).resources = some (.ok rs) ∧
      (afterCallOut σ rs s r).secret = some (.ok s)) ∨
    (∃ o' rs' s' u, r = .ok (.out o') ∧ σ o'.resources = some (.ok rs') ∧ σ o'.secret = some (.ok s') ∧
      σ o'.value = some (.ok v) ∧ setUnion rs rs' = some u ∧
      (afterCallOut σ rs s r).resources = some (.ok u) ∧
      (afterCallOut σ rs s r).secret = some (.ok (if truthy s' then s' else s))) := by
  cases r with
  | error e => simp [afterCallOut] at h
  | ok x =>
    cases x with
    | out o' =>
      right
      simp only [afterCallOut] at h ⊢
      cases hr : σ o'.resources with
      | none => simp [hr] at h
      | some y =>
        cases y with
        | exn e => simp [hr] at h
        | ok rs' =>
          simp only [hr] at h ⊢
          cases hu : setUnion rs rs' with
          | none => simp [hu] at h
          | some u =>
            simp only [hu] at h ⊢
            cases hk : σ o'.known with
            | none => simp [hk] at h
            | some y =>
              cases y with
              | exn e => simp [hk] at h
              | ok k' =>
                simp only [hk] at h ⊢
                cases hsec : σ o'.secret with
                | none => simp [hsec] at h
                | some y =>
                  cases y with
                  | exn e => simp [hsec] at h
                  | ok s' =>
                    simp only [hsec] at h ⊢
                    exact ⟨o', rs', s', u, rfl, hr, hsec, h, hu, rfl, rfl⟩
    | fut f => left; exact ⟨_, rfl, by simp, rfl, rfl⟩
    | _ => left; exact ⟨_, rfl, by simp, rfl, rfl⟩

/-- In `d`, the callback `f` of the `apply` executed as child `n` of `t` was invoked and returned the output `o'`. -/
def CallbackReturned (d : Config) (run : TaskId) (f : Val → Sync Val) (o' : OutRef) : Prop :=
  ∃ arg m, Invoked d run [arg] ∧ Ran d run 0 (f arg) (.ok (.out o')) m

/-- A flag future holds a true value. -/
def Holds (r : Option Res) : Prop := ∃ s, r = some (.ok s) ∧ truthy s = true

theorem Invoked.inj {t a b} (h : Invoked d t a) (h' : Invoked d t b) : a = b := by
  obtain ⟨T, hT, ha⟩ := h
  obtain ⟨T', hT', hb⟩ := h'
  rw [hT] at hT'; cases hT'; rw [← ha, ← hb]

/-- **C03.** Whenever the result of `apply` has a value, it is secret exactly when the source is secret or the callback
returned a secret output; in preview and update, known or unknown, for any callback. -/
theorem apply_secret (hd : Completes roots d) {t n n' dry o f rwu out v}
    (h : Ran d t n (apply dry o f rwu) (.ok out) n') (hv : d.futs out.value = some (.ok v)) :
    (∃ s, d.futs out.secret = some (.ok s)) ∧
    (Holds (d.futs out.secret) ↔
      Holds (d.futs o.secret) ∨ ∃ o', CallbackReturned d (.child t n) f o' ∧ Holds (d.futs o'.secret)) := by
  have hs := settled_of_completes hd
  obtain ⟨rs, k, s, v0, h1, h2, h3, h4, h5⟩ := apply_value_ok hs h hv
  rcases h5 with ⟨h5, h6, h7⟩ | ⟨arg, r, m, R, h5, h6, h7, h8, h9, h10⟩
  · refine ⟨⟨s, h7⟩, ?_⟩
    rw [h7, h3]
    constructor
    · exact .inl
    · rintro (h | ⟨o', ⟨arg, m, hi, _⟩, _⟩)
      · exact h
      · have := h5.inj hi; simp at this
  · subst h7
    rcases afterCallOut_ok h8 with ⟨x, rfl, hx, _, hx2⟩ | ⟨o', rs', s', u, rfl, _, hs', _, _, _, hx2⟩
    · rw [hx2] at h10
      refine ⟨⟨s, h10⟩, ?_⟩
      rw [h10, h3]
      constructor
      · exact .inl
      · rintro (h | ⟨o', ⟨arg', m', hi, hr⟩, _⟩)
        · exact h
        · have := h5.inj hi; cases this
          have := (h6.det hr).1
          simp at this
          exact absurd this (hx o')
    · rw [hx2] at h10
      refine ⟨⟨_, h10⟩, ?_⟩
      rw [h10, h3]
      constructor
      · rintro ⟨s'', hs'', ht⟩
        simp at hs''
        subst hs''
        split at ht
        · right; exact ⟨o', ⟨arg, m, h5, h6⟩, s', hs', by assumption⟩
        · left; exact ⟨s, rfl, ht⟩
      · rintro (⟨s'', hs'', ht⟩ | ⟨o'', ⟨arg', m', hi, hr⟩, s'', hs'', ht⟩)
        · cases hs''
          exact ⟨_, rfl, by split <;> assumption⟩
        · have := h5.inj hi; cases this
          have := (h6.det hr).1
          simp at this; subst this
          rw [hs'] at hs''; cases hs''
          exact ⟨_, rfl, by simp [ht]⟩

/-- `out` was obtained from `o` by a chain of applies, of any length, by any tasks. -/
inductive Chain (d : Config) (dry : Bool) (o : OutRef) : OutRef → Prop
  | refl : Chain d dry o o
  | step {o1 out t n n' f rwu} : Chain d dry o o1 → Ran d t n (apply dry o1 f rwu) (.ok out) n' → Chain d dry o out

/-- **C03.** A chain of applies starting from a secret output never ends in a non-secret value. -/
theorem chain_secret (hd : Completes roots d) {dry o out v} (hc : Chain d dry o out)
    (hsec : Holds (d.futs o.secret)) (hv : d.futs out.value = some (.ok v)) : Holds (d.futs out.secret) := by
  have hs := settled_of_completes hd
  induction hc generalizing v with
  | refl => exact hsec
  | step _ hr ih =>
    obtain ⟨_, _, _, v0, _, _, _, h4, _⟩ := apply_value_ok hs hr hv
    exact ((apply_secret hd hr hv).2).2 (.inl (ih h4))

/-- Non-vacuity of `apply_secret` and `chain_secret`: the result of applying to a secret output has a value. -/
example : ∃ d t n n' o out v, Completes (single (mainProg ((sample (.int 20) true true [7]).bind fun o => apply false o plusOne))) d ∧
    Ran d t n (apply false o plusOne) (.ok out) n' ∧ d.futs out.value = some (.ok v) ∧ Chain d false o out ∧
    Holds (d.futs o.secret) := by
  obtain ⟨d, o, out, t, n, n', w, hd, hr, ho, _, hw⟩ := sample_apply (.int 20) true true [7] false plusOne
  have hden : Denotes d plusOne w.value (.ofPlain (.int 21)) := by rw [hw]; exact plusOne_denotes
  exact ⟨d, t, n, n', o, out, _, hd, hr, (apply_update_shows hd hr ho hden).value, .step .refl hr,
    _, ho.secret, by rw [hw]; rfl⟩

/-! ## C04 -/

/-- **C04.** Whenever the result of `apply` has a value, it depends on exactly the resources the source depends on
and those of the output the callback returned, if it returned one. -/
theorem apply_deps (hd : Completes roots d) {t n n' dry o f rwu out v w}
    (h : Ran d t n (apply dry o f rwu) (.ok out) n') (ho : Shows d.futs o w) (hv : d.futs out.value = some (.ok v)) :
    HoldsSet (d.futs out.resources) fun r => w.deps r ∨
      ∃ o' ids, CallbackReturned d (.child t n) f o' ∧ d.futs o'.resources = some (.ok (.resSet ids)) ∧ r ∈ ids := by
  have hs := settled_of_completes hd
  obtain ⟨ids, hids, hm⟩ := ho.deps
  obtain ⟨rs, k, s, v0, h1, h2, h3, h4, h5⟩ := apply_value_ok hs h hv
  rw [hids] at h1; cases h1
  rcases h5 with ⟨h5, h6, h7⟩ | ⟨arg, r, m, R, h5, h6, h7, h8, h9, h10⟩
  · refine ⟨ids, h6, fun x => ?_⟩
    rw [hm]
    constructor
    · exact .inl
    · rintro (h | ⟨o', _, ⟨arg, m, hi, _⟩, _⟩)
      · exact h
      · have := h5.inj hi; simp at this
  · subst h7
    rcases afterCallOut_ok h8 with ⟨x, rfl, hx, hx1, _⟩ | ⟨o', rs', s', u, rfl, hr', _, _, hu, hx1, _⟩
    · rw [hx1] at h9
      refine ⟨ids, h9, fun y => ?_⟩
      rw [hm]
      constructor
      · exact .inl
      · rintro (h | ⟨o', _, ⟨arg', m', hi, hr⟩, _⟩)
        · exact h
        · have := h5.inj hi; cases this
          have := (h6.det hr).1
          simp at this
          exact absurd this (hx o')
    · rw [hx1] at h9
      cases rs' with
      | resSet ids' =>
        simp [setUnion] at hu; subst hu
        refine ⟨ids ++ ids', h9, fun y => ?_⟩
        rw [List.mem_append, hm]
        constructor
        · rintro (h | h)
          · exact .inl h
          · exact .inr ⟨o', ids', ⟨arg, m, h5, h6⟩, hr', h⟩
        · rintro (h | ⟨o'', ids'', ⟨arg', m', hi, hr⟩, hr'', hmem⟩)
          · exact .inl h
          · have := h5.inj hi; cases this
            have := (h6.det hr).1
            simp at this; subst this
            rw [hr'] at hr''; cases hr''
            exact .inr hmem
      | _ => simp [setUnion] at hu

/-- **C04.** Even if the callback, an awaited future or any flag of the source raises: once the dependency set of the
result is available, it contains every dependency of the source. -/
theorem apply_deps_on_failure (hd : Completes roots d) {t n n' dry o f rwu out ids x}
    (h : Ran d t n (apply dry o f rwu) (.ok out) n') (hids : d.futs o.resources = some (.ok (.resSet ids)))
    (hx : d.futs out.resources = some x) :
    ∃ ids', x = .ok (.resSet ids') ∧ ∀ r ∈ ids, r ∈ ids' := by
  have hs := settled_of_completes hd
  obtain ⟨R, hR, hhas, hval, hr, hsec, hk⟩ := apply_futs hs h
  have hspec := applyRun_spec hs hhas
  rw [← hR, hids] at hspec
  simp only at hspec
  rw [hr] at hx
  split at hspec
  · split at hspec
    · obtain ⟨_, rfl⟩ := hspec
      simp at hx; exact ⟨ids, hx.symm, fun _ h => h⟩
    · obtain ⟨_, r, m, _, h3⟩ := hspec
      subst h3
      cases r with
      | error e => simp only [afterCallOut] at hx; exact ⟨ids, by simpa using hx.symm, fun _ h => h⟩
      | ok y =>
        cases y with
        | out o' =>
          simp only [afterCallOut] at hx
          split at hx
          · simp at hx
          · exact ⟨ids, by simpa using hx.symm, fun _ h => h⟩
          · rename_i rs' _
            split at hx
            · exact ⟨ids, by simpa using hx.symm, fun _ h => h⟩
            · rename_i u hu
              cases rs' with
              | resSet ids' =>
                simp [setUnion] at hu; subst hu
                refine ⟨ids ++ ids', ?_, fun _ h => List.mem_append_left _ h⟩
                split at hx
                · simpa using hx.symm
                · simpa using hx.symm
                · split at hx <;> simpa using hx.symm
              | _ => simp [setUnion] at hu
        | fut f => exact ⟨ids, by simpa [afterCallOut] using hx.symm, fun _ h => h⟩
        | _ => exact ⟨ids, by simpa [afterCallOut] using hx.symm, fun _ h => h⟩
  · obtain ⟨_, ⟨e, _, rfl⟩ | ⟨_, rfl⟩⟩ := hspec
    · exact ⟨ids, by simpa using hx.symm, fun _ h => h⟩
    · simp at hx

/-- Non-vacuity of `apply_deps`: resource 7 stays a dependency. Here the callback returns another output. -/
example : ∃ d t n n' o out w v, Completes (single (mainProg ((sample (.int 20) true true [7]).bind fun o => apply false o fun x => (sample x true false [8]).bind fun o' => .pure (.out o')))) d ∧
    Ran d t n (apply false o fun x => (sample x true false [8]).bind fun o' => .pure (.out o')) (.ok out) n' ∧ Shows d.futs o w ∧
    d.futs out.value = some (.ok v) ∧ w.deps 7 ∧ HoldsSet (d.futs out.resources) (fun r => r = 7 ∨ r = 8) := by
  obtain ⟨d, o, out, t, n, n', w, hd, hr, ho, _, hw⟩ := sample_apply (.int 20) true true [7] false
    (fun x => (sample x true false [8]).bind fun o' => .pure (.out o'))
  have hs := settled_of_completes hd
  have hden : Denotes d (fun x => (sample x true false [8]).bind fun o' => .pure (.out o')) w.value
      { value := .int 20, known := true, secret := false, deps := (· ∈ [8]) } := by
    rw [hw]
    intro t n r n' hr
    rcases Ran.bind hr with ⟨o', m, h1, h2⟩ | ⟨e, h1, _⟩
    · obtain ⟨o'', he, hsh, _⟩ := sample_ran hs h1
      cases he; cases h2
      exact ⟨_, rfl, .output hsh⟩
    · obtain ⟨o'', he, hsh, _⟩ := sample_ran hs h1
      simp at he
  have hsh := apply_update_shows hd hr ho hden
  obtain ⟨ids, h1, h2⟩ := hsh.deps
  refine ⟨d, t, n, n', o, out, w, _, hd, hr, ho, hsh.value, by rw [hw]; simp, ids, h1, ?_⟩
  intro x; rw [h2, hw]; simp [View.after]

/-! ## C10 -/

/-- The futures a callback result waits for have all been resolved. -/
def ResultSettles (σ : Store) : Except Exc Val → Prop
  | .ok (.out o') => Settles σ o'
  | .ok (.fut g) => Done (σ g)
  | _ => True

/-- **C10.** If the source's four futures are resolved, to results or exceptions, and the futures of what the callback
returned are, then so are the four futures of the result. -/
theorem apply_settles (hd : Completes roots d) {t n n' dry o f rwu out}
    (h : Ran d t n (apply dry o f rwu) (.ok out) n') (ho : Settles d.futs o)
    (hf : ∀ arg r m, Invoked d (.child t n) [arg] → Ran d (.child t n) 0 (f arg) r m → ResultSettles d.futs r) :
    Settles d.futs out := by
  have hs := settled_of_completes hd
  obtain ⟨R, hR, hhas, hval, hr, hsec, hk⟩ := apply_futs hs h
  have hspec := applyRun_spec hs hhas
  rw [← hR] at hspec
  have fin : Done R.result ∧ Done R.resources ∧ Done R.secret ∧ Done R.known → Settles d.futs out := by
    rintro ⟨⟨a, ha⟩, ⟨b, hb⟩, ⟨c, hc⟩, ⟨e, he⟩⟩
    refine ⟨⟨a, by rw [hval, ha]⟩, ?_, ⟨c, by rw [hsec, hc]⟩, ⟨b, by rw [hr, hb]⟩⟩
    rw [hk, he, ha]
    cases e with
    | exn e => exact ⟨_, rfl⟩
    | ok k =>
      simp only
      split
      · cases a <;> exact ⟨_, rfl⟩
      · exact ⟨_, rfl⟩
  apply fin
  obtain ⟨xr, hxr⟩ := ho.resources
  obtain ⟨xk, hxk⟩ := ho.known
  obtain ⟨xs, hxs⟩ := ho.secret
  obtain ⟨xv, hxv⟩ := ho.value
  rw [hxr] at hspec
  cases xr with
  | exn e => obtain ⟨_, h⟩ := hspec; rw [h]; exact ⟨⟨_, rfl⟩, ⟨_, rfl⟩, ⟨_, rfl⟩, ⟨_, rfl⟩⟩
  | ok rs =>
    simp only at hspec
    split at hspec
    · split at hspec
      · obtain ⟨_, h⟩ := hspec; rw [h]; exact ⟨⟨_, rfl⟩, ⟨_, rfl⟩, ⟨_, rfl⟩, ⟨_, rfl⟩⟩
      · obtain ⟨h1, r, m, h2, h3⟩ := hspec
        have hset := hf _ _ _ h1 h2
        rw [h3]
        cases r with
        | error e => exact ⟨⟨_, rfl⟩, ⟨_, rfl⟩, ⟨_, rfl⟩, ⟨_, rfl⟩⟩
        | ok y =>
          cases y with
          | out o' =>
            obtain ⟨⟨yv, hyv⟩, ⟨yk, hyk⟩, ⟨ys, hys⟩, ⟨yr, hyr⟩⟩ := hset
            simp only [afterCallOut, hyr]
            cases yr with
            | exn e => exact ⟨⟨_, rfl⟩, ⟨_, rfl⟩, ⟨_, rfl⟩, ⟨_, rfl⟩⟩
            | ok rs' =>
              simp only
              split
              · exact ⟨⟨_, rfl⟩, ⟨_, rfl⟩, ⟨_, rfl⟩, ⟨_, rfl⟩⟩
              · rw [hyk]
                cases yk with
                | exn e => exact ⟨⟨_, rfl⟩, ⟨_, rfl⟩, ⟨_, rfl⟩, ⟨_, rfl⟩⟩
                | ok k' =>
                  simp only [hys]
                  cases ys with
                  | exn e => exact ⟨⟨_, rfl⟩, ⟨_, rfl⟩, ⟨_, rfl⟩, ⟨_, rfl⟩⟩
                  | ok s' => exact ⟨⟨yv, hyv⟩, ⟨_, rfl⟩, ⟨_, rfl⟩, ⟨_, rfl⟩⟩
          | fut g =>
            obtain ⟨y, hy⟩ := hset
            exact ⟨⟨y, hy⟩, ⟨_, rfl⟩, ⟨_, rfl⟩, ⟨_, rfl⟩⟩
          | _ => exact ⟨⟨_, rfl⟩, ⟨_, rfl⟩, ⟨_, rfl⟩, ⟨_, rfl⟩⟩
    · obtain ⟨_, ⟨e, _, h⟩ | ⟨hn, _⟩⟩ := hspec
      · rw [h]; exact ⟨⟨_, rfl⟩, ⟨_, rfl⟩, ⟨_, rfl⟩, ⟨_, rfl⟩⟩
      · rw [hxk, hxs, hxv] at hn; simp at hn

/-- Non-vacuity of `apply_settles` and of `apply_deps_on_failure`: a callback that raises. -/
example : ∃ d t n n' o out ids x, Completes (single (mainProg ((sample (.int 20) true true [7]).bind fun o => apply false o fun _ => .raise "boom"))) d ∧
    Ran d t n (apply false o fun _ => .raise "boom") (.ok out) n' ∧ Settles d.futs o ∧
    (∀ arg r m, Invoked d (.child t n) [arg] → Ran d (.child t n) 0 ((fun _ => .raise "boom" : Val → Sync Val) arg) r m → ResultSettles d.futs r) ∧
    d.futs o.resources = some (.ok (.resSet ids)) ∧ d.futs out.resources = some x := by
  obtain ⟨d, o, out, t, n, n', w, hd, hr, ho, _, hw⟩ := sample_apply (.int 20) true true [7] false (fun _ => .raise "boom")
  obtain ⟨ids, h1, h2⟩ := ho.deps
  have hset : Settles d.futs o := ⟨⟨_, ho.value⟩, ⟨_, ho.known⟩, ⟨_, ho.secret⟩, ⟨_, h1⟩⟩
  have hrs : ∀ arg r m, Invoked d (.child t n) [arg] → Ran d (.child t n) 0 ((fun _ => .raise "boom" : Val → Sync Val) arg) r m → ResultSettles d.futs r := by
    intro arg r m _ hr; cases hr; trivial
  obtain ⟨x, hx⟩ := (apply_settles hd hr hset hrs).resources
  exact ⟨d, t, n, n', o, out, ids, x, hd, hr, hset, hrs, h1, hx⟩

end Pulumi.Output
