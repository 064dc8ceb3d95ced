import Verif.Async.Lemmas
import Verif.Output.Spec
namespace Pulumi.Output
open Pulumi.Async

variable {d : Config}

/-! ### evaluation of the building blocks -/

theorem eval_awaitE {σ t f onExc k o} : eval σ t (awaitE f onExc k) o =
    match σ f with
    | none => o
    | some (.ok v) => eval σ t (k v) o
    | some (.exn e) => eval σ t (onExc e) o := by
  unfold awaitE; simp only [eval]
  cases h : σ f with
  | none => rfl
  | some r => cases r <;> rfl

theorem eval_awaitF {σ t rs f k o} : eval σ t (awaitF rs f k) o =
    match σ f with
    | none => o
    | some (.ok v) => eval σ t (k v) o
    | some (.exn e) => eval σ t (finish rs (.raise e)) o := eval_awaitE

theorem eval_await' {σ t f k o} : eval σ t (await' f k) o =
    match σ f with
    | none => o
    | some (.ok v) => eval σ t (k v) o
    | some (.exn e) => { o with result := some (.exn e) } := eval_awaitE

/-- Write a slot if it is free. -/
def wr (s : Nat → Option Res) (i : Nat) (r : Res) : Nat → Option Res :=
  fun j => if j = i then (match s i with | none => some r | some r' => some r') else s j

theorem eval_finish {σ t rs exit o} : eval σ t (finish rs exit) o =
    eval σ t exit { o with slots := wr (wr (wr o.slots 0 (.ok rs)) 1 (.ok (.bool false))) 2 (.ok (.bool false)) } := by
  unfold finish
  have hset : ∀ (i : Nat) (r : Res) (k : Bool → Prog) (o : Outcome) (p : Prog), k = (fun _ => p) →
      eval σ t (.set i r k) o = eval σ t p { o with slots := wr o.slots i r } := by
    intro i r k o p hk
    subst hk
    simp only [eval]
    cases h : o.slots i with
    | none =>
      have : wr o.slots i r = fun j => if j = i then some r else o.slots j := by
        funext j; unfold wr; rw [h]
      rw [this]
    | some r' =>
      have : wr o.slots i r = o.slots := by
        funext j; unfold wr; split
        · subst_vars; rw [h]
        · rfl
      rw [this]
  rw [hset _ _ _ _ _ rfl, hset _ _ _ _ _ rfl, hset _ _ _ _ _ rfl]

theorem eval_setResult {σ t rs i v k o} (h : o.slots i = none) : eval σ t (setResult rs i v k) o =
    eval σ t k { o with slots := fun j => if j = i then some (.ok v) else o.slots j } := by
  unfold setResult; simp only [eval, h]; rfl

/-! ### `Output.__init__` -/

theorem isValueKnown_res (hs : Settled d) {t known value} (h : Has d t (isValueKnown known value)) :
    d.futs (.result t) =
      match d.futs known with
      | none => none
      | some (.exn e) => some (.exn e)
      | some (.ok k) =>
        if truthy k then
          match d.futs value with
          | none => none
          | some (.exn e) => some (.exn e)
          | some (.ok v) => some (.ok (.bool (!containsUnknowns v)))
        else some (.ok k) := by
  rw [hs.res h]
  unfold isValueKnown
  rw [eval_await']
  cases hk : d.futs known with
  | none => rfl
  | some r =>
    cases r with
    | exn e => rfl
    | ok k =>
      simp only
      split
      · rw [eval_await']
        cases hv : d.futs value with
        | none => rfl
        | some r => cases r <;> rfl
      · rfl

theorem mkOutput_ran {t n n' r v k s out} (h : Ran d t n (mkOutput r v k s) (.ok out) n') :
    out.resources = r ∧ out.value = v ∧ out.secret = s ∧ ∃ u, out.known = .result u ∧ Has d u (isValueKnown k v) := by
  unfold mkOutput at h
  obtain ⟨h1, h2⟩ := h.spawn_ok
  obtain ⟨rfl, _⟩ := h2.pure_ok
  exact ⟨rfl, rfl, rfl, _, rfl, h1⟩

theorem resolved_ran (hs : Settled d) {t n n' v f} (h : Ran d t n (resolved v) (.ok f) n') :
    d.futs f = some (.ok v) := by
  unfold resolved at h
  obtain ⟨h1, h2⟩ := h.spawn_ok
  obtain ⟨rfl, _⟩ := h2.pure_ok
  rw [hs.res h1]; rfl

theorem getValue_res (hs : Settled d) {t o w} (h : Has d t (getValue o w)) :
    d.futs (.result t) =
      match d.futs o.value with
      | none => none
      | some (.exn e) => some (.exn e)
      | some (.ok v) => some (.ok (if !w && containsUnknowns v then .none else v)) := by
  rw [hs.res h]
  unfold getValue
  rw [eval_await']
  cases hv : d.futs o.value with
  | none => rfl
  | some r => cases r <;> rfl

/-! ### `apply` -/

theorem apply_ran {t n n' dry o f rwu out} (h : Ran d t n (apply dry o f rwu) (.ok out) n') :
    ∃ run, Has d run (applyRun dry o f rwu) ∧ out.resources = .slot run 0 ∧ out.value = .result run ∧
      out.secret = .slot run 2 ∧ ∃ u, out.known = .result u ∧ Has d u (isValueKnown (.slot run 1) (.result run)) := by
  unfold apply at h
  obtain ⟨h1, h2⟩ := h.spawn_ok
  obtain ⟨a, b, c, u, e, hu⟩ := mkOutput_ran h2
  exact ⟨_, h1, a, b, c, u, e, hu⟩

/-- The four futures of the output returned by `apply`, in terms of what its coroutine wrote. -/
structure RunOut where
  result : Option Res
  resources : Option Res
  known : Option Res
  secret : Option Res

def _root_.Pulumi.Async.Outcome.runOut (o : Outcome) : RunOut := ⟨o.result, o.slots 0, o.slots 1, o.slots 2⟩

/-- What `run` writes once the callback has returned or raised. -/
def afterCallOut (σ : Store) (rs secret : Val) : Except Exc Val → RunOut
  | .error e => ⟨some (.exn e), some (.ok rs), some (.ok (.bool false)), some (.ok (.bool false))⟩
  | .ok (.out o') =>
    match σ o'.resources with
    | none => ⟨none, none, none, none⟩
    | some (.exn e) => ⟨some (.exn e), some (.ok rs), some (.ok (.bool false)), some (.ok (.bool false))⟩
    | some (.ok rs') =>
      match setUnion rs rs' with
      | none => ⟨some (.exn "TypeError"), some (.ok rs), some (.ok (.bool false)), some (.ok (.bool false))⟩
      | some u =>
        match σ o'.known with
        | none => ⟨none, some (.ok u), none, none⟩
        | some (.exn e) => ⟨some (.exn e), some (.ok u), some (.ok (.bool false)), some (.ok (.bool false))⟩
        | some (.ok k') =>
          match σ o'.secret with
          | none => ⟨none, some (.ok u), some (.ok k'), none⟩
          | some (.exn e) => ⟨some (.exn e), some (.ok u), some (.ok k'), some (.ok (.bool false))⟩
          | some (.ok s') =>
            ⟨σ o'.value, some (.ok u), some (.ok k'), some (.ok (if truthy s' then s' else secret))⟩
  | .ok (.fut f) => ⟨σ f, some (.ok rs), some (.ok (.bool true)), some (.ok secret)⟩
  | .ok v => ⟨some (.ok v), some (.ok rs), some (.ok (.bool true)), some (.ok secret)⟩

theorem afterCall_plain {σ t rs secret v o} (hp : Plain v) : eval σ t (afterCall rs secret (.ok v)) o =
    eval σ t (setResult rs 0 rs <| setResult rs 1 (.bool true) <| setResult rs 2 secret <| finish rs (.ret v)) o := by
  cases v <;> first | rfl | simp [Plain] at hp

theorem afterCallOut_plain {σ rs secret v} (hp : Plain v) : afterCallOut σ rs secret (.ok v) =
    ⟨some (.ok v), some (.ok rs), some (.ok (.bool true)), some (.ok secret)⟩ := by
  cases v <;> first | rfl | simp [Plain] at hp

theorem afterCall_eval (hs : Settled d) {run p} (hp : Has d run p) {rs secret : Val} (r : Except Exc Val) (o : Outcome)
    (h : eval d.futs run p Outcome.init = eval d.futs run (afterCall rs secret r) o)
    (hslots : o.slots = fun _ => none) (hres : o.result = none) :
    (eval d.futs run p Outcome.init).runOut = afterCallOut d.futs rs secret r := by
  rw [h]
  have hsl : ∀ i, o.slots i = none := by rw [hslots]; intro; rfl
  cases r with
  | error e => simp [afterCall, afterCallOut, eval_finish, eval, Outcome.runOut, wr, hsl]
  | ok v =>
    have hplain : Plain v → (eval d.futs run (afterCall rs secret (.ok v)) o).runOut = afterCallOut d.futs rs secret (.ok v) := by
      intro hp
      rw [afterCall_plain hp, afterCallOut_plain hp]
      rw [eval_setResult (by simp [hsl]), eval_setResult (by simp [hsl]), eval_setResult (by simp [hsl]), eval_finish]
      simp [eval, Outcome.runOut, wr]
    cases v with
    | fut f =>
      simp only [afterCall, afterCallOut]
      rw [eval_setResult (by simp [hsl]), eval_setResult (by simp [hsl]), eval_setResult (by simp [hsl]), eval_awaitF]
      cases hf : d.futs f with
      | none => simp [Outcome.runOut, hres]
      | some r => cases r <;> simp [eval_finish, eval, Outcome.runOut, wr]
    | out o' =>
      simp only [afterCall, afterCallOut]
      rw [eval_awaitF]
      cases hr' : d.futs o'.resources with
      | none => simp [Outcome.runOut, hres, hsl]
      | some r =>
        cases r with
        | exn e => simp [eval_finish, eval, Outcome.runOut, wr, hsl]
        | ok rs' =>
          simp only
          cases hu : setUnion rs rs' with
          | none => simp [eval_finish, eval, Outcome.runOut, wr, hsl]
          | some u =>
            simp only
            rw [eval_setResult (hsl _), eval_awaitF]
            cases hk : d.futs o'.known with
            | none => simp [Outcome.runOut, hres, hsl]
            | some r =>
              cases r with
              | exn e => simp [eval_finish, eval, Outcome.runOut, wr, hsl]
              | ok k' =>
                simp only
                rw [eval_setResult (by simp [hsl]), eval_awaitF]
                cases hsec : d.futs o'.secret with
                | none => simp [Outcome.runOut, hres, hsl]
                | some r =>
                  cases r with
                  | exn e => simp [eval_finish, eval, Outcome.runOut, wr, hsl]
                  | ok s' =>
                    simp only
                    rw [eval_setResult (by simp [hsl])]
                    simp only [eval]
                    -- the `future` task exists because this run spawned it
                    have hchild : Has d (.child run o.children) (getValue o' true) := by
                      apply hs.child hp
                      rw [h]
                      simp only [afterCall]
                      rw [eval_awaitF, hr']; simp only [hu]
                      rw [eval_setResult (hsl _), eval_awaitF, hk]
                      simp only
                      rw [eval_setResult (by simp [hsl]), eval_awaitF, hsec]
                      simp only
                      rw [eval_setResult (by simp [hsl])]
                      simp only [eval]
                      obtain ⟨xs, hx⟩ := eval_spawned (σ := d.futs) (t := run)
                        (awaitF rs (FutId.result (run.child o.children)) fun v => finish rs (Prog.ret v))
                        { o with
                          slots := fun j => if j = 2 then some (Res.ok (if truthy s' = true then s' else secret))
                            else if j = 1 then some (Res.ok k') else if j = 0 then some (Res.ok u) else o.slots j,
                          children := o.children + 1,
                          spawned := o.spawned ++ [(run.child o.children, getValue o' true)] }
                      rw [hx]; simp
                    have hval := getValue_res hs hchild
                    rw [eval_awaitF, hval]
                    cases hv : d.futs o'.value with
                    | none => simp [Outcome.runOut, hres]
                    | some r => cases r <;> simp [eval_finish, eval, Outcome.runOut, wr]
    | _ => exact hplain (by simp [Plain])

/-- What `run` does when it invokes the callback. -/
theorem invoke_spec (hs : Settled d) {run p} (hp : Has d run p) {rs secret v : Val} {f : Val → Sync Val}
    (h : eval d.futs run p Outcome.init = eval d.futs run (invoke rs secret v f) Outcome.init) :
    Invoked d run [v] ∧ ∃ r n', Ran d run 0 (f v) r n' ∧
      (eval d.futs run p Outcome.init).runOut = afterCallOut d.futs rs secret r := by
  unfold invoke at h
  simp only [eval] at h
  obtain ⟨r, n', xs, he, hr⟩ := eval_run (σ := d.futs) (t := run) (f v) (afterCall rs secret)
    { Outcome.init with calls := Outcome.init.calls ++ [v] }
  rw [he] at h
  have hxs : ∀ c q, (c, q) ∈ xs → ∃ T, d.tasks c = some T ∧ T.origin = q := by
    intro c q hm
    apply hs.child hp
    rw [h]
    obtain ⟨ys, hy⟩ := eval_spawned (σ := d.futs) (t := run) (afterCall rs secret r)
      { Outcome.init with calls := Outcome.init.calls ++ [v], children := n', spawned := Outcome.init.spawned ++ xs }
    rw [hy]; simp [hm]
  have hout := afterCall_eval hs hp r _ h rfl rfl
  refine ⟨?_, r, n', hr d hxs, hout⟩
  obtain ⟨T, hT, hc⟩ := hs.callsOf hp
  refine ⟨T, hT, ?_⟩
  rw [hc, h]
  -- no further callbacks in afterCall
  have hnc : ∀ (p : Prog) (o : Outcome), (∃ q, p = finish rs q ∧ (∃ w, q = .ret w ∨ ∃ e, q = .raise e)) →
      (eval d.futs run p o).calls = o.calls := by
    rintro p o ⟨q, rfl, w, rfl | ⟨e, rfl⟩⟩ <;> simp [eval_finish, eval]
  have hfin : ∀ (w : Val) (o : Outcome), (eval d.futs run (finish rs (.ret w)) o).calls = o.calls := by
    intro w o; simp [eval_finish, eval]
  have hfin' : ∀ (e : Exc) (o : Outcome), (eval d.futs run (finish rs (.raise e)) o).calls = o.calls := by
    intro w o; simp [eval_finish, eval]
  have haw : ∀ (g : FutId) (k : Val → Prog) (o : Outcome) (cs : List Val), o.calls = cs →
      (∀ w o, o.calls = cs → (eval d.futs run (k w) o).calls = cs) → (eval d.futs run (awaitF rs g k) o).calls = cs := by
    intro g k o cs ho hk
    rw [eval_awaitF]
    cases d.futs g with
    | none => exact ho
    | some r => cases r with
      | ok w => exact hk w o ho
      | exn e => simp only; rw [hfin']; exact ho
  have hset : ∀ (i : Nat) (w : Val) (k : Prog) (o : Outcome) (cs : List Val), o.calls = cs →
      (∀ o, o.calls = cs → (eval d.futs run k o).calls = cs) → (eval d.futs run (setResult rs i w k) o).calls = cs := by
    intro i w k o cs ho hk
    unfold setResult
    simp only [eval]
    cases o.slots i with
    | none => exact hk _ ho
    | some r => simp only [Bool.false_eq_true, if_false]; rw [hfin']; exact ho
  have hplain : ∀ (w : Val) (o : Outcome) (cs : List Val), o.calls = cs →
      (eval d.futs run (setResult rs 0 rs <| setResult rs 1 (.bool true) <| setResult rs 2 secret <| finish rs (.ret w)) o).calls = cs := by
    intro w o cs ho
    refine hset _ _ _ _ _ ho fun o ho => hset _ _ _ _ _ ho fun o ho => hset _ _ _ _ _ ho fun o ho => ?_
    rw [hfin]; exact ho
  generalize hO : ({ Outcome.init with calls := Outcome.init.calls ++ [v], children := n', spawned := Outcome.init.spawned ++ xs } : Outcome) = O
  have hcs : O.calls = [v] := by rw [← hO]; rfl
  cases r with
  | error e => simp only [afterCall]; rw [hfin']; exact hcs
  | ok w =>
    cases w with
    | fut g =>
      simp only [afterCall]
      refine hset _ _ _ _ _ hcs fun o ho => hset _ _ _ _ _ ho fun o ho => hset _ _ _ _ _ ho fun o ho => haw _ _ _ _ ho fun w o ho => ?_
      rw [hfin]; exact ho
    | out o' =>
      simp only [afterCall]
      refine haw _ _ _ _ hcs fun rs' o ho => ?_
      split
      · rw [hfin']; exact ho
      · refine hset _ _ _ _ _ ho fun o ho => haw _ _ _ _ ho fun k' o ho => hset _ _ _ _ _ ho fun o ho =>
          haw _ _ _ _ ho fun s' o ho => hset _ _ _ _ _ ho fun o ho => ?_
        simp only [eval]
        refine haw _ _ _ _ (by exact ho) fun w o ho => ?_
        rw [hfin]; exact ho
    | _ => exact hplain _ _ _ hcs

/-- `run` executed the callback on `v` and then wrote what `afterCallOut` says. -/
def CallResult (d : Config) (run : TaskId) (f : Val → Sync Val) (v rs secret : Val) (out : RunOut) : Prop :=
  ∃ r n', Ran d run 0 (f v) r n' ∧ out = afterCallOut d.futs rs secret r

/-- The complete behaviour of the coroutine of `apply`. -/
theorem applyRun_spec (hs : Settled d) {run dry o f rwu} (hp : Has d run (applyRun dry o f rwu)) :
    let out := (eval d.futs run (applyRun dry o f rwu) Outcome.init).runOut
    match d.futs o.resources with
    | none => Invoked d run [] ∧ out = ⟨none, none, none, none⟩
    | some (.exn e) => Invoked d run [] ∧
        out = ⟨some (.exn e), some (.ok (.resSet [])), some (.ok (.bool false)), some (.ok (.bool false))⟩
    | some (.ok rs) =>
      match d.futs o.known, d.futs o.secret, d.futs o.value with
      | some (.ok known), some (.ok secret), some (.ok value) =>
        if dry && !truthy known && !rwu then
          Invoked d run [] ∧ out = ⟨some (.ok .none), some (.ok rs), some (.ok (.bool false)), some (.ok secret)⟩
        else
          let arg := if dry && !truthy known && !containsUnknowns value then .unknown else value
          Invoked d run [arg] ∧ CallResult d run f arg rs secret out
      | k, s, v =>
        Invoked d run [] ∧
        ((∃ e, (k = some (.exn e) ∨ s = some (.exn e) ∨ v = some (.exn e)) ∧
          out = ⟨some (.exn e), some (.ok rs), some (.ok (.bool false)), some (.ok (.bool false))⟩) ∨
        ((k = none ∨ s = none ∨ v = none) ∧ out = ⟨none, none, none, none⟩)) := by
  intro out
  have hinv : ∀ O, eval d.futs run (applyRun dry o f rwu) Outcome.init = O → O.calls = [] → Invoked d run [] := by
    intro O hO hc
    obtain ⟨T, hT, h⟩ := hs.callsOf hp
    exact ⟨T, hT, by rw [h, hO, hc]⟩
  have hx : ∀ O, eval d.futs run (applyRun dry o f rwu) Outcome.init = O → out = O.runOut := by
    intro O hO; show (eval _ _ _ _).runOut = _; rw [hO]
  have hev : eval d.futs run (applyRun dry o f rwu) Outcome.init = _ := rfl
  conv at hev => rhs; unfold applyRun; rw [eval_awaitF]
  cases hr : d.futs o.resources with
  | none => rw [hr] at hev; exact ⟨hinv _ hev rfl, hx _ hev⟩
  | some r =>
    cases r with
    | exn e =>
      rw [hr] at hev; simp only [eval_finish, eval] at hev
      exact ⟨hinv _ hev rfl, hx _ hev⟩
    | ok rs =>
      rw [hr] at hev; simp only at hev; rw [eval_awaitF] at hev
      simp only
      cases hk : d.futs o.known with
      | none => rw [hk] at hev; simp only at hev ⊢; exact ⟨hinv _ hev rfl, .inr ⟨by simp, hx _ hev⟩⟩
      | some r =>
        cases r with
        | exn e =>
          rw [hk] at hev; simp only [eval_finish, eval] at hev
          refine ⟨hinv _ hev rfl, ?_⟩
          exact .inl ⟨e, .inl rfl, hx _ hev⟩
        | ok known =>
          rw [hk] at hev; simp only at hev; rw [eval_awaitF] at hev
          cases hsec : d.futs o.secret with
          | none => rw [hsec] at hev; simp only at hev ⊢; exact ⟨hinv _ hev rfl, .inr ⟨by simp, hx _ hev⟩⟩
          | some r =>
            cases r with
            | exn e =>
              rw [hsec] at hev; simp only [eval_finish, eval] at hev
              refine ⟨hinv _ hev rfl, ?_⟩
              exact .inl ⟨e, .inr (.inl rfl), hx _ hev⟩
            | ok secret =>
              rw [hsec] at hev; simp only at hev; rw [eval_awaitF] at hev
              cases hv : d.futs o.value with
              | none => rw [hv] at hev; simp only at hev ⊢; exact ⟨hinv _ hev rfl, .inr ⟨by simp, hx _ hev⟩⟩
              | some r =>
                cases r with
                | exn e =>
                  rw [hv] at hev; simp only [eval_finish, eval] at hev
                  refine ⟨hinv _ hev rfl, ?_⟩
                  exact .inl ⟨e, .inr (.inr rfl), hx _ hev⟩
                | ok value =>
                  rw [hv] at hev; simp only at hev ⊢
                  have fin : ∀ v, eval d.futs run (applyRun dry o f rwu) Outcome.init =
                      eval d.futs run (invoke rs secret v f) Outcome.init →
                      Invoked d run [v] ∧ CallResult d run f v rs secret out := by
                    intro v h
                    obtain ⟨h1, r, n', h2, h3⟩ := invoke_spec hs hp h
                    exact ⟨h1, r, n', h2, h3⟩
                  cases dry with
                  | false => simp only [Bool.false_and, Bool.false_eq_true, if_false] at hev ⊢; exact fin _ hev
                  | true =>
                    simp only [Bool.true_and, if_true] at hev ⊢
                    cases hkn : truthy known <;> cases rwu <;> simp only [hkn] at hev ⊢
                    · -- not run
                      simp at hev ⊢
                      rw [eval_setResult (by rfl), eval_setResult (by rfl), eval_setResult (by rfl), eval_finish] at hev
                      simp only [eval] at hev
                      exact ⟨hinv _ hev rfl, by simpa [Outcome.runOut, wr] using hx _ hev⟩
                    · cases hcu : containsUnknowns value <;> simp [hcu] at hev ⊢ <;> exact fin _ hev
                    · simp at hev ⊢; exact fin _ hev
                    · simp at hev ⊢; exact fin _ hev

end Pulumi.Output
