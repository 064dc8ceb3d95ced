import Verif.Flow.Lemmas
/-!
# Data flow: dependencies and secrets tell the truth (C124, C125)
-/
namespace Pulumi.Flow
open Pulumi.Async Pulumi.Output

variable {d d' : Config} {roots roots' : Nat → Option Prog} {dry : Bool} {has : Nat → String → Prop}

/-! ## Meanings -/

mutual
/-- What an expression shows depends only on the resources it is reported to depend on. -/
theorem view_agree {w1 w2 : World} (hw1 : w1.Ok has) :
    ∀ e : Expr, e.Ok has → (∀ r, (e.view dry w1).deps r → ∀ p, has r p → w1 r p = w2 r p) → e.view dry w1 = e.view dry w2
  | .value v, _, _ => rfl
  | .prop r p, hk, h => h r (hw1.own r p hk) p hk
  | .map e f, hk, h => by
    have he := view_agree hw1 e hk.1 fun r hr => h r (by
      simp only [Expr.view, thenView]; split
      · exact hr
      · exact Or.inl hr)
    simp only [Expr.view, he]
  | .bind e f, hk, h => by
    have he := view_agree hw1 e hk.1 fun r hr => h r (by
      simp only [Expr.view, thenView]; split
      · exact hr
      · exact Or.inl hr)
    by_cases hc : (dry && !(e.view dry w1).known) = true
    · have hc' : (dry && !(e.view dry w2).known) = true := by rw [← he]; exact hc
      simp only [Expr.view, thenView, if_pos hc, if_pos hc', he]
    · have hc' : ¬ (dry && !(e.view dry w2).known) = true := by rw [← he]; exact hc
      have hf := view_agree hw1 (f (e.view dry w1).value) (hk.2 _ (view_good hw1 e hk.1).data) fun r hr => h r (by
        simp only [Expr.view, thenView, if_neg hc]
        exact Or.inr hr)
      simp only [Expr.view, thenView, if_neg hc, if_neg hc', ← he, hf]
  | .all es, hk, h => by
    have := viewList_agree hw1 es hk fun r w hw hr => h r ⟨memberView dry w, List.mem_map_of_mem hw, hr⟩
    simp only [Expr.view, this]
  | .item e get, hk, h => by
    have he := view_agree hw1 e hk.1 fun r hr => h r (Or.inl hr)
    simp only [Expr.view, he]
  | .secret e, hk, h => by
    have he := view_agree hw1 e hk fun r hr => h r hr
    simp only [Expr.view, he]
  | .unsecret e, hk, h => by
    have he := view_agree hw1 e hk fun r hr => h r hr
    simp only [Expr.view, he]
theorem viewList_agree {w1 w2 : World} (hw1 : w1.Ok has) :
    ∀ es : List Expr, Expr.Ok.okList has es → (∀ r, ∀ w ∈ Expr.viewList dry w1 es, w.deps r → ∀ p, has r p → w1 r p = w2 r p) →
      Expr.viewList dry w1 es = Expr.viewList dry w2 es
  | [], _, _ => rfl
  | e :: es, hk, h => by
    have he := view_agree hw1 e hk.1 fun r hr => h r _ (by simp [Expr.viewList]) hr
    have hes := viewList_agree hw1 es hk.2 fun r w hw hr => h r w (by simp [Expr.viewList, hw]) hr
    simp only [Expr.viewList, he, hes]
end

mutual
/-- What an expression without `unsecret` shows, when it is not secret, depends only on what is not secret. -/
theorem view_public {w1 w2 : World} (hw1 : w1.Ok has) (hag : ∀ r p, has r p → (w1 r p).secret = false → w1 r p = w2 r p) :
    ∀ e : Expr, e.Ok has → e.NoUnsecret → (e.view dry w1).secret = false → e.view dry w1 = e.view dry w2
  | .value v, _, _, _ => rfl
  | .prop r p, hk, _, h => hag r p hk h
  | .map e f, hk, hn, h => by
    have he := view_public hw1 hag e hk.1 hn (by
      simp only [Expr.view, thenView] at h
      split at h
      · exact h
      · simpa [View.after, View.ofPlain] using h)
    simp only [Expr.view, he]
  | .bind e f, hk, hn, h => by
    by_cases hc : (dry && !(e.view dry w1).known) = true
    · simp only [Expr.view, thenView, if_pos hc] at h
      have he := view_public hw1 hag e hk.1 hn.1 h
      have hc' : (dry && !(e.view dry w2).known) = true := by rw [← he]; exact hc
      simp only [Expr.view, thenView, if_pos hc, if_pos hc', he]
    · simp only [Expr.view, thenView, if_neg hc, View.after, Bool.or_eq_false_iff] at h
      have he := view_public hw1 hag e hk.1 hn.1 h.2
      have hc' : ¬ (dry && !(e.view dry w2).known) = true := by rw [← he]; exact hc
      have hf := view_public hw1 hag (f (e.view dry w1).value) (hk.2 _ (view_good hw1 e hk.1).data) (hn.2 _) h.1
      simp only [Expr.view, thenView, if_neg hc, if_neg hc', ← he, hf]
  | .all es, hk, hn, h => by
    have := viewList_public hw1 hag es hk hn (by
      intro w hw
      simp only [Expr.view, View.aggregate, List.any_eq_false, List.mem_map] at h
      have := h (memberView dry w) ⟨w, hw, rfl⟩
      simpa [memberView] using this)
    simp only [Expr.view, this]
  | .item e get, hk, hn, h => by
    have he := view_public hw1 hag e hk.1 hn (by simpa [Expr.view, View.after, View.ofPlain] using h)
    simp only [Expr.view, he]
  | .secret e, _, _, h => by simp [Expr.view] at h
  | .unsecret e, _, hn, _ => hn.elim
theorem viewList_public {w1 w2 : World} (hw1 : w1.Ok has) (hag : ∀ r p, has r p → (w1 r p).secret = false → w1 r p = w2 r p) :
    ∀ es : List Expr, Expr.Ok.okList has es → Expr.NoUnsecret.noList es → (∀ w ∈ Expr.viewList dry w1 es, w.secret = false) →
      Expr.viewList dry w1 es = Expr.viewList dry w2 es
  | [], _, _, _ => rfl
  | e :: es, hk, hn, h => by
    have he := view_public hw1 hag e hk.1 hn.1 (h _ (by simp [Expr.viewList]))
    have hes := viewList_public hw1 hag es hk.2 hn.2 fun w hw => h w (by simp [Expr.viewList, hw])
    simp only [Expr.viewList, he, hes]
end

/-! ## Executions -/

/-- **C124.** Whatever a program computes from the outputs of resources with `from_input`, `apply`, `all`, lifted access,
`secret` and `unsecret`, in every complete execution it shows the meaning of the expression. -/
theorem program_shows (hd : Completes roots d) {fuel : Nat} {src : Nat → String → OutRef} {world : World} (hw : world.Ok has)
    (hsrc : ∀ r p, has r p → Shows d.futs (src r p) (world r p)) {e : Expr} (hok : e.Ok has) (hf : e.need dry world ≤ fuel) {t n r n'}
    (h : Ran d t n (e.run dry fuel src) r n') : ∃ o, r = .ok o ∧ Shows d.futs o (e.view dry world) :=
  run_shows hd hw hsrc e hok hf t n r n' h

/-- **C124.** Two runs of a program, under any schedules. If every resource in the dependencies that the result shows in
the first run has the same outputs in the second, the result is the same in the second run: value, known, secret and
dependencies. So a resource that is not among the dependencies cannot have influenced the result. -/
theorem dependencies_sound (hd : Completes roots d) (hd' : Completes roots' d') {fuel fuel' : Nat}
    {src src' : Nat → String → OutRef} {world world' : World} (hw : world.Ok has) (hw' : world'.Ok has)
    (hsrc : ∀ r p, has r p → Shows d.futs (src r p) (world r p)) (hsrc' : ∀ r p, has r p → Shows d'.futs (src' r p) (world' r p))
    {e : Expr} (hok : e.Ok has) (hf : e.need dry world ≤ fuel) (hf' : e.need dry world' ≤ fuel') {t n o n' t' m o' m' w}
    (h : Ran d t n (e.run dry fuel src) (.ok o) n') (h' : Ran d' t' m (e.run dry fuel' src') (.ok o') m')
    (hsh : Shows d.futs o w) (hag : ∀ r, w.deps r → ∀ p, has r p → world r p = world' r p) : Shows d'.futs o' w := by
  obtain ⟨_, he, h1⟩ := run_shows hd hw hsrc e hok hf _ _ _ _ h
  cases he
  obtain ⟨_, he, h2⟩ := run_shows hd' hw' hsrc' e hok hf' _ _ _ _ h'
  cases he
  have hu := hsh.unique h1
  subst hu
  rw [← view_agree hw e hok hag] at h2
  exact h2

/-- **C125.** Two runs of a program that does not use `Output.unsecret`, under any schedules, in which the outputs of
resources that are not secret in the first run are the same. If the result of the first run is not secret, then the
second run has the same result: a secret can only influence results that are marked secret. -/
theorem secrets_contained (hd : Completes roots d) (hd' : Completes roots' d') {fuel fuel' : Nat}
    {src src' : Nat → String → OutRef} {world world' : World} (hw : world.Ok has) (hw' : world'.Ok has)
    (hsrc : ∀ r p, has r p → Shows d.futs (src r p) (world r p)) (hsrc' : ∀ r p, has r p → Shows d'.futs (src' r p) (world' r p))
    {e : Expr} (hok : e.Ok has) (hnu : e.NoUnsecret) (hf : e.need dry world ≤ fuel) (hf' : e.need dry world' ≤ fuel')
    {t n o n' t' m o' m' w}
    (h : Ran d t n (e.run dry fuel src) (.ok o) n') (h' : Ran d' t' m (e.run dry fuel' src') (.ok o') m')
    (hsh : Shows d.futs o w) (hsec : w.secret = false)
    (hag : ∀ r p, has r p → (world r p).secret = false → world r p = world' r p) : Shows d'.futs o' w := by
  obtain ⟨_, he, h1⟩ := run_shows hd hw hsrc e hok hf _ _ _ _ h
  cases he
  obtain ⟨_, he, h2⟩ := run_shows hd' hw' hsrc' e hok hf' _ _ _ _ h'
  cases he
  have hu := hsh.unique h1
  subst hu
  rw [← view_public hw hag e hok hnu hsec] at h2
  exact h2

/-! ## The hypotheses are met -/

/-- Two resources, each with one property `x`. -/
def twoHas : Nat → String → Prop := fun r p => (r = 0 ∨ r = 1) ∧ p = "x"

/-- Resource 0 shows `a`; resource 1 shows `b`, a secret. -/
def twoWorld (a b : Val) : World := fun r _ =>
  if r = 0 then { value := a, known := true, secret := false, deps := (· ∈ [0]) }
  else { value := b, known := true, secret := true, deps := (· ∈ [1]) }

/-- The program that makes the two properties and runs the expression. -/
def twoProg (dry : Bool) (a b : Val) (e : Expr) : Sync OutRef :=
  (sample a true false [0]).bind fun o0 => (sample b true true [1]).bind fun o1 =>
    e.run dry 9 fun r _ => if r = 0 then o0 else o1

/-- For known data, it has a complete execution in which the properties show the world. -/
theorem two_runs (dry : Bool) {a b : Val} (ha : isData a = true) (hb : isData b = true) (hua : containsUnknowns a = false)
    (hub : containsUnknowns b = false) {e : Expr} (hok : e.Ok twoHas) (hf : e.need dry (twoWorld a b) ≤ 9) :
    (twoWorld a b).Ok twoHas ∧ ∃ roots d src t n o n', Completes roots d ∧
      (∀ r p, twoHas r p → Shows d.futs (src r p) (twoWorld a b r p)) ∧ Ran d t n (e.run dry 9 src) (.ok o) n' ∧
      Shows d.futs o (e.view dry (twoWorld a b)) := by
  have hw : (twoWorld a b).Ok twoHas := by
    constructor
    · rintro r p ⟨rfl | rfl, rfl⟩
      · exact ha
      · exact hb
    · rintro r p ⟨rfl | rfl, rfl⟩ _
      · exact hua
      · exact hub
    · rintro r p ⟨rfl | rfl, rfl⟩ <;> simp [twoWorld]
  refine ⟨hw, ?_⟩
  obtain ⟨d, r, n', hd, hr⟩ := main_ran (twoProg dry a b e)
  have hs := settled_of_completes hd
  rcases hr.bind with ⟨o0, m, h1, h2⟩ | ⟨x, h1, _⟩
  · obtain ⟨_, he, hsh0, _⟩ := sample_ran hs h1
    cases he
    rcases h2.bind with ⟨o1, m', h3, h4⟩ | ⟨x, h3, _⟩
    · obtain ⟨_, he, hsh1, _⟩ := sample_ran hs h3
      cases he
      have hsrc : ∀ r p, twoHas r p → Shows d.futs (if r = 0 then o0 else o1) (twoWorld a b r p) := by
        rintro r p ⟨rfl | rfl, rfl⟩
        · simpa [twoWorld, hua] using hsh0
        · simpa [twoWorld, hub] using hsh1
      obtain ⟨o, rfl, hsh⟩ := program_shows hd hw hsrc hok hf h4
      exact ⟨_, d, fun r _ => if r = 0 then o0 else o1, _, _, o, _, hd, hsrc, h4, hsh⟩
    · obtain ⟨_, he, _⟩ := sample_ran hs h3; simp at he
  · obtain ⟨_, he, _⟩ := sample_ran hs h1; simp at he

/-- The callback of `choose`. -/
def chooseNext : Val → Expr
  | .str "on" => .map (.prop 1 "x") fun b => .list [b]
  | v => .value v

/-- A program whose dependencies depend on a value: if resource 0 shows "on", resource 1 is used. -/
def choose : Expr := .bind (.prop 0 "x") chooseNext

theorem choose_ok : choose.Ok twoHas := by
  refine ⟨⟨.inl rfl, rfl⟩, ?_⟩
  intro v hv
  unfold chooseNext
  split
  · refine ⟨⟨.inr rfl, rfl⟩, ?_⟩
    intro v hv; simp [isData, isDataList, hv]
  · exact hv

theorem choose_no_unsecret : choose.NoUnsecret := by
  refine ⟨trivial, ?_⟩
  intro v
  unfold chooseNext
  split <;> trivial

/-- Non-vacuity of `dependencies_sound` and `secrets_contained`: two runs of `choose` in which resource 0 shows "off" and
the secret resource 1 differs. The result depends on resource 0 only and is not secret. -/
example (dry : Bool) (b b' : String) : ∃ w : View, w = choose.view dry (twoWorld (.str "off") (.str b)) ∧
    w.value = .str "off" ∧ w.secret = false ∧ (∀ r, w.deps r ↔ r = 0) ∧
    (∀ r, w.deps r → ∀ p, twoHas r p → twoWorld (.str "off") (.str b) r p = twoWorld (.str "off") (.str b') r p) ∧
    (∀ r p, twoHas r p → (twoWorld (.str "off") (.str b) r p).secret = false →
      twoWorld (.str "off") (.str b) r p = twoWorld (.str "off") (.str b') r p) ∧
    (∃ roots d src t n o n', Completes roots d ∧
      (∀ r p, twoHas r p → Shows d.futs (src r p) (twoWorld (.str "off") (.str b) r p)) ∧
      Ran d t n (choose.run dry 9 src) (.ok o) n' ∧ Shows d.futs o w) ∧
    (∃ roots d src t n o n', Completes roots d ∧
      (∀ r p, twoHas r p → Shows d.futs (src r p) (twoWorld (.str "off") (.str b') r p)) ∧
      Ran d t n (choose.run dry 9 src) (.ok o) n') := by
  have hdeps : ∀ r, (choose.view dry (twoWorld (.str "off") (.str b))).deps r ↔ r = 0 := by
    intro r
    cases dry <;> simp [choose, Expr.view, thenView, twoWorld, chooseNext, View.after, View.ofPlain, noDeps]
  refine ⟨_, rfl, ?_, ?_, hdeps, ?_, ?_, ?_, ?_⟩
  · cases dry <;> simp [choose, Expr.view, thenView, twoWorld, chooseNext, View.after, View.ofPlain]
  · cases dry <;> simp [choose, Expr.view, thenView, twoWorld, chooseNext, View.after, View.ofPlain]
  · intro r hr p _
    rw [(hdeps r).1 hr]; rfl
  · rintro r p ⟨rfl | rfl, rfl⟩ hs
    · rfl
    · simp [twoWorld] at hs
  · exact (two_runs dry rfl rfl rfl rfl choose_ok (by
      cases dry <;> simp [choose, Expr.need, Expr.view, twoWorld, chooseNext, depth])).2
  · obtain ⟨roots, d, src, t, n, o, n', h1, h2, h3, _⟩ := (two_runs dry (a := .str "off") (b := .str b') rfl rfl rfl rfl choose_ok (by
      cases dry <;> simp [choose, Expr.need, Expr.view, twoWorld, chooseNext, depth])).2
    exact ⟨roots, d, src, t, n, o, n', h1, h2, h3⟩

/-- When resource 0 shows "on", the same program depends on both resources and is secret. -/
example (dry : Bool) (b : String) : (choose.view dry (twoWorld (.str "on") (.str b))).value = .list [.str b] ∧
    (choose.view dry (twoWorld (.str "on") (.str b))).secret = true ∧
    ∀ r, (choose.view dry (twoWorld (.str "on") (.str b))).deps r ↔ r = 0 ∨ r = 1 := by
  refine ⟨?_, ?_, ?_⟩
  · cases dry <;> simp [choose, Expr.view, thenView, twoWorld, chooseNext, View.after, View.ofPlain]
  · cases dry <;> simp [choose, Expr.view, thenView, twoWorld, chooseNext, View.after, View.ofPlain]
  · intro r
    cases dry <;> simp [choose, Expr.view, thenView, twoWorld, chooseNext, View.after, View.ofPlain, noDeps]

/-- Why C125 excludes `unsecret`: it is there to make secrets public. -/
theorem unsecret_reveals (dry : Bool) (b : Val) :
    (Expr.view dry (twoWorld (.str "") b) (.unsecret (.prop 1 "x"))).secret = false ∧
    (Expr.view dry (twoWorld (.str "") b) (.unsecret (.prop 1 "x"))).value = b := ⟨rfl, rfl⟩

end Pulumi.Flow
