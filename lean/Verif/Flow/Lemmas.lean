import Verif.Flow.Spec
import Verif.Output.Aggregates
/-! # Lemmas for C124 and C125 -/
namespace Pulumi.Flow
open Pulumi.Async Pulumi.Output
variable {d : Config} {dry : Bool} {has : Nat → String → Prop}

/-! ## Data -/

theorem isDataList_mem : ∀ {xs : List Val}, isDataList xs = true → ∀ x ∈ xs, isData x = true
  | [], _, x, h => by simp at h
  | y :: ys, h, x, hx => by
    simp only [isDataList, Bool.and_eq_true] at h
    rcases List.mem_cons.1 hx with rfl | hx
    · exact h.1
    · exact isDataList_mem h.2 x hx

theorem isDataList_of : ∀ {xs : List Val}, (∀ x ∈ xs, isData x = true) → isDataList xs = true
  | [], _ => rfl
  | y :: ys, h => by
    simp only [isDataList, Bool.and_eq_true]
    exact ⟨h y (by simp), isDataList_of fun x hx => h x (by simp [hx])⟩

theorem zip_self_mem {α : Type} {xs : List α} {a b : α} (h : (a, b) ∈ xs.zip xs) : a = b := by
  induction xs with
  | nil => simp at h
  | cons x xs ih =>
    simp only [List.zip_cons_cons, List.mem_cons, Prod.mk.injEq] at h
    rcases h with ⟨rfl, rfl⟩ | h
    · rfl
    · exact ih h

theorem unwraps_cast {σ n v w w'} (h : Unwraps dry σ n v w) (he : w = w') : Unwraps dry σ n v w' := he ▸ h

theorem aggregate_plain_list (xs : List Val) : View.aggregate (xs.map .ofPlain) .list = .ofPlain (.list xs) := by
  have hv : (xs.map View.ofPlain).map (·.value) = xs := by
    rw [List.map_map]; exact List.map_id xs
  apply View.ext
  · simp only [View.aggregate, hv]; rfl
  · simp only [View.aggregate, hv]
    show _ = !containsUnknowns (.list xs)
    cases hc : containsUnknowns (.list xs) with
    | true => simp
    | false =>
      simp only [Bool.not_false, Bool.and_true, List.all_eq_true, List.mem_map]
      rintro w ⟨x, hx, rfl⟩
      simp only [containsUnknowns] at hc
      clear hv
      induction xs with
      | nil => simp at hx
      | cons y ys ih =>
        simp only [containsUnknownsList, Bool.or_eq_false_iff] at hc
        rcases List.mem_cons.1 hx with rfl | hx
        · simp [View.ofPlain, hc.1]
        · exact ih hc.2 hx
  · simp [View.aggregate, View.ofPlain]
  · intro r; simp [View.aggregate, View.ofPlain, noDeps]

theorem zip_keys (kvs : List (String × Val)) : (kvs.map (·.1)).zip (kvs.map (·.2)) = kvs := by
  induction kvs with
  | nil => rfl
  | cons p ps ih => simp [ih]

theorem aggregate_plain_dict (kvs : List (String × Val)) :
    View.aggregate (kvs.map fun kv => .ofPlain kv.2) (mkDict (kvs.map (·.1))) = .ofPlain (.dict kvs) := by
  have hv : (kvs.map fun kv => View.ofPlain kv.2).map (·.value) = kvs.map (·.2) := by
    rw [List.map_map]; rfl
  apply View.ext
  · simp only [View.aggregate, hv, mkDict, zip_keys]; rfl
  · simp only [View.aggregate, hv, mkDict, zip_keys]
    show _ = !containsUnknowns (.dict kvs)
    cases hc : containsUnknowns (.dict kvs) with
    | true => simp
    | false =>
      simp only [Bool.not_false, Bool.and_true, List.all_eq_true, List.mem_map]
      rintro w ⟨x, hx, rfl⟩
      simp only [containsUnknowns] at hc
      clear hv
      induction kvs with
      | nil => simp at hx
      | cons y ys ih =>
        obtain ⟨k, y⟩ := y
        simp only [containsUnknownsDict, Bool.or_eq_false_iff] at hc
        rcases List.mem_cons.1 hx with rfl | hx
        · simp [View.ofPlain, hc.1]
        · exact ih hc.2 hx
  · simp [View.aggregate, View.ofPlain]
  · intro r; simp [View.aggregate, View.ofPlain, noDeps]

mutual
/-- Unwrapping data gives the data. -/
theorem unwraps_data {σ : Store} : ∀ (v : Val) (n : Nat), isData v = true → depth v < n → Unwraps dry σ n v (.ofPlain v)
  | .list [], n + 1, _, _ => .prompt trivial
  | .list (x :: xs), n + 1, h, hn => by
    have hm := unwraps_list (σ := σ) (x :: xs) n h (by simp only [depth] at hn; omega)
    refine unwraps_cast (.list (ws := (x :: xs).map .ofPlain) (by simp) ?_) (aggregate_plain_list _)
    intro v w hvw
    obtain ⟨y, hy, rfl⟩ := mem_zip_map hvw
    have := zip_self_mem hy
    subst this
    exact hm _ (List.of_mem_zip hvw).1
  | .dict [], n + 1, _, _ => .prompt trivial
  | .dict (x :: xs), n + 1, h, hn => by
    have hm := unwraps_dict (σ := σ) (x :: xs) n h (by simp only [depth] at hn; omega)
    refine unwraps_cast (.dict (ws := (x :: xs).map fun kv => .ofPlain kv.2) (by simp) ?_) (aggregate_plain_dict _)
    intro k v w hvw
    obtain ⟨y, hy, rfl⟩ := mem_zip_map hvw
    have := zip_self_mem hy
    subst this
    exact hm _ (List.of_mem_zip hvw).1
  | .none, n + 1, _, _ => .prompt trivial
  | .bool _, n + 1, _, _ => .prompt trivial
  | .int _, n + 1, _, _ => .prompt trivial
  | .str _, n + 1, _, _ => .prompt trivial
  | .unknown, n + 1, _, _ => .prompt trivial
  | .resource _, n + 1, _, _ => .prompt trivial
  | .resSet _, n + 1, _, _ => .prompt trivial
  | .input .., _, h, _ => by simp [isData] at h
  | .fut _, _, h, _ => by simp [isData] at h
  | .out _, _, h, _ => by simp [isData] at h
  | _, 0, _, hn => by omega
theorem unwraps_list {σ : Store} : ∀ (xs : List Val) (n : Nat), isDataList xs = true → depthList xs < n →
    ∀ x ∈ xs, Unwraps dry σ n x (.ofPlain x)
  | [], _, _, _, x, hx => by simp at hx
  | y :: ys, n, h, hn, x, hx => by
    simp only [isDataList, Bool.and_eq_true] at h
    simp only [depthList] at hn
    rcases List.mem_cons.1 hx with hx | hx
    · rw [hx]; exact unwraps_data y n h.1 (by omega)
    · exact unwraps_list ys n h.2 (by omega) x hx
theorem unwraps_dict {σ : Store} : ∀ (xs : List (String × Val)) (n : Nat), isDataDict xs = true → depthDict xs < n →
    ∀ x ∈ xs, Unwraps dry σ n x.2 (.ofPlain x.2)
  | [], _, _, _, x, hx => by simp at hx
  | (k, y) :: ys, n, h, hn, x, hx => by
    simp only [isDataDict, Bool.and_eq_true] at h
    simp only [depthDict] at hn
    rcases List.mem_cons.1 hx with hx | hx
    · rw [hx]; exact unwraps_data y n h.1 (by omega)
    · exact unwraps_dict ys n h.2 (by omega) x hx
end

/-! ## Views -/

/-- A known view has no unknown inside; its value is data. -/
structure Good (w : View) : Prop where
  data : isData w.value = true
  known : w.known = true → containsUnknowns w.value = false

theorem good_plain {v : Val} (h : isData v = true) : Good (.ofPlain v) := ⟨h, by simp [View.ofPlain]⟩

theorem good_after {w w' : View} (h : Good w') : Good (w.after w') := ⟨h.data, by simp [View.after]⟩

theorem good_then {w : View} {next : Val → View} (h : Good (next w.value)) : Good (thenView dry w next) := by
  unfold thenView
  split
  · exact ⟨rfl, by simp⟩
  · exact good_after h

theorem marked_data {w : View} (h : Good w) : isData (marked dry w) = true := by
  unfold marked
  split
  · rfl
  · exact h.data

theorem good_member {w : View} (h : Good w) : Good (memberView dry w) := ⟨marked_data h, by simp [memberView]⟩

theorem good_list {ws : List View} (h : ∀ w ∈ ws, Good w) : Good (.aggregate ws .list) := by
  refine ⟨?_, by simp [View.aggregate]⟩
  show isDataList _ = true
  apply isDataList_of
  intro x hx
  obtain ⟨w, hw, rfl⟩ := List.mem_map.1 hx
  exact (h w hw).data

mutual
theorem view_good {world : World} (hw : world.Ok has) : ∀ e : Expr, e.Ok has → Good (e.view dry world)
  | .value v, h => good_plain h
  | .prop r p, h => ⟨hw.data r p h, hw.known r p h⟩
  | .map e f, h => good_then (good_plain (h.2 _ (view_good hw e h.1).data))
  | .bind e f, h => good_then (view_good hw (f _) (h.2 _ (view_good hw e h.1).data))
  | .all es, h => by
    refine good_list ?_
    intro w hm
    obtain ⟨w', hw', rfl⟩ := List.mem_map.1 hm
    exact good_member (viewList_good hw es h w' hw')
  | .item e get, h => by
    refine good_after (good_plain ?_)
    have hg := view_good hw e h.1
    have hd := marked_data (dry := dry) hg
    generalize marked dry (e.view dry world) = v at hd ⊢
    cases v <;> first | rfl | exact h.2 _ hd
  | .secret e, h => ⟨(good_member (view_good hw e h)).data, (good_member (view_good hw e h)).known⟩
  | .unsecret e, h => ⟨(view_good hw e h).data, (view_good hw e h).known⟩
theorem viewList_good {world : World} (hw : world.Ok has) : ∀ es : List Expr, Expr.Ok.okList has es →
    ∀ w ∈ Expr.viewList dry world es, Good w
  | [], _, w, h => by simp [Expr.viewList] at h
  | e :: es, h, w, hm => by
    simp only [Expr.viewList, List.mem_cons] at hm
    rcases hm with hm | hm
    · rw [hm]; exact view_good hw e h.1
    · exact viewList_good hw es h.2 w hm
end

theorem marked_depth (w : View) : depth (marked dry w) ≤ depth w.value := by
  unfold marked
  split
  · simp [depth]
  · exact Nat.le_refl _

/-- An output passed through `from_input`. -/
theorem unwraps_member {σ : Store} {o : OutRef} {w : View} {n : Nat} (h : Shows σ o w) (hg : Good w)
    (hn : depth w.value + 2 ≤ n) : Unwraps dry σ n (.out o) (memberView dry w) := by
  obtain ⟨m, rfl⟩ : ∃ m, n = m + 1 := ⟨n - 1, by omega⟩
  have hu : Unwraps dry σ m (marked dry w) (.ofPlain (marked dry w)) :=
    unwraps_data _ _ (marked_data hg) (by have := marked_depth (dry := dry) w; omega)
  refine unwraps_cast (.output h hu) ?_
  apply View.ext <;> simp [View.after, View.ofPlain, memberView, noDeps, marked]

theorem member_all2 {σ : Store} {fuel : Nat} {os : List OutRef} {ws : List View} (h : All2 (Shows σ) os ws) (hg : ∀ w ∈ ws, Good w)
    (hn : ∀ w ∈ ws, depth w.value + 2 ≤ fuel) :
    All2 (fun v w => Unwraps dry σ fuel v w) (os.map .out) (ws.map (memberView dry)) := by
  induction h with
  | nil => exact .nil
  | cons h _ ih =>
    exact .cons (unwraps_member h (hg _ (by simp)) (hn _ (by simp)))
      (ih (fun w hw => hg w (by simp [hw])) fun w hw => hn w (by simp [hw]))

theorem needList_depth {world : World} : ∀ (es : List Expr) (w : View), w ∈ Expr.viewList dry world es →
    depth w.value + 2 ≤ Expr.needList dry world es
  | [], w, h => by simp [Expr.viewList] at h
  | e :: es, w, h => by
    simp only [Expr.viewList, List.mem_cons] at h
    simp only [Expr.needList]
    rcases h with rfl | h
    · omega
    · have := needList_depth es w h
      omega

theorem data_plain {v : Val} (h : isData v = true) : Plain v := by
  cases v <;> first | trivial | exact absurd h (by simp [isData])

theorem unsecret_no_raise {o t n r n'} (h : Ran d t n (Output.unsecret o) r n') : ∃ out, r = .ok out := by
  unfold Output.unsecret at h
  rcases h.bind with ⟨f, m, h1, h2⟩ | ⟨e, h1, _⟩
  · exact mkOutput_no_raise' h2
  · obtain ⟨_, h⟩ := resolved_no_raise' h1; simp at h

theorem secretOf {roots o w fuel t n r n'} (hd : Completes roots d) (ho : Shows d.futs o w) (hg : Good w)
    (hf : depth w.value + 2 ≤ fuel)
    (h : Ran d t n (Output.secret dry fuel (.out o)) r n') :
    ∃ out, r = .ok out ∧ Shows d.futs out { memberView dry w with secret := true } := by
  have hs := settled_of_completes hd
  have hu := unwraps_member (dry := dry) ho hg hf
  have hr : ∃ out, r = .ok out := by
    unfold Output.secret at h
    rcases h.bind with ⟨f, m, h1, h2⟩ | ⟨e, h1, _⟩
    · rcases h2.bind with ⟨f, m, h1, h2⟩ | ⟨e, h1, _⟩
      · exact mkOutput_no_raise' h2
      · obtain ⟨_, h⟩ := resolved_no_raise' h1; simp at h
    · obtain ⟨_, h, _⟩ := fromInput_shows hs _ _ _ _ hu (Nat.le_refl _) _ _ _ _ h1; simp at h
  obtain ⟨out, rfl⟩ := hr
  obtain ⟨_, o', m, h1, _, _, h4⟩ := secret_spec hd h
  obtain ⟨_, he, hsh⟩ := fromInput_shows hs _ _ _ _ hu (Nat.le_refl _) _ _ _ _ h1
  cases he
  refine ⟨out, rfl, h4 _ ?_ hsh⟩
  intro hk
  rw [← containsUnknowns_iff]
  simp [(good_member (dry := dry) hg).known hk]

theorem unsecretOf {roots o w t n r n'} (hd : Completes roots d) (ho : Shows d.futs o w) (hg : Good w)
    (h : Ran d t n (Output.unsecret o) r n') : ∃ out, r = .ok out ∧ Shows d.futs out { w with secret := false } := by
  have hs := settled_of_completes hd
  obtain ⟨out, rfl⟩ := unsecret_no_raise h
  refine ⟨out, rfl, ?_⟩
  obtain ⟨fs, m', h2, h⟩ := h.bind_ok
  have h2 := resolved_ran hs h2
  obtain ⟨e1, e2, e3, u, e4, hu⟩ := mkOutput_ran h
  refine ⟨by rw [e2]; exact ho.value, ?_, by rw [e3, h2], by rw [e1]; exact ho.deps⟩
  rw [e4, isValueKnown_res hs hu, ho.known, ho.value]
  cases hwk : w.known with
  | false => simp [truthy]
  | true => simp [truthy, hg.known hwk]

theorem lifted_shows {o w t n r n'} {get : Val → Val} (hs : Settled d) (ho : Shows d.futs o w) (hg : Good w)
    (hget : ∀ v, isData v = true → isData (get v) = true)
    (h : Ran d t n (lifted dry o fun v => .ok (get v)) r n') :
    ∃ out, r = .ok out ∧ Shows d.futs out (w.after (.ofPlain (match marked dry w with
      | .unknown => .unknown
      | v => get v))) := by
  unfold lifted at h
  obtain ⟨out, rfl⟩ := apply_no_raise' h
  refine ⟨out, rfl, apply_shows hs h ho (.inr (.inr rfl)) ?_⟩
  intro r m' hr
  have hm : callbackArg dry w = marked dry w := rfl
  rw [hm] at hr
  have hd := marked_data (dry := dry) hg
  generalize marked dry w = v at hr hd ⊢
  have key : ∀ x : Val, Plain x → Ran d (.child t n) 0 (Sync.pure x) r m' → ∃ y, r = .ok y ∧ Yields d.futs y (.ofPlain x) := by
    intro x hx hr; cases hr; exact ⟨x, rfl, .plain hx⟩
  cases v <;> first | exact key _ trivial hr | exact key _ (data_plain (hget _ hd)) hr

mutual
/-- The code of an expression shows what the expression means. -/
theorem run_shows {roots} (hd : Completes roots d) {fuel : Nat} {src : Nat → String → OutRef} {world : World} (hw : world.Ok has)
    (hsrc : ∀ r p, has r p → Shows d.futs (src r p) (world r p)) :
    ∀ e : Expr, e.Ok has → e.need dry world ≤ fuel → ∀ t n r n', Ran d t n (e.run dry fuel src) r n' →
      ∃ o, r = .ok o ∧ Shows d.futs o (e.view dry world)
  | .value v, hok, hf, t, n, r, n', h => by
    simp only [Expr.need] at hf
    exact fromInput_shows (settled_of_completes hd) _ _ _ _ (unwraps_data v (depth v + 1) hok (by omega)) hf _ _ _ _ h
  | .prop r p, hok, _, t, n, _, n', h => by
    cases h; exact ⟨_, rfl, hsrc r p hok⟩
  | .map e f, hok, hf, t, n, r, n', h => by
    have hs := settled_of_completes hd
    rcases Ran.bind h with ⟨o, m, h1, h2⟩ | ⟨x, h1, _⟩
    · obtain ⟨_, ho, hsh⟩ := run_shows hd hw hsrc e hok.1 hf _ _ _ _ h1
      cases ho
      obtain ⟨out, rfl⟩ := apply_no_raise' h2
      refine ⟨out, rfl, ?_⟩
      have hp := data_plain (hok.2 _ (view_good (dry := dry) hw e hok.1).data)
      exact apply_applied hs h2 hsh fun _ t n r n' hr => by cases hr; exact ⟨_, rfl, .plain hp⟩
    · obtain ⟨_, ho, _⟩ := run_shows hd hw hsrc e hok.1 hf _ _ _ _ h1
      simp at ho
  | .bind e f, hok, hf, t, n, r, n', h => by
    have hs := settled_of_completes hd
    simp only [Expr.need] at hf
    rcases Ran.bind h with ⟨o, m, h1, h2⟩ | ⟨x, h1, _⟩
    · obtain ⟨_, ho, hsh⟩ := run_shows hd hw hsrc e hok.1 (by omega) _ _ _ _ h1
      cases ho
      obtain ⟨out, rfl⟩ := apply_no_raise' h2
      refine ⟨out, rfl, ?_⟩
      refine apply_applied hs h2 hsh fun _ => returning_denotes (f := fun v => (f v).run dry fuel src) ?_
      intro t n r n' hr
      exact run_shows hd hw hsrc (f _) (hok.2 _ (view_good hw e hok.1).data) (by omega) _ _ _ _ hr
    · obtain ⟨_, ho, _⟩ := run_shows hd hw hsrc e hok.1 (by omega) _ _ _ _ h1
      simp at ho
  | .all es, hok, hf, t, n, r, n', h => by
    rcases Ran.bind h with ⟨os, m, h1, h2⟩ | ⟨x, h1, _⟩
    · obtain ⟨_, ho, hsh⟩ := runList_shows hd hw hsrc es hok hf _ _ _ _ h1
      cases ho
      have hgood := viewList_good (dry := dry) hw es hok
      have hmem := member_all2 (dry := dry) (fuel := fuel) hsh hgood fun w hw' => by
        have := needList_depth (dry := dry) (world := world) es w hw'
        simp only [Expr.need] at hf; omega
      obtain ⟨out, w, rfl, hsh', hv, hk, hsec, hdeps⟩ := all_args hd h2 hmem (Nat.le_refl _)
      refine ⟨out, rfl, ?_⟩
      have he : w = Expr.view dry world (.all es) := by
        apply View.ext
        · exact hv
        · rw [Bool.eq_iff_iff, hk]
          refine (aggregate_list_known ?_).symm
          intro w hw'
          obtain ⟨w', hw'', rfl⟩ := List.mem_map.1 hw'
          exact (good_member (dry := dry) (hgood w' hw'')).known
        · rw [Bool.eq_iff_iff, hsec]; simp [Expr.view, View.aggregate]
        · exact hdeps
      rwa [he] at hsh'
    · obtain ⟨_, ho, _⟩ := runList_shows hd hw hsrc es hok hf _ _ _ _ h1
      simp at ho
  | .item e get, hok, hf, t, n, r, n', h => by
    have hs := settled_of_completes hd
    rcases Ran.bind h with ⟨o, m, h1, h2⟩ | ⟨x, h1, _⟩
    · obtain ⟨_, ho, hsh⟩ := run_shows hd hw hsrc e hok.1 hf _ _ _ _ h1
      cases ho
      exact lifted_shows hs hsh (view_good hw e hok.1) hok.2 h2
    · obtain ⟨_, ho, _⟩ := run_shows hd hw hsrc e hok.1 hf _ _ _ _ h1
      simp at ho
  | .secret e, hok, hf, t, n, r, n', h => by
    simp only [Expr.need] at hf
    rcases Ran.bind h with ⟨o, m, h1, h2⟩ | ⟨x, h1, _⟩
    · obtain ⟨_, ho, hsh⟩ := run_shows hd hw hsrc e hok (by omega) _ _ _ _ h1
      cases ho
      exact secretOf hd hsh (view_good hw e hok) (by omega) h2
    · obtain ⟨_, ho, _⟩ := run_shows hd hw hsrc e hok (by omega) _ _ _ _ h1
      simp at ho
  | .unsecret e, hok, hf, t, n, r, n', h => by
    rcases Ran.bind h with ⟨o, m, h1, h2⟩ | ⟨x, h1, _⟩
    · obtain ⟨_, ho, hsh⟩ := run_shows hd hw hsrc e hok hf _ _ _ _ h1
      cases ho
      exact unsecretOf hd hsh (view_good hw e hok) h2
    · obtain ⟨_, ho, _⟩ := run_shows hd hw hsrc e hok hf _ _ _ _ h1
      simp at ho
theorem runList_shows {roots} (hd : Completes roots d) {fuel : Nat} {src : Nat → String → OutRef} {world : World} (hw : world.Ok has)
    (hsrc : ∀ r p, has r p → Shows d.futs (src r p) (world r p)) :
    ∀ es : List Expr, Expr.Ok.okList has es → Expr.needList dry world es ≤ fuel → ∀ t n r n',
      Ran d t n (Expr.runList dry fuel src es) r n' →
      ∃ os, r = .ok os ∧ All2 (Shows d.futs) os (Expr.viewList dry world es)
  | [], _, _, t, n, r, n', h => by cases h; exact ⟨_, rfl, .nil⟩
  | e :: es, hok, hf, t, n, r, n', h => by
    simp only [Expr.needList] at hf
    rcases Ran.bind h with ⟨o, m, h1, h2⟩ | ⟨x, h1, _⟩
    · obtain ⟨_, ho, hsh⟩ := run_shows hd hw hsrc e hok.1 (by omega) _ _ _ _ h1
      cases ho
      rcases Ran.bind h2 with ⟨os, m', h3, h4⟩ | ⟨x, h3, _⟩
      · obtain ⟨_, ho, hall⟩ := runList_shows hd hw hsrc es hok.2 (by omega) _ _ _ _ h3
        cases ho
        cases h4
        exact ⟨_, rfl, .cons hsh hall⟩
      · obtain ⟨_, ho, _⟩ := runList_shows hd hw hsrc es hok.2 (by omega) _ _ _ _ h3
        simp at ho
    · obtain ⟨_, ho, _⟩ := run_shows hd hw hsrc e hok.1 (by omega) _ _ _ _ h1
      simp at ho
end

end Pulumi.Flow
