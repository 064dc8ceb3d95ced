import Verif.Output.Theorems
/-! Lemmas about `Output.all` and `Output.from_input`. -/
namespace Pulumi.Output
open Pulumi.Async
variable {d : Config}

theorem All2.length {α β : Type} {R : α → β → Prop} {as bs} (h : All2 R as bs) : as.length = bs.length := by
  induction h with
  | nil => rfl
  | cons _ _ ih => simp [ih]

theorem All2.imp {α β : Type} {R S : α → β → Prop} {as bs} (h : All2 R as bs) (hi : ∀ a b, R a b → S a b) : All2 S as bs := by
  induction h with
  | nil => exact .nil
  | cons h _ ih => exact .cons (hi _ _ h) ih

theorem All2.of_zip {α β : Type} {R : α → β → Prop} : ∀ {as : List α} {bs : List β}, as.length = bs.length →
    (∀ a b, (a, b) ∈ as.zip bs → R a b) → All2 R as bs
  | [], [], _, _ => .nil
  | a :: as, b :: bs, hl, h => .cons (h a b (by simp)) (.of_zip (by simpa using hl) fun a' b' hm => h a' b' (by simp [hm]))
  | [], _ :: _, hl, _ => by simp at hl
  | _ :: _, [], hl, _ => by simp at hl

/-- All members show the given views. -/
abbrev ShowsAll (σ : Store) (os : List OutRef) (ws : List View) : Prop := All2 (Shows σ) os ws

theorem gather_values {σ : Store} {os : List OutRef} {ws : List View} (g : OutRef → FutId) (p : View → Val)
    (hg : ∀ o w, Shows σ o w → σ (g o) = some (.ok (p w))) (h : ShowsAll σ os ws) :
    gatherRes σ (os.map g) = some (.ok (.list (ws.map p))) := by
  rw [gatherRes_ok]
  refine ⟨_, rfl, ?_⟩
  induction h with
  | nil => rfl
  | cons h _ ih => simp only [List.map_cons, List.cons.injEq]; exact ⟨hg _ _ h, ih⟩

theorem gather_resources {σ : Store} {os : List OutRef} {ws : List View} (h : ShowsAll σ os ws) :
    ∃ vs ids, gatherRes σ (os.map (·.resources)) = some (.ok (.list vs)) ∧ unionAll vs = some ids ∧
      ∀ r, r ∈ ids ↔ ∃ w ∈ ws, w.deps r := by
  induction h with
  | nil => exact ⟨[], [], rfl, rfl, by simp⟩
  | cons h _ ih =>
    obtain ⟨vs, ids, h1, h2, h3⟩ := ih
    obtain ⟨ids', h4, h5⟩ := h.deps
    refine ⟨.resSet ids' :: vs, ids' ++ ids, ?_, ?_, ?_⟩
    · simp [gatherRes, h4, h1]
    · simp [unionAll, h2]
    · intro r
      rw [List.mem_append, h5, h3]
      simp

theorem spawnValues_eval {σ : Store} {t : TaskId} (os : List OutRef) (k : List FutId → Prog) (o : Outcome) :
    ∃ fs xs n', eval σ t (spawnValues os k) o = eval σ t (k fs) { o with children := n', spawned := o.spawned ++ xs } ∧
      All2 (fun o f => ∃ u, f = .result u ∧ (u, getValue o true) ∈ xs) os fs := by
  induction os generalizing o k with
  | nil => exact ⟨[], [], o.children, by simp [spawnValues], .nil⟩
  | cons a os ih =>
    obtain ⟨fs, xs, n', h1, h2⟩ := ih (fun fs => k (.result (.child t o.children) :: fs))
      { o with children := o.children + 1, spawned := o.spawned ++ [(.child t o.children, getValue a true)] }
    refine ⟨.result (.child t o.children) :: fs, (.child t o.children, getValue a true) :: xs, n', ?_, ?_⟩
    · simp only [spawnValues, eval]
      rw [h1]; simp
    · refine .cons ⟨_, rfl, by simp⟩ (h2.imp ?_)
      rintro o f ⟨u, rfl, hm⟩
      exact ⟨u, rfl, by simp [hm]⟩

theorem gatherValues_res (hs : Settled d) {t os wrap ws} (h : Has d t (gatherValues os wrap)) (hw : ShowsAll d.futs os ws) :
    d.futs (.result t) = some (.ok (wrap (ws.map (·.value)))) := by
  rw [hs.res h]
  obtain ⟨fs, xs, n', h1, h2⟩ := spawnValues_eval (σ := d.futs) (t := t) os
    (fun fs => .gather fs (wrapResult wrap)) Outcome.init
  have hch : ∀ c q, (c, q) ∈ xs → Has d c q := by
    intro c q hm
    apply hs.child h
    show _ ∈ (eval d.futs t (spawnValues os _) Outcome.init).spawned
    rw [h1]
    obtain ⟨ys, hy⟩ := eval_spawned (σ := d.futs) (t := t) (.gather fs (wrapResult wrap)) { Outcome.init with children := n', spawned := Outcome.init.spawned ++ xs }
    rw [hy]; simp [hm]
  have hg : gatherRes d.futs fs = some (.ok (.list (ws.map (·.value)))) := by
    rw [gatherRes_ok]
    refine ⟨_, rfl, ?_⟩
    clear h h1
    induction hw generalizing fs with
    | nil => cases h2; rfl
    | cons hw _ ih =>
      cases h2 with
      | cons hf h2 =>
        obtain ⟨u, rfl, hm⟩ := hf
        simp only [List.map_cons, List.cons.injEq]
        refine ⟨?_, ih _ h2⟩
        rw [getValue_res hs (hch _ _ hm), hw.value]; simp
  show (eval d.futs t (spawnValues os _) Outcome.init).result = _
  rw [h1]
  simp only [eval, hg, wrapResult, asList]

theorem combine_shows (hs : Settled d) {t n n' os wrap out ws} (h : Ran d t n (combine os wrap) (.ok out) n')
    (hw : ShowsAll d.futs os ws) : Shows d.futs out (.aggregate ws wrap) := by
  unfold combine at h
  obtain ⟨hv, h⟩ := h.spawn_ok
  obtain ⟨hr, h⟩ := h.spawn_ok
  obtain ⟨hk, h⟩ := h.spawn_ok
  obtain ⟨hsec, h⟩ := h.spawn_ok
  obtain ⟨e1, e2, e3, u, e4, hu⟩ := mkOutput_ran h
  have hval := gatherValues_res hs hv hw
  have hkn : d.futs (.result (.child t (n + 1 + 1))) = some (.ok (.bool (ws.all (·.known)))) := by
    rw [hs.res hk]
    simp only [allKnown, eval, gather_values (·.known) (fun w => .bool w.known) (fun o w h => h.known) hw]
    simp only [asList, List.all_map]
    rfl
  refine ⟨?_, ?_, ?_, ?_⟩
  · rw [e2, hval]; rfl
  · rw [e4, isValueKnown_res hs hu, hval, hkn]
    cases hb : ws.all (·.known) <;> simp [truthy, View.aggregate, hb]
  · rw [e3, hs.res hsec]
    simp only [anySecret, eval, gather_values (·.secret) (fun w => .bool w.secret) (fun o w h => h.secret) hw]
    simp only [asList, List.any_map]
    rfl
  · obtain ⟨vs, ids, h1, h2, h3⟩ := gather_resources hw
    refine ⟨ids, ?_, h3⟩
    rw [e1, hs.res hr]
    simp only [allResources, eval, h1, asList, h2]

theorem mapS_ran {α β : Type} {t n n'} {f : α → Sync β} {xs : List α} {ys : List β}
    (h : Ran d t n (mapS f xs) (.ok ys) n') : All2 (fun x y => ∃ m m', Ran d t m (f x) (.ok y) m') xs ys := by
  induction xs generalizing ys n n' with
  | nil => obtain ⟨rfl, _⟩ := h.pure_ok; exact .nil
  | cons x xs ih =>
    obtain ⟨y, m, h1, h2⟩ := h.bind_ok
    obtain ⟨zs, m', h3, h4⟩ := h2.bind_ok
    obtain ⟨rfl, _⟩ := h4.pure_ok
    exact .cons ⟨_, _, h1⟩ (ih h3)

/-- Join two pointwise relations. -/
theorem All2.join {α β γ : Type} {R : α → β → Prop} {S : α → γ → Prop} {U : β → γ → Prop} {as bs cs}
    (h1 : All2 R as bs) (h2 : All2 S as cs) (hi : ∀ a b c, R a b → S a c → U b c) : All2 U bs cs := by
  induction h1 generalizing cs with
  | nil => cases h2; exact .nil
  | cons h _ ih =>
    cases h2 with
    | cons h' h2 => exact .cons (hi _ _ _ h h') (ih h2)

theorem plainOutput_shows (hs : Settled d) {t n n' v out}
    (h : Ran d t n ((resolved (.bool true)).bind fun fk => (resolved (.bool false)).bind fun fs =>
      (resolved v).bind fun fv => (resolved (.resSet [])).bind fun fr => mkOutput fr fv fk fs) (.ok out) n') :
    Shows d.futs out (.ofPlain v) := by
  obtain ⟨fk, _, h1, h⟩ := h.bind_ok
  obtain ⟨fs, _, h2, h⟩ := h.bind_ok
  obtain ⟨fv, _, h3, h⟩ := h.bind_ok
  obtain ⟨fr, _, h4, h⟩ := h.bind_ok
  have h1 := resolved_ran hs h1
  have h2 := resolved_ran hs h2
  have h3 := resolved_ran hs h3
  have h4 := resolved_ran hs h4
  obtain ⟨e1, e2, e3, u, e4, hu⟩ := mkOutput_ran h
  refine ⟨by rw [e2, h3]; rfl, ?_, by rw [e3, h2]; rfl, [], by rw [e1, h4], by simp [View.ofPlain, noDeps]⟩
  rw [e4, isValueKnown_res hs hu, h1, h3]
  simp [truthy, View.ofPlain]

theorem futOutput_shows (hs : Settled d) {t n n' f v out} (hf : d.futs f = some (.ok v))
    (h : Ran d t n ((resolved (.bool true)).bind fun fk => (resolved (.bool false)).bind fun fs =>
      (resolved (.resSet [])).bind fun fr => mkOutput fr f fk fs) (.ok out) n') :
    Shows d.futs out (.ofPlain v) := by
  obtain ⟨fk, _, h1, h⟩ := h.bind_ok
  obtain ⟨fs, _, h2, h⟩ := h.bind_ok
  obtain ⟨fr, _, h4, h⟩ := h.bind_ok
  have h1 := resolved_ran hs h1
  have h2 := resolved_ran hs h2
  have h4 := resolved_ran hs h4
  obtain ⟨e1, e2, e3, u, e4, hu⟩ := mkOutput_ran h
  refine ⟨by rw [e2, hf]; rfl, ?_, by rw [e3, h2]; rfl, [], by rw [e1, h4], by simp [View.ofPlain, noDeps]⟩
  rw [e4, isValueKnown_res hs hu, h1, hf]
  simp [truthy, View.ofPlain]

/-- `apply` of a callback that denotes `w'` on the argument it is given. -/
theorem apply_shows (hs : Settled d) {t n n' dry o f rwu out w w'}
    (h : Ran d t n (apply dry o f rwu) (.ok out) n') (ho : Shows d.futs o w)
    (hrun : dry = false ∨ w.known = true ∨ rwu = true)
    (hf : ∀ r m', Ran d (.child t n) 0 (f (callbackArg dry w)) r m' → ∃ x, r = .ok x ∧ Yields d.futs x w') :
    Shows d.futs out (w.after w') := by
  obtain ⟨_, r, m', h2, h3, _⟩ := apply_invoked hs h ho hrun
  obtain ⟨x, hx, hy⟩ := hf _ _ h2
  exact h3 x w' hx hy

/-- Synchronous code that does not raise. -/
theorem mapS_ok {α β : Type} {t n} {f : α → Sync β} {xs : List α} {r n'}
    (hf : ∀ x ∈ xs, ∀ m r m', Ran d t m (f x) r m' → ∃ y, r = .ok y)
    (h : Ran d t n (mapS f xs) r n') : ∃ ys, r = .ok ys := by
  induction xs generalizing n r n' with
  | nil => cases h; exact ⟨_, rfl⟩
  | cons x xs ih =>
    rcases h.bind with ⟨y, m, h1, h2⟩ | ⟨e, h1, _⟩
    · rcases h2.bind with ⟨ys, m', h3, h4⟩ | ⟨e, h3, _⟩
      · cases h4; exact ⟨_, rfl⟩
      · obtain ⟨_, h⟩ := ih (fun x hx => hf x (by simp [hx])) h3; simp at h
    · obtain ⟨_, h⟩ := hf x (by simp) _ _ _ h1; simp at h

theorem apply_no_raise {t n dry o f rwu r n'} (h : Ran d t n (apply dry o f rwu) r n') : ∃ out, r = .ok out := by
  cases h with
  | spawn _ h => cases h with
    | spawn _ h => cases h; exact ⟨_, rfl⟩

theorem combine_no_raise {t n os wrap r n'} (h : Ran d t n (combine os wrap) r n') : ∃ out, r = .ok out := by
  cases h with
  | spawn _ h => cases h with
    | spawn _ h => cases h with
      | spawn _ h => cases h with
        | spawn _ h => cases h with
          | spawn _ h => cases h; exact ⟨_, rfl⟩

theorem resolved_no_raise {t n v r n'} (h : Ran d t n (resolved v) r n') : ∃ f, r = .ok f := by
  cases h with
  | spawn _ h => cases h; exact ⟨_, rfl⟩

theorem mkOutput_no_raise {t n a b c e r n'} (h : Ran d t n (mkOutput a b c e) r n') : ∃ f, r = .ok f := by
  cases h with
  | spawn _ h => cases h; exact ⟨_, rfl⟩

theorem bind_no_raise {α β : Type} {t n} {s : Sync α} {f : α → Sync β} {r n'}
    (h : Ran d t n (s.bind f) r n') (h1 : ∀ r m, Ran d t n s r m → ∃ a, r = .ok a)
    (h2 : ∀ a m r m', Ran d t m (f a) r m' → ∃ b, r = .ok b) : ∃ b, r = .ok b := by
  rcases h.bind with ⟨a, m, _, h4⟩ | ⟨e, h3, _⟩
  · exact h2 _ _ _ _ h4
  · obtain ⟨_, h⟩ := h1 _ _ h3; simp at h

theorem All2.mem_left {α β : Type} {R : α → β → Prop} {as bs} (h : All2 R as bs) {a} (ha : a ∈ as) : ∃ b, R a b := by
  induction h with
  | nil => simp at ha
  | cons h _ ih =>
    rcases List.mem_cons.1 ha with rfl | ha
    · exact ⟨_, h⟩
    · exact ih ha

theorem all2_map_fst {R : Val → View → Prop} {kvs : List (String × Val)} {ws} (h : All2 (fun p w => R p.2 w) kvs ws) :
    (kvs.map (·.1)).length = (ws.map (·.value)).length := by
  simp [h.length]

/-- `from_input` does not raise on values nested less deeply than `fuel`, and the output it returns shows the deeply
unwrapped value. -/
theorem fromInput_shows (hs : Settled d) {dry} : ∀ fuel v w n0, Unwraps dry d.futs n0 v w → n0 ≤ fuel →
    ∀ t n r n', Ran d t n (fromInput dry fuel v) r n' → ∃ out, r = .ok out ∧ Shows d.futs out w := by
  intro fuel
  induction fuel with
  | zero =>
    intro v w n0 hu hle
    have : n0 = 0 := by omega
    subst this; cases hu
  | succ fuel ih =>
    intro v w n0 hu hle t n r n' h
    -- members of a container
    have members : ∀ {α : Type} (p : α → Val) (xs : List α) (ws : List View) (n1 : Nat), n1 ≤ fuel →
        All2 (fun x w => Unwraps dry d.futs n1 (p x) w) xs ws →
        ∀ t n r n', Ran d t n (mapS (fun x => fromInput dry fuel (p x)) xs) r n' →
          ∃ os, r = .ok os ∧ ShowsAll d.futs os ws := by
      intro α p xs ws n1 hn1 hall t n r n' h
      obtain ⟨os, rfl⟩ := mapS_ok (by
        intro x hx m r m' hr
        obtain ⟨w, hw⟩ := hall.mem_left hx
        obtain ⟨out, h, _⟩ := ih _ _ _ hw hn1 _ _ _ _ hr
        exact ⟨out, h⟩) h
      refine ⟨os, rfl, ?_⟩
      refine (mapS_ran h).join hall ?_
      rintro x o w ⟨m, m', hr⟩ hw
      obtain ⟨out, ho, hsh⟩ := ih _ _ _ hw hn1 _ _ _ _ hr
      cases ho; exact hsh
    -- the recursive callback
    have callback : ∀ v w n1, n1 ≤ fuel → Unwraps dry d.futs n1 v w → ∀ t n r n',
        Ran d t n ((fromInput dry fuel v).bind fun r => .pure (.out r)) r n' →
        ∃ x, r = .ok x ∧ Yields d.futs x w := by
      intro v w n1 hn1 hw t n r n' h
      rcases h.bind with ⟨o, m, h1, h2⟩ | ⟨e, h1, _⟩
      · obtain ⟨out, ho, hsh⟩ := ih _ _ _ hw hn1 _ _ _ _ h1
        cases ho; cases h2
        exact ⟨_, rfl, .output hsh⟩
      · obtain ⟨out, ho, _⟩ := ih _ _ _ hw hn1 _ _ _ _ h1
        simp at ho
    cases hu with
    | prompt hp =>
      have hdef : fromInput dry (fuel + 1) v = (resolved (.bool true)).bind fun fk => (resolved (.bool false)).bind fun fs =>
          (resolved v).bind fun fv => (resolved (.resSet [])).bind fun fr => mkOutput fr fv fk fs := by
        cases v with
        | list xs => cases xs with
          | nil => rfl
          | cons => simp [Prompt] at hp
        | dict xs => cases xs with
          | nil => rfl
          | cons => simp [Prompt] at hp
        | out | fut | input => simp [Prompt] at hp
        | _ => rfl
      rw [hdef] at h
      have : ∃ out, r = .ok out := bind_no_raise h (fun _ _ h => resolved_no_raise h) fun _ _ _ _ h =>
        bind_no_raise h (fun _ _ h => resolved_no_raise h) fun _ _ _ _ h =>
        bind_no_raise h (fun _ _ h => resolved_no_raise h) fun _ _ _ _ h =>
        bind_no_raise h (fun _ _ h => resolved_no_raise h) fun _ _ _ _ h => mkOutput_no_raise h
      obtain ⟨out, rfl⟩ := this
      exact ⟨out, rfl, plainOutput_shows hs h⟩
    | awaitable hf hw =>
      rename_i n1 f v w
      simp only [fromInput] at h
      have hdef : Ran d t n (((resolved (.bool true)).bind fun fk => (resolved (.bool false)).bind fun fs =>
        (resolved (.resSet [])).bind fun fr => mkOutput fr f fk fs).bind fun o =>
          apply dry o (fun v => (fromInput dry fuel v).bind fun r => .pure (.out r)) true) r n' := h
      rcases hdef.bind with ⟨o, m, h1, h2⟩ | ⟨e, h1, _⟩
      · obtain ⟨out, rfl⟩ := apply_no_raise h2
        have ho := futOutput_shows hs hf h1
        refine ⟨out, rfl, apply_shows hs h2 ho (.inr (.inr rfl)) ?_⟩
        intro r m' hr
        have harg : callbackArg dry (.ofPlain v) = v := by
          simp [callbackArg, View.ofPlain]
        rw [harg] at hr
        exact callback _ _ n1 (by omega) hw _ _ _ _ hr
      · exfalso
        have : ∃ out, (Except.error e : Except Exc OutRef) = .ok out := bind_no_raise h1 (fun _ _ h => resolved_no_raise h) fun _ _ _ _ h =>
          bind_no_raise h (fun _ _ h => resolved_no_raise h) fun _ _ _ _ h =>
          bind_no_raise h (fun _ _ h => resolved_no_raise h) fun _ _ _ _ h => mkOutput_no_raise h
        obtain ⟨_, h⟩ := this; simp at h
    | output ho hw =>
      rename_i n1 o w0 w
      simp only [fromInput] at h
      obtain ⟨out, rfl⟩ := apply_no_raise h
      refine ⟨out, rfl, apply_shows hs h ho (.inr (.inr rfl)) ?_⟩
      intro r m' hr
      exact callback _ _ n1 (by omega) hw _ _ _ _ hr
    | list hlen hmem =>
      have hall := All2.of_zip hlen hmem
      rename_i n1 x xs ws
      simp only [fromInput] at h
      rcases h.bind with ⟨os, m, h1, h2⟩ | ⟨e, h1, _⟩
      · obtain ⟨out, rfl⟩ := combine_no_raise h2
        obtain ⟨os', ho, hsh⟩ := members id _ _ n1 (by omega) hall _ _ _ _ h1
        cases ho
        exact ⟨out, rfl, combine_shows hs h2 hsh⟩
      · obtain ⟨os', ho, hsh⟩ := members id _ _ n1 (by omega) hall _ _ _ _ h1
        simp at ho
    | dict hlen hmem =>
      have hall := All2.of_zip (R := fun p w => Unwraps _ d.futs _ p.2 w) hlen (fun p w hm => hmem p.1 p.2 w hm)
      rename_i n1 x xs ws
      simp only [fromInput] at h
      rcases h.bind with ⟨os, m, h1, h2⟩ | ⟨e, h1, _⟩
      · obtain ⟨out, rfl⟩ := combine_no_raise h2
        obtain ⟨os', ho, hsh⟩ := members (α := String × Val) (·.2) _ _ n1 (by omega) hall _ _ _ _ h1
        cases ho
        exact ⟨out, rfl, combine_shows hs h2 hsh⟩
      · obtain ⟨os', ho, hsh⟩ := members (α := String × Val) (·.2) _ _ n1 (by omega) hall _ _ _ _ h1
        simp at ho
    | input hlen hmem hkn =>
      have hall := All2.of_zip (R := fun p w => Unwraps _ d.futs _ p.2 w) hlen (fun p w hm => hmem p.1 p.2 w hm)
      rename_i n1 cls kv kvs ws
      simp only [fromInput] at h
      rcases h.bind with ⟨os, m, h1, h2⟩ | ⟨e, h1, _⟩
      · obtain ⟨os', ho, hsh⟩ := members (α := String × Val) (·.2) _ _ n1 (by omega) hall _ _ _ _ h1
        cases ho
        rcases h2.bind with ⟨o, m', h3, h4⟩ | ⟨e, h3, _⟩
        · have hcs := combine_shows hs h3 hsh
          obtain ⟨out, rfl⟩ := apply_no_raise h4
          refine ⟨out, rfl, apply_shows hs h4 hcs ?_ ?_⟩
          · rcases hkn with h | h
            · exact .inl h
            · exact .inr (.inl h)
          · intro r m' hr
            have harg : callbackArg dry (.aggregate ws (mkDict ((kv :: kvs).map (·.1)))) =
                .dict (((kv :: kvs).map (·.1)).zip (ws.map (·.value))) := by
              unfold callbackArg
              rcases hkn with h | h
              · simp [h, View.aggregate, mkDict]
              · rw [h]; simp [View.aggregate, mkDict]
            rw [harg] at hr
            cases hr
            exact ⟨_, rfl, .plain (by simp [Plain])⟩
        · obtain ⟨_, h⟩ := combine_no_raise h3; simp at h
      · obtain ⟨os', ho, hsh⟩ := members (α := String × Val) (·.2) _ _ n1 (by omega) hall _ _ _ _ h1
        simp at ho
    | inputUnknown hlen hmem hdry hkn =>
      have hall := All2.of_zip (R := fun p w => Unwraps _ d.futs _ p.2 w) hlen (fun p w hm => hmem p.1 p.2 w hm)
      rename_i n1 cls kv kvs ws
      subst hdry
      simp only [fromInput] at h
      rcases h.bind with ⟨os, m, h1, h2⟩ | ⟨e, h1, _⟩
      · obtain ⟨os', ho, hsh⟩ := members (α := String × Val) (·.2) _ _ n1 (by omega) hall _ _ _ _ h1
        cases ho
        rcases h2.bind with ⟨o, m', h3, h4⟩ | ⟨e, h3, _⟩
        · have hcs := combine_shows hs h3 hsh
          obtain ⟨out, rfl⟩ := apply_no_raise h4
          refine ⟨out, rfl, ?_⟩
          obtain ⟨R, hR, hhas, hv, hr, hsec, hkn'⟩ := apply_futs hs h4
          obtain ⟨ids, hids, hm⟩ := hcs.deps
          have hspec := applyRun_spec hs hhas
          rw [← hR] at hspec
          have hkn2 : (View.aggregate ws fun vs =>
                if (kv :: kvs).isEmpty then .list vs else .dict (((kv :: kvs).map (·.1)).zip vs)).known = false := hkn
          simp only [hids, hcs.known, hcs.secret, hcs.value, hkn2, truthy] at hspec
          simp at hspec
          obtain ⟨_, rfl⟩ := hspec
          simp only [truthy] at hkn'
          exact ⟨hv, by simpa using hkn', hsec, ids, hr, hm⟩
        · obtain ⟨_, h⟩ := combine_no_raise h3; simp at h
      · obtain ⟨os', ho, hsh⟩ := members (α := String × Val) (·.2) _ _ n1 (by omega) hall _ _ _ _ h1
        simp at ho

end Pulumi.Output
