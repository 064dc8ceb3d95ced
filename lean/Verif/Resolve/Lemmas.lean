import Verif.Resolve.Spec
import Verif.Wire.Names
/-! # Lemmas on stores and resolvers -/
namespace Pulumi.Resolve
open Pulumi.Wire

theorem bindM {α β : Type} (m : M α) (f : α → M β) (s : Store) :
    (m >>= f) s = (match m s with | (.ok a, s') => f a s' | (.error e, s') => (.error e, s')) := rfl

theorem pureM {α : Type} (a : α) (s : Store) : (pure a : M α) s = (.ok a, s) := rfl

/-- No future of the Output has been set. -/
def Fresh (s : Store) (t : Target) : Prop := ∀ e ∈ s, e.1.1 ≠ t

theorem Fresh.nil (t : Target) : Fresh [] t := by intro e h; cases h

theorem Fresh.append {s s' : Store} {t : Target} (h : Fresh s t) (h' : Fresh s' t) : Fresh (s ++ s') t := by
  intro e he
  rcases List.mem_append.1 he with h1 | h1
  · exact h e h1
  · exact h' e h1

theorem setFut_ok {s : Store} {t : Target} {f : Fld} {v : FutVal} (h : ∀ e ∈ s, e.1 ≠ (t, f)) :
    setFut t f v s = (.ok (), s ++ [((t, f), v)]) := by
  have : s.any (fun e => e.1 == (t, f)) = false := by
    rw [List.any_eq_false]
    intro e he
    simpa using h e he
  simp [setFut, this]

/-- The entries of an Output. -/
def own (t : Target) (a b c : FutVal) : Store := [((t, .value), a), ((t, .known), b), ((t, .secret), c)]

def entries (r : ResId) (n : String) (d : Option (List ResId)) (a b c : FutVal) : Store :=
  ((.prop n, .deps), .deps (resAdd (d.getD []) r)) :: own (.prop n) a b c

theorem set3 {s : Store} {t : Target} (h : ∀ e ∈ s, ∀ f, f ≠ .deps → e.1 ≠ (t, f)) (a b c : FutVal) :
    (do setFut t .value a; setFut t .known b; setFut t .secret c : M Unit) s = (.ok (), s ++ own t a b c) := by
  simp only [bindM]
  rw [setFut_ok (fun e he => h e he _ (by decide))]
  simp only
  rw [setFut_ok (by
    intro e he
    rcases List.mem_append.1 he with h1 | h1
    · exact h e h1 _ (by decide)
    · simp at h1; subst h1; simp)]
  simp only
  rw [setFut_ok (by
    intro e he
    rcases List.mem_append.1 he with h1 | h1
    · rcases List.mem_append.1 h1 with h1 | h1
      · exact h e h1 _ (by decide)
      · simp at h1; subst h1; simp
    · simp at h1; subst h1; simp)]
  simp [own]

theorem Fresh.ne {s : Store} {t : Target} (h : Fresh s t) : ∀ e ∈ s, ∀ f, e.1 ≠ (t, f) := by
  intro e he f hh
  exact h e he (by rw [hh])

theorem resolveOwn_fail {s : Store} {t : Target} (h : Fresh s t) (v : RV) (k c : Bool) (e : Exc) :
    resolveOwn t v k c (some e) s = (.ok (), s ++ own t (.failed e) (.failed e) (.failed e)) :=
  set3 (fun x hx f _ => h.ne x hx f) ..

theorem resolveOwn_ok {s : Store} {t : Target} (h : Fresh s t) (v : RV) (k c : Bool) :
    resolveOwn t v k c none s = (.ok (), s ++ own t (.value v) (.flag k) (.flag c)) :=
  set3 (fun x hx f _ => h.ne x hx f) ..

theorem doResolve_fail {s : Store} {n : String} (h : Fresh s (.prop n)) (r : ResId) (v : RV) (k c : Bool)
    (d : Option (List ResId)) (e : Exc) :
    doResolve r n v k c d (some e) s = (.ok (), s ++ entries r n d (.failed e) (.failed e) (.failed e)) := by
  have := set3 (s := s ++ [((Target.prop n, Fld.deps), FutVal.deps (resAdd (d.getD []) r))]) (t := .prop n)
    (by
      intro x hx f hf
      rcases List.mem_append.1 hx with h1 | h1
      · exact h.ne x h1 f
      · simp at h1; subst h1; simpa using hf.symm) (.failed e) (.failed e) (.failed e)
  rw [doResolve, bindM, setFut_ok (fun x hx => h.ne x hx _)]
  simp only
  rw [this]
  simp [entries]

theorem doResolve_ok {s : Store} {n : String} (h : Fresh s (.prop n)) (r : ResId) (v : RV) (k c : Bool)
    (d : Option (List ResId)) :
    doResolve r n v k c d none s = (.ok (), s ++ entries r n d (.value v) (.flag k) (.flag c)) := by
  have := set3 (s := s ++ [((Target.prop n, Fld.deps), FutVal.deps (resAdd (d.getD []) r))]) (t := .prop n)
    (by
      intro x hx f hf
      rcases List.mem_append.1 hx with h1 | h1
      · exact h.ne x h1 f
      · simp at h1; subst h1; simpa using hf.symm) (.value v) (.flag k) (.flag c)
  rw [doResolve, bindM, setFut_ok (fun x hx => h.ne x hx _)]
  simp only
  rw [this]
  simp [entries]

theorem forEach_run {α : Type} {f : α → M Unit} {g : α → Store} {nm : α → String} {P : α → Prop} {xs : List α}
    {s : Store} (hn : (xs.map nm).Nodup)
    (hf : ∀ x ∈ xs, ∀ s, (P x → Fresh s (.prop (nm x))) → f x s = (.ok (), s ++ g x))
    (hg : ∀ x ∈ xs, ∀ e ∈ g x, e.1.1 = .prop (nm x)) (hs : ∀ x ∈ xs, P x → Fresh s (.prop (nm x))) :
    forEach f xs s = (.ok (), s ++ xs.flatMap g) := by
  induction xs generalizing s with
  | nil => simp [forEach, pureM]
  | cons x xs ih =>
    simp only [List.map_cons, List.nodup_cons] at hn
    rw [forEach, bindM, hf x (List.mem_cons_self ..) s (hs x (List.mem_cons_self ..))]
    simp only
    rw [ih hn.2 (fun y hy => hf y (List.mem_cons_of_mem _ hy)) (fun y hy => hg y (List.mem_cons_of_mem _ hy)) ?_]
    · simp
    · intro y hy hp
      refine (hs y (List.mem_cons_of_mem _ hy) hp).append ?_
      intro e he
      rw [hg x (List.mem_cons_self ..) e he]
      intro hh
      simp only [Target.prop.injEq] at hh
      exact hn.1 (List.mem_map.2 ⟨y, hy, hh.symm⟩)

theorem entries_target {r : ResId} {n : String} {d : Option (List ResId)} {a b c : FutVal} :
    ∀ e ∈ entries r n d a b c, e.1.1 = .prop n := by
  intro e he
  simp only [entries, own, List.mem_cons, List.not_mem_nil, or_false] at he
  rcases he with rfl | rfl | rfl | rfl <;> rfl

theorem own_target {t : Target} {a b c : FutVal} : ∀ e ∈ own t a b c, e.1.1 = t := by
  intro e he
  simp only [own, List.mem_cons, List.not_mem_nil, or_false] at he
  rcases he with rfl | rfl | rfl <;> rfl

def failedEntries (r : ResId) (e : Exc) (n : String) : Store := entries r n none (.failed e) (.failed e) (.failed e)

theorem resolveFailed_run {r : ResId} {resolvers : List String} (hn : resolvers.Nodup) {s : Store}
    (hs : ∀ n ∈ resolvers, Fresh s (.prop n)) (e : Exc) :
    resolveFailed r resolvers e s = (.ok (), s ++ resolvers.flatMap (failedEntries r e)) :=
  forEach_run (nm := id) (g := failedEntries r e) (P := fun _ => True) (by simpa using hn)
    (fun _ _ _ hfr => doResolve_fail (hfr trivial) ..) (fun _ _ => entries_target) (fun n hn' _ => hs n hn')

/-! ## resolve_properties -/

/-- What a property found in `all` is resolved with. -/
def foundEntries (dry : Bool) (r : ResId) (resolvers : List String) (deps : List (String × List ResId))
    (kv : String × RV) : Store :=
  if kv.1 ∈ resolvers then
    entries r kv.1 (deps.lookup kv.1) (.value kv.2.unwrap) (.flag (if dry then !kv.2.unwrap.isNone else true))
      (.flag kv.2.isSecret)
  else []

def missingEntries (dry : Bool) (r : ResId) (all : List (String × RV)) (deps : List (String × List ResId))
    (n : String) : Store :=
  if all.any (fun kv => kv.1 == n) then []
  else entries r n (deps.lookup n) (.value (.leaf .none)) (.flag (!dry)) (.flag false)

theorem any_key {α : Type} {kvs : List (String × α)} {n : String} :
    kvs.any (fun kv => kv.1 == n) = true ↔ n ∈ kvs.map (·.1) := by
  simp [List.any_eq_true]

theorem resolveProperties_run {dry : Bool} {r : ResId} {resolvers : List String} {all : List (String × RV)}
    {deps : List (String × List ResId)} (hn : resolvers.Nodup) (hid : "id" ∉ resolvers) (hurn : "urn" ∉ resolvers)
    (ha : (all.map (·.1)).Nodup) {s : Store} (hs : ∀ n ∈ resolvers, Fresh s (.prop n)) :
    resolveProperties dry r resolvers all deps s =
      (.ok (), s ++ all.flatMap (foundEntries dry r resolvers deps) ++ resolvers.flatMap (missingEntries dry r all deps)) := by
  have htarget : ∀ kv, ∀ e ∈ foundEntries dry r resolvers deps kv, e.1.1 = .prop kv.1 := by
    intro kv e he
    simp only [foundEntries] at he
    split at he
    · exact entries_target e he
    · cases he
  have hf : ∀ (kv : String × RV) (s : Store), (kv.1 ∈ resolvers → Fresh s (.prop kv.1)) →
      (match kv with
      | (key, value) =>
        if key = "id" ∨ key = "urn" then pure ()
        else if key ∈ resolvers then
          doResolve r key value.unwrap (if dry then !value.unwrap.isNone else true) value.isSecret (deps.lookup key) none
        else (pure () : M Unit)) s = (.ok (), s ++ foundEntries dry r resolvers deps kv) := by
    rintro ⟨k, v⟩ s hs
    simp only [foundEntries]
    by_cases hk : k ∈ resolvers
    · have h1 : ¬ (k = "id" ∨ k = "urn") := by
        rintro (rfl | rfl)
        · exact hid hk
        · exact hurn hk
      simp only [if_neg h1, if_pos hk]
      exact doResolve_ok (hs hk) ..
    · simp [hk, pureM]
  have hmt : ∀ n, ∀ e ∈ missingEntries dry r all deps n, e.1.1 = .prop n := by
    intro n e he
    simp only [missingEntries] at he
    split at he
    · cases he
    · exact entries_target e he
  rw [resolveProperties, bindM, forEach_run (nm := (·.1)) (g := foundEntries dry r resolvers deps)
    (P := fun kv => kv.1 ∈ resolvers) ha (fun kv _ s h => hf kv s h) (fun kv _ => htarget kv) (fun kv _ h => hs _ h)]
  simp only
  rw [forEach_run (nm := id) (g := missingEntries dry r all deps) (P := fun n => n ∉ all.map (·.1))
    (by simpa using hn) ?_ (fun n _ => hmt n) ?_]
  · intro n _ s h
    simp only [missingEntries]
    by_cases hm : all.any (fun kv => kv.1 == n) = true
    · simp [if_pos hm, pureM]
    · simp only [if_neg hm]
      exact doResolve_ok (h (fun h' => hm (any_key.2 h'))) ..
  · intro n hnr hm
    refine (hs n hnr).append ?_
    intro e he
    obtain ⟨kv, hkv, he⟩ := List.mem_flatMap.1 he
    rw [htarget kv e he]
    intro hh
    simp only [Target.prop.injEq] at hh
    exact hm (List.mem_map.2 ⟨kv, hkv, hh⟩)

/-! ## Counting -/

theorem timesSet_append (s s' : Store) (t : Target) (f : Fld) :
    timesSet (s ++ s') t f = timesSet s t f + timesSet s' t f := by simp [timesSet]

theorem timesSet_fresh {s : Store} {t : Target} (h : Fresh s t) (f : Fld) : timesSet s t f = 0 := by
  simp only [timesSet, List.length_eq_zero_iff, List.filter_eq_nil_iff]
  intro e he
  simpa using h.ne e he f

/-- In `s`, the futures of `t` are set by the entries `e` and by nothing else. -/
def Owns (s : Store) (t : Target) (e : Store) : Prop := (∀ x ∈ e, x ∈ s) ∧ ∀ f, timesSet s t f = timesSet e t f

theorem Owns.refl (e : Store) (t : Target) : Owns e t e := ⟨fun _ h => h, fun _ => rfl⟩

theorem Owns.left {s s' e : Store} {t : Target} (h : Owns s t e) (hf : Fresh s' t) : Owns (s ++ s') t e :=
  ⟨fun x hx => List.mem_append_left _ (h.1 x hx), fun f => by
    rw [timesSet_append, timesSet_fresh hf, Nat.add_zero, h.2]⟩

theorem Owns.right {s s' e : Store} {t : Target} (h : Owns s' t e) (hf : Fresh s t) : Owns (s ++ s') t e :=
  ⟨fun x hx => List.mem_append_right _ (h.1 x hx), fun f => by
    rw [timesSet_append, timesSet_fresh hf, Nat.zero_add, h.2]⟩

theorem fresh_flatMap {α : Type} {g : α → Store} {xs : List α} {t : Target}
    (h : ∀ x ∈ xs, Fresh (g x) t) : Fresh (xs.flatMap g) t := by
  intro e he
  obtain ⟨x, hx, he⟩ := List.mem_flatMap.1 he
  exact h x hx e he

theorem Owns.flatMap {α : Type} {g : α → Store} {nm : α → String} {xs : List α} (hn : (xs.map nm).Nodup)
    (hg : ∀ x ∈ xs, ∀ e ∈ g x, e.1.1 = .prop (nm x)) {x : α} (hx : x ∈ xs) : Owns (xs.flatMap g) (.prop (nm x)) (g x) := by
  induction xs with
  | nil => cases hx
  | cons y xs ih =>
    simp only [List.map_cons, List.nodup_cons] at hn
    rw [List.flatMap_cons]
    by_cases hxy : nm y = nm x
    · have hnot : x ∉ xs := fun h => hn.1 (List.mem_map.2 ⟨x, h, hxy.symm⟩)
      have : x = y := by
        rcases List.mem_cons.1 hx with h | h
        · exact h
        · exact absurd h hnot
      subst this
      refine (Owns.refl ..).left (fresh_flatMap ?_)
      intro z hz e he
      rw [hg z (List.mem_cons_of_mem _ hz) e he]
      intro hh
      simp only [Target.prop.injEq] at hh
      exact hn.1 (List.mem_map.2 ⟨z, hz, hh⟩)
    · have hx' : x ∈ xs := by
        rcases List.mem_cons.1 hx with h | h
        · exact absurd (by rw [h]) hxy
        · exact h
      refine (ih hn.2 (fun z hz => hg z (List.mem_cons_of_mem _ hz)) hx').right ?_
      intro e he
      rw [hg y (List.mem_cons_self ..) e he]
      simpa using hxy

theorem own_times (t : Target) (a b c : FutVal) (f : Fld) : timesSet (own t a b c) t f = if f = .deps then 0 else 1 := by
  cases f <;> simp [timesSet, own]

theorem entries_times (r : ResId) (n : String) (d : Option (List ResId)) (a b c : FutVal) (f : Fld) :
    timesSet (entries r n d a b c) (.prop n) f = 1 := by
  cases f <;> simp [timesSet, own, entries]

theorem Owns.holds_own {s : Store} {t : Target} {a b c : FutVal} (h : Owns s t (own t a b c)) :
    Holds s t .value a ∧ Holds s t .known b ∧ Holds s t .secret c := by
  refine ⟨⟨h.1 _ (by simp [own]), ?_⟩, ⟨h.1 _ (by simp [own]), ?_⟩, ⟨h.1 _ (by simp [own]), ?_⟩⟩ <;>
    rw [h.2, own_times] <;> rfl

theorem Owns.holds {s : Store} {r : ResId} {n : String} {d : Option (List ResId)} {a b c : FutVal}
    (h : Owns s (.prop n) (entries r n d a b c)) :
    Holds s (.prop n) .deps (.deps (resAdd (d.getD []) r)) ∧ Holds s (.prop n) .value a ∧ Holds s (.prop n) .known b ∧
      Holds s (.prop n) .secret c := by
  refine ⟨⟨h.1 _ (by simp [entries]), ?_⟩, ⟨h.1 _ (by simp [entries, own]), ?_⟩, ⟨h.1 _ (by simp [entries, own]), ?_⟩,
    ⟨h.1 _ (by simp [entries, own]), ?_⟩⟩ <;> rw [h.2, entries_times]

/-! ## The runs -/

theorem resolvers_spec (c : Ctx) (n : String) : n ∈ c.resolvers ↔ Declared c n := by
  simp [Ctx.resolvers, transfer, Declared]

theorem resolvers_nodup {c : Ctx} (h : c.props.Nodup) : c.resolvers.Nodup := h.filter _

theorem failAll_run {c : Ctx} (h : c.props.Nodup) (custom : Bool) (e : Exc) :
    failAll c custom e [] = (.ok (), c.resolvers.flatMap (failedEntries c.res e) ++
      own .urn (.failed e) (.failed e) (.failed e) ++
      if custom then own .id (.failed e) (.failed e) (.failed e) else []) := by
  have hfr : ∀ t, (∀ n, t ≠ .prop n) → Fresh (c.resolvers.flatMap (failedEntries c.res e)) t := by
    intro t ht
    refine fresh_flatMap ?_
    intro n _ x hx
    rw [entries_target x hx]
    exact (ht n).symm
  rw [failAll, bindM, resolveFailed_run (resolvers_nodup h) (fun n _ => Fresh.nil _)]
  simp only [bindM, List.nil_append]
  rw [resolveOwn_fail (hfr .urn (by simp))]
  simp only
  cases custom with
  | false => simp [pureM]
  | true =>
    simp only [if_true]
    rw [resolveOwn_fail]
    refine (hfr .id (by simp)).append ?_
    intro x hx
    rw [own_target x hx]
    decide

/-- What the first `try` block leaves behind. -/
theorem request_run {α : Type} {c : Ctx} (h : c.props.Nodup) (custom : Bool) (prep : Except Exc (List (String × W)))
    (rpc : Except Exc α) :
    onError (request prep rpc) (failAll c custom) [] =
      match prep, rpc with
      | .ok i, .ok r => (.ok (i, r), [])
      | .error e, _ => (.error e, c.resolvers.flatMap (failedEntries c.res e) ++
          own .urn (.failed e) (.failed e) (.failed e) ++
          if custom then own .id (.failed e) (.failed e) (.failed e) else [])
      | .ok _, .error e => (.error e, c.resolvers.flatMap (failedEntries c.res e) ++
          own .urn (.failed e) (.failed e) (.failed e) ++
          if custom then own .id (.failed e) (.failed e) (.failed e) else []) := by
  cases prep with
  | error e => simp [onError, request, bindM, liftE, failAll_run h]
  | ok i =>
    cases rpc with
    | error e => simp [onError, request, bindM, liftE, failAll_run h]
    | ok r => simp [onError, request, bindM, liftE, pureM]

/-- The entries for a `urn` and `id` that were received. -/
def headEntries (custom : Bool) (urn : RV) (id : RV) (known : Bool) : Store :=
  own .urn (.value urn) (.flag true) (.flag false) ++
    if custom then own .id (.value id) (.flag known) (.flag false) else []

theorem headEntries_fresh (custom : Bool) (urn id : RV) (known : Bool) (n : String) :
    Fresh (headEntries custom urn id known) (.prop n) := by
  intro e he
  rcases List.mem_append.1 he with h | h
  · rw [own_target e h]; simp
  · cases custom
    · cases h
    · rw [own_target e h]; simp

theorem head_run {custom : Bool} {urn id : RV} {known : Bool} :
    (do resolveOwn .urn urn true false none
        if custom then resolveOwn .id id known false none else pure () : M Unit) [] =
      (.ok (), headEntries custom urn id known) := by
  rw [bindM, resolveOwn_ok (Fresh.nil _)]
  simp only [List.nil_append]
  cases custom with
  | false => simp [pureM, headEntries]
  | true =>
    simp only [if_true, headEntries]
    rw [resolveOwn_ok]
    intro x hx
    rw [own_target x hx]
    decide

/-- The entries made by `resolve_properties`. -/
def propEntries (dry : Bool) (r : ResId) (resolvers : List String) (all : List (String × RV))
    (deps : List (String × List ResId)) : Store :=
  all.flatMap (foundEntries dry r resolvers deps) ++ resolvers.flatMap (missingEntries dry r all deps)

theorem setKey_nodup {α : Type} {kvs : List (String × α)} (h : (kvs.map (·.1)).Nodup) (k : String) (v : α) :
    ((setKey kvs k v).map (·.1)).Nodup := by
  induction kvs with
  | nil => simp [setKey]
  | cons p kvs ih =>
    obtain ⟨k0, v0⟩ := p
    simp only [List.map_cons, List.nodup_cons] at h
    simp only [setKey]
    split
    · rename_i hk; subst hk; simpa using h
    · rename_i hk
      simp only [List.map_cons, List.nodup_cons]
      refine ⟨?_, ih h.2⟩
      intro hm
      obtain ⟨p, hp, he⟩ := List.mem_map.1 hm
      rcases setKey_mem hp with h' | h'
      · subst h'; exact hk he.symm
      · exact h.1 (List.mem_map.2 ⟨p, h', he⟩)

theorem engineProps_nodup {c : ResClass} {acc : List (String × RV)} {kvs : List (String × PV)} {es : List (String × RV)}
    (h : engineProps c acc kvs = .ok es) (hn : (acc.map (·.1)).Nodup) : (es.map (·.1)).Nodup := by
  induction kvs generalizing acc with
  | nil => cases h; exact hn
  | cons p kvs ih =>
    obtain ⟨k, v⟩ := p
    rw [engineProps, bind_ok] at h
    obtain ⟨w, _, h⟩ := h
    exact ih h (setKey_nodup hn ..)

theorem inputProps_nodup {env : Env} {c : ResClass} {acc : List (String × RV)} {kvs : List (String × W)}
    {es : List (String × RV)} (h : inputProps env c acc kvs = .ok es) (hn : (acc.map (·.1)).Nodup) :
    (es.map (·.1)).Nodup := by
  induction kvs generalizing acc with
  | nil => cases h; exact hn
  | cons p kvs ih =>
    obtain ⟨k, v⟩ := p
    rw [inputProps] at h
    split at h
    · exact ih h hn
    · rw [bind_ok] at h
      obtain ⟨_, _, h⟩ := h
      rw [bind_ok] at h
      obtain ⟨w, _, h⟩ := h
      exact ih h (setKey_nodup hn ..)

theorem mapError_ok {ε ε' α : Type} {x : Except ε α} {f : ε → ε'} {a : α} : x.mapError f = .ok a ↔ x = .ok a := by
  cases x <;> simp [Except.mapError]

theorem bindE_ok {ε α β : Type} {x : Except ε α} {f : α → Except ε β} {b : β} :
    (x >>= f) = .ok b ↔ ∃ a, x = .ok a ∧ f a = .ok b := by
  cases x <;> simp [bind, Except.bind]

/-- `all_properties` is built from the engine's properties, then the inputs. -/
theorem allProperties_ok {env : Env} {legacy : Bool} {c : ResClass} {inputs outputs : List (String × W)}
    {all : List (String × RV)} (h : allProperties env legacy c inputs outputs = .ok all) :
    ∃ kvs fromEngine, deserializeProperties env false false outputs = .ok (.dict kvs) ∧
      engineProps c [] kvs = .ok fromEngine ∧
      ((env.dryRun = false ∨ legacy = true) ∧ inputProps env c fromEngine inputs = .ok all ∨
       (env.dryRun = true ∧ legacy = false) ∧ all = fromEngine) := by
  rw [allProperties, bindE_ok] at h
  obtain ⟨kvs, h1, h⟩ := h
  rw [bindE_ok] at h
  obtain ⟨fe, h2, h⟩ := h
  rw [mapError_ok] at h2
  refine ⟨kvs, fe, ?_, h2, ?_⟩
  · rw [readItems] at h1
    split at h1
    · rename_i v hv
      rw [hv]
      cases v <;> simp [items] at h1
      rw [h1]
    · cases h1
  · split at h
    · rename_i hc
      rw [mapError_ok] at h
      refine .inl ⟨?_, h⟩
      cases hd : env.dryRun <;> simp [hd] at hc ⊢
      exact hc
    · rename_i hc
      cases h
      refine .inr ⟨?_, rfl⟩
      cases hd : env.dryRun <;> simp [hd] at hc ⊢
      exact hc

theorem allProperties_nodup {env : Env} {legacy : Bool} {c : ResClass} {inputs outputs : List (String × W)}
    {all : List (String × RV)} (h : allProperties env legacy c inputs outputs = .ok all) : (all.map (·.1)).Nodup := by
  obtain ⟨kvs, fe, _, h2, h3⟩ := allProperties_ok h
  have hfe := engineProps_nodup h2 (by simp)
  rcases h3 with ⟨_, h3⟩ | ⟨_, rfl⟩
  · exact inputProps_nodup h3 hfe
  · exact hfe

theorem resolveOutputs_run {c : Ctx} (hn : c.props.Nodup) {inputs outputs : List (String × W)}
    {deps : List (String × List ResId)} {s : Store} (hs : ∀ n ∈ c.resolvers, Fresh s (.prop n)) :
    resolveOutputs c.env c.legacyApply c.cls c.res inputs outputs deps c.resolvers s =
      match allProperties c.env c.legacyApply c.cls inputs outputs with
      | .ok all => (.ok (), s ++ propEntries c.env.dryRun c.res c.resolvers all (translateDeps c.cls deps))
      | .error e => (.error e, s) := by
  rw [resolveOutputs, bindM]
  cases h : allProperties c.env c.legacyApply c.cls inputs outputs with
  | error e => rfl
  | ok all =>
    simp only [liftE]
    rw [resolveProperties_run (resolvers_nodup hn) ?_ ?_ (allProperties_nodup h) hs]
    · simp [propEntries]
    · simp [resolvers_spec, Declared]
    · simp [resolvers_spec, Declared]

/-- The possible ends of `do_register`. -/
theorem register_run {c : Ctx} (hn : c.props.Nodup) (prep : Except Exc (List (String × W)))
    (rpc : Except Exc (Option Response)) :
    register c prep rpc [] =
      match prep, rpc with
      | .error e, _ => (.error e, c.resolvers.flatMap (failedEntries c.res e) ++
          own .urn (.failed e) (.failed e) (.failed e) ++
          if c.custom then own .id (.failed e) (.failed e) (.failed e) else [])
      | .ok _, .error e => (.error e, c.resolvers.flatMap (failedEntries c.res e) ++
          own .urn (.failed e) (.failed e) (.failed e) ++
          if c.custom then own .id (.failed e) (.failed e) (.failed e) else [])
      | .ok _, .ok none => (.ok (), [])
      | .ok inputs, .ok (some resp) =>
        let head := headEntries c.custom (.leaf (.str resp.urn)) (.leaf (.str resp.id)) (resp.id != "")
        match allProperties c.env c.legacyApply c.cls inputs resp.object with
        | .ok all => (.ok (), head ++
            propEntries c.env.dryRun c.res c.resolvers all (translateDeps c.cls (replyDeps resp)))
        | .error e => (.error e, head ++ c.resolvers.flatMap (failedEntries c.res e)) := by
  rw [register, request_run hn]
  cases prep with
  | error e => rfl
  | ok inputs =>
    cases rpc with
    | error e => rfl
    | ok r =>
      cases r with
      | none => rfl
      | some resp =>
        simp only
        have hfr := headEntries_fresh c.custom (.leaf (.str resp.urn)) (.leaf (.str resp.id)) (resp.id != "")
        have hhead := head_run (custom := c.custom) (urn := .leaf (.str resp.urn)) (id := .leaf (.str resp.id))
          (known := resp.id != "")
        rw [bindM, resolveOwn_ok (Fresh.nil _)] at hhead
        simp only [List.nil_append] at hhead
        have hout := resolveOutputs_run (c := c) hn (inputs := inputs) (outputs := resp.object) (deps := replyDeps resp)
          (fun n _ => hfr n)
        simp only [finishRegister, atStage, resolveOwn_ok (Fresh.nil _), List.nil_append, hhead, hout]
        cases h : allProperties c.env c.legacyApply c.cls inputs resp.object with
        | ok all => rfl
        | error e =>
          simp only [failRest, bindM]
          rw [resolveFailed_run (resolvers_nodup hn) (fun n _ => hfr n)]
          simp [pureM]

end Pulumi.Resolve
