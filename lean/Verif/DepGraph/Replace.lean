import Verif.DepGraph.Targets
/-!
# What has to be replaced along with a resource, and deletions of targets
-/
namespace Pulumi.DepGraph
open Pulumi.Snapshot (State Provider Ref Env Intact Backed Provides)

theorem unknownKeys_congr {ins : List String} {s : State} {a b : List String} (h : ∀ u, u ∈ a ↔ u ∈ b) :
    unknownKeys ins s a = unknownKeys ins s b := by
  unfold unknownKeys
  simp only [h]

theorem forced_congr {inputs differ a b j s} (h : ∀ u, u ∈ a ↔ u ∈ b) (hf : Forced inputs differ a j s) :
    Forced inputs differ b j s := by
  unfold Forced at hf ⊢
  simpa only [h] using hf

theorem unknownKeys_eq (ins : List String) (s : State) (set : List String) :
    unknownKeys ins s set =
      ins.filter (fun k => s.propDeps.any (fun kv => decide (kv.1 = k ∧ ∃ d ∈ kv.2, d ∈ set))) := by
  unfold unknownKeys
  congr 1
  funext k
  congr 1
  funext kv
  rw [Bool.eq_iff_iff]
  simp

theorem requiresReplacement_spec {inputs differ set j} {s : State} (hp : ∀ m, s.provider ≠ .malformed m) :
    (∃ e, requiresReplacement inputs differ set j s = .error e ∧ ∃ keys, differ j keys = .error e) ∨
    ∃ b, requiresReplacement inputs differ set j s = .ok b ∧ (b = true ↔ Forced inputs differ set j s) := by
  unfold requiresReplacement Forced
  cases hc : s.custom
  · right; exact ⟨false, by simp, by simp⟩
  by_cases he : s.external = true
  · right; exact ⟨false, by simp [he], by simp [he]⟩
  rw [Bool.not_eq_true] at he
  rw [he]
  simp only [Bool.not_true, Bool.or_self, Bool.false_eq_true, if_false, true_and]
  rw [← unknownKeys_eq]
  generalize unknownKeys (inputs j) s set = keys
  have key : (∃ e, (if keys = [] then Except.ok false else differ j keys) = .error e ∧ ∃ keys, differ j keys = .error e) ∨
      ∃ b, (if keys = [] then Except.ok false else differ j keys) = .ok b ∧ (b = true ↔ keys ≠ [] ∧ differ j keys = .ok true) := by
    by_cases hk : keys = []
    · right; exact ⟨false, by rw [if_pos hk], by simp [hk]⟩
    · rw [if_neg hk]
      cases hd : differ j keys with
      | error e => left; exact ⟨e, rfl, keys, hd⟩
      | ok b => right; exact ⟨b, rfl, by simp [hk]⟩
  cases hpr : s.provider with
  | malformed m => exact absurd hpr (hp m)
  | none =>
    simp only
    rcases key with h | ⟨b, h1, h2⟩
    · exact Or.inl h
    · right
      refine ⟨b, h1, ?_⟩
      rw [h2]; simp
  | ref r =>
    simp only
    by_cases hr : r.urn ∈ set
    · rw [if_pos hr]; right
      exact ⟨true, rfl, by simp [hr]⟩
    · rw [if_neg hr]
      rcases key with h | ⟨b, h1, h2⟩
      · exact Or.inl h
      · right
        refine ⟨b, h1, ?_⟩
        rw [h2]; simp [hr]

theorem replacementsFrom_spec {rs : List State} {inputs differ} (hp : Parsed rs) : ∀ (is : List Nat) (set : List String),
    is.Pairwise (· < ·) → (∀ i ∈ is, i < rs.length) →
    ∃ r, replacementsFrom rs inputs differ is set = some r ∧
      match r with
      | .error e => ∃ j keys, differ j keys = .error e
      | .ok l => l.Sublist is ∧ ∀ (j : Nat) (s : State), j ∈ is → rs[j]? = some s → (j ∈ l ↔
          ∃ set', (∀ u, u ∈ set' ↔ u ∈ set ∨ ∃ (k : Nat) (t : State), k ∈ l ∧ k < j ∧ rs[k]? = some t ∧ t.urn = u) ∧
            Forced inputs differ set' j s) := by
  intro is
  induction is with
  | nil => intro set _ _; exact ⟨_, rfl, List.Sublist.refl _, by simp⟩
  | cons i is ih =>
    intro set hpw hlt
    rw [List.pairwise_cons] at hpw
    have hi := hlt i (by simp)
    have hs : rs[i]? = some rs[i] := List.getElem?_eq_getElem hi
    unfold replacementsFrom
    rw [hs]; simp only
    rcases requiresReplacement_spec (inputs := inputs) (differ := differ) (set := set) (j := i) (s := rs[i])
      (fun m => hp _ (List.getElem_mem _) m) with ⟨e, h1, keys, h2⟩ | ⟨b, h1, h2⟩
    · rw [h1]; exact ⟨_, rfl, i, keys, h2⟩
    · rw [h1]
      cases b with
      | false =>
        simp only
        obtain ⟨r, hr, hrs⟩ := ih set hpw.2 (fun k hk => hlt k (by simp [hk]))
        refine ⟨r, hr, ?_⟩
        cases r with
        | error e => exact hrs
        | ok l =>
          refine ⟨hrs.1.cons _, fun j s hj hjs => ?_⟩
          rcases List.mem_cons.1 hj with rfl | hj
          · rw [hs] at hjs; cases hjs
            have hnl : j ∉ l := fun h => by
              have := hpw.1 j (hrs.1.subset h); omega
            constructor
            · intro h; exact absurd h hnl
            · rintro ⟨set', h3, h4⟩
              have : Forced inputs differ set j rs[j] := forced_congr (fun u => by
                rw [h3]
                constructor
                · rintro (h | ⟨k, t, hk, hkj, _⟩)
                  · exact h
                  · have := hpw.1 k (hrs.1.subset hk); omega
                · exact Or.inl) h4
              exact absurd (h2.2 this) (by simp)
          · exact hrs.2 j s hj hjs
      | true =>
        simp only
        obtain ⟨r, hr, hrs⟩ := ih (rs[i].urn :: set) hpw.2 (fun k hk => hlt k (by simp [hk]))
        rw [hr]
        cases r with
        | error e => exact ⟨_, rfl, hrs⟩
        | ok l =>
          simp only
          refine ⟨_, rfl, hrs.1.cons_cons _, fun j s hj hjs => ?_⟩
          rcases List.mem_cons.1 hj with rfl | hj
          · rw [hs] at hjs; cases hjs
            refine ⟨fun _ => ⟨set, fun u => ?_, h2.1 rfl⟩, fun _ => by simp⟩
            constructor
            · exact Or.inl
            · rintro (h | ⟨k, t, hk, hkj, _⟩)
              · exact h
              · rcases List.mem_cons.1 hk with rfl | hk
                · omega
                · have := hpw.1 k (hrs.1.subset hk); omega
          · have hij := hpw.1 j hj
            rw [List.mem_cons, hrs.2 j s hj hjs]
            have hset : ∀ u, (u ∈ rs[i].urn :: set ∨ ∃ (k : Nat) (t : State), k ∈ l ∧ k < j ∧ rs[k]? = some t ∧ t.urn = u) ↔
                (u ∈ set ∨ ∃ (k : Nat) (t : State), k ∈ i :: l ∧ k < j ∧ rs[k]? = some t ∧ t.urn = u) := by
              intro u
              constructor
              · rintro (h | ⟨k, t, hk, h⟩)
                · rcases List.mem_cons.1 h with rfl | h
                  · exact Or.inr ⟨i, rs[i], by simp, hij, hs, rfl⟩
                  · exact Or.inl h
                · exact Or.inr ⟨k, t, by simp [hk], h⟩
              · rintro (h | ⟨k, t, hk, h4, h5, h6⟩)
                · exact Or.inl (by simp [h])
                · rcases List.mem_cons.1 hk with rfl | hk
                  · rw [hs] at h5; cases h5; exact Or.inl (by simp [h6])
                  · exact Or.inr ⟨k, t, hk, h4, h5, h6⟩
            simp only [hset]
            constructor
            · rintro (h | h)
              · omega
              · exact h
            · exact Or.inr

theorem dependentReplacements_spec {rs : List State} {seen inputs differ root} (hp : Parsed rs) {t : State}
    (ht : rs[root]? = some t) :
    ∃ r, dependentReplacements rs seen inputs differ root = some r ∧
      match r with
      | .error e => ∃ j keys, differ j keys = .error e
      | .ok l => l.Pairwise (· < ·) ∧ ∀ j, j ∈ l ↔ Later rs (fun u => decide (u ∈ seen.urns)) false root j ∧
          ∃ s set, rs[j]? = some s ∧
            (∀ u, u ∈ set ↔ u = t.urn ∨ ∃ (k : Nat) (x : State), k ∈ l ∧ k < j ∧ rs[k]? = some x ∧ x.urn = u) ∧
            Forced inputs differ set j s := by
  obtain ⟨hlt, rfl⟩ := List.getElem?_eq_some_iff.1 ht
  obtain ⟨ds, h1, h2, h3⟩ := dependingOn_spec (ig := fun u => decide (u ∈ seen.urns)) (ch := false) hp hlt
  obtain ⟨r, hr, hrs⟩ := replacementsFrom_spec (inputs := inputs) (differ := differ) hp ds [rs[root].urn] h2 (fun i hi => by
    obtain ⟨s, hs⟩ := ((h3 i).1 hi).get
    exact (List.getElem?_eq_some_iff.1 hs).1)
  unfold dependentReplacements
  rw [ht]; simp only; rw [h1]
  refine ⟨r, hr, ?_⟩
  cases r with
  | error e => exact hrs
  | ok l =>
    refine ⟨List.Pairwise.sublist hrs.1 h2, fun j => ?_⟩
    constructor
    · intro hj
      have hjd := hrs.1.subset hj
      obtain ⟨s, hs⟩ := ((h3 j).1 hjd).get
      obtain ⟨set, h4, h5⟩ := (hrs.2 j s hjd hs).1 hj
      exact ⟨(h3 j).1 hjd, s, set, hs, by simpa using h4, h5⟩
    · rintro ⟨hl, s, set, hs, h4, h5⟩
      exact (hrs.2 j s ((h3 j).2 hl) hs).2 ⟨set, by simpa using h4, h5⟩

/-- When a resource is replaced by deleting it first, the resources that have to go with it are found in order: those that
depend on it, that the program has not come to yet, and whose replacement is forced by the loss of it and of those found
before them. An error can only come from a provider. -/
theorem dependent_replacements_are_exact (E : Env) (rs : List State) (seen : Seen) (inputs : Nat → List String)
    (differ : Differ) (root : Nat) (t : State) (h : Intact E rs) (ht : rs[root]? = some t) :
    ∃ r, dependentReplacements rs seen inputs differ root = some r ∧
      match r with
      | .error e => ∃ j keys, differ j keys = .error e
      | .ok l => l.Pairwise (· < ·) ∧ ∀ j, j ∈ l ↔ Later rs (fun u => decide (u ∈ seen.urns)) false root j ∧
          ∃ s set, rs[j]? = some s ∧
            (∀ u, u ∈ set ↔ u = t.urn ∨ ∃ (k : Nat) (x : State), k ∈ l ∧ k < j ∧ rs[k]? = some x ∧ x.urn = u) ∧
            Forced inputs differ set j s :=
  dependentReplacements_spec (intact_parsed h) ht

example : dependentReplacements shop nothingSeen (fun _ => ["x"]) (fun _ _ => .ok true) 0 = some (.ok [1]) ∧
    dependentReplacements [plain "a", { plain "b" "" ["a"] with propDeps := [("x", ["a"])] },
      { plain "c" "" ["b"] with propDeps := [("x", ["b"])] }] nothingSeen (fun _ => ["x"])
      (fun j _ => if j = 2 then .error "e" else .ok true) 0 = some (.error "e") := by decide

/-- Every custom resource whose provider is the resource that is replaced, or one that goes with it, goes too. -/
theorem users_of_a_replaced_provider_go (E : Env) (rs : List State) (seen : Seen) (inputs : Nat → List String)
    (differ : Differ) (root : Nat) (l : List Nat) (h : Intact E rs) (ho : Once rs)
    (hr : dependentReplacements rs seen inputs differ root = some (.ok l)) (j k : Nat) (s p : State) (r : Ref)
    (hj : rs[j]? = some s) (hk : rs[k]? = some p) (hkl : k = root ∨ k ∈ l) (hjk : j ≠ k) (hs : s.provider = .ref r)
    (hu : r.urn = p.urn) (hc : s.custom = true) (he : s.external = false) (hn : s.urn ∉ seen.urns) : j ∈ l := by
  have hroot : ∃ t, rs[root]? = some t := by
    unfold dependentReplacements at hr
    cases ht : rs[root]? with
    | none => rw [ht] at hr; cases hr
    | some t => exact ⟨t, rfl⟩
  obtain ⟨t, ht⟩ := hroot
  obtain ⟨r', h1, h2⟩ := dependentReplacements_spec (seen := seen) (inputs := inputs) (differ := differ)
    (intact_parsed h) ht
  rw [hr] at h1; cases h1
  have href : Refers rs j k := ⟨s, p, hj, hk, Or.inr ⟨r, hs, hu⟩⟩
  have hlt : k < j := by have := refers_before h ho href; omega
  rw [h2.2 j]
  have hn' : decide (s.urn ∈ seen.urns) = false := by simpa using hn
  refine ⟨?_, s, t.urn :: (l.filter (fun x => decide (x < j))).filterMap (fun x => (rs[x]?).map (·.urn)), hj, ?_, ?_⟩
  · rcases hkl with rfl | hkl
    · exact .direct hlt hj hn' href
    · exact .through ((h2.2 k).1 hkl).1 hlt hj hn' href
  · intro u
    rw [List.mem_cons, List.mem_filterMap]
    refine or_congr Iff.rfl ?_
    constructor
    · rintro ⟨x, hx, hxu⟩
      rw [List.mem_filter, decide_eq_true_eq] at hx
      obtain ⟨y, hy, e⟩ := Option.map_eq_some_iff.1 hxu
      exact ⟨x, y, hx.1, hx.2, hy, e⟩
    · rintro ⟨x, y, hx, hxj, hy, e⟩
      exact ⟨x, List.mem_filter.2 ⟨hx, by simpa using hxj⟩, by rw [hy]; simp [e]⟩
  · refine ⟨hc, he, Or.inl ⟨r, hs, ?_⟩⟩
    rw [hu, List.mem_cons, List.mem_filterMap]
    rcases hkl with rfl | hkl
    · rw [hk] at ht; cases ht; exact Or.inl rfl
    · exact Or.inr ⟨k, List.mem_filter.2 ⟨hkl, by simpa using hlt⟩, by rw [hk]; rfl⟩

example : dependentReplacements [provider "Q", plain "q" "" [] (.ref ⟨"Q", "id"⟩)] nothingSeen (fun _ => [])
    (fun _ _ => .ok false) 0 = some (.ok [1]) := by decide

/-! ## Targets -/

theorem oldOf_some {rs : List State} (hse : Settled rs) (ho : Once rs) {u : String} {i : Nat} :
    oldOf rs u = some i ↔ ∃ s, rs[i]? = some s ∧ s.urn = u := by
  have hp : ∀ k : Nat, (match rs[k]? with | none => false | some s => !s.delete && decide (s.urn = u)) = true ↔
      ∃ s, rs[k]? = some s ∧ s.urn = u := by
    intro k
    cases hs : rs[k]? with
    | none => simp
    | some s => simp [hse.live s (List.mem_of_getElem? hs)]
  unfold oldOf
  constructor
  · intro h
    have := List.find?_some h
    exact (hp i).1 this
  · rintro ⟨s, hs, e⟩
    cases hf : (List.range rs.length).find? (fun i => match rs[i]? with | none => false | some s => !s.delete && decide (s.urn = u)) with
    | none =>
      rw [List.find?_eq_none] at hf
      exact absurd ((hp i).2 ⟨s, hs, e⟩) (hf i (by simpa using (List.getElem?_eq_some_iff.1 hs).1))
    | some k =>
      have hk := List.find?_some hf
      obtain ⟨s', hs', e'⟩ := (hp k).1 hk
      rw [once_inj ho hs' hs (by rw [e, e'])]

theorem allowedFrom_spec {E} {rs : List State} (h : Intact E rs) (hse : Settled rs) {seen inputs differ targets}
    {all : List String} (hall : ∀ (j : Nat) (s : State), rs[j]? = some s → (s.urn ∈ all ↔ Implicated rs targets j)) :
    ∀ ts : List String, (∀ u ∈ ts, u ∈ all ∧ ∃ s ∈ rs, s.urn = u) →
    ∃ r, allowedFrom rs seen inputs differ ts = some r ∧
      match r with
      | .error e => ∃ j keys, differ j keys = .error e
      | .ok l => (∀ u ∈ ts, u ∈ l) ∧ ∀ u ∈ l, u ∈ all := by
  have ho := settled_once h hse
  intro ts
  induction ts with
  | nil => intro _; exact ⟨_, rfl, by simp, by simp⟩
  | cons t ts ih =>
    intro hts
    obtain ⟨hta, s, hs, rfl⟩ := hts t (by simp)
    obtain ⟨i, hi, rfl⟩ := List.getElem_of_mem hs
    have hget : rs[i]? = some rs[i] := List.getElem?_eq_getElem hi
    have hold : oldOf rs rs[i].urn = some i := (oldOf_some hse ho).2 ⟨_, hget, rfl⟩
    unfold allowedFrom
    rw [hold]; simp only
    obtain ⟨r, hr, hrs⟩ := dependentReplacements_spec (seen := seen) (inputs := inputs) (differ := differ)
      (intact_parsed h) hget
    rw [hr]
    cases r with
    | error e => exact ⟨_, rfl, hrs⟩
    | ok deps =>
      simp only
      obtain ⟨r', hr', hrs'⟩ := ih (fun u hu => hts u (by simp [hu]))
      rw [hr']
      cases r' with
      | error e => exact ⟨_, rfl, hrs'⟩
      | ok l =>
        refine ⟨_, rfl, ?_, ?_⟩
        · intro u hu
          rcases List.mem_cons.1 hu with rfl | hu
          · simp
          · have := hrs'.1 u hu
            simp [this]
        · intro u hu
          rw [List.mem_append, List.mem_cons] at hu
          rcases hu with (rfl | hu) | hu
          · exact hta
          · obtain ⟨d, hd, hdu⟩ := List.mem_filterMap.1 hu
            obtain ⟨x, hx, rfl⟩ := Option.map_eq_some_iff.1 hdu
            have hl := ((hrs.2 d).1 hd).1
            exact (hall d x hx).2 (later_implicated hl ((hall i _ hget).1 hta))
          · exact hrs'.2 u hu

theorem dropped_get {seen rs d} (h : Dropped seen rs d) : ∃ s, rs[d.pos]? = some s := by
  cases d with
  | replaced i => obtain ⟨s, h, _⟩ := h; exact ⟨s, h⟩
  | gone i => obtain ⟨s, h, _⟩ := h; exact ⟨s, h⟩
  | removed i => obtain ⟨s, h, _⟩ := h; exact ⟨s, h⟩

/-- With targets, what the program has dropped is deleted if it is implicated by the targets, and nothing else. If this
takes in something that is not a target, then either dependents of targets were asked for, or the update deletes nothing,
and a preview reports it. Only providers can bring about another error. -/
theorem targeted_deletes_are_exact (E : Env) (rs : List State) (seen : Seen) (inputs : Nat → List String) (differ : Differ)
    (targetDeps preview : Bool) (targets : List String) (h : Intact E rs) (hse : Settled rs) :
    ∃ r, generateDeletes rs seen inputs differ targetDeps preview (some targets) = some r ∧
      match r with
      | .error e => ∃ j keys, differ j keys = .error e
      | .bail => preview = false ∧ targetDeps = false ∧
          ∃ d, Dropped seen rs d ∧ Implicated rs targets d.pos ∧ d.urn rs ∉ targets
      | .deletes l sawError => (l.map (·.pos)).Pairwise (· > ·) ∧
          (∀ d, d ∈ l ↔ Dropped seen rs d ∧ Implicated rs targets d.pos) ∧
          (sawError = true ↔ targetDeps = false ∧ ∃ d ∈ l, d.urn rs ∉ targets) ∧ (sawError = true → preview = true) := by
  obtain ⟨ts, h1, h2, h3⟩ := targetDependents_spec h hse targets
  obtain ⟨r, hr, hrs⟩ := allowedFrom_spec (seen := seen) (inputs := inputs) (differ := differ) h hse h3 ts
    (fun u hu => ⟨hu, h2 u hu⟩)
  unfold generateDeletes
  simp only
  rw [h1]; simp only; rw [hr]
  cases r with
  | error e => exact ⟨_, rfl, hrs⟩
  | ok allowed =>
    simp only
    refine ⟨_, rfl, ?_⟩
    generalize hl : (deletions seen rs).filter (fun d => decide (d.urn rs ∈ allowed)) = l
    have hmem : ∀ d, d ∈ l ↔ Dropped seen rs d ∧ Implicated rs targets d.pos := by
      intro d
      rw [← hl, List.mem_filter, mem_deletions, decide_eq_true_eq]
      refine and_congr_right fun hd => ?_
      obtain ⟨s, hs⟩ := dropped_get hd
      have hu : d.urn rs = s.urn := by unfold Deletion.urn; rw [hs]; rfl
      rw [hu, ← h3 _ s hs]
      exact ⟨hrs.2 _, hrs.1 _⟩
    have hpw : (l.map (·.pos)).Pairwise (· > ·) := by
      rw [← hl]
      exact List.Pairwise.sublist (List.filter_sublist.map _) (deletions_pairwise seen rs)
    have hun : (l.any fun d => !decide (d.urn rs ∈ targets) && !targetDeps) = true ↔
        targetDeps = false ∧ ∃ d ∈ l, d.urn rs ∉ targets := by
      rw [List.any_eq_true]
      constructor
      · rintro ⟨d, hd, hdu⟩
        simp at hdu
        exact ⟨hdu.2, d, hd, hdu.1⟩
      · rintro ⟨ht, d, hd, hdu⟩
        exact ⟨d, hd, by simp [ht, hdu]⟩
    unfold checkTargets
    simp only
    by_cases hb : ((l.any fun d => !decide (d.urn rs ∈ targets) && !targetDeps) && !preview) = true
    · rw [if_pos hb]
      simp only [Bool.and_eq_true, Bool.not_eq_true'] at hb
      obtain ⟨ht, d, hd, hdu⟩ := hun.1 (by simpa using hb.1)
      exact ⟨hb.2, ht, d, ((hmem d).1 hd).1, ((hmem d).1 hd).2, hdu⟩
    · rw [if_neg hb]
      refine ⟨hpw, hmem, hun, fun hs => ?_⟩
      simp only [hs, Bool.true_and] at hb
      simpa using hb

example : generateDeletes shop nothingSeen (fun _ => []) (fun _ _ => .ok false) true false (some ["a"]) =
    some (.deletes [.gone 3, .gone 1] false) ∧
    generateDeletes shop nothingSeen (fun _ => []) (fun _ _ => .ok false) false false (some ["a"]) = some .bail ∧
    generateDeletes shop nothingSeen (fun _ => []) (fun _ _ => .ok false) false true (some ["a"]) =
    some (.deletes [.gone 3, .gone 1] true) := by decide

theorem intact_filter {E : Env} {rs : List State} {p : State → Bool}
    (h : ∀ pre s post, rs = pre ++ s :: post → p s = true → Backed E (pre.filter p) s) : Intact E (rs.filter p) := by
  intro pre s post he
  obtain ⟨l1, l2, rfl, h1, h2⟩ := List.filter_eq_append_iff.1 he
  obtain ⟨a, b, rfl, h3, h4, h5⟩ := List.filter_eq_cons_iff.1 h2
  have := h (l1 ++ a) s b (by simp) h4
  rw [List.filter_append, h1, List.filter_eq_nil_iff.2 h3, List.append_nil] at this
  exact this

/-- When targets of a stack are destroyed and the engine goes on with it, everything that needs a target is destroyed with
it, and what is left of the checkpoint is intact. -/
theorem targeted_destroy_leaves_an_intact_stack (E : Env) (rs : List State) (inputs : Nat → List String) (differ : Differ)
    (targetDeps preview sawError : Bool) (targets : List String) (l : List Deletion) (h : Intact E rs) (hse : Settled rs)
    (hg : generateDeletes rs nothingSeen inputs differ targetDeps preview (some targets) = some (.deletes l sawError)) :
    (∀ i, (∃ d ∈ l, d.pos = i) ↔ i < rs.length ∧ Implicated rs targets i) ∧ Intact E (without rs l) := by
  have ho := settled_once h hse
  obtain ⟨r, hr, hrs⟩ := targeted_deletes_are_exact E rs nothingSeen inputs differ targetDeps preview targets h hse
  rw [hg] at hr; cases hr
  obtain ⟨_, hmem, _⟩ := hrs
  have hun : ∀ u, Unclaimed nothingSeen u := by intro u; simp [Unclaimed, nothingSeen]
  have hpos : ∀ i, (∃ d ∈ l, d.pos = i) ↔ i < rs.length ∧ Implicated rs targets i := by
    intro i
    constructor
    · rintro ⟨d, hd, rfl⟩
      obtain ⟨h1, h2⟩ := (hmem d).1 hd
      obtain ⟨s, hs⟩ := dropped_get h1
      exact ⟨(List.getElem?_eq_some_iff.1 hs).1, h2⟩
    · rintro ⟨hi, him⟩
      have hs : rs[i]? = some rs[i] := List.getElem?_eq_getElem hi
      have hlive := hse.live _ (List.getElem_mem hi)
      cases hpr : rs[i].pendingReplacement with
      | true => exact ⟨.removed i, (hmem _).2 ⟨⟨_, hs, hlive, hpr, hun _⟩, him⟩, rfl⟩
      | false => exact ⟨.gone i, (hmem _).2 ⟨⟨_, hs, hlive, hpr, hun _⟩, him⟩, rfl⟩
  refine ⟨hpos, ?_⟩
  have hkeep : ∀ (i : Nat) (s : State), rs[i]? = some s →
      (decide (s.urn ∉ l.map (Deletion.urn rs)) = true ↔ ¬ Implicated rs targets i) := by
    intro i s hs
    rw [decide_eq_true_eq]
    refine not_congr ?_
    rw [List.mem_map]
    constructor
    · rintro ⟨d, hd, hdu⟩
      obtain ⟨h1, h2⟩ := (hmem d).1 hd
      obtain ⟨s', hs'⟩ := dropped_get h1
      have : d.urn rs = s'.urn := by unfold Deletion.urn; rw [hs']; rfl
      have := once_inj ho hs' hs (by rw [← this, hdu])
      exact this ▸ h2
    · intro him
      obtain ⟨d, hd, hdp⟩ := (hpos i).2 ⟨(List.getElem?_eq_some_iff.1 hs).1, him⟩
      exact ⟨d, hd, by unfold Deletion.urn; rw [hdp, hs]; rfl⟩
  unfold without
  refine intact_filter fun pre s post he hp => ?_
  have hb := h pre s post he
  have hs : rs[pre.length]? = some s := by rw [he]; simp
  have hn := (hkeep _ _ hs).1 hp
  have hfil : ∀ x ∈ pre, (∀ k, rs[k]? = some x → Implicated rs targets k → Implicated rs targets pre.length) →
      x ∈ pre.filter (fun s => decide (s.urn ∉ l.map (Deletion.urn rs))) := by
    intro x hx himp
    rw [List.mem_filter]
    refine ⟨hx, ?_⟩
    obtain ⟨k, hk, rfl⟩ := List.getElem_of_mem hx
    have hget : rs[k]? = some pre[k] := by rw [he, List.getElem?_append_left hk]; exact List.getElem?_eq_getElem hk
    exact (hkeep k _ hget).2 (fun hc => hn (himp k hget hc))
  refine ⟨hb.referenceable, ?_, ?_, ?_, ?_⟩
  · rcases hb.provider with h0 | ⟨r, h1, x, hx, h2⟩
    · exact Or.inl h0
    · refine Or.inr ⟨r, h1, x, ?_, h2⟩
      rw [List.mem_append, List.mem_singleton] at hx ⊢
      rcases hx with hx | hx
      · exact Or.inl (hfil x hx fun k hk => .dependent ⟨s, x, hs, hk, Or.inr ⟨r, h1, h2.2.1.symm⟩⟩)
      · exact Or.inr hx
  · rcases hb.parent with h0 | ⟨x, hx, e⟩
    · exact Or.inl h0
    · exact Or.inr ⟨x, hfil x hx fun k hk => .child hs hk e.symm, e⟩
  · intro d hd
    obtain ⟨x, hx, e⟩ := hb.deps d hd
    exact ⟨x, hfil x hx fun k hk => .dependent ⟨s, x, hs, hk, Or.inl (e ▸ hd)⟩, e⟩
  · rcases hb.unique with h0 | h0
    · exact Or.inl h0
    · exact Or.inr (fun x hx => h0 x (List.mem_filter.1 hx).1)

example : without shop [.gone 3, .gone 1] = [provider "P", component "C", plain "d" "" ["C"]] := by decide

/-- Destroying a stack without targets deletes every resource that is not waiting to be deleted already, and those too. -/
theorem destroy_deletes_everything (rs : List State) (inputs : Nat → List String) (differ : Differ)
    (targetDeps preview : Bool) :
    ∃ l, generateDeletes rs nothingSeen inputs differ targetDeps preview none = some (.deletes l false) ∧
      l.map (·.pos) = (List.range rs.length).reverse := by
  obtain ⟨l, h1, h2, h3⟩ := deletes_what_the_program_dropped nothingSeen rs inputs differ targetDeps preview
  refine ⟨l, h1, ?_⟩
  have hun : ∀ u, Unclaimed nothingSeen u := by intro u; simp [Unclaimed, nothingSeen]
  have hmem : ∀ i, i ∈ l.map (·.pos) ↔ i ∈ (List.range rs.length).reverse := by
    intro i
    rw [List.mem_map, List.mem_reverse, List.mem_range]
    constructor
    · rintro ⟨d, hd, rfl⟩
      obtain ⟨s, hs⟩ := dropped_get ((h3 d).1 hd)
      exact (List.getElem?_eq_some_iff.1 hs).1
    · intro hi
      have hs : rs[i]? = some rs[i] := List.getElem?_eq_getElem hi
      cases hd : rs[i].delete with
      | true => exact ⟨.replaced i, (h3 _).2 ⟨_, hs, hd, by simp [nothingSeen]⟩, rfl⟩
      | false =>
        cases hpr : rs[i].pendingReplacement with
        | true => exact ⟨.removed i, (h3 _).2 ⟨_, hs, hd, hpr, hun _⟩, rfl⟩
        | false => exact ⟨.gone i, (h3 _).2 ⟨_, hs, hd, hpr, hun _⟩, rfl⟩
  have h4 : (List.range rs.length).reverse.Pairwise (· > ·) := by
    rw [List.pairwise_reverse]; exact List.pairwise_lt_range
  have hperm : (l.map (·.pos)).Perm (List.range rs.length).reverse := by
    refine (List.perm_ext_iff_of_nodup ?_ ?_).2 hmem
    · exact h2.imp (fun h => by omega)
    · exact h4.imp (fun h => by omega)
  exact hperm.eq_of_pairwise (fun a b _ _ hab hba => by omega) h2 h4

example : generateDeletes shop nothingSeen (fun _ => []) (fun _ _ => .ok false) false false none =
    some (.deletes [.gone 4, .gone 3, .gone 2, .gone 1, .gone 0] false) := by decide

end Pulumi.DepGraph
