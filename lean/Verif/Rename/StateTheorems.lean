import Verif.Rename.StackTheorems
/-!
# Renaming a resource in a checkpoint
-/
namespace Pulumi.Rename
open Pulumi.Urn
open Pulumi.Snapshot (State Provider Ref Env Snap OpType IntegrityErr Intact Backed Provides verify decExcept)

/-- The resource that has the old URN gets the new one; the others mention the new one where they mentioned the old one
among their dependencies. -/
def renamed (old new : String) (s : State) : State :=
  if s.urn = old then { s with urn := new }
  else { s with
    deps := s.deps.map (fun d => if d = old then new else d)
    propDeps := s.propDeps.map (fun kv => (kv.1, kv.2.map (fun d => if d = old then new else d))) }

/-- The URN is that of exactly one resource. -/
def ExactlyOne (rs : List State) (urn : String) : Prop := ∃ pre s post, rs = pre ++ s :: post ∧ s.urn = urn ∧
  (∀ x ∈ pre, x.urn ≠ urn) ∧ ∀ x ∈ post, x.urn ≠ urn

theorem countP_one {rs : List State} {urn : String} : rs.countP (fun s => decide (s.urn = urn)) = 1 ↔ ExactlyOne rs urn := by
  constructor
  · intro h
    induction rs with
    | nil => simp at h
    | cons s rs ih =>
      rw [List.countP_cons] at h
      by_cases hs : s.urn = urn
      · simp only [hs, decide_true, if_true] at h
        have h0 : rs.countP (fun s => decide (s.urn = urn)) = 0 := by omega
        rw [List.countP_eq_zero] at h0
        exact ⟨[], s, rs, rfl, hs, by simp, fun x hx => by simpa using h0 x hx⟩
      · simp only [hs, decide_false, Bool.false_eq_true, if_false] at h
        obtain ⟨pre, t, post, rfl, ht, h1, h2⟩ := ih (by omega)
        refine ⟨s :: pre, t, post, rfl, ht, ?_, h2⟩
        intro x hx
        rcases List.mem_cons.1 hx with rfl | hx
        · exact hs
        · exact h1 x hx
  · rintro ⟨pre, s, post, rfl, hs, h1, h2⟩
    rw [List.countP_append, List.countP_cons]
    rw [List.countP_eq_zero.2 (fun x hx => by simpa using h1 x hx), List.countP_eq_zero.2 (fun x hx => by simpa using h2 x hx)]
    simp [hs]

/-- The URN the resource gets. -/
def newUrn (st p t : Text) (newName : String) : String := String.ofList (urnText st p t newName.toList)

theorem renameResource_eq {rs : List State} {urn newName : String} {st p t n : Text} (hs : Separable st p t n)
    (he : urn.toList = urnText st p t n) : renameResource rs urn newName =
      if rs.countP (fun s => decide (s.urn = urn)) ≠ 1 then some (.error .noResource)
      else if rs.any (fun s => decide (s.urn = newUrn st p t newName)) then some (.error .taken)
      else some (.ok (rs.map (renamed urn (newUrn st p t newName)))) := by
  unfold renameResource
  rw [he, isValid_text hs, rename_replaces_name hs]
  simp only [Bool.not_true, Bool.false_eq_true, if_false]
  by_cases hc : rs.countP (fun s => decide (s.urn = urn)) = 1
  · have hc' : ¬ rs.countP (fun s => decide (s.urn = urn)) ≠ 1 := fun h => h hc
    rw [if_neg hc', if_neg hc']
    unfold newUrn
    by_cases ha : (rs.any fun s => decide (s.urn = String.ofList (urnText st p t newName.toList))) = true
    · rw [if_pos ha, if_pos ha]
    · rw [if_neg ha, if_neg ha]
      simp only [Option.some.injEq, Except.ok.injEq, List.map_map]
      refine List.map_congr_left (fun s hs => ?_)
      have hne : s.urn ≠ String.ofList (urnText st p t newName.toList) := by
        intro e
        exact ha (List.any_eq_true.2 ⟨s, hs, by simpa using e⟩)
      simp only [Function.comp, renamed, updateReferences, updateDependencies]
      by_cases h : s.urn = urn
      · simp [h]
      · simp [h, hne]
  · rw [if_pos (by simpa using hc), if_pos (by simpa using hc)]

theorem urn_ne_empty {urn : String} {st p t n : Text} (he : urn.toList = urnText st p t n) : urn ≠ "" := by
  rintro rfl
  rw [urnText_eq] at he
  have := congrArg List.length he
  simp [urnPrefix] at this

theorem newUrn_ne_empty (st p t : Text) (newName : String) : newUrn st p t newName ≠ "" :=
  urn_ne_empty (st := st) (p := p) (t := t) (n := newName.toList) (by simp [newUrn])

theorem isValid_name {st p t n m : Text} (h : Separable st p t n) : isValid (urnText st p t m) = true ↔ ¬ HasSep m := by
  constructor
  · intro hv
    unfold isValid at hv
    rw [urnText_eq, prefix_isPrefix, Bool.true_and, decide_eq_true_eq] at hv
    rw [show urnPrefix ++ (st ++ sep ++ (p ++ sep ++ (t ++ sep ++ m))) = (urnPrefix ++ st) ++ sep ++ (p ++ sep ++ (t ++ sep ++ m))
      by simp] at hv
    rw [splitSep_append (stack_field h.cleanStack h.named h.start), splitSep_append h.cleanProject,
      splitSep_append h.cleanType] at hv
    have hp := pieces_split m
    have hj := join_split m
    match hm : splitSep m, hv with
    | [x], _ =>
      rw [hm] at hp hj
      simp only [joinSep] at hj
      rw [← hj]; exact hp.noSep x (by simp)
  · intro hm; exact isValid_text ⟨h.named, h.start, h.cleanStack, h.cleanProject, h.cleanType, hm⟩

theorem validProvider_new {urn : String} {st p t n : Text} {newName : String} (h : Separable st p t n)
    (he : urn.toList = urnText st p t n) (hv : goEnv.validProviderUrn urn = true) :
    goEnv.validProviderUrn (newUrn st p t newName) = true ↔ ¬ HasSep newName.toList := by
  simp only [goEnv, decide_eq_true_eq] at hv ⊢
  rw [newUrn, String.toList_ofList]
  constructor
  · intro hh
    rw [← isValid_name h]
    unfold validateURN at hh
    cases hx : isValid (urnText st p t newName.toList) with
    | true => rfl
    | false => rw [hx] at hh; simp at hh
  · intro hm
    rw [validate_text ⟨h.named, h.start, h.cleanStack, h.cleanProject, h.cleanType, hm⟩, ← validate_text h, ← he]
    exact hv

/-- What the code forgets: children of the resource, and resources it is the provider of, still refer to the old URN; and a
provider's new URN may not be a provider's any more. -/
def Forgotten (rs : List State) (urn newName : String) : Prop :=
  (∃ s ∈ rs, s.parent = urn) ∨ (∃ s ∈ rs, ∃ r, s.provider = .ref r ∧ r.urn = urn) ∨
  (HasSep newName.toList ∧ ∃ s ∈ rs, s.urn = urn ∧ goEnv.isProviderType s.type = true)

theorem renamed_urn_ne {rs : List State} {old new : String} (hne : old ≠ new) {x : State}
    (hx : x ∈ rs.map (renamed old new)) : x.urn ≠ old := by
  obtain ⟨s, _, rfl⟩ := List.mem_map.1 hx
  unfold renamed
  by_cases h : s.urn = old
  · rw [if_pos h]; exact fun e => hne e.symm
  · rw [if_neg h]; exact h

theorem renamed_parent (old new : String) (s : State) : (renamed old new s).parent = s.parent := by
  unfold renamed; split <;> rfl
theorem renamed_provider (old new : String) (s : State) : (renamed old new s).provider = s.provider := by
  unfold renamed; split <;> rfl
theorem renamed_type (old new : String) (s : State) : (renamed old new s).type = s.type := by
  unfold renamed; split <;> rfl

/-- The replacement of one URN. -/
def swap (old new u : String) : String := if u = old then new else u

theorem renamed_strip {rs : List State} {old new : String} (hi : Intact goEnv rs) (hone : ExactlyOne rs old) (hpar : ∀ s ∈ rs, s.parent ≠ old)
    (hprov : ∀ s ∈ rs, ∀ r, s.provider = .ref r → r.urn ≠ old) :
    (rs.map (renamed old new)).map strip = (rs.map strip).map (relabel (swap old new)) := by
  rw [List.map_map, List.map_map]
  refine List.map_congr_left (fun s hs => ?_)
  obtain ⟨pre, post, rfl⟩ := List.append_of_mem hs
  have hb := hi pre s post rfl
  have hp : (if s.parent = "" then "" else swap old new s.parent) = s.parent := by
    by_cases he : s.parent = ""
    · simp [he]
    · rw [if_neg he]; unfold swap; rw [if_neg (hpar s hs)]
  have hq : (relabel (swap old new) (strip s)).provider = s.provider := by
    simp only [relabel, strip]
    cases hx : s.provider with
    | none => rfl
    | malformed m => rfl
    | ref r => simp only; unfold swap; rw [if_neg (hprov s hs r hx)]
  have hall : relabel (swap old new) (strip s) = { s with
      urn := swap old new s.urn
      parent := if s.parent = "" then "" else swap old new s.parent
      deps := s.deps.map (swap old new)
      propDeps := []
      provider := (relabel (swap old new) (strip s)).provider } := rfl
  simp only [Function.comp]
  rw [hall, hp, hq]
  unfold renamed swap
  by_cases h : s.urn = old
  · rw [if_pos h, if_pos h]
    have hd : s.deps.map (fun u => if u = old then new else u) = s.deps := by
      conv => rhs; rw [← List.map_id s.deps]
      refine List.map_congr_left (fun d hd => ?_)
      rw [if_neg]; · rfl
      rintro rfl
      -- a resource that depends on itself has another before it
      obtain ⟨x, hx, hxe⟩ := hb.deps d hd
      have hc := countP_one.2 hone
      rw [List.countP_append, List.countP_cons] at hc
      have hpos : 0 < pre.countP (fun s => decide (s.urn = d)) :=
        List.countP_pos_iff.2 ⟨x, hx, by simpa using hxe⟩
      simp only [h, decide_true, if_true] at hc
      omega
    rw [hd]; rfl
  · rw [if_neg h, if_neg h]; rfl

theorem exactlyOne_mem {rs : List State} {urn : String} (h : ExactlyOne rs urn) : ∃ s ∈ rs, s.urn = urn := by
  obtain ⟨pre, s, post, rfl, hs, _, _⟩ := h
  exact ⟨s, by simp, hs⟩

theorem cited_present {rs : List State} (hi : Intact goEnv rs) {s : State} (hs : s ∈ rs.map strip) {u : String}
    (hm : Mentions s u) : ∃ x ∈ rs, x.urn = u := by
  obtain ⟨s, hs0, rfl⟩ := List.mem_map.1 hs
  obtain ⟨pre, post, rfl⟩ := List.append_of_mem hs0
  have hb := hi pre s post rfl
  have hpre : ∀ x ∈ pre, x ∈ pre ++ s :: post := fun x hx => by simp [hx]
  rcases hm with rfl | ⟨rfl, hne⟩ | h | ⟨kv, hkv, h⟩ | ⟨r, hr, rfl⟩
  · exact ⟨s, by simp, rfl⟩
  · rcases hb.parent with h | ⟨x, hx, h⟩
    · exact absurd h hne
    · exact ⟨x, hpre x hx, h⟩
  · obtain ⟨x, hx, h⟩ := hb.deps u h
    exact ⟨x, hpre x hx, h⟩
  · cases hkv
  · rcases hb.provider with h | ⟨r', hr', x, hx, h⟩
    · simp only [strip] at hr; rw [h] at hr; cases hr
    · simp only [strip] at hr
      rw [hr] at hr'; cases hr'
      refine ⟨x, ?_, h.2.1⟩
      rcases List.mem_append.1 hx with hx | hx
      · exact hpre x hx
      · simp at hx; subst hx; simp

theorem faithful_swap {rs : List State} {urn : String} {st p t n : Text} {newName : String} (hs : Separable st p t n)
    (he : urn.toList = urnText st p t n) (hi : Intact goEnv rs) (hfree : ∀ s ∈ rs, s.urn ≠ newUrn st p t newName)
    (hok : ∀ s ∈ rs, s.urn = urn → goEnv.isProviderType s.type = true → ¬ HasSep newName.toList) :
    Faithful goEnv (swap urn (newUrn st p t newName)) (rs.map strip) := by
  constructor
  · intro s hs' t' ht u v hu hv e
    obtain ⟨x, hx, rfl⟩ := cited_present hi hs' hu
    obtain ⟨y, hy, rfl⟩ := cited_present hi ht hv
    unfold swap at e
    by_cases h1 : x.urn = urn
    · by_cases h2 : y.urn = urn
      · rw [h1, h2]
      · rw [if_pos h1, if_neg h2] at e; exact absurd e.symm (hfree y hy)
    · by_cases h2 : y.urn = urn
      · rw [if_neg h1, if_pos h2] at e; exact absurd e (hfree x hx)
      · rw [if_neg h1, if_neg h2] at e; exact e
  · intro s hs' u hu
    unfold swap
    by_cases h : u = urn
    · rw [if_pos h, h]
      exact ⟨fun e => absurd e (newUrn_ne_empty _ _ _ _), fun e => absurd e (urn_ne_empty he)⟩
    · rw [if_neg h]
  · intro s hs' hp hv
    obtain ⟨s, hs0, rfl⟩ := List.mem_map.1 hs'
    unfold swap
    by_cases h : (strip s).urn = urn
    · rw [if_pos h]
      rw [h] at hv
      exact (validProvider_new hs he hv).2 (hok s hs0 h hp)
    · rw [if_neg h]; exact hv

/-- What `pulumi state rename` does to an intact checkpoint, given the URN of a resource: there must be exactly one resource
with that URN, and none with the new one. -/
theorem state_rename_refuses {snap : Snap} {urn newName : String} {st p t n : Text} (hs : Separable st p t n)
    (he : urn.toList = urnText st p t n) :
    (stateRename snap urn newName = some (.error .noResource) ↔ ¬ ExactlyOne snap.resources urn) ∧
    (stateRename snap urn newName = some (.error .taken) ↔
      ExactlyOne snap.resources urn ∧ ∃ s ∈ snap.resources, s.urn = newUrn st p t newName) := by
  unfold stateRename
  rw [renameResource_eq hs he, ← countP_one]
  by_cases hc : snap.resources.countP (fun s => decide (s.urn = urn)) = 1
  · rw [if_neg (fun h => h hc)]
    by_cases ha : (snap.resources.any fun s => decide (s.urn = newUrn st p t newName)) = true
    · rw [if_pos ha]
      simp only [hc, not_true, Option.some.injEq, Except.error.injEq, reduceCtorEq, true_and, true_iff]
      obtain ⟨s, h1, h2⟩ := List.any_eq_true.1 ha
      exact ⟨s, h1, by simpa using h2⟩
    · rw [if_neg ha]
      have hn : ¬ ∃ s ∈ snap.resources, s.urn = newUrn st p t newName := by
        rintro ⟨s, h1, h2⟩
        exact ha (List.any_eq_true.2 ⟨s, h1, by simpa using h2⟩)
      simp only [hc, not_true, hn, and_false, iff_false]
      constructor <;> (split <;> simp)
  · rw [if_pos hc]
    simp [hc]

/-- If there is exactly one such resource and the new URN is free, an intact checkpoint is renamed unless the resource has
children or is the provider of some resource, or is a provider whose new name has the separator in it: then the command
crashes, with nothing saved. -/
theorem state_rename_crashes_iff {snap : Snap} {urn newName : String} {st p t n : Text} (hs : Separable st p t n)
    (he : urn.toList = urnText st p t n) (hi : Intact goEnv snap.resources) (hone : ExactlyOne snap.resources urn)
    (hfree : ∀ s ∈ snap.resources, s.urn ≠ newUrn st p t newName) :
    stateRename snap urn newName = none ↔ Forgotten snap.resources urn newName := by
  have hne : urn ≠ newUrn st p t newName := by
    obtain ⟨s, h1, h2⟩ := exactlyOne_mem hone
    rw [← h2]; exact hfree s h1
  have hst : stateRename snap urn newName = none ↔
      ¬ Intact goEnv (snap.resources.map (renamed urn (newUrn st p t newName))) := by
    unfold stateRename
    rw [renameResource_eq hs he, if_neg (fun h => h (countP_one.2 hone)), if_neg (by simpa using hfree)]
    simp only
    rw [(Snapshot.verify_iff_intact goEnv snap).2 hi]
    rw [← Snapshot.verify_iff_intact goEnv ⟨snap.resources.map (renamed urn (newUrn st p t newName)), snap.ops⟩]
    cases hv : verify goEnv ⟨snap.resources.map (renamed urn (newUrn st p t newName)), snap.ops⟩ with
    | ok x => simp
    | error e => simp
  rw [hst]
  constructor
  · intro h
    refine Classical.byContradiction fun hn => h ?_
    unfold Forgotten at hn
    simp only [not_or, not_exists, not_and] at hn
    obtain ⟨h1, h2, h3⟩ := hn
    rw [← strip_intact, renamed_strip hi hone h1 (fun s hs r hr => h2 s hs r hr)]
    exact relabel_intact (faithful_swap hs he hi hfree (fun s hs hu hp hsep => h3 hsep s hs hu hp)) (strip_intact.2 hi)
  · intro hf h
    have hback : ∀ s ∈ snap.resources, ∃ pre, (∀ x ∈ pre, x.urn ≠ urn) ∧
        Backed goEnv pre (renamed urn (newUrn st p t newName) s) := by
      intro s hs'
      obtain ⟨pre, post, e⟩ := List.append_of_mem hs'
      refine ⟨pre.map (renamed urn (newUrn st p t newName)), fun x hx => renamed_urn_ne hne hx, ?_⟩
      exact h _ _ (post.map (renamed urn (newUrn st p t newName))) (by rw [e]; simp)
    rcases hf with ⟨s, hs', hp⟩ | ⟨s, hs', r, hr, hp⟩ | ⟨hsep, s, hs', hu, hp⟩
    · obtain ⟨pre, hpre, hb⟩ := hback s hs'
      rcases hb.parent with h1 | ⟨x, hx, h1⟩
      · rw [renamed_parent, hp] at h1; exact urn_ne_empty he h1
      · rw [renamed_parent, hp] at h1; exact hpre x hx h1
    · obtain ⟨pre, hpre, hb⟩ := hback s hs'
      rcases hb.provider with h1 | ⟨r', hr', x, hx, h1⟩
      · rw [renamed_provider, hr] at h1; cases h1
      · rw [renamed_provider, hr] at hr'; cases hr'
        have hxu : x.urn = urn := h1.2.1.trans hp
        rcases List.mem_append.1 hx with hx | hx
        · exact hpre x hx hxu
        · simp only [List.mem_singleton] at hx
          subst hx
          exact renamed_urn_ne (rs := [s]) hne (by simp) hxu
    · obtain ⟨pre, hpre, hb⟩ := hback s hs'
      have h1 := hb.referenceable (by rw [renamed_type]; exact hp)
      obtain ⟨pre0, post0, e⟩ := List.append_of_mem hs'
      have h2 := (hi pre0 s post0 e).referenceable hp
      unfold renamed at h1
      rw [if_pos hu] at h1
      rw [hu] at h2
      exact (validProvider_new hs he h2).1 h1 hsep

/-- What a renaming saves: only the name of that resource has changed, in its URN and among the dependencies of the others.
Pending operations stay as they were. The checkpoint is intact, and each resource refers to the ones it referred to before. -/
theorem state_rename_renames {snap snap' : Snap} {urn newName : String} {st p t n : Text} (hs : Separable st p t n)
    (he : urn.toList = urnText st p t n) (hi : Intact goEnv snap.resources)
    (h : stateRename snap urn newName = some (.ok snap')) :
    snap'.resources = snap.resources.map (renamed urn (newUrn st p t newName)) ∧ snap'.ops = snap.ops ∧
    Intact goEnv snap'.resources ∧ SameReferences snap.resources snap'.resources := by
  have hone : ExactlyOne snap.resources urn := by
    refine Classical.byContradiction fun hn => ?_
    rw [(state_rename_refuses hs he).1.2 hn] at h; simp at h
  have hfree : ∀ s ∈ snap.resources, s.urn ≠ newUrn st p t newName := by
    intro s hs' e
    rw [(state_rename_refuses hs he).2.2 ⟨hone, s, hs', e⟩] at h; simp at h
  have hnf : ¬ Forgotten snap.resources urn newName := by
    intro hf
    rw [(state_rename_crashes_iff hs he hi hone hfree).2 hf] at h; cases h
  have hr : snap' = ⟨snap.resources.map (renamed urn (newUrn st p t newName)), snap.ops⟩ := by
    unfold stateRename at h
    rw [renameResource_eq hs he, if_neg (fun h => h (countP_one.2 hone)), if_neg (by simpa using hfree)] at h
    simp only at h
    split at h
    · cases h
    · simp only [Option.some.injEq, Except.ok.injEq] at h; exact h.symm
  subst hr
  unfold Forgotten at hnf
  simp only [not_or, not_exists, not_and] at hnf
  obtain ⟨h1, h2, h3⟩ := hnf
  have hfa := faithful_swap hs he hi hfree (fun s hs hu hp hsep => h3 hsep s hs hu hp)
  have hstrip := renamed_strip (new := newUrn st p t newName) hi hone h1 (fun s hs r hr => h2 s hs r hr)
  refine ⟨rfl, rfl, ?_, ?_⟩
  · simp only
    rw [← strip_intact, hstrip]
    exact relabel_intact hfa (strip_intact.2 hi)
  · simp only
    refine strip_sameReferences ?_
    rw [hstrip]
    exact relabel_sameReferences hfa

theorem logo_fields : ∃ st p t n, Separable st p t n ∧ "urn:pulumi:dev::shop::aws:s3/object:Object::logo".toList = urnText st p t n :=
  (valid_urn_iff _).1 (by decide +kernel)

example : ∃ snap', stateRename shop "urn:pulumi:dev::shop::aws:s3/object:Object::logo" "icon" = some (.ok snap') ∧
    "urn:pulumi:dev::shop::aws:s3/object:Object::icon" ∈ snap'.resources.map (·.urn) ∧ snap'.ops = shop.ops ∧
    snap'.ops.map (·.1.urn) = ["urn:pulumi:dev::shop::aws:s3/object:Object::logo"] :=
  ⟨⟨shop.resources.map (renamed "urn:pulumi:dev::shop::aws:s3/object:Object::logo"
    "urn:pulumi:dev::shop::aws:s3/object:Object::icon"), shop.ops⟩, by decide +kernel⟩

/-- Renaming the component that holds the bucket crashes, and so does renaming the provider. -/
example : stateRename shop "urn:pulumi:dev::shop::my:mod:Comp::c" "d" = none ∧
    stateRename shop "urn:pulumi:dev::shop::pulumi:providers:aws::default" "other" = none := by decide +kernel

example : stateRename shop "urn:pulumi:dev::shop::aws:s3/object:Object::absent" "x" = some (.error .noResource) ∧
    stateRename shop "urn:pulumi:dev::shop::my:mod:Comp$aws:s3/bucket:Bucket::images" "images" = some (.error .taken) := by
  decide +kernel

/-- A URN that fails the check of its form is refused, whatever the checkpoint. -/
theorem state_rename_checks_urn (snap : Snap) (urn newName : String) :
    isValid urn.toList = false → stateRename snap urn newName = some (.error .invalidUrn) := by
  intro h
  unfold stateRename renameResource
  rw [h]
  rfl

/-- A resource other than a provider may be given a name with the separator in it. Nothing is wrong with the checkpoint then,
but the resource cannot be renamed again. -/
theorem rename_may_be_final {snap snap' : Snap} {urn newName : String} {st p t n : Text} (hs : Separable st p t n)
    (he : urn.toList = urnText st p t n) (hi : Intact goEnv snap.resources) (hsep : HasSep newName.toList)
    (h : stateRename snap urn newName = some (.ok snap')) :
    (∃ s ∈ snap'.resources, s.urn = newUrn st p t newName) ∧
    ∀ again, stateRename snap' (newUrn st p t newName) again = some (.error .invalidUrn) := by
  constructor
  · rw [(state_rename_renames hs he hi h).1]
    have hone : ExactlyOne snap.resources urn := by
      refine Classical.byContradiction fun hn => ?_
      rw [(state_rename_refuses hs he).1.2 hn] at h; simp at h
    obtain ⟨s, h1, h2⟩ := exactlyOne_mem hone
    refine ⟨_, List.mem_map_of_mem h1, ?_⟩
    unfold renamed; rw [if_pos h2]
  · intro again
    refine state_rename_checks_urn _ _ _ ?_
    rw [newUrn, String.toList_ofList]
    cases hx : isValid (urnText st p t newName.toList) with
    | false => rfl
    | true => exact absurd hsep ((isValid_name hs).1 hx)

example : ∃ snap', stateRename shop "urn:pulumi:dev::shop::aws:s3/object:Object::logo" "a::b" = some (.ok snap') ∧
    HasSep "a::b".toList :=
  ⟨⟨shop.resources.map (renamed "urn:pulumi:dev::shop::aws:s3/object:Object::logo"
    "urn:pulumi:dev::shop::aws:s3/object:Object::a::b"), shop.ops⟩, by decide +kernel, ['a'], ['b'], rfl⟩

end Pulumi.Rename
