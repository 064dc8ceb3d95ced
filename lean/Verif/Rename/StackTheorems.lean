import Verif.Rename.Relabel
import Verif.Rename.UrnTheorems
import Verif.Snapshot.IntegrityDecide
/-!
# Renaming a stack
-/
namespace Pulumi.Rename
open Pulumi.Urn
open Pulumi.Snapshot (State Provider Ref Env Snap OpType IntegrityErr Intact Backed Provides verify decExcept)

/-- The checkpoint with every URN replaced, those of pending operations too. -/
def relabelSnap (f : String → String) (snap : Snap) : Snap :=
  ⟨snap.resources.map (relabel f), snap.ops.map (fun so => (relabel f so.1, so.2))⟩

theorem homogeneous_atHome {st p : Text} {snap : Snap} (h : Homogeneous st p snap) {s : State}
    (hs : s ∈ snap.resources ∨ ∃ op, (s, op) ∈ snap.ops) : AtHome st p s := h s hs

theorem urnOf_ne {s p : Text} {u : String} (h : UrnOf s p u.toList) : u ≠ "" := by
  rintro rfl
  obtain ⟨t, n, _, e⟩ := urnOf_valid h
  rw [urnText_eq] at e
  have := congrArg List.length e
  simp [urnPrefix] at this

theorem toList_inj {a b : String} (h : a.toList = b.toList) : a = b := by
  rw [← String.ofList_toList (s := a), h, String.ofList_toList]

theorem renameStack_eq {st p : Text} {newName newProject : String} {snap : Snap} (hh : Homogeneous st p snap)
    (hi : Intact goEnv snap.resources) (hs : GoodStack newName.toList) (hp : CleanField (projectFor newProject.toList p)) :
    renameStack newName newProject snap = some (.ok (relabelSnap (moved newName newProject) snap)) := by
  unfold renameStack
  rw [(Snapshot.verify_iff_intact goEnv snap).2 hi]
  simp only
  rw [rewriteStates_spec hs hp snap.resources (fun s hs => hh s (.inl hs)),
    rewriteOps_spec hs hp snap.ops (fun so hso => hh so.1 (.inr ⟨so.2, hso⟩))]
  rfl

theorem moved_spec {st p : Text} {newName newProject : String} {snap : Snap} (hh : Homogeneous st p snap)
    (hs : GoodStack newName.toList) (hp : CleanField (projectFor newProject.toList p)) {s : State}
    (hm : s ∈ snap.resources ∨ ∃ op, (s, op) ∈ snap.ops) {u : String} (hu : Mentions s u) :
    Moved st p newName.toList (projectFor newProject.toList p) u.toList (moved newName newProject u).toList ∧
    validateURN (moved newName newProject u).toList = validateURN u.toList :=
  (rewriteUrn_spec ((hh s hm).1 u hu) hs hp).2

theorem faithful_moved {st p : Text} {newName newProject : String} {snap : Snap} (hh : Homogeneous st p snap)
    (hs : GoodStack newName.toList) (hp : CleanField (projectFor newProject.toList p)) :
    Faithful goEnv (moved newName newProject) snap.resources := by
  constructor
  · intro s hm t ht u v hu hv he
    have h1 := (moved_spec (newProject := newProject) hh hs hp (.inl hm) hu).1
    have h2 := (moved_spec (newProject := newProject) hh hs hp (.inl ht) hv).1
    rw [← he] at h2
    exact toList_inj (moved_inj h1 h2)
  · intro s hm u hu
    have h1 := (moved_spec (newProject := newProject) hh hs hp (.inl hm) hu).1
    exact ⟨fun e => absurd e (urnOf_ne (moved_right h1)), fun e => absurd e (urnOf_ne (moved_left h1))⟩
  · intro s hm _ hv
    have h1 := (moved_spec (newProject := newProject) hh hs hp (.inl hm) (mentions_urn s)).2
    simp only [goEnv, decide_eq_true_eq] at hv ⊢
    rw [h1]; exact hv

theorem relabel_homogeneous {st p st' p' : Text} {f : String → String} {snap : Snap} (hh : Homogeneous st p snap)
    (hm : ∀ s, (s ∈ snap.resources ∨ ∃ op, (s, op) ∈ snap.ops) → ∀ u, Mentions s u →
      Moved st p st' p' u.toList (f u).toList ∧ validateURN (f u).toList = validateURN u.toList) :
    Homogeneous st' p' (relabelSnap f snap) := by
  intro s' hs'
  have : ∃ s, (s ∈ snap.resources ∨ ∃ op, (s, op) ∈ snap.ops) ∧ s' = relabel f s := by
    rcases hs' with h | ⟨op, h⟩
    · obtain ⟨s, hs, rfl⟩ := List.mem_map.1 h
      exact ⟨s, .inl hs, rfl⟩
    · obtain ⟨⟨s, op'⟩, hs, he⟩ := List.mem_map.1 h
      cases he
      exact ⟨s, .inr ⟨_, hs⟩, rfl⟩
  obtain ⟨s, hs, rfl⟩ := this
  constructor
  · intro v hv
    obtain ⟨u, hu, rfl⟩ := (relabel_mentions (fun u hu => urnOf_ne (moved_right (hm s hs u hu).1))).1 hv
    exact moved_right (hm s hs u hu).1
  · have h2 := (hh s hs).2
    simp only [relabel]
    cases hq : s.provider with
    | none => trivial
    | malformed m => rw [hq] at h2; exact h2
    | ref r =>
      rw [hq] at h2
      simp only
      rw [(hm s hs r.urn (.inr (.inr (.inr (.inr ⟨r, hq, rfl⟩))))).2]
      exact h2

/-! ## Checking a checkpoint by evaluation -/

def urnOfB (st p u : Text) : Bool :=
  isValid u && !("urn:pulumi::".toList.isPrefixOf u) && decide (stackOf u = some st) && decide (projectOf u = some p) &&
    (decide (qualifiedType u ≠ some stackType) || decide (nameOf u = some (p ++ '-' :: st)))

theorem urnOfB_sound {st p u : Text} (h : urnOfB st p u = true) : UrnOf st p u := by
  simp only [urnOfB, Bool.and_eq_true, Bool.or_eq_true, decide_eq_true_eq, Bool.not_eq_true'] at h
  obtain ⟨⟨⟨⟨h1, h2⟩, h3⟩, h4⟩, h5⟩ := h
  obtain ⟨s, q, t, n, hs, rfl⟩ := (valid_urn_iff u).1 ⟨h1, by
    intro hp; rw [← List.isPrefixOf_iff_prefix] at hp; rw [hp] at h2; cases h2⟩
  unfold stackOf at h3; unfold projectOf at h4; unfold qualifiedType nameOf at h5
  rw [part_text hs] at h3 h4 h5
  rw [part_text hs] at h5
  simp only [List.getElem?_cons_succ, List.getElem?_cons_zero, Option.some.injEq] at h3 h4 h5
  subst h3 h4
  by_cases ht : t = stackType
  · subst ht
    rcases h5 with h5 | rfl
    · exact absurd rfl h5
    · exact .root hs
  · exact .resource ht hs

def mentionList (s : State) : List String :=
  s.urn :: (if s.parent = "" then [] else [s.parent]) ++ s.deps ++ s.propDeps.flatMap (·.2) ++
    (match s.provider with | .ref r => [r.urn] | _ => [])

theorem mentions_mem {s : State} {u : String} (h : Mentions s u) : u ∈ mentionList s := by
  unfold mentionList
  rcases h with rfl | ⟨rfl, hne⟩ | h | ⟨kv, hkv, h⟩ | ⟨r, hr, rfl⟩
  · simp
  · simp [hne]
  · simp [h]
  · simp only [List.mem_append, List.mem_flatMap]
    exact .inl (.inr ⟨kv, hkv, h⟩)
  · rw [hr]; simp

def homogeneousB (st p : Text) (snap : Snap) : Bool :=
  (snap.resources ++ snap.ops.map (·.1)).all (fun s => (mentionList s).all (fun u => urnOfB st p u.toList) &&
    match s.provider with
    | .none => true
    | .malformed _ => false
    | .ref r => decide (validateURN r.urn.toList = some true))

theorem homogeneousB_sound {st p : Text} {snap : Snap} (h : homogeneousB st p snap = true) : Homogeneous st p snap := by
  intro s hs
  unfold homogeneousB at h
  rw [List.all_eq_true] at h
  have hm : s ∈ snap.resources ++ snap.ops.map (·.1) := by
    rcases hs with hs | ⟨op, hs⟩
    · simp [hs]
    · simp only [List.mem_append, List.mem_map]; exact .inr ⟨_, hs, rfl⟩
  have := h s hm
  rw [Bool.and_eq_true, List.all_eq_true] at this
  refine ⟨fun u hu => urnOfB_sound (this.1 u (mentions_mem hu)), ?_⟩
  have h2 := this.2
  cases hq : s.provider with
  | none => trivial
  | malformed m => rw [hq] at h2; cases h2
  | ref r => rw [hq] at h2; simpa using h2

theorem goodStack_of {s : String} (h : isValid (urnText s.toList ['p'] ['t'] ['n']) = true ∧ s.toList ≠ [] ∧
    s.toList.head? ≠ some ':' ∧ stackOf (urnText s.toList ['p'] ['t'] ['n']) = some s.toList ∧
    projectOf (urnText s.toList ['p'] ['t'] ['n']) = some ['p'] ∧
    qualifiedType (urnText s.toList ['p'] ['t'] ['n']) = some ['t'] ∧
    nameOf (urnText s.toList ['p'] ['t'] ['n']) = some ['n']) : GoodStack s.toList := by
  obtain ⟨_, h2, h3, h4, h5, h6, h7⟩ := h
  have := (urn_fields_read_back s.toList ['p'] [] ['t'] ['n']).1 (by
    rw [newURN_text]; exact ⟨h4, h5, h6, h7⟩)
  exact ⟨h2, fun a ha => h3 (by rw [ha]; rfl), this.1⟩

/-- A stack with its own resource, a provider, a bucket made by it within a component, and an object that depends on the
bucket and is being updated. -/
def shop : Snap :=
  let blank : State := ⟨"", "", true, false, "", "", "", "", false, false, [], .none, [], false, [], "", false, ""⟩
  let stk := "urn:pulumi:dev::shop::pulumi:pulumi:Stack::shop-dev"
  let prov := "urn:pulumi:dev::shop::pulumi:providers:aws::default"
  let comp := "urn:pulumi:dev::shop::my:mod:Comp::c"
  let bucket := "urn:pulumi:dev::shop::my:mod:Comp$aws:s3/bucket:Bucket::images"
  let object := "urn:pulumi:dev::shop::aws:s3/object:Object::logo"
  let o := { blank with urn := object, type := "aws:s3/object:Object", id := "o", parent := stk, deps := [bucket],
                        propDeps := [("bucket", [bucket])], provider := .ref ⟨prov, "04da"⟩ }
  ⟨[{ blank with urn := stk, type := "pulumi:pulumi:Stack", custom := false },
    { blank with urn := prov, type := "pulumi:providers:aws", id := "04da", parent := stk },
    { blank with urn := comp, type := "my:mod:Comp", custom := false, parent := stk },
    { blank with urn := bucket, type := "aws:s3/bucket:Bucket", id := "b", parent := comp, provider := .ref ⟨prov, "04da"⟩ },
    o], [(o, .updating)]⟩

theorem shop_home : Homogeneous "dev".toList "shop".toList shop := homogeneousB_sound (by decide +kernel)
theorem shop_intact : Intact goEnv shop.resources :=
  (Snapshot.verify_iff_intact goEnv shop).1 (by decide +kernel)
theorem prod_good : GoodStack "prod".toList := goodStack_of (by decide +kernel)
theorem dev_good : GoodStack "dev".toList := goodStack_of (by decide +kernel)
theorem shop_clean : CleanField "shop".toList := (goodStack_of (s := "shop") (by decide +kernel)).clean

/-- The full claim is for every intact checkpoint; it is false (`rename_stack_may_merge`, `rename_stack_may_crash`). This is
renaming a stack, and perhaps its project, when every URN in the checkpoint belongs to the stack: it succeeds. Every URN
becomes that of the same resource in the new stack, and nothing else changes in any resource or pending operation. The result
belongs to the new stack, is intact, and each of its resources refers to the ones it referred to before. -/
theorem rename_stack_moves_everything_partial {stack project : Text} {newName newProject : String} {snap : Snap}
    (hh : Homogeneous stack project snap) (hi : Intact goEnv snap.resources) (hs : GoodStack newName.toList)
    (hp : CleanField (projectFor newProject.toList project)) :
    ∃ f, renameStack newName newProject snap = some (.ok (relabelSnap f snap)) ∧
      (∀ s, (s ∈ snap.resources ∨ ∃ op, (s, op) ∈ snap.ops) → ∀ u, Mentions s u →
        Moved stack project newName.toList (projectFor newProject.toList project) u.toList (f u).toList) ∧
      Homogeneous newName.toList (projectFor newProject.toList project) (relabelSnap f snap) ∧
      Intact goEnv (relabelSnap f snap).resources ∧ SameReferences snap.resources (relabelSnap f snap).resources :=
  ⟨moved newName newProject, renameStack_eq hh hi hs hp, fun _ hm _ hu => (moved_spec hh hs hp hm hu).1,
    relabel_homogeneous hh (fun _ hm _ hu => moved_spec hh hs hp hm hu), relabel_intact (faithful_moved hh hs hp) hi,
    relabel_sameReferences (faithful_moved hh hs hp)⟩

example : (renameStack "prod" "" shop).map (fun r => match r with | .ok s => s.resources.map (·.urn) | .error _ => []) =
    some ["urn:pulumi:prod::shop::pulumi:pulumi:Stack::shop-prod", "urn:pulumi:prod::shop::pulumi:providers:aws::default",
      "urn:pulumi:prod::shop::my:mod:Comp::c", "urn:pulumi:prod::shop::my:mod:Comp$aws:s3/bucket:Bucket::images",
      "urn:pulumi:prod::shop::aws:s3/object:Object::logo"] := by decide +kernel

example : ∃ f, renameStack "prod" "" shop = some (.ok (relabelSnap f shop)) :=
  (rename_stack_moves_everything_partial (newProject := "") shop_home shop_intact prod_good shop_clean).imp (fun _ h => h.1)

theorem relabel_relabel {f g : String → String} {s : State} (hf : ∀ u, Mentions s u → f u ≠ "" ∧ g (f u) = u) :
    relabel g (relabel f s) = s := by
  have hd : (s.deps.map f).map g = s.deps := by
    rw [List.map_map]
    conv => rhs; rw [← List.map_id s.deps]
    exact List.map_congr_left (fun u hu => (hf u (.inr (.inr (.inl hu)))).2)
  have hpd : (s.propDeps.map (fun kv => (kv.1, kv.2.map f))).map (fun kv => (kv.1, kv.2.map g)) = s.propDeps := by
    rw [List.map_map]
    conv => rhs; rw [← List.map_id s.propDeps]
    refine List.map_congr_left (fun kv hkv => ?_)
    obtain ⟨k, us⟩ := kv
    simp only [Function.comp, id, Prod.mk.injEq, true_and]
    rw [List.map_map]
    conv => rhs; rw [← List.map_id us]
    exact List.map_congr_left (fun u hu => (hf u (.inr (.inr (.inr (.inl ⟨_, hkv, hu⟩))))).2)
  have hu := (hf s.urn (.inl rfl)).2
  have hpa : (if (if s.parent = "" then "" else f s.parent) = "" then "" else g (if s.parent = "" then "" else f s.parent)) =
      s.parent := by
    by_cases he : s.parent = ""
    · simp [he]
    · have := hf s.parent (.inr (.inl ⟨rfl, he⟩))
      rw [if_neg he, if_neg this.1, this.2]
  have hpr : (relabel g (relabel f s)).provider = s.provider := by
    simp only [relabel]
    cases hq : s.provider with
    | none => rfl
    | malformed m => rfl
    | ref r => simp only; rw [(hf r.urn (.inr (.inr (.inr (.inr ⟨r, hq, rfl⟩))))).2]
  have hall : relabel g (relabel f s) = { s with
      urn := g (f s.urn)
      parent := if (if s.parent = "" then "" else f s.parent) = "" then "" else g (if s.parent = "" then "" else f s.parent)
      deps := (s.deps.map f).map g
      propDeps := (s.propDeps.map (fun kv => (kv.1, kv.2.map f))).map (fun kv => (kv.1, kv.2.map g))
      provider := (relabel g (relabel f s)).provider } := rfl
  rw [hall, hd, hpd, hu, hpa, hpr]

/-- Renaming a stack back to what it was restores the checkpoint. -/
theorem rename_stack_back {stack project : String} {newName newProject back : String} {snap snap' : Snap}
    (hh : Homogeneous stack.toList project.toList snap) (hi : Intact goEnv snap.resources) (hold : GoodStack stack.toList)
    (hs : GoodStack newName.toList) (hp : CleanField (projectFor newProject.toList project.toList))
    (hold' : CleanField project.toList)
    (hb : projectFor back.toList (projectFor newProject.toList project.toList) = project.toList)
    (hr : renameStack newName newProject snap = some (.ok snap')) : renameStack stack back snap' = some (.ok snap) := by
  have hsp := fun (s : State) hm (u : String) hu => moved_spec (newProject := newProject) (s := s) (u := u) hh hs hp hm hu
  rw [renameStack_eq hh hi hs hp] at hr
  simp only [Option.some.injEq, Except.ok.injEq] at hr
  subst hr
  have hh' := relabel_homogeneous hh hsp
  have hp' : CleanField (projectFor back.toList (projectFor newProject.toList project.toList)) := by rw [hb]; exact hold'
  rw [renameStack_eq hh' (relabel_intact (faithful_moved hh hs hp) hi) hold hp']
  simp only [Option.some.injEq, Except.ok.injEq]
  have key : ∀ s, (s ∈ snap.resources ∨ ∃ op, (s, op) ∈ snap.ops) →
      relabel (moved stack back) (relabel (moved newName newProject) s) = s := by
    intro s hm
    refine relabel_relabel (fun u hu => ?_)
    have h1 := (hsp s hm u hu).1
    refine ⟨urnOf_ne (moved_right h1), ?_⟩
    have h2 := (rewriteUrn_spec (newProject := back) (moved_right h1) hold hp').2.1
    rw [hb] at h2
    exact toList_inj (moved_unique h2 (moved_symm h1))
  unfold relabelSnap
  simp only
  cases snap with
  | mk rs ops =>
    simp only [Snap.mk.injEq, List.map_map]
    constructor
    · conv => rhs; rw [← List.map_id rs]
      exact List.map_congr_left (fun s hs => key s (.inl hs))
    · conv => rhs; rw [← List.map_id ops]
      refine List.map_congr_left (fun so hso => ?_)
      obtain ⟨s, op⟩ := so
      simp only [Function.comp, id, Prod.mk.injEq, and_true]
      exact key s (.inr ⟨op, hso⟩)

example : ∃ s', renameStack "prod" "store" shop = some (.ok s') ∧ renameStack "dev" "shop" s' = some (.ok shop) := by
  have hc : CleanField "store".toList := (goodStack_of (s := "store") (by decide +kernel)).clean
  obtain ⟨f, hf, _⟩ := rename_stack_moves_everything_partial (newProject := "store") shop_home shop_intact prod_good hc
  exact ⟨_, hf, rename_stack_back (stack := "dev") (project := "shop") (newProject := "store") shop_home shop_intact dev_good prod_good hc shop_clean
    rfl hf⟩

/-- Renaming a stack to the name it has changes nothing. -/
theorem rename_stack_same {stack project : String} {snap : Snap}
    (hh : Homogeneous stack.toList project.toList snap) (hi : Intact goEnv snap.resources) (hold : GoodStack stack.toList)
    (hp : CleanField project.toList) : renameStack stack "" snap = some (.ok snap) := by
  have hpf : projectFor "".toList project.toList = project.toList := by simp [projectFor]
  have h := renameStack_eq (newProject := "") hh hi hold (by rw [hpf]; exact hp)
  have hb := rename_stack_back (newProject := "") (back := "") hh hi hold hold (by rw [hpf]; exact hp) hp (by rw [hpf, hpf]) h
  have hid : ∀ u : String, UrnOf stack.toList project.toList u.toList → moved stack "" u = u := by
    intro u hu
    have h2 := (rewriteUrn_spec (newProject := "") hu hold (by rw [hpf]; exact hp)).2.1
    rw [hpf] at h2
    obtain ⟨t, n, m, h1, h3, e1, e2, h4⟩ := moved_fields h2
    refine toList_inj ?_
    rw [e1, e2]
    rcases h4 with ⟨_, rfl, rfl⟩ | ⟨_, rfl⟩ <;> rfl
  rw [h]
  simp only [Option.some.injEq, Except.ok.injEq]
  have key : ∀ s, (s ∈ snap.resources ∨ ∃ op, (s, op) ∈ snap.ops) → relabel (moved stack "") s = s := by
    intro s hm
    have e := relabel_relabel (f := moved stack "") (g := id) (s := s)
      (fun u hu => ⟨by rw [hid u ((hh s hm).1 u hu)]; exact urnOf_ne ((hh s hm).1 u hu), hid u ((hh s hm).1 u hu)⟩)
    have e2 : ∀ t : State, relabel id t = t := by
      intro t
      unfold relabel
      cases t with
      | mk a b c d e f g pa i j k pr m n o q r v =>
        cases pr <;> simp <;> exact fun h => h.symm
    rw [e2] at e
    exact e
  cases snap with
  | mk rs ops =>
    simp only [relabelSnap, Snap.mk.injEq]
    constructor
    · conv => rhs; rw [← List.map_id rs]
      exact List.map_congr_left (fun s hs => key s (.inl hs))
    · conv => rhs; rw [← List.map_id ops]
      refine List.map_congr_left (fun so hso => ?_)
      obtain ⟨s, op⟩ := so
      simp only [id, Prod.mk.injEq, and_true]
      exact key s (.inr ⟨op, hso⟩)

example : renameStack "dev" "" shop = some (.ok shop) :=
  rename_stack_same (project := "shop") shop_home shop_intact dev_good shop_clean

/-- A checkpoint that is not intact is not renamed: the error says what is wrong with it. -/
theorem rename_stack_checks {newName newProject : String} {snap : Snap} {e : IntegrityErr} :
    renameStack newName newProject snap = some (.error e) ↔ verify goEnv snap = .error e := by
  unfold renameStack
  constructor
  · intro h
    cases hv : verify goEnv snap with
    | error e' => rw [hv] at h; simp only [Option.some.injEq, Except.error.injEq] at h; rw [h]
    | ok x =>
      rw [hv] at h
      simp only at h
      split at h
      · cases h
      · cases h
  · intro h; rw [h]

example : ∃ e, renameStack "prod" "" ⟨shop.resources.reverse, []⟩ = some (.error e) :=
  ⟨.unknownProvider, by decide +kernel⟩

/-- Renaming a stack leaves aliases as they are: they still name the old stack. -/
theorem rename_stack_keeps_aliases {newName newProject : String} {snap snap' : Snap}
    (h : renameStack newName newProject snap = some (.ok snap')) :
    snap'.resources.map (·.aliases) = snap.resources.map (·.aliases) := by
  have hst : ∀ (s t : State), rewriteState newName newProject s = some t → t.aliases = s.aliases := by
    intro s t hs
    unfold rewriteState at hs
    split at hs
    · simp only [Option.some.injEq] at hs; rw [← hs]
    · cases hs
  have hl : ∀ (l l' : List State), rewriteStates newName newProject l = some l' →
      l'.map (·.aliases) = l.map (·.aliases) := by
    intro l
    induction l with
    | nil => intro l' h; simp only [rewriteStates, Option.some.injEq] at h; rw [← h]
    | cons s l ih =>
      intro l' h
      unfold rewriteStates at h
      split at h
      · rename_i t ts h1 h2
        simp only [Option.some.injEq] at h
        subst h
        simp only [List.map_cons]
        rw [hst s t h1, ih ts h2]
      · cases h
  unfold renameStack at h
  split at h
  · simp only [Option.some.injEq] at h; cases h
  · split at h
    · rename_i h1 _
      simp only [Option.some.injEq, Except.ok.injEq] at h
      subst h
      exact hl _ _ h1
    · cases h

/-- Two resources whose names have the separator in them become one: the renaming of an intact checkpoint succeeds, and what
it makes is not intact. -/
theorem rename_stack_may_merge : ∃ snap snap' : Snap, Intact goEnv snap.resources ∧
    (snap.resources.map (·.urn)).Nodup ∧ renameStack "prod" "" snap = some (.ok snap') ∧
    ¬ (snap'.resources.map (·.urn)).Nodup ∧ ¬ Intact goEnv snap'.resources := by
  let blank : State := ⟨"t:m:T", "", true, false, "1", "", "", "", false, false, [], .none, [], false, [], "", false, ""⟩
  refine ⟨⟨[{ blank with urn := "urn:pulumi:dev::shop::t:m:T::a::1" }, { blank with urn := "urn:pulumi:dev::shop::t:m:T::a::2" }],
    []⟩, ⟨[{ blank with urn := "urn:pulumi:prod::shop::t:m:T::a" }, { blank with urn := "urn:pulumi:prod::shop::t:m:T::a" }],
    []⟩, ?_, by decide +kernel, by decide +kernel, by decide +kernel, ?_⟩
  · exact (Snapshot.verify_iff_intact goEnv ⟨_, []⟩).1 (by decide +kernel)
  · rw [← Snapshot.verify_iff_intact goEnv ⟨_, []⟩]
    decide +kernel

/-- A resource whose URN the check of its form accepts may still crash the renaming. -/
theorem rename_stack_may_crash : ∃ snap : Snap, Intact goEnv snap.resources ∧
    (∀ s ∈ snap.resources, isValid s.urn.toList = true) ∧ renameStack "prod" "" snap = none := by
  let blank : State := ⟨"t:m:T", "urn:pulumi::a::t:m:T::x", true, false, "1", "", "", "", false, false, [], .none, [], false, [],
    "", false, ""⟩
  exact ⟨⟨[blank], []⟩, (Snapshot.verify_iff_intact goEnv ⟨_, []⟩).1 (by decide +kernel), by decide +kernel, by decide +kernel⟩

end Pulumi.Rename
