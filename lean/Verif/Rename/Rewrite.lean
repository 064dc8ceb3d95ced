import Verif.Rename.Lemmas
import Verif.Snapshot.IntegrityTheorems
namespace Pulumi.Rename
open Pulumi.Urn
open Pulumi.Snapshot (State Provider Ref Env Snap OpType Intact Backed Provides)

theorem hasSep_mid {a b : Text} {c : Char} (hc : c ≠ ':') (h : HasSep (a ++ c :: b)) : HasSep a ∨ HasSep b := by
  refine Classical.byContradiction fun hn => ?_
  rw [not_or, not_hasSep_iff, not_hasSep_iff] at hn
  exact not_hasSep_iff.2 (noSep_append hn.1 hn.2 hc) h

theorem rootName_clean {p s : Text} (hp : CleanField p) (hs : CleanField s) : ¬ HasSep (p ++ '-' :: s) := by
  intro h
  rcases hasSep_mid (by decide) h with h | h
  · exact hp.1 h
  · exact hs.1 h

theorem stackType_clean : CleanField stackType := by
  constructor
  · exact not_hasSep_iff.2 (by decide)
  · intro a h
    have := congrArg List.getLast? h
    rw [List.getLast?_append, show stackType.getLast? = some 'k' by decide] at this
    simp at this

theorem urnOf_valid {s p u : Text} (h : UrnOf s p u) : ∃ t n, Separable s p t n ∧ u = urnText s p t n := by
  cases h with
  | root h => exact ⟨_, _, h, rfl⟩
  | resource _ h => exact ⟨_, _, h, rfl⟩

theorem rewriteText_spec {s p u s' np : Text} (h : UrnOf s p u) (hs : GoodStack s') (hp : CleanField (projectFor np p)) :
    ∃ v, rewriteText s' np u = some v ∧ Moved s p s' (projectFor np p) u v ∧ UrnOf s' (projectFor np p) v ∧
      validateURN v = validateURN u := by
  cases h with
  | root h =>
    have hsep : Separable s' (projectFor np p) "pulumi:pulumi:Stack".toList (projectFor np p ++ '-' :: s') :=
      ⟨hs.named, hs.start, hs.clean, hp, stackType_clean, rootName_clean hp hs.clean⟩
    refine ⟨_, ?_, .root h hsep, .root hsep, ?_⟩
    · unfold rewriteText projectOf qualifiedType
      rw [part_text h, part_text h]
      simp only [List.getElem?_cons_succ, List.getElem?_cons_zero]
      rw [if_pos (show "pulumi:pulumi:Stack".toList = stackType from rfl), newURN_eq]
      rfl
    · rw [validate_text h, validate_text hsep]
  | @resource t n hne h =>
    have hsep : Separable s' (projectFor np p) t n :=
      ⟨hs.named, hs.start, hs.clean, hp, h.cleanType, h.cleanName⟩
    refine ⟨_, ?_, .resource hne h hsep, .resource hne hsep, ?_⟩
    · unfold rewriteText projectOf qualifiedType nameOf
      rw [part_text h, part_text h, part_text h]
      simp only [List.getElem?_cons_succ, List.getElem?_cons_zero]
      rw [if_neg (show t ≠ stackType from hne), newURN_eq]
      rfl
    · rw [validate_text h, validate_text hsep]

theorem moved_left {s p s' p' u v : Text} (h : Moved s p s' p' u v) : UrnOf s p u := by
  cases h with
  | root h _ => exact .root h
  | resource hne h _ => exact .resource hne h

theorem moved_right {s p s' p' u v : Text} (h : Moved s p s' p' u v) : UrnOf s' p' v := by
  cases h with
  | root _ h => exact .root h
  | resource hne _ h => exact .resource hne h

theorem moved_symm {s p s' p' u v : Text} (h : Moved s p s' p' u v) : Moved s' p' s p v u := by
  cases h with
  | root h h' => exact .root h' h
  | resource hne h h' => exact .resource hne h' h

theorem moved_fields {s p s' p' u v : Text} (h : Moved s p s' p' u v) : ∃ t n n', Separable s p t n ∧ Separable s' p' t n' ∧
    u = urnText s p t n ∧ v = urnText s' p' t n' ∧
    ((t = stackType ∧ n = p ++ '-' :: s ∧ n' = p' ++ '-' :: s') ∨ (t ≠ stackType ∧ n = n')) := by
  cases h with
  | root h h' => exact ⟨_, _, _, h, h', rfl, rfl, .inl ⟨rfl, rfl, rfl⟩⟩
  | resource hne h h' => exact ⟨_, _, _, h, h', rfl, rfl, .inr ⟨hne, rfl⟩⟩

theorem moved_inj {s p s' p' u u' v : Text} (h : Moved s p s' p' u v) (h' : Moved s p s' p' u' v) : u = u' := by
  obtain ⟨t, n, m, h1, h2, rfl, rfl, h3⟩ := moved_fields h
  obtain ⟨t', n', m', h1', h2', rfl, e, h3'⟩ := moved_fields h'
  obtain ⟨_, _, rfl, rfl⟩ := text_inj h2 h2' e
  rcases h3 with ⟨a, rfl, _⟩ | ⟨a, rfl⟩ <;> rcases h3' with ⟨b, rfl, _⟩ | ⟨b, rfl⟩
  · rfl
  · exact absurd a b
  · exact absurd b a
  · rfl

theorem moved_unique {s p s' p' u v v' : Text} (h : Moved s p s' p' u v) (h' : Moved s p s' p' u v') : v = v' :=
  moved_inj (moved_symm h) (moved_symm h')

/-! ## Rewriting states -/

/-- The rewriting as a function. -/
def moved (newName newProject u : String) : String := (rewriteUrn newName newProject u).getD ""

theorem rewriteUrn_spec {s p : Text} {newName newProject u : String} (h : UrnOf s p u.toList)
    (hs : GoodStack newName.toList) (hp : CleanField (projectFor newProject.toList p)) :
    rewriteUrn newName newProject u = some (moved newName newProject u) ∧
    Moved s p newName.toList (projectFor newProject.toList p) u.toList (moved newName newProject u).toList ∧
    validateURN (moved newName newProject u).toList = validateURN u.toList := by
  obtain ⟨v, h1, h2, _, h4⟩ := rewriteText_spec (np := newProject.toList) h hs hp
  have he : rewriteUrn newName newProject u = some (String.ofList v) := by
    unfold rewriteUrn; rw [h1]; rfl
  unfold moved
  rw [he]
  simp only [Option.getD_some, String.toList_ofList]
  exact ⟨trivial, h2, h4⟩

theorem rewriteAll_spec {newName newProject : String} : ∀ (us : List String),
    (∀ u ∈ us, rewriteUrn newName newProject u = some (moved newName newProject u)) →
    rewriteAll newName newProject us = some (us.map (moved newName newProject)) := by
  intro us
  induction us with
  | nil => intro _; rfl
  | cons u us ih =>
    intro h
    unfold rewriteAll
    rw [h u (by simp), ih (fun x hx => h x (by simp [hx]))]
    rfl

theorem rewritePropDeps_spec {newName newProject : String} : ∀ (l : List (String × List String)),
    (∀ kv ∈ l, ∀ u ∈ kv.2, rewriteUrn newName newProject u = some (moved newName newProject u)) →
    rewritePropDeps newName newProject l = some (l.map (fun kv => (kv.1, kv.2.map (moved newName newProject)))) := by
  intro l
  induction l with
  | nil => intro _; rfl
  | cons kv l ih =>
    intro h
    obtain ⟨k, us⟩ := kv
    unfold rewritePropDeps
    rw [rewriteAll_spec us (h (k, us) (by simp)), ih (fun x hx => h x (by simp [hx]))]
    rfl

/-- What is asked of a single state. -/
def AtHome (stack project : Text) (s : State) : Prop :=
  (∀ u, Mentions s u → UrnOf stack project u.toList) ∧
  match s.provider with
  | .none => True
  | .malformed _ => False
  | .ref r => validateURN r.urn.toList = some true

theorem rewriteState_spec {st p : Text} {newName newProject : String} {s : State} (h : AtHome st p s)
    (hs : GoodStack newName.toList) (hp : CleanField (projectFor newProject.toList p)) :
    rewriteState newName newProject s = some (relabel (moved newName newProject) s) := by
  obtain ⟨hm, hpr⟩ := h
  have hr := fun u hu => (rewriteUrn_spec (u := u) (hm u hu) hs hp).1
  have h1 := hr s.urn (.inl rfl)
  have h2 : rewriteParent newName newProject s.parent =
      some (if s.parent = "" then "" else moved newName newProject s.parent) := by
    unfold rewriteParent
    by_cases he : s.parent = ""
    · simp [he]
    · rw [if_pos he, if_neg he]; exact hr _ (.inr (.inl ⟨rfl, he⟩))
  have h3 := rewriteAll_spec s.deps (fun u hu => hr u (.inr (.inr (.inl hu))))
  have h4 := rewritePropDeps_spec s.propDeps (fun kv hkv u hu => hr u (.inr (.inr (.inr (.inl ⟨kv, hkv, hu⟩)))))
  have h5 : rewriteProvider newName newProject s.provider =
      some (match s.provider with | .ref r => .ref ⟨moved newName newProject r.urn, r.id⟩ | q => q) := by
    cases hq : s.provider with
    | none => rfl
    | malformed m => rw [hq] at hpr; exact hpr.elim
    | ref r =>
      rw [hq] at hpr
      have hu : Mentions s r.urn := .inr (.inr (.inr (.inr ⟨r, hq, rfl⟩)))
      unfold rewriteProvider
      simp only
      rw [hr _ hu]
      simp only
      rw [(rewriteUrn_spec (hm _ hu) hs hp).2.2, if_pos hpr]
  unfold rewriteState
  rw [h1, h2, h3, h4, h5]
  rfl

theorem rewriteStates_spec {st p : Text} {newName newProject : String} (hs : GoodStack newName.toList)
    (hp : CleanField (projectFor newProject.toList p)) : ∀ (l : List State), (∀ s ∈ l, AtHome st p s) →
    rewriteStates newName newProject l = some (l.map (relabel (moved newName newProject))) := by
  intro l
  induction l with
  | nil => intro _; rfl
  | cons s l ih =>
    intro h
    unfold rewriteStates
    rw [rewriteState_spec (h s (by simp)) hs hp, ih (fun x hx => h x (by simp [hx]))]
    rfl

theorem rewriteOps_spec {st p : Text} {newName newProject : String} (hs : GoodStack newName.toList)
    (hp : CleanField (projectFor newProject.toList p)) : ∀ (l : List (State × OpType)), (∀ so ∈ l, AtHome st p so.1) →
    rewriteOps newName newProject l = some (l.map (fun so => (relabel (moved newName newProject) so.1, so.2))) := by
  intro l
  induction l with
  | nil => intro _; rfl
  | cons so l ih =>
    intro h
    obtain ⟨s, op⟩ := so
    unfold rewriteOps
    rw [rewriteState_spec (h (s, op) (by simp)) hs hp, ih (fun x hx => h x (by simp [hx]))]
    rfl

/-! ## Relabelled lists -/

theorem relabel_mentions {f : String → String} {s : State} {v : String} (hf : ∀ u, Mentions s u → f u ≠ "") :
    Mentions (relabel f s) v ↔ ∃ u, Mentions s u ∧ v = f u := by
  unfold Mentions
  constructor
  · rintro (h | ⟨h, hne⟩ | h | ⟨kv, hkv, h⟩ | ⟨r, hr, h⟩)
    · exact ⟨s.urn, .inl rfl, h⟩
    · simp only [relabel] at h hne
      by_cases he : s.parent = ""
      · rw [if_pos he] at hne; exact absurd rfl hne
      · rw [if_neg he] at h; exact ⟨s.parent, .inr (.inl ⟨rfl, he⟩), h⟩
    · simp only [relabel, List.mem_map] at h
      obtain ⟨u, hu, rfl⟩ := h
      exact ⟨u, .inr (.inr (.inl hu)), rfl⟩
    · simp only [relabel, List.mem_map] at hkv
      obtain ⟨kv', hkv', rfl⟩ := hkv
      simp only [List.mem_map] at h
      obtain ⟨u, hu, rfl⟩ := h
      exact ⟨u, .inr (.inr (.inr (.inl ⟨kv', hkv', hu⟩))), rfl⟩
    · simp only [relabel] at hr
      cases hp : s.provider with
      | none => rw [hp] at hr; cases hr
      | malformed m => rw [hp] at hr; cases hr
      | ref q =>
        rw [hp] at hr; cases hr
        exact ⟨q.urn, .inr (.inr (.inr (.inr ⟨q, rfl, rfl⟩))), h.symm⟩
  · rintro ⟨u, h, rfl⟩
    rcases h with h | ⟨h, hne⟩ | h | ⟨kv, hkv, h⟩ | ⟨r, hr, h⟩
    · exact .inl (by rw [h]; rfl)
    · refine .inr (.inl ⟨by simp only [relabel]; rw [if_neg hne, h], ?_⟩)
      simp only [relabel]; rw [if_neg hne]
      exact hf _ (.inr (.inl ⟨rfl, hne⟩))
    · exact .inr (.inr (.inl (List.mem_map_of_mem h)))
    · exact .inr (.inr (.inr (.inl ⟨(kv.1, kv.2.map f), List.mem_map_of_mem (f := fun kv => (kv.1, kv.2.map f)) hkv,
        List.mem_map_of_mem h⟩)))
    · exact .inr (.inr (.inr (.inr ⟨⟨f r.urn, r.id⟩, by simp only [relabel]; rw [hr], by rw [h]⟩)))

end Pulumi.Rename
