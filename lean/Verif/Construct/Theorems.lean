import Verif.Construct.Invariant
/-! # C33, C34, C35: providers, transformations and protection in resource trees -/
namespace Pulumi.Construct
open Pulumi.Urn (Text)
variable {P σ : Type}

/-! ## Protection -/

theorem Protected.unique {w : World P σ} {i : Nat} {b c : Bool} (h : Protected w i b) (h' : Protected w i c) : b = c := by
  induction h with
  | own h1 h2 =>
    cases h' with
    | own h3 h4 => rw [h1] at h3; cases h3; rw [h2] at h4; cases h4; rfl
    | inherited h3 h4 => rw [h1] at h3; cases h3; rw [h2] at h4; cases h4
    | unset h3 h4 => rw [h1] at h3; cases h3; rw [h2] at h4; cases h4
  | inherited h1 h2 h3 _ ih =>
    cases h' with
    | own h4 h5 => rw [h1] at h4; cases h4; rw [h2] at h5; cases h5
    | inherited h4 h5 h6 h7 => rw [h1] at h4; cases h4; rw [h3] at h6; cases h6; exact ih h7
    | unset h4 h5 h6 => rw [h1] at h4; cases h4; rw [h3] at h6; cases h6
  | unset h1 h2 h3 =>
    cases h' with
    | own h4 h5 => rw [h1] at h4; cases h4; rw [h2] at h5; cases h5
    | inherited h4 h5 h6 => rw [h1] at h4; cases h4; rw [h3] at h6; cases h6
    | unset => rfl

theorem Inv.protected {w : World P σ} (h : Inv w) : ∀ i r, w.res[i]? = some r → Protected w i r.protect := by
  intro i
  induction i using Nat.strongRecOn with
  | ind i ih =>
    intro r hr
    have hL := h.each i r hr
    cases hp : r.given.parent with
    | other => exact absurd hp hL.notOther
    | none =>
      obtain ⟨h1, _⟩ := hL.top hp
      cases hq : r.given.protect with
      | none => rw [hq] at h1; rw [h1]; exact .unset hr hq hp
      | some b => rw [hq] at h1; rw [h1]; exact .own hr hq
    | res j =>
      obtain ⟨hlt, rj, h1, h2, _⟩ := hL.under j hp
      cases hq : r.given.protect with
      | none => rw [hq] at h2; rw [h2]; exact .inherited hr hq hp (ih j hlt rj h1)
      | some b => rw [hq] at h2; rw [h2]; exact .own hr hq

/-- **C35.** In every tree of resources that a program builds, a resource counts as protected exactly when its own option or,
where that is unset, that of its nearest ancestor with the option says so; and this is what the engine is told. -/
theorem protection_inherited {call : Call P σ} {w : World P σ} (hw : Reachable call w) {i : Nat} {r : Res P}
    (hr : w.res[i]? = some r) :
    (∀ b, r.protect = b ↔ Protected w i b) ∧ ∀ q, r.request = some q → (q.opts.protect.getD false = true ↔ Protected w i true) := by
  have hinv := reachable_inv hw
  have hp := hinv.protected i r hr
  have hb : ∀ b, r.protect = b ↔ Protected w i b := fun b => ⟨fun h => h ▸ hp, fun h => hp.unique h⟩
  refine ⟨hb, fun q hq => ?_⟩
  rw [((hinv.each i r hr).sent q hq).2.1]
  exact hb true

/-! ## Providers -/

theorem Inv.offers {w : World P σ} (h : Inv w) (k : Text) (p : Provider) : ∀ i r, w.res[i]? = some r →
    (r.providers.lookup k = some p ↔ Offers w i k p) := by
  intro i
  induction i using Nat.strongRecOn with
  | ind i ih =>
    intro r hr
    have hL := h.each i r hr
    have key : ∀ (x : Dict), (x.lookup k = some p ↔ ∃ j, r.given.parent = .res j ∧ Offers w j k p) →
        ((Listed r.given.providers k p ∨ Explicit r.type_ r.given k p ∨
          ((∀ q, ¬ Listed r.given.providers k q) ∧ (∀ q, ¬ Explicit r.type_ r.given k q) ∧ x.lookup k = some p)) ↔
          Offers w i k p) := by
      intro x hx
      rw [hx]
      constructor
      · rintro (h1 | h1 | ⟨h1, h2, j, h3, h4⟩)
        · exact .listed hr h1
        · exact .explicit hr h1
        · exact .inherited hr h1 h2 h3 h4
      · intro ho
        cases ho with
        | listed h1 h2 => rw [hr] at h1; cases h1; exact .inl h2
        | explicit h1 h2 => rw [hr] at h1; cases h1; exact .inr (.inl h2)
        | inherited h1 h2 h3 h4 h5 => rw [hr] at h1; cases h1; exact .inr (.inr ⟨h2, h3, _, h4, h5⟩)
    cases hp : r.given.parent with
    | other => exact absurd hp hL.notOther
    | none =>
      obtain ⟨_, h1, _⟩ := hL.top hp
      rw [h1, offered_iff, key]
      simp [hp]
    | res j =>
      obtain ⟨hlt, rj, h1, _, h2, _⟩ := hL.under j hp
      rw [h2, offered_iff, key]
      rw [ih j hlt rj h1]
      simp [hp]

theorem chosen_in_tree {w : World P σ} (h : Inv w) {t : Text} {o : Opts} {parent : Option (Res P)}
    (hp : parentRes w o.parent = .ok parent) (p : Provider) :
    (getProviders t (packageOf t) o (parent.map (·.providers)) (inheritedProviders parent)).1 = some p ↔ Chosen w t o p := by
  rw [chosen_iff]
  constructor
  · rintro (h1 | ⟨h1, k, h2, h3, h4⟩ | ⟨h1, k, d, h2, h3, h4, h5⟩)
    · exact .explicit h1
    · exact .listed h1 h2 h3 h4
    · cases parent with
      | none => cases h4
      | some rj =>
        cases h4
        cases hop : o.parent with
        | none => rw [hop] at hp; cases hp
        | other => rw [hop] at hp; cases hp
        | res j =>
          rw [hop] at hp
          simp only [parentRes] at hp
          split at hp
          · cases hp
          · rename_i r hr
            cases hp
            exact .inherited h1 h2 h3 hop ((h.offers k p j rj hr).1 h5)
  · intro hc
    cases hc with
    | explicit h1 => exact .inl h1
    | listed h1 h2 h3 h4 => exact .inr (.inl ⟨h1, _, h2, h3, h4⟩)
    | @inherited k j _ h1 h2 h3 h4 h5 =>
      rw [h4] at hp
      simp only [parentRes] at hp
      split at hp
      · cases hp
      · rename_i r hr
        cases hp
        exact .inr (.inr ⟨h1, _, _, h2, h3, rfl, (h.offers k p j r hr).2 h5⟩)

/-- **C33.** What a resource offers to its children for a package: its own entry for the package, else what its parent
offers. -/
theorem providers_offered {call : Call P σ} {w : World P σ} (hw : Reachable call w) {i : Nat} {r : Res P}
    (hr : w.res[i]? = some r) (k : Text) (p : Provider) : r.providers.lookup k = some p ↔ Offers w i k p :=
  (reachable_inv hw).offers k p i r hr

/-- **C33.** A custom resource uses the provider of its `provider` option, else that of its `providers` option for the package
of its type, else the one that its parent offers for that package; the provider is for that package; and it is the one
named in the request to the engine. A component uses none for itself. -/
theorem provider_chosen {call : Call P σ} {w : World P σ} (hw : Reachable call w) {i : Nat} {r : Res P}
    (hr : w.res[i]? = some r) :
    (∀ p, r.provider = some p ↔ r.custom = true ∧ Chosen w r.type_ r.given p) ∧
    (∀ p, r.custom = true → Chosen w r.type_ r.given p → PackageIs r.type_ p.package) ∧
    ∀ q, r.request = some q → q.action ≠ .get → q.provider = r.provider := by
  have hinv := reachable_inv hw
  have hL := hinv.each i r hr
  have h1 : ∀ p, r.provider = some p ↔ r.custom = true ∧ Chosen w r.type_ r.given p := by
    intro p
    cases hp : r.given.parent with
    | other => exact absurd hp hL.notOther
    | none =>
      have hpar : parentRes w r.given.parent = .ok none := by rw [hp]; rfl
      have hc := chosen_in_tree hinv hpar (t := r.type_) p
      rw [(hL.top hp).2.2]
      simp only [Option.map_none, inheritedProviders] at hc
      cases hcu : r.custom <;> simp [hc]
    | res j =>
      obtain ⟨_, rj, e1, _, _, e2⟩ := hL.under j hp
      have hpar : parentRes w r.given.parent = .ok (some rj) := by rw [hp]; simp [parentRes, e1]
      have hc := chosen_in_tree hinv hpar (t := r.type_) p
      rw [e2]
      simp only [Option.map_some, inheritedProviders] at hc
      cases hcu : r.custom <;> simp [hc]
  refine ⟨h1, fun p hc hp => hL.matches_ p ((h1 p).2 ⟨hc, hp⟩), ?_⟩
  intro q hq hg
  have := (hL.sent q hq).2.2.1
  simpa [hg] using this

/-- **C33.** A custom resource that would have to use a provider of another package is rejected, and not registered. -/
theorem wrong_provider_rejected {call : Call P σ} {w : World P σ} (hw : Reachable call w) {t name : Text} {remote : Bool}
    {props : P} {opts : Opts} {p : Provider} (ht : t ≠ []) (hn : name ≠ []) (hts : opts.transformations.getD [] = [])
    (hi : parentTransformations w opts.parent = .ok []) (hc : Chosen w t opts p) (hp : ¬ PackageIs t p.package) :
    construct call t name true remote props opts w = (.error (.wrongProvider (actionOf opts)), w) := by
  have hinv := reachable_inv hw
  have hpar : ∃ parent, parentRes w opts.parent = .ok parent := by
    cases hop : opts.parent with
    | none => exact ⟨none, rfl⟩
    | other => rw [hop] at hi; cases hi
    | res j =>
      rw [hop] at hi
      obtain ⟨r, hr, _⟩ := transformationsOf_ok hi
      exact ⟨some r, by simp [parentRes, hr]⟩
  obtain ⟨parent, hpar⟩ := hpar
  have hch := (chosen_in_tree hinv hpar p).2 hc
  unfold construct
  simp only [ht, hn, if_false, hi, hts, List.append_nil, transform]
  have hf : finish w t name true remote opts [] props opts = .error (.wrongProvider (actionOf opts)) := by
    unfold finish
    simp only [hpar, hch, ifCustom, if_true, Option.any_some]
    rw [if_pos]
    simp only [ne_eq, decide_eq_true_eq]
    intro he
    exact hp ((packageOf_iff ..).1 he.symm)
  rw [hf]

/-! ## Transformations -/

theorem Inv.chain {w : World P σ} (h : Inv w) : ∀ i r ts, w.res[i]? = some r → r.transformations = some ts → Chain w i ts := by
  intro i
  induction i using Nat.strongRecOn with
  | ind i ih =>
    intro r ts hr ht
    by_cases hroot : w.root = some i
    · rw [← stack_of_root hroot hr ht]
      exact .stack hroot
    · have hL := h.each i r hr
      obtain ⟨inh, rfl, h1, h2⟩ := hL.trans hroot ts ht
      cases hp : r.given.parent with
      | other => exact absurd hp hL.notOther
      | none =>
        rw [h1 hp]
        exact .top hroot hr (.inl (hL.sameParent.trans hp))
      | res j =>
        obtain ⟨hlt, rj, e1, _⟩ := hL.under j hp
        by_cases hrj : w.root = some j
        · rw [(h2 j hp).1 hrj]
          exact .top hroot hr (.inr ⟨j, hL.sameParent.trans hp, hrj⟩)
        · exact .under hroot hr (hL.sameParent.trans hp) hrj (ih j hlt rj inh e1 ((h2 j hp).2 hrj rj e1))

theorem transform_applied {call : Call P σ} {self : Nat} {t name : Text} (ts : List Nat) : ∀ (props : P) (opts : Opts) (s : σ),
    Applied call self t name ts props opts s (transform call self t name ts props opts s).1
      (transform call self t name ts props opts s).2 := by
  induction ts with
  | nil => intro props opts s; exact .done
  | cons f ts ih =>
    intro props opts s
    rcases hc : call f ⟨self, t, name, props, opts⟩ s with ⟨out, s'⟩
    cases out with
    | error n =>
      simp only [transform, hc]
      exact .raised hc
    | ok o =>
      cases o with
      | none =>
        simp only [transform, hc]
        exact .unchanged hc (ih ..)
      | some po =>
        obtain ⟨props', opts'⟩ := po
        by_cases hp : opts'.parent = opts.parent
        · simp only [transform, hc, hp, ne_eq, not_true, if_false]
          exact .changed hc hp (ih ..)
        · simp only [transform, hc, hp, ne_eq, not_false_iff, if_true]
          exact .reparented hc hp

/-- The parent is one whose constructor ran: no parent, or a resource other than a `DependencyResource`. -/
def ProperParent (w : World P σ) : Parent → Prop
  | .none => True
  | .res j => ∃ r ts, w.res[j]? = some r ∧ r.transformations = some ts
  | .other => False

/-- The transformations that a new resource with this parent inherits: those of the parent and its ancestors, or those
registered for the stack. -/
def Inherits (w : World P σ) : Parent → List Nat → Prop
  | .none, ts => ts = stackTransformations w
  | .res j, ts => Chain w j ts
  | .other, _ => False

/-- **C34.** The transformations of a new resource run in order, its own, then those of its ancestors outwards, then those of
the stack; each sees what the previous one made of the properties and options; the parent is never changed; what they make
is what is registered; and when one raises or changes the parent the constructor raises and nothing is registered. -/
theorem transformations_run {call : Call P σ} {w : World P σ} (hw : Reachable call w) {t name : Text} (ht : t ≠ []) (hn : name ≠ [])
    (custom remote : Bool) (props : P) (opts : Opts) (hp : ProperParent w opts.parent) :
    ∃ inherited out s, Inherits w opts.parent inherited ∧
      Applied call w.res.length t name (opts.transformations.getD [] ++ inherited) props opts w.user out s ∧
      (construct call t name custom remote props opts w).2.user = s ∧
      (∀ e, out = .error e → construct call t name custom remote props opts w = (.error e, { w with user := s })) ∧
      ∀ props' opts', out = .ok (props', opts') → opts'.parent = opts.parent ∧
        ((∃ e, construct call t name custom remote props opts w = (.error e, { w with user := s })) ∨
          ∃ r q, construct call t name custom remote props opts w = (.ok w.res.length, { w with res := w.res ++ [r], user := s }) ∧
            r.given = opts' ∧ r.request = some q ∧ q.props = props' ∧
            q.opts = { opts' with protect := q.opts.protect, provider := q.opts.provider }) := by
  have hinv := reachable_inv hw
  obtain ⟨inh, hinh, hI⟩ : ∃ inh, parentTransformations w opts.parent = .ok inh ∧ Inherits w opts.parent inh := by
    cases hop : opts.parent with
    | other => rw [hop] at hp; exact hp.elim
    | none =>
      cases hr : w.root with
      | none => exact ⟨[], by simp [parentTransformations, hr], by simp [Inherits, stackTransformations, hr]⟩
      | some i =>
        obtain ⟨r, h1, h2⟩ := hinv.root i hr
        obtain ⟨ts, h3⟩ := Option.isSome_iff_exists.1 h2
        exact ⟨ts, by simp [parentTransformations, hr, transformationsOf, h1, h3], (stack_of_root hr h1 h3).symm⟩
    | res j =>
      rw [hop] at hp
      obtain ⟨r, ts, h1, h2⟩ := hp
      exact ⟨ts, by simp [parentTransformations, transformationsOf, h1, h2], hinv.chain j r ts h1 h2⟩
  have happ := transform_applied (call := call) (self := w.res.length) (t := t) (name := name)
    (opts.transformations.getD [] ++ inh) props opts w.user
  rcases htr : transform call w.res.length t name (opts.transformations.getD [] ++ inh) props opts w.user with ⟨out, s⟩
  rw [htr] at happ
  have hcon : construct call t name custom remote props opts w = (match out with
      | .error e => (.error e, { w with user := s })
      | .ok (props', opts') =>
        match finish w t name custom remote opts (opts.transformations.getD [] ++ inh) props' opts' with
        | .error e => (.error e, { w with user := s })
        | .ok r => (.ok w.res.length, { w with res := w.res ++ [r], user := s })) := by
    unfold construct
    simp only [ht, hn, if_false, hinh, htr]
    cases out <;> rfl
  refine ⟨inh, out, s, hI, happ, ?_, ?_, ?_⟩
  · rw [hcon]
    cases out with
    | error e => rfl
    | ok po =>
      obtain ⟨props', opts'⟩ := po
      dsimp only
      cases finish w t name custom remote opts (opts.transformations.getD [] ++ inh) props' opts' <;> rfl
  · rintro e rfl
    rw [hcon]
  · rintro props' opts' rfl
    refine ⟨transform_parent _ htr, ?_⟩
    dsimp only at hcon
    cases hf : finish w t name custom remote opts (opts.transformations.getD [] ++ inh) props' opts' with
    | error e => rw [hf] at hcon; exact .inl ⟨e, hcon⟩
    | ok r =>
      rw [hf] at hcon
      obtain ⟨parent, _, _, _, _, _, _, h7, _, _, _, _, _, h13⟩ := finish_ok hf
      exact .inr ⟨r, _, hcon, h7, h13, rfl, rfl⟩

theorem chain_ends {w : World P σ} (hs : ∀ i r, w.root ≠ some i → w.res[i]? = some r → r.stackAt = stackTransformations w)
    {i : Nat} {ts : List Nat} (h : Chain w i ts) : ∃ pre, ts = pre ++ stackTransformations w := by
  induction h with
  | stack => exact ⟨[], rfl⟩
  | under _ _ _ _ _ ih =>
    obtain ⟨pre, rfl⟩ := ih
    exact ⟨_, (List.append_assoc ..).symm⟩
  | top h1 h2 => exact ⟨_, by rw [hs _ _ h1 h2]⟩

/-- **C34.** When every stack transformation was registered before the resources were constructed, a new resource ends with all
of them, whatever its parent. -/
theorem stack_transformations_apply_partial {w : World P σ}
    (hs : ∀ i r, w.root ≠ some i → w.res[i]? = some r → r.stackAt = stackTransformations w) {p : Parent} {ts : List Nat}
    (h : Inherits w p ts) : ∃ pre, ts = pre ++ stackTransformations w := by
  cases p with
  | none => exact ⟨[], h⟩
  | res j => exact chain_ends hs h
  | other => exact h.elim

/-- **C34.** Registering a transformation for the stack puts it after those registered before, and changes nothing else; without a
stack it raises. -/
theorem stack_registration {call : Call P σ} {w : World P σ} (hw : Reachable call w) (f : Nat) :
    (w.root = none → registerStackTransformation f w = (.error .noStack, w)) ∧
    (w.root ≠ none → (registerStackTransformation f w).1 = .ok () ∧
      stackTransformations (registerStackTransformation f w).2 = stackTransformations w ++ [f] ∧
      (registerStackTransformation f w).2.root = w.root ∧ (registerStackTransformation f w).2.user = w.user ∧
      ∀ i, w.root ≠ some i → (registerStackTransformation f w).2.res[i]? = w.res[i]?) := by
  constructor
  · intro h; simp [registerStackTransformation, h]
  · intro h
    obtain ⟨i, hi⟩ := Option.ne_none_iff_exists'.1 h
    obtain ⟨r, h1, h2⟩ := (reachable_inv hw).root i hi
    have hlt := lt_of_get h1
    simp only [registerStackTransformation, hi, h1]
    refine ⟨trivial, ?_, trivial, trivial, ?_⟩
    · simp only [stackTransformations, hi, Option.bind_some, List.getElem?_set_self hlt, h1, Option.getD_some]
    · intro j hj
      have : i ≠ j := fun he => hj (by rw [he])
      exact List.getElem?_set_ne this

/-! ## Where the code falls short -/

/-- A type token with three components. -/
def tok (pkg : Text) : Text := pkg ++ [':', 'm', ':', 't']
def nothing : Call Unit Unit := fun _ _ s => (.ok none, s)
def aws : Provider := ⟨0, ['a', 'w', 's']⟩
def mine : Provider := ⟨1, ['m', 'y']⟩
def nm : Text := ['n']

/-- Build a world step by step. -/
def after (w : World Unit Unit) (fs : List (World Unit Unit → World Unit Unit)) : World Unit Unit := fs.foldl (fun w f => f w) w

/-- The stack, then a component, then a stack transformation. -/
def late : World Unit Unit := after { user := () } [
  fun w => (newStack nothing nm () w).2,
  fun w => (construct nothing (tok ['m', 'y']) nm false false () {} w).2,
  fun w => (registerStackTransformation 7 w).2]

theorem late_reachable : Reachable nothing late :=
  .step (.step (.step (.start ()) (.stack ..)) (.construct ..)) (.register ..)

/-- A transformation registered for the stack after a component was constructed does not apply to children that the component
gets later, though it is documented to apply to all future resources. -/
theorem late_stack_transformation_missed : stackTransformations late = [7] ∧ ProperParent late (.res 1) ∧ Inherits late (.res 1) [] := by
  refine ⟨rfl, ⟨_, _, rfl, rfl⟩, ?_⟩
  exact (reachable_inv late_reachable).chain 1 _ [] rfl rfl

/-- A component of package `my` with a provider for `aws`: the provider is offered for `my`, not for `aws`. -/
def given : World Unit Unit := (construct nothing (tok ['m', 'y']) nm false false () { provider := some aws } { user := () }).2

theorem given_reachable : Reachable nothing given := .step (.start ()) (.construct ..)

theorem explicit_provider_misfiled :
    (∀ p, ¬ Offers given 0 aws.package p) ∧
    (construct nothing (tok ['a', 'w', 's']) nm true false () { parent := .res 0 } given).1 = .ok 1 ∧
    (construct nothing (tok ['m', 'y']) nm true false () { parent := .res 0 } given).1 = .error (.wrongProvider .register) := by
  refine ⟨?_, rfl, rfl⟩
  intro p hp
  rw [← providers_offered given_reachable (r := _) rfl] at hp
  cases hp

/-- A remote component that has a provider for its own package among others tells the engine only about that one. -/
theorem remote_providers_lost : ∃ r q,
    (construct nothing (tok ['m', 'y']) nm false true () { providers := .seq [mine, aws] } { user := () }).2.res = [r] ∧
      r.request = some q ∧ q.providers = [(['m', 'y'], mine)] := ⟨_, _, rfl, rfl, rfl⟩

/-- A `DependencyResource` cannot be a parent: the constructor raises an AttributeError. -/
theorem dependency_parent_rejected (call : Call P σ) (t name : Text) (custom remote : Bool) (props : P) (opts : Opts) (w : World P σ)
    (j : Nat) (r : Res P) (ht : t ≠ []) (hn : name ≠ []) (hp : opts.parent = .res j) (hr : w.res[j]? = some r)
    (hd : r.transformations = none) : construct call t name custom remote props opts w = (.error .attribute, w) := by
  simp [construct, ht, hn, parentTransformations, hp, transformationsOf, hr, hd]

/-! ## Sample -/

/-- A protected component with a provider for `aws` and a transformation that changes the opaque options; a component in it that is not
protected and has a transformation of its own; a resource in that. -/
def count : Call Nat (List Nat) := fun f a s =>
  if f = 9 then (.ok (some (a.props + 1, { a.opts with rest := a.opts.rest + 1 })), s ++ [f]) else (.ok none, s ++ [f])

def tree : World Nat (List Nat) :=
  let w1 := (newStack count nm 0 { user := [] }).2
  let w2 := (registerStackTransformation 5 w1).2
  let w3 := (construct count (tok ['m', 'y']) nm false false 0
    { protect := some true, providers := .seq [aws], transformations := some [9] } w2).2
  let w4 := (construct count (tok ['m', 'y']) nm false false 0 { parent := .res 1, transformations := some [8] } w3).2
  (construct count (tok ['a', 'w', 's']) nm true false 0 { parent := .res 2 } w4).2

theorem tree_reachable : Reachable count tree :=
  .step (.step (.step (.step (.step (.start []) (.stack ..)) (.register ..)) (.construct ..)) (.construct ..)) (.construct ..)

example : ∃ r q, tree.res[3]? = some r ∧ r.protect = true ∧ r.provider = some aws ∧ r.request = some q ∧ q.props = 1 ∧
    q.opts.rest = 1 ∧ r.transformations = some [8, 9, 5] ∧ q.provider = some aws ∧ tree.user = [9, 5, 8, 9, 5, 8, 9, 5] :=
  ⟨_, _, rfl, rfl, rfl, rfl, rfl, rfl, rfl, rfl, rfl⟩
example := protection_inherited tree_reachable (i := 3) rfl
example := stack_registration tree_reachable 3
example := provider_chosen tree_reachable (i := 3) rfl
example : Offers tree 2 aws.package aws := (providers_offered tree_reachable (r := _) rfl _ _).1 rfl
example := transformations_run tree_reachable (t := tok nm) (name := nm) (by decide) (by decide) true false 0 { parent := .res 2 }
  ⟨_, _, rfl, rfl⟩
example : construct nothing (tok ['m', 'y']) nm true false () { parent := .res 0 } given =
    (.error (.wrongProvider .register), given) :=
  wrong_provider_rejected given_reachable (p := aws) (by decide) (by decide) rfl rfl
    (.inherited rfl ((packageOf_iff ..).1 rfl) (fun _ q h => by cases h) rfl
      ((providers_offered given_reachable (r := _) rfl _ _).1 rfl))
    (fun h => absurd ((packageOf_iff ..).2 h) (by decide))
example : ∀ i r, tree.root ≠ some i → tree.res[i]? = some r → r.stackAt = stackTransformations tree := by
  intro i r h1 h2
  match i with
  | 0 => exact absurd rfl h1
  | 1 => cases h2; rfl
  | 2 => cases h2; rfl
  | 3 => cases h2; rfl
  | n + 4 => cases h2

end Pulumi.Construct
