import Verif.Construct.Lemmas
/-! # What holds of every resource that was constructed -/
namespace Pulumi.Construct
open Pulumi.Urn (Text)
variable {P σ : Type}

/-- The attributes of a resource in terms of its options and of its parent. -/
structure Local (w : World P σ) (i : Nat) (r : Res P) : Prop where
  notOther : r.given.parent ≠ .other
  sameParent : r.asked.parent = r.given.parent
  top : r.given.parent = .none → r.protect = r.given.protect.getD false ∧
    r.providers = (getProviders r.type_ (packageOf r.type_) r.given none []).2 ∧
    r.provider = if r.custom then (getProviders r.type_ (packageOf r.type_) r.given none []).1 else none
  under : ∀ j, r.given.parent = .res j → j < i ∧ ∃ rj, w.res[j]? = some rj ∧ r.protect = r.given.protect.getD rj.protect ∧
    r.providers = (getProviders r.type_ (packageOf r.type_) r.given (some rj.providers) rj.providers).2 ∧
    r.provider = if r.custom then (getProviders r.type_ (packageOf r.type_) r.given (some rj.providers) rj.providers).1
      else none
  matches_ : ∀ p, r.provider = some p → PackageIs r.type_ p.package
  trans : w.root ≠ some i → ∀ ts, r.transformations = some ts → ∃ inh, ts = r.asked.transformations.getD [] ++ inh ∧
    (r.given.parent = .none → inh = r.stackAt) ∧
    ∀ j, r.given.parent = .res j → (w.root = some j → inh = r.stackAt) ∧
      (w.root ≠ some j → ∀ rj, w.res[j]? = some rj → rj.transformations = some inh)
  rootTop : w.root = some i → r.given.parent = .none
  sent : ∀ q, r.request = some q → q.type_ = r.type_ ∧ q.opts.protect.getD false = r.protect ∧
    q.provider = (if q.action = .get then none else r.provider) ∧ (q.action = .read → r.custom = true) ∧
    q.action = actionOf r.given

structure Inv (w : World P σ) : Prop where
  each : ∀ i r, w.res[i]? = some r → Local w i r
  root : ∀ i, w.root = some i → ∃ r, w.res[i]? = some r ∧ r.transformations.isSome

theorem get_append {α : Type} {l : List α} {i : Nat} {a : α} (x : List α) (h : l[i]? = some a) : (l ++ x)[i]? = some a := by
  rw [List.getElem?_append_left (List.getElem?_eq_some_iff.1 h).1, h]

theorem lt_of_get {α : Type} {l : List α} {i : Nat} {a : α} (h : l[i]? = some a) : i < l.length :=
  (List.getElem?_eq_some_iff.1 h).1

/-- Constructing another resource changes nothing for the earlier ones. -/
theorem Local.append {w : World P σ} {i : Nat} {r : Res P} (h : Local w i r) (hi : i < w.res.length) (x : Res P) (s : σ) :
    Local { w with res := w.res ++ [x], user := s } i r := by
  refine ⟨h.notOther, h.sameParent, h.top, ?_, h.matches_, ?_, h.rootTop, h.sent⟩
  · intro j hj
    obtain ⟨h1, rj, h2, h3⟩ := h.under j hj
    exact ⟨h1, rj, get_append _ h2, h3⟩
  · intro hr ts hts
    obtain ⟨inh, h1, h2, h3⟩ := h.trans hr ts hts
    refine ⟨inh, h1, h2, fun j hj => ⟨(h3 j hj).1, fun hrj rj hrj' => (h3 j hj).2 hrj rj ?_⟩⟩
    have hlt := (h.under j hj).1
    have : (w.res ++ [x])[j]? = some rj := hrj'
    rwa [List.getElem?_append_left (by omega)] at this

/-- The new resource. -/
theorem Inv.append {w : World P σ} (h : Inv w) {x : Res P} {s : σ}
    (hx : Local { w with res := w.res ++ [x], user := s } w.res.length x) : Inv { w with res := w.res ++ [x], user := s } := by
  constructor
  · intro i r hi
    have hi' : (w.res ++ [x])[i]? = some r := hi
    by_cases hlt : i < w.res.length
    · rw [List.getElem?_append_left hlt] at hi'
      exact (h.each i r hi').append hlt x s
    · have he : i = w.res.length := by
        have := lt_of_get hi'
        simp only [List.length_append, List.length_singleton] at this
        omega
      subst he
      simp only [List.getElem?_concat_length, Option.some.injEq] at hi'
      subst hi'
      exact hx
  · intro i hi
    obtain ⟨r, h1, h2⟩ := h.root i hi
    exact ⟨r, get_append _ h1, h2⟩

theorem transformationsOf_ok {w : World P σ} {i : Nat} {ts : List Nat} (h : transformationsOf w i = .ok ts) :
    ∃ r, w.res[i]? = some r ∧ r.transformations = some ts := by
  unfold transformationsOf at h
  split at h
  · cases h
  · rename_i r hr
    split at h
    · cases h
    · rename_i ts' hts
      cases h
      exact ⟨r, hr, hts⟩

theorem stack_of_root {w : World P σ} {i : Nat} {r : Res P} {ts : List Nat} (h : w.root = some i) (hr : w.res[i]? = some r)
    (ht : r.transformations = some ts) : stackTransformations w = ts := by
  simp [stackTransformations, h, hr, ht]

theorem transform_parent {call : Call P σ} {self : Nat} {t name : Text} (ts : List Nat) :
    ∀ {props opts s props' opts' s'}, transform call self t name ts props opts s = (.ok (props', opts'), s') →
      opts'.parent = opts.parent := by
  induction ts with
  | nil =>
    intro props opts s props' opts' s' h
    simp only [transform, Prod.mk.injEq, Except.ok.injEq] at h
    rw [h.1.2]
  | cons f ts ih =>
    intro props opts s props' opts' s' h
    unfold transform at h
    split at h
    · cases h
    · exact ih h
    · split at h
      · cases h
      · rename_i hp
        rw [ih h]
        exact Classical.byContradiction fun hne => hp hne

/-- The resource that the second half of the constructor makes. -/
theorem finish_ok {w : World P σ} {t name : Text} {custom remote : Bool} {asked : Opts} {ts : List Nat} {props : P}
    {given : Opts} {r : Res P} (h : finish w t name custom remote asked ts props given = .ok r) :
    ∃ parent, parentRes w given.parent = .ok parent ∧ r.transformations = some ts ∧
      r.protect = (given.protect.or (parent.map (·.protect))).getD false ∧ r.type_ = t ∧ r.custom = custom ∧
      r.asked = asked ∧ r.given = given ∧ r.stackAt = stackTransformations w ∧
      (let chosen := getProviders t (packageOf t) given (parent.map (·.providers)) (inheritedProviders parent)
      r.providers = chosen.2 ∧ r.provider = (if custom then chosen.1 else none) ∧
      (∀ p, r.provider = some p → packageOf t = some p.package) ∧ (actionOf given = .read → custom = true) ∧
      r.request = some (request (actionOf given) custom remote t name props
        { given with protect := given.protect.or (parent.map (·.protect)), provider := chosen.1 })) := by
  unfold finish at h
  split at h
  · cases h
  · rename_i parent hp
    dsimp only at h
    split at h
    · cases h
    · rename_i hm
      split at h
      · cases h
      · rename_i ha
        cases h
        refine ⟨parent, hp, rfl, rfl, rfl, rfl, rfl, rfl, rfl, rfl, rfl, ?_, ?_, rfl⟩
        · intro p hp
          dsimp only at hp
          rw [hp] at hm
          simp only [Option.any_some, decide_eq_true_eq] at hm
          exact (Classical.byContradiction fun hne => hm fun he => hne he.symm)
        · intro hr
          cases hc : custom with
          | true => rfl
          | false => exact absurd ⟨hr, by rw [hc]; simp⟩ ha

theorem finish_local {w : World P σ} (hw : Inv w) {t name : Text} {custom remote : Bool} {asked : Opts} {inh : List Nat} {props : P}
    {given : Opts} {r : Res P} (hs : asked.parent = given.parent) (hi : parentTransformations w asked.parent = .ok inh)
    (h : finish w t name custom remote asked (asked.transformations.getD [] ++ inh) props given = .ok r) (s : σ) :
    Local { w with res := w.res ++ [r], user := s } w.res.length r := by
  obtain ⟨parent, h1, h2, h3, h4, h5, h6, h7, h8, h9, h10, h11, h12, h13⟩ := finish_ok h
  have hroot : w.root ≠ some w.res.length := by
    intro hr
    obtain ⟨r', hr', _⟩ := hw.root _ hr
    exact absurd (lt_of_get hr') (by omega)
  have hreq : ∀ q, r.request = some q → q.type_ = r.type_ ∧ q.opts.protect.getD false = r.protect ∧
      q.provider = (if q.action = .get then none else r.provider) ∧ (q.action = .read → r.custom = true) ∧
      q.action = actionOf r.given := by
    intro q hq
    rw [h13] at hq
    cases hq
    refine ⟨h4.symm, h3.symm, ?_, fun ha => by rw [h5]; exact h12 ha, by rw [h7]; rfl⟩
    simp only [request]
    rw [h10]
    by_cases hg : actionOf given = .get
    · simp [hg]
    · simp [hg]
  have hmatch : ∀ p, r.provider = some p → PackageIs r.type_ p.package := fun p hp => by
    rw [h4]; exact (packageOf_iff ..).1 (h11 p hp)
  rw [hs] at hi
  cases hpar : given.parent with
  | other => rw [hpar] at h1; cases h1
  | none =>
    rw [hpar] at h1 hi
    cases h1
    refine ⟨by rw [h7, hpar]; simp, by rw [h6, h7, hs], ?_, ?_, hmatch, ?_, ?_, hreq⟩
    · intro _
      rw [h3, h4, h5, h7]
      exact ⟨by simp, h9, h10⟩
    · intro j hj; rw [h7, hpar] at hj; cases hj
    · intro _ ts hts
      rw [h2] at hts
      cases hts
      refine ⟨inh, by rw [h6], fun _ => ?_, fun j hj => by rw [h7, hpar] at hj; cases hj⟩
      rw [h8]
      simp only [parentTransformations] at hi
      split at hi
      · rename_i hn
        cases hi
        simp [stackTransformations, hn]
      · rename_i i hn
        obtain ⟨r', hr', ht'⟩ := transformationsOf_ok hi
        exact (stack_of_root hn hr' ht').symm
    · intro hr; exact absurd hr hroot
  | res j =>
    rw [hpar] at h1 hi
    simp only [parentRes] at h1
    split at h1
    · cases h1
    · rename_i rj hrj
      cases h1
      have hlt := lt_of_get hrj
      refine ⟨by rw [h7, hpar]; simp, by rw [h6, h7, hs], ?_, ?_, hmatch, ?_, ?_, hreq⟩
      · intro hj; rw [h7, hpar] at hj; cases hj
      · intro j' hj
        rw [h7, hpar] at hj
        cases hj
        refine ⟨hlt, rj, get_append _ hrj, ?_, ?_, ?_⟩
        · rw [h3, h7]; cases given.protect <;> simp
        · rw [h4, h7]; exact h9
        · rw [h4, h5, h7]; exact h10
      · intro _ ts hts
        rw [h2] at hts
        cases hts
        obtain ⟨r', hr', ht'⟩ := transformationsOf_ok hi
        refine ⟨inh, by rw [h6], fun hj => (by rw [h7, hpar] at hj; cases hj), ?_⟩
        intro j' hj
        rw [h7, hpar] at hj
        cases hj
        refine ⟨fun hr => ?_, fun _ rj' hrj' => ?_⟩
        · rw [h8]
          exact (stack_of_root (w := w) hr hr' ht').symm
        · have : (w.res ++ [r])[j]? = some rj' := hrj'
          rw [List.getElem?_append_left hlt, hr'] at this
          cases this
          exact ht'
      · intro hr; exact absurd hr hroot

theorem Inv.user {w : World P σ} (h : Inv w) (s : σ) : Inv { w with user := s } := by
  constructor
  · intro i r hi
    have := h.each i r hi
    exact ⟨this.notOther, this.sameParent, this.top, this.under, this.matches_, this.trans, this.rootTop, this.sent⟩
  · exact h.root

/-- The cases of the constructor. -/
theorem construct_cases (call : Call P σ) (t name : Text) (custom remote : Bool) (props : P) (opts : Opts) (w : World P σ) :
    (∃ e s, construct call t name custom remote props opts w = (.error e, { w with user := s })) ∨
    ∃ inh props' opts' s r, parentTransformations w opts.parent = .ok inh ∧
      transform call w.res.length t name (opts.transformations.getD [] ++ inh) props opts w.user = (.ok (props', opts'), s) ∧
      finish w t name custom remote opts (opts.transformations.getD [] ++ inh) props' opts' = .ok r ∧
      construct call t name custom remote props opts w = (.ok w.res.length, { w with res := w.res ++ [r], user := s }) := by
  unfold construct
  by_cases ht : t = []
  · simp only [ht, if_true]
    exact .inl ⟨_, w.user, rfl⟩
  · simp only [ht, if_false]
    by_cases hn : name = []
    · simp only [hn, if_true]
      exact .inl ⟨_, w.user, rfl⟩
    · simp only [hn, if_false]
      cases hp : parentTransformations w opts.parent with
      | error e => exact .inl ⟨e, w.user, rfl⟩
      | ok inh =>
        dsimp only
        rcases htr : transform call w.res.length t name (opts.transformations.getD [] ++ inh) props opts w.user with ⟨out, s⟩
        cases out with
        | error e => exact .inl ⟨e, s, rfl⟩
        | ok po =>
          obtain ⟨props', opts'⟩ := po
          dsimp only
          cases hf : finish w t name custom remote opts (opts.transformations.getD [] ++ inh) props' opts' with
          | error e => exact .inl ⟨e, s, rfl⟩
          | ok r => exact .inr ⟨inh, props', opts', s, r, rfl, htr, hf, rfl⟩

theorem Inv.construct {w : World P σ} (h : Inv w) (call : Call P σ) (t name : Text) (custom remote : Bool) (props : P)
    (opts : Opts) : Inv (construct call t name custom remote props opts w).2 := by
  rcases construct_cases call t name custom remote props opts w with ⟨e, s, he⟩ | ⟨inh, props', opts', s, r, hp, ht, hf, he⟩
  · rw [he]
    exact h.user s
  · rw [he]
    exact h.append (finish_local h (transform_parent _ ht).symm hp hf s)

theorem dependency_local {w : World P σ} (hw : Inv w) :
    Local { w with res := w.res ++ [dependencyRes w], user := w.user } w.res.length (dependencyRes w) := by
  have hroot : w.root ≠ some w.res.length := by
    intro hr
    obtain ⟨r', hr', _⟩ := hw.root _ hr
    exact absurd (lt_of_get hr') (by omega)
  refine ⟨by simp [dependencyRes], rfl, ?_, ?_, ?_, ?_, ?_, ?_⟩
  · intro _; exact ⟨rfl, rfl, rfl⟩
  · intro j hj; cases hj
  · intro p hp; cases hp
  · intro _ ts hts; cases hts
  · intro hr; exact absurd hr hroot
  · intro q hq; cases hq

theorem Inv.dependency {w : World P σ} (h : Inv w) : Inv (dependency w).2 := h.append (dependency_local h)

theorem Inv.newStack {w : World P σ} (h : Inv w) (call : Call P σ) (name : Text) (props : P) :
    Inv (newStack call name props w).2 := by
  unfold Construct.newStack
  by_cases hr : w.root.isSome
  · simp only [hr, if_true]
    exact h
  · simp only [hr, Bool.false_eq_true, if_false]
    have hr' : w.root = none := by simpa using hr
    have hinv := h.construct call stackType name false false props {}
    rcases construct_cases call stackType name false false props {} w with ⟨e, s, he⟩ | ⟨inh, props', opts', s, r, hp, ht, hf, he⟩
    · rw [he] at hinv ⊢
      exact hinv
    · rw [he] at hinv ⊢
      have hpar : opts'.parent = .none := transform_parent _ ht
      obtain ⟨parent, h1, h2, h3, h4, h5, h6, h7, h8, _⟩ := finish_ok hf
      constructor
      · intro i x hx
        have hL := hinv.each i x hx
        refine ⟨hL.notOther, hL.sameParent, hL.top, hL.under, hL.matches_, ?_, ?_, hL.sent⟩
        · intro hi ts hts
          obtain ⟨inh', e1, e2, e3⟩ := hL.trans (by rw [hr']; simp) ts hts
          refine ⟨inh', e1, e2, fun j hj => ⟨fun hroot => ?_, fun hroot rj hrj => (e3 j hj).2 (by rw [hr']; simp) rj hrj⟩⟩
          have hlt := (hL.under j hj).1
          have hbound := lt_of_get hx
          simp only [List.length_append, List.length_singleton] at hbound
          cases hroot
          omega
        · intro hi
          cases hi
          have : (w.res ++ [r])[w.res.length]? = some x := hx
          simp only [List.getElem?_concat_length, Option.some.injEq] at this
          subst this
          rw [h7]
          exact hpar
      · intro i hi
        cases hi
        exact ⟨r, by simp, by rw [h2]; rfl⟩

theorem Inv.register {w : World P σ} (h : Inv w) (f : Nat) : Inv (registerStackTransformation f w).2 := by
  rcases Option.eq_none_or_eq_some w.root with hr | ⟨i, hr⟩
  · have : (registerStackTransformation f w).2 = w := by simp [registerStackTransformation, hr]
    rw [this]
    exact h
  · obtain ⟨r, hi, ht⟩ := h.root i hr
    have : (registerStackTransformation f w).2 =
        { w with res := w.res.set i { r with transformations := some (r.transformations.getD [] ++ [f]) } } := by
      simp [registerStackTransformation, hr, hi]
    rw [this]
    have hlt := lt_of_get hi
    -- looking up in the new list
    have look : ∀ (k : Nat) (x : Res P), (w.res.set i { r with transformations := some (r.transformations.getD [] ++ [f]) })[k]? = some x →
        ∃ y, w.res[k]? = some y ∧ ((k ≠ i ∧ x = y) ∨ k = i ∧ y = r ∧ x = { r with transformations := some (r.transformations.getD [] ++ [f]) }) := by
      intro k x hx
      by_cases hk : i = k
      · subst hk
        simp only [List.getElem?_set_self hlt, Option.some.injEq] at hx
        exact ⟨r, hi, .inr ⟨rfl, rfl, hx.symm⟩⟩
      · rw [List.getElem?_set_ne hk] at hx
        exact ⟨x, hx, .inl ⟨fun he => hk he.symm, rfl⟩⟩
    have back : ∀ (k : Nat) (y : Res P), w.res[k]? = some y → ∃ x, (w.res.set i { r with transformations := some (r.transformations.getD [] ++ [f]) })[k]? = some x ∧
        x.protect = y.protect ∧ x.providers = y.providers := by
      intro k y hy
      by_cases hk : i = k
      · subst hk
        rw [hi] at hy
        cases hy
        exact ⟨_, List.getElem?_set_self hlt, rfl, rfl⟩
      · exact ⟨y, by rw [List.getElem?_set_ne hk]; exact hy, rfl, rfl⟩
    constructor
    · intro k x hx
      obtain ⟨y, hy, hxy⟩ := look k x hx
      have hL := h.each k y hy
      have und : ∀ j, y.given.parent = .res j → j < k ∧ ∃ rj, (w.res.set i { r with transformations := some (r.transformations.getD [] ++ [f]) })[j]? = some rj ∧
          y.protect = y.given.protect.getD rj.protect ∧
          y.providers = (getProviders y.type_ (packageOf y.type_) y.given (some rj.providers) rj.providers).2 ∧
          y.provider = if y.custom then (getProviders y.type_ (packageOf y.type_) y.given (some rj.providers) rj.providers).1
            else none := by
        intro j hj
        obtain ⟨e1, rj, e2, e3, e4⟩ := hL.under j hj
        obtain ⟨x', b1, b2, b3⟩ := back j rj e2
        refine ⟨e1, x', b1, ?_, ?_⟩
        · rw [b2]; exact e3
        · rw [b3]; exact e4
      rcases hxy with ⟨hk, rfl⟩ | ⟨rfl, rfl, rfl⟩
      · refine ⟨hL.notOther, hL.sameParent, hL.top, und, hL.matches_, ?_, ?_, hL.sent⟩
        · intro hroot ts hts
          have hroot' : w.root ≠ some k := hroot
          obtain ⟨inh, e1, e2, e3⟩ := hL.trans hroot' ts hts
          refine ⟨inh, e1, e2, fun j hj => ⟨fun hr' => (e3 j hj).1 hr', fun hr' rj hrj => ?_⟩⟩
          obtain ⟨y', hy', hxy'⟩ := look j rj hrj
          rcases hxy' with ⟨_, rfl⟩ | ⟨rfl, _, _⟩
          · exact (e3 j hj).2 hr' _ hy'
          · exact absurd hr hr'
        · intro hroot
          exact hL.rootTop hroot
      · exact ⟨hL.notOther, hL.sameParent, hL.top, und, hL.matches_, fun hroot => absurd hr hroot, hL.rootTop, hL.sent⟩
    · intro k hk
      have hk' : w.root = some k := hk
      rw [hr] at hk'
      cases hk'
      exact ⟨_, List.getElem?_set_self hlt, rfl⟩

theorem reachable_inv {call : Call P σ} {w : World P σ} (h : Reachable call w) : Inv w := by
  induction h with
  | start s => exact ⟨fun i r hi => by simp at hi, fun i hi => by cases hi⟩
  | step _ hs ih =>
    cases hs with
    | construct => exact ih.construct ..
    | dependency => exact ih.dependency
    | stack => exact ih.newStack ..
    | register => exact ih.register _
    | user => exact ih.user _

end Pulumi.Construct
