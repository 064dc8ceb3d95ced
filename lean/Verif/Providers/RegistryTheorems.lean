import Verif.Providers.Registry
/-!
# Every reference stands for its own plugin (C202)
-/
namespace Pulumi.Providers

variable {U I P V C : Type}

/-- References that the engine looks up: not those with a former URN and no ID -/
def Sig.Used (S : Sig U I P V C) (r : Ref U I) : Prop := r.id ≠ S.unknown ∨ S.Own r.urn

structure Inv (S : Sig U I P V C) (s : Reg U I P V C) (v : View U I P V C) : Prop where
  agree : ∀ r, S.Used r → s.get r = v.get r
  bound : ∀ r n, s.provs r = some n → n < s.next
  fresh : ∀ u, v.phase u = .ready → S.Own u ∧ ∃ n, s.provs ⟨u, S.unknown⟩ = some n ∧ s.closed n = false ∧
    ∀ r, s.provs r = some n → r = ⟨u, S.unknown⟩ ∨ (r.id = S.unknown ∧ S.alias u = some r.urn)
  old : ∀ u, v.phase u = .old → S.Own u → s.provs ⟨u, S.unknown⟩ = none
  «open» : ∀ n, s.next ≤ n → s.closed n = false

theorem get_some {s : Reg U I P V C} {r : Ref U I} {n : Nat} (h : s.provs r = some n) (hc : s.closed n = false) : s.get r = some (s.plugs n) := by
  unfold Reg.get
  rw [h]
  simp only
  rw [hc]; rfl

theorem get_closed {s : Reg U I P V C} {r : Ref U I} {n : Nat} (h : s.provs r = some n) (hc : s.closed n = true) : s.get r = none := by
  unfold Reg.get
  rw [h]
  simp only
  rw [hc]; rfl

theorem get_none {s : Reg U I P V C} {r : Ref U I} (h : s.provs r = none) : s.get r = none := by
  unfold Reg.get
  rw [h]

/-- What a reference stands for is the same if its plugin is. -/
theorem get_congr {s s' : Reg U I P V C} {r : Ref U I} (h : s'.provs r = s.provs r) (hp : ∀ n, s.provs r = some n → s'.plugs n = s.plugs n)
    (hc : ∀ n, s.provs r = some n → s'.closed n = s.closed n) : s'.get r = s.get r := by
  unfold Reg.get
  rw [h]
  cases hr : s.provs r with
  | none => rfl
  | some n => simp only; rw [hp n hr, hc n hr]

theorem get_ne_none {s : Reg U I P V C} {r : Ref U I} (h : s.get r ≠ none) : ∃ n, s.provs r = some n ∧ s.closed n = false := by
  cases hr : s.provs r with
  | none => exact absurd (get_none hr) h
  | some n =>
    refine ⟨n, rfl, ?_⟩
    cases hc : s.closed n with
    | false => rfl
    | true => exact absurd (get_closed hr hc) h

variable [DecidableEq U] [DecidableEq I]

theorem inv_configure {S : Sig U I P V C} {s : Reg U I P V C} {v : View U I P V C} (h : Inv S s v) {u : U} {c : C} {id : I} (hu : S.Own u)
    (hr : v.phase u = .ready) (hid : id ≠ S.unknown) {n : Nat} (hn : s.provs ⟨u, S.unknown⟩ = some n) :
    Inv S ((s.configure n c).set S u id n) (v.apply S (.create u c id)) := by
  obtain ⟨-, m, hm, hc, hs⟩ := h.fresh u hr
  rw [hn] at hm; cases hm
  have hv : v.get ⟨u, S.unknown⟩ = some (s.plugs n) := by rw [← h.agree _ (.inr hu)]; exact get_some hn hc
  have hprov : ∀ r, ((s.configure n c).set S u id n).provs r = if r = ⟨u, id⟩ ∨ (r.id = id ∧ S.alias u = some r.urn) then some n else s.provs r := fun r => rfl
  have hplug : ∀ m, ((s.configure n c).set S u id n).plugs m = if m = n then { s.plugs n with conf := some c } else s.plugs m := fun r => rfl
  have hclosed : ∀ m, ((s.configure n c).set S u id n).closed m = s.closed m := fun r => rfl
  have hnew : ∀ r : Ref U I, r = ⟨u, id⟩ ∨ (r.id = id ∧ S.alias u = some r.urn) → r.id ≠ S.unknown := by
    rintro r (rfl | ⟨e, -⟩)
    · exact hid
    · rw [e]; exact hid
  refine ⟨fun r hused => ?_, fun r m hm => ?_, fun w hw => ?_, fun w hw ho => ?_, fun m hm => ?_⟩
  · simp only [View.apply, View.put]
    by_cases e : r = ⟨u, S.unknown⟩
    · subst e
      rw [if_pos rfl, hv]
      rw [get_some (n := n) (by rw [hprov, if_neg (fun h => hnew _ h rfl)]; exact hn) (by rw [hclosed]; exact hc), hplug, if_pos rfl]
      rfl
    · rw [if_neg e]
      by_cases e2 : r = ⟨u, id⟩ ∨ (r.id = id ∧ S.alias u = some r.urn)
      · rw [if_pos e2, hv, get_some (n := n) (by rw [hprov, if_pos e2]) (by rw [hclosed]; exact hc), hplug, if_pos rfl]
        rfl
      · rw [if_neg e2, ← h.agree r hused]
        refine get_congr (by rw [hprov, if_neg e2]) (fun m hm => ?_) (fun m hm => rfl)
        rw [hplug, if_neg]
        intro em
        rw [em] at hm
        rcases hs r hm with h' | ⟨h1, h2⟩
        · exact e h'
        · rcases hused with hq | hq
          · exact hq h1
          · exact hq u h2
  · rw [hprov] at hm
    split at hm
    · cases hm; exact h.bound _ _ hn
    · exact h.bound r m hm
  · simp only [View.apply] at hw
    by_cases e : w = u
    · rw [if_pos e] at hw; cases hw
    · rw [if_neg e] at hw
      obtain ⟨ho, m, hm, hcm, hsm⟩ := h.fresh w hw
      refine ⟨ho, m, ?_, hcm, fun r hr' => ?_⟩
      · rw [hprov, if_neg (fun h => hnew _ h rfl)]; exact hm
      · rw [hprov] at hr'
        split at hr'
        · cases hr'
          rcases hsm _ hn with h' | ⟨-, h2⟩
          · cases h'; exact absurd rfl e
          · exact absurd h2 (hu w)
        · exact hsm r hr'
  · simp only [View.apply] at hw
    by_cases e : w = u
    · rw [if_pos e] at hw; cases hw
    · rw [if_neg e] at hw
      rw [hprov, if_neg (fun h => hnew _ h rfl)]
      exact h.old w hw ho
  · exact h.open m hm

/-- A call that is allowed succeeds, and keeps the agreement. -/
theorem inv_apply {S : Sig U I P V C} {s : Reg U I P V C} {v : View U I P V C} (h : Inv S s v) (op : Op U I C) (ha : Allowed S s v op) :
    ∃ s', s.apply S op = some s' ∧ Inv S s' (v.apply S op) := by
  cases op with
  | check u c =>
    refine ⟨_, rfl, ?_⟩
    have hu : S.Own u := ha
    have hprov : ∀ r, ((s.load S u c none).set S u S.unknown s.next).provs r =
      if r = ⟨u, S.unknown⟩ ∨ (r.id = S.unknown ∧ S.alias u = some r.urn) then some s.next else s.provs r := fun r => rfl
    have hplug : ∀ m, ((s.load S u c none).set S u S.unknown s.next).plugs m = if m = s.next then ⟨S.pkg u, S.version c, none⟩ else s.plugs m := fun r => rfl
    refine ⟨fun r hused => ?_, fun r m hm => ?_, fun w hw => ?_, fun w hw ho => ?_, fun m hm => ?_⟩
    · simp only [View.apply]
      by_cases e : r = ⟨u, S.unknown⟩
      · rw [if_pos e]
        refine (get_some (n := s.next) (by rw [hprov, if_pos (.inl e)]) ?_).trans ?_
        · exact h.open _ (Nat.le_refl _)
        · rw [hplug, if_pos rfl]
      · have e2 : ¬ (r = ⟨u, S.unknown⟩ ∨ (r.id = S.unknown ∧ S.alias u = some r.urn)) := by
          rintro (h' | ⟨h1, h2⟩)
          · exact e h'
          · rcases hused with hq | hq
            · exact hq h1
            · exact hq u h2
        rw [if_neg e, ← h.agree r hused]
        refine get_congr (by rw [hprov, if_neg e2]) (fun m hm => ?_) (fun m hm => rfl)
        rw [hplug, if_neg (Nat.ne_of_lt (h.bound r m hm))]
    · rw [hprov] at hm
      split at hm
      · cases hm; exact Nat.lt_succ_self _
      · exact Nat.lt_succ_of_lt (h.bound r m hm)
    · simp only [View.apply] at hw
      by_cases e : w = u
      · subst e
        refine ⟨hu, s.next, by rw [hprov, if_pos (.inl rfl)], h.open _ (Nat.le_refl _), fun r hr => ?_⟩
        rw [hprov] at hr
        split at hr
        · assumption
        · exact absurd (h.bound r _ hr) (Nat.lt_irrefl _)
      · rw [if_neg e] at hw
        obtain ⟨ho, m, hm, hcm, hsm⟩ := h.fresh w hw
        refine ⟨ho, m, ?_, hcm, fun r hr => ?_⟩
        · rw [hprov, if_neg]
          · exact hm
          · rintro (h' | ⟨-, h2⟩)
            · cases h'; exact e rfl
            · exact ho u h2
        · rw [hprov] at hr
          split at hr
          · cases hr; exact absurd (h.bound _ _ hm) (Nat.lt_irrefl _)
          · exact hsm r hr
    · simp only [View.apply] at hw
      by_cases e : w = u
      · rw [if_pos e] at hw; cases hw
      · rw [if_neg e] at hw
        rw [hprov, if_neg]
        · exact h.old w hw ho
        · rintro (h' | ⟨-, h2⟩)
          · cases h'; exact e rfl
          · exact ho u h2
    · exact h.open m (Nat.le_of_succ_le hm)
  | checkFails u c =>
    refine ⟨_, rfl, ?_⟩
    have hplug : ∀ m, ((s.load S u c none).close s.next).plugs m = if m = s.next then ⟨S.pkg u, S.version c, none⟩ else s.plugs m := fun r => rfl
    have hcl : ∀ m, ((s.load S u c none).close s.next).closed m = if m = s.next then true else s.closed m := fun r => rfl
    refine ⟨fun r hused => ?_, fun r m hm => Nat.lt_succ_of_lt (h.bound r m hm), fun w hw => ?_, fun w hw ho => h.old w hw ho, fun m hm => ?_⟩
    · rw [show (v.apply S (.checkFails u c)).get r = v.get r from rfl, ← h.agree r hused]
      refine get_congr rfl (fun m hm => ?_) (fun m hm => ?_)
      · rw [hplug, if_neg (Nat.ne_of_lt (h.bound r m hm))]
      · rw [hcl, if_neg (Nat.ne_of_lt (h.bound r m hm))]
    · obtain ⟨ho, m, hm, hcm, hsm⟩ := h.fresh w hw
      exact ⟨ho, m, hm, by rw [hcl, if_neg (Nat.ne_of_lt (h.bound _ m hm))]; exact hcm, hsm⟩
    · rw [hcl, if_neg (Nat.ne_of_gt hm)]
      exact h.open m (Nat.le_of_succ_le hm)
  | diff u id replace =>
    obtain ⟨hu, hp | ⟨hp, hg, hid⟩⟩ := ha
    · obtain ⟨-, n, hn, hc, hs⟩ := h.fresh u hp
      simp only [Reg.apply, hn]
      refine ⟨_, rfl, ?_⟩
      cases replace with
      | false => simpa [View.apply] using h
      | true =>
        simp only [View.apply, hp]
        rw [if_pos trivial, if_pos ⟨trivial, by simp⟩]
        have hcl : ∀ m, (s.close n).closed m = if m = n then true else s.closed m := fun r => rfl
        refine ⟨fun r hused => ?_, h.bound, fun w hw => ?_, fun w hw ho => ?_, fun m hm => ?_⟩
        · simp only
          by_cases e : r = ⟨u, S.unknown⟩
          · rw [if_pos e]
            exact get_closed (n := n) (by rw [e]; exact hn) (by rw [hcl, if_pos rfl])
          · rw [if_neg e, ← h.agree r hused]
            refine get_congr rfl (fun m hm => rfl) (fun m hm => ?_)
            rw [hcl, if_neg]
            intro em
            rw [em] at hm
            rcases hs r hm with h' | ⟨h1, h2⟩
            · exact e h'
            · rcases hused with hq | hq
              · exact hq h1
              · exact hq u h2
        · simp only at hw
          by_cases e : w = u
          · rw [if_pos e] at hw; cases hw
          · rw [if_neg e] at hw
            obtain ⟨ho, m, hm, hcm, hsm⟩ := h.fresh w hw
            refine ⟨ho, m, hm, ?_, hsm⟩
            rw [hcl, if_neg]
            · exact hcm
            · intro em
              rw [em] at hm
              rcases hs _ hm with h' | ⟨-, h2⟩
              · cases h'; exact e rfl
              · exact ho u h2
        · simp only at hw
          by_cases e : w = u
          · rw [if_pos e] at hw; cases hw
          · rw [if_neg e] at hw
            exact h.old w hw ho
        · rw [hcl, if_neg (Nat.ne_of_gt (Nat.lt_of_lt_of_le (h.bound _ _ hn) hm))]
          exact h.open m hm
    · have hn := h.old u hp hu
      rw [← h.agree _ (.inl hid)] at hg
      obtain ⟨m, hm, -⟩ := get_ne_none hg
      simp only [Reg.apply, hn, hm]
      refine ⟨s, rfl, ?_⟩
      simp only [View.apply, hp]
      rw [if_neg (by simp)]
      exact h
  | same u id =>
    obtain ⟨hid, hg⟩ := ha
    simp only [Reg.apply, View.apply]
    cases ha' : S.alias u with
    | none => exact ⟨s, rfl, h⟩
    | some a =>
      have hg := hg a ha'
      rw [← h.agree ⟨a, id⟩ (.inl hid)] at hg
      obtain ⟨n, hn, hc⟩ := get_ne_none hg
      simp only [hn]
      refine ⟨_, rfl, ?_⟩
      refine ⟨fun r hused => ?_, fun r m hm => ?_, fun w hw => ?_, fun w hw ho => ?_, h.open⟩
      · simp only
        by_cases e : r = ⟨u, id⟩
        · rw [if_pos e, ← h.agree ⟨a, id⟩ (.inl hid), get_some hn hc]
          exact get_some (n := n) (by simp only; rw [if_pos e]) hc
        · rw [if_neg e, ← h.agree r hused]
          exact get_congr (by simp only; rw [if_neg e]) (fun m hm => rfl) (fun m hm => rfl)
      · simp only at hm
        split at hm
        · cases hm; exact h.bound _ _ hn
        · exact h.bound r m hm
      · obtain ⟨ho, m, hm, hcm, hsm⟩ := h.fresh w hw
        refine ⟨ho, m, ?_, hcm, fun r hr => ?_⟩
        · simp only
          rw [if_neg (fun e => by cases e; exact hid rfl)]
          exact hm
        · simp only at hr
          split at hr
          · cases hr
            rcases hsm _ hn with h' | ⟨h1, -⟩
            · cases h'; exact absurd rfl hid
            · exact absurd h1 hid
          · exact hsm r hr
      · simp only
        rw [if_neg (fun e => by cases e; exact hid rfl)]
        exact h.old w hw ho
  | create u c id =>
    obtain ⟨hu, hp, hid⟩ := ha
    obtain ⟨-, n, hn, -, -⟩ := h.fresh u hp
    simp only [Reg.apply, hn, Option.map_some]
    exact ⟨_, rfl, inv_configure h hu hp hid hn⟩
  | update u id c =>
    obtain ⟨hu, hp, hid⟩ := ha
    obtain ⟨-, n, hn, -, -⟩ := h.fresh u hp
    simp only [Reg.apply, hn, Option.map_some]
    exact ⟨_, rfl, inv_configure h hu hp hid hn⟩
  | delete u id =>
    obtain ⟨hid, hg, halone⟩ := ha
    rw [← h.agree ⟨u, id⟩ (.inl hid)] at hg
    obtain ⟨n, hn, hc⟩ := get_ne_none hg
    simp only [Reg.apply, hn, Option.map_some]
    refine ⟨_, rfl, ?_⟩
    have hne : ∀ r, r ≠ ⟨u, id⟩ → s.provs r ≠ some n := fun r hr => hn ▸ halone r hr
    have hprov : ∀ r, (Reg.close { s with provs := fun r => if r = ⟨u, id⟩ then none else s.provs r } n).provs r = if r = ⟨u, id⟩ then none else s.provs r := fun r => rfl
    have hcl : ∀ m, (Reg.close { s with provs := fun r => if r = ⟨u, id⟩ then none else s.provs r } n).closed m = if m = n then true else s.closed m := fun r => rfl
    have hun : ∀ w : U, (⟨w, S.unknown⟩ : Ref U I) ≠ ⟨u, id⟩ := fun w e => by cases e; exact hid rfl
    refine ⟨fun r hused => ?_, fun r m hm => ?_, fun w hw => ?_, fun w hw ho => ?_, fun m hm => ?_⟩
    · simp only [View.apply]
      by_cases e : r = ⟨u, id⟩
      · rw [if_pos e]
        exact get_none (by rw [hprov, if_pos e])
      · rw [if_neg e, ← h.agree r hused]
        refine get_congr (by rw [hprov, if_neg e]) (fun m hm => rfl) (fun m hm => ?_)
        rw [hcl, if_neg]
        intro em
        exact hne r e (em ▸ hm)
    · rw [hprov] at hm
      split at hm
      · cases hm
      · exact h.bound r m hm
    · obtain ⟨ho, m, hm, hcm, hsm⟩ := h.fresh w hw
      refine ⟨ho, m, by rw [hprov, if_neg (hun w)]; exact hm, ?_, fun r hr => ?_⟩
      · rw [hcl, if_neg]
        · exact hcm
        · intro em
          exact hne _ (hun w) (em ▸ hm)
      · rw [hprov] at hr
        split at hr
        · cases hr
        · exact hsm r hr
    · rw [hprov, if_neg (hun w)]
      exact h.old w hw ho
    · rw [hcl, if_neg (Nat.ne_of_gt (Nat.lt_of_lt_of_le (h.bound _ _ hn) hm))]
      exact h.open m hm

/-! ## At first -/

/-- No plugins -/
def emptyReg (p : Plug P V C) : Reg U I P V C := ⟨fun _ => p, fun _ => false, 0, fun _ => none⟩

theorem newReg_get {S : Sig U I P V C} {noId : I} {l : List (U × I × C)} {s s' : Reg U I P V C} (h : newReg S noId l s = some s')
    (hb : ∀ r n, s.provs r = some n → n < s.next) (hc : ∀ n, s.closed n = false) (hk : ∀ u, s.provs ⟨u, S.unknown⟩ = none) :
    (∀ r, s'.get r = (s.get r).or (oldSpec S l r)) ∧ (∀ r n, s'.provs r = some n → n < s'.next) ∧ (∀ n, s'.closed n = false) ∧
    ∀ u, s'.provs ⟨u, S.unknown⟩ = none := by
  induction l generalizing s with
  | nil =>
    cases h
    exact ⟨fun r => by simp [oldSpec], hb, hc, hk⟩
  | cons x l ih =>
    obtain ⟨u, id, c⟩ := x
    unfold newReg at h
    split at h
    · cases h
    · rename_i hid
      split at h
      · cases h
      · rename_i hnone
        have hnone : s.provs ⟨u, id⟩ = none := by simpa using hnone
        have := ih h (fun r n hr => ?_) hc (fun w => ?_)
        · refine ⟨fun r => ?_, this.2⟩
          rw [this.1 r]
          rw [show oldSpec S ((u, id, c) :: l) r = if r = ⟨u, id⟩ then some ⟨S.pkg u, S.version c, some c⟩ else oldSpec S l r from rfl]
          by_cases e : r = ⟨u, id⟩
          · subst e
            rw [if_pos rfl, get_none hnone, Option.none_or]
            have hg : Reg.get (s := { s.load S u c (some c) with provs := fun r => if r = ⟨u, id⟩ then some s.next else s.provs r }) ⟨u, id⟩ =
                some ⟨S.pkg u, S.version c, some c⟩ := by
              refine (get_some (n := s.next) ?_ ?_).trans ?_
              · exact if_pos rfl
              · exact hc _
              exact congrArg some (if_pos rfl)
            rw [hg]; rfl
          · rw [if_neg e]
            have hg : Reg.get (s := { s.load S u c (some c) with provs := fun r => if r = ⟨u, id⟩ then some s.next else s.provs r }) r = s.get r :=
              get_congr (if_neg e) (fun m hm => if_neg (Nat.ne_of_lt (hb r m hm))) (fun m hm => rfl)
            rw [hg]
        · simp only at hr
          split at hr
          · cases hr; exact Nat.lt_succ_self _
          · exact Nat.lt_succ_of_lt (hb r n hr)
        · simp only
          rw [if_neg (fun e => by cases e; exact hid (.inr rfl))]
          exact hk w

theorem initial_inv {S : Sig U I P V C} {noId : I} {l : List (U × I × C)} {p : Plug P V C} {s : Reg U I P V C}
    (h : newReg S noId l (emptyReg p) = some s) : Inv S s ⟨oldSpec S l, fun _ => .old⟩ := by
  obtain ⟨h1, h2, h3, h4⟩ := newReg_get h (fun r n e => by cases e) (fun n => rfl) (fun u => rfl)
  refine ⟨fun r _ => ?_, h2, fun u e => (by cases e), fun u _ _ => h4 u, fun n _ => h3 n⟩
  rw [h1 r, get_none (s := emptyReg p) rfl]
  rfl

theorem inv_runs {S : Sig U I P V C} {s s' : Reg U I P V C} {v v' : View U I P V C} (h : Inv S s v) (hr : Runs S s v s' v') : Inv S s' v' := by
  induction hr with
  | refl => exact h
  | step op _ ha he ih =>
    obtain ⟨s'', e, hi⟩ := inv_apply ih op ha
    rw [he] at e; cases e
    exact hi

/-! ## Properties -/

/-- **C202** After any calls of a deployment every reference stands for a plugin that was not closed, of the package and version of its provider, and configured
with what the provider was created, updated or found with last: as if each had a plugin of its own. Missing: calls that are not allowed here, see below. -/
theorem registry_refines_partial {S : Sig U I P V C} {noId : I} {olds : List (U × I × C)} {p : Plug P V C} {s s' : Reg U I P V C} {v' : View U I P V C}
    (hn : newReg S noId olds (emptyReg p) = some s) (hr : Runs S s ⟨oldSpec S olds, fun _ => .old⟩ s' v') {r : Ref U I} (hused : S.Used r) :
    s'.get r = v'.get r := (inv_runs (initial_inv hn) hr).agree r hused

/-- **C202** No assertion fails in any of these calls, and none registers a reference without a plugin. -/
theorem registry_never_stuck_partial {S : Sig U I P V C} {noId : I} {olds : List (U × I × C)} {p : Plug P V C} {s s' : Reg U I P V C} {v' : View U I P V C}
    (hn : newReg S noId olds (emptyReg p) = some s) (hr : Runs S s ⟨oldSpec S olds, fun _ => .old⟩ s' v') (op : Op U I C) (ha : Allowed S s' v' op) :
    (s'.apply S op).isSome = true := by
  obtain ⟨s'', e, -⟩ := inv_apply (inv_runs (initial_inv hn) hr) op ha
  rw [e]; rfl

/-- **C202** A registry is made from old states if and only if every provider has an ID that is known, and no two have the same URN and ID. -/
theorem newReg_succeeds (S : Sig U I P V C) (noId : I) (olds : List (U × I × C)) (p : Plug P V C) :
    (newReg S noId olds (emptyReg p)).isSome = true ↔
      (∀ o ∈ olds, o.2.1 ≠ noId ∧ o.2.1 ≠ S.unknown) ∧ olds.Pairwise fun a b => ¬ (a.1 = b.1 ∧ a.2.1 = b.2.1) := by
  have key : ∀ (l : List (U × I × C)) (s : Reg U I P V C), (newReg S noId l s).isSome = true ↔
      (∀ o ∈ l, (o.2.1 ≠ noId ∧ o.2.1 ≠ S.unknown) ∧ s.provs ⟨o.1, o.2.1⟩ = none) ∧ l.Pairwise fun a b => ¬ (a.1 = b.1 ∧ a.2.1 = b.2.1) := by
    intro l
    induction l with
    | nil => intro s; simp [newReg]
    | cons x l ih =>
      intro s
      obtain ⟨u, id, c⟩ := x
      unfold newReg
      rw [List.pairwise_cons]
      split
      · rename_i hid
        refine ⟨fun h => (by cases h), fun h => ?_⟩
        have := (h.1 _ List.mem_cons_self).1
        rcases hid with e | e
        · exact absurd e this.1
        · exact absurd e this.2
      · rename_i hid
        split
        · rename_i hs
          refine ⟨fun h => (by cases h), fun h => ?_⟩
          have := (h.1 _ List.mem_cons_self).2
          rw [this] at hs; cases hs
        · rename_i hs
          have hs : s.provs ⟨u, id⟩ = none := by simpa using hs
          simp only
          rw [ih]
          constructor
          · rintro ⟨h1, h2⟩
            refine ⟨fun o ho => ?_, fun o ho e => ?_, h2⟩
            · rcases List.mem_cons.mp ho with rfl | ho
              · exact ⟨⟨fun e => hid (.inl e), fun e => hid (.inr e)⟩, hs⟩
              · refine ⟨(h1 o ho).1, ?_⟩
                have := (h1 o ho).2
                simp only at this
                split at this
                · cases this
                · exact this
            · have := (h1 o ho).2
              simp only at this e
              rw [← e.1, ← e.2, if_pos rfl] at this
              cases this
          · rintro ⟨h1, h2, h3⟩
            refine ⟨fun o ho => ⟨(h1 o (List.mem_cons_of_mem _ ho)).1, ?_⟩, h3⟩
            simp only
            rw [if_neg]
            · exact (h1 o (List.mem_cons_of_mem _ ho)).2
            · intro e
              injection e with e1 e2
              exact h2 o ho ⟨e1.symm, e2.symm⟩
  rw [key]
  simp [emptyReg]

/-- **C202** At first every old provider has its plugin. -/
theorem newReg_loads {S : Sig U I P V C} {noId : I} {olds : List (U × I × C)} {p : Plug P V C} {s : Reg U I P V C}
    (h : newReg S noId olds (emptyReg p) = some s) {o : U × I × C} (ho : o ∈ olds) : s.get ⟨o.1, o.2.1⟩ = some ⟨S.pkg o.1, S.version o.2.2, some o.2.2⟩ := by
  obtain ⟨h1, -⟩ := newReg_get h (fun r n e => by cases e) (fun n => rfl) (fun u => rfl)
  rw [h1, get_none (s := emptyReg p) rfl, Option.none_or]
  have hp := ((newReg_succeeds S noId olds p).mp (by rw [h]; rfl)).2
  clear h h1
  induction olds with
  | nil => cases ho
  | cons x l ih =>
    obtain ⟨u, id, c⟩ := x
    rw [List.pairwise_cons] at hp
    unfold oldSpec
    rcases List.mem_cons.mp ho with rfl | ho
    · exact if_pos rfl
    · rw [if_neg]
      · exact ih ho hp.2
      · intro e
        injection e with e1 e2
        exact hp.1 o ho ⟨e1.symm, e2.symm⟩

/-! ## Examples and findings -/

/-- URNs, IDs, packages and inputs are numbers; the version is the inputs; 0 is the unknown ID; provider 7 was 5 before. -/
def demoSig : Sig Nat Nat Nat Nat Nat := ⟨fun u => u, fun c => c, 0, fun u => if u = 7 then some 5 else none⟩

theorem demo_own {u : Nat} (h : u ≠ 5) : demoSig.Own u := by
  intro w e
  simp only [demoSig] at e
  split at e
  · cases e; exact h rfl
  · cases e

/-- A provider is replaced: the old plugin stays until it is deleted, and the new one is the one that was checked again. -/
example : ∃ s s' v', newReg demoSig 99 [(1, 11, 100)] (emptyReg ⟨0, 0, none⟩) = some s ∧ Runs demoSig s ⟨oldSpec demoSig [(1, 11, 100)], fun _ => .old⟩ s' v' ∧
    s'.get ⟨1, 11⟩ = some ⟨1, 100, some 100⟩ ∧ s'.get ⟨1, 12⟩ = some ⟨1, 200, some 200⟩ := by
  let r := Runs.refl (S := demoSig) (((newReg demoSig 99 [(1, 11, 100)] (emptyReg ⟨0, 0, none⟩))).getD (emptyReg ⟨0, 0, none⟩)) ⟨oldSpec demoSig [(1, 11, 100)], fun _ => .old⟩
  let r := r.step (.check 1 200) (demo_own (by decide)) rfl
  let r := r.step (.diff 1 11 true) ⟨demo_own (by decide), .inl rfl⟩ rfl
  let r := r.step (.check 1 200) (demo_own (by decide)) rfl
  let r := r.step (.create 1 200 12) ⟨demo_own (by decide), rfl, by decide⟩ rfl
  exact ⟨_, _, _, rfl, r, rfl, rfl⟩

/-- **C202, finding** A provider that was renamed and is in use is closed if `Diff` is asked about it by its former name and says that it is to be replaced, as is
done for dependents of what is deleted before it is replaced. -/
theorem diff_by_former_name_closes : ∃ s : Reg Nat Nat Nat Nat Nat, newReg demoSig 99 [(5, 11, 100)] (emptyReg ⟨0, 0, none⟩) = some s ∧
    ∃ a b c, s.apply demoSig (.check 7 100) = some a ∧ a.apply demoSig (.update 7 11 200) = some b ∧ b.get ⟨7, 11⟩ ≠ none ∧
      b.apply demoSig (.diff 5 11 true) = some c ∧ c.get ⟨7, 11⟩ = none :=
  ⟨_, rfl, _, _, _, rfl, rfl, by decide, rfl, rfl⟩

/-- **C202, finding** Updating a provider loads a plugin for it and never closes the one it had. -/
theorem update_leaves_plugin_open : ∃ s a b : Reg Nat Nat Nat Nat Nat, newReg demoSig 99 [(1, 11, 100)] (emptyReg ⟨0, 0, none⟩) = some s ∧
    s.provs ⟨1, 11⟩ = some 0 ∧ s.apply demoSig (.check 1 200) = some a ∧ a.apply demoSig (.update 1 11 200) = some b ∧
    (∀ r, b.provs r ≠ some 0) ∧ b.closed 0 = false := by
  refine ⟨_, _, _, rfl, rfl, rfl, rfl, fun r => ?_, rfl⟩
  show (if r = ⟨1, 11⟩ ∨ _ then some 1 else if r = ⟨1, demoSig.unknown⟩ ∨ _ then some 1 else if r = ⟨1, 11⟩ then some 0 else none) ≠ some 0
  by_cases h1 : r = ⟨1, 11⟩ ∨ (r.id = 11 ∧ demoSig.alias 1 = some r.urn)
  · rw [if_pos h1]; simp
  · rw [if_neg h1, if_neg (c := r = ⟨1, 11⟩) fun h => h1 (.inl h)]
    by_cases h2 : r = ⟨1, demoSig.unknown⟩ ∨ (r.id = demoSig.unknown ∧ demoSig.alias 1 = some r.urn)
    · rw [if_pos h2]; simp
    · rw [if_neg h2]; simp

end Pulumi.Providers
