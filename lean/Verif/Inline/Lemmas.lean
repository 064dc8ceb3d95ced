import Verif.Inline.Spec
import Verif.Loop.Theorems

namespace Pulumi.Inline
open Pulumi.Loop

theorem step_rpcs {aw : Bool} {s s' : State} (h : Loop.Step aw s s') :
    s'.rpcs = s.rpcs ∨ s'.rpcs = s.rpcs.dropLast ∨ ∃ x, s'.rpcs = s.rpcs ++ [x] := by
  cases h with
  | wrapStart => exact .inr (.inr ⟨_, rfl⟩)
  | popped => exact .inr (.inl rfl)
  | _ => exact .inl rfl

theorem take_drop_new {old new : List Nat} (h : new = old ∨ new = old.dropLast ∨ ∃ x, new = old ++ [x]) :
    old.take new.length ++ new.drop old.length = new := by
  rcases h with h | h | ⟨x, h⟩
  · subst h; simp
  · subst h
    rw [List.length_dropLast, ← List.dropLast_eq_take]
    rw [List.drop_eq_nil_of_le (by simp)]
    simp
  · subst h
    rw [List.take_of_length_le (by simp), List.drop_left' rfl]

theorem relabel_snd {i : Nat} {old : List (Nat × Nat)} {new : List Nat}
    (h : new = old.map (·.2) ∨ new = (old.map (·.2)).dropLast ∨ ∃ x, new = old.map (·.2) ++ [x]) :
    (relabel i old new).map (·.2) = new := by
  have := take_drop_new h
  simp only [relabel, List.map_append, List.map_take, List.map_map]
  rw [show (Prod.snd ∘ fun x : Nat => (i, x)) = id from rfl, List.map_id]
  simpa using this

theorem relabel_own {i : Nat} {old : List (Nat × Nat)} {new : List Nat} (h : ∀ x ∈ old, x.1 = i) :
    ∀ x ∈ relabel i old new, x.1 = i := by
  intro x hx
  simp only [relabel, List.mem_append, List.mem_map] at hx
  rcases hx with hx | ⟨k, _, rfl⟩
  · exact h x (List.mem_of_mem_take hx)
  · rfl

theorem view_after {i : Nat} {r : Run} {m : Manager} {s' : State} (h : Loop.Step true (view r m) s') :
    view (runAfter r s') (managerAfter i m s') = s' := by
  have := relabel_snd (i := i) (old := m.rpcs) (step_rpcs h)
  simp only [view, runAfter, managerAfter, this]

/-- What is known of the last run of a sequential history. -/
def Current (i : Nat) (r : Run) (m : Manager) : Prop :=
  match r.phase with
  | .running => (∀ x ∈ m.rpcs, x.1 = i) ∧ Loop.Steps true State.init (view r m)
  | .closing _ => Alone r ∧ r.main.ended
  | .closed => Alone r ∧ r.main.ended ∧ m = .clear
  | .crashed _ => True

/-- The invariant. -/
structure Good (p : Proc) : Prop where
  before : ∀ i r, i + 1 < p.runs.length → p.runs[i]? = some r → r.phase = .closed ∧ Alone r ∧ r.main.ended
  current : ∀ i r, i + 1 = p.runs.length → p.runs[i]? = some r → Current i r p.mgr
  empty : p.runs = [] → p.mgr = .clear

theorem Alone.of_view {r : Run} {m : Manager} (h : Loop.Steps true State.init (view r m)) (ph : Phase) : Alone { r with phase := ph } :=
  ⟨_, h, rfl, rfl, fun k t ht => ⟨t, ht, rfl, fun _ hx => hx⟩⟩

theorem Alone.phase {r : Run} (h : Alone r) (ph : Phase) : Alone { r with phase := ph } := h

theorem Alone.finish {r : Run} (h : Alone r) {k : Nat} {res : Result} (hk : r.resultOf k = none) :
    Alone { r with tasks := finish r.tasks k res } := by
  obtain ⟨s, h1, h2, h3, h4⟩ := h
  refine ⟨s, h1, h2, ?_, fun j t ht => ?_⟩
  · simp [Loop.finish, h3]
  · obtain ⟨t', h5, h6, h7⟩ := h4 j t ht
    simp only [getElem?_finish]
    by_cases hj : k = j
    · subst hj
      refine ⟨{ t' with result := some res }, by simp [h5], h6, fun x hx => ?_⟩
      have := h7 x hx
      simp [Run.resultOf, h5, this] at hk
    · exact ⟨t', by simp [hj, h5], h6, h7⟩

/-- A step other than `start` changes one run. -/
theorem step_shape {p q : Proc} (h : Step p q) (hl : q.runs.length = p.runs.length) :
    ∃ i r r', p.runs[i]? = some r ∧ ¬ r.over ∧ q.runs = p.runs.set i r' := by
  cases h with
  | start => simp at hl
  | loop h1 h2 => exact ⟨_, _, _, h1, by simp [Run.over, h2], rfl⟩
  | foreign h1 h2 => exact ⟨_, _, _, h1, by simp [Run.over, h2], rfl⟩
  | finally_ h1 h2 => exact ⟨_, _, _, h1, by simp [Run.over, h2], rfl⟩
  | dying k res added e h1 h2 => exact ⟨_, _, _, h1, by simp [Run.over, h2], rfl⟩
  | next h1 h2 => exact ⟨_, _, _, h1, by simp [Run.over, h2], rfl⟩
  | crash h1 h2 => exact ⟨_, _, _, h1, by simp [Run.over, h2], rfl⟩
  | close h1 h2 => exact ⟨_, _, _, h1, by simp [Run.over, h2], rfl⟩

/-- What is over stays as it is. -/
theorem over_stays {p q : Proc} (h : Step p q) {i : Nat} {r : Run} (hr : p.runs[i]? = some r) (ho : r.over) :
    q.runs[i]? = some r := by
  by_cases hl : q.runs.length = p.runs.length
  · obtain ⟨j, r1, r', h1, h2, h3⟩ := step_shape h hl
    rw [h3]
    by_cases hij : j = i
    · subst hij; rw [hr] at h1; cases h1; exact absurd ho h2
    · rw [List.getElem?_set_ne hij, hr]
  · cases h with
    | start =>
      rw [List.getElem?_append_left, hr]
      exact (List.getElem?_eq_some_iff.mp hr).1
    | _ => simp at hl

/-- No cleanup has failed. -/
def NoCrash (p : Proc) : Prop := ∀ r ∈ p.runs, ∀ e, r.phase ≠ .crashed e

theorem noCrash_before {p q : Proc} (h : Step p q) (hq : NoCrash q) : NoCrash p := by
  intro r hr e he
  obtain ⟨i, hi⟩ := List.mem_iff_getElem?.mp hr
  exact hq r (List.mem_of_getElem? (over_stays h hi (.inr ⟨e, he⟩))) e he

theorem good_current {p : Proc} (hg : Good p) {i : Nat} {r : Run} (hi : p.runs[i]? = some r) (ho : ¬ r.over) :
    i + 1 = p.runs.length ∧ Current i r p.mgr := by
  have hlt := (List.getElem?_eq_some_iff.mp hi).1
  by_cases h : i + 1 = p.runs.length
  · exact ⟨h, hg.current i r h hi⟩
  · exact absurd (.inl (hg.before i r (by omega) hi).1) ho

theorem good_set {p : Proc} (hg : Good p) {i : Nat} {r r' : Run} {m : Manager} (hi : p.runs[i]? = some r) (ho : ¬ r.over)
    (hc : Current i r' m) : Good ⟨p.runs.set i r', m⟩ := by
  have hl := (good_current hg hi ho).1
  refine ⟨fun j x hj hx => ?_, fun j x hj hx => ?_, fun he => ?_⟩
  · simp only [List.length_set] at hj
    rw [List.getElem?_set_ne (by omega)] at hx
    exact hg.before j x hj hx
  · simp only [List.length_set] at hj
    have : j = i := by omega
    subst this
    rw [List.getElem?_set_self (by omega)] at hx
    cases hx
    exact hc
  · have : p.runs = [] := by simpa using he
    rw [this] at hl; simp at hl

theorem good_step {p q : Proc} (hg : Good p) (h : Step p q) (hl : q.runs.length = p.runs.length) : Good q := by
  cases h with
  | start => simp at hl
  | @loop i r s' h1 h2 h3 h4 =>
    have hno : ¬ r.over := by simp [Run.over, h2]
    have hc := (good_current hg h1 hno).2
    simp only [Current, h2] at hc
    refine good_set hg h1 hno ?_
    simp only [Current, runAfter, h2]
    refine ⟨relabel_own hc.1, ?_⟩
    have hv := view_after (i := i) h4
    simp only [runAfter, h2] at hv
    rw [hv]
    exact .tail hc.2 h4
  | @foreign i r f j k h1 h2 h3 h4 h5 =>
    have hno : ¬ r.over := by simp [Run.over, h2]
    have hc := (good_current hg h1 hno).2
    simp only [Current, h2] at hc
    exact absurd (hc.1 (j, k) (List.mem_of_getLast? h4)) h5
  | @finally_ i r todo h1 h2 h3 h4 h5 =>
    have hno : ¬ r.over := by simp [Run.over, h2]
    have hc := (good_current hg h1 hno).2
    simp only [Current, h2] at hc
    exact good_set hg h1 hno ⟨Alone.of_view hc.2 _, h3⟩
  | @dying i r todo k res added e h1 h2 h3 =>
    have hno : ¬ r.over := by simp [Run.over, h2]
    have hc := (good_current hg h1 hno).2
    simp only [Current, h2] at hc
    refine good_set hg h1 hno ?_
    simp only [Current, h2]
    exact ⟨hc.1.finish h3, hc.2⟩
  | @next i r k todo h1 h2 h3 =>
    have hno : ¬ r.over := by simp [Run.over, h2]
    have hc := (good_current hg h1 hno).2
    simp only [Current, h2] at hc
    exact good_set hg h1 hno ⟨hc.1.phase _, hc.2⟩
  | @crash i r k e todo h1 h2 h3 h4 =>
    have hno : ¬ r.over := by simp [Run.over, h2]
    exact good_set hg h1 hno trivial
  | @close i r h1 h2 =>
    have hno : ¬ r.over := by simp [Run.over, h2]
    have hc := (good_current hg h1 hno).2
    simp only [Current, h2] at hc
    exact good_set hg h1 hno ⟨hc.1.phase _, hc.2, rfl⟩

theorem good_sequential {p : Proc} (h : Sequential p) : NoCrash p → Good p := by
  induction h with
  | init => intro _; exact ⟨by simp [Proc.init], by simp [Proc.init], fun _ => rfl⟩
  | @start p _ hall ih =>
    intro hn
    have hn' : NoCrash p := fun r hr => hn r (by simp [hr])
    have hg := ih hn'
    have hclosed : ∀ (i : Nat) (r : Run), p.runs[i]? = some r → r.phase = .closed := by
      intro i r hi
      rcases hall r (List.mem_of_getElem? hi) with h | ⟨e, h⟩
      · exact h
      · exact absurd h (hn' r (List.mem_of_getElem? hi) e)
    have hcur : ∀ (i : Nat) (r : Run), p.runs[i]? = some r → Alone r ∧ r.main.ended := by
      intro i r hi
      have hlt := (List.getElem?_eq_some_iff.mp hi).1
      by_cases hl : i + 1 = p.runs.length
      · have := hg.current i r hl hi
        simp only [Current, hclosed i r hi] at this
        exact ⟨this.1, this.2.1⟩
      · exact (hg.before i r (by omega) hi).2
    have hm : p.mgr = .clear := by
      by_cases he : p.runs = []
      · exact hg.empty he
      · have hpos : 0 < p.runs.length := List.length_pos_iff.mpr he
        obtain ⟨r, hr⟩ : ∃ r, p.runs[p.runs.length - 1]? = some r := ⟨_, List.getElem?_eq_getElem (by omega)⟩
        have := hg.current _ r (by omega) hr
        simp only [Current, hclosed _ r hr] at this
        exact this.2.2
    refine ⟨fun i r hi hr => ?_, fun i r hi hr => ?_, fun he => by simp at he⟩
    · simp only [List.length_append, List.length_singleton] at hi
      rw [List.getElem?_append_left (by omega)] at hr
      exact ⟨hclosed i r hr, hcur i r hr⟩
    · simp only [List.length_append, List.length_singleton] at hi
      have : i = p.runs.length := by omega
      subst this
      rw [List.getElem?_append_right (Nat.le_refl _)] at hr
      simp only [Nat.sub_self, List.getElem?_cons_zero, Option.some.injEq] at hr
      subst hr
      simp only [Current, hm]
      exact ⟨by simp [Manager.clear], .refl⟩
  | @step p q _ hs hl ih => exact fun hn => good_step (ih (noCrash_before hs hn)) hs hl

theorem alone_of_good {p : Proc} (hg : Good p) (hn : NoCrash p) {i : Nat} {r : Run} (hr : p.runs[i]? = some r) : Alone r := by
  have hlt := (List.getElem?_eq_some_iff.mp hr).1
  by_cases hl : i + 1 = p.runs.length
  · have := hg.current i r hl hr
    unfold Current at this
    split at this
    · exact Alone.of_view this.2 r.phase
    · exact this.1
    · exact this.1
    · rename_i e h; exact absurd h (hn r (List.mem_of_getElem? hr) e)
  · exact (hg.before i r (by omega) hr).2.1

end Pulumi.Inline
