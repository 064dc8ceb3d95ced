import Verif.Log.Spec
import Verif.Loop.Lemmas

namespace Pulumi.Log

open Loop (getElem?_finish mainTop_cases)

theorem request_says {c : Call} {m : Msg} {urn : String} (h : request c urn = some m) :
    m = ⟨c.severity, c.message, urn, c.streamId.getD 0, c.ephemeral.getD false⟩ := by
  unfold request at h
  split at h
  · cases h; rfl
  · cases h

theorem says_of {urns : List (Nat × Except Nat (Option String))} {c : Call} {m : Msg} {urn : String} (h : request c urn = some m)
    (hu : match c.resource with
      | none => urn = ""
      | some r => urns.lookup r = some (.ok (some urn)) ∨ urns.lookup r = some (.ok none) ∧ urn = "") : Says urns c m := by
  have := request_says h
  subst this
  refine ⟨rfl, rfl, ?_, ?_, hu⟩
  · simp only
    cases c.streamId <;> rfl
  · simp only
    cases c.ephemeral with
    | none => simp
    | some b => cases b <;> simp

theorem effect_now {c : Call} {m : Option Msg} (h : effect true c = .now m) : c.resource = none ∧ m = request c "" := by
  unfold effect at h
  rw [if_pos rfl] at h
  cases hr : c.resource with
  | some r => rw [hr] at h; cases h
  | none => rw [hr] at h; cases h; exact ⟨rfl, rfl⟩

theorem effect_later {c : Call} {r : Nat} (h : effect true c = .later r) : c.resource = some r := by
  unfold effect at h
  rw [if_pos rfl] at h
  cases hr : c.resource with
  | some r => rw [hr] at h; cases h; rfl
  | none => rw [hr] at h; cases h

theorem lookup_stays {urns : List (Nat × Except Nat (Option String))} {r : Nat} {v : Except Nat (Option String)}
    (h : urns.lookup r = some v) (x : Nat × Except Nat (Option String)) : (urns ++ [x]).lookup r = some v := by
  rw [List.lookup_append, h]
  rfl

theorem says_stays {urns : List (Nat × Except Nat (Option String))} {c : Call} {m : Msg} (h : Says urns c m)
    (x : Nat × Except Nat (Option String)) : Says (urns ++ [x]) c m := by
  obtain ⟨h1, h2, h3, h4, h5⟩ := h
  refine ⟨h1, h2, h3, h4, ?_⟩
  cases hr : c.resource with
  | none => rw [hr] at h5; exact h5
  | some r =>
    rw [hr] at h5
    rcases h5 with h5 | ⟨h5, h6⟩
    · exact .inl (lookup_stays h5 x)
    · exact .inr ⟨lookup_stays h5 x, h6⟩

theorem resultOf_finish (l : Loop.State) (i j : Nat) (r : Loop.Result) (h : j < l.tasks.length) :
    Loop.State.resultOf { l with tasks := Loop.finish l.tasks i r } j = if i = j then some r else l.resultOf j := by
  unfold Loop.State.resultOf
  simp only
  rw [getElem?_finish]
  have : l.tasks[j]? = some l.tasks[j] := List.getElem?_eq_getElem h
  rw [this]
  by_cases hij : i = j
  · simp [hij]
  · simp [hij]

theorem resultOf_spawn (l : Loop.State) (k : Loop.Kind) (j : Nat) (h : j < l.tasks.length) :
    (Loop.spawn l k).resultOf j = l.resultOf j := by
  unfold Loop.State.resultOf Loop.spawn
  simp only
  rw [List.getElem?_append_left h]

theorem length_step {s l : Loop.State} {aw : Bool} (h : Loop.Step aw s l) : s.tasks.length ≤ l.tasks.length := by
  cases h <;> simp [Loop.spawn, Loop.finish, Loop.wrapperStart, Loop.wrapperEnd]

end Pulumi.Log
