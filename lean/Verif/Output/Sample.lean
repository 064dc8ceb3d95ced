import Verif.Output.Lemmas
import Verif.Async.Theorems
/-! Concrete outputs, used to show that the hypotheses of the theorems about `Output` are met. -/
namespace Pulumi.Output
open Pulumi.Async
variable {d : Config}

/-- `Output(resources, value, known, secret)` from four resolved futures. -/
def sample (v : Val) (known secret : Bool) (deps : List Nat) : Sync OutRef :=
  (resolved (.bool known)).bind fun fk => (resolved (.bool secret)).bind fun fs =>
  (resolved v).bind fun fv => (resolved (.resSet deps)).bind fun fr => mkOutput fr fv fk fs

theorem resolved_no_raise' {t n n' v r} (h : Ran d t n (resolved v) r n') : ∃ f, r = .ok f := by
  unfold resolved at h; cases h with | spawn _ h => cases h; exact ⟨_, rfl⟩

theorem mkOutput_no_raise' {t n n' a b c e r} (h : Ran d t n (mkOutput a b c e) r n') : ∃ f, r = .ok f := by
  unfold mkOutput at h; cases h with | spawn _ h => cases h; exact ⟨_, rfl⟩

theorem sample_ran (hs : Settled d) {t n n' v known secret deps r} (h : Ran d t n (sample v known secret deps) r n') :
    ∃ o, r = .ok o ∧ Shows d.futs o { value := v, known := known && !containsUnknowns v, secret := secret, deps := (· ∈ deps) } ∧
      IsOutput d o := by
  unfold sample at h
  rcases h.bind with ⟨fk, _, h1, h⟩ | ⟨e, h, _⟩
  · rcases h.bind with ⟨fs, _, h2, h⟩ | ⟨e, h, _⟩
    · rcases h.bind with ⟨fv, _, h3, h⟩ | ⟨e, h, _⟩
      · rcases h.bind with ⟨fr, _, h4, h⟩ | ⟨e, h, _⟩
        · obtain ⟨o, rfl⟩ := mkOutput_no_raise' h
          have h1 := resolved_ran hs h1
          have h2 := resolved_ran hs h2
          have h3 := resolved_ran hs h3
          have h4 := resolved_ran hs h4
          obtain ⟨a, b, c, u, e, hu⟩ := mkOutput_ran h
          refine ⟨o, rfl, ⟨by rw [b, h3], ?_, by rw [c, h2], _, by rw [a, h4], by simp⟩, _, _, _, _, _, _, _, h⟩
          rw [e, isValueKnown_res hs hu, h1, h3]
          cases known <;> simp [truthy]
        · obtain ⟨_, h⟩ := resolved_no_raise' h; simp at h
      · obtain ⟨_, h⟩ := resolved_no_raise' h; simp at h
    · obtain ⟨_, h⟩ := resolved_no_raise' h; simp at h
  · obtain ⟨_, h⟩ := resolved_no_raise' h; simp at h

/-- A callback that adds one to an integer and fails on anything else. -/
def plusOne : Val → Sync Val
  | .int i => .pure (.int (i + 1))
  | _ => .raise "TypeError"

theorem plusOne_denotes : Denotes d plusOne (.int 20) (.ofPlain (.int 21)) := by
  intro t n r n' h; cases h; exact ⟨_, rfl, .plain trivial⟩

theorem apply_no_raise' {t n n' dry o f rwu r} (h : Ran d t n (apply dry o f rwu) r n') : ∃ f, r = .ok f := by
  unfold apply at h; cases h with | spawn _ h => exact mkOutput_no_raise' h

/-- The program that creates a sample output and applies `f` to it has a complete execution, in which the `apply` ran. -/
theorem sample_apply (v : Val) (known secret : Bool) (deps : List Nat) (dry : Bool) (f : Val → Sync Val) (rwu : Bool := false) :
    ∃ d o out t n n' w, Completes (single (mainProg ((sample v known secret deps).bind fun o => apply dry o f rwu))) d ∧
      Ran d t n (apply dry o f rwu) (.ok out) n' ∧ Shows d.futs o w ∧ IsOutput d o ∧
      w = { value := v, known := known && !containsUnknowns v, secret := secret, deps := (· ∈ deps) } := by
  obtain ⟨d, r, n', hd, hr⟩ := main_ran ((sample v known secret deps).bind fun o => apply dry o f rwu)
  have hs := settled_of_completes hd
  rcases hr.bind with ⟨o, m, h1, h2⟩ | ⟨e, h1, _⟩
  · obtain ⟨o', ho, hsh, hi⟩ := sample_ran hs h1
    cases ho
    obtain ⟨out, rfl⟩ := apply_no_raise' h2
    exact ⟨d, o, out, _, _, _, _, hd, h2, hsh, hi, rfl⟩
  · obtain ⟨o', ho, _⟩ := sample_ran hs h1
    simp at ho

end Pulumi.Output
