import Verif.Register.Spec
import Verif.Wire.Theorems
import Verif.Wire.RoundTrip
import Verif.Wire.Props
import Verif.Deps.Theorems
/-! # Lemmas about requests -/
namespace Pulumi.Register
open Pulumi.Wire (Env PV W ResId)

theorem mem_resUnion {a b : List ResId} {x : ResId} : x ∈ Wire.resUnion a b ↔ x ∈ a ∨ x ∈ b := by
  unfold Wire.resUnion
  induction b generalizing a with
  | nil => simp
  | cons y b ih => simp only [List.foldl_cons, ih, Wire.mem_resAdd, List.mem_cons, or_assoc]

/-- What resolving an entry gives. -/
theorem resolveItem_spec {dry : Bool} {x : Item} {used : Used} {rs : List ResId} {d : Direct} {u : Used}
    (h : resolveItem dry used x = .ok ((rs, d), u)) (r : ResId) : (r ∈ rs ∨ d = .resource r) ↔ Gives dry x r := by
  induction x generalizing used rs d u with
  | none => cases h; simp only [List.not_mem_nil, reduceCtorEq, or_self, false_iff]; rintro ⟨⟩
  | resource q =>
    cases h
    simp only [List.not_mem_nil, false_or, Direct.resource.injEq]
    constructor
    · rintro rfl; exact .resource
    · rintro ⟨⟩; rfl
  | other => cases h; simp only [List.not_mem_nil, reduceCtorEq, or_self, false_iff]; rintro ⟨⟩
  | future v ih =>
    rw [ih h]
    exact ⟨.future, fun | .future h => h⟩
  | coroutine i v ih =>
    rw [resolveItem] at h
    split at h
    · cases h
    · rw [ih h]
      exact ⟨.coroutine, fun | .coroutine h => h⟩
  | failing e => cases h
  | output qs known v ih =>
    rw [resolveItem] at h
    split at h
    · rename_i hb
      cases h
      simp only [Bool.and_eq_true, Bool.not_eq_true'] at hb
      simp only [reduceCtorEq, or_false]
      constructor
      · exact .outputOn
      · intro hg
        cases hg with
        | outputOn h => exact h
        | output hk _ => rw [hk hb.1] at hb; cases hb.2
    · rename_i hb
      split at h
      · cases h
      · rename_i ds d' u' hv
        cases h
        rw [mem_resUnion, or_assoc, ih hv]
        constructor
        · rintro (h | h)
          · exact .outputOn h
          · refine .output (fun hd => ?_) h
            cases known
            · simp [hd] at hb
            · rfl
        · intro hg
          cases hg with
          | outputOn h => exact .inl h
          | output _ h => exact .inr h

theorem resolveItems_spec {dry : Bool} {xs : List Item} {used : Used} {acc all : List ResId} {b : Bool} {u : Used}
    (h : resolveItems dry used acc xs = .ok ((all, b), u)) (r : ResId) :
    r ∈ all ↔ r ∈ acc ∨ ∃ x ∈ xs, Gives dry x r := by
  induction xs generalizing used acc all b u with
  | nil => cases h; simp
  | cons x xs ih =>
    rw [resolveItems] at h
    split at h
    · cases h
    · rename_i rs u' hx
      rw [ih h, mem_resUnion]
      have := resolveItem_spec hx r
      simp only [reduceCtorEq, or_false] at this
      simp only [List.mem_cons, exists_eq_or_imp, ← this, or_assoc]
    · rename_i rs q u' hx
      rw [ih h, Wire.mem_resAdd, mem_resUnion]
      have := resolveItem_spec hx r
      simp only [Direct.resource.injEq] at this
      simp only [List.mem_cons, exists_eq_or_imp, ← this, or_assoc, eq_comm (a := r)]
    · rename_i rs u' hx
      split at h
      · cases h
      · rename_i all' b' u'' hxs
        cases h
        rw [ih hxs, mem_resUnion]
        have := resolveItem_spec hx r
        simp only [reduceCtorEq, or_false] at this
        simp only [List.mem_cons, exists_eq_or_imp, ← this, or_assoc]

theorem mem_toList {v : Value} {x : Item} : x ∈ v.toList ↔ v.Has x := by
  cases v <;> simp [Value.toList, Value.Has]

theorem resolveDependsOn_spec {dry : Bool} {d : DependsOn} {used : Used} {all : List ResId} {u : Used}
    (h : resolveDependsOn dry used d = .ok (all, u)) (r : ResId) : r ∈ all ↔ AsksFor dry d r := by
  unfold resolveDependsOn at h
  split at h
  · cases h
  · rename_i rs xs u1 hl
    split at h
    · cases h
    · cases h
    · rename_i all' u' hxs
      cases h
      rw [resolveItems_spec hxs]
      cases d with
      | none => cases hl; simp only [List.not_mem_nil, false_and, exists_false, or_self, false_iff]; rintro ⟨⟩
      | now v =>
        cases hl
        simp only [List.not_mem_nil, false_or, mem_toList]
        exact ⟨fun ⟨x, h1, h2⟩ => .now h1 h2, fun | .now h1 h2 => ⟨_, h1, h2⟩⟩
      | future v =>
        cases hl
        simp only [List.not_mem_nil, false_or, mem_toList]
        exact ⟨fun ⟨x, h1, h2⟩ => .future h1 h2, fun | .future h1 h2 => ⟨_, h1, h2⟩⟩
      | coroutine i v =>
        rw [dependsOnList] at hl
        cases ha : awaitOnce used i with
        | error e => rw [ha] at hl; cases hl
        | ok w =>
          rw [ha] at hl
          cases hl
          simp only [List.not_mem_nil, false_or, mem_toList]
          exact ⟨fun ⟨x, h1, h2⟩ => .coroutine h1 h2, fun | .coroutine h1 h2 => ⟨_, h1, h2⟩⟩
      | failing e => cases hl
      | output qs v =>
        cases v with
        | none =>
          cases hl
          simp only [List.not_mem_nil, false_and, exists_false, or_false]
          exact ⟨.outputOn, fun | .outputOn h => h⟩
        | some v =>
          cases hl
          simp only [mem_toList]
          constructor
          · rintro (h | ⟨x, h1, h2⟩)
            · exact .outputOn h
            · exact .output h1 h2
          · intro h
            cases h with
            | outputOn h => exact .inl h
            | output h1 h2 => exact .inr ⟨_, h1, h2⟩

/-- Entries without coroutines resolve in the same way whatever has been awaited. -/
theorem resolveItem_good {dry : Bool} {x : Item} (hx : x.Good dry) (used : Used) :
    ∃ rs d, d ≠ .other ∧ ∀ used, resolveItem dry used x = .ok ((rs, d), used) := by
  induction hx with
  | none => exact ⟨[], .none, by simp, fun _ => rfl⟩
  | @resource r => exact ⟨[], .resource r, by simp, fun _ => rfl⟩
  | future _ ih => exact ih
  | @unknown rs v hd => subst hd; exact ⟨rs, .none, by simp, fun _ => rfl⟩
  | @output rs known v _ ih =>
    by_cases hb : dry && !known
    · exact ⟨rs, .none, by simp, fun used => by rw [resolveItem, if_pos hb]⟩
    · obtain ⟨ds, d, hd, h⟩ := ih
      exact ⟨_, d, hd, fun used => by rw [resolveItem, if_neg hb, h used]⟩

theorem resolveItems_good {dry : Bool} {xs : List Item} (hx : ∀ x ∈ xs, x.Good dry) (acc : List ResId) :
    ∃ all, ∀ used, resolveItems dry used acc xs = .ok ((all, false), used) := by
  induction xs generalizing acc with
  | nil => exact ⟨acc, fun _ => rfl⟩
  | cons x xs ih =>
    obtain ⟨rs, d, hd, h⟩ := resolveItem_good (hx x (List.mem_cons_self ..)) []
    have hrest := fun y hy => hx y (List.mem_cons_of_mem x hy)
    cases d with
    | none =>
      obtain ⟨all, h'⟩ := ih hrest (Wire.resUnion acc rs)
      exact ⟨all, fun used => by rw [resolveItems, h used]; exact h' used⟩
    | resource r =>
      obtain ⟨all, h'⟩ := ih hrest (Wire.resAdd (Wire.resUnion acc rs) r)
      exact ⟨all, fun used => by rw [resolveItems, h used]; exact h' used⟩
    | other => exact absurd rfl hd

theorem resolveDependsOn_good {dry : Bool} {d : DependsOn} (hd : d.Good dry) :
    ∃ all, ∀ used, resolveDependsOn dry used d = .ok (all, used) := by
  have key : ∀ (v : Value) (acc : List ResId), (∀ x, v.Has x → x.Good dry) →
      ∃ all, ∀ used, resolveItems dry used acc v.toList = .ok ((all, false), used) := fun v acc h =>
    resolveItems_good (fun x hx => h x (mem_toList.1 hx)) acc
  cases d with
  | none => exact ⟨[], fun _ => rfl⟩
  | now v =>
    obtain ⟨all, h⟩ := key v [] hd
    exact ⟨all, fun used => by simp only [resolveDependsOn, dependsOnList, h used]⟩
  | future v =>
    obtain ⟨all, h⟩ := key v [] hd
    exact ⟨all, fun used => by simp only [resolveDependsOn, dependsOnList, h used]⟩
  | coroutine i v => exact hd.elim
  | failing e => exact hd.elim
  | output rs v =>
    cases v with
    | none => exact ⟨rs, fun _ => rfl⟩
    | some v =>
      obtain ⟨all, h⟩ := key v rs hd
      exact ⟨all, fun used => by simp only [resolveDependsOn, dependsOnList, h used]⟩

theorem text_getD (o : Option String) : Text (o.getD "") o := by
  constructor
  · rintro s rfl; rfl
  · rintro rfl; rfl

theorem flag_getD (o : Option Bool) : Flag (o.getD false) o := by
  rcases o with _ | _ | _ <;> simp [Flag]

theorem parent_spec (c : Ctx) (ty : String) (parent : Option ResId) :
    ParentIs c ty parent ((parentUrn c ty parent).getD "") := by
  unfold parentUrn
  cases parent with
  | some p => exact .given (text_getD _)
  | none =>
    simp only
    split
    · rename_i h
      split
      · rename_i p hp; exact .root h hp (text_getD _)
      · rename_i hp; exact .noRoot h hp
    · rename_i h; exact .stack (by simpa [stackType] using h)

theorem timeoutEntry_spec {kvs : List (String × Option String)} {k v : String} (h : timeoutEntry kvs k = .ok v) :
    Text v (kvs.lookup k).join := by
  unfold timeoutEntry at h
  split at h
  · rename_i hl; cases h; rw [hl]; exact text_getD none
  · cases h
  · rename_i s hl; cases h; rw [hl]; exact text_getD (some _)

theorem timeouts_spec {t : Timeouts} {m : Option TimeoutsMsg} (h : timeoutsOf t = .ok m) : TimeoutsAre t m := by
  unfold timeoutsOf at h
  split at h
  · cases h; exact .none
  · cases h; exact .object (text_getD _) (text_getD _) (text_getD _)
  · split at h
    · rename_i h1 h2 h3
      cases h
      exact .dict (timeoutEntry_spec h1) (timeoutEntry_spec h2) (timeoutEntry_spec h3)
    · cases h
    · cases h
    · cases h
  · cases h

theorem strings_ok {l : List (Option String)} {as : List String} (h : strings l = .ok as) : l = as.map some := by
  induction l generalizing as with
  | nil => cases h; rfl
  | cons a l ih =>
    cases a with
    | none => cases h
    | some s =>
      rw [strings] at h
      cases hl : strings l with
      | error e => rw [hl] at h; cases h
      | ok bs => rw [hl] at h; cases h; simp [ih hl]

theorem strings_total {l : List (Option String)} (h : none ∉ l) : ∃ as, strings l = .ok as := by
  induction l with
  | nil => exact ⟨[], rfl⟩
  | cons a l ih =>
    cases a with
    | none => simp at h
    | some s =>
      obtain ⟨as, ha⟩ := ih (fun hm => h (List.mem_cons_of_mem _ hm))
      exact ⟨s :: as, by rw [strings, ha]; rfl⟩

theorem lookup_map {κ α β : Type} [BEq κ] (f : α → β) (d : List (κ × α)) (k : κ) :
    (d.map fun kp => (kp.1, f kp.2)).lookup k = (d.lookup k).map f := by
  induction d with
  | nil => rfl
  | cons kp d ih =>
    obtain ⟨k', p⟩ := kp
    simp only [List.map_cons, List.lookup_cons]
    cases k == k' <;> simp [ih]

end Pulumi.Register
