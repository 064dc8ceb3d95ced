import Verif.Props.Equal
/-!
# What equality is
-/
namespace Pulumi.Props
open Pulumi.Engine (EV Blob RefId)

variable (hash : Blob → Option String)

/-- The value of a property, null if there is none -/
def valueAt (a : List (String × EV)) (k : String) : EV := (a.lookup k).getD .null

/-- Two values are the same: arrays element by element, objects key by key with nulls for what is missing, assets and archives by their
kind and hash, references by URN and id. -/
inductive Same : EV → EV → Prop
  | null : Same .null .null
  | bool (b : Bool) : Same (.bool b) (.bool b)
  | num (n : Int) : Same (.num n) (.num n)
  | str (s : String) : Same (.str s) (.str s)
  | array (xs ys : List EV) : xs.length = ys.length → (∀ (i : Nat) (x y : EV), xs[i]? = some x → ys[i]? = some y → Same x y) →
      Same (.array xs) (.array ys)
  | object (a b : List (String × EV)) : (∀ k, Same (valueAt a k) (valueAt b k)) → Same (.object a) (.object b)
  | blob (b c : Blob) (h : String) : isAsset b = isAsset c → hash b = some h → hash c = some h → Same (.blob b) (.blob c)
  | computed (e : EV) : Same (.computed e) (.computed e)
  | secret (v w : EV) : Same v w → Same (.secret v) (.secret w)
  | ref (u : String) (i : RefId) (v v' : String) : Same (.ref u i v) (.ref u i v')

theorem same_of_equal : ∀ v w, proper hash v = true → proper hash w = true → noOutputs v = true → noOutputs w = true →
    deepEq hash v w = some true → Same hash v w := by
  intro v
  induction v using EV.parts with
  | array xs ih =>
    intro w pv pw ov ow h
    cases w <;> first | (simp [deepEq] at h; done) | skip
    next ys =>
    simp only [proper] at pv pw
    simp only [noOutputs] at ov ow
    obtain ⟨h1, h2⟩ := (deepEq_array hash xs ys).mp h
    refine .array xs ys h1 (fun i x y hx hy => ?_)
    have mx := List.mem_of_getElem? hx
    have my := List.mem_of_getElem? hy
    exact ih x mx y (properList_mem hash pv x mx) (properList_mem hash pw y my) (noOutputsList_mem ov x mx) (noOutputsList_mem ow y my)
      (h2 i x y hx hy)
  | object a ih =>
    intro w pv pw ov ow h
    cases w <;> first | (simp [deepEq] at h; done) | skip
    next b =>
    obtain ⟨hna, hpa⟩ := proper_object hash pv
    obtain ⟨hnb, hpb⟩ := proper_object hash pw
    simp only [noOutputs] at ov ow
    obtain ⟨h1, h2⟩ := (deepEq_object hash a b).mp h
    refine .object a b (fun k => ?_)
    unfold valueAt
    cases hx : a.lookup k with
    | some x =>
      have mx := lookup_mem hx
      have := h1 k x mx
      cases hy : b.lookup k with
      | some y =>
        rw [hy] at this
        have my := lookup_mem hy
        exact ih k x mx y (hpa k x mx) (hpb k y my) (noOutputsKvs_mem ov k x mx) (noOutputsKvs_mem ow k y my) this
      | none =>
        rw [hy] at this
        rw [no_value (noOutputsKvs_mem ov k x mx) this]
        exact .null
    | none =>
      cases hy : b.lookup k with
      | some y =>
        have my := lookup_mem hy
        rw [no_value (noOutputsKvs_mem ow k y my) (h2 k y my hx)]
        exact .null
      | none => exact .null
  | secret v ih =>
    intro w pv pw ov ow h
    cases w <;> first | (simp [deepEq] at h; done) | skip
    next w =>
    simp only [proper] at pv pw
    simp only [noOutputs] at ov ow
    simp only [deepEq] at h
    exact .secret v w (ih w pv pw ov ow h)
  | blob b =>
    intro w pv pw ov ow h
    cases w <;> first | (simp [deepEq] at h; done) | skip
    next c =>
    simp only [deepEq, blobEq, Option.some.injEq, Bool.and_eq_true, beq_iff_eq] at h
    obtain ⟨h1, h2⟩ := h
    split at h2
    · next x y hx hy =>
      rw [of_decide_eq_true h2] at hx
      exact .blob b c y h1 hx hy
    · cases h2
  | computed e _ =>
    intro w pv pw ov ow h
    cases w <;> first | (simp [deepEq] at h; done) | skip
    next e' =>
    simp only [deepEq] at h
    rw [goEq_eq e e' h]
    exact .computed e'
  | ref u i v =>
    intro w pv pw ov ow h
    cases w <;> first | (simp [deepEq] at h; done) | skip
    simp only [deepEq, Option.some.injEq, Bool.and_eq_true, decide_eq_true_eq] at h
    rw [h.1, h.2]
    exact .ref _ _ _ _
  | output v k s d _ => intro w _ _ ov; simp only [noOutputs] at ov; cases ov
  | null => intro w _ _ _ _ h; rw [null_equal hash h]; exact .null
  | bool b => intro w _ _ _ _ h; cases w <;> simp [deepEq] at h; rw [h]; exact .bool _
  | num b => intro w _ _ _ _ h; cases w <;> simp [deepEq] at h; rw [h]; exact .num _
  | str b => intro w _ _ _ _ h; cases w <;> simp [deepEq] at h; rw [h]; exact .str _

theorem equal_of_same {v w : EV} (h : Same hash v w) : proper hash v = true → proper hash w = true → deepEq hash v w = some true := by
  induction h with
  | null => intro _ _; rfl
  | bool b => intro _ _; simp [deepEq]
  | num b => intro _ _; simp [deepEq]
  | str b => intro _ _; simp [deepEq]
  | array xs ys hl _ ih =>
    intro pv pw
    simp only [proper] at pv pw
    refine (deepEq_array hash xs ys).mpr ⟨hl, fun i x y hx hy => ?_⟩
    exact ih i x y hx hy (properList_mem hash pv x (List.mem_of_getElem? hx)) (properList_mem hash pw y (List.mem_of_getElem? hy))
  | object a b hs ih =>
    intro pv pw
    obtain ⟨hna, hpa⟩ := proper_object hash pv
    obtain ⟨hnb, hpb⟩ := proper_object hash pw
    refine (deepEq_object hash a b).mpr ⟨fun k x mx => ?_, fun k y my hx => ?_⟩
    · have hx := lookup_of_mem hna mx
      have hk := hs k
      have ihk := ih k
      unfold valueAt at hk ihk
      rw [hx] at hk ihk
      cases hy : b.lookup k with
      | some y =>
        rw [hy] at ihk
        exact ihk (hpa k x mx) (hpb k y (lookup_mem hy))
      | none =>
        rw [hy] at hk
        simp only [Option.getD_some, Option.getD_none] at hk
        cases hk
        rfl
    · have hk := hs k
      have hy := lookup_of_mem hnb my
      unfold valueAt at hk
      rw [hx, hy] at hk
      simp only [Option.getD_some, Option.getD_none] at hk
      cases hk
      rfl
  | blob b c h h1 h2 h3 =>
    intro _ _
    simp [deepEq, blobEq, h1, h2, h3]
  | computed e =>
    intro pv _
    simp only [proper] at pv
    simp only [deepEq]
    exact goEq_refl e pv
  | secret v w _ ih =>
    intro pv pw
    simp only [proper] at pv pw
    simp only [deepEq]
    exact ih pv pw
  | ref u i v v' => intro _ _; simp [deepEq]

/-- C165: two values are equal exactly if they are the same. -/
theorem equal_iff_same (v w : EV) (pv : proper hash v = true) (pw : proper hash w = true) (ov : noOutputs v = true)
    (ow : noOutputs w = true) : deepEq hash v w = some true ↔ Same hash v w :=
  ⟨same_of_equal hash v w pv pw ov ow, fun h => equal_of_same hash h pv pw⟩

example : Same (fun _ => some "h") (.object [("a", .null), ("b", .array [.num 1, .ref "urn:x" .unknown "1.0"])])
    (.object [("b", .array [.num 1, .ref "urn:x" .unknown "2.0"]), ("c", .null)]) := by
  rw [← equal_iff_same] <;> decide

end Pulumi.Props
