import Verif.Props.Detail
/-!
# What detailed diffs say
-/
namespace Pulumi.Props
open Pulumi.Engine (EV Blob RefId)
open Pulumi.Paths (Text Key Path Kind PropertyDiff parse pathText get step member keyText requiresQuote Printable)

variable (hash : Blob → Option String)

theorem member_lookup (k : String) : ∀ a : List (String × EV), member k.toList a = a.lookup k
  | [] => rfl
  | (k', v) :: a => by
    simp only [member, List.lookup_cons, member_lookup k a]
    by_cases h : k = k'
    · subst h; simp
    · have : ¬ k'.toList = k.toList := fun h' => h (String.toList_inj.mp h'.symm)
      rw [if_neg this, show (k == k') = false from by simpa using h]

theorem get_name (k : String) (q : Path) (a : List (String × EV)) :
    get (.name k.toList :: q) (.object a) = (a.lookup k).bind (get q) := by
  simp only [Paths.get, step, member_lookup]

theorem get_idx (i : Nat) (q : Path) (xs : List EV) : get (.idx (Int.ofNat i) :: q) (.array xs) = xs[i]?.bind (get q) := by
  simp [Paths.get, step]

theorem plainKeysList_mem {xs : List EV} (h : plainKeysList xs = true) : ∀ x ∈ xs, plainKeys x = true := by
  induction xs with
  | nil => intro x hx; cases hx
  | cons y ys ih =>
    simp only [plainKeysList, Bool.and_eq_true] at h
    intro x hx
    rcases List.mem_cons.mp hx with rfl | hx
    · exact h.1
    · exact ih h.2 x hx

theorem plainKeysKvs_mem {a : List (String × EV)} (h : plainKeysKvs a = true) : ∀ k v, (k, v) ∈ a → plainName k = true ∧ plainKeys v = true := by
  induction a with
  | nil => intro k v hx; cases hx
  | cons kv rest ih =>
    obtain ⟨k₀, v₀⟩ := kv
    simp only [plainKeysKvs, Bool.and_eq_true] at h
    intro k v hx
    rcases List.mem_cons.mp hx with hx | hx
    · injection hx with h1 h2; subst h1 h2; exact h.1
    · exact ih h.2 k v hx

theorem mem_past (n j : Nat) (x : EV) (xs : List EV) : (j, x) ∈ past n xs ↔ n ≤ j ∧ xs[j]? = some x := by
  simp only [past, List.mem_map, Prod.mk.injEq]
  constructor
  · rintro ⟨⟨x', j'⟩, h, h1, h2⟩
    simp only at h1 h2
    subst h1 h2
    rw [List.mem_zipIdx_iff_le_and_getElem?_sub] at h
    obtain ⟨h1, h2⟩ := h
    rw [List.getElem?_drop] at h2
    refine ⟨h1, ?_⟩
    rw [← h2]; congr 1; omega
  · rintro ⟨h1, h2⟩
    refine ⟨(x, j), ?_, rfl, rfl⟩
    rw [List.mem_zipIdx_iff_le_and_getElem?_sub]
    refine ⟨h1, ?_⟩
    rw [List.getElem?_drop, ← h2]; congr 1
    simp only
    omega

theorem mem_diffList : ∀ (xs ys : List EV) (i : Nat) (sames : List (Nat × EV)) (ups : List (Nat × VDiff)),
    diffList hash i xs ys = some (sames, ups) → ∀ j d, (j, d) ∈ ups ↔
      ∃ m x y, j = i + m ∧ xs[m]? = some x ∧ ys[m]? = some y ∧ diff hash nothing x y = some (some d)
  | [], ys, i, sames, ups, h, j, d => by
    simp only [diffList, Option.some.injEq, Prod.mk.injEq] at h
    rw [← h.2]; simp
  | x :: xs, [], i, sames, ups, h, j, d => by
    simp only [diffList, Option.some.injEq, Prod.mk.injEq] at h
    rw [← h.2]; simp
  | x :: xs, y :: ys, i, sames, ups, h, j, d => by
    simp only [diffList] at h
    cases hl : diffList hash (i + 1) xs ys with
    | none => rw [hl] at h; split at h <;> simp_all
    | some su =>
      obtain ⟨sames', ups'⟩ := su
      rw [hl] at h
      have ih := mem_diffList xs ys (i + 1) sames' ups' hl j d
      cases hd : diff hash (fun _ => false) x y with
      | none => rw [hd] at h; cases h
      | some r =>
        rw [hd] at h
        have tail : (∃ m x' y', j = i + m ∧ (x :: xs)[m]? = some x' ∧ (y :: ys)[m]? = some y' ∧ diff hash nothing x' y' = some (some d)) ↔
            (j = i ∧ r = some d) ∨ (j, d) ∈ ups' := by
          rw [ih]
          constructor
          · rintro ⟨m, x', y', h1, h2, h3, h4⟩
            cases m with
            | zero =>
              simp only [List.getElem?_cons_zero, Option.some.injEq] at h2 h3
              subst h2 h3
              rw [hd] at h4
              injection h4 with h4
              exact .inl ⟨h1, h4⟩
            | succ m =>
              exact .inr ⟨m, x', y', by omega, by simpa using h2, by simpa using h3, h4⟩
          · rintro (⟨h1, h2⟩ | ⟨m, x', y', h1, h2, h3, h4⟩)
            · exact ⟨0, x, y, h1, rfl, rfl, by rw [← h2]; exact hd⟩
            · exact ⟨m + 1, x', y', by omega, by simpa using h2, by simpa using h3, h4⟩
        rw [tail]
        cases r with
        | none =>
          simp only [Option.some.injEq, Prod.mk.injEq] at h
          rw [← h.2]; simp
        | some d' =>
          simp only [Option.some.injEq, Prod.mk.injEq] at h
          rw [← h.2]
          simp only [List.mem_cons, Prod.mk.injEq, Option.some.injEq]
          constructor
          · rintro (⟨h1, h2⟩ | h1)
            · exact .inl ⟨h1, h2.symm⟩
            · exact .inr h1
          · rintro (⟨h1, h2⟩ | h1)
            · exact .inl ⟨h1, h2.symm⟩
            · exact .inr h1

/-- The two arrays' diff, taken apart -/
theorem diff_array_some {ign : String → Bool} {xs ys : List EV} {vd : VDiff} (h : diff hash ign (.array xs) (.array ys) = some (some vd)) :
    ∃ sames ups, diffList hash 0 xs ys = some (sames, ups) ∧ ¬ (past xs.length ys = [] ∧ past ys.length xs = [] ∧ ups = []) ∧
      vd = .arr (.array xs) (.array ys) (past xs.length ys) (past ys.length xs) sames ups := by
  simp only [diff] at h
  split at h
  · cases h
  · next sames ups hl =>
    split at h
    · cases h
    · next hne =>
      simp only [Option.some.injEq] at h
      exact ⟨sames, ups, hl, hne, h.symm⟩

theorem absent_name {k : String} {a : List (String × EV)} (hn : ¬ Present a k) (ho : noOutputsKvs a = true) :
    Absent [.name k.toList] (.object a) := by
  unfold Absent
  rw [get_name]
  cases hl : a.lookup k with
  | none => exact .inl rfl
  | some v =>
    have hv : hasValue v = false := by
      cases hv : hasValue v with
      | false => rfl
      | true => exact absurd ⟨v, hl, hv⟩ hn
    rw [no_value (noOutputsKvs_mem ho k v (lookup_mem hl)) hv]
    exact .inr rfl

theorem plain_of_name {k : String} (h : plainName k = true) : k.toList ≠ [] ∧ k.toList.any requiresQuote = false := by
  unfold plainName at h
  simp only [Bool.and_eq_true, decide_eq_true_eq, Bool.not_eq_true'] at h
  exact h

theorem absent_cons_name {k : String} {q : Path} {a : List (String × EV)} {v : EV} (hl : a.lookup k = some v) :
    Absent (.name k.toList :: q) (.object a) ↔ Absent q v := by
  unfold Absent; rw [get_name, hl]; rfl

theorem absent_cons_idx {i : Nat} {q : Path} {xs : List EV} {v : EV} (hl : xs[i]? = some v) :
    Absent (.idx (Int.ofNat i) :: q) (.array xs) ↔ Absent q v := by
  unfold Absent; rw [get_idx, hl]; rfl

theorem change_cons {q : Path} {key : Key} {v w x y : EV} {kd : Kind} (hv : get (key :: q) v = get q x) (hw : get (key :: q) w = get q y)
    (h : ChangeAt hash q x y kd) : ChangeAt hash (key :: q) v w kd := by
  cases kd <;> simp only [ChangeAt, Absent, hv, hw] at h ⊢ <;> exact h

/-- Every change of a diff is one. -/
theorem changes_sound : ∀ (v w : EV) (ign : String → Bool) (d : VDiff), proper hash v = true → proper hash w = true →
    noOutputs v = true → noOutputs w = true → plainKeys v = true → plainKeys w = true → diff hash ign v w = some (some d) →
    ∀ q kd, (q, kd) ∈ changes d → PlainPath q ∧ ChangeAt hash q v w kd := by
  intro v
  have leaf : ∀ (v w : EV) (ign : String → Bool) (d : VDiff), (∀ xs ys, v = .array xs → w = .array ys → False) →
      (∀ a b, v = .object a → w = .object b → False) → diff hash ign v w = some (some d) →
      ∀ q kd, (q, kd) ∈ changes d → PlainPath q ∧ ChangeAt hash q v w kd := by
    intro v w ign d h1 h2 h q kd hm
    rw [diff_leaf hash ign v w h1 h2] at h
    split at h
    · cases h
    · cases h
    · next he =>
      simp only [Option.some.injEq] at h
      rw [← h] at hm
      simp only [changes, List.mem_singleton, Prod.mk.injEq] at hm
      obtain ⟨rfl, rfl⟩ := hm
      refine ⟨(fun k hk => by cases hk), ?_⟩
      unfold leafKind
      split
      · next hc =>
        simp only [Bool.and_eq_true] at hc
        refine ⟨.inr ?_, w, rfl, ?_⟩
        · cases v <;> first | rfl | cases hc.1
        · rintro rfl; exact absurd hc.2 (by decide)
      · split
        · next hc =>
          simp only [Bool.and_eq_true] at hc
          refine ⟨⟨v, rfl, ?_⟩, .inr ?_⟩
          · rintro rfl; exact absurd hc.1 (by decide)
          · cases w <;> first | rfl | cases hc.2
        · exact ⟨v, w, rfl, rfl, he⟩
  induction v using EV.parts with
  | array xs ih =>
    intro w ign d hv hw ov ow pv pw h q kd hm
    cases w with
    | array ys =>
      obtain ⟨sames, ups, hl, _, rfl⟩ := diff_array_some hash h
      simp only [proper] at hv hw
      simp only [noOutputs] at ov ow
      simp only [plainKeys, Bool.and_eq_true, decide_eq_true_eq] at pv pw
      simp only [changes, List.mem_append] at hm
      have bound : ∀ (i : Nat) (q : Path), i < 2 ^ 63 → PlainPath q → PlainPath (.idx (Int.ofNat i) :: q) := by
        intro i q hi hq k hk
        rcases List.mem_cons.mp hk with rfl | hk
        · exact ⟨Int.natCast_nonneg i, by simpa using Int.ofNat_lt.mpr hi⟩
        · exact hq k hk
      have hnil : PlainPath [] := fun k hk => by cases hk
      rcases hm with (hm | hm) | hm
      · obtain ⟨i, d', q', h1, h2, rfl⟩ := (mem_changesIdx q kd ups).mp hm
        obtain ⟨m, x, y, h3, h4, h5, h6⟩ := (mem_diffList hash xs ys 0 sames ups hl i d').mp h1
        have : i = m := by omega
        subst this
        have hx := List.mem_of_getElem? h4
        have hy := List.mem_of_getElem? h5
        obtain ⟨r1, r2⟩ := ih x hx y nothing d' (properList_mem hash hv x hx) (properList_mem hash hw y hy) (noOutputsList_mem ov x hx)
          (noOutputsList_mem ow y hy) (plainKeysList_mem pv.2 x hx) (plainKeysList_mem pw.2 y hy) h6 q' kd h2
        have hi := (List.getElem?_eq_some_iff.mp h4).1
        refine ⟨bound i q' (by omega) r1, change_cons hash ?_ ?_ r2⟩
        · rw [get_idx, h4]; rfl
        · rw [get_idx, h5]; rfl
      · obtain ⟨⟨i, y⟩, he, h1⟩ := List.mem_map.mp hm
        injection h1 with h1 h2
        subst h1 h2
        obtain ⟨h3, h4⟩ := (mem_past xs.length i y ys).mp he
        have hi := (List.getElem?_eq_some_iff.mp h4).1
        have hn : get [.idx (Int.ofNat i)] (.array xs) = none := (get_idx i [] xs).trans (by rw [List.getElem?_eq_none_iff.mpr h3]; rfl)
        exact ⟨bound i [] (by omega) hnil, .inl hn, y, (get_idx i [] ys).trans (by rw [h4]; rfl), fun _ => hn⟩
      · obtain ⟨⟨i, y⟩, he, h1⟩ := List.mem_map.mp hm
        injection h1 with h1 h2
        subst h1 h2
        obtain ⟨h3, h4⟩ := (mem_past ys.length i y xs).mp he
        have hi := (List.getElem?_eq_some_iff.mp h4).1
        have hn : get [.idx (Int.ofNat i)] (.array ys) = none := (get_idx i [] ys).trans (by rw [List.getElem?_eq_none_iff.mpr h3]; rfl)
        exact ⟨bound i [] (by omega) hnil, ⟨y, (get_idx i [] xs).trans (by rw [h4]; rfl), fun _ => hn⟩, .inl hn⟩
    | _ => exact leaf _ _ ign d (by intro _ _ _ h; cases h) (by intro _ _ h; cases h) h q kd hm
  | object a ih =>
    intro w ign d hv hw ov ow pv pw h q kd hm
    cases w with
    | object b =>
      obtain ⟨od, hod, rfl⟩ := diff_object_some hash h
      have sorts := fun k => diff_sorts hash ign a b od hv hw ov ow hod k
      obtain ⟨hna, hpa⟩ := proper_object hash hv
      obtain ⟨hnb, hpb⟩ := proper_object hash hw
      simp only [noOutputs] at ov ow
      simp only [plainKeys] at pv pw
      simp only [changes, List.mem_append] at hm
      have name : ∀ (k : String) (q : Path), plainName k = true → PlainPath q → PlainPath (.name k.toList :: q) := by
        intro k q hk hq k' hk'
        rcases List.mem_cons.mp hk' with rfl | hk'
        · exact plain_of_name hk
        · exact hq k' hk'
      have hnil : PlainPath [] := fun k hk => by cases hk
      rcases hm with (hm | hm) | hm
      · obtain ⟨k, d', q', h1, h2, rfl⟩ := (mem_changesKey q kd od.ups).mp hm
        obtain ⟨_, x, y, h3, _, h5, _, h6⟩ := ((sorts k).2.2.1 d').mp h1
        have hx := lookup_mem h3
        have hy := lookup_mem h5
        obtain ⟨r1, r2⟩ := ih k x hx y ign d' (hpa k x hx) (hpb k y hy) (noOutputsKvs_mem ov k x hx) (noOutputsKvs_mem ow k y hy)
          (plainKeysKvs_mem pv k x hx).2 (plainKeysKvs_mem pw k y hy).2 h6 q' kd h2
        refine ⟨name k q' (plainKeysKvs_mem pv k x hx).1 r1, change_cons hash ?_ ?_ r2⟩
        · rw [get_name, h3]; rfl
        · rw [get_name, h5]; rfl
      · obtain ⟨⟨k, y⟩, he, h1⟩ := List.mem_map.mp hm
        injection h1 with h1 h2
        subst h1 h2
        obtain ⟨_, h3, h5, h4⟩ := ((sorts k).1 y).mp he
        refine ⟨name k [] (plainKeysKvs_mem pw k y (lookup_mem h3)).1 hnil, absent_name h4 ov, y, ?_, ?_⟩
        · exact (get_name k [] b).trans (by rw [h3]; rfl)
        · rintro rfl; cases h5
      · obtain ⟨⟨k, y⟩, he, h1⟩ := List.mem_map.mp hm
        injection h1 with h1 h2
        subst h1 h2
        obtain ⟨_, h3, h5, h4⟩ := ((sorts k).2.1 y).mp he
        refine ⟨name k [] (plainKeysKvs_mem pv k y (lookup_mem h3)).1 hnil, ⟨y, ?_, ?_⟩, absent_name h4 ow⟩
        · exact (get_name k [] a).trans (by rw [h3]; rfl)
        · rintro rfl; cases h5
    | _ => exact leaf _ _ ign d (by intro _ _ h; cases h) (by intro _ _ _ h; cases h) h q kd hm
  | _ =>
    intro w ign d _ _ _ _ _ _ h
    exact leaf _ w ign d (by intro _ _ h; cases h) (by intro _ _ h; cases h) h

/-- A diff has changes. -/
theorem changes_ne_nil : ∀ (v w : EV) (ign : String → Bool) (d : VDiff), diff hash ign v w = some (some d) → changes d ≠ [] := by
  intro v
  have leaf : ∀ (v w : EV) (ign : String → Bool) (d : VDiff), (∀ xs ys, v = .array xs → w = .array ys → False) →
      (∀ a b, v = .object a → w = .object b → False) → diff hash ign v w = some (some d) → changes d ≠ [] := by
    intro v w ign d h1 h2 h
    rw [diff_leaf hash ign v w h1 h2] at h
    split at h
    · cases h
    · cases h
    · simp only [Option.some.injEq] at h
      rw [← h]
      simp [changes]
  induction v using EV.parts with
  | array xs ih =>
    intro w ign d h
    cases w with
    | array ys =>
      obtain ⟨sames, ups, hl, hne, rfl⟩ := diff_array_some hash h
      simp only [changes, ne_eq, List.append_eq_nil_iff, List.map_eq_nil_iff]
      rintro ⟨⟨h1, h2⟩, h3⟩
      refine hne ⟨h2, h3, ?_⟩
      cases ups with
      | nil => rfl
      | cons u us =>
        obtain ⟨i, d'⟩ := u
        obtain ⟨m, x, y, _, h4, _, h6⟩ := (mem_diffList hash xs ys 0 sames _ hl i d').mp List.mem_cons_self
        simp only [changesIdx, List.append_eq_nil_iff, List.map_eq_nil_iff] at h1
        exact absurd h1.1 (ih x (List.mem_of_getElem? h4) y nothing d' h6)
    | _ => exact leaf _ _ ign d (by intro _ _ _ h; cases h) (by intro _ _ h; cases h) h
  | object a ih =>
    intro w ign d h
    cases w with
    | object b =>
      obtain ⟨od, hod, rfl⟩ := diff_object_some hash h
      obtain ⟨fs, hfs, hfin⟩ := mapDiff_some hash hod
      simp only [changes, ne_eq, List.append_eq_nil_iff, List.map_eq_nil_iff]
      rintro ⟨⟨h1, h2⟩, h3⟩
      obtain ⟨e1, e2, e3, e4⟩ := finish_some hfin
      cases hu : od.ups with
      | nil =>
        unfold finish at hfin
        simp only at hfin
        rw [if_pos ⟨by rw [← e1]; exact h2, by rw [← e2]; exact h3, by rw [← e4]; exact hu⟩] at hfin
        cases hfin
      | cons u us =>
        obtain ⟨k, d'⟩ := u
        rw [hu] at h1
        simp only [changesKey, List.append_eq_nil_iff, List.map_eq_nil_iff] at h1
        have hm : (k, Fate.up d') ∈ fs := ((mem_gather k fs).2.2.2 d').mp (by rw [← e4, hu]; exact List.mem_cons_self)
        obtain ⟨x, hx, _, hf⟩ := (mem_diffKvs hash ign b a fs hfs k _).mp hm
        split at hf
        · next y _ =>
          unfold fate at hf
          split at hf
          · cases hf
          · split at hf
            · cases hf
            · cases hf
            · next d'' hd =>
              split at hf
              · cases hf
              · split at hf
                · cases hf
                · injection hf with hf
                  injection hf with hf
                  subst hf
                  exact ih k x hx y ign d'' hd h1.1
        · unfold fateGone at hf
          split at hf <;> cases hf
    | _ => exact leaf _ _ ign d (by intro _ _ h; cases h) (by intro _ _ _ h; cases h) h
  | _ =>
    intro w ign d h
    exact leaf _ w ign d (by intro _ _ h; cases h) (by intro _ _ h; cases h) h

/-- Values that are equal do not differ anywhere. -/
theorem equal_nowhere : ∀ (r : Path) (v w : EV), proper hash v = true → proper hash w = true → noOutputs v = true → noOutputs w = true →
    deepEq hash v w = some true → ¬ DifferAt hash r v w := by
  intro r
  induction r with
  | nil =>
    intro v w _ _ _ _ h hd
    rcases hd with ⟨x, h1, h2, h3⟩ | ⟨y, h1, h2, h3⟩ | ⟨x, y, h1, h2, h3⟩
    · simp only [Paths.get, Option.some.injEq] at h1
      simp only [Absent, Paths.get, reduceCtorEq, Option.some.injEq, false_or] at h3
      rw [h3] at h
      exact h2 (by rw [← h1]; exact equal_null hash h)
    · simp only [Paths.get, Option.some.injEq] at h1
      simp only [Absent, Paths.get, reduceCtorEq, Option.some.injEq, false_or] at h3
      rw [h3] at h
      exact h2 (by rw [← h1]; exact null_equal hash h)
    · simp only [Paths.get, Option.some.injEq] at h1 h2
      rw [← h1, ← h2, h] at h3
      cases h3
  | cons key r ih =>
    intro v w pv pw ov ow h hd
    have some_some : ∀ x y, get (key :: r) v = get r x → get (key :: r) w = get r y → DifferAt hash r x y := by
      intro x y h1 h2
      unfold DifferAt Absent at hd ⊢
      rw [h1, h2] at hd
      exact hd
    have stuck : get (key :: r) v = none → get (key :: r) w = none → False := by
      intro h1 h2
      unfold DifferAt at hd
      rw [h1, h2] at hd
      rcases hd with ⟨_, h, _⟩ | ⟨_, h, _⟩ | ⟨_, _, h, _⟩ <;> cases h
    have null_null : (get (key :: r) v = none ∨ get (key :: r) v = some .null) → (get (key :: r) w = none ∨ get (key :: r) w = some .null) →
        False := by
      intro h1 h2
      rcases hd with ⟨x, h, hn, _⟩ | ⟨x, h, hn, _⟩ | ⟨x, y, hx, hy, h3⟩
      · rcases h1 with h1 | h1 <;> rw [h1] at h
        · cases h
        · injection h with h; exact hn h.symm
      · rcases h2 with h2 | h2 <;> rw [h2] at h
        · cases h
        · injection h with h; exact hn h.symm
      · rcases h1 with h1 | h1 <;> rw [h1] at hx
        · cases hx
        · rcases h2 with h2 | h2 <;> rw [h2] at hy
          · cases hy
          · injection hx with hx; injection hy with hy
            rw [← hx, ← hy] at h3; cases h3
    have nullget : ∀ (q : Path), get q .null = none ∨ get q .null = some .null := by
      intro q
      cases q with
      | nil => exact .inr rfl
      | cons k q => cases k <;> exact .inl rfl
    cases key with
    | idx i =>
      by_cases hi : 0 ≤ i
      · obtain ⟨n, rfl⟩ := Int.eq_ofNat_of_zero_le hi
        cases v with
        | array xs =>
          cases w with
          | array ys =>
            simp only [proper] at pv pw
            simp only [noOutputs] at ov ow
            obtain ⟨hl, he⟩ := (deepEq_array hash xs ys).mp h
            cases hx : xs[n]? with
            | none =>
              have hy : ys[n]? = none := by rw [List.getElem?_eq_none_iff] at hx ⊢; omega
              exact stuck ((get_idx n r xs).trans (by rw [hx]; rfl)) ((get_idx n r ys).trans (by rw [hy]; rfl))
            | some x =>
              have hn := (List.getElem?_eq_some_iff.mp hx).1
              have hy : ∃ y, ys[n]? = some y := ⟨ys[n]'(by omega), List.getElem?_eq_getElem (by omega)⟩
              obtain ⟨y, hy⟩ := hy
              have mx := List.mem_of_getElem? hx
              have my := List.mem_of_getElem? hy
              exact ih x y (properList_mem hash pv x mx) (properList_mem hash pw y my) (noOutputsList_mem ov x mx) (noOutputsList_mem ow y my)
                (he n x y hx hy) (some_some x y ((get_idx n r xs).trans (by rw [hx]; rfl)) ((get_idx n r ys).trans (by rw [hy]; rfl)))
          | _ => first | (simp [deepEq] at h; done) | (simp only [noOutputs] at ow; cases ow; done)
        | _ =>
          cases w with
          | array ys => first | (simp [deepEq] at h; done) | (simp only [noOutputs] at ov; cases ov; done)
          | _ => exact stuck rfl rfl
      · have : ∀ u : EV, get (.idx i :: r) u = none := by
          intro u
          cases u <;> simp [Paths.get, step, hi]
        exact stuck (this v) (this w)
    | name n =>
      obtain ⟨k, rfl⟩ : ∃ k : String, k.toList = n := ⟨String.ofList n, String.toList_ofList⟩
      cases v with
      | object a =>
        cases w with
        | object b =>
          obtain ⟨hna, hpa⟩ := proper_object hash pv
          obtain ⟨hnb, hpb⟩ := proper_object hash pw
          simp only [noOutputs] at ov ow
          obtain ⟨he1, he2⟩ := (deepEq_object hash a b).mp h
          cases hx : a.lookup k with
          | some x =>
            have mx := lookup_mem hx
            have h1 := he1 k x mx
            cases hy : b.lookup k with
            | some y =>
              rw [hy] at h1
              have my := lookup_mem hy
              exact ih x y (hpa k x mx) (hpb k y my) (noOutputsKvs_mem ov k x mx) (noOutputsKvs_mem ow k y my) h1
                (some_some x y (by rw [get_name, hx]; rfl) (by rw [get_name, hy]; rfl))
            | none =>
              rw [hy] at h1
              have hn := no_value (noOutputsKvs_mem ov k x mx) h1
              exact null_null (by rw [get_name, hx, hn]; exact nullget r) (.inl (by rw [get_name, hy]; rfl))
          | none =>
            cases hy : b.lookup k with
            | some y =>
              have my := lookup_mem hy
              have hn := no_value (noOutputsKvs_mem ow k y my) (he2 k y my hx)
              exact null_null (.inl (by rw [get_name, hx]; rfl)) (by rw [get_name, hy, hn]; exact nullget r)
            | none => exact stuck (by rw [get_name, hx]; rfl) (by rw [get_name, hy]; rfl)
        | _ => first | (simp [deepEq] at h; done) | (simp only [noOutputs] at ow; cases ow; done)
      | _ =>
        cases w with
        | object ys => first | (simp [deepEq] at h; done) | (simp only [noOutputs] at ov; cases ov; done)
        | _ => exact stuck rfl rfl

/-- Where two values differ there is a change of theirs, at that place, above it or below it. -/
theorem changes_complete : ∀ (r : Path) (v w : EV) (d : VDiff), proper hash v = true → proper hash w = true → noOutputs v = true →
    noOutputs w = true → diff hash nothing v w = some (some d) → DifferAt hash r v w →
    ∃ q kd, (q, kd) ∈ changes d ∧ (q <+: r ∨ r <+: q) := by
  intro r
  induction r with
  | nil =>
    intro v w d _ _ _ _ h _
    have := changes_ne_nil hash v w nothing d h
    cases hc : changes d with
    | nil => exact absurd hc this
    | cons x xs => exact ⟨x.1, x.2, List.mem_cons_self, .inr List.nil_prefix⟩
  | cons key r ih =>
    intro v w d pv pw ov ow h hd
    have some_some : ∀ x y, get (key :: r) v = get r x → get (key :: r) w = get r y → DifferAt hash r x y := by
      intro x y h1 h2
      unfold DifferAt Absent at hd ⊢
      rw [h1, h2] at hd
      exact hd
    have stuck : get (key :: r) v = none → get (key :: r) w = none → False := by
      intro h1 h2
      unfold DifferAt at hd
      rw [h1, h2] at hd
      rcases hd with ⟨_, h, _⟩ | ⟨_, h, _⟩ | ⟨_, _, h, _⟩ <;> cases h
    have leaf : (∀ xs ys, v = .array xs → w = .array ys → False) → (∀ a b, v = .object a → w = .object b → False) →
        ∃ q kd, (q, kd) ∈ changes d ∧ (q <+: key :: r ∨ key :: r <+: q) := by
      intro h1 h2
      rw [diff_leaf hash nothing v w h1 h2] at h
      split at h
      · cases h
      · cases h
      · simp only [Option.some.injEq] at h
        rw [← h]
        exact ⟨[], leafKind v w, by simp only [changes, List.mem_singleton], .inl List.nil_prefix⟩
    cases v with
    | array xs =>
      cases w with
      | array ys =>
        obtain ⟨sames, ups, hl, _, rfl⟩ := diff_array_some hash h
        simp only [proper] at pv pw
        simp only [noOutputs] at ov ow
        simp only [changes, List.mem_append]
        cases key with
        | name n => exact (stuck rfl rfl).elim
        | idx i =>
          by_cases hi : 0 ≤ i
          · obtain ⟨n, rfl⟩ := Int.eq_ofNat_of_zero_le hi
            cases hx : xs[n]? with
            | none =>
              cases hy : ys[n]? with
              | none => exact (stuck ((get_idx n r xs).trans (by rw [hx]; rfl)) ((get_idx n r ys).trans (by rw [hy]; rfl))).elim
              | some y =>
                have hm : (n, y) ∈ past xs.length ys := (mem_past _ _ _ _).mpr ⟨List.getElem?_eq_none_iff.mp hx, hy⟩
                exact ⟨[.idx (Int.ofNat n)], .add, .inl (.inr (List.mem_map.mpr ⟨_, hm, rfl⟩)), .inl ⟨r, rfl⟩⟩
            | some x =>
              cases hy : ys[n]? with
              | none =>
                have hm : (n, x) ∈ past ys.length xs := (mem_past _ _ _ _).mpr ⟨List.getElem?_eq_none_iff.mp hy, hx⟩
                exact ⟨[.idx (Int.ofNat n)], .delete, .inr (List.mem_map.mpr ⟨_, hm, rfl⟩), .inl ⟨r, rfl⟩⟩
              | some y =>
                have mx := List.mem_of_getElem? hx
                have my := List.mem_of_getElem? hy
                have hdr := some_some x y ((get_idx n r xs).trans (by rw [hx]; rfl)) ((get_idx n r ys).trans (by rw [hy]; rfl))
                obtain ⟨o, ho⟩ := diff_works hash x y nothing (properList_mem hash pv x mx)
                cases o with
                | none =>
                  have := (no_diff_iff_equal hash x y nothing (properList_mem hash pv x mx) (properList_mem hash pw y my)
                    (noOutputsList_mem ow y my)).mp ho
                  rw [strip_nothing, strip_nothing] at this
                  exact absurd hdr (equal_nowhere hash r x y (properList_mem hash pv x mx) (properList_mem hash pw y my)
                    (noOutputsList_mem ov x mx) (noOutputsList_mem ow y my) this)
                | some d' =>
                  obtain ⟨q, kd, h1, h2⟩ := ih x y d' (properList_mem hash pv x mx) (properList_mem hash pw y my)
                    (noOutputsList_mem ov x mx) (noOutputsList_mem ow y my) ho hdr
                  have hu : (n, d') ∈ ups := (mem_diffList hash xs ys 0 sames ups hl n d').mpr ⟨n, x, y, by omega, hx, hy, ho⟩
                  refine ⟨.idx (Int.ofNat n) :: q, kd, .inl (.inl ((mem_changesIdx _ kd ups).mpr ⟨n, d', q, hu, h1, rfl⟩)), ?_⟩
                  rcases h2 with ⟨t, h2⟩ | ⟨t, h2⟩
                  · exact .inl ⟨t, by rw [← h2]; rfl⟩
                  · exact .inr ⟨t, by rw [← h2]; rfl⟩
          · have : ∀ u : EV, get (.idx i :: r) u = none := by
              intro u
              cases u <;> simp [Paths.get, step, hi]
            exact (stuck (this _) (this _)).elim
      | _ => exact leaf (by intro _ _ _ h; cases h) (by intro _ _ h; cases h)
    | object a =>
      cases w with
      | object b =>
        obtain ⟨od, hod, rfl⟩ := diff_object_some hash h
        have sorts := fun k => diff_sorts hash nothing a b od pv pw ov ow hod k
        obtain ⟨hna, hpa⟩ := proper_object hash pv
        obtain ⟨hnb, hpb⟩ := proper_object hash pw
        simp only [noOutputs] at ov ow
        simp only [changes, List.mem_append]
        cases key with
        | idx i => exact (stuck rfl rfl).elim
        | name n =>
          obtain ⟨k, rfl⟩ : ∃ k : String, k.toList = n := ⟨String.ofList n, String.toList_ofList⟩
          obtain ⟨s1, s2, s3, _⟩ := sorts k
          have nullget : ∀ (q : Path), get q .null = none ∨ get q .null = some .null := by
            intro q
            cases q with
            | nil => exact .inr rfl
            | cons k q => cases k <;> exact .inl rfl
          have gone : ∀ (m : List (String × EV)), noOutputsKvs m = true → ¬ Present m k → Absent (.name k.toList :: r) (.object m) := by
            intro m om hm
            unfold Absent
            rw [get_name]
            cases hl : m.lookup k with
            | none => exact .inl rfl
            | some u =>
              have hu : hasValue u = false := by
                cases hu : hasValue u with
                | false => rfl
                | true => exact absurd ⟨u, hl, hu⟩ hm
              rw [no_value (noOutputsKvs_mem om k u (lookup_mem hl)) hu]
              exact nullget r
          have absent_both : Absent (.name k.toList :: r) (.object a) → Absent (.name k.toList :: r) (.object b) → False := by
            intro h1 h2
            rcases hd with ⟨x, h, hn, _⟩ | ⟨x, h, hn, _⟩ | ⟨x, y, hx, hy, h3⟩
            · rcases h1 with h1 | h1 <;> rw [h1] at h
              · cases h
              · injection h with h; exact hn h.symm
            · rcases h2 with h2 | h2 <;> rw [h2] at h
              · cases h
              · injection h with h; exact hn h.symm
            · rcases h1 with h1 | h1 <;> rw [h1] at hx
              · cases hx
              · rcases h2 with h2 | h2 <;> rw [h2] at hy
                · cases hy
                · injection hx with hx; injection hy with hy
                  rw [← hx, ← hy] at h3; cases h3
          by_cases ha : Present a k
          · obtain ⟨x, hx, vx⟩ := ha
            by_cases hb : Present b k
            · obtain ⟨y, hy, vy⟩ := hb
              have mx := lookup_mem hx
              have my := lookup_mem hy
              have hdr := some_some x y (by rw [get_name, hx]; rfl) (by rw [get_name, hy]; rfl)
              obtain ⟨o, ho⟩ := diff_works hash x y nothing (hpa k x mx)
              cases o with
              | none =>
                have := (no_diff_iff_equal hash x y nothing (hpa k x mx) (hpb k y my) (noOutputsKvs_mem ow k y my)).mp ho
                rw [strip_nothing, strip_nothing] at this
                exact absurd hdr (equal_nowhere hash r x y (hpa k x mx) (hpb k y my)
                  (noOutputsKvs_mem ov k x mx) (noOutputsKvs_mem ow k y my) this)
              | some d' =>
                obtain ⟨q, kd, h1, h2⟩ := ih x y d' (hpa k x mx) (hpb k y my)
                  (noOutputsKvs_mem ov k x mx) (noOutputsKvs_mem ow k y my) ho hdr
                have hu : (k, d') ∈ od.ups := (s3 d').mpr ⟨rfl, x, y, hx, vx, hy, vy, ho⟩
                refine ⟨.name k.toList :: q, kd, .inl (.inl ((mem_changesKey _ kd od.ups).mpr ⟨k, d', q, hu, h1, rfl⟩)), ?_⟩
                rcases h2 with ⟨t, h2⟩ | ⟨t, h2⟩
                · exact .inl ⟨t, by rw [← h2]; rfl⟩
                · exact .inr ⟨t, by rw [← h2]; rfl⟩
            · exact ⟨[.name k.toList], .delete, .inr (List.mem_map.mpr ⟨_, (s2 x).mpr ⟨rfl, hx, vx, hb⟩, rfl⟩), .inl ⟨r, rfl⟩⟩
          · by_cases hb : Present b k
            · have hb' := hb
              obtain ⟨y, hy, vy⟩ := hb
              exact ⟨[.name k.toList], .add, .inl (.inr (List.mem_map.mpr ⟨_, (s1 y).mpr ⟨rfl, hy, vy, ha⟩, rfl⟩)), .inl ⟨r, rfl⟩⟩
            · exact (absent_both (gone a ov ha) (gone b ow hb)).elim
      | _ => exact leaf (by intro _ _ h; cases h) (by intro _ _ _ h; cases h)
    | _ => exact leaf (by intro _ _ h; cases h) (by intro _ _ h; cases h)

/-! ## The properties -/

/-- a diff of maps as one of objects -/
theorem diff_of_mapDiff {ign : String → Bool} {a b : List (String × EV)} {d : ODiff} (h : mapDiff hash ign a b = some (some d)) :
    diff hash ign (.object a) (.object b) = some (some (.obj (.object a) (.object b) d.adds d.dels d.sames d.ups)) := by
  obtain ⟨fs, hfs, hfin⟩ := mapDiff_some hash h
  simp only [diff, hfs, hfin, Option.map_some]

theorem detailed_eq (v w : EV) (d : ODiff) : detailed (some d) = detail (pathText []) (.obj v w d.adds d.dels d.sames d.ups) [] := by
  simp only [detailed, detail]; rfl

/-- C170: every entry of a detailed diff says, by the path it parses to, what became of a property. -/
theorem detailed_names_changes_partial (ign : String → Bool) (a b : List (String × EV)) (r : Option ODiff)
    (ha : proper hash (.object a) = true) (hb : proper hash (.object b) = true) (oa : noOutputs (.object a) = true)
    (ob : noOutputs (.object b) = true) (pa : plainKeys (.object a) = true) (pb : plainKeys (.object b) = true)
    (h : mapDiff hash ign a b = some r) (t : Text) (p : PropertyDiff) (ht : (t, p) ∈ detailed r) :
    p.inputDiff = false ∧ ∃ q, parse t = .ok q ∧ ChangeAt hash q (.object a) (.object b) p.kind := by
  cases r with
  | none => cases ht
  | some d =>
    have hs := changes_sound hash _ _ ign _ ha hb oa ob pa pb (diff_of_mapDiff hash h)
    rw [detailed_eq (.object a) (.object b)] at ht
    rcases (detail_texts [] (fun k hk => by cases hk) _ [] (fun qk hqk => (hs qk.1 qk.2 hqk).1)).1 t p ht with h1 | ⟨q, kd, h1, h2, h3⟩
    · cases h1
    · obtain ⟨p1, p2⟩ := hs q kd h1
      rw [h3]
      refine ⟨rfl, q, ?_, p2⟩
      rw [h2, List.nil_append]
      exact Paths.path_round_trip q (plain_printable p1)

/-- C170: where two maps differ, a detailed diff has an entry for that place, for one above it or for one below it. -/
theorem detailed_misses_nothing_partial (a b : List (String × EV)) (r : Option ODiff)
    (ha : proper hash (.object a) = true) (hb : proper hash (.object b) = true) (oa : noOutputs (.object a) = true)
    (ob : noOutputs (.object b) = true) (pa : plainKeys (.object a) = true) (pb : plainKeys (.object b) = true)
    (h : mapDiff hash nothing a b = some r) (q : Path) (hq : DifferAt hash q (.object a) (.object b)) :
    ∃ t p q', (t, p) ∈ detailed r ∧ parse t = .ok q' ∧ (q' <+: q ∨ q <+: q') := by
  cases r with
  | none =>
    have hd : diff hash nothing (.object a) (.object b) = some none := by
      unfold mapDiff at h
      cases hf : diffKvs hash nothing a b with
      | none => rw [hf] at h; cases h
      | some fs =>
        rw [hf] at h
        simp only [Option.map_some, Option.some.injEq] at h
        simp only [diff, hf, h, Option.map_none]
    have := (no_diff_iff_equal hash _ _ nothing ha hb ob).mp hd
    rw [strip_nothing, strip_nothing] at this
    exact absurd hq (equal_nowhere hash q _ _ ha hb oa ob this)
  | some d =>
    have hs := changes_sound hash _ _ nothing _ ha hb oa ob pa pb (diff_of_mapDiff hash h)
    obtain ⟨q', kd, h1, h2⟩ := changes_complete hash q _ _ _ ha hb oa ob (diff_of_mapDiff hash h) hq
    have hk := ((detail_texts [] (fun k hk => by cases hk) _ [] (fun qk hqk => (hs qk.1 qk.2 hqk).1)).2 (pathText q')).mpr
      (.inr ⟨q', kd, h1, rfl⟩)
    rw [← detailed_eq (.object a) (.object b)] at hk
    obtain ⟨⟨t, p⟩, hm, rfl⟩ := List.mem_map.mp hk
    exact ⟨_, p, q', hm, Paths.path_round_trip q' (plain_printable (hs q' kd h1).1), h2⟩

end Pulumi.Props
