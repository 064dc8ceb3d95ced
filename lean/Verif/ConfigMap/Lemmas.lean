import Verif.ConfigMap.Digits
/-! # Lemmas about paths in the configuration -/
namespace Pulumi.ConfigMap

open Wire (W)
open Checkpoint (Codec)
open Paths (Path)

/-! ## Maps -/

section
variable {α β : Type} [DecidableEq α]

theorem find_put_same (k : α) (v : β) (m : List (α × β)) : find k (put k v m) = some v := by
  induction m with
  | nil => simp [put, find]
  | cons x m ih =>
    obtain ⟨k', v'⟩ := x
    unfold put
    split
    · simp [find]
    · rename_i h
      rw [find, if_neg h, ih]

theorem find_put_other {k k' : α} (h : k' ≠ k) (v : β) (m : List (α × β)) : find k' (put k v m) = find k' m := by
  induction m with
  | nil => simp [put, find, Ne.symm h]
  | cons x m ih =>
    obtain ⟨a, b⟩ := x
    unfold put
    split
    · rename_i ha
      subst ha
      simp [find, Ne.symm h]
    · rw [find, find, ih]

theorem find_drop_same (k : α) (m : List (α × β)) : find k (drop k m) = none := by
  induction m with
  | nil => rfl
  | cons x m ih =>
    obtain ⟨a, b⟩ := x
    unfold drop
    split
    · exact ih
    · rename_i h
      rw [find, if_neg h, ih]

theorem find_drop_other {k k' : α} (h : k' ≠ k) (m : List (α × β)) : find k' (drop k m) = find k' m := by
  induction m with
  | nil => rfl
  | cons x m ih =>
    obtain ⟨a, b⟩ := x
    unfold drop
    split
    · rename_i ha
      subst ha
      rw [find, if_neg (Ne.symm h), ih]
    · rw [find, find, ih]

theorem find_eq_lookup (k : String) (m : List (String × β)) : find k m = m.lookup k := by
  induction m with
  | nil => rfl
  | cons x m ih =>
    obtain ⟨a, b⟩ := x
    rw [find]
    by_cases h : a = k
    · subst h; simp
    · have hb : (k == a) = false := by simpa using Ne.symm h
      rw [if_neg h, List.lookup, hb, ih]
end

theorem ofList_inj {a b : List Char} (h : String.ofList a = String.ofList b) : a = b := by
  have := congrArg String.toList h
  simpa using this

/-! ## Steps -/

theorem setValue_step {c : W} {k : Paths.Key} {v c' : W} (h : setValue c k v = .ok c') :
    step c' k = some v ∧ ∀ k', k' ≠ k → step c' k' = step c k' := by
  unfold setValue at h
  split at h
  · rename_i ws i
    split at h
    · cases h
    · rename_i hr
      split at h
      · rename_i he
        cases h
        refine ⟨?_, fun k' hk => ?_⟩
        · have h0 : ¬ i < 0 := fun hi => hr (.inl hi)
          have hn : i.toNat = ws.length := by omega
          simp [step, h0, hn]
        · cases k' with
          | name s => rfl
          | idx j =>
            have hj : j ≠ i := fun e => hk (by rw [e])
            simp only [step]
            split
            · rfl
            · rename_i hj0
              have : j.toNat ≠ ws.length := by omega
              by_cases hlt : j.toNat < ws.length
              · rw [List.getElem?_append_left hlt]
              · rw [List.getElem?_eq_none (by simp; omega), List.getElem?_eq_none (by omega)]
      · rename_i he
        cases h
        refine ⟨?_, fun k' hk => ?_⟩
        · have h0 : ¬ i < 0 := fun hi => hr (.inl hi)
          have h1 : ¬ i > ws.length := fun hi => hr (.inr hi)
          have hn : i.toNat < ws.length := by omega
          simp [step, h0, hn]
        · cases k' with
          | name s => rfl
          | idx j =>
            have hj : j ≠ i := fun e => hk (by rw [e])
            simp only [step]
            split
            · rfl
            · rename_i hj0
              have h0 : ¬ i < 0 := fun hi => hr (.inl hi)
              rw [List.getElem?_set_ne (by omega)]
  · cases h
    refine ⟨by rw [step, find_put_same], fun k' hk => ?_⟩
    cases k' with
    | idx j => rfl
    | name s =>
      rw [step, step, find_put_other]
      intro e
      exact hk (by rw [ofList_inj e])
  · cases h

theorem getValue_step {c : W} {k : Paths.Key} {w : W} (h : getValue c k = .ok w) :
    step c k = some w ∨ (step c k = none ∧ w = .null) := by
  unfold getValue at h
  split at h
  · rename_i ws i
    split at h
    · cases h
    · rename_i hr
      cases h
      have h0 : ¬ i < 0 := fun hi => hr (.inl hi)
      rw [step, if_neg h0]
      cases hw : ws[i.toNat]? with
      | none => exact .inr ⟨rfl, rfl⟩
      | some w => exact .inl rfl
  · rename_i kvs k
    cases h
    rw [step]
    cases hw : find (String.ofList k) kvs with
    | none => exact .inr ⟨rfl, rfl⟩
    | some w => exact .inl rfl
  · cases h

/-- What has no parts. -/
theorem getForPath_leaf {w : W} (h : ∀ k, step w k = none) {p : Path} (hp : p ≠ []) : getForPath w p = none := by
  cases p with
  | nil => exact absurd rfl hp
  | cons k p => rw [getForPath, h k]

theorem step_str (s : String) (k : Paths.Key) : step (.str s) k = none := by cases k <;> rfl
theorem step_null (k : Paths.Key) : step .null k = none := by cases k <;> rfl

theorem getForPath_cons (w : W) (k : Paths.Key) (p : Path) : getForPath w (k :: p) = (step w k).bind fun w' => getForPath w' p := by
  rw [getForPath]
  cases step w k <;> rfl

theorem container_get {old inner : W} {k : Paths.Key} (h : container old k = .ok inner) {p : Path} (hp : p ≠ []) :
    getForPath inner p = getForPath old p := by
  unfold container at h
  split at h <;> cases h
  · rw [getForPath_leaf step_null hp]
    refine getForPath_leaf (fun k => ?_) hp
    cases k with
    | name s => rfl
    | idx i => rw [step]; split <;> simp
  · rfl
  · rw [getForPath_leaf step_null hp]
    refine getForPath_leaf (fun k => ?_) hp
    cases k with
    | name s => rfl
    | idx i => rfl
  · rfl

/-! ## Setting -/

theorem setAt_same {v c : W} {k : Paths.Key} {rest : Path} {c' : W} (h : setAt v c k rest = .ok c') :
    getForPath c' (k :: rest) = some v := by
  induction rest generalizing c k c' with
  | nil =>
    rw [setAt] at h
    cases h1 : setValue c k v with
    | error e => rw [h1] at h; cases h
    | ok x =>
      rw [h1] at h
      simp only [bind, Except.bind] at h
      split at h
      · cases h
      · cases h
        rw [getForPath_cons, (setValue_step h1).1]
        rfl
  | cons k' rest ih =>
    rw [setAt] at h
    cases h1 : getValue c k with
    | error e => rw [h1] at h; cases h
    | ok old =>
      rw [h1] at h
      simp only [bind, Except.bind] at h
      cases h2 : container old k' with
      | error e => rw [h2] at h; cases h
      | ok inner =>
        rw [h2] at h
        simp only at h
        cases h3 : setAt v inner k' rest with
        | error e => rw [h3] at h; cases h
        | ok inner' =>
          rw [h3] at h
          simp only at h
          rw [getForPath_cons, (setValue_step h).1]
          exact ih h3

theorem apart_cons {k k' : Paths.Key} {p q : Path} (h : Apart (k :: p) (k' :: q)) : k' ≠ k ∨ (k' = k ∧ Apart p q) := by
  by_cases hk : k' = k
  · subst hk
    refine .inr ⟨rfl, fun hp => h.1 ?_, fun hp => h.2 ?_⟩
    · obtain ⟨t, ht⟩ := hp
      exact ⟨t, by rw [← ht]; rfl⟩
    · obtain ⟨t, ht⟩ := hp
      exact ⟨t, by rw [← ht]; rfl⟩
  · exact .inl hk

theorem not_apart_nil {p q : Path} (h : Apart p q) : p ≠ [] ∧ q ≠ [] :=
  ⟨fun e => h.1 (e ▸ List.nil_prefix), fun e => h.2 (e ▸ List.nil_prefix)⟩

theorem setAt_apart {v c : W} {k : Paths.Key} {rest : Path} {c' : W} (h : setAt v c k rest = .ok c') {q : Path}
    (hq : Apart (k :: rest) q) : getForPath c' q = getForPath c q := by
  induction rest generalizing c k c' q with
  | nil =>
    rw [setAt] at h
    cases h1 : setValue c k v with
    | error e => rw [h1] at h; cases h
    | ok x =>
      rw [h1] at h
      simp only [bind, Except.bind] at h
      split at h
      · cases h
      · cases h
        cases q with
        | nil => exact absurd rfl (not_apart_nil hq).2
        | cons k' q =>
          rcases apart_cons hq with hk | ⟨_, hp⟩
          · rw [getForPath_cons, getForPath_cons, (setValue_step h1).2 k' hk]
          · exact absurd rfl (not_apart_nil hp).1
  | cons k' rest ih =>
    rw [setAt] at h
    cases h1 : getValue c k with
    | error e => rw [h1] at h; cases h
    | ok old =>
      rw [h1] at h
      simp only [bind, Except.bind] at h
      cases h2 : container old k' with
      | error e => rw [h2] at h; cases h
      | ok inner =>
        rw [h2] at h
        simp only at h
        cases h3 : setAt v inner k' rest with
        | error e => rw [h3] at h; cases h
        | ok inner' =>
          rw [h3] at h
          simp only at h
          cases q with
          | nil => exact absurd rfl (not_apart_nil hq).2
          | cons k'' q =>
            rw [getForPath_cons, getForPath_cons]
            rcases apart_cons hq with hk | ⟨rfl, hp⟩
            · rw [(setValue_step h).2 k'' hk]
            · rw [(setValue_step h).1]
              simp only [Option.bind_some]
              rw [ih h3 hp, container_get h2 (not_apart_nil hp).2]
              rcases getValue_step h1 with he | ⟨he, rfl⟩
              · rw [he]; rfl
              · rw [he]
                exact getForPath_leaf step_null (not_apart_nil hp).2

/-- A list or a map that is no secure value. -/
def Holder (w : W) : Prop := isSecure w = none ∧ ((∃ ws, w = .list ws) ∨ ∃ kvs, w = .struct kvs)

theorem isSecure_some {w : W} {s : String} (h : isSecure w = some s) : w = .struct [("secure", .str s)] := by
  unfold isSecure at h
  split at h
  · split at h
    · rename_i hk
      cases h
      rw [hk]
    · cases h
  · cases h

theorem setValue_shape {c : W} {k : Paths.Key} {v c' : W} (h : setValue c k v = .ok c') :
    (∃ ws, c' = .list ws) ∨ ∃ kvs, c' = .struct kvs := by
  unfold setValue at h
  split at h
  · split at h
    · cases h
    · split at h <;> cases h
      · exact .inl ⟨_, rfl⟩
      · exact .inl ⟨_, rfl⟩
  · cases h; exact .inr ⟨_, rfl⟩
  · cases h

theorem secure_step {s : String} {k : Paths.Key} {w : W} (h : step (.struct [("secure", .str s)]) k = some w) :
    k = .name "secure".toList ∧ w = .str s := by
  cases k with
  | idx i => cases h
  | name n =>
    rw [step, find] at h
    split at h
    · rename_i hn
      cases h
      refine ⟨?_, rfl⟩
      have hs : String.ofList "secure".toList = String.ofList n := hn
      rw [ofList_inj hs]
    · cases h

theorem setAt_holder {v c : W} {k : Paths.Key} {rest : Path} {c' : W} (h : setAt v c k rest = .ok c') : Holder c' := by
  induction rest generalizing c k c' with
  | nil =>
    rw [setAt] at h
    cases h1 : setValue c k v with
    | error e => rw [h1] at h; cases h
    | ok x =>
      rw [h1] at h
      simp only [bind, Except.bind] at h
      split at h
      · cases h
      · rename_i hs
        cases h
        exact ⟨by cases hx : isSecure c' with | none => rfl | some s => rw [hx] at hs; exact absurd rfl hs, setValue_shape h1⟩
  | cons k' rest ih =>
    rw [setAt] at h
    cases h1 : getValue c k with
    | error e => rw [h1] at h; cases h
    | ok old =>
      rw [h1] at h
      simp only [bind, Except.bind] at h
      cases h2 : container old k' with
      | error e => rw [h2] at h; cases h
      | ok inner =>
        rw [h2] at h
        simp only at h
        cases h3 : setAt v inner k' rest with
        | error e => rw [h3] at h; cases h
        | ok inner' =>
          rw [h3] at h
          simp only at h
          refine ⟨?_, setValue_shape h⟩
          cases hs : isSecure c' with
          | none => rfl
          | some s =>
            have hst := (setValue_step h).1
            rw [isSecure_some hs] at hst
            obtain ⟨_, rfl⟩ := secure_step hst
            rcases (ih h3).2 with ⟨ws, hw⟩ | ⟨kvs, hw⟩ <;> cases hw

theorem setAt_prefix {v c : W} {k : Paths.Key} {rest : Path} {c' : W} (h : setAt v c k rest = .ok c') {q : Path}
    (hq : q <+: k :: rest) (hne : q ≠ k :: rest) : ∃ w, getForPath c' q = some w ∧ Holder w := by
  induction rest generalizing c k c' q with
  | nil =>
    cases q with
    | nil => exact ⟨c', rfl, setAt_holder h⟩
    | cons k'' q =>
      obtain ⟨t, ht⟩ := hq
      simp only [List.cons_append, List.cons.injEq, List.append_eq_nil_iff] at ht
      exact absurd (by rw [ht.1, ht.2.1]) hne
  | cons k' rest ih =>
    cases q with
    | nil => exact ⟨c', rfl, setAt_holder h⟩
    | cons k'' q =>
      obtain ⟨t, ht⟩ := hq
      simp only [List.cons_append, List.cons.injEq] at ht
      obtain ⟨rfl, ht⟩ := ht
      rw [setAt] at h
      cases h1 : getValue c k'' with
      | error e => rw [h1] at h; cases h
      | ok old =>
        rw [h1] at h
        simp only [bind, Except.bind] at h
        cases h2 : container old k' with
        | error e => rw [h2] at h; cases h
        | ok inner =>
          rw [h2] at h
          simp only at h
          cases h3 : setAt v inner k' rest with
          | error e => rw [h3] at h; cases h
          | ok inner' =>
            rw [h3] at h
            simp only at h
            rw [getForPath_cons, (setValue_step h).1]
            exact ih h3 ⟨t, ht⟩ (fun e => hne (by rw [e]))

/-! ## Removing -/

theorem removeAt_cons {c : W} {k k' : Paths.Key} {rest : Path} {c' : W} (h : removeAt c k (k' :: rest) = .ok (some c')) :
    ∃ inner inner', step c k = some inner ∧ removeAt inner k' rest = .ok (some inner') ∧ setValue c k inner' = .ok c' := by
  have hu : removeAt c k (k' :: rest) = (match step c k with
    | none => .ok none
    | some inner => do
      match ← removeAt inner k' rest with
      | none => return none
      | some inner' => return some (← setValue c k inner')) := by
    cases c <;> rfl
  rw [hu] at h
  cases h1 : step c k with
  | none => rw [h1] at h; cases h
  | some inner =>
    rw [h1] at h
    simp only [bind, Except.bind] at h
    cases h2 : removeAt inner k' rest with
    | error e => rw [h2] at h; cases h
    | ok o =>
      rw [h2] at h
      cases o with
      | none => cases h
      | some inner' =>
        simp only at h
        cases h3 : setValue c k inner' with
        | error e => rw [h3] at h; cases h
        | ok x =>
          rw [h3] at h
          cases h
          exact ⟨inner, inner', rfl, h2, h3⟩

/-- What a last key takes away: of a map its member, of a list an element. -/
theorem removeAt_last {c : W} {k : Paths.Key} {c' : W} (h : removeAt c k [] = .ok (some c')) :
    isSecure c' = none ∧ (((∀ k, step c k = none) ∧ c' = c) ∨
      (∃ s, k = .name s ∧ step c' k = none ∧ ∀ k', k' ≠ k → step c' k' = step c k') ∨
      (∃ ws i, k = .idx i ∧ 0 ≤ i ∧ i < ws.length ∧ c = .list ws ∧ c' = .list (ws.eraseIdx i.toNat))) := by
  cases c with
  | list ws =>
    cases k with
    | name s => cases h
    | idx i =>
      rw [removeAt] at h
      split at h
      · cases h
      · rename_i hr
        cases h
        exact ⟨rfl, .inr (.inr ⟨ws, i, rfl, by omega, by omega, rfl, rfl⟩)⟩
  | struct kvs =>
    cases k with
    | idx i => cases h
    | name s =>
      rw [removeAt] at h
      split at h
      · cases h
      · rename_i hs
        cases h
        refine ⟨?_, .inr (.inl ⟨s, rfl, by rw [step, find_drop_same], fun k' hk => ?_⟩)⟩
        · cases hx : isSecure (W.struct (drop (String.ofList s) kvs)) with
          | none => rfl
          | some s => rw [hx] at hs; exact absurd rfl hs
        · cases k' with
          | idx j => rfl
          | name t =>
            rw [step, step, find_drop_other]
            intro e
            exact hk (by rw [ofList_inj e])
  | null => cases h; exact ⟨rfl, .inl ⟨fun k => by cases k <;> rfl, rfl⟩⟩
  | bool b => cases h; exact ⟨rfl, .inl ⟨fun k => by cases k <;> rfl, rfl⟩⟩
  | num n => cases h; exact ⟨rfl, .inl ⟨fun k => by cases k <;> rfl, rfl⟩⟩
  | str s => cases h; exact ⟨rfl, .inl ⟨fun k => by cases k <;> rfl, rfl⟩⟩

/-- A key after an element of a list has been taken away: the key that was there before. -/
def before (i : Int) : Paths.Key → Paths.Key
  | .idx j => if j < i then .idx j else .idx (j + 1)
  | k => k

theorem step_erase (ws : List W) (i : Int) (h0 : 0 ≤ i) (k : Paths.Key) :
    step (.list (ws.eraseIdx i.toNat)) k = step (.list ws) (before i k) := by
  cases k with
  | name s => rfl
  | idx j =>
    unfold before
    simp only
    by_cases hj : j < i
    · rw [if_pos hj, step, step]
      split
      · rfl
      · rw [List.getElem?_eraseIdx_of_lt (by omega)]
    · rw [if_neg hj, step, step, if_neg (by omega), if_neg (by omega), List.getElem?_eraseIdx_of_ge (by omega)]
      congr 1
      omega

/-- What is removed is gone, what is elsewhere is as it was. -/
theorem removeAt_name {c : W} {k : Paths.Key} {rest : Path} {c' : W} (h : removeAt c k rest = .ok (some c'))
    {s : List Char} (hs : (k :: rest).getLast (by simp) = .name s) :
    getForPath c' (k :: rest) = none ∧ ∀ q, Apart (k :: rest) q → getForPath c' q = getForPath c q := by
  induction rest generalizing c k c' with
  | nil =>
    simp only [List.getLast_singleton] at hs
    subst hs
    rcases (removeAt_last h).2 with ⟨hl, rfl⟩ | ⟨_, _, h1, h2⟩ | ⟨_, _, he, _⟩
    · exact ⟨by rw [getForPath_cons, hl]; rfl, fun _ _ => rfl⟩
    · refine ⟨by rw [getForPath_cons, h1]; rfl, fun q hq => ?_⟩
      cases q with
      | nil => exact absurd rfl (not_apart_nil hq).2
      | cons k' q =>
        rcases apart_cons hq with hk | ⟨_, hp⟩
        · rw [getForPath_cons, getForPath_cons, h2 k' hk]
        · exact absurd rfl (not_apart_nil hp).1
    · cases he
  | cons k' rest ih =>
    obtain ⟨inner, inner', h1, h2, h3⟩ := removeAt_cons h
    obtain ⟨i1, i2⟩ := ih h2 (by rw [← hs]; simp)
    obtain ⟨s1, s2⟩ := setValue_step h3
    refine ⟨by rw [getForPath_cons, s1]; exact i1, fun q hq => ?_⟩
    cases q with
    | nil => exact absurd rfl (not_apart_nil hq).2
    | cons k'' q =>
      rw [getForPath_cons, getForPath_cons]
      rcases apart_cons hq with hk | ⟨rfl, hp⟩
      · rw [s2 k'' hk]
      · rw [s1, h1]
        exact i2 q hp

/-- What comes after what is removed from a list moves up; the rest is as it was. -/
theorem removeAt_idx {c : W} {k : Paths.Key} {rest : Path} {c' : W} (h : removeAt c k rest = .ok (some c'))
    {p : Path} {i : Int} (hs : k :: rest = p ++ [.idx i]) :
    (∀ k' q, getForPath c' (p ++ k' :: q) = getForPath c (p ++ before i k' :: q)) ∧
      ∀ q, Apart p q → getForPath c' q = getForPath c q := by
  induction rest generalizing c k c' p with
  | nil =>
    have hp : p = [] := by
      have := congrArg List.length hs
      simp at this
      exact this
    subst hp
    simp only [List.nil_append, List.cons.injEq, and_true] at hs
    subst hs
    refine ⟨fun k' q => ?_, fun q hq => absurd rfl (not_apart_nil hq).1⟩
    rw [List.nil_append, List.nil_append, getForPath_cons, getForPath_cons]
    rcases (removeAt_last h).2 with ⟨hl, rfl⟩ | ⟨_, he, _⟩ | ⟨ws, j, hj, h0, _, rfl, rfl⟩
    · rw [hl, hl]
    · cases he
    · cases hj
      rw [step_erase ws i h0]
  | cons k' rest ih =>
    cases p with
    | nil => simp at hs
    | cons x p =>
      simp only [List.cons_append, List.cons.injEq] at hs
      obtain ⟨rfl, hs⟩ := hs
      obtain ⟨inner, inner', h1, h2, h3⟩ := removeAt_cons h
      obtain ⟨i1, i2⟩ := ih h2 hs
      obtain ⟨s1, s2⟩ := setValue_step h3
      refine ⟨fun k'' q => ?_, fun q hq => ?_⟩
      · rw [List.cons_append, List.cons_append, getForPath_cons, getForPath_cons, s1, h1]
        exact i1 k'' q
      · cases q with
        | nil => exact absurd rfl (not_apart_nil hq).2
        | cons k'' q =>
          rw [getForPath_cons, getForPath_cons]
          rcases apart_cons hq with hk | ⟨rfl, hp⟩
          · rw [s2 k'' hk]
          · rw [s1, h1]
            exact i2 q hp

/-- What is removed leaves no secure value, unless it was something below the text of one. -/
theorem removeAt_secure {c : W} {k : Paths.Key} {rest : Path} {s : String}
    (h : removeAt c k rest = .ok (some (.struct [("secure", .str s)]))) : k = .name "secure".toList ∧ rest ≠ [] := by
  cases rest with
  | nil => exact absurd (removeAt_last h).1 (by simp [isSecure])
  | cons k' rest =>
    obtain ⟨_, inner', _, _, h3⟩ := removeAt_cons h
    exact ⟨(secure_step (setValue_step h3).1).1, by simp⟩

end Pulumi.ConfigMap
