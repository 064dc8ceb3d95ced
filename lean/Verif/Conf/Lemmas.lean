import Verif.Conf.Spec

/-!
# Lemmas about configuration
-/
namespace Pulumi.Conf
open Pulumi.Async Pulumi.Output

theorem lookup_cons_if (k a : String) (b : Val) (t : Dict) :
    List.lookup k ((a, b) :: t) = if k = a then some b else t.lookup k := by
  simp only [List.lookup]
  by_cases h : k = a
  · simp [h]
  · simp [h, beq_eq_false_iff_ne.2 h]

theorem lookup_setKey (t : Dict) (k k' : String) (v : Val) :
    (setKey t k v).lookup k' = if k' = k then some v else t.lookup k' := by
  induction t with
  | nil => simp only [setKey, lookup_cons_if, List.lookup]
  | cons kv t ih =>
    obtain ⟨a, b⟩ := kv
    unfold setKey
    by_cases h : a = k
    · subst h
      simp only [if_true, lookup_cons_if]
      by_cases h2 : k' = a <;> simp [h2]
    · simp only [h, if_false, lookup_cons_if, ih]
      by_cases h2 : k' = a
      · subst h2; simp [h]
      · simp [h2]

theorem lookup_append (a b : Dict) (k : String) : (a ++ b).lookup k = (a.lookup k).or (b.lookup k) := by
  induction a with
  | nil => simp
  | cons kv a ih =>
    obtain ⟨x, y⟩ := kv
    rw [List.cons_append, lookup_cons_if, lookup_cons_if]
    by_cases h : k = x <;> simp [h, ih]

theorem lookup_copyDict (m : Dict) : ∀ (new : Dict) (k : String),
    (copyDict new m).lookup k = (Dict.value m k).or (new.lookup k) := by
  induction m with
  | nil => intro new k; simp [copyDict, Dict.value]
  | cons kv m ih =>
    obtain ⟨a, b⟩ := kv
    intro new k
    simp only [copyDict, ih, lookup_setKey, Dict.value, List.reverse_cons, lookup_append, lookup_cons_if]
    by_cases h : k = a <;> simp [h]

theorem update_same {β : Type} (f : Nat → β) (i : Nat) (b : β) : update f i b i = b := by simp [update]

theorem update_ne {β : Type} (f : Nat → β) {i j : Nat} (b : β) (h : j ≠ i) : update f i b j = f j := by simp [update, h]

/-- How addresses and numbers of configurations correspond. -/
structure Inv (h : History) (s : State) (name : Nat → Nat) : Prop where
  zero : name 0 = 0
  pos : 0 < s.next
  bound : ∀ c, s.addr c < s.next
  inj : ∀ a b, a < s.next → b < s.next → name a = name b → a = b
  le : ∀ a, a < s.next → name a ≤ h.length
  uses : ∀ c, name (s.addr c) = uses h c
  value : ∀ a, a < s.next → ∀ k, (s.dicts a).lookup k = written h (name a) k
  secrets : ∀ c, (s.secretKeys c).getD [] = secretsSeen h c

theorem inv_after (h : History) : ∃ name, Inv h (after h) name := by
  induction h with
  | nil =>
    refine ⟨id, rfl, Nat.one_pos, fun c => ?_, ?_, ?_, ?_, ?_, ?_⟩ <;> simp [after, State.init, State.addr, uses, written, secretsSeen]
  | cons op h ih =>
    obtain ⟨name, hi⟩ := ih
    cases op with
    | set c k v =>
      refine ⟨name, hi.zero, hi.pos, hi.bound, hi.inj, fun a ha => Nat.le_succ_of_le (hi.le a ha), hi.uses, ?_, hi.secrets⟩
      intro a ha k'
      show List.lookup k' (update _ _ _ a) = _
      unfold written
      by_cases he : a = (after h).addr c
      · subst he
        rw [update_same, lookup_setKey, hi.value _ ha, hi.uses]
        by_cases hk : k' = k
        · subst hk; simp
        · simp [hk, Ne.symm hk]
      · rw [update_ne _ _ he, hi.value _ ha]
        have : ¬ (uses h c = name a) := by
          rw [← hi.uses c]
          exact fun heq => he (hi.inj _ _ ha (hi.bound c) heq.symm)
        simp [this]
    | setAll c m ss =>
      have hne : ∀ a, a < (after h).next → a ≠ (after h).next := fun a ha => Nat.ne_of_lt ha
      have haddr : ∀ c', (after (.setAll c m ss :: h)).addr c' = if c' = c then (after h).next else (after h).addr c' := by
        intro c'
        show (update (after h).config c (some (after h).next) c').getD 0 = _
        by_cases hc : c' = c
        · subst hc; rw [update_same]; simp
        · rw [update_ne _ _ hc]; simp [hc, State.addr]
      have hnm : ∀ a, a < (after h).next → update name (after h).next (h.length + 1) a = name a :=
        fun a ha => update_ne _ _ (hne a ha)
      refine ⟨update name (after h).next (h.length + 1), ?_, Nat.succ_pos _, ?_, ?_, ?_, ?_, ?_, ?_⟩
      · rw [hnm 0 hi.pos]; exact hi.zero
      · intro c'
        rw [haddr]
        show _ < (after h).next + 1
        split
        · omega
        · exact Nat.lt_succ_of_lt (hi.bound c')
      · intro a b ha hb hab
        have ha' : a < (after h).next + 1 := ha
        have hb' : b < (after h).next + 1 := hb
        by_cases h1 : a = (after h).next <;> by_cases h2 : b = (after h).next
        · rw [h1, h2]
        · have hb2 : b < (after h).next := by omega
          rw [h1, update_same, hnm b hb2] at hab
          have := hi.le b hb2
          omega
        · have ha2 : a < (after h).next := by omega
          rw [h2, update_same, hnm a ha2] at hab
          have := hi.le a ha2
          omega
        · have ha2 : a < (after h).next := by omega
          have hb2 : b < (after h).next := by omega
          rw [hnm a ha2, hnm b hb2] at hab
          exact hi.inj a b ha2 hb2 hab
      · intro a ha
        have ha' : a < (after h).next + 1 := ha
        by_cases h1 : a = (after h).next
        · rw [h1, update_same]; simp
        · have ha2 : a < (after h).next := by omega
          rw [hnm a ha2]
          exact Nat.le_succ_of_le (hi.le a ha2)
      · intro c'
        rw [haddr]
        unfold uses
        by_cases hc : c' = c
        · simp [hc, update_same]
        · simp only [hc, if_false]
          rw [hnm _ (hi.bound c')]
          exact hi.uses c'
      · intro a ha k
        have ha' : a < (after h).next + 1 := ha
        show List.lookup k (update _ _ _ a) = _
        unfold written
        by_cases h1 : a = (after h).next
        · rw [h1, update_same, update_same, lookup_copyDict]
          simp
        · have ha2 : a < (after h).next := by omega
          rw [update_ne _ _ h1, hnm a ha2, hi.value a ha2]
          have := hi.le a ha2
          have h3 : ¬ (name a = h.length + 1) := by omega
          simp [h3]
      · intro c'
        cases ss with
        | none => exact hi.secrets c'
        | some ks =>
          show (update (after h).secretKeys c (some ks) c').getD [] = _
          unfold secretsSeen
          by_cases hc : c' = c
          · rw [hc, update_same]; simp
          · rw [update_ne _ _ hc]; simp [hc, hi.secrets c']
    | fork c1 c2 =>
      have haddr : ∀ c', (after (.fork c1 c2 :: h)).addr c' = if c' = c2 then (after h).addr c1 else (after h).addr c' := by
        intro c'
        show (update (after h).config c2 ((after h).config c1) c').getD 0 = _
        by_cases hc : c' = c2
        · subst hc; rw [update_same]; simp [State.addr]
        · rw [update_ne _ _ hc]; simp [hc, State.addr]
      refine ⟨name, hi.zero, hi.pos, ?_, hi.inj, fun a ha => Nat.le_succ_of_le (hi.le a ha), ?_, ?_, ?_⟩
      · intro c'
        rw [haddr]
        split
        · exact hi.bound c1
        · exact hi.bound c'
      · intro c'
        rw [haddr]
        unfold uses
        by_cases hc : c' = c2
        · simp [hc, hi.uses]
        · simp [hc, hi.uses]
      · intro a ha k
        exact hi.value a ha k
      · intro c'
        show (update (after h).secretKeys c2 ((after h).secretKeys c1) c').getD [] = _
        unfold secretsSeen
        by_cases hc : c' = c2
        · rw [hc, update_same]; simp [hi.secrets]
        · rw [update_ne _ _ hc]; simp [hc, hi.secrets]

/-- What is explicitly set is what was last written in the configuration the context uses. -/
theorem explicit_eq (h : History) (c : Nat) (k : String) :
    ((after h).dicts ((after h).addr c)).lookup k = written h (uses h c) k := by
  obtain ⟨name, hi⟩ := inv_after h
  rw [hi.value _ (hi.bound c), hi.uses]

theorem secrets_eq (h : History) (c : Nat) : ((after h).secretKeys c).getD [] = secretsSeen h c := by
  obtain ⟨name, hi⟩ := inv_after h
  exact hi.secrets c

/-! ## Environment variables -/

theorem char_le (a b : Char) : a ≤ b ↔ a.toNat ≤ b.toNat := by
  rw [Char.le_def]; exact UInt32.le_iff_toNat_le

theorem char_eq (a b : Char) : a = b ↔ a.toNat = b.toNat := by
  constructor
  · rintro rfl; rfl
  · intro h; exact Char.toNat_inj.1 h

theorem toNat_ofNat {n : Nat} (h : n < 0xd800) : (Char.ofNat n).toNat = n := by
  have hv : n.isValidChar := .inl h
  simp [Char.ofNat, hv, Char.toNat, Char.ofNatAux]

theorem scrub_toNat (c : Char) : (scrub c).toNat =
    if c.toNat = 95 ∨ (65 ≤ c.toNat ∧ c.toNat ≤ 90) ∨ (48 ≤ c.toNat ∧ c.toNat ≤ 57) then c.toNat
    else if 97 ≤ c.toNat ∧ c.toNat ≤ 122 then c.toNat - 32 else 95 := by
  unfold scrub
  simp only [char_le, char_eq c '_']
  have e1 : '_'.toNat = 95 := rfl
  have e2 : 'A'.toNat = 65 := rfl
  have e3 : 'Z'.toNat = 90 := rfl
  have e4 : '0'.toNat = 48 := rfl
  have e5 : '9'.toNat = 57 := rfl
  have e6 : 'a'.toNat = 97 := rfl
  have e7 : 'z'.toNat = 122 := rfl
  rw [e1, e2, e3, e4, e5, e6, e7]
  split
  · rfl
  · split
    · exact toNat_ofNat (by omega)
    · rfl

theorem scrub_eq_iff (a b : Char) : scrub a = scrub b ↔ Confused a b := by
  rw [char_eq, scrub_toNat, scrub_toNat]
  unfold Confused AsciiAlnum
  simp only [char_le, char_eq a b]
  have e2 : 'A'.toNat = 65 := rfl
  have e3 : 'Z'.toNat = 90 := rfl
  have e4 : '0'.toNat = 48 := rfl
  have e5 : '9'.toNat = 57 := rfl
  have e6 : 'a'.toNat = 97 := rfl
  have e7 : 'z'.toNat = 122 := rfl
  rw [e2, e3, e4, e5, e6, e7]
  generalize a.toNat = x
  generalize b.toNat = y
  split <;> split
  all_goals try split
  all_goals try split
  all_goals omega

/-! ## JSON values and `Output.secret` -/

theorem json_no_unknown {v : Val} (h : Json v) : ¬ UnknownInside v := by
  induction h with
  | none => intro h; cases h
  | bool => intro h; cases h
  | int => intro h; cases h
  | str => intro h; cases h
  | list _ ih => intro h; cases h with | list hx hu => exact ih _ hx hu
  | dict _ ih => intro h; cases h with | dict hx hu => exact ih _ hx hu

theorem json_known {v : Val} (h : Json v) : containsUnknowns v = false := by
  cases hc : containsUnknowns v with
  | false => rfl
  | true => exact absurd ((containsUnknowns_iff v).1 hc) (json_no_unknown h)

theorem aggregate_plain {σ : Store} (xs : List Val) (wrap : List Val → Val) (hx : ∀ x ∈ xs, Json x) (hw : Json (wrap xs)) :
    View.aggregate (xs.map View.ofPlain) wrap = View.ofPlain (wrap xs) := by
  have h1 : (xs.map View.ofPlain).map (·.value) = xs := by
    rw [List.map_map]
    exact (List.map_congr_left fun x _ => rfl).trans (List.map_id _)
  apply View.ext
  · show wrap _ = wrap xs
    rw [h1]
  · show (_ && _) = _
    rw [h1]
    have : (xs.map View.ofPlain).all (·.known) = true := by
      rw [List.all_map, List.all_eq_true]
      intro x hm
      show (!containsUnknowns x) = true
      rw [json_known (hx x hm)]
      rfl
    rw [this, Bool.true_and]
    rfl
  · show (xs.map View.ofPlain).any (·.secret) = false
    rw [List.any_map, List.any_eq_false]
    intro x _ h
    cases h
  · intro r
    show (∃ w ∈ xs.map View.ofPlain, w.deps r) ↔ noDeps r
    constructor
    · rintro ⟨w, hw, hr⟩
      obtain ⟨x, _, rfl⟩ := List.mem_map.1 hw
      exact hr
    · intro h; cases h

theorem zip_map_snd (kvs : List (String × Val)) : (kvs.map (·.1)).zip (kvs.map (·.2)) = kvs := by
  induction kvs with
  | nil => rfl
  | cons kv kvs ih => simp [ih]

theorem mem_zip_map_self {α β : Type} {xs : List α} {f : α → β} {a : α} {b : β} (h : (a, b) ∈ xs.zip (xs.map f)) :
    a ∈ xs ∧ b = f a := by
  induction xs with
  | nil => simp at h
  | cons x xs ih =>
    simp only [List.map_cons, List.zip_cons_cons, List.mem_cons, Prod.mk.injEq] at h
    rcases h with ⟨rfl, rfl⟩ | h
    · exact ⟨.head _, rfl⟩
    · exact ⟨.tail _ (ih h).1, (ih h).2⟩

/-- A JSON value unwraps to itself. -/
theorem json_unwraps (dry : Bool) (σ : Store) : ∀ (n : Nat) (v : Val), Json v → sizeOf v < n →
    Unwraps dry σ n v (.ofPlain v) := by
  intro n
  induction n with
  | zero => intro v _ h; omega
  | succ n ih =>
    intro v hj hlt
    cases hj with
    | none => exact .prompt trivial
    | bool => exact .prompt trivial
    | int => exact .prompt trivial
    | str => exact .prompt trivial
    | @list xs hx =>
      cases xs with
      | nil => exact .prompt trivial
      | cons x xs =>
        have hj : Json (.list (x :: xs)) := .list hx
        rw [← aggregate_plain (σ := σ) (x :: xs) .list hx hj]
        refine .list (by simp) ?_
        intro v w hm
        obtain ⟨hv, rfl⟩ := mem_zip_map_self hm
        refine ih v (hx v hv) ?_
        have := List.sizeOf_lt_of_mem hv
        simp only [Val.list.sizeOf_spec] at hlt
        omega
    | @dict kvs hx =>
      cases kvs with
      | nil => exact .prompt trivial
      | cons kv kvs =>
        have hj : Json (.dict (kv :: kvs)) := .dict hx
        have he : mkDict ((kv :: kvs).map (·.1)) ((kv :: kvs).map (·.2)) = .dict (kv :: kvs) := by
          unfold mkDict; rw [zip_map_snd]
        have := aggregate_plain (σ := σ) ((kv :: kvs).map (·.2)) (mkDict ((kv :: kvs).map (·.1)))
          (by intro x hm; obtain ⟨p, hp, rfl⟩ := List.mem_map.1 hm; exact hx p hp) (by rw [he]; exact hj)
        rw [he] at this
        rw [← this, List.map_map]
        refine .dict (by simp) ?_
        intro k v w hm
        obtain ⟨hv, rfl⟩ := mem_zip_map_self hm
        refine ih v (hx (k, v) hv) ?_
        have := List.sizeOf_lt_of_mem hv
        simp only [Val.dict.sizeOf_spec] at hlt
        simp only [Prod.mk.sizeOf_spec] at this
        omega

end Pulumi.Conf
