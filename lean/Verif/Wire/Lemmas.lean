import Verif.Wire.Spec
/-! # Lemmas about serialisation -/
namespace Pulumi.Wire

theorem bind_ok {α β : Type} {x : Except Err α} {f : α → Except Err β} {b : β} :
    (x >>= f) = .ok b ↔ ∃ a, x = .ok a ∧ f a = .ok b := by
  cases x with
  | error e => simp [bind, Except.bind]
  | ok a => simp [bind, Except.bind]

theorem map_ok {α β : Type} {x : Except Err α} {f : α → β} {b : β} :
    x.map f = .ok b ↔ ∃ a, x = .ok a ∧ f a = b := by
  cases x with
  | error e => simp [Except.map]
  | ok a => simp [Except.map]

theorem ebind_ok {α β : Type} {x : Except Err α} {f : α → Except Err β} {b : β} :
    x.bind f = .ok b ↔ ∃ a, x = .ok a ∧ f a = .ok b := by
  cases x with
  | error e => simp [Except.bind]
  | ok a => simp [Except.bind]

/-- Induction over Python values. -/
theorem PV.ind {P : PV → Prop} (none : P .none) (bool : ∀ b, P (.bool b)) (num : ∀ n, P (.num n))
    (str : ∀ s, P (.str s)) (list : ∀ xs, (∀ x ∈ xs, P x) → P (.list xs))
    (dict : ∀ kvs : List (String × PV), (∀ kv ∈ kvs, P kv.2) → P (.dict kvs)) (unknown : P .unknown)
    (resource : ∀ r, P (.resource r)) (asset : ∀ k s, P (.asset k s)) (archive : ∀ k s, P (.archive k s))
    (assetArchive : ∀ kvs : List (String × PV), (∀ kv ∈ kvs, P kv.2) → P (.assetArchive kvs))
    (oddAsset : P .oddAsset) (awaitable : ∀ v, P v → P (.awaitable v)) (failing : ∀ e, P (.failing e))
    (output : ∀ r k s v, P v → P (.output r k s v))
    (inputObj : ∀ c (fs : List (String × PV)), (∀ kv ∈ fs, P kv.2) → P (.inputObj c fs))
    (illegal : P .illegal) : ∀ v, P v := by
  intro v
  refine PV.rec (motive_1 := P) (motive_2 := fun xs => ∀ x ∈ xs, P x)
    (motive_3 := fun kvs => ∀ kv ∈ kvs, P kv.2) (motive_4 := fun kv => P kv.2)
    none bool num str (fun xs h => list xs h) (fun kvs h => dict kvs h) unknown resource asset archive
    (fun kvs h => assetArchive kvs h) oddAsset (fun v h => awaitable v h) failing
    (fun r k s v h => output r k s v h) (fun c fs h => inputObj c fs h) illegal ?_ ?_ ?_ ?_ ?_ v
  · intro x hx; simp at hx
  · intro x xs hx hxs y hy
    rcases List.mem_cons.1 hy with rfl | hy
    · exact hx
    · exact hxs y hy
  · intro x hx; simp at hx
  · intro x xs hx hxs y hy
    rcases List.mem_cons.1 hy with rfl | hy
    · exact hx
    · exact hxs y hy
  · intro k v h; exact h

/-- Induction over wire values. -/
theorem W.ind {P : W → Prop} (null : P .null) (bool : ∀ b, P (.bool b)) (num : ∀ n, P (.num n))
    (str : ∀ s, P (.str s)) (list : ∀ xs, (∀ x ∈ xs, P x) → P (.list xs))
    (struct : ∀ kvs : List (String × W), (∀ kv ∈ kvs, P kv.2) → P (.struct kvs)) : ∀ v, P v := by
  intro v
  refine W.rec (motive_1 := P) (motive_2 := fun xs => ∀ x ∈ xs, P x)
    (motive_3 := fun kvs => ∀ kv ∈ kvs, P kv.2) (motive_4 := fun kv => P kv.2)
    null bool num str (fun xs h => list xs h) (fun kvs h => struct kvs h) ?_ ?_ ?_ ?_ ?_ v
  · intro x hx; simp at hx
  · intro x xs hx hxs y hy
    rcases List.mem_cons.1 hy with rfl | hy
    · exact hx
    · exact hxs y hy
  · intro x hx; simp at hx
  · intro x xs hx hxs y hy
    rcases List.mem_cons.1 hy with rfl | hy
    · exact hx
    · exact hxs y hy
  · intro k v h; exact h

/-! ## Unknowns and internal keys -/

theorem hasUnknown_iff (v : PV) : hasUnknown v = true ↔ ContainsUnknown v := by
  have hl : ∀ xs : List PV, (∀ x ∈ xs, hasUnknown x = true ↔ ContainsUnknown x) →
      (hasUnknownList xs = true ↔ ∃ x ∈ xs, ContainsUnknown x) := by
    intro xs
    induction xs with
    | nil => intro _; simp [hasUnknownList]
    | cons x xs ih =>
      intro h
      rw [hasUnknownList, Bool.or_eq_true, h x (List.mem_cons_self ..), ih (fun y hy => h y (List.mem_cons_of_mem _ hy))]
      simp
  have hk : ∀ xs : List (String × PV), (∀ x ∈ xs, hasUnknown x.2 = true ↔ ContainsUnknown x.2) →
      (hasUnknownKvs xs = true ↔ ∃ x ∈ xs, ContainsUnknown x.2) := by
    intro xs
    induction xs with
    | nil => intro _; simp [hasUnknownKvs]
    | cons x xs ih =>
      intro h
      obtain ⟨k, x⟩ := x
      have h0 := h (k, x) (List.mem_cons_self ..)
      simp only at h0
      rw [hasUnknownKvs, Bool.or_eq_true, h0, ih (fun y hy => h y (List.mem_cons_of_mem _ hy))]
      simp
  induction v using PV.ind with
  | unknown => exact ⟨fun _ => .here, fun _ => rfl⟩
  | list xs ih =>
    rw [hasUnknown, hl xs ih]
    constructor
    · rintro ⟨x, hx, h⟩; exact .list hx h
    · intro h; cases h with | list hx h => exact ⟨_, hx, h⟩
  | dict kvs ih =>
    rw [hasUnknown, hk kvs ih]
    constructor
    · rintro ⟨⟨k, x⟩, hx, h⟩; exact .dict hx h
    · intro h; cases h with | dict hx h => exact ⟨_, hx, h⟩
  | _ => exact ⟨fun h => (by cases h), fun h => (by cases h)⟩

theorem hasUnknown_false_iff (v : PV) : hasUnknown v = false ↔ ¬ ContainsUnknown v := by
  rw [← hasUnknown_iff, Bool.not_eq_true]

theorem isInternal_iff (k : String) : isInternal k = true ↔ ['_', '_'] <+: k.toList := by
  unfold isInternal
  constructor
  · intro h
    split at h
    · rename_i rest hk; rw [hk]; exact ⟨rest, rfl⟩
    · cases h
  · rintro ⟨rest, h⟩
    rw [← h]
    rfl

theorem visible_iff (k : String) : Visible k ↔ (isInternal k = true → k = "__provider") := by
  unfold Visible
  rw [isInternal_iff]

/-! ## Inversion of `ser` -/

section inversion
variable {env : Env} {keep : Bool} {ty : Ty} {w : PV} {d : List ResId}

theorem ser_list_ok {xs : List PV} (h : ser env keep ty (.list xs) = .ok (w, d)) :
    ∃ t vs, elemTy ty = .ok t ∧ serList env keep t xs = .ok (vs, d) ∧ w = .list vs := by
  simp only [ser, bind_ok] at h
  obtain ⟨t, ht, ⟨vs, d'⟩, hv, h⟩ := h
  simp only [pure, Except.pure, Except.ok.injEq, Prod.mk.injEq] at h
  obtain ⟨rfl, rfl⟩ := h
  exact ⟨t, vs, ht, hv, rfl⟩

theorem ser_dict_ok {kvs : List (String × PV)} (h : ser env keep ty (.dict kvs) = .ok (w, d)) :
    ∃ es, serKvs env keep ty [] kvs = .ok (es, d) ∧ w = .dict es := by
  simp only [ser, bind_ok] at h
  obtain ⟨⟨vs, d'⟩, hv, h⟩ := h
  simp only [pure, Except.pure, Except.ok.injEq, Prod.mk.injEq] at h
  obtain ⟨rfl, rfl⟩ := h
  exact ⟨vs, hv, rfl⟩

theorem ser_archive_ok {kvs : List (String × PV)} (h : ser env keep ty (.assetArchive kvs) = .ok (w, d)) :
    ∃ es, serKvs env false .any [] kvs = .ok (es, d) ∧
      w = .dict [(sigKey, .str archiveSig), ("assets", .dict es)] := by
  simp only [ser, bind_ok] at h
  obtain ⟨⟨vs, d'⟩, hv, h⟩ := h
  simp only [pure, Except.pure, Except.ok.injEq, Prod.mk.injEq] at h
  obtain ⟨rfl, rfl⟩ := h
  exact ⟨vs, hv, rfl⟩

theorem ser_input_ok {c : String} {kvs : List (String × PV)}
    (h : ser env keep ty (.inputObj c kvs) = .ok (w, d)) :
    ∃ es, serFields env keep c [] kvs = .ok (es, d) ∧ w = .dict es := by
  simp only [ser, bind_ok] at h
  obtain ⟨⟨vs, d'⟩, hv, h⟩ := h
  simp only [pure, Except.pure, Except.ok.injEq, Prod.mk.injEq] at h
  obtain ⟨rfl, rfl⟩ := h
  exact ⟨vs, hv, rfl⟩

/-- The serialised form of an Output given that of its value. -/
def outForm (env : Env) (keep : Bool) (rs : List ResId) (k s : Bool) (v : PV) (pd : List ResId) : PV :=
  if keep && env.outputValues then outputValueDict k s v (expandUrns env (valueResources env rs pd))
  else finishOutput env k s v

theorem ser_output_ok {rs : List ResId} {k s : Bool} {v : PV}
    (h : ser env keep ty (.output rs k s v) = .ok (w, d)) :
    ∃ v' pd, (hasUnknown v = true ∧ v' = .none ∧ pd = [] ∨
        hasUnknown v = false ∧ ser env false ty v = .ok (v', pd)) ∧
      d = rs ++ pd ∧ w = outForm env keep rs k s v' pd := by
  cases hu : hasUnknown v with
  | true =>
    simp only [ser, hu, if_true, bind_ok] at h
    obtain ⟨⟨v', pd⟩, hv, h⟩ := h
    simp only [Except.ok.injEq, Prod.mk.injEq] at hv
    obtain ⟨rfl, rfl⟩ := hv
    refine ⟨.none, [], Or.inl ⟨rfl, rfl, rfl⟩, ?_⟩
    simp only [outForm]
    split at h <;> simp only [pure, Except.pure, Except.ok.injEq, Prod.mk.injEq] at h <;> rename_i hk
    · rw [if_pos hk]; exact ⟨h.2.symm, h.1.symm⟩
    · rw [if_neg hk]; exact ⟨h.2.symm, h.1.symm⟩
  | false =>
    simp only [ser, hu, Bool.false_eq_true, if_false, bind_ok] at h
    obtain ⟨⟨v', pd⟩, hv, h⟩ := h
    refine ⟨v', pd, Or.inr ⟨rfl, hv⟩, ?_⟩
    simp only [outForm]
    split at h <;> simp only [pure, Except.pure, Except.ok.injEq, Prod.mk.injEq] at h <;> rename_i hk
    · rw [if_pos hk]; exact ⟨h.2.symm, h.1.symm⟩
    · rw [if_neg hk]; exact ⟨h.2.symm, h.1.symm⟩

theorem serList_cons_ok {x : PV} {xs vs : List PV}
    (h : serList env keep ty (x :: xs) = .ok (vs, d)) :
    ∃ v d1 vs' d2, ser env keep ty x = .ok (v, d1) ∧ serList env keep ty xs = .ok (vs', d2) ∧
      vs = v :: vs' ∧ d = d1 ++ d2 := by
  simp only [serList, bind_ok] at h
  obtain ⟨⟨v, d1⟩, h1, ⟨vs', d2⟩, h2, h⟩ := h
  simp only [pure, Except.pure, Except.ok.injEq, Prod.mk.injEq] at h
  exact ⟨v, d1, vs', d2, h1, h2, h.1.symm, h.2.symm⟩

theorem serKvs_cons_ok {acc : List (String × PV)} {k : String} {x : PV} {kvs es : List (String × PV)}
    (h : serKvs env keep ty acc ((k, x) :: kvs) = .ok (es, d)) :
    ∃ v d1 d2, ser env keep (env.mapTy ty (env.mapKey ty k)) x = .ok (v, d1) ∧
      serKvs env keep ty (setKey acc (env.mapKey ty k) v) kvs = .ok (es, d2) ∧ d = d1 ++ d2 := by
  simp only [serKvs, bind_ok] at h
  obtain ⟨⟨v, d1⟩, h1, ⟨vs', d2⟩, h2, h⟩ := h
  simp only [pure, Except.pure, Except.ok.injEq, Prod.mk.injEq] at h
  obtain ⟨rfl, rfl⟩ := h
  exact ⟨v, d1, d2, h1, h2, rfl⟩

theorem serFields_cons_ok {c : String} {acc : List (String × PV)} {k : String} {x : PV}
    {kvs es : List (String × PV)} (hx : isNone x = false)
    (h : serFields env keep c acc ((k, x) :: kvs) = .ok (es, d)) :
    ∃ v d1 d2, ser env keep (env.propTy c k) x = .ok (v, d1) ∧
      serFields env keep c (setKey acc k v) kvs = .ok (es, d2) ∧ d = d1 ++ d2 := by
  rw [serFields, if_neg (by simp [hx])] at h
  simp only [bind_ok] at h
  obtain ⟨⟨v, d1⟩, h1, ⟨vs', d2⟩, h2, h⟩ := h
  simp only [pure, Except.pure, Except.ok.injEq, Prod.mk.injEq] at h
  obtain ⟨rfl, rfl⟩ := h
  exact ⟨v, d1, d2, h1, h2, rfl⟩

theorem serFields_none {c : String} {acc : List (String × PV)} {k : String} {kvs : List (String × PV)} :
    serFields env keep c acc ((k, .none) :: kvs) = serFields env keep c acc kvs := by
  rw [serFields, isNone, if_pos rfl]

theorem isNone_eq {v : PV} (h : isNone v = true) : v = .none := by
  cases v <;> simp [isNone] at h ⊢

end inversion

/-! ## Dependencies -/

def DepsExact (env : Env) (v : PV) : Prop :=
  ∀ keep ty w d, ser env keep ty v = .ok (w, d) → ∀ r, r ∈ d ↔ Mentions env v r

theorem deps_list {env : Env} {xs : List PV} (ih : ∀ x ∈ xs, DepsExact env x) {keep ty vs d}
    (h : serList env keep ty xs = .ok (vs, d)) (r : ResId) : r ∈ d ↔ ∃ x ∈ xs, Mentions env x r := by
  induction xs generalizing vs d with
  | nil =>
    simp only [serList, Except.ok.injEq, Prod.mk.injEq] at h
    simp [← h.2]
  | cons x xs ihx =>
    obtain ⟨v, d1, vs', d2, h1, h2, rfl, rfl⟩ := serList_cons_ok h
    have := ih x (List.mem_cons_self ..) _ _ _ _ h1 r
    have h3 := ihx (fun y hy => ih y (List.mem_cons_of_mem _ hy)) h2
    simp [this, h3]

theorem deps_kvs {env : Env} {kvs : List (String × PV)} (ih : ∀ kv ∈ kvs, DepsExact env kv.2) {keep ty acc es d}
    (h : serKvs env keep ty acc kvs = .ok (es, d)) (r : ResId) :
    r ∈ d ↔ ∃ k x, (k, x) ∈ kvs ∧ Mentions env x r := by
  induction kvs generalizing acc es d with
  | nil =>
    simp only [serKvs, Except.ok.injEq, Prod.mk.injEq] at h
    simp [← h.2]
  | cons kv kvs ihx =>
    obtain ⟨k, x⟩ := kv
    obtain ⟨v, d1, d2, h1, h2, rfl⟩ := serKvs_cons_ok h
    have a := ih (k, x) (List.mem_cons_self ..) _ _ _ _ h1 r
    have b := ihx (fun y hy => ih y (List.mem_cons_of_mem _ hy)) h2
    rw [List.mem_append, a, b]
    constructor
    · rintro (hh | ⟨k', x', hm, hh⟩)
      · exact ⟨k, x, List.mem_cons_self .., hh⟩
      · exact ⟨k', x', List.mem_cons_of_mem _ hm, hh⟩
    · rintro ⟨k', x', hm, hh⟩
      rcases List.mem_cons.1 hm with heq | hm
      · simp only [Prod.mk.injEq] at heq
        obtain ⟨rfl, rfl⟩ := heq
        exact Or.inl hh
      · exact Or.inr ⟨k', x', hm, hh⟩

theorem not_mentions_none {env : Env} {r : ResId} : ¬ Mentions env .none r := by
  intro h; cases h

theorem deps_fields {env : Env} {kvs : List (String × PV)} (ih : ∀ kv ∈ kvs, DepsExact env kv.2) {keep c acc es d}
    (h : serFields env keep c acc kvs = .ok (es, d)) (r : ResId) :
    r ∈ d ↔ ∃ k x, (k, x) ∈ kvs ∧ Mentions env x r := by
  induction kvs generalizing acc es d with
  | nil =>
    simp only [serFields, Except.ok.injEq, Prod.mk.injEq] at h
    simp [← h.2]
  | cons kv kvs ihx =>
    obtain ⟨k, x⟩ := kv
    have b := fun {acc es d} => ihx (acc := acc) (es := es) (d := d) (fun y hy => ih y (List.mem_cons_of_mem _ hy))
    cases hx : isNone x with
    | true =>
      obtain rfl := isNone_eq hx
      rw [serFields_none] at h
      rw [b h]
      constructor
      · rintro ⟨k', x', hm, hh⟩
        exact ⟨k', x', List.mem_cons_of_mem _ hm, hh⟩
      · rintro ⟨k', x', hm, hh⟩
        rcases List.mem_cons.1 hm with heq | hm
        · simp only [Prod.mk.injEq] at heq
          obtain ⟨rfl, rfl⟩ := heq
          exact absurd hh not_mentions_none
        · exact ⟨k', x', hm, hh⟩
    | false =>
      obtain ⟨v, d1, d2, h1, h2, rfl⟩ := serFields_cons_ok hx h
      have a := ih (k, x) (List.mem_cons_self ..) _ _ _ _ h1 r
      rw [List.mem_append, a, b h2]
      constructor
      · rintro (hh | ⟨k', x', hm, hh⟩)
        · exact ⟨k, x, List.mem_cons_self .., hh⟩
        · exact ⟨k', x', List.mem_cons_of_mem _ hm, hh⟩
      · rintro ⟨k', x', hm, hh⟩
        rcases List.mem_cons.1 hm with heq | hm
        · simp only [Prod.mk.injEq] at heq
          obtain ⟨rfl, rfl⟩ := heq
          exact Or.inl hh
        · exact Or.inr ⟨k', x', hm, hh⟩

theorem deps_exact (env : Env) (v : PV) : DepsExact env v := by
  induction v using PV.ind with
  | none => intro keep ty w d h r; simp only [ser, Except.ok.injEq, Prod.mk.injEq] at h; rw [← h.2]; exact ⟨fun h' => by simp at h', fun h' => by cases h'⟩
  | bool b => intro keep ty w d h r; simp only [ser, Except.ok.injEq, Prod.mk.injEq] at h; rw [← h.2]; exact ⟨fun h' => by simp at h', fun h' => by cases h'⟩
  | num b => intro keep ty w d h r; simp only [ser, Except.ok.injEq, Prod.mk.injEq] at h; rw [← h.2]; exact ⟨fun h' => by simp at h', fun h' => by cases h'⟩
  | str b => intro keep ty w d h r; simp only [ser, Except.ok.injEq, Prod.mk.injEq] at h; rw [← h.2]; exact ⟨fun h' => by simp at h', fun h' => by cases h'⟩
  | unknown => intro keep ty w d h r; simp only [ser, Except.ok.injEq, Prod.mk.injEq] at h; rw [← h.2]; exact ⟨fun h' => by simp at h', fun h' => by cases h'⟩
  | asset k s => intro keep ty w d h r; simp only [ser, Except.ok.injEq, Prod.mk.injEq] at h; rw [← h.2]; exact ⟨fun h' => by simp at h', fun h' => by cases h'⟩
  | archive k s => intro keep ty w d h r; simp only [ser, Except.ok.injEq, Prod.mk.injEq] at h; rw [← h.2]; exact ⟨fun h' => by simp at h', fun h' => by cases h'⟩
  | oddAsset => intro keep ty w d h r; simp [ser] at h
  | failing e => intro keep ty w d h r; simp [ser] at h
  | illegal => intro keep ty w d h r; simp [ser] at h
  | list xs ih =>
    intro keep ty w d h r
    obtain ⟨t, vs, _, hv, rfl⟩ := ser_list_ok h
    rw [deps_list ih hv]
    constructor
    · rintro ⟨x, hx, h⟩; exact .list hx h
    · intro h; cases h with | list hx h => exact ⟨_, hx, h⟩
  | dict kvs ih =>
    intro keep ty w d h r
    obtain ⟨es, hv, rfl⟩ := ser_dict_ok h
    rw [deps_kvs ih hv]
    constructor
    · rintro ⟨k, x, hx, h⟩; exact .dict hx h
    · intro h; cases h with | dict hx h => exact ⟨_, _, hx, h⟩
  | assetArchive kvs ih =>
    intro keep ty w d h r
    obtain ⟨es, hv, rfl⟩ := ser_archive_ok h
    rw [deps_kvs ih hv]
    constructor
    · rintro ⟨k, x, hx, h⟩; exact .assetArchive hx h
    · intro h; cases h with | assetArchive hx h => exact ⟨_, _, hx, h⟩
  | inputObj c kvs ih =>
    intro keep ty w d h r
    obtain ⟨es, hv, rfl⟩ := ser_input_ok h
    rw [deps_fields ih hv]
    constructor
    · rintro ⟨k, x, hx, h⟩; exact .field hx h
    · intro h; cases h with | field hx h => exact ⟨_, _, hx, h⟩
  | awaitable v ih =>
    intro keep ty w d h r
    rw [ser] at h
    rw [ih _ _ _ _ h]
    constructor
    · exact .awaitable
    · intro h; cases h with | awaitable h => exact h
  | output rs k s v ih =>
    intro keep ty w d h r
    obtain ⟨v', pd, hv, rfl, rfl⟩ := ser_output_ok h
    rw [List.mem_append]
    rcases hv with ⟨hu, rfl, rfl⟩ | ⟨hu, hv⟩
    · constructor
      · rintro (h | h)
        · exact .own h
        · simp at h
      · intro h
        cases h with
        | own h => exact Or.inl h
        | value hu' h => exact absurd ((hasUnknown_iff v).1 hu) hu'
    · rw [ih _ _ _ _ hv]
      constructor
      · rintro (h | h)
        · exact .own h
        · exact .value ((hasUnknown_false_iff v).1 hu) h
      · intro h
        cases h with
        | own h => exact Or.inl h
        | value hu' h => exact Or.inr h
  | resource r0 =>
    intro keep ty w d h r
    cases r0 with
    | dep u => simp [ser] at h
    | decl n =>
      simp only [ser, serResource, Env.info] at h
      cases hr : env.resourceRefs with
      | true =>
        cases hc : (env.res n).custom with
        | true =>
          simp only [hr, hc, if_true, serStrOut, Except.ok.injEq, Prod.mk.injEq] at h
          rw [← h.2, List.mem_append]
          constructor
          · rintro (h | h)
            · exact .urn h (Or.inl hr)
            · exact .id h hc
          · intro h
            cases h with
            | urn h _ => exact Or.inl h
            | id h _ => exact Or.inr h
        | false =>
          simp [hr, hc, serStrOut] at h
          rw [← h.2]
          constructor
          · intro h; exact .urn h (Or.inl hr)
          · intro h
            cases h with
            | urn h _ => exact h
            | id _ h => rw [hc] at h; cases h
      | false =>
        cases hc : (env.res n).custom with
        | true =>
          simp [hr, hc, serStrOut] at h
          rw [← h.2]
          constructor
          · intro h; exact .id h hc
          · intro h
            cases h with
            | urn h h' => rcases h' with h' | h' <;> simp_all
            | id h _ => exact h
        | false =>
          simp [hr, hc, serStrOut] at h
          rw [← h.2]
          constructor
          · intro h; exact .urn h (Or.inr hc)
          · intro h
            cases h with
            | urn h _ => exact h
            | id _ h => rw [hc] at h; cases h

/-! ## Legality -/

theorem setKey_mem {α : Type} {kvs : List (String × α)} {k : String} {v : α} {p : String × α}
    (h : p ∈ setKey kvs k v) : p = (k, v) ∨ p ∈ kvs := by
  induction kvs with
  | nil => simp [setKey] at h; exact Or.inl h
  | cons q kvs ih =>
    obtain ⟨k', v'⟩ := q
    simp only [setKey] at h
    split at h
    · rcases List.mem_cons.1 h with h | h
      · exact Or.inl h
      · exact Or.inr (List.mem_cons_of_mem _ h)
    · rcases List.mem_cons.1 h with h | h
      · exact Or.inr (by rw [h]; exact List.mem_cons_self ..)
      · rcases ih h with h | h
        · exact Or.inl h
        · exact Or.inr (List.mem_cons_of_mem _ h)

theorem legal_finish {env : Env} {k s : Bool} {v : PV} (h : Legal v) : Legal (finishOutput env k s v) := by
  simp only [finishOutput]
  split
  · exact .str _
  · split
    · refine .dict ?_
      intro kv hkv
      simp at hkv
      rcases hkv with rfl | rfl
      · exact .str _
      · exact h
    · exact h

theorem legal_outputValue {k s : Bool} {v : PV} {ds : List String} (h : Legal v) :
    Legal (outputValueDict k s v ds) := by
  refine .dict ?_
  intro kv hkv
  simp only [List.mem_append, List.mem_singleton] at hkv
  rcases hkv with ((rfl | hkv) | hkv) | hkv
  · exact .str _
  · split at hkv
    · simp at hkv; subst hkv; exact h
    · simp at hkv
  · split at hkv
    · simp at hkv; subst hkv; exact .bool _
    · simp at hkv
  · split at hkv
    · simp at hkv
    · simp only [List.mem_singleton] at hkv
      subst hkv
      refine .list ?_
      intro x hx
      simp only [List.mem_map] at hx
      obtain ⟨s, _, rfl⟩ := hx
      exact .str _

theorem legal_strOut (env : Env) (o : StrOut) : Legal (serStrOut env o).1 := by
  simp only [serStrOut]
  apply legal_finish
  split
  · exact .str _
  · exact .none

theorem legal_resource (env : Env) (r : ResId) : Legal (serResource env r).1 := by
  simp only [serResource]
  split
  · split
    · refine .dict ?_
      intro kv hkv
      simp at hkv
      rcases hkv with rfl | rfl | rfl
      · exact .str _
      · exact legal_strOut ..
      · exact legal_strOut ..
    · refine .dict ?_
      intro kv hkv
      simp at hkv
      rcases hkv with rfl | rfl
      · exact .str _
      · exact legal_strOut ..
  · split <;> exact legal_strOut ..

def SerLegal (env : Env) (v : PV) : Prop := ∀ keep ty w d, ser env keep ty v = .ok (w, d) → Legal w

theorem legal_list {env : Env} {xs : List PV} (ih : ∀ x ∈ xs, SerLegal env x) {keep ty vs d}
    (h : serList env keep ty xs = .ok (vs, d)) : ∀ v ∈ vs, Legal v := by
  induction xs generalizing vs d with
  | nil =>
    simp only [serList, Except.ok.injEq, Prod.mk.injEq] at h
    simp [← h.1]
  | cons x xs ihx =>
    obtain ⟨v, d1, vs', d2, h1, h2, rfl, rfl⟩ := serList_cons_ok h
    intro y hy
    rcases List.mem_cons.1 hy with rfl | hy
    · exact ih x (List.mem_cons_self ..) _ _ _ _ h1
    · exact ihx (fun y hy => ih y (List.mem_cons_of_mem _ hy)) h2 y hy

theorem legal_kvs {env : Env} {kvs : List (String × PV)} (ih : ∀ kv ∈ kvs, SerLegal env kv.2) {keep ty acc es d}
    (ha : ∀ kv ∈ acc, Legal kv.2)
    (h : serKvs env keep ty acc kvs = .ok (es, d)) : ∀ kv ∈ es, Legal kv.2 := by
  induction kvs generalizing acc es d with
  | nil =>
    simp only [serKvs, Except.ok.injEq, Prod.mk.injEq] at h
    rw [← h.1]; exact ha
  | cons kv kvs ihx =>
    obtain ⟨k, x⟩ := kv
    obtain ⟨v, d1, d2, h1, h2, rfl⟩ := serKvs_cons_ok h
    refine ihx (fun y hy => ih y (List.mem_cons_of_mem _ hy)) ?_ h2
    intro kv hkv
    rcases setKey_mem hkv with rfl | hkv
    · exact ih (k, x) (List.mem_cons_self ..) _ _ _ _ h1
    · exact ha kv hkv

theorem legal_fields {env : Env} {kvs : List (String × PV)} (ih : ∀ kv ∈ kvs, SerLegal env kv.2) {keep c acc es d}
    (ha : ∀ kv ∈ acc, Legal kv.2)
    (h : serFields env keep c acc kvs = .ok (es, d)) : ∀ kv ∈ es, Legal kv.2 := by
  induction kvs generalizing acc es d with
  | nil =>
    simp only [serFields, Except.ok.injEq, Prod.mk.injEq] at h
    rw [← h.1]; exact ha
  | cons kv kvs ihx =>
    obtain ⟨k, x⟩ := kv
    cases hx : isNone x with
    | true =>
      obtain rfl := isNone_eq hx
      rw [serFields_none] at h
      exact ihx (fun y hy => ih y (List.mem_cons_of_mem _ hy)) ha h
    | false =>
      obtain ⟨v, d1, d2, h1, h2, rfl⟩ := serFields_cons_ok hx h
      refine ihx (fun y hy => ih y (List.mem_cons_of_mem _ hy)) ?_ h2
      intro kv hkv
      rcases setKey_mem hkv with rfl | hkv
      · exact ih (k, x) (List.mem_cons_self ..) _ _ _ _ h1
      · exact ha kv hkv

theorem ser_legal (env : Env) (v : PV) : SerLegal env v := by
  induction v using PV.ind with
  | none => intro keep ty w d h; simp [ser] at h; rw [← h.1]; exact .none
  | bool b => intro keep ty w d h; simp [ser] at h; rw [← h.1]; exact .bool _
  | num b => intro keep ty w d h; simp [ser] at h; rw [← h.1]; exact .num _
  | str b => intro keep ty w d h; simp [ser] at h; rw [← h.1]; exact .str _
  | unknown => intro keep ty w d h; simp [ser] at h; rw [← h.1]; exact .str _
  | asset k s =>
    intro keep ty w d h
    simp [ser] at h
    rw [← h.1]
    cases k <;>
    · refine .dict ?_
      intro kv hkv
      simp at hkv
      rcases hkv with rfl | rfl <;> exact .str _
  | archive k s =>
    intro keep ty w d h
    simp [ser] at h
    rw [← h.1]
    cases k <;>
    · refine .dict ?_
      intro kv hkv
      simp at hkv
      rcases hkv with rfl | rfl <;> exact .str _
  | oddAsset => intro keep ty w d h; simp [ser] at h
  | failing e => intro keep ty w d h; simp [ser] at h
  | illegal => intro keep ty w d h; simp [ser] at h
  | list xs ih =>
    intro keep ty w d h
    obtain ⟨t, vs, _, hv, rfl⟩ := ser_list_ok h
    exact .list (legal_list ih hv)
  | dict kvs ih =>
    intro keep ty w d h
    obtain ⟨es, hv, rfl⟩ := ser_dict_ok h
    exact .dict (legal_kvs ih (by simp) hv)
  | assetArchive kvs ih =>
    intro keep ty w d h
    obtain ⟨es, hv, rfl⟩ := ser_archive_ok h
    have := legal_kvs ih (by simp) hv
    refine .dict ?_
    intro kv hkv
    simp at hkv
    rcases hkv with rfl | rfl
    · exact .str _
    · exact .dict this
  | inputObj c kvs ih =>
    intro keep ty w d h
    obtain ⟨es, hv, rfl⟩ := ser_input_ok h
    exact .dict (legal_fields ih (by simp) hv)
  | awaitable v ih => intro keep ty w d h; rw [ser] at h; exact ih _ _ _ _ h
  | output rs k s v ih =>
    intro keep ty w d h
    obtain ⟨v', pd, hv, rfl, rfl⟩ := ser_output_ok h
    have hl : Legal v' := by
      rcases hv with ⟨_, rfl, _⟩ | ⟨_, hv⟩
      · exact .none
      · exact ih _ _ _ _ hv
    simp only [outForm]
    split
    · exact legal_outputValue hl
    · exact legal_finish hl
  | resource r0 =>
    intro keep ty w d h
    cases r0 with
    | dep u => simp [ser] at h
    | decl n =>
      simp only [ser, Except.ok.injEq] at h
      have := legal_resource env (.decl n)
      rw [h] at this
      exact this

theorem toWireList_some {xs : List PV} (h : ∀ x ∈ xs, ∃ w, toWire x = some w) :
    ∃ ws, toWireList xs = some ws := by
  induction xs with
  | nil => exact ⟨[], rfl⟩
  | cons x xs ih =>
    obtain ⟨w, hw⟩ := h x (List.mem_cons_self ..)
    obtain ⟨ws, hws⟩ := ih (fun y hy => h y (List.mem_cons_of_mem _ hy))
    exact ⟨w :: ws, by simp [toWireList, hw, hws]⟩

theorem toWireKvs_some {xs : List (String × PV)} (h : ∀ x ∈ xs, ∃ w, toWire x.2 = some w) :
    ∃ ws, toWireKvs xs = some ws := by
  induction xs with
  | nil => exact ⟨[], rfl⟩
  | cons x xs ih =>
    obtain ⟨k, x⟩ := x
    obtain ⟨w, hw⟩ := h (k, x) (List.mem_cons_self ..)
    obtain ⟨ws, hws⟩ := ih (fun y hy => h y (List.mem_cons_of_mem _ hy))
    exact ⟨(k, w) :: ws, by simp [toWireKvs, hw, hws]⟩

theorem toWire_of_legal {v : PV} (h : Legal v) : ∃ w, toWire v = some w := by
  induction h with
  | none => exact ⟨_, rfl⟩
  | bool b => exact ⟨_, rfl⟩
  | num n => exact ⟨_, rfl⟩
  | str s => exact ⟨_, rfl⟩
  | list _ ih =>
    obtain ⟨ws, h⟩ := toWireList_some ih
    exact ⟨.list ws, by simp [toWire, h]⟩
  | dict _ ih =>
    obtain ⟨ws, h⟩ := toWireKvs_some ih
    exact ⟨.struct ws, by simp [toWire, h]⟩

end Pulumi.Wire
