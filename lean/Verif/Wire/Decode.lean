import Verif.Wire.RoundTrip
/-! # Lemmas for C17-C19: what deserialisation gives -/
namespace Pulumi.Wire

/-! ## Inversion of `desStruct` -/

/-- The ways in which a struct can be deserialised. -/
inductive StructCase (env : Env) (keep ki : Bool) (kvs : List (String × W)) (v : PV) : Prop
  | asset : kvs.lookup sigKey = some (.str assetSig) → desAsset kvs = .ok v → StructCase env keep ki kvs v
  | archive : kvs.lookup sigKey = some (.str archiveSig) → desArchive kvs (desKvs env false kvs) = .ok v →
      StructCase env keep ki kvs v
  | secret {w x} : kvs.lookup sigKey = some (.str secretSig) → kvs.lookup "value" = some w → des env false w = .ok x →
      v = wrapSecret x → StructCase env keep ki kvs v
  | reference : kvs.lookup sigKey = some (.str resourceSig) → desResource env keep kvs (desKvs env keep kvs) = .ok v →
      StructCase env keep ki kvs v
  | output : kvs.lookup sigKey = some (.str outputSig) → desOutputValue (desKvs env false kvs) = .ok v →
      StructCase env keep ki kvs v
  | ordinary {es} : kvs.lookup sigKey = none → collect ki (desKvs env keep kvs) = .ok es → v = .dict es →
      StructCase env keep ki kvs v

theorem get_desKvs {env : Env} {keep : Bool} {kvs : List (String × W)} {k : String} {v : PV}
    (h : Decoded.get (desKvs env keep kvs) k = .ok v) : ∃ w, kvs.lookup k = some w ∧ des env keep w = .ok v := by
  simp only [Decoded.get, desKvs_lookup] at h
  cases hk : kvs.lookup k with
  | none => rw [hk] at h; simp at h
  | some w => rw [hk] at h; exact ⟨w, rfl, h⟩

theorem structCase {env : Env} {keep ki : Bool} {kvs : List (String × W)} {v : PV}
    (h : deserializeProperties env keep ki kvs = .ok v) : StructCase env keep ki kvs v := by
  unfold deserializeProperties desStruct at h
  split at h
  · rename_i sig hsig
    split at h
    · rename_i s
      split at h
      · rename_i hs; subst hs; exact .asset hsig h
      · split at h
        · rename_i hs; subst hs; exact .archive hsig h
        · split at h
          · rename_i hs; subst hs
            rw [map_ok] at h
            obtain ⟨x, hx, rfl⟩ := h
            obtain ⟨w, hw, hd⟩ := get_desKvs hx
            exact .secret hsig hw hd rfl
          · split at h
            · rename_i hs; subst hs; exact .reference hsig h
            · split at h
              · rename_i hs; subst hs; exact .output hsig h
              · cases h
    · cases h
  · rename_i hn
    rw [map_ok] at h
    obtain ⟨es, hes, rfl⟩ := h
    exact .ordinary hn hes rfl

theorem des_struct_ok {env : Env} {keep : Bool} {kvs : List (String × W)} {v : PV}
    (h : des env keep (.struct kvs) = .ok v) :
    ∃ v', deserializeProperties env keep false kvs = .ok v' ∧ v = bubbleDict v' := by
  rw [des, map_ok] at h
  obtain ⟨v', h1, h2⟩ := h
  exact ⟨v', h1, h2.symm⟩

theorem des_list_ok {env : Env} {keep : Bool} {xs : List W} {v : PV} (h : des env keep (.list xs) = .ok v) :
    ∃ vs, desList env keep xs = .ok vs ∧ v = bubbleList vs := by
  rw [des, map_ok] at h
  obtain ⟨v', h1, h2⟩ := h
  exact ⟨v', h1, h2.symm⟩

theorem desList_cons_ok {env : Env} {keep : Bool} {x : W} {xs : List W} {vs : List PV}
    (h : desList env keep (x :: xs) = .ok vs) :
    ∃ v vs', des env keep x = .ok v ∧ desList env keep xs = .ok vs' ∧ vs = v :: vs' := by
  rw [desList, bind_ok] at h
  obtain ⟨v, hv, h⟩ := h
  rw [bind_ok] at h
  obtain ⟨vs', hvs, h⟩ := h
  cases h
  exact ⟨v, vs', hv, hvs, rfl⟩

theorem desList_mem {env : Env} {keep : Bool} {xs : List W} {vs : List PV}
    (h : desList env keep xs = .ok vs) {v : PV} (hv : v ∈ vs) : ∃ x ∈ xs, des env keep x = .ok v := by
  induction xs generalizing vs with
  | nil => simp [desList] at h; subst h; simp at hv
  | cons x xs ih =>
    obtain ⟨v0, vs', h1, h2, rfl⟩ := desList_cons_ok h
    rcases List.mem_cons.1 hv with rfl | hv
    · exact ⟨x, List.mem_cons_self .., h1⟩
    · obtain ⟨y, hy, hd⟩ := ih h2 hv
      exact ⟨y, List.mem_cons_of_mem _ hy, hd⟩

theorem desList_mem_of {env : Env} {keep : Bool} {xs : List W} {vs : List PV}
    (h : desList env keep xs = .ok vs) {x : W} (hx : x ∈ xs) : ∃ v ∈ vs, des env keep x = .ok v := by
  induction xs generalizing vs with
  | nil => simp at hx
  | cons y xs ih =>
    obtain ⟨v0, vs', h1, h2, rfl⟩ := desList_cons_ok h
    rcases List.mem_cons.1 hx with rfl | hx
    · exact ⟨v0, List.mem_cons_self .., h1⟩
    · obtain ⟨v, hv, hd⟩ := ih h2 hx
      exact ⟨v, List.mem_cons_of_mem _ hv, hd⟩

theorem desList_get {env : Env} {keep : Bool} {xs : List W} {vs : List PV}
    (h : desList env keep xs = .ok vs) {i : Nat} {x : W} (hx : xs[i]? = some x) :
    ∃ v, vs[i]? = some v ∧ des env keep x = .ok v := by
  induction xs generalizing vs i with
  | nil => simp at hx
  | cons y xs ih =>
    obtain ⟨v0, vs', h1, h2, rfl⟩ := desList_cons_ok h
    cases i with
    | zero => simp at hx; subst hx; exact ⟨v0, rfl, h1⟩
    | succ i => simp at hx; simpa using ih h2 hx

theorem desList_length {env : Env} {keep : Bool} {xs : List W} {vs : List PV}
    (h : desList env keep xs = .ok vs) : vs.length = xs.length := by
  induction xs generalizing vs with
  | nil => simp [desList] at h; subst h; rfl
  | cons y xs ih =>
    obtain ⟨v0, vs', h1, h2, rfl⟩ := desList_cons_ok h
    simp [ih h2]

/-- The test that skips an entry. -/
theorem skip_iff {ki : Bool} {k : String} :
    (!ki && isInternal k && k != "__provider") = true ↔ ki = false ∧ ¬ Visible k := by
  rw [visible_iff]
  cases ki <;> cases isInternal k <;> simp

theorem not_skip_iff {ki : Bool} {k : String} :
    (!ki && isInternal k && k != "__provider") = false ↔ ki = true ∨ Visible k := by
  rw [visible_iff]
  cases ki <;> cases isInternal k <;> simp

theorem collect_cons {env : Env} {keep ki : Bool} {k : String} {w : W} {kvs : List (String × W)}
    {es : List (String × PV)} (h : collect ki (desKvs env keep ((k, w) :: kvs)) = .ok es) :
    (∃ es', collect ki (desKvs env keep kvs) = .ok es' ∧
      ((ki = false ∧ ¬ Visible k) ∧ es = es' ∨
       (ki = true ∨ Visible k) ∧ des env keep w = .ok .none ∧ es = es' ∨
       (ki = true ∨ Visible k) ∧ ∃ v, des env keep w = .ok v ∧ v ≠ .none ∧ es = (k, v) :: es')) := by
  simp only [desKvs, collect] at h
  split at h
  · rename_i hs
    exact ⟨es, h, .inl ⟨skip_iff.1 hs, rfl⟩⟩
  · rename_i hs
    have hs := not_skip_iff.1 (by simpa using hs)
    split at h
    · cases h
    · rename_i v hv
      split at h
      · rename_i hn
        have := isNone_eq hn
        subst this
        exact ⟨es, h, .inr (.inl ⟨hs, hv, rfl⟩)⟩
      · rename_i hn
        rw [map_ok] at h
        obtain ⟨es', he, rfl⟩ := h
        exact ⟨es', he, .inr (.inr ⟨hs, v, hv, fun hh => hn (by rw [hh]; rfl), rfl⟩)⟩

/-- The entries of a deserialised object, exactly. -/
theorem collect_mem {env : Env} {keep ki : Bool} {kvs : List (String × W)}
    {es : List (String × PV)} (h : collect ki (desKvs env keep kvs) = .ok es) (k : String) (v : PV) :
    (k, v) ∈ es ↔ (ki = true ∨ Visible k) ∧ v ≠ .none ∧ ∃ w, (k, w) ∈ kvs ∧ des env keep w = .ok v := by
  induction kvs generalizing es with
  | nil => simp [desKvs, collect] at h; subst h; simp
  | cons p kvs ih =>
    obtain ⟨k0, w0⟩ := p
    obtain ⟨es', he, hc⟩ := collect_cons h
    have ih := ih he
    rcases hc with ⟨hs, rfl⟩ | ⟨hs, hd, rfl⟩ | ⟨hs, v0, hd, hn, rfl⟩
    · rw [ih]
      constructor
      · rintro ⟨a, b, w, hw, hd⟩
        exact ⟨a, b, w, List.mem_cons_of_mem _ hw, hd⟩
      · rintro ⟨a, b, w, hw, hd⟩
        rcases List.mem_cons.1 hw with hh | hw
        · cases hh
          rcases a with a | a
          · rw [hs.1] at a; cases a
          · exact absurd a hs.2
        · exact ⟨a, b, w, hw, hd⟩
    · rw [ih]
      constructor
      · rintro ⟨a, b, w, hw, hd⟩
        exact ⟨a, b, w, List.mem_cons_of_mem _ hw, hd⟩
      · rintro ⟨a, b, w, hw, hd'⟩
        rcases List.mem_cons.1 hw with hh | hw
        · cases hh
          rw [hd] at hd'
          cases hd'
          exact absurd rfl b
        · exact ⟨a, b, w, hw, hd'⟩
    · rw [List.mem_cons, ih]
      constructor
      · rintro (hh | ⟨a, b, w, hw, hd'⟩)
        · cases hh
          exact ⟨hs, hn, w0, List.mem_cons_self .., hd⟩
        · exact ⟨a, b, w, List.mem_cons_of_mem _ hw, hd'⟩
      · rintro ⟨a, b, w, hw, hd'⟩
        rcases List.mem_cons.1 hw with hh | hw
        · cases hh
          rw [hd] at hd'
          cases hd'
          exact .inl rfl
        · exact .inr ⟨a, b, w, hw, hd'⟩

theorem collect_lookup_none {env : Env} {keep ki : Bool} {kvs : List (String × W)} {es : List (String × PV)}
    (h : collect ki (desKvs env keep kvs) = .ok es) {k : String} (hk : k ∉ kvs.map (·.1)) :
    es.lookup k = none := by
  apply lookup_none
  intro hm
  simp only [List.mem_map] at hm
  obtain ⟨⟨k', v⟩, hm, rfl⟩ := hm
  obtain ⟨_, _, w, hw, _⟩ := (collect_mem h k' v).1 hm
  exact hk (List.mem_map.2 ⟨_, hw, rfl⟩)

theorem collect_lookup {env : Env} {keep ki : Bool} {kvs : List (String × W)} {es : List (String × PV)}
    (h : collect ki (desKvs env keep kvs) = .ok es) (hn : (kvs.map (·.1)).Nodup) {k : String} {w : W}
    (hk : kvs.lookup k = some w) (hv : ki = true ∨ Visible k) :
    ∃ v, des env keep w = .ok v ∧ (es.lookup k).getD .none = v := by
  induction kvs generalizing es with
  | nil => simp at hk
  | cons p kvs ih =>
    obtain ⟨k0, w0⟩ := p
    simp only [List.map_cons, List.nodup_cons] at hn
    obtain ⟨es', he, hc⟩ := collect_cons h
    by_cases hkk : k = k0
    · subst hkk
      simp [List.lookup] at hk
      subst hk
      rcases hc with ⟨hs, rfl⟩ | ⟨hs, hd, rfl⟩ | ⟨hs, v0, hd, hnn, rfl⟩
      · rcases hv with a | a
        · rw [hs.1] at a; cases a
        · exact absurd a hs.2
      · exact ⟨_, hd, by rw [collect_lookup_none he hn.1]; rfl⟩
      · exact ⟨_, hd, by simp [List.lookup]⟩
    · have hb : (k == k0) = false := by simpa using hkk
      simp only [List.lookup, hb] at hk
      obtain ⟨v, hd, hl⟩ := ih he hn.2 hk
      refine ⟨v, hd, ?_⟩
      rcases hc with ⟨hs, rfl⟩ | ⟨hs, hd', rfl⟩ | ⟨hs, v0, hd', hnn, rfl⟩
      · exact hl
      · exact hl
      · simpa [List.lookup, hb] using hl

/-- Every entry that is visited deserialises. -/
theorem collect_all {env : Env} {keep ki : Bool} {kvs : List (String × W)} {es : List (String × PV)}
    (h : collect ki (desKvs env keep kvs) = .ok es) {k : String} {w : W} (hm : (k, w) ∈ kvs)
    (hv : ki = true ∨ Visible k) : ∃ v, des env keep w = .ok v := by
  induction kvs generalizing es with
  | nil => simp at hm
  | cons p kvs ih =>
    obtain ⟨k0, w0⟩ := p
    obtain ⟨es', he, hc⟩ := collect_cons h
    rcases List.mem_cons.1 hm with hh | hm
    · cases hh
      rcases hc with ⟨hs, _⟩ | ⟨_, hd, _⟩ | ⟨_, v0, hd, _⟩
      · rcases hv with a | a
        · rw [hs.1] at a; cases a
        · exact absurd a hs.2
      · exact ⟨_, hd⟩
      · exact ⟨_, hd⟩
    · exact ih he hm

theorem sig_absurd {s t : String} (h : some (W.str s) = some (W.str t)) (hne : s ≠ t) : False := by
  simp only [Option.some.injEq, W.str.injEq] at h
  exact hne h

theorem lookup_mem {α : Type} {kvs : List (String × α)} {k : String} {w : α} (h : kvs.lookup k = some w) :
    (k, w) ∈ kvs := by
  induction kvs with
  | nil => simp at h
  | cons p kvs ih =>
    obtain ⟨k0, w0⟩ := p
    by_cases hkk : k = k0
    · subst hkk
      simp [List.lookup] at h
      simp [h]
    · have hb : (k == k0) = false := by simpa using hkk
      simp only [List.lookup, hb] at h
      exact List.mem_cons_of_mem _ (ih h)

theorem lookup_eq_none {α : Type} {kvs : List (String × α)} {k : String} (h : kvs.lookup k = none) :
    ∀ p ∈ kvs, p.1 ≠ k := by
  induction kvs with
  | nil => simp
  | cons p kvs ih =>
    obtain ⟨k0, w0⟩ := p
    by_cases hkk : k = k0
    · subst hkk; simp [List.lookup] at h
    · have hb : (k == k0) = false := by simpa using hkk
      simp only [List.lookup, hb] at h
      intro p hp
      rcases List.mem_cons.1 hp with rfl | hp
      · exact fun hh => hkk hh.symm
      · exact ih h p hp

/-! ## Markers -/

theorem noMarker_not_secret {v : PV} (h : NoMarker v) : isRpcSecret v = false := by
  cases h with
  | list _ => rfl
  | @dict kvs hk _ =>
    simp only [isRpcSecret]
    have : kvs.lookup sigKey = none := lookup_none (by
      intro hm
      simp only [List.mem_map] at hm
      obtain ⟨kv, hkv, he⟩ := hm
      exact hk kv hkv he)
    rw [this]
  | leaf _ h2 =>
    cases v <;> first | rfl | exact absurd rfl (h2 _)

theorem isRpcSecret_secretDict (x : PV) : isRpcSecret (secretDict x) = true := by
  simp [isRpcSecret, secretDict, List.lookup]

theorem unwrap_noMarker {v : PV} (h : NoMarker v) : unwrapSecret v = v := by
  simp [unwrapSecret, noMarker_not_secret h]

theorem unwrap_secretDict (x : PV) : unwrapSecret (secretDict x) = x := by
  have h : ∀ kvs, unwrapSecret (.dict kvs) =
      if isRpcSecret (.dict kvs) then (kvs.lookup "value").getD (.dict kvs) else .dict kvs := fun _ => rfl
  have h2 := isRpcSecret_secretDict x
  unfold secretDict at h2 ⊢
  rw [h, if_pos h2]
  simp [List.lookup, sigKey]

/-- What deserialisation gives: data without markers, or a marker around such data. -/
def Bubbled (v : PV) : Prop := NoMarker v ∨ ∃ x, v = secretDict x ∧ NoMarker x

theorem Bubbled.unwrap {v : PV} (h : Bubbled v) : NoMarker (unwrapSecret v) := by
  rcases h with h | ⟨x, rfl, hx⟩
  · rwa [unwrap_noMarker h]
  · rwa [unwrap_secretDict]

theorem Bubbled.secret_iff {v : PV} (h : Bubbled v) : isRpcSecret v = true ↔ Secret v := by
  constructor
  · intro hs
    rcases h with h | ⟨x, rfl, hx⟩
    · rw [noMarker_not_secret h] at hs; cases hs
    · exact ⟨x, rfl, hx⟩
  · rintro ⟨x, rfl, _⟩
    exact isRpcSecret_secretDict x

theorem Bubbled.wrap {v : PV} (h : Bubbled v) : wrapSecret v = secretDict (unwrapSecret v) := by
  rcases h with h | ⟨x, rfl, hx⟩
  · rw [wrapSecret, noMarker_not_secret h, unwrap_noMarker h]; rfl
  · rw [wrapSecret, isRpcSecret_secretDict, unwrap_secretDict]; rfl

theorem isNone_unwrap {v : PV} (h : isNone v = true) : unwrapSecret v = .none := by
  rw [isNone_eq h]; rfl

theorem bubbleList_eq (vs : List PV) :
    bubbleList vs = if vs.any isRpcSecret then secretDict (.list (vs.map unwrapSecret))
      else .list (vs.map unwrapSecret) := by
  unfold bubbleList
  cases ha : vs.any isRpcSecret with
  | true => rfl
  | false =>
    simp only [Bool.false_eq_true, if_false]
    congr 1
    rw [List.any_eq_false] at ha
    symm
    calc vs.map unwrapSecret = vs.map id := List.map_congr_left (fun v hv => by
          simp [unwrapSecret, ha v hv])
      _ = vs := by simp

/-- The entries of an object without their markers. -/
def unwrapKvs (kvs : List (String × PV)) : List (String × PV) := kvs.map fun kv => (kv.1, unwrapSecret kv.2)

theorem unwrapKvs_not_secret {kvs : List (String × PV)} (hk : ∀ kv ∈ kvs, kv.1 ≠ sigKey) :
    isRpcSecret (.dict (unwrapKvs kvs)) = false := by
  simp only [isRpcSecret]
  have : (unwrapKvs kvs).lookup sigKey = none := lookup_none (by
    intro hm
    simp only [unwrapKvs, List.mem_map] at hm
    obtain ⟨_, ⟨kv, hkv, rfl⟩, he⟩ := hm
    exact hk kv hkv he)
  rw [this]

theorem bubbleDict_eq {kvs : List (String × PV)} (hk : ∀ kv ∈ kvs, kv.1 ≠ sigKey) :
    bubbleDict (.dict kvs) = if kvs.any (fun kv => isRpcSecret kv.2) then secretDict (.dict (unwrapKvs kvs))
      else .dict (unwrapKvs kvs) := by
  have hl := unwrapKvs_not_secret hk
  simp only [bubbleDict]
  cases ha : kvs.any (fun kv => isRpcSecret kv.2) with
  | true =>
    rw [if_pos rfl, if_pos rfl]
    show wrapSecret (.dict (unwrapKvs kvs)) = _
    rw [wrapSecret, hl]; rfl
  | false =>
    rw [if_neg (by simp), if_neg (by simp)]
    congr 1
    rw [List.any_eq_false] at ha
    symm
    calc unwrapKvs kvs = kvs.map id := List.map_congr_left (fun v hv => by
          simp [unwrapSecret, ha v hv])
      _ = kvs := by simp

theorem bubbleDict_bubbled_nondict {v : PV} (h : ∀ kvs, v ≠ .dict kvs) : bubbleDict v = v := by
  cases v <;> first | rfl | exact absurd rfl (h _)

theorem bubbleDict_secretDict {x : PV} (h : NoMarker x) : bubbleDict (secretDict x) = secretDict x := by
  have h2 : isRpcSecret (.str secretSig) = false := rfl
  simp [bubbleDict, secretDict, noMarker_not_secret h, h2]

theorem bubbled_list {vs : List PV} (h : ∀ v ∈ vs, Bubbled v) : Bubbled (bubbleList vs) := by
  have hn : NoMarker (.list (vs.map unwrapSecret)) := .list (by
    intro x hx
    obtain ⟨v, hv, rfl⟩ := List.mem_map.1 hx
    exact (h v hv).unwrap)
  rw [bubbleList_eq]
  split
  · exact .inr ⟨_, rfl, hn⟩
  · exact .inl hn

theorem bubbled_dict {kvs : List (String × PV)} (hk : ∀ kv ∈ kvs, kv.1 ≠ sigKey) (h : ∀ kv ∈ kvs, Bubbled kv.2) :
    Bubbled (bubbleDict (.dict kvs)) := by
  have hn : NoMarker (.dict (unwrapKvs kvs)) := .dict (by
      intro x hx
      obtain ⟨v, hv, rfl⟩ := List.mem_map.1 hx
      exact hk v hv) (by
      intro x hx
      obtain ⟨v, hv, rfl⟩ := List.mem_map.1 hx
      exact (h v hv).unwrap)
  rw [bubbleDict_eq hk]
  split
  · exact .inr ⟨_, rfl, hn⟩
  · exact .inl hn

/-- Rebubbling a value already bubbled changes nothing. -/
theorem bubbleDict_bubbled {v : PV} (h : Bubbled v) : bubbleDict v = v := by
  rcases h with h | ⟨x, rfl, hx⟩
  · cases h with
    | list _ => rfl
    | @dict kvs hk hv =>
      have ha : kvs.any (fun kv => isRpcSecret kv.2) = false := by
        rw [List.any_eq_false]
        intro kv hkv
        simp [noMarker_not_secret (hv kv hkv)]
      simp [bubbleDict, ha]
    | leaf _ h2 => exact bubbleDict_bubbled_nondict h2
  · exact bubbleDict_secretDict hx

theorem leaf_str (s : String) : NoMarker (.str s) := .leaf (by simp) (by simp)
theorem leaf_none : NoMarker .none := .leaf (by simp) (by simp)

theorem desStr_noMarker (dry keep : Bool) (s : String) : NoMarker (desStr dry keep s) := by
  unfold desStr
  split
  · split <;> exact .leaf (by simp) (by simp)
  · exact leaf_str s

theorem strField_ok {w : W} {f : String → PV} {v : PV} (h : strField w f = .ok v) : ∃ s, w = .str s ∧ v = f s := by
  cases w <;> simp [strField] at h
  rename_i s
  exact ⟨s, rfl, h.symm⟩

theorem desAsset_ok {kvs : List (String × W)} {v : PV} (h : desAsset kvs = .ok v) : ∃ k s, v = .asset k s := by
  unfold desAsset at h
  split at h
  · obtain ⟨s, _, rfl⟩ := strField_ok h; exact ⟨_, s, rfl⟩
  · split at h
    · obtain ⟨s, _, rfl⟩ := strField_ok h; exact ⟨_, s, rfl⟩
    · split at h
      · obtain ⟨s, _, rfl⟩ := strField_ok h; exact ⟨_, s, rfl⟩
      · cases h

theorem desArchive_ok {env : Env} {kvs : List (String × W)} {v : PV} (h : desArchive kvs (desKvs env false kvs) = .ok v) :
    (∃ k s, v = .archive k s) ∨ ∃ w es, kvs.lookup "assets" = some w ∧ des env false w = .ok (.dict es) ∧
      (∀ kv ∈ es, isAssetOrArchive kv.2 = true) ∧ v = .assetArchive es := by
  unfold desArchive at h
  split at h
  · rw [ebind_ok] at h
    obtain ⟨x, hx, hm⟩ := h
    obtain ⟨w, hw, hd⟩ := get_desKvs hx
    unfold mkAssetArchive at hm
    split at hm
    · rename_i es
      split at hm
      · rename_i ha
        cases hm
        exact .inr ⟨w, es, hw, hd, by simpa [List.all_eq_true] using ha, rfl⟩
      · cases hm
    · cases hm
  · split at h
    · obtain ⟨s, _, rfl⟩ := strField_ok h; exact .inl ⟨_, s, rfl⟩
    · split at h
      · obtain ⟨s, _, rfl⟩ := strField_ok h; exact .inl ⟨_, s, rfl⟩
      · cases h

theorem desOutputValue_ok {env : Env} {kvs : List (String × W)} {v : PV}
    (h : desOutputValue (desKvs env false kvs) = .ok v) :
    ∃ rs k s x, v = .output rs k s x ∧
      (x = .none ∨ ∃ w, kvs.lookup "value" = some w ∧ des env false w = .ok x) := by
  unfold desOutputValue at h
  rw [bind_ok] at h
  obtain ⟨x, hx, h⟩ := h
  rw [bind_ok] at h
  obtain ⟨s, _, h⟩ := h
  rw [bind_ok] at h
  obtain ⟨us, _, h⟩ := h
  cases h
  refine ⟨_, _, _, x, rfl, ?_⟩
  rw [outValue, desKvs_lookup] at hx
  cases hk : kvs.lookup "value" with
  | none => rw [hk] at hx; simp at hx; exact .inl hx.symm
  | some w => rw [hk] at hx; simp at hx; exact .inr ⟨w, rfl, hx⟩

theorem rebuild_urn {env : Env} {kvs : List (String × W)} {u : String} {r : Option ResId}
    (h : rebuild env kvs = .ok (u, r)) : ∃ parts, Urn.parseUrn u.toList = .ok parts := by
  unfold rebuild at h
  split at h
  · split at h
    · cases h
    · split at h
      · cases h
      · rename_i parts hp
        simp only [Except.ok.injEq, Prod.mk.injEq] at h
        rw [← h.1]
        exact ⟨parts, hp⟩
  · cases h
  · cases h

theorem desResource_ok {env : Env} {keep : Bool} {kvs : List (String × W)} {v : PV}
    (h : desResource env keep kvs (desKvs env keep kvs) = .ok v) :
    (∃ r, v = .resource r) ∨ (∃ u, rebuild env kvs = .ok (u, none) ∧
      ((∃ w, kvs.lookup "id" = some w ∧ w ≠ .str "" ∧ des env keep w = .ok v) ∨
       kvs.lookup "id" = some (.str "") ∧ v = desStr env.dryRun keep UNKNOWN ∨
       kvs.lookup "id" = none ∧ v = .str u)) := by
  unfold desResource at h
  split at h
  · cases h
  · cases h; exact .inl ⟨_, rfl⟩
  · rename_i u hu
    right
    refine ⟨u, hu, ?_⟩
    split at h
    · rename_i hid
      cases h
      exact .inr (.inl ⟨hid, rfl⟩)
    · rename_i w hw hid
      obtain ⟨w', hw', hd⟩ := get_desKvs h
      rw [hid] at hw'
      cases hw'
      exact .inl ⟨w, hid, hw, hd⟩
    · rename_i hid
      cases h
      exact .inr (.inr ⟨hid, rfl⟩)

/-- Every deserialised value is bubbled. -/
theorem des_bubbled (env : Env) (w : W) : ∀ keep v, des env keep w = .ok v → Bubbled v := by
  induction w using W.ind with
  | null => intro keep v h; cases h; exact .inl leaf_none
  | bool b => intro keep v h; cases h; exact .inl (.leaf (by simp) (by simp))
  | num n => intro keep v h; cases h; exact .inl (.leaf (by simp) (by simp))
  | str s => intro keep v h; rw [des] at h; cases h; exact .inl (desStr_noMarker ..)
  | list xs ih =>
    intro keep v h
    obtain ⟨vs, hvs, rfl⟩ := des_list_ok h
    apply bubbled_list
    intro v hv
    obtain ⟨x, hx, hd⟩ := desList_mem hvs hv
    exact ih x hx keep v hd
  | struct kvs ih =>
    intro keep v h
    obtain ⟨v', h', rfl⟩ := des_struct_ok h
    cases structCase h' with
    | asset _ h1 => obtain ⟨k, s, rfl⟩ := desAsset_ok h1; exact .inl (.leaf (by simp [bubbleDict]) (by simp [bubbleDict]))
    | archive _ h1 =>
      rcases desArchive_ok h1 with ⟨k, s, rfl⟩ | ⟨_, es, _, _, _, rfl⟩ <;>
        exact .inl (.leaf (by simp [bubbleDict]) (by simp [bubbleDict]))
    | secret _ hw hd hv =>
      subst hv
      have hb := ih _ (lookup_mem hw) false _ hd
      rw [hb.wrap, bubbleDict_secretDict hb.unwrap]
      exact .inr ⟨_, rfl, hb.unwrap⟩
    | reference _ h1 =>
      rcases desResource_ok h1 with ⟨r, rfl⟩ | ⟨u, _, ⟨w, hw, _, hd⟩ | ⟨_, rfl⟩ | ⟨_, rfl⟩⟩
      · exact .inl (.leaf (by simp [bubbleDict]) (by simp [bubbleDict]))
      · have hb := ih _ (lookup_mem hw) keep _ hd
        rw [bubbleDict_bubbled hb]
        exact hb
      · rw [bubbleDict_bubbled (.inl (desStr_noMarker ..))]
        exact .inl (desStr_noMarker ..)
      · exact .inl (leaf_str _)
    | output _ h1 =>
      obtain ⟨rs, k, s, x, rfl, _⟩ := desOutputValue_ok h1
      exact .inl (.leaf (by simp [bubbleDict]) (by simp [bubbleDict]))
    | ordinary hs hc hv =>
      subst hv
      apply bubbled_dict
      · rintro ⟨k, v⟩ hm
        obtain ⟨_, _, w, hw, _⟩ := (collect_mem hc k v).1 hm
        exact lookup_eq_none hs _ hw
      · rintro ⟨k, v⟩ hm
        obtain ⟨_, _, w, hw, hd⟩ := (collect_mem hc k v).1 hm
        exact ih _ hw keep v hd

/-- A value is marked exactly when the wire value contains a wrapper that concerns the program. -/
theorem des_marked (env : Env) (w : W) : ∀ keep v, des env keep w = .ok v → (isRpcSecret v = true ↔ HasSecret env w) := by
  have hstr : ∀ d k s, isRpcSecret (desStr d k s) = false := fun d k s => noMarker_not_secret (desStr_noMarker d k s)
  induction w using W.ind with
  | null => intro keep v h; cases h; exact ⟨fun h => (by cases h), fun h => (by cases h)⟩
  | bool b => intro keep v h; cases h; exact ⟨fun h => (by cases h), fun h => (by cases h)⟩
  | num n => intro keep v h; cases h; exact ⟨fun h => (by cases h), fun h => (by cases h)⟩
  | str s =>
    intro keep v h; rw [des] at h; cases h
    rw [hstr]
    exact ⟨fun h => (by cases h), fun h => (by cases h)⟩
  | list xs ih =>
    intro keep v h
    obtain ⟨vs, hvs, rfl⟩ := des_list_ok h
    have hb : ∀ v ∈ vs, Bubbled v := fun v hv => by
      obtain ⟨x, hx, hd⟩ := desList_mem hvs hv
      exact des_bubbled env x keep v hd
    rw [bubbleList_eq]
    have key : vs.any isRpcSecret = true ↔ HasSecret env (.list xs) := by
      rw [List.any_eq_true]
      constructor
      · rintro ⟨v, hv, hs⟩
        obtain ⟨x, hx, hd⟩ := desList_mem hvs hv
        exact .list hx ((ih x hx keep v hd).1 hs)
      · intro hh
        cases hh with
        | list hx hs =>
          obtain ⟨v, hv, hd⟩ := desList_mem_of hvs hx
          exact ⟨v, hv, (ih _ hx keep v hd).2 hs⟩
    rw [← key]
    cases vs.any isRpcSecret with
    | true => simp [isRpcSecret_secretDict]
    | false => simp [isRpcSecret]
  | struct kvs ih =>
    intro keep v h
    obtain ⟨v', h', rfl⟩ := des_struct_ok h
    cases structCase h' with
    | asset hs h1 =>
      obtain ⟨k, s, rfl⟩ := desAsset_ok h1
      constructor
      · intro h; simp [bubbleDict, isRpcSecret] at h
      · intro h
        cases h with
        | wrapper h => rw [hs] at h; exact (sig_absurd h (by decide)).elim
        | entry h => rw [hs] at h; cases h
        | reference h => rw [hs] at h; exact (sig_absurd h (by decide)).elim
    | archive hs h1 =>
      have hf : isRpcSecret (bubbleDict v') = false := by
        rcases desArchive_ok h1 with ⟨k, s, rfl⟩ | ⟨_, es, _, _, _, rfl⟩ <;> rfl
      rw [hf]
      constructor
      · intro h; cases h
      · intro h
        cases h with
        | wrapper h => rw [hs] at h; exact (sig_absurd h (by decide)).elim
        | entry h => rw [hs] at h; cases h
        | reference h => rw [hs] at h; exact (sig_absurd h (by decide)).elim
    | secret hs hw hd hv =>
      subst hv
      have hb := des_bubbled env _ false _ hd
      rw [hb.wrap, bubbleDict_secretDict hb.unwrap, isRpcSecret_secretDict]
      exact ⟨fun _ => .wrapper hs, fun _ => rfl⟩
    | reference hs h1 =>
      rcases desResource_ok h1 with ⟨r, rfl⟩ | ⟨u, hu, ⟨w, hw, _, hd⟩ | ⟨hi, rfl⟩ | ⟨hi, rfl⟩⟩
      · constructor
        · intro h; simp [bubbleDict, isRpcSecret] at h
        · intro h
          cases h with
          | wrapper h => rw [hs] at h; exact (sig_absurd h (by decide)).elim
          | entry h => rw [hs] at h; cases h
          | reference _ hr hl hsec =>
            exfalso
            unfold desResource at h1
            rw [hr] at h1
            simp only at h1
            split at h1
            · unfold desStr at h1; simp at h1; split at h1 <;> simp at h1
            · obtain ⟨w', hw', hd⟩ := get_desKvs h1
              rw [hw'] at hl
              cases hl
              have := (ih _ (lookup_mem hw') keep _ hd).2 hsec
              simp [isRpcSecret] at this
            · simp at h1
      · rw [bubbleDict_bubbled (des_bubbled env _ keep _ hd), ih _ (lookup_mem hw) keep _ hd]
        constructor
        · exact fun h => .reference hs hu hw h
        · intro h
          cases h with
          | wrapper h => rw [hs] at h; exact (sig_absurd h (by decide)).elim
          | entry h => rw [hs] at h; cases h
          | reference _ _ hx h => rw [hw] at hx; cases hx; exact h
      · rw [bubbleDict_bubbled (.inl (desStr_noMarker ..)), hstr]
        constructor
        · intro h; cases h
        · intro h
          cases h with
          | wrapper h => rw [hs] at h; exact (sig_absurd h (by decide)).elim
          | entry h => rw [hs] at h; cases h
          | reference _ _ hx h => rw [hi] at hx; cases hx; cases h
      · constructor
        · intro h; simp [bubbleDict, isRpcSecret] at h
        · intro h
          cases h with
          | wrapper h => rw [hs] at h; exact (sig_absurd h (by decide)).elim
          | entry h => rw [hs] at h; cases h
          | reference _ _ hx h => rw [hi] at hx; cases hx
    | output hs h1 =>
      obtain ⟨rs, k, s, x, rfl, _⟩ := desOutputValue_ok h1
      constructor
      · intro h; simp [bubbleDict, isRpcSecret] at h
      · intro h
        cases h with
        | wrapper h => rw [hs] at h; exact (sig_absurd h (by decide)).elim
        | entry h => rw [hs] at h; cases h
        | reference h => rw [hs] at h; exact (sig_absurd h (by decide)).elim
    | @ordinary es hs hc hv =>
      subst hv
      have hk : ∀ kv ∈ es, kv.1 ≠ sigKey := by
        rintro ⟨k, v⟩ hm
        obtain ⟨_, _, w, hw, _⟩ := (collect_mem hc k v).1 hm
        exact lookup_eq_none hs _ hw
      rw [bubbleDict_eq hk]
      have key : es.any (fun kv => isRpcSecret kv.2) = true ↔ HasSecret env (.struct kvs) := by
        rw [List.any_eq_true]
        constructor
        · rintro ⟨⟨k, v⟩, hm, hsec⟩
          obtain ⟨hvis, _, w, hw, hd⟩ := (collect_mem hc k v).1 hm
          refine .entry hs hw (by simpa using hvis) ((ih _ hw keep v hd).1 hsec)
        · intro h
          cases h with
          | wrapper h => rw [hs] at h; cases h
          | reference h => rw [hs] at h; cases h
          | @entry _ k x _ hm hvis hsec =>
            obtain ⟨v, hd⟩ := collect_all hc hm (.inr hvis)
            have h2 := (ih _ hm keep v hd).2 hsec
            refine ⟨(k, v), (collect_mem hc k v).2 ⟨.inr hvis, ?_, x, hm, hd⟩, h2⟩
            rintro rfl
            cases h2
      rw [← key]
      cases es.any (fun kv => isRpcSecret kv.2) with
      | true => simp [isRpcSecret_secretDict]
      | false =>
        simp only [Bool.false_eq_true, if_false, iff_false, Bool.not_eq_true]
        exact unwrapKvs_not_secret hk

/-! ## keep_unknowns -/

/-- In preview `keep_unknowns` changes nothing. -/
theorem des_dry {env : Env} (hdry : env.dryRun = true) (w : W) : ∀ keep, des env keep w = des env false w := by
  have hstr : ∀ keep s, desStr env.dryRun keep s = desStr env.dryRun false s := by
    intro keep s; simp [desStr, hdry]
  induction w using W.ind with
  | null => intro keep; rfl
  | bool b => intro keep; rfl
  | num n => intro keep; rfl
  | str s => intro keep; rw [des, des, hstr]
  | list xs ih =>
    intro keep
    have : desList env keep xs = desList env false xs := by
      induction xs with
      | nil => rfl
      | cons x xs ihx =>
        rw [desList, desList, ih x (List.mem_cons_self ..) keep, ihx (fun y hy => ih y (List.mem_cons_of_mem _ hy))]
    rw [des, des, this]
  | struct kvs ih =>
    intro keep
    have : desKvs env keep kvs = desKvs env false kvs := by
      induction kvs with
      | nil => rfl
      | cons x xs ihx =>
        obtain ⟨k, x⟩ := x
        have h1 := ih (k, x) (List.mem_cons_self ..) keep
        simp only at h1
        rw [desKvs, desKvs, h1, ihx (fun y hy => ih y (List.mem_cons_of_mem _ hy))]
    rw [des, des, this]
    have h2 : desStruct env keep false kvs (desKvs env false kvs) (desKvs env false kvs) =
        desStruct env false false kvs (desKvs env false kvs) (desKvs env false kvs) := by
      unfold desStruct desResource
      simp only [hstr keep]
    rw [h2]

/-! ## Positions -/

theorem unwrap_bubbleList {vs : List PV} : unwrapSecret (bubbleList vs) = .list (vs.map unwrapSecret) := by
  rw [bubbleList_eq]
  split
  · rw [unwrap_secretDict]
  · rfl

theorem unwrap_bubbleDict {kvs : List (String × PV)} (hk : ∀ kv ∈ kvs, kv.1 ≠ sigKey) :
    unwrapSecret (bubbleDict (.dict kvs)) = .dict (unwrapKvs kvs) := by
  rw [bubbleDict_eq hk]
  split
  · rw [unwrap_secretDict]
  · rw [unwrapSecret, unwrapKvs_not_secret hk]; rfl

theorem unwrapKvs_lookup (kvs : List (String × PV)) (k : String) :
    ((unwrapKvs kvs).lookup k).getD .none = unwrapSecret ((kvs.lookup k).getD .none) := by
  induction kvs with
  | nil => rfl
  | cons p kvs ih =>
    obtain ⟨k0, v⟩ := p
    simp only [unwrapKvs, List.map_cons, List.lookup]
    cases k == k0 with
    | true => rfl
    | false => exact ih

theorem collect_keys {env : Env} {keep ki : Bool} {kvs : List (String × W)} {es : List (String × PV)}
    (hs : kvs.lookup sigKey = none) (hc : collect ki (desKvs env keep kvs) = .ok es) : ∀ kv ∈ es, kv.1 ≠ sigKey := by
  rintro ⟨k, v⟩ hm
  obtain ⟨_, _, w, hw, _⟩ := (collect_mem hc k v).1 hm
  exact lookup_eq_none hs _ hw

/-- Deserialisation commutes with following a path. -/
theorem des_at {env : Env} {w w' : W} {p : List Step} {b : Bool} (h : WAt w p b w') :
    ∀ {keep v}, des env keep w = .ok v →
      ∃ v', des env (keep && !b) w' = .ok v' ∧ (unwrapSecret v).at p = unwrapSecret v' := by
  induction h with
  | here w => intro keep v hd; exact ⟨v, by simpa using hd, rfl⟩
  | @secret kvs w p b w' hs hw _ ih =>
    intro keep v hd
    obtain ⟨v1, h1, rfl⟩ := des_struct_ok hd
    cases structCase h1 with
    | secret _ hw' hd' hv =>
      subst hv
      rw [hw] at hw'
      cases hw'
      have hb := des_bubbled env _ false _ hd'
      rw [hb.wrap, bubbleDict_secretDict hb.unwrap, unwrap_secretDict]
      obtain ⟨v', h2, h3⟩ := ih hd'
      exact ⟨v', by simpa using h2, h3⟩
    | asset h => rw [hs] at h; exact (sig_absurd h (by decide)).elim
    | archive h => rw [hs] at h; exact (sig_absurd h (by decide)).elim
    | reference h => rw [hs] at h; exact (sig_absurd h (by decide)).elim
    | output h => rw [hs] at h; exact (sig_absurd h (by decide)).elim
    | ordinary h => rw [hs] at h; cases h
  | @idx xs i w p b w' hi _ ih =>
    intro keep v hd
    obtain ⟨vs, hvs, rfl⟩ := des_list_ok hd
    obtain ⟨x, hx, hdx⟩ := desList_get hvs hi
    obtain ⟨v', h2, h3⟩ := ih hdx
    refine ⟨v', h2, ?_⟩
    rw [unwrap_bubbleList, PV.at]
    simp [hx, h3]
  | @key kvs k w p b w' hn hs hvis hl _ ih =>
    intro keep v hd
    obtain ⟨v1, h1, rfl⟩ := des_struct_ok hd
    cases structCase h1 with
    | ordinary _ hc hv =>
      subst hv
      obtain ⟨x, hdx, hx⟩ := collect_lookup hc hn hl (.inr hvis)
      obtain ⟨v', h2, h3⟩ := ih hdx
      refine ⟨v', h2, ?_⟩
      rw [unwrap_bubbleDict (collect_keys hs hc), PV.at, unwrapKvs_lookup, hx]
      exact h3
    | asset h => rw [hs] at h; cases h
    | archive h => rw [hs] at h; cases h
    | secret h => rw [hs] at h; cases h
    | reference h => rw [hs] at h; cases h
    | output h => rw [hs] at h; cases h

/-! ## Erasure -/

/-- What remains of a deserialised value without its marker and without `None` entries. -/
def erase (v : PV) : PV := dropNones (unwrapSecret v)

theorem dropNonesList_map (vs : List PV) : dropNonesList (vs.map unwrapSecret) = vs.map erase := by
  induction vs with
  | nil => rfl
  | cons v vs ih => simp only [List.map_cons, dropNonesList, ih]; rfl

/-- The data of an object: visible entries that are not `None`. -/
def eraseKvs (kvs : List (String × PV)) : List (String × PV) :=
  (kvs.map fun kv => (kv.1, erase kv.2)).filter fun kv => !isNone kv.2

theorem isNone_drop (v : PV) : isNone (dropNones v) = isNone v := by cases v <;> rfl

theorem dropNonesKvs_unwrap (kvs : List (String × PV)) : dropNonesKvs (unwrapKvs kvs) = eraseKvs kvs := by
  induction kvs with
  | nil => rfl
  | cons kv kvs ih =>
    obtain ⟨k, v⟩ := kv
    have h1 : unwrapKvs ((k, v) :: kvs) = (k, unwrapSecret v) :: unwrapKvs kvs := rfl
    rw [h1, dropNonesKvs, ih]
    have h2 : isNone (erase v) = isNone (unwrapSecret v) := isNone_drop _
    cases hn : isNone (unwrapSecret v) with
    | true => simp [eraseKvs, h2, hn]
    | false =>
      simp [eraseKvs, h2, hn]
      rfl

/-- Erased outcomes. -/
def eraseR (r : Except Err PV) : Except Err PV := r.map erase

theorem stripKvs_keys (kvs : List (String × W)) : (stripKvs kvs).map (·.1) = kvs.map (·.1) := by
  induction kvs with
  | nil => rfl
  | cons kv kvs ih => obtain ⟨k, v⟩ := kv; simp [stripKvs, ih]

theorem stripKvs_lookup (kvs : List (String × W)) (k : String) :
    (stripKvs kvs).lookup k = (kvs.lookup k).map strip := by
  induction kvs with
  | nil => rfl
  | cons kv kvs ih =>
    obtain ⟨k0, v⟩ := kv
    simp only [stripKvs, List.lookup]
    cases k == k0 with
    | true => rfl
    | false => exact ih

theorem desList_erase {env : Env} {keep : Bool} {xs : List W}
    (ih : ∀ x ∈ xs, eraseR (des env keep x) = eraseR (des env keep (strip x))) :
    (desList env keep xs).map (fun vs => vs.map erase) =
      (desList env keep (stripList xs)).map (fun vs => vs.map erase) := by
  induction xs with
  | nil => rfl
  | cons x xs ihx =>
    have h1 := ih x (List.mem_cons_self ..)
    have h2 := ihx (fun y hy => ih y (List.mem_cons_of_mem _ hy))
    simp only [stripList, desList]
    cases ha : des env keep x with
    | error e =>
      rw [ha] at h1
      cases hb : des env keep (strip x) with
      | error e' => rw [hb] at h1; simp [eraseR, Except.map] at h1; subst h1; rfl
      | ok v' => rw [hb] at h1; simp [eraseR, Except.map] at h1
    | ok v =>
      rw [ha] at h1
      cases hb : des env keep (strip x) with
      | error e' => rw [hb] at h1; simp [eraseR, Except.map] at h1
      | ok v' =>
        rw [hb] at h1
        simp [eraseR, Except.map] at h1
        cases hc : desList env keep xs with
        | error e =>
          rw [hc] at h2
          cases hd : desList env keep (stripList xs) with
          | error e' => rw [hd] at h2; simp [Except.map] at h2; subst h2; rfl
          | ok vs' => rw [hd] at h2; simp [Except.map] at h2
        | ok vs =>
          rw [hc] at h2
          cases hd : desList env keep (stripList xs) with
          | error e' => rw [hd] at h2; simp [Except.map] at h2
          | ok vs' =>
            rw [hd] at h2
            simp [Except.map] at h2
            simp [bind, Except.bind, pure, Except.pure, Except.map, h1, h2]

theorem eraseKvs_none {k : String} {v : PV} {kvs : List (String × PV)} (h : isNone (erase v) = true) :
    eraseKvs ((k, v) :: kvs) = eraseKvs kvs := by
  simp [eraseKvs, h]

theorem eraseKvs_some {k : String} {v : PV} {kvs : List (String × PV)} (h : isNone (erase v) = false) :
    eraseKvs ((k, v) :: kvs) = (k, erase v) :: eraseKvs kvs := by
  simp [eraseKvs, h]

/-- One visited entry, seen through erasure. -/
theorem collect_cons_erase {env : Env} {keep : Bool} {k : String} {w : W} {kvs : List (String × W)}
    (hv : (!false && isInternal k && k != "__provider") = false) :
    (collect false (desKvs env keep ((k, w) :: kvs))).map eraseKvs =
      (eraseR (des env keep w)).bind fun v =>
        ((collect false (desKvs env keep kvs)).map eraseKvs).map fun es =>
          if isNone v then es else (k, v) :: es := by
  simp only [desKvs, collect, hv, Bool.false_eq_true, if_false]
  cases ha : des env keep w with
  | error e => rfl
  | ok v =>
    simp only [eraseR, Except.map, Except.bind]
    cases hc : collect false (desKvs env keep kvs) with
    | error e =>
      cases isNone v <;> rfl
    | ok es =>
      simp only
      cases hn : isNone v with
      | true =>
        have : isNone (erase v) = true := by rw [isNone_eq hn]; rfl
        simp [this]
      | false =>
        cases he : isNone (erase v) with
        | true => simp [eraseKvs_none he]
        | false => simp [eraseKvs_some he]

theorem collect_erase {env : Env} {keep : Bool} {kvs : List (String × W)}
    (ih : ∀ kv ∈ kvs, eraseR (des env keep kv.2) = eraseR (des env keep (strip kv.2))) :
    (collect false (desKvs env keep kvs)).map eraseKvs =
      (collect false (desKvs env keep (stripKvs kvs))).map eraseKvs := by
  induction kvs with
  | nil => rfl
  | cons kv kvs ihx =>
    obtain ⟨k, x⟩ := kv
    have h1 := ih (k, x) (List.mem_cons_self ..)
    simp only at h1
    have h2 := ihx (fun y hy => ih y (List.mem_cons_of_mem _ hy))
    cases hv : (!false && isInternal k && k != "__provider") with
    | true =>
      simp only [stripKvs, desKvs, collect, hv, if_true]
      exact h2
    | false =>
      rw [stripKvs, collect_cons_erase hv, collect_cons_erase hv, h1, h2]

theorem eraseR_bubbleList (r : Except Err (List PV)) :
    eraseR (r.map bubbleList) = (r.map fun vs => vs.map erase).map PV.list := by
  cases r with
  | error e => rfl
  | ok vs => simp [eraseR, Except.map, erase, unwrap_bubbleList, dropNones, dropNonesList_map]

/-- Erasing the marker after deserialisation, or the wrappers before, comes to the same. -/
theorem des_erase {env : Env} (w : W) : ∀ keep, (env.dryRun = true ∨ keep = false) →
    eraseR (des env keep w) = eraseR (des env keep (strip w)) := by
  induction w using W.ind with
  | null => intro keep _; rfl
  | bool b => intro keep _; rfl
  | num n => intro keep _; rfl
  | str s => intro keep _; rfl
  | list xs ih =>
    intro keep hk
    simp only [strip, des]
    rw [eraseR_bubbleList, eraseR_bubbleList, desList_erase (fun x hx => ih x hx keep hk)]
  | struct kvs ih =>
    intro keep hk
    have hfalse : ∀ w, des env keep w = des env false w := by
      rcases hk with hk | hk
      · exact fun w => des_dry hk w keep
      · subst hk; exact fun _ => rfl
    simp only [strip]
    split
    · rename_i hs
      have hs' : (stripKvs kvs).lookup sigKey = none := by rw [stripKvs_lookup, hs]; rfl
      have hform : ∀ kvs : List (String × W), kvs.lookup sigKey = none →
          eraseR (des env keep (.struct kvs)) =
            ((collect false (desKvs env keep kvs)).map eraseKvs).map PV.dict := by
        intro kvs hs
        simp only [des, desStruct, hs]
        cases hc : collect false (desKvs env keep kvs) with
        | error e => rfl
        | ok es =>
          simp only [eraseR, Except.map, erase, unwrap_bubbleDict (collect_keys hs hc), dropNones, dropNonesKvs_unwrap]
      rw [hform _ hs, hform _ hs', collect_erase (fun kv hkv => ih kv hkv keep hk)]
    · rename_i s hs
      split
      · rename_i hss
        subst hss
        rw [stripKvs_lookup]
        cases hw : kvs.lookup "value" with
        | none => rfl
        | some w =>
          simp only [Option.map_some, Option.getD_some]
          have h1 := ih _ (lookup_mem hw) keep hk
          simp only at h1
          rw [← h1]
          have hne1 : secretSig ≠ assetSig := by decide
          have hne2 : secretSig ≠ archiveSig := by decide
          simp only [des, desStruct, hs, hne1, hne2, if_false, if_true, Decoded.get, desKvs_lookup, hw, Option.map_some]
          rw [hfalse w]
          cases hd : des env false w with
          | error e => rfl
          | ok v =>
            have hb := des_bubbled env _ false _ hd
            simp only [eraseR, Except.map, erase]
            rw [hb.wrap, bubbleDict_secretDict hb.unwrap, unwrap_secretDict]
      · rfl
    · rfl

/-! ## What holds everywhere in a deserialised value -/

/-- Conditions on `P` under which it holds everywhere in what deserialisation gives. -/
structure Closed (P : PV → Prop) : Prop where
  none : P .none
  bool : ∀ b, P (.bool b)
  num : ∀ n, P (.num n)
  str : ∀ s, s ≠ UNKNOWN → P (.str s)
  list : ∀ xs, P (.list xs)
  dict : ∀ kvs : List (String × PV), (∀ kv ∈ kvs, Visible kv.1) → P (.dict kvs)
  resource : ∀ r, P (.resource r)
  asset : ∀ k s, P (.asset k s)
  archive : ∀ k s, P (.archive k s)
  assetArchive : ∀ kvs : List (String × PV), P (.dict kvs) → P (.assetArchive kvs)
  output : ∀ r k s v, P (.output r k s v)

theorem Everywhere.head {P : PV → Prop} {v : PV} (h : Everywhere P v) : P v := by cases h; assumption
theorem Everywhere.child {P : PV → Prop} {v : PV} (h : Everywhere P v) : ∀ c ∈ children v, Everywhere P c := by
  cases h; assumption

theorem Everywhere.leaf {P : PV → Prop} {v : PV} (h : P v) (hc : children v = []) : Everywhere P v :=
  .mk h (by rw [hc]; simp)

theorem visible_sig : Visible sigKey := by
  intro h
  exact absurd h (by decide)

theorem visible_value : Visible "value" := by
  intro h
  exact absurd h (by decide)

theorem secretSig_ne : secretSig ≠ UNKNOWN := by decide

theorem ev_secretDict {P : PV → Prop} (hP : Closed P) {x : PV} (h : Everywhere P x) : Everywhere P (secretDict x) := by
  refine .mk (hP.dict _ ?_) ?_
  · intro kv hkv
    simp at hkv
    rcases hkv with rfl | rfl
    · exact visible_sig
    · exact visible_value
  · intro c hc
    simp [secretDict, children] at hc
    rcases hc with rfl | rfl
    · exact .leaf (hP.str _ secretSig_ne) rfl
    · exact h

theorem ev_unwrap {P : PV → Prop} {v : PV} (hb : Bubbled v) (h : Everywhere P v) : Everywhere P (unwrapSecret v) := by
  rcases hb with hb | ⟨x, rfl, _⟩
  · rwa [unwrap_noMarker hb]
  · rw [unwrap_secretDict]
    exact h.child x (by simp [secretDict, children])

theorem desStr_ev {P : PV → Prop} (hP : Closed P) {dry keep : Bool} (hu : (dry || keep) = true → P .unknown) (s : String) :
    Everywhere P (desStr dry keep s) := by
  unfold desStr
  split
  · split
    · rename_i h; exact .leaf (hu h) rfl
    · exact .leaf hP.none rfl
  · rename_i h; exact .leaf (hP.str s h) rfl

theorem parse_unknown (p : Urn.Parts) : Urn.parseUrn UNKNOWN.toList ≠ .ok p := by
  have : ∀ q, Urn.parseUrn UNKNOWN.toList = q → q ≠ .ok p := by
    intro q hq
    have h2 : Urn.parseUrn UNKNOWN.toList = .error .value := by rfl
    rw [h2] at hq
    rw [← hq]
    simp
  exact this _ rfl

theorem des_everywhere {P : PV → Prop} (hP : Closed P) {env : Env} (w : W) :
    ∀ keep v, ((env.dryRun || keep) = true → P .unknown) → des env keep w = .ok v → Everywhere P v := by
  induction w using W.ind with
  | null => intro keep v _ h; cases h; exact .leaf hP.none rfl
  | bool b => intro keep v _ h; cases h; exact .leaf (hP.bool b) rfl
  | num n => intro keep v _ h; cases h; exact .leaf (hP.num n) rfl
  | str s => intro keep v hu h; rw [des] at h; cases h; exact desStr_ev hP hu s
  | list xs ih =>
    intro keep v hu h
    obtain ⟨vs, hvs, rfl⟩ := des_list_ok h
    have hl : Everywhere P (.list (vs.map unwrapSecret)) := .mk (hP.list _) (by
      intro c hc
      obtain ⟨v, hv, rfl⟩ := List.mem_map.1 hc
      obtain ⟨x, hx, hd⟩ := desList_mem hvs hv
      exact ev_unwrap (des_bubbled env x keep v hd) (ih x hx keep v hu hd))
    rw [bubbleList_eq]
    split
    · exact ev_secretDict hP hl
    · exact hl
  | struct kvs ih =>
    intro keep v hu h
    have hu' : (env.dryRun || false) = true → P .unknown := fun h => hu (by simp at h; simp [h])
    obtain ⟨v', h', rfl⟩ := des_struct_ok h
    cases structCase h' with
    | asset _ h1 => obtain ⟨k, s, rfl⟩ := desAsset_ok h1; exact .leaf (hP.asset k s) rfl
    | archive _ h1 =>
      rcases desArchive_ok h1 with ⟨k, s, rfl⟩ | ⟨w, es, hw, hd, _, rfl⟩
      · exact .leaf (hP.archive k s) rfl
      · have he := ih _ (lookup_mem hw) false _ hu' hd
        exact .mk (hP.assetArchive _ he.head) he.child
    | secret _ hw hd hv =>
      subst hv
      have hb := des_bubbled env _ false _ hd
      rw [hb.wrap, bubbleDict_secretDict hb.unwrap]
      exact ev_secretDict hP (ev_unwrap hb (ih _ (lookup_mem hw) false _ hu' hd))
    | reference _ h1 =>
      rcases desResource_ok h1 with ⟨r, rfl⟩ | ⟨u, hr, ⟨w, hw, _, hd⟩ | ⟨_, rfl⟩ | ⟨_, rfl⟩⟩
      · exact .leaf (hP.resource r) rfl
      · rw [bubbleDict_bubbled (des_bubbled env _ keep _ hd)]
        exact ih _ (lookup_mem hw) keep _ hu hd
      · rw [bubbleDict_bubbled (.inl (desStr_noMarker ..))]
        exact desStr_ev hP hu _
      · refine .leaf (hP.str _ ?_) rfl
        rintro rfl
        obtain ⟨parts, hp⟩ := rebuild_urn hr
        exact parse_unknown parts hp
    | output _ h1 =>
      obtain ⟨rs, k, s, x, rfl, hx⟩ := desOutputValue_ok h1
      refine .mk (hP.output ..) ?_
      intro c hc
      simp [bubbleDict, children] at hc
      subst hc
      rcases hx with rfl | ⟨w, hw, hd⟩
      · exact .leaf hP.none rfl
      · exact ih _ (lookup_mem hw) false _ hu' hd
    | @ordinary es hs hc hv =>
      subst hv
      have hd : Everywhere P (.dict (unwrapKvs es)) := by
        refine .mk (hP.dict _ ?_) ?_
        · intro kv hkv
          obtain ⟨⟨k, v⟩, hm, rfl⟩ := List.mem_map.1 hkv
          have := ((collect_mem hc k v).1 hm).1
          simpa using this
        · intro c hcc
          simp only [children, unwrapKvs, List.map_map, List.mem_map] at hcc
          obtain ⟨⟨k, v⟩, hm, rfl⟩ := hcc
          obtain ⟨_, _, w, hw, hd⟩ := (collect_mem hc k v).1 hm
          exact ev_unwrap (des_bubbled env w keep v hd) (ih _ hw keep v hu hd)
      rw [bubbleDict_eq (collect_keys hs hc)]
      split
      · exact ev_secretDict hP hd
      · exact hd

end Pulumi.Wire
