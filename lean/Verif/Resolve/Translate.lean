import Verif.Resolve.Lemmas
/-! # Lemmas on `translate_output_properties` and on `all_properties` -/
namespace Pulumi.Resolve
open Pulumi.Wire

theorem lookup_append_none {α : Type} {a b : List (String × α)} {k : String} : (a ++ b).lookup k =
    match a.lookup k with | some x => some x | none => b.lookup k := by
  induction a with
  | nil => rfl
  | cons p a ih =>
    obtain ⟨k0, v⟩ := p
    simp only [List.cons_append, List.lookup]
    split <;> simp_all

theorem transKvs_lookup {C : Classes} {m : Bool} {tr : String → String} {get : String → OTy} {kvs : List (String × PV)}
    {k : String} : (transKvs C m tr get kvs).lookup k = (kvs.lookup k).map (fun v => trans C m tr (get k) v) := by
  induction kvs with
  | nil => rfl
  | cons p kvs ih =>
    obtain ⟨k0, v⟩ := p
    rw [transKvs]
    simp only [List.lookup]
    split
    · rename_i h
      simp only [beq_iff_eq] at h
      subst h
      rfl
    · exact ih

theorem sequence_mem {kvs : List (String × Except Err RV)} {es : List (String × RV)} (h : sequence kvs = .ok es) :
    kvs = es.map fun kv => (kv.1, Except.ok kv.2) := by
  induction kvs generalizing es with
  | nil => cases h; rfl
  | cons p kvs ih =>
    obtain ⟨k, r⟩ := p
    rw [sequence, bind_ok] at h
    obtain ⟨v, hv, h⟩ := h
    rw [bind_ok] at h
    obtain ⟨vs, hvs, h⟩ := h
    cases h
    rw [hv, ih hvs]
    rfl

theorem transKvs_mem {C : Classes} {m : Bool} {tr : String → String} {get : String → OTy} {kvs : List (String × PV)}
    {es : List (String × RV)} (h : sequence (transKvs C m tr get kvs) = .ok es) :
    es.map (·.1) = kvs.map (·.1) ∧
    (∀ k x, (k, x) ∈ kvs → ∃ y, trans C m tr (get k) x = .ok y ∧ (k, y) ∈ es) ∧
    (∀ k y, (k, y) ∈ es → ∃ x, (k, x) ∈ kvs ∧ trans C m tr (get k) x = .ok y) := by
  induction kvs generalizing es with
  | nil => cases h; simp
  | cons p kvs ih =>
    obtain ⟨k0, v⟩ := p
    rw [transKvs, sequence, bind_ok] at h
    obtain ⟨w, hw, h⟩ := h
    rw [bind_ok] at h
    obtain ⟨vs, hvs, h⟩ := h
    cases h
    obtain ⟨h1, h2, h3⟩ := ih hvs
    refine ⟨by simp [h1], ?_, ?_⟩
    · intro k x hx
      rcases List.mem_cons.1 hx with h | h
      · cases h; exact ⟨w, hw, List.mem_cons_self ..⟩
      · obtain ⟨y, hy, hm⟩ := h2 k x h
        exact ⟨y, hy, List.mem_cons_of_mem _ hm⟩
    · intro k y hy
      rcases List.mem_cons.1 hy with h | h
      · cases h; exact ⟨v, List.mem_cons_self .., hw⟩
      · obtain ⟨x, hx, hh⟩ := h3 k y h
        exact ⟨x, List.mem_cons_of_mem _ hx, hh⟩

theorem foldl_setKey_mem {es acc : List (String × RV)} {f : String → String} {p : String × RV}
    (h : p ∈ es.foldl (fun acc kv => setKey acc (f kv.1) kv.2) acc) : p ∈ acc ∨ ∃ kv ∈ es, p = (f kv.1, kv.2) := by
  induction es generalizing acc with
  | nil => exact .inl h
  | cons e es ih =>
    rcases ih h with h' | ⟨kv, hkv, rfl⟩
    · rcases setKey_mem h' with rfl | h'
      · exact .inr ⟨e, List.mem_cons_self .., rfl⟩
      · exact .inl h'
    · exact .inr ⟨kv, List.mem_cons_of_mem _ hkv, rfl⟩

theorem foldl_setKey_untouched {es acc : List (String × RV)} {f : String → String} {k : String}
    (h : ∀ kv ∈ es, f kv.1 ≠ k) :
    (es.foldl (fun acc kv => setKey acc (f kv.1) kv.2) acc).lookup k = acc.lookup k := by
  induction es generalizing acc with
  | nil => rfl
  | cons e es ih =>
    rw [List.foldl_cons, ih (fun kv hkv => h kv (List.mem_cons_of_mem _ hkv)),
      setKey_lookup_ne _ _ (Ne.symm (h e (List.mem_cons_self ..)))]

theorem foldl_setKey_lookup {es acc : List (String × RV)} {f : String → String}
    (hn : (es.map fun kv => f kv.1).Nodup) {k : String} {v : RV} (hm : (k, v) ∈ es) :
    (es.foldl (fun acc kv => setKey acc (f kv.1) kv.2) acc).lookup (f k) = some v := by
  induction es generalizing acc with
  | nil => cases hm
  | cons e es ih =>
    simp only [List.map_cons, List.nodup_cons] at hn
    rw [List.foldl_cons]
    rcases List.mem_cons.1 hm with h | h
    · subst h
      rw [foldl_setKey_untouched (fun kv hkv hh => hn.1 (List.mem_map.2 ⟨kv, hkv, hh⟩)), setKey_lookup_self]
    · exact ih hn.2 h

theorem trans_notDict {C : Classes} {m : Bool} {tr : String → String} {ty : OTy} {v : PV} {w : RV}
    (hd : ∀ kvs, v ≠ .dict kvs) (hl : ∀ xs, v ≠ .list xs) (h : trans C m tr ty v = .ok w) : transLeaf C ty v = .ok w := by
  cases v <;> first | exact absurd rfl (hd _) | exact absurd rfl (hl _) | exact h

theorem transLeaf_ok {C : Classes} {ty : OTy} {v : PV} {w : RV} (h : transLeaf C ty v = .ok w) :
    w = .leaf v ∨ (∃ n, v = .num n ∧ w = .int n) ∨ ∃ cls m, w = .enum cls m := by
  unfold transLeaf at h
  split at h
  · split at h
    · unfold enumOf at h
      split at h
      · cases h; exact .inr (.inr ⟨_, _, rfl⟩)
      · cases h
    · cases h; exact .inl rfl
  · split at h
    · cases h; exact .inr (.inl ⟨_, rfl, rfl⟩)
    · cases h; exact .inl rfl
  · cases h; exact .inl rfl

/-- A value without marker stays without. -/
theorem trans_plain {C : Classes} {m : Bool} {tr : String → String} (ht : NameSafe tr) {ty : OTy} {v : PV}
    (hv : NoMarker v) {w : RV} (h : trans C m tr ty v = .ok w) : w.isSecret = false := by
  have hns := noMarker_not_secret hv
  cases hv with
  | leaf hl hd =>
    rcases transLeaf_ok (trans_notDict hd hl h) with rfl | ⟨n, _, rfl⟩ | ⟨c, k, rfl⟩ <;> rfl
  | list hx =>
    rw [trans] at h
    split at h
    · cases h
    · rw [map_ok] at h
      obtain ⟨_, _, rfl⟩ := h
      rfl
  | @dict kvs hk hx =>
    rw [trans, hns] at h
    simp only [Bool.false_eq_true, if_false] at h
    split at h
    · cases h
    · rw [map_ok] at h
      obtain ⟨es, hes, rfl⟩ := h
      obtain ⟨_, _, h3⟩ := transKvs_mem hes
      have key : ∀ f : String → String, NameSafe f →
          (RV.dict (es.foldl (fun acc kv => setKey acc (f kv.1) kv.2) [])).isSecret = false := by
        intro f hf
        have hl : (es.foldl (fun acc kv => setKey acc (f kv.1) kv.2) []).lookup sigKey = none := by
          apply lookup_none
          intro hm
          obtain ⟨p, hp, he⟩ := List.mem_map.1 hm
          rcases foldl_setKey_mem hp with h' | ⟨kv, hkv, rfl⟩
          · cases h'
          · obtain ⟨x, hx', _⟩ := h3 kv.1 kv.2 hkv
            exact hk _ hx' (hf _ he)
        simp [RV.isSecret, hl]
      unfold rebuildDict
      split
      · rfl
      · cases m
        · exact key tr ht
        · exact key id (fun _ h => h)
      · exact key tr ht

/-- The marker is taken off, the value is translated, and the marker is put back. -/
theorem trans_marked {C : Classes} {m : Bool} {tr : String → String} (ht : NameSafe tr) {ty : OTy} {x : PV}
    (hx : NoMarker x) {w : RV} (h : trans C m tr ty (.dict [(sigKey, .str secretSig), ("value", x)]) = .ok w) :
    ∃ y, trans C m tr ty x = .ok y ∧ w.unwrap = y ∧ w.isSecret = true := by
  have hs : isRpcSecret (.dict [(sigKey, .str secretSig), ("value", x)]) = true := isRpcSecret_secretDict x
  rw [trans, hs] at h
  simp only [if_true, transKvs_lookup] at h
  have hl : List.lookup "value" [(sigKey, PV.str secretSig), ("value", x)] = some x := by simp [List.lookup, sigKey]
  rw [hl] at h
  simp only [Option.map_some] at h
  rw [map_ok] at h
  obtain ⟨y, hy, rfl⟩ := h
  have hny := trans_plain ht hx hy
  have hw : y.wrap = .dict [(sigKey, .leaf (.str secretSig)), ("value", y)] := by
    rw [RV.wrap, hny]
    rfl
  have hsec : (RV.dict [(sigKey, .leaf (.str secretSig)), ("value", y)]).isSecret = true := by
    simp [RV.isSecret, List.lookup]
  rw [hw]
  refine ⟨y, hy, ?_, hsec⟩
  rw [RV.unwrap, hsec]
  simp [List.lookup, sigKey]

theorem unwrap_plain {w : RV} (h : w.isSecret = false) : w.unwrap = w := by simp [RV.unwrap, h]

theorem trans_marking {C : Classes} {m : Bool} {tr : String → String} (ht : NameSafe tr) {ty : OTy} {v : PV}
    (hv : Bubbled v) {w : RV} (h : trans C m tr ty v = .ok w) :
    ∃ x b, Marking v x b ∧ trans C m tr ty x = .ok w.unwrap ∧ w.isSecret = b := by
  rcases hv with hv | ⟨x, rfl, hx⟩
  · have hp := trans_plain ht hv h
    exact ⟨v, false, .plain hv, by rw [unwrap_plain hp]; exact h, hp⟩
  · obtain ⟨y, h1, h2, h3⟩ := trans_marked ht hx h
    exact ⟨x, true, .secret hx, by rw [h2]; exact h1, h3⟩

/-! ## all_properties -/

theorem engineProps_untouched {c : ResClass} {acc : List (String × RV)} {kvs : List (String × PV)}
    {es : List (String × RV)} (h : engineProps c acc kvs = .ok es) {n : String} (hn : ∀ kv ∈ kvs, c.translate kv.1 ≠ n) :
    es.lookup n = acc.lookup n := by
  induction kvs generalizing acc with
  | nil => cases h; rfl
  | cons p kvs ih =>
    obtain ⟨k, v⟩ := p
    rw [engineProps, bind_ok] at h
    obtain ⟨w, _, h⟩ := h
    rw [ih h (fun kv hkv => hn kv (List.mem_cons_of_mem _ hkv)),
      setKey_lookup_ne _ _ (Ne.symm (hn (k, v) (List.mem_cons_self ..)))]

theorem engineProps_lookup {c : ResClass} {acc : List (String × RV)} {kvs : List (String × PV)}
    {es : List (String × RV)} (h : engineProps c acc kvs = .ok es) (hn : (kvs.map fun kv => c.translate kv.1).Nodup)
    {k : String} {v : PV} (hm : (k, v) ∈ kvs) : ∃ w, c.trans k v = .ok w ∧ es.lookup (c.translate k) = some w := by
  induction kvs generalizing acc with
  | nil => cases hm
  | cons p kvs ih =>
    obtain ⟨k0, v0⟩ := p
    rw [engineProps, bind_ok] at h
    obtain ⟨w, hw, h⟩ := h
    simp only [List.map_cons, List.nodup_cons] at hn
    rcases List.mem_cons.1 hm with hh | hh
    · cases hh
      refine ⟨w, hw, ?_⟩
      rw [engineProps_untouched h (fun kv hkv hh => hn.1 (List.mem_map.2 ⟨kv, hkv, hh⟩)), setKey_lookup_self]
    · exact ih h hn.2 hh

theorem inputProps_untouched {env : Env} {c : ResClass} {acc : List (String × RV)} {kvs : List (String × W)}
    {es : List (String × RV)} (h : inputProps env c acc kvs = .ok es) {n : String}
    (hn : n ∈ acc.map (·.1) ∨ ∀ kv ∈ kvs, c.translate kv.1 ≠ n) : es.lookup n = acc.lookup n := by
  induction kvs generalizing acc with
  | nil => cases h; rfl
  | cons p kvs ih =>
    obtain ⟨k, v⟩ := p
    rw [inputProps] at h
    split at h
    · exact ih h (hn.imp_right fun h kv hkv => h kv (List.mem_cons_of_mem _ hkv))
    · rename_i hk
      have hk' : c.translate k ∉ acc.map (·.1) := fun h => hk (any_key.2 h)
      rw [bind_ok] at h
      obtain ⟨_, _, h⟩ := h
      rw [bind_ok] at h
      obtain ⟨w, _, h⟩ := h
      have hne : n ≠ c.translate k := by
        rcases hn with hn | hn
        · rintro rfl; exact hk' hn
        · exact Ne.symm (hn (k, v) (List.mem_cons_self ..))
      rw [ih h ?_, setKey_lookup_ne _ _ hne]
      rcases hn with hn | hn
      · left
        rw [setKey_fresh hk']
        simp only [List.map_append, List.mem_append]
        exact .inl hn
      · exact .inr fun kv hkv => hn kv (List.mem_cons_of_mem _ hkv)

theorem inputProps_lookup {env : Env} {c : ResClass} {acc : List (String × RV)} {kvs : List (String × W)}
    {es : List (String × RV)} (h : inputProps env c acc kvs = .ok es) {k : String} {w : W} (hm : (k, w) ∈ kvs)
    (hn : (kvs.map fun kv => c.translate kv.1).Nodup) (ha : c.translate k ∉ acc.map (·.1)) :
    ∃ v x, des env false w = .ok v ∧ c.trans k v = .ok x ∧ es.lookup (c.translate k) = some x := by
  induction kvs generalizing acc with
  | nil => cases hm
  | cons p kvs ih =>
    obtain ⟨k0, v0⟩ := p
    simp only [List.map_cons, List.nodup_cons] at hn
    rw [inputProps] at h
    rcases List.mem_cons.1 hm with hh | hh
    · cases hh
      rw [if_neg (fun h => ha (any_key.1 h)), bind_ok] at h
      obtain ⟨v, hv, h⟩ := h
      rw [bind_ok] at h
      obtain ⟨x, hx, h⟩ := h
      refine ⟨v, x, hv, hx, ?_⟩
      rw [inputProps_untouched h (.inr fun kv hkv hh => hn.1 (List.mem_map.2 ⟨kv, hkv, hh⟩)), setKey_lookup_self]
    · split at h
      · exact ih h hh hn.2 ha
      · rw [bind_ok] at h
        obtain ⟨_, _, h⟩ := h
        rw [bind_ok] at h
        obtain ⟨x, hx, h⟩ := h
        refine ih h hh hn.2 ?_
        intro hin
        obtain ⟨p, hp, he⟩ := List.mem_map.1 hin
        rcases setKey_mem hp with rfl | hp
        · exact hn.1 (List.mem_map.2 ⟨(k, w), hh, he.symm⟩)
        · exact ha (List.mem_map.2 ⟨p, hp, he⟩)

/-- What a property that is in `all` is resolved with. -/
theorem owns_found {dry : Bool} {r : ResId} {resolvers : List String} {all : List (String × RV)}
    {deps : List (String × List ResId)} (ha : (all.map (·.1)).Nodup) {n : String} (hn : n ∈ resolvers)
    {w : RV} (hw : all.lookup n = some w) :
    Owns (propEntries dry r resolvers all deps) (.prop n)
      (entries r n (deps.lookup n) (.value w.unwrap) (.flag (if dry then !w.unwrap.isNone else true)) (.flag w.isSecret)) := by
  have hm := lookup_mem hw
  have htarget : ∀ kv ∈ all, ∀ e ∈ foundEntries dry r resolvers deps kv, e.1.1 = .prop kv.1 := by
    intro kv _ e he
    simp only [foundEntries] at he
    split at he
    · exact entries_target e he
    · cases he
  have h := Owns.flatMap (g := foundEntries dry r resolvers deps) (nm := (·.1)) ha htarget hm
  rw [foundEntries, if_pos hn] at h
  refine h.left (fresh_flatMap ?_)
  intro n' _ e he
  simp only [missingEntries] at he
  split at he
  · cases he
  · rename_i hh
    rw [entries_target e he]
    intro hh'
    simp only [Target.prop.injEq] at hh'
    subst hh'
    exact hh (any_key.2 (List.mem_map.2 ⟨_, hm, rfl⟩))

theorem owns_missing {dry : Bool} {r : ResId} {resolvers : List String} {all : List (String × RV)}
    {deps : List (String × List ResId)} (hr : resolvers.Nodup) {n : String} (hn : n ∈ resolvers)
    (hw : all.lookup n = none) :
    Owns (propEntries dry r resolvers all deps) (.prop n)
      (entries r n (deps.lookup n) (.value (.leaf .none)) (.flag (!dry)) (.flag false)) := by
  have hk := lookup_eq_none hw
  have htarget : ∀ m ∈ resolvers, ∀ e ∈ missingEntries dry r all deps m, e.1.1 = .prop m := by
    intro m _ e he
    simp only [missingEntries] at he
    split at he
    · cases he
    · exact entries_target e he
  have h := Owns.flatMap (g := missingEntries dry r all deps) (nm := id) (by simpa using hr) htarget hn
  have hany : ¬ (all.any (fun kv => kv.1 == n) = true) := by
    rw [any_key]
    intro h
    obtain ⟨p, hp, he⟩ := List.mem_map.1 h
    exact hk p hp he
  rw [missingEntries, if_neg hany] at h
  refine h.right (fresh_flatMap ?_)
  intro kv hkv e he
  simp only [foundEntries] at he
  split at he
  · rw [entries_target e he]
    intro hh'
    simp only [Target.prop.injEq] at hh'
    exact hk kv hkv hh'
  · cases he

end Pulumi.Resolve
