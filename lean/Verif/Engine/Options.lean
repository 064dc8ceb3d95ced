import Verif.Engine.OptionSpec
import Verif.Engine.Echo
/-! # What the options of the codec promise (C132) -/
namespace Pulumi.Engine

open Wire (W)

theorem throughout_lookup {P : EV → Prop} {kvs : List (String × EV)} (h : ∀ kv ∈ kvs, Throughout P kv.2) {k : String} {e : EV}
    (hl : kvs.lookup k = some e) : Throughout P e := h (k, e) (Wire.lookup_mem hl)

theorem internal_iff (k : String) : isInternalKey k = true ↔ InternalName k := by
  unfold isInternalKey
  rw [List.isPrefixOf_iff_prefix]
  rfl

theorem unmarshalStr_wanted {o : Opts} {s : String} {e : EV} (h : unmarshalStr o s = .ok (some e)) :
    Throughout (Wanted o) e := by
  unfold unmarshalStr at h
  split at h
  · split at h
    · cases h
    · rename_i hr
      split at h
      · rename_i hk
        cases h
        exact .leaf ⟨hk, by simpa using hr⟩ (by simp) (by simp) (by simp) (by simp)
      · cases h
  · cases h
    exact .leaf trivial (by simp) (by simp) (by simp) (by simp)

theorem plainRef_wanted {o : Opts} {urn : String} {id : RefId} {e : EV} (h : plainRef o urn id = .ok (some e)) :
    Throughout (Wanted o) e := by
  cases id with
  | none => cases h; exact .leaf trivial (by simp) (by simp) (by simp) (by simp)
  | known s => cases h; exact .leaf trivial (by simp) (by simp) (by simp) (by simp)
  | unknown =>
    simp only [plainRef] at h
    split at h
    · exact unmarshalStr_wanted h
    · cases h; exact .leaf trivial (by simp) (by simp) (by simp) (by simp)

theorem secretValue_wanted {o : Opts} {e : EV} (h : Throughout (Wanted o) e) : Throughout (Wanted o) (secretValue o e) := by
  unfold secretValue
  split
  · exact .secret (by assumption) h
  · exact h

theorem plainOutput_wanted {o : Opts} {v : Option EV} {s : Bool} {e : EV} (hv : ∀ x, v = some x → Throughout (Wanted o) x)
    (h : plainOutput o v s = .ok (some e)) : Throughout (Wanted o) e := by
  unfold plainOutput at h
  have key : ∀ x : Except Err (Option EV), (∀ y, x = .ok (some y) → Throughout (Wanted o) y) →
      (x >>= fun result => pure (if s = true then result.map (secretValue o) else result)) = .ok (some e) →
      Throughout (Wanted o) e := by
    intro x hx hb
    cases x with
    | error _ => cases hb
    | ok r =>
      simp only [bind, Except.bind, pure, Except.pure, Except.ok.injEq] at hb
      cases r with
      | none => cases s <;> cases hb
      | some y =>
        cases s with
        | true => cases hb; exact secretValue_wanted (hx y rfl)
        | false => cases hb; exact hx _ rfl
  cases v with
  | some x => exact key (.ok (some x)) (fun y hy => by cases hy; exact hv _ rfl) h
  | none => exact key (unmarshalStr o unknownString) (fun y hy => unmarshalStr_wanted hy) h

theorem recover_wanted {o : Opts} {obj : List (String × EV)} {e : EV} (hw : Wanted o (.object obj))
    (hs : ∀ kv ∈ obj, Throughout (Wanted o) kv.2) (h : recover o obj = .ok (some e)) : Throughout (Wanted o) e := by
  unfold recover at h
  split at h
  · cases h; exact .object hw hs
  · split at h
    · split at h
      · cases h
      · rename_i hr
        cases hd : deserializeAsset obj with
        | error _ => rw [hd] at h; cases h
        | ok b => rw [hd] at h; cases h; exact .leaf (by simpa [Wanted] using hr) (by simp) (by simp) (by simp) (by simp)
    · split at h
      · split at h
        · cases h
        · rename_i hr
          cases hd : deserializeArchive obj with
          | error _ => rw [hd] at h; cases h
          | ok b => rw [hd] at h; cases h; exact .leaf (by simpa [Wanted] using hr) (by simp) (by simp) (by simp) (by simp)
      · split at h
        · split at h
          · cases h
          · rename_i v hv
            cases h
            exact secretValue_wanted (throughout_lookup hs hv)
        · split at h
          · unfold recoverRef at h
            cases h1 : refUrn obj with
            | error _ => rw [h1] at h; cases h
            | ok urn =>
              cases h2 : refId obj with
              | error _ => rw [h1, h2] at h; cases h
              | ok id =>
                cases h3 : refVersion obj with
                | error _ => rw [h1, h2, h3] at h; cases h
                | ok version =>
                  rw [h1, h2, h3] at h
                  simp only [bind, Except.bind] at h
                  split at h
                  · rename_i hk
                    cases h
                    exact .leaf hk (by simp) (by simp) (by simp) (by simp)
                  · exact plainRef_wanted h
          · split at h
            · unfold recoverOutput at h
              cases h1 : outSecret obj with
              | error _ => rw [h1] at h; cases h
              | ok s =>
                rw [h1] at h
                simp only [bind, Except.bind] at h
                split at h
                · rename_i hk
                  cases h2 : outDeps obj with
                  | error _ => rw [h2] at h; cases h
                  | ok deps =>
                    rw [h2] at h
                    cases h
                    refine .output hk ?_
                    cases hv : obj.lookup "value" with
                    | none => exact .leaf trivial (by simp) (by simp) (by simp) (by simp)
                    | some v => exact throughout_lookup hs hv
                · exact plainOutput_wanted (fun x hx => throughout_lookup hs hx) h
            · cases h
  · cases h

mutual
theorem unmarshal_wanted (o : Opts) : ∀ (w : W) (e : EV), unmarshal o w = .ok (some e) → Throughout (Wanted o) e
  | .null, e, h => by cases h; exact .leaf trivial (by simp) (by simp) (by simp) (by simp)
  | .bool b, e, h => by cases h; exact .leaf trivial (by simp) (by simp) (by simp) (by simp)
  | .num n, e, h => by cases h; exact .leaf trivial (by simp) (by simp) (by simp) (by simp)
  | .str s, e, h => by rw [unmarshal] at h; exact unmarshalStr_wanted h
  | .list xs, e, h => by
    rw [unmarshal] at h
    cases hl : unmarshalList o xs with
    | error _ => rw [hl] at h; cases h
    | ok es =>
      rw [hl] at h
      cases h
      exact .array trivial (unmarshalList_wanted o xs es hl)
  | .struct kvs, e, h => by
    rw [unmarshal] at h
    cases hl : unmarshalKvs o kvs with
    | error _ => rw [hl] at h; cases h
    | ok es =>
      rw [hl] at h
      obtain ⟨h1, h2⟩ := unmarshalKvs_wanted o kvs es hl
      exact recover_wanted h1 h2 h
theorem unmarshalList_wanted (o : Opts) : ∀ (xs : List W) (es : List EV), unmarshalList o xs = .ok es →
    ∀ e ∈ es, Throughout (Wanted o) e
  | [], es, h => by cases h; simp
  | x :: xs, es, h => by
    rw [unmarshalList] at h
    cases hx : unmarshal o x with
    | error _ => rw [hx] at h; cases h
    | ok y =>
      cases hl : unmarshalList o xs with
      | error _ => rw [hx, hl] at h; cases h
      | ok ys =>
        rw [hx, hl] at h
        cases h
        intro e he
        rcases List.mem_cons.1 he with rfl | he
        · cases y with
          | none => exact .leaf trivial (by simp) (by simp) (by simp) (by simp)
          | some y => exact unmarshal_wanted o x y hx
        · exact unmarshalList_wanted o xs ys hl e he
theorem unmarshalKvs_wanted (o : Opts) : ∀ (kvs : List (String × W)) (es : List (String × EV)), unmarshalKvs o kvs = .ok es →
    Wanted o (.object es) ∧ ∀ kv ∈ es, Throughout (Wanted o) kv.2
  | [], es, h => by cases h; exact ⟨by simp [Wanted], by simp⟩
  | (k, x) :: kvs, es, h => by
    rw [unmarshalKvs] at h
    cases hx : unmarshal o x with
    | error _ => rw [hx] at h; cases h
    | ok y =>
      cases hl : unmarshalKvs o kvs with
      | error _ => rw [hx, hl] at h; cases h
      | ok ys =>
        rw [hx, hl] at h
        obtain ⟨h1, h2⟩ := unmarshalKvs_wanted o kvs ys hl
        cases y with
        | none => cases h; exact ⟨h1, h2⟩
        | some v =>
          simp only [bind, Except.bind, pure, Except.pure, Except.ok.injEq] at h
          split at h
          · subst h; exact ⟨h1, h2⟩
          · rename_i hsk
            subst h
            constructor
            · intro kv hkv
              rcases List.mem_cons.1 hkv with rfl | hkv
              · refine ⟨?_, ?_⟩
                · rintro hn rfl
                  exact hsk (by simp [skips, hn, EV.isNull])
                · intro hi hp
                  exact hsk (by simp [skips, hi, (internal_iff k).2 hp])
              · exact h1 kv hkv
            · intro kv hkv
              rcases List.mem_cons.1 hkv with rfl | hkv
              · exact unmarshal_wanted o x v hx
              · exact h2 kv hkv
end

/-! ## Writing -/

theorem accepted_str {o : Opts} {s : String} (h : s ∉ reserved) : ThroughoutW (Accepted o) (.str s) :=
  .leaf (fun hm => absurd hm h) (by simp) (by simp)

theorem accepted_sig (o : Opts) {sig : String} (h : sig ∉ reserved) : ThroughoutW (Accepted o) (.str sig) := accepted_str h

instance (k : String) : Decidable (InternalName k) := inferInstanceAs (Decidable (_ <+: _))

theorem textField_name {k s : String} (h : ¬ InternalName k) : ∀ kv ∈ textField k s, ¬ InternalName kv.1 := by
  unfold textField
  split
  · simp
  · intro kv hkv
    rw [List.mem_singleton] at hkv
    subst hkv
    exact h

theorem textField_accepted {o : Opts} {k s : String} (h : s ∉ reserved) :
    ∀ kv ∈ textField k s, ThroughoutW (Accepted o) kv.2 := by
  unfold textField
  split
  · simp
  · intro kv hkv
    rw [List.mem_singleton] at hkv
    subst hkv
    exact accepted_str h

theorem accepted_asset {o : Opts} (ha : o.rejectAssets = false) {sig : String} {kvs : List (String × W)}
    (hsig : sig = assetSig ∨ sig = archiveSig) (h : ∀ kv ∈ kvs, ThroughoutW (Accepted o) kv.2) (hn : ∀ kv ∈ kvs, ¬ InternalName kv.1) :
    ThroughoutW (Accepted o) (.struct ((sigKey, .str sig) :: kvs)) := by
  refine .struct ⟨?_, ?_⟩ ?_
  · intro kv hkv _
    rcases List.mem_cons.1 hkv with rfl | hkv
    · exact (by decide : ¬ InternalName sigKey)
    · exact hn kv hkv
  · intro sig' hs
    have : ((sigKey, W.str sig) :: kvs).lookup reservedKey = some (.str sig) := List.lookup_cons_self
    rw [this] at hs
    cases hs
    rcases hsig with rfl | rfl <;> exact ⟨by simp [assetSig, archiveSig], by simp [assetSig, archiveSig],
      by simp [assetSig, archiveSig], fun _ => ha⟩
  · intro kv hkv
    rcases List.mem_cons.1 hkv with rfl | hkv
    · rcases hsig with rfl | rfl <;> exact accepted_str (by decide)
    · exact h kv hkv

theorem members_accepted {o : Opts} : ∀ ms : List (String × Blob), (∀ m ∈ ms, m.1 ≠ reservedKey) →
    (∀ m ∈ ms, ThroughoutW (Accepted o) (marshalBlob o m.2)) →
    (∀ kv ∈ marshalMembers o ms, ThroughoutW (Accepted o) kv.2) ∧ (∀ kv ∈ marshalMembers o ms, kv.1 ≠ reservedKey) ∧
      ∀ kv ∈ marshalMembers o ms, o.skipInternalKeys = true → ¬ InternalName kv.1
  | [], _, _ => ⟨by simp [marshalMembers], by simp [marshalMembers], by simp [marshalMembers]⟩
  | (k, b) :: ms, hk, ih => by
    obtain ⟨a1, a2, a3⟩ := members_accepted ms (fun m hm => hk m (List.mem_cons_of_mem _ hm))
      (fun m hm => ih m (List.mem_cons_of_mem _ hm))
    rw [marshalMembers]
    split
    · exact ⟨a1, a2, a3⟩
    · rename_i hs
      refine ⟨?_, ?_, ?_⟩ <;> intro kv hkv <;> rcases List.mem_cons.1 hkv with rfl | hkv
      · exact ih (k, b) (List.mem_cons_self ..)
      · exact a1 kv hkv
      · exact hk (k, b) (List.mem_cons_self ..)
      · exact a2 kv hkv
      · intro hi hn
        exact hs (by simp [skips, hi, (internal_iff k).2 hn])
      · exact a3 kv hkv

theorem blob_accepted {o : Opts} (ha : o.rejectAssets = false) {b : Blob} (h : CleanBlob b) :
    ThroughoutW (Accepted o) (marshalBlob o b) := by
  induction h with
  | asset h1 h2 h3 h4 =>
    rw [marshalBlob]
    simp only [List.append_assoc, List.cons_append, List.nil_append]
    refine accepted_asset ha (.inl rfl) ?_ ?_ <;> intro kv hkv <;> simp only [List.mem_append] at hkv <;>
      rcases hkv with hkv | hkv | hkv | hkv
    · exact textField_accepted h1 kv hkv
    · exact textField_accepted h2 kv hkv
    · exact textField_accepted h3 kv hkv
    · exact textField_accepted h4 kv hkv
    all_goals exact textField_name (by decide) kv hkv
  | archive h1 h2 h3 =>
    rw [marshalBlob]
    simp only [List.append_assoc, List.cons_append, List.nil_append]
    refine accepted_asset ha (.inr rfl) ?_ ?_ <;> intro kv hkv <;> simp only [List.mem_append] at hkv <;>
      rcases hkv with hkv | hkv | hkv
    · exact textField_accepted h1 kv hkv
    · exact textField_accepted h2 kv hkv
    · exact textField_accepted h3 kv hkv
    all_goals exact textField_name (by decide) kv hkv
  | @assets h p u ms h1 h2 h3 hk hc ih =>
    obtain ⟨a1, a2, a3⟩ := members_accepted ms hk ih
    rw [marshalBlob]
    simp only [List.append_assoc, List.cons_append, List.nil_append]
    refine accepted_asset ha (.inr rfl) ?_ ?_ <;> intro kv hkv <;> simp only [List.mem_append, List.mem_cons] at hkv <;>
      rcases hkv with hkv | hkv | hkv | hkv
    · exact textField_accepted h1 kv hkv
    · subst hkv
      refine .struct ⟨a3, ?_⟩ a1
      intro sig hs
      exact absurd rfl (a2 _ (Wire.lookup_mem hs))
    · exact textField_accepted h2 kv hkv
    · exact textField_accepted h3 kv hkv
    · exact textField_name (by decide) kv hkv
    · subst hkv; exact (by decide : ¬ InternalName "assets")
    · exact textField_name (by decide) kv hkv
    · exact textField_name (by decide) kv hkv

theorem marshalUnknown_accepted {o : Opts} (h1 : o.keepUnknowns = true) (h2 : o.rejectUnknowns = false) :
    ∀ (e : EV) (w : W), marshalUnknown e = .ok w → ThroughoutW (Accepted o) w
  | .bool _, w, h => by cases h; exact .leaf (fun _ => ⟨h1, h2⟩) (by simp) (by simp)
  | .num _, w, h => by cases h; exact .leaf (fun _ => ⟨h1, h2⟩) (by simp) (by simp)
  | .str _, w, h => by cases h; exact .leaf (fun _ => ⟨h1, h2⟩) (by simp) (by simp)
  | .array _, w, h => by cases h; exact .leaf (fun _ => ⟨h1, h2⟩) (by simp) (by simp)
  | .blob (.asset ..), w, h => by cases h; exact .leaf (fun _ => ⟨h1, h2⟩) (by simp) (by simp)
  | .blob (.archive ..), w, h => by cases h; exact .leaf (fun _ => ⟨h1, h2⟩) (by simp) (by simp)
  | .blob (.assets ..), w, h => by cases h; exact .leaf (fun _ => ⟨h1, h2⟩) (by simp) (by simp)
  | .object _, w, h => by cases h; exact .leaf (fun _ => ⟨h1, h2⟩) (by simp) (by simp)
  | .computed e, w, h => marshalUnknown_accepted h1 h2 e w (by rw [marshalUnknown] at h; exact h)
  | .output e _ _ _, w, h => marshalUnknown_accepted h1 h2 e w (by rw [marshalUnknown] at h; exact h)
  | .null, w, h => by cases h; exact .leaf trivial (by simp) (by simp)
  | .secret _, w, h => by cases h
  | .ref .., w, h => by cases h

theorem marshalComputed_accepted {o : Opts} {e : EV} {w : W} (h : marshalComputed o e = .ok (some w)) :
    ThroughoutW (Accepted o) w := by
  unfold marshalComputed at h
  split at h
  · cases h
  · rename_i hr
    split at h
    · rename_i hk
      cases hu : marshalUnknown e with
      | error _ => rw [hu] at h; cases h
      | ok w' =>
        rw [hu] at h
        cases h
        exact marshalUnknown_accepted hk (by simpa using hr) e w hu
    · cases h

theorem field_accepted {o : Opts} {k : String} {n : Bool} {w : Option W}
    (h : ∀ x, w = some x → ThroughoutW (Accepted o) x) : ∀ kv ∈ field o k n w, ThroughoutW (Accepted o) kv.2 := by
  cases w with
  | none => simp [field]
  | some x =>
    simp only [field]
    split
    · simp
    · intro kv hkv
      rw [List.mem_singleton] at hkv
      subst hkv
      exact h x rfl

theorem field_name {o : Opts} {k : String} {n : Bool} {w : Option W} (h : ¬ InternalName k) :
    ∀ kv ∈ field o k n w, ¬ InternalName kv.1 := by
  cases w with
  | none => simp [field]
  | some x =>
    simp only [field]
    split
    · simp
    · intro kv hkv
      rw [List.mem_singleton] at hkv
      subst hkv
      exact h

theorem marshalSecret_accepted {o : Opts} {n : Bool} {m : Except Err (Option W)}
    (hm : ∀ x, m = .ok (some x) → ThroughoutW (Accepted o) x) {w : W} (h : marshalSecret o n m = .ok (some w)) :
    ThroughoutW (Accepted o) w := by
  unfold marshalSecret at h
  split at h
  · rename_i hk
    cases m with
    | error _ => cases h
    | ok x =>
      cases h
      refine .struct ⟨?_, ?_⟩ ?_
      · intro kv hkv _
        rcases List.mem_append.1 hkv with hkv | hkv
        · rw [List.mem_singleton] at hkv
          subst hkv
          decide
        · exact field_name (by decide) kv hkv
      · intro sig hs
        have : ([(sigKey, W.str secretSig)] ++ field o "value" n x).lookup reservedKey = some (.str secretSig) :=
          List.lookup_cons_self
        rw [this] at hs
        cases hs
        exact ⟨fun _ => hk, by simp [secretSig], by simp [secretSig], by simp [secretSig]⟩
      · intro kv hkv
        rcases List.mem_append.1 hkv with hkv | hkv
        · rw [List.mem_singleton] at hkv
          subst hkv
          exact accepted_str (by decide)
        · exact field_accepted (fun y hy => hm y (by rw [hy])) kv hkv
  · exact hm w h

theorem marshalRef_accepted {o : Opts} {urn version : String} {id : RefId} (hu : urn ∉ reserved) (hv : version ∉ reserved)
    (hi : ∀ s, id = .known s → s ∉ reserved) {w : W} (h : marshalRef o urn id version = .ok (some w)) :
    ThroughoutW (Accepted o) w := by
  unfold marshalRef at h
  split at h
  · rename_i hk
    simp only [Except.ok.injEq, Option.some.injEq] at h
    subst h
    refine .struct ⟨?_, ?_⟩ ?_
    · intro kv hkv _
      simp only [List.mem_append, List.mem_cons, List.not_mem_nil, or_false] at hkv
      rcases hkv with ((rfl | rfl) | hkv) | hkv
      · decide
      · exact (by decide : ¬ InternalName "urn")
      · cases id with
        | none => simp at hkv
        | known s => simp only [List.mem_singleton] at hkv; subst hkv; exact (by decide : ¬ InternalName "id")
        | unknown => simp only [List.mem_singleton] at hkv; subst hkv; decide
      · split at hkv
        · simp at hkv
        · simp only [List.mem_singleton] at hkv; subst hkv; exact (by decide : ¬ InternalName "packageVersion")
    · intro sig hs
      rw [List.append_assoc, List.cons_append] at hs
      have := hs.symm.trans (List.lookup_cons_self (k := sigKey) (b := W.str resourceSig))
      cases this
      exact ⟨by simp [resourceSig], fun _ => hk, by simp [resourceSig], by simp [resourceSig]⟩
    · intro kv hkv
      simp only [List.mem_append, List.mem_cons, List.not_mem_nil, or_false] at hkv
      rcases hkv with ((rfl | rfl) | hkv) | hkv
      · exact accepted_str (by decide)
      · exact accepted_str hu
      · cases id with
        | none => simp at hkv
        | known s => simp only [List.mem_singleton] at hkv; subst hkv; exact accepted_str (hi s rfl)
        | unknown => simp only [List.mem_singleton] at hkv; subst hkv; exact accepted_str (by decide)
      · split at hkv
        · simp at hkv
        · simp only [List.mem_singleton] at hkv; subst hkv; exact accepted_str hv
  · cases id with
    | none => cases h; exact accepted_str hu
    | known s => cases h; exact accepted_str (hi s rfl)
    | unknown => exact marshalComputed_accepted h

theorem outputStruct_accepted {o : Opts} (hk : o.keepOutputValues = true) {s : Bool} {deps : List String}
    (hd : ∀ d ∈ deps, d ∉ reserved) {fs : List (String × W)} (hf : ∀ kv ∈ fs, ThroughoutW (Accepted o) kv.2)
    (hn : ∀ kv ∈ fs, ¬ InternalName kv.1) : ThroughoutW (Accepted o) (outputStruct s deps fs) := by
  unfold outputStruct
  refine .struct ⟨?_, ?_⟩ ?_
  · intro kv hkv _
    simp only [List.mem_append, List.mem_cons, List.not_mem_nil, or_false] at hkv
    rcases hkv with ((rfl | hkv) | hkv) | hkv
    · decide
    · exact hn kv hkv
    · split at hkv
      · simp only [List.mem_singleton] at hkv; subst hkv; decide
      · simp at hkv
    · split at hkv
      · simp at hkv
      · simp only [List.mem_singleton] at hkv; subst hkv; exact (by decide : ¬ InternalName "dependencies")
  · intro sig hs
    simp only [List.append_assoc, List.cons_append, List.nil_append] at hs
    have := hs.symm.trans (List.lookup_cons_self (k := sigKey) (b := W.str outputSig))
    cases this
    exact ⟨by simp [outputSig], by simp [outputSig], fun _ => hk, by simp [outputSig]⟩
  · intro kv hkv
    simp only [List.mem_append, List.mem_cons, List.not_mem_nil, or_false] at hkv
    rcases hkv with ((rfl | hkv) | hkv) | hkv
    · exact accepted_str (by decide)
    · exact hf kv hkv
    · split at hkv
      · simp only [List.mem_singleton] at hkv; subst hkv; exact .leaf trivial (by simp) (by simp)
      · simp at hkv
    · split at hkv
      · simp at hkv
      · simp only [List.mem_singleton] at hkv
        subst hkv
        refine .list trivial ?_
        intro w hw
        obtain ⟨d, hdm, rfl⟩ := List.mem_map.1 hw
        exact accepted_str (hd d hdm)

theorem ordinary_inv {e : EV} (h : Throughout Ordinary e) : Ordinary e := by
  cases h <;> assumption

mutual
theorem marshal_accepted (o : Opts) : ∀ (e : EV) (w : W), Throughout Ordinary e → marshal o e = .ok (some w) →
    ThroughoutW (Accepted o) w
  | .null, w, _, h => by cases h; exact .leaf trivial (by simp) (by simp)
  | .bool b, w, _, h => by cases h; exact .leaf trivial (by simp) (by simp)
  | .num n, w, _, h => by cases h; exact .leaf trivial (by simp) (by simp)
  | .str s, w, hc, h => by cases h; exact accepted_str (ordinary_inv hc)
  | .array es, w, hc, h => by
    rw [marshal] at h
    cases hl : marshalList o es with
    | error _ => rw [hl] at h; cases h
    | ok ws =>
      rw [hl] at h
      cases h
      refine .list trivial (marshalList_accepted o es ws ?_ hl)
      cases hc with
      | leaf _ h1 => exact absurd rfl (h1 _)
      | array _ h1 => exact h1
  | .object kvs, w, hc, h => by
    rw [marshal] at h
    cases hl : marshalKvs o kvs with
    | error _ => rw [hl] at h; cases h
    | ok ws =>
      rw [hl] at h
      cases h
      have hin : ∀ kv ∈ kvs, Throughout Ordinary kv.2 := by
        cases hc with
        | leaf _ _ h1 => exact absurd rfl (h1 _)
        | object _ h1 => exact h1
      obtain ⟨a1, a2, a3⟩ := marshalKvs_accepted o kvs ws hin hl
      refine .struct ⟨a3, ?_⟩ a1
      intro sig hs
      obtain ⟨kv, hkv, he⟩ := a2 _ (Wire.lookup_mem hs)
      exact absurd he ((ordinary_inv hc) kv hkv)
  | .blob b, w, hc, h => by
    rw [marshal] at h
    split at h
    · cases h
    · rename_i ha
      cases h
      exact blob_accepted (by simpa using ha) (ordinary_inv hc)
  | .computed e, w, _, h => by rw [marshal] at h; exact marshalComputed_accepted h
  | .secret e, w, hc, h => by
    have hin : Throughout Ordinary e := by
      cases hc with
      | leaf _ _ _ h1 => exact absurd rfl (h1 _)
      | secret _ h1 => exact h1
    rw [marshal] at h
    exact marshalSecret_accepted (fun x hx => marshal_accepted o e x hin hx) h
  | .ref urn id version, w, hc, h => by
    obtain ⟨h1, h2, h3⟩ := ordinary_inv hc
    rw [marshal] at h
    exact marshalRef_accepted h1 h2 h3 h
  | .output e known secret deps, w, hc, h => by
    have hin : Throughout Ordinary e := by
      cases hc with
      | leaf _ _ _ _ h1 => exact absurd rfl (h1 _ _ _ _)
      | output _ h1 => exact h1
    have hm := fun x hx => marshal_accepted o e x hin hx
    rw [marshal] at h
    split at h
    · rename_i hk
      cases hv : valueField o known e.isNull (marshal o e) with
      | error _ => rw [hv] at h; cases h
      | ok fs =>
        rw [hv] at h
        cases h
        refine outputStruct_accepted hk (ordinary_inv hc) ?_ ?_ <;> unfold valueField at hv
        split at hv
        · cases hm' : marshal o e with
          | error _ => rw [hm'] at hv; cases hv
          | ok x =>
            rw [hm'] at hv
            cases hv
            exact field_accepted (fun y hy => hm y (by rw [hm', hy]))
        · cases hv; simp
        · split at hv
          · cases hm' : marshal o e with
            | error _ => rw [hm'] at hv; cases hv
            | ok x =>
              rw [hm'] at hv
              cases hv
              exact field_name (by decide)
          · cases hv; simp
    · split at h
      · split at h
        · exact marshalSecret_accepted hm h
        · exact marshalSecret_accepted (fun x hx => marshalComputed_accepted hx) h
      · split at h
        · exact hm w h
        · exact marshalComputed_accepted h
theorem marshalList_accepted (o : Opts) : ∀ (es : List EV) (ws : List W), (∀ e ∈ es, Throughout Ordinary e) →
    marshalList o es = .ok ws → ∀ w ∈ ws, ThroughoutW (Accepted o) w
  | [], ws, _, h => by cases h; simp
  | e :: es, ws, hc, h => by
    rw [marshalList] at h
    cases hx : marshal o e with
    | error _ => rw [hx] at h; cases h
    | ok y =>
      cases hl : marshalList o es with
      | error _ => rw [hx, hl] at h; cases h
      | ok ys =>
        rw [hx, hl] at h
        cases h
        intro w hw
        rcases List.mem_append.1 hw with hw | hw
        · cases y with
          | none => simp at hw
          | some y =>
            simp only [Option.toList, List.mem_singleton] at hw
            subst hw
            exact marshal_accepted o e _ (hc e (List.mem_cons_self ..)) hx
        · exact marshalList_accepted o es ys (fun x hx => hc x (List.mem_cons_of_mem _ hx)) hl w hw
theorem marshalKvs_accepted (o : Opts) : ∀ (kvs : List (String × EV)) (ws : List (String × W)),
    (∀ kv ∈ kvs, Throughout Ordinary kv.2) → marshalKvs o kvs = .ok ws →
    (∀ kv ∈ ws, ThroughoutW (Accepted o) kv.2) ∧ (∀ kv ∈ ws, ∃ kv' ∈ kvs, kv'.1 = kv.1) ∧
      ∀ kv ∈ ws, o.skipInternalKeys = true → ¬ InternalName kv.1
  | [], ws, _, h => by cases h; exact ⟨by simp, by simp, by simp⟩
  | (k, e) :: kvs, ws, hc, h => by
    rw [marshalKvs] at h
    have hrest := fun x hx => hc x (List.mem_cons_of_mem _ hx)
    split at h
    · obtain ⟨a1, a2, a3⟩ := marshalKvs_accepted o kvs ws hrest h
      refine ⟨a1, fun kv hkv => ?_, a3⟩
      obtain ⟨kv', h1, h2⟩ := a2 kv hkv
      exact ⟨kv', List.mem_cons_of_mem _ h1, h2⟩
    · rename_i hsk
      cases hx : marshal o e with
      | error _ => rw [hx] at h; cases h
      | ok y =>
        cases hl : marshalKvs o kvs with
        | error _ => rw [hx, hl] at h; cases h
        | ok ys =>
          rw [hx, hl] at h
          cases h
          obtain ⟨a1, a2, a3⟩ := marshalKvs_accepted o kvs ys hrest hl
          have hy : ∀ kv ∈ (y.map (k, ·)).toList, kv.1 = k ∧ y = some kv.2 := by
            cases y with
            | none => simp
            | some y => intro kv hkv; simp only [Option.map, Option.toList, List.mem_singleton] at hkv; subst hkv; simp
          refine ⟨?_, ?_, ?_⟩ <;> intro kv hkv <;> rcases List.mem_append.1 hkv with hkv | hkv
          · exact marshal_accepted o e _ (hc (k, e) (List.mem_cons_self ..)) (by rw [hx, (hy kv hkv).2])
          · exact a1 kv hkv
          · exact ⟨(k, e), List.mem_cons_self .., (hy kv hkv).1.symm⟩
          · obtain ⟨kv', h1, h2⟩ := a2 kv hkv
            exact ⟨kv', List.mem_cons_of_mem _ h1, h2⟩
          · rw [(hy kv hkv).1]
            intro hi hn
            exact hsk (by simp [skips, hi, (internal_iff k).2 hn])
          · exact a3 kv hkv
end

/-! ## Refusing unknowns -/

theorem marshalComputed_refused {o : Opts} (hr : o.rejectUnknowns = true) (e : EV) :
    marshalComputed o e = .error .unknown := by
  unfold marshalComputed
  rw [if_pos hr]

mutual
theorem marshal_refuses {o : Opts} (hr : o.rejectUnknowns = true) (ha : o.rejectAssets = false) :
    ∀ e : EV, (HasUnknown o e ∧ marshal o e = .error .unknown) ∨ (¬ HasUnknown o e ∧ ∃ w, marshal o e = .ok (some w))
  | .null => .inr ⟨fun h => (by cases h), _, by rw [marshal]⟩
  | .bool _ => .inr ⟨fun h => (by cases h), _, by rw [marshal]⟩
  | .num _ => .inr ⟨fun h => (by cases h), _, by rw [marshal]⟩
  | .str _ => .inr ⟨fun h => (by cases h), _, by rw [marshal]⟩
  | .blob _ => .inr ⟨fun h => (by cases h), _, by rw [marshal, ha]; rfl⟩
  | .computed e => .inl ⟨.computed, by rw [marshal]; exact marshalComputed_refused hr e⟩
  | .array es => by
    rw [marshal]
    rcases marshalList_refuses hr ha es with ⟨⟨e, he, hu⟩, h⟩ | ⟨hn, ws, h⟩
    · exact .inl ⟨.array he hu, by rw [h]; rfl⟩
    · exact .inr ⟨fun hu => by cases hu with | array he hu => exact hn _ he hu, _, by rw [h]; rfl⟩
  | .object kvs => by
    rw [marshal]
    rcases marshalKvs_refuses hr ha kvs with ⟨⟨k, e, he, hk, hu⟩, h⟩ | ⟨hn, ws, h⟩
    · exact .inl ⟨.object he hk hu, by rw [h]; rfl⟩
    · exact .inr ⟨fun hu => by cases hu with | object he hk hu => exact hn _ _ he hk hu, _, by rw [h]; rfl⟩
  | .secret e => by
    rw [marshal]
    rcases marshal_refuses hr ha e with ⟨hu, h⟩ | ⟨hn, w, h⟩
    · refine .inl ⟨.secret hu, ?_⟩
      rw [h]
      unfold marshalSecret
      split <;> rfl
    · refine .inr ⟨fun hu => by cases hu with | secret hu => exact hn hu, ?_⟩
      rw [h]
      unfold marshalSecret
      split
      · exact ⟨_, rfl⟩
      · exact ⟨_, rfl⟩
  | .ref urn id version => by
    rw [marshal]
    unfold marshalRef
    by_cases hk : o.keepResources = true
    · rw [if_pos hk]
      exact .inr ⟨fun hu => (by cases hu with | reference h => rw [hk] at h; cases h), _, rfl⟩
    · rw [if_neg hk]
      cases id with
      | none => exact .inr ⟨fun hu => (by cases hu), _, rfl⟩
      | known s => exact .inr ⟨fun hu => (by cases hu), _, rfl⟩
      | unknown => exact .inl ⟨.reference (by simpa using hk), marshalComputed_refused hr _⟩
  | .output e known secret deps => by
    rw [marshal]
    by_cases hk : o.keepOutputValues = true
    · rw [if_pos hk]
      unfold valueField
      cases known with
      | false =>
        exact .inr ⟨fun hu => (by cases hu with | output h => rw [hk] at h; cases h), _, rfl⟩
      | true =>
        rcases marshal_refuses hr ha e with ⟨hu, h⟩ | ⟨hn, w, h⟩
        · exact .inl ⟨.known hu, by rw [h]; rfl⟩
        · exact .inr ⟨fun hu => by cases hu with | known hu => exact hn hu, _, by rw [h]; rfl⟩
    · rw [if_neg hk]
      cases known with
      | false =>
        refine .inl ⟨.output (by simpa using hk), ?_⟩
        rw [marshalComputed_refused hr]
        cases secret with
        | true => unfold marshalSecret; simp only [if_true, Bool.false_eq_true, if_false]; split <;> rfl
        | false => rfl
      | true =>
        rcases marshal_refuses hr ha e with ⟨hu, h⟩ | ⟨hn, w, h⟩
        · refine .inl ⟨.known hu, ?_⟩
          rw [h]
          cases secret with
          | true => unfold marshalSecret; simp only [if_true]; split <;> rfl
          | false => rfl
        · refine .inr ⟨fun hu => by cases hu with | known hu => exact hn hu, ?_⟩
          rw [h]
          cases secret with
          | true => unfold marshalSecret; simp only [if_true]; split <;> exact ⟨_, rfl⟩
          | false => exact ⟨_, rfl⟩
theorem marshalList_refuses {o : Opts} (hr : o.rejectUnknowns = true) (ha : o.rejectAssets = false) :
    ∀ es : List EV, ((∃ e ∈ es, HasUnknown o e) ∧ marshalList o es = .error .unknown) ∨
      ((∀ e ∈ es, ¬ HasUnknown o e) ∧ ∃ ws, marshalList o es = .ok ws)
  | [] => .inr ⟨by simp, _, by rw [marshalList]⟩
  | e :: es => by
    rw [marshalList]
    rcases marshal_refuses hr ha e with ⟨hu, h⟩ | ⟨hn, w, h⟩
    · exact .inl ⟨⟨e, List.mem_cons_self .., hu⟩, by rw [h]; rfl⟩
    · rcases marshalList_refuses hr ha es with ⟨⟨x, hx, hu⟩, h'⟩ | ⟨hn', ws, h'⟩
      · exact .inl ⟨⟨x, List.mem_cons_of_mem _ hx, hu⟩, by rw [h, h']; rfl⟩
      · refine .inr ⟨?_, _, by rw [h, h']; rfl⟩
        intro x hx
        rcases List.mem_cons.1 hx with rfl | hx
        · exact hn
        · exact hn' x hx
theorem marshalKvs_refuses {o : Opts} (hr : o.rejectUnknowns = true) (ha : o.rejectAssets = false) :
    ∀ kvs : List (String × EV),
      ((∃ k e, (k, e) ∈ kvs ∧ ¬ (o.skipInternalKeys = true ∧ InternalName k) ∧ HasUnknown o e) ∧
        marshalKvs o kvs = .error .unknown) ∨
      ((∀ k e, (k, e) ∈ kvs → ¬ (o.skipInternalKeys = true ∧ InternalName k) → ¬ HasUnknown o e) ∧
        ∃ ws, marshalKvs o kvs = .ok ws)
  | [] => .inr ⟨by simp, _, by rw [marshalKvs]⟩
  | (k, e) :: kvs => by
    rw [marshalKvs]
    by_cases hs : skips o k e.isNull = true
    · rw [if_pos hs]
      rcases marshalKvs_refuses hr ha kvs with ⟨⟨k', x, hx, hk, hu⟩, h'⟩ | ⟨hn', ws, h'⟩
      · exact .inl ⟨⟨k', x, List.mem_cons_of_mem _ hx, hk, hu⟩, h'⟩
      · refine .inr ⟨?_, ws, h'⟩
        intro k' x hx hk hu
        rcases List.mem_cons.1 hx with he | hx
        · cases he
          simp only [skips, Bool.or_eq_true, Bool.and_eq_true] at hs
          rcases hs with ⟨_, hs⟩ | ⟨h1, h2⟩
          · cases hu <;> cases hs
          · exact hk ⟨h1, (internal_iff k).1 h2⟩
        · exact hn' k' x hx hk hu
    · rw [if_neg hs]
      have hk : ¬ (o.skipInternalKeys = true ∧ InternalName k) := fun ⟨h1, h2⟩ =>
        hs (by simp [skips, h1, (internal_iff k).2 h2])
      rcases marshal_refuses hr ha e with ⟨hu, h⟩ | ⟨hn, w, h⟩
      · exact .inl ⟨⟨k, e, List.mem_cons_self .., hk, hu⟩, by rw [h]; rfl⟩
      · rcases marshalKvs_refuses hr ha kvs with ⟨⟨k', x, hx, hk', hu⟩, h'⟩ | ⟨hn', ws, h'⟩
        · exact .inl ⟨⟨k', x, List.mem_cons_of_mem _ hx, hk', hu⟩, by rw [h, h']; rfl⟩
        · refine .inr ⟨?_, _, by rw [h, h']; rfl⟩
          intro k' x hx hk'
          rcases List.mem_cons.1 hx with he | hx
          · cases he; exact hn
          · exact hn' k' x hx hk'
end

/-! ## C132 -/

/-- **C132.** Whatever is sent, a reader gets only what it was asked to read: no secrets, unknowns, references, Outputs,
assets, null properties or internal names where the options exclude them, at any depth. -/
theorem reader_gets_wanted {o : Opts} {w : W} {e : EV} (h : unmarshal o w = .ok (some e)) : Throughout (Wanted o) e :=
  unmarshal_wanted o w e h

/-- **C132.** The same of the properties of a request. -/
theorem reader_gets_wanted_properties {o : Opts} {ws : List (String × W)} {es : List (String × EV)}
    (h : unmarshalKvs o ws = .ok es) : Throughout (Wanted o) (.object es) :=
  .object (unmarshalKvs_wanted o ws es h).1 (unmarshalKvs_wanted o ws es h).2

/-- **C132.** And a writer sends only what it was asked to send: nothing that is marked as a secret, an unknown, a
reference, an Output or an asset where the options exclude it, at any depth. -/
theorem writer_sends_accepted {o : Opts} {e : EV} {w : W} (hc : Throughout Ordinary e) (h : marshal o e = .ok (some w)) :
    ThroughoutW (Accepted o) w := marshal_accepted o e w hc h

/-- **C132.** A writer that is asked to refuse unknowns refuses exactly the values that have one: it reports it, wherever
in the value it is, and what has none is written in full. -/
theorem writer_refuses_unknowns {o : Opts} (hr : o.rejectUnknowns = true) (ha : o.rejectAssets = false) (e : EV) :
    (marshal o e = .error .unknown ↔ HasUnknown o e) ∧ ((∃ w, marshal o e = .ok (some w)) ↔ ¬ HasUnknown o e) := by
  rcases marshal_refuses hr ha e with ⟨hu, h⟩ | ⟨hn, w, h⟩
  · rw [h]
    exact ⟨⟨fun _ => hu, fun _ => rfl⟩, fun ⟨_, h'⟩ => (by cases h'), fun hn => absurd hu hn⟩
  · rw [h]
    exact ⟨⟨fun h' => (by cases h'), fun hu => absurd hu hn⟩, fun _ => hn, fun _ => ⟨w, rfl⟩⟩

/-! Non-vacuity: a secret that holds a reference, read by a reader that wants neither, and written for one; a null
property that stays because it was a secret. -/

/-- A secret reference, the null and an internal name. -/
def optionSample : EV :=
  .object [("a", .secret (.ref "urn:a" (.known "i") "")), ("b", .null), ("__defaults", .array []), ("c", .computed (.str ""))]

example : Throughout Ordinary optionSample := by
  refine .object (by simp [Ordinary, reservedKey]) ?_
  intro kv hkv
  simp only [List.mem_cons, List.not_mem_nil, or_false] at hkv
  rcases hkv with rfl | rfl | rfl | rfl
  · exact .secret trivial (.leaf ⟨by decide, by decide, fun s hs => by cases hs; decide⟩ (by simp) (by simp) (by simp) (by simp))
  · exact .leaf trivial (by simp) (by simp) (by simp) (by simp)
  · exact .array trivial (by simp)
  · exact .leaf trivial (by simp) (by simp) (by simp) (by simp)

/-- Sent to somebody who understands nothing of this, only the ID is left. -/
example : marshal { skipNulls := true, skipInternalKeys := true } optionSample
    = .ok (some (.struct [("a", .str "i")])) := rfl

/-- And read by somebody who understands nothing of it, too. -/
example : unmarshal { skipNulls := true, skipInternalKeys := true }
    (.struct [("a", .struct [(sigKey, .str secretSig), ("value", .str "s")]), ("__defaults", .list []), ("b", .null),
      ("c", .str unknownString)]) = .ok (some (.object [("a", .str "s")])) := rfl

example : marshal { rejectUnknowns := true } optionSample = .error .unknown :=
  (writer_refuses_unknowns rfl rfl _).1.2 (.object (k := "c") (e := .computed (.str "")) (by simp) (by simp) .computed)

example : ¬ HasUnknown { rejectUnknowns := true } (.secret (.ref "urn:a" (.known "i") "")) := by
  intro h
  cases h with
  | secret h => cases h

/-- Nulls that were secrets are not skipped. -/
theorem secret_null_stays : marshal { skipNulls := true } (.object [("a", .secret .null), ("b", .null)])
    = .ok (some (.struct [("a", .null)])) := rfl

end Pulumi.Engine
