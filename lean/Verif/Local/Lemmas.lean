import Verif.Local.Spec
import Verif.Cli.Args

/-! # Lemmas on settings files -/

namespace Pulumi.Local

open Pulumi.Cli (Text Arg lit)

/-! ## Names -/

theorem parts_cons (c : Char) (r : Text) : parts (c :: r)
    = if c = '/' then [] :: parts r
      else match parts r with
        | [] => [[c]]
        | t :: ts => (c :: t) :: ts := rfl

theorem parts_ne_nil (n : Text) : parts n ≠ [] := by
  cases n with
  | nil => simp [parts]
  | cons c r =>
    unfold parts
    by_cases h : c = '/'
    · rw [if_pos h]; simp
    · rw [if_neg h]
      cases parts r <;> simp

theorem settingsName_slash (p : Text) (r : Text) :
    settingsName (p ++ '/' :: r) = settingsName r := by
  have key : (parts (p ++ '/' :: r)).getLast? = (parts r).getLast? := by
    induction p with
    | nil =>
      show (parts ('/' :: r)).getLast? = _
      rw [parts_cons]
      rw [if_pos rfl, List.getLast?_cons_of_ne_nil (parts_ne_nil r)]
    | cons c p ih =>
      rw [List.cons_append]
      rw [parts_cons]
      by_cases h : c = '/'
      · rw [if_pos h, List.getLast?_cons_of_ne_nil (parts_ne_nil _), ih]
      · rw [if_neg h]
        match hp : parts (p ++ '/' :: r) with
        | [] => exact absurd hp (parts_ne_nil _)
        | [t] =>
          exfalso
          clear ih
          have : ∀ q : Text, 2 ≤ (parts (q ++ '/' :: r)).length := by
            intro q
            induction q with
            | nil =>
              show 2 ≤ (parts ('/' :: r)).length
              rw [parts_cons]
              rw [if_pos rfl]
              have := List.length_pos_iff.2 (parts_ne_nil r)
              simp only [List.length_cons]; omega
            | cons d q ih =>
              rw [List.cons_append]
              rw [parts_cons]
              by_cases h : d = '/'
              · rw [if_pos h]; simp only [List.length_cons]; omega
              · rw [if_neg h]
                match hq : parts (q ++ '/' :: r) with
                | [] => exact absurd hq (parts_ne_nil _)
                | t :: ts => rw [hq] at ih; simpa using ih
          have := this p
          rw [hp] at this
          simp at this
        | t :: u :: ts =>
          rw [hp] at ih
          simp only [List.getLast?_cons_cons] at ih ⊢
          exact ih
  unfold settingsName
  rw [key]
  cases h : (parts r).getLast? with
  | none => exact absurd (List.getLast?_eq_none_iff.1 h) (parts_ne_nil r)
  | some t => rfl

theorem parts_plain (n : Text) (h : '/' ∉ n) : parts n = [n] := by
  induction n with
  | nil => rfl
  | cons c r ih =>
    unfold parts
    rw [if_neg (fun e => h (by simp [e])), ih (fun e => h (by simp [e]))]

theorem settingsName_last (name part : Text) (h : LastPart name part) :
    settingsName name = part := by
  obtain ⟨h1, h2⟩ := h
  have hp : settingsName part = part := by simp [settingsName, parts_plain part h2]
  rcases h1 with rfl | ⟨p, rfl⟩
  · exact hp
  · rw [settingsName_slash, hp]

/-- Every name has a last part. -/
theorem lastPart_exists (name : Text) : LastPart name (settingsName name) := by
  have : ∃ part, LastPart name part := by
    induction name with
    | nil => exact ⟨[], Or.inl rfl, by simp⟩
    | cons c r ih =>
      obtain ⟨part, h1, h2⟩ := ih
      rcases h1 with rfl | ⟨p, rfl⟩
      · by_cases hc : c = '/'
        · exact ⟨r, Or.inr ⟨[], by simp [hc]⟩, h2⟩
        · exact ⟨c :: r, Or.inl rfl, by
            intro hm
            rcases List.mem_cons.1 hm with e | e
            · exact hc e.symm
            · exact h2 e⟩
      · exact ⟨part, Or.inr ⟨c :: p, rfl⟩, h2⟩
  obtain ⟨part, h⟩ := this
  rw [settingsName_last name part h]
  exact h

/-! ## File names -/

theorem ext_mem (f : Files) (base : Text) : foundExt f base ∈ extensions := by
  unfold foundExt
  cases h : extensions.find? (fun e => (f (base ++ e)).isSome) with
  | none => decide
  | some e => exact List.mem_of_find?_eq_some h

/-- A name of a settings file says its base: the extensions do not overlap. -/
theorem base_inj (a b e e' : Text) (he : e ∈ extensions) (he' : e' ∈ extensions)
    (h : a ++ e = b ++ e') : a = b := by
  have key : e.reverse.take 4 ≠ e'.reverse.take 4 ∨ e = e' := by
    have h1 : ∀ x ∈ extensions, ∀ y ∈ extensions,
        x.reverse.take 4 ≠ y.reverse.take 4 ∨ x = y := by decide
    exact h1 e he e' he'
  have hl : ∀ x ∈ extensions, 4 ≤ x.reverse.length := by decide
  rcases key with k | rfl
  · exfalso
    apply k
    have h2 := congrArg (fun t => t.reverse.take 4) h
    simp only [List.reverse_append] at h2
    rwa [List.take_append_of_le_length (hl e he), List.take_append_of_le_length (hl e' he')] at h2
  · exact List.append_cancel_right h

theorem project_ne_stack (name : Text) : projectBase ≠ stackBase name := by
  intro h
  have h7 : ("Pulumi".toList ++ ['.'] ++ settingsName name).length = 7 + (settingsName name).length := by
    rw [List.length_append, List.length_append]
    rfl
  have e : stackBase name = "Pulumi".toList ++ ['.'] ++ settingsName name := by
    unfold stackBase
    rw [show "Pulumi.".toList = "Pulumi".toList ++ ['.'] by decide]
  rw [e] at h
  rw [← h] at h7
  have h6 : projectBase.length = 6 := by decide
  omega

/-- Writing a file of another base changes neither what is read nor where. -/
theorem firstFile_write (f : Files) (a b e : Text) (c : Content) (he : e ∈ extensions)
    (h : a ≠ b) : firstFile (f.write (a ++ e) c) b = firstFile f b := by
  have hf : ∀ x ∈ extensions, f.write (a ++ e) c (b ++ x) = f (b ++ x) := by
    intro x hx
    unfold Files.write
    rw [if_neg]
    intro h'
    exact h (base_inj b a x e hx he h').symm
  unfold firstFile
  have h2 : extensions.find? (fun x => (f.write (a ++ e) c (b ++ x)).isSome)
      = extensions.find? (fun x => (f (b ++ x)).isSome) := by
    have : ∀ l : List Text, (∀ x ∈ l, x ∈ extensions) →
        l.find? (fun x => (f.write (a ++ e) c (b ++ x)).isSome)
          = l.find? (fun x => (f (b ++ x)).isSome) := by
      intro l hl
      induction l with
      | nil => rfl
      | cons x r ih =>
        simp only [List.find?_cons, hf x (hl x (by simp))]
        rw [ih (fun y hy => hl y (by simp [hy]))]
    exact this _ (fun _ h => h)
  rw [h2]
  cases hh : extensions.find? (fun x => (f (b ++ x)).isSome) with
  | none => rfl
  | some x => exact hf x (List.mem_of_find?_eq_some hh)

theorem find_same (g h : Text → Bool) (l : List Text) (y : Text) (hg : l.find? g = some y)
    (ho : ∀ x, x ≠ y → h x = g x) (hy : h y = true) : l.find? h = some y := by
  induction l with
  | nil => simp at hg
  | cons x r ih =>
    by_cases hx : x = y
    · rw [List.find?_cons, hx, hy]
    · rw [List.find?_cons, ho x hx]
      rw [List.find?_cons] at hg
      cases hgx : g x with
      | true => rw [hgx] at hg; exact absurd (Option.some.inj hg) hx
      | false => rw [hgx] at hg; exact ih hg

theorem find_written (g h : Text → Bool) (d : Text) (r : List Text)
    (ho : ∀ x, x ≠ ((d :: r).find? g).getD d → h x = g x)
    (he : h (((d :: r).find? g).getD d) = true) :
    (d :: r).find? h = some (((d :: r).find? g).getD d) := by
  cases hf : (d :: r).find? g with
  | none =>
    rw [hf] at he
    rw [List.find?_cons]
    simp only [Option.getD_none] at he ⊢
    rw [he]
  | some y =>
    rw [hf] at ho he
    exact find_same g h _ y hf ho he

/-- What is written under the extension found is what is read next. -/
theorem firstFile_written (f : Files) (b : Text) (c : Content) :
    firstFile (f.write (b ++ foundExt f b) c) b = some c := by
  have hw : f.write (b ++ foundExt f b) c (b ++ foundExt f b) = some c := by
    simp [Files.write]
  have ho : ∀ x, x ≠ foundExt f b → f.write (b ++ foundExt f b) c (b ++ x) = f (b ++ x) := by
    intro x hx
    unfold Files.write
    rw [if_neg]
    intro h
    exact hx (List.append_cancel_left h)
  have hfind : extensions.find? (fun x => (f.write (b ++ foundExt f b) c (b ++ x)).isSome)
      = some (foundExt f b) :=
    find_written (fun x => (f (b ++ x)).isSome) _ ".yaml".toList [".yml".toList, ".json".toList]
      (fun x hx => by rw [ho x hx]) (by show (f.write _ c (b ++ foundExt f b)).isSome = true; rw [hw]; rfl)
  unfold firstFile
  rw [hfind]
  exact hw

theorem stackBase_last (name part : Text) (h : LastPart name part) :
    stackBase name = "Pulumi.".toList ++ part := by
  unfold stackBase
  exact congrArg _ (settingsName_last name part h)

theorem ext_mem' (f : Files) (name : Text) :
    foundExt f (stackBase name) ∈ [".yaml".toList, ".yml".toList, ".json".toList] := by
  have := ext_mem f (stackBase name)
  rw [extensions] at this
  exact this

theorem save_other (f : Files) (name : Text) (s : StackSettings) (g : Text)
    (h : g ≠ stackBase name ++ foundExt f (stackBase name)) :
    (saveStackSettings f name s).1 g = f g := by
  unfold saveStackSettings
  exact if_neg h

theorem no_slash_append (a b : Text) (ha : '/' ∉ a) (hb : '/' ∉ b) : '/' ∉ a ++ b := by
  intro h
  rcases List.mem_append.1 h with h | h
  · exact ha h
  · exact hb h

theorem base_no_slash (f : Files) (name part : Text) (h : LastPart name part) :
    '/' ∉ stackBase name ++ foundExt f (stackBase name) := by
  have h1 : '/' ∉ "Pulumi.".toList := by decide
  have h2 : ∀ e ∈ extensions, '/' ∉ e := by decide
  refine no_slash_append _ _ ?_ (h2 _ (ext_mem _ _))
  unfold stackBase
  rw [settingsName_last name part h]
  exact no_slash_append _ _ h1 h.2

/-! ## Stack settings -/

theorem hasObjEntries_append (a b : List (Text × D)) :
    hasObjEntries (a ++ b) = (hasObjEntries a || hasObjEntries b) := by
  induction a with
  | nil => rfl
  | cons e r ih =>
    obtain ⟨k, d⟩ := e
    simp only [List.cons_append, hasObjEntries, ih, Bool.or_assoc]

theorem hasObj_field (key : String) (d : D) (h : TextOrNone d) :
    hasObjEntries (writeField key d) = false := by
  cases h with
  | none => rfl
  | text t =>
    unfold writeField
    split <;> rfl

theorem hasObj_entries (c : List (Text × Val)) (h : ∀ e ∈ c, TextVal e.2) :
    hasObjEntries (c.map writeEntry) = false := by
  induction c with
  | nil => rfl
  | cons e r ih =>
    obtain ⟨k, v⟩ := e
    have hv := h (k, v) (by simp)
    cases hv <;>
      simp only [List.map_cons, writeEntry, hasObjEntries, D.hasObj, Bool.false_or,
        ih (fun e he => h e (by simp [he]))]

theorem hasObj_config (c : Option (List (Text × Val))) (h : ∀ e ∈ c.getD [], TextVal e.2) :
    hasObjEntries (writeConfig c) = false := by
  match c with
  | none => rfl
  | some [] => rfl
  | some (e :: r) =>
    simp only [writeConfig, hasObjEntries, D.hasObj, hasObj_entries (e :: r) h, Bool.or_false]

theorem hasObj_serialize (s : StackSettings) (h : Texts s) : (serialize s).hasObj = false := by
  simp only [serialize, D.hasObj, hasObjEntries_append, hasObj_field _ _ h.provider,
    hasObj_field _ _ h.key, hasObj_field _ _ h.salt, hasObj_config _ h.config, Bool.or_false]

theorem get_append (k : Text) (a b : List (Text × D)) :
    get k (a ++ b) = if hasKey k a then get k a else get k b := by
  induction a with
  | nil => rfl
  | cons e r ih =>
    obtain ⟨j, d⟩ := e
    simp only [List.cons_append, get, hasKey, List.any_cons]
    by_cases h : j = k
    · simp [h]
    · simp only [h, if_false, decide_false, Bool.false_or]
      exact ih

theorem get_absent (k : Text) (l : List (Text × D)) (h : hasKey k l = false) :
    get k l = .null := by
  induction l with
  | nil => rfl
  | cons e r ih =>
    obtain ⟨j, d⟩ := e
    simp only [hasKey, List.any_cons, Bool.or_eq_false_iff, decide_eq_false_iff_not] at h
    rw [get, if_neg h.1]
    exact ih h.2

theorem get_append_other (k : Text) (a b : List (Text × D)) (h : hasKey k a = false) :
    get k (a ++ b) = get k b := by
  rw [get_append, h]; rfl

theorem get_append_null (k : Text) (a b : List (Text × D)) (h : get k b = .null) :
    get k (a ++ b) = get k a := by
  rw [get_append]
  cases hk : hasKey k a with
  | true => rfl
  | false => rw [get_absent k a hk]; simpa using h

theorem get_field (key : String) (d : D) :
    get key.toList (writeField key d) = if truthy d then d else .null := by
  unfold writeField
  split
  · simp [get]
  · rfl

theorem hasKey_field (k : Text) (key : String) (d : D) (h : key.toList ≠ k) :
    hasKey k (writeField key d) = false := by
  unfold writeField
  split
  · simp only [hasKey, List.any_cons, List.any_nil, Bool.or_false, decide_eq_false_iff_not]
    exact h
  · rfl

/-- What is written for a config, as a value. -/
def configValueOf : Option (List (Text × Val)) → D
  | none => .null
  | some [] => .null
  | some c => .dict (c.map writeEntry)

theorem get_config (c : Option (List (Text × Val))) :
    get "config".toList (writeConfig c) = configValueOf c := by
  match c with
  | none => rfl
  | some [] => rfl
  | some (_ :: _) => exact if_pos rfl

theorem hasKey_config (k : Text) (c : Option (List (Text × Val))) (h : "config".toList ≠ k) :
    hasKey k (writeConfig c) = false := by
  match c with
  | none => rfl
  | some [] => rfl
  | some (e :: r) =>
    simp only [writeConfig, hasKey, List.any_cons, List.any_nil, Bool.or_false,
      decide_eq_false_iff_not]
    exact h

/-- The entries that are written. -/
def written (s : StackSettings) : List (Text × D) :=
  writeField "secretsprovider" s.secretsProvider
    ++ writeField "encryptedkey" s.encryptedKey
    ++ writeField "encryptionsalt" s.encryptionSalt
    ++ writeConfig s.config

theorem serialize_eq (s : StackSettings) : serialize s = .dict (written s) := rfl

theorem get_provider (s : StackSettings) : get "secretsprovider".toList (written s)
    = if truthy s.secretsProvider then s.secretsProvider else .null := by
  unfold written
  rw [List.append_assoc, List.append_assoc, get_append_null, get_field]
  rw [get_append_other _ _ _ (hasKey_field _ _ _ (by decide)),
    get_append_other _ _ _ (hasKey_field _ _ _ (by decide)),
    get_absent _ _ (hasKey_config _ _ (by decide))]

theorem get_key (s : StackSettings) : get "encryptedkey".toList (written s)
    = if truthy s.encryptedKey then s.encryptedKey else .null := by
  unfold written
  rw [List.append_assoc, List.append_assoc,
    get_append_other _ _ _ (hasKey_field _ _ _ (by decide)), get_append_null, get_field]
  rw [get_append_other _ _ _ (hasKey_field _ _ _ (by decide)),
    get_absent _ _ (hasKey_config _ _ (by decide))]

theorem get_salt (s : StackSettings) : get "encryptionsalt".toList (written s)
    = if truthy s.encryptionSalt then s.encryptionSalt else .null := by
  unfold written
  rw [List.append_assoc, List.append_assoc,
    get_append_other _ _ _ (hasKey_field _ _ _ (by decide)),
    get_append_other _ _ _ (hasKey_field _ _ _ (by decide)), get_append_null, get_field]
  rw [get_absent _ _ (hasKey_config _ _ (by decide))]

theorem get_written_config (s : StackSettings) : get "config".toList (written s)
    = configValueOf s.config := by
  unfold written
  rw [List.append_assoc, List.append_assoc,
    get_append_other _ _ _ (hasKey_field _ _ _ (by decide)),
    get_append_other _ _ _ (hasKey_field _ _ _ (by decide)),
    get_append_other _ _ _ (hasKey_field _ _ _ (by decide)), get_config]

theorem get_written_other (s : StackSettings) (k : Text) (h : k ∉ stackKeys) :
    get k (written s) = .null := by
  have hk : ∀ t : String, t.toList ∈ stackKeys → t.toList ≠ k := fun t ht e => h (e ▸ ht)
  unfold written
  rw [List.append_assoc, List.append_assoc,
    get_append_other _ _ _ (hasKey_field _ _ _ (hk _ (by decide))),
    get_append_other _ _ _ (hasKey_field _ _ _ (hk _ (by decide))),
    get_append_other _ _ _ (hasKey_field _ _ _ (hk _ (by decide))),
    get_absent _ _ (hasKey_config _ _ (hk _ (by decide)))]

/-- Reading back what was written. -/
theorem deserialize_serialize (s : StackSettings) :
    deserialize (serialize s) = (readConfig (configValueOf s.config)).map fun c =>
      { secretsProvider := if truthy s.secretsProvider then s.secretsProvider else .null
        encryptedKey := if truthy s.encryptedKey then s.encryptedKey else .null
        encryptionSalt := if truthy s.encryptionSalt then s.encryptionSalt else .null
        config := c } := by
  rw [serialize_eq]
  simp only [deserialize, get_provider, get_key, get_salt, get_written_config]

theorem readEntries_texts (c : List (Text × Val)) (h : ∀ e ∈ c, TextVal e.2) :
    readEntries (c.map writeEntry) = .ok c := by
  induction c with
  | nil => rfl
  | cons e r ih =>
    obtain ⟨k, v⟩ := e
    have hv := h (k, v) (by simp)
    have hr := ih (fun e he => h e (by simp [he]))
    cases hv with
    | plain t => simp only [List.map_cons, writeEntry, readEntries, readEntry, hr]
    | secure t =>
      have : readEntry (.dict [("secure".toList, .str t)]) = .ok (some (.secure (.str t))) := by
        simp [readEntry, hasKey]
      simp only [List.map_cons, writeEntry, readEntries, this, hr]

theorem sameField_text (d : D) (h : TextOrNone d) :
    SameField d (if truthy d then d else .null) := by
  cases h with
  | none => exact Or.inl rfl
  | text t =>
    cases t with
    | nil => exact Or.inr ⟨rfl, rfl⟩
    | cons c t => exact Or.inl rfl

theorem dump_plain (ext : Text) (d : D) (h : d.hasObj = false) : dump ext d = (.data d, none) := by
  unfold dump
  rw [if_neg (by simp [h])]

/-- What a stack's settings are read from after they were saved. -/
theorem load_saved (f : Files) (name : Text) (s : StackSettings) (h : (serialize s).hasObj = false) :
    (saveStackSettings f name s).2 = none
    ∧ firstFile (saveStackSettings f name s).1 (stackBase name) = some (.data (serialize s))
    ∧ loadStackSettings (saveStackSettings f name s).1 name = deserialize (serialize s) := by
  have h1 : firstFile (saveStackSettings f name s).1 (stackBase name)
      = some (.data (serialize s)) := by
    show firstFile (f.write _ _) _ = _
    rw [firstFile_written, dump_plain _ _ h]
  refine ⟨?_, h1, ?_⟩
  · show (dump _ (serialize s)).2 = none
    rw [dump_plain _ _ h]
  · unfold loadStackSettings
    rw [h1]
    simp [load, h, Except.bind]

/-- Reading entries fails when reading one does. -/
theorem readEntries_error (c : List (Text × D)) (k : Text) (d : D) (hm : (k, d) ∈ c)
    (e : Err) (he : readEntry d = .error e) : ∃ e', readEntries c = .error e' := by
  induction c with
  | nil => simp at hm
  | cons a r ih =>
    obtain ⟨j, x⟩ := a
    rcases List.mem_cons.1 hm with h | h
    · cases h
      exact ⟨e, by simp only [readEntries, he]⟩
    · obtain ⟨e', h'⟩ := ih h
      simp only [readEntries, h']
      cases readEntry x with
      | error e => exact ⟨e, rfl⟩
      | ok v => cases v <;> exact ⟨e', rfl⟩

/-- Writing back what was read keeps the entries that are `Kept`, in order. -/
theorem readEntry_kept (d : D) (v : Val) (h : readEntry d = .ok (some v)) (k : Text) :
    Kept d ∧ writeEntry (k, v) = (k, d) := by
  match d with
  | .str t =>
    simp only [readEntry, Except.ok.injEq, Option.some.injEq] at h
    subst h
    exact ⟨.text t, rfl⟩
  | .list l =>
    simp only [readEntry] at h
    split at h <;> simp at h
  | .dict l =>
    simp only [readEntry] at h
    split at h
    · match l with
      | [] => simp at h
      | [(j, x)] =>
        simp only [Except.ok.injEq, Option.some.injEq] at h
        subst h
        rename_i hk
        simp only [hasKey, List.any_cons, List.any_nil, Bool.or_false, decide_eq_true_eq] at hk
        subst hk
        exact ⟨.secure x, rfl⟩
      | _ :: _ :: _ => simp at h
    · simp at h
  | .null => simp [readEntry] at h
  | .bool _ => simp [readEntry] at h
  | .int _ => simp [readEntry] at h
  | .obj _ => simp [readEntry] at h

theorem kept_read (d : D) (h : Kept d) : ∃ v, readEntry d = .ok (some v) := by
  cases h with
  | text t => exact ⟨_, rfl⟩
  | secure d =>
    refine ⟨.secure d, ?_⟩
    simp [readEntry, hasKey]

theorem readEntries_written (c : List (Text × D)) (vs : List (Text × Val))
    (h : readEntries c = .ok vs) (k : Text) (d : D) :
    (k, d) ∈ vs.map writeEntry ↔ (k, d) ∈ c ∧ Kept d := by
  induction c generalizing vs with
  | nil =>
    simp only [readEntries, Except.ok.injEq] at h
    subst h
    simp
  | cons a r ih =>
    obtain ⟨j, x⟩ := a
    simp only [readEntries] at h
    split at h
    · simp at h
    · simp at h
    · rename_i ws hx hr
      simp only [Except.ok.injEq] at h
      subst h
      rw [ih _ hr]
      constructor
      · rintro ⟨h1, h2⟩
        exact ⟨by simp [h1], h2⟩
      · rintro ⟨h1, h2⟩
        rcases List.mem_cons.1 h1 with h1 | h1
        · cases h1
          obtain ⟨v, hv⟩ := kept_read d h2
          rw [hx] at hv
          simp at hv
        · exact ⟨h1, h2⟩
    · rename_i v ws hx hr
      simp only [Except.ok.injEq] at h
      subst h
      obtain ⟨hk, hw⟩ := readEntry_kept x v hx j
      rw [List.map_cons, hw, List.mem_cons, ih _ hr, List.mem_cons]
      constructor
      · rintro (h | ⟨h1, h2⟩)
        · cases h; exact ⟨Or.inl rfl, hk⟩
        · exact ⟨Or.inr h1, h2⟩
      · rintro ⟨h | h, h2⟩
        · exact Or.inl h
        · exact Or.inr ⟨h, h2⟩

theorem readEntries_kept (c : List (Text × D)) (h : ∀ e ∈ c, Kept e.2) :
    ∃ vs, readEntries c = .ok vs ∧ vs.map writeEntry = c := by
  induction c with
  | nil => exact ⟨[], rfl, rfl⟩
  | cons a r ih =>
    obtain ⟨j, x⟩ := a
    obtain ⟨vs, h1, h2⟩ := ih (fun e he => h e (by simp [he]))
    obtain ⟨v, hv⟩ := kept_read x (h (j, x) (by simp))
    refine ⟨(j, v) :: vs, by simp only [readEntries, hv, h1], ?_⟩
    rw [List.map_cons, (readEntry_kept x v hv j).2, h2]

theorem hasObj_get (k : Text) (l : List (Text × D)) (h : hasObjEntries l = false) :
    (get k l).hasObj = false := by
  induction l with
  | nil => rfl
  | cons e r ih =>
    obtain ⟨j, d⟩ := e
    simp only [hasObjEntries, Bool.or_eq_false_iff] at h
    unfold get
    split
    · exact h.1
    · exact ih h.2

theorem hasObj_of_mem (l : List (Text × D)) (k : Text) (d : D) (hm : (k, d) ∈ l)
    (h : hasObjEntries l = false) : d.hasObj = false := by
  induction l with
  | nil => simp at hm
  | cons e r ih =>
    obtain ⟨j, x⟩ := e
    simp only [hasObjEntries, Bool.or_eq_false_iff] at h
    rcases List.mem_cons.1 hm with hm | hm
    · cases hm; exact h.1
    · exact ih hm h.2

theorem hasObj_of_forall (l : List (Text × D)) (h : ∀ k d, (k, d) ∈ l → d.hasObj = false) :
    hasObjEntries l = false := by
  induction l with
  | nil => rfl
  | cons e r ih =>
    obtain ⟨j, x⟩ := e
    simp only [hasObjEntries, Bool.or_eq_false_iff]
    exact ⟨h j x (by simp), ih (fun k d hm => h k d (by simp [hm]))⟩

theorem hasObj_writeField (key : String) (d : D) (h : d.hasObj = false) :
    hasObjEntries (writeField key d) = false := by
  unfold writeField
  split
  · simp [hasObjEntries, h]
  · rfl

/-- Saving what was read from a file without objects writes none. -/
theorem read_no_obj (l : List (Text × D)) (h : hasObjEntries l = false) (s : StackSettings)
    (hs : deserialize (.dict l) = .ok s) : (serialize s).hasObj = false := by
  simp only [deserialize] at hs
  cases hc : readConfig (get "config".toList l) with
  | error e => rw [hc] at hs; simp [Except.map] at hs
  | ok c =>
    rw [hc] at hs
    simp only [Except.map, Except.ok.injEq] at hs
    subst hs
    have hcfg : hasObjEntries (writeConfig c) = false := by
      match hg : get "config".toList l with
      | .null =>
        rw [hg] at hc
        simp only [readConfig, Except.ok.injEq] at hc
        subst hc; rfl
      | .dict cs =>
        rw [hg] at hc
        simp only [readConfig] at hc
        cases hr : readEntries cs with
        | error e => rw [hr] at hc; simp [Except.map] at hc
        | ok vs =>
          rw [hr] at hc
          simp only [Except.map, Except.ok.injEq] at hc
          subst hc
          have hcs : hasObjEntries cs = false := by
            have := hasObj_get "config".toList l h
            rw [hg] at this
            simpa [D.hasObj] using this
          match vs, hr with
          | [], _ => rfl
          | v :: vs, hr =>
            simp only [writeConfig, hasObjEntries, D.hasObj, Bool.or_false]
            apply hasObj_of_forall
            intro k d hm
            exact hasObj_of_mem cs k d ((readEntries_written cs _ hr k d).1 hm).1 hcs
      | .bool _ => rw [hg] at hc; simp [readConfig] at hc
      | .int _ => rw [hg] at hc; simp [readConfig] at hc
      | .str _ => rw [hg] at hc; simp [readConfig] at hc
      | .list _ => rw [hg] at hc; simp [readConfig] at hc
      | .obj _ => rw [hg] at hc; simp [readConfig] at hc
    simp only [serialize, D.hasObj, hasObjEntries_append, hcfg,
      hasObj_writeField _ _ (hasObj_get _ l h), Bool.or_false]

/-! ## Project settings -/

theorem get_filtered (ks : List Text) (g : Text → D) (hn : ks.Nodup) (k : Text) (hk : k ∈ ks) :
    get k ((ks.map fun x => (x, g x)).filter fun e => notNone e.2) = g k := by
  have other : ∀ l : List Text, k ∉ l →
      get k ((l.map fun x => (x, g x)).filter fun e => notNone e.2) = .null := by
    intro l hl
    apply get_absent
    simp only [hasKey, List.any_eq_false, List.mem_filter, List.mem_map, decide_eq_true_eq]
    rintro e ⟨⟨x, hx, rfl⟩, -⟩ rfl
    exact hl hx
  induction ks with
  | nil => simp at hk
  | cons x r ih =>
    simp only [List.nodup_cons] at hn
    by_cases hx : x = k
    · subst hx
      simp only [List.map_cons]
      cases hg : notNone (g x) with
      | true =>
        rw [List.filter_cons_of_pos (by simpa using hg), get, if_pos rfl]
      | false =>
        rw [List.filter_cons_of_neg (by simp [hg]), other r hn.1]
        cases hgx : g x with
        | null => rfl
        | _ => rw [hgx] at hg; simp [notNone] at hg
    · have hr : k ∈ r := by
        rcases List.mem_cons.1 hk with h | h
        · exact absurd h.symm hx
        · exact h
      simp only [List.map_cons]
      cases hg : notNone (g x) with
      | true =>
        rw [List.filter_cons_of_pos (by simpa using hg), get, if_neg hx]
        exact ih hn.2 hr
      | false =>
        rw [List.filter_cons_of_neg (by simp [hg])]
        exact ih hn.2 hr

theorem hasKey_of_get (k : Text) (l : List (Text × D)) (h : get k l ≠ .null) :
    hasKey k l = true := by
  cases hk : hasKey k l with
  | true => rfl
  | false => exact absurd (get_absent k l hk) h

theorem hasObj_filter (l : List (Text × D)) :
    hasObjEntries (l.filter fun e => notNone e.2) = hasObjEntries l := by
  induction l with
  | nil => rfl
  | cons e r ih =>
    obtain ⟨k, d⟩ := e
    cases hd : notNone d with
    | true =>
      rw [List.filter_cons_of_pos (by simpa using hd)]
      simp only [hasObjEntries, ih]
    | false =>
      rw [List.filter_cons_of_neg (by simp [hd])]
      have : d = .null := by
        cases d <;> simp [notNone] at hd <;> rfl
      simp only [this, hasObjEntries, D.hasObj, Bool.false_or, ih]

theorem projectKeys_nodup : projectKeys.Nodup := by decide

theorem construct_ok (kw : List (Text × D)) (p : ProjectSettings) (h : construct kw = .ok p) :
    badRuntime (get "runtime".toList kw) = false
    ∧ p.fields = projectKeys.map fun k => (k, get k kw) := by
  unfold construct at h
  split at h
  · simp at h
  · split at h
    · simp at h
    · split at h
      · simp at h
      · rename_i hb
        simp only [Except.ok.injEq] at h
        subst h
        exact ⟨by simpa using hb, rfl⟩

/-- A project that can be made with these arguments. -/
theorem construct_filtered (g : Text → D) (hn : g "name".toList ≠ .null)
    (hr : g "runtime".toList ≠ .null) (hb : badRuntime (g "runtime".toList) = false) :
    construct ((projectKeys.map fun k => (k, g k)).filter fun e => notNone e.2)
      = .ok ⟨projectKeys.map fun k => (k, g k)⟩ := by
  have hg := get_filtered projectKeys g projectKeys_nodup
  have h1 : "name".toList ∈ projectKeys := by decide
  have h2 : "runtime".toList ∈ projectKeys := by decide
  unfold construct
  rw [if_neg, if_neg, if_neg]
  · congr 1
    have : (projectKeys.map fun k => (k, get k ((projectKeys.map fun k => (k, g k)).filter
        fun e => notNone e.2))) = projectKeys.map fun k => (k, g k) :=
      List.map_congr_left (fun k hk => by rw [hg k hk])
    rw [this]
  · rw [hg _ h2, hb]; simp
  · rw [hasKey_of_get _ _ (by rw [hg _ h1]; exact hn),
      hasKey_of_get _ _ (by rw [hg _ h2]; exact hr)]
    decide
  · simp only [List.any_eq_true, List.mem_filter, List.mem_map, not_exists, not_and]
    rintro e ⟨⟨x, hx, rfl⟩, -⟩
    simpa using hx

/-- What the project's settings are read from after they were saved. -/
theorem load_saved_project (f : Files) (g : Text → D) (hn : g "name".toList ≠ .null)
    (hr : g "runtime".toList ≠ .null) (hb : badRuntime (g "runtime".toList) = false)
    (ho : hasObjEntries (projectKeys.map fun k => (k, g k)) = false) :
    (saveProjectSettings f ⟨projectKeys.map fun k => (k, g k)⟩).2 = none
    ∧ loadProjectSettings (saveProjectSettings f ⟨projectKeys.map fun k => (k, g k)⟩).1
      = .ok ⟨projectKeys.map fun k => (k, g k)⟩ := by
  have hd : ∀ ext, dump ext (.dict ((projectKeys.map fun k => (k, g k)).filter
      fun e => notNone e.2)) = (.data (.dict ((projectKeys.map fun k => (k, g k)).filter
      fun e => notNone e.2)), none) := by
    intro ext
    apply dump_plain
    simp only [D.hasObj, hasObj_filter, ho]
  constructor
  · show (dump _ _).2 = none
    rw [hd]
  · unfold loadProjectSettings
    have h1 : firstFile (saveProjectSettings f ⟨projectKeys.map fun k => (k, g k)⟩).1 projectBase
        = some (.data (.dict ((projectKeys.map fun k => (k, g k)).filter
          fun e => notNone e.2))) := by
      show firstFile (f.write _ _) _ = _
      rw [firstFile_written, hd]
    rw [h1]
    simp only [load, D.hasObj, hasObj_filter, ho, Bool.false_eq_true, if_false, Except.bind,
      constructFrom]
    exact construct_filtered g hn hr hb

theorem get_project (g : Text → D) (key : String) (hk : key.toList ∈ projectKeys) :
    ProjectSettings.get ⟨projectKeys.map fun k => (k, g k)⟩ key = g key.toList := by
  unfold ProjectSettings.get
  have : ∀ l : List Text, key.toList ∈ l → get key.toList (l.map fun k => (k, g k))
      = g key.toList := by
    intro l hl
    induction l with
    | nil => simp at hl
    | cons x r ih =>
      rw [List.map_cons, get]
      by_cases hx : x = key.toList
      · rw [if_pos hx, hx]
      · rw [if_neg hx]
        rcases List.mem_cons.1 hl with h | h
        · exact absurd h.symm hx
        · exact ih h
  exact this _ hk

/-! ## Workspaces -/

theorem load_project_congr (f g : Files) (h : firstFile f projectBase = firstFile g projectBase) :
    loadProjectSettings f = loadProjectSettings g := by
  unfold loadProjectSettings
  rw [h]

theorem save_stack_project (f : Files) (n : Text) (s : StackSettings) :
    loadProjectSettings (saveStackSettings f n s).1 = loadProjectSettings f :=
  load_project_congr _ _
    (firstFile_write _ _ _ _ _ (ext_mem _ _) (Ne.symm (project_ne_stack n)))

theorem save_stacks_project (f : Files) (l : List (Text × StackSettings)) :
    loadProjectSettings (saveStacks f l).1 = loadProjectSettings f := by
  induction l generalizing f with
  | nil => rfl
  | cons e r ih =>
    obtain ⟨n, s⟩ := e
    have hs := save_stack_project f n s
    unfold saveStacks
    match h : saveStackSettings f n s with
    | (f', none) =>
      simp only
      rw [h] at hs
      rw [ih, hs]
    | (f', some e) =>
      simp only
      rw [h] at hs
      exact hs

/-- What making a workspace does to the disk and the project. -/
theorem makeWorkspace_ok (disk : Disk) (fresh : Nat) (o : Options) (w : Workspace)
    (h : (makeWorkspace disk fresh o).2 = .ok w) :
    w.dir = o.workDir.getD fresh ∧ w.program = o.program
    ∧ (∀ d, d ≠ w.dir → (makeWorkspace disk fresh o).1 d = disk d)
    ∧ (o.project = none →
        loadProjectSettings ((makeWorkspace disk fresh o).1 w.dir)
          = loadProjectSettings (disk w.dir))
    ∧ (∀ p, o.project = some p →
        loadProjectSettings ((makeWorkspace disk fresh o).1 w.dir)
          = loadProjectSettings (saveProjectSettings (disk w.dir) p).1) := by
  unfold makeWorkspace at h ⊢
  cases hp : o.project with
  | none =>
    simp only [hp] at h ⊢
    have hs := save_stacks_project (disk (o.workDir.getD fresh)) o.stacks
    match hss : saveStacks (disk (o.workDir.getD fresh)) o.stacks with
    | (f', some e) => rw [hss] at h; simp at h
    | (f', none) =>
      rw [hss] at h hs
      simp only [Except.ok.injEq] at h
      subst h
      refine ⟨rfl, rfl, ?_, ?_, ?_⟩
      · intro d hd
        exact if_neg hd
      · intro _
        show loadProjectSettings (Disk.set _ _ _ _) = _
        unfold Disk.set
        rw [if_pos rfl]
        exact hs
      · intro p hp'
        cases hp'
  | some p =>
    simp only [hp] at h ⊢
    match hsp : saveProjectSettings (disk (o.workDir.getD fresh)) p with
    | (f, some e) => rw [hsp] at h; simp at h
    | (f, none) =>
      rw [hsp] at h
      simp only at h ⊢
      have hs := save_stacks_project f o.stacks
      match hss : saveStacks f o.stacks with
      | (f', some e) => rw [hss] at h; simp at h
      | (f', none) =>
        rw [hss] at h hs
        simp only [Except.ok.injEq] at h
        subst h
        refine ⟨rfl, rfl, ?_, ?_, ?_⟩
        · intro d hd
          exact if_neg hd
        · intro hp'
          cases hp'
        · intro q hq
          cases hq
          show loadProjectSettings (Disk.set _ _ _ _) = _
          unfold Disk.set
          rw [if_pos rfl]
          show loadProjectSettings f' = loadProjectSettings (saveProjectSettings (disk (o.workDir.getD fresh)) p).1
          rw [hsp]
          exact hs

/-- The arguments of `default_project`. -/
def defaultArgs (cwd project : Text) : List (Text × D) :=
  [("name".toList, .str project), ("runtime".toList, .str "python".toList),
    ("main".toList, .str cwd)]

theorem default_name (cwd project : Text) : get "name".toList (defaultArgs cwd project)
    = .str project := rfl

theorem default_runtime (cwd project : Text) : get "runtime".toList (defaultArgs cwd project)
    = .str "python".toList := rfl

theorem default_main (cwd project : Text) : get "main".toList (defaultArgs cwd project)
    = .str cwd := rfl

theorem default_saved (f : Files) (cwd project : Text) :
    loadProjectSettings (saveProjectSettings f (defaultProject cwd project)).1
      = .ok (defaultProject cwd project) := by
  have h := load_saved_project f (fun k => get k (defaultArgs cwd project))
    (by rw [default_name]; simp) (by rw [default_runtime]; simp)
    (by rw [default_runtime]; decide)
    (by
      apply hasObj_of_forall
      intro k d hm
      obtain ⟨x, -, hx⟩ := List.mem_map.1 hm
      rw [← (Prod.mk.inj hx).2]
      exact hasObj_get _ _ rfl)
  exact h.2

theorem default_get (cwd project : Text) (key : String) (hk : key.toList ∈ projectKeys) :
    (defaultProject cwd project).get key = get key.toList (defaultArgs cwd project) :=
  get_project (fun k => get k (defaultArgs cwd project)) key hk

end Pulumi.Local
