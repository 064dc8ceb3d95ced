import Verif.Local.Theorems

/-!
# Which settings files can be read (C91, C94)
-/

namespace Pulumi.Local

open Pulumi.Cli (Text Arg lit)

/-- An entry of the config of a stack that can be read: a text, a map without `secure` or with nothing else, a list that does
not have the text "secure". -/
inductive ReadableEntry : D → Prop
  | text (t : Text) : ReadableEntry (.str t)
  | secure (d : D) : ReadableEntry (.dict [("secure".toList, d)])
  | map (l : List (Text × D)) : (∀ e ∈ l, e.1 ≠ "secure".toList) → ReadableEntry (.dict l)
  | list (l : List D) : D.str "secure".toList ∉ l → ReadableEntry (.list l)

/-- The data of a file from which the settings of a stack can be read. -/
def ReadableStack (d : D) : Prop :=
  ∃ l, d = .dict l ∧ (get "config".toList l = .null ∨
    ∃ c, get "config".toList l = .dict c ∧ ∀ e ∈ c, ReadableEntry e.2)

theorem isSecureText_iff (d : D) : isSecureText d = true ↔ d = .str "secure".toList := by
  cases d <;> simp [isSecureText]

theorem readEntry_ok_iff (d : D) : (∃ v, readEntry d = .ok v) ↔ ReadableEntry d := by
  cases d with
  | str t => exact ⟨fun _ => .text t, fun _ => ⟨_, rfl⟩⟩
  | null => exact ⟨fun ⟨_, h⟩ => by simp [readEntry] at h, fun h => by cases h⟩
  | bool b => exact ⟨fun ⟨_, h⟩ => by simp [readEntry] at h, fun h => by cases h⟩
  | int b => exact ⟨fun ⟨_, h⟩ => by simp [readEntry] at h, fun h => by cases h⟩
  | obj b => exact ⟨fun ⟨_, h⟩ => by simp [readEntry] at h, fun h => by cases h⟩
  | list l =>
    by_cases hs : l.any isSecureText = true
    · simp only [readEntry, if_pos hs]
      constructor
      · rintro ⟨v, h⟩; cases h
      · intro h
        cases h with
        | list _ h =>
          obtain ⟨x, hx, hx'⟩ := List.any_eq_true.1 hs
          rw [(isSecureText_iff x).1 hx'] at hx
          exact absurd hx h
    · simp only [readEntry, if_neg hs]
      refine ⟨fun _ => .list l fun h => hs (List.any_eq_true.2 ⟨_, h, (isSecureText_iff _).2 rfl⟩), fun _ => ⟨_, rfl⟩⟩
  | dict l =>
    by_cases hs : hasKey "secure".toList l = true
    · simp only [readEntry, if_pos hs]
      match l, hs with
      | [], hs => simp [hasKey] at hs
      | [(k, d)], hs =>
        have : k = "secure".toList := by simpa [hasKey] using hs
        subst this
        exact ⟨fun _ => .secure d, fun _ => ⟨_, rfl⟩⟩
      | a :: b :: r, hs =>
        constructor
        · rintro ⟨v, h⟩; simp at h
        · intro h
          cases h with
          | map _ h =>
            obtain ⟨x, hx, hx'⟩ := List.any_eq_true.1 (show List.any _ _ = true from hs)
            exact absurd (by simpa using hx') (h x hx)
    · simp only [readEntry, if_neg hs]
      refine ⟨fun _ => .map l fun e he hh => hs (List.any_eq_true.2 ⟨e, he, by simpa using hh⟩), fun _ => ⟨_, rfl⟩⟩

theorem readEntries_ok_iff (c : List (Text × D)) :
    (∃ vs, readEntries c = .ok vs) ↔ ∀ e ∈ c, ReadableEntry e.2 := by
  induction c with
  | nil => exact ⟨fun _ e he => by simp at he, fun _ => ⟨_, rfl⟩⟩
  | cons e c ih =>
    obtain ⟨k, d⟩ := e
    have hd := readEntry_ok_iff d
    simp only [List.forall_mem_cons]
    rw [← ih, ← hd, readEntries]
    cases readEntry d with
    | error e => simp
    | ok v =>
      cases readEntries c with
      | error e => simp
      | ok vs => cases v <;> simp

/-- C91: exactly these files can be read as the settings of a stack; all others raise. -/
theorem stack_settings_readable_iff (d : D) : (∃ s, deserialize d = .ok s) ↔ ReadableStack d := by
  cases d with
  | dict l =>
    simp only [deserialize, ReadableStack]
    constructor
    · rintro ⟨s, h⟩
      refine ⟨l, rfl, ?_⟩
      cases hc : get "config".toList l with
      | null => exact .inl rfl
      | dict c =>
        refine .inr ⟨c, rfl, (readEntries_ok_iff c).1 ?_⟩
        rw [hc] at h
        simp only [readConfig] at h
        cases hr : readEntries c with
        | ok vs => exact ⟨vs, rfl⟩
        | error e => rw [hr] at h; cases h
      | _ => rw [hc] at h; cases h
    · rintro ⟨_, hl, h | ⟨c, hc, h⟩⟩ <;> cases hl
      · rw [h]; exact ⟨_, rfl⟩
      · obtain ⟨vs, hvs⟩ := (readEntries_ok_iff c).2 h
        rw [hc]
        simp only [readConfig, hvs]
        exact ⟨_, rfl⟩
  | _ => exact ⟨fun ⟨_, h⟩ => by simp [deserialize] at h, fun ⟨_, h, _⟩ => by cases h⟩

example : ReadableStack (.dict sampleFile) :=
  ⟨_, rfl, .inr ⟨_, rfl, by
    intro e he
    simp only [List.mem_cons, List.not_mem_nil, or_false] at he
    rcases he with rfl | rfl
    · exact .text _
    · exact .secure _⟩⟩

/-- and a list with the text "secure" in it makes the file unreadable -/
example (k : Text) : ¬ ReadableStack (.dict [("config".toList, .dict [(k, .list [.int 1, .str "secure".toList])])]) := by
  rintro ⟨_, h, h' | ⟨c, hc, hr⟩⟩
  · cases h; simp [get] at h'
  · cases h
    simp only [get, if_true, D.dict.injEq] at hc
    subst hc
    cases hr _ (List.mem_singleton.2 rfl) with
    | list _ h => exact h (by simp)

/-- C94: what `ProjectSettings` takes: these settings and no others, of which the name and the runtime have to be given, and of
the runtimes given as texts the four of the SDK. What was given is kept, and what was not is `None`. -/
theorem project_settings_accepted_iff (kw : List (Text × D)) :
    (∃ p, construct kw = .ok p) ↔
      (∀ e ∈ kw, e.1 ∈ ["name", "runtime", "main", "description", "author", "website", "license", "config", "template",
        "backend"].map String.toList)
      ∧ (∃ e ∈ kw, e.1 = "name".toList) ∧ (∃ e ∈ kw, e.1 = "runtime".toList)
      ∧ ∀ t, get "runtime".toList kw = .str t → t ∈ ["nodejs", "python", "go", "dotnet"].map String.toList := by
  unfold construct
  by_cases h1 : (kw.any fun e => !(projectKeys.contains e.1)) = true
  · rw [if_pos h1]
    constructor
    · rintro ⟨p, h⟩; cases h
    · rintro ⟨h, _⟩
      obtain ⟨e, he, hc⟩ := List.any_eq_true.1 h1
      have := h e he
      simp only [Bool.not_eq_true', ← Bool.not_eq_true, List.contains_iff_mem] at hc
      exact absurd this hc
  rw [if_neg h1]
  have hkeys : ∀ e ∈ kw, e.1 ∈ projectKeys := by
    intro e he
    cases hc : projectKeys.contains e.1 with
    | true => simpa using hc
    | false => exact absurd (List.any_eq_true.2 ⟨e, he, by simp only [hc, Bool.not_false]⟩) h1
  have hhas : ∀ k : Text, hasKey k kw = true ↔ ∃ e ∈ kw, e.1 = k := by
    intro k; simp [hasKey, List.any_eq_true]
  by_cases h2 : (!hasKey "name".toList kw || !hasKey "runtime".toList kw) = true
  · rw [if_pos h2]
    constructor
    · rintro ⟨p, h⟩; cases h
    · rintro ⟨_, hn, hr, _⟩
      rw [(hhas _).2 hn, (hhas _).2 hr] at h2
      cases h2
  rw [if_neg h2]
  simp only [Bool.or_eq_true, Bool.not_eq_true', not_or, Bool.not_eq_false] at h2
  by_cases h3 : badRuntime (get "runtime".toList kw) = true
  · rw [if_pos h3]
    constructor
    · rintro ⟨p, h⟩; cases h
    · rintro ⟨_, _, _, h⟩
      cases hg : get "runtime".toList kw with
      | str t =>
        rw [hg] at h3
        simp only [badRuntime, Bool.not_eq_true', ← Bool.not_eq_true, List.contains_iff_mem] at h3
        exact absurd (h t hg) h3
      | _ => rw [hg] at h3; cases h3
  · rw [if_neg h3]
    refine ⟨fun _ => ⟨hkeys, (hhas _).1 h2.1, (hhas _).1 h2.2, ?_⟩, fun _ => ⟨_, rfl⟩⟩
    intro t ht
    rw [ht] at h3
    simp only [badRuntime, Bool.not_eq_true', Bool.not_eq_false, List.contains_iff_mem] at h3
    exact h3

/-- C94: every setting is what was given. -/
theorem project_settings_kept (kw : List (Text × D)) (p : ProjectSettings) (h : construct kw = .ok p) (k : String)
    (hk : k ∈ ["name", "runtime", "main", "description", "author", "website", "license", "config", "template", "backend"]) :
    p.get k = get k.toList kw := by
  obtain ⟨_, hf⟩ := construct_ok kw p h
  obtain ⟨fields⟩ := p
  simp only at hf
  subst hf
  exact get_project _ _ (List.mem_map.2 ⟨k, hk, rfl⟩)

example : ∃ p, construct sampleProject = .ok p ∧ p.get "backend" = .dict [("url".toList, .str "file://~".toList)] := ⟨_, rfl, rfl⟩

/-- C94: no nulls are written to the project file. -/
theorem project_file_without_nulls (f : Files) (p : ProjectSettings) (d : D)
    (h : firstFile (saveProjectSettings f p).1 projectBase = some (.data d)) :
    ∃ l, d = .dict l ∧ (∀ e ∈ l, e ∈ p.fields ∧ e.2 ≠ .null) ∧ ∀ e ∈ p.fields, e.2 ≠ .null → e ∈ l := by
  have h1 : firstFile (saveProjectSettings f p).1 projectBase
      = some (dump (foundExt f projectBase) (.dict (p.fields.filter fun e => notNone e.2))).1 :=
    firstFile_written _ _ _
  rw [h1] at h
  have hnn : ∀ x : D, notNone x = true ↔ x ≠ .null := by
    intro x; cases x <;> simp [notNone]
  refine ⟨p.fields.filter fun e => notNone e.2, ?_, ?_, ?_⟩
  · unfold dump at h
    split at h
    · cases h
    · cases h; rfl
  · intro e he
    rw [List.mem_filter] at he
    exact ⟨he.1, (hnn _).1 he.2⟩
  · intro e he hne
    exact List.mem_filter.2 ⟨he, (hnn _).2 hne⟩

end Pulumi.Local
